# Design

A Lean 4 model of chungg/traquer (technical-analysis indicators, Rust, no unsafe
code, no concurrency, no I/O) and proofs of the properties in `properties.jsonl`.

## Shape of the model

Every public function of traquer maps slices of numbers and a few parameters to an
iterator of `f64` (or tuples). The model (`lean/Verif/Model/*.lean`, one file per
Rust module) transcribes each function operation by operation:

* **Floating point is a parameter.** `class FloatOps F` lists the `f64` operations the
  code uses (`+ - * / neg abs sqrt ln exp ... < <= ==`, `as usize`, literals, NaN).
  The model is polymorphic in `F`. Whatever is proved for arbitrary `F` therefore holds
  for the real IEEE-754 `f64` *including rounding*, because no arithmetic law is used.
  Output length, warm-up, panics, no look-ahead, locality are proved at this level.
* **`FP ρ`** (`Verif/Arith`) is the arithmetic used for numeric statements:
  `nan | inf ± | -0 | fin r` (`r : ℝ`) with the IEEE rules for special values
  (`0/0 = NaN`, `NaN` comparisons false, `max`/`min` skip NaN, `signum (+0) = 1`, signed
  zeros, ...), where every finite result is passed through a rounding `ρ`.
  `ρ = exact` is infinitely precise IEEE; a `Rounding` only has to be monotone, odd,
  idempotent and exact on integers up to 2^53. `Arith/Binary64.lean` defines binary64's
  round to nearest, ties to even (53 bits, last exponent -1074, overflow beyond
  `f64::MAX`) on the reals and proves that it is such a ρ. `Arith/Float53.lean` is the
  same with unbounded exponents, for statements that hold while nothing over- or underflows.
  Theorems marked "any rounding" are proved for every such ρ (so also for f64); theorems
  about closed forms are for `ρ = exact`; C74 bounds the distance between the two for
  the averages and dispersion measures.
* **Panics are values.** A call returns `Option α`; `none` means the call, or draining
  its iterator, panics. `usize` subtraction is checked (debug/overflow-checks semantics),
  slicing and indexing are checked, `windows(0)` panics, `f64::clamp` asserts its bounds.
* **Iterators are the list obtained by draining them** (`collect()`); `scan`, `windows`,
  `zip`, `skip`, `chain(once/repeat)` are the list functions of `Verif/Rust.lean`.

## Trusted base

* Lean 4.33.0's kernel (the whole development is replayed by it) and Mathlib as a library
  of definitions (`ℝ`, `Real.sqrt`, `Real.log`, ...).
* Axioms: only `propext`, `Classical.choice`, `Quot.sound`. No `sorry`, no own axioms, no
  `native_decide`/`bv_decide`.
* The transcription of Rust into the model (comments cite file and lines). As a sanity
  check, outside of the proofs, the model is executed with Lean's `Float` on the
  repository's own test files and compared with the expected vectors in `/repo/tests`
  (`validate/`); this is a test of the transcription, not a part of any proof.
* The reading of `f64` as a `FloatOps`, and for theorems about `FP`, of its basic operations and square
  root as the correctly rounded real ones (IEEE 754 requires it; for `exp`, `ln`, `cos`, `atan`, `powf` the
  platform's libm need not be correctly rounded: theorems that involve those hold up to that).

## Simplifications (all of them)

1. `T: ToPrimitive` inputs are given as the list of their `to_f64()` values; for the
   primitive types `to_f64` never returns `None`. `rank`, `quantile`, `median` compare
   values of type `T` with `PartialOrd`: the model keeps `T` abstract there, and C107 treats integer types,
   where comparing before or after the conversion can differ (beyond `2^53`).
2. Laziness: a panic that the Rust iterator would raise only after yielding some items is
   reported for the whole drained call. For the functions that can panic on the values of a window
   C95 models the iterator item by item and says which item panics.
3. `usize` is `Nat`: additions and multiplications do not overflow (the exceptions, `u8`
   counters of the entropies, the Pascal row and the product of five factors in `hoeffd`, are treated explicitly).
   For the other products of a window C93 shows that this is exact below an explicit limit and that the call
   panics beyond it. What is left is `window + 1` at `usize::MAX` and sums of window arguments beyond `2^63`.
4. Debug semantics for `usize` underflow; release builds wrap instead. Every underflow makes the model return
   `none`, so where a theorem says the call returns, no subtraction underflowed and both builds agree. C109 models the
   wrapping build for the functions that do arithmetic on window sizes.
5. `sum::<f64>()` starts at `+0.0` (some std versions start at `-0.0`; C92 shows that this differs only for
   sums all of whose terms are `-0.0`, and then only in the sign of the zero).
6. `powi` is the repeated-squaring loop of compiler-rt; `exp`, `ln`, `cos`, `atan`, ... are
   arbitrary operations generically, and the rounded real functions in `FP ρ`.
7. `sort_unstable_by` is a parameter: any function returning a sorted permutation.
   Hash-map iteration order is a parameter as well.
8. Memory, running time, iterator size hints and `Clone` behaviour are not modelled.

Not modelled: `src/lib.rs` (re-exports), docs, tests, benches, the Cargo build.

## Plan per property

| id | title | how |
|---|---|---|
| C01 | One output per bar: moving averages | `Aligned n k (f ...)` = the call returns, without panic, a list of length n whose first k items are NaN. One theorem per function for an arbitrary `FloatOps`, by length lemmas for windows/scan/zip (`Props/Shape*.lean`). |
| C02 | One output per bar: momentum | `Aligned n k (f ...)` = the call returns, without panic, a list of length n whose first k items are NaN. One theorem per function for an arbitrary `FloatOps`, by length lemmas for windows/scan/zip (`Props/Shape*.lean`). |
| C03 | One output per bar: volatility | `Aligned n k (f ...)` = the call returns, without panic, a list of length n whose first k items are NaN. One theorem per function for an arbitrary `FloatOps`, by length lemmas for windows/scan/zip (`Props/Shape*.lean`). |
| C04 | One output per bar: trend | `Aligned n k (f ...)` = the call returns, without panic, a list of length n whose first k items are NaN. One theorem per function for an arbitrary `FloatOps`, by length lemmas for windows/scan/zip (`Props/Shape*.lean`). |
| C05 | One output per bar: volume | `Aligned n k (f ...)` = the call returns, without panic, a list of length n whose first k items are NaN. One theorem per function for an arbitrary `FloatOps`, by length lemmas for windows/scan/zip (`Props/Shape*.lean`). |
| C06 | One output per bar: statistics and correlation | `Aligned n k (f ...)` = the call returns, without panic, a list of length n whose first k items are NaN. One theorem per function for an arbitrary `FloatOps`, by length lemmas for windows/scan/zip (`Props/Shape*.lean`). |
| C07 | Warm-up is NaN | `Aligned n k (f ...)` = the call returns, without panic, a list of length n whose first k items are NaN. One theorem per function for an arbitrary `FloatOps`, by length lemmas for windows/scan/zip (`Props/Shape*.lean`). |
| C08 | No look-ahead: moving averages | `NoLookahead f` for arbitrary `FloatOps` (`Props/Causal*.lean`): every combinator is monotone for the prefix order. |
| C09 | No look-ahead: momentum | `NoLookahead f` for arbitrary `FloatOps` (`Props/Causal*.lean`): every combinator is monotone for the prefix order. |
| C10 | No look-ahead: volatility | `NoLookahead f` for arbitrary `FloatOps` (`Props/Causal*.lean`): every combinator is monotone for the prefix order. |
| C11 | No look-ahead: trend | `NoLookahead f` for arbitrary `FloatOps` (`Props/Causal*.lean`): every combinator is monotone for the prefix order. |
| C12 | No look-ahead: volume | `NoLookahead f` for arbitrary `FloatOps` (`Props/Causal*.lean`): every combinator is monotone for the prefix order. |
| C13 | No look-ahead: statistics and correlation | `NoLookahead f` for arbitrary `FloatOps` (`Props/Causal*.lean`): every combinator is monotone for the prefix order. |
| C14 | Where look-ahead does exist | Concrete witnesses evaluated in exact arithmetic; the negation of the C11/C13 statement. |
| C15 | Exact panic domain | `AnswersIff c n (f …)`: `n` values if `c`, a panic otherwise. `answers` follows the length of every list and the condition of every check, for an arbitrary `FloatOps`; `FP ρ` where NaN decides (ranks), exact arithmetic where a rounded number is an index (hull, hurst) or counts matches (entropies). |
| C16 | sma is the window mean | Exact arithmetic: out[i] = window mean (spec `Spec.mean`), bounds by list induction. |
| C17 | ewma is a convex combination | Exact arithmetic: recursion equation and convexity invariant by induction along the scan. |
| C18 | Wilder smoothing seed and range | Exact arithmetic closed form; range theorem for every `Rounding`. |
| C19 | wma weights | Exact arithmetic; weights sum lemma by induction. |
| C20 | pwma uses Pascal's triangle | Induction on the loop computing the row: entries = `Nat.choose`, denominator = 2^(w-1). |
| C21 | fwma uses Fibonacci numbers | Induction: the scan yields `Nat.fib`. |
| C22 | trima is a triangular average | Composition of C16, warm-up counted through the NaN prefix. |
| C23 | lrf is the least squares forecast | Normal equations over ℝ; optimality against every line. |
| C24 | Composite averages preserve constants | Exact arithmetic; scans with a constant state. |
| C25 | Adaptive averages stay inside the range | Invariant along the scan; gain in [0,1]. |
| C26 | A flat window poisons adaptive averages | NaN is absorbing for the state update; 0/0 = NaN on a flat window. |
| C27 | alma weights | Gaussian weights positive; orientation by comparing explicit weights. |
| C28 | mama gain and panic freedom | Invariant on the automaton state; NaN witness for the panic. |
| C29 | rsi range | Invariant: the two Wilder scans are non-negative; case split on 0/0. |
| C30 | Stochastic family range | Window extrema; any rounding for wpr. |
| C31 | cmo and tsi range | Triangle inequality through the recursions. |
| C32 | aroon meaning and range | Specification by last arg-max; any rounding. |
| C33 | Directional movement | Invariants of coupled Wilder scans; the third line as the average of `dxSeries`. |
| C34 | Money flow range | Sign invariants. |
| C35 | Percent oscillators range | Sign invariants and weighted means. |
| C36 | True range | max lemmas, any rounding where possible. |
| C37 | Band ordering | sign of deviation times multiplier; window extrema. |
| C38 | Heikin-Ashi candles are candles | Induction over the scan. |
| C39 | Dispersion measures | Algebra over window lists. |
| C40 | Quantile is the interpolated order statistic | Hoare-style loop invariant of the in-place partition on lists/arrays; permutation + k-th element. |
| C41 | rank modes | Counting lemmas over a sorted permutation. |
| C42 | rank Ordinal and input order | Witness permutation. |
| C43 | Pearson and Spearman range and symmetry | Cauchy-Schwarz over window sums. |
| C44 | Kendall tau with and without ties | Pair counting; witness for the tie bug. |
| C45 | Distance correlation | Double-centred matrices, Cauchy-Schwarz; non-negativity via conditional negative definiteness of |x-y|. |
| C46 | Maximal information coefficient | log-sum inequality; permutation invariance of the sum; witness for small windows. |
| C47 | Forecast error metrics | Sums of non-negative terms, Jensen. |
| C48 | smape range | Triangle inequality; witness. |
| C49 | Unchanged price | Direct, from signum (+0) = 1. |
| C50 | Positive and negative volume index | Step lemma of the scan. |
| C51 | Volume weighted prices | Refinement of the rotating cursor to sessions by induction. |
| C52 | vwap reset list corner cases | Witnesses and a general lemma. |
| C53 | Entropy match counters | Count model with overflow; constant series of arbitrary length. |
| C54 | Parabolic SAR never inside the bar | Invariant on the automaton. |
| C55 | Trailing stops ratchet | Invariant on the automaton. |
| C56 | zigzag reports real prices | Invariant on the buffer. |
| C57 | ma dispatch | Case analysis on the mode. |
| C58 | Difference oscillators | Index arithmetic on the zipped lists. |
| C59 | Fisher transform is bounded | Invariant |state| bound. |
| C60 | decay and ulcer | Scan invariant. |
| C61 | hurst termination | Termination measure / stuttering loop. |
| C62 | beta | Value by index; algebra on window sums. |
| C63 | A bad bar is forgotten after the window | Relational: two histories agreeing on the last W bars, followed through every list operation of the model (`Ag`, tactic `locality`), arbitrary arithmetic. Negative results for ewma and wilder from their closed form. |
| C64 | A NaN bar spoils a recursive indicator for good | Absorbing states of scans (`scanM_poison`, `scanS_keep`); needs only the laws `NaN op x = NaN`. Witnesses for the exceptions. |
| C65 | Accumulation indicators telescope | scan over append. |
| C66 | zigzag legs | Invariant of the scan relating the buffer, the current leg and the last pivot. |
| C67 | Averages composed of averages | Value of each layer as a function of the index, composed; exact arithmetic. |
| C68 | Momentum formulas | Per-index value of each stage (`Reports`), composed; exact arithmetic. |
| C69 | Recursive averages | Induction over the scan; specification is the recurrence on real numbers. |
| C70 | Volatility formulas | As C68; sign lemmas for gkyz_hv and chop. |
| C71 | Trend formulas | As C68; the scale loop of hurst by its termination measure. |
| C72 | Volume formulas | As C68; Klinger's trend state by induction over the bars. |
| C73 | Hoeffding's D | Ranks as counts; the measure of n points is the average of the measures of n-1 of them, so the range follows by induction from five points (all 120 orders, by evaluation in the kernel). |
| C74 | Rounding errors | `Accurate ρ u η B` (one rounding errs by at most `u·|x| + η`, no overflow up to `B`), proved for binary64; error of a sum by induction on the list; the recursive averages by an invariant: one step contracts the old error by 1-α (1-1/w) and adds a fixed number of units. Composed functions (`dema`, `tema`, `hull`, `zlma`, `trima`, `atr`, `keltner`, `starc`, `apo`, `heikin_ashi`, ...) through `Nearly M x a c k` (x is within k units of a, and |a| ≤ c·M) and its version for series `NearS`, closed under the four operations, weighted windows and the recursive averages. `lrf`: the divisor of the normal equations is a whole number below 2^53, so it is exact and at least w⁴/16; the bound of 380w units is against a line shown to minimise the squared error. Overlays (`donchian`, `bbands`, `chandelier`, `cks`, `ichimoku`, `dpo`, `alligator`, `gator`): maxima and minima of floats are exact, so the error comes only from the middle lines, the averages and the multiplied range. `t3`: six chained averages with coefficients of the clamped factor, themselves computed in binary64. |
| C75 | Flat windows in f64 | Multiples of a number with spare bits are exact in binary64; the counterexample at 102.4 by evaluating each rounding. |
| C76 | mama solves Ehlers' equations, in radians | The scan's queues hold the last seven values of each sequence, by induction over the bars; uniqueness by strong induction; the angle bounds from arctan. |
| C77 | Percentages in f64 | A product by 100 errs relatively even among subnormal numbers (multiples of the smallest number are exact there); the quotient of a stored number by a larger one is at most `100 (1 + 2^-53)`, which rounds to `100 + 2^-46`; averages of such numbers by monotonicity of rounding. |
| C78 | Change of units | A relation between two runs of the same function (`Scaled k n`: times `k^n`; lists entry by entry; both panic or both answer), preserved by every operation: sums need equal degrees, products add them, comparisons and `signum` are invariant, `ln` and `exp` need degree 0. A tactic (`units`) walks through each model function with these rules. Searches that start at `f64::MAX` (frama, mic, fisher, cks, hurst, rainbow) are compared with searches that start at NaN. Arithmetic: any rounding that commutes with `k` (reals with any `k > 0`; 53-bit floats with unbounded exponent, `k` a power of two). |
| C79 | Raising prices never lowers an average | The relation `NotAbove x y` (`y < x` is false; holds if either is NaN) between two runs. Each operation acts on the extended reals as a monotone operation followed by a monotone rounding (`rndX`), so sums, products by and quotients by a number that is not negative preserve the relation, overflow to infinity included; then through each function as in C78. Where `max`/`min` drop NaN the prices must not be NaN (`AtMost`). |
| C80 | Turning the chart upside down turns every indicator upside down | Two runs, one on the opposite prices (highs = opposites of the lows), related value by value by `Par p`: identical (`eq`), the same number up to the sign of a zero (`same`) or opposite up to the sign of a zero (`odd`). Rounding is odd, so `-(x ∘ y)` and the operation on opposites agree up to a zero's sign; products add parities, absolute values and even powers erase the sign bitwise, `max` and `min` change places. A quotient forgets the sign of a zero only in the numerator, so denominators must be identical or exact opposites (`Flip`). Complements to 100 (`rsi`, `stoch`, `tii`, `wpr`) come from the exact formulas of C29, C30 and C68. |
| C81 | Signs and the order of bands survive rounding | `SignClear` (NaN, +∞ or a non-negative real other than -0) is kept by sums, products, quotients, roots and absolute values in every rounding; squares and absolute values have it. Where `max` may return -0 (`tr`, `rwi`) the weaker `NotNegative` (`x < 0` is false) is carried. Bands: `m - d ≤ m + d` by monotone rounding, and `m - d ≤ m ≤ m + d` because `m` is itself a number of the format (`Stored`), which every average's last operation ensures. |
| C82 | Raising all prices by the same amount | Spec/Lift.lean: `Lifted c n x y`, `y` is `x` raised `n` times by `c`. Sums add the counts, differences of equal counts are equal numbers, means of `n` terms divide the count, comparisons of equal counts agree; the tactic `lifts` walks through a definition carrying the counts. Recursive averages by an invariant of the scan; weighted ones because the weights are positive and normalised; pcc by the shift of its five sums, with NaN on both sides as soon as a value is not finite. |
| C83 | Superposition | `Lin V`: the value at each bar is linear in the series; closed under windows, weights, recursions and composition. Applied to the values proved for C16-C24, C67, C69. |
| C84 | Lag behind a trend | The value of each stage on a line is a line; sums of weights times positions (arithmetic series, binomial and Fibonacci identities); stages composed by adding lags. |
| C85 | Forgetting | Two runs over `past ++ recent` and `past' ++ recent`; `Agree` (Spec/Forget) compares them bar by bar. The difference of two recursive averages over common bars obeys the recursion of the average itself, so it shrinks by 1-α (1-1/w) per bar; composed averages sum the fading inputs; limits by Mathlib's `k^n r^n → 0`. |
| C86 | Window of one bar | The windows are the singletons; every operation then has an exact result that is a number of the format, which every rounding returns. `ewma` by induction over the bars (its gain is exactly 1). |
| C87 | Order inside the window | `Shuffled`: the windows are permutations of each other. Each statistic of `Spec/Real` is shown to be a function of the bag (sums and lengths, order statistics of the sorted list, pairs counted symmetrically, distance sums re-indexed), then the value theorems apply. `quantile` again in every rounding, since selection does not round; the others in binary64 through the bounds of C74. |
| C88 | Oscillators in a steady trend | `Rising`, `Falling` in `Spec/Trend`. The value theorems, with the sums or averages of one side shown to vanish and those of the other side to be positive; `aroon` in every rounding since w/w and 0/w are exact. |
| C89 | Ratio indicators keep their accuracy at every price level | `Rel x a k` in `Lemmas/Relative`: x is a times a factor between (1-u)^k and (1-u)^-k. Differences of stored prices are off by one factor, sums of terms of one sign by one per addition (integer multiples of the smallest binary64 step never underflow), quotients add the counts. `Quotes` (finite, stored, at most 2^900) is the only assumption on prices. `cmo_accuracy_lost` runs the binary64 model on 4 bars. |
| C90 | On whole-number series totals are exact and results rounded once | `Whole x a c` in `Lemmas/Whole`: x is exactly the integer a, at most c in magnitude; closed under the operations while c stays within 2^53 (`Rounding.nat`). An invariant carries it through the windows and the running totals of obv, tvi, cmo; the last division is one `Rounds`. krcc counts are whole for any finite series; 0.5 is exact in binary64. |
| C91 | Quotient indicators are as accurate as their denominator is large | `QuotWithin M K p a b y` in `Lemmas/NearQuot`: y is a/b within K units times (M/abs b)^p whenever that is at most 1 and b is not 0. Numerator and denominator are bounded with `Nearly`/`NearS`; `Nearly.quot1` (p = 1, when the quotient itself is bounded, as in rsi, tsi, tii), `Nearly.quot2` and `Nearly.percent` (p = 2) divide. cv needs the square root of a variance that may be near 0, so its K contains sqrt(2^53). adx is left out: its comparison of the two movements may flip under rounding |
| C92 | Sums do not depend on the zero they start from | `fsumNeg` folds from -0.0; one induction on the list, generic in the rounding (`Props/SumStart`) |
| C93 | Largest window before a product overflows | `Model/Checked` evaluates the products of the window with checked operations and then runs the model over `Nat`; equality below the limit, `none` beyond it (`Props/Machine`) |
| C94 | Relative accuracy of vwma, vwap, pvi, nvi, rsi in binary64 | Relative errors in the binary64 model (`Lemmas/Relative`, `Lemmas/RelativeMul`): every sum has terms of one sign, products and quotients stay clear of the subnormal range for prices in `[2^-400, 2^400]`. `Rel x a k` (off by `k` roundings) is carried through windows (vwma), sessions (vwap, the invariant of C51 with `Rel` for equality), products (pvi, nvi) and Wilder averages (rsi; differences of doubles of at least `2^-400` are multiples of `2^-452`) (`Props/Money64`, `Props/Rsi64`) |
| C95 | A refused window costs one item, not the call | The iterators of the five functions that can panic on values are modelled item by item (`Model/Lazy`); draining gives the model of the other claims, a prefix is the call on the prefix, and an item is the call on its window, whose panics C15 and C53 characterise (`Props/Lazy`) |
| C96 | Rank statistics and counting indicators see only the order of the values | `SameOrder d s t` for every rounding; an argsort of one series is one of the other and ties agree, so C41's determinism gives equal ranks; the sign of a difference survives rounding; windows and scans agree item by item (`Props/OrderOnly`) |
| C97 | The functions agree with each other | `Shows i r v` (the value of a call at a bar) and the value theorems of C16-C72; what remains are identities between means, moments, order statistics and sums over windows (`Props/Identities`) |
| C98 | How large a statistic of a window can get | Samuelson's inequality, the sharp bound on the third moment by summing `(M - x)(x + c)² ≥ 0`, Pearson's inequality from a square summed over the window; applied through the value theorems (`Props/Bounds`) |
| C99 | An error in the data is not amplified beyond a fixed multiple | every value theorem as a functional of the series; Lipschitz constants in the sup norm composed along it (`Lemmas/Stable`: positive weights 1, order statistics 1 by counting, standard deviation 1 by Cauchy-Schwarz), then carried to the answers (`Props/Stable`, specification `Spec/Stable`) |
| C100 | What an extreme reading means | the value theorems turned into equivalences (`Shows i r v ↔ …`): a share is full iff the other part is 0, a sum of non-negative terms or Wilder's average of them is 0 iff every term is, a mean of bounded values is at the bound iff each is; equality cases of Samuelson's and the Cauchy-Schwarz inequality (`Props/Extremes`, `Extremes2`, `Extremes3`) |
| C101 | A series that repeats gives a reading that repeats; a cycle that fits the window disappears | first part: the windows of a cycle one period apart are equal, then C63; second part: sliding a window of one period only turns the order of its values, then C87 with C63, or the value theorem with sums of terms that repeat (`Spec/Cycle`, `Props/Cycle`, `Props/CycleLevel`) |
| C102 | Parameters act in the documented direction | the same data run twice with two parameters, related bar by bar: products with a non-negative factor, sums, quotients and square roots are monotone in every rounding; the interpolated quantile is monotone in its position (`Props/Params`) |
| C103 | The most extreme statistic of a window means one odd value out | deviations from the mean sum to zero; the longest is split off and the rest centred again, which leaves a sum of squares that vanishes exactly for one odd value out; four values by an identity; skew through Pearson's inequality (`Props/Outlier`) |
| C104 | Prices that settle | Series on the naturals with `Tendsto`; windows are Lipschitz (C99) and send a constant window to the limit, recursions contract towards the newest value. The value theorems (C16–C28, C58–C72) carry the limit over to the functions. |
| C105 | A missing price is reported, not papered over | `Gap k bad i W l` (all items of bars `i … i+W-1` are bad) is pushed through pairs, windows, maps and padding; sums pick up any NaN (`foldl_isNaN`). The folds with `f64::max` are characterised exactly (`GreatestNumber`). |
| C106 | Feeding the output of one indicator to another | From C63 (locality), C105 (gaps show) and the warm-up (C06): the padded call agrees with the unpadded one bar by bar. The negative half follows from C64. |
| C107 | Data of an integer type | `Model/Ints.lean`: the functions that compare values of the caller's type, at `ℤ`, with `to_f64` the rounding. Both quickselects find the same order statistic because rounding is monotone; ranks depend only on the order (`rankWith_alike`). |
| C108 | Where the series starts | `Spec/Later.lean`: the same plus, or times, a constant, or an average. From the sums and products of C65 by splitting the range at the cut; `vwap` through its closed form over the session in every arithmetic (`vwap_closed`). |
| C109 | Builds without overflow checks | `Model/Release` repeats the functions that multiply or subtract window sizes with arithmetic modulo 2^64. `…_release` theorems show the wrapping function returns what the checked one returns. Outside, the wrapped integers are computed exactly: the row of Pascal weights for 64 by kernel evaluation, Hoeffding's falling factorial is nonzero modulo 2^64 by its 2-adic valuation, the kurtosis numerator only shrinks. |
| C110 | What one more bar does | `Moves` (Spec/Move) relates the readings at consecutive bars. The windows of consecutive bars differ in two values, so sums telescope; recursive averages are convex steps; `rsi` compares the two quotients of Wilder averages. `dema_overshoots` is the counterexample for the double average. |
| C111 | Bounds of the signed oscillators under rounding | Props/Signed64 over FP with any rounding: `Balanced x y` (neither x nor −x above y) is kept by sums, averages and division because rounding is monotone and odd, and a balanced quotient is within ±1. The gains and losses of cmo are differences of running totals that only grow. The exponential average of numbers within ±1 stays there in binary64 because its two weights round to a sum of at most one. Counterexamples for pcc and cmf are computed in the model of binary64 |
| C112 | A running total that has to give up keeps what it has delivered | `Model/LazyScan` models obv, vwap and mama item by item, with the state that a panicking closure leaves (`scanE`); `LazyScan`: pulling `k` items is the function on the first `k` bars, by prefix induction on the scan; the period of mama's state is not written by a panicking run, so its `clamp` fails again |
| C113 | A recursive average of a series that repeats settles into a cycle | `Spec/NearCycle`; `NearCycle`: a series that repeats is spliced after `W` and after `W + m p` bars, so that forgetting the past (C85) and never revising an answer (C08–C10) give the bound; the sums over a cycle obey the recursion of the average, with a constant input |
| C114 | The zero line in a trend | `Spec/ZeroLine` (`AboveZero`, `BelowZero`); `Lemmas/ZeroLine`: on a rising series an exponential average stays below the price and above the mean of all values so far, hence (induction over the bars) the faster of two averages stays above the slower; `ZeroLine`, `ZeroLine2` feed this into the value theorems of each oscillator; falling series by changing signs. |
| C115 | Readings the documentation gives that the code does not bear out | `Docs`: witnesses for every window and bound (one price followed by equal ones, equal ones followed by another) put into the value theorems of `cfo` and `qstick`; closed values of `chop` and `dpo` on lines and in a sideways market; `dcor` from `dcor_affine`. |
| C116 | A window of zero without overflow checks | Model/ReleaseZero: ewma, wilder and their pairings with `usize` arithmetic modulo 2^64. Refinement (checked answer implies the same answer), then window 0: a NaN seed keeps the recurrence NaN (induction), the wrapped warm-up has 2^64 - 1 values, and a zip is as long as its other side. |
| C117 | Supertrend and the close | Over the supertrend rules of Spec/Stops (which C55 proves to be what the code computes): Wilder's average is at least the newest true range divided by the window, so with a large multiplier each bar, and the gap to it, lies within its bands; the order of the bands is then an invariant. Counterexamples with window 10 and multiplier 3 evaluated through the model. |
| C118 | Averages of prices are accurate relative to themselves | `Rel x a k` (Lemmas/Relative) says a computed x is within k roundings of a > 0; it is closed under sums, products and quotients of positive numbers. Every term of an average of prices is positive, so the bound follows term by term for windows and by induction on the bar for ewma and wilder. |
| C119 | When a correlation survives rounding and when it is lost | For whole numbers the three differences n Σxy - Σx Σy are exact integers (Lemmas/Whole); the two roots, their product and the quotient add four roundings (Rel). Ranks without ties are a permutation of 1..n, so their mean is a multiple of 1/2 and all sums are exact multiples of 1/4 (Grid). The loss is evaluated symbolically in k: both large totals round to the same number. hoeffd: midranks are multiples of 1/2, joint ranks of 1/4, the whole numerator is an exact multiple of 1/16 below 2^53 for windows up to 300, so the final division is the only rounding. |
| C120 | Forecast errors and drawdowns keep their accuracy however small they are | Two different doubles differ by at least 2^-54 of the larger (stored_gap), so a difference is 0 or far from underflow and its square is not subnormal. Mag (Lemmas/Magnitude) carries the number of roundings and the two exponents through products, quotients, roots and sums of terms that are not negative. |
| C121 | In binary64 the adaptive averages stay inside the price range, and mama does not panic | step64: a step of gain in [0, 1] towards a price never passes it by more than two roundings, and never goes below 0, by monotonicity of rounding and relative accuracy of stored sums; used as a loop invariant for vma and kama (whose efficiency ratio is at most 9/8 with rounding, so the squared gain stays in [0, 1]). mix64: the mix used by frama and mama with gain at least 1/1024 keeps a slack of 2^-38. mama_returns64: magnitudes of all loop variables are bounded (MamaBnd), so the period is a non-negative number and clamp's bounds are in order. |
| C122 | Ranges accurate relative to themselves | `Rel x a k` (x is a times a factor within k roundings): a difference of two stored prices is exact up to one rounding and, being a multiple of 2^-452, never underflows; the largest of three keeps the factor; Wilder's and the exponential average by induction on the bar, for data whose own error grows from bar to bar (`ewma_rel`), so that it can be applied twice for `mass`. |
| C123 | Medians, quantiles, aroon in binary64 | The interpolated order statistic is Lipschitz in its position with constant 2M (two cases: same whole part, or neighbouring ones), the rounded position is off by at most (4w-2) units, and quickselect is exact in every rounding. `median`: 50/100 and the half position are exact, halving a normal number is exact, so only the final addition rounds. `aroon`: the index is exact, then two roundings. |
| C124 | Readings determine prices | `Gain k V c`: when two series differ only in the newest bar the reading differs by `c i` times as much; composed through means, weighted means, exponential and Wilder averages. Every gain is shown to be nonzero (for t3 the gain is at least `c³(1 + g - gc)³`, for ssf `1 - 2r cos θ + r²`), then strong induction over the bars. |
| C125 | Averages travel no further than prices | Windows: the move of a weighted mean is the weighted mean of the moves, sum over bars, swap the sums. Recursive averages: distance travelled plus distance to the price grows by at most the move of the price. `Slow s k c V` composes, adds and scales, which gives dema, tema, t3, hull, zlma, macd. |
| C126 | Answer to a jump | The window after a jump is `replicate (w - M) a ++ replicate (min M w) b`; the gap of an exponential average to the new price solves a linear recursion driven by the gap of its input (`ewma_gap`), solved in closed form level by level for ema, ema², ema³ and the lagged input of zlma. |
| C127 | Running totals drift | `scan_drifts`: a scan invariant `Nearly V state (Σ terms) (c·m) ((κ+2)m + c·m(m+1)/2)`, preserved because adding a term within κ units to a total of size c·m·V costs at most κ + c(m+1) + 2 more units. The position of the close in the bar (`ad`) is shown to be within 17 units of 2^-53 by a perturbed quotient (`position_near`). |
| C128 | The money flow is accurate whatever the volumes | `flow_near`: each term is within 20 units of its own volume; `fsum_weights`: a sum of terms known up to `e` units of weights is within `e + 3w` units of the total weight; `Nearly.quot_near`: the quotient of a number known up to `k1` units of R by a divisor known up to `k2` units of R is within `k1 + k2 + 4` units of 1. Windows with no volume are excluded. |
| C129 | An exponential average crosses no level more often than the price | `Crosses v L lo hi m` (Spec/Cross): m + 1 bars in order at which the series is strictly above and below in turns. `crosses_of`: if the average stays on a side as long as the price does, each crossing of the average has a bar of the price strictly on the new side since the last one. Turns are crossings of zero by the changes, which obey the same recursion. `pwma` by induction over the rows of Pascal's triangle (mean of two neighbours). `macd`: `spread_step`, the difference of the averages one bar on is a positive combination of itself and of the move of the slow average. Refutation for `sma`. |
| C130 | Reading a chart backwards | `recent_reverse`: the window that ends at bar i, reversed, is the window of the reversed series that ends at bar n - 1 - (i - (w - 1)). Then permutation invariance of mean, moments and order statistics (Props/Order), symmetry of binomial coefficients, and `pairs_reverse` (rises become falls). |
| C131 | The risk of two assets held together | `moment_holding`: the second moment of a sum of two windows, by linearity of the mean over paired bars; Cauchy-Schwarz (`abs_covar_le`) gives the triangle inequality for `std_dev`, the pointwise triangle inequality gives it for `mad`, and `pcc_reports` turns the covariance into `pcc`. |
| C132 | Combining forecasts | `mean_errors_bar` writes each running error as a sum over bars; convexity of the absolute value bar by bar for `mae` and `mape`, a polynomial identity bar by bar for `mse`, and Minkowski's inequality (`rms_add_le`, from Cauchy-Schwarz) for `rmse`. |
| C133 | Merging the volumes of two exchanges | Every total is a linear functional of the volume (`Lin`, with weights that depend on prices only), so `volumeAdds_of` applies to the value theorems; readings per unit of volume are quotients of two such functionals with a positive divisor, and the mediant of two fractions lies between them (`volumeMixes_of`). |
| C134 | A long window from two short ones | `recent_join`: the window of `u + v` bars is the concatenation of two windows; then the mean, second moment, weighted sum and extremes of a concatenation, and the mediant of two fractions for the readings per unit of volume. |
| C135 | Moving averages follow a trend | `LagsTrend`: the average of a climbing series climbs and stays below it, by induction on the bars for `ewma` and `wilder` and by comparing window sums for the others; falling prices by linearity (the average of the negated series is the negated average). |
| C136 | When the choppiness index stays within 0 and 100 | No true range of the window exceeds the range of the window if the close before it lies within, so their sum is at most `w` ranges; for the converse three bars with a gap of `M` for every `M`. |
| C137 | The parabolic stop in a trend | Invariant of the stop and reverse system by induction on the bars: direction, best price equal to the last extreme, stop no closer than the previous extreme, factor in [0, 1]; hence the stop is never crossed. |
| C138 | Which way a running total moves | The term or factor a bar contributes (C50, C65) has a sign that is read off the bar; for `tvi` the direction flag of the last move beyond the tick. |
| C139 | In binary64 averages over a window never turn against the prices | The series one bar later lies entry by entry above the series; monotonicity in every rounding (C79) compares the two outputs, and locality (C63) identifies the second output with the first one bar later. For ewma a flat series of 15s is evaluated rounding by rounding. |
| C140 | A table of correlations is a correlation matrix | The values are Pearson coefficients of the windows (C43) or of their ranks; the quadratic form is a sum of squares over the bars of the window. The bound for three series is the determinant, from three choices of weights. |
| C141 | The beta of a basket | Rolling means are linear, so the deviations of the basket (C62) are the weighted sums of those of the assets, and so are the mean products with the market. |
