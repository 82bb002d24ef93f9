{"id": "C01", "title": "One output per bar: moving averages", "statement": "For every moving average of smooth (sma, ewma, dema, tema, wma, pwma, wilder, hull, vidya, vma, lrf, trima, zlma, kernel, kama, alma, mdma, hwma, fwma, ssf, mama, t3, frama, and the ma dispatcher) a call whose window fits the series does not panic and yields exactly one value per input value, so result i belongs to bar i.", "quantifier": "every input series of every length, every parameter value, every floating-point arithmetic (no property of +,-,*,/ is used)", "why_tests_cant": "The repository's tests check one 30-bar and one 60-bar file with one or two windows each; alignment for every length and window pair (including length = window, window-1, window+1) is a universally quantified statement.", "anchors": ["src/smooth.rs: all pub fn"]}
{"id": "C02", "title": "One output per bar: momentum", "statement": "Every momentum indicator called with equally long series and windows that fit returns exactly one item per bar without panicking; gator returns len+max_offset items.", "quantifier": "every input series of every length, every parameter value, every floating-point arithmetic (no property of +,-,*,/ is used)", "why_tests_cant": "The repository's tests check one 30-bar and one 60-bar file with one or two windows each; alignment for every length and window pair (including length = window, window-1, window+1) is a universally quantified statement.", "anchors": ["src/momentum.rs: all pub fn"]}
{"id": "C03", "title": "One output per bar: volatility", "statement": "Every volatility indicator called with equally long series and windows that fit returns exactly one item per bar without panicking.", "quantifier": "every input series of every length, every parameter value, every floating-point arithmetic (no property of +,-,*,/ is used)", "why_tests_cant": "The repository's tests check one 30-bar and one 60-bar file with one or two windows each; alignment for every length and window pair (including length = window, window-1, window+1) is a universally quantified statement.", "anchors": ["src/volatility.rs: all pub fn"]}
{"id": "C04", "title": "One output per bar: trend", "statement": "Every trend indicator called with equally long series and windows that fit returns exactly one item per bar without panicking; alligator returns len+max_offset and ichimoku len+base window items, because those are shifted into the future.", "quantifier": "every input series of every length, every parameter value, every floating-point arithmetic (no property of +,-,*,/ is used)", "why_tests_cant": "The repository's tests check one 30-bar and one 60-bar file with one or two windows each; alignment for every length and window pair (including length = window, window-1, window+1) is a universally quantified statement.", "anchors": ["src/trend.rs: all pub fn"]}
{"id": "C05", "title": "One output per bar: volume", "statement": "Every volume indicator called with equally long series and windows that fit returns exactly one item per bar without panicking.", "quantifier": "every input series of every length, every parameter value, every floating-point arithmetic (no property of +,-,*,/ is used)", "why_tests_cant": "The repository's tests check one 30-bar and one 60-bar file with one or two windows each; alignment for every length and window pair (including length = window, window-1, window+1) is a universally quantified statement.", "anchors": ["src/volume.rs: all pub fn"]}
{"id": "C06", "title": "One output per bar: statistics and correlation", "statement": "Every rolling statistic, regression metric and correlation called with equally long series and a window that fits returns exactly one item per bar without panicking.", "quantifier": "every input series of every length, every parameter value, every floating-point arithmetic (no property of +,-,*,/ is used)", "why_tests_cant": "The repository's tests check one 30-bar and one 60-bar file with one or two windows each; alignment for every length and window pair (including length = window, window-1, window+1) is a universally quantified statement.", "anchors": ["src/statistic/distribution.rs", "src/statistic/regression.rs", "src/correlation.rs"]}
{"id": "C07", "title": "Warm-up is NaN", "statement": "During warm-up an indicator yields NaN, and the number of leading NaN is a fixed function of its windows (window-1 for a rolling window, window for a difference based one, 2*(window-1) for dema, 3*(window-1) for tema, 6*(window-1) for t3, ...), never of the data.", "quantifier": "every input series of every length, every parameter value, every floating-point arithmetic (no property of +,-,*,/ is used)", "why_tests_cant": "Tests look at one window per indicator; the warm-up length is a formula in the parameters.", "anchors": ["src/smooth.rs", "src/momentum.rs", "src/volatility.rs", "src/trend.rs", "src/volume.rs", "src/statistic", "src/correlation.rs"]}
{"id": "C08", "title": "No look-ahead: moving averages", "statement": "Appending future values never changes an already produced value: if a moving average returns out for a history, then for any continuation of the history it returns a list that starts with out.", "quantifier": "every history, every continuation of it, every parameter value, every floating-point arithmetic", "why_tests_cant": "Absence of look-ahead relates two runs of the function on every pair (history, any continuation of it). A test compares one run with recorded numbers and is equally happy with an indicator that peeks at the future.", "anchors": ["src/smooth.rs: all pub fn"]}
{"id": "C09", "title": "No look-ahead: momentum", "statement": "Appending future bars never changes an already produced item of a momentum indicator.", "quantifier": "every history, every continuation of it, every parameter value, every floating-point arithmetic", "why_tests_cant": "Absence of look-ahead relates two runs of the function on every pair (history, any continuation of it). A test compares one run with recorded numbers and is equally happy with an indicator that peeks at the future.", "anchors": ["src/momentum.rs"]}
{"id": "C10", "title": "No look-ahead: volatility", "statement": "Appending future bars never changes an already produced item of a volatility indicator.", "quantifier": "every history, every continuation of it, every parameter value, every floating-point arithmetic", "why_tests_cant": "Absence of look-ahead relates two runs of the function on every pair (history, any continuation of it). A test compares one run with recorded numbers and is equally happy with an indicator that peeks at the future.", "anchors": ["src/volatility.rs"]}
{"id": "C11", "title": "No look-ahead: trend", "statement": "Appending future bars never changes an already produced item of a trend indicator, except zigzag and the shifted tails of alligator and ichimoku.", "quantifier": "every history, every continuation of it, every parameter value, every floating-point arithmetic", "why_tests_cant": "Absence of look-ahead relates two runs of the function on every pair (history, any continuation of it). A test compares one run with recorded numbers and is equally happy with an indicator that peeks at the future.", "anchors": ["src/trend.rs"]}
{"id": "C12", "title": "No look-ahead: volume", "statement": "Appending future bars never changes an already produced item of a volume indicator.", "quantifier": "every history, every continuation of it, every parameter value, every floating-point arithmetic", "why_tests_cant": "Absence of look-ahead relates two runs of the function on every pair (history, any continuation of it). A test compares one run with recorded numbers and is equally happy with an indicator that peeks at the future.", "anchors": ["src/volume.rs"]}
{"id": "C13", "title": "No look-ahead: statistics and correlation", "statement": "Appending future values never changes an already produced value of a rolling statistic, regression metric or correlation (for the entropies: with an explicit tolerance).", "quantifier": "every history, every continuation of it, every parameter value, every floating-point arithmetic", "why_tests_cant": "Absence of look-ahead relates two runs of the function on every pair (history, any continuation of it). A test compares one run with recorded numbers and is equally happy with an indicator that peeks at the future.", "anchors": ["src/statistic/distribution.rs", "src/statistic/regression.rs", "src/correlation.rs"]}
{"id": "C14", "title": "Where look-ahead does exist", "statement": "zigzag revises points it has already reported; approx_entropy and sample_entropy with tolerance None use the deviation of the whole series, future included. For these the no look-ahead statement is false.", "quantifier": "existence of a history and a continuation on which an already reported item changes", "why_tests_cant": "A test of one history cannot show that a later bar changes an earlier answer.", "anchors": ["src/trend.rs: zigzag", "src/statistic/distribution.rs: approx_entropy, sample_entropy"]}
{"id": "C15", "title": "Exact panic domain", "statement": "For every public function, the call (with its iterator drained) panics exactly on the stated combinations of series lengths and parameters, and answers with a stated number of values otherwise. Panics are those of a build with overflow checks: slice out of range, index out of bounds, unsigned underflow, windows(0), unwrap of None, clamp with unordered bounds. The functions that rank, select or count also have values they refuse: a NaN in a rank window, more than 255 matching stretches in an entropy window.", "quantifier": "all series lengths, unequal lengths included, all parameter combinations, and all values", "why_tests_cant": "The panicking corner cases (length < window, window 0, 1, 2, unordered windows, empty input, series of unequal length) form an infinite family that the tests never enter.", "anchors": ["src/smooth.rs: every public function", "src/trend.rs: every public function", "src/momentum.rs: every public function", "src/volatility.rs: every public function", "src/volume.rs: every public function", "src/correlation.rs: every public function", "src/statistic/distribution.rs: every public function", "src/statistic/regression.rs: mda"]}
{"id": "C16", "title": "sma is the window mean", "statement": "After warm-up sma reports, at every bar, the arithmetic mean of the last window values; it therefore lies between their minimum and maximum, maps a constant series to that constant and commutes with affine changes of unit.", "quantifier": "every finite series, window and bar, in exact arithmetic", "why_tests_cant": "A few recorded numbers cannot distinguish a mean from a slightly different weighting on every other input.", "anchors": ["src/smooth.rs: sma"]}
{"id": "C17", "title": "ewma is a convex combination", "statement": "ewma starts at the mean of the first window values and then moves by 2/(window+1) towards each new value; hence every reported value is a convex combination of the inputs seen so far (never outside their range) and a constant series is a fixed point.", "quantifier": "every finite series, window and bar, in exact arithmetic", "why_tests_cant": "Staying inside the range of the inputs is an inductive invariant of an unbounded recursion.", "anchors": ["src/smooth.rs: ewma"]}
{"id": "C18", "title": "Wilder smoothing seed and range", "statement": "wilder's first value is the mean of the first window values, later values follow (prev*(window-1)+x)/window, and every reported value lies inside the range of the inputs; for inputs between 0 and 100 this survives IEEE rounding.", "quantifier": "every series, window and bar; exact arithmetic for the closed form, every monotone rounding for the 0..100 range", "why_tests_cant": "Invariant of an unbounded recursion, including rounding.", "anchors": ["src/smooth.rs: wilder"]}
{"id": "C19", "title": "wma weights", "statement": "wma reports sum of k*x_k over the window divided by window*(window+1)/2 with the newest value weighted most; weights are positive and sum to one, so the result lies in the window's range.", "quantifier": "every finite series, window and bar, in exact arithmetic", "why_tests_cant": "Weight normalisation is an identity in the window size.", "anchors": ["src/smooth.rs: wma"]}
{"id": "C20", "title": "pwma uses Pascal's triangle", "statement": "pwma's weights are exactly the binomial coefficients C(window-1,k) divided by 2^(window-1), computed without exceeding 64 bits for windows up to 63; window 0 and windows of 64 or more panic.", "quantifier": "every window; every finite series", "why_tests_cant": "The incremental computation of the row and of its sum is correct only by an induction on the window.", "anchors": ["src/smooth.rs: pwma"]}
{"id": "C21", "title": "fwma uses Fibonacci numbers", "statement": "fwma's weights are the Fibonacci numbers F1..Fwindow divided by their sum, largest weight on the newest value, and sum to one.", "quantifier": "every window >= 2; every finite series", "why_tests_cant": "Induction on the window.", "anchors": ["src/smooth.rs: fwma"]}
{"id": "C22", "title": "trima is a triangular average", "statement": "trima equals the sma of the sma with windows ceil((w+1)/2) and floor((w+1)/2), starts reporting at bar window-1, and is a convex combination of the last window values.", "quantifier": "every finite series, window and bar", "why_tests_cant": "Relates two nested warm-ups for every parity of the window.", "anchors": ["src/smooth.rs: trima"]}
{"id": "C23", "title": "lrf is the least squares forecast", "statement": "lrf reports the value at the newest bar of the straight line that minimises the sum of squared errors over the window; on a linear series it reproduces the series.", "quantifier": "every finite series, window >= 2 and bar, in exact arithmetic", "why_tests_cant": "Optimality quantifies over every competing line.", "anchors": ["src/smooth.rs: lrf"]}
{"id": "C24", "title": "Composite averages preserve constants", "statement": "dema, tema, t3, hull, zlma, hwma and ssf reproduce a constant series after warm-up (their weights sum to one).", "quantifier": "every constant, length and parameter, in exact arithmetic", "why_tests_cant": "Coefficient sums (for example the cubic coefficients of t3, the filter taps of ssf) are identities in the parameter.", "anchors": ["src/smooth.rs: dema, tema, t3, hull, zlma, hwma, ssf"]}
{"id": "C25", "title": "Adaptive averages stay inside the range", "statement": "kama, vma, frama, kernel and mama move each step by a factor in [0,1] towards the newest value, so every non-NaN value lies between the smallest and largest of 0 and the inputs. vidya does so only for windows of 39 or more: with a smaller window its gain can exceed one and it overshoots the data.", "quantifier": "every finite series, window and bar, in exact arithmetic", "why_tests_cant": "Invariant of an unbounded recursion with data-dependent gain.", "anchors": ["src/smooth.rs: kama, vidya, vma, frama, kernel, mama"]}
{"id": "C26", "title": "A flat window poisons adaptive averages", "statement": "Once kama, vidya, vma or frama has met one completely flat window its efficiency ratio is 0/0 and every later value is NaN, whatever the later data. A user would expect recovery; the code does not recover.", "quantifier": "every continuation after the first flat window", "why_tests_cant": "The claim is about all infinite continuations.", "anchors": ["src/smooth.rs: kama, vidya, vma, frama"]}
{"id": "C27", "title": "alma weights", "statement": "alma is a convex combination of the last window values with Gaussian weights centred at mu*(window-1) counted from the newest value backwards; with mu above one half it therefore leans towards OLDER data, opposite to its documentation.", "quantifier": "every window, mu, sigma and finite series", "why_tests_cant": "Orientation and normalisation hold or fail for all parameters at once.", "anchors": ["src/smooth.rs: alma"]}
{"id": "C28", "title": "mama gain and panic freedom", "statement": "On finite data mama never panics, its smoothed period stays within [0, 50] and its gain within [slow, max(fast, slow)]; a NaN in the data makes a later clamp panic.", "quantifier": "every finite series; existence of a NaN series", "why_tests_cant": "Invariant over the whole recursion.", "anchors": ["src/smooth.rs: mama"]}
{"id": "C29", "title": "rsi range", "statement": "rsi is NaN or between 0 and 100 at every bar; it is 100 while only gains have been seen and 0 while only losses have been seen.", "quantifier": "every finite series, window, bar", "why_tests_cant": "Range invariant for all inputs.", "anchors": ["src/momentum.rs: rsi"]}
{"id": "C30", "title": "Stochastic family range", "statement": "stochastic, kdj's k and d, stc, and wpr stay in their documented ranges (0..100, wpr -100..0) or are NaN, for bars with low <= close <= high; wpr's range survives any monotone rounding.", "quantifier": "every series of sane bars, windows, bars", "why_tests_cant": "Range invariant for all inputs.", "anchors": ["src/momentum.rs: stoch, stochastic, kdj, stc, wpr"]}
{"id": "C31", "title": "cmo and tsi range", "statement": "cmo and tsi are NaN or between -100 and 100 at every bar.", "quantifier": "every finite series, windows, bars", "why_tests_cant": "|sum| <= sum of |.| must hold through a recursion.", "anchors": ["src/momentum.rs: cmo, tsi", "src/smooth.rs: _cmo"]}
{"id": "C32", "title": "aroon meaning and range", "statement": "aroon-up is 100*(window - bars since the most recent highest high)/window, aroon-down likewise for lows; both lie in 0..100 under any monotone rounding.", "quantifier": "every series, window, bar", "why_tests_cant": "arg-max with ties over every window.", "anchors": ["src/trend.rs: aroon"]}
{"id": "C33", "title": "Directional movement range", "statement": "adx's plus and minus directional indices lie in 0..100 (their sum as well) and adx itself lies in 0..100 or is NaN, for sane bars. The indices are Wilder's averages of the directional movements over that of the true range, and adx is Wilder's average of 100 |plus - minus| / (plus + minus).", "quantifier": "every series of bars, window, bar", "why_tests_cant": "Combination of four coupled recursions.", "anchors": ["src/trend.rs: adx"]}
{"id": "C34", "title": "Money flow range", "statement": "mfi is NaN or in 0..100, cmf and twiggs are NaN or in -1..1, for sane bars with non-negative volume.", "quantifier": "every series of sane bars, window, bar", "why_tests_cant": "Range invariant for all inputs.", "anchors": ["src/volume.rs: mfi, cmf, twiggs"]}
{"id": "C35", "title": "Percent oscillators range", "statement": "ultimate, psych, tii, relative_vol and crsi are NaN or in 0..100 for sane bars.", "quantifier": "every series of sane bars, windows, bars", "why_tests_cant": "Range invariant for all inputs.", "anchors": ["src/momentum.rs: ultimate, psych, tii, crsi", "src/volatility.rs: relative_vol"]}
{"id": "C36", "title": "True range", "statement": "tr is at least high-low, at least the distance of the previous close to either extreme, never negative for sane bars; atr is never negative.", "quantifier": "every series of sane bars, window, bar, any monotone rounding", "why_tests_cant": "max of three over every input incl. gaps.", "anchors": ["src/volatility.rs: tr, atr, _true_range"]}
{"id": "C37", "title": "Band ordering", "statement": "bbands, keltner and starc return lower <= middle <= upper at every reported bar for non-negative multipliers, at the stated distance from the middle; donchian's bands are attained, contain every bar of the window and are ordered around their midpoint. fbands reports the high of the latest five-bar peak and the low of the latest five-bar trough (0 before the first), so its bands can cross.", "quantifier": "every finite series, every window, every multiplier >= 0, every moving average mode of bbands", "why_tests_cant": "Ordering must hold for every input.", "anchors": ["src/volatility.rs: bbands, keltner, starc, donchian, fbands"]}
{"id": "C38", "title": "Heikin-Ashi candles are candles", "statement": "Every heikin_ashi item satisfies low <= open, close <= high, close is the mean of the four prices and open the mean of the previous candle's open and close.", "quantifier": "every series of sane bars", "why_tests_cant": "Recursion through the open.", "anchors": ["src/volatility.rs: heikin_ashi"]}
{"id": "C39", "title": "Dispersion measures", "statement": "variance, std_dev, mad, the standard error parts and cv's numerator equal their textbook definitions on the window, are never negative, vanish exactly on flat windows and ignore a shift of the data.", "quantifier": "every finite series, window, bar, in exact arithmetic", "why_tests_cant": "Textbook equality for all windows.", "anchors": ["src/statistic/distribution.rs: variance, std_dev, mad, zscore, cv"]}
{"id": "C40", "title": "Quantile is the interpolated order statistic", "statement": "median and quantile return, for every window, the linear interpolation between the two neighbouring order statistics of the window: the in-place quickselect returns the k-th smallest value for every content and every k, and only permutes the window.", "quantifier": "every totally ordered window content, every q in 0..100", "why_tests_cant": "Correctness of an in-place partition loop for every permutation of every length.", "anchors": ["src/statistic/distribution.rs: quickselect, median, quantile"]}
{"id": "C41", "title": "rank modes", "statement": "rank returns 1+#smaller (Min), #not larger (Max), their mean (Average), 1+#distinct smaller (Dense) and for Ordinal a bijection onto 1..n that respects the order, independently of how the unstable sort orders ties.", "quantifier": "every totally ordered input, every tie order the unstable sort may choose", "why_tests_cant": "Nondeterminism of the sort and every tie pattern.", "anchors": ["src/statistic/distribution.rs: rank, argsort, RankMode"]}
{"id": "C42", "title": "rank Ordinal and input order", "statement": "The documentation promises that Ordinal ranks equal values in input order; because the sort is unstable this is not guaranteed.", "quantifier": "existence of an admissible sort result", "why_tests_cant": "A test observes one sort implementation.", "anchors": ["src/statistic/distribution.rs: rank, argsort"]}
{"id": "C43", "title": "Pearson and Spearman range and symmetry", "statement": "pcc and srcc are NaN or within [-1,1], symmetric in their arguments, rsq within [0,1]; pcc is +1 / -1 for an increasing / decreasing affine relation.", "quantifier": "every pair of finite series, window, bar, in exact arithmetic", "why_tests_cant": "Cauchy-Schwarz for all inputs.", "anchors": ["src/correlation.rs: pcc, rsq, srcc"]}
{"id": "C44", "title": "Kendall tau with and without ties", "statement": "Without ties in the second series krcc equals Kendall's tau-b and lies in [-1,1]. With ties in the second series it does not: tied pairs are counted as concordant because signum(+0.0) is 1, so results can be wrong, exceed 1 and depend on argument order.", "quantifier": "every tie-free pair of windows; existence of tied windows", "why_tests_cant": "Needs all tie patterns; the tests' price data has no ties.", "anchors": ["src/correlation.rs: krcc"]}
{"id": "C45", "title": "Distance correlation", "statement": "dcor is NaN or in [0,1], symmetric, and 1 for a non-constant series against itself.", "quantifier": "every pair of finite series, window, bar, in exact arithmetic", "why_tests_cant": "Cauchy-Schwarz on centred distance matrices and positive definiteness for all inputs.", "anchors": ["src/correlation.rs: dcor"]}
{"id": "C46", "title": "Maximal information coefficient", "statement": "mic lies in [0,1] whenever a window has at least 7 values and does not depend on hash map iteration order; for smaller windows it returns the most negative float, contrary to its documentation.", "quantifier": "every pair of finite windows", "why_tests_cant": "Gibbs' inequality over every histogram; small windows are never tested.", "anchors": ["src/correlation.rs: mic"]}
{"id": "C47", "title": "Forecast error metrics", "statement": "mse, rmse, mae, mape, smape, mase, emae are NaN or never negative, are zero for a perfect forecast (non-zero actuals), rmse is at least mae, mda is a fraction in [0,1].", "quantifier": "every pair of finite series, in exact arithmetic", "why_tests_cant": "Inequality between means for all inputs.", "anchors": ["src/statistic/regression.rs"]}
{"id": "C48", "title": "smape range", "statement": "smape is documented as bounded by 100; the code's value is bounded by 200 and attains it.", "quantifier": "every pair of finite series; existence of a witness", "why_tests_cant": "A bound over all inputs.", "anchors": ["src/statistic/regression.rs: smape"]}
{"id": "C49", "title": "Unchanged price", "statement": "On a bar whose close equals the previous close obv should stay unchanged and psych should not count an advance; the code adds the volume / counts the bar as up because signum(+0.0) is +1.", "quantifier": "every series with an unchanged close", "why_tests_cant": "Requires exact ties, absent from the test files.", "anchors": ["src/volume.rs: obv", "src/momentum.rs: psych", "src/statistic/regression.rs: mda"]}
{"id": "C50", "title": "Positive and negative volume index", "statement": "pvi moves only on bars whose volume rose and nvi only on bars whose volume fell; then by the exact relative price change; they start at 100 and never both move.", "quantifier": "every series", "why_tests_cant": "Histories with equal volumes and both directions.", "anchors": ["src/volume.rs: pvi, nvi"]}
{"id": "C51", "title": "Volume weighted prices", "statement": "vwap since the last reset and vwma over the window are volume weighted means: between the lowest and highest price for non-negative, not all zero volumes; vwap restarts exactly at the reset indices when they are strictly increasing.", "quantifier": "every series, every strictly increasing reset list", "why_tests_cant": "Refinement between a rotating cursor and sessions, for every list.", "anchors": ["src/volume.rs: vwap, vwma"]}
{"id": "C52", "title": "vwap reset list corner cases", "statement": "vwap panics on Some(&[]) for non-empty data and, when reset_idx contains a repeated index, silently ignores every later reset.", "quantifier": "existence of inputs", "why_tests_cant": "Corner inputs outside the tests.", "anchors": ["src/volume.rs: vwap"]}
{"id": "C53", "title": "Entropy match counters", "statement": "approx_entropy and sample_entropy count matches in an 8-bit integer: they panic (debug) or wrap (release) exactly when a window has more than 255 matches; below that the count is the number of matching templates.", "quantifier": "every window content; all windows above the threshold", "why_tests_cant": "Tests use windows far below the overflow point.", "anchors": ["src/statistic/distribution.rs: approx_entropy, sample_entropy"]}
{"id": "C54", "title": "Parabolic SAR never inside the bar", "statement": "From the second bar on psar is at or above the bar's high or at or below its low, and its acceleration factor stays between af and max.", "quantifier": "every series of sane bars, all parameters", "why_tests_cant": "Invariant over an automaton with flips.", "anchors": ["src/trend.rs: psar"]}
{"id": "C55", "title": "Trailing stops ratchet", "statement": "atr_stop's stop never moves against the trend while the trend does not flip, and never crosses the close (multiplier >= 0). supertrend's stop does not move against the trend between two bars of the same trend if the close of the first is beyond the stop; without that condition it can (a concrete series). Both series of stops are those of the published rules.", "quantifier": "every series of bars, windows, multipliers", "why_tests_cant": "Invariant over an automaton with flips.", "anchors": ["src/trend.rs: supertrend, atr_stop"]}
{"id": "C56", "title": "zigzag reports real prices", "statement": "Every non-NaN zigzag value is the high or the low of its own bar, and the first and last bars are always reported.", "quantifier": "every non-empty series, every threshold", "why_tests_cant": "Retroactive writes into a buffer for every history.", "anchors": ["src/trend.rs: zigzag"]}
{"id": "C57", "title": "ma dispatch", "statement": "ma(data, window, mode) is exactly the moving average named by mode with the documented default extra parameters.", "quantifier": "every series, window and mode", "why_tests_cant": "All 20+ arms.", "anchors": ["src/smooth.rs: ma, MaMode"]}
{"id": "C58", "title": "Difference oscillators", "statement": "macd/apo are the difference and ppo the relative difference of the two averages; gator is the absolute jaw/teeth and teeth/lips distance of alligator; rsc/perf/roc are relative changes; each aligned to the same bar.", "quantifier": "every series, window, mode, bar", "why_tests_cant": "Alignment of separately shifted series for all windows.", "anchors": ["src/momentum.rs: macd, apo, ppo, roc, gator", "src/trend.rs: alligator", "src/correlation.rs: rsc, perf"]}
{"id": "C59", "title": "Fisher transform is bounded", "statement": "For finite data, fisher never yields NaN or infinity after its warm-up and its line is bounded by ln(1999999). For prices between 0 and the largest number it is the Fisher transform of the position of the middle of the bar in its window.", "quantifier": "every finite series, window, bar", "why_tests_cant": "The clamp keeps an unbounded recursion bounded.", "anchors": ["src/momentum.rs: fisher"]}
{"id": "C60", "title": "decay and ulcer", "statement": "decay never falls below the input, never below 0 and never below the previous value minus 1/window; it is the largest of the earlier values each lowered by 1/window per bar since. ulcer is never negative and 0 while every bar of its window is the highest of the last window bars.", "quantifier": "every finite series, window, bar", "why_tests_cant": "Recursion and window maxima.", "anchors": ["src/trend.rs: decay, ulcer"]}
{"id": "C61", "title": "hurst termination", "statement": "hurst's scale loop terminates for min_win >= 1 and runs forever for min_win = 0 (log10 0 = -infinity).", "quantifier": "every length; the witness min_win = Some(0)", "why_tests_cant": "Non-termination cannot be observed by a test.", "anchors": ["src/trend.rs: hurst"]}
{"id": "C62", "title": "beta is the slope of returns on returns", "statement": "beta is the mean, over the last w bars, of the products of the deviations of the two series' returns from their rolling mean, divided by the mean of the squared deviations of the second one. It is NaN exactly where that divisor is zero and never infinite. It is 1 for a series against itself, and multiplying every return of the first series by c multiplies it by c.", "quantifier": "every pair of finite series of equal length with non-zero values, every window, every step", "why_tests_cant": "Identity for all inputs.", "anchors": ["src/correlation.rs: beta"]}
{"id": "C63", "title": "A bad bar is forgotten after the window", "statement": "What a window function reports at a bar is a function of the last W bars alone, with W the window plus the stated lag of the function: two histories whose last W bars agree get the same value there, whatever came before or after. So a NaN or infinite bar only affects the outputs within W bars of it. Recursive averages are the opposite: for ewma and wilder (window 2 or more) no W suffices.", "quantifier": "every arithmetic, every pair of histories of any lengths, every window, every bar", "why_tests_cant": "Locality relates all pairs of runs; a test compares a few. A running-sum implementation passes the value tests and violates it.", "anchors": ["src/smooth.rs: sma, wma, pwma, lrf, trima, fwma, hull, alma, kernel", "src/statistic/distribution.rs: variance, std_dev, zscore, mad, cv, kurtosis, skew, quantile, median, approx_entropy, sample_entropy", "src/correlation.rs: pcc, rsq, beta, perf, rsc, srcc, krcc, hoeffd, dcor", "src/volatility.rs: tr, gri, typical, std_dev, bbands, donchian, hv, chop, vhf, wcp, cc_hv, gkyz_hv", "src/volume.rs: cmf, vwma, bw_mfi, mfi, ease", "src/momentum.rs: cfo, wpr, roc, cog, cci, psych, tii, ultimate, si, stochastic, kdj, relative_vigor, coppock, rainbow", "src/trend.rs: shinohara, vortex, rwi, aroon, ulcer, dpo, hurst"]}
{"id": "C64", "title": "A NaN bar spoils a recursive indicator for good", "statement": "Once a recursive average, an indicator built on one, or a running total has met a NaN bar, the value at that bar and at every later bar is NaN, whatever follows. Exceptions are exact: wilder with window 1 returns its input; the first volume of obv, vpt and tvi is unused; vma (first 9 bars), frama (bars before the first full window) and rsi do not notice, because f64::max ignores NaN. A bar without range (high = low = close) does the same to the accumulation/distribution line.", "quantifier": "every arithmetic in which NaN propagates, every history and continuation, every position of the bad bar, every window", "why_tests_cant": "Every continuation of every length; no finite set of runs shows that a state never recovers.", "anchors": ["src/smooth.rs: ewma, wilder, dema, tema, t3, zlma, mdma, hwma, ssf, kama, vidya, vma, frama", "src/momentum.rs: macd, apo, ppo, disparity, qstick, elder_ray, trix, pmo, tsi, rsi", "src/volume.rs: obv, vpt, ad, tvi"]}
{"id": "C65", "title": "Accumulation indicators telescope", "statement": "obv, ad (both forms), vpt, tvi and asi are running sums: the value after a continuation equals the value before plus a sum of per-bar terms that depend only on the continuation and the last bar before it (for tvi also on the direction of the last move beyond the tick).", "quantifier": "every split of every history", "why_tests_cant": "Relates runs on all splits.", "anchors": ["src/volume.rs: obv, ad, vpt, tvi", "src/trend.rs: asi"]}
{"id": "C66", "title": "zigzag legs", "statement": "For finite positive bars whose own range is below the threshold, the prices zigzag reports are pivots of a zig-zag: they alternate between highs and lows, the first is on the first bar, and consecutive pivots are at least distance percent apart in the direction of the leg; the last bar always reports its high if the current leg falls and its low if it rises, while the end of the current leg itself is not reported (a top can be lost).", "quantifier": "every series of two or more bars and every positive threshold", "why_tests_cant": "Quantifies over all price paths; the pivot structure is an inductive invariant of the scan.", "anchors": ["src/trend.rs: zigzag"]}
{"id": "C67", "title": "Averages composed of averages", "statement": "dema, tema, t3, hull and zlma are the published combinations of repeated averages (2*e1-e2; 3*e1-3*e2+e3; the six-fold T3 polynomial; the weighted average of 2*half-full; the average of the price corrected by its lag), where each repeated average is started on the first bar at which the one below it is defined; vma, vidya and kama are the recursions gain*price + (1-gain)*previous starting from 0 with the published gain. First defined bar and value at every bar are as published.", "quantifier": "all finite series long enough for the nesting, all window lengths >= 1, all optional parameters", "why_tests_cant": "the identity has to hold at every bar of every series and for every window; a test vector fixes one series and one window, and a mis-started inner average only changes the early bars", "anchors": ["src/smooth.rs: dema, tema, t3, hull, zlma, vma, vidya, kama", "src/smooth.rs: ewma, wma"]}
{"id": "C68", "title": "Momentum oscillators compute their published formulas", "statement": "disparity, qstick, bal_power, elder_ray, trix, pmo, cfo, cog, coppock, pgo, si, relative_vigor, derivative, cci, deli, ultimate, tii, stc, kdj, rainbow, kst, special_k, qqe and crsi report at every bar, from the documented first bar on, exactly the published formula of their inputs, with every inner average started at the first bar where its own input is defined.", "quantifier": "all finite series long enough, all window lengths >= 1, all optional parameters", "why_tests_cant": "the identity has to hold at every bar of every series; a test vector fixes one series and one window", "anchors": ["src/momentum.rs: disparity, qstick, bal_power, elder_ray, trix, pmo, cfo, cog, coppock, pgo, si, relative_vigor, derivative, cci, deli, ultimate, tii, stc, kdj, rainbow, kst, special_k, qqe, crsi"]}
{"id": "C69", "title": "Recursive averages are the published recursions", "statement": "mdma is McGinley's recursion from the first bar on; hwma is the Holt-Winters recursion with its three factors limited to 0..1; ssf is Ehlers' two or three pole super smoother started with the first two or three values; frama is the adaptive average whose gain is exp(-4.6*(D-1)) limited to 0.01..1 where D is the fractal dimension of the window.", "quantifier": "all finite series long enough, all windows, all optional parameters", "why_tests_cant": "a recursion mixes all earlier values; only an induction covers every series and length", "anchors": ["src/smooth.rs: mdma, hwma, ssf, frama"]}
{"id": "C70", "title": "Volatility measures compute their published formulas", "statement": "wcp, hv, cc_hv, gkyz_hv, vhf, chop, gri, cvi, mass, relative_vol and inertia report at every bar, from the documented first bar on, exactly the published formula; gkyz_hv is a number for every series of positive bars whose open and close lie within the range, and chop is never negative for bars whose close lies within the range. A bar with an unchanged close counts on both sides of relative_vol.", "quantifier": "all finite series long enough, all window lengths, all optional parameters", "why_tests_cant": "the identities and signs have to hold at every bar of every series and for every window", "anchors": ["src/volatility.rs: wcp, hv, cc_hv, gkyz_hv, vhf, chop, gri, cvi, mass, relative_vol, inertia"]}
{"id": "C71", "title": "Trend indicators compute their published formulas", "statement": "shinohara, vortex, ulcer, rwi, dpo, chandelier, cks, decay, ichimoku and hurst report at every bar, from the documented first bar on, exactly the published formula of their inputs; ichimoku's leading lines are displaced by the base window and its lagging line is the later close; hurst is the slope of the log of the mean rescaled range against the log of the scale. cks never reports a long stop below 0.", "quantifier": "all finite series long enough, all window lengths, all optional parameters", "why_tests_cant": "the identity has to hold at every bar of every series; a test vector fixes one series and one window", "anchors": ["src/trend.rs: shinohara, vortex, ulcer, rwi, dpo, chandelier, cks, decay, ichimoku, hurst"]}
{"id": "C72", "title": "The volume indicators are their published formulas", "statement": "At every step after the warm-up: elder_force is the exponential average of price change times volume; ease is the mean ease of movement of the last w bars (0 for a bar without range); bw_mfi is the range per million of volume; cmf is the money flow of the last w bars over their volume; twiggs is Wilder's sum of volume times the position of the close in the true range over Wilder's sum of the volume; kvo is the difference of two exponential averages of the signed volume (default) or of the volume force (alt off), an unchanged price counting as up.", "quantifier": "every series of finite bars of equal length, with non-zero range (cmf, twiggs, kvo) or volume (ease, bw_mfi) where the formula divides by it; every window; every step", "why_tests_cant": "The repository's tests compare one hundred bars with numbers produced by the code; they say nothing about other windows, flat bars or zero volumes.", "anchors": ["src/volume.rs: elder_force", "src/volume.rs: ease", "src/volume.rs: bw_mfi", "src/volume.rs: cmf", "src/volume.rs: twiggs", "src/volume.rs: kvo"]}
{"id": "C73", "title": "hoeffd is Hoeffding's D", "statement": "With a window of five to 7133 bars, hoeffd reports Hoeffding's D of the last w points, computed from mid-ranks and bivariate ranks, whatever order the unstable sort gives ties. It is symmetric in the two series and unchanged by strictly increasing transforms of either. Where neither window has repeated values it lies between -1/2 and 1, and is 1 if one series is an increasing function of the other. On windows with ties it can leave that documented range: two constant windows give -30(w-1)/(16(w-2)(w-4)), below -1/2 for windows 5 to 8. From a window of 7134 bars on, the product w(w-1)(w-2)(w-3)(w-4) exceeds 64 bits and a build with overflow checks panics on every series with a full window.", "quantifier": "every pair of finite series of equal length, every window, every sorting of ties, every step", "why_tests_cant": "The range and invariances quantify over all orderings of arbitrarily long windows; tests fix one pair of series.", "anchors": ["src/correlation.rs: hoeffd", "src/statistic/distribution.rs: rank"]}
{"id": "C74", "title": "Rounding errors stay small", "statement": "Computed in f64 (round to nearest even, 53 bits, gradual underflow, overflow), with prices of magnitude at most M, the answers differ from the exact formulas by at most: sma (w+5)·2^-53·M; ewma 10(w+1)·2^-53·M and wilder 7w·2^-53·M at every bar, however long the series; macd (10(short+long)+25)·2^-53·M; mad 4(w+6)·2^-53·M; variance 15(w+7)·2^-53·M²; std_dev √(15(w+7)·2^-53)·M plus one rounding; and a linear number of units for the composed functions: wma, pwma, fwma 5w+2, dema 55(w+1), tema 185(w+1), t3 2400(w+1) for every volume factor, deli 150(w+1), elder_force 40(w+1) (units of the largest price times the largest volume), trima 2w+18, zlma 40(w+1)+9, hull 20w+20√w+40, tr 4, atr 21w+4, typical 2w+16, wcp 9, keltner 52w+35, starc, apo, elder_ray, qstick, heikin_ashi 17, and lrf 380w for windows from 2 to 1000, against the end of a least-squares line. The overlays drawn on a price chart: donchian's middle 5 (its edges exact), ichimoku's lines 5 and its first leading line 10 (the lagging line exact), chandelier and cks (21w+8)|c|+5, bbands 10w+15+|q|(√(15(w+7)·2^53)+8) for |q| ≤ 100, dpo w+9, alligator 14w and gator 14(w+w')+4. None overflows, std_dev never becomes NaN through a negative radicand, and hull's inner window is the exact integer square root.", "quantifier": "every series of finite f64 values bounded by M (M between 2^-1022 and about f64::MAX over the window), every window below 2^48, every bar, any length of series", "why_tests_cant": "Round-off depends on every bit of every input and, in a recursive average, could accumulate over unboundedly many bars; tests compare a few outputs to a few decimals.", "anchors": ["src/smooth.rs: sma, ewma, wilder, wma, pwma, fwma, dema, tema, trima, zlma, hull", "src/momentum.rs: macd, apo, elder_ray, qstick", "src/volatility.rs: tr, atr, typical, wcp, keltner, starc, heikin_ashi", "src/statistic/distribution.rs: variance, std_dev, mad", "src/trend.rs: chandelier, cks, ichimoku, dpo, alligator", "src/momentum.rs: gator", "src/volatility.rs: donchian, bbands"]}
{"id": "C75", "title": "Flat windows in f64", "statement": "If the last w values all equal a number that can be multiplied by w without rounding (an integer below 2^53/w, for instance), sma is exactly that number, variance and std_dev exactly 0 and zscore NaN. Without such spare bits none of this holds: on three bars at 102.4, sma is one unit in the last place above 102.4, std_dev is that unit and zscore of the last bar is exactly -1.", "quantifier": "every f64 series, window and bar whose last w values are equal, any such value with spare bits; and the stated counterexample", "why_tests_cant": "Whether a flat market reads as zero dispersion depends on the bits of the price and on the window; tests on round prices always see zero.", "anchors": ["src/smooth.rs: sma", "src/statistic/distribution.rs: variance, std_dev, zscore"]}
{"id": "C76", "title": "mama solves Ehlers' equations, in radians", "statement": "On finite data mama reports, from bar 6 on, the two averages of the solution of Ehlers' equations (4-bar smoothing, Hilbert transforms, homodyne discriminator, period limits, phase, gain) started from 0, and the equations have only one solution. The code measures the phase and the discriminator angle in radians while its constants (360, the floor of 1 on the phase change) are those of an algorithm in degrees: the suggested period is then 0 or larger than 229 in size, never within the limits 6 and 50, and the gain always exceeds fast/pi, so that with the default limits the slow limit 0.05 never has any effect.", "quantifier": "every finite series, all limits; for the idle limit every positive fast limit", "why_tests_cant": "A recursion over twelve coupled sequences; that a limit is never reached is a statement about all inputs.", "anchors": ["src/smooth.rs: mama"]}
{"id": "C77", "title": "Percent oscillators in f64 can exceed 100 by one unit in the last place", "statement": "In binary64 arithmetic rsi, tii and stc are, on every input (NaN and infinities included), NaN, +infinity or a number from 0 to 100 + 2^-46, which is the float next above 100; stochastic's %K and %D are so for bars with low <= close <= high. The excess really occurs: rsi of the bars 0.1, 0.3 with window 1 and %K of bars with high 0.3, low 0.1, close 0.3 are 100.00000000000001. Infinity occurs only by overflow: rsi is +infinity on the bars 0, 2^1020, and never where the data are small enough for 1000 * window * max|data| to be finite. crsi, the mean of two such values and a rank, never exceeds 100 (overflow aside): the excess is always rounded away.", "quantifier": "every series of f64 (for stochastic: every finite sane series), every window up to 2^53", "why_tests_cant": "Which inputs round up past 100 is erratic; a test on a few series sees 100 or less and suggests a bound that code comparing with 100 cannot rely on.", "anchors": ["src/momentum.rs: rsi, crsi, tii, stochastic, stc"]}
{"id": "C78", "title": "A change of currency or a stock split changes outputs only by the matching factor", "statement": "Multiplying all prices by k > 0 multiplies every price-like output (averages, bands, stops, true ranges, MACD lines, residuals) by k, every squared one (variance, mse, the numerators of swing indices) by the matching power, and leaves every ratio, percentage, rank, correlation, count and signal unchanged; it never turns an answer into a panic or NaN or back. Multiplying all volumes by k acts likewise on the volume indicators. In correlations and errors the two series may be in different units. The exceptions are exact: gri, a logarithm, is shifted by ln k / ln window; decay loses 1/window per period in any unit and does not scale; frama, mic, fisher, cks, hurst and rainbow start searches at f64::MAX and scale while the data stay below it (and, for fisher and rainbow, while the range is at least their floor of 0.000001).", "quantifier": "every function, every input including NaN and infinities, every k > 0 in real arithmetic and every power of two in 53-bit floating-point arithmetic without over- or underflow (frama, gri and rainbow: real arithmetic; rainbow: finite prices)", "why_tests_cant": "A test fixes one series in one currency; a hidden absolute constant (a tolerance, a floor, a start value) shows only on data of another magnitude.", "anchors": ["src/smooth.rs: all functions", "src/volatility.rs: all functions", "src/momentum.rs: all functions", "src/trend.rs: all functions", "src/volume.rs: all functions", "src/statistic/*.rs: all functions", "src/correlation.rs: all functions"]}
{"id": "C79", "title": "Raising prices never lowers an average or a band", "statement": "If every price of one series is at least the price of the same bar of another, then every value of sma, ewma, wma, pwma, fwma, wilder, trima, alma, kernel, typical, wcp, alligator, vwma and vwap of the first is at least that of the second, in the rounded arithmetic of f64 too, and one call panics exactly when the other does; likewise the channels of donchian and the lines of ichimoku (prices that are not NaN), the Heikin-Ashi candles (non-negative prices) and decay. In particular the average of the lows is never above the average of the highs. A NaN or infinite price never makes an average cross another: the comparison fails only if both values are numbers. The averages with negative weights are different: raising a price can lower hull.", "quantifier": "every pair of series of equal length, NaN and infinities included, every window, every rounding of the arithmetic including binary64; non-negative (or NaN) volumes", "why_tests_cant": "Rounding can turn equal real values into values that differ either way; that no sequence of roundings, overflows or NaN inverts the order of two averages is a statement about all pairs of series.", "anchors": ["src/smooth.rs: sma, ewma, wma, pwma, fwma, wilder, trima, alma, kernel, hull", "src/volatility.rs: typical, donchian, heikin_ashi, wcp", "src/trend.rs: alligator, ichimoku, decay", "src/volume.rs: vwma, vwap"]}
{"id": "C80", "title": "Turning the chart upside down turns every indicator upside down", "statement": "Replace every price by its opposite (so that the highs become the opposites of the lows). Then, in the rounded arithmetic of f64 as well as in exact arithmetic and for every input including NaN and infinities, one call panics exactly when the other does and: all moving averages, channels, bands and differences of averages change sign with the upper and lower line changing places (sma ... mama, kama, frama, bbands, keltner, starc, donchian, fbands, ichimoku, chandelier, alligator, macd, apo, cmo, qstick, dpo, elder_ray, pgo, cci, si, asi, rainbow, vwap, vwma, elder_force, ad, cmf, zscore, skew); measures of range, dispersion and relative change stay the same number (tr, atr, mass, cvi, gri, chop, vhf, variance, std_dev, mad, kurtosis, entropies, hv, cc_hv, hurst, roc, cfo, kst, special_k, vpt, pvi, nvi, bw_mfi, forecast errors, rsq, dcor, beta); the two lines of aroon, adx, vortex and rwi change places; pcc changes sign when one series is mirrored. The signs of zeros are not compared. In exact arithmetic the oscillators between 0 and 100 (rsi, stochastic, tii, wpr) give the complement. obv is not symmetric: an unchanged close counts as a rise.", "quantifier": "every series, NaN and infinities included, every window and parameter, every rounding (symmetric about zero) including binary64; finite series with non-empty ranges for the complements", "why_tests_cant": "A comparison with the wrong strictness, a swapped high or low or an asymmetric initial value only shows on inputs that reach it; the symmetry is a statement about all charts and all roundings.", "anchors": ["src/smooth.rs: all functions", "src/volatility.rs: all functions except relative_vol, inertia, heikin_ashi, gkyz_hv", "src/momentum.rs: macd, apo, cmo, rsi, wpr, stochastic, tii, cci, roc, kst, rainbow, ...", "src/trend.rs: aroon, adx, vortex, rwi, ichimoku, chandelier, hurst, asi, dpo, alligator", "src/volume.rs: vwap, vwma, ad, cmf, vpt, pvi, nvi, elder_force, obv", "src/statistic/distribution.rs, src/statistic/regression.rs, src/correlation.rs"]}
{"id": "C81", "title": "Signs and the order of bands survive rounding", "statement": "Whatever the data and however the arithmetic rounds: variance, std_dev, mad, approx_entropy, rsq, dcor, ulcer, hv, cc_hv, gkyz_hv, relative_vol, rsi, tii, rwi and gator never report a negative number; nor do the averages sma, ewma, wilder, wma, pwma, fwma, trima, kernel, vwma and the indices pvi and nvi, and cv, of non-negative prices (a zero they report is then never -0). tr and atr are never negative if no close is NaN or if no low is above its high; if both fail, tr can be negative. The lower band of bbands is never above the upper one, and for prices that are numbers of the format the middle line is between them, for each of the thirteen averages; the same for keltner and starc, if no close is NaN, and for donchian, if no price is NaN and no low is above its high; with NaN prices donchian can cross.", "quantifier": "every series, NaN and infinities included except where stated, every window, every number of deviations that is not negative, every average, every rounding including binary64 with overflow", "why_tests_cant": "Rounded sums of squares minus rounded means, overflow to infinity and NaN could produce a negative dispersion or crossed bands on some input; only a proof covers every series and every rounding.", "anchors": ["src/statistic/distribution.rs: variance, std_dev, mad, cv, approx_entropy", "src/correlation.rs: rsq, dcor", "src/volatility.rs: tr, atr, std_dev, bbands, keltner, starc, donchian, hv, cc_hv, gkyz_hv, relative_vol", "src/momentum.rs: rsi, tii, gator", "src/trend.rs: ulcer, rwi", "src/smooth.rs: sma, ewma, wilder, wma, pwma, fwma, trima, kernel, ma", "src/volume.rs: vwma, pvi, nvi"]}
{"id": "C82", "title": "Raising all prices by the same amount shifts averages and bands and leaves oscillators unmoved", "statement": "Add the same amount c to every price (and nothing to volumes), in exact arithmetic. Then one call panics exactly when the other does and: averages, bands, stops and other lines drawn on the price chart are raised by c (sma, ewma, dema, tema, wilder, wma, pwma, fwma, trima, hull, zlma, lrf, alma, kernel, hwma, ssf, t3, median, quantile, bbands, keltner, starc, donchian, typical, wcp, heikin_ashi, alligator, supertrend, psar, chandelier, ichimoku, vwap, vwma); measures of dispersion, range, change and correlation do not move at all (variance, std_dev, zscore, mad, kurtosis, skew, entropies, mse, rmse, mae, mda, mase, tr, atr, mass, cvi, gri, chop, vhf, relative_vol, inertia, rsi, macd, apo, cmo, wpr, stochastic, stc, kdj, cci, tsi, tii, qqe, si, asi, psych, qstick, ultimate, pgo, elder_ray, relative_vigor, bal_power, gator, deli, adx, vortex, rwi, aroon, shinohara, dpo, hurst, kvo, twiggs, ad, cmf, tvi, ease, obv, bw_mfi, elder_force); pcc, rsq, srcc, krcc, hoeffd and dcor do not move even if the two series are raised by different amounts. roc (a ratio) and kama (which starts from 0) do not follow.", "quantifier": "every series whose prices are not -0, NaN and infinities included, every amount c, every window and parameter; positive volumes for vwap and vwma; exact arithmetic", "why_tests_cant": "A hidden absolute constant, an unnormalised weight or a wrong initial value only shows when levels change; the claim is about every series and every shift.", "anchors": ["src/smooth.rs: all functions except vidya, vma, kama, frama, mama, mdma", "src/volatility.rs: bbands, keltner, starc, donchian, tr, atr, typical, wcp, heikin_ashi, ...", "src/momentum.rs: rsi, macd, apo, cmo, wpr, stochastic, kdj, cci, tsi, roc, ...", "src/trend.rs: adx, vortex, rwi, aroon, psar, supertrend, ichimoku, chandelier, hurst, ...", "src/volume.rs: kvo, twiggs, ad, cmf, tvi, ease, obv, bw_mfi, elder_force, vwap, vwma", "src/statistic/distribution.rs, src/statistic/regression.rs, src/correlation.rs"]}
{"id": "C83", "title": "Superposition: the average of a blend is the blend of the averages", "statement": "For two finite series x, y of equal length and any factors s, t: sma, ewma, wilder, wma, pwma, fwma, trima, lrf, alma, kernel, dema, tema, t3, hull, zlma, hwma, ssf, macd, apo and dpo of the series s*x + t*y equal s times the answer for x plus t times the answer for y, bar by bar, and are NaN at the same bars; qstick likewise when opens and closes are both blended. In particular the average of a spread is the spread of the averages. The adaptive kama does not superpose.", "quantifier": "all finite series of equal length, all real factors, all windows and parameters for which the call answers; exact arithmetic", "why_tests_cant": "Linearity is a statement about all pairs of series and all factors; a clamp, an absolute constant, a comparison or a state that forgets to scale breaks it only on some inputs.", "anchors": ["src/smooth.rs: sma, ewma, wilder, wma, pwma, fwma, trima, lrf, alma, kernel, dema, tema, t3, hull, zlma, hwma, ssf, kama", "src/momentum.rs: macd, apo, qstick", "src/trend.rs: dpo"]}
{"id": "C84", "title": "How far each average lags behind a trend", "statement": "On prices that rise (or fall) by the same amount every bar, each average reports, from its first value on, the price a fixed number of bars ago: sma, ewma, pwma and trima (w-1)/2 bars, wma (w-1)/3, fwma (F(w+3)-w-2)/(F(w+2)-1) with F the Fibonacci numbers, t3 with factor f 3(1-f)(w-1)/2, hull (sqrt(w)-1)/3 and for even windows 1/3 less, zlma 0 for odd and 1/2 for even windows; dema, tema and lrf do not lag at all. Wilder's average starts (w-1)/2 bars late and its lag grows to w-1. macd and apo are constant, the slope times (long-short)/2; dpo is constant; cfo is 0.", "quantifier": "every straight line of prices (any start, any slope), every length and window; exact arithmetic", "why_tests_cant": "The lag is a property of all windows and all lines; tests on recorded prices cannot separate it from noise, and an off-by-one in a window or weight shifts it by a fraction of a bar.", "anchors": ["src/smooth.rs: sma, ewma, wilder, wma, pwma, fwma, trima, lrf, dema, tema, t3, hull, zlma", "src/momentum.rs: macd, apo, cfo", "src/trend.rs: dpo"]}
{"id": "C85", "title": "Recursive averages forget the past geometrically", "statement": "Feed an indicator two different histories that end in the same bars, prices of magnitude at most M. At the j-th common bar (counting from 0) the outputs differ by at most: ewma 2M(1-2/(w+1))^(j+1); wilder 2M(1-1/w)^(j+1); atr 2M(1-1/w)^j; macd and apo the sum of the bounds of their two averages; dema and tema the ewma bound times 3+α(j+1), 7+4α(j+1)+α²(j+1)(j+2)/2 with α=2/(w+1); zlma 6M(1-2/(w+1))^(j+1-(w-1)/2); rsi 200M(1-1/w)^j/m where the average absolute move is at least m. All of these tend to 0, so for every tolerance there is a number of common bars after which the earlier history no longer matters.", "quantifier": "every pair of histories of at least one window, every common continuation, every window, every common bar", "why_tests_cant": "The claim compares two runs over arbitrary different pasts of arbitrary length, and bounds a limit.", "anchors": ["src/smooth.rs: ewma, wilder, dema, tema, zlma", "src/momentum.rs: macd, apo, rsi", "src/volatility.rs: atr"]}
{"id": "C86", "title": "A window of one bar", "statement": "With a window of 1 and finite prices, sma, ewma, wilder, wma, pwma, trima, dema, median and every quantile return the prices themselves from the first bar on; variance, std_dev and mad return 0 at every bar; lrf returns NaN at every bar (no line through one point). In every rounding, f64 included: nothing is lost to round-off (dema: wherever twice the price is representable).", "quantifier": "every series of finite numbers of the format, every rounding mode of the model, every finite quantile parameter", "why_tests_cant": "The boundary window must give back every bit of every price; tests try a few prices.", "anchors": ["src/smooth.rs: sma, ewma, wilder, wma, pwma, trima, dema, lrf", "src/statistic/distribution.rs: variance, std_dev, mad, median, quantile"]}
{"id": "C87", "title": "The order of the bars inside the window does not matter", "statement": "sma, variance, std_dev, mad, cv, skew, kurtosis, quantile, median and the donchian bounds at a bar depend only on which values the window holds, not on their order; pcc, rsq, srcc, dcor, hoeffd, vwma (and krcc when the second series has no ties) depend only on which points (x, y) the window holds. In f64 quantile, median and donchian still return the very same number; sma, mad, variance and std_dev move by at most an explicit rounding bound, and sma does move (2^54,1,1,1 against 1,1,1,2^54). With ties krcc depends on the order, contrary to its definition.", "quantifier": "every pair of finite series whose last w values (or points) up to the bar are permutations of each other, whatever the rest; every window, every bar after the warm-up; every valid unstable sort", "why_tests_cant": "There are w! orders of each window and unboundedly many windows.", "anchors": ["src/smooth.rs: sma", "src/statistic/distribution.rs: variance, std_dev, mad, cv, skew, kurtosis, quantile, median", "src/correlation.rs: pcc, rsq, srcc, krcc, dcor, hoeffd", "src/volume.rs: vwma", "src/volatility.rs: donchian"]}
{"id": "C88", "title": "Oscillators in a steady trend", "statement": "While prices rise from bar to bar the bounded oscillators sit at their upper end, and while prices fall at their lower end: rsi, mfi, psych and tii are 100 (0), cmo and tsi 100 (-100), aroon is (100, 0) ((0, 100)), adx is 100 with a positive plus and a zero minus directional index (the reverse when falling), ulcer is 0 for rising positive prices. wpr is 0 and both lines of stoch are 100 while highs rise and bars close at their highs (-100 and 0 while lows fall and bars close at their lows). krcc and srcc of two rising series are 1, krcc of a rising and a falling one is -1.", "quantifier": "every strictly rising or falling series, every window, every bar past the warm-up", "why_tests_cant": "A test picks one trend, one window; division by a vanishing loss or a boundary comparison shows only for particular lengths.", "anchors": ["src/momentum.rs: rsi, cmo, tsi, psych, tii, wpr, stoch", "src/trend.rs: aroon, adx, ulcer", "src/volume.rs: mfi", "src/correlation.rs: krcc, srcc"]}
{"id": "C89", "title": "Ratio indicators keep their accuracy at every price level in binary64", "statement": "Indicators that divide one price difference by another lose no accuracy because prices are large compared with their moves: computed in binary64 with rounding at every operation, wpr, both lines of stoch, ultimate and bal_power stay within an absolute error of a few units of 2^-53 (growing linearly in the windows) of the exact value whatever the size of the prices, and vhf, both lines of vortex, cog (prices not negative) and roc within such a relative error. cmo does not share this: it subtracts totals accumulated since the first bar, so one large past move makes it report NaN where the exact value is 100.", "quantifier": "every list of finite binary64 prices up to 2^900 in magnitude, every window below 2^32, every bar past the warm-up whose exact denominator is not zero", "why_tests_cant": "The error depends on the ratio of price level to price move, on cancellation and on the window; tests with fixed tolerance cover only the levels of their samples.", "anchors": ["src/momentum.rs: wpr, stoch, ultimate, bal_power, roc, cog, cmo", "src/volatility.rs: vhf", "src/trend.rs: vortex"]}
{"id": "C90", "title": "On whole-number series totals are exact and results rounded once", "statement": "When prices and volumes are whole numbers (cents, ticks, shares) small enough for the totals to stay within 2^53, binary64 rounding never reaches the totals: obv and tvi are exact at every bar, sma, vwma, cog, vhf, both lines of vortex and shinohara and the middle of donchian are the exact quotient rounded a single time, cmo is the exact ratio rounded, multiplied by 100 and rounded again, so incremental running totals do not drift however long the series. For any finite prices psych is the exact percentage rounded once, and krcc without ties, for windows up to 13777, the exact share of concordant minus discordant pairs rounded once.", "quantifier": "every list of whole-number prices and volumes, every window, with the stated product of window (or length) and magnitude at most 2^53; every bar past the warm-up", "why_tests_cant": "A test compares a few bars with a tolerance; that there is no drift at all, for any length, needs an invariant on the running totals.", "anchors": ["src/smooth.rs: sma", "src/volume.rs: obv, tvi, vwma", "src/momentum.rs: psych, cmo, cog", "src/trend.rs: shinohara, vortex", "src/volatility.rs: vhf, donchian", "src/correlation.rs: krcc"]}
{"id": "C91", "title": "Quotient indicators in double precision are as accurate as their denominator is large", "statement": "In IEEE double precision, rsi, tsi, tii, ppo, disparity, trix, pgo, cci, zscore, cv, vhf and cvi report the exact quotient they are defined as to within K units of rounding (2^-53) times a power of the ratio between the largest price in the input and the exact denominator, with an explicit K that grows linearly in the window. The bound is claimed whenever it is at most 1 and the denominator is not zero; nothing is reported wrongly by more than that.", "quantifier": "every price series of doubles bounded by M with M between 2^-1022 and 2^800 (2^400 for zscore and cv), every window below 2^32 that fits the series, every bar after the warm-up", "why_tests_cant": "A test compares a few outputs with a tolerance chosen by hand. The bound must hold for every series, including the nearly flat ones where the denominator cancels and a hand-picked tolerance is wrong.", "anchors": ["src/momentum.rs: rsi, tsi, tii, ppo, disparity, trix, pgo, cci", "src/volatility.rs: vhf, cvi", "src/statistic/distribution.rs: zscore, cv"]}
{"id": "C92", "title": "Sums do not depend on the zero the standard library starts from", "statement": "The standard library has summed f64 iterators from +0.0 in some versions and from -0.0 in others. The two sums of a list are the same float as soon as one term is not -0.0; if all terms are -0.0 (or there is none) they are the two zeros. In value they always agree, and on a non-empty window of prices none of which is -0.0 they are identical.", "quantifier": "every list of floats, including infinities and NaN, in every rounding", "why_tests_cant": "A test suite runs against one compiler version; which start value is used changes between versions and the difference shows only on inputs of signed zeros.", "anchors": ["src/smooth.rs: sma, ewma, wilder", "src/statistic/distribution.rs: _std_dev, kurtosis, skew", "src/correlation.rs: pcc"]}
{"id": "C93", "title": "The largest window before a product of machine integers overflows", "statement": "On a 64-bit target with overflow checks, wma and lrf return normally only for windows below 2^32 and panic at the call for every larger one; kurtosis works up to a window of 2642245 and panics at the call from 2642246 on, even if the data is shorter; skew and krcc work up to 2^32 and dcor below 2^32, and panic beyond as soon as one window fits the data. Below the limits the result is the one computed without any bound on integers.", "quantifier": "every input series and every window", "why_tests_cant": "Reaching the limit needs a window of millions or billions of bars; no test does, and a few sampled windows cannot show that no smaller one overflows.", "anchors": ["src/smooth.rs: wma, lrf", "src/statistic/distribution.rs: kurtosis, skew", "src/correlation.rs: krcc, dcor"]}
{"id": "C94", "title": "Volume weighted prices, volume indices and rsi are accurate relative to their own size in double precision", "statement": "In IEEE double precision, for prices between 2^-400 and 2^400 and volumes that are 0 or in that range: vwma is within 4w+4 units of rounding (2^-53) of the volume weighted mean of its window, relative to that mean; vwap is within 4m+10 units, where m is the number of bars since the last reset, so the error starts again with each session; pvi and nvi after i bars are within 4i units of 100 times the product of the price changes that count, as long as the index stays between 2^-900 and 2^900; and rsi at bar i is within 12i+6 units of its exact value, relative to that value, however small the price changes are compared with the prices, as long as the averages of gains and losses do not decay below 2^-900.", "quantifier": "every series of prices and volumes in the stated ranges, every window below 2^32, every series of up to 2^32 bars and every sorted reset list", "why_tests_cant": "A test compares a few outputs with a tolerance chosen after the fact. It cannot show that no combination of large prices, tiny changes, zero volumes and long sessions makes the relative error exceed a bound that depends on the number of bars alone.", "anchors": ["src/volume.rs:vwma", "src/volume.rs:vwap", "src/volume.rs:pvi", "src/volume.rs:nvi", "src/momentum.rs:rsi", "src/smooth.rs:wilder"]}
{"id": "C95", "title": "A refused window costs one item, not the call", "statement": "The statistics that can panic on the values they are given (srcc and hoeffd on a NaN, approx_entropy and sample_entropy on too many matches, skew on a window of one bar) do so when the item of the offending window is pulled from the iterator, not before: pulling the first k items gives exactly what the function reports for the first k bars, the warm-up is always delivered, and the item of a bar panics if and only if the function panics on the window of that bar alone. A NaN in one bar therefore makes exactly the w items whose windows contain it panic; the items before and after it can be had.", "quantifier": "all series, windows, bars, numbers of items pulled, sorters that meet their contract; for the entropies finite values and any given tolerance", "why_tests_cant": "the unit tests collect the whole iterator and never see a panic in the middle; the statement is about every prefix that can be pulled and every bar", "anchors": ["src/statistic/distribution.rs: skew, approx_entropy, sample_entropy", "src/correlation.rs: srcc, hoeffd"]}
{"id": "C96", "title": "Rank statistics and counting indicators see only the order of the values", "statement": "If two series compare alike bar by bar (as prices and their logarithms, or cubes, do), then rank in every mode but ordinal, srcc, hoeffd, krcc (with or without ties), aroon, the psychological line, obv (as a function of the closes), pvi and nvi (as functions of the volumes) and mda report exactly the same values, to the last bit, for the one as for the other. Only comparisons inside one window (srcc, hoeffd, krcc, aroon) or between neighbouring bars (psych, obv, pvi, nvi, mda) matter, and rank correlations do not depend on how the sort treats ties.", "quantifier": "all series without NaN (finite and without minus zero where differences are taken), all windows, every rounding of the arithmetic including binary64, any two sorters that meet their contract", "why_tests_cant": "it relates the outputs for two arbitrary inputs; that a difference of two distinct numbers never loses its sign to rounding, underflow or overflow is a fact about all pairs of numbers", "anchors": ["src/statistic/distribution.rs: rank", "src/correlation.rs: srcc, hoeffd, krcc", "src/trend.rs: aroon", "src/momentum.rs: psych", "src/volume.rs: obv, pvi, nvi", "src/statistic/regression.rs: mda"]}
{"id": "C97", "title": "The functions agree with each other", "statement": "Outputs of different functions on the same data satisfy the identities a user takes for granted: std_dev squared is variance; mad is at most std_dev and median is within one mad of sma; zscore times std_dev is the distance from sma; cv times sma is std_dev; std_dev is at most half the donchian range and the default Bollinger bands are four std_dev apart; lrf is three times wma less twice sma; vwma with equal volumes is sma; cog is (w+1)(wma/(2 sma) - 1); wpr is the raw %K of stoch less 100; apo is macd and ppo is macd in percent of the long ewma; the elder_ray lines differ by the range of the bar; qstick is ewma(close) less ewma(open); cci of a single series times 0.015 mad is the distance from sma; ad grows over w bars by cmf times their volume; with unit volumes obv grows over w bars by w(psych/50 - 1); ichimoku's conversion line is the middle of the donchian bands; rsq is the square of pcc; rmse squared is mse and mae is at most rmse.", "quantifier": "all finite series, all windows, every bar from the end of the warm-up on, in exact arithmetic", "why_tests_cant": "each equation relates two independent implementations on every input; a test compares them on one series", "anchors": ["src/statistic/distribution.rs: std_dev, variance, mad, median, zscore, cv", "src/statistic/regression.rs: mae, mse, rmse", "src/smooth.rs: lrf, wma, sma", "src/momentum.rs: cog, wpr, stoch, macd, apo, ppo, elder_ray, qstick, cci, psych", "src/volume.rs: ad, cmf, obv, vwma", "src/volatility.rs: donchian, bbands, typical", "src/trend.rs: ichimoku", "src/correlation.rs: pcc, rsq"]}
{"id": "C98", "title": "How large a statistic of a window can get", "statement": "Whatever the data: zscore is at most sqrt(w-1) in absolute value (and exactly 1 or -1 for a window of two different values); skew is at most sqrt(w) in absolute value; kurtosis lies between -2(w-1)/(w-3) and (w-1)^2/(w-3) and obeys Pearson's inequality with skew; cv of non-negative data lies between 0 and sqrt(w-1). On positive prices cog lies between -w and -1, disparity, ppo and roc are above -100 and ulcer is below 100. On a single series vhf lies between 0 and 1. With a simple average and k deviations, k^2 >= w-1, no price leaves the Bollinger bands: a threshold such as |zscore| > 3 can never trigger on a window of ten bars or less.", "quantifier": "all finite series, all windows, every bar from the end of the warm-up on (non-flat windows where the statistic is NaN on flat ones), in exact arithmetic", "why_tests_cant": "a bound holds for every window contents; the extreme cases are not the ones a sample contains", "anchors": ["src/statistic/distribution.rs: zscore, skew, kurtosis, cv", "src/momentum.rs: cog, disparity, ppo, roc", "src/trend.rs: ulcer", "src/volatility.rs: vhf, bbands"]}
{"id": "C99", "title": "An error in the data is not amplified beyond a fixed multiple", "statement": "If two series differ by at most e at every bar, however long they are and wherever the differences lie: sma, ewma, wilder, wma, pwma, fwma, trima, alma, kernel, median, quantile, std_dev, typical, wcp and Donchian's channel differ by at most e at every bar and are NaN at the same bars; macd, apo, mad, tr and atr by at most 2e; dema, hull, zlma and the Bollinger bands at two deviations by at most 3e; Keltner's bands by at most 5e; tema by at most 7e; t3 by at most (1+2g)^3 e for volume factor g. No multiple of e bounds the change of the variance.", "quantifier": "all pairs of finite series of equal length, every error bound e, all windows, every bar, in exact arithmetic", "why_tests_cant": "a test perturbs a sample in a few places; the claim is about every perturbation of every series, including ones that accumulate over a long recursion", "anchors": ["src/smooth.rs: sma, ewma, wilder, wma, pwma, fwma, trima, alma, kernel, dema, tema, t3, hull, zlma", "src/statistic/distribution.rs: std_dev, mad, median, quantile, variance", "src/momentum.rs: macd, apo", "src/volatility.rs: tr, atr, typical, wcp, donchian, keltner, bbands"]}
{"id": "C100", "title": "What an extreme reading means", "statement": "An indicator with a bounded scale sits at the end of its scale exactly when the bars are of one kind. rsi is 100 (0) iff the price has never fallen (risen) since the first bar and has risen (fallen) overall; cmo is 100 (-100) iff this holds over the window; psych is 100 iff no step of the window is down and 0 iff all are; tii is 100 (0) iff no price of the half window is below (above) its average and one is above (below); wpr is 0 (-100) iff the close is the window's highest high (lowest low); the fast stochastic is 100 iff the last three closes are the highs of their windows; aroon is 100 iff the newest bar is an extreme of the window and 0 iff only the oldest is; ulcer is 0 iff each price of the window is the highest of its own window; mfi is 100 (0) iff the typical price never falls (rises) over the window and rises (falls) overall; cmf is 1 (-1) iff every bar closes at its high (low); zscore is ±√(w-1) iff all other values of the window are equal and the newest is above (below) them; pcc is ±1 iff one series is an increasing (decreasing) linear function of the other over the window; mse, rmse and mae are 0 iff every estimate so far was right; mda is 1 iff every direction was.", "quantifier": "all finite series (with the stated positivity or non-degenerate ranges), all windows, every bar from the first defined one", "why_tests_cant": "an equivalence over all histories: the converse direction says that no other history, of any length, produces the reading", "anchors": ["src/momentum.rs: rsi, cmo, psych, tii, wpr, stochastic", "src/trend.rs: aroon, ulcer", "src/volume.rs: mfi, cmf", "src/statistic/distribution.rs: zscore", "src/correlation.rs: pcc", "src/statistic/regression.rs: mse, rmse, mae, mda"]}
{"id": "C101", "title": "A series that repeats gives a reading that repeats; a cycle that fits the window disappears", "statement": "When the data repeat every p bars, every function whose value depends on the last W bars only (67 functions: averages, statistics, correlations, bands and windowed indicators) repeats every p bars too, from bar W on, whatever p is. When the data repeat every w bars, the functions over a window of w bars that do not depend on the order of the bars report one and the same value from the first full window on: sma, variance, std_dev, mad, cv, skew, kurtosis, quantile, median, pcc, rsq, srcc, dcor, hoeffd, vwma, psych, cmf, mfi, vhf, hv, both bounds of donchian and both lines of vortex. roc over one period is 0 and cmo over one period is 0 (unless the cycle is flat).", "quantifier": "all periods p, all windows, all series that repeat; first part in every arithmetic, the second in exact arithmetic (quantile, median and donchian in every rounding)", "why_tests_cant": "quantifies over all periods, windows, lengths and values of a cycle; a test checks a few waves", "anchors": ["src/smooth.rs: sma", "src/statistic/distribution.rs: variance, std_dev, mad, cv, skew, kurtosis, quantile, median", "src/correlation.rs: pcc, rsq, srcc, dcor, hoeffd", "src/volume.rs: vwma, cmf, mfi", "src/momentum.rs: psych, roc, cmo", "src/volatility.rs: vhf, hv, donchian", "src/trend.rs: vortex"]}
{"id": "C102", "title": "Parameters act in the documented direction", "statement": "Raising a parameter never moves a reading the wrong way. More deviations never lower std_dev or hv and never narrow the Bollinger bands (whatever the average; the middle line stays); a larger multiplier never narrows the STARC bands and never tightens the chandelier exits or the Chande Kroll stops; a longer window never narrows the Donchian channel; a higher quantile is never lower; the swing index is inversely proportional to its limit.", "quantifier": "all data, windows, averages and pairs of parameter values; std_dev, hv, bbands, starc, chandelier and donchian in every rounding (including binary64), quantile, cks and si in exact arithmetic", "why_tests_cant": "a monotonicity statement over all data and all pairs of parameters; in floating point it needs every rounding step to be monotone", "anchors": ["src/volatility.rs: std_dev, bbands, starc, hv, donchian", "src/trend.rs: chandelier, cks", "src/statistic/distribution.rs: quantile", "src/momentum.rs: si"]}
{"id": "C103", "title": "The most extreme statistic of a window means one odd value out", "statement": "kurtosis never exceeds the window length, and equals it exactly when all values of the window but one are equal; it reaches its least value -2(w-1)/(w-3) exactly when all values are equally far from their mean. skew is sqrt(w) in absolute value exactly when all values but one are equal, and zscore is sqrt(w-1) in absolute value exactly when all bars of the window before the last are equal.", "quantifier": "all finite data, all windows (w >= 4 for kurtosis, 3 for skew, 2 for zscore) that are not flat, every bar; exact arithmetic", "why_tests_cant": "sharp bounds with their cases of equality over all windows of real numbers; samples show neither that a bound is never exceeded nor that nothing else attains it", "anchors": ["src/statistic/distribution.rs: kurtosis, skew, zscore"]}
{"id": "C104", "title": "When the price settles, averages settle on it and differences vanish", "statement": "Feed an endless series of prices that tends to a limit c, bar by bar. The latest value of every average (sma, ewma, wilder, wma, pwma, fwma, trima, alma, kernel, dema, tema, t3, hull, zlma, lrf, kama, frama, both lines of mama), of the median and every quantile, of typical and wcp, and of all lines of donchian, bbands and keltner tends to c; that of macd, apo, ppo, roc, trix, pmo, coppock, dpo, ulcer, std_dev, variance, mad, tr and atr tends to 0; cog tends to -(w+1)/2. Whatever happened before the price settled does not matter.", "quantifier": "every convergent endless series of real prices, every window and parameter in the stated range; kama and frama for series without a flat window; ratios for limits other than 0", "why_tests_cant": "A limit is a statement about infinitely many bars; a test sees a finite prefix and cannot tell slow convergence from a permanent bias.", "anchors": ["src/smooth.rs: all averages", "src/momentum.rs: macd, apo, ppo, roc, trix, pmo, coppock, cog", "src/volatility.rs: tr, atr, typical, wcp, donchian, bbands, keltner", "src/statistic/distribution.rs: std_dev, variance, mad, median, quantile", "src/trend.rs: dpo, ulcer"]}
{"id": "C105", "title": "A missing price is reported, not papered over", "statement": "As long as a NaN price (or volume) is one of the bars a windowed average, dispersion, regression, correlation or volatility reads, the reported value is NaN: for the w bars from that bar on (one more where returns are taken, two windows for beta, 255 bars for kernel). Together with C63 the gap shows for exactly those bars. The exceptions are exact: the Donchian channel reports the greatest and least of the remaining numbers, and median and the psychological line can report a number for a window with a NaN in it.", "quantifier": "all series, windows and parameters, every position of the NaN, every later bar, any arithmetic in which NaN propagates (hv, cc_hv and donchian: every rounding of the float model)", "why_tests_cant": "A test feeds a few gaps; that no other prices, window or position hide the NaN (min/max, comparisons and early exits do ignore it elsewhere in this crate) needs all inputs.", "anchors": ["src/smooth.rs: sma, wma, pwma, fwma, lrf, alma, trima, hull, kernel", "src/statistic/distribution.rs: variance, std_dev, zscore, mad, cv, kurtosis, skew, median", "src/correlation.rs: pcc, rsq, perf, beta, dcor", "src/volatility.rs: std_dev, bbands, typical, hv, cc_hv, donchian", "src/momentum.rs: cfo, cog, psych", "src/volume.rs: vwma, cmf"]}
{"id": "C106", "title": "Feeding the output of one indicator to another", "statement": "Windowed averages, dispersions, cfo and cog can be fed with the raw output of another indicator: on a series that starts with k NaNs they report NaN for k bars and from there on, bar by bar, what they report for the values alone, so warm-ups add up and nothing else changes. Recursive averages and what is built on them cannot: with even one leading NaN every value they ever report is NaN, so the caller has to drop the warm-up first.", "quantifier": "all series of at least one window, all numbers of leading NaNs, windows and parameters, any arithmetic in which NaN propagates", "why_tests_cant": "A chained call in a test covers one pair of indicators and one warm-up; that the padded and the unpadded call agree on every bar, or never recover, is a statement about all series.", "anchors": ["src/smooth.rs: sma, wma, pwma, fwma, lrf, trima, ewma, wilder, dema, tema, t3, zlma, mdma, hwma, ssf", "src/statistic/distribution.rs: variance, std_dev, zscore, mad, cv, kurtosis, skew", "src/momentum.rs: cfo, cog, macd, ppo, disparity, trix, tsi"]}
{"id": "C107", "title": "Data of an integer type", "statement": "Prices and volumes may be given as machine integers. An integer of at most 2^53 in size is used exactly; a larger one (up to 128 bits) as a double within one part in 2^53 of it, and a smaller integer never becomes a larger double. quantile and median of integers are, to the bit, those of the converted data, even where the conversion merges different integers. rank, srcc and hoeffd compare the integers themselves: every rank is the count over the integers, series ordered alike give the same result however large the integers, and up to 2^53 the result is that of the converted data. Beyond it the two differ: 2^53 and 2^53 + 1 are ranked 1 and 2 as integers but tie as doubles.", "quantifier": "all lists of integers, all windows up to 2^53, all percentages, all rank modes but Ordinal, all sorting routines the standard library may use; the conversion in binary64 for all integers below 2^128", "why_tests_cant": "The generic type parameter has as many instances as there are machine integers, and the lists are unbounded; the collisions happen only beyond 2^53, where no test looks.", "anchors": ["src/statistic/distribution.rs: quantile, median, rank, quickselect", "src/correlation.rs: srcc, hoeffd"]}
{"id": "C108", "title": "Where the series starts", "statement": "Dropping the first bars of a series moves every later value of obv, vpt, ad (both forms), asi and tvi by one constant (tvi from the first remaining bar that moves more than the tick), multiplies every later value of pvi and nvi by one constant, and leaves mse, mae, mape and smape an average of a fixed contribution of the dropped bars and what the rest alone reports; and vwap at a bar is, to the bit, what a fresh call on the bars since the last reset reports for that bar.", "quantifier": "every series and number of dropped bars, finite values with exact arithmetic for the running totals (nonzero prices for vpt, pvi, nvi and mape, high and low apart for ad, a swing at every bar for asi); every arithmetic, every strictly increasing list of resets and every bar for vwap", "why_tests_cant": "a test compares one cut of one series; that differences of a running total do not depend on where the data begins is a statement about every pair of histories with a common end", "anchors": ["src/volume.rs: obv, vpt, ad, tvi, pvi, nvi, vwap", "src/trend.rs: asi", "src/statistic/regression.rs: mse, mae, mape, smape"]}
{"id": "C109", "title": "Builds without overflow checks", "statement": "pwma, kurtosis, skew, approx_entropy, sample_entropy and hoeffd do integer arithmetic on the window. Compiled with overflow checks they panic when it does not fit; compiled without (the default release profile) it wraps. Whenever the checked build returns a series, the unchecked one returns the same series. Where the checked build refuses, the unchecked one answers with something that is not the statistic: pwma with a window of 64 is a weighted mean with other weights than Pascal's; kurtosis with windows 1 and 2 and skew with window 1 report NaN on every bar; kurtosis with windows from 2642246 to 2^32 is smaller than the kurtosis of every window that is not flat; hoeffd with windows 1 to 3 never reports a finite number, and with windows from 7134 to 2^32 is Hoeffding's D scaled by a factor above 1; approx_entropy of a window as long as the run is NaN, sample_entropy is 0. Runs longer than the window panic in both builds.", "quantifier": "all series, all windows in the stated ranges, all tolerances and run lengths, every admissible sort for hoeffd", "why_tests_cant": "Tests run with overflow checks on, so they exercise a different program than the one users ship; the windows where they differ are too large or too small to be tried.", "anchors": ["src/smooth.rs: pwma", "src/statistic/distribution.rs: kurtosis, skew, approx_entropy, sample_entropy", "src/correlation.rs: hoeffd"]}
{"id": "C110", "title": "What one more bar does", "statement": "From one bar to the next, sma moves by the difference of the bar that enters and the bar that leaves over the window, hence by no more than the range of those bars over the window; wma moves by 2/(w+1) of the distance from the previous plain mean to the new bar; ewma, wilder and atr move by a fixed share of the distance to the new value; ewma, wilder and kama never go past the new price, while dema can. variance moves by the change times the sum of the two distances from the means, over the window. psych moves by at most 100/w. rsi rises when the price rises (unless it is at 100), falls when it falls (unless at 0) and stays when the price stays. A high at or above the upper donchian line becomes the line, and nothing else raises it. obv and vpt move by their term for the bar, ad by at most the bar's volume, mse and mae by the distance to the new error over the number of bars.", "quantifier": "all finite series, all windows, every pair of consecutive bars after the warm-up", "why_tests_cant": "Incremental updates and push bounds are statements about every pair of consecutive readings of every series; a test compares a handful of fixed outputs.", "anchors": ["src/smooth.rs: sma, wma, ewma, wilder, kama, dema", "src/volatility.rs: atr, donchian", "src/statistic/distribution.rs: variance", "src/momentum.rs: psych, rsi", "src/volume.rs: obv, vpt, ad", "src/statistic/regression.rs: mse, mae"]}
{"id": "C111", "title": "Bounds of the signed oscillators under rounding", "statement": "In the floating-point arithmetic the crate computes with, cmo is NaN or between -100 and 100 for every series of prices whatsoever, infinite and missing ones included; relative_vigor and bal_power are NaN or between -1 and 1 whenever every bar contains its open and its close; tsi is NaN, infinite through overflow, or at most the number after 100 in magnitude. The bounds that hold without rounding for pcc and cmf are not kept: the correlation of 1, 2, 3 with itself is the number after 1, and cmf of one bar that closes at its high can be the number after 1.", "quantifier": "every price series (any floats, NaN and infinities included), every window, every monotone odd rounding for cmo and relative_vigor and IEEE binary64 for the others", "why_tests_cant": "A test checks some prices; that no rounding error ever pushes an oscillator over its bound has to hold for all series, and the two counterexamples need particular bit patterns.", "anchors": ["src/momentum.rs: cmo", "src/smooth.rs: _cmo", "src/momentum.rs: tsi", "src/momentum.rs: relative_vigor", "src/momentum.rs: bal_power", "src/correlation.rs: pcc", "src/volume.rs: cmf"]}
{"id": "C112", "title": "A running total that has to give up keeps what it has delivered", "statement": "obv, vwap and mama panic when the offending item is pulled from the iterator, not when they are called. Pulling the first k items gives exactly what the function reports for the first k bars. obv therefore delivers every bar that has a volume and panics at each bar that has none; vwap with an empty list of resets is accepted by the call and panics at every bar; mama, once an item has panicked, panics at every later item, and a NaN bar makes every item panic from the next bar on (bar 8 at the earliest).", "quantifier": "every series of any length, every number of items pulled, every arithmetic; the NaN statement in every rounding", "why_tests_cant": "which pull of an iterator panics depends on the lengths of the series, on the values and on what the closure wrote to its state before it panicked; a test pulls one iterator to the end", "anchors": ["src/volume.rs: obv, vwap", "src/smooth.rs: mama"]}
{"id": "C113", "title": "A recursive average of a series that repeats settles into a cycle", "statement": "If the data repeat every p bars, ewma, wilder, dema, tema, zlma, macd, apo and atr come to repeat as well: the reading at a bar and the reading any whole number of cycles later differ by at most an explicit bound that shrinks geometrically with the number of bars since warm-up and does not depend on p. The mean of ewma and of wilder over a cycle approaches the mean of the price over a cycle, at the same rate.", "quantifier": "every window, every cycle length, every number of cycles, every series of any length whose values are at most M in size", "why_tests_cant": "a test sees one series of one length; the claim bounds the difference between bars arbitrarily far apart", "anchors": ["src/smooth.rs: ewma, wilder, dema, tema, zlma", "src/momentum.rs: macd, apo", "src/volatility.rs: atr"]}
{"id": "C114", "title": "The zero line in a trend", "statement": "While prices rise from bar to bar, by whatever steps, the unbounded oscillators are above zero at every bar they report, and while prices fall they are below: macd and apo with a short window below the long one; ppo, disparity, roc, trix, pmo, coppock, kst and special_k on positive prices; zscore; the oscillator of rainbow; cci on rising typical prices; pgo and the bull line of elder_ray (the bear line when falling) on rising closes inside their bars; elder_force with positive volumes. qstick, bal_power and relative_vigor are above zero while every bar closes above its open. The reason for the crossing averages: on a rising series the faster of two exponential averages is the higher one at every bar, including right after both have been seeded.", "quantifier": "every series length, every strictly rising or falling series, every window", "why_tests_cant": "A test shows the sign on a few series; the claim is for every rising series however uneven, and at every bar from the first reported one on, where the two averages have seeds of different length.", "anchors": ["src/momentum.rs: macd", "src/momentum.rs: apo", "src/momentum.rs: ppo", "src/momentum.rs: disparity", "src/momentum.rs: roc", "src/momentum.rs: trix", "src/momentum.rs: pmo", "src/momentum.rs: coppock", "src/momentum.rs: kst", "src/momentum.rs: special_k", "src/momentum.rs: rainbow", "src/momentum.rs: cci", "src/momentum.rs: pgo", "src/momentum.rs: elder_ray", "src/momentum.rs: qstick", "src/momentum.rs: bal_power", "src/momentum.rs: relative_vigor", "src/volume.rs: elder_force", "src/statistic/distribution.rs: zscore"]}
{"id": "C115", "title": "Readings the documentation gives that the code does not bear out", "statement": "Some documented readings are wrong for the code. cfo is documented to range from -100 to +100: for every window of three or more and every bound there are positive prices on which it is above that bound and others on which it is below its opposite; with a window of three it is the bend of the last three prices over six times the last, so its sign says whether the price speeds up and not whether it rises. qstick above zero is documented to mean that the majority of bars closed up: for every window of three or more there are bars all but one of which close down with qstick above zero. A high chop is documented to mean a strong trend: while all bars span the same range it is 100, and on a straight line it is 100 ln(w/(w-1))/ln w, which is lower from a window of three on. dpo above zero is documented to suggest an uptrend: it is below zero on every rising straight line and, with a window of three or four, on every rising series. dcor of 1 is documented to mean equal series: it is 1 for a series and its double.", "quantifier": "every window, every bound, every rising line or series", "why_tests_cant": "That no bound holds, and that a sign is always the opposite of the documented one, are statements about all series and all windows.", "anchors": ["src/momentum.rs: cfo", "src/momentum.rs: qstick", "src/volatility.rs: chop", "src/trend.rs: dpo", "src/correlation.rs: dcor"]}
{"id": "C116", "title": "A window of zero in a build without overflow checks", "statement": "ewma and wilder and the functions that pair an exponential average with another series (macd, apo, ppo, disparity, elder_ray, kvo, keltner) return the same series in a build without overflow checks as in one with them, whenever the latter answers. A window of 0 is refused by the checked build. Without the checks ewma returns 2^64 NaNs and one more per price, so a consumer never gets past the warm-up; macd, apo and ppo with a short window of 0, kvo likewise, disparity and elder_ray do not panic and are NaN on every bar; wilder and keltner panic in both builds.", "quantifier": "all series, all windows below 2^64 - 1, every rounding of the arithmetic", "why_tests_cant": "Tests run with overflow checks, where a window of 0 panics. The series of the other build has more than 2^64 items: it can neither be collected nor exhausted.", "anchors": ["src/smooth.rs: ewma, wilder", "src/momentum.rs: macd, apo, ppo, disparity, elder_ray", "src/volume.rs: kvo", "src/volatility.rs: keltner, atr"]}
{"id": "C117", "title": "Supertrend and the close", "statement": "supertrend's value is read as a stop: below the close in an uptrend, above it in a downtrend, and the trend turns when the close crosses it. For every multiplier the trend turns up exactly when the close rises above the stop of the bar before, and turns down only when the close falls below it. If the multiplier is at least the window, the trend turns in both directions exactly when the close crosses the stop, and the stop is always on the side of the close the trend asks for (in a downtrend half the window is enough). With the usual settings (10 bars, multiplier 3) neither holds: there is a series on which the close falls through the stop and the uptrend continues with the stop above the close, and one on which the stop of a downtrend lies below the close.", "quantifier": "all series of finite bars whose close lies within the bar, all windows from 1, all multipliers in the stated ranges", "why_tests_cant": "The trend is hidden state with a memory of unbounded length; the project's own test never reaches a downtrend (a TODO in the code says so).", "anchors": ["src/trend.rs: supertrend", "src/volatility.rs: _true_range", "src/smooth.rs: wilder"]}
{"id": "C118", "title": "Averages of prices are accurate relative to themselves", "statement": "In binary64, for prices between 2^-400 and 2^400, every value of a moving average is within a few units of rounding of the exact average of the same data, measured relative to that average and not to the largest price of the series: 2w+2 units for sma, 2w+6 for wma and pwma, 2w+8 for typical, and for the recursive averages a number growing only linearly with the bar, 12i+4 for ewma and 6i+6 for wilder at bar i. An average that has come down by orders of magnitude after a crash still has all its significant digits, however large the prices it has seen.", "quantifier": "all series of prices of the stated size (at most 2^32 values for ewma and wilder), all windows in the stated ranges (below 2^32, below 2^26 for wma, up to 54 for pwma, from 2 for ewma), all bars", "why_tests_cant": "Rounding errors accumulate over the whole history of a recursive average; a test compares a few values with a tolerance on one benign series.", "anchors": ["src/smooth.rs: sma", "src/smooth.rs: ewma", "src/smooth.rs: wilder", "src/smooth.rs: wma", "src/smooth.rs: pwma", "src/volatility.rs: typical"]}
{"id": "C119", "title": "When a correlation survives rounding and when it is lost", "statement": "In binary64 pcc of two series of whole numbers (cents, ticks) is within eight units of rounding of Pearson's coefficient of the same window, and NaN exactly when one of the windows is constant, provided twice the square of window times largest value stays within 2^53: for ten bars in cents, prices up to 67 thousand dollars. srcc is within 14 units of rounding of Spearman's coefficient on every window of up to 50000 bars without ties, whatever the prices. hoeffd of any finite prices, ties included, with a window of 5 to 300 bars is exactly Hoeffding's D rounded once. Beyond its range pcc can lose everything: for every k from 27 to 51 the two prices 2^k and 2^k + 1 are perfectly correlated with themselves and pcc reports NaN.", "quantifier": "all series of whole numbers within the stated size and all windows (pcc); all finite series without ties within a window, all windows from 2 to 50000, every way the unstable sort may order (srcc); all finite series, ties included, and all windows from 5 to 300 (hoeffd); all k from 27 to 51 (the loss)", "why_tests_cant": "pcc subtracts two large totals that nearly cancel; whether the result keeps any digits depends on the size of the prices and the window, and a test covers one price level.", "anchors": ["src/correlation.rs: pcc", "src/correlation.rs: srcc", "src/statistic/distribution.rs: cov_stdev", "src/statistic/distribution.rs: rank", "src/correlation.rs: hoeffd"]}
{"id": "C120", "title": "Forecast errors and drawdowns keep their accuracy however small they are", "statement": "In binary64 mae, mse, rmse, mape, smape, mase and emae are the exact error measures of the stored prices to a relative error of a few units of rounding per bar (2 i + 6 units for mae at bar i, at most 4 i + 14 for the others): a forecast that agrees with the price in fifteen of sixteen digits still has its error measured to almost full accuracy. ulcer is accurate to 2 w + 22 units of its own value, perf to 4 w + 10, bw_mfi to 6 units, rsc is the quotient rounded once.", "quantifier": "all series of prices between 2^-400 and 2^400 (perf: 2^-200 to 2^200), all lengths up to 2^32, every bar, all windows up to 2^32", "why_tests_cant": "Relative accuracy is at risk exactly where actual and forecast nearly cancel and where squares underflow; which inputs those are depends on all bits of the prices.", "anchors": ["src/statistic/regression.rs: mae, mse, rmse, mape, smape, mase, emae", "src/trend.rs: ulcer", "src/correlation.rs: perf", "src/correlation.rs: rsc", "src/volume.rs: bw_mfi"]}
{"id": "C121", "title": "In binary64 the adaptive averages stay inside the price range, and mama does not panic", "statement": "Given finite prices between 0 and M as doubles, every value of vma and kama is NaN or lies between 0 and M plus two roundings of M. Every value of frama is NaN or lies between 0 and (1 + 2^-38) M. With the default limits mama returns one pair per bar without panicking as long as the prices do not exceed 2^400; from the seventh bar on both values are numbers, not negative, and at most (1 + 2^-38) M and (1 + 2^-38)^2 M. Rounding errors do not pile up: the bounds are the same for a series of any length.", "quantifier": "Every series of non-negative doubles up to the stated magnitude, every window below 2^32, kama's two periods from 2 up, every limits of mama's gain with slow at least 1/256; no bound on the length of the series.", "why_tests_cant": "The claim is that errors of thousands of successive roundings never add up, and that no price path makes the period estimate NaN and so triggers the panic of clamp. A test follows a handful of paths.", "anchors": ["src/smooth.rs: vma", "src/smooth.rs: kama", "src/smooth.rs: frama", "src/smooth.rs: mama"]}
{"id": "C122", "title": "Ranges are accurate relative to their own size", "statement": "Computed in f64, the true range is within 2 units of rounding (2^-53) of the exact true range of the quoted prices relative to that range, however small it is beside the prices; the average true range at bar i is within 6i units of Wilder's average of the true ranges relative to that average; and the mass index at bar i is within 38i+20 units of the exact sum of ratios relative to that sum. None of them overflows, underflows or becomes NaN after its warm-up.", "quantifier": "every series of f64 prices between 2^-400 and 2^400 whose highs are above their lows (tr, atr: not below, with an average that has not decayed under 2^-900), every window below 2^32 (mass: at least 2), every length up to 2^32, every bar", "why_tests_cant": "The loss of digits when two nearby prices are subtracted depends on all their bits, and the recursive averages carry errors across unboundedly many bars.", "anchors": ["src/volatility.rs: tr, atr, mass, _true_range", "src/smooth.rs: wilder, ewma"]}
{"id": "C123", "title": "Medians, quantiles and aroon survive rounding", "statement": "Computed in f64: median is the exact mean of the two middle values of the window rounded once, so it is exact for odd windows and never overflows, whatever the prices; quantile is within (8w+18)·2^-53·M of the interpolated order statistic, M the largest price, even when the rounded position lands on the other side of a whole number and another pair of neighbours is interpolated; both lines of aroon are within 4 units of rounding of 100(w-a)/w relative to that value, where a is the exact number of bars since the extreme.", "quantifier": "every series of finite f64 values (median: none subnormal; quantile: bounded by M between 2^-1022 and 2^800), every window below 2^48 (aroon 2^32), every percentage, every bar", "why_tests_cant": "Whether a rounded position crosses a whole number depends on the bits of the percentage and on the window; tests use a few percentages where it does not.", "anchors": ["src/statistic/distribution.rs: quantile, median, quickselect", "src/trend.rs: aroon"]}
{"id": "C124", "title": "The readings of an average and the first bars determine the prices", "statement": "Two finite price series of the same length that agree on the bars before the first reading, and for which sma, wma, pwma, fwma, trima, hull, ewma, wilder, dema, tema, t3, zlma, ssf, hwma, or macd/apo with different windows, report the same numbers, are the same series: no average drops a bar or gives the newest one weight 0. For ssf two (three) bars are enough whatever the window, for hwma with a positive level factor none are needed. Without the starting bars this fails for sma, and a standard deviation does not determine the prices.", "quantifier": "every pair of finite series of equal sufficient length, every window, every bar, exact arithmetic", "why_tests_cant": "an update that ignores some bar for some window leaves the checked outputs unchanged unless a test happens to vary that bar; here any two series that differ anywhere must show it", "anchors": ["src/smooth.rs: sma ewma wilder wma pwma fwma trima hull dema tema t3 zlma ssf hwma", "src/momentum.rs: macd apo"]}
{"id": "C125", "title": "An average travels no further than the prices", "statement": "The distance a line travels between two bars is the sum of the absolute changes from bar to bar. From its first reading to any later bar, sma, wma, pwma, fwma, trima, alma, ewma and wilder travel at most as far as the prices do from the first bar; macd and apo at most twice, dema, hull and zlma at most three times, tema seven times and t3 (1+2g)^3 times as far. Between any two readings ewma, wilder, kama, vma and frama travel at most as far as the prices do between the same bars, plus their distance from the price at the first, less their distance from the price at the second.", "quantifier": "every finite price series of sufficient length, every window and factor, every pair of bars, exact arithmetic", "why_tests_cant": "a sum over all moves of an arbitrarily long series, for every series: tests see a few", "anchors": ["src/smooth.rs: sma ewma wilder wma pwma fwma trima alma dema tema t3 hull zlma kama vma frama", "src/momentum.rs: macd apo"]}
{"id": "C126", "title": "How a reading answers a jump of the price", "statement": "Let the price be a up to bar T and b afterwards, with enough bars before T. M bars after T: sma is a+(b-a)min(M,w)/w; wma misses b by (b-a)r(r+1)/(w(w+1)) with r=max(w-M,0); ewma by (b-a)q^M with q=1-2/(w+1); wilder by (b-a)(1-1/w)^M; dema by (b-a)q^M(1-M·2/(w+1)), so it shoots past the new price as soon as 2M>w+1; tema by (b-a)q^M(1-2M·2/(w+1)+M(M+1)/2·(2/(w+1))^2); zlma heads for 2b-a during its lag and then falls back; macd is (b-a)(q_long^M-q_short^M); the standard deviation is |b-a|·sqrt(M(w-M))/w.", "quantifier": "every pair of prices, every window, every bar T with a full warm-up before it, every M, every length of series, exact arithmetic", "why_tests_cant": "a closed form in the number of bars for all windows and all jumps; a test checks a few points of one curve", "anchors": ["src/smooth.rs: sma wma ewma wilder dema tema zlma", "src/momentum.rs: macd", "src/statistic/distribution.rs: std_dev"]}
{"id": "C127", "title": "Running totals drift by a bounded amount", "statement": "obv, vpt and both forms of ad add one term per bar and never forget, so their floating-point errors pile up; nevertheless in binary64 the reported total after m bars is finite and differs from the exact total by at most a fixed quadratic polynomial in m (about m²/2 units for obv, vpt and ad, m² for Williams' ad), a unit being 2^-53 of the largest volume (or of the largest price times the largest volume).", "quantifier": "all finite series of up to 2^24 bars, all volumes bounded by V, in IEEE binary64", "why_tests_cant": "The error depends on every rounding along the whole history; a test can show one history, not that no history of any length drifts further.", "anchors": ["src/volume.rs: obv", "src/volume.rs: vpt", "src/volume.rs: ad"]}
{"id": "C128", "title": "The money flow is accurate whatever the volumes", "statement": "In binary64 every reading of cmf whose window has some volume is finite and within 6·window + 24 units of 2^-53 of the exact volume-weighted mean of the positions of the closes in their bars; the bound depends on the window alone, not on the prices, on the volumes or on how unequal the volumes are.", "quantifier": "all series of bars whose close lies between low and high, all volumes (zero included), all windows up to 2^20, in IEEE binary64", "why_tests_cant": "The worst rounding error of a quotient of two sums of products is attained on inputs no sample is likely to hit; only a proof over all inputs bounds it.", "anchors": ["src/volume.rs: cmf"]}
{"id": "C129", "title": "An exponential average crosses no level more often than the price", "statement": "ewma, wilder and pwma cross any price level at most as often as the price itself does and turn (from rising to falling or back) at most as often as the price turns; kama, vma and frama cross a level at most once more than the price; trix, tsi and elder_force change sign at most as often as the price turns, macd, apo and ppo at most once more. The simple average has no such property: a price that crosses a level twice can have an sma that crosses it three times.", "quantifier": "all finite series of any length, all windows, all levels, any number of crossings", "why_tests_cant": "The number of crossings is unbounded and ranges over all series and all levels; a smoother that adds crossings shows it only on special series, as sma does.", "anchors": ["src/smooth.rs: ewma", "src/smooth.rs: wilder", "src/smooth.rs: pwma", "src/smooth.rs: kama", "src/smooth.rs: vma", "src/smooth.rs: frama", "src/smooth.rs: sma", "src/momentum.rs: trix", "src/volume.rs: elder_force", "src/momentum.rs: macd", "src/momentum.rs: apo", "src/momentum.rs: ppo", "src/momentum.rs: tsi"]}
{"id": "C130", "title": "Reading a chart backwards", "statement": "If the bars of a series are put in reverse order, sma, pwma, trima, variance, std_dev, mad and quantile give every stretch of bars the reading it had before; cmo gives the opposite reading; the factors 1 + roc/100 read forwards and backwards are reciprocal; and the forward and backward readings of wma over the same bars average to their sma. Each reading is found in the reversed output at the bar where the same stretch now ends.", "quantifier": "all finite series (positive for roc, moving in every window for cmo), all windows the functions accept, all bars", "why_tests_cant": "A weighting that is off by one place or an asymmetric window is visible only as a failure of symmetry on series nobody has written down; the claim is about all series and windows.", "anchors": ["src/smooth.rs: sma", "src/smooth.rs: pwma", "src/smooth.rs: trima", "src/smooth.rs: wma", "src/statistic/distribution.rs: variance", "src/statistic/distribution.rs: std_dev", "src/statistic/distribution.rs: mad", "src/statistic/distribution.rs: quantile", "src/momentum.rs: cmo", "src/momentum.rs: roc"]}
{"id": "C131", "title": "The risk of two assets held together", "statement": "Add two series bar by bar (one unit of each of two assets). The std_dev of the sum is at most the sum, and at least the difference, of the std_devs of the two; the same holds for mad. Where neither window is constant, the variance of the sum is the sum of the two variances plus twice the pcc of the two series times their standard deviations, so variance and pcc agree with each other.", "quantifier": "all pairs of finite series of equal length, all windows the functions accept, all bars", "why_tests_cant": "A relation between three outputs of two functions on arbitrary pairs of series; a test fixes one pair, and a normalisation by w - 1 in only one of the functions goes unnoticed on it.", "anchors": ["src/statistic/distribution.rs: std_dev", "src/statistic/distribution.rs: variance", "src/statistic/distribution.rs: mad", "src/correlation.rs: pcc"]}
{"id": "C132", "title": "Combining forecasts", "statement": "Blend two forecasts of a series in fixed shares s + t = 1, neither negative. At every bar the mae, mse, rmse and mape of the blend are at most the blend of the errors of the two forecasts, and for mse the gain is exactly s t times the mse of one forecast against the other. mae and rmse behave like distances: exchanging series and forecast changes nothing, and the error of x against z is at most the error of x against y plus that of y against z.", "quantifier": "all finite series and forecasts of equal length, all shares, all bars (mape: prices that are not zero)", "why_tests_cant": "An inequality and an identity between the outputs for three or four series at every bar; tests pin numbers for one pair of series.", "anchors": ["src/statistic/regression.rs: mae", "src/statistic/regression.rs: mse", "src/statistic/regression.rs: rmse", "src/statistic/regression.rs: mape"]}
{"id": "C133", "title": "Merging the volumes of two exchanges", "statement": "Take one series of prices and two series of volumes. With the volumes added up bar by bar, obv, vpt, ad (both formulas), tvi, elder_force and kvo (both formulas) report the sum of what they report for each of the volumes, at every bar. vwma, vwap (with any increasing list of resets), cmf and twiggs, which are readings per unit of volume, report a value between the two, for positive volumes.", "quantifier": "all finite price series, all pairs of finite volume series (positive for the second group) of that length, all windows, ticks and reset lists the functions accept, all bars", "why_tests_cant": "It relates three calls on arbitrary volumes. A volume that enters a total twice, squared or with the wrong bar gives plausible numbers on every single example.", "anchors": ["src/volume.rs: obv", "src/volume.rs: vpt", "src/volume.rs: ad", "src/volume.rs: tvi", "src/volume.rs: elder_force", "src/volume.rs: kvo", "src/volume.rs: vwma", "src/volume.rs: vwap", "src/volume.rs: cmf", "src/volume.rs: twiggs"]}
{"id": "C134", "title": "A long window from two short ones", "statement": "The reading over the last u + v bars follows from the reading over the last v bars and the one over the u bars before them. sma: the mean of both, weighted by u and v. variance: the same mean of both variances plus u v / (u + v)^2 times the squared difference of the two sma. wma: from both and the sma of the later part. donchian: the higher upper band and the lower lower band. roc: growth factors multiply. vwma and cmf: between the readings of the parts.", "quantifier": "all finite series (positive prices for roc, positive volumes for vwma and cmf, bars with a range for cmf), all u and v of at least one, all bars from u + v - 1 on", "why_tests_cant": "It ties calls with different windows at different bars to each other, for all windows; a boundary that is off by one bar in one window length breaks it, and tests fix one or two lengths.", "anchors": ["src/smooth.rs: sma", "src/smooth.rs: wma", "src/statistic/distribution.rs: variance", "src/volatility.rs: donchian", "src/momentum.rs: roc", "src/volume.rs: vwma", "src/volume.rs: cmf"]}
{"id": "C135", "title": "Moving averages follow a trend", "statement": "While prices rise at every bar, the sma, ewma, wilder, wma, pwma, fwma, trima, alma, vwma (positive volumes) and median of two or more bars rise at every bar too and lie below the price, and the sma or ewma of the shorter window lies above that of the longer one. While prices fall at every bar, the mirror image holds.", "quantifier": "every series of finite prices, every window of at least two bars that fits, every pair of windows, every bar that has a reading; exact arithmetic", "why_tests_cant": "The claim is about every rising or falling series, every window and every later bar; the recursive averages need an induction over all earlier bars, and a chart of a few sample series cannot exclude a series where an average turns against its trend.", "anchors": ["src/smooth.rs:sma", "src/smooth.rs:ewma", "src/smooth.rs:wilder", "src/smooth.rs:wma", "src/smooth.rs:pwma", "src/smooth.rs:fwma", "src/smooth.rs:trima", "src/smooth.rs:alma", "src/volume.rs:vwma", "src/statistic/distribution.rs:median"]}
{"id": "C136", "title": "When the choppiness index stays within 0 and 100", "statement": "For bars whose close lies within their range, volatility::chop is between 0 and 100 at every bar where the window has a range and the close before the window lies within that range. If that close lies outside, no number bounds the reading: after a gap it can be as large as one likes.", "quantifier": "every series of bars whose close lies between low and high, every window of at least two bars that fits, every bar that has a reading; for the second half every bound; exact arithmetic", "why_tests_cant": "The range 0 to 100 holds on almost every sample chart; only a proof shows that a gap before the window is the one thing that breaks it, and that the excess has no limit.", "anchors": ["src/volatility.rs:chop", "src/volatility.rs:_true_range"]}
{"id": "C137", "title": "The parabolic stop in a trend", "statement": "For an acceleration factor and a cap between 0 and 1: while the low of every bar is above the high of the bar before, trend::psar is below every bar from the second on and never falls; while the high of every bar is below the low of the bar before, it is above every bar and never rises. Rising highs and lows alone are not enough: with overlapping bars the stop can be hit.", "quantifier": "every series of finite bars that do not overlap, every factor and cap in [0, 1], every bar; exact arithmetic", "why_tests_cant": "The stop is a recursion with a direction, an extreme price and an acceleration; that it never reverses in such a trend needs an invariant over all earlier bars, whatever the length of the series.", "anchors": ["src/trend.rs:psar"]}
{"id": "C138", "title": "Which way a running total moves", "statement": "For positive volumes: obv falls from one bar to the next exactly if the close fell and rises otherwise, also after an unchanged close; vpt of positive prices rises exactly if the price rose and falls exactly if it fell; ad rises exactly if the bar closes in its upper half and falls exactly if in its lower half; Williams' ad rises exactly if the close rose, and falls exactly if the close fell or was unchanged below the high; tvi always moves, up or down after a move of more than the tick and otherwise as before. pvi of positive prices moves with the price and only if the volume rose, nvi only if it fell.", "quantifier": "every series of finite bars, every bar with a reading before it, every non-negative tick; exact arithmetic", "why_tests_cant": "The statements are equivalences over every bar of every series and depend on ties (unchanged closes, equal volumes) that sample data rarely contain.", "anchors": ["src/volume.rs:obv", "src/volume.rs:vpt", "src/volume.rs:ad", "src/volume.rs:tvi", "src/volume.rs:pvi", "src/volume.rs:nvi"]}
{"id": "C139", "title": "In binary64 averages over a window never turn against the prices", "statement": "In binary64, as in every other rounding, if no price is below the one before, no full reading of sma, wma, pwma, fwma, trima, alma, the kernel regression and the typical price is below the reading before, whatever the sizes of the prices and even if sums overflow or some prices are NaN; dually for prices that never rise. The same for the three lines of the Donchian channel of bars without missing prices. Rounding may make an average stall, never step back. The exponential average is an exception: with the price at 15 throughout, ewma over 5 bars starts at 15 and then steps up by one unit in the last place.", "quantifier": "Every series of binary64 (or otherwise rounded) prices of any length that never falls or never rises, every window, sigma and mu.", "why_tests_cant": "A rounding error of one unit in the last place in one window out of 2^64 inputs would do; a sample of series cannot exclude it.", "anchors": ["src/smooth.rs: sma, wma, pwma, fwma, trima, alma, kernel, ewma", "src/volatility.rs: typical, donchian"]}
{"id": "C140", "title": "A table of correlations is a correlation matrix", "statement": "The correlations (pcc) of any number of series over the same window, none of them constant there, form a correlation matrix: each is 1 with itself, the order of the two series does not matter, and no combination of the series gets a negative variance; the same for rank correlations (srcc). For three series with correlations a, b and d, a^2 + b^2 + d^2 is at most 1 + 2abd, so two correlations bound the third.", "quantifier": "Every number of series of any length, every window, every bar with a full window in which no series is constant, every combination of weights.", "why_tests_cant": "A statement about all weights and any number of series; a single negative direction makes a portfolio optimiser fail and would not show in samples.", "anchors": ["src/correlation.rs: pcc, srcc"]}
{"id": "C141", "title": "The beta of a basket", "statement": "If the return of a basket at every bar that beta looks at is the weighted sum of the returns of its assets, the beta of the basket is the weighted sum of the betas of the assets. Any number of assets, any weights, short positions included.", "quantifier": "Every number of assets with finite non-zero prices, every market, window and bar with a full lookback at which the assets have a beta, all weights.", "why_tests_cant": "An identity over all price histories, numbers of assets and weights.", "anchors": ["src/correlation.rs: beta"]}
