SHAPE = r".*_(aligned|length|yields|panics)"
NOL = r".*_(noLookahead|stable)"
CLAIMS = {
 "C01": ("proved", ["ShapeSmooth:" + SHAPE, "Mama:mama_ok"], "holds for every arithmetic, IEEE binary64 included. mama needs finite data not to panic, which is C28."),
 "C02": ("proved", ["ShapeMomentum:(?!alligator).*_aligned"], "holds for every arithmetic, IEEE binary64 included"),
 "C03": ("proved", ["ShapeVolatility:" + SHAPE], "holds for every arithmetic, IEEE binary64 included"),
 "C04": ("proved", ["ShapeTrend:" + SHAPE, "Trend.alligator_aligned"], "holds for every arithmetic, IEEE binary64 included"),
 "C05": ("proved", ["ShapeVolume:" + SHAPE], "holds for every arithmetic, IEEE binary64 included"),
 "C06": ("proved", ["ShapeStats:" + SHAPE, "Quantile:.*_aligned", "RankModes:(rank_yields|srcc_aligned|hoeffd_aligned)"], "holds for every arithmetic; quantile, srcc and hoeffd for every rounding (the rank based ones need series without NaN, see rank_nan_panics)"),
 "C07": ("proved", ["ShapeSmooth:.*_(aligned|warmUp)", "ShapeMomentum:.*_aligned", "ShapeVolatility:.*_(aligned|warmUp)", "ShapeTrend:.*_aligned", "ShapeVolume:.*_aligned", "ShapeStats:.*_aligned"], "the WarmUp part of Aligned gives the number of leading NaN for any arithmetic satisfying the IEEE NaN propagation laws"),
 "C08": ("proved", ["CausalSmooth:.*_noLookahead", "Smooth.mama_causal"], ""),
 "C09": ("proved", ["CausalMomentum:(?!alligator).*" + NOL], ""),
 "C10": ("proved", ["CausalVolatility:" + NOL], ""),
 "C11": ("proved", ["CausalTrend:" + NOL, "Trend.alligator_lines_stable"], ""),
 "C12": ("proved", ["CausalVolume:" + NOL], ""),
 "C13": ("proved", ["CausalStats:" + NOL, "RankModes:.*_noLookahead"], "srcc and hoeffd for series without NaN (they panic otherwise)"),
 "C16": ("proved", ["SmoothMean:sma_.*"], "exact arithmetic over the extended reals"),
 "C17": ("proved", ["SmoothMean:ewma_.*"], "exact arithmetic over the extended reals"),
 "C18": ("proved", ["SmoothMean:wilder_.*", "RoundedSmooth:wilder_percent"], "closed form exact; wilder_percent in every rounding"),
 "C19": ("proved", ["SmoothWeights:wma_.*"], "exact arithmetic over the extended reals"),
 "C20": ("proved", ["SmoothWeights:pwma_.*"], "exact arithmetic; the panic domain holds for every arithmetic"),
 "C21": ("proved", ["SmoothWeights:fwma_.*"], "exact arithmetic; the panic domain holds for every arithmetic"),
 "C22": ("proved", ["SmoothWeights:trima_.*"], "exact arithmetic over the extended reals"),
 "C23": ("proved", ["SmoothWeights:lrf_.*"], "exact arithmetic over the extended reals"),
 "C24": ("proved", ["SmoothConst:(dema|tema|t3|hull|zlma|hwma|ssf)_(const|reports)"], "exact arithmetic over the extended reals"),
 "C25": ("proved", ["Adaptive:kama_inRange", "Gains:vma_inRange", "Adaptive2:(frama_inRange|kernel_.*|vidya_inRange|vidya_overshoots)", "Mama:mama_inRange"], "exact arithmetic over the extended reals"),
 "C26": ("proved", ["FlatWindow:.*_poisoned"], "kama in every rounding, the others exact"),
 "C27": ("proved", ["Alma:alma_.*"], "exact arithmetic over the extended reals"),
 "C28": ("proved", ["Mama:mama_(ok|inRange|nan_panics)", "Mama:mamaStep_ok"], "mama_nan_panics in every rounding; the rest exact"),
 "C39": ("proved", ["Dispersion:.*_reports", "Dispersion:dispersion_.*"], "exact arithmetic over the extended reals"),
 "C29": ("proved", ["Rsi:rsi_(reports|range|only_gains|only_losses|flat)"], "exact arithmetic over the extended reals"),
 "C30": ("proved", ["Stochastic:(wpr|stoch|stochastic|kdj|stc)_(range|reports)", "PlainFormulas:stochastic_reports"], "wpr in every rounding; the others exact"),
 "C31": ("proved", ["Rsi:(cmo|tsi)_(reports|range)"], "exact arithmetic over the extended reals"),
 "C32": ("proved", ["Aroon:aroon_(items|range|exact)"], "items and range in every rounding; aroon_exact exact"),
 "C33": ("proved", ["Adx:adx_(range|items)", "AdxLine:adx_line"], "0..100 in every rounding; the sum bound and the closed forms of all three lines exact"),
 "C36": ("proved", ["TrueRange:(tr|atr)_(largest|reports|nonneg)"], "tr_largest and atr_nonneg in every rounding; the reports exact"),
 "C34": ("proved", ["MoneyFlow:(mfi|cmf|twiggs)_(range|reports)"], "mfi_range in every rounding; the others exact"),
 "C35": ("proved", ["Percent:(ultimate|psych|tii|crsi|relative_vol)_range"], "ultimate and psych in every rounding; the others exact"),
 "C37": ("proved", ["Bands:(donchian|keltner|starc|bbands|fbands)_.*"], "donchian_attained, fbands_latest and fbands_crossed in every rounding; the others exact. fbands can cross, fbands_crossed is the witness"),
 "C38": ("proved", ["HeikinAshi:heikin_ashi_(contains|candles|sane)"], "heikin_ashi_contains in every rounding; the others exact"),
 "C40": ("proved", ["Quantile:(quantile|median|quickselect)_.*", "Quickselect:quickselect_.*"], "quickselect for every order; quantile_whole, _min, _max in every rounding; the interpolation exact"),
 "C41": ("proved", ["RankModes:rank_(min|max|dense|average|ordinal|deterministic|yields|nan_panics|empty_panics)"], "every rounding, infinities included"),
 "C42": ("proved", ["RankModes:rank_ordinal_ties'?"], "negative result: both tie orders are admissible"),
 "C43": ("proved", ["Pearson:(pcc|rsq|srcc)_(reports|range|affine|monotone|symm)", "PlainFormulas:rsq_reports"], "the symmetries hold bit for bit in every rounding; ranges and values exact. srcc ranks ties by their lowest rank"),
    "C44": ("proved", ["Kendall:krcc_(reports|range|ties_wrong|ties_above_one|ties_infinite)", "Kendall:krccWin_is"], "Without ties in the second series: tau-b and its range, for any ties in the first. With ties: exact formula (krccWin_is) and three witnesses of the defect."),
    "C45": ("proved", ["Dcor:dcor_(reports|range|affine|self|symm)"], "dcor_symm bit for bit in every rounding; the value, its range and dcor_affine/dcor_self exact"),
    "C46": ("proved", ["Mic:mic_(reports|range|small)"], "exact arithmetic; the value does not mention the iteration order. mic_small is the defect for windows of at most 6 values"),
    "C47": ("proved", ["ForecastErrors:^(mse|rmse|mae|mape|smape|mase|emae|mda)_(nonneg|perfect|reports|range|ge_mae)$"], "Never negative and zero for a perfect forecast in every rounding; exact values, rmse >= mae over the reals. emae needs non-negative series (its denominator is a sum of maxima); mda in [0,1] in every rounding up to 2^53 bars."),
    "C48": ("proved", ["ForecastErrors:^smape_(range|reports|reaches_200)$"], "The documented bound 100 is wrong: the sharp bound is 200, attained for actual 1, estimate -1."),
    "C49": ("proved", ["Accumulate:^obv_(accumulates|unchanged_wrong)$", "Accumulate:^psych_(reports|unchanged_wrong)$", "ForecastErrors:^mda_reports$"], "The property as a user expects it fails; proved is what the code does (unchanged close adds the volume / counts as an advance) and concrete witnesses of the failure."),
    "C50": ("proved", ["Accumulate:^(pvi|nvi)_(reports|step|nvi_exclusive)$"], "Closed form over the reals; exclusivity in every rounding and for every input."),
    "C65": ("proved", ["Accumulate:^.*accumulates$", "Accumulate:^.*telescope$"], "Closed form sums over the reals (asi: recurrence in every arithmetic)."),
    "C51": ("proved", ["Vwap:^(vwap|vwma)_(reports|within)$"], "Over the reals, for every strictly increasing reset list (and for no list)."),
    "C52": ("proved", ["Vwap:^vwap_(empty_panics|repeated_reset)$"], "In every arithmetic, for every input."),
    "C53": ("proved", ["Entropy:^(approx|sample)_entropy.*$", "Entropy:^(templMatch_iff|templMatch_zero|count_is|pairCount_is|countWrap_eq)$", "ShapeStats:^(countU8_eq|approx_entropy_aligned|sample_entropy_aligned)$"], "panic condition and exact values for finite series and run length at least 1 in exact arithmetic; both thresholds shown sharp; a build without overflow checks is modelled separately (counter modulo 256), agrees wherever the checked build returns, and reports an infinite entropy for a constant series"),
    "C54": ("proved", ["Sar:psar_outside", "Sar:psar_acceleration", "Sar:psar_reports", "Sar:psar_states", "Sar:sarAt_outside"], "In every rounding, infinite prices included, psar is at or above the bar's high or at or below its low, and the acceleration factor stays between its increment and its maximum (psar_states ties the factor to the reported values). In exact arithmetic psar_reports identifies every value with a stop and reverse system over the reals."),
    "C55": ("proved", ["Trailing:supertrend_reports", "Trailing:supertrend_ratchet_up", "Trailing:supertrend_ratchet_down", "Trailing:supertrend_stop_can_fall", "Trailing:atr_stop_reports", "Trailing:atr_stop_ratchet_up", "Trailing:atr_stop_ratchet_down", "Trailing:atr_stop_side"], "Values identified with the published rules over the reals; ratchet of atr_stop unconditional, of supertrend under the condition on the close, and supertrend_stop_can_fall shows that the condition is needed."),
    "C14": ("proved", ["Lookahead:Trend.zigzag_lookahead|zigzag_lookahead", "Lookahead:approx_entropy_lookahead", "Lookahead:sample_entropy_lookahead"], "For every minimal history length n0 there are a history and a continuation whose answers disagree on an already reported bar: the no look-ahead statement fails however long the history."),
    "C56": ("proved", ["Zigzag:zigzag_prices"], "Holds in every arithmetic in which NaN comparisons are false (NaNLaws), for every threshold."),
    "C66": ("proved", ["Zigzag:zigzag_legs", "Zigzag:zigzag_loses_top"], "zigzag_legs gives the pivot list and what is reported at every bar; zigzag_loses_top is the concrete run in which a top is lost."),
    "C57": ("proved", ["MaMode:ma_reports"], "Every mode is identified with the named average over the reals with the documented defaults; MaMode.Ready states per mode how many bars (and, for the adaptive ones, which non degenerate windows) are needed."),
    "C67": ("proved", ["Composed:dema_reports", "Composed:tema_reports", "Composed:t3_reports", "Composed:zlma_reports", "Composed:vma_reports", "Composed:vidya_reports", "Composed:kama_reports", "SmoothConst:hull_reports"], "Value at every bar over the reals, with the first defined bar. vma/vidya/kama under the hypothesis that no window is flat (the flat case is C26)."),
    "C58": ("proved", ["Oscillators:macd_reports|apo_reports|ppo_reports|roc_reports", "Oscillators2:alligator_items|gator_items|rsc_reports|perf_reports"], "Values over the reals at every bar from the first defined one; quotients are stated with QuotIs (value when the denominator is not zero, the IEEE result otherwise)."),
    "C68": ("proved", ["Oscillators:disparity_reports|qstick_reports|bal_power_reports|elder_ray_items|trix_reports|pmo_reports", "Oscillators2:cfo_reports|cog_reports|coppock_reports|pgo_reports", "MomentumFormulas:si_reports|relative_vigor_reports|derivative_reports|cci_reports|deli_reports", "MomentumFormulas2:ultimate_reports|tii_reports|stc_reports|kdj_reports", "MomentumFormulas3:rainbow_reports|prings_reports|kst_reports|special_k_reports|qqe_reports|crsi_reports"], "Values over the reals at every bar from the first defined one. tii counts the deviation as 0 while there is no average; kst and special_k leave out the rates of change that are not available yet; rainbow needs a lookback of at most 10 * (window - 1) + 1."),
    "C69": ("proved", ["Recursive:mdma_reports|hwma_reports|ssf_reports|frama_reports"], "frama for even windows none of which is flat and prices in the f64 range; mdma for prices other than 0 as long as the average is not 0."),
    "C70": ("proved", ["VolatilityFormulas:.*_reports|chop_nonneg|gkyzOf_nonneg", "PlainFormulas:typical_reports"], "Values over the reals. hv/cc_hv/gkyz_hv for positive prices; chop and gri at every bar whose window has a positive range; mass and inertia where no denominator is 0; quotients with QuotIs otherwise."),
    "C60": ("proved", ["TrendFormulas:decay_reports", "TrendFormulas:decay_bounds", "TrendFormulas:ulcer_nonneg"], "Exact arithmetic over finite inputs."),
    "C61": ("proved", ["Hurst:hurst_scales", "Hurst:hurst_zero_diverges"], "The scales are computed in exact real arithmetic with saturation at 2^64-1; an endless loop has no result in the model."),
    "C71": ("proved", ["TrendFormulas:.*_reports", "Hurst:hurst_reports"], "Exact arithmetic over finite inputs; rwi needs true ranges different from 0; hurst needs scales >= 2, no constant chunk and moderate values."),
    "C59": ("proved", ["MomentumFormulas2:fisher_seeded|fisher_bounded|fisher_reports|fisher_negative_prices"], "fisher_seeded is the exact line for any finite data, fisher_bounded the bound, fisher_reports the transform for prices in [0, f64::MAX]. fisher_negative_prices shows that the restriction to non-negative prices is needed: the code seeds the maximum with 0."),
    "C62": ("proved", ["Beta:beta_reports|beta_flat|beta_self|beta_scales"], "Exact arithmetic. beta_flat states the result where the second series' returns are constant."),
    "C72": ("proved", ["VolumeFormulas:elder_force_reports|ease_reports|bw_mfi_reports|cmf_reports|twiggs_reports|kvo_alt_reports|kvo_reports"], "Exact arithmetic. The Klinger force has no absolute value, and an unchanged price counts as up, as in the code."),
    "C73": ("proved", ["Hoeffding:hoeffd_reports|hoeffd_symmetric|hoeffd_invariant|hoeffd_increasing|hoeffd_constant|hoeffd_overflows", "HoeffdingRange:hoeffd_range"], "Exact arithmetic, any valid sort. hoeffd_constant shows that the documented range fails with ties."),
    "C63": ("proved", ["LocalSmooth:.*_local|bad_bar_contained", "LocalStats:.*_local", "LocalVolatility:.*_local", "LocalMomentum:.*_local", "LocalNot:(ewma|wilder)_not_local"], "Arbitrary arithmetic (so true f64); the two negative results in exact arithmetic. cmo, vma (running totals), ichimoku (projects), mic (hash order) and the entropies with the default tolerance (deviation of the whole series) are not claimed local; bbands with the SMA, dpo with the default average."),
    "C64": ("proved", ["PoisonSmooth:.*_poisoned|wilder_one_recovers", "PoisonAdaptive:.*_poisoned_by_nan", "PoisonMore:.*_poisoned", "PoisonNot:ad_flat_bar|Volume.ad_flat_bar|vma_early_nan_ignored|rsi_nan_ignored"], "NaNLaws only (so true f64), the flat bar in any rounding; the two 'ignored' results and wilder_one_recovers are witnesses for the exceptions."),
    "C15": ("proved", ["PanicSmooth:.*_answers(_exact)?", "PanicVolatility:.*_answers", "PanicVolume:.*_answers", "PanicMomentum:.*_answers", "PanicTrend:.*_answers", "PanicMomentum2:.*_answers", "PanicStats:.*_answers(_nan)?", "PanicMore:.*_(answers|answers_exact|refuses)", "RankModes:rank_(nan|empty)_panics", "Mama:mama_nan_panics"], "AnswersIff c n r: r answers with n values if c holds and panics otherwise. Theorems f_answers for every public function whose model can panic; rsc, kernel, mse, rmse, mae, mape, smape, mase, emae, decay, wcp, bw_mfi, pvi and nvi are total in the model. Lengths of several series are independent, except zigzag_answers (equal lengths). Over exact arithmetic where the domain depends on arithmetic: hull, ma, bbands, dpo, hurst (min_win 0 never ends, counted with the panics), entropies (finite values, run length at least 1). mama: finite prices always answer, and mama_nan_panics gives a NaN case, so its domain is exact only on finite prices. Integer overflow of usize products is not modelled."),
    "C74": ("proved", ["Error:(sma|ewma|wilder)_error", "ErrorDispersion:(mad|variance|std_dev|macd)_error", "ErrorAverages:.*_error", "ErrorComposed:.*_error|hull_window64", "ErrorBands:.*_error", "Lrf64:lrf_error", "Overlay64:.*_error", "T3Error:t3_error", "Force64:(elder_force|deli)_error"], "Proved for IEEE binary64 (Arith/Binary64) by a forward error analysis: each step adds at most a few units and the averages contract. Approx x a e: x is finite and |x - a| <= e."),
    "C75": ("proved", ["Flat64:(sma|variance|std_dev|zscore)_flat64", "Flat64:flat_1024"], "Spare w r: multiples of r up to w are exact. flat_1024 evaluates the model on binary64 in the kernel by computing each rounding."),
    "C76": ("proved", ["MamaValue:mama_reports|mama_default_gain|rawPeriod_far|mesa_unique|mesa_slow_idle"], "Exact arithmetic over finite inputs. Mesa.Solves is the list of equations, without queues or state; mesa_unique shows that they determine the values. The comparison with degrees is a remark; proved are the consequences mesa_slow_idle and rawPeriod_far."),
    "C77": ("proved", ["Range64:(rsi|tii|crsi)_range64|rsi_bounded64|rsi_exceeds|Percent64", "Range64b:(stochastic|stc)_range64|stochastic_exceeds|rsi_overflows"], "Proved for IEEE binary64 with every special value. UpTo hi x: x is +infinity, NaN or from 0 to hi. The three witnesses evaluate every rounding in the kernel."),
    "C78": ("proved", ["ScaleSmooth:.*_units", "ScaleMama:mama_units", "ScaleVolatility:.*_units", "ScaleMomentum:.*_units", "ScaleTrend:.*_units", "ScaleVolume:.*_(units|lots)", "ScaleStats:.*_units", "ScaleCorrelation:.*_units", "ScaleRange:(frama|mic|fisher|cks|gri|decay_not)_units", "ScaleRange2:(hurst_units|chunksWithin_of_bounded|rainbow_units)", "ScaleUnits:(alike_iff_map|.*_inUnits)", "Float53:(scales_float53|float53_eq_binary64)"], "Relation between two runs, one per unit: Scaled k n (value times k^n), Each, Both, Alike (both panic or both answer), Spec/Scale.lean; as an equation: alike_iff_map, sma_inUnits, rsi_inUnits, atr_inUnits. Every public function, in every arithmetic that commutes with k: scales_exact, scales_float53 (frama, gri and rainbow: real arithmetic). Not claimed for f64 runs that over- or underflow."),
    "C79": ("proved", ["MonoSmooth:^(?!each_|dot_|fibScan|signClear|weighted|one_).*_mono$", "MonoBars:.*_mono$", "MonoCandles:.*_mono$", "MonoCases:.*"], "All inputs, NaN and infinities included, in every rounding with the properties of Rounding (so in binary64): sma, ewma, wma, pwma, fwma, wilder, trima, alma, kernel, typical, wcp, alligator, vwma, vwap; donchian and ichimoku for prices that are not NaN; heikin_ashi for non-negative prices; decay for window >= 1. hull_not_mono: an average with negative weights is not monotone."),
    "C80": ("proved", ["MirrorSmooth:.*_mirror.*", "MirrorMama:mama_mirror", "MirrorBars:.*_mirror.*", "MirrorMomentum:.*_mirror.*", "MirrorTrend:.*_mirror.*", "MirrorVolume:.*_mirror.*", "MirrorStats:.*_mirror.*", "MirrorExact:.*_mirror.*", "MirrorCases:obv_not_mirror|rainbow_constant_.*"], "Spec.Mirror defines the opposite series, SameNumber (equal up to the sign of a zero) and the three parities. Every theorem holds for every rounding that is odd and monotone, so for binary64, and for NaN and infinite inputs; the complements of MirrorExact are about exact arithmetic and finite prices. MirrorCases has concrete cases and the counterexample obv. Not covered: psar, supertrend, atr_stop, cks, tvi, zigzag, fisher, obv, kvo, psych, shinohara, which start or break ties on one side, and ppo, disparity, trix, cog, cv, perf, which divide by an average whose zero may change sign."),
    "C81": ("proved", ["SignAverages:(sma|ewma|wilder|wma|pwma|fwma|trima|kernel|vwma|pvi|nvi)_clear", "SignMeasures:(variance|std_dev|mad|cv|approx_entropy|rsq|relative_vol|ulcer|gator|rsi|tii)_clear", "SignMeasures:(dcor|wilder|tr|atr|hv|cc_hv|gkyz_hv|rwi)_notNegative", "SignMeasures:(tr|atr)_notNegative_of_bars", "BandOrder:(bbands|keltner|starc|donchian)_ordered64", "BandOrder:bbands_middle64|ma_stored|std_dev_notNegative", "SignCases:tr_negative|donchian_crosses"], "All in FP \u03c1 for every rounding \u03c1. SignClear x (Lemmas/Sign.lean): x is NaN, +\u221e or a non-negative real that is not -0. NotNegative, Every: Spec/Sign.lean. Every P r: each value of a run that does not panic satisfies P. tr_negative and donchian_crosses show that the hypotheses on NaN are needed."),
    "C82": ("proved", ["LiftSmooth:(sma|ewma|dema|tema|wilder|wma|pwma|fwma|trima|hull|zlma)_lift", "LiftSmooth2:(lrf|ma|kernel|alma)_lift", "LiftSmooth3:(hwma|ssf|t3)_lift", "LiftStats:(variance|std_dev|zscore|mad|kurtosis|skew|approx_entropy|sample_entropy|quantile|median|mse|rmse|mae|mda|mase)_lift", "LiftVolatility:(mass|tr|atr|keltner|gri|typical|std_dev|bbands|donchian|starc|cvi|relative_vol|inertia|chop|vhf|heikin_ashi|wcp)_lift", "LiftMomentum:(alligator|rsi|macd|cmo|elder_ray|wpr|apo|ultimate|pgo|si|tii|stoch|stochastic|stc|relative_vigor|bal_power|qstick|psych|tsi|qqe|cci|deli|gator|kdj)_lift", "LiftTrend:(shinohara|adx|vortex|asi|supertrend|rwi|psar|dpo|aroon|chandelier|ichimoku|hurst)_lift", "LiftCorrelation:(pcc|rsq|krcc|rank|srcc|hoeffd|dcor)_lift", "LiftVolume:(kvo|twiggs|ad|elder_force|cmf|tvi|ease|obv|bw_mfi|vwma|vwap)_lift", "LiftCases:.*_raise|.*_not_raised"], "Exact arithmetic XF. Raised c x y: y = x + c (NaN and infinities stay); Lifted c n: raised n times by c, so Lifted c 1 is a price and Lifted c 0 is equality; hwma, ssf and t3 use RaisedZ, which does not look at the sign of a zero. The *_raise theorems of LiftCases state the claim as equations on raise c data. bbands and dpo: for every average except Variable and Vidya, which start from 0. roc_not_raised and kama_not_raised are functions that do not follow."),
    "C83": ("proved", ["Superpose:.*_superposes"], "Spec/Superpose.lean: blend s t x y is s*x + t*y bar by bar; Superposes ok f says that f of a blend is the blend of the answers, up to the sign of a zero, for lengths n with ok n. kama_not_superposes is the counterexample."),
    "C84": ("proved", ["Lag:.*_lags", "Lag:(macd|apo|cfo|dpo)_line"], "Spec/Lag.lean: line c m n is the line of prices; Lags ok k lag f says that f reports c + m*(i - lag) from bar k on."),
    "C85": ("proved", ["Forget:.*_forgets.*|.*_fading|eventually"], "Exact arithmetic. Agree p p' n B: both runs return and their values at the j-th of the n common bars differ by at most B j."),
    "C86": ("proved", ["OneBar:(sma|ewma|wilder|wma|pwma|trima|dema|variance|std_dev|mad|quantile|median|lrf)_one"], "Every rounding (hence exact arithmetic and binary64). Prices: finite numbers of the format. Equality of numbers: -0 counts as 0."),
    "C87": ("proved", ["Order:.*_order", "Order:krcc_order_matters", "Order64:.*_order64", "Order64:sma_order_matters64"], "Exact arithmetic for the plain names; *_order64 are binary64 (quantile and median: every rounding). cv where the mean is not 0, skew and kurtosis where the window is not constant, vwma where the volume is not 0, krcc where no window of the second series has ties (krcc_order_matters shows that is needed)."),
    "C88": ("proved", ["Saturate:(rsi|cmo|tsi|psych|tii)_(rising|falling)", "Saturate2:(aroon|adx|ulcer|wpr|stoch|mfi|krcc|srcc)_(rising|falling|opposite)"], "aroon in every rounding; the others exact"),
    "C89": ("proved", ["Ratio64:(wpr|stoch|bal_power|vhf)_accurate", "Ratio64b:(ultimate|vortex|roc)_accurate", "Ratio64c:(cog_accurate|cmo_accuracy_lost)"], "cmo_accuracy_lost is the counterexample stated in the property"),
    "C90": ("proved", ["Whole64:(sma|vwma|psych)_rounded", "Whole64:(obv|tvi)_exact", "Whole64b:(cmo|cog|shinohara|vortex|vhf|donchian)_rounded", "Whole64c:krcc_(untied_)?rounded"], "stated for every rounding, so for binary64; krcc for binary64"),
    "C91": ("proved", ["Cond64:(gains|losses|changes)_near|(rsi|tsi|ppo|disparity|trix|pgo)_conditioned", "Cond64b:(zscore|cv)_conditioned|sqrt_near_pos|var_win64|dev_le_stdDev", "Cond64c:(tii|cci|vhf|cvi)_conditioned"], "Conditioned error bounds over F64 = FP binary64. QuotWithin states the bound; the condition is on the exact denominator."),
    "C92": ("proved", ["SumStart:sum_start|sum_start_zeros|sum_start_val|sum_start_prices"], "fsumNeg folds from -0.0; stated for every rounding"),
    "C93": ("proved", ["Machine:.*_fits|.*_overflows"], "Model/Checked evaluates the products with umul/uadd before the model over Nat runs; hoeffd and pwma are checked in the model itself (C73 and the pwma claims)"),
    "C94": ("proved", ["Money64:(vwma|vwap|pvi|nvi)_accurate", "Rsi64:(rsi_accurate|wilder_rel)"], "Relative error bounds in the binary64 model. Terms of one sign do not cancel, so nothing depends on how large the prices are; the grid of doubles shows that gains and losses of normal prices are never subnormal."),
    "C95": ("proved", ["Lazy:.*_(drain|pull|warmup|item|item_panics)$"], "pull, warmup and drain hold for every arithmetic; item theorems say exactly which item panics. The default tolerance of the entropies depends on the whole series and is therefore not a function of the first k bars, so pull and item take a given tolerance. The iterator state after a caught panic is Windows having moved on, as in the standard library."),
    "C96": ("proved", ["OrderOnly:(.*_order_only|sameOrder_of_increasing|signum_quotes)$"], "For every rounding. SameOrder d: comparing bars less than d apart gives the same result; sameOrder_of_increasing shows that every strictly increasing function of the prices qualifies. Minus zero is excluded where the code takes differences: signum(-0 - 0) is -1."),
    "C97": ("proved", ["Identities:(std_dev_sq|mad_le_std_dev|median_near_sma|zscore_mul_std_dev|cv_mul_sma|forecast_errors_agree|lrf_eq_wma_sma|vwma_eq_sma|std_dev_le_donchian|bbands_width|typical_eq_sma|cog_eq_wma_sma|wpr_eq_stoch|ppo_mul_ewma|elder_ray_gap|qstick_eq_ewma|cci_mul_mad|ad_change_eq_cmf|obv_change_eq_psych|rsq_eq_pcc_sq|ichimoku_eq_donchian)$"], "Exact arithmetic. Shows i r v: the call r does not panic and its value at bar i is the finite number v; such a v is unique (Shows.unique)."),
    "C98": ("proved", ["Bounds:(zscore_bound|zscore_two|skew_bound|kurtosis_bounds|skew_kurtosis|cv_bound|cog_bounds|disparity_above|ppo_above|roc_above|ulcer_below|vhf_bounds|bbands_contain)$"], "Exact arithmetic. Samuelson's inequality, the bound on the third moment and Pearson's inequality are proved for lists of reals and applied to the windows. The upper bound on kurtosis is not the sharpest one (w)."),
    "C99": ("proved", ["Stable:(?!trueRangeOf|trAt|atr_near).*_stable"], "exact arithmetic; the adaptive averages (kama, vidya, frama, mama), hwma and the ratios are not covered: their response to an error is not bounded by a fixed multiple or depends on the data"),
    "C100": ("proved", ["Extremes:(rsi|cmo|psych|tii)_(hundred|minus_hundred|nought)", "Extremes2:(zscore_largest|zscore_smallest|pcc_one|pcc_minus_one|(mse|rmse|mae)_nought|mda_one)", "Extremes3:(wpr_nought|wpr_minus_hundred|stochastic_hundred|aroon_up_ends|aroon_down_ends|ulcer_nought|mfi_hundred|mfi_nought|cmf_one|cmf_minus_one)"], "Exact arithmetic, every bar from the first defined one. Equivalences in both directions. rsi needs a window of two or more (over one bar only the newest step counts). mfi and cmf need positive volumes, and for mfi positive prices; wpr, stochastic and cmf need a range that is not 0."),
    "C101": ("proved", ["Cycle:.*_cycle", "CycleLevel:.*_level|roc_cycle_zero|cmo_cycle_zero"], "First part in every arithmetic (X_cycle, from C63); second part X_level in exact arithmetic, quantile/median/donchian in every rounding. SameValue identifies +0 and -0. krcc is left out of the second part: with ties in its second series it depends on the order (C87)."),
    "C102": ("proved", ["Params:.*_deviations|.*_multiplier|donchian_window|quantile_mono|si_limit"], "std_dev, bbands, starc, hv, chandelier and donchian in every rounding; quantile, cks and si in exact arithmetic. starc and chandelier need closes that are not NaN."),
    "C103": ("proved", ["Outlier:kurtosis_le_window|kurtosis_least|skew_extreme|zscore_extreme"], "Exact arithmetic; flat windows give NaN and are excluded (C39)."),
    "C104": ("proved", ["Settle:.*_settles", "Settle2:.*_settles", "Settle3:.*_settles"], "Exact arithmetic. upTo s n is the first n bars of the series s; Settles r T: the last item of r n exists, is finite and tends to T."),
    "C105": ("proved", ["GapSmooth:.*_gapShows", "GapStats:.*_gapShows", "GapNot:donchian_skips|median_nan_ignored|psych_nan_ignored"], "GapShows is the specification: W bars of NaN after the bad bar. greatest/least number for donchian; median and psych have concrete counterexamples."),
    "C106": ("proved", ["Chain:.*_chains|.*_neverChains"], "Chains and NeverChains are stated about the calls on the padded and the unpadded series."),
    "C107": ("proved", ["Ints:intToF64_(exact|mono|near|collide)", "Ints:(quantileInt|medianInt|rankInt|srccInt|hoeffdInt)_eq", "Ints:rankInt_(min|max|dense|average|order|sees_more)", "Ints:(srccInt|hoeffdInt)_order"], "Model/Ints models the functions that compare values of the caller's type at an integer type. The conversion is the rounding of binary64. rankInt_sees_more is the concrete difference beyond 2^53."),
    "C108": ("proved", ["Later:.*_later", "Later:vwap_session", "Later:vwap_closed"], "Exact arithmetic for the running totals, every arithmetic for vwap."),
    "C109": ("proved", ["Release:.*_release.*"], "Refinement of the checked model by the wrapping one, and closed forms of what the wrapping one reports outside."),
    "C110": ("proved", ["Move:.*_moves.*", "Move:dema_overshoots"], "Difference of consecutive values of the closed forms; exact arithmetic."),
    "C111": ("proved", ["Signed64:(cmo|relative_vigor|bal_power|tsi|cmoRaw)_bounded", "Signed64:ewma_unit64", "Signed64:(pcc|cmf)_above_one"], "cmo and relative_vigor in every rounding, bal_power and tsi in binary64; pcc and cmf by counterexample"),
    "C112": ("proved", ["LazyScan:.*_drain", "LazyScan:.*_pull", "LazyScan:obv_pull_answers", "LazyScan:obv_item_panics", "LazyScan:vwap_empty_resets", "LazyScan:mama_.*"], "the items are modelled one by one, with the state a panicking closure leaves behind"),
    "C113": ("proved", ["NearCycle:.*_nears_cycle", "NearCycle:eventually", "NearCycle:ewma_cycle_limit", "NearCycle:.*_cycle_mean"], "exact real arithmetic"),
    "C114": ("proved", ["ZeroLine:.*_(rising|falling)", "ZeroLine2:.*_(rising|falling|over|under)"], "Exact arithmetic. Both directions for every listed indicator."),
    "C115": ("proved", ["Docs:cfo_unbounded_above|cfo_unbounded_below|cfo_bend|cfo_values|qstick_minority|dcor_one_not_equal|dpo_line_sign|dpo_rising_below|chop_sideways|chop_trend"], "Exact arithmetic. Each documented reading is quoted in the comment beside the theorem that refutes it or says what holds instead."),
    "C116": ("proved", ["ReleaseZero:.*_release"], "Model/ReleaseZero is the model with usize arithmetic modulo 2^64; agreement with the checked model is proved for every function, then window 0 for every rounding. Functions that collect a window-0 average first (dema, tema, ...) need an allocation of 2^64 values and are not modelled."),
    "C117": ("proved", ["StopSide:supertrend_(follows|turns|holds_through|wrong_side)|falling_stop|rising_stop|bands_ordered"], "Exact arithmetic. supertrend_follows (multiplier \u2265 window), falling_stop (2\u00b7multiplier \u2265 window), supertrend_turns (every multiplier), and two series with the usual settings on which the reading fails."),
    "C118": ("proved", ["Averages64:.*_accurate"], "Binary64 instance of the floating-point model. Units of rounding are as in WithinUnits. The recursive averages need a series of at most 2^32 values and ewma a window of at least 2 (with window 1 it copies the data)."),
    "C119": ("proved", ["Corr64:pcc_whole|srcc_untied|pcc_lost", "Hoeffd64:hoeffd_rounded"], "Binary64 instance of the floating-point model. CorrWithin k: within k units of rounding (relative) of pearson (Spec/Real), NaN if a window is constant. srcc with ties is not covered: the mean of tied ranks (lowest rank of the group) need not be a half."),
    "C120": ("proved", ["Forecast64:(mae|mse|rmse|mape|smape|mase|emae)_accurate", "Measures64:(ulcer|perf|bw_mfi)_accurate|rsc_rounded"], "Binary64 instance of the floating-point model. WithinUnits k a y: |y - a| is at most k units of rounding times |a|. Prices are doubles between 2^-400 and 2^400 (perf: 2^-200 to 2^200), up to 2^32 bars. mase needs a price that has changed."),
    "C121": ("proved", ["Adaptive64:(vma|kama|frama|mama)_inRange64|step64|mix64|effRatio_64", "Mama64:mama_(returns|default)64"], "All series lengths. vma and kama: at most two roundings above the highest price; frama and mama: within 1 + 2^-38 of it per line. mama also never panics on prices up to 2^400."),
    "C122": ("proved", ["Ranges64:(tr|atr|mass)_accurate(_of_moving)?"], "Relative to the range itself, not to the prices; prices between 2^-400 and 2^400."),
    "C123": ("proved", ["Quantile64:(quantile_error|median_rounded|aroon_accurate)"], "quantile against M (the largest price); median and aroon relative to their own value. quantile_error needs M between 2^-1022 and 2^800."),
    "C124": ("proved", ["Determines:.*_determines", "Determines:(sma_needs_start|std_dev_forgets)"], "Exact arithmetic. sma, wma, pwma, fwma, trima, hull, ewma, wilder, dema, tema, t3, zlma, ssf (both forms), hwma, macd and apo: equal readings and equal starting bars give equal prices. Two refutations show what is needed: the starting bars (sma_needs_start), and an indicator that keeps the direction (std_dev_forgets)."),
    "C125": ("proved", ["Travel:.*_travels", "Travel:(ewma|wilder|kama|vma|frama)_chases"], "Exact arithmetic. Travels: sma, wma, pwma, fwma, trima, alma, ewma, wilder (factor 1), macd, apo (2), dema, hull, zlma (3), tema (7), t3 ((1+2g)^3). Chases: ewma, wilder, kama, vma, frama."),
    "C126": ("proved", ["Jump:(sma|wma|ewma|wilder|dema|tema|zlma|macd|std_dev)_jump", "Jump:dema_jump_overshoots"], "Exact arithmetic, closed forms M bars after the jump for sma, wma, ewma, wilder, dema, tema, zlma, macd and std_dev, and dema_jump_overshoots."),
    "C127": ("proved", ["Drift64:(obv|vpt|ad|ad_williams)_drift"], "IEEE binary64. Series of at most 2^24 bars; ad needs each close between low and high and a range that is not subnormal; vpt needs prices between 2^-400 and 2^400 that at most double from bar to bar. Approx x a e: x is finite and |x - a| <= e."),
    "C128": ("proved", ["Cmf64:cmf_error"], "IEEE binary64. Windows up to 2^20; each close between its low and high, with a range between 2^-400 and 2^400; volumes zero or between 2^-400 and 2^400; readings of windows without any volume are not covered (0/0)."),
    "C129": ("proved", ["Cross:(ewma|wilder|pwma|kama|vma|frama)_crosses|(ewma|wilder|pwma)_turns|(trix|elder_force)_signals|sma_crosses_more", "Cross2:(macd|apo|ppo|tsi)_signals"], "Exact arithmetic. Levels and turns: ewma, wilder, pwma. Sign changes: trix (positive prices), elder_force (volumes not negative), tsi (a price that moves at every bar), and with one extra at the start macd, apo and ppo (positive prices). Levels up to one extra crossing at the start (they start from 0, not from a price): kama, vma, frama. sma_crosses_more: six prices on which the simple average crosses zero three times and the price twice."),
    "C130": ("proved", ["Reverse:(sma|pwma|trima|wma|variance|std_dev|mad|quantile|cmo|roc)_backwards"], "Exact arithmetic. Same reading: sma, pwma, trima, variance, std_dev, mad, quantile. Opposite reading: cmo (where the price moves in every window). Reciprocal growth: roc (positive prices). wma: forward and backward readings average to sma."),
    "C131": ("proved", ["Portfolio:(std_dev|mad|variance)_holding"], "Exact arithmetic. std_dev and mad: triangle inequality both ways; variance and pcc: the variance of a sum. Windows with a constant series, where pcc is NaN, are covered by std_dev_holding only."),
    "C132": ("proved", ["Forecasts:(mae|mape|mse|rmse)_blend|(mae|rmse)_distance"], "Exact arithmetic. mse is an identity, the others inequalities. mape needs prices that are not zero."),
    "C133": ("proved", ["Merge:.*_merges"], "Exact arithmetic. Totals: no negative zero among the prices that decide a direction (obv, kvo), prices not zero (vpt), bars whose high and low differ (ad, kvo with alt off, cmf), a true range that is not zero (twiggs). pvi and nvi react to changes of the volume and mfi can divide 0 by 0; they are not included."),
    "C134": ("proved", ["Join:.*_joins"], "Exact arithmetic. Shows i r v: the call r does not panic and its value at bar i is the finite number v. A window of w bars spans w - 1 steps of roc, so its windows join to u + v - 1."),
    "C135": ("proved", ["Ribbon:.*_follows", "Ribbon:.*_leads", "Ribbon2:.*_follows"], "Exact arithmetic. FollowsTrend and FastLeads (Spec/Ribbon) state both directions for each average."),
    "C136": ("proved", ["Ceiling:chop_within|chop_unbounded"], "Exact arithmetic. chop_within gives the range, chop_unbounded bars for every bound."),
    "C137": ("proved", ["SarTrend:psar_rising|psar_falling|psar_overlap"], "Exact arithmetic. StepsUp and StepsDown: no bar overlaps the one before. psar_overlap shows that the condition cannot be weakened to rising highs and lows."),
    "C138": ("proved", ["Steer:.*_steered"], "Exact arithmetic. Steered: the reading rises exactly if the first condition holds of the new bar and falls exactly if the second does."),
    "C139": ("proved", ["Plateau:.*_never_turns", "Plateau:typical_never_.*", "Plateau2:ewma_flat_.*", "Plateau3:donchian_never_.*"], "Every rounding, binary64 included, NaN and overflow included. Readings compare by NotAbove, so a NaN reading compares with nothing. The kernel regression from its 255th bar on."),
    "C140": ("proved", ["CorrTable:(pcc|srcc)_.*", "CorrTable:three"], "Exact arithmetic; how close pcc comes to the exact coefficient in binary64 is C119."),
    "C141": ("proved", ["BasketBeta:beta_basket"], "Exact arithmetic."),
}
