{
 "claims": [
  {
   "property": "C01",
   "status": "proved",
   "theorems": [
    "Traquer.Smooth.ewma_aligned",
    "Traquer.Smooth.sma_aligned",
    "Traquer.Smooth.dema_aligned",
    "Traquer.Smooth.tema_aligned",
    "Traquer.Smooth.wma_aligned",
    "Traquer.Smooth.pwma_aligned",
    "Traquer.Smooth.fwma_aligned",
    "Traquer.Smooth.lrf_aligned",
    "Traquer.Smooth.wilder_aligned",
    "Traquer.Smooth.trima_aligned",
    "Traquer.Smooth.hull_aligned",
    "Traquer.Smooth.cmoRaw_length",
    "Traquer.Smooth.vma_aligned",
    "Traquer.Smooth.vidya_aligned",
    "Traquer.Smooth.zlma_aligned",
    "Traquer.Smooth.kernel_length",
    "Traquer.Smooth.kama_aligned",
    "Traquer.Smooth.alma_aligned",
    "Traquer.Smooth.mdma_aligned",
    "Traquer.Smooth.hwma_aligned",
    "Traquer.Smooth.ssf_aligned",
    "Traquer.Smooth.t3_aligned",
    "Traquer.Smooth.frama_aligned",
    "Traquer.Smooth.mama_length",
    "Traquer.Smooth.ma_aligned",
    "Traquer.Smooth.mama_ok"
   ],
   "note": "holds for every arithmetic, IEEE binary64 included. mama needs finite data not to panic, which is C28."
  },
  {
   "property": "C02",
   "status": "proved",
   "theorems": [
    "Traquer.Momentum.rsi_aligned",
    "Traquer.Momentum.crsi_aligned",
    "Traquer.Momentum.macd_aligned",
    "Traquer.Momentum.ppo_aligned",
    "Traquer.Momentum.apo_aligned",
    "Traquer.Momentum.cmo_aligned",
    "Traquer.Momentum.cfo_aligned",
    "Traquer.Momentum.elder_ray_aligned",
    "Traquer.Momentum.wpr_aligned",
    "Traquer.Momentum.pmo_aligned",
    "Traquer.Momentum.ultimate_aligned",
    "Traquer.Momentum.pgo_aligned",
    "Traquer.Momentum.si_aligned",
    "Traquer.Momentum.trix_aligned",
    "Traquer.Momentum.tii_aligned",
    "Traquer.Momentum.stoch_aligned",
    "Traquer.Momentum.stochastic_aligned",
    "Traquer.Momentum.kdj_aligned",
    "Traquer.Momentum.stc_aligned",
    "Traquer.Momentum.relative_vigor_aligned",
    "Traquer.Momentum.fisher_aligned",
    "Traquer.Momentum.rainbow_aligned",
    "Traquer.Momentum.coppock_aligned",
    "Traquer.Momentum.roc_aligned",
    "Traquer.Momentum.bal_power_aligned",
    "Traquer.Momentum.disparity_aligned",
    "Traquer.Momentum.qstick_aligned",
    "Traquer.Momentum.cog_aligned",
    "Traquer.Momentum.psych_aligned",
    "Traquer.Momentum.tsi_aligned",
    "Traquer.Momentum.special_k_aligned",
    "Traquer.Momentum.kst_aligned",
    "Traquer.Momentum.derivative_aligned",
    "Traquer.Momentum.cci_aligned",
    "Traquer.Momentum.qqe_aligned",
    "Traquer.Momentum.deli_aligned",
    "Traquer.Momentum.gator_aligned"
   ],
   "note": "holds for every arithmetic, IEEE binary64 included"
  },
  {
   "property": "C03",
   "status": "proved",
   "theorems": [
    "Traquer.Volatility.mass_aligned",
    "Traquer.Volatility.trueRange_yields",
    "Traquer.Volatility.tr_aligned",
    "Traquer.Volatility.atr_aligned",
    "Traquer.Volatility.keltner_aligned",
    "Traquer.Volatility.gri_aligned",
    "Traquer.Volatility.typical_aligned",
    "Traquer.Volatility.stdDevRaw_yields",
    "Traquer.Volatility.std_dev_aligned",
    "Traquer.Volatility.bbands_aligned",
    "Traquer.Volatility.donchian_aligned",
    "Traquer.Volatility.fbands_aligned",
    "Traquer.Volatility.hv_aligned",
    "Traquer.Volatility.starc_aligned",
    "Traquer.Volatility.cvi_aligned",
    "Traquer.Volatility.relative_vol_aligned",
    "Traquer.Volatility.inertia_aligned",
    "Traquer.Volatility.chop_aligned",
    "Traquer.Volatility.vhf_aligned",
    "Traquer.Volatility.heikin_ashi_yields",
    "Traquer.Volatility.wcp_length",
    "Traquer.Volatility.cc_hv_aligned",
    "Traquer.Volatility.gkyz_hv_aligned"
   ],
   "note": "holds for every arithmetic, IEEE binary64 included"
  },
  {
   "property": "C04",
   "status": "proved",
   "theorems": [
    "Traquer.Trend.shinohara_aligned",
    "Traquer.Trend.dmBars_yields",
    "Traquer.Trend.adx_aligned",
    "Traquer.Trend.vortex_aligned",
    "Traquer.Trend.asi_aligned",
    "Traquer.Trend.ulcer_aligned",
    "Traquer.Trend.supertrend_aligned",
    "Traquer.Trend.rwi_aligned",
    "Traquer.Trend.psar_aligned",
    "Traquer.Trend.dpo_aligned",
    "Traquer.Trend.dpo_panics",
    "Traquer.Trend.aroon_aligned",
    "Traquer.Trend.chandelier_aligned",
    "Traquer.Trend.zigzag_yields",
    "Traquer.Trend.cks_aligned",
    "Traquer.Trend.atr_stop_aligned",
    "Traquer.Trend.ichimoku_aligned",
    "Traquer.Trend.hurst_aligned",
    "Traquer.Trend.alligator_aligned"
   ],
   "note": "holds for every arithmetic, IEEE binary64 included"
  },
  {
   "property": "C05",
   "status": "proved",
   "theorems": [
    "Traquer.Volume.tailBars_yields",
    "Traquer.Volume.vforce_yields",
    "Traquer.Volume.vforce_alt_yields",
    "Traquer.Volume.kvo_aligned",
    "Traquer.Volume.wilder_sum_yields",
    "Traquer.Volume.twiggs_aligned",
    "Traquer.Volume.ad_aligned",
    "Traquer.Volume.elder_force_aligned",
    "Traquer.Volume.mfi_aligned",
    "Traquer.Volume.cmf_aligned",
    "Traquer.Volume.tvi_aligned",
    "Traquer.Volume.ease_aligned",
    "Traquer.Volume.obv_aligned",
    "Traquer.Volume.bw_mfi_length",
    "Traquer.Volume.pvi_aligned",
    "Traquer.Volume.nvi_aligned",
    "Traquer.Volume.vwap_aligned",
    "Traquer.Volume.vwma_aligned",
    "Traquer.Volume.vpt_aligned"
   ],
   "note": "holds for every arithmetic, IEEE binary64 included"
  },
  {
   "property": "C06",
   "status": "proved",
   "theorems": [
    "Traquer.Distribution.variance_aligned",
    "Traquer.Distribution.std_dev_aligned",
    "Traquer.Distribution.zscore_aligned",
    "Traquer.Distribution.mad_aligned",
    "Traquer.Distribution.cv_aligned",
    "Traquer.Distribution.kurtosis_aligned",
    "Traquer.Distribution.skew_aligned",
    "Traquer.Distribution.approx_entropy_aligned",
    "Traquer.Distribution.sample_entropy_aligned",
    "Traquer.Regression.runningError_length",
    "Traquer.Regression.mse_length",
    "Traquer.Regression.rmse_length",
    "Traquer.Regression.mae_length",
    "Traquer.Regression.mape_length",
    "Traquer.Regression.smape_length",
    "Traquer.Regression.mda_aligned",
    "Traquer.Regression.mase_aligned",
    "Traquer.Regression.emae_length",
    "Traquer.Correlation.pcc_aligned",
    "Traquer.Correlation.rsq_aligned",
    "Traquer.Correlation.beta_aligned",
    "Traquer.Correlation.perf_aligned",
    "Traquer.Correlation.rsc_length",
    "Traquer.Correlation.krcc_aligned",
    "Traquer.Correlation.dcor_aligned",
    "Traquer.Correlation.mic_aligned",
    "Traquer.Distribution.quantile_aligned",
    "Traquer.Distribution.median_aligned",
    "Traquer.Distribution.rank_yields",
    "Traquer.Correlation.srcc_aligned",
    "Traquer.Correlation.hoeffd_aligned"
   ],
   "note": "holds for every arithmetic; quantile, srcc and hoeffd for every rounding (the rank based ones need series without NaN, see rank_nan_panics)"
  },
  {
   "property": "C07",
   "status": "proved",
   "theorems": [
    "Traquer.Smooth.ewma_aligned",
    "Traquer.Smooth.sma_aligned",
    "Traquer.Smooth.dema_aligned",
    "Traquer.Smooth.tema_aligned",
    "Traquer.Smooth.wma_aligned",
    "Traquer.Smooth.pwma_aligned",
    "Traquer.Smooth.fwma_aligned",
    "Traquer.Smooth.lrf_aligned",
    "Traquer.Smooth.wilder_aligned",
    "Traquer.Smooth.sma_warmUp",
    "Traquer.Smooth.wma_warmUp",
    "Traquer.Smooth.trima_aligned",
    "Traquer.Smooth.hull_aligned",
    "Traquer.Smooth.vma_aligned",
    "Traquer.Smooth.vidya_aligned",
    "Traquer.Smooth.zlma_aligned",
    "Traquer.Smooth.kama_aligned",
    "Traquer.Smooth.alma_aligned",
    "Traquer.Smooth.mdma_aligned",
    "Traquer.Smooth.hwma_aligned",
    "Traquer.Smooth.ssf_aligned",
    "Traquer.Smooth.t3_aligned",
    "Traquer.Smooth.frama_aligned",
    "Traquer.Smooth.ma_aligned",
    "Traquer.Trend.alligator_aligned",
    "Traquer.Momentum.rsi_aligned",
    "Traquer.Momentum.crsi_aligned",
    "Traquer.Momentum.macd_aligned",
    "Traquer.Momentum.ppo_aligned",
    "Traquer.Momentum.apo_aligned",
    "Traquer.Momentum.cmo_aligned",
    "Traquer.Momentum.cfo_aligned",
    "Traquer.Momentum.elder_ray_aligned",
    "Traquer.Momentum.wpr_aligned",
    "Traquer.Momentum.pmo_aligned",
    "Traquer.Momentum.ultimate_aligned",
    "Traquer.Momentum.pgo_aligned",
    "Traquer.Momentum.si_aligned",
    "Traquer.Momentum.trix_aligned",
    "Traquer.Momentum.tii_aligned",
    "Traquer.Momentum.stoch_aligned",
    "Traquer.Momentum.stochastic_aligned",
    "Traquer.Momentum.kdj_aligned",
    "Traquer.Momentum.stc_aligned",
    "Traquer.Momentum.relative_vigor_aligned",
    "Traquer.Momentum.fisher_aligned",
    "Traquer.Momentum.rainbow_aligned",
    "Traquer.Momentum.coppock_aligned",
    "Traquer.Momentum.roc_aligned",
    "Traquer.Momentum.bal_power_aligned",
    "Traquer.Momentum.disparity_aligned",
    "Traquer.Momentum.qstick_aligned",
    "Traquer.Momentum.cog_aligned",
    "Traquer.Momentum.psych_aligned",
    "Traquer.Momentum.tsi_aligned",
    "Traquer.Momentum.special_k_aligned",
    "Traquer.Momentum.kst_aligned",
    "Traquer.Momentum.derivative_aligned",
    "Traquer.Momentum.cci_aligned",
    "Traquer.Momentum.qqe_aligned",
    "Traquer.Momentum.deli_aligned",
    "Traquer.Momentum.gator_aligned",
    "Traquer.Smooth.lrf_warmUp",
    "Traquer.Volatility.mass_aligned",
    "Traquer.Volatility.tr_aligned",
    "Traquer.Volatility.atr_aligned",
    "Traquer.Volatility.keltner_aligned",
    "Traquer.Volatility.gri_aligned",
    "Traquer.Volatility.typical_aligned",
    "Traquer.Volatility.std_dev_aligned",
    "Traquer.Volatility.bbands_aligned",
    "Traquer.Volatility.donchian_aligned",
    "Traquer.Volatility.fbands_aligned",
    "Traquer.Volatility.hv_aligned",
    "Traquer.Volatility.starc_aligned",
    "Traquer.Volatility.cvi_aligned",
    "Traquer.Volatility.relative_vol_aligned",
    "Traquer.Volatility.inertia_aligned",
    "Traquer.Volatility.chop_aligned",
    "Traquer.Volatility.vhf_aligned",
    "Traquer.Volatility.cc_hv_aligned",
    "Traquer.Volatility.gkyz_hv_aligned",
    "Traquer.Trend.shinohara_aligned",
    "Traquer.Trend.adx_aligned",
    "Traquer.Trend.vortex_aligned",
    "Traquer.Trend.asi_aligned",
    "Traquer.Trend.ulcer_aligned",
    "Traquer.Trend.supertrend_aligned",
    "Traquer.Trend.rwi_aligned",
    "Traquer.Trend.psar_aligned",
    "Traquer.Trend.dpo_aligned",
    "Traquer.Trend.aroon_aligned",
    "Traquer.Trend.chandelier_aligned",
    "Traquer.Trend.cks_aligned",
    "Traquer.Trend.atr_stop_aligned",
    "Traquer.Trend.ichimoku_aligned",
    "Traquer.Trend.hurst_aligned",
    "Traquer.Volume.kvo_aligned",
    "Traquer.Volume.twiggs_aligned",
    "Traquer.Volume.ad_aligned",
    "Traquer.Volume.elder_force_aligned",
    "Traquer.Volume.mfi_aligned",
    "Traquer.Volume.cmf_aligned",
    "Traquer.Volume.tvi_aligned",
    "Traquer.Volume.ease_aligned",
    "Traquer.Volume.obv_aligned",
    "Traquer.Volume.pvi_aligned",
    "Traquer.Volume.nvi_aligned",
    "Traquer.Volume.vwap_aligned",
    "Traquer.Volume.vwma_aligned",
    "Traquer.Volume.vpt_aligned",
    "Traquer.Distribution.variance_aligned",
    "Traquer.Distribution.std_dev_aligned",
    "Traquer.Distribution.zscore_aligned",
    "Traquer.Distribution.mad_aligned",
    "Traquer.Distribution.cv_aligned",
    "Traquer.Distribution.kurtosis_aligned",
    "Traquer.Distribution.skew_aligned",
    "Traquer.Distribution.approx_entropy_aligned",
    "Traquer.Distribution.sample_entropy_aligned",
    "Traquer.Regression.mda_aligned",
    "Traquer.Regression.mase_aligned",
    "Traquer.Correlation.pcc_aligned",
    "Traquer.Correlation.rsq_aligned",
    "Traquer.Correlation.beta_aligned",
    "Traquer.Correlation.perf_aligned",
    "Traquer.Correlation.krcc_aligned",
    "Traquer.Correlation.dcor_aligned",
    "Traquer.Correlation.mic_aligned"
   ],
   "note": "the WarmUp part of Aligned gives the number of leading NaN for any arithmetic satisfying the IEEE NaN propagation laws"
  },
  {
   "property": "C08",
   "status": "proved",
   "theorems": [
    "Traquer.Smooth.ewma_noLookahead",
    "Traquer.Smooth.sma_noLookahead",
    "Traquer.Smooth.dema_noLookahead",
    "Traquer.Smooth.tema_noLookahead",
    "Traquer.Smooth.wma_noLookahead",
    "Traquer.Smooth.pwma_noLookahead",
    "Traquer.Smooth.fwma_noLookahead",
    "Traquer.Smooth.lrf_noLookahead",
    "Traquer.Smooth.wilder_noLookahead",
    "Traquer.Smooth.trima_noLookahead",
    "Traquer.Smooth.hull_noLookahead",
    "Traquer.Smooth.vma_noLookahead",
    "Traquer.Smooth.vidya_noLookahead",
    "Traquer.Smooth.zlma_noLookahead",
    "Traquer.Smooth.kama_noLookahead",
    "Traquer.Smooth.alma_noLookahead",
    "Traquer.Smooth.mdma_noLookahead",
    "Traquer.Smooth.hwma_noLookahead",
    "Traquer.Smooth.ssf_noLookahead",
    "Traquer.Smooth.t3_noLookahead",
    "Traquer.Smooth.frama_noLookahead",
    "Traquer.Smooth.ma_noLookahead",
    "Traquer.Smooth.kernel_noLookahead",
    "Traquer.Smooth.mama_causal"
   ],
   "note": ""
  },
  {
   "property": "C09",
   "status": "proved",
   "theorems": [
    "Traquer.Momentum.rsi_noLookahead",
    "Traquer.Momentum.crsi_noLookahead",
    "Traquer.Momentum.macd_noLookahead",
    "Traquer.Momentum.ppo_noLookahead",
    "Traquer.Momentum.apo_noLookahead",
    "Traquer.Momentum.cmo_noLookahead",
    "Traquer.Momentum.cfo_noLookahead",
    "Traquer.Momentum.elder_ray_noLookahead",
    "Traquer.Momentum.wpr_noLookahead",
    "Traquer.Momentum.pmo_noLookahead",
    "Traquer.Momentum.ultimate_noLookahead",
    "Traquer.Momentum.pgo_noLookahead",
    "Traquer.Momentum.si_noLookahead",
    "Traquer.Momentum.trix_noLookahead",
    "Traquer.Momentum.tii_noLookahead",
    "Traquer.Momentum.stoch_noLookahead",
    "Traquer.Momentum.stochastic_noLookahead",
    "Traquer.Momentum.kdj_noLookahead",
    "Traquer.Momentum.stc_noLookahead",
    "Traquer.Momentum.relative_vigor_noLookahead",
    "Traquer.Momentum.fisher_noLookahead",
    "Traquer.Momentum.rainbow_noLookahead",
    "Traquer.Momentum.coppock_noLookahead",
    "Traquer.Momentum.roc_noLookahead",
    "Traquer.Momentum.bal_power_noLookahead",
    "Traquer.Momentum.disparity_noLookahead",
    "Traquer.Momentum.qstick_noLookahead",
    "Traquer.Momentum.cog_noLookahead",
    "Traquer.Momentum.psych_noLookahead",
    "Traquer.Momentum.tsi_noLookahead",
    "Traquer.Momentum.special_k_noLookahead",
    "Traquer.Momentum.kst_noLookahead",
    "Traquer.Momentum.derivative_noLookahead",
    "Traquer.Momentum.cci_noLookahead",
    "Traquer.Momentum.qqe_noLookahead",
    "Traquer.Momentum.deli_noLookahead",
    "Traquer.Momentum.gator_stable"
   ],
   "note": ""
  },
  {
   "property": "C10",
   "status": "proved",
   "theorems": [
    "Traquer.Volatility.mass_noLookahead",
    "Traquer.Volatility.tr_noLookahead",
    "Traquer.Volatility.atr_noLookahead",
    "Traquer.Volatility.keltner_noLookahead",
    "Traquer.Volatility.gri_noLookahead",
    "Traquer.Volatility.typical_noLookahead",
    "Traquer.Volatility.std_dev_noLookahead",
    "Traquer.Volatility.bbands_noLookahead",
    "Traquer.Volatility.donchian_noLookahead",
    "Traquer.Volatility.fbands_noLookahead",
    "Traquer.Volatility.hv_noLookahead",
    "Traquer.Volatility.starc_noLookahead",
    "Traquer.Volatility.cvi_noLookahead",
    "Traquer.Volatility.relative_vol_noLookahead",
    "Traquer.Volatility.inertia_noLookahead",
    "Traquer.Volatility.chop_noLookahead",
    "Traquer.Volatility.vhf_noLookahead",
    "Traquer.Volatility.heikin_ashi_noLookahead",
    "Traquer.Volatility.cc_hv_noLookahead",
    "Traquer.Volatility.gkyz_hv_noLookahead",
    "Traquer.Volatility.wcp_noLookahead"
   ],
   "note": ""
  },
  {
   "property": "C11",
   "status": "proved",
   "theorems": [
    "Traquer.Trend.shinohara_noLookahead",
    "Traquer.Trend.adx_noLookahead",
    "Traquer.Trend.vortex_noLookahead",
    "Traquer.Trend.asi_noLookahead",
    "Traquer.Trend.ulcer_noLookahead",
    "Traquer.Trend.supertrend_noLookahead",
    "Traquer.Trend.rwi_noLookahead",
    "Traquer.Trend.psar_noLookahead",
    "Traquer.Trend.dpo_noLookahead",
    "Traquer.Trend.aroon_noLookahead",
    "Traquer.Trend.chandelier_noLookahead",
    "Traquer.Trend.cks_noLookahead",
    "Traquer.Trend.atr_stop_noLookahead",
    "Traquer.Trend.hurst_noLookahead",
    "Traquer.Trend.decay_noLookahead",
    "Traquer.Trend.ichimoku_stable",
    "Traquer.Trend.alligator_lines_stable"
   ],
   "note": ""
  },
  {
   "property": "C12",
   "status": "proved",
   "theorems": [
    "Traquer.Volume.kvo_noLookahead",
    "Traquer.Volume.twiggs_noLookahead",
    "Traquer.Volume.ad_noLookahead",
    "Traquer.Volume.elder_force_noLookahead",
    "Traquer.Volume.mfi_noLookahead",
    "Traquer.Volume.cmf_noLookahead",
    "Traquer.Volume.tvi_noLookahead",
    "Traquer.Volume.ease_noLookahead",
    "Traquer.Volume.obv_noLookahead",
    "Traquer.Volume.pvi_noLookahead",
    "Traquer.Volume.nvi_noLookahead",
    "Traquer.Volume.vwap_noLookahead",
    "Traquer.Volume.vwma_noLookahead",
    "Traquer.Volume.vpt_noLookahead",
    "Traquer.Volume.bw_mfi_noLookahead"
   ],
   "note": ""
  },
  {
   "property": "C13",
   "status": "proved",
   "theorems": [
    "Traquer.Distribution.variance_noLookahead",
    "Traquer.Distribution.std_dev_noLookahead",
    "Traquer.Distribution.zscore_noLookahead",
    "Traquer.Distribution.mad_noLookahead",
    "Traquer.Distribution.cv_noLookahead",
    "Traquer.Distribution.kurtosis_noLookahead",
    "Traquer.Distribution.skew_noLookahead",
    "Traquer.Distribution.approx_entropy_noLookahead",
    "Traquer.Distribution.sample_entropy_noLookahead",
    "Traquer.Regression.mse_noLookahead",
    "Traquer.Regression.rmse_noLookahead",
    "Traquer.Regression.mae_noLookahead",
    "Traquer.Regression.mape_noLookahead",
    "Traquer.Regression.smape_noLookahead",
    "Traquer.Regression.emae_noLookahead",
    "Traquer.Regression.mda_noLookahead",
    "Traquer.Regression.mase_noLookahead",
    "Traquer.Correlation.pcc_noLookahead",
    "Traquer.Correlation.rsq_noLookahead",
    "Traquer.Correlation.beta_noLookahead",
    "Traquer.Correlation.perf_noLookahead",
    "Traquer.Correlation.rsc_noLookahead",
    "Traquer.Correlation.krcc_noLookahead",
    "Traquer.Correlation.dcor_noLookahead",
    "Traquer.Correlation.mic_noLookahead",
    "Traquer.Distribution.quantile_noLookahead",
    "Traquer.Distribution.median_noLookahead",
    "Traquer.Correlation.srcc_noLookahead",
    "Traquer.Correlation.hoeffd_noLookahead"
   ],
   "note": "srcc and hoeffd for series without NaN (they panic otherwise)"
  },
  {
   "property": "C14",
   "status": "proved",
   "theorems": [
    "Traquer.Trend.zigzag_lookahead",
    "Traquer.Distribution.approx_entropy_lookahead",
    "Traquer.Distribution.sample_entropy_lookahead"
   ],
   "note": "For every minimal history length n0 there are a history and a continuation whose answers disagree on an already reported bar: the no look-ahead statement fails however long the history."
  },
  {
   "property": "C15",
   "status": "proved",
   "theorems": [
    "Traquer.Smooth.ewma_answers",
    "Traquer.Smooth.sma_answers",
    "Traquer.Smooth.dema_answers",
    "Traquer.Smooth.tema_answers",
    "Traquer.Smooth.wma_answers",
    "Traquer.Smooth.pwma_answers",
    "Traquer.Smooth.wilder_answers",
    "Traquer.Smooth.lrf_answers",
    "Traquer.Smooth.fwma_answers",
    "Traquer.Smooth.hull_answers",
    "Traquer.Smooth.hull_answers_exact",
    "Traquer.Smooth.stdDevRaw_answers",
    "Traquer.Smooth.cmoRaw_answers",
    "Traquer.Smooth.vidya_answers",
    "Traquer.Smooth.vma_answers",
    "Traquer.Smooth.trima_answers",
    "Traquer.Smooth.zlma_answers",
    "Traquer.Smooth.kama_answers",
    "Traquer.Smooth.alma_answers",
    "Traquer.Smooth.mdma_answers",
    "Traquer.Smooth.hwma_answers",
    "Traquer.Smooth.ssf_answers",
    "Traquer.Smooth.frama_answers",
    "Traquer.Smooth.t3_answers",
    "Traquer.Distribution.std_dev_answers",
    "Traquer.Volatility.trueRange_answers",
    "Traquer.Volatility.atr_answers",
    "Traquer.Volatility.mass_answers",
    "Traquer.Volatility.tr_answers",
    "Traquer.Volatility.keltner_answers",
    "Traquer.Volatility.gri_answers",
    "Traquer.Volatility.typical_answers",
    "Traquer.Volatility.std_dev_answers",
    "Traquer.Volatility.bbands_answers",
    "Traquer.Volatility.donchian_answers",
    "Traquer.Volatility.fbands_answers",
    "Traquer.Volatility.hv_answers",
    "Traquer.Volatility.starc_answers",
    "Traquer.Volatility.cvi_answers",
    "Traquer.Volatility.relative_vol_answers",
    "Traquer.Volatility.inertia_answers",
    "Traquer.Volatility.chop_answers",
    "Traquer.Volatility.vhf_answers",
    "Traquer.Volatility.heikin_ashi_answers",
    "Traquer.Volatility.cc_hv_answers",
    "Traquer.Volatility.gkyz_hv_answers",
    "Traquer.Volume.tailBars_answers",
    "Traquer.Volume.wilder_sum_answers",
    "Traquer.Volume.vforce_answers",
    "Traquer.Volume.vforce_alt_answers",
    "Traquer.Volume.kvo_answers",
    "Traquer.Volume.twiggs_answers",
    "Traquer.Volume.ad_answers",
    "Traquer.Volume.elder_force_answers",
    "Traquer.Volume.mfi_answers",
    "Traquer.Volume.cmf_answers",
    "Traquer.Volume.tvi_answers",
    "Traquer.Volume.ease_answers",
    "Traquer.Volume.obv_answers",
    "Traquer.Volume.vwap_answers",
    "Traquer.Volume.vwma_answers",
    "Traquer.Volume.vpt_answers",
    "Traquer.Trend.alligatorLine_answers",
    "Traquer.Momentum.rsi_answers",
    "Traquer.Momentum.macd_answers",
    "Traquer.Momentum.bpTr_answers",
    "Traquer.Momentum.swing_answers",
    "Traquer.Momentum.stoch_answers",
    "Traquer.Momentum.stcRaw_answers",
    "Traquer.Momentum.crsi_answers",
    "Traquer.Momentum.cmo_answers",
    "Traquer.Momentum.cfo_answers",
    "Traquer.Momentum.elder_ray_answers",
    "Traquer.Momentum.wpr_answers",
    "Traquer.Momentum.ppo_answers",
    "Traquer.Momentum.apo_answers",
    "Traquer.Momentum.pmo_answers",
    "Traquer.Momentum.ultimate_answers",
    "Traquer.Momentum.pgo_answers",
    "Traquer.Momentum.si_answers",
    "Traquer.Momentum.trix_answers",
    "Traquer.Momentum.tii_answers",
    "Traquer.Momentum.stochastic_answers",
    "Traquer.Momentum.stc_answers",
    "Traquer.Momentum.relative_vigor_answers",
    "Traquer.Momentum.fisher_answers",
    "Traquer.Momentum.coppock_answers",
    "Traquer.Momentum.roc_answers",
    "Traquer.Momentum.bal_power_answers",
    "Traquer.Momentum.disparity_answers",
    "Traquer.Momentum.qstick_answers",
    "Traquer.Momentum.cog_answers",
    "Traquer.Momentum.psych_answers",
    "Traquer.Momentum.tsi_answers",
    "Traquer.Momentum.derivative_answers",
    "Traquer.Momentum.cci_answers",
    "Traquer.Momentum.qqe_answers",
    "Traquer.Momentum.deli_answers",
    "Traquer.Momentum.kdj_answers",
    "Traquer.Trend.dmBars_answers",
    "Traquer.Trend.midLine_answers",
    "Traquer.Trend.alligator_answers",
    "Traquer.Momentum.gator_answers",
    "Traquer.Trend.shinohara_answers",
    "Traquer.Trend.adx_answers",
    "Traquer.Trend.vortex_answers",
    "Traquer.Trend.asi_answers",
    "Traquer.Trend.ulcer_answers",
    "Traquer.Trend.supertrend_answers",
    "Traquer.Trend.rwi_answers",
    "Traquer.Trend.psar_answers",
    "Traquer.Trend.dpo_answers",
    "Traquer.Trend.aroon_answers",
    "Traquer.Trend.chandelier_answers",
    "Traquer.Trend.cks_answers",
    "Traquer.Trend.atr_stop_answers",
    "Traquer.Trend.ichimoku_answers",
    "Traquer.Momentum.rainbow_answers",
    "Traquer.Momentum.pringRoc_answers",
    "Traquer.Momentum.pringStep_answers",
    "Traquer.Momentum.prings_answers",
    "Traquer.Momentum.special_k_answers",
    "Traquer.Momentum.kst_answers",
    "Traquer.Trend.zigzag_answers",
    "Traquer.Distribution.variance_answers",
    "Traquer.Distribution.zscore_answers",
    "Traquer.Distribution.mad_answers",
    "Traquer.Distribution.cv_answers",
    "Traquer.Distribution.kurtosis_answers",
    "Traquer.Distribution.skew_answers",
    "Traquer.Distribution.rank_answers",
    "Traquer.Distribution.quickselect_answers",
    "Traquer.Distribution.rank_answers_nan",
    "Traquer.Distribution.quantile_answers",
    "Traquer.Distribution.median_answers",
    "Traquer.Correlation.pcc_answers",
    "Traquer.Correlation.rsq_answers",
    "Traquer.Correlation.dcor_answers",
    "Traquer.Correlation.mic_answers",
    "Traquer.Correlation.krcc_answers",
    "Traquer.Correlation.beta_answers",
    "Traquer.Correlation.perf_answers",
    "Traquer.Correlation.srcc_answers",
    "Traquer.Correlation.hoeffd_answers",
    "Traquer.Regression.mda_answers",
    "Traquer.Smooth.ma_answers",
    "Traquer.Smooth.mama_answers",
    "Traquer.Trend.hurst_answers",
    "Traquer.Distribution.approx_entropy_refuses",
    "Traquer.Distribution.sample_entropy_refuses",
    "Traquer.Distribution.approx_entropy_answers",
    "Traquer.Distribution.sample_entropy_answers",
    "Traquer.Volatility.bbands_answers_exact",
    "Traquer.Trend.dpo_answers_exact",
    "Traquer.Distribution.rank_nan_panics",
    "Traquer.Distribution.rank_empty_panics",
    "Traquer.Smooth.mama_nan_panics"
   ],
   "note": "AnswersIff c n r: r answers with n values if c holds and panics otherwise. Theorems f_answers for every public function whose model can panic; rsc, kernel, mse, rmse, mae, mape, smape, mase, emae, decay, wcp, bw_mfi, pvi and nvi are total in the model. Lengths of several series are independent, except zigzag_answers (equal lengths). Over exact arithmetic where the domain depends on arithmetic: hull, ma, bbands, dpo, hurst (min_win 0 never ends, counted with the panics), entropies (finite values, run length at least 1). mama: finite prices always answer, and mama_nan_panics gives a NaN case, so its domain is exact only on finite prices. Integer overflow of usize products is not modelled."
  },
  {
   "property": "C16",
   "status": "proved",
   "theorems": [
    "Traquer.Smooth.sma_reports",
    "Traquer.Smooth.sma_within",
    "Traquer.Smooth.sma_const",
    "Traquer.Smooth.sma_affine"
   ],
   "note": "exact arithmetic over the extended reals"
  },
  {
   "property": "C17",
   "status": "proved",
   "theorems": [
    "Traquer.Smooth.ewma_reports",
    "Traquer.Smooth.ewma_within",
    "Traquer.Smooth.ewma_const"
   ],
   "note": "exact arithmetic over the extended reals"
  },
  {
   "property": "C18",
   "status": "proved",
   "theorems": [
    "Traquer.Smooth.wilder_reports",
    "Traquer.Smooth.wilder_within",
    "Traquer.Smooth.wilder_const",
    "Traquer.Smooth.wilder_percent"
   ],
   "note": "closed form exact; wilder_percent in every rounding"
  },
  {
   "property": "C19",
   "status": "proved",
   "theorems": [
    "Traquer.Smooth.wma_reports",
    "Traquer.Smooth.wma_convex"
   ],
   "note": "exact arithmetic over the extended reals"
  },
  {
   "property": "C20",
   "status": "proved",
   "theorems": [
    "Traquer.Smooth.pwma_reports",
    "Traquer.Smooth.pwma_convex",
    "Traquer.Smooth.pwma_panics_iff"
   ],
   "note": "exact arithmetic; the panic domain holds for every arithmetic"
  },
  {
   "property": "C21",
   "status": "proved",
   "theorems": [
    "Traquer.Smooth.fwma_reports",
    "Traquer.Smooth.fwma_convex",
    "Traquer.Smooth.fwma_panics_iff"
   ],
   "note": "exact arithmetic; the panic domain holds for every arithmetic"
  },
  {
   "property": "C22",
   "status": "proved",
   "theorems": [
    "Traquer.Smooth.trima_reports",
    "Traquer.Smooth.trima_within"
   ],
   "note": "exact arithmetic over the extended reals"
  },
  {
   "property": "C23",
   "status": "proved",
   "theorems": [
    "Traquer.Smooth.lrf_least_squares",
    "Traquer.Smooth.lrf_line"
   ],
   "note": "exact arithmetic over the extended reals"
  },
  {
   "property": "C24",
   "status": "proved",
   "theorems": [
    "Traquer.Smooth.dema_const",
    "Traquer.Smooth.tema_const",
    "Traquer.Smooth.t3_const",
    "Traquer.Smooth.hull_reports",
    "Traquer.Smooth.hull_const",
    "Traquer.Smooth.zlma_const",
    "Traquer.Smooth.hwma_const",
    "Traquer.Smooth.ssf_const"
   ],
   "note": "exact arithmetic over the extended reals"
  },
  {
   "property": "C25",
   "status": "proved",
   "theorems": [
    "Traquer.Smooth.kama_inRange",
    "Traquer.Smooth.vma_inRange",
    "Traquer.Smooth.frama_inRange",
    "Traquer.Smooth.kernel_reports",
    "Traquer.Smooth.kernel_within",
    "Traquer.Smooth.vidya_inRange",
    "Traquer.Smooth.vidya_overshoots",
    "Traquer.Smooth.mama_inRange"
   ],
   "note": "exact arithmetic over the extended reals"
  },
  {
   "property": "C26",
   "status": "proved",
   "theorems": [
    "Traquer.Smooth.kama_poisoned",
    "Traquer.Smooth.vma_poisoned",
    "Traquer.Smooth.vidya_poisoned",
    "Traquer.Smooth.frama_poisoned"
   ],
   "note": "kama in every rounding, the others exact"
  },
  {
   "property": "C27",
   "status": "proved",
   "theorems": [
    "Traquer.Smooth.alma_reports",
    "Traquer.Smooth.alma_convex",
    "Traquer.Smooth.alma_leans_old"
   ],
   "note": "exact arithmetic over the extended reals"
  },
  {
   "property": "C28",
   "status": "proved",
   "theorems": [
    "Traquer.Smooth.mama_ok",
    "Traquer.Smooth.mama_inRange",
    "Traquer.Smooth.mama_nan_panics",
    "Traquer.Smooth.mamaStep_ok"
   ],
   "note": "mama_nan_panics in every rounding; the rest exact"
  },
  {
   "property": "C29",
   "status": "proved",
   "theorems": [
    "Traquer.Momentum.rsi_reports",
    "Traquer.Momentum.rsi_range",
    "Traquer.Momentum.rsi_only_gains",
    "Traquer.Momentum.rsi_only_losses",
    "Traquer.Momentum.rsi_flat"
   ],
   "note": "exact arithmetic over the extended reals"
  },
  {
   "property": "C30",
   "status": "proved",
   "theorems": [
    "Traquer.Momentum.wpr_reports",
    "Traquer.Momentum.wpr_range",
    "Traquer.Momentum.stoch_range",
    "Traquer.Momentum.stoch_reports",
    "Traquer.Momentum.stochastic_range",
    "Traquer.Momentum.kdj_range",
    "Traquer.Momentum.stc_range",
    "Traquer.Momentum.stochastic_reports"
   ],
   "note": "wpr in every rounding; the others exact"
  },
  {
   "property": "C31",
   "status": "proved",
   "theorems": [
    "Traquer.Momentum.cmo_reports",
    "Traquer.Momentum.cmo_range",
    "Traquer.Momentum.tsi_reports",
    "Traquer.Momentum.tsi_range"
   ],
   "note": "exact arithmetic over the extended reals"
  },
  {
   "property": "C32",
   "status": "proved",
   "theorems": [
    "Traquer.Trend.aroon_items",
    "Traquer.Trend.aroon_range",
    "Traquer.Trend.aroon_exact"
   ],
   "note": "items and range in every rounding; aroon_exact exact"
  },
  {
   "property": "C33",
   "status": "proved",
   "theorems": [
    "Traquer.Trend.adx_range",
    "Traquer.Trend.adx_items",
    "Traquer.Trend.adx_line"
   ],
   "note": "0..100 in every rounding; the sum bound and the closed forms of all three lines exact"
  },
  {
   "property": "C34",
   "status": "proved",
   "theorems": [
    "Traquer.Volume.mfi_reports",
    "Traquer.Volume.mfi_range",
    "Traquer.Volume.cmf_range",
    "Traquer.Volume.twiggs_range"
   ],
   "note": "mfi_range in every rounding; the others exact"
  },
  {
   "property": "C35",
   "status": "proved",
   "theorems": [
    "Traquer.Momentum.ultimate_range",
    "Traquer.Momentum.psych_range",
    "Traquer.Momentum.tii_range",
    "Traquer.Momentum.crsi_range",
    "Traquer.Volatility.relative_vol_range"
   ],
   "note": "ultimate and psych in every rounding; the others exact"
  },
  {
   "property": "C36",
   "status": "proved",
   "theorems": [
    "Traquer.Volatility.tr_largest",
    "Traquer.Volatility.tr_reports",
    "Traquer.Volatility.atr_nonneg",
    "Traquer.Volatility.atr_reports"
   ],
   "note": "tr_largest and atr_nonneg in every rounding; the reports exact"
  },
  {
   "property": "C37",
   "status": "proved",
   "theorems": [
    "Traquer.Volatility.donchian_attained",
    "Traquer.Volatility.donchian_contains",
    "Traquer.Volatility.donchian_ordered",
    "Traquer.Volatility.keltner_bands",
    "Traquer.Volatility.keltner_ordered",
    "Traquer.Volatility.starc_bands",
    "Traquer.Volatility.starc_ordered",
    "Traquer.Volatility.bbands_around",
    "Traquer.Volatility.bbands_ordered",
    "Traquer.Volatility.bbands_default",
    "Traquer.Volatility.fbands_latest",
    "Traquer.Volatility.fbands_crossed"
   ],
   "note": "donchian_attained, fbands_latest and fbands_crossed in every rounding; the others exact. fbands can cross, fbands_crossed is the witness"
  },
  {
   "property": "C38",
   "status": "proved",
   "theorems": [
    "Traquer.Volatility.heikin_ashi_contains",
    "Traquer.Volatility.heikin_ashi_candles",
    "Traquer.Volatility.heikin_ashi_sane"
   ],
   "note": "heikin_ashi_contains in every rounding; the others exact"
  },
  {
   "property": "C39",
   "status": "proved",
   "theorems": [
    "Traquer.Distribution.variance_reports",
    "Traquer.Distribution.std_dev_reports",
    "Traquer.Distribution.mad_reports",
    "Traquer.Distribution.cv_reports",
    "Traquer.Distribution.zscore_reports",
    "Traquer.Distribution.skew_reports",
    "Traquer.Distribution.kurtosis_reports",
    "Traquer.Distribution.dispersion_zero_iff_flat",
    "Traquer.Distribution.dispersion_affine"
   ],
   "note": "exact arithmetic over the extended reals"
  },
  {
   "property": "C40",
   "status": "proved",
   "theorems": [
    "Traquer.Distribution.quantile_aligned",
    "Traquer.Distribution.median_aligned",
    "Traquer.Distribution.quickselect_orderStat",
    "Traquer.Distribution.quantile_reports",
    "Traquer.Distribution.median_reports",
    "Traquer.Distribution.quantile_within",
    "Traquer.Distribution.quantile_whole",
    "Traquer.Distribution.quantile_min",
    "Traquer.Distribution.quantile_max",
    "Traquer.Distribution.quickselect_spec",
    "Traquer.Distribution.quickselect_panics"
   ],
   "note": "quickselect for every order; quantile_whole, _min, _max in every rounding; the interpolation exact"
  },
  {
   "property": "C41",
   "status": "proved",
   "theorems": [
    "Traquer.Distribution.rank_yields",
    "Traquer.Distribution.rank_nan_panics",
    "Traquer.Distribution.rank_empty_panics",
    "Traquer.Distribution.rank_min",
    "Traquer.Distribution.rank_max",
    "Traquer.Distribution.rank_dense",
    "Traquer.Distribution.rank_average",
    "Traquer.Distribution.rank_ordinal",
    "Traquer.Distribution.rank_deterministic"
   ],
   "note": "every rounding, infinities included"
  },
  {
   "property": "C42",
   "status": "proved",
   "theorems": [
    "Traquer.Distribution.rank_ordinal_ties",
    "Traquer.Distribution.rank_ordinal_ties'"
   ],
   "note": "negative result: both tie orders are admissible"
  },
  {
   "property": "C43",
   "status": "proved",
   "theorems": [
    "Traquer.Correlation.pcc_reports",
    "Traquer.Correlation.pcc_range",
    "Traquer.Correlation.rsq_range",
    "Traquer.Correlation.pcc_affine",
    "Traquer.Correlation.pcc_symm",
    "Traquer.Correlation.rsq_symm",
    "Traquer.Correlation.srcc_reports",
    "Traquer.Correlation.srcc_range",
    "Traquer.Correlation.srcc_monotone",
    "Traquer.Correlation.srcc_symm",
    "Traquer.Correlation.rsq_reports"
   ],
   "note": "the symmetries hold bit for bit in every rounding; ranges and values exact. srcc ranks ties by their lowest rank"
  },
  {
   "property": "C44",
   "status": "proved",
   "theorems": [
    "Traquer.Correlation.krcc_reports",
    "Traquer.Correlation.krcc_range",
    "Traquer.Correlation.krcc_ties_wrong",
    "Traquer.Correlation.krcc_ties_above_one",
    "Traquer.Correlation.krcc_ties_infinite",
    "Traquer.Correlation.krccWin_is"
   ],
   "note": "Without ties in the second series: tau-b and its range, for any ties in the first. With ties: exact formula (krccWin_is) and three witnesses of the defect."
  },
  {
   "property": "C45",
   "status": "proved",
   "theorems": [
    "Traquer.Correlation.dcor_reports",
    "Traquer.Correlation.dcor_range",
    "Traquer.Correlation.dcor_affine",
    "Traquer.Correlation.dcor_self",
    "Traquer.Correlation.dcor_symm"
   ],
   "note": "dcor_symm bit for bit in every rounding; the value, its range and dcor_affine/dcor_self exact"
  },
  {
   "property": "C46",
   "status": "proved",
   "theorems": [
    "Traquer.Correlation.mic_range",
    "Traquer.Correlation.mic_reports",
    "Traquer.Correlation.mic_small"
   ],
   "note": "exact arithmetic; the value does not mention the iteration order. mic_small is the defect for windows of at most 6 values"
  },
  {
   "property": "C47",
   "status": "proved",
   "theorems": [
    "Traquer.Regression.mse_nonneg",
    "Traquer.Regression.rmse_nonneg",
    "Traquer.Regression.mae_nonneg",
    "Traquer.Regression.mape_nonneg",
    "Traquer.Regression.smape_nonneg",
    "Traquer.Regression.mase_nonneg",
    "Traquer.Regression.emae_nonneg",
    "Traquer.Regression.mse_perfect",
    "Traquer.Regression.rmse_perfect",
    "Traquer.Regression.mae_perfect",
    "Traquer.Regression.mape_perfect",
    "Traquer.Regression.smape_perfect",
    "Traquer.Regression.mase_perfect",
    "Traquer.Regression.mse_reports",
    "Traquer.Regression.rmse_reports",
    "Traquer.Regression.mae_reports",
    "Traquer.Regression.mape_reports",
    "Traquer.Regression.smape_reports",
    "Traquer.Regression.smape_range",
    "Traquer.Regression.rmse_ge_mae",
    "Traquer.Regression.emae_perfect",
    "Traquer.Regression.mase_reports",
    "Traquer.Regression.emae_reports",
    "Traquer.Regression.mda_range",
    "Traquer.Regression.mda_reports"
   ],
   "note": "Never negative and zero for a perfect forecast in every rounding; exact values, rmse >= mae over the reals. emae needs non-negative series (its denominator is a sum of maxima); mda in [0,1] in every rounding up to 2^53 bars."
  },
  {
   "property": "C48",
   "status": "proved",
   "theorems": [
    "Traquer.Regression.smape_reports",
    "Traquer.Regression.smape_range",
    "Traquer.Regression.smape_reaches_200"
   ],
   "note": "The documented bound 100 is wrong: the sharp bound is 200, attained for actual 1, estimate -1."
  },
  {
   "property": "C49",
   "status": "proved",
   "theorems": [
    "Traquer.Volume.obv_accumulates",
    "Traquer.Volume.obv_unchanged_wrong",
    "Traquer.Momentum.psych_reports",
    "Traquer.Momentum.psych_unchanged_wrong",
    "Traquer.Regression.mda_reports"
   ],
   "note": "The property as a user expects it fails; proved is what the code does (unchanged close adds the volume / counts as an advance) and concrete witnesses of the failure."
  },
  {
   "property": "C50",
   "status": "proved",
   "theorems": [
    "Traquer.Volume.pvi_reports",
    "Traquer.Volume.nvi_reports",
    "Traquer.Volume.pvi_step",
    "Traquer.Volume.nvi_step",
    "Traquer.Volume.pvi_nvi_exclusive"
   ],
   "note": "Closed form over the reals; exclusivity in every rounding and for every input."
  },
  {
   "property": "C51",
   "status": "proved",
   "theorems": [
    "Traquer.Volume.vwap_reports",
    "Traquer.Volume.vwap_within",
    "Traquer.Volume.vwma_reports",
    "Traquer.Volume.vwma_within"
   ],
   "note": "Over the reals, for every strictly increasing reset list (and for no list)."
  },
  {
   "property": "C52",
   "status": "proved",
   "theorems": [
    "Traquer.Volume.vwap_empty_panics",
    "Traquer.Volume.vwap_repeated_reset"
   ],
   "note": "In every arithmetic, for every input."
  },
  {
   "property": "C53",
   "status": "proved",
   "theorems": [
    "Traquer.Distribution.approx_entropy_panics",
    "Traquer.Distribution.sample_entropy_panics",
    "Traquer.Distribution.approx_entropy_reports",
    "Traquer.Distribution.sample_entropy_reports",
    "Traquer.Distribution.sample_entropy_nonneg",
    "Traquer.Distribution.approx_entropy_const_panics",
    "Traquer.Distribution.sample_entropy_const_panics",
    "Traquer.Distribution.approx_entropyRelease_eq",
    "Traquer.Distribution.sample_entropyRelease_eq",
    "Traquer.Distribution.approx_entropyRelease_wraps",
    "Traquer.Distribution.templMatch_iff",
    "Traquer.Distribution.templMatch_zero",
    "Traquer.Distribution.count_is",
    "Traquer.Distribution.pairCount_is",
    "Traquer.Distribution.countWrap_eq",
    "Traquer.Distribution.countU8_eq",
    "Traquer.Distribution.approx_entropy_aligned",
    "Traquer.Distribution.sample_entropy_aligned"
   ],
   "note": "panic condition and exact values for finite series and run length at least 1 in exact arithmetic; both thresholds shown sharp; a build without overflow checks is modelled separately (counter modulo 256), agrees wherever the checked build returns, and reports an infinite entropy for a constant series"
  },
  {
   "property": "C54",
   "status": "proved",
   "theorems": [
    "Traquer.Trend.psar_outside",
    "Traquer.Trend.psar_acceleration",
    "Traquer.Trend.psar_reports",
    "Traquer.Trend.psar_states",
    "Traquer.Trend.sarAt_outside"
   ],
   "note": "In every rounding, infinite prices included, psar is at or above the bar's high or at or below its low, and the acceleration factor stays between its increment and its maximum (psar_states ties the factor to the reported values). In exact arithmetic psar_reports identifies every value with a stop and reverse system over the reals."
  },
  {
   "property": "C55",
   "status": "proved",
   "theorems": [
    "Traquer.Trend.supertrend_reports",
    "Traquer.Trend.supertrend_ratchet_up",
    "Traquer.Trend.supertrend_ratchet_down",
    "Traquer.Trend.supertrend_stop_can_fall",
    "Traquer.Trend.atr_stop_reports",
    "Traquer.Trend.atr_stop_ratchet_up",
    "Traquer.Trend.atr_stop_ratchet_down",
    "Traquer.Trend.atr_stop_side"
   ],
   "note": "Values identified with the published rules over the reals; ratchet of atr_stop unconditional, of supertrend under the condition on the close, and supertrend_stop_can_fall shows that the condition is needed."
  },
  {
   "property": "C56",
   "status": "proved",
   "theorems": [
    "Traquer.Trend.zigzag_prices"
   ],
   "note": "Holds in every arithmetic in which NaN comparisons are false (NaNLaws), for every threshold."
  },
  {
   "property": "C57",
   "status": "proved",
   "theorems": [
    "Traquer.Smooth.ma_reports"
   ],
   "note": "Every mode is identified with the named average over the reals with the documented defaults; MaMode.Ready states per mode how many bars (and, for the adaptive ones, which non degenerate windows) are needed."
  },
  {
   "property": "C58",
   "status": "proved",
   "theorems": [
    "Traquer.Momentum.macd_reports",
    "Traquer.Momentum.apo_reports",
    "Traquer.Momentum.ppo_reports",
    "Traquer.Momentum.roc_reports",
    "Traquer.Trend.alligator_items",
    "Traquer.Momentum.gator_items",
    "Traquer.Correlation.rsc_reports",
    "Traquer.Correlation.perf_reports"
   ],
   "note": "Values over the reals at every bar from the first defined one; quotients are stated with QuotIs (value when the denominator is not zero, the IEEE result otherwise)."
  },
  {
   "property": "C59",
   "status": "proved",
   "theorems": [
    "Traquer.Momentum.fisher_seeded",
    "Traquer.Momentum.fisher_bounded",
    "Traquer.Momentum.fisher_reports",
    "Traquer.Momentum.fisher_negative_prices"
   ],
   "note": "fisher_seeded is the exact line for any finite data, fisher_bounded the bound, fisher_reports the transform for prices in [0, f64::MAX]. fisher_negative_prices shows that the restriction to non-negative prices is needed: the code seeds the maximum with 0."
  },
  {
   "property": "C60",
   "status": "proved",
   "theorems": [
    "Traquer.Trend.decay_reports",
    "Traquer.Trend.decay_bounds",
    "Traquer.Trend.ulcer_nonneg"
   ],
   "note": "Exact arithmetic over finite inputs."
  },
  {
   "property": "C61",
   "status": "proved",
   "theorems": [
    "Traquer.Trend.hurst_scales",
    "Traquer.Trend.hurst_zero_diverges"
   ],
   "note": "The scales are computed in exact real arithmetic with saturation at 2^64-1; an endless loop has no result in the model."
  },
  {
   "property": "C62",
   "status": "proved",
   "theorems": [
    "Traquer.Correlation.beta_reports",
    "Traquer.Correlation.beta_flat",
    "Traquer.Correlation.beta_self",
    "Traquer.Correlation.beta_scales"
   ],
   "note": "Exact arithmetic. beta_flat states the result where the second series' returns are constant."
  },
  {
   "property": "C63",
   "status": "proved",
   "theorems": [
    "Traquer.Smooth.sma_local",
    "Traquer.Smooth.wma_local",
    "Traquer.Smooth.lrf_local",
    "Traquer.Smooth.pwma_local",
    "Traquer.Smooth.fwma_local",
    "Traquer.Smooth.trima_local",
    "Traquer.Smooth.hull_local",
    "Traquer.Smooth.alma_local",
    "Traquer.Smooth.kernel_local",
    "Traquer.bad_bar_contained",
    "Traquer.Distribution.variance_local",
    "Traquer.Distribution.std_dev_local",
    "Traquer.Distribution.zscore_local",
    "Traquer.Distribution.mad_local",
    "Traquer.Distribution.cv_local",
    "Traquer.Distribution.kurtosis_local",
    "Traquer.Distribution.skew_local",
    "Traquer.Distribution.quantile_local",
    "Traquer.Distribution.median_local",
    "Traquer.Distribution.approx_entropy_local",
    "Traquer.Distribution.sample_entropy_local",
    "Traquer.Correlation.pcc_local",
    "Traquer.Correlation.rsq_local",
    "Traquer.Correlation.beta_local",
    "Traquer.Correlation.perf_local",
    "Traquer.Correlation.rsc_local",
    "Traquer.Correlation.srcc_local",
    "Traquer.Correlation.krcc_local",
    "Traquer.Correlation.hoeffd_local",
    "Traquer.Correlation.dcor_local",
    "Traquer.Volatility.tr_local",
    "Traquer.Volatility.gri_local",
    "Traquer.Volatility.typical_local",
    "Traquer.Volatility.std_dev_local",
    "Traquer.Volatility.bbands_sma_local",
    "Traquer.Volatility.donchian_local",
    "Traquer.Volatility.hv_local",
    "Traquer.Volatility.chop_local",
    "Traquer.Volatility.vhf_local",
    "Traquer.Volatility.wcp_local",
    "Traquer.Volatility.cc_hv_local",
    "Traquer.Volatility.gkyz_hv_local",
    "Traquer.Volume.cmf_local",
    "Traquer.Volume.vwma_local",
    "Traquer.Volume.bw_mfi_local",
    "Traquer.Volume.mfi_local",
    "Traquer.Volume.ease_local",
    "Traquer.Momentum.cfo_local",
    "Traquer.Momentum.wpr_local",
    "Traquer.Momentum.roc_local",
    "Traquer.Momentum.cog_local",
    "Traquer.Momentum.cci_local",
    "Traquer.Momentum.psych_local",
    "Traquer.Momentum.tii_local",
    "Traquer.Momentum.ultimate_local",
    "Traquer.Momentum.si_local",
    "Traquer.Momentum.stochastic_local",
    "Traquer.Momentum.kdj_local",
    "Traquer.Momentum.relative_vigor_local",
    "Traquer.Momentum.coppock_local",
    "Traquer.Momentum.rainbow_local",
    "Traquer.Trend.shinohara_local",
    "Traquer.Trend.vortex_local",
    "Traquer.Trend.rwi_local",
    "Traquer.Trend.aroon_local",
    "Traquer.Trend.ulcer_local",
    "Traquer.Trend.dpo_local",
    "Traquer.Trend.hurst_local",
    "Traquer.Smooth.ewma_not_local",
    "Traquer.Smooth.wilder_not_local"
   ],
   "note": "Arbitrary arithmetic (so true f64); the two negative results in exact arithmetic. cmo, vma (running totals), ichimoku (projects), mic (hash order) and the entropies with the default tolerance (deviation of the whole series) are not claimed local; bbands with the SMA, dpo with the default average."
  },
  {
   "property": "C64",
   "status": "proved",
   "theorems": [
    "Traquer.Smooth.ewma_poisoned",
    "Traquer.Smooth.wilder_poisoned",
    "Traquer.Smooth.wilder_one_recovers",
    "Traquer.Smooth.dema_poisoned",
    "Traquer.Smooth.tema_poisoned",
    "Traquer.Smooth.t3_poisoned",
    "Traquer.Smooth.zlma_poisoned",
    "Traquer.Smooth.mdma_poisoned",
    "Traquer.Smooth.hwma_poisoned",
    "Traquer.Smooth.ssf_poisoned",
    "Traquer.Smooth.kama_poisoned_by_nan",
    "Traquer.Smooth.vidya_poisoned_by_nan",
    "Traquer.Smooth.vma_poisoned_by_nan",
    "Traquer.Smooth.frama_poisoned_by_nan",
    "Traquer.Momentum.macd_poisoned",
    "Traquer.Momentum.apo_poisoned",
    "Traquer.Momentum.ppo_poisoned",
    "Traquer.Momentum.disparity_poisoned",
    "Traquer.Momentum.qstick_poisoned",
    "Traquer.Momentum.elder_ray_poisoned",
    "Traquer.Momentum.trix_poisoned",
    "Traquer.Momentum.pmo_poisoned",
    "Traquer.Momentum.tsi_poisoned",
    "Traquer.Volume.obv_poisoned",
    "Traquer.Volume.vpt_poisoned",
    "Traquer.Volume.ad_poisoned",
    "Traquer.Volume.tvi_poisoned",
    "Traquer.Volume.ad_flat_bar",
    "Traquer.Smooth.vma_early_nan_ignored",
    "Traquer.Momentum.rsi_nan_ignored"
   ],
   "note": "NaNLaws only (so true f64), the flat bar in any rounding; the two 'ignored' results and wilder_one_recovers are witnesses for the exceptions."
  },
  {
   "property": "C65",
   "status": "proved",
   "theorems": [
    "Traquer.Volume.obv_accumulates",
    "Traquer.Volume.vpt_accumulates",
    "Traquer.Volume.ad_accumulates",
    "Traquer.Volume.ad_williams_accumulates",
    "Traquer.Volume.tvi_accumulates",
    "Traquer.Trend.asi_accumulates",
    "Traquer.Accumulates.telescope"
   ],
   "note": "Closed form sums over the reals (asi: recurrence in every arithmetic)."
  },
  {
   "property": "C66",
   "status": "proved",
   "theorems": [
    "Traquer.Trend.zigzag_legs",
    "Traquer.Trend.zigzag_loses_top"
   ],
   "note": "zigzag_legs gives the pivot list and what is reported at every bar; zigzag_loses_top is the concrete run in which a top is lost."
  },
  {
   "property": "C67",
   "status": "proved",
   "theorems": [
    "Traquer.Smooth.dema_reports",
    "Traquer.Smooth.tema_reports",
    "Traquer.Smooth.t3_reports",
    "Traquer.Smooth.zlma_reports",
    "Traquer.Smooth.vma_reports",
    "Traquer.Smooth.vidya_reports",
    "Traquer.Smooth.kama_reports",
    "Traquer.Smooth.hull_reports"
   ],
   "note": "Value at every bar over the reals, with the first defined bar. vma/vidya/kama under the hypothesis that no window is flat (the flat case is C26)."
  },
  {
   "property": "C68",
   "status": "proved",
   "theorems": [
    "Traquer.Momentum.disparity_reports",
    "Traquer.Momentum.qstick_reports",
    "Traquer.Momentum.bal_power_reports",
    "Traquer.Momentum.elder_ray_items",
    "Traquer.Momentum.trix_reports",
    "Traquer.Momentum.pmo_reports",
    "Traquer.Momentum.cfo_reports",
    "Traquer.Momentum.cog_reports",
    "Traquer.Momentum.coppock_reports",
    "Traquer.Momentum.pgo_reports",
    "Traquer.Momentum.si_reports",
    "Traquer.Momentum.relative_vigor_reports",
    "Traquer.Momentum.derivative_reports",
    "Traquer.Momentum.cci_reports",
    "Traquer.Momentum.deli_reports",
    "Traquer.Momentum.ultimate_reports",
    "Traquer.Momentum.tii_reports",
    "Traquer.Momentum.stc_reports",
    "Traquer.Momentum.kdj_reports",
    "Traquer.Momentum.rainbow_reports",
    "Traquer.Momentum.prings_reports",
    "Traquer.Momentum.kst_reports",
    "Traquer.Momentum.special_k_reports",
    "Traquer.Momentum.qqe_reports",
    "Traquer.Momentum.crsi_reports"
   ],
   "note": "Values over the reals at every bar from the first defined one. tii counts the deviation as 0 while there is no average; kst and special_k leave out the rates of change that are not available yet; rainbow needs a lookback of at most 10 * (window - 1) + 1."
  },
  {
   "property": "C69",
   "status": "proved",
   "theorems": [
    "Traquer.Smooth.mdma_reports",
    "Traquer.Smooth.hwma_reports",
    "Traquer.Smooth.ssf_reports",
    "Traquer.Smooth.frama_reports"
   ],
   "note": "frama for even windows none of which is flat and prices in the f64 range; mdma for prices other than 0 as long as the average is not 0."
  },
  {
   "property": "C70",
   "status": "proved",
   "theorems": [
    "Traquer.Volatility.wcp_reports",
    "Traquer.Volatility.hv_reports",
    "Traquer.Volatility.cc_hv_reports",
    "Traquer.Volatility.gkyzOf_nonneg",
    "Traquer.Volatility.gkyz_hv_reports",
    "Traquer.Volatility.vhf_reports",
    "Traquer.Volatility.chop_reports",
    "Traquer.Volatility.chop_nonneg",
    "Traquer.Volatility.gri_reports",
    "Traquer.Volatility.cvi_reports",
    "Traquer.Volatility.mass_reports",
    "Traquer.Volatility.relative_vol_reports",
    "Traquer.Volatility.inertia_reports",
    "Traquer.Volatility.typical_reports"
   ],
   "note": "Values over the reals. hv/cc_hv/gkyz_hv for positive prices; chop and gri at every bar whose window has a positive range; mass and inertia where no denominator is 0; quotients with QuotIs otherwise."
  },
  {
   "property": "C71",
   "status": "proved",
   "theorems": [
    "Traquer.Trend.shinohara_reports",
    "Traquer.Trend.vortex_reports",
    "Traquer.Trend.ulcer_reports",
    "Traquer.Trend.rwi_reports",
    "Traquer.Trend.dpo_reports",
    "Traquer.Trend.chandelier_reports",
    "Traquer.Trend.cks_reports",
    "Traquer.Trend.decay_reports",
    "Traquer.Trend.ichimoku_reports",
    "Traquer.Trend.hurst_reports"
   ],
   "note": "Exact arithmetic over finite inputs; rwi needs true ranges different from 0; hurst needs scales >= 2, no constant chunk and moderate values."
  },
  {
   "property": "C72",
   "status": "proved",
   "theorems": [
    "Traquer.Volume.elder_force_reports",
    "Traquer.Volume.ease_reports",
    "Traquer.Volume.bw_mfi_reports",
    "Traquer.Volume.cmf_reports",
    "Traquer.Volume.twiggs_reports",
    "Traquer.Volume.kvo_alt_reports",
    "Traquer.Volume.kvo_reports"
   ],
   "note": "Exact arithmetic. The Klinger force has no absolute value, and an unchanged price counts as up, as in the code."
  },
  {
   "property": "C73",
   "status": "proved",
   "theorems": [
    "Traquer.Correlation.hoeffd_reports",
    "Traquer.Correlation.hoeffd_symmetric",
    "Traquer.Correlation.hoeffd_invariant",
    "Traquer.Correlation.hoeffd_increasing",
    "Traquer.Correlation.hoeffd_constant",
    "Traquer.Correlation.hoeffd_overflows",
    "Traquer.Correlation.hoeffd_range"
   ],
   "note": "Exact arithmetic, any valid sort. hoeffd_constant shows that the documented range fails with ties."
  },
  {
   "property": "C74",
   "status": "proved",
   "theorems": [
    "Traquer.sma_error",
    "Traquer.ewma_error",
    "Traquer.wilder_error",
    "Traquer.mad_error",
    "Traquer.variance_error",
    "Traquer.std_dev_error",
    "Traquer.macd_error",
    "Traquer.Smooth.wma_error",
    "Traquer.Smooth.pwma_error",
    "Traquer.Smooth.fwma_error",
    "Traquer.Smooth.dema_error",
    "Traquer.Smooth.tema_error",
    "Traquer.Smooth.trima_error",
    "Traquer.Smooth.zlma_error",
    "Traquer.Smooth.hull_window64",
    "Traquer.Smooth.hull_error",
    "Traquer.Volatility.wcp_error",
    "Traquer.Volatility.typical_error",
    "Traquer.Volatility.tr_error",
    "Traquer.Volatility.atr_error",
    "Traquer.Volatility.keltner_error",
    "Traquer.Momentum.apo_error",
    "Traquer.Momentum.elder_ray_error",
    "Traquer.Momentum.qstick_error",
    "Traquer.Volatility.starc_error",
    "Traquer.Volatility.heikin_ashi_error",
    "Traquer.Smooth.lrf_error",
    "Traquer.Volatility.donchian_error",
    "Traquer.Volatility.bbands_error",
    "Traquer.Trend.chandelier_error",
    "Traquer.Trend.cks_error",
    "Traquer.Trend.dpo_error",
    "Traquer.Trend.ichimoku_error",
    "Traquer.Trend.alligator_error",
    "Traquer.Trend.gator_error",
    "Traquer.Smooth.t3_error",
    "Traquer.Volume.elder_force_error",
    "Traquer.Momentum.deli_error"
   ],
   "note": "Proved for IEEE binary64 (Arith/Binary64) by a forward error analysis: each step adds at most a few units and the averages contract. Approx x a e: x is finite and |x - a| <= e."
  },
  {
   "property": "C75",
   "status": "proved",
   "theorems": [
    "Traquer.sma_flat64",
    "Traquer.variance_flat64",
    "Traquer.std_dev_flat64",
    "Traquer.zscore_flat64",
    "Traquer.flat_1024"
   ],
   "note": "Spare w r: multiples of r up to w are exact. flat_1024 evaluates the model on binary64 in the kernel by computing each rounding."
  },
  {
   "property": "C76",
   "status": "proved",
   "theorems": [
    "Traquer.Smooth.mama_reports",
    "Traquer.mesa_unique",
    "Traquer.mesa_slow_idle",
    "Traquer.rawPeriod_far",
    "Traquer.Smooth.mama_default_gain"
   ],
   "note": "Exact arithmetic over finite inputs. Mesa.Solves is the list of equations, without queues or state; mesa_unique shows that they determine the values. The comparison with degrees is a remark; proved are the consequences mesa_slow_idle and rawPeriod_far."
  },
  {
   "property": "C77",
   "status": "proved",
   "theorems": [
    "Traquer.Percent64",
    "Traquer.Momentum.rsi_range64",
    "Traquer.Momentum.tii_range64",
    "Traquer.Momentum.rsi_bounded64",
    "Traquer.Momentum.crsi_range64",
    "Traquer.Momentum.rsi_exceeds",
    "Traquer.Momentum.stochastic_range64",
    "Traquer.Momentum.stc_range64",
    "Traquer.Momentum.stochastic_exceeds",
    "Traquer.Momentum.rsi_overflows"
   ],
   "note": "Proved for IEEE binary64 with every special value. UpTo hi x: x is +infinity, NaN or from 0 to hi. The three witnesses evaluate every rounding in the kernel."
  },
  {
   "property": "C78",
   "status": "proved",
   "theorems": [
    "Traquer.Smooth.ewma_units",
    "Traquer.Smooth.sma_units",
    "Traquer.Smooth.dema_units",
    "Traquer.Smooth.tema_units",
    "Traquer.Smooth.dot_units",
    "Traquer.Smooth.lrfWin_units",
    "Traquer.Smooth.stdDevWin_units",
    "Traquer.Smooth.stdDevRaw_units",
    "Traquer.Smooth.gainLoss_units",
    "Traquer.Smooth.cmoRaw_units",
    "Traquer.Smooth.wma_units",
    "Traquer.Smooth.pwma_units",
    "Traquer.Smooth.wilder_units",
    "Traquer.Smooth.hull_units",
    "Traquer.Smooth.vidya_units",
    "Traquer.Smooth.vma_units",
    "Traquer.Smooth.lrf_units",
    "Traquer.Smooth.trima_units",
    "Traquer.Smooth.zlma_units",
    "Traquer.Smooth.fwma_units",
    "Traquer.Smooth.kernel_units",
    "Traquer.Smooth.effRatio_units",
    "Traquer.Smooth.kama_units",
    "Traquer.Smooth.alma_units",
    "Traquer.Smooth.mdma_units",
    "Traquer.Smooth.hwma_units",
    "Traquer.Smooth.ssf_units",
    "Traquer.Smooth.t3_units",
    "Traquer.Smooth.ma_units",
    "Traquer.Smooth.mama_units",
    "Traquer.Volatility.foldMax_units",
    "Traquer.Volatility.foldMin_units",
    "Traquer.Volatility.argBest_units",
    "Traquer.Volatility.mass_units",
    "Traquer.Volatility.trueRange_units",
    "Traquer.Volatility.tr_units",
    "Traquer.Volatility.atr_units",
    "Traquer.Volatility.keltner_units",
    "Traquer.Volatility.typical_units",
    "Traquer.Volatility.Distribution_std_dev_units",
    "Traquer.Volatility.std_dev_units",
    "Traquer.Volatility.bbands_units",
    "Traquer.Volatility.donchian_units",
    "Traquer.Volatility.fbands_units",
    "Traquer.Volatility.hv_units",
    "Traquer.Volatility.starc_units",
    "Traquer.Volatility.cvi_units",
    "Traquer.Volatility.relative_vol_units",
    "Traquer.Volatility.inertia_units",
    "Traquer.Volatility.chop_units",
    "Traquer.Volatility.vhf_units",
    "Traquer.Volatility.haStep_units",
    "Traquer.Volatility.heikin_ashi_units",
    "Traquer.Volatility.wcp_units",
    "Traquer.Volatility.cc_hv_units",
    "Traquer.Volatility.gkyz_hv_units",
    "Traquer.Momentum.alligatorLine_units",
    "Traquer.Momentum.alligator_units",
    "Traquer.Momentum.sumPair_units",
    "Traquer.Momentum.sumPair_fst_units",
    "Traquer.Momentum.sumPair_snd_units",
    "Traquer.Momentum.gains_units",
    "Traquer.Momentum.losses_units",
    "Traquer.Momentum.rsi_units",
    "Traquer.Momentum.streakStep_units",
    "Traquer.Momentum.crsi_units",
    "Traquer.Momentum.macd_units",
    "Traquer.Momentum.cmo_units",
    "Traquer.Momentum.cfo_units",
    "Traquer.Momentum.elder_ray_units",
    "Traquer.Momentum.wpr_units",
    "Traquer.Momentum.ppo_units",
    "Traquer.Momentum.apo_units",
    "Traquer.Momentum.pmo_units",
    "Traquer.Momentum.bpTr_units",
    "Traquer.Momentum.ultimate_units",
    "Traquer.Momentum.pgo_units",
    "Traquer.Momentum.swingTerm_units",
    "Traquer.Momentum.swing_units",
    "Traquer.Momentum.si_units",
    "Traquer.Momentum.trix_units",
    "Traquer.Momentum.tii_units",
    "Traquer.Momentum.stoch_units",
    "Traquer.Momentum.stochastic_units",
    "Traquer.Momentum.stcRaw_units",
    "Traquer.Momentum.stc_units",
    "Traquer.Momentum.vigorSmooth_units",
    "Traquer.Momentum.relative_vigor_units",
    "Traquer.Momentum.coppock_units",
    "Traquer.Momentum.roc_units",
    "Traquer.Momentum.bal_power_units",
    "Traquer.Momentum.disparity_units",
    "Traquer.Momentum.qstick_units",
    "Traquer.Momentum.cog_units",
    "Traquer.Momentum.psych_units",
    "Traquer.Momentum.tsi_units",
    "Traquer.Momentum.pringRoc_units",
    "Traquer.Momentum.prings_units",
    "Traquer.Momentum.special_k_units",
    "Traquer.Momentum.kst_units",
    "Traquer.Momentum.derivative_units",
    "Traquer.Momentum.cci_units",
    "Traquer.Momentum.qqe_units",
    "Traquer.Momentum.deli_units",
    "Traquer.Momentum.gator_units",
    "Traquer.Momentum.kdj_units",
    "Traquer.Trend.shinohara_units",
    "Traquer.Trend.dmBars_units",
    "Traquer.Trend.dmTerm_units",
    "Traquer.Trend.adx_units",
    "Traquer.Trend.vortexTerm_units",
    "Traquer.Trend.reduce3_units",
    "Traquer.Trend.vortex_units",
    "Traquer.Trend.asi_units",
    "Traquer.Trend.ulcer_units",
    "Traquer.Trend.supertrendStep_units",
    "Traquer.Trend.supertrend_units",
    "Traquer.Trend.rwiStep_units",
    "Traquer.Trend.rwi_units",
    "Traquer.Trend.psarMove_units",
    "Traquer.Trend.psarStep_units",
    "Traquer.Trend.psar_units",
    "Traquer.Trend.dpo_units",
    "Traquer.Trend.aroon_units",
    "Traquer.Trend.chandelier_units",
    "Traquer.Trend.zigInit_units",
    "Traquer.Trend.zigStep_units",
    "Traquer.Trend.zigzag_units",
    "Traquer.Trend.atrStopStep_units",
    "Traquer.Trend.atr_stop_units",
    "Traquer.Trend.midLine_units",
    "Traquer.Trend.ichimoku_units",
    "Traquer.Volume.vforceStep_units",
    "Traquer.Volume.tailBars_units",
    "Traquer.Volume.tailBars_lots",
    "Traquer.Volume.vforce_units",
    "Traquer.Volume.vforce_lots",
    "Traquer.Volume.vforce_alt_units",
    "Traquer.Volume.vforce_alt_lots",
    "Traquer.Volume.kvo_units",
    "Traquer.Volume.kvo_lots",
    "Traquer.Volume.wilder_sum_units",
    "Traquer.Volume.twiggsStep_units",
    "Traquer.Volume.twiggs_units",
    "Traquer.Volume.twiggs_lots",
    "Traquer.Volume.ad_units",
    "Traquer.Volume.ad_lots",
    "Traquer.Volume.elder_force_units",
    "Traquer.Volume.elder_force_lots",
    "Traquer.Volume.mfiStep_units",
    "Traquer.Volume.mfi_units",
    "Traquer.Volume.mfi_lots",
    "Traquer.Volume.cmf_units",
    "Traquer.Volume.cmf_lots",
    "Traquer.Volume.tvi_units",
    "Traquer.Volume.tvi_lots",
    "Traquer.Volume.ease_units",
    "Traquer.Volume.ease_lots",
    "Traquer.Volume.obv_units",
    "Traquer.Volume.obv_lots",
    "Traquer.Volume.bw_mfi_units",
    "Traquer.Volume.bw_mfi_lots",
    "Traquer.Volume.pvi_units",
    "Traquer.Volume.pvi_lots",
    "Traquer.Volume.nvi_units",
    "Traquer.Volume.nvi_lots",
    "Traquer.Volume.vwapStep_units",
    "Traquer.Volume.vwap_units",
    "Traquer.Volume.vwap_lots",
    "Traquer.Volume.vwma_units",
    "Traquer.Volume.vwma_lots",
    "Traquer.Volume.vpt_units",
    "Traquer.Volume.vpt_lots",
    "Traquer.Distribution.variance_units",
    "Traquer.Distribution.zscore_units",
    "Traquer.Distribution.mad_units",
    "Traquer.Distribution.cv_units",
    "Traquer.Distribution.kurtosis_units",
    "Traquer.Distribution.skew_units",
    "Traquer.Distribution.templMatch_units",
    "Traquer.Distribution.tolOr_units",
    "Traquer.Distribution.approx_entropy_units",
    "Traquer.Distribution.sample_entropy_units",
    "Traquer.Distribution.quantile_units",
    "Traquer.Distribution.median_units",
    "Traquer.Regression.mse_units",
    "Traquer.Regression.rmse_units",
    "Traquer.Regression.mae_units",
    "Traquer.Regression.mape_units",
    "Traquer.Regression.smape_units",
    "Traquer.Regression.mda_units",
    "Traquer.Regression.maeNaive_units",
    "Traquer.Regression.mase_units",
    "Traquer.Regression.emae_units",
    "Traquer.Correlation.pccSums_units",
    "Traquer.Correlation.pccWin_units",
    "Traquer.Correlation.pairWindows_units",
    "Traquer.Correlation.pcc_units",
    "Traquer.Correlation.rsq_units",
    "Traquer.Correlation.returns_units",
    "Traquer.Correlation.beta_units",
    "Traquer.Correlation.perf_units",
    "Traquer.Correlation.rsc_units",
    "Traquer.Correlation.krccStep_units",
    "Traquer.Correlation.krccWin_units",
    "Traquer.Correlation.krcc_units",
    "Traquer.Distribution.sortPanics_units",
    "Traquer.Distribution.uniqFlags_units",
    "Traquer.Distribution.rankWith_units",
    "Traquer.Distribution.isArgsort_units",
    "Traquer.Distribution.rank_units",
    "Traquer.Correlation.srcc_units",
    "Traquer.Correlation.hoeffd_units",
    "Traquer.Correlation.distCell_units",
    "Traquer.Correlation.rowMean_units",
    "Traquer.Correlation.matrixMean_units",
    "Traquer.Correlation.centredMatrix_units",
    "Traquer.Correlation.dcorWin_units",
    "Traquer.Correlation.dcor_units",
    "Traquer.Smooth.frama_units",
    "Traquer.Correlation.mic_units",
    "Traquer.Momentum.fisher_units",
    "Traquer.Trend.cks_units",
    "Traquer.Trend.decay_not_units",
    "Traquer.Volatility.gri_units",
    "Traquer.Trend.hurst_units",
    "Traquer.Trend.chunksWithin_of_bounded",
    "Traquer.Momentum.rainbow_units",
    "Traquer.each_inUnits",
    "Traquer.alike_iff_map",
    "Traquer.sma_inUnits",
    "Traquer.rsi_inUnits",
    "Traquer.atr_inUnits",
    "Traquer.float53_eq_binary64",
    "Traquer.scales_float53"
   ],
   "note": "Relation between two runs, one per unit: Scaled k n (value times k^n), Each, Both, Alike (both panic or both answer), Spec/Scale.lean; as an equation: alike_iff_map, sma_inUnits, rsi_inUnits, atr_inUnits. Every public function, in every arithmetic that commutes with k: scales_exact, scales_float53 (frama, gri and rainbow: real arithmetic). Not claimed for f64 runs that over- or underflow."
  },
  {
   "property": "C79",
   "status": "proved",
   "theorems": [
    "Traquer.Smooth.sma_mono",
    "Traquer.Smooth.ewma_mono",
    "Traquer.Smooth.wma_mono",
    "Traquer.Smooth.pwma_mono",
    "Traquer.Smooth.fwma_mono",
    "Traquer.Smooth.wilder_mono",
    "Traquer.Smooth.trima_mono",
    "Traquer.Smooth.kernel_mono",
    "Traquer.Smooth.alma_mono",
    "Traquer.Volatility.typical_mono",
    "Traquer.Volatility.wcp_mono",
    "Traquer.Volatility.donchian_mono",
    "Traquer.Trend.midLine_mono",
    "Traquer.Trend.alligatorLine_mono",
    "Traquer.Trend.alligator_mono",
    "Traquer.Trend.ichimoku_mono",
    "Traquer.Volume.vwma_mono",
    "Traquer.Volume.vwap_mono",
    "Traquer.Volatility.heikin_ashi_mono",
    "Traquer.Trend.decay_mono",
    "Traquer.each_atMost_of_vals",
    "Traquer.atMost_fin",
    "Traquer.rise_fin",
    "Traquer.Smooth.hull_not_mono"
   ],
   "note": "All inputs, NaN and infinities included, in every rounding with the properties of Rounding (so in binary64): sma, ewma, wma, pwma, fwma, wilder, trima, alma, kernel, typical, wcp, alligator, vwma, vwap; donchian and ichimoku for prices that are not NaN; heikin_ashi for non-negative prices; decay for window >= 1. hull_not_mono: an average with negative weights is not monotone."
  },
  {
   "property": "C80",
   "status": "proved",
   "theorems": [
    "Traquer.Smooth.ewma_mirror",
    "Traquer.Smooth.sma_mirror",
    "Traquer.Smooth.dema_mirror",
    "Traquer.Smooth.tema_mirror",
    "Traquer.Smooth.dot_mirror",
    "Traquer.Smooth.wma_mirror",
    "Traquer.Smooth.pwma_mirror",
    "Traquer.Smooth.fwma_mirror",
    "Traquer.Smooth.wilder_mirror",
    "Traquer.Smooth.hull_mirror",
    "Traquer.Smooth.lrfWin_mirror",
    "Traquer.Smooth.lrf_mirror",
    "Traquer.Smooth.trima_mirror",
    "Traquer.Smooth.zlma_mirror",
    "Traquer.Smooth.stdDevWin_mirror",
    "Traquer.Smooth.stdDevRaw_mirror",
    "Traquer.Smooth.vidya_mirror",
    "Traquer.Smooth.effRatio_mirror",
    "Traquer.Smooth.kama_mirror",
    "Traquer.Smooth.hwma_mirror",
    "Traquer.Smooth.ssf_mirror",
    "Traquer.Smooth.t3_mirror",
    "Traquer.Smooth.gainLoss_mirror",
    "Traquer.Smooth.cmoRaw_mirror",
    "Traquer.Smooth.vma_mirror",
    "Traquer.Smooth.ma_mirror",
    "Traquer.Smooth.kernel_mirror",
    "Traquer.Smooth.alma_mirror",
    "Traquer.Smooth.mdma_mirror",
    "Traquer.Smooth.framaAlpha_mirror",
    "Traquer.Smooth.frama_mirror",
    "Traquer.Smooth.mama_mirror",
    "Traquer.Volatility.trueRange_mirror",
    "Traquer.Volatility.tr_mirror",
    "Traquer.Volatility.atr_mirror",
    "Traquer.Volatility.ranges_mirror",
    "Traquer.Volatility.mass_mirror",
    "Traquer.Volatility.cvi_mirror",
    "Traquer.Volatility.gri_mirror",
    "Traquer.Volatility.chop_mirror",
    "Traquer.Volatility.vhf_mirror",
    "Traquer.Volatility.keltner_mirror",
    "Traquer.Volatility.starc_mirror",
    "Traquer.Volatility.donchian_mirror",
    "Traquer.Volatility.std_dev_mirror",
    "Traquer.Volatility.bbands_mirror",
    "Traquer.Volatility.argBest_mirror",
    "Traquer.Volatility.fbands_mirror",
    "Traquer.Volatility.typical_mirror",
    "Traquer.Volatility.wcp_mirror",
    "Traquer.Momentum.macd_mirror",
    "Traquer.Momentum.apo_mirror",
    "Traquer.Momentum.cmo_mirror",
    "Traquer.Momentum.qstick_mirror",
    "Traquer.Momentum.tsi_mirror",
    "Traquer.Momentum.gator_mirror",
    "Traquer.Momentum.cfo_mirror",
    "Traquer.Momentum.roc_mirror",
    "Traquer.Momentum.elder_ray_mirror",
    "Traquer.Momentum.pgo_mirror",
    "Traquer.Momentum.bal_power_mirror",
    "Traquer.Momentum.vigorSmooth_mirror",
    "Traquer.Momentum.relative_vigor_mirror",
    "Traquer.Momentum.cci_mirror",
    "Traquer.Momentum.deli_mirror",
    "Traquer.Momentum.swingTerm_mirror",
    "Traquer.Momentum.swing_mirror",
    "Traquer.Momentum.si_mirror",
    "Traquer.Momentum.rainbow_mirror",
    "Traquer.Momentum.coppock_mirror",
    "Traquer.Momentum.pmo_mirror",
    "Traquer.Momentum.gains_mirror",
    "Traquer.Momentum.losses_mirror",
    "Traquer.Momentum.pringRoc_mirror",
    "Traquer.Momentum.addAt_mirror",
    "Traquer.Momentum.prings_mirror",
    "Traquer.Momentum.special_k_mirror",
    "Traquer.Momentum.kst_mirror",
    "Traquer.Trend.alligator_mirror",
    "Traquer.Trend.dpo_mirror",
    "Traquer.Trend.asi_mirror",
    "Traquer.Trend.aroon_mirror",
    "Traquer.Trend.dmBars_mirror",
    "Traquer.Trend.dmTerm_mirror",
    "Traquer.Trend.adx_mirror",
    "Traquer.Trend.vortexTerm_mirror",
    "Traquer.Trend.vortex_mirror",
    "Traquer.Trend.rwi_mirror",
    "Traquer.Trend.chandelier_mirror",
    "Traquer.Trend.midLine_mirror",
    "Traquer.Trend.ichimoku_mirror",
    "Traquer.Trend.hurst_rs_mirror",
    "Traquer.Trend.chunksExact_mirror",
    "Traquer.Trend.hurst_mirror",
    "Traquer.Volume.elder_force_mirror",
    "Traquer.Volume.vwma_mirror",
    "Traquer.Volume.bw_mfi_mirror",
    "Traquer.Volume.mfm_mirror",
    "Traquer.Volume.ad_mirror",
    "Traquer.Volume.cmf_mirror",
    "Traquer.Volume.vwap_mirror",
    "Traquer.Volume.vpt_mirror",
    "Traquer.Volume.pvi_mirror",
    "Traquer.Volume.nvi_mirror",
    "Traquer.Distribution.winMean_mirror",
    "Traquer.Distribution.powDev_mirror",
    "Traquer.Distribution.powDev_three_mirror",
    "Traquer.Distribution.variance_mirror",
    "Traquer.Distribution.zscore_mirror",
    "Traquer.Distribution.mad_mirror",
    "Traquer.Distribution.kurtosis_mirror",
    "Traquer.Distribution.skew_mirror",
    "Traquer.Distribution.templMatch_mirror",
    "Traquer.Distribution.phi_mirror",
    "Traquer.Distribution.matchCount_mirror",
    "Traquer.Distribution.tolOr_mirror",
    "Traquer.Distribution.approx_entropy_mirror",
    "Traquer.Distribution.sample_entropy_mirror",
    "Traquer.Volatility.hv_mirror",
    "Traquer.Volatility.cc_hv_mirror",
    "Traquer.Regression.runningError_mirror",
    "Traquer.Regression.mse_mirror",
    "Traquer.Regression.rmse_mirror",
    "Traquer.Regression.mae_mirror",
    "Traquer.Regression.mape_mirror",
    "Traquer.Regression.smape_mirror",
    "Traquer.Regression.maeNaive_mirror",
    "Traquer.Regression.mase_mirror",
    "Traquer.Correlation.pccSums_mirror",
    "Traquer.Correlation.pcc_mirror",
    "Traquer.Correlation.rsq_mirror",
    "Traquer.Correlation.distCell_mirror",
    "Traquer.Correlation.centredMatrix_mirror",
    "Traquer.Correlation.dcor_mirror",
    "Traquer.Correlation.returns_mirror",
    "Traquer.Correlation.rsc_mirror",
    "Traquer.Correlation.beta_mirror",
    "Traquer.Correlation.beta_mirror_first",
    "Traquer.Correlation.beta_mirror_second",
    "Traquer.fins_mirror",
    "Traquer.vals_mirror",
    "Traquer.Momentum.rsi_mirror",
    "Traquer.Momentum.wpr_mirror",
    "Traquer.Momentum.stoch_mirror",
    "Traquer.Momentum.tii_mirror",
    "Traquer.rainbow_constant_exact",
    "Traquer.rainbow_constant_f64",
    "Traquer.obv_not_mirror"
   ],
   "note": "Spec.Mirror defines the opposite series, SameNumber (equal up to the sign of a zero) and the three parities. Every theorem holds for every rounding that is odd and monotone, so for binary64, and for NaN and infinite inputs; the complements of MirrorExact are about exact arithmetic and finite prices. MirrorCases has concrete cases and the counterexample obv. Not covered: psar, supertrend, atr_stop, cks, tvi, zigzag, fisher, obv, kvo, psych, shinohara, which start or break ties on one side, and ppo, disparity, trix, cog, cv, perf, which divide by an average whose zero may change sign."
  },
  {
   "property": "C81",
   "status": "proved",
   "theorems": [
    "Traquer.Smooth.sma_clear",
    "Traquer.Smooth.ewma_clear",
    "Traquer.Smooth.wilder_clear",
    "Traquer.Smooth.wma_clear",
    "Traquer.Smooth.pwma_clear",
    "Traquer.Smooth.fwma_clear",
    "Traquer.Smooth.trima_clear",
    "Traquer.Smooth.kernel_clear",
    "Traquer.Volume.vwma_clear",
    "Traquer.Volume.pvi_clear",
    "Traquer.Volume.nvi_clear",
    "Traquer.Distribution.variance_clear",
    "Traquer.Distribution.std_dev_clear",
    "Traquer.Distribution.mad_clear",
    "Traquer.Distribution.cv_clear",
    "Traquer.Distribution.approx_entropy_clear",
    "Traquer.Correlation.rsq_clear",
    "Traquer.Volatility.std_dev_clear",
    "Traquer.Volatility.relative_vol_clear",
    "Traquer.Trend.ulcer_clear",
    "Traquer.Momentum.gator_clear",
    "Traquer.Momentum.rsi_clear",
    "Traquer.Momentum.tii_clear",
    "Traquer.Correlation.dcor_notNegative",
    "Traquer.Smooth.wilder_notNegative",
    "Traquer.Volatility.tr_notNegative",
    "Traquer.Volatility.atr_notNegative",
    "Traquer.Volatility.hv_notNegative",
    "Traquer.Volatility.cc_hv_notNegative",
    "Traquer.Volatility.gkyz_hv_notNegative",
    "Traquer.Trend.rwi_notNegative",
    "Traquer.Volatility.tr_notNegative_of_bars",
    "Traquer.Volatility.atr_notNegative_of_bars",
    "Traquer.Volatility.bbands_ordered64",
    "Traquer.Volatility.keltner_ordered64",
    "Traquer.Volatility.starc_ordered64",
    "Traquer.Volatility.donchian_ordered64",
    "Traquer.Smooth.ma_stored",
    "Traquer.Volatility.std_dev_notNegative",
    "Traquer.Volatility.bbands_middle64",
    "Traquer.Volatility.tr_negative",
    "Traquer.Volatility.donchian_crosses"
   ],
   "note": "All in FP ρ for every rounding ρ. SignClear x (Lemmas/Sign.lean): x is NaN, +∞ or a non-negative real that is not -0. NotNegative, Every: Spec/Sign.lean. Every P r: each value of a run that does not panic satisfies P. tr_negative and donchian_crosses show that the hypotheses on NaN are needed."
  },
  {
   "property": "C82",
   "status": "proved",
   "theorems": [
    "Traquer.Smooth.sma_lift",
    "Traquer.Smooth.ewma_lift",
    "Traquer.Smooth.dema_lift",
    "Traquer.Smooth.tema_lift",
    "Traquer.Smooth.wilder_lift",
    "Traquer.Smooth.wma_lift",
    "Traquer.Smooth.pwma_lift",
    "Traquer.Smooth.fwma_lift",
    "Traquer.Smooth.trima_lift",
    "Traquer.Smooth.hull_lift",
    "Traquer.Smooth.zlma_lift",
    "Traquer.Smooth.lrf_lift",
    "Traquer.Smooth.ma_lift",
    "Traquer.Smooth.kernel_lift",
    "Traquer.Smooth.alma_lift",
    "Traquer.Smooth.hwma_lift",
    "Traquer.Smooth.ssf_lift",
    "Traquer.Smooth.t3_lift",
    "Traquer.Distribution.variance_lift",
    "Traquer.Distribution.std_dev_lift",
    "Traquer.Distribution.zscore_lift",
    "Traquer.Distribution.mad_lift",
    "Traquer.Distribution.kurtosis_lift",
    "Traquer.Distribution.skew_lift",
    "Traquer.Distribution.approx_entropy_lift",
    "Traquer.Distribution.sample_entropy_lift",
    "Traquer.Distribution.quantile_lift",
    "Traquer.Distribution.median_lift",
    "Traquer.Regression.mse_lift",
    "Traquer.Regression.rmse_lift",
    "Traquer.Regression.mae_lift",
    "Traquer.Regression.mda_lift",
    "Traquer.Regression.mase_lift",
    "Traquer.Volatility.mass_lift",
    "Traquer.Volatility.tr_lift",
    "Traquer.Volatility.atr_lift",
    "Traquer.Volatility.keltner_lift",
    "Traquer.Volatility.gri_lift",
    "Traquer.Volatility.typical_lift",
    "Traquer.Volatility.std_dev_lift",
    "Traquer.Volatility.bbands_lift",
    "Traquer.Volatility.donchian_lift",
    "Traquer.Volatility.starc_lift",
    "Traquer.Volatility.cvi_lift",
    "Traquer.Volatility.relative_vol_lift",
    "Traquer.Volatility.inertia_lift",
    "Traquer.Volatility.chop_lift",
    "Traquer.Volatility.vhf_lift",
    "Traquer.Volatility.heikin_ashi_lift",
    "Traquer.Volatility.wcp_lift",
    "Traquer.Momentum.alligator_lift",
    "Traquer.Momentum.rsi_lift",
    "Traquer.Momentum.macd_lift",
    "Traquer.Momentum.cmo_lift",
    "Traquer.Momentum.elder_ray_lift",
    "Traquer.Momentum.wpr_lift",
    "Traquer.Momentum.apo_lift",
    "Traquer.Momentum.ultimate_lift",
    "Traquer.Momentum.pgo_lift",
    "Traquer.Momentum.si_lift",
    "Traquer.Momentum.tii_lift",
    "Traquer.Momentum.stoch_lift",
    "Traquer.Momentum.stochastic_lift",
    "Traquer.Momentum.stc_lift",
    "Traquer.Momentum.relative_vigor_lift",
    "Traquer.Momentum.bal_power_lift",
    "Traquer.Momentum.qstick_lift",
    "Traquer.Momentum.psych_lift",
    "Traquer.Momentum.tsi_lift",
    "Traquer.Momentum.qqe_lift",
    "Traquer.Momentum.cci_lift",
    "Traquer.Momentum.deli_lift",
    "Traquer.Momentum.gator_lift",
    "Traquer.Momentum.kdj_lift",
    "Traquer.Trend.shinohara_lift",
    "Traquer.Trend.adx_lift",
    "Traquer.Trend.vortex_lift",
    "Traquer.Trend.asi_lift",
    "Traquer.Trend.supertrend_lift",
    "Traquer.Trend.rwi_lift",
    "Traquer.Trend.psar_lift",
    "Traquer.Trend.dpo_lift",
    "Traquer.Trend.aroon_lift",
    "Traquer.Trend.chandelier_lift",
    "Traquer.Trend.ichimoku_lift",
    "Traquer.Trend.hurst_lift",
    "Traquer.Correlation.pcc_lift",
    "Traquer.Correlation.rsq_lift",
    "Traquer.Correlation.krcc_lift",
    "Traquer.Distribution.rank_lift",
    "Traquer.Correlation.srcc_lift",
    "Traquer.Correlation.hoeffd_lift",
    "Traquer.Correlation.dcor_lift",
    "Traquer.Volume.kvo_lift",
    "Traquer.Volume.twiggs_lift",
    "Traquer.Volume.ad_lift",
    "Traquer.Volume.elder_force_lift",
    "Traquer.Volume.cmf_lift",
    "Traquer.Volume.tvi_lift",
    "Traquer.Volume.ease_lift",
    "Traquer.Volume.obv_lift",
    "Traquer.Volume.bw_mfi_lift",
    "Traquer.Volume.vwma_lift",
    "Traquer.Volume.vwap_lift",
    "Traquer.each_raise",
    "Traquer.sma_raise",
    "Traquer.ewma_raise",
    "Traquer.rsi_raise",
    "Traquer.std_dev_raise",
    "Traquer.atr_raise",
    "Traquer.psar_raise",
    "Traquer.pcc_raise",
    "Traquer.roc_not_raised",
    "Traquer.kama_not_raised"
   ],
   "note": "Exact arithmetic XF. Raised c x y: y = x + c (NaN and infinities stay); Lifted c n: raised n times by c, so Lifted c 1 is a price and Lifted c 0 is equality; hwma, ssf and t3 use RaisedZ, which does not look at the sign of a zero. The *_raise theorems of LiftCases state the claim as equations on raise c data. bbands and dpo: for every average except Variable and Vidya, which start from 0. roc_not_raised and kama_not_raised are functions that do not follow."
  },
  {
   "property": "C83",
   "status": "proved",
   "theorems": [
    "Traquer.Smooth.sma_superposes",
    "Traquer.Smooth.ewma_superposes",
    "Traquer.Smooth.wilder_superposes",
    "Traquer.Smooth.wma_superposes",
    "Traquer.Smooth.pwma_superposes",
    "Traquer.Smooth.fwma_superposes",
    "Traquer.Smooth.trima_superposes",
    "Traquer.Smooth.lrf_superposes",
    "Traquer.Smooth.alma_superposes",
    "Traquer.Smooth.kernel_superposes",
    "Traquer.Smooth.dema_superposes",
    "Traquer.Smooth.tema_superposes",
    "Traquer.Smooth.t3_superposes",
    "Traquer.Smooth.hull_superposes",
    "Traquer.Smooth.zlma_superposes",
    "Traquer.Smooth.hwma_superposes",
    "Traquer.Smooth.ssf_superposes",
    "Traquer.Momentum.macd_superposes",
    "Traquer.Momentum.apo_superposes",
    "Traquer.Momentum.qstick_superposes",
    "Traquer.Trend.dpo_superposes",
    "Traquer.kama_not_superposes"
   ],
   "note": "Spec/Superpose.lean: blend s t x y is s*x + t*y bar by bar; Superposes ok f says that f of a blend is the blend of the answers, up to the sign of a zero, for lengths n with ok n. kama_not_superposes is the counterexample."
  },
  {
   "property": "C84",
   "status": "proved",
   "theorems": [
    "Traquer.Smooth.sma_lags",
    "Traquer.Smooth.ewma_lags",
    "Traquer.Smooth.wilder_lags",
    "Traquer.Smooth.wma_lags",
    "Traquer.Smooth.pwma_lags",
    "Traquer.Smooth.fwma_lags",
    "Traquer.Smooth.trima_lags",
    "Traquer.Smooth.dema_lags",
    "Traquer.Smooth.tema_lags",
    "Traquer.Smooth.t3_lags",
    "Traquer.Smooth.zlma_lags",
    "Traquer.Smooth.hull_lags",
    "Traquer.Smooth.lrf_lags",
    "Traquer.Momentum.macd_line",
    "Traquer.Momentum.apo_line",
    "Traquer.Momentum.cfo_line",
    "Traquer.Trend.dpo_line"
   ],
   "note": "Spec/Lag.lean: line c m n is the line of prices; Lags ok k lag f says that f reports c + m*(i - lag) from bar k on."
  },
  {
   "property": "C85",
   "status": "proved",
   "theorems": [
    "Traquer.ewma_forgets",
    "Traquer.wilder_forgets",
    "Traquer.dema_forgets",
    "Traquer.tema_forgets",
    "Traquer.zlma_forgets",
    "Traquer.Momentum.macd_forgets",
    "Traquer.Momentum.apo_forgets",
    "Traquer.Momentum.rsi_forgets",
    "Traquer.atr_forgets",
    "Traquer.ewma_fading",
    "Traquer.wilder_fading",
    "Traquer.tema_fading",
    "Traquer.Agree.eventually",
    "Traquer.ewma_forgets_limit",
    "Traquer.atr_forgets_limit"
   ],
   "note": "Exact arithmetic. Agree p p' n B: both runs return and their values at the j-th of the n common bars differ by at most B j."
  },
  {
   "property": "C86",
   "status": "proved",
   "theorems": [
    "Traquer.Smooth.sma_one",
    "Traquer.Smooth.ewma_one",
    "Traquer.Smooth.wilder_one",
    "Traquer.Smooth.wma_one",
    "Traquer.Smooth.pwma_one",
    "Traquer.Smooth.trima_one",
    "Traquer.Smooth.dema_one",
    "Traquer.Distribution.variance_one",
    "Traquer.Distribution.std_dev_one",
    "Traquer.Distribution.mad_one",
    "Traquer.Distribution.quantile_one",
    "Traquer.Distribution.median_one",
    "Traquer.Smooth.lrf_one"
   ],
   "note": "Every rounding (hence exact arithmetic and binary64). Prices: finite numbers of the format. Equality of numbers: -0 counts as 0."
  },
  {
   "property": "C87",
   "status": "proved",
   "theorems": [
    "Traquer.Smooth.sma_order",
    "Traquer.Distribution.variance_order",
    "Traquer.Distribution.std_dev_order",
    "Traquer.Distribution.mad_order",
    "Traquer.Distribution.cv_order",
    "Traquer.Distribution.skew_order",
    "Traquer.Distribution.kurtosis_order",
    "Traquer.Distribution.quantile_order",
    "Traquer.Distribution.median_order",
    "Traquer.Correlation.pcc_order",
    "Traquer.Correlation.rsq_order",
    "Traquer.Correlation.srcc_order",
    "Traquer.Correlation.dcor_order",
    "Traquer.Correlation.hoeffd_order",
    "Traquer.Correlation.krcc_order",
    "Traquer.Volume.vwma_order",
    "Traquer.Volatility.donchian_order",
    "Traquer.Correlation.krcc_order_matters",
    "Traquer.Distribution.quantile_order64",
    "Traquer.Distribution.median_order64",
    "Traquer.sma_order64",
    "Traquer.mad_order64",
    "Traquer.variance_order64",
    "Traquer.std_dev_order64",
    "Traquer.sma_order_matters64"
   ],
   "note": "Exact arithmetic for the plain names; *_order64 are binary64 (quantile and median: every rounding). cv where the mean is not 0, skew and kurtosis where the window is not constant, vwma where the volume is not 0, krcc where no window of the second series has ties (krcc_order_matters shows that is needed)."
  },
  {
   "property": "C88",
   "status": "proved",
   "theorems": [
    "Traquer.Momentum.rsi_rising",
    "Traquer.Momentum.rsi_falling",
    "Traquer.Momentum.cmo_rising",
    "Traquer.Momentum.cmo_falling",
    "Traquer.Momentum.tsi_rising",
    "Traquer.Momentum.tsi_falling",
    "Traquer.Momentum.psych_rising",
    "Traquer.Momentum.psych_falling",
    "Traquer.Momentum.tii_rising",
    "Traquer.Momentum.tii_falling",
    "Traquer.Trend.aroon_rising",
    "Traquer.Trend.aroon_falling",
    "Traquer.Trend.adx_rising",
    "Traquer.Trend.adx_falling",
    "Traquer.Trend.ulcer_rising",
    "Traquer.Momentum.wpr_rising",
    "Traquer.Momentum.wpr_falling",
    "Traquer.Momentum.stoch_rising",
    "Traquer.Momentum.stoch_falling",
    "Traquer.Volume.mfi_rising",
    "Traquer.Volume.mfi_falling",
    "Traquer.Correlation.krcc_rising",
    "Traquer.Correlation.krcc_opposite",
    "Traquer.Correlation.srcc_rising"
   ],
   "note": "aroon in every rounding; the others exact"
  },
  {
   "property": "C89",
   "status": "proved",
   "theorems": [
    "Traquer.Momentum.wpr_accurate",
    "Traquer.Momentum.stoch_accurate",
    "Traquer.Momentum.bal_power_accurate",
    "Traquer.Volatility.vhf_accurate",
    "Traquer.Momentum.ultimate_accurate",
    "Traquer.Trend.vortex_accurate",
    "Traquer.Momentum.roc_accurate",
    "Traquer.Momentum.cog_accurate",
    "Traquer.Momentum.cmo_accuracy_lost"
   ],
   "note": "cmo_accuracy_lost is the counterexample stated in the property"
  },
  {
   "property": "C90",
   "status": "proved",
   "theorems": [
    "Traquer.Smooth.sma_rounded",
    "Traquer.Volume.vwma_rounded",
    "Traquer.Momentum.psych_rounded",
    "Traquer.Volume.obv_exact",
    "Traquer.Volume.tvi_exact",
    "Traquer.Momentum.cmo_rounded",
    "Traquer.Momentum.cog_rounded",
    "Traquer.Trend.shinohara_rounded",
    "Traquer.Trend.vortex_rounded",
    "Traquer.Volatility.vhf_rounded",
    "Traquer.Volatility.donchian_rounded",
    "Traquer.Correlation.krcc_rounded",
    "Traquer.Correlation.krcc_untied_rounded"
   ],
   "note": "stated for every rounding, so for binary64; krcc for binary64"
  },
  {
   "property": "C91",
   "status": "proved",
   "theorems": [
    "Traquer.Momentum.gains_near",
    "Traquer.Momentum.losses_near",
    "Traquer.Momentum.rsi_conditioned",
    "Traquer.Momentum.changes_near",
    "Traquer.Momentum.tsi_conditioned",
    "Traquer.Momentum.ppo_conditioned",
    "Traquer.Momentum.disparity_conditioned",
    "Traquer.Momentum.trix_conditioned",
    "Traquer.Momentum.pgo_conditioned",
    "Traquer.sqrt_near_pos",
    "Traquer.var_win64",
    "Traquer.dev_le_stdDev",
    "Traquer.Distribution.zscore_conditioned",
    "Traquer.Distribution.cv_conditioned",
    "Traquer.Momentum.tii_conditioned",
    "Traquer.Momentum.cci_conditioned",
    "Traquer.Volatility.vhf_conditioned",
    "Traquer.Volatility.cvi_conditioned"
   ],
   "note": "Conditioned error bounds over F64 = FP binary64. QuotWithin states the bound; the condition is on the exact denominator."
  },
  {
   "property": "C92",
   "status": "proved",
   "theorems": [
    "Traquer.sum_start",
    "Traquer.sum_start_zeros",
    "Traquer.sum_start_val",
    "Traquer.sum_start_prices"
   ],
   "note": "fsumNeg folds from -0.0; stated for every rounding"
  },
  {
   "property": "C93",
   "status": "proved",
   "theorems": [
    "Traquer.Smooth.wma_fits",
    "Traquer.Smooth.wma_overflows",
    "Traquer.Smooth.lrf_fits",
    "Traquer.Smooth.lrf_overflows",
    "Traquer.Distribution.kurtosis_fits",
    "Traquer.Distribution.kurtosis_overflows",
    "Traquer.Distribution.skew_fits",
    "Traquer.Distribution.skew_overflows",
    "Traquer.Correlation.krcc_fits",
    "Traquer.Correlation.krcc_overflows",
    "Traquer.Correlation.dcor_fits",
    "Traquer.Correlation.dcor_overflows"
   ],
   "note": "Model/Checked evaluates the products with umul/uadd before the model over Nat runs; hoeffd and pwma are checked in the model itself (C73 and the pwma claims)"
  },
  {
   "property": "C94",
   "status": "proved",
   "theorems": [
    "Traquer.Volume.vwma_accurate",
    "Traquer.Volume.pvi_accurate",
    "Traquer.Volume.nvi_accurate",
    "Traquer.Volume.vwap_accurate",
    "Traquer.Smooth.wilder_rel",
    "Traquer.Momentum.rsi_accurate"
   ],
   "note": "Relative error bounds in the binary64 model. Terms of one sign do not cancel, so nothing depends on how large the prices are; the grid of doubles shows that gains and losses of normal prices are never subnormal."
  },
  {
   "property": "C95",
   "status": "proved",
   "theorems": [
    "Traquer.pull_warmup",
    "Traquer.Distribution.skew_drain",
    "Traquer.Distribution.approx_entropy_drain",
    "Traquer.Distribution.sample_entropy_drain",
    "Traquer.Distribution.skew_pull",
    "Traquer.Distribution.approx_entropy_pull",
    "Traquer.Distribution.sample_entropy_pull",
    "Traquer.Distribution.skew_warmup",
    "Traquer.Distribution.approx_entropy_warmup",
    "Traquer.Distribution.sample_entropy_warmup",
    "Traquer.Distribution.skew_item",
    "Traquer.Distribution.approx_entropy_item",
    "Traquer.Distribution.sample_entropy_item",
    "Traquer.Distribution.skew_item_panics",
    "Traquer.Distribution.approx_entropy_item_panics",
    "Traquer.Distribution.sample_entropy_item_panics",
    "Traquer.Correlation.srcc_drain",
    "Traquer.Correlation.hoeffd_drain",
    "Traquer.Correlation.srcc_pull",
    "Traquer.Correlation.hoeffd_pull",
    "Traquer.Correlation.srcc_warmup",
    "Traquer.Correlation.hoeffd_warmup",
    "Traquer.Correlation.srcc_item",
    "Traquer.Correlation.hoeffd_item",
    "Traquer.Correlation.srcc_item_panics",
    "Traquer.Correlation.hoeffd_item_panics"
   ],
   "note": "pull, warmup and drain hold for every arithmetic; item theorems say exactly which item panics. The default tolerance of the entropies depends on the whole series and is therefore not a function of the first k bars, so pull and item take a given tolerance. The iterator state after a caught panic is Windows having moved on, as in the standard library."
  },
  {
   "property": "C96",
   "status": "proved",
   "theorems": [
    "Traquer.sameOrder_of_increasing",
    "Traquer.signum_quotes",
    "Traquer.rank_order_only",
    "Traquer.srcc_order_only",
    "Traquer.hoeffd_order_only",
    "Traquer.krcc_order_only",
    "Traquer.argBest_order_only",
    "Traquer.aroon_order_only",
    "Traquer.psych_order_only",
    "Traquer.obv_order_only",
    "Traquer.pvi_order_only",
    "Traquer.nvi_order_only",
    "Traquer.mda_order_only"
   ],
   "note": "For every rounding. SameOrder d: comparing bars less than d apart gives the same result; sameOrder_of_increasing shows that every strictly increasing function of the prices qualifies. Minus zero is excluded where the code takes differences: signum(-0 - 0) is -1."
  },
  {
   "property": "C97",
   "status": "proved",
   "theorems": [
    "Traquer.Distribution.std_dev_sq",
    "Traquer.Distribution.mad_le_std_dev",
    "Traquer.Distribution.median_near_sma",
    "Traquer.Distribution.zscore_mul_std_dev",
    "Traquer.Distribution.cv_mul_sma",
    "Traquer.Regression.forecast_errors_agree",
    "Traquer.Smooth.lrf_eq_wma_sma",
    "Traquer.Smooth.vwma_eq_sma",
    "Traquer.Volatility.std_dev_le_donchian",
    "Traquer.Volatility.bbands_width",
    "Traquer.Volatility.ichimoku_eq_donchian",
    "Traquer.Volatility.typical_eq_sma",
    "Traquer.Momentum.cog_eq_wma_sma",
    "Traquer.Momentum.wpr_eq_stoch",
    "Traquer.Momentum.ppo_mul_ewma",
    "Traquer.Momentum.elder_ray_gap",
    "Traquer.Momentum.qstick_eq_ewma",
    "Traquer.Momentum.cci_mul_mad",
    "Traquer.Volume.ad_change_eq_cmf",
    "Traquer.Volume.obv_change_eq_psych",
    "Traquer.Correlation.rsq_eq_pcc_sq"
   ],
   "note": "Exact arithmetic. Shows i r v: the call r does not panic and its value at bar i is the finite number v; such a v is unique (Shows.unique)."
  },
  {
   "property": "C98",
   "status": "proved",
   "theorems": [
    "Traquer.Distribution.zscore_bound",
    "Traquer.Distribution.zscore_two",
    "Traquer.Distribution.skew_bound",
    "Traquer.Distribution.kurtosis_bounds",
    "Traquer.Distribution.skew_kurtosis",
    "Traquer.Distribution.cv_bound",
    "Traquer.Momentum.cog_bounds",
    "Traquer.Momentum.disparity_above",
    "Traquer.Momentum.ppo_above",
    "Traquer.Momentum.roc_above",
    "Traquer.Trend.ulcer_below",
    "Traquer.Volatility.vhf_bounds",
    "Traquer.Volatility.bbands_contain"
   ],
   "note": "Exact arithmetic. Samuelson's inequality, the bound on the third moment and Pearson's inequality are proved for lists of reals and applied to the windows. The upper bound on kurtosis is not the sharpest one (w)."
  },
  {
   "property": "C99",
   "status": "proved",
   "theorems": [
    "Traquer.Smooth.sma_stable",
    "Traquer.Smooth.ewma_stable",
    "Traquer.Smooth.wilder_stable",
    "Traquer.Smooth.wma_stable",
    "Traquer.Smooth.pwma_stable",
    "Traquer.Smooth.fwma_stable",
    "Traquer.Smooth.trima_stable",
    "Traquer.Smooth.alma_stable",
    "Traquer.Smooth.kernel_stable",
    "Traquer.Smooth.dema_stable",
    "Traquer.Smooth.tema_stable",
    "Traquer.Smooth.t3_stable",
    "Traquer.Smooth.hull_stable",
    "Traquer.Smooth.zlma_stable",
    "Traquer.Momentum.macd_stable",
    "Traquer.Momentum.apo_stable",
    "Traquer.Distribution.std_dev_stable",
    "Traquer.Distribution.mad_stable",
    "Traquer.Distribution.median_stable",
    "Traquer.Distribution.quantile_stable",
    "Traquer.Volatility.tr_stable",
    "Traquer.Volatility.atr_stable",
    "Traquer.Volatility.typical_stable",
    "Traquer.Volatility.wcp_stable",
    "Traquer.Volatility.donchian_stable",
    "Traquer.Volatility.keltner_stable",
    "Traquer.Volatility.bbands_stable",
    "Traquer.variance_not_stable"
   ],
   "note": "exact arithmetic; the adaptive averages (kama, vidya, frama, mama), hwma and the ratios are not covered: their response to an error is not bounded by a fixed multiple or depends on the data"
  },
  {
   "property": "C100",
   "status": "proved",
   "theorems": [
    "Traquer.Momentum.rsi_hundred",
    "Traquer.Momentum.rsi_nought",
    "Traquer.Momentum.cmo_hundred",
    "Traquer.Momentum.cmo_minus_hundred",
    "Traquer.Momentum.psych_hundred",
    "Traquer.Momentum.psych_nought",
    "Traquer.Momentum.tii_hundred",
    "Traquer.Momentum.tii_nought",
    "Traquer.Distribution.zscore_largest",
    "Traquer.Distribution.zscore_smallest",
    "Traquer.Correlation.pcc_one",
    "Traquer.Correlation.pcc_minus_one",
    "Traquer.Regression.mse_nought",
    "Traquer.Regression.rmse_nought",
    "Traquer.Regression.mae_nought",
    "Traquer.Regression.mda_one",
    "Traquer.Momentum.wpr_nought",
    "Traquer.Momentum.wpr_minus_hundred",
    "Traquer.Momentum.stochastic_hundred",
    "Traquer.Trend.aroon_up_ends",
    "Traquer.Trend.aroon_down_ends",
    "Traquer.Trend.ulcer_nought",
    "Traquer.Volume.mfi_hundred",
    "Traquer.Volume.mfi_nought",
    "Traquer.Volume.cmf_one",
    "Traquer.Volume.cmf_minus_one"
   ],
   "note": "Exact arithmetic, every bar from the first defined one. Equivalences in both directions. rsi needs a window of two or more (over one bar only the newest step counts). mfi and cmf need positive volumes, and for mfi positive prices; wpr, stochastic and cmf need a range that is not 0."
  },
  {
   "property": "C101",
   "status": "proved",
   "theorems": [
    "Traquer.Smooth.sma_cycle",
    "Traquer.Smooth.wma_cycle",
    "Traquer.Smooth.lrf_cycle",
    "Traquer.Smooth.pwma_cycle",
    "Traquer.Smooth.fwma_cycle",
    "Traquer.Smooth.trima_cycle",
    "Traquer.Smooth.hull_cycle",
    "Traquer.Smooth.alma_cycle",
    "Traquer.Smooth.kernel_cycle",
    "Traquer.Distribution.variance_cycle",
    "Traquer.Distribution.std_dev_cycle",
    "Traquer.Distribution.zscore_cycle",
    "Traquer.Distribution.mad_cycle",
    "Traquer.Distribution.cv_cycle",
    "Traquer.Distribution.kurtosis_cycle",
    "Traquer.Distribution.skew_cycle",
    "Traquer.Distribution.quantile_cycle",
    "Traquer.Distribution.median_cycle",
    "Traquer.Distribution.approx_entropy_cycle",
    "Traquer.Distribution.sample_entropy_cycle",
    "Traquer.Correlation.pcc_cycle",
    "Traquer.Correlation.rsq_cycle",
    "Traquer.Correlation.beta_cycle",
    "Traquer.Correlation.perf_cycle",
    "Traquer.Correlation.rsc_cycle",
    "Traquer.Correlation.srcc_cycle",
    "Traquer.Correlation.krcc_cycle",
    "Traquer.Correlation.hoeffd_cycle",
    "Traquer.Correlation.dcor_cycle",
    "Traquer.Volatility.tr_cycle",
    "Traquer.Volatility.gri_cycle",
    "Traquer.Volatility.typical_cycle",
    "Traquer.Volatility.std_dev_cycle",
    "Traquer.Volatility.bbands_sma_cycle",
    "Traquer.Volatility.donchian_cycle",
    "Traquer.Volatility.hv_cycle",
    "Traquer.Volatility.chop_cycle",
    "Traquer.Volatility.vhf_cycle",
    "Traquer.Volatility.wcp_cycle",
    "Traquer.Volatility.cc_hv_cycle",
    "Traquer.Volatility.gkyz_hv_cycle",
    "Traquer.Volume.cmf_cycle",
    "Traquer.Volume.vwma_cycle",
    "Traquer.Volume.bw_mfi_cycle",
    "Traquer.Volume.mfi_cycle",
    "Traquer.Volume.ease_cycle",
    "Traquer.Momentum.cfo_cycle",
    "Traquer.Momentum.wpr_cycle",
    "Traquer.Momentum.roc_cycle",
    "Traquer.Momentum.cog_cycle",
    "Traquer.Momentum.cci_cycle",
    "Traquer.Momentum.psych_cycle",
    "Traquer.Momentum.tii_cycle",
    "Traquer.Momentum.ultimate_cycle",
    "Traquer.Momentum.si_cycle",
    "Traquer.Momentum.stochastic_cycle",
    "Traquer.Momentum.kdj_cycle",
    "Traquer.Momentum.relative_vigor_cycle",
    "Traquer.Momentum.coppock_cycle",
    "Traquer.Momentum.rainbow_cycle",
    "Traquer.Trend.shinohara_cycle",
    "Traquer.Trend.vortex_cycle",
    "Traquer.Trend.rwi_cycle",
    "Traquer.Trend.aroon_cycle",
    "Traquer.Trend.ulcer_cycle",
    "Traquer.Trend.dpo_cycle",
    "Traquer.Trend.hurst_cycle",
    "Traquer.Smooth.sma_level",
    "Traquer.Distribution.variance_level",
    "Traquer.Distribution.std_dev_level",
    "Traquer.Distribution.mad_level",
    "Traquer.Distribution.cv_level",
    "Traquer.Distribution.skew_level",
    "Traquer.Distribution.kurtosis_level",
    "Traquer.Distribution.quantile_level",
    "Traquer.Distribution.median_level",
    "Traquer.Correlation.pcc_level",
    "Traquer.Correlation.rsq_level",
    "Traquer.Correlation.srcc_level",
    "Traquer.Correlation.dcor_level",
    "Traquer.Correlation.hoeffd_level",
    "Traquer.Volume.vwma_level",
    "Traquer.Momentum.psych_level",
    "Traquer.Momentum.roc_cycle_zero",
    "Traquer.Momentum.cmo_cycle_zero",
    "Traquer.Volume.cmf_level",
    "Traquer.Volume.mfi_level",
    "Traquer.Volatility.vhf_level",
    "Traquer.Volatility.hv_level",
    "Traquer.Volatility.donchian_level",
    "Traquer.Trend.vortex_level"
   ],
   "note": "First part in every arithmetic (X_cycle, from C63); second part X_level in exact arithmetic, quantile/median/donchian in every rounding. SameValue identifies +0 and -0. krcc is left out of the second part: with ties in its second series it depends on the order (C87)."
  },
  {
   "property": "C102",
   "status": "proved",
   "theorems": [
    "Traquer.Volatility.std_dev_deviations",
    "Traquer.Volatility.bbands_deviations",
    "Traquer.Volatility.starc_multiplier",
    "Traquer.Volatility.hv_deviations",
    "Traquer.Trend.chandelier_multiplier",
    "Traquer.Distribution.quantile_mono",
    "Traquer.Volatility.donchian_window",
    "Traquer.Momentum.si_limit",
    "Traquer.Trend.cks_multiplier"
   ],
   "note": "std_dev, bbands, starc, hv, chandelier and donchian in every rounding; quantile, cks and si in exact arithmetic. starc and chandelier need closes that are not NaN."
  },
  {
   "property": "C103",
   "status": "proved",
   "theorems": [
    "Traquer.Distribution.kurtosis_le_window",
    "Traquer.Distribution.kurtosis_least",
    "Traquer.Distribution.skew_extreme",
    "Traquer.Distribution.zscore_extreme"
   ],
   "note": "Exact arithmetic; flat windows give NaN and are excluded (C39)."
  },
  {
   "property": "C104",
   "status": "proved",
   "theorems": [
    "Traquer.Smooth.sma_settles",
    "Traquer.Smooth.ewma_settles",
    "Traquer.Smooth.wilder_settles",
    "Traquer.Smooth.wma_settles",
    "Traquer.Smooth.pwma_settles",
    "Traquer.Smooth.fwma_settles",
    "Traquer.Smooth.trima_settles",
    "Traquer.Smooth.alma_settles",
    "Traquer.Smooth.kernel_settles",
    "Traquer.Smooth.dema_settles",
    "Traquer.Smooth.tema_settles",
    "Traquer.Smooth.t3_settles",
    "Traquer.Smooth.hull_settles",
    "Traquer.Smooth.zlma_settles",
    "Traquer.Smooth.lrf_settles",
    "Traquer.Smooth.kama_settles",
    "Traquer.Smooth.frama_settles",
    "Traquer.Momentum.macd_settles",
    "Traquer.Momentum.apo_settles",
    "Traquer.Momentum.ppo_settles",
    "Traquer.Momentum.roc_settles",
    "Traquer.Momentum.trix_settles",
    "Traquer.Momentum.cog_settles",
    "Traquer.Momentum.pmo_settles",
    "Traquer.Momentum.coppock_settles",
    "Traquer.Distribution.std_dev_settles",
    "Traquer.Distribution.variance_settles",
    "Traquer.Distribution.mad_settles",
    "Traquer.Distribution.median_settles",
    "Traquer.Distribution.quantile_settles",
    "Traquer.Smooth.mama_settles",
    "Traquer.Volatility.tr_settles",
    "Traquer.Volatility.atr_settles",
    "Traquer.Volatility.typical_settles",
    "Traquer.Volatility.wcp_settles",
    "Traquer.Volatility.donchian_settles",
    "Traquer.Volatility.bbands_settles",
    "Traquer.Volatility.keltner_settles",
    "Traquer.Trend.dpo_settles",
    "Traquer.Trend.ulcer_settles"
   ],
   "note": "Exact arithmetic. upTo s n is the first n bars of the series s; Settles r T: the last item of r n exists, is finite and tends to T."
  },
  {
   "property": "C105",
   "status": "proved",
   "theorems": [
    "Traquer.Smooth.sma_gapShows",
    "Traquer.Smooth.wma_gapShows",
    "Traquer.Smooth.pwma_gapShows",
    "Traquer.Smooth.fwma_gapShows",
    "Traquer.Smooth.lrf_gapShows",
    "Traquer.Smooth.alma_gapShows",
    "Traquer.Smooth.trima_gapShows",
    "Traquer.Smooth.hull_gapShows",
    "Traquer.Smooth.kernel_gapShows",
    "Traquer.Distribution.variance_gapShows",
    "Traquer.Distribution.std_dev_gapShows",
    "Traquer.Distribution.zscore_gapShows",
    "Traquer.Distribution.mad_gapShows",
    "Traquer.Distribution.cv_gapShows",
    "Traquer.Distribution.kurtosis_gapShows",
    "Traquer.Distribution.skew_gapShows",
    "Traquer.Volatility.std_dev_gapShows",
    "Traquer.Volatility.bbands_gapShows",
    "Traquer.Volatility.typical_gapShows",
    "Traquer.Momentum.cfo_gapShows",
    "Traquer.Momentum.cog_gapShows",
    "Traquer.Volume.vwma_gapShows",
    "Traquer.Volume.cmf_gapShows",
    "Traquer.Correlation.pcc_gapShows",
    "Traquer.Correlation.rsq_gapShows",
    "Traquer.Correlation.perf_gapShows",
    "Traquer.Correlation.beta_gapShows",
    "Traquer.Correlation.dcor_gapShows",
    "Traquer.Volatility.hv_gapShows",
    "Traquer.Volatility.cc_hv_gapShows",
    "Traquer.Volatility.donchian_skips",
    "Traquer.Distribution.median_nan_ignored",
    "Traquer.Momentum.psych_nan_ignored"
   ],
   "note": "GapShows is the specification: W bars of NaN after the bad bar. greatest/least number for donchian; median and psych have concrete counterexamples."
  },
  {
   "property": "C106",
   "status": "proved",
   "theorems": [
    "Traquer.Smooth.sma_chains",
    "Traquer.Smooth.wma_chains",
    "Traquer.Smooth.pwma_chains",
    "Traquer.Smooth.fwma_chains",
    "Traquer.Smooth.lrf_chains",
    "Traquer.Smooth.trima_chains",
    "Traquer.Smooth.ewma_neverChains",
    "Traquer.Smooth.wilder_neverChains",
    "Traquer.Smooth.dema_neverChains",
    "Traquer.Smooth.tema_neverChains",
    "Traquer.Smooth.t3_neverChains",
    "Traquer.Smooth.zlma_neverChains",
    "Traquer.Smooth.mdma_neverChains",
    "Traquer.Smooth.hwma_neverChains",
    "Traquer.Smooth.ssf_neverChains",
    "Traquer.Distribution.variance_chains",
    "Traquer.Distribution.std_dev_chains",
    "Traquer.Distribution.zscore_chains",
    "Traquer.Distribution.mad_chains",
    "Traquer.Distribution.cv_chains",
    "Traquer.Distribution.kurtosis_chains",
    "Traquer.Distribution.skew_chains",
    "Traquer.Momentum.cfo_chains",
    "Traquer.Momentum.cog_chains",
    "Traquer.Momentum.macd_neverChains",
    "Traquer.Momentum.ppo_neverChains",
    "Traquer.Momentum.disparity_neverChains",
    "Traquer.Momentum.trix_neverChains",
    "Traquer.Momentum.tsi_neverChains"
   ],
   "note": "Chains and NeverChains are stated about the calls on the padded and the unpadded series."
  },
  {
   "property": "C107",
   "status": "proved",
   "theorems": [
    "Traquer.intToF64_exact",
    "Traquer.intToF64_mono",
    "Traquer.intToF64_near",
    "Traquer.intToF64_collide",
    "Traquer.Distribution.quantileInt_eq",
    "Traquer.Distribution.medianInt_eq",
    "Traquer.Distribution.rankInt_eq",
    "Traquer.Correlation.srccInt_eq",
    "Traquer.Correlation.hoeffdInt_eq",
    "Traquer.Distribution.rankInt_min",
    "Traquer.Distribution.rankInt_max",
    "Traquer.Distribution.rankInt_dense",
    "Traquer.Distribution.rankInt_average",
    "Traquer.Distribution.rankInt_order",
    "Traquer.Distribution.rankInt_sees_more",
    "Traquer.Correlation.srccInt_order",
    "Traquer.Correlation.hoeffdInt_order"
   ],
   "note": "Model/Ints models the functions that compare values of the caller's type at an integer type. The conversion is the rounding of binary64. rankInt_sees_more is the concrete difference beyond 2^53."
  },
  {
   "property": "C108",
   "status": "proved",
   "theorems": [
    "Traquer.Volume.obv_later",
    "Traquer.Volume.vpt_later",
    "Traquer.Volume.tickUp_later",
    "Traquer.Volume.tvi_later",
    "Traquer.Volume.index_later",
    "Traquer.Volume.pvi_later",
    "Traquer.Volume.nvi_later",
    "Traquer.Volume.ad_later",
    "Traquer.Volume.ad_williams_later",
    "Traquer.Regression.averages_later",
    "Traquer.Regression.mse_later",
    "Traquer.Regression.mae_later",
    "Traquer.Regression.mape_later",
    "Traquer.Regression.smape_later",
    "Traquer.Trend.asi_later",
    "Traquer.Volume.vwap_session",
    "Traquer.Volume.vwap_closed"
   ],
   "note": "Exact arithmetic for the running totals, every arithmetic for vwap."
  },
  {
   "property": "C109",
   "status": "proved",
   "theorems": [
    "Traquer.Smooth.pascalStep_release",
    "Traquer.Smooth.pascalFold_release",
    "Traquer.Smooth.pascalRow_release",
    "Traquer.Smooth.pwma_release",
    "Traquer.Smooth.pwma_release_64",
    "Traquer.Distribution.kurtosis_release",
    "Traquer.Distribution.skew_release",
    "Traquer.Distribution.approx_entropy_release",
    "Traquer.Distribution.sample_entropy_release",
    "Traquer.Correlation.hoeffd_release",
    "Traquer.Correlation.hoeffd_release_small",
    "Traquer.Correlation.fiveDown_release",
    "Traquer.Correlation.hoeffd_release_large",
    "Traquer.Correlation.hoeffd_release_exceeds",
    "Traquer.Distribution.kurtosis_release_small",
    "Traquer.Distribution.skew_release_one",
    "Traquer.Distribution.kurtosis_release_large",
    "Traquer.Distribution.approx_entropy_release_run",
    "Traquer.Distribution.sample_entropy_release_run",
    "Traquer.Distribution.entropy_release_beyond"
   ],
   "note": "Refinement of the checked model by the wrapping one, and closed forms of what the wrapping one reports outside."
  },
  {
   "property": "C110",
   "status": "proved",
   "theorems": [
    "Traquer.Smooth.sma_moves",
    "Traquer.Smooth.sma_moves_bound",
    "Traquer.Smooth.wma_moves",
    "Traquer.Smooth.ewma_moves",
    "Traquer.Smooth.wilder_moves",
    "Traquer.Smooth.kama_moves",
    "Traquer.Distribution.variance_moves",
    "Traquer.Momentum.psych_moves",
    "Traquer.Momentum.rsi_moves",
    "Traquer.Volatility.atr_moves",
    "Traquer.Volatility.donchian_moves",
    "Traquer.Volume.obv_moves",
    "Traquer.Volume.vpt_moves",
    "Traquer.Volume.ad_moves",
    "Traquer.Regression.mse_moves",
    "Traquer.Regression.mae_moves",
    "Traquer.Smooth.dema_overshoots"
   ],
   "note": "Difference of consecutive values of the closed forms; exact arithmetic."
  },
  {
   "property": "C111",
   "status": "proved",
   "theorems": [
    "Traquer.cmoRaw_bounded",
    "Traquer.Momentum.cmo_bounded",
    "Traquer.Momentum.relative_vigor_bounded",
    "Traquer.Momentum.bal_power_bounded",
    "Traquer.Momentum.tsi_bounded",
    "Traquer.Momentum.ewma_unit64",
    "Traquer.Correlation.pcc_above_one",
    "Traquer.Volume.cmf_above_one"
   ],
   "note": "cmo and relative_vigor in every rounding, bal_power and tsi in binary64; pcc and cmf by counterexample"
  },
  {
   "property": "C112",
   "status": "proved",
   "theorems": [
    "Traquer.Volume.obv_drain",
    "Traquer.Volume.vwap_drain",
    "Traquer.Smooth.mama_drain",
    "Traquer.Volume.obv_pull",
    "Traquer.Volume.vwap_pull",
    "Traquer.Smooth.mama_pull",
    "Traquer.Volume.obv_pull_answers",
    "Traquer.Volume.obv_item_panics",
    "Traquer.Volume.vwap_empty_resets",
    "Traquer.Smooth.mama_warmup",
    "Traquer.Smooth.mama_no_recovery",
    "Traquer.Smooth.mama_nan_items"
   ],
   "note": "the items are modelled one by one, with the state a panicking closure leaves behind"
  },
  {
   "property": "C113",
   "status": "proved",
   "theorems": [
    "Traquer.ewma_nears_cycle",
    "Traquer.wilder_nears_cycle",
    "Traquer.dema_nears_cycle",
    "Traquer.tema_nears_cycle",
    "Traquer.zlma_nears_cycle",
    "Traquer.macd_nears_cycle",
    "Traquer.apo_nears_cycle",
    "Traquer.atr_nears_cycle",
    "Traquer.NearsCycle.eventually",
    "Traquer.ewma_cycle_limit",
    "Traquer.ewma_cycle_mean",
    "Traquer.wilder_cycle_mean"
   ],
   "note": "exact real arithmetic"
  },
  {
   "property": "C114",
   "status": "proved",
   "theorems": [
    "Traquer.Momentum.macd_rising",
    "Traquer.Momentum.macd_falling",
    "Traquer.Momentum.apo_rising",
    "Traquer.Momentum.apo_falling",
    "Traquer.Momentum.ppo_rising",
    "Traquer.Momentum.ppo_falling",
    "Traquer.Momentum.disparity_rising",
    "Traquer.Momentum.disparity_falling",
    "Traquer.Momentum.roc_rising",
    "Traquer.Momentum.roc_falling",
    "Traquer.Momentum.trix_rising",
    "Traquer.Momentum.trix_falling",
    "Traquer.Momentum.pmo_rising",
    "Traquer.Momentum.pmo_falling",
    "Traquer.Momentum.coppock_rising",
    "Traquer.Momentum.coppock_falling",
    "Traquer.Momentum.rocOver_rising",
    "Traquer.Momentum.rocOver_falling",
    "Traquer.Momentum.pringPart_rising",
    "Traquer.Momentum.pringPart_falling",
    "Traquer.Momentum.kst_rising",
    "Traquer.Momentum.kst_falling",
    "Traquer.Momentum.special_k_rising",
    "Traquer.Momentum.special_k_falling",
    "Traquer.Momentum.qstick_over",
    "Traquer.Momentum.qstick_under",
    "Traquer.Momentum.bal_power_over",
    "Traquer.Momentum.bal_power_under",
    "Traquer.Momentum.relative_vigor_over",
    "Traquer.Momentum.relative_vigor_under",
    "Traquer.Momentum.elder_ray_rising",
    "Traquer.Momentum.elder_ray_falling",
    "Traquer.Momentum.pgo_rising",
    "Traquer.Momentum.pgo_falling",
    "Traquer.Momentum.cci_rising",
    "Traquer.Momentum.cci_falling",
    "Traquer.Momentum.rainbow_under",
    "Traquer.Momentum.rainbow_rising",
    "Traquer.Momentum.rainbow_falling",
    "Traquer.Volume.elder_force_rising",
    "Traquer.Volume.elder_force_falling",
    "Traquer.Distribution.zscore_rising",
    "Traquer.Distribution.zscore_falling"
   ],
   "note": "Exact arithmetic. Both directions for every listed indicator."
  },
  {
   "property": "C115",
   "status": "proved",
   "theorems": [
    "Traquer.Momentum.cfo_values",
    "Traquer.Momentum.cfo_unbounded_above",
    "Traquer.Momentum.cfo_unbounded_below",
    "Traquer.Momentum.cfo_bend",
    "Traquer.Momentum.qstick_minority",
    "Traquer.Correlation.dcor_one_not_equal",
    "Traquer.Trend.dpo_line_sign",
    "Traquer.Trend.dpo_rising_below",
    "Traquer.Volatility.chop_sideways",
    "Traquer.Volatility.chop_trend"
   ],
   "note": "Exact arithmetic. Each documented reading is quoted in the comment beside the theorem that refutes it or says what holds instead."
  },
  {
   "property": "C116",
   "status": "proved",
   "theorems": [
    "Traquer.Smooth.ewma_release",
    "Traquer.Smooth.ewma_zero_release",
    "Traquer.Smooth.wilder_release",
    "Traquer.Smooth.wilder_zero_release",
    "Traquer.Momentum.macd_release",
    "Traquer.Momentum.apo_release",
    "Traquer.Momentum.ppo_release",
    "Traquer.Momentum.disparity_release",
    "Traquer.Momentum.elder_ray_release",
    "Traquer.Momentum.macd_zero_release",
    "Traquer.Momentum.apo_zero_release",
    "Traquer.Momentum.ppo_zero_release",
    "Traquer.Momentum.disparity_zero_release",
    "Traquer.Momentum.elder_ray_zero_release",
    "Traquer.Volume.kvo_release",
    "Traquer.Volume.kvo_zero_release",
    "Traquer.Volatility.keltner_release",
    "Traquer.Volatility.keltner_zero_release"
   ],
   "note": "Model/ReleaseZero is the model with usize arithmetic modulo 2^64; agreement with the checked model is proved for every function, then window 0 for every rounding. Functions that collect a window-0 average first (dema, tema, ...) need an allocation of 2^64 values and are not modelled."
  },
  {
   "property": "C117",
   "status": "proved",
   "theorems": [
    "Traquer.Trend.falling_stop",
    "Traquer.Trend.bands_ordered",
    "Traquer.Trend.rising_stop",
    "Traquer.Trend.supertrend_follows",
    "Traquer.Trend.supertrend_turns",
    "Traquer.Trend.supertrend_holds_through",
    "Traquer.Trend.supertrend_wrong_side"
   ],
   "note": "Exact arithmetic. supertrend_follows (multiplier ≥ window), falling_stop (2·multiplier ≥ window), supertrend_turns (every multiplier), and two series with the usual settings on which the reading fails."
  },
  {
   "property": "C118",
   "status": "proved",
   "theorems": [
    "Traquer.Smooth.sma_accurate",
    "Traquer.Smooth.ewma_accurate",
    "Traquer.Smooth.wilder_accurate",
    "Traquer.Smooth.wma_accurate",
    "Traquer.Smooth.pwma_accurate",
    "Traquer.Volatility.typical_accurate"
   ],
   "note": "Binary64 instance of the floating-point model. Units of rounding are as in WithinUnits. The recursive averages need a series of at most 2^32 values and ewma a window of at least 2 (with window 1 it copies the data)."
  },
  {
   "property": "C119",
   "status": "proved",
   "theorems": [
    "Traquer.Correlation.pcc_whole",
    "Traquer.Correlation.srcc_untied",
    "Traquer.Correlation.pcc_lost",
    "Traquer.Correlation.hoeffd_rounded"
   ],
   "note": "Binary64 instance of the floating-point model. CorrWithin k: within k units of rounding (relative) of pearson (Spec/Real), NaN if a window is constant. srcc with ties is not covered: the mean of tied ranks (lowest rank of the group) need not be a half."
  },
  {
   "property": "C120",
   "status": "proved",
   "theorems": [
    "Traquer.Regression.mae_accurate",
    "Traquer.Regression.mse_accurate",
    "Traquer.Regression.rmse_accurate",
    "Traquer.Regression.mape_accurate",
    "Traquer.Regression.smape_accurate",
    "Traquer.Regression.mase_accurate",
    "Traquer.Regression.emae_accurate",
    "Traquer.Trend.ulcer_accurate",
    "Traquer.Correlation.rsc_rounded",
    "Traquer.Correlation.perf_accurate",
    "Traquer.Volume.bw_mfi_accurate"
   ],
   "note": "Binary64 instance of the floating-point model. WithinUnits k a y: |y - a| is at most k units of rounding times |a|. Prices are doubles between 2^-400 and 2^400 (perf: 2^-200 to 2^200), up to 2^32 bars. mase needs a price that has changed."
  },
  {
   "property": "C121",
   "status": "proved",
   "theorems": [
    "Traquer.Smooth.step64",
    "Traquer.Smooth.vma_inRange64",
    "Traquer.Smooth.effRatio_64",
    "Traquer.Smooth.kama_inRange64",
    "Traquer.Smooth.mix64",
    "Traquer.Smooth.frama_inRange64",
    "Traquer.Smooth.mama_inRange64",
    "Traquer.Smooth.mama_returns64",
    "Traquer.Smooth.mama_default64"
   ],
   "note": "All series lengths. vma and kama: at most two roundings above the highest price; frama and mama: within 1 + 2^-38 of it per line. mama also never panics on prices up to 2^400."
  },
  {
   "property": "C122",
   "status": "proved",
   "theorems": [
    "Traquer.Volatility.tr_accurate",
    "Traquer.Volatility.atr_accurate",
    "Traquer.Volatility.atr_accurate_of_moving",
    "Traquer.Volatility.mass_accurate"
   ],
   "note": "Relative to the range itself, not to the prices; prices between 2^-400 and 2^400."
  },
  {
   "property": "C123",
   "status": "proved",
   "theorems": [
    "Traquer.Distribution.quantile_error",
    "Traquer.Distribution.median_rounded",
    "Traquer.Trend.aroon_accurate"
   ],
   "note": "quantile against M (the largest price); median and aroon relative to their own value. quantile_error needs M between 2^-1022 and 2^800."
  },
  {
   "property": "C124",
   "status": "proved",
   "theorems": [
    "Traquer.Smooth.sma_determines",
    "Traquer.Smooth.ewma_determines",
    "Traquer.Smooth.wilder_determines",
    "Traquer.Smooth.wma_determines",
    "Traquer.Smooth.pwma_determines",
    "Traquer.Smooth.fwma_determines",
    "Traquer.Smooth.trima_determines",
    "Traquer.Smooth.hull_determines",
    "Traquer.Smooth.dema_determines",
    "Traquer.Smooth.tema_determines",
    "Traquer.Smooth.t3_determines",
    "Traquer.Smooth.zlma_determines",
    "Traquer.Smooth.ssf_determines",
    "Traquer.Smooth.ssf3_determines",
    "Traquer.Smooth.hwma_determines",
    "Traquer.Momentum.macd_determines",
    "Traquer.Momentum.apo_determines",
    "Traquer.sma_needs_start",
    "Traquer.std_dev_forgets"
   ],
   "note": "Exact arithmetic. sma, wma, pwma, fwma, trima, hull, ewma, wilder, dema, tema, t3, zlma, ssf (both forms), hwma, macd and apo: equal readings and equal starting bars give equal prices. Two refutations show what is needed: the starting bars (sma_needs_start), and an indicator that keeps the direction (std_dev_forgets)."
  },
  {
   "property": "C125",
   "status": "proved",
   "theorems": [
    "Traquer.Smooth.sma_travels",
    "Traquer.Smooth.ewma_travels",
    "Traquer.Smooth.wilder_travels",
    "Traquer.Smooth.wma_travels",
    "Traquer.Smooth.pwma_travels",
    "Traquer.Smooth.fwma_travels",
    "Traquer.Smooth.trima_travels",
    "Traquer.Smooth.alma_travels",
    "Traquer.Smooth.dema_travels",
    "Traquer.Smooth.tema_travels",
    "Traquer.Smooth.t3_travels",
    "Traquer.Smooth.hull_travels",
    "Traquer.Smooth.zlma_travels",
    "Traquer.Momentum.macd_travels",
    "Traquer.Momentum.apo_travels",
    "Traquer.Smooth.ewma_chases",
    "Traquer.Smooth.wilder_chases",
    "Traquer.Smooth.kama_chases",
    "Traquer.Smooth.vma_chases",
    "Traquer.Smooth.frama_chases"
   ],
   "note": "Exact arithmetic. Travels: sma, wma, pwma, fwma, trima, alma, ewma, wilder (factor 1), macd, apo (2), dema, hull, zlma (3), tema (7), t3 ((1+2g)^3). Chases: ewma, wilder, kama, vma, frama."
  },
  {
   "property": "C126",
   "status": "proved",
   "theorems": [
    "Traquer.Smooth.sma_jump",
    "Traquer.Smooth.wma_jump",
    "Traquer.Smooth.ewma_jump",
    "Traquer.Smooth.wilder_jump",
    "Traquer.Smooth.dema_jump",
    "Traquer.Smooth.tema_jump",
    "Traquer.Smooth.zlma_jump",
    "Traquer.Momentum.macd_jump",
    "Traquer.Distribution.std_dev_jump",
    "Traquer.Smooth.dema_jump_overshoots"
   ],
   "note": "Exact arithmetic, closed forms M bars after the jump for sma, wma, ewma, wilder, dema, tema, zlma, macd and std_dev, and dema_jump_overshoots."
  },
  {
   "property": "C127",
   "status": "proved",
   "theorems": [
    "Traquer.Volume.obv_drift",
    "Traquer.Volume.vpt_drift",
    "Traquer.Volume.ad_drift",
    "Traquer.Volume.ad_williams_drift"
   ],
   "note": "IEEE binary64. Series of at most 2^24 bars; ad needs each close between low and high and a range that is not subnormal; vpt needs prices between 2^-400 and 2^400 that at most double from bar to bar. Approx x a e: x is finite and |x - a| <= e."
  },
  {
   "property": "C128",
   "status": "proved",
   "theorems": [
    "Traquer.Volume.cmf_error"
   ],
   "note": "IEEE binary64. Windows up to 2^20; each close between its low and high, with a range between 2^-400 and 2^400; volumes zero or between 2^-400 and 2^400; readings of windows without any volume are not covered (0/0)."
  },
  {
   "property": "C129",
   "status": "proved",
   "theorems": [
    "Traquer.Smooth.ewma_crosses",
    "Traquer.Smooth.ewma_turns",
    "Traquer.Smooth.wilder_crosses",
    "Traquer.Smooth.wilder_turns",
    "Traquer.Smooth.pwma_crosses",
    "Traquer.Smooth.pwma_turns",
    "Traquer.Smooth.kama_crosses",
    "Traquer.Smooth.vma_crosses",
    "Traquer.Smooth.frama_crosses",
    "Traquer.Smooth.sma_crosses_more",
    "Traquer.Momentum.trix_signals",
    "Traquer.Volume.elder_force_signals",
    "Traquer.Momentum.macd_signals",
    "Traquer.Momentum.apo_signals",
    "Traquer.Momentum.ppo_signals",
    "Traquer.Momentum.tsi_signals"
   ],
   "note": "Exact arithmetic. Levels and turns: ewma, wilder, pwma. Sign changes: trix (positive prices), elder_force (volumes not negative), tsi (a price that moves at every bar), and with one extra at the start macd, apo and ppo (positive prices). Levels up to one extra crossing at the start (they start from 0, not from a price): kama, vma, frama. sma_crosses_more: six prices on which the simple average crosses zero three times and the price twice."
  },
  {
   "property": "C130",
   "status": "proved",
   "theorems": [
    "Traquer.Smooth.sma_backwards",
    "Traquer.Smooth.pwma_backwards",
    "Traquer.Smooth.wma_backwards",
    "Traquer.Smooth.trima_backwards",
    "Traquer.Distribution.variance_backwards",
    "Traquer.Distribution.std_dev_backwards",
    "Traquer.Distribution.mad_backwards",
    "Traquer.Distribution.quantile_backwards",
    "Traquer.Momentum.cmo_backwards",
    "Traquer.Momentum.roc_backwards"
   ],
   "note": "Exact arithmetic. Same reading: sma, pwma, trima, variance, std_dev, mad, quantile. Opposite reading: cmo (where the price moves in every window). Reciprocal growth: roc (positive prices). wma: forward and backward readings average to sma."
  },
  {
   "property": "C131",
   "status": "proved",
   "theorems": [
    "Traquer.Distribution.std_dev_holding",
    "Traquer.Distribution.mad_holding",
    "Traquer.Distribution.variance_holding"
   ],
   "note": "Exact arithmetic. std_dev and mad: triangle inequality both ways; variance and pcc: the variance of a sum. Windows with a constant series, where pcc is NaN, are covered by std_dev_holding only."
  },
  {
   "property": "C132",
   "status": "proved",
   "theorems": [
    "Traquer.Regression.mae_blend",
    "Traquer.Regression.mape_blend",
    "Traquer.Regression.mse_blend",
    "Traquer.Regression.rmse_blend",
    "Traquer.Regression.mae_distance",
    "Traquer.Regression.rmse_distance"
   ],
   "note": "Exact arithmetic. mse is an identity, the others inequalities. mape needs prices that are not zero."
  },
  {
   "property": "C133",
   "status": "proved",
   "theorems": [
    "Traquer.Volume.obv_merges",
    "Traquer.Volume.vpt_merges",
    "Traquer.Volume.tvi_merges",
    "Traquer.Volume.elder_force_merges",
    "Traquer.Volume.vwma_merges",
    "Traquer.Volume.ad_merges",
    "Traquer.Volume.ad_williams_merges",
    "Traquer.Volume.kvo_alt_merges",
    "Traquer.Volume.kvo_merges",
    "Traquer.Volume.cmf_merges",
    "Traquer.Volume.twiggs_merges",
    "Traquer.Volume.vwap_merges"
   ],
   "note": "Exact arithmetic. Totals: no negative zero among the prices that decide a direction (obv, kvo), prices not zero (vpt), bars whose high and low differ (ad, kvo with alt off, cmf), a true range that is not zero (twiggs). pvi and nvi react to changes of the volume and mfi can divide 0 by 0; they are not included."
  },
  {
   "property": "C134",
   "status": "proved",
   "theorems": [
    "Traquer.Smooth.sma_joins",
    "Traquer.Distribution.variance_joins",
    "Traquer.Smooth.wma_joins",
    "Traquer.Momentum.roc_joins",
    "Traquer.Volatility.donchian_joins",
    "Traquer.Volume.vwma_joins",
    "Traquer.Volume.cmf_joins"
   ],
   "note": "Exact arithmetic. Shows i r v: the call r does not panic and its value at bar i is the finite number v. A window of w bars spans w - 1 steps of roc, so its windows join to u + v - 1."
  },
  {
   "property": "C135",
   "status": "proved",
   "theorems": [
    "Traquer.Smooth.sma_follows",
    "Traquer.Smooth.ewma_follows",
    "Traquer.Smooth.wilder_follows",
    "Traquer.Smooth.wma_follows",
    "Traquer.Smooth.pwma_follows",
    "Traquer.Smooth.fwma_follows",
    "Traquer.Smooth.trima_follows",
    "Traquer.Smooth.sma_leads",
    "Traquer.Smooth.ewma_leads",
    "Traquer.Smooth.alma_follows",
    "Traquer.Volume.vwma_follows",
    "Traquer.Distribution.median_follows"
   ],
   "note": "Exact arithmetic. FollowsTrend and FastLeads (Spec/Ribbon) state both directions for each average."
  },
  {
   "property": "C136",
   "status": "proved",
   "theorems": [
    "Traquer.Volatility.chop_within",
    "Traquer.Volatility.chop_unbounded"
   ],
   "note": "Exact arithmetic. chop_within gives the range, chop_unbounded bars for every bound."
  },
  {
   "property": "C137",
   "status": "proved",
   "theorems": [
    "Traquer.Trend.psar_rising",
    "Traquer.Trend.psar_falling",
    "Traquer.Trend.psar_overlap"
   ],
   "note": "Exact arithmetic. StepsUp and StepsDown: no bar overlaps the one before. psar_overlap shows that the condition cannot be weakened to rising highs and lows."
  },
  {
   "property": "C138",
   "status": "proved",
   "theorems": [
    "Traquer.Volume.obv_steered",
    "Traquer.Volume.vpt_steered",
    "Traquer.Volume.pvi_steered",
    "Traquer.Volume.nvi_steered",
    "Traquer.Volume.tvi_steered",
    "Traquer.Volume.ad_steered",
    "Traquer.Volume.ad_williams_steered"
   ],
   "note": "Exact arithmetic. Steered: the reading rises exactly if the first condition holds of the new bar and falls exactly if the second does."
  },
  {
   "property": "C139",
   "status": "proved",
   "theorems": [
    "Traquer.Smooth.sma_never_turns",
    "Traquer.Smooth.wma_never_turns",
    "Traquer.Smooth.pwma_never_turns",
    "Traquer.Smooth.fwma_never_turns",
    "Traquer.Smooth.trima_never_turns",
    "Traquer.Smooth.alma_never_turns",
    "Traquer.Smooth.kernel_never_turns",
    "Traquer.Volatility.typical_never_falls",
    "Traquer.Volatility.typical_never_rises",
    "Traquer.Smooth.ewma_flat_steps",
    "Traquer.Smooth.ewma_flat_turns",
    "Traquer.Volatility.donchian_never_falls",
    "Traquer.Volatility.donchian_never_rises"
   ],
   "note": "Every rounding, binary64 included, NaN and overflow included. Readings compare by NotAbove, so a NaN reading compares with nothing. The kernel regression from its 255th bar on."
  },
  {
   "property": "C140",
   "status": "proved",
   "theorems": [
    "Traquer.Correlation.pcc_table",
    "Traquer.Correlation.srcc_table",
    "Traquer.Correlation.pcc_three",
    "Traquer.CorrTable.three"
   ],
   "note": "Exact arithmetic; how close pcc comes to the exact coefficient in binary64 is C119."
  },
  {
   "property": "C141",
   "status": "proved",
   "theorems": [
    "Traquer.Correlation.beta_basket"
   ],
   "note": "Exact arithmetic."
  }
 ]
}
