{
 "claims": [
  {
   "property": "C01",
   "status": "proved",
   "theorems": [
    "Cmaes.c01_overall_best",
    "Cmaes.c01_calls_are_real",
    "Cmaes.c01_termination_data"
   ],
   "note": ""
  },
  {
   "property": "C02",
   "status": "proved",
   "theorems": [
    "Cmaes.c02_current_best"
   ],
   "note": ""
  },
  {
   "property": "C03",
   "status": "proved",
   "theorems": [
    "Cmaes.c03_presence",
    "Cmaes.c03_termination_data"
   ],
   "note": ""
  },
  {
   "property": "C04",
   "status": "proved",
   "theorems": [
    "Cmaes.c04_monotone",
    "Cmaes.c04_current"
   ],
   "note": ""
  },
  {
   "property": "C05",
   "status": "partial",
   "theorems": [
    "Cmaes.c05_counts_completed",
    "Cmaes.c05_function_evals_partial",
    "Cmaes.c05_le",
    "Cmaes.c05_violated"
   ],
   "note": "The code violates the plain statement after a NaN generation (c05_violated); the exact count and the equality without NaN are proved."
  },
  {
   "property": "C06",
   "status": "proved",
   "theorems": [
    "Cmaes.c06_generations",
    "Cmaes.c06_product"
   ],
   "note": ""
  },
  {
   "property": "C07",
   "status": "proved",
   "theorems": [
    "Cmaes.c07_unlimited",
    "Cmaes.c07_limited"
   ],
   "note": ""
  },
  {
   "property": "C08",
   "status": "proved",
   "theorems": [
    "Cmaes.c08_limited",
    "Cmaes.c08_unconstrained",
    "Cmaes.c08_no_underflow",
    "Cmaes.c08_sample"
   ],
   "note": ""
  },
  {
   "property": "C09",
   "status": "proved",
   "theorems": [
    "Cmaes.c09_accepts_iff",
    "Cmaes.c09_panics_iff",
    "Cmaes.c09_extra_ignored",
    "Cmaes.c09_nan",
    "Cmaes.c09_order"
   ],
   "note": ""
  },
  {
   "property": "C10",
   "status": "proved",
   "theorems": [
    "Cmaes.c10_generation",
    "Cmaes.c10_used"
   ],
   "note": ""
  },
  {
   "property": "C11",
   "status": "proved",
   "theorems": [
    "Cmaes.c11_nan"
   ],
   "note": ""
  },
  {
   "property": "C12",
   "status": "proved",
   "theorems": [
    "Cmaes.c12_parallel"
   ],
   "note": ""
  },
  {
   "property": "C13",
   "status": "proved",
   "theorems": [
    "Cmaes.c13_mirror",
    "Cmaes.c13_run",
    "Cmaes.c13_outcome"
   ],
   "note": "c13_outcome covers panics as well. The hypothesis MirroredMedians: medians of data containing NaN, which statrs leaves unspecified, are mirrored, or the objective does not return both infinities."
  },
  {
   "property": "C14",
   "status": "proved",
   "theorems": [
    "Cmaes.c14_ranking",
    "Cmaes.c14_order"
   ],
   "note": ""
  },
  {
   "property": "C15",
   "status": "proved",
   "theorems": [
    "Cmaes.c15_noninterference",
    "Cmaes.c15_run",
    "Cmaes.c15_outcome"
   ],
   "note": "c15_noninterference and c15_run: executions in which both runs complete. c15_outcome: all outcomes; the only one that plotting and printing can add is a panic because a threshold overflows (C26)."
  },
  {
   "property": "C16",
   "status": "proved",
   "theorems": [
    "Cmaes.c16_reported",
    "Cmaes.c16_reproducible",
    "Cmaes.c16_deterministic"
   ],
   "note": "c16_deterministic: independent of clock, schedule and entropy, including plot data and output."
  },
  {
   "property": "C17",
   "status": "proved",
   "theorems": [
    "Cmaes.c17_next",
    "Cmaes.c17_run"
   ],
   "note": ""
  },
  {
   "property": "C18",
   "status": "proved",
   "theorems": [
    "Cmaes.c18_iff",
    "Cmaes.c18_not_early",
    "Cmaes.c18_run",
    "Cmaes.c18_ends"
   ],
   "note": "c18_ends: a run that does not end contains a single next call that does not end."
  },
  {
   "property": "C19",
   "status": "proved",
   "theorems": [
    "Cmaes.c19_iff",
    "Cmaes.c19_not_early",
    "Cmaes.c19_run",
    "Cmaes.c19_ends"
   ],
   "note": ""
  },
  {
   "property": "C20",
   "status": "proved",
   "theorems": [
    "Cmaes.c20_iff",
    "Cmaes.c20_run_reached",
    "Cmaes.c20_run_missed",
    "Cmaes.c20_equal_does_not_count",
    "Cmaes.c20_posDefCov_hides_target"
   ],
   "note": ""
  },
  {
   "property": "C21",
   "status": "proved",
   "theorems": [
    "Cmaes.c21_iff",
    "Cmaes.c21_only_if_set",
    "Cmaes.c21_ends"
   ],
   "note": ""
  },
  {
   "property": "C22",
   "status": "proved",
   "theorems": [
    "Cmaes.c22_tolFunHist",
    "Cmaes.c22_tolFun",
    "Cmaes.c22_tolFunRel",
    "Cmaes.c22_window"
   ],
   "note": "Dimensions below 2^53/30; windows longer than the history cap (20000) never fill."
  },
  {
   "property": "C23",
   "status": "proved",
   "theorems": [
    "Cmaes.c23_iff",
    "Cmaes.c23_necessary"
   ],
   "note": "The exact characterisation assumes that no recorded median is NaN; the necessary conditions hold always."
  },
  {
   "property": "C24",
   "status": "partial",
   "theorems": [
    "Cmaes.c24_implemented",
    "Cmaes.c24_complete_partial",
    "Cmaes.c24_sound_partial",
    "Cmaes.c24_unit_partial",
    "Cmaes.c24_spurious",
    "Cmaes.c24_missed",
    "Cmaes.XR.variance_le",
    "Cmaes.XR.le_variance"
   ],
   "note": "The code compares the variance, not the standard deviation: the documented condition is refuted in both directions; the implemented condition is proved, and the documented one under conditions on the variances."
  },
  {
   "property": "C25",
   "status": "proved",
   "theorems": [
    "Cmaes.c25_tolConditionCov",
    "Cmaes.c25_noEffectCoord",
    "Cmaes.c25_noEffectAxis",
    "Cmaes.c25_tolXUp",
    "Cmaes.c25_exact"
   ],
   "note": ""
  },
  {
   "property": "C27",
   "status": "proved",
   "theorems": [
    "Cmaes.c27_history",
    "Cmaes.c27_length"
   ],
   "note": ""
  },
  {
   "property": "C28",
   "status": "proved",
   "theorems": [
    "Cmaes.c28_median",
    "Cmaes.c28_between",
    "Cmaes.c28_overflow",
    "Cmaes.c28_nan"
   ],
   "note": ""
  },
  {
   "property": "C29",
   "status": "proved",
   "theorems": [
    "Cmaes.c29_medians"
   ],
   "note": ""
  },
  {
   "property": "C62",
   "status": "proved",
   "theorems": [
    "Cmaes.c62_none",
    "Cmaes.c62_some",
    "Cmaes.c62_first_nan",
    "Cmaes.c62_infinite"
   ],
   "note": ""
  },
  {
   "property": "C30",
   "status": "proved",
   "theorems": [
    "Cmaes.c30_build",
    "Cmaes.c30_valid_iff"
   ],
   "note": ""
  },
  {
   "property": "C31",
   "status": "proved",
   "theorems": [
    "Cmaes.c31_fresh",
    "Cmaes.c31_plot"
   ],
   "note": ""
  },
  {
   "property": "C32",
   "status": "proved",
   "theorems": [
    "Cmaes.c32_own",
    "Cmaes.c32_others",
    "Cmaes.c32_last",
    "Cmaes.c32_commute",
    "Cmaes.c32_mean",
    "Cmaes.c32_default_population",
    "Cmaes.c32_default_builds"
   ],
   "note": ""
  },
  {
   "property": "C64",
   "status": "proved",
   "theorems": [
    "Cmaes.c64_set",
    "Cmaes.c64_last",
    "Cmaes.c64_commute"
   ],
   "note": ""
  },
  {
   "property": "C43",
   "status": "proved",
   "theorems": [
    "Cmaes.c43_aligned",
    "Cmaes.c43_clear"
   ],
   "note": ""
  },
  {
   "property": "C44",
   "status": "proved",
   "theorems": [
    "Cmaes.c44_increasing",
    "Cmaes.c44_next",
    "Cmaes.c44_idempotent",
    "Cmaes.c44_add_plot_point"
   ],
   "note": ""
  },
  {
   "property": "C45",
   "status": "proved",
   "theorems": [
    "Cmaes.c45_clear"
   ],
   "note": ""
  },
  {
   "property": "C46",
   "status": "proved",
   "theorems": [
    "Cmaes.c46_plot",
    "Cmaes.c46_print",
    "Cmaes.c46_posDefCov_missing"
   ],
   "note": "The claim excludes runs ending with PosDefCov, for which the violation is exhibited."
  },
  {
   "property": "C47",
   "status": "proved",
   "theorems": [
    "Cmaes.c47_build",
    "Cmaes.c47_next",
    "Cmaes.c47_silent",
    "Cmaes.c47_final",
    "Cmaes.c47_info",
    "Cmaes.c47_repeats"
   ],
   "note": ""
  },
  {
   "property": "C35",
   "status": "proved",
   "theorems": [
    "Cmaes.c35_symmetric"
   ],
   "note": ""
  },
  {
   "property": "C42",
   "status": "proved",
   "theorems": [
    "Cmaes.c42_exact",
    "Cmaes.c42_rounding"
   ],
   "note": ""
  },
  {
   "property": "C26",
   "status": "proved",
   "theorems": [
    "Cmaes.c26_next",
    "Cmaes.c26_returns",
    "Cmaes.c26_quiet",
    "Cmaes.c26_op",
    "Cmaes.c26_ops",
    "Cmaes.c26_run",
    "Cmaes.c26_overflow",
    "Cmaes.c26_overflow_reached"
   ],
   "note": "Panics occur only in states outside CanStep: generation >= 2^30-1 (overflow shown to be reached after 2^30 calls), user constraints that panic, plot/print gaps near usize::MAX, and statrs medians of NaN data that the library itself does not return. c26_run: a run with max_generations < 2^30 returns."
  },
  {
   "property": "C48",
   "status": "proved",
   "theorems": [
    "Cmaes.c48_invalid",
    "Cmaes.c48_returns",
    "Cmaes.c48_best",
    "Cmaes.c48_no_other_panic",
    "Cmaes.c48_fmax"
   ],
   "note": "Both fmin/fmin_parallel and fmax/fmax_parallel; the options are stated independently in documentedOptions."
  },
  {
   "property": "C49",
   "status": "proved",
   "theorems": [
    "Cmaes.c49_evaluate",
    "Cmaes.c49_sequence",
    "Cmaes.c49_stateless",
    "Cmaes.c49_run",
    "Cmaes.c49_uniform"
   ],
   "note": "c49_uniform is about exact arithmetic."
  },
  {
   "property": "C50",
   "status": "partial",
   "theorems": [
    "Cmaes.c50_totals",
    "Cmaes.c50_reuse_partial",
    "Cmaes.c50_undercount"
   ],
   "note": "The totals are proved without restriction. The equality with the number of objective calls under run_with_reuse holds when no run ended with InvalidFunctionValue; for a NaN it fails, as c50_undercount exhibits."
  },
  {
   "property": "C51",
   "status": "partial",
   "theorems": [
    "Cmaes.c51_best_partial",
    "Cmaes.c51_points_partial",
    "Cmaes.c51_lost"
   ],
   "note": "Proved for all runs but one that ended with InvalidFunctionValue, whose best individual the code drops (c51_lost)."
  },
  {
   "property": "C52",
   "status": "proved",
   "theorems": [
    "Cmaes.c52_local",
    "Cmaes.c52_ipop",
    "Cmaes.c54_bipop",
    "Cmaes.c52_local_ends",
    "Cmaes.c52_ipop_ends",
    "Cmaes.c52_bipop_ends"
   ],
   "note": ""
  },
  {
   "property": "C53",
   "status": "proved",
   "theorems": [
    "Cmaes.c53_local",
    "Cmaes.c53_ipop",
    "Cmaes.c54_bipop",
    "Cmaes.c61_overflow"
   ],
   "note": ""
  },
  {
   "property": "C54",
   "status": "proved",
   "theorems": [
    "Cmaes.c54_bipop",
    "Cmaes.c54_balance"
   ],
   "note": ""
  },
  {
   "property": "C55",
   "status": "partial",
   "theorems": [
    "Cmaes.c55_evals_partial",
    "Cmaes.c55_population",
    "Cmaes.c55_population_exact",
    "Cmaes.c55_no_limit"
   ],
   "note": "The limit on the evaluations is proved when max_function_evals_per_run is set and refuted otherwise. The bounds on the population are proved in exact arithmetic, and in binary64 assuming an accuracy bound of powf."
  },
  {
   "property": "C56",
   "status": "proved",
   "theorems": [
    "Cmaes.c56_evals",
    "Cmaes.c56_overshoot",
    "Cmaes.c56_zero",
    "Cmaes.c56_time"
   ],
   "note": ""
  },
  {
   "property": "C57",
   "status": "proved",
   "theorems": [
    "Cmaes.c57_reason"
   ],
   "note": ""
  },
  {
   "property": "C58",
   "status": "proved",
   "theorems": [
    "Cmaes.c58_ordered",
    "Cmaes.c58_build",
    "Cmaes.c58_width",
    "Cmaes.c58_mean",
    "Cmaes.c61_infinite_range"
   ],
   "note": "c58_mean assumes that gen_range returns a value in its range (UniformOk)."
  },
  {
   "property": "C59",
   "status": "proved",
   "theorems": [
    "Cmaes.c59_reuse",
    "Cmaes.c59_no_panic",
    "Cmaes.c59_factory"
   ],
   "note": ""
  },
  {
   "property": "C60",
   "status": "proved",
   "theorems": [
    "Cmaes.c60_options"
   ],
   "note": ""
  },
  {
   "property": "C61",
   "status": "partial",
   "theorems": [
    "Cmaes.c61_no_panic_partial",
    "Cmaes.c61_no_panic_simple",
    "Cmaes.c61_local_step",
    "Cmaes.c61_tiny_factor",
    "Cmaes.c61_infinite_range",
    "Cmaes.c61_overflow",
    "Cmaes.c61_defaults",
    "Cmaes.c61_choices",
    "Cmaes.c61_no_panic_f64"
   ],
   "note": "Absence of panics is proved when the step sizes the strategy can choose are valid, and these are valid in binary64 whenever the sizes involved are between 2^-1000 and 2^1000 (c61_choices); the full claim is refuted by c61_tiny_factor."
  },
  {
   "property": "C33",
   "status": "proved",
   "theorems": [
    "Cmaes.c33_weights",
    "Cmaes.c33_negative",
    "Cmaes.c33_muEff"
   ],
   "note": ""
  },
  {
   "property": "C34",
   "status": "proved",
   "theorems": [
    "Cmaes.c34_rates"
   ],
   "note": ""
  },
  {
   "property": "C36",
   "status": "proved",
   "theorems": [
    "Cmaes.c36_posDef",
    "Cmaes.c36_population",
    "Cmaes.c36_default",
    "Cmaes.c36_progress"
   ],
   "note": "c1 + cmu < 1 holds for populations of at most 2 (n + 2)^2, in particular the default."
  },
  {
   "property": "C37",
   "status": "proved",
   "theorems": [
    "Cmaes.c37_positive",
    "Cmaes.c37_semidefinite",
    "Cmaes.c37_singular"
   ],
   "note": "c37_singular: the documented claim fails for large populations."
  },
  {
   "property": "C38",
   "status": "proved",
   "theorems": [
    "Cmaes.c38_mean",
    "Cmaes.c38_convex",
    "Cmaes.c38_hull"
   ],
   "note": ""
  },
  {
   "property": "C39",
   "status": "proved",
   "theorems": [
    "Cmaes.c39_positive",
    "Cmaes.c39_grows",
    "Cmaes.c39_lower"
   ],
   "note": ""
  },
  {
   "property": "C41",
   "status": "proved",
   "theorems": [
    "Cmaes.c41_schedule",
    "Cmaes.c41_fresh",
    "Cmaes.c41_period",
    "Cmaes.c41_at_most"
   ],
   "note": ""
  },
  {
   "property": "C65",
   "status": "proved",
   "theorems": [
    "Cmaes.c65_generation"
   ],
   "note": ""
  },
  {
   "property": "C66",
   "status": "proved",
   "theorems": [
    "Cmaes.c66_rates",
    "Cmaes.c66_weights",
    "Cmaes.c66_negative"
   ],
   "note": ""
  },
  {
   "property": "C63",
   "status": "proved",
   "theorems": [
    "Cmaes.c63_format",
    "Cmaes.c63_unique",
    "Cmaes.c63_width",
    "Cmaes.c63_monotone",
    "Cmaes.c63_names"
   ],
   "note": ""
  },
  {
   "property": "C40",
   "status": "proved",
   "theorems": [
    "Cmaes.c40_invariance",
    "Cmaes.c40_translation",
    "Cmaes.c40_scaling",
    "Cmaes.c40_builds",
    "Cmaes.c40_next",
    "Cmaes.c40_run",
    "Cmaes.c40_outcome"
   ],
   "note": "tol_x, if set, and constraints have to be scaled and moved with the problem."
  },
  {
   "property": "C67",
   "status": "proved",
   "theorems": [
    "Cmaes.c67_points",
    "Cmaes.c67_best"
   ],
   "note": ""
  },
  {
   "property": "C68",
   "status": "proved",
   "theorems": [
    "Cmaes.c68_returns",
    "Cmaes.c68_dimensions",
    "Cmaes.c68_single",
    "Cmaes.c68_frame"
   ],
   "note": "What the plotters library does with the charts is not modelled."
  },
  {
   "property": "C69",
   "status": "partial",
   "theorems": [
    "Cmaes.c69_horizontal",
    "Cmaes.c69_vertical",
    "Cmaes.c69_mean_partial",
    "Cmaes.c69_flipped",
    "Cmaes.c69_violated"
   ],
   "note": "The code violates the claim for a mean whose recorded coordinates are all equal and negative (c69_violated); proved otherwise, the vertical axes in exact arithmetic for at most 2(n+2)^2 individuals and a real-valued objective."
  },
  {
   "property": "C70",
   "status": "proved",
   "theorems": [
    "Cmaes.c70_stream"
   ],
   "note": "For every generator; the quality of the random numbers is not modelled."
  },
  {
   "property": "C71",
   "status": "proved",
   "theorems": [
    "Cmaes.c71_options",
    "Cmaes.c71_parameters",
    "Cmaes.c71_exact",
    "Cmaes.c71_disabled"
   ],
   "note": "c71_exact: exact arithmetic, dimensions up to 2^32."
  },
  {
   "property": "C72",
   "status": "proved",
   "theorems": [
    "Cmaes.c72_output",
    "Cmaes.c72_lines"
   ],
   "note": "For executions that return."
  },
  {
   "property": "C73",
   "status": "proved",
   "theorems": [
    "Cmaes.c73_row",
    "Cmaes.c73_aligned",
    "Cmaes.c73_reasons",
    "Cmaes.c73_reason",
    "Cmaes.c73_returns",
    "Cmaes.c73_initial",
    "Cmaes.c73_runInfo",
    "Cmaes.c73_runResults",
    "Cmaes.c73_wide",
    "Cmaes.c73_printInfo",
    "Cmaes.c73_printInitial"
   ],
   "note": "c73_wide: a wider number shifts the separators. The standard library's shortest representation of a number and nalgebra's layout of a vector are parameters."
  },
  {
   "property": "C74",
   "status": "proved",
   "theorems": [
    "Cmaes.c74_reproducible"
   ],
   "note": ""
  },
  {
   "property": "C75",
   "status": "proved",
   "theorems": [
    "Cmaes.c75_parallel"
   ],
   "note": ""
  },
  {
   "property": "C76",
   "status": "proved",
   "theorems": [
    "Cmaes.c76_printing"
   ],
   "note": ""
  },
  {
   "property": "C77",
   "status": "proved",
   "theorems": [
    "Cmaes.c77_mirror"
   ],
   "note": "With the hypothesis MirroredMedians of C13. What is printed is not compared."
  },
  {
   "property": "C78",
   "status": "proved",
   "theorems": [
    "Cmaes.c78_rotation",
    "Cmaes.c78_exists",
    "Cmaes.c78_law"
   ],
   "note": "In exact arithmetic with exact eigensolvers, which may differ in the two runs. The random vectors of the turned run are those of the first run multiplied by orthogonal matrices that depend only on the state before the call. c78_law: the law of the next generation given the past, without constraints, if the next call returns almost surely."
  },
  {
   "property": "C79",
   "status": "proved",
   "theorems": [
    "Cmaes.c79_signs",
    "Cmaes.c79_signs_signed"
   ],
   "note": "c79_signs_signed: with both zeros. exp and sqrt are assumed to have the two properties of SaneLibm."
  },
  {
   "property": "C80",
   "status": "proved",
   "theorems": [
    "Cmaes.c80_mean",
    "Cmaes.c80_sigma",
    "Cmaes.c80_covariance",
    "Cmaes.c80_zero",
    "Cmaes.c80_zero_reported",
    "Cmaes.c80_infinite_reported",
    "Cmaes.c80_unnoticed",
    "Cmaes.c80_mean_signed",
    "Cmaes.c80_sigma_signed",
    "Cmaes.c80_covariance_signed",
    "Cmaes.c80_zero_signed",
    "Cmaes.c80_zero_reported_signed",
    "Cmaes.c80_infinite_reported_signed"
   ],
   "note": "No assumption on the mathematical library. The theorems named _signed: with both zeros."
  },
  {
   "property": "C81",
   "status": "proved",
   "theorems": [
    "Cmaes.c81_run",
    "Cmaes.c81_resume",
    "Cmaes.c81_interleaved"
   ],
   "note": "c81_interleaved: for runs that return."
  },
  {
   "property": "C82",
   "status": "proved",
   "theorems": [
    "Cmaes.c82_stream"
   ],
   "note": "For restarters that return; how the generator turns its state into numbers is not modelled."
  },
  {
   "property": "C83",
   "status": "proved",
   "theorems": [
    "Cmaes.c83_rates",
    "Cmaes.c83_weights",
    "Cmaes.c83_ranges",
    "Cmaes.c83_negative"
   ],
   "note": "In binary64, for libraries that meet AccurateLibm; a library that does is constructed."
  },
  {
   "property": "C84",
   "status": "proved",
   "theorems": [
    "Cmaes.c84_reported",
    "Cmaes.c84_plateau",
    "Cmaes.c84_run",
    "Cmaes.c84_returns",
    "Cmaes.c84_constant",
    "Cmaes.c84_infinite"
   ],
   "note": "c84_returns with the assumptions of C26: resampling that ends, constraints that do not panic, counters that do not overflow."
  },
  {
   "property": "C85",
   "status": "proved",
   "theorems": [
    "Cmaes.c85_intact",
    "Cmaes.c85_returned",
    "Cmaes.c85_silenced",
    "Cmaes.c85_conservative",
    "Cmaes.c85_history",
    "Cmaes.c85_best",
    "Cmaes.c85_run"
   ],
   "note": "c85_silenced and c85_history for panics of the objective; what a panic of a constraint leaves behind is in c85_intact."
  },
  {
   "property": "C86",
   "status": "proved",
   "theorems": [
    "Cmaes.c86_hull",
    "Cmaes.c86_feasible",
    "Cmaes.c86_bounds"
   ],
   "note": "Exact arithmetic."
  },
  {
   "property": "C87",
   "status": "proved",
   "theorems": [
    "Cmaes.c87_variance",
    "Cmaes.c87_tolX",
    "Cmaes.c87_default",
    "Cmaes.c87_variance_any",
    "Cmaes.c87_tolX_any"
   ],
   "note": "Exact arithmetic. The first three without negative weights, for every population; the others with any weights and c1 + cmu < 1."
  },
  {
   "property": "C88",
   "status": "proved",
   "theorems": [
    "Cmaes.c88_gaussian"
   ],
   "note": "Exact arithmetic, no constraints, c1 + cmu < 1. That the generator's numbers are independent and normal is the hypothesis."
  },
  {
   "property": "C89",
   "status": "proved",
   "theorems": [
    "Cmaes.c89_causal"
   ],
   "note": "For calls that return."
  },
  {
   "property": "C90",
   "status": "proved",
   "theorems": [
    "Cmaes.c90_neutral"
   ],
   "note": "Exact arithmetic, no constraints, c1 + cmu < 1; in parallel evaluation the order of the calls does not depend on the numbers drawn. For almost all numbers: a vector of zeros has no direction to scale negative weights with."
  },
  {
   "property": "C91",
   "status": "proved",
   "theorems": [
    "Cmaes.c91_convex",
    "Cmaes.c91_concave"
   ],
   "note": "Exact arithmetic."
  },
  {
   "property": "C92",
   "status": "proved",
   "theorems": [
    "Cmaes.c92_downhill"
   ],
   "note": "Exact arithmetic, no constraints, c1 + cmu < 1."
  },
  {
   "property": "C93",
   "status": "proved",
   "theorems": [
    "Cmaes.c93_first",
    "Cmaes.c93_limited"
   ],
   "note": "c93_limited: with max_resamples."
  },
  {
   "property": "C94",
   "status": "proved",
   "theorems": [
    "Cmaes.c94_conditional"
   ],
   "note": "Exact arithmetic, max_resamples not set, c1 + cmu < 1. Positive probability follows if the acceptable points have an interior (gaussian_open)."
  },
  {
   "property": "C95",
   "status": "proved",
   "theorems": [
    "Cmaes.c95_growth",
    "Cmaes.c95_kappa",
    "Cmaes.c95_first"
   ],
   "note": "Exact arithmetic, no constraints, c1 + cmu < 1; in parallel evaluation the order of the calls does not depend on the numbers drawn."
  },
  {
   "property": "C96",
   "status": "proved",
   "theorems": [
    "Cmaes.c96_room",
    "Cmaes.c96_kept",
    "Cmaes.c96_bounded",
    "Cmaes.c96_calls"
   ],
   "note": "The capacity is that of function_evals, as in the code. Vec is assumed to reallocate only when full and then to a larger capacity."
  },
  {
   "property": "C97",
   "status": "proved",
   "theorems": [
    "Cmaes.c97_save",
    "Cmaes.c97_order",
    "Cmaes.c97_ok"
   ],
   "note": "What the file system and plotters do with a request is not modelled, only whether it fails."
  },
  {
   "property": "C98",
   "status": "proved",
   "theorems": [
    "Cmaes.c98_bounds",
    "Cmaes.c98_fresh",
    "Cmaes.c98_first"
   ],
   "note": "Exact arithmetic, no constraints, c1 + cmu < 1 (not needed in c98_first); in parallel evaluation the order of the calls does not depend on the numbers drawn."
  },
  {
   "property": "C99",
   "status": "proved",
   "theorems": [
    "Cmaes.c99_values",
    "Cmaes.c99_one_method",
    "Cmaes.c99_one_kind",
    "Cmaes.c99_agree",
    "Cmaes.c99_calls"
   ],
   "note": "Neither method panics; concurrent calls are serialised."
  },
  {
   "property": "C100",
   "status": "proved",
   "theorems": [
    "Cmaes.c100_same",
    "Cmaes.c100_search",
    "Cmaes.c100_panic",
    "Cmaes.c100_wrap"
   ],
   "note": "CMAES only; restarts in release builds are C102."
  },
  {
   "property": "C101",
   "status": "proved",
   "theorems": [
    "Cmaes.c101_choice",
    "Cmaes.c101_answers",
    "Cmaes.c101_points",
    "Cmaes.c101_returns",
    "Cmaes.c101_memoryless"
   ],
   "note": "Questions are taken one at a time: two questions of one round that overlap in time are in some order. Restarters do not set constraints."
  },
  {
   "property": "C102",
   "status": "proved",
   "theorems": [
    "Cmaes.c102_same",
    "Cmaes.c102_ipop",
    "Cmaes.c102_bipop",
    "Cmaes.c102_silent",
    "Cmaes.c102_bipop_silent"
   ],
   "note": "For Local nothing wraps: c102_same."
  },
  {
   "property": "C103",
   "status": "proved",
   "theorems": [
    "Cmaes.c103_builds",
    "Cmaes.c103_move"
   ],
   "note": "For search ranges between real numbers. That uniform draws move with the range is a hypothesis on the generator."
  },
  {
   "property": "C104",
   "status": "proved",
   "theorems": [
    "Cmaes.c104_first",
    "Cmaes.c104_slope",
    "Cmaes.c104_neutral"
   ],
   "note": "Exact arithmetic. That the path does not point uphill is needed in later generations; it is zero in the first."
  },
  {
   "property": "C105",
   "status": "proved",
   "theorems": [
    "Cmaes.c105_run",
    "Cmaes.c105_restart",
    "Cmaes.c105_lines"
   ],
   "note": "The standard library's shortest representation of a number and nalgebra's layout of a vector are parameters."
  },
  {
   "property": "C106",
   "status": "proved",
   "theorems": [
    "Cmaes.c106_reach",
    "Cmaes.c106_improve",
    "Cmaes.c106_new"
   ],
   "note": "Exact arithmetic, c1 + cmu < 1. That the generator's numbers are independent and normal is the hypothesis."
  },
  {
   "property": "C107",
   "status": "proved",
   "theorems": [
    "Cmaes.c107_sigma",
    "Cmaes.c107_variance",
    "Cmaes.c107_points",
    "Cmaes.c107_travel",
    "Cmaes.c107_tolXUp",
    "Cmaes.c107_condition"
   ],
   "note": "Exact arithmetic. That the random numbers are bounded is the hypothesis; normal numbers are bounded in every finite run."
  },
  {
   "property": "C108",
   "status": "proved",
   "theorems": [
    "Cmaes.c108_factory",
    "Cmaes.c108_reuse",
    "Cmaes.c108_factory_calls",
    "Cmaes.c108_reuse_calls",
    "Cmaes.c108_conservative",
    "Cmaes.c108_reuse_conservative"
   ],
   "note": "Constraints that do not panic. The restarter with NaN may also overflow the population size of the run after the one that panicked (checked profile); the statement allows for it. Panics of the closure that makes the objective functions are in C110."
  },
  {
   "property": "C109",
   "status": "proved",
   "theorems": [
    "Cmaes.c109_tame"
   ],
   "note": "Exact arithmetic. That the generator's numbers are standard normal is the hypothesis."
  },
  {
   "property": "C110",
   "status": "proved",
   "theorems": [
    "Cmaes.c110_maker",
    "Cmaes.c110_other"
   ],
   "note": "c110_other covers restarters that do not end, or in which the code itself panics."
  }
 ]
}
