#!/usr/bin/env python3
"""Writes MANIFEST.json. One entry per property: status, theorems, note."""
import json, os

CLAIMS = []

def claim(prop, status, theorems, note=""):
    CLAIMS.append({"property": prop, "status": status,
                   "theorems": ["Cmaes." + t for t in theorems.split()], "note": note})

claim("C01", "proved", "c01_overall_best c01_calls_are_real c01_termination_data")
claim("C02", "proved", "c02_current_best")
claim("C03", "proved", "c03_presence c03_termination_data")
claim("C04", "proved", "c04_monotone c04_current")
claim("C05", "partial", "c05_counts_completed c05_function_evals_partial c05_le c05_violated",
      "The code violates the plain statement after a NaN generation (c05_violated); the exact count "
      "and the equality without NaN are proved.")
claim("C06", "proved", "c06_generations c06_product")
claim("C07", "proved", "c07_unlimited c07_limited")
claim("C08", "proved", "c08_limited c08_unconstrained c08_no_underflow c08_sample")
claim("C09", "proved", "c09_accepts_iff c09_panics_iff c09_extra_ignored c09_nan c09_order")
claim("C10", "proved", "c10_generation c10_used")
claim("C11", "proved", "c11_nan")
claim("C12", "proved", "c12_parallel")
claim("C13", "proved", "c13_mirror c13_run c13_outcome",
      "c13_outcome covers panics as well. The hypothesis MirroredMedians: medians "
      "of data containing NaN, which statrs leaves unspecified, are mirrored, or the objective does not "
      "return both infinities.")
claim("C14", "proved", "c14_ranking c14_order")
claim("C15", "proved", "c15_noninterference c15_run c15_outcome",
      "c15_noninterference and c15_run: executions in which both runs complete. c15_outcome: all outcomes; the only "
      "one that plotting and printing can add is a panic because a threshold overflows (C26).")
claim("C16", "proved", "c16_reported c16_reproducible c16_deterministic",
      "c16_deterministic: independent of clock, schedule and entropy, including plot data and output.")
claim("C17", "proved", "c17_next c17_run")
claim("C18", "proved", "c18_iff c18_not_early c18_run c18_ends",
      "c18_ends: a run that does not end contains a single next call that does not end.")
claim("C19", "proved", "c19_iff c19_not_early c19_run c19_ends")
claim("C20", "proved", "c20_iff c20_run_reached c20_run_missed c20_equal_does_not_count "
      "c20_posDefCov_hides_target")
claim("C21", "proved", "c21_iff c21_only_if_set c21_ends")
claim("C22", "proved", "c22_tolFunHist c22_tolFun c22_tolFunRel c22_window",
      "Dimensions below 2^53/30; windows longer than the history cap (20000) never fill.")
claim("C23", "proved", "c23_iff c23_necessary",
      "The exact characterisation assumes that no recorded median is NaN; the necessary conditions "
      "hold always.")
claim("C24", "partial", "c24_implemented c24_complete_partial c24_sound_partial c24_unit_partial "
      "c24_spurious c24_missed XR.variance_le XR.le_variance",
      "The code compares the variance, not the standard deviation: the documented condition is refuted "
      "in both directions; the implemented condition is proved, and the documented one under "
      "conditions on the variances.")
claim("C25", "proved", "c25_tolConditionCov c25_noEffectCoord c25_noEffectAxis c25_tolXUp c25_exact")
claim("C27", "proved", "c27_history c27_length")
claim("C28", "proved", "c28_median c28_between c28_overflow c28_nan")
claim("C29", "proved", "c29_medians")
claim("C62", "proved", "c62_none c62_some c62_first_nan c62_infinite")
claim("C30", "proved", "c30_build c30_valid_iff")
claim("C31", "proved", "c31_fresh c31_plot")
claim("C32", "proved", "c32_own c32_others c32_last c32_commute c32_mean c32_default_population "
      "c32_default_builds")
claim("C64", "proved", "c64_set c64_last c64_commute")
claim("C43", "proved", "c43_aligned c43_clear")
claim("C44", "proved", "c44_increasing c44_next c44_idempotent c44_add_plot_point")
claim("C45", "proved", "c45_clear")
claim("C46", "proved", "c46_plot c46_print c46_posDefCov_missing",
      "The claim excludes runs ending with PosDefCov, for which the violation is exhibited.")
claim("C47", "proved", "c47_build c47_next c47_silent c47_final c47_info c47_repeats")
claim("C35", "proved", "c35_symmetric")
claim("C42", "proved", "c42_exact c42_rounding")

claim("C26", "proved",
      "c26_next c26_returns c26_quiet c26_op c26_ops c26_run c26_overflow c26_overflow_reached",
      "Panics occur only in states outside CanStep: generation >= 2^30-1 (overflow shown to be reached after 2^30 calls), "
      "user constraints that panic, plot/print gaps near usize::MAX, and statrs medians of NaN data that the library itself does not return. "
      "c26_run: a run with max_generations < 2^30 returns.")

claim("C48", "proved",
      "c48_invalid c48_returns c48_best c48_no_other_panic c48_fmax",
      "Both fmin/fmin_parallel and fmax/fmax_parallel; the options are stated independently in documentedOptions.")
claim("C49", "proved",
      "c49_evaluate c49_sequence c49_stateless c49_run c49_uniform",
      "c49_uniform is about exact arithmetic.")

claim("C50", "partial", "c50_totals c50_reuse_partial c50_undercount",
      "The totals are proved without restriction. The equality with the number of objective calls under run_with_reuse "
      "holds when no run ended with InvalidFunctionValue; for a NaN it fails, as c50_undercount exhibits.")
claim("C51", "partial", "c51_best_partial c51_points_partial c51_lost",
      "Proved for all runs but one that ended with InvalidFunctionValue, whose best individual the code drops (c51_lost).")
claim("C52", "proved", "c52_local c52_ipop c54_bipop c52_local_ends c52_ipop_ends c52_bipop_ends")
claim("C53", "proved", "c53_local c53_ipop c54_bipop c61_overflow")
claim("C54", "proved", "c54_bipop c54_balance")
claim("C55", "partial", "c55_evals_partial c55_population c55_population_exact c55_no_limit",
      "The limit on the evaluations is proved when max_function_evals_per_run is set and refuted otherwise. The bounds on the "
      "population are proved in exact arithmetic, and in binary64 assuming an accuracy bound of powf.")
claim("C56", "proved", "c56_evals c56_overshoot c56_zero c56_time")
claim("C57", "proved", "c57_reason")
claim("C58", "proved", "c58_ordered c58_build c58_width c58_mean c61_infinite_range",
      "c58_mean assumes that gen_range returns a value in its range (UniformOk).")
claim("C59", "proved", "c59_reuse c59_no_panic c59_factory")
claim("C60", "proved", "c60_options")
claim("C61", "partial", "c61_no_panic_partial c61_no_panic_simple c61_local_step c61_tiny_factor c61_infinite_range "
      "c61_overflow c61_defaults c61_choices c61_no_panic_f64",
      "Absence of panics is proved when the step sizes the strategy can choose are valid, and these are valid in binary64 whenever the sizes involved are between 2^-1000 and 2^1000 (c61_choices); the full claim is refuted by c61_tiny_factor.")
claim("C33", "proved", "c33_weights c33_negative c33_muEff")
claim("C34", "proved", "c34_rates")
claim("C36", "proved", "c36_posDef c36_population c36_default c36_progress",
      "c1 + cmu < 1 holds for populations of at most 2 (n + 2)^2, in particular the default.")
claim("C37", "proved", "c37_positive c37_semidefinite c37_singular",
      "c37_singular: the documented claim fails for large populations.")
claim("C38", "proved", "c38_mean c38_convex c38_hull")
claim("C39", "proved", "c39_positive c39_grows c39_lower")
claim("C41", "proved", "c41_schedule c41_fresh c41_period c41_at_most")
claim("C65", "proved", "c65_generation")
claim("C66", "proved", "c66_rates c66_weights c66_negative")
claim("C63", "proved", "c63_format c63_unique c63_width c63_monotone c63_names")
claim("C40", "proved", "c40_invariance c40_translation c40_scaling c40_builds c40_next c40_run c40_outcome",
      "tol_x, if set, and constraints have to be scaled and moved with the problem.")
claim("C67", "proved", "c67_points c67_best")
claim("C68", "proved", "c68_returns c68_dimensions c68_single c68_frame",
      "What the plotters library does with the charts is not modelled.")
claim("C69", "partial", "c69_horizontal c69_vertical c69_mean_partial c69_flipped c69_violated",
      "The code violates the claim for a mean whose recorded coordinates are all equal and negative (c69_violated); proved otherwise, the vertical axes in exact arithmetic for at most 2(n+2)^2 individuals and a real-valued objective.")
claim("C70", "proved", "c70_stream", "For every generator; the quality of the random numbers is not modelled.")
claim("C71", "proved", "c71_options c71_parameters c71_exact c71_disabled", "c71_exact: exact arithmetic, dimensions up to 2^32.")
claim("C72", "proved", "c72_output c72_lines", "For executions that return.")
claim("C73", "proved", "c73_row c73_aligned c73_reasons c73_reason c73_returns c73_initial c73_runInfo c73_runResults c73_wide c73_printInfo c73_printInitial",
      "c73_wide: a wider number shifts the separators. The standard library's shortest representation of a number and nalgebra's layout of a vector are parameters.")
claim("C74", "proved", "c74_reproducible")
claim("C75", "proved", "c75_parallel")
claim("C76", "proved", "c76_printing")
claim("C77", "proved", "c77_mirror", "With the hypothesis MirroredMedians of C13. What is printed is not compared.")
claim("C78", "proved", "c78_rotation c78_exists c78_law", "In exact arithmetic with exact eigensolvers, which may differ in the two runs. The random vectors of the turned run are those of the first run multiplied by orthogonal matrices that depend only on the state before the call. c78_law: the law of the next generation given the past, without constraints, if the next call returns almost surely.")
claim("C79", "proved", "c79_signs c79_signs_signed", "c79_signs_signed: with both zeros. exp and sqrt are assumed to have the two properties of SaneLibm.")
claim("C80", "proved", "c80_mean c80_sigma c80_covariance c80_zero c80_zero_reported c80_infinite_reported c80_unnoticed c80_mean_signed c80_sigma_signed c80_covariance_signed c80_zero_signed c80_zero_reported_signed c80_infinite_reported_signed", "No assumption on the mathematical library. The theorems named _signed: with both zeros.")
claim("C81", "proved", "c81_run c81_resume c81_interleaved", "c81_interleaved: for runs that return.")
claim("C82", "proved", "c82_stream", "For restarters that return; how the generator turns its state into numbers is not modelled.")
claim("C83", "proved", "c83_rates c83_weights c83_ranges c83_negative", "In binary64, for libraries that meet AccurateLibm; a library that does is constructed.")
claim("C84", "proved", "c84_reported c84_plateau c84_run c84_returns c84_constant c84_infinite", "c84_returns with the assumptions of C26: resampling that ends, constraints that do not panic, counters that do not overflow.")
claim("C85", "proved", "c85_intact c85_returned c85_silenced c85_conservative c85_history c85_best c85_run", "c85_silenced and c85_history for panics of the objective; what a panic of a constraint leaves behind is in c85_intact.")
claim("C86", "proved", "c86_hull c86_feasible c86_bounds", "Exact arithmetic.")
claim("C87", "proved", "c87_variance c87_tolX c87_default c87_variance_any c87_tolX_any", "Exact arithmetic. The first three without negative weights, for every population; the others with any weights and c1 + cmu < 1.")
claim("C88", "proved", "c88_gaussian", "Exact arithmetic, no constraints, c1 + cmu < 1. That the generator's numbers are independent and normal is the hypothesis.")
claim("C89", "proved", "c89_causal", "For calls that return.")
claim("C90", "proved", "c90_neutral", "Exact arithmetic, no constraints, c1 + cmu < 1; in parallel evaluation the order of the calls does not depend on the numbers drawn. For almost all numbers: a vector of zeros has no direction to scale negative weights with.")
claim("C91", "proved", "c91_convex c91_concave", "Exact arithmetic.")
claim("C92", "proved", "c92_downhill", "Exact arithmetic, no constraints, c1 + cmu < 1.")
claim("C93", "proved", "c93_first c93_limited", "c93_limited: with max_resamples.")
claim("C94", "proved", "c94_conditional", "Exact arithmetic, max_resamples not set, c1 + cmu < 1. Positive probability follows if the acceptable points have an interior (gaussian_open).")
claim("C95", "proved", "c95_growth c95_kappa c95_first", "Exact arithmetic, no constraints, c1 + cmu < 1; in parallel evaluation the order of the calls does not depend on the numbers drawn.")
claim("C96", "proved", "c96_room c96_kept c96_bounded c96_calls", "The capacity is that of function_evals, as in the code. Vec is assumed to reallocate only when full and then to a larger capacity.")
claim("C97", "proved", "c97_save c97_order c97_ok", "What the file system and plotters do with a request is not modelled, only whether it fails.")
claim("C98", "proved", "c98_bounds c98_fresh c98_first", "Exact arithmetic, no constraints, c1 + cmu < 1 (not needed in c98_first); in parallel evaluation the order of the calls does not depend on the numbers drawn.")
claim("C99", "proved", "c99_values c99_one_method c99_one_kind c99_agree c99_calls", "Neither method panics; concurrent calls are serialised.")
claim("C100", "proved", "c100_same c100_search c100_panic c100_wrap", "CMAES only; restarts in release builds are C102.")
claim("C101", "proved", "c101_choice c101_answers c101_points c101_returns c101_memoryless", "Questions are taken one at a time: two questions of one round that overlap in time are in some order. Restarters do not set constraints.")
claim("C102", "proved", "c102_same c102_ipop c102_bipop c102_silent c102_bipop_silent", "For Local nothing wraps: c102_same.")
claim("C103", "proved", "c103_builds c103_move", "For search ranges between real numbers. That uniform draws move with the range is a hypothesis on the generator.")
claim("C104", "proved", "c104_first c104_slope c104_neutral", "Exact arithmetic. That the path does not point uphill is needed in later generations; it is zero in the first.")

claim("C105", "proved", "c105_run c105_restart c105_lines",
      "The standard library's shortest representation of a number and nalgebra's layout of a vector are parameters.")
claim("C106", "proved", "c106_reach c106_improve c106_new", "Exact arithmetic, c1 + cmu < 1. That the generator's numbers are independent and normal is the hypothesis.")
claim("C107", "proved", "c107_sigma c107_variance c107_points c107_travel c107_tolXUp c107_condition", "Exact arithmetic. That the random numbers are bounded is the hypothesis; normal numbers are bounded in every finite run.")

claim("C108", "proved", "c108_factory c108_reuse c108_factory_calls c108_reuse_calls c108_conservative c108_reuse_conservative",
  "Constraints that do not panic. The restarter with NaN may also overflow the population size of the run after the one that panicked (checked profile); the statement allows for it. Panics of the closure that makes the objective functions are in C110.")

claim("C109", "proved", "c109_tame", "Exact arithmetic. That the generator's numbers are standard normal is the hypothesis.")

claim("C110", "proved", "c110_maker c110_other",
  "c110_other covers restarters that do not end, or in which the code itself panics.")

path = os.path.join(os.path.dirname(__file__), "..", "MANIFEST.json")
with open(path, "w") as f:
    json.dump({"claims": CLAIMS}, f, indent=1)
    f.write("\n")
