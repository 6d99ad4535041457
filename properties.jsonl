{"id": "C01", "title": "overall_best_individual is the best point ever evaluated", "statement": "After any sequence of operations, overall_best_individual() (and TerminationData::overall_best) is a point that the objective function really was called on, carrying the value the objective returned for that call, and no call made in any completed generation returned a strictly better value under the configured mode; among equally good calls one of the earliest completed generation is kept, the first of them if it was evaluated sequentially.", "quantifier": "every valid option set, objective function (stateful ones included), random stream, clock and every sequence of public operations (next, next_parallel, run, add_plot_point, Plot::clear), continued past termination or not", "why_tests_cant": "A test fixes one function and a handful of generations; the claim ranges over all histories, ties, infinities and both modes.", "anchors": ["src/history.rs: History::update, History::update_best_individuals", "src/sampling.rs: Sampler::sample", "src/lib.rs: CMAES::overall_best_individual, CMAES::get_termination_data"]}
{"id": "C02", "title": "current_best_individual is the best point of the latest generation", "statement": "After a next() that did not report InvalidFunctionValue, current_best_individual() is one of the lambda points evaluated by that call and no other of them is strictly better under the mode.", "quantifier": "every valid option set, objective function (stateful ones included), random stream, clock and every sequence of public operations (next, next_parallel, run, add_plot_point, Plot::clear), continued past termination or not", "why_tests_cant": "Requires a fact about every permutation/tie pattern of a generation, not one sampled generation.", "anchors": ["src/history.rs: History::update_best_individuals", "src/lib.rs: CMAES::current_best_individual"]}
{"id": "C03", "title": "Best individuals are present exactly from the first completed generation on", "statement": "current_best_individual() and overall_best_individual() are None until the first sampling that returned no NaN, and Some forever after; hence TerminationData's fields are Some unless InvalidFunctionValue was reported before any generation completed.", "quantifier": "every valid option set, objective function (stateful ones included), random stream, clock and every sequence of public operations (next, next_parallel, run, add_plot_point, Plot::clear), continued past termination or not", "why_tests_cant": "'Always Some unless ...' is a claim over all histories.", "anchors": ["src/lib.rs: TerminationData, CMAES::get_termination_data", "src/history.rs: History::update"]}
{"id": "C04", "title": "The overall best value never gets worse", "statement": "Across any further operations the value of overall_best_individual() never becomes worse under the mode, and it is never worse than the value of current_best_individual().", "quantifier": "every pair of reachable states where one is later than the other, both modes", "why_tests_cant": "Monotonicity over unbounded histories cannot be enumerated.", "anchors": ["src/history.rs: History::update_best_individuals", "src/mode.rs: Mode::is_better"]}
{"id": "C05", "title": "function_evals() counts objective evaluations", "statement": "function_evals() equals the number of calls made to the objective function. (The code violates this once the objective has returned NaN: calls of the failed generation are not counted. Proved exactly: function_evals() = calls of completed generations; equality holds iff no NaN was ever returned; a concrete violating run is exhibited.)", "quantifier": "every valid option set, objective function (stateful ones included), random stream, clock and every sequence of public operations (next, next_parallel, run, add_plot_point, Plot::clear), continued past termination or not", "why_tests_cant": "Needs every point in time and every position of a NaN.", "anchors": ["src/sampling.rs: Sampler::sample_internal (function_evals)", "src/lib.rs: CMAES::function_evals"]}
{"id": "C06", "title": "Every completed generation costs exactly lambda evaluations", "statement": "function_evals() is lambda times the number of completed samplings, and equals lambda * generation() as long as PosDefCov was never reported; each PosDefCov report adds lambda evaluations without a generation.", "quantifier": "every valid option set, objective function (stateful ones included), random stream, clock and every sequence of public operations (next, next_parallel, run, add_plot_point, Plot::clear), continued past termination or not", "why_tests_cant": "An arithmetic invariant over unbounded histories and all resampling patterns.", "anchors": ["src/sampling.rs: Sampler::sample_internal", "src/state.rs: State::update (generation)"]}
{"id": "C07", "title": "Constraints are respected by every evaluated point", "statement": "With max_resamples = None every point handed to the objective function satisfies the constraints. With max_resamples = Some(m), a point violating them can be evaluated only if fewer than lambda acceptable points were drawn in the first m sampling rounds.", "quantifier": "every constraint predicate, mean/sigma/covariance, random stream, population size and resampling limit", "why_tests_cant": "Depends on arbitrary accept/reject patterns of the random stream.", "anchors": ["src/sampling.rs: Sampler::sample_internal, Bounds::meets_constraints", "src/options.rs: CMAESOptions::constraints, max_resamples"]}
{"id": "C08", "title": "Resampling always delivers exactly lambda points within max_resamples + 1 rounds", "statement": "With max_resamples = Some(m) the resampling loop ends after at most m+1 rounds whatever the constraints reject, the remaining-count subtraction never underflows, and exactly lambda points are produced; without constraints a single round is made.", "quantifier": "every constraint predicate, limit, population size and random stream", "why_tests_cant": "Termination and absence of underflow for every rejection pattern.", "anchors": ["src/sampling.rs: Sampler::sample_internal"]}
{"id": "C09", "title": "Bounds accept exactly the closed box", "statement": "Bounds{lower, upper} accepts a point iff every coordinate lies in [lower[i], upper[i]] (NaN coordinates or bounds never accepted); extra bound entries are ignored; a bound vector that is too short panics exactly when all coordinates before the missing one are inside.", "quantifier": "every point, every lower/upper vectors of any lengths", "why_tests_cant": "All vectors of all lengths, infinities and NaN.", "anchors": ["src/sampling.rs: Bounds::meets_constraints"]}
{"id": "C10", "title": "Sampled generations are returned sorted, complete and stably ordered", "statement": "The generation used for the update is a permutation of the evaluated points, sorted best-first under the mode, ties kept in evaluation order; each point equals mean + sigma * step and carries the objective's value for it.", "quantifier": "every generation, mode, objective and schedule", "why_tests_cant": "All permutations and tie patterns.", "anchors": ["src/sampling.rs: Sampler::sample_internal, EvaluatedPoint::new, to_point", "src/mode.rs: Mode::sort_cmp"]}
{"id": "C11", "title": "A NaN objective value aborts the generation without corrupting the search", "statement": "next() reports [InvalidFunctionValue] iff the objective returned NaN during this call; then mean, sigma, covariance, generation(), function_evals() and both best individuals are unchanged; with next() evaluation stops at the first NaN.", "quantifier": "every reachable state and objective; every position of the NaN in the generation", "why_tests_cant": "The failing call can happen anywhere.", "anchors": ["src/lib.rs: CMAES::next", "src/sampling.rs: EvaluatedPoint::new, Sampler::sample"]}
{"id": "C12", "title": "Parallel evaluation gives the same result as sequential evaluation", "statement": "For an objective without shared mutable state, next_parallel()/run_parallel() produce the same search state, history and termination data as next()/run(), for every thread schedule (any evaluation order, any amount of extra work after a NaN is found).", "quantifier": "every schedule of every generation, every pure objective, every option set", "why_tests_cant": "Schedules cannot be enumerated or forced by tests.", "anchors": ["src/sampling.rs: Sampler::sample_parallel", "src/lib.rs: CMAES::next_parallel, run_parallel"]}
{"id": "C13", "title": "Maximizing f is minimizing -f", "statement": "Running with Mode::Maximize on f and with Mode::Minimize on -f (same seed and options, fun_target negated) visits the same points, has the same mean, sigma, covariance and generation at every step, reports the same termination reasons at the same time, and has mirrored best values.", "quantifier": "every objective, seed, option set and number of steps, in IEEE arithmetic with rounding, with one zero or with zeros of both signs", "why_tests_cant": "A relational property over two infinite families of runs.", "anchors": ["src/mode.rs: Mode", "src/termination.rs: check_termination_criteria", "src/history.rs: History::update"]}
{"id": "C14", "title": "The search depends only on the ranking of objective values", "statement": "Composing the objective with any strictly increasing function leaves every sampled point, the mean, sigma, covariance matrix and generation of every step unchanged.", "quantifier": "every objective, every strictly increasing transformation, every number of steps", "why_tests_cant": "Quantifies over functions.", "anchors": ["src/sampling.rs: Sampler::sample_internal", "src/state.rs: State::update"]}
{"id": "C15", "title": "Printing and plotting do not influence the search", "statement": "Enabling plotting or printing, calling add_plot_point or clearing the plot never changes sampled points, search state, history, termination data or the number of objective calls.", "quantifier": "every option set and every interleaving of plot operations with next()", "why_tests_cant": "A non-interference property over all interleavings.", "anchors": ["src/lib.rs: CMAES::next_internal, add_plot_point, print_info", "src/plotting/mod.rs"]}
{"id": "C16", "title": "Runs are reproducible from the reported seed", "statement": "Building with seed(s) where s is the value parameters().seed() reported by a run built without a seed gives an identical run; parameters().seed() is the configured seed if one was set.", "quantifier": "every option set, random seed, objective and number of steps", "why_tests_cant": "Equality of whole runs.", "anchors": ["src/lib.rs: CMAES::new", "src/parameters/mod.rs: Parameters::seed"]}
{"id": "C17", "title": "Reported termination reasons are non-empty, duplicate-free and in a fixed order", "statement": "Whenever next() returns Some(data), data.reasons is non-empty, contains no duplicates, is ordered by a fixed order, and InvalidFunctionValue and PosDefCov only ever appear alone.", "quantifier": "every valid option set, objective function (stateful ones included), random stream, clock and every sequence of public operations (next, next_parallel, run, add_plot_point, Plot::clear), continued past termination or not", "why_tests_cant": "All combinations of criteria.", "anchors": ["src/lib.rs: CMAES::next_internal", "src/termination.rs: check_termination_criteria"]}
{"id": "C18", "title": "MaxGenerations bounds a run", "statement": "With max_generations = Some(g), run() ends, after at most max(1, g) generations; a run that completed g generations reports MaxGenerations; no run reports it earlier than generation g.", "quantifier": "every option set with max_generations set, every objective and random stream", "why_tests_cant": "Termination for all inputs.", "anchors": ["src/termination.rs: check_termination_criteria", "src/lib.rs: CMAES::run"]}
{"id": "C19", "title": "MaxFunctionEvals bounds a run with overshoot below one generation", "statement": "With max_function_evals = Some(m), run() ends and function_evals() at the end is less than max(m,1) + lambda; the reason is reported by exactly the generations whose cumulative evaluations are >= m.", "quantifier": "every option set with max_function_evals set, every objective and random stream", "why_tests_cant": "Termination and overshoot for all inputs.", "anchors": ["src/termination.rs: check_termination_criteria", "src/lib.rs: CMAES::run"]}
{"id": "C20", "title": "FunTarget is reported exactly when a point beats the target", "statement": "A generation reports FunTarget iff one of its points has a value strictly better than fun_target; so when run() ends with FunTarget the overall best beats the target, and if run() ended for reasons other than FunTarget, InvalidFunctionValue and PosDefCov no point evaluated by it beat it. (The documentation says 'reached'; a value equal to the target does not count. A generation that ends with PosDefCov can contain a point that beats the target: exhibited.)", "quantifier": "every valid option set, objective function (stateful ones included), random stream, clock and every sequence of public operations (next, next_parallel, run, add_plot_point, Plot::clear), continued past termination or not", "why_tests_cant": "Over all values incl. equality and infinities.", "anchors": ["src/termination.rs: check_termination_criteria"]}
{"id": "C21", "title": "MaxTime is reported exactly when the elapsed time reached the limit", "statement": "A generation reports MaxTime iff max_time is set and the time since construction read at its check is >= max_time; if the clock reaches the limit and generations keep completing, run() ends.", "quantifier": "every clock behaviour", "why_tests_cant": "Real clocks cannot be driven through all behaviours.", "anchors": ["src/termination.rs: check_termination_criteria", "src/lib.rs: CMAES::time_created"]}
{"id": "C22", "title": "TolFun* criteria use exactly the last N best values and the current spread", "statement": "TolFunHist/TolFun/TolFunRel can be reported only once at least 10+ceil(30 n/lambda) generations are in the history, and are reported exactly when the max-min spread of the most recent that many best values (and, for TolFun and TolFunRel, of the current generation) is below the tolerance; the spread computation never panics because no NaN can be in the history. With infinite values in the window they are never reported.", "quantifier": "every valid option set, objective function (stateful ones included), random stream, clock and every sequence of public operations (next, next_parallel, run, add_plot_point, Plot::clear), continued past termination or not", "why_tests_cant": "All value sequences incl. infinities; no-panic for every history.", "anchors": ["src/termination.rs: check_termination_criteria", "src/utils.rs: range"]}
{"id": "C23", "title": "tol_stagnation above MAX_HISTORY_LENGTH disables TolStagnation; otherwise it needs 5x that many generations", "statement": "TolStagnation is never reported when tol_stagnation > 20000, never before generation 5*tol_stagnation, and never while generation/5 < 4; when it is reported both the best and the median values of the oldest 30% of the window are strictly better than those of the newest 30%; the window slices never underflow.", "quantifier": "every valid option set, objective function (stateful ones included), random stream, clock and every sequence of public operations (next, next_parallel, run, add_plot_point, Plot::clear), continued past termination or not", "why_tests_cant": "Unbounded generation counts and histories.", "anchors": ["src/termination.rs: get_tol_stagnation_generations, check_termination_criteria"]}
{"id": "C24", "title": "TolX means small standard deviation in every coordinate", "statement": "TolX is reported iff sigma*sqrt(C_ii) (the standard deviation in coordinate i) and |sigma*p_c,i| are below tol_x for every i. (The code compares sigma*C_ii, the variance, so the documented statement is false in both directions: refuted by concrete states; the implemented condition is proved, and the documented one is proved for coordinates with C_ii = 1 / one direction for C_ii <= 1.)", "quantifier": "every state", "why_tests_cant": "All states.", "anchors": ["src/termination.rs: check_termination_criteria (TolX)", "src/termination.rs: TerminationReason::TolX docs"]}
{"id": "C25", "title": "Degenerate distributions are always reported", "statement": "If the eigenvalue ratio is infinite, NaN, zero, subnormal or above tol_condition_cov then TolConditionCov is reported; if adding 0.2*sigma*C_ii to some mean coordinate does not change it NoEffectCoord is reported; if the largest axis length grew by more than tol_x_up relative to the initial step size TolXUp is reported. In exact arithmetic with c1 + cmu < 1 (as for up to 2(n+2)^2 individuals) NoEffectAxis and NoEffectCoord are never reported: they always tell of rounding.", "quantifier": "every state", "why_tests_cant": "All IEEE values.", "anchors": ["src/termination.rs: check_termination_criteria"]}
{"id": "C26", "title": "next() and run() never panic", "statement": "After a successful build, with constraints that do not panic, no operation panics: no index is out of bounds, no unwrap fails, no subtraction underflows, no empty sum or zero modulus occurs - up to 2^30-2 generations, where an i32 exponent overflows (exhibited).", "quantifier": "every valid option set, objective function (stateful ones included), random stream, clock and every sequence of public operations (next, next_parallel, run, add_plot_point, Plot::clear), continued past termination or not", "why_tests_cant": "Absence of panics on all paths.", "anchors": ["src/state.rs: State::update", "src/termination.rs: check_termination_criteria", "src/history.rs: get_median_value", "src/plotting/data.rs: PlotData::clear"]}
{"id": "C27", "title": "Value histories are exactly the most recent generations, newest first, capped at 20000", "statement": "The best/median histories used by the termination criteria contain exactly the best/median values of the most recent min(#completed samplings, 20000) generations, newest first.", "quantifier": "every valid option set, objective function (stateful ones included), random stream, clock and every sequence of public operations (next, next_parallel, run, add_plot_point, Plot::clear), continued past termination or not", "why_tests_cant": "Unbounded histories across the wrap-around.", "anchors": ["src/history.rs: History::update, MAX_HISTORY_LENGTH"]}
{"id": "C28", "title": "The generation median is a true median", "statement": "The median of a generation is the middle value of the sorted values (mean of the two middle ones for even lambda); in exact arithmetic it lies between best and worst. (In IEEE arithmetic the sum can overflow or be inf-inf = NaN: exhibited.)", "quantifier": "every generation", "why_tests_cant": "All values incl. overflow and infinities.", "anchors": ["src/history.rs: get_median_value"]}
{"id": "C29", "title": "First and best median are tracked over the whole run", "statement": "first_median is the median of the first completed generation for ever; best_median is the best of all non-NaN medians seen (NaN only if all were NaN).", "quantifier": "every valid option set, objective function (stateful ones included), random stream, clock and every sequence of public operations (next, next_parallel, run, add_plot_point, Plot::clear), continued past termination or not", "why_tests_cant": "Unbounded histories; NaN medians at any time.", "anchors": ["src/history.rs: History::update"]}
{"id": "C30", "title": "build() accepts exactly the valid options and reports the first violated one", "statement": "CMAESOptions::build succeeds iff dimension > 0, population_size >= 2, initial_step_size is normal and positive and cm is normal and in (0,1]; otherwise it reports the first violated of Dimensions, PopulationSize, InitialStepSize, Cm in that order.", "quantifier": "every option set over all 2^64 doubles", "why_tests_cant": "All doubles incl. subnormals, NaN, infinities.", "anchors": ["src/lib.rs: CMAES::new", "src/options.rs: is_initial_step_size_valid"]}
{"id": "C31", "title": "A freshly built CMAES reflects its options", "statement": "Right after build: generation() = 0, function_evals() = 0, mean() = initial_mean, sigma() = initial_step_size, covariance = identity, eigenvalues = 1, axis_ratio = 1, no best individuals, the objective has not been called, the plot (if enabled) has exactly one point.", "quantifier": "every valid option set", "why_tests_cant": "All option sets.", "anchors": ["src/lib.rs: CMAES::new", "src/state.rs: State::new", "src/matrix.rs: CovarianceMatrix::new"]}
{"id": "C32", "title": "Builder setters are independent, last one wins", "statement": "Each CMAESOptions setter changes only its own option; setting twice keeps the last value; setters of different options commute; default options always pass the population check (default population size >= 4).", "quantifier": "every option set, every pair of setters", "why_tests_cant": "All combinations.", "anchors": ["src/options.rs: CMAESOptions"]}
{"id": "C33", "title": "Recombination weights are positive, decreasing and sum to one", "statement": "For every lambda >= 2 and setting there are mu = floor(lambda/2) >= 1 selected individuals, their weights are positive, non-increasing (strictly, unless Uniform) and sum to 1; Positive/Uniform have no further weights; Negative has lambda weights, the rest non-positive, summing to -min(1+c1/cmu, 1+2 mueff-/(mueff+2), (1-c1-cmu)/(n cmu)) with IEEE division by zero for lambda in {2,3}.", "quantifier": "every lambda >= 2, every dimension, in exact (real) arithmetic with IEEE infinities", "why_tests_cant": "Infinite parameter space; tests check a few lambdas.", "anchors": ["src/parameters/weights.rs: InitialWeights, finalize"]}
{"id": "C34", "title": "Learning rates are always in their valid ranges", "statement": "For every n >= 1, lambda >= 2 and setting: 1 <= mu_eff <= mu, 0 < cc < 1, 0 < c1 < 1, 0 <= cmu <= 1 - c1 (so c1 + cmu <= 1), cmu = 0 iff lambda < 4, 0 < cs < 1, damp_s >= 1 + cs > 1.", "quantifier": "every dimension and population size, exact arithmetic", "why_tests_cant": "Infinite parameter space.", "anchors": ["src/parameters/mod.rs: Parameters::new"]}
{"id": "C35", "title": "The covariance matrix is always symmetric", "statement": "covariance_matrix() is symmetric after every operation, bit for bit, in IEEE arithmetic with rounding, NaN and infinities.", "quantifier": "every valid option set, objective function (stateful ones included), random stream, clock and every sequence of public operations (next, next_parallel, run, add_plot_point, Plot::clear), continued past termination or not", "why_tests_cant": "All rounding behaviours.", "anchors": ["src/matrix.rs: CovarianceMatrix::set_cov"]}
{"id": "C36", "title": "The covariance matrix stays positive definite; PosDefCov is never reported in exact arithmetic", "statement": "In exact arithmetic with an exact eigensolver and c1 + cmu < 1, for all three weight settings, the covariance matrix is positive definite after every generation - also between the lazy eigendecomposition updates, when the negative weights are scaled with an outdated decomposition - and PosDefCov is never reported.", "quantifier": "every dimension, population size with c1+cmu<1, weight setting, objective, number of generations, and all finite random draws (no exactly-zero step for negative weights)", "why_tests_cant": "A matrix inequality over all states and histories.", "anchors": ["src/state.rs: State::update, evals_per_eigen_update", "src/matrix.rs: update_eigendecomposition", "src/parameters/weights.rs: finalize"]}
{"id": "C37", "title": "With Weights::Positive positive definiteness needs no assumption on the steps", "statement": "Documentation: 'Using Weights::Positive should prevent [PosDefCov] entirely'. In exact arithmetic this holds whenever c1 + cmu < 1; for large populations (c1 + cmu = 1) the old matrix is discarded and only positive semi-definiteness holds: a concrete singular update is exhibited.", "quantifier": "every state and every generation of steps", "why_tests_cant": "Quantifies over all steps and parameters.", "anchors": ["src/termination.rs: TerminationReason::PosDefCov docs", "src/state.rs: State::update"]}
{"id": "C38", "title": "The new mean is the weighted recombination of the mu best points", "statement": "In exact arithmetic next() moves the mean to (1-cm)*mean + cm*sum_{i<mu} w_i x_i where x_i are the mu best evaluated points; hence with the old mean and the points inside a convex set (e.g. bounds) the new mean stays inside, and with cm = 1 it is inside the convex hull of the selected points.", "quantifier": "every state, generation and cm in (0,1]", "why_tests_cant": "All states and points.", "anchors": ["src/state.rs: State::update (mean)"]}
{"id": "C39", "title": "The step size stays positive and finite in exact arithmetic", "statement": "sigma() > 0 after every generation and it grows iff the conjugate evolution path is longer than the expected length chi_n. A generation shrinks it by a factor of exp(-cs/damp_s) at most, so the search cannot collapse within a few generations.", "quantifier": "every state", "why_tests_cant": "All states.", "anchors": ["src/state.rs: State::update (sigma)"]}
{"id": "C40", "title": "Search-space translation and scaling invariance", "statement": "In exact arithmetic, shifting the initial mean, the constraints and the objective by t shifts all points and means by t and leaves sigma and the covariance matrix unchanged; scaling mean, step size, tol_x (if set), constraints and objective argument by a > 0 scales all points, means and sigma by a and leaves the covariance unchanged.", "quantifier": "every objective, shift, scale, random stream and number of generations", "why_tests_cant": "A relational property over runs.", "anchors": ["src/state.rs: State::update", "src/sampling.rs: to_point"]}
{"id": "C41", "title": "The eigendecomposition is refreshed on schedule and is consistent", "statement": "In exact arithmetic with c1 + cmu < 1 an eigen update happens exactly once every generations_per_eigen_update() next() calls; the stored decomposition (axis_ratio, eigenvalues, sampling transform, C^(-1/2)) is always the one of the covariance matrix at the last update, B D^2 B^T = C and C^(-1/2) C C^(-1/2) = I. generations_per_eigen_update() is 1 / (2 n (c1 + cmu)) rounded up, and at most ((n + 2)^2 + 2) / (2 n) rounded up whatever the population size.", "quantifier": "every option set and number of generations", "why_tests_cant": "Unbounded histories.", "anchors": ["src/state.rs: State::update, evals_per_eigen_update", "src/matrix.rs: update_eigendecomposition", "src/lib.rs: generations_per_eigen_update"]}
{"id": "C42", "title": "parallel_update only reassociates a sum", "statement": "With parallel_update the rank-mu matrix is, for every way rayon may split the work, equal in exact arithmetic to the sequential one (so results agree up to rounding); with IEEE rounding different splits can differ (exhibited), as documented.", "quantifier": "every split tree and generation", "why_tests_cant": "All schedules.", "anchors": ["src/state.rs: rank_mu_update, rank_mu_update_parallel"]}
{"id": "C43", "title": "All plot series have the same length", "statement": "After any operations all series of an enabled plot (evals, values, sigma, axis ratio, every mean/eigenvalue/scale dimension) have length Plot::len(), and the plot is never empty, so Plot::clear never panics.", "quantifier": "every valid option set, objective function (stateful ones included), random stream, clock and every sequence of public operations (next, next_parallel, run, add_plot_point, Plot::clear), continued past termination or not", "why_tests_cant": "All interleavings.", "anchors": ["src/plotting/data.rs: PlotData", "src/plotting/mod.rs: Plot"]}
{"id": "C44", "title": "At most one plot point per generation, spaced by min_gap_evals", "statement": "add_plot_point is idempotent within a generation; consecutive automatically recorded points are at least min_gap_evals evaluations apart, except the points of generations 0 and 1; recorded function_evals are non-decreasing.", "quantifier": "every valid option set, objective function (stateful ones included), random stream, clock and every sequence of public operations (next, next_parallel, run, add_plot_point, Plot::clear), continued past termination or not", "why_tests_cant": "All interleavings.", "anchors": ["src/plotting/mod.rs: Plot::add_data_point, get_next_data_point_evals", "src/lib.rs: next_internal"]}
{"id": "C45", "title": "Plot::clear keeps exactly the most recent data point", "statement": "After clear() each series holds exactly its latest element and later points are appended as before.", "quantifier": "every valid option set, objective function (stateful ones included), random stream, clock and every sequence of public operations (next, next_parallel, run, add_plot_point, Plot::clear), continued past termination or not", "why_tests_cant": "All plot contents.", "anchors": ["src/plotting/data.rs: PlotData::clear"]}
{"id": "C46", "title": "run() plots and prints the final state", "statement": "After run() the plot contains a point for the final generation and the final info was printed. (After PosDefCov the state has changed but the generation has not: the final mean/sigma are then missing from the plot if the previous generation was plotted - exhibited.)", "quantifier": "every valid option set, objective function (stateful ones included), random stream, clock and every sequence of public operations (next, next_parallel, run, add_plot_point, Plot::clear), continued past termination or not", "why_tests_cant": "All termination paths.", "anchors": ["src/lib.rs: CMAES::run_internal, print_final_info", "src/plotting/mod.rs: Plot::add_data_point"]}
{"id": "C47", "title": "Print schedule", "statement": "With enable_printing(gap) info is printed automatically after each of the first three generations and afterwards only when at least gap evaluations passed since the last scheduled print; the scheduled prints are exactly those. print_final_info prints a row unless the last scheduled print was at the current evaluation count (so for runs ending in an early generation it can repeat a row - exhibited).", "quantifier": "every valid option set, objective function (stateful ones included), random stream, clock and every sequence of public operations (next, next_parallel, run, add_plot_point, Plot::clear), continued past termination or not", "why_tests_cant": "All gaps and generation counts.", "anchors": ["src/lib.rs: next_internal, print_final_info"]}
{"id": "C48", "title": "fmin/fmax return the best point of a complete default run", "statement": "fmin(f, mean, step) panics iff the options are invalid or f returned NaN before the first generation completed (given the run ends); otherwise it returns the best of all evaluated points and its value; fmax(f) is fmin(-f) with the value negated.", "quantifier": "every objective, initial mean and step size", "why_tests_cant": "All inputs.", "anchors": ["src/functions.rs: fmin, fmax, fmin_parallel, fmax_parallel"]}
{"id": "C49", "title": "Scale evaluates the wrapped function at the component-wise product", "statement": "Scale::evaluate(x) calls the wrapped function exactly once at x*scales and returns its value; it panics iff the dimensions differ; optimizing Scale(f, s) visits the same points as optimizing x -> f(x*s). If all scales are the same number a > 0, then in exact arithmetic f is called at the same points, with the same results, as in a search on f itself whose initial mean, step size, tol_x and constraints are multiplied by a.", "quantifier": "every vector, scales, function and run", "why_tests_cant": "All vectors and runs.", "anchors": ["src/objective_function.rs: Scale"]}
{"id": "C50", "title": "RestartResults totals are the sums over runs", "statement": "function_evals is the sum of the runs' function_evals() and runs is the number of runs executed; without NaN, with run_with_reuse it equals the number of objective calls. (With a NaN it undercounts, contradicting the documented assertion - exhibited.)", "quantifier": "every strategy, option set, objective and random stream", "why_tests_cant": "All run sequences.", "anchors": ["src/restart/mod.rs: Restarter::run_internal, RestartResults"]}
{"id": "C51", "title": "RestartResults::best is the best over all runs", "statement": "best is the best overall_best of all runs, earliest among ties, except that the run ending in InvalidFunctionValue is not considered (exhibited: a better value found in that run is lost).", "quantifier": "every strategy, option set, objective and random stream", "why_tests_cant": "All run sequences.", "anchors": ["src/restart/mod.rs: run_internal, update_best_individual"]}
{"id": "C52", "title": "The restart strategies perform a bounded number of runs", "statement": "Local performs at most max_runs runs (none for 0), IPOP at most 10, BIPOP at most 10 IPOP runs and finitely many local runs; if no other criterion stops it the result reason is MaxRuns after exactly that many (IPOP) runs. So every restarter whose runs end ends.", "quantifier": "every option set, objective, random stream", "why_tests_cant": "Termination of a loop with data-dependent length.", "anchors": ["src/restart/local.rs", "src/restart/ipop.rs", "src/restart/bipop.rs", "src/restart/mod.rs: run_internal"]}
{"id": "C53", "title": "IPOP multiplies the population by increase_factor each run", "statement": "Run k (from 0) of IPOP, and the k-th IPOP run of BIPOP, uses population default * factor^k and initial step size range/2 (BIPOP: range/5). Multiplier arithmetic that exceeds 64 bits panics in checked builds.", "quantifier": "every factor, default population and run index", "why_tests_cant": "All factors and counts incl. overflow.", "anchors": ["src/restart/ipop.rs: next_run", "src/restart/bipop.rs: next_run_ipop"]}
{"id": "C54", "title": "BIPOP balances local and IPOP budgets", "statement": "The first run of BIPOP is an IPOP run; a local run is started iff local runs have used fewer evaluations than IPOP runs so far; so before every run local usage minus the last local run is below the IPOP usage.", "quantifier": "every sequence of run costs", "why_tests_cant": "All cost sequences.", "anchors": ["src/restart/bipop.rs: next_run"]}
{"id": "C55", "title": "BIPOP local runs use a population between the default and half the last IPOP population, and at most half its evaluations", "statement": "Local runs use population in [default, max(default, last_ipop/2)] and stop at half of the last IPOP run's evaluations. (The evaluation limit is applied only if max_function_evals_per_run is set - refuted for the default configuration; proved when set.)", "quantifier": "every random draw in [0,1), default population and multiplier", "why_tests_cant": "All draws.", "anchors": ["src/restart/bipop.rs: get_population_size_lr, next_run_lr"]}
{"id": "C56", "title": "The global evaluation limit stops restarts", "statement": "With max_function_evals = Some(m) no run is started once the total reached m; the reason MaxFunctionEvals is reported iff the loop stopped for it; overshoot is less than the last run's evaluations; m = 0 performs no run. A max_time limit likewise is checked before each run only: the last reading of the clock before a run is created shows less than the limit, and MaxTime is reported only if the reading after the last run does not.", "quantifier": "every strategy and run sequence", "why_tests_cant": "All run sequences.", "anchors": ["src/restart/mod.rs: run_internal"]}
{"id": "C57", "title": "Restarter reason reflects the last run", "statement": "InvalidFunctionValue is reported iff the last run ended with it; otherwise FunTarget iff the last run reported FunTarget; these take precedence over MaxRuns; no run follows such a run.", "quantifier": "every strategy and run sequence", "why_tests_cant": "All run sequences.", "anchors": ["src/restart/mod.rs: run_internal"]}
{"id": "C58", "title": "Initial means lie in the search range; flipped ranges are corrected", "statement": "RestartOptions::new orders the range; every run starts from a mean whose coordinates lie in the search range; build fails exactly for zero dimensions or an empty-width range (or inf-inf/NaN widths pass and then panic - exhibited).", "quantifier": "every range of doubles, dimension and seed", "why_tests_cant": "All doubles.", "anchors": ["src/restart/options.rs: RestartOptions::new", "src/restart/mod.rs: Restarter::new, generate_initial_mean"]}
{"id": "C59", "title": "Objective function factory and reuse", "statement": "Restarter::run calls the factory exactly once per run; run_with_reuse uses a single objective value through all runs in order, and the internal take().unwrap() never panics.", "quantifier": "every strategy and run sequence", "why_tests_cant": "All run sequences.", "anchors": ["src/restart/mod.rs: run, run_with_reuse, run_internal"]}
{"id": "C60", "title": "Per-run limits come from RestartOptions", "statement": "In every run mode, seed, initial mean, max_function_evals, max_generations, fun_target and parallel_update are those chosen by the Restarter - whatever default_options contains - and all other options are those of default_options (except step size/population, which the strategy sets).", "quantifier": "every default_options and strategy", "why_tests_cant": "All options.", "anchors": ["src/restart/mod.rs: run_internal", "src/restart/strategy.rs: Strategy::next_run docs"]}
{"id": "C61", "title": "A valid restart configuration never panics on build", "statement": "Local::new/BIPOP::new accept a step size factor only if the runs can be built. (False: a normal but tiny factor underflows in range*factor*1e-2 and build().unwrap() panics - exhibited in IEEE arithmetic; proved: no panic whenever the resulting step size is normal, population >= 2 and no overflow, which is the case for all three strategies if the search range size and its product with the factor are between 2^-1000 and 2^1000.)", "quantifier": "every factor and range of doubles", "why_tests_cant": "All doubles.", "anchors": ["src/restart/local.rs: Local::new, get_initial_step_size", "src/restart/bipop.rs: BIPOP::new (FIXME)"]}
{"id": "C62", "title": "The spread helper returns max - min", "statement": "range(values) is None iff the sequence is empty or has a NaN after its first element, otherwise it is the maximum minus the minimum and is never negative. (Documented None for any NaN: refuted for a NaN in first position; 'always positive' refuted for all-infinite input, which gives NaN.)", "quantifier": "every sequence of doubles", "why_tests_cant": "All sequences.", "anchors": ["src/utils.rs: range"]}
{"id": "C63", "title": "Numbers print correctly and with fixed width", "statement": "format_num(x, w) never panics. The text of a finite x reads as a number in scientific notation with max(w, 8) - 7 decimals that differs from x by at most half a unit of the last decimal, with a minus exactly for negative x; larger numbers never print as smaller ones. It has exactly max(w, 8) characters if the printed exponent has two digits and one more if it has three. NaN and the infinities print as their names, right-aligned.", "quantifier": "every double and width", "why_tests_cant": "All doubles.", "anchors": ["src/utils.rs: format_num"]}
{"id": "C64", "title": "Restart option setters are independent", "statement": "Each setter of RestartOptions sets its own option to the given value and leaves every other option, the strategy, the dimension and the search range unchanged; of two calls of one setter the last wins, and calls of different setters commute.", "quantifier": "every RestartOptions value and every sequence of setter calls", "why_tests_cant": "All options and orders.", "anchors": ["src/restart/options.rs: RestartOptions setters"]}
{"id": "C65", "title": "One generation is the published CMA-ES update", "statement": "In exact arithmetic every next() call that does not report InvalidFunctionValue performs one generation of CMA-ES with active covariance adaptation as published: with the steps of the evaluated points ordered from best to worst, the mean, both evolution paths, the step size and the covariance matrix change by the published equations, and the eigendecomposition in use is kept or recomputed from the new matrix.", "quantifier": "every state, objective, random stream, weight setting and generation, exact arithmetic", "why_tests_cant": "All states and steps; tests compare a few floating point results.", "anchors": ["src/state.rs: State::update", "src/matrix.rs: CovarianceMatrix", "src/lib.rs: CMAES::next"]}
{"id": "C66", "title": "Strategy parameters have their published values", "statement": "In exact arithmetic the weights, the effective selection mass and the learning rates cc, c1, cmu, cs, damp_s are the published functions of the dimension, the population size and the weight setting.", "quantifier": "every dimension and population size, every weight setting", "why_tests_cant": "All dimensions and population sizes.", "anchors": ["src/parameters/mod.rs: Parameters::from_options", "src/parameters/weights.rs"]}
{"id": "C67", "title": "The plot consists of states of the run", "statement": "At any time the eight recorded series have one entry per data point, the evaluation counts increase strictly, and each data point describes one state the run has passed through (evaluation count, best and median value of the last generation, step size, axis ratio, mean, sorted axis lengths, coordinate standard deviations). The best value of a point is NaN exactly if the point was recorded before the first evaluation.", "quantifier": "every run, plot configuration and sequence of calls including clear_plot", "why_tests_cant": "All histories.", "anchors": ["src/plotting/data.rs: PlotData", "src/plotting/mod.rs: Plot", "src/lib.rs: add_plot_point, clear_plot"]}
{"id": "C68", "title": "Saving a plot never panics and draws what was recorded", "statement": "Drawing the plot of any reachable CMAES does not panic. The charts have one curve per dimension through the recorded mean coordinates, principal axis lengths and coordinate standard deviations, and curves through the absolute recorded best and median values, step sizes and axis ratios; NaN entries are left out and nothing else. The first point with the best recorded value is marked, and all other points - and that one, if its value was reached again - appear on the curve of distances to the best value.", "quantifier": "every run, plot configuration and sequence of calls", "why_tests_cant": "All histories; tests draw a few.", "anchors": ["src/plotting/draw.rs", "src/plotting/mod.rs: build_plot, save_to_file"]}
{"id": "C69", "title": "The axes of the plot contain what is drawn", "statement": "Up to 2^53 evaluations all drawn points are within the range of the horizontal axis. In exact arithmetic all drawn values are strictly within the range of the vertical axis; logarithmic axes exceed the smallest and largest drawn value by a factor 10^0.4 and the linear axis by 15% of the spread. (False for the mean if all its recorded coordinates are the same negative number: then the axis is upside down.)", "quantifier": "every run, plot configuration and sequence of calls", "why_tests_cant": "All histories.", "anchors": ["src/plotting/draw.rs: get_log_y_axis, get_linear_y_axis, configure_area"]}
{"id": "C70", "title": "Every point is drawn with its own random numbers", "statement": "All points a run evaluates are mean + step size * transform * z for the mean, step size and covariance factor at the start of the generation, where z consists of dimension-many consecutive draws of the normal distribution from the generator seeded with parameters().seed. The draws are used front to back: no draw is used for two points, in one generation or in different generations, and without constraints no draw is skipped.", "quantifier": "every objective, configuration, schedule and sequence of calls", "why_tests_cant": "Holds along whole histories of any length.", "anchors": ["src/sampling.rs: Sampler::sample, Sampler::sample_parallel", "src/lib.rs: next, next_parallel"]}
{"id": "C71", "title": "Options default to their documented values and are reported by parameters()", "statement": "After any sequence of builder calls every option has the value given to it last or its documented default, and at any time parameters() reports exactly these values, with tol_x = 1e-12 * initial_step_size, tol_stagnation = 100 + ceil(100 n^1.5 / lambda) and the random seed where they were not set. A tolerance of zero switches TolFun, TolFunHist, TolFunRel or TolX off for the whole run.", "quantifier": "every sequence of builder calls, dimension, population size and run", "why_tests_cant": "All configurations and histories.", "anchors": ["src/options.rs: CMAESOptions", "src/parameters/mod.rs: Parameters, TerminationParameters", "src/termination.rs: get_default_tol_stagnation_option"]}
{"id": "C72", "title": "A restarter prints its settings, two lines per run, and its results", "statement": "With printing enabled, a Restarter prints a line with its settings first and one with its results last. In between there is a block for each run, in order and numbered from one: a line with the population size, the initial step size and the seed the run was configured with, and afterwards a line with its best value, its termination reasons and its evaluations. Everything else in a block is the run's own output, which is there only if the default options enable printing. Without any printing enabled nothing is written.", "quantifier": "every restart strategy, configuration, objective and number of runs", "why_tests_cant": "All histories of any number of runs.", "anchors": ["src/restart/mod.rs: run_internal, print_initial_info, print_run_info, print_run_results, RestartResults::print_results"]}
{"id": "C73", "title": "The printed table is readable and lines up", "statement": "Formatting never panics. Every printed row consists of seven cells that show the generation, the evaluations, the best value, the axis ratio, the step size and the two standard deviations, rounded to the printed decimals. print_info and print_initial_info add such a row and the heading to what was printed before; the row shows what generation(), function_evals(), current_best_individual(), axis_ratio(), sigma() and covariance_matrix() return at that moment. If the counts have at most seven digits and the numbers' exponents two, the separators are exactly below those of the heading. The printed list of termination reasons determines the list.", "quantifier": "every row that can be printed", "why_tests_cant": "All numbers.", "anchors": ["src/lib.rs: print_initial_info, print_info, print_final_info", "src/restart/mod.rs: print_run_info, print_run_results"]}
{"id": "C74", "title": "Restarts are reproducible from the reported seed", "statement": "Building a restarter with the seed reported by another one and the same options, and running it on the same machine at another time, under other thread schedules and with other entropy, gives the same results, the same runs (options, objective calls, returned data, final optimizer) and the same output, or the same panic. The clock matters only if a time limit is set, the schedule only for parallel evaluation, the split of sums only with parallel_update.", "quantifier": "every restart configuration, source of objective functions, schedule, clock and number of runs", "why_tests_cant": "Equality of whole histories of runs under all schedules and clocks.", "anchors": ["src/restart/mod.rs: Restarter::from_options, seed, run_internal", "src/lib.rs: CMAES::new"]}
{"id": "C75", "title": "Parallel evaluation does not change what a restarter does", "statement": "For objective functions without state, run and run_parallel (and the reuse variants) of a restarter give the same results, runs and output under every schedule; if no value is NaN, the points evaluated in every run are the same, equally often.", "quantifier": "every restart configuration, stateless objective, schedule and number of runs", "why_tests_cant": "All schedules of all runs.", "anchors": ["src/restart/mod.rs: run, run_parallel, run_reuse, run_parallel_reuse, run_internal"]}
{"id": "C76", "title": "Printing does not influence a restarter", "statement": "A restarter with enable_printing has the same results and runs, and panics in the same cases, as one without.", "quantifier": "every restart configuration, source of objective functions and number of runs", "why_tests_cant": "A non-interference property over all histories.", "anchors": ["src/restart/mod.rs: run_internal, print_initial_info, print_run_info, print_run_results"]}
{"id": "C77", "title": "A restarter that maximizes f does what one that minimizes -f does", "statement": "With Mode::Maximize on objective functions f and with Mode::Minimize on -f (same seed and options, fun_target negated) a restarter makes the same runs on the same points, gives the same results with the best value negated, and panics in the same cases.", "quantifier": "every restart configuration, source of objective functions and number of runs, in IEEE arithmetic with rounding", "why_tests_cant": "A relational property over two infinite families of histories.", "anchors": ["src/restart/mod.rs: run_internal, update_best_individual", "src/mode.rs: Mode"]}
{"id": "C78", "title": "Turning the search space turns the search", "statement": "In exact arithmetic, if objective function, initial mean and constraints are turned by an orthogonal matrix, then up to a turn of each random vector that is fixed before the vector is drawn the run is the turned run: the objective is called on the turned points in the same order, the same reasons are returned except for TolX and NoEffectCoord, which look at single coordinates, and mean, best individuals and covariance matrix are turned while step size, axis ratio and counters are equal. If the generator's numbers are independent and standard normal and there are no constraints, then for every run there is a corresponding run on the turned problem such that, given these, what is seen of the next generation (points, values, mean, step size, covariance matrix and reasons other than those two) has the same probability distribution in both up to turning.", "quantifier": "every orthogonal matrix, objective, options, history of next calls, exact eigensolver and sequence of random numbers", "why_tests_cant": "Relates two unbounded families of histories; the eigenvectors in use are different in the two runs.", "anchors": ["src/state.rs: State::update", "src/matrix.rs: CovarianceMatrix::set_cov", "src/sampling.rs: Sampler::sample", "src/lib.rs: CMAES::next"]}
{"id": "C79", "title": "Signs survive rounding", "statement": "In binary64 arithmetic, including overflow and underflow, sigma() is never negative, eigenvalues() are positive and axis_ratio() is at least one, at every moment of every history; each of them may be NaN instead.", "quantifier": "every history of next calls and other calls, objective, options, random numbers and eigendecomposition, in IEEE arithmetic, for exp without negative values and a square root that is at least 2^-537 for positive numbers", "why_tests_cant": "All rounding errors along histories of any length.", "anchors": ["src/state.rs: State::update, axis_ratio", "src/matrix.rs: CovarianceMatrix::set_cov", "src/lib.rs: CMAES::sigma, eigenvalues, axis_ratio"]}
{"id": "C80", "title": "A search that has lost its numbers does not find them again", "statement": "In binary64 arithmetic: if a coordinate of the mean is NaN, it stays NaN and every point evaluated later is NaN there; if sigma() is NaN, it stays NaN, every point evaluated later is NaN in all coordinates and after the next completed generation so is the mean; a NaN entry of the covariance matrix stays NaN. The same holds with 'NaN or infinite' for 'NaN'. If sigma() is zero, it is zero or NaN from then on, and in each coordinate the mean and all points evaluated later are the mean of that moment or NaN. A checked generation that ends with an infinite sigma() reports TolXUp, unless an eigenvalue is NaN or the tolerance is not a finite number. So a user who sees one of these has to start again.", "quantifier": "every state and every continuation of it by any calls, in IEEE arithmetic", "why_tests_cant": "All continuations of any length.", "anchors": ["src/state.rs: State::update", "src/sampling.rs: to_point", "src/lib.rs: CMAES::next"]}
{"id": "C81", "title": "run() is a loop over next() and can take over from it", "statement": "run() returns x exactly if a number of next() calls return None and the next one returns Some(x), and leaves the CMAES as those calls do except for the final plot point and lines. Hence after any number of next() calls that returned None run() has exactly the outcome it would have had instead of them: result, state, plot, output, panic or divergence. With plot and print calls in between, result and search state are the same. Likewise for the parallel variants.", "quantifier": "every state, number of calls and interleaving with plot and print calls", "why_tests_cant": "All histories and numbers of iterations.", "anchors": ["src/lib.rs: CMAES::run, run_parallel, next, next_parallel, run_internal"]}
{"id": "C82", "title": "The random decisions of a restarter are one stream of draws", "statement": "A restarter draws all its random decisions from one generator that build() seeds with the given seed: for every run, in order, the coordinates of the initial mean one after the other, each uniformly from the search range, then the seed of the run, then for a local run of BIPOP one number for the step size and one for the population size. No draw is used twice and none is skipped.", "quantifier": "every generator, restart configuration, strategy, source of objective functions and number of runs", "why_tests_cant": "An invariant of the generator's state over all runs.", "anchors": ["src/restart/mod.rs: run_internal, generate_initial_mean", "src/restart/bipop.rs: BIPOP::next_run", "src/restart/strategy.rs: RestartStrategy::next_run"]}
{"id": "C83", "title": "The strategy parameters are accurate despite rounding", "statement": "The learning rates, the effective selection mass and the parents' weights that a CMAES works with are finite binary64 numbers that agree with the published formulas up to a relative error of lambda / 2^38, in spite of all rounding on the way. The weights sum to one up to that error. The negative weights agree with the published ones up to a relative error of lambda / 2^35 as long as lambda <= (n + 2)^2 / 2. The ranges that the algorithm needs (mu_eff >= 1, cc, c1 and cs strictly between 0 and 1, 0 <= cmu <= 1, damp_s >= 1) hold exactly.", "quantifier": "every dimension up to 2^53, population size up to 2^20, setting of the weights, and library whose logarithm and square root have relative errors of at most 2^-51 and 2^-52", "why_tests_cant": "A bound on the accumulated rounding errors for every population size and dimension.", "anchors": ["src/parameters/weights.rs: InitialWeights", "src/parameters/mod.rs: Parameters::new"]}
{"id": "C84", "title": "A run on a plateau ends by itself", "statement": "If the objective values of the last 10 + ceil(30 n / lambda) generations all lie between two numbers that differ by less than tol_fun_hist, the newest of these generations reports TolFunHist (and TolFun if they differ by less than tol_fun). So if the objective only takes such values, run() returns from every reachable state without any limit having been set, after at most max(1, 10 + ceil(30 n / lambda) - generation()) calls of next(), and it reports TolFunHist if it has got that far. A plateau at infinity is different: if the objective always returns the same infinity, none of TolFun, TolFunHist, TolFunRel and TolStagnation is ever reported.", "quantifier": "every objective with values in such an interval, options without or with limits, reachable state, random numbers and eigendecomposition, as long as the number of generations looked at is at most the 20000 the history keeps", "why_tests_cant": "Termination over all runs with an objective that may behave arbitrarily within the interval.", "anchors": ["src/termination.rs: check_termination_criteria", "src/history.rs: History", "src/lib.rs: CMAES::run, next"]}
{"id": "C85", "title": "A caught panic of user code leaves the search intact", "statement": "If the objective function or a constraint panics during next() or next_parallel() and the caller catches the panic, the CMAES can be used on: distribution, counters, best individuals, plot and output are exactly as before the call; only random numbers have been consumed and the objective has seen some calls. next() panics whenever a call of the objective it makes does, in parallel also if another point had a NaN value. Afterwards the search goes on exactly as if the objective had returned NaN where it panicked and InvalidFunctionValue had been returned, so values seen in the failed call never become the best individual. A panic in run() loses no completed generation.", "quantifier": "every state, objective that may panic depending on its history, set of panicking points of the constraints, schedule and later use", "why_tests_cant": "All crash points in all histories.", "anchors": ["src/sampling.rs: Sampler::sample, sample_parallel, sample_internal", "src/lib.rs: CMAES::next, next_parallel, run"]}
{"id": "C86", "title": "The mean stays where the points are", "statement": "In exact arithmetic mean() always lies in every convex set that contains the initial mean and the points evaluated so far in completed generations. So if the constraints describe a convex set (Bounds do), max_resamples is not set and the initial mean meets the constraints, mean() meets them after every sequence of calls and can be used as a feasible solution.", "quantifier": "every convex constraint, objective, real random numbers and sequence of API calls", "why_tests_cant": "Holds for all histories; rests on the signs and the sum of the weights.", "anchors": ["src/state.rs: State::update", "src/sampling.rs: Sampler::sample_internal, Bounds", "src/lib.rs: CMAES::mean"]}
{"id": "C87", "title": "The search cannot collapse early", "statement": "In exact arithmetic and without negative weights a generation shrinks the variance in every direction by a factor of 1 - c1 - cmu at most, and the step size by exp(-cs/damp_s) at most. With negative weights the variance shrinks between two eigendecompositions by a positive factor at most that depends on the strategy parameters only (c1 + cmu < 1). So TolX cannot be reported in generation g as long as, without negative weights, tol_x <= sigma_0 (exp(-cs/damp_s) (1 - c1 - cmu))^g; with the default tol_x a user knows how many generations a run has at least before it.", "quantifier": "every objective, constraint, real random numbers and sequence of API calls", "why_tests_cant": "Holds for all histories of any length.", "anchors": ["src/state.rs: State::update", "src/termination.rs: check_termination_criteria", "src/lib.rs: CMAES::covariance_matrix"]}
{"id": "C88", "title": "The points are drawn from the distribution that the API reports", "statement": "If the generator's numbers are independent and standard normal, then the population_size points of the next call of next() are independent and normally distributed with mean mean() and covariance sigma()^2 C, given everything that happened so far. C is the covariance matrix after the last generation whose number is a multiple of generations_per_eigen_update(), so it is covariance_matrix() itself in those generations.", "quantifier": "every history without constraints in exact arithmetic, with c1 + cmu < 1, objective, sequential and parallel evaluation", "why_tests_cant": "A statement about a probability distribution, conditional on every possible past.", "anchors": ["src/sampling.rs: Sampler::sample_internal", "src/matrix.rs: CovarianceMatrix", "src/lib.rs: CMAES::mean, sigma, covariance_matrix"]}
{"id": "C89", "title": "A search depends only on the random numbers it has drawn", "statement": "Two searches with the same options, objective and calls, whose generators give the same first N numbers, where N is the number of numbers drawn so far, have made the same calls of the objective, returned the same results and are in the same state. Without constraints N is the dimension times population_size times the number of next() calls. So no point, termination or statistic can depend on numbers that were not used yet.", "quantifier": "every history, pair of generators, objective, constraint and kind of evaluation", "why_tests_cant": "All histories and all pairs of generators.", "anchors": ["src/sampling.rs: Sampler", "src/lib.rs: CMAES::next, next_parallel, build"]}
{"id": "C90", "title": "Without selection the mean does not drift", "statement": "If the objective ignores the points it is called on (its values may change from call to call, but not with the point; never NaN), and the generator's numbers are independent and standard normal, then after the next generation, evaluated sequentially or in parallel (in an order of the calls that does not depend on the numbers), mean() is normally distributed around its present value, with covariance (cm^2 sigma()^2 / mu_eff) C, where C is the covariance matrix the points are drawn with. In particular its expected value is its present value, for all three settings of the weights and both modes.", "quantifier": "every history without constraints in exact arithmetic, with c1 + cmu < 1, every objective that ignores its argument", "why_tests_cant": "A statement about a probability distribution, conditional on every possible past.", "anchors": ["src/sampling.rs: Sampler::sample_internal", "src/state.rs: State::update", "src/parameters: Weights, mu_eff", "src/lib.rs: CMAES::mean"]}
{"id": "C91", "title": "On a convex objective the mean does better than the generation it comes from", "statement": "Minimizing a convex function f, after every completed generation f(mean()) is at most (1 - cm) f(previous mean) + cm times the average of the generation's values, and less unless all these values are equal. (With the default cm = 1: the new mean is better than the generation was on average.) The same for maximizing a concave function, with the inequalities reversed.", "quantifier": "every history in exact arithmetic, convex (concave) objective, constraints, random numbers, weights, sequential and parallel evaluation", "why_tests_cant": "All convex functions and all histories.", "anchors": ["src/state.rs: State::update", "src/parameters/weights.rs: Weights", "src/sampling.rs: Sampler::sample_internal", "src/lib.rs: CMAES::mean"]}
{"id": "C92", "title": "On a slope the search moves downhill on average", "statement": "If the objective is a linear function that is not constant and the generator's numbers are independent and standard normal, then the expected value of the objective at mean() after the next generation is less than its value at the present mean() (greater if the objective is maximized), given everything that happened so far.", "quantifier": "every history without constraints in exact arithmetic, with c1 + cmu < 1, linear objective that is not constant, weights, mode, sequential and parallel evaluation", "why_tests_cant": "A statement about an expected value, conditional on every possible past.", "anchors": ["src/state.rs: State::update", "src/sampling.rs: Sampler::sample_internal", "src/parameters/weights.rs: Weights", "src/lib.rs: CMAES::mean"]}
{"id": "C93", "title": "A generation consists of the first acceptable candidates", "statement": "With constraints and without max_resamples, let candidate j of a generation be the point made of the j-th random vector after those of the generations before. A next() call that returns evaluates the first population_size candidates that meet the constraints, in this order (in any order if parallel), and no others; it asks the constraints about each candidate up to the last accepted one, and draws no random number after it. So what is evaluated does not depend on how the candidates are grouped into rounds. With max_resamples = Some(m) the first K candidates are shown to the constraints, K being what m rounds need that have as many candidates each as points are missing; the generation consists of the acceptable ones of these and, if they are too few, of as many of the candidates right after them as are missing, which the constraints are not asked about.", "quantifier": "every history, constraint, random stream, objective, sequential and parallel evaluation, binary64 included", "why_tests_cant": "Needs every pattern of accepted and rejected candidates over any number of rounds.", "anchors": ["src/sampling.rs: Sampler::sample_internal"]}
{"id": "C94", "title": "With constraints the points follow the conditional normal distribution", "statement": "With constraints and without max_resamples, if the generator's numbers are independent and standard normal and the acceptable points have positive probability, then, given everything that happened so far and given that K candidates are enough, the points of the next generation are independent, each distributed like N(mean(), sigma()^2 C) given that the constraints are met; C is the covariance matrix as of the last eigen update. The probability that K candidates are enough goes to one as K grows.", "quantifier": "every history in exact arithmetic with c1 + cmu < 1, every measurable set of acceptable points, every K", "why_tests_cant": "A statement about a probability distribution, conditional on every possible past.", "anchors": ["src/sampling.rs: Sampler::sample_internal", "src/lib.rs: CMAES::mean, sigma, covariance_matrix"]}
{"id": "C95", "title": "Without selection the step size corrects itself", "statement": "If the objective ignores the point it is called on, there are no constraints and the generator's numbers are independent and standard normal, then, given everything that happened so far, in a generation after one that took the step size from s0 to s the logarithm of the step size grows on average by at most max(ln(s/s0), k) and by at least (1 - cs) ln(s/s0) - cs^2/damp, with k = cs/damp (sqrt(n)/chi - 1), chi = sqrt(n) (1 - 1/(4n) + 1/(21n^2)) and 0 < k < cs/(3 n damp); if ln(s/s0) > k the average growth is strictly less than ln(s/s0). In the first generation it is at most cs/damp (sqrt(cs (2 - cs)) sqrt(n)/chi - 1).", "quantifier": "every history in exact arithmetic with c1 + cmu < 1 and either kind of evaluation (if parallel, in an order of the calls that does not depend on the numbers), every objective that ignores the point", "why_tests_cant": "A statement about an expected value, conditional on every possible past.", "anchors": ["src/state.rs: State::update", "src/lib.rs: CMAES::sigma", "src/parameters/mod.rs: Parameters::cs, damp_s"]}
{"id": "C96", "title": "Clearing the plot bounds its memory", "statement": "The data points of a plot never exceed capacity(). capacity() never shrinks, and clear() leaves it unchanged. A user who makes at most k calls of next, next_parallel or add_plot_point between two calls of clear() on the plot never has more than k + 1 data points in it, and however long the run takes capacity() never exceeds that of a plot with k + 1 data points that was never cleared.", "quantifier": "every sequence of calls, every allocation strategy of Vec that grows when full", "why_tests_cant": "A bound on memory over runs of any length.", "anchors": ["src/plotting/mod.rs: Plot::capacity, Plot::clear, Plot::add_data_point", "src/plotting/data.rs: PlotData::capacity, PlotData::clear"]}
{"id": "C97", "title": "Saving the plot reports the first failure", "statement": "save_to_file on the plot of a CMAES returns, in whatever state it is called. It creates the directory that contains the path if and only if create_dirs is set (and the path has a parent), before anything else; then it hands the four charts to the drawing library and lets the image be written. It stops at the first of these steps that fails and returns its error, as IoError if directories could not be created and as DrawingError otherwise. It returns Ok if and only if every step was done and succeeded.", "quantifier": "every history, every path, every way in which the file system and the drawing library fail", "why_tests_cant": "Failures of the file system and of the drawing library at every step.", "anchors": ["src/plotting/mod.rs: Plot::save_to_file, Plot::build_plot, PlotError"]}
{"id": "C98", "title": "Without selection the covariance matrix keeps its shape on average", "statement": "If the objective ignores the point it is called on, there are no constraints and the generator's numbers are independent and standard normal, then, given everything that happened so far, the expected covariance matrix after the next generation is in every direction x at least (1 - c1 - cmu W) x'Cx + cmu W x'C1x, where C is the covariance matrix, C1 the one the points are drawn with and W the sum of the weights, negative ones included; if C has just been decomposed (C1 = C) this is (1 - c1) x'Cx. It exceeds this bound by at most c1 (2 (1 - cc)^2 (x'p)^2 + cc (2 - cc) (x'Cx + x'C1x)), where p is the evolution path. After the first generation the expected covariance matrix is a multiple of the identity with a factor between 1 - c1 and 1 - c1 (1 - cc)^2, so that no direction is preferred.", "quantifier": "every history in exact arithmetic with c1 + cmu < 1 and either kind of evaluation (if parallel, in an order of the calls that does not depend on the numbers), every objective that ignores the point, every direction", "why_tests_cant": "A statement about the expected value of a matrix, conditional on every possible past.", "anchors": ["src/state.rs: State::update", "src/lib.rs: CMAES::covariance_matrix", "src/parameters/mod.rs: Parameters::c1, cmu, cc, weights"]}
{"id": "C99", "title": "Types whose evaluate and evaluate_parallel differ", "statement": "For a type whose evaluate and evaluate_parallel compute different things and may share state: next and run obtain every value from evaluate, next_parallel and run_parallel every value from evaluate_parallel, each call after exactly the calls of both methods made before it. The search is then the same as for some objective with a single method, including the outcome of the next call (result, panic or no end), so that all other properties hold for such types too. A search driven only by next and run is a search with evaluate alone whatever evaluate_parallel does, and conversely.", "quantifier": "every pair of methods (each an arbitrary function of all earlier calls of both and the point), every sequence of API calls mixing sequential and parallel ones, every schedule", "why_tests_cant": "A test fixes two methods and one interleaving of sequential and parallel generations.", "anchors": ["src/objective_function.rs: ObjectiveFunction::evaluate, ParallelObjectiveFunction::evaluate_parallel", "src/sampling.rs: Sampler::sample, Sampler::sample_parallel", "src/lib.rs: CMAES::next, CMAES::next_parallel, CMAES::run, CMAES::run_parallel"]}
{"id": "C100", "title": "Release builds", "statement": "A build without overflow checks behaves exactly like one with them (results, outcomes, plot data and printed output) as long as the latter does not panic because of an overflow. Whatever the plot and print gaps, its search is that without plot and printing, so a gap never makes it panic; it panics only if a constraint does, or infinite values make a median NaN, or after 2^30 - 1 generations. With a plot gap within a population of the largest integer, the plot of a release build has a point for every generation instead of hardly any.", "quantifier": "every sequence of API calls, every plot and print setting, every objective, constraint, random sequence and schedule", "why_tests_cant": "Tests run in one profile; the difference only shows for settings near the integer limits or after 2^30 generations.", "anchors": ["src/plotting/mod.rs: Plot::get_next_data_point_evals", "src/lib.rs: CMAES::next, CMAES::add_plot_point", "src/state.rs: State::update"]}
{"id": "C101", "title": "Constraints with memory", "statement": "A constraint may count or remember its questions and answer differently each time, and with parallel_update it may be asked about the candidates of a round in any order. Whatever it answers, it only chooses among the drawn candidates: every sequence of calls does exactly what it would do without constraint for the random numbers of the chosen candidates. The objective is called only on points that the constraint accepted when asked in that generation, each used once, and, only if max_resamples is set, on points drawn without asking; together they are population_size points. max_resamples = Some(m) allows at most m * population_size questions per generation, and with it next returns whatever the answers are. For constraints without memory the order of the questions makes no difference at all.", "quantifier": "every constraint whose answer is an arbitrary function of all its earlier questions and answers, every order of the questions, every sequence of API calls, every objective, random sequence and schedule", "why_tests_cant": "A test fixes one stateful constraint and sees one order of the questions; the claim is about all of them and all interleavings of questions and rounds.", "anchors": ["src/sampling.rs: Constraints, Sampler::sample_internal", "src/lib.rs: CMAES::next, CMAES::next_parallel"]}
{"id": "C102", "title": "Restarts in release builds", "statement": "A restarter in a build without overflow checks does exactly what it does in a build with them (results, runs, printed output) as long as the latter does not panic because of an overflow. With IPOP, whatever the increase factor, its run number k (from zero) uses the default population size times factor^k modulo 2^64 and half the search range as step size; it makes a run only if that is at least two points, makes at most ten runs, and exactly ten if it reports MaxRuns. With BIPOP the same holds for the runs that are not local (a fifth of the search range as step size), a run is local exactly when it is not the first and the local runs so far used fewer evaluations than the others, and a local run uses the documented random population and step size for factor^(j-1) modulo 2^64, where j is the number of runs so far that are not local. The populations need not increase: with the factor 2^63 + 1, which is accepted, all ten runs use the default population.", "quantifier": "every strategy, every increase factor, every objective source, random sequence and schedule, with and without reuse", "why_tests_cant": "The profiles differ only for factors near the integer limits; a test fixes one factor and one profile.", "anchors": ["src/restart/ipop.rs: IPOP::new, IPOP::next_run", "src/restart/bipop.rs: BIPOP::next_run_ipop", "src/restart/mod.rs: Restarter::run_internal"]}
{"id": "C103", "title": "Moving and scaling the search range moves the whole sequence of restarts", "statement": "In exact arithmetic, if the search range of a restarter is moved and scaled by x -> a*x + t with a > 0 (tol_x, if given, scaled and constraints moved), the objective functions are moved too and uniform draws move with the range, then the restarter builds in the same cases and has the same outcome: the same panic, or the same results with a moved best point after the same number of runs, each of which is the moved run: moved initial mean, scaled initial step size, the same population size and limits, moved points with equal values in the same order, moved mean and scaled sigma at the end.", "quantifier": "every strategy, search range, a > 0, t, source of objective functions, constraints, random sequence, schedule and eigensolver, with and without reuse", "why_tests_cant": "Relates two unbounded families of histories; needs exact arithmetic, which a test does not have.", "anchors": ["src/restart/mod.rs: run_internal, generate_initial_mean", "src/restart/local.rs: Local::next_run", "src/restart/ipop.rs: IPOP::next_run", "src/restart/bipop.rs: BIPOP::next_run_lr, BIPOP::next_run_ipop"]}
{"id": "C104", "title": "On a slope the step size grows faster than without selection", "statement": "If the generator's numbers are independent and standard normal and there are no constraints, compare two searches with the same options: the objective of one is a strictly increasing function of a linear function that is not constant, that of the other ignores the points. In the first generation of at least three points the logarithm of sigma() grows by strictly more on average on the slope, whether it is minimized or maximized. The same holds in every later generation, given everything that happened so far, if the evolution path of the step size does not point uphill: the average growth is greater than cs/damp (L/chi - 1), which is what it is without selection for the same path p, L being the expected length of a normal vector with mean (1 - cs) p and covariance cs (2 - cs) times the identity.", "quantifier": "every history in exact arithmetic with c1 + cmu < 1, every linear function that is not constant and every strictly increasing function of it, both modes, every kind of weights", "why_tests_cant": "A statement about an expected value, conditional on every possible past.", "anchors": ["src/state.rs: State::update", "src/sampling.rs: Sampler::sample", "src/lib.rs: CMAES::sigma"]}
{"id": "C105", "title": "The printed results are the returned results", "statement": "With printing enabled, the text printed by run() ends with lines that state exactly what it returns: the termination reasons, the best values of the last generation and overall (no such lines if there are none) and the final mean. A restarter's text starts with a line that states the strategy, the dimension, the search range in order, the parameters of the strategy and the seed, and ends with lines that state the total evaluations, the reason and the best value and point it returns. If only the restarter prints, there are exactly two lines per run in between, numbered from one, which state how the run was configured and what it returned.", "quantifier": "every option set, objective, random sequence, clock and history before run(); every restart strategy and configuration", "why_tests_cant": "the text follows from the whole execution; a test compares one output", "anchors": ["src/lib.rs: CMAES::print_final_info, CMAES::run_internal", "src/restart/mod.rs: Restarter::print_initial_info, print_run_info, print_run_results, RestartResults::print_results"]}
{"id": "C106", "title": "No part of the space is out of reach", "statement": "If the generator's numbers are independent and standard normal, then at every point of a run, whatever happened so far: for every nonempty open set of points that the constraints accept (of any points, if there are no constraints), all points of the next generation lie in it with positive probability; if the objective is continuous and some point of such a set is better than overall_best_individual(), the next call returns with a better overall_best_individual() with positive probability; and almost surely the points of the next generation are distinct and none of them was evaluated before.", "quantifier": "every history in exact arithmetic with c1 + cmu < 1, every nonempty open set, all constraints, with or without max_resamples, every continuous objective, both modes, every kind of weights", "why_tests_cant": "A statement about probabilities, conditional on every possible past; a rank-deficient or clipped sampling distribution passes every test on samples.", "anchors": ["src/sampling.rs: Sampler::sample", "src/state.rs: State::update", "src/lib.rs: CMAES::overall_best_individual"]}
{"id": "C107", "title": "The search cannot explode early", "statement": "If no random number exceeds b >= 1 in magnitude, then for every objective and all constraints: a generation multiplies sigma() by at most exp(cs/damp_s (b sqrt(n) sqrt((2 - cs) mu_eff / cs) / chi - 1)) and the variance in every direction and every eigenvalue, from their initial value 1, by at most 1 - cmu + cmu W + (c1 (2 - cc) mu_eff / cc + cmu) n b^2, where W is the sum of the magnitudes of the negative weights; the points of a generation and the new mean lie within sigma b sqrt(n) times the root of the latter factor to the power g of the mean; the mean can only have travelled the sum of these distances; and TolXUp is not reported in generation g while tol_x_up is at least the g-th power of the product of the first factor and the root of the second. Together with C87 this bounds axis_ratio(), so that TolConditionCov is not reported early either if c1 + cmu < 1.", "quantifier": "every history in exact arithmetic with bounded random numbers, every objective and constraints, all weights and population sizes (also those with c1 + cmu = 1), any number of generations", "why_tests_cant": "A bound on every run, however the objective ranks the points; a test follows single runs, and a missing damping or normalisation only shows after many generations on particular objectives.", "anchors": ["src/state.rs: State::update", "src/termination.rs: check_termination_criteria", "src/lib.rs: CMAES::sigma, CMAES::covariance_matrix, CMAES::eigenvalues, CMAES::mean"]}
{"id": "C108", "title": "A restarter whose objective panics stops where NaN would stop it", "statement": "If an objective function panics inside Restarter::run, run_parallel or their reuse variants, the panic is not swallowed and no further run is started: up to that point the restarter has made the same calls, run by run, and printed the beginning of the same output as with objective functions that return NaN instead of panicking, where it ends with InvalidFunctionValue. If none of the calls panics, it returns the same results after the same calls and output. It panics with the user's panic only if a call of the current objective function panicked, and returns only if no call did.", "quantifier": "every restarter, strategy, options whose constraints do not panic, objective functions that depend on their earlier calls and on the earlier runs, any pattern of panics, sequential and parallel evaluation under every schedule", "why_tests_cant": "The panic may come in any call of any run; a test injects it at a few points, and swallowing it in one code path would show only there.", "anchors": ["src/restart/mod.rs: Restarter::run, Restarter::run_with_reuse, Restarter::run_parallel, Restarter::run_parallel_with_reuse, Restarter::run_internal", "src/sampling.rs: Sampler::sample_internal"]}
{"id": "C109", "title": "With normal random numbers the search is unlikely to explode early", "statement": "Let the generator's numbers be standard normal; they need not be independent. For every b >= 1, the probability that within g calls of next(), mixed with other calls in any way, a search leaves the bounds of C107 for the magnitude b, on sigma(), eigenvalues(), the distance of mean() from the initial mean and when TolXUp may be reported, is at most 2 N exp(-b^2/2). N is the number of numbers that g calls can draw: population_size * g * dimension without constraints, max_resamples + 1 times as many with max_resamples.", "quantifier": "every objective, all constraints if max_resamples is set, all options with a real initial mean, every g and b, every joint law of the numbers with standard normal marginals, exact arithmetic", "why_tests_cant": "A bound on a probability over all runs and an infinite sample space; sampling estimates it for single objectives.", "anchors": ["src/sampling.rs: Sampler::sample_internal", "src/state.rs: State::update", "src/termination.rs: check_termination_criteria", "src/lib.rs: CMAES::sigma, CMAES::eigenvalues, CMAES::mean"]}
{"id": "C110", "title": "A panic of the closure that makes objective functions stops the restarter between runs", "statement": "If the closure given to Restarter::run or run_parallel panics when it is asked for the objective function of run k + 1, the panic is not swallowed, and it comes exactly there: the objective functions have seen exactly the calls of the first k runs that they see with a closure that does not panic, and the output is the beginning of the same output, up to the results of run k (or the heading, for k = 0) if the restarter prints. If the closure panics at none of the calls that are reached, nothing changes, whether the restarter returns or an objective function panics. The closure is asked once per run and not before the run is due.", "quantifier": "every restarter, strategy and options, objective functions and closures that depend on the earlier runs, any pattern of panics of the closure and of the objective functions, sequential and parallel evaluation under every schedule", "why_tests_cant": "The closure may panic at any of its calls; a test injects a panic at a few of them, and an extra or early call of the closure would not show.", "anchors": ["src/restart/mod.rs: Restarter::run, Restarter::run_parallel, Restarter::run_internal, print_run_results"]}
