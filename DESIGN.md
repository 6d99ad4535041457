# Formal model of pengowen123/cmaes in Lean 4

The crate under study is `/repo` (Rust, CMA-ES optimiser). This directory holds a
Lean 4 model of its code (`lean/Verif/Model`), a small set of specifications
(`lean/Verif/Spec`), and the theorems (`lean/Verif/Props`; helper lemmas are in
`lean/Verif/Lemmas`). `properties.jsonl` lists the properties (C01 ...), `MANIFEST.json` maps
them to theorem names. `seeded/LOG.jsonl` records what happened to the theorems when the model
was edited the way a bug would change the program. `tools/` generates the two JSON files.

How to read a theorem: its statement uses the model's public functions (`CMAES.next`,
`Options.build`, `c.functionEvals`, ...), the execution vocabulary of `Spec/Trace.lean`
(`History.Of env obj o t c`: "`c` can be reached from a `CMAES` built with options `o` for the
objective `obj`, and `t` lists the `next` calls made on the way, with the objective calls each of
them made") and otherwise only definitions from `Spec/`.

## 1. Trusted base

* Lean 4.33.0's kernel. Theorems depend only on `propext`, `Classical.choice`, `Quot.sound`.
  No `sorry`, no own axioms, no `native_decide`, no `bv_decide`. Concrete runs are evaluated by
  the kernel (`decide +kernel`).
* The reading of the Rust code by the model: every definition in `Verif/Model` cites the
  file and lines it models, and names its simplifications.
* The Rust language and library semantics that are modelled rather than proved (section 3).
  The libraries (nalgebra, statrs, rand, rayon, plotters) are not in the sandbox, so what the
  model says about them is their documented behaviour:
  - nalgebra: vector and matrix operations are the mathematical ones entry by entry. Sums over
    coordinates are folded from the first coordinate on; theorems in binary64 do not depend on
    that order unless they say so.
  - statrs: `median` sorts and averages the two middle elements. What it does with NaN data is an
    arbitrary function `medianNaN` that may panic.
  - rand: `gen_range` is an arbitrary function; theorems that need its contract state it
    (`UniformOk`). It panics for empty and non-finite ranges.
  - `slice::sort_by` is a stable merge sort, `f64::{min,max,abs,powi,clamp}` as documented.
  - Rust's `{:e}`/`{:.k}` float formatting prints the exact value rounded half to even.

## 2. Numbers

The model is written once, over an abstract type `F` with the operations of `f64`
(`Flt F`, `Verif/Float/Flt.lean`). Three instances are provided:

* `F64` - IEEE-754 binary64: NaN, the two infinities, and exactly the rationals
  representable in binary64. `+ - * /` are the exact rational operation followed by
  round-to-nearest-even with overflow to infinity and gradual underflow; comparisons,
  `as usize`, `as f64`, `floor`, `ceil`, `is_normal`, decimal literals are exact.
  Simplifications: the two zeros are identified (x/0 is treated as x/+0), and there is a
  single NaN. `sqrt exp ln powf log10` are arbitrary functions (`Libm`) - theorems hold for every choice.
* `XR` - exact arithmetic: NaN, infinities and real numbers without rounding, and with the
  true `sqrt exp log rpow`. It keeps IEEE's behaviour of division by zero, inf-inf, etc.
  Theorems about `XR` are statements about the algorithm in exact arithmetic; they say
  nothing about rounding errors. Each such theorem says so in its documentation.

* `S64` - `F64` with `-0` as a value of its own and IEEE's rules for the sign of zero results
  (`Verif/Float/Signed.lean`). One NaN; `sqrt exp ln powf` arbitrary.

Most theorems are proved for every `F` satisfying the law class `FltLaws`, which does not assume
that there is only one zero; `F64`, `XR` and `S64` are proved to be instances. So these theorems hold
for IEEE binary64 with signed zeros, and identifying the zeros costs nothing there. Only
`c14_ranking` assumes the class `OneZero`, which `S64` does not satisfy; `c14_order` is the form of
C14 for `FltLaws`. In the mirrored runs of C13, C48 and C77 all values, points and results are exactly
negated, but medians may differ in the sign of a zero (`-(1 + -1)` is `-0`, `-1 + 1` is `0`), which the
proofs show to be without consequence. Theorems stated
for `F64` or `XR` inherit their single zero.

## 3. What is modelled, what is not

Modelled, function by function:

| file | model | not modelled |
|------|-------|--------------|
| `mode.rs`, `utils.rs` | `Model/Mode`, `Model/Basic`, `Model/FormatNum` | |
| `history.rs` | `Model/History` | |
| `sampling.rs` | `Model/Sampling`, `Model/Unwind` (panics of user code), `Model/Memory` (constraints with memory) | |
| `matrix.rs` | `Model/State` (`setCov`, eigenvalue checks); the eigensolver is arbitrary, so this covers the LAPACK features, which only choose another one | |
| `state.rs` | `Model/State` | |
| `parameters/*` | `Model/Parameters` | |
| `options.rs` | `Model/Options` | |
| `termination.rs` | `Model/Termination`, `Model/PrintText` (`Display`) | |
| `lib.rs` | `Model/Cmaes`, `Model/PrintText` | |
| `functions.rs`, `objective_function.rs` | `Model/Functions`, `Model/TwoMethods` (types whose `evaluate` and `evaluate_parallel` differ) | |
| `plotting/data.rs`, `mod.rs`, `options.rs` | `Model/Plot`, `Model/PlotMemory` (`capacity`), `Model/SavePlot` (`save_to_file`) | what dropping an unfinished image does |
| `plotting/draw.rs`, `plotting/utils.rs` | `Model/Draw`: charts, curves, axis ranges, legends and labels handed to plotters | rendering, colours, fonts, tick labels |
| `restart/*` | `Model/Restart`, `Model/PrintText`, `Model/RestartUnwind` and `Model/RestartMaker` (panics of user code) | |

Environment, as parameters over which all theorems quantify:

* the random number generators (an abstract state with draw functions; no distribution is assumed except in C78 (`c78_law`), C88, C90, C92, C94, C95, C98, C104, C106 and C109)
  and the seed taken when none is set,
* the clock (the k-th reading is an arbitrary number of nanoseconds),
* the objective function: an arbitrary function of the history of its earlier calls and the
  point (this is the most general deterministic `FnMut`); all calls with their values are logged in
  order. Concurrent calls are serialised in the order given by the schedule,
* the eigensolver (`nalgebra::SymmetricEigen`): an arbitrary partial function (`none` stands for a
  failure the code handles); theorems that need it to be correct state `ExactEigen` as hypothesis.
  A panic or non-termination inside the eigensolver is not modelled,
* the file system and the drawing library, in C97: whether a request succeeds is an arbitrary function
  of the requests before it,
* the text of a number under `{}` and `{:e}` and of a vector under `{}` (`Display`),
* the thread schedule of parallel evaluation (a permutation of the points), and the split tree of
  rayon's `reduce`.

Hypotheses about the environment that theorems in exact arithmetic may state: `ExactEigen` (an
orthogonal eigendecomposition is returned), `RealDraws` (the normal draws are real numbers),
`NonzeroDraws` (no draw vector is zero, which negative weights need). In binary64: for C55 an accuracy bound on
`powf`, for C79 and C80 signs of the results of the mathematical library (`SaneLibm`), for C83
accuracy bounds on its logarithm and square root (`AccurateLibm`).

Panics of user code: a panic of a constraint is an outcome of the model; a panic of the objective,
and the state that either leaves behind for a caller who catches it, are in `Model/Unwind` (C85)
and, inside a restarter, `Model/RestartUnwind` (C108) and `Model/RestartMaker` (C110) only. All other theorems are about objectives that do not panic.

Constraints with interior mutable state are in `Model/Memory` (C101) only; elsewhere a constraint gives
the same answer about a point each time.

Not modelled: memory allocation, and non-termination inside the objective function. `usize` values are
natural numbers except where an overflow is reachable by configuration (multipliers of IPOP/BIPOP,
plot and print thresholds, the `i32` exponent); there overflow is a panic (Rust's checked profile; `Model/Release` and `Model/RestartRelease`
have the wrapping versions for release builds).
The sum of `last_eigen_update_evals` and `evals_per_eigen` is taken not to overflow: the latter is
about lambda (n + 1.3)^2 / n at most, and vectors of these lengths fit in memory.
The drawing model uses a stable sort for eigenvalues that may be NaN; format widths beyond `u16`
are not modelled.

A Rust panic is the explicit outcome `Outcome.panic`; non-termination of the unbounded
resampling/run/restart loops is `Outcome.diverge` (fuel exhausted).

## 4. Plan per property

"generic" means for every lawful `F` (hence IEEE binary64 with rounding),
"F64" binary64 only, "exact" means `XR`.

| id | modelled by | proof |
|----|-------------|-------|
| C01-C04 | `Cmaes`, `History`, `Sampler`, objective log | generic; invariant over operation sequences |
| C05-C06 | `Sampler.functionEvals` vs. objective log | generic; invariant; concrete run refuting the full claim after NaN |
| C07-C08 | `resample` loop with fuel | generic; induction on rounds |
| C09 | `Bounds.meets` | generic; induction on coordinates |
| C10 | `samplePoints`, merge sort | generic; permutation + pairwise order + stability |
| C11 | `next` | generic; case analysis |
| C12 | `evalParallel` with arbitrary schedule | generic; schedule independence, then bisimulation of runs |
| C13 | whole `Cmaes` | generic with negation laws; bisimulation |
| C14 | whole `Cmaes` | generic; bisimulation on search states |
| C15-C16 | whole `Cmaes` | generic; projection / equality of runs |
| C17-C25 | `checkTermination` | generic + F64 literals; decision-logic equivalences, run induction |
| C26 | all `Outcome`s | generic; invariant => no panic; run of 2^30 calls that does panic |
| C27-C29 | `History` | generic; induction |
| C30-C32 | `Options`, `build` | generic / F64 |
| C33-C34 | `Weights`, `Parameters` | exact; real analysis |
| C35 | `setCov` | generic |
| C36-C37 | `State.update` | exact; Loewner-order induction on the number of generations since the last eigen update |
| C38-C39 | `State.update` | exact |
| C40 | whole `Cmaes` | exact; bisimulation between the problem and the moved and scaled one |
| C41 | eigen schedule | exact; invariant relating the decomposition to the covariance matrix at the last update; the period from the two roundings |
| C42 | reduction trees | exact; induction on trees; F64 counterexample |
| C43-C47 | `Plot`, print events | generic; invariants |
| C48-C49 | `fmin`..., `Scale` | generic; equal scales: exact, by C40 |
| C50-C61 | `Restarter`, strategies | generic / F64; loop invariants |
| C62-C63 | `range`, `formatNum` | generic; C63 F64: digits against the exact value |
| C64 | `RestartOptions` setters | generic |
| C65 | `next` | exact; one generation equals the textbook update written over real matrices |
| C66 | `Parameters` | exact; equality with the published formulas |
| C67 | `Plot` | generic; invariant relating data points to passed states |
| C68 | `Draw` | generic; totality of the drawing function over reachable plots |
| C69 | `Draw` axes | horizontal generic, vertical exact; F64/exact counterexample for the mean |
| C70 | `Sampler` | generic; position in the random stream as invariant |
| C71 | `Options`, `Parameters` | generic; induction on builder calls; the closed formulas exact |
| C72 | `Restart`, print events | generic; invariant of the restart loop |
| C73 | `PrintText`, `print_info`, `print_initial_info` | F64; a reader's specification of cells, numbers and separators |
| C74-C77 | `Restart` | generic; one comparison of two restarters (`Lemmas/RestartSim`) used four times |
| C78 | `next` | exact; simulation of two runs whose states correspond by an orthogonal matrix; laws: standard normal vectors may be turned, by an equivalence of measurable spaces |
| C79 | `next`, `axis_ratio` | binary64, with one zero or with two; induction on the history: sigma is multiplied by values of `exp`, eigenvalues that are not positive are rejected, rounding is monotone |
| C80 | `next` | binary64, with one zero or with two; the set of NaN (of non-finite numbers) cannot be left by sums and products; infinity divided by a finite number exceeds every finite tolerance |
| C81 | `run`, `next` | any arithmetic; induction on the number of passes |
| C82 | `generate_initial_mean`, `next_run`, `run_internal` | any arithmetic; invariant of the generator over the runs |
| C83 | `InitialWeights`, `Parameters::new` in binary64 | relative error analysis: every quantity is within a power of `1 + 2^-52` of its exact value |
| C84 | `TerminationCheck::check`, `History`, `CMAES::run` | C22 and C27, monotonicity of rounded subtraction; the bound on the calls of `run` as for C18 |
| C85 | `Model/Unwind`: `Sampler::sample*`, `CMAES::next*`, `run*` with the state that unwinding leaves behind | simulation of an objective that panics by one that returns NaN; induction over executions with caught panics |
| C86 | as for C38 and C07, exact arithmetic | induction over executions with C38 (convex combinations) and C07 |
| C87 | as for C36 and C39, exact arithmetic | induction over executions: without negative weights each generation keeps `(1 - c1 - cmu) C` below the new matrix; with any weights the invariant of C36 bounds the loss between two eigendecompositions; with `c39_lower` and C24 |
| C88 | exact arithmetic; the generator is a position in a sequence of real numbers (`Spec/Gaussian.lean`), measures from Mathlib | the points are an affine map of the numbers drawn (C70), the past does not depend on them (C89), and the image of the product of standard normal measures under that map is computed from mean and covariance (C41) |
| C89 | as for C70, two generators that agree on a prefix (`Spec/Causal.lean`) | the state of the generator is used by the resampling loop only; induction over executions |
| C90 | as for C88, an objective that ignores the point (`Obj.IgnoresPoint`) | the `j`-th drawn point is evaluated by a call with a fixed number (`callPos`: `j` itself, or its place in the schedule), so the ranking is a fixed permutation and the new mean is a weighted sum of independent normal vectors; its law from characteristic functions, its variance from the definition of mu_eff |
| C91 | as for C38 | Jensen's inequality for the recombination (C38) and Chebyshev's sum inequality for decreasing weights and values in increasing order |
| C92 | as for C88, a linear objective | the value at the new mean is the smallest weighted sum over all orders of the points (rearrangement inequality), so it is a continuous function of the numbers drawn; it is at most the average (C91), whose expectation is the present value; strictness since the normal law charges every open set |
| C93 | `resample` | generic; induction on the rounds: each draws as many vectors as are missing, so the last one drawn is accepted; with `max_resamples` against a recursive count of the questions (`questions`) |
| C94 | as for C88, with constraints | C93 and the law of the first hits among independent values (`Lemmas/Rejection`, by induction on their number) |
| C95 | as for C90 | the conjugate path is `N((1 - cs) p, cs (2 - cs) 1)`, because `C^(-1/2)` turns steps into standard normal vectors; the bounds on the expected length are Jensen's inequality both ways |
| C96 | `Model/PlotMemory`: a plot with the capacity of its vector, for every allocation strategy that grows when full | the capacity is that of a vector that once held as many elements as the plot ever did; the plot of a `CMAES` is followed through every API call |
| C97 | `Model/SavePlot`: the requests `save_to_file` makes to the file system and to plotters, each of which may fail | the requests made are followed one by one; no panic by C68 |
| C98 | as for C90 | second moments of a standard normal vector times a function of its length, from the symmetry under sign changes and exchanges of coordinates (`Lemmas/Moments`); negative weights are scaled by `n/‖z‖²`, so that their terms have the same expected value; the stalled update of the path is bounded pointwise, and in the first generation depends on the length of a standard normal vector only |
| C99 | `Model/TwoMethods`: a `CMAES` with a log that also has the method of each call | `next` depends on the objective only through the values it returned for the calls made (`Lemmas/TwoMethods`), so a single function that looks up the method of each call by its number leads to the same execution |
| C100 | `Model/Release`: the functions with a checked operation, with wrapping integers instead | the checked computation is related to the wrapping one unless it panics with an overflow (`CheckedRel`), and a release build with plot and printing to one without, by simulation through every call; for the gap, an invariant over the generations |
| C101 | `Model/Memory`: sampling with a constraint that answers from the record of its questions, asked in any order | the drawn numbers of the chosen candidates are a list; a generator that replays it leads the search without constraint through the same states (`Lemmas/Memory`), so C26 and the other theorems apply; for constraints without memory, the accepted candidates do not depend on the order |
| C102 | `Model/RestartRelease`: the restarter with wrapping multiplications and the runs of `Model/Release` | `CheckedRel` through the loop of the restarter; for IPOP and BIPOP an invariant over the runs (multiplier = factor^k mod 2^64) |
| C103 | the restarter over exact arithmetic `XR`; `Spec/RestartMove`: moved restart options, sources and runs | simulation of two restarters (`Lemmas/RestartSim`) on top of C40 (`FullMove`); the step sizes of the strategies are homogeneous in the size of the range |
| C104 | the search over `XR` with independent standard normal draws (setting of C88); `expectedLen`: the expected length of a normal vector | the ranked steps are almost surely the drawn vectors sorted by their component in the direction of the slope; averaging over the isometries that reflect the mean component and the deviations from it, exchange the components and exchange what is perpendicular to them, together with convexity of the length along a line, compares the two integrals (`Lemmas/Slope`); strict by continuity at a point where they differ |
| C105 | `PrintText` applied to the output of `run` and of a restarter (C46, C72) | the text of the last printed item, with the data that `run` returned (C01); per run two lines by induction over the runs. `Spec/PrintedResults` says which lines are expected |
| C106 | as for C88, with any constraints | if all candidates of the first round are acceptable there is only one round; the candidates are an invertible affine map of the numbers drawn, so the numbers for which they lie in an open set form a nonempty open set, which the normal law charges; points better than a value form an open set if the objective is continuous; a single value of a coordinate has probability zero |
| C107 | as for C36, with bounded random numbers and any constraints | invariant over the history: the conjugate path has bounded length, as an accepted step is `B z` in the coordinates of the search distribution and the positive weights sum to 1; the quadratic forms of the covariance matrix and of the matrix decomposed last, and the path in every direction, are bounded together, since negative weights only lower the form; `TolXUp` by C25 |
| C108 | the functions of `restart/mod.rs` with a predicate that says which calls panic (`Model/RestartUnwind`) | simulation of the restarter whose objective functions return NaN, run by run from C85 and over the loop by induction; the calls of `run` that panicked by induction over its generations |
| C109 | as for C107, with the stream of numbers of C88 | C107 for the stream whose later numbers are replaced (C89); union bound over the numbers that can have been drawn (C93) and the tail of the normal distribution |
| C110 | the functions of `restart/mod.rs` with a predicate that says at which calls the closure panics (`Model/RestartMaker`) | induction over the loop with the restarter of C108 beside it: no stored function, runs recorded and printed; output is only appended |

Where the code does not do what its documentation says, the negation is proved with a
concrete witness, the strongest true statement is proved under a `_partial` name, and the
finding is listed in section 5.

## 5. Findings

Places where the code does not do what its documentation or its user would expect. Where a theorem
exhibits it, it is named.

1. `function_evals()` does not count the calls of a generation that met a NaN (`c05_violated`,
   `c50_undercount`).
2. `fun_target` is only reported when a value is strictly better; a value equal to the target is
   not enough (`c20_equal_does_not_count`). A generation that ends with `PosDefCov` hides a target
   reached in it (`c20_posDefCov_hides_target`).
3. `TolX` and `NoEffectCoord` use the variance where the standard deviation is meant
   (`c24_spurious`, `c24_missed`).
4. `utils::range` ignores a leading NaN and gives NaN for equal infinities (`c62_first_nan`,
   `c62_infinite`).
5. The median overflows to infinity for large finite values, and can be NaN (`c28_overflow`,
   `c28_nan`).
6. `2 * (generation as i32 + 1)` overflows at generation 2^30 - 1 (`c26_overflow`,
   `c26_overflow_reached`).
7. A generation ending with `PosDefCov` leaves mean, step size and covariance changed but not the
   generation counter, and its final plot point is missing (`c46_posDefCov_missing`).
8. `print_final_info` repeats a row that was already printed within the first three generations
   (`c47_repeats`).
9. BIPOP's local runs have no evaluation limit if `max_function_evals_per_run` is not set
   (`c55_no_limit`).
10. The restarter drops the best individual of a run that ended with `InvalidFunctionValue`
    (`c51_lost`).
11. Tiny step-size factors make the restarter panic in `build().unwrap()` (`c61_tiny_factor`).
12. The population multiplier of IPOP overflows after enough runs (`c61_overflow`).
13. A `search_range` of infinite width or with NaN passes `build` and panics in `gen_range`
    (`c61_infinite_range`).
14. `max_function_evals`, `max_generations` and `fun_target` of the options handed to the restarter
    are always overwritten (`c60_options`).
15. With `Weights::Positive` and c1 + cmu = 1 the covariance is only positive semidefinite and
    `PosDefCov` is possible (`c37_singular`).
16. `min_gap_evals` near `usize::MAX` overflows after the first generation (hypothesis of C26);
    in release builds it wraps around and every generation is plotted (`c100_wrap`). Likewise an
    increase factor of IPOP near `usize::MAX`: a panic with overflow checks (`c61_overflow`), wrong
    population sizes without (`c102_silent`, `c102_bipop_silent`).
17. `get_linear_y_axis` turns the axis upside down if all values are equal and negative
    (`c69_flipped`, `c69_violated`).
18. For populations of 2 and 3, cmu is 0 and finalizing the weights divides by zero (+inf, which
    `min` then discards).
19. An odd population size has a zero weight in the middle.
20. `Bounds` with too few entries panic (`c09_panics_iff`); additional entries are ignored
    (`c09_extra_ignored`).
21. Medians of NaN data may make statrs panic inside `TolStagnation` (hypothesis of C26).
22. For 10 + ceil(30 n / lambda) > 20000 the `TolFun*` windows never fill (`c22_window`).
23. A zero step with a negative weight makes the covariance NaN (hence `NonzeroDraws`).
24. `format_num` exceeds its width by one for three-digit exponents (`c63_width`).
25. The linear axis of the mean chart does not filter NaN values.
26. The documentation example of `Scale` uses vectors of different dimensions.
27. The restarter always prints the name of the active variant (`LR-aCMA-ES` and so on), whatever the
    weights setting of the runs is (`c72_output`).
28. With printing enabled for the runs too, the heading of a run is printed before the restarter's line
    that announces the run (`c72_output`).
29. Rows with numbers of three-digit exponents or counts of eight digits are not aligned with the heading
    (`c73_wide`).
30. Neither `build()` nor any termination criterion notices a NaN in the mean as long as the objective
    function does not return NaN (`c80_unnoticed`).
31. An objective that returns the same infinity everywhere is not recognised as a plateau: no criterion
    on function values ever ends the run (`c84_infinite`).
