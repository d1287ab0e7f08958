{"id": "C01", "title": "Recommendation is the best told point", "statement": "For a single-objective deterministic optimizer with no constraint and default recommendation, after any sequence of tell(candidate, loss) calls with losses of magnitude at most 1e10, recommend() returns a candidate whose point was told with the smallest loss ever told, even when points are told several times or pruned from the archive. Outside the 1e10 range the clipping of repeated evaluations breaks this.", "quantifier": "every history of tells (any candidates, repeated or not, any losses), any pruning activity", "why_tests_cant": "A test fixes a few loss sequences; the claim ranges over all interleavings of repeated points, ties and prunings.", "anchors": ["nevergrad/optimization/base.py:Optimizer.tell", "nevergrad/optimization/base.py:Optimizer._update_archive_and_bests", "nevergrad/optimization/base.py:Optimizer.recommend", "nevergrad/optimization/utils.py:MultiValue"]}
{"id": "C02", "title": "Tracked bests are minimal over the archive", "statement": "After any sequence of tells, each of the four tracked bests (optimistic, pessimistic, average, minimum) has an estimation no greater than that of every point still in the archive.", "quantifier": "every history of tells, every one of the four criteria, any pruning function that returns a sub-archive", "why_tests_cant": "The update is incremental with a special reboot case when the best itself is re-evaluated; only an invariant covers all orders.", "anchors": ["nevergrad/optimization/base.py:Optimizer._update_archive_and_bests", "nevergrad/optimization/utils.py:MultiValue.get_estimation"]}
{"id": "C03", "title": "Archive size stays bounded", "statement": "With the default pruning, after every tell the archive has at most max_len points, pruning keeps at most 3*min_len points, never introduces a point, and a point that is removed is, for each of the three criteria, not among the min_len strictly best.", "quantifier": "every archive content, every number of workers and every dimension", "why_tests_cant": "Depends on quantile index arithmetic for every archive length and on ties between estimations.", "anchors": ["nevergrad/optimization/utils.py:Pruning", "nevergrad/optimization/base.py:Optimizer._update_archive_and_bests"]}
{"id": "C04", "title": "Repeated evaluations are summarised correctly", "statement": "After any sequence of evaluations of the same point (within +-1e10), the stored count is the number of evaluations, the mean is their arithmetic mean, the minimum is their smallest value, the variance is non-negative, and the optimistic bound <= mean <= pessimistic bound.", "quantifier": "every non-empty finite sequence of evaluations", "why_tests_cant": "Running formulas accumulate; tests compare a handful of sequences.", "anchors": ["nevergrad/optimization/utils.py:MultiValue"]}
{"id": "C05", "title": "Ask/tell counters are exact", "statement": "After any sequence of ask, suggest and tell, num_tell counts the successful tells, num_tell_not_asked counts those whose candidate was not awaiting an evaluation, and the number of non-suggested asks equals answered asks plus candidates still awaiting one; a candidate awaits an evaluation at most once.", "quantifier": "every history of ask/suggest/tell including duplicate tells and tells of foreign candidates", "why_tests_cant": "Counters are affected by duplicates, suggestions and foreign candidates in any order.", "anchors": ["nevergrad/optimization/base.py:Optimizer.ask", "nevergrad/optimization/base.py:Optimizer.tell", "nevergrad/optimization/base.py:Optimizer.suggest"]}
{"id": "C06", "title": "Nonsensical losses never enter the optimizer", "statement": "Any scalar loss passed to tell that is NaN, plus infinity or at least 5e20 is recorded as 5e20, any other scalar is recorded unchanged, so all recorded scalar losses are below or equal to 5e20 and not NaN. The one-element list form must behave as the scalar form (it does not: it bypasses the clipping).", "quantifier": "every extended-real loss value in scalar or list form", "why_tests_cant": "NaN/inf comparisons have non-classical semantics; each comparison branch matters for all values.", "anchors": ["nevergrad/optimization/base.py:Optimizer.tell"]}
{"id": "C07", "title": "minimize spends exactly its budget", "statement": "When minimize returns normally (no early stopping, no time limit) on an optimizer with num_ask <= budget, exactly budget candidates have been asked in total, every asked candidate has been told exactly once with the result of its own job, and nothing is left running.", "quantifier": "every budget, every number of workers, batch or steady mode, every schedule in which jobs complete", "why_tests_cant": "Job completion order is a nondeterministic schedule; tests run one executor.", "anchors": ["nevergrad/optimization/base.py:Optimizer.minimize"]}
{"id": "C08", "title": "minimize never exceeds num_workers running jobs", "statement": "At every point of a minimize run the number of submitted but not finished jobs is at most num_workers, and in batch mode new jobs are launched only when no job is running.", "quantifier": "every budget, worker count and completion schedule", "why_tests_cant": "Concurrency bound over every schedule.", "anchors": ["nevergrad/optimization/base.py:Optimizer.minimize"]}
{"id": "C09", "title": "minimize makes progress and terminates", "statement": "If num_workers >= 1 and num_ask <= budget at the start and every job eventually completes, minimize terminates. If the budget was already exceeded at the start (num_ask > budget) the loop never ends without a time limit.", "quantifier": "every completion schedule in which each running job is done within a bounded number of polls", "why_tests_cant": "Termination under all fair schedules cannot be observed by running.", "anchors": ["nevergrad/optimization/base.py:Optimizer.minimize"]}
{"id": "C10", "title": "Interrupted minimize can be resumed without losing evaluations", "statement": "If minimize is interrupted between any two of its atomic steps and called again until completion, every asked candidate whose job was registered is told at least once, at most one candidate per interruption is told twice or lost (asked but never registered), and the final number of asks equals the budget.", "quantifier": "every crash point, any number of interruptions, every completion schedule", "why_tests_cant": "Crash points are unbounded; tests simulate one.", "anchors": ["nevergrad/optimization/base.py:Optimizer.minimize"]}
{"id": "C11", "title": "Early stopping stops asking but collects running jobs", "statement": "Once an ask callback raises the early-stopping exception, minimize never asks again, and all jobs submitted before are still told before it returns.", "quantifier": "every point in the run at which the stop is raised, every completion schedule", "why_tests_cant": "Stop can occur at any ask with any number of running jobs.", "anchors": ["nevergrad/optimization/base.py:Optimizer.minimize", "nevergrad/optimization/callbacks.py:EarlyStopping"]}
{"id": "C12", "title": "Suggestions are served last-in first-out", "statement": "Suggested points are returned by the following asks in last-in first-out order before any optimizer-generated candidate (absent constraints), each exactly once, and telling one counts as a tell of a non-asked candidate.", "quantifier": "every interleaving of suggest and ask", "why_tests_cant": "All interleavings of pushes and pops.", "anchors": ["nevergrad/optimization/base.py:Optimizer.suggest", "nevergrad/optimization/base.py:Optimizer.ask"]}
{"id": "C13", "title": "Population queue: order and conservation", "statement": "The uid queue returns told uids in first-in first-out order, and when none is told it cycles through the asked ones, oldest first; no ask or tell loses or invents a uid; ask fails exactly when the queue has no uid.", "quantifier": "every sequence of ask/tell/discard/clear", "why_tests_cant": "Stateful protocol over all histories.", "anchors": ["nevergrad/optimization/utils.py:UidQueue", "nevergrad/common/tools.py:OrderedSet"]}
{"id": "C14", "title": "OrderedSet is a duplicate-free list ordered by last insertion", "statement": "Iterating over the ordered set yields each element once, ordered by the time of the latest add; add of a present element moves it to the end; discard removes exactly it; membership and length agree with the iteration.", "quantifier": "every sequence of add/discard/clear", "why_tests_cant": "All histories; the implementation relies on dict pop/insert order.", "anchors": ["nevergrad/common/tools.py:OrderedSet"]}
{"id": "C15", "title": "Pareto front is exactly the set of non-dominated points", "statement": "Without hypervolume shortcuts, after adding any sequence of loss vectors the maintained front contains exactly the points that are not strictly dominated by another added point, with duplicates kept, irrespective of when filtering is triggered.", "quantifier": "every finite sequence of loss vectors of every dimension and every filtering schedule", "why_tests_cant": "Needs all vectors and all interleavings of add and lazy filter.", "anchors": ["nevergrad/optimization/multiobjective/core.py:ParetoFront"]}
{"id": "C16", "title": "Hypervolume is the measure of the dominated region", "statement": "For every finite point set and reference point, none of whose points exceeds the reference, compute() returns the volume of the union of the boxes between the points and the reference; hence it never decreases when a point is added, does not depend on the order of the points, and dominated or repeated points do not count.", "quantifier": "every finite list of points and reference point", "why_tests_cant": "Geometric identity over all real inputs.", "anchors": ["nevergrad/optimization/multiobjective/hypervolume.py:HypervolumeIndicator"]}
{"id": "C17", "title": "Hypervolume loss ranks improvements below non-improvements", "statement": "With reference bounds, a new candidate which increases the volume dominated by all told points gets minus the new volume as loss and enters the front; any other candidate gets at least minus the current volume; the best volume is always the volume dominated by all told points. (Broken when an out-of-bounds point sits in the front.)", "quantifier": "every state of the front and every new loss vector", "why_tests_cant": "Sign and volume comparisons over all fronts.", "anchors": ["nevergrad/optimization/multiobjective/core.py:HypervolumePareto"]}
{"id": "C18", "title": "NSGA-II fronts partition the candidates by dominance", "statement": "The fast non-dominated ranking puts every candidate in exactly one front, front 0 being the non-dominated ones and each later front the non-dominated ones of the rest. (Holds for one or two objectives; with three or more the comparison used is not dominance and candidates can vanish.)", "quantifier": "every finite population and loss vectors", "why_tests_cant": "All loss configurations including cycles of the comparison.", "anchors": ["nevergrad/optimization/multiobjective/nsga2.py:FastNonDominatedRanking"]}
{"id": "C19", "title": "NSGA-II selection returns the requested number", "statement": "rank(candidates, n_selected) returns the requested number of distinct candidates (all of them if fewer exist), whole fronts first, and of the last front those with the largest crowding distances; ranks respect the front order. Without n_selected all candidates get the distinct ranks 0, 1, 2, ... by front and crowding distance.", "quantifier": "every population and every n_selected", "why_tests_cant": "Truncation of a front by crowding distance depends on sizes.", "anchors": ["nevergrad/optimization/multiobjective/nsga2.py:rank"]}
{"id": "C20", "title": "Bounded transforms stay within their bounds", "statement": "Clipping, bouncing, tanh and arctan transforms output values within [lower, upper] for every real input, clipping leaves in-range values unchanged and is idempotent, and the constructors reject lower >= upper.", "quantifier": "every real input and pair of bounds (one-sided included), element-wise on arrays of any size", "why_tests_cant": "Real-valued domain.", "anchors": ["nevergrad/parametrization/transforms.py:Clipping", "nevergrad/parametrization/transforms.py:TanhBound", "nevergrad/parametrization/transforms.py:ArctanBound"]}
{"id": "C21", "title": "Transforms round-trip", "statement": "backward(forward(x)) = x for affine, exponential, tanh, arctan and cumulative-density transforms (over the reals), and forward(backward(y)) = y on the range; backward rejects values outside the range.", "quantifier": "every real x / every y in range, all valid parameters", "why_tests_cant": "Real-valued identity.", "anchors": ["nevergrad/parametrization/transforms.py:Affine", "nevergrad/parametrization/transforms.py:Exponentiate", "nevergrad/parametrization/transforms.py:TanhBound", "nevergrad/parametrization/transforms.py:ArctanBound", "nevergrad/parametrization/transforms.py:CumulativeDensity"]}
{"id": "C22", "title": "Integer casting respects bounds", "statement": "An integer-cast parameter with bounds [l, u] that contain at least one integer, always has an integer value within [l, u], deterministic or stochastic; stochastic values are one of the two integers surrounding the real value. (When the bounds contain no integer the value falls outside.)", "quantifier": "every real internal value, every random draw and every pair of bounds", "why_tests_cant": "Rounding at all half-integers and boundary combinations.", "anchors": ["nevergrad/parametrization/_layering.py:Int"]}
{"id": "C23", "title": "Modulo and angle values", "statement": "A parameter with a modulo layer always reads in [0, m), setting a value in [0, m) reads it back, and reading is periodic in the internal value. (Setting m itself is accepted but reads back 0.)", "quantifier": "every real internal value and modulus", "why_tests_cant": "Real-valued domain.", "anchors": ["nevergrad/parametrization/_datalayers.py:Modulo", "nevergrad/parametrization/_datalayers.py:AngleOp"]}
{"id": "C24", "title": "Standardized data round-trips", "statement": "For any (nested) parametrization without lossy layers, get_standardized_data after set_standardized_data(d) with the same reference returns d; reading a parameter relative to itself gives zeros; data of the wrong size is rejected.", "quantifier": "every nested container structure, every shape, every data vector", "why_tests_cant": "Unbounded nesting and sizes.", "anchors": ["nevergrad/parametrization/core.py:Parameter.set_standardized_data", "nevergrad/parametrization/container.py:Container", "nevergrad/parametrization/data.py:Data"]}
{"id": "C25", "title": "Flattening agrees with standardized data order", "statement": "Listing the data leaves of a parametrization gives them in the same order as their slices appear in the standardized vector, so that concatenating leaf vectors equals the whole vector.", "quantifier": "every nested container structure", "why_tests_cant": "Unbounded nesting.", "anchors": ["nevergrad/parametrization/helpers.py:flatten", "nevergrad/parametrization/helpers.py:list_data", "nevergrad/parametrization/container.py:Container._internal_get_standardized_data"]}
{"id": "C26", "title": "Layer stacks are sorted and consistently indexed", "statement": "After any sequence of add_layer calls the stack starts with the root, levels are non-decreasing, layers of equal level keep insertion order, and each layer's recorded index is its position; copying preserves the order.", "quantifier": "every sequence of layers with arbitrary levels", "why_tests_cant": "All insertion orders.", "anchors": ["nevergrad/parametrization/_layering.py:Layered.add_layer", "nevergrad/parametrization/_layering.py:Layered.copy"]}
{"id": "C27", "title": "Frozen parameters cannot change", "statement": "Once frozen (by ask, tell or freeze), no public modifying operation changes a parameter or its sub-parameters, all raise instead; children and copies are independent and unfrozen.", "quantifier": "every sequence of operations on a tree of parameters", "why_tests_cant": "All operation sequences on nested parameters.", "anchors": ["nevergrad/parametrization/core.py:Parameter.freeze", "nevergrad/parametrization/core.py:Parameter._check_frozen", "nevergrad/parametrization/core.py:Parameter.spawn_child"]}
{"id": "C28", "title": "Lineage metadata", "statement": "spawn_child increments the generation by exactly one, records the parent's uid as first parent, inherits the lineage and receives a uid distinct from all previous ones (constants, documented as their own child, excepted); copy keeps generation and parents but gets a fresh uid and no loss.", "quantifier": "every tree of spawn/copy/sample operations", "why_tests_cant": "Unbounded family trees.", "anchors": ["nevergrad/parametrization/core.py:Parameter.spawn_child", "nevergrad/parametrization/core.py:Parameter.copy", "nevergrad/parametrization/core.py:Parameter._set_parenthood"]}
{"id": "C29", "title": "Choices read back what was set", "statement": "Setting a choice parameter to a value accepted by one of its options makes value return it (the first accepting option), for deterministic sampling; the selected index is always a valid index; setting a value no option accepts is rejected.", "quantifier": "every list of options, weights and random draw", "why_tests_cant": "All arities and weights.", "anchors": ["nevergrad/parametrization/choice.py:BaseChoice", "nevergrad/parametrization/choice.py:Choice", "nevergrad/parametrization/discretization.py:weight_for_reset"]}
{"id": "C30", "title": "Threshold discretization", "statement": "Threshold discretization maps every real to a category in [0, arity), is monotone, hits every category, and inverts its inverse.", "quantifier": "every real input, every arity >= 1, any strictly increasing continuous cdf", "why_tests_cant": "Real domain and all arities.", "anchors": ["nevergrad/parametrization/discretization.py:threshold_discretization", "nevergrad/parametrization/discretization.py:inverse_threshold_discretization"]}
{"id": "C31", "title": "Categorical sampling picks a valid positive-probability category", "statement": "The encoder always returns an index within range; with positive weights the returned index k is the one whose cumulative interval contains the draw; deterministic mode returns the first index of maximal probability.", "quantifier": "every weight matrix and every draw in [0,1)", "why_tests_cant": "Boundary draws and zero weights.", "anchors": ["nevergrad/parametrization/discretization.py:Encoder"]}
{"id": "C32", "title": "Halton / van der Corput points are distinct and in the unit interval", "statement": "For every base and index the radical inverse lies in [0,1), distinct indices give distinct values, and the first b^k - 1 values are exactly the positive multiples of b^-k below 1 (the sequence skips 0), also under any digit permutation keeping 0 in place as the code draws them.", "quantifier": "every base >= 2, every index, every scrambling permutation", "why_tests_cant": "Unbounded indices and permutations.", "anchors": ["nevergrad/optimization/sequences.py:HaltonSampler", "nevergrad/optimization/sequences.py:HammersleySampler"]}
{"id": "C33", "title": "Latin hypercube stratification", "statement": "The LHS sampler called budget times returns in each dimension exactly one sample in each of the budget equal strata.", "quantifier": "every budget, dimension, permutation and jitter", "why_tests_cant": "All sizes and random draws.", "anchors": ["nevergrad/optimization/sequences.py:LHSSampler"]}
{"id": "C34", "title": "Prime bases are the first primes", "statement": "The sampler's bases are exactly the first num_samples prime numbers.", "quantifier": "every requested count", "why_tests_cant": "All counts; the sieve size estimate must suffice for each.", "anchors": ["nevergrad/optimization/sequences.py:_get_first_primes"]}
{"id": "C35", "title": "Batch recast returns losses in ask order", "statement": "In batch-recast optimizers, the wrapped algorithm receives exactly one loss per point of its batch, in the order of the batch, whatever the order in which candidates are told; extra asks while the batch is pending are rejected.", "quantifier": "every batch size and every permutation of tells", "why_tests_cant": "All tell orders.", "anchors": ["nevergrad/optimization/recaster.py:BatchRecast"]}
{"id": "C36", "title": "Unpickled sequential recast resumes identically", "statement": "A pickled sequential-recast optimizer replays the recorded evaluations so that the wrapped deterministic algorithm continues with the same next point as without pickling.", "quantifier": "every history length at which the optimizer is pickled, every deterministic algorithm", "why_tests_cant": "All crash points and algorithms.", "anchors": ["nevergrad/optimization/recaster.py:SequentialRecastOptimizer"]}
{"id": "C37", "title": "Local jobs are evaluated at most once", "statement": "With the default sequential executor each submitted function call is executed at most once however often done()/result() are called, and result() always returns the same value.", "quantifier": "every sequence of done/result calls", "why_tests_cant": "All call sequences.", "anchors": ["nevergrad/optimization/utils.py:DelayedJob", "nevergrad/optimization/utils.py:SequentialExecutor"]}
{"id": "C38", "title": "Mocked executor releases jobs in time order", "statement": "In steady mode exactly one unread job is done at a time, the unread job with the smallest (release time, submission order); reading in that order makes simulated time non-decreasing, and a job not at the head cannot be read.", "quantifier": "every interleaving of submit/done/result and all job durations", "why_tests_cant": "Priority queue histories.", "anchors": ["nevergrad/benchmark/execution.py:MockedTimedExecutor", "nevergrad/benchmark/execution.py:MockedTimedJob"]}
{"id": "C39", "title": "Early-stopping criteria", "statement": "The no-improvement criterion stops exactly when the best loss has not improved beyond the tolerance for the given number of consecutive asks; the duration criterion stops exactly when the elapsed time exceeds the limit.", "quantifier": "every sequence of observed losses / times", "why_tests_cant": "All histories.", "anchors": ["nevergrad/optimization/callbacks.py:EarlyStopping", "nevergrad/optimization/callbacks.py:_LossImprovementToleranceCriterion", "nevergrad/optimization/callbacks.py:_DurationCriterion"]}
{"id": "C40", "title": "Logging intervals", "statement": "Optimization printers/loggers emit at most once per log interval of tells. (The shipped condition emits at every tell.)", "quantifier": "every interval and sequence of tells", "why_tests_cant": "All histories.", "anchors": ["nevergrad/optimization/callbacks.py:OptimizationPrinter", "nevergrad/optimization/callbacks.py:OptimizationLogger"]}
{"id": "C41", "title": "Registry never silently overwrites", "statement": "Registering a name already present is rejected and leaves the registry unchanged; after any history the registered object of a name is the last one registered and not unregistered.", "quantifier": "every history of register/unregister", "why_tests_cant": "All histories.", "anchors": ["nevergrad/common/decorators.py:Registry"]}
{"id": "C42", "title": "Temporary environment variables are restored", "statement": "After leaving set_env the environment of the touched names is exactly as before, provided the body did not remove one of them; invalid names are rejected without any change.", "quantifier": "every environment, set of assignments and body", "why_tests_cant": "All environments and bodies.", "anchors": ["nevergrad/common/tools.py:set_env"]}
{"id": "C43", "title": "Tabu list keeps the most recent values", "statement": "The tabu memory holds at most tabu_length values, all distinct, they are the most recently accepted ones, and a value in memory is refused.", "quantifier": "every sequence of checked values and every tabu length", "why_tests_cant": "All histories.", "anchors": ["nevergrad/parametrization/core.py:Parameter.satisfies_constraints"]}
{"id": "C44", "title": "Infeasible candidates are never recommended", "statement": "With a budget and cheap constraints, a told candidate which violates a constraint is not recorded in the archive nor as a best, so the recommendation is either the initial point or a feasible told candidate, and penalties are non-negative and increasing with violation.", "quantifier": "every history of tells and every constraint set", "why_tests_cant": "All histories and constraint values.", "anchors": ["nevergrad/optimization/base.py:Optimizer.tell", "nevergrad/optimization/utils.py:ConstraintManager.penalty", "nevergrad/parametrization/utils.py:float_penalty"]}
{"id": "C45", "title": "Asking under constraints is bounded and counted once", "statement": "Each successful ask increases num_ask by exactly one and makes at most max(1, max_trials/2) attempts plus one projection, returns a feasible candidate if any attempt was feasible.", "quantifier": "every sequence of attempted candidates and constraint outcomes", "why_tests_cant": "All outcome sequences.", "anchors": ["nevergrad/optimization/base.py:Optimizer.ask"]}
{"id": "C46", "title": "Differential evolution population stays consistent", "statement": "For every ask/tell history of differential evolution the population never exceeds its size, its best loss never gets worse, and an ask never fails because of an inconsistent queue. (The last part is broken when more candidates than the population are pending and an external candidate is told.)", "quantifier": "every history of asks, tells and tells of foreign candidates", "why_tests_cant": "All histories.", "anchors": ["nevergrad/optimization/differentialevolution.py:_DE"]}
{"id": "C47", "title": "Crossover mixes coordinates only", "statement": "Each crossover of differential evolution yields vectors whose every coordinate comes from the donor or the parent (same position, except for the rotated variant), keeps at least one donor coordinate in the variable-wise and one-point variants, and two-point crossover never copies the complete parent or leaves the donor whole.", "quantifier": "every dimension, vectors and random draws", "why_tests_cant": "All dimensions and draws.", "anchors": ["nevergrad/optimization/differentialevolution.py:Crossover"]}
{"id": "C48", "title": "Evolution strategy selection keeps the best", "statement": "After selection in the evolution strategies (single objective), the population consists of the popsize best of the candidates considered, so with parents included its best loss never gets worse, and the queue holds exactly the population.", "quantifier": "every population, offspring list and losses", "why_tests_cant": "All sizes and orders.", "anchors": ["nevergrad/optimization/es.py:_EvolutionStrategy._select"]}
{"id": "C49", "title": "Benchmark chunks partition the experiments", "statement": "Splitting a benchmark into chunks (repeatedly) assigns each experiment to exactly one chunk and the announced chunk length equals the number of experiments it iterates on; interrupted computations resume without skipping or repeating a finished experiment.", "quantifier": "every number of experiments, every nested split", "why_tests_cant": "All sizes.", "anchors": ["nevergrad/benchmark/core.py:Moduler", "nevergrad/benchmark/core.py:BenchmarkChunk"]}
{"id": "C50", "title": "Discrete mutations change what they announce", "statement": "Single-variable mutation changes exactly one coordinate to a different category, portfolio and discrete mutations change at least one coordinate and leave the unselected ones untouched.", "quantifier": "every parent vector, arity and random draws", "why_tests_cant": "All dimensions and draws.", "anchors": ["nevergrad/optimization/mutations.py:Mutator"]}
{"id": "C51", "title": "Array mutations rearrange without loss", "statement": "Translation and jumping mutations permute the entries of the array (nothing lost or duplicated), and array crossover takes each entry from one of the two arrays at the same position.", "quantifier": "every array size, chunk and position", "why_tests_cant": "All sizes.", "anchors": ["nevergrad/parametrization/mutation.py:Translation", "nevergrad/parametrization/mutation.py:Jumping", "nevergrad/parametrization/mutation.py:Crossover"]}
{"id": "C52", "title": "Comparison-based telling orders the candidates", "statement": "After compare(winners, losers), each winner is recorded with a strictly better value than the next winner and than every loser known to the archive.", "quantifier": "every list of winners and losers and archive", "why_tests_cant": "All sizes and archives.", "anchors": ["nevergrad/optimization/base.py:addCompare"]}
{"id": "C53", "title": "Opposition-based sampling emits symmetric pairs", "statement": "In opposition mode the sampled points come in pairs, the second being the (scaled) opposite of the first.", "quantifier": "every sequence of draws", "why_tests_cant": "All histories.", "anchors": ["nevergrad/optimization/oneshot.py:_RandomSearch", "nevergrad/optimization/oneshot.py:_SamplingSearch"]}
{"id": "C54", "title": "Container tools", "statement": "roundrobin yields every element of all iterables exactly once, cycling fairly; grouper cuts into equal-size groups preserving order; pairwise yields consecutive pairs; flatten keeps all leaves in order.", "quantifier": "every list of lists", "why_tests_cant": "All sizes.", "anchors": ["nevergrad/common/tools.py:roundrobin", "nevergrad/common/tools.py:grouper", "nevergrad/common/tools.py:pairwise", "nevergrad/common/tools.py:flatten"]}
{"id": "C55", "title": "The number of objectives never changes", "statement": "The number of objectives is the one of the first accepted loss; a loss with a different number is refused, and refused losses change neither the number of objectives nor num_tell.", "quantifier": "every sequence of scalar, list and invalid losses", "why_tests_cant": "All histories mixing losses of different lengths.", "anchors": ["nevergrad/optimization/base.py:Optimizer.tell", "nevergrad/optimization/base.py:Optimizer.num_objectives"]}
{"id": "C56", "title": "The optimization curve stays logarithmic", "statement": "The recorded optimization curve has strictly increasing evaluation counts, consecutive ones separated by a factor above 1.1, so that after n tells it has O(log n) points.", "quantifier": "every sequence of tells", "why_tests_cant": "All lengths of history.", "anchors": ["nevergrad/optimization/base.py:Optimizer.tell"]}
{"id": "C57", "title": "Front subsets are subsets of the front of the requested size", "statement": "Asking for a subset of the Pareto front returns members of the current front, as many as requested (the whole front if it is not larger); with a score-based choice the returned subset has the least score among the subsets that were drawn.", "quantifier": "every history of additions, size, number of tentatives and random draws", "why_tests_cant": "All histories, sizes and draws.", "anchors": ["nevergrad/optimization/multiobjective/core.py:ParetoFront.get_front"]}
{"id": "C58", "title": "Reading a value leaves the parameter unchanged", "statement": "Reading the value of a parameter does not change its internal data: two reads without draws in between give the same value and the standardized data is the same before and after.", "quantifier": "every internal value, layers and random draw", "why_tests_cant": "All values and draws; the tests read values once.", "anchors": ["nevergrad/parametrization/_layering.py:Int._layered_get_value", "nevergrad/parametrization/data.py:Data._layered_get_value"]}
{"id": "C59", "title": "Value arrays belong to one parameter", "statement": "Copies and children hold arrays of their own, so modifying a value in place never reaches the parameter it was copied from; reading a value or assigning one does not make the parameter share an array with the caller.", "quantifier": "every tree of parameters, every sequence of operations", "why_tests_cant": "Aliasing shows only after in-place modifications by user code; no finite set of programs covers them.", "anchors": ["nevergrad/parametrization/data.py:Data.copy", "nevergrad/parametrization/data.py:Data._layered_get_value", "nevergrad/parametrization/data.py:Data._layered_set_value"]}
{"id": "C60", "title": "Rescaled samples span the unit interval", "statement": "Rescaling a set of sampled points sends every coordinate of every point of the set strictly inside (0,1), preserves the order along each axis, and the smallest and the largest value of each axis land at epsilon and 1 - epsilon.", "quantifier": "every finite set of points accepted by the constructor, every dimension", "why_tests_cant": "Unbounded point sets and degenerate ranges.", "anchors": ["nevergrad/optimization/sequences.py:Rescaler"]}
{"id": "C61", "title": "Recast algorithms receive the loss of the point they asked", "statement": "In a sequential recast optimizer, under every interleaving of the optimizer thread and the caller, each loss received by the wrapped algorithm is the loss told for the point it had asked for, the points asked are those the algorithm would ask when calling the objective itself, and an ask for which the previous point was told never waits forever.", "quantifier": "every deterministic algorithm, every interleaving, every number of evaluations", "why_tests_cant": "Thread interleavings and unbounded sessions.", "anchors": ["nevergrad/optimization/recaster.py:SequentialRecastOptimizer", "nevergrad/optimization/recaster.py:_MessagingThread", "nevergrad/optimization/base.py:Optimizer.ask"]}
{"id": "C62", "title": "A particle swarm moves towards its best candidate", "statement": "At any time of a particle swarm run, including tells of candidates it did not ask for, the global best towards which particles are attracted is a told candidate and no told candidate has a smaller loss.", "quantifier": "every history of asks, tells and tells of foreign candidates, every swarm size", "why_tests_cant": "All histories: foreign candidates, discarded particles, pending particles.", "anchors": ["nevergrad/optimization/optimizerlib.py:_PSO"]}
{"id": "C63", "title": "Discrete crossovers mix parent and donor", "statement": "The vector mixed by a discrete crossover takes each coordinate from the parent or from the donor at the same position (circularly shifted donor position for the rotation variant); with one or two cut points in sufficient dimension at least one coordinate comes from each.", "quantifier": "for all parents, donors, crossover types and random draws", "why_tests_cant": "cut points and choices are random, all positions and dimensions are involved", "anchors": ["nevergrad/optimization/mutations.py:129-159"]}
{"id": "C64", "title": "Averaging recommendations stay among the best points", "statement": "The recommendation rules averaging the best points use at least one and at most all points of the archive (at most a quarter of them and at most the dimension for the default rule), average points that are no worse than all others, and stay in every box containing these points.", "quantifier": "for all archives, dimensions and estimations", "why_tests_cant": "the number of points averaged depends on archive size and dimension; ties and all orders of the archive are involved", "anchors": ["nevergrad/optimization/oneshot.py:59-92"]}
{"id": "C65", "title": "Chained optimizers share the budget as configured", "statement": "An optimizer chaining several optimizers asks each of them, in order, for exactly its share of the budget: the i-th ask comes from the one whose interval contains the number of asks so far, and beyond all shares the last one goes on. With crossing, each told point reaches all the optimizers up to the one in charge; without crossing, only the one that asked it; so each optimizer knows the points of its predecessors before its first ask.", "quantifier": "for all lists of budgets, all numbers of asks, and all orders of asks and tells", "why_tests_cant": "the switch depends on the whole history of asks and tells; parallel runs interleave them in any order", "anchors": ["nevergrad/optimization/optimizerlib.py:3349-3470"]}
{"id": "C66", "title": "Portfolios give their optimizers fair shares and pick the best", "statement": "During the warm-up of a portfolio the optimizers ask in turn so that shares differ by at most one, the optimizers unable to work in parallel are never asked while one of their points is pending, at the end of the warm-up one optimizer with the best loss is selected and does all the remaining asks, told points are passed to every optimizer accepting points it did not ask, and no optimizer is asked more than its budget.", "quantifier": "for all portfolios, budgets, numbers of workers and orders of asks and tells", "why_tests_cant": "turns, budgets and workers combine in unboundedly many ways; parallel tells come in any order", "anchors": ["nevergrad/optimization/optimizerlib.py:1906-2098"]}
{"id": "C67", "title": "Split and rescaled optimizers preserve coordinates", "statement": "Splitting variables partitions all coordinates into contiguous blocks of the announced sizes; the point asked is the concatenation of the points of the sub-optimizers, and telling it tells each sub-optimizer its own block with the same loss; when variables are treated progressively, the frozen blocks are exactly those whose turn has not come. Rescaling then unscaling a point gives it back, so the inner optimizer is told the point it asked.", "quantifier": "for all dimensions, numbers of blocks, budgets, scales and points", "why_tests_cant": "block sizes come from remainders of divisions and all dimensions are involved", "anchors": ["nevergrad/optimization/optimizerlib.py:1615-1660", "nevergrad/optimization/optimizerlib.py:1707-1804"]}
{"id": "C68", "title": "Adaptation rules of one-plus-one optimizers", "statement": "Whatever losses are told: the step-size is 2^a 0.84^b for a improvements and b deteriorations; the adaptive rate stays in (0, 1] and the numbers of mutated variables asked for are between 1 and the dimension; velocities stay between 1 and a quarter of the arity; log-normal rates stay in (0, 1) and each block of tells selects the rate of its first best point; the rewards of doerr are the weighted means of the improvements obtained by their rates and sequential use never fails; annealing always takes better points, and worse ones only within the budget with a probability between 0 and 1 at a decreasing temperature.", "quantifier": "for all sequences of losses and random draws, all dimensions and budgets", "why_tests_cant": "rates result from unbounded sequences of losses and random draws", "anchors": ["nevergrad/optimization/optimizerlib.py:90-524"]}
{"id": "C69", "title": "SPSA takes descent steps from pairs of evaluations", "statement": "When used sequentially, SPSA evaluates pairs of points symmetric around its current point, with a positive perturbation that decreases from pair to pair; after each pair the current point moves by the learning rate times the difference quotient of the two losses along the direction drawn, hence from the worse point to the better one; the recommendation is the mean of all current points so far; and rejected, foreign or parallel points do not break this.", "quantifier": "for all numbers of pairs, losses, directions drawn and dimensions", "why_tests_cant": "iterates depend on the whole sequence of losses and on real powers; a test with random directions cannot tell which perturbation was used", "anchors": ["nevergrad/optimization/optimizerlib.py:1546-1612"]}
{"id": "C70", "title": "Tables of the compact genetic algorithm", "statement": "In cGA the table of each variable always is a probability distribution giving each value at least 1 / (llambda + arity); points are compared two by two in the order of the tells, the second winning only if strictly better; only the variables that differ are updated, the winner's value becoming more likely; values are drawn exactly with the probabilities of the table.", "quantifier": "for all arities, dimensions, numbers of workers and sequences of tells", "why_tests_cant": "tables result from unbounded sequences of tells; probabilities of draws are not observable in a test", "anchors": ["nevergrad/optimization/optimizerlib.py:3573-3630"]}
{"id": "C71", "title": "Population sizes adapt to the progress made", "statement": "In TBPSA, PCEDA and adaptive EMNA the population sizes change exactly every 5 llambda values: the number of parents doubles unless the last fifth of the losses is better than the first by two standard errors, in which case it is multiplied by 0.84 down to a minimum. At all times there are at least four times as many children as parents, at least as many children as workers, at least min(initial, dimension) parents, and a generation never needs more than two fifths of the evaluations already made, the initial size excepted.", "quantifier": "for all sequences of losses, dimensions and numbers of workers", "why_tests_cant": "sizes depend on unbounded sequences of losses; equal or infinite losses give undefined quotients", "anchors": ["nevergrad/optimization/optimizerlib.py:1039-1066"]}
{"id": "C72", "title": "Generations of TBPSA and EDA", "statement": "Whatever is asked and told in any order, each completed generation takes exactly the mu best children as parents, moves the centre to their mean (inside every box containing them) and the step-size to the geometric mean of theirs, which stays positive; the covariance of EDA is the (possibly discounted) covariance of the parents around the previous centre and always is positive semi-definite; points violating constraints are ranked with their penalty; points not asked can be told to TBPSA without breaking it.", "quantifier": "for all dimensions, populations, losses, draws and orders of asks and tells", "why_tests_cant": "the state depends on unbounded sequences of draws and losses; degenerate step-sizes only appear for special points", "anchors": ["nevergrad/optimization/optimizerlib.py:1071-1142", "nevergrad/optimization/optimizerlib.py:1221-1295"]}
{"id": "C73", "title": "Generations of EMNA", "statement": "EMNA completes a generation within its budget without failing; its centre is the mean of the mu best children; with the isotropic option a single step-size, the root mean square deviation of the parents, is used for all coordinates, without it each coordinate gets the standard deviation of the parents; with many workers step-sizes are only made smaller.", "quantifier": "for all dimensions, budgets, numbers of workers and populations", "why_tests_cant": "array shapes of the step-size only show in the distribution of points; small budgets and parallel tells are rarely tested", "anchors": ["nevergrad/optimization/optimizerlib.py:3633-3765"]}
{"id": "C74", "title": "Generations of CMA through ask and tell", "statement": "Whatever the order of asks and tells, the points returned by CMA are exactly those given by its evolution strategy, in order, none lost or duplicated; the strategy receives exactly what was told, in order, in full generations of the population size, which is at least the number of workers; after each generation the parents are the best half. A sequential run puts the strategy in the state of its own loop, all asks succeed, constraint penalties reach the strategy, and a recommendation is always available.", "quantifier": "for all external strategies, population sizes, dimensions and sequences of asks and tells", "why_tests_cant": "parallel orders of calls are unbounded, and the strategy is an external package", "anchors": ["nevergrad/optimization/optimizerlib.py:722-841"]}
{"id": "C75", "title": "Optimizers made from one CMA configuration are independent", "statement": "Two optimizers created from the same ParametrizedCMA object do not influence each other: each uses the strategy asked for in the configuration and gives it its arguments in the order it expects.", "quantifier": "for all numbers of optimizers, dimensions and interleavings of uses", "why_tests_cant": "requires several optimizers of different dimensions alive in the same process, interleaved", "anchors": ["nevergrad/optimization/optimizerlib.py:753-795", "nevergrad/optimization/optimizerlib.py:815"]}
{"id": "C76", "title": "Delegating optimizers are transparent", "statement": "An optimizer which selects another one (NGOpt, ChoiceBase) behaves as the selected one: the inner optimizer receives every told point exactly once, in order, with the told loss, both archives contain the same points with the same losses, a suggested point can be told, and the field loss of a candidate is the loss which was told.", "quantifier": "for all inner optimizers, constraints and sequences of asks, suggestions and tells", "why_tests_cant": "needs all interleavings of asks, suggestions and tells with two constraint managers", "anchors": ["nevergrad/optimization/optimizerlib.py:912-978", "nevergrad/optimization/optimizerlib.py:3806-3910", "nevergrad/optimization/base.py:373-431"]}
{"id": "C77", "title": "Use of the quadratic metamodel", "statement": "The metamodel is only used when the archive contains at least as many points as a quadratic function has coefficients, and at most once every max(13, workers, dimension) asks; it learns from the k best points, its proposal is within the spread of those points around their mean and is predicted no worse than the best of them; on a plateau, or when equal losses make the model uninformative, the inner optimizer is asked instead.", "quantifier": "for all dimensions, archives, regressions and numbers of workers", "why_tests_cant": "depends on the archive after arbitrarily many evaluations and on an external regression", "anchors": ["nevergrad/optimization/optimizerlib.py:2127-2190", "nevergrad/optimization/metamodel.py:14-237"]}
{"id": "C78", "title": "Selection made by NGOpt", "statement": "NGOpt always selects an algorithm, also when no budget is given; with several workers it never selects one which can only run sequentially; noisy continuous problems, problems with categorical variables and small bounded sequential problems get the documented algorithms; a portfolio is only selected when the budget covers 75 evaluations per dimension and per copy; with several objectives a deterministic problem is given to DE.", "quantifier": "for all budgets, dimensions, numbers of workers and descriptions of the problem", "why_tests_cant": "the selection is a tree over unbounded integers, tests sample a few leaves", "anchors": ["nevergrad/optimization/optimizerlib.py:3806-3910", "nevergrad/optimization/optimizerlib.py:3991-4381", "nevergrad/optimization/optimizerlib.py:4810-4812"]}
{"id": "C79", "title": "Optima of the core benchmark functions", "statement": "Each function documented with a minimum has it: sphere and its shifts, cigar, altcigar, discus, ellipsoids, rastrigin, ackley, schwefel_1_2, griewank, lunacek, rosenbrock, multipeak, gaussian peak, bent cigar, bucherastrigin, hm, deceptive functions have value 0 (or the documented one) exactly at the announced point and larger values elsewhere; the ellipsoids have the announced conditioning 10^6; step functions are constant between powers of e and monotone; onemax counts wrong variables, leadingones the variables from the first wrong one on, jump is deceptive around its optimum and has its only global minimum at the target; styblinski-tang is positive.", "quantifier": "for all dimensions and all points", "why_tests_cant": "tests evaluate a few points in a few dimensions; minimality and uniqueness quantify over all points", "anchors": ["nevergrad/functions/corefuncs.py:18-470"]}
{"id": "C80", "title": "Structure of artificial functions", "statement": "An artificial function has num_blocks blocks of block_dimension distinct variables, in increasing order and disjoint; the other variables have no effect, with or without noise; with split, the blocks are the given arrays. Translation and rotation preserve distances, so that the minimum is the aggregation of the minimum of the core function, reached exactly at the images of its optimum. Without noise level the value is the one of the oracle, otherwise the added noise is level * N * (f(x + N) - f(x)). Once called, a function object never changes, and two runs with the same seed are compared on the same function.", "quantifier": "for all dimensions, numbers of blocks, draws, core functions, aggregators and points", "why_tests_cant": "depends on random draws, rotations and all points of the domain; tests check one seed", "anchors": ["nevergrad/functions/functionlib.py:18-313", "nevergrad/functions/utils.py:10-38"]}
{"id": "C81", "title": "Symmetries of array functions", "statement": "ArrayExperimentFunction with the 2^d symmetry numbers gives 2^d different functions, one per subset of coordinates to flip; symmetrization is an involution which preserves distances, takes the same values as the original function, keeps points within the bounds, and is the identity for the number 0.", "quantifier": "for all dimensions, symmetry numbers, bounds and points", "why_tests_cant": "the number of symmetries is exponential and the multiplier has 23 digits", "anchors": ["nevergrad/functions/base.py:295-353"]}
{"id": "C82", "title": "Copies of experiment functions, experiments and leaderboard", "statement": "The copy of an experiment function has its class, descriptors, name, flags, parametrization and bounds, and is independent of it; it is refused exactly when the descriptors set by the initialization were changed. The result of an experiment is the value of the recommendation on the optimized function, increased by 1e9 if it violates the constraints; the error is empty exactly when nothing was raised and the budget was respected; running a finished experiment again does not change its result; equal experiments have the same settings. The leaderboard keeps the smallest loss.", "quantifier": "for all functions, descriptors, optimizers, sequences of runs and of updates", "why_tests_cant": "about object identity, arbitrary optimizers and histories of runs", "anchors": ["nevergrad/functions/base.py:143-203", "nevergrad/functions/base.py:256-292", "nevergrad/benchmark/xpbase.py:108-115", "nevergrad/benchmark/xpbase.py:154-333"]}
{"id": "C83", "title": "Code templates", "statement": "Exactly the occurrences of NG_ARG{name} and NG_ARG{name|comment} in a file are placeholders; names are unique within a folder; substitution replaces each placeholder by the text of its value and changes nothing else, values are not searched again, and it fails exactly when a name comes twice, has no value or a value has no name; tagged lines are uncommented with their indent and no tag remains; instantiating a folder with exactly its names always succeeds, never modifies the instrumented folder although it uses links to it, and gives every other file as in the original; the result of a command is its last line.", "quantifier": "for all texts, names, comments, values, files, folders and states of the output folder", "why_tests_cant": "about all texts a regular expression can meet and all file contents", "anchors": ["nevergrad/parametrization/instantiate.py:22-109", "nevergrad/parametrization/instantiate.py:112-222", "nevergrad/parametrization/instantiate.py:290-309"]}
{"id": "C84", "title": "Games", "statement": "War: with any policy of the announced length and any two halves of the deck, every weight read exists, distinct situations read distinct weights, no card is lost or created, the game ends with a result 0, 1 or 2 and exchanging the players exchanges the result. Guess who: every question leaves at least one card and fewer cards than before, so the game ends with a winner after at most as many plays as cards. Flip: a player chooses the legal play of least value strictly better than passing, cards are never created, every game ends within the number of cards, and the coin makes the game fair. The loss of a policy lies between 0 and 1, it is 0 exactly when every game is won and a draw counts 1/2.", "quantifier": "for all policies, deals, draws, coins and numbers of turns", "why_tests_cant": "about all deals and policies: the number of games is astronomically large and termination is not observable by a test", "anchors": ["nevergrad/functions/games/game.py:43-98", "nevergrad/functions/games/game.py:100-218", "nevergrad/functions/games/game.py:332-402", "nevergrad/functions/games/game.py:425-444"]}
{"id": "C85", "title": "Population-based training", "statement": "Slices cut a checkpoint exactly into the dimensions of the functions; the value is non-negative and vanishes exactly at the optima when the core functions do so at zero; one training step moves each slice by its own function and learning rate only. Every call succeeds, takes the first worker of least loss or distance as the source, and returns the value of the trained checkpoint. The loss kept for a worker is the value of its checkpoint and training a worker leaves the checkpoints of the others unchanged.", "quantifier": "for all core functions, optima, dimensions, numbers of workers, random draws, hyperparameters and histories of calls", "why_tests_cant": "about sharing of arrays over all histories of calls and random draws", "anchors": ["nevergrad/functions/pbt.py:17-43", "nevergrad/functions/pbt.py:46-92", "nevergrad/functions/pbt.py:94-118"]}
{"id": "C86", "title": "Wrapped solvers", "statement": "A recast optimizer runs the library its method is named after. It restarts the solver until the budget is used and starts no run afterwards; without random restarts every run of scipy and BOBYQA starts from the best point so far, the first one from the initial guess. When each run evaluates something, this ends after at most as many runs as evaluations left. If the solver returns the best of the points it evaluated, the point recommended at the end was evaluated and no evaluated point has a smaller loss.", "quantifier": "for all solvers, losses, budgets, numbers of restarts, initial guesses and coordinate maps", "why_tests_cant": "about all sequences of restarts of an arbitrary external solver", "anchors": ["nevergrad/optimization/recastlib.py:43-100", "nevergrad/optimization/recastlib.py:108-247", "nevergrad/optimization/recastlib.py:425-482"]}
{"id": "C87", "title": "Normalizer and deterministic sampling", "statement": "The normalizer transforms the slice of each parameter on its own. forward sends every point to the unit interval. backward places a point of the unit interval linearly between the bounds of each bounded parameter, so that uniform samples are uniform in the domain, and forward gives the point back; parameters without both bounds use the given transform. Deterministic sampling leaves the mode of every integer layer as it was and the value deterministic.", "quantifier": "for all parametrizations, stacks of layers, bounds, standard deviations and points", "why_tests_cant": "about all stacks of layers and all points; failures are hidden by a fallback which only warns", "anchors": ["nevergrad/parametrization/helpers.py:109-153", "nevergrad/parametrization/helpers.py:156-241", "nevergrad/parametrization/_datalayers.py:79-136", "nevergrad/parametrization/_datalayers.py:238-281"]}
{"id": "C88", "title": "Bounds and scales of data parameters", "statement": "A parameter built from Scalar, Array or Log with bounds starts in their middle (arithmetic, or geometric for Log) and reaches them exactly three standard deviations away; reads never leave the announced `bounds`, also after arithmetic on the parameter and integer casting; full range sampling is uniform (log-uniform for Log) between the bounds; bounds and exponents can be set afterwards in any order, keep the value, and leave the parameter unchanged when they are refused.", "quantifier": "For all bounds, initial values, formulas of operations, stacks of layers below, standardized steps and draws.", "why_tests_cant": "Tests check a few fixed bounds; they do not combine operations with the announced bounds, nor look at the parameter after an exception.", "anchors": ["nevergrad/parametrization/data.py:58-142", "nevergrad/parametrization/data.py:168-286", "nevergrad/parametrization/data.py:344-434", "nevergrad/parametrization/data.py:461-538", "nevergrad/parametrization/_datalayers.py:36-131", "nevergrad/parametrization/_datalayers.py:163-281", "nevergrad/parametrization/_layering.py:240-285"]}
{"id": "C89", "title": "Constraint operator", "statement": "Reading the value of a parameter under `ng.ops.Constraint` leaves a point satisfying the constraints unchanged; otherwise at most `budget` candidates are evaluated, the search stops at the first one which satisfies all constraints and gives it, for one constraint or several. The value read is the one of the parameter's data, later reads give the same value, and new data is taken into account.", "quantifier": "For all constraint functions with a fixed number of results, all solving optimizers, budgets, starting data and sequences of reads.", "why_tests_cant": "Tests use one constraint solved at the first attempt by the default optimizer; they do not look at constraints which need several solvers or cannot be satisfied.", "anchors": ["nevergrad/ops/constraints.py:14-94", "nevergrad/parametrization/core.py:205-235", "nevergrad/parametrization/data.py:290-306", "nevergrad/parametrization/container.py:80-103", "nevergrad/optimization/base.py:205-238"]}
{"id": "C90", "title": "Torch helper", "statement": "In the documented loop of `TorchOptimizer`, each loss told to the optimizer is the loss of the module holding the values of the candidate which is told.", "quantifier": "For all optimizers, losses, initial modules and numbers of steps.", "why_tests_cant": "Tests run the loop with one optimizer whose first candidate is the initial point and check that it ends.", "anchors": ["nevergrad/optimization/helpers.py:24-84"]}
{"id": "C91", "title": "Win rates of fight plots", "statement": "The win rate of two optimizers is the fraction of their common settings won by the first by average loss, ties counting for one half, so that the rates of a pair sum to 1 for each common setting. Optimizers are ranked by decreasing average win rate, the average being the one printed, and every optimizer appears once. An optimizer which wins against every other one comes first. With `complete_runs_only`, only optimizers which were run on all settings are compared.", "quantifier": "For all tables of losses, optimizers, settings and repetitions.", "why_tests_cant": "Tests use a table with three optimizers and two settings and check one array; rankings with cycles, missing settings and ties are not tried.", "anchors": ["nevergrad/benchmark/plotting.py:66-131", "nevergrad/benchmark/plotting.py:938-992"]}
{"id": "C92", "title": "Legends, titles and styles of plots", "statement": "The positions given to the labels of a plot are spaced by at least the minimal difference, kept when they already are, keep their mean, and no other positions spaced in the same order are closer to the wanted ones in squared distance. Titles are split into lines without loss of characters. Styles are given once per name, kept, and distinct for up to 364 names.", "quantifier": "For all lists of positions, minimal differences, titles and lists of names.", "why_tests_cant": "Tests use one list of three positions; a comment in the code says the result is probably not optimal.", "anchors": ["nevergrad/benchmark/plotting.py:46-63", "nevergrad/benchmark/plotting.py:881-890", "nevergrad/benchmark/plotting.py:1005-1092"]}
{"id": "C93", "title": "Data of experiment plots", "statement": "Lines without a loss are removed, other lines are kept. With `normalized_loss`, losses are rescaled to [0, 1] for each setting and budget, the best one to 0 and the worst one to 1. For each optimizer and budget, the plot shows the median loss of the runs and their number, by increasing budget. The leaderboard lists for each budget the smallest loss and an optimizer which obtained it. The best 35 optimizers and the worst are drawn, and their legends can be placed. Merging names separates the parametrizations of an optimizer and does not join optimizers; numbers at the end of names are removed if asked for.", "quantifier": "For all tables of results, optimizers, budgets, settings, limits and merge patterns.", "why_tests_cant": "Tests normalize one table of five lines, check medians of one optimizer, and never look at the leaderboard or at more than a few optimizers.", "anchors": ["nevergrad/benchmark/plotting.py:136-225", "nevergrad/benchmark/plotting.py:255-258", "nevergrad/benchmark/plotting.py:639-676", "nevergrad/benchmark/plotting.py:755-860", "nevergrad/benchmark/utils.py:27-75"]}
{"id": "C94", "title": "Ready-made portfolios", "statement": "A portfolio contains what its name and documentation announce: `MultiBFGS`, `MultiSQP`, `MultiCobyla` and their variants several copies of this local search, `BFGSCMA`, `SQPCMA` and variants a `MetaCMA` and several local searches, `MultiDiscrete` three discrete optimizers used in turn until a quarter of the budget, `Portfolio` CMA, two-points DE and Scr-Hammersley, and competence maps the optimizer of the region of budget, dimension and workers. They can be created with any budget and keep the number of workers they are given; optimizers get budgets they can use. With `no_crossing` a candidate is only told to the optimizer which proposed it.", "quantifier": "For all budgets (or none), numbers of workers, dimensions, and all sequences of asks and tells.", "why_tests_cant": "Tests create each optimizer and run it on a small function; they never look at which optimizers it contains.", "anchors": ["nevergrad/optimization/optimizerlib.py:1906-2098", "nevergrad/optimization/optimizerlib.py:2371-3018", "nevergrad/optimization/optimizerlib.py:7399-7424"]}
{"id": "C95", "title": "Bayesian optimizers of other packages are told what happened", "statement": "`BO`, `BayesOptim` and `AXP` hand over to their package every evaluation, once, at the point which was evaluated and with its loss (negated for the maximizer bayes_opt, whose best point is then the one with the smallest loss). The variables have names in the order of the variables in any dimension, the number of initial points is the one which was asked for or the square root of the budget and at least two, and all the points of a batch are proposed before another batch is requested. Telling an asked candidate never fails.", "quantifier": "For all dimensions, budgets, answers of the packages, and sequences of asks, suggestions, rejected candidates and tells.", "why_tests_cant": "Tests run a few evaluations on a sphere with these packages; they do not look at what the package has recorded.", "anchors": ["nevergrad/optimization/optimizerlib.py:3021-3158", "nevergrad/optimization/optimizerlib.py:3208-3293", "nevergrad/optimization/optimizerlib.py:1149-1203", "nevergrad/optimization/base.py:494-551"]}
{"id": "C96", "title": "hyperopt proposes legal values and records what was evaluated", "statement": "`HyperOpt` accepts any parametrization. Every value it proposes is a legal value of the parametrization, every legal value can be proposed, a point which is told without being asked is recorded as this point, and each loss is the result of the trial of its candidate, whatever the order of the tells.", "quantifier": "For all nested instrumentations of scalars, log-scalars, integers, constants and choices; all values drawn by hyperopt; all sequences of asks and tells.", "why_tests_cant": "The space of parametrizations is infinite; tests use four instrumentations, none with integers, constants as arguments, unbounded scalars or nested positional arguments.", "anchors": ["nevergrad/optimization/externalbo.py:17-199", "nevergrad/parametrization/data.py:118-135"]}
{"id": "C97", "title": "The linked lists of the hypervolume indicator", "statement": "The lists built by `HypervolumeIndicator.compute` contain every point once, by increasing coordinate, points with equal coordinates by position. Popping nodes removes exactly them from the lists of smaller index and reinserting them in the opposite order restores every reference, so that the value computed with linked lists is the value of the algorithm on sorted lists restricted to the points present, for any number of objectives, and the lists are left as they were created. Up to three objectives it is the dominated volume.", "quantifier": "For all numbers of objectives, all lists of points (equal coordinates and duplicates included), all sequences of pops and reinserts in last-in first-out order.", "why_tests_cant": "Correctness of pointer manipulations depends on the history of pops and reinserts along the recursion, which tests exercise for a few random fronts only.", "anchors": ["nevergrad/optimization/multiobjective/hypervolume.py:16-311"]}
{"id": "C98", "title": "Multiple single-objective runs optimize weighted sums of the objectives", "statement": "`MultipleSingleRuns` optimizes several objectives with several single-objective runs, each with its own random weights: every run ranks the points told by its own weighted sum of the objectives, the candidate keeps the loss it was told with, and a run which refuses points it did not ask does not disturb the others.", "quantifier": "For all numbers of runs and objectives, all weights, all sequences of tells, any way of aggregating several objectives.", "why_tests_cant": "The weights multiply the hypervolume loss instead of the objectives; runs still improve, so tests on the final front do not see that all runs pursue the same goal.", "anchors": ["nevergrad/optimization/optimizerlib.py:5349-5396", "nevergrad/optimization/base.py:336-438"]}
{"id": "C99", "title": "The arms of NoisyBandit", "statement": "NoisyBandit only asks fresh normal points or points already evaluated; it adds a point when 20 times the number of asks reaches the cube of the number of points. In sequential use there are min(n, floor(cbrt(20(n-1)))+1) distinct points after n evaluations, and with at most w evaluations in parallel at most w more than the cube root of 20 times the number of asks, whatever the losses, the random numbers and the order of the results.", "quantifier": "For all numbers of evaluations, all random draws, all interleavings of asks and tells with a bounded number of pending points.", "why_tests_cant": "The growth of the number of arms is an asymptotic statement on all runs.", "anchors": ["nevergrad/optimization/optimizerlib.py:1326-1349", "nevergrad/optimization/base.py:446-465"]}
{"id": "C100", "title": "The tables of NGOptF, NGOptF2, NGOptF3 and NGOptF5 are searched for the nearest experiment", "statement": "On continuous noiseless problems with a budget these four optimizers use what was best in the experiment of their table nearest in (dimension, budget / dimension), the first one if several are equally near; a larger budget (dimension) never leads to an experiment with a smaller ratio (dimension); with several workers nothing that only works sequentially is chosen, and SQPCMA when nothing else remains; without a budget they raise TypeError, other problems are left to NGOpt39.", "quantifier": "For all tables, dimensions, budgets, numbers of workers, all flags of parallelizability.", "why_tests_cant": "The choice is a function of unbounded dimension and budget.", "anchors": ["nevergrad/optimization/optimizerlib.py:4385-4806"]}
{"id": "C101", "title": "The choice of NGOptF2, NGOptF3 and NGOptF5 only depends on the problem", "statement": "For a continuous noiseless problem with a budget, NGOptF2, NGOptF3 and NGOptF5 use one of the most frequent of the optimizers which remain at the nearest experiment of their table, and it is the same one in every process: it is a function of the dimension, the budget and the number of workers.", "quantifier": "For all tables, dimensions, budgets, numbers of workers, and all orders of iteration of sets of strings (hash seeds).", "why_tests_cant": "The order of iteration of a set is fixed within a process: one test run never sees two of them.", "anchors": ["nevergrad/optimization/optimizerlib.py:4476-4806"]}
{"id": "C102", "title": "One random generator for a parametrization and everything created from it", "statement": "Seeding or replacing `parametrization.random_state` makes everything reproducible: all sub-parameters, copies, spawned children and samples draw from this one generator, whatever the state of numpy's global generator.", "quantifier": "For all trees of parameters, all programs reading, mutating, copying, spawning, sampling and assigning sub-parameters, all streams of draws of all generators.", "why_tests_cant": "A test with a seed only sees one state of the other generators (and usually seeds numpy as well, which hides a second generator); the sharing holds over any tree and any sequence of operations.", "anchors": ["nevergrad/parametrization/core.py:123-147", "nevergrad/parametrization/core.py:362-440", "nevergrad/parametrization/core.py:457-468", "nevergrad/parametrization/container.py:60-65", "nevergrad/parametrization/container.py:105-108", "nevergrad/parametrization/data.py:255-266"]}
{"id": "C103", "title": "A mutation moves each variable by one step of its sigma", "statement": "`mutate` adds to every variable one independent normal step of standard deviation sigma; for a `Choice` only the weights and the drawn options are mutated, the others are left untouched.", "quantifier": "For all parameters built from arrays, containers (in any order of keys) and choices, nested in any way, all values, all sigmas and all draws.", "why_tests_cant": "A test sees a random value: whether it is the sum of one or of several draws, or of draws used elsewhere, does not show on samples; the nesting is unbounded.", "anchors": ["nevergrad/parametrization/core.py:123-130", "nevergrad/parametrization/container.py:91-103", "nevergrad/parametrization/choice.py:152-158", "nevergrad/parametrization/data.py:300-306"]}
{"id": "C104", "title": "Standardized data of a TransitionChoice selects the option it points at", "statement": "Setting the standardized data of a `TransitionChoice` with n options selects the option of the bin of the data, so that a standard normal draw gives each option with probability 1/n; `mutate` of an unordered one draws a new option.", "quantifier": "For all numbers and kinds of options (constants, parameters), all repetitions, all data.", "why_tests_cant": "Uniformity is a statement on a distribution; the failing case needs options which accept each other's values, which the tests do not use.", "anchors": ["nevergrad/parametrization/choice.py:71-89", "nevergrad/parametrization/choice.py:187-246"]}
{"id": "C105", "title": "Selection made by NgIohTuned", "statement": "NgIohTuned (CSEC11) always selects an algorithm, whatever is declared about the problem and also when no budget is given; with several workers it (and CSEC, CSEC10) never selects one which can only run sequentially; on deterministic problems with 2 to 49 continuous variables and one worker the algorithm is a given function of the dimension and of the number of evaluations per dimension; CSEC10 differs from CSEC11 only there, from 300 to 3000 evaluations per dimension; problems declared as real-world, neural or with constraints get the algorithms meant for them.", "quantifier": "for all budgets, dimensions, numbers of workers and descriptions of the problem", "why_tests_cant": "the selection is a tree over unbounded integers which calls the trees of five other classes on itself; tests only run a few leaves, and never the declared problems", "anchors": ["nevergrad/optimization/optimizerlib.py:7433-7681", "nevergrad/optimization/optimizerlib.py:5219-5254", "nevergrad/optimization/optimizerlib.py:6571-6786", "nevergrad/parametrization/core.py:52-56"]}
{"id": "C106", "title": "Restarts of NgIoh12 to NgIoh18", "statement": "On smooth problems with more than 2000 evaluations per dimension and at least 1000 per dimension for each worker (and only there), NgIoh12 to NgIoh18 run one member per block of 1000 evaluations per dimension, at least two and at least one per worker. NgIoh17 and NgIoh18 run them one after the other: every member has the same algorithm, which only depends on the dimension, between 1000 and 1500 evaluations per dimension, the members' budgets add up to the budget and every one of them is used. The selection leaves the optimizer's own budget as it was.", "quantifier": "for all budgets, dimensions, numbers of workers, random scales and shifts", "why_tests_cant": "the number of members grows with the budget; the sub-budgets are rounded up, which only matters for budgets tests cannot run; the budget is overwritten during the selection", "anchors": ["nevergrad/optimization/optimizerlib.py:5692-5776", "nevergrad/optimization/optimizerlib.py:5779-6467", "nevergrad/optimization/optimizerlib.py:7000-7136"]}
{"id": "C107", "title": "What ParametersLogger records can be read back", "statement": "Registered on tell, ParametersLogger adds one line per call to what the file contained (append=False first removes it). The line gives the loss (each loss, with several objectives), identifier, lineage, generation and parents of the candidate, the counts and configuration of the optimizer, and the value and sigma of every parameter up to the requested order under its flattened name. load returns these lines in order; load_flattened returns one dictionary per line, without lists: the first max_list_elements elements of each list, in row-major order, under list_name#i0_i1_..., unique for each element, whatever the order of Python's sets.", "quantifier": "for all candidates, parametrizations, nested lists and array shapes, sequences of calls, existing files, orders of iteration of sets", "why_tests_cant": "tests read a few keys of two parametrizations; collisions of keys, ragged values and the order of sets depend on names and values users choose", "anchors": ["nevergrad/optimization/callbacks.py:101-208", "nevergrad/parametrization/helpers.py:20-72"]}
{"id": "C108", "title": "Penalties of infeasible candidates", "statement": "With a budget, telling a candidate which violates a constraint gives the algorithm a loss larger than the told one: a penalty which is positive exactly for infeasible candidates (constraints of sub-parameters included), larger for larger violations and never decreasing along the run; ConstraintManager.update rejects exponents below 1 and otherwise changes what is given and nothing else. Violations announced with constraint_violation add (a + |loss|) * (f + num_tell)**e * (b * sum(cv**c))**d, zero exactly without violation. Such candidates never enter the archive, feasible ones are told with their own loss.", "quantifier": "for all results of constraints, nested parameters, managers, penalty styles, violations, losses, budgets and numbers of asks and tells", "why_tests_cant": "tests look at one penalized run; signs, monotonicity and the documented formula range over reals", "anchors": ["nevergrad/parametrization/utils.py:269-278", "nevergrad/parametrization/core.py:287-318", "nevergrad/optimization/utils.py:354-399", "nevergrad/optimization/base.py:395-421"]}
{"id": "C109", "title": "Containers read back the values they accept", "statement": "Assigning to the value of a Dict, Tuple or Instrumentation raises nothing exactly when the value has the keys or the size of the container and every entry accepts its part; the value read afterwards is the assigned one (in any order of keys), and the function is called with these arguments. A refused assignment changes nothing. Assigning the current value changes nothing. Constants accept nothing but their value. Structure, keys, sizes and constants never change by assignments. Two parameters of one family have the same value hash exactly when their values are equal.", "quantifier": "for all nested parameters of constants, arrays, scalars, dictionaries and tuples, all values and orders of keys", "why_tests_cant": "tests assign a few dictionaries; nesting, orders of keys and failures at any place of the tree cannot be enumerated", "anchors": ["nevergrad/parametrization/container.py:31-78", "nevergrad/parametrization/container.py:145-159", "nevergrad/parametrization/container.py:184-243", "nevergrad/parametrization/core.py:94-109", "nevergrad/parametrization/core.py:239-250", "nevergrad/parametrization/core.py:471-510", "nevergrad/parametrization/data.py:332-341", "nevergrad/parametrization/_layering.py:182-227"]}
{"id": "C110", "title": "Configured optimizers show and pass on their settings", "statement": "The name of a configured optimizer shows each public setting which differs from its default, once and in alphabetical order, whatever the order in which they were given; it shows nothing exactly when all are defaults. Equal configured optimizers of a class have the same name and the same name means equal settings. Optimizers created from it get exactly its settings, the parametrization, budget and number of workers, and its name. Equality is an equivalence. Settings of experiments are equal exactly when they describe the same runs; sequential optimizers with several workers are flagged.", "quantifier": "for all classes, arguments, defaults, values with their equality and texts, nesting of configured optimizers and settings of experiments", "why_tests_cant": "tests compare a few names; all settings, values and orders cannot be enumerated", "anchors": ["nevergrad/optimization/base.py:792-860", "nevergrad/common/tools.py:162-203", "nevergrad/benchmark/xpbase.py:45-120"]}
{"id": "C111", "title": "The competence maps select an algorithm fit for the problem", "statement": "Wiz, Shiwa, NGOpt13, NGOpt38, NGOptRW, NGOptDSBase, NgIoh, NgIoh2, NgIoh3, NgIohRW2, NgIoh5 to NgIoh11, NgIoh19, NgIoh20, NgDS11 and NgDS always select an algorithm, also when no budget is given, and with several workers never one which can only run sequentially. Wiz and NgIoh to NgIoh3 select Carola2 on continuous deterministic problems with one worker and a budget in a given range, and what NGOpt selects elsewhere. The later versions only change what is selected where they are meant to, and on continuous deterministic problems in dimension 2 to 49 with one worker they select a given function of the dimension and of the number of evaluations per dimension. Portfolios are not empty and the budget covers them.", "quantifier": "for all 21 classes, all problems (layers, noise, dimension, bounds, budget, workers)", "why_tests_cant": "tests run a few dimensions and budgets; the borders of the ranges and all combinations of classes, noise, workers and budgets cannot be enumerated", "anchors": ["nevergrad/optimization/optimizerlib.py:3914-3973", "nevergrad/optimization/optimizerlib.py:4161-4172", "nevergrad/optimization/optimizerlib.py:4259-4300", "nevergrad/optimization/optimizerlib.py:4386-4394", "nevergrad/optimization/optimizerlib.py:4816-5348", "nevergrad/optimization/optimizerlib.py:5557-5776", "nevergrad/optimization/optimizerlib.py:6470-6567", "nevergrad/optimization/optimizerlib.py:6790-6996", "nevergrad/optimization/optimizerlib.py:7139-7364"]}
{"id": "C112", "title": "The LSGO functions have the announced optimum and structure", "statement": "Each of the LSGO functions 1 to 15 but the 14th is defined and non-negative on arrays of its dimension, and zero at its attribute optimum and nowhere else. The groups of variables have the given sizes, cover all the variables, are disjoint (or share exactly the given overlap with the next group). Separable functions can be optimized variable by variable and partially separable functions group by group, whatever the values of the other variables. Function 14 is zero exactly where all its groups agree with their part of the shift, hence nowhere when these parts conflict.", "quantifier": "for all data (shifts, permutations, sizes, positive weights, invertible rotations) and all points", "why_tests_cant": "the tests check a few points of each function in dimension 1000", "anchors": ["nevergrad/functions/lsgo/_core.py:16-165", "nevergrad/functions/lsgo/_funcs.py:25-404"]}
{"id": "C113", "title": "The power system simulator conserves energy and uses cheap plants first", "statement": "For a power system with at least one output per agent, arrays of the dimension of the agents and any draws, the simulation returns a cost. At each time step the consumption is the sum of the productions of dams and thermal plants and of the unmet demand. No plant exceeds its capacity, stocks stay non-negative, and the water in the dams is the rain minus the production. A plant is only used when all the cheaper ones are at their capacity, so that no other dispatch is cheaper, and the cost is what thermal plants and failures cost. Setting the parameters of an agent uses each weight once. The networks have depth layers, with width neurons per hidden layer. The plots show means over the days.", "quantifier": "for all numbers of dams and plants, durations, prices, capacities, weights and draws", "why_tests_cant": "the test runs one seed and compares the loss with a recorded value", "anchors": ["nevergrad/functions/powersystems/core.py:20-235", "nevergrad/functions/powersystems/core.py:252-264"]}
{"id": "C114", "title": "The fishing simulator is defined for all efforts", "statement": "For all lists of daily efforts the total fishing is defined, the populations stay between 0 and 1, and what is fished on a day is at most a tenth of the effort. The loss is non-positive, zero exactly when there is no positive effort, and negative efforts count as none. One more day, or more effort on the last day, never increases the loss. After an effort of 13 or more nothing is fished any more.", "quantifier": "for all lists of efforts, over any ordered field", "why_tests_cant": "the test compares the loss at one random point with a recorded value", "anchors": ["nevergrad/functions/fishing/core.py:32-59"]}
{"id": "C115", "title": "The penalized objective of unit commitment is the cost exactly for feasible plans", "statement": "For a positive penalty weight, states in 0 and 1 and any outputs, the objective of a unit commitment problem is at least the running cost, and equal to it exactly when the plan is feasible: the demand is produced at each time point, generators that are on produce between the bounds, the others nothing. All the problems have feasible plans.", "quantifier": "for all sizes, draws, outputs and states, over any ordered field", "why_tests_cant": "the test compares one value with a recorded one", "anchors": ["nevergrad/functions/unitcommitment/core.py:27-83"]}
{"id": "C116", "title": "The travelling salesman function is the length of a tour", "statement": "Each array gives a tour that visits each city once, in the order of its entries; only this order matters, and every tour is the one of some array. The simple loss is the length of the closed tour, at least twice the distance of any two cities, and does not depend on the first city or on the direction: the opposite of an array has the same loss. The complex loss adds the scaled squares of the jumps.", "quantifier": "for all numbers of cities, positions and arrays", "why_tests_cant": "the test checks that one value is finite", "anchors": ["nevergrad/functions/stsp/core.py:19-36"]}
{"id": "C117", "title": "Quasi-randomized points keep the norms of the given points and are balanced", "statement": "For all shapes, numbers of points and draws, quasi_randomize with a method gives as many points as it is given, each with the norm of the given one and the direction of the method's point. The pure random points are unit points. The points of antithetic_pm are unit points and sum to zero. Those of antithetic_order are the draws with the slices along an axis permuted: over complete batches the values at all slices have the same sum, and zero with the signs. Those of block_symmetry are the draws with the signs of the blocks changed, each pattern once, and each entry is in exactly one block. In lhs each stratum of each entry is used once, and for an even number half of the values are negative.", "quantifier": "for all shapes, numbers of points, draws and shuffles, over the real numbers", "why_tests_cant": "the test runs each method on one or two small shapes and compares metrics with recorded bounds", "anchors": ["nevergrad/common/sphere.py:47-111", "nevergrad/common/sphere.py:496-530", "nevergrad/common/sphere.py:633-646", "nevergrad/common/sphere.py:1233-1269"]}
{"id": "C118", "title": "The searches for dispersed points improve their criterion", "statement": "greedy_dispersion adds at each step the draw that is the farthest from the present points; dispersion never decreases the smallest distance of two points; a step of covering moves the nearest point closer to the target and leaves the others. jittered gives n points that are shared equally between the classes, up to one. metric_half is between 0 and 1/4, metric_pack is the largest product of two points; rs gives the first best of its tries. All of this for all numbers of points and draws.", "quantifier": "for all points, draws, batches and classes", "why_tests_cant": "the test runs each method once on small shapes", "anchors": ["nevergrad/common/sphere.py:176-234", "nevergrad/common/sphere.py:533-558", "nevergrad/common/sphere.py:593-622", "nevergrad/common/sphere.py:702-710", "nevergrad/common/sphere.py:750-757", "nevergrad/common/sphere.py:796-805", "nevergrad/common/sphere.py:923-955"]}
{"id": "C119", "title": "The 007 game follows its rules, and fixing agents does not change the game that is played", "statement": "In the 007 game every action of every player is possible in every state, a player never fires without ammunition, exchanging the players exchanges the rewards, a player wins exactly when the rules say so, and no game lasts more than a hundred steps. Playing against fixed agents, in the partial environment or in the single-agent one, gives the same rewards, the same number of steps and the same final states as playing the whole environment with all agents. The runner plays at most its limit of steps and stops early only if the game is over; for deterministic players the mean over repetitions is the reward of one game.", "quantifier": "for all histories, environments, agents, sets of fixed agents, limits and numbers of repetitions", "why_tests_cant": "the tests play a few games with given or random actions, and never compare the partial environment with the whole one", "anchors": ["nevergrad/functions/rl/envs.py:12-127", "nevergrad/functions/rl/base.py:11-257", "nevergrad/functions/rl/agents.py:61-76", "nevergrad/functions/rl/agents.py:128-129", "nevergrad/functions/rl/agents.py:183"]}
{"id": "C120", "title": "The data analysis problems have the minima and symmetries of the mathematical problems", "statement": "The clustering loss is the sum over the points of the squared distance to the closest center: zero exactly when each point is a center, not increased by further centers nor by Lloyd's step, the same for any order of points and centers, minimal at the mean for one cluster; with rescaling it does not depend on the units, and its initial point costs the number of points times the number of coordinates. The perceptron loss is zero exactly for a fit, and the same for renumbered units and changed signs. The Sammon loss is zero exactly when all distances are the wanted ones, the same after a movement of the plane or a change of unit. The landscape is zero exactly on the largest pixels and infinite exactly outside the image.", "quantifier": "for all data, numbers of clusters, parameters, images and positions, over the real numbers", "why_tests_cant": "the tests evaluate each function at one or two points", "anchors": ["nevergrad/functions/mlda/problems.py:21-77", "nevergrad/functions/mlda/problems.py:80-139", "nevergrad/functions/mlda/problems.py:143-208", "nevergrad/functions/mlda/problems.py:228-252", "nevergrad/functions/mlda/datasets.py:91-105"]}
{"id": "C121", "title": "A team pursuit always ends with a time on a grid or with a loss, and its riders stay in order", "statement": "In the team pursuit the riders always keep their order of rotation: those left have the positions 1, 2, ... in the order of their numbers, there is exactly one at the head, a transition brings the first to the end, and a rider without energy is out for the rest of the race. A race either ends with at least three riders, the whole distance done and a time made of whole time steps and of the transitions, or it is lost: the time is infinite, a part of the distance is missing and less than three riders are left. The objective is positive, at most 10000 and a multiple of a fiftieth of a second. Strategies with a wrong length or power are refused. At the head a rider keeps the velocity exactly when the power equals the drag and the friction, and the energy falls by the power times the time; behind, less power is needed the further back.", "quantifier": "for all strategies, physics with fresh riders that have energy, and numbers of steps; for all real velocities, powers, bodies in the stated range and weather", "why_tests_cant": "the tests run six fixed strategies and compare the times with constants", "anchors": ["nevergrad/functions/cycling/cycling.py:41-108", "nevergrad/functions/cycling/mensteampursuit.py:14-107", "nevergrad/functions/cycling/womensteampursuit.py:14-89", "nevergrad/functions/cycling/teampursuit.py:10-139", "nevergrad/functions/cycling/cyclist.py:20-153"]}
{"id": "C122", "title": "The reflection of a coating obeys the laws of optics", "statement": "For every list of positive permittivities, depth, wavelength and pair of outer media the reflection is at least 0 and less than 100 percent. It is the same for light from the other side through the slabs in the reverse order. A slab of the outer medium in front, or of the substrate behind, has no effect; cutting every slab into equal thinner ones of the same permittivity has no effect. The objective is the mean over the wavelengths: between 0 and 100 percent for permittivities between those of the two media, infinite for others, an error for a wrong number of slabs; air over the material of the substrate is no coating and has 25 percent, whatever the depth.", "quantifier": "for all lists of permittivities, depths, wavelengths, outer permittivities and numbers of slabs", "why_tests_cant": "the tests evaluate one instance on a few arrays", "anchors": ["nevergrad/functions/arcoating/core.py:16-29", "nevergrad/functions/arcoating/core.py:54-84"]}
{"id": "C123", "title": "Every graph is the graph of a choice in the causal discovery problem", "statement": "In the causal discovery problem the choices and the pairs of nodes correspond: the graph of every choice has all nodes, there is an edge from one node to another exactly if the choice of their pair says so, no node is joined to itself and no two nodes in both directions, and every way of joining pairs of nodes by at most one edge is the graph of a choice. The value is minus the difference of the two scores of this graph.", "quantifier": "for all lists of names without repetition and all choices", "why_tests_cant": "the tests check that values are finite on random graphs", "anchors": ["nevergrad/functions/causaldiscovery/core.py:76-107"]}
{"id": "C124", "title": "The topology problem has its optimum exactly at the wanted pattern", "statement": "In the topology problem the wanted values are 3/4 and -3/4. The value of an array is never negative and zero exactly when all elements are within the tolerance of the wanted ones and the filter has no effect; an array that the filter leaves unchanged has five times its share of wrong elements; the value is at most 11 for a filter that keeps the range, and 5 for the middle of the domain. The pattern is not trivial: no constant array has the best value.", "quantifier": "for all sizes, instances, arrays and filters", "why_tests_cant": "the tests check that one instance gives finite values", "anchors": ["nevergrad/functions/topology_optimization/core.py:18-59"]}
{"id": "C125", "title": "The rocket keeps the impulse of its engine and obeys mechanics", "statement": "The biases of the rocket problem change the thrusts in the asked ratios and keep the impulse of the engine; adding the same number to all biases has no effect and neither has the first one; without biases the thrusts are the ones of the table. The assertions never fail, the masses decrease and stay between those of the rocket without and with the loaded engine. The value is one minus the largest height over the reference, so at most the value of the launch; a wrong number of biases is an error. The forces are those of mechanics: the gravity has Newton's size, the drag the size of the physics, and they oppose position and velocity; the mass after the burn is the one of the empty engine; the positions move for as long as the burn lasts; the launch is at 45 degrees.", "quantifier": "for all biases, positions, velocities, densities, launch positions and altitudes", "why_tests_cant": "the tests compare a few values with constants", "anchors": ["nevergrad/functions/rocket/rocket.py:22-98", "nevergrad/functions/rocket/rocket.py:155-296"]}
{"id": "C126", "title": "Differential evolution recommends its best point and has the symmetries of its moves", "statement": "Differential evolution recommends, with the rules optimistic and pessimistic, the best point it evaluated on a function without noise, and its runs depend on the order of the losses only. No place of its population ever gets worse and the kept losses are those of the kept points. A coordinate in which the first points agree never changes; with crossover rate 1 no run leaves the affine subspace of its first points and the runs commute with all affine changes of coordinates, with every crossover by coordinates they commute with changes of origin and scale of the coordinates. The rule noisy gives the mean of the at most half of the population better than the median, or the pessimistic best; high_speed the optimum of the metamodel exactly from the number of points that determines a quadratic function; the rule mean gives the mean. The sizes of the population are the documented ones and small is smaller than standard.", "quantifier": "for all functions, first points, draws, masks, weights, affine maps, options, prunings and histories", "why_tests_cant": "the tests compare recommendations with recorded ones on a few runs", "anchors": ["nevergrad/optimization/differentialevolution.py:118-253", "nevergrad/optimization/differentialevolution.py:353-392", "nevergrad/optimization/utils.py:35-69", "nevergrad/optimization/base.py:116-119"]}
{"id": "C127", "title": "The mirrors of the photonics problems obey the laws of optics and have a known optimum", "statement": "The value of the Bragg problem is at least 4s/(s+1)^2 for the product s of the ratios of neighbouring indices from air to the substrate, so positive, and at most 1. On the domain of the problem with N layers it is at least this bound for s = sqrt(3) sqrt(3/2)^N, and for even N there are points of the domain with values as close to it as one wants. Half a wave length more of a layer has no effect, and two neighbouring layers of the same material are one. The chirped problem has the same range for an even number of layers and an error for an odd one. The parametrization exists exactly for the multiples of 2 and of the number of kinds of variables, starts in the middle of the bounds, and every problem receives its variables in the slices that it reads, as an array or with as_tuple. Errors and nan are infinite losses. Every call of ceviche gives the shape, name or loss of the asked problem.", "quantifier": "for all lists of permittivities and heights, wave lengths, numbers of layers, tables of variables, devices and sequences of calls", "why_tests_cant": "the tests compare a few values with constants", "anchors": ["nevergrad/functions/photonics/photonics.py:33-73", "nevergrad/functions/photonics/photonics.py:421-563", "nevergrad/functions/photonics/core.py:31-107", "nevergrad/functions/photonics/core.py:182-205"]}
{"id": "C128", "title": "The solar cell problems conserve energy and their cost is the lost share of the light", "statement": "For any number of transparent layers over an absorbing last layer, the flow of energy is the same at all places above the last layer, the transparent layers absorb nothing, the last one absorbs (1 - R)(1 - exp(-2 Im(gamma) h)) for the reflected share R < 1, and the reflected share, the absorbed shares and the share that is left make one. Two media obey the law of Fresnel, and a quarter wave layer with the mean index reflects nothing. The permittivity of silicon is interpolated between its neighbours in the table. The cost is 1 minus the mean of the shares weighted with the solar spectrum: it is between 0 and 1 for all the points with positive permittivities and goes down when a share goes up. The reference problem is the realistic one with the permittivities 2, 3, 2, 3, ... The product of two scattering matrices, also with blocks, is the matrix of the two systems one below the other.", "quantifier": "for all numbers of layers, permittivities, heights, wave lengths, spectra, tables and scattering matrices", "why_tests_cant": "the tests compare two costs with constants", "anchors": ["nevergrad/functions/photonics/photonics.py:76-115", "nevergrad/functions/photonics/photonics.py:238-418"]}
{"id": "C129", "title": "The optimizers made from pymoo evaluate the points of pymoo", "statement": "The points of pymoo in its box correspond one to one, with the order of each coordinate, to all the points of the space. When the number of objectives is given, the evaluated points are exactly those that the algorithm evaluates when it is called with the objective, each told with all its losses; when it is not, one evaluation of the initial value comes first and is not used, and the rest is the same. The number of objectives never changes. The replay of the archive when unpickling rebuilds the thread. Penalties for violated constraints reach the algorithm, asking goes on when the cheap constraints refuse a point, and in the batch version every asked candidate can be told.", "quantifier": "for all algorithms, objectives, numbers of objectives, penalties, constraints and orders of asks, tells and steps of the thread", "why_tests_cant": "the tests run one algorithm on one objective without constraints", "anchors": ["nevergrad/optimization/recastlib.py:571-872", "nevergrad/optimization/recaster.py:169-205", "nevergrad/optimization/recaster.py:340-408", "nevergrad/optimization/base.py:510-537"]}
{"id": "C130", "title": "A model of Pyomo is optimized on its own domain, with its own constraints and sense", "statement": "The values that candidates give to a variable are exactly those of its domain and within its bounds: real intervals, integers, steps and finite sets. Different variables have different parameters, and the code that assigns the values assigns each variable its own value. Every evaluation of the objective or of a constraint, in any order, is that of the values of its own candidate. A smaller loss is a smaller objective to minimize and a greater one to maximize, and a constraint with indexes holds when all its members hold.", "quantifier": "for all domains, bounds, names, indexes, objectives, constraints and sequences of evaluations", "why_tests_cant": "the tests run an optimizer on four models", "anchors": ["nevergrad/functions/pyomo/core.py:16-183"]}
{"id": "C131", "title": "Tuning a learner minimizes its cross-validation error, and a recommendation is evaluated on the test set", "statement": "For each of the five problems and every candidate, the function gets all its arguments, those of the candidate are used as they are, and the loss is the mean over the folds of the errors of newly made learners. The folds split the training rows into parts that share no row, and each row is validated once. The evaluation of a recommendation is the test error of a learner with the recommended parameters, trained on the training set with the labels of the target; with `overfitter` it is the same as the loss.", "quantifier": "for all problems, candidates, learners, data, numbers of rows and folds, dimensions and shuffles", "why_tests_cant": "the tests call the functions once and check no value of the data or of the error", "anchors": ["nevergrad/functions/ml/mlfunctionlib.py:44-353"]}
{"id": "C132", "title": "The controllers of the gym problems read each weight once, do not change the weights, and give all the actions of the action space and no other", "statement": "The number of weights of the parametrization is the number of entries that the controller reads, and each weight has its own place in one of the matrices. The outputs are those of the net with these weights, and a call leaves the weights of the candidate as they are. The action made from the outputs is in the action space, and each action is made from some outputs.", "quantifier": "for all environments (numbers of observations, actions and time steps), kinds of controls, weights, inputs and draws", "why_tests_cant": "the tests run a few environments for a few steps and check that a loss is returned", "anchors": ["nevergrad/functions/gym/multigym.py:151-332", "nevergrad/functions/gym/multigym.py:354-454", "nevergrad/functions/gym/multigym.py:497-536"]}
{"id": "C133", "title": "The loss of a controller is minus the reward of its episodes, and depends on nothing but the weights and the environment", "statement": "A simulation runs the controller until the episode ends or the number of time steps is reached. Its loss is minus the sum of the rewards, discounted by gamma for later ones if asked; an illegal action has a loss that is smaller when it comes later. The input of the controller always has its length. Two simulations with the same weights in the same environment have the same loss. A call is the mean over the seeds, and the evaluation of a recommendation is the mean over many calls that are at most a fifth of the calls made before. The advice of the heuristic comes from the best traces. More weights than the limit of a sparse net are penalized and less are not. An environment can be reset and then has an episode like the first one.", "quantifier": "for all environments, controllers, numbers of time steps, archives, seeds, numbers of calls and weights", "why_tests_cant": "the tests run a few environments for a few steps and check that a loss is returned", "anchors": ["nevergrad/functions/gym/multigym.py:334-352", "nevergrad/functions/gym/multigym.py:456-495", "nevergrad/functions/gym/multigym.py:538-686", "nevergrad/functions/gym/tuple_gym_env.py:16-56"]}
{"id": "C134", "title": "Launched benchmarks append one row for each experiment to the file, with any number of workers, and selections of the results are exact", "statement": "After a number of repeated launches the csv file has all its old rows as they were, and then for each repetition one row for each experiment of the plan made with the seed of that repetition; columns that are missing are empty, no column is lost and no other file changes. The number of workers only changes the order of the rows within a repetition. When the path cannot be written the results go to the file named after the experiment. `select` gives the rows that satisfy all criteria whatever their order, `select_and_drop` only drops the columns of the criteria, `unique` gives the set of values, and `assert_equivalent` passes exactly for frames that are equal up to the order of rows and columns.", "quantifier": "for all plans, seeds, caps, numbers of workers and repetitions, results, existing files, paths, frames and criteria", "why_tests_cant": "the tests launch one small plan and look at the number of columns", "anchors": ["nevergrad/benchmark/core.py:37-48", "nevergrad/benchmark/core.py:223-304", "nevergrad/benchmark/__main__.py:16-131", "nevergrad/benchmark/utils.py:13-104"]}
{"id": "C135", "title": "A command as a function ends when the command does, with all that it wrote, and a folder function gives the number of its last line", "statement": "A call of a CommandFunction ends whatever the order in which the command writes to stdout and stderr and however this is interleaved with the reading, and it gives everything that was written to stdout; a command that fails raises FailedJobError with everything that was written to stderr. The arguments and keywords of the call are passed so that they can be read back from the command line. A FolderFunction returns the number on the last line of the output, whatever comes before it, and raises an error, keeping the last full output, when the command fails.", "quantifier": "for all commands, written texts, capacities of the pipes, interleavings, return codes, arguments and keywords", "why_tests_cant": "the tests run three short commands which write at most one line to stderr", "anchors": ["nevergrad/parametrization/utils.py:126-203", "nevergrad/parametrization/instantiate.py:225-309"]}
{"id": "C136", "title": "The recommendation rules of the one-shot optimizers", "statement": "A one-shot optimizer with a recommendation rule recommends the mean of k best points of its archive: k = min(n // 4, dimension) for \"average_of_best\", n / 1.1^dimension for \"average_of_exp_best\", and for \"average_of_hull_best\" the largest number of points up to the first one for which the function looks quasiconvex on the k best points (no point is in the convex hull of better ones); at least one point. Without points, and for \"pessimistic\", the default recommendation is used.", "quantifier": "for all archives, dimensions, numbers of points, rules and both kinds of one-shot optimizers", "why_tests_cant": "the rule of the hull is in no test; the hull of arbitrary points cannot be enumerated", "anchors": ["nevergrad/optimization/oneshot.py:20-92", "nevergrad/optimization/oneshot.py:185-195", "nevergrad/optimization/oneshot.py:345-348"]}
{"id": "C137", "title": "The experiment plans of the yabbob family", "statement": "Each plan of the yabbob family holds one experiment for every combination of an optimizer, a function and a budget that is not incoherent, in a fixed order, and the seed of each is the next draw of the generator, so that the same seed gives the same plan and no two combinations share a draw. The dimensions, budgets, noise, workers, bounds and blocks are those the plan announces; every function is there rotated and not rotated. The plans with constraints give each experiment the constraints of its case (cheap or penalized); the smooth ones are convex, met by a common point and not met by another.", "quantifier": "for all seeds, flags, tables of recorded optimizers and coherence tests; for the smooth constraints all dimensions, draws and points", "why_tests_cant": "the tests only check that the first experiments of a plan can be made and repeated; the content of the plans is not compared with what they announce", "anchors": ["nevergrad/benchmark/experiments.py:57-593", "nevergrad/benchmark/experiments.py:640-659", "nevergrad/benchmark/experiments.py:1485-1997", "nevergrad/benchmark/xpbase.py:118-134"]}
{"id": "C138", "title": "The choice between mutations", "statement": "A MutationChoice selects one of its mutations, or the default one of the parameter, by its Choice sub-parameter, and the selected one changes the value when the parameter is mutated or recombined; it can be applied to any number of parameters, whose layers keep their order when they are copied, and each gets its own sub-parameters, the first mutation that uses a name deciding its value.", "quantifier": "for all parameters with layers of all levels, all lists of mutations with or without the methods, all selections and numbers of steps", "why_tests_cant": "the only test checks that mutating does not fail; which mutation was applied depends on the order of the layers for any list", "anchors": ["nevergrad/parametrization/mutation.py:20-95", "nevergrad/parametrization/_layering.py:47-122", "nevergrad/parametrization/core.py:123-160"]}
{"id": "C139", "title": "The smoothing steps of the one-plus-one", "statement": "With smoother=True and an array as parametrization, one candidate out of max(num_workers + 1, antismooth) is a smoothed copy of the best point: each coordinate is that of the best point or the mean of the coordinates at most half of the radius away along each axis, the array being mirrored at its borders, so that the copy stays in the range of the values, a constant array is kept and the smoothing commutes with changes of unit; the copy is another point and depends on the seed only; the crossovers still take place when they are asked for; suggestions of the user come first.", "quantifier": "for all shapes, numbers of axes, radii, values, draws, settings and numbers of candidates", "why_tests_cant": "the tests run the optimizers and compare losses; the window at the borders, the range of the copy and the turn of each kind of candidate need an argument for all shapes and all runs", "anchors": ["nevergrad/optimization/optimizerlib.py:67-87", "nevergrad/optimization/optimizerlib.py:258-300", "nevergrad/optimization/base.py:273-297", "nevergrad/optimization/base.py:507-556"]}
{"id": "C140", "title": "Callbacks, and saved optimizers that are continued", "statement": "The callbacks of ask and tell are called once for each call, in the order of their registration, before the ask or the evaluation is counted; an exception of one of them ends the call; the printer and the logger show the recommendation or the losses whenever they are due. An optimizer saved by an OptimizerDump at any call during minimize, loaded and continued by minimize with the same objective, ends in the state in which the run would have ended without interruption: nothing is lost, evaluated again or told twice, and the counters of the callbacks are right.", "quantifier": "for all algorithms, objectives, budgets, numbers of workers, numbers and orders of callbacks and all calls at which the state is saved", "why_tests_cant": "a test saves and loads at one point of one run; equality with the uninterrupted run for all points and all algorithms needs an invariant", "anchors": ["nevergrad/optimization/base.py:255-271", "nevergrad/optimization/base.py:384-431", "nevergrad/optimization/base.py:680-741", "nevergrad/optimization/callbacks.py:43-98", "nevergrad/optimization/callbacks.py:261-304", "nevergrad/optimization/multiobjective/core.py:89-132"]}
{"id": "C141", "title": "The grating of the photonics problem morpho", "statement": "The matrices of the profile hold its Fourier coefficients and are Hermitian and positive definite, and a motif always has modes, which go through its layer or fade away. The scattering matrix of a stack is the one of the fields that are continuous at all interfaces. All the light is reflected or transmitted, so the loss is between 1/2 and 5/2. The loss does not depend on which eigenvectors are found, and does not change when the grating is moved along the surface, seen in a mirror, or when one ridge is moved by a period. A motif of no height changes nothing, and without motifs the reflection is the one of Fresnel.", "quantifier": "for all numbers of motifs and of orders, all heights, positions and spacers, all widths from 0 to the period, and all routines that compute eigenvectors", "why_tests_cant": "a test computes a loss for a few arrays with rounding errors; conservation of energy and the symmetries for all gratings need a proof over the matrices", "anchors": ["nevergrad/functions/photonics/photonics.py:78-232", "nevergrad/functions/photonics/core.py:71-73"]}
{"id": "C142", "title": "The solver in the frequency domain of the photonic devices", "statement": "The derivative matrices take differences on the grid, in both directions, with a field of 0 beyond the border, and commute. The wave matrix is the equation of Helmholtz with second differences; it is symmetric, with absorbing layers too, so that source and detector can be exchanged, and Hermitian without them. The source acts only in the two columns at the border of its region, and the total field satisfies the wave equation wherever the source does. The loss does not depend on the factors of the eigenvectors. The index of a mode is at most the one of the material and the wave does not grow along the guide. The absorbing layers absorb, are symmetric, and leave the grid between them as it is.", "quantifier": "for all sizes of the grid, resolutions, materials, layers, sources and eigenvectors", "why_tests_cant": "a test computes the loss of one device; it does not show that the matrices are the differences on the grid, nor symmetries for all materials", "anchors": ["nevergrad/functions/photonics/functions.py:9-219", "nevergrad/functions/photonics/bender.py:158-272", "nevergrad/functions/photonics/mode_converter.py:161-275"]}
{"id": "C143", "title": "Cross-validation of multiobjective experiments leaves one function out, and its evaluation is the held-out loss of a recommendation", "statement": "`create_crossvalidation_experiments` gives one experiment for each selection method and each function, in this order. The optimized losses are the ones of all other functions and of the functions for training, in their order; the held-out function is not seen by the optimizer. The experiments exist for two different instances or more with the same parametrization name. The score is the held-out loss of one of the recommendations: the least one if there are at most `pareto_size` recommendations, otherwise the least one over at most `pareto_size` of them, selected by the given method. The losses at the origin are the upper bounds. A copy has new experiments and its own parametrization.", "quantifier": "for all lists of functions, losses, sizes, methods, draws and recommendations", "why_tests_cant": "a test builds the experiments for three functions and evaluates three times the same point, below the size of the selection", "anchors": ["nevergrad/functions/helpers.py:13-130", "nevergrad/functions/base.py:370-396", "nevergrad/optimization/multiobjective/core.py:52-149"]}
{"id": "C144", "title": "The points of the sampling searches follow the quantiles of the distribution", "statement": "A sampling search (Halton, Hammersley, Latin hypercube or random, with or without the middle point) asks exactly as many points as its budget, the middle first when it is wanted, and no more. On an unbounded array each coordinate is the scale times a quantile of the chosen distribution (normal or Cauchy): for Latin hypercubes exactly one point is in each of the B parts of equal probability; for Halton with the prime b the first b^k - 1 points are exactly at the quantiles m / b^k; for Hammersley the first coordinate is at (t + 1/2) / B in this order. With rescaling every coordinate is a number and both ends of the clipped distribution are reached. Automatic scales are positive numbers.", "quantifier": "for all dimensions, budgets, primes, permutations, draws, scales and distributions whose distribution function is inverted by its quantile function", "why_tests_cant": "the tests check a few points and final losses; the equal coverage of all parts for all budgets and dimensions needs an argument on the radical inverse and on permutations through the clipping and the quantile function", "anchors": ["nevergrad/optimization/oneshot.py:237-343", "nevergrad/optimization/sequences.py:49-221", "nevergrad/parametrization/transforms.py:264-306"]}
{"id": "C145", "title": "The name of a parametrization tells how it is made", "statement": "The name of a parametrization, which is used to tell benchmark functions apart, to decide whether a copy of a function needs another parametrization and to write logs, determines its structure: two parametrizations with the same name have the same classes, shapes, layers, keys, internal parameters and constants. It does not depend on the order in which the items of a dictionary are given. A copy of a function whose parametrization was replaced has the new parametrization.", "quantifier": "for all trees of parameters, shapes, layers, keys and constants", "why_tests_cant": "the tests compare ten names with fixed texts; that no two structures share a name is a statement on all pairs of trees", "anchors": ["nevergrad/parametrization/_layering.py:126-159", "nevergrad/parametrization/data.py:141-152", "nevergrad/parametrization/container.py:159-189", "nevergrad/functions/base.py:144-182"]}
{"id": "C146", "title": "The crossover in the Fourier domain mixes the frequencies of its parents", "statement": "The Fourier transform layer gives the coefficients of an array and its inverse gives the array back. A crossover in the Fourier domain gives a real array of the same shape whose coefficient at each frequency is that of one of its parents: of the second parent in the part drawn, of the first elsewhere. Two equal parents give their value back, the mean is that of one of the parents, the sum of squares is at most that of the two parents, and bounds are respected.", "quantifier": "for all even lengths, all arrays, all other axes, all sizes and starts drawn, all bounds", "why_tests_cant": "the test of the crossover in the Fourier domain only looks at the shape of one result; that the result has the mixed spectrum is a statement on all pairs of arrays", "anchors": ["nevergrad/parametrization/transforms.py:308-321", "nevergrad/parametrization/mutation.py:134-183", "nevergrad/parametrization/mutation.py:207-219"]}
{"id": "C147", "title": "The loss of a control problem is the mean cost of the episodes of the policy", "statement": "In the control problems, a point is the list of the weights of the layers of a policy. The action at a state is the output of the layers on the normalized state, each layer with its coefficient; it has the size that the environment wants. The loss is minus the mean, over the required number of episodes, of the sums of the rewards of these episodes. All layers matter, noise is added with the given standard deviation, and when the simulation is deterministic all evaluations of a policy give the same loss.", "quantifier": "for all environments, all generators, all sizes and numbers of layers, all weights, coefficients and states, all lengths of episodes", "why_tests_cant": "the environments are not installed when tests are run; that the loss is that of the episodes of the policy is a statement on all environments", "anchors": ["nevergrad/functions/control/core.py:59-130", "nevergrad/functions/control/mujoco.py:31-81"]}
{"id": "C148", "title": "Metrics of point sets on the sphere, and what reaches their least value", "statement": "metric_pack_avg depends on the sum of the (blurred, normalized) points only and is at least -1/n, which is reached by the sets whose sum is zero and by no other; an even number of points of antithetic_pm reaches it, with any linear blur. metric_pack_absavg is between the absolute value of metric_pack_avg and 1 - 1/n, and is zero for orthogonal points only. metric_half of antithetic_pm is zero for an even number of points, and for an odd number the least value that any set has, 1/(2n)^2, for planes that hold none of the points. metric_cap is at most one half and the two caps of a normal hold as many points of a symmetric set. A step of a Riesz descent keeps distinct points on the sphere without new draws, its forces have sum zero, it does not bring two points closer, and it leaves two opposite points where they are; coinciding points are drawn again.", "quantifier": "for all shapes, numbers of points, points, blurs, normals, orders and step sizes", "why_tests_cant": "the test runs each method once on a small shape and looks at shapes; least values over all point sets are not observable", "anchors": ["nevergrad/common/sphere.py:75-82", "nevergrad/common/sphere.py:261-327", "nevergrad/common/sphere.py:702-727", "nevergrad/common/sphere.py:734-743", "nevergrad/common/sphere.py:780-789"]}
{"id": "C149", "title": "Points chosen by their distance after pooling", "statement": "manual_avg_pool3d averages the blocks of an array: the sum of the pooled entries times the size of a block is the sum of the array, and the distance of pooled arrays is at most that of the arrays divided by the square root of the size of a block. max_pooling gives n points of the sphere: the first draw, then each time the draw that is the farthest, after pooling, from the points before. max_without_pooling uses the distances of the points themselves.", "quantifier": "for all shapes, blocks, arrays, numbers of points and draws", "why_tests_cant": "the test runs the method once on one shape", "anchors": ["nevergrad/common/sphere.py:117-173"]}
{"id": "C150", "title": "Losses of the image problems, and attacks on a classifier", "statement": "SumAbsoluteDifferences and SumSquareDifferences accept the images of the shape of the reference, are not negative, and are zero exactly for the reference; the first is symmetric and satisfies the triangle inequality. References scaled to the unit interval are refused. HistogramDifference compares the gray levels: zero exactly for the images with the same ones. Blur is not positive, and zero exactly where the Laplacian is constant. Generated images have their pixels in the range of the parametrization. With several latent vectors, there are ten images for each; the first is that of the initial vector and the last that of the target, whatever is optimized; those in between are weighted means plus a displacement that vanishes at both ends. An attack keeps the image in the unit interval and moves no value by more than epsilon; its loss has a known sign, and an untargeted (targeted) attack whose loss is below minus the logarithm of the number of classes (below log 2) has worked. make_folder_functions gives an attack for each recognized image among the first hundred, none of which is solved at the start; without a folder, the image is random.", "quantifier": "for all images, references, shapes, generators, classifiers, numbers of images, latent vectors and perturbations", "why_tests_cant": "the tests evaluate each loss on one pair of images, and one attack on one black image", "anchors": ["nevergrad/functions/images/imagelosses.py:20-43", "nevergrad/functions/images/imagelosses.py:87-103", "nevergrad/functions/images/imagelosses.py:134-146", "nevergrad/functions/images/core.py:95-143", "nevergrad/functions/images/core.py:181-298", "nevergrad/functions/images/core.py:360-375"]}
{"id": "C151", "title": "Photonics problems with simulated fields", "statement": "gambas_function, asked without a design, gives the shape of the designs of the benchmark; a design of this shape is evaluated, one of another shape is refused without any simulation. The loss is the same whether the gradient or the fields are asked as well, and asking both is an error. What is returned depends on the arguments only, not on the calls before. With discretize, the design that is evaluated has its values in {0, 1}, by comparison to one half.", "quantifier": "for all simulators, gradients, designs, shapes, flags and sequences of earlier calls", "why_tests_cant": "there is no test of the state kept between calls: each test makes one call on one random design", "anchors": ["nevergrad/functions/photonics/gambas.py:11-122"]}
{"id": "C152", "title": "Competence maps exported in LaTeX", "statement": "export_table writes a line with the columns, after an empty cell, and one line for each row, in order: split at the ampersands, it is the name of the row and then the data of the row, as many cells as the columns that are declared. In the data, percent signs are escaped, underscores are removed and only what precedes the first parenthesis is kept; other texts are written as they are.", "quantifier": "for all names of rows and columns, data and lengths", "why_tests_cant": "the tests write one table and do not read it", "anchors": ["nevergrad/benchmark/exporttable.py:11-74"]}
{"id": "C153", "title": "Distribution of the points evaluated most often", "statement": "When a point was evaluated more than the square root of all the evaluations, the empirical distribution of _get_nash has exactly the points whose count is at least the threshold, with their counts, in increasing order; otherwise it is the recommendation alone, and the pessimistic best without evaluations. It is never empty, and the square of its number of points is less than the cube of the greatest count. sample_nash draws one of these points, with probabilities that are positive, have sum one and are proportional to the counts. The threshold is the fourth root of the greatest count.", "quantifier": "for all archives, counts, recommendations and draws", "why_tests_cant": "the test builds one archive of a few points and looks at one sample", "anchors": ["nevergrad/optimization/utils.py:102-127"]}
{"id": "C154", "title": "Cache of the datasets", "statement": "get_dataset_filepath returns the path of a file that exists, and changes no other file. A cached file that is not empty is used without any request; a missing or empty one is downloaded, with a second request without verification when the verification fails, and then has what was received; if this fails, it raises and no file is left. An unknown name raises without request or change. Whatever is called later, a dataset that was downloaded is kept: it is downloaded once. Only datasets are kept. All datasets have a format and mocked data, and different paths. The landscape is the luminance of the picture.", "quantifier": "for all files, names, responses of the network and sequences of calls", "why_tests_cant": "the tests mock the downloads; no test looks at failures of the network or at the state of the cache", "anchors": ["nevergrad/functions/mlda/datasets.py:17-89"]}
{"id": "C155", "title": "Parameters of angles", "statement": "An Angles parameter reads in (-pi, pi], or (-180, 180] in degrees, wherever the optimizer moves its coordinates, and reading changes nothing. Setting accepts exactly the angles between the two ends and is read back, -pi as pi. A new parameter has the initial angles or zeros, and needs exactly one of init and shape. Samples are uniform on the circle. Any angle can be reached from any other by a move of the coordinates, and two angles are as far as their chord, so that the ends of the range are near. The value depends on the direction of the coordinates only, whatever the bound method.", "quantifier": "for all shapes, angles, positions of the coordinates, bound methods, units and draws", "why_tests_cant": "the test sets one array of ten angles for each option and reads it", "anchors": ["nevergrad/parametrization/_datalayers.py:313-372", "nevergrad/parametrization/_datalayers.py:85-137", "nevergrad/parametrization/_datalayers.py:242-281"]}
{"id": "C156", "title": "Groups of optimizers", "statement": "get_optimizers gives the optimizers of the groups, each one once, in the order of the groups: the first of each kind. More groups only add optimizers at the end, a group given twice adds nothing, and an unknown group raises. With a seed the list has the same optimizers in another order, always the same for the same seed.", "quantifier": "for all registries, groups, names and shuffles", "why_tests_cant": "the tests list the groups that exist and compare them to a recorded file", "anchors": ["nevergrad/benchmark/optgroups.py:21-41", "nevergrad/optimization/base.py:855-859"]}
{"id": "C157", "title": "Cases of the plots", "statement": "The plots made from a table of results are of cases that split it: for a choice of columns every run is in exactly one case, no case is empty and two runs are in the same case exactly when they agree on these columns. In one xp plot all the runs of one budget are of the same setting, even for the columns that are not in the description. Fight plots are made once for every set of at most max_combsize varying columns (two for competence maps). A competence map has the best algorithm of the runs with the two values, and none exactly where there is no run. Names of files are kept below 70 characters, otherwise shortened to at most 102 characters with a digest, with their extension; different cases have different files.", "quantifier": "for all tables, columns, values, digests and names", "why_tests_cant": "the tests draw the plots of one recorded table and check that files exist", "anchors": ["nevergrad/benchmark/plotting.py:36-43", "nevergrad/benchmark/plotting.py:325-416", "nevergrad/benchmark/plotting.py:442-444", "nevergrad/benchmark/plotting.py:485-491", "nevergrad/benchmark/utils.py:27-80"]}
{"id": "C158", "title": "Actions of neural agents", "statement": "A deterministic neural agent takes the first action with the largest output of its network, whatever the draws; adding a number to all outputs or multiplying them by a positive number changes nothing. A random agent takes an action for a part of the draws equal to its probability, and the probabilities are positive, sum to one and are in the ratio of the exponentials of the outputs. Actions are always valid. For weights within their bounds the outputs of the networks are bounded independently of the weights. An evaluation is the mean of at least one play, and raises only for errors other than RuntimeError. An agent whose play fails is not better than one that plays.", "quantifier": "for all networks, outputs, draws, observations, bounds and outcomes of plays", "why_tests_cant": "the tests play a few games with fixed seeds", "anchors": ["nevergrad/functions/rl/agents.py:109-122", "nevergrad/functions/rl/agents.py:153-171", "nevergrad/functions/rl/agents.py:174-199"]}
{"id": "C159", "title": "The function with a far optimum", "statement": "The loss of FarOptimumFunction is the sum of the distances of the two coordinates to the optimum: never negative, zero at the optimum only, and a part of the way to the optimum removes this part of the loss. With two objectives the optimum dominates every other point and is the only point that is not dominated, and the sum of the objectives is the loss of the other version. The evaluation is the least loss of the recommendations: zero exactly when the optimum is among them, never worse with more of them. The initial point and the optimum are within the upper bounds of the objectives.", "quantifier": "for all optima, points, lists of recommendations, over any ordered field", "why_tests_cant": "the tests evaluate the function at one point", "anchors": ["nevergrad/functions/functionlib.py:318-348"]}
{"id": "C160", "title": "The strata of jittered sampling", "statement": "get_class cuts each of the first axes of an array into blocks: every index is in exactly one block, the sizes of the blocks differ by one at most, and the sums of the blocks add up to the sum over the whole axes. The class of a point is, for every block, the order of the sums over the other axes, or with just_max the index of a largest one; there is an error only when the other axes are empty. The class only depends on the direction of the point.", "quantifier": "for all shapes, numbers of blocks (positive), arrays over any ordered field and positive factors", "why_tests_cant": "the tests only look at the sizes of the sets of points", "anchors": ["nevergrad/common/sphere.py:569-590"]}
{"id": "C161", "title": "The types of the columns that are plotted", "statement": "Before plotting, rows whose budget, number of workers or other integer column is a text that is not a number are dropped, all the other rows stay, and the column is converted to integers; from a hundred such rows on, the plots are given up. Tables of numbers lose no row, and no row is made up or moved. In the other columns a point followed by zeros at the end of a text is removed and nothing else, so that an integer is the same text with or without it.", "quantifier": "for all tables, columns, cells and texts", "why_tests_cant": "the tests have tables of numbers only", "anchors": ["nevergrad/benchmark/plotting.py:260-301"]}
{"id": "C162", "title": "The shapes of bounds", "statement": "A transformation with bounds raises a clear error exactly when the shape of the bounds does not suit that of the array, and otherwise keeps the shape of the array. Bounds that are numbers suit arrays of all shapes.", "quantifier": "for all shapes of arrays and bounds", "why_tests_cant": "the tests have two shapes with the same number of axes", "anchors": ["nevergrad/parametrization/transforms.py:145-148", "nevergrad/parametrization/transforms.py:169-183"]}
{"id": "C163", "title": "The frame of experiment plots", "statement": "The loss axis of an experiment plot goes from the least loss of the curves shown (and of known solutions, a tenth around them) to the greatest loss of all curves, or of the baselines if it is smaller, plus a fiftieth of the height, in logarithms when these are used; the bottom is below the top. Logarithms are used exactly when all losses are positive and up to a hundred millions. The confidence lines are around the curve: at the same distance on both sides, or in the same ratio and positive with logarithms; four times as many runs, less one, halve the width.", "quantifier": "for all sets of curves with at least one loss, known solutions, standard deviations and numbers of runs", "why_tests_cant": "the tests draw a plot and look at no limit", "anchors": ["nevergrad/benchmark/plotting.py:632-752"]}
{"id": "C164", "title": "The waiting times of minimize", "statement": "Between two looks at its jobs, minimize sleeps at least the minimum and at most the maximum of its sleeper, and within these limits between a tenth of the shortest and a tenth of the longest of the last durations measured. It never misuses its timer (stops it before a start, or starts it twice), so that no warning is given, and as long as there is budget every worker has a job after each turn.", "quantifier": "for all budgets, numbers of workers, modes, early stoppings, clocks and ends of jobs", "why_tests_cant": "the tests measure one sleep; interleavings of ends of jobs are not tried", "anchors": ["nevergrad/common/tools.py:77-122", "nevergrad/optimization/base.py:682-740"]}
{"id": "C165", "title": "The algorithm chosen by CMA", "statement": "CMA (MetaCMA) uses the plain algorithm (OldCMA) exactly if the budget is unknown, the parametrization is not continuous, there is noise, or there are several objectives; else the configuration for its dimension, bounds, budget and workers. The algorithm is chosen at the first call which needs it, for the number of objectives known then (the first positive number given by the setter, a told loss or a reference), and never changes. With several objectives, OldCMA is used and recommend raises, there being no best candidate.", "quantifier": "for all budgets, dimensions, numbers of workers and sequences of calls (setter, suggest, ask, tell, reference, recommend, _info, enable_pickling)", "why_tests_cant": "the tests look at the name of the algorithm for a few parametrizations, and give the number of objectives first", "anchors": ["nevergrad/optimization/optimizerlib.py:912-1030", "nevergrad/optimization/base.py:164-188", "nevergrad/optimization/base.py:571-583"]}
{"id": "C166", "title": "The options of the command that makes the plots", "statement": "The command accepts exactly one file and its options, in any order; each setting is the value given last or its default (no maps, all curves, budget axis, combinations of size 0, folder next to the file). It fails exactly for other words, values that are not integers, or both ways of merging names. Options given as false are off, --pseudotime may be written before the file, and --remove-suffix removes numbers at the end of names.", "quantifier": "for all command lines, file names and values", "why_tests_cant": "no test runs the command", "anchors": ["nevergrad/benchmark/plotting.py:1095-1161", "nevergrad/benchmark/plotting.py:183-191"]}
{"id": "C167", "title": "The export of logs to HiPlot", "statement": "The export of a log gives one point per line, in the order of the log. The point of a logged candidate carries its uid, is linked to its first parent from the second generation on, and has the two axes of the display (number of tells, loss) among its values; every parameter is shown, and of the fixed keys only identifiers and the number of asks are left out.", "quantifier": "for all logs, candidates, parameter names not starting with #, and limits on list elements", "why_tests_cant": "the test of the export looks at one run and only checks that a display can be built", "anchors": ["nevergrad/optimization/callbacks.py:210-258", "nevergrad/optimization/callbacks.py:189-208"]}
{"id": "C168", "title": "The experiments on gym environments", "statement": "Each gym benchmark yields exactly the experiments that its name and flags describe (controllers, sizes of networks, environments, scales, sparsity, dimension limits of the tiny and small ones), each with its own seed, and only asks for functions that the gym wrapper accepts. MAX_GYM_BUDGET is the largest budget, GYM_OPTIMIZER selects the optimizers and TARGET_GYM_ENV the problem.", "quantifier": "for all flags, sets of available environments, environment variables, dimensions, memory failures and coherence tests", "why_tests_cant": "gym is not installed for most tests; the tests only build a few experiments", "anchors": ["nevergrad/benchmark/gymexperiments.py:18-283", "nevergrad/benchmark/gymexperiments.py:302-423", "nevergrad/functions/gym/multigym.py:45-77", "nevergrad/functions/gym/multigym.py:168-302"]}
{"id": "C169", "title": "The material of the integrated circuits", "statement": "The step of the grid is the largest one, not above the requested resolution, that divides the smallest width. A block of material covers the cells from its corner over its lengths, up to half a step. The design array of a bend fills the middle block, which lies inside the grid; exactly the arrays of 45 by 45 values are accepted; all permittivities stay between 1 and the square of the largest index, and there is no gap between the waveguides and the block.", "quantifier": "for all dimensions, resolutions, numbers of absorbing cells, positions, lengths and arrays", "why_tests_cant": "the simulation needs packages that the tests do not install; the tests look at one loss value", "anchors": ["nevergrad/functions/photonics/functions.py:222-236", "nevergrad/functions/photonics/bender.py:50-145", "nevergrad/functions/photonics/gambas.py:42-47"]}
{"id": "C170", "title": "Rolling windows over a vector", "statement": "For a window from 1 to the length of the vector, entry i of rolling_mean is the sum of as many entries of the vector as the window is wide, from i on and going around the end. The result is always as long as the vector; rotating the vector rotates the result; every entry counts as many times as the window is wide. A wider window gives the sum of the vector everywhere, one below 1 the vector itself.", "quantifier": "for all vectors over a commutative group, all integer windows and all rotations", "why_tests_cant": "the tests look at one vector of four entries with a few windows", "anchors": ["nevergrad/parametrization/mutation.py:313-319"]}
{"id": "C171", "title": "The material of the mode converter", "statement": "The grid of the mode converter is symmetric about the origin. The design array fills the middle block, which lies outside of the absorbing layers and is centred up to one cell; exactly the arrays of 30 by 30 values are accepted, and all permittivities stay between 1 and the square of the largest index. The first waveguide leads to the block without a gap; both waveguides are centred and go through the absorbing layers to the ends of the grid.", "quantifier": "for all dimensions, resolutions, numbers of absorbing cells and arrays", "why_tests_cant": "the simulation needs packages that the tests do not install; the tests look at one loss value", "anchors": ["nevergrad/functions/photonics/mode_converter.py:45-148", "nevergrad/functions/photonics/functions.py:222-236"]}
{"id": "C172", "title": "Statistics of point sets on the sphere", "statement": "The data kept by parallel_create_statistics hold, for each metric and method, the values of all rounds that had both, in their order. The table of a round averages the values found for its number of points and shape. The heat map shows, column by column, the share of the methods with a smaller average: it orders the methods as the averages do, with ties, is from 0 to less than 1, is 0 for the best ones, and does not change under increasing functions of the columns.", "quantifier": "for all sequences of rounds, lists of methods and metrics without repetitions, values and tables", "why_tests_cant": "there are no tests of the statistics, which draw figures and run for hours", "anchors": ["nevergrad/common/sphere.py:1034", "nevergrad/common/sphere.py:1054-1063", "nevergrad/common/sphere.py:1112-1155"]}
{"id": "C173", "title": "Registering a constraint as a function or as a layer", "statement": "register_cheap_constraint calls the function with the value of the parameter, both for the check and for the layer and also for instrumentations. A value is accepted if the function gives true or a float which is not negative. Registering the same function with as_layer keeps this meaning: the value is kept if it satisfies the constraint, and replaced otherwise.", "quantifier": "for all functions, results (Booleans, floats with nan, integers), values, instrumentations, budgets and solvers", "why_tests_cant": "the test of as_layer uses another function for the layer than for the check", "anchors": ["nevergrad/parametrization/core.py:312-360", "nevergrad/parametrization/utils.py:269-288", "nevergrad/ops/constraints.py:54-94"]}
{"id": "C174", "title": "Arguments and descriptors recorded by experiment functions", "statement": "An experiment function records its initialization arguments, each with the value given by position or by keyword, or else with its default. The copy made from the recorded arguments records the same ones and is equivalent. The descriptors are the texts, tuples and numbers among the arguments, the class, and the name of the function unless it is a method of the instance, so that instances with different arguments are told apart. Images with different losses are different test cases.", "quantifier": "for all signatures, positional and keyword arguments, values, functions and losses", "why_tests_cant": "about all signatures and ways of calling, and about pairs of instances; the tests of images use one loss and no network", "anchors": ["nevergrad/functions/base.py:49-102", "nevergrad/functions/base.py:135-165", "nevergrad/functions/images/core.py:29-93", "nevergrad/functions/images/core.py:318-358"]}
{"id": "C175", "title": "The cases of FarOptimumFunction and PBT", "statement": "itercases gives every combination of the options exactly once, and different cases are different test cases: they are not equivalent and have different descriptors. The version of FarOptimumFunction with two objectives has upper bounds, so that experiments accept its losses.", "quantifier": "for all options, arguments, losses, and pairs of cases", "why_tests_cant": "the tests count the cases; they neither compare their descriptors nor run experiments with two objectives", "anchors": ["nevergrad/functions/functionlib.py:322-362", "nevergrad/functions/pbt.py:15-43", "nevergrad/functions/pbt.py:120-129", "nevergrad/functions/base.py:76-92", "nevergrad/benchmark/xpbase.py:34-40", "nevergrad/benchmark/xpbase.py:274-280"]}
{"id": "C176", "title": "The functions from Olympus", "statement": "OlympusSurface is the surface moved by the shift of the instance, with noise. Its evaluation is the function without noise at the recommendation, so that the best point of the function gets the best evaluation. The loss of OlympusEmulator is lower for points which are better for the goal of the emulator, and each parameter has its own bounds.", "quantifier": "for all surfaces, noises, shifts, dimensions, points, emulators and bounds, over any ordered field", "why_tests_cant": "olympus is an external package with random shifts; the tests only call the functions", "anchors": ["nevergrad/functions/olympussurfaces/core.py:38-71", "nevergrad/functions/olympussurfaces/core.py:88-118"]}
{"id": "C177", "title": "The list of usable environments", "statement": "GymMulti.get_env_names gives the names of the environments of the registry which have no refused part in their name, can be made, reset, stepped and sampled, and have actions of less than 15000 numbers, in the order of the registry. An environment which fails does not change the others. At most ten lines are printed: the first nine failures, and one line for all others.", "quantifier": "for all registries of any size, all names and outcomes", "why_tests_cant": "depends on the registry of the installed packages", "anchors": ["nevergrad/functions/gym/multigym.py:86-121"]}
{"id": "C178", "title": "Least losses of the front", "statement": "get_min_losses gives, for each objective, the least loss of all told candidates. It does not depend on the front having been filtered or not, on the reads made in between, or on the order of the candidates. It is an error exactly when nothing was added to the front.", "quantifier": "for all numbers of objectives, all bounds, all sequences of tells and reads of any length", "why_tests_cant": "the list is read in its raw state, which depends on all earlier reads", "anchors": ["nevergrad/optimization/multiobjective/core.py:175-176", "nevergrad/optimization/multiobjective/core.py:210-212"]}
