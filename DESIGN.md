# Formal model of nevergrad in Lean 4

The Lean project in `lean/` contains an executable model of the decision logic of nevergrad
(`/repo/nevergrad`, pinned commit) and machine-checked theorems about that model.

## Layout

* `lean/Verif/Model/*.lean` - the model: small total functions mirroring the Python code, every
  definition cites file and lines. Simplifications are stated in the comment of the definition.
* `lean/Verif/Lemmas/*.lean` - helper lemmas.
* `lean/Verif/Props/*.lean` - specifications and property theorems, one `namespace` per area, with
  `example`s showing that hypotheses are satisfiable.
* `MANIFEST.json` - property id -> theorem names and status.
* `seeded/LOG.jsonl` - mutation tests of the theorems (model edited as a bug would, proofs re-run).

## Modelling conventions

* Python exceptions are values (`Except` / `Option` / explicit outcome types).
* Mutable objects become returned values. Where identity matters (the same candidate object told
  twice), objects are identifiers and their mutable fields live in a map in the state.
* Random draws, user functions, job completion order, subclass hooks (`_internal_ask`, ...) and
  scipy cdf/ppf are parameters, universally quantified in the theorems (with the stated assumptions).
* Numbers: exact arithmetic. Where only comparisons matter the model is generic over a linear order
  (so it covers every NaN-free float computation exactly); where arithmetic matters it uses the
  rationals, an arbitrary linear ordered field or the reals. Rounding of IEEE floats is not
  modelled, NaN only where a property is about NaN.

## Trusted base

* Lean 4.33.0 kernel; axioms `propext`, `Classical.choice`, `Quot.sound` only (checked by
  `#print axioms`); no `sorry`, no own axioms, no `native_decide`/`bv_decide`.
* Mathlib (compiled with the same kernel).
* The faithfulness of the model to the Python code, established by reading only (the code is not run).

## What is modelled and what is not

Each model file starts with the list of the functions it covers, their lines, and the simplifications. In short:

| code | modelled in | not modelled |
|---|---|---|
| `optimization/base.py` | Optimizer, Minimize, Waiting, Loss, Archive, Penalty, Compare, Jobs, Configured, Callbacks | the bytes written by pickle, warnings, the registry's decorators |
| `optimization/utils.py` | Archive, Queue, Compare, Jobs, Pareto, Nash | the trees that prune an archive by memory |
| `optimization/optimizerlib.py` | Population, OnePlusOne, Cma, Eda, Es, Spsa, Split, Portfolio, Chain, IohChain, NGOpt, NGOptF, Csec, Maps, Ready, Msr, Delegate, Bandit, ExtBo, Cga, PopSize, Smooth, LazyChoice | the arithmetic inside external libraries (`cma`, `bayes_opt`, `scipy`, `sklearn`), which is an argument of the model; the linear algebra of PCABO |
| `optimization/oneshot.py`, `sequences.py` | Oneshot, Sampling, Sequences, HullRule | the numerical errors of convex hulls |
| `optimization/differentialevolution.py`, `es.py`, `mutations.py` | Crossover, De, Population, Es, Mutations, MutSteps | distributions of the draws (every draw is an argument) |
| `optimization/recaster.py`, `recastlib.py`, `externalbo.py` | Recast, Pymoo, Solvers, HyperOpt | preemption inside one statement of a thread; the solvers of scipy, nlopt, pymoo |
| `optimization/callbacks.py`, `helpers.py` | Tools, ParamLog, Hiplot, ConstraintOp, CheapLayer, Callbacks, Stopping | hiplot, progress bars, files |
| `optimization/multiobjective` | Pareto, MinLosses, Hypervolume, LinkedHv, Nsga | - |
| `parametrization` | Param, Names, Tree, Values, Layers, Bounds, Transforms, Discrete, Normalizer, RandState, Tabu, TransForce, Fourier, ArrayMut, RollingMean, MutSteps, Template, Command, MutChoice, AngleParam, BoundShape | temporary directories |
| `ops/constraints.py` | ConstraintOp, CheapLayer | - |
| `common` | Tools, Queue, Configured, Sphere, SphereMetric, SphereTable, Pooling, BlockClass | plots and statistics of `sphere.py`, the testing helpers |
| `benchmark` | Bench, Experiment, Configured, Jobs, Fight, Legend, XpData, Launch, Yabbob, ExportTable, OptGroups, PlotCases, TypeNorm, PlotFrame, PlotCommand, GymRuns | the lists of experiments outside the yabbob family (`experiments.py`, ...), the drawing itself |
| `functions` | Artificial, CoreFuncs, Experiment, CrossVal, Games, Lsgo, Power, Sims, Pbt, Rl, Mlda, Cycling, Arcoating, Causal, Topology, Rocket, Photonics, Solar, Morpho, Fdfd, Circuit, ModeConv, Pyomo, Ml, GymNet, GymSim, Control, Images, Ceviche, Datasets, Neural, FarOptimum, InitRecord, IterCases, Olympus, EnvNames | functions that only call an external simulator or a neural network (the environments of gym, mujoco, olympus, ceviche, images), the expressions of Pyomo |

`Props/Details.lean` holds further theorems on these models, for values that wrong variants of the model showed to be left open by the other theorems; each one is listed with the property it belongs to.

In all of them: floating point rounding, the memory model, timing (a clock is an argument), the exact text of messages, logs and warnings are not modelled.

## Plan per property

| id | modelled | proof |
|---|---|---|
| C01 | `tell` archive update (base.py 440-479), MultiValue, `recommend` as a state machine over tells | invariant: the minimum-best's minimum is the least told loss and is attained at its key; witness of violation beyond 1e10 |
| C02 | same state machine, four criteria | invariant by induction on the history |
| C03 | `Pruning.__call__`, `_prune`, `sensible_default`, lower quantile | counting lemma on sorted lists |
| C04 | `MultiValue.__init__`, `add_evaluation`, bounds | induction on evaluations, reals for the square roots |
| C05 | counters and asked set of ask/suggest/tell | invariant |
| C06 | loss normalisation in `tell` over extended floats (NaN, +-inf, finite) | case analysis for all values; negation witness for the list form |
| C07-C11 | `minimize` loop as a state machine with an oracle for job completion, early stop, crash points | invariants + variant function |
| C12 | suggestion deque | refinement to a stack |
| C13-C14 | `UidQueue`, `OrderedSet` | refinement to lists, invariants |
| C15 | `ParetoFront.add_to_pareto`, `_filter_pareto_front`, `get_front` | equality with the set of non-dominated points for any add/filter schedule |
| C16 | `HypervolumeIndicator`: linked lists as filtered sorted orders (equivalent to references by C97), node caches, flags and bounds kept | equality with the Lebesgue measure of the union of boxes, by slicing one coordinate at a time (Fubini on `Fin (k+1) → ℝ`); for any number of objectives without ties, an invariant of the recursion: cached areas and volumes below the bounds are right, flagged nodes come after a dominating node (`Lemmas/HvGeneral`) |
| C17 | `HypervolumePareto.add` | decision logic with abstract monotone volume, negation witness |
| C18-C19 | NSGA-II ranking and selection | refinement to iterated peeling, negation witness with three objectives |
| C20-C21 | transforms over the reals | real analysis from Mathlib |
| C22 | `Int` layer | rounding lemmas |
| C23 | `Modulo`, angles | real `floor` arithmetic |
| C24-C25 | containers and data as an inductive tree | structural induction |
| C26 | `add_layer` | sortedness and stability invariant |
| C27-C28, C59 | parameter objects as address-labelled trees, writes hitting every occurrence of an address, arrays with addresses of their own | invariants over operation sequences |
| C29-C31 | discretization, encoder rows of floats with nan and infinities, softmax layer with its cache, choice assignment as a loop over options, transition choices | cumulative-sum intervals, Gaussian measure of quantile bins |
| C32-C34, C60 | Halton loop, Hammersley, LHS sampler states, sieve of primes, rescaling | the loop equals the digit sum of `Nat.digits`; intervals of length b^-k against residues modulo b^k; sieve invariant; `Nat.nth Nat.Prime` |
| C35, C36, C61 | the thread of `recaster.py` as a coalgebra with two FIFO queues, interleaved with the caller step by step; batch bookkeeping; pickling by replay | invariants over all interleavings (FIFO, trajectory of the algorithm run as a function, pending batch); simulation of the replay |
| C37 | `Model/Jobs.lean`: `DelayedJob` and `SequentialExecutor` over a function with effects and exceptions | case analysis of the cached result over all call sequences |
| C38 | `Model/Jobs.lean`: `MockedTimedExecutor` (heap as sorted list, clock, job flags) | invariant: sorted queue by (time, order), exactly the jobs up to the clock are done |
| C39 | `Model/Tools.lean`: tolerance criterion with its `_best_value`/`_tolerance_count`, duration criterion | invariant: best is the first minimum, count the number of values after it |
| C40 | `Model/Tools.lean`: printer/logger state and clock as input | induction on the calls |
| C41 | `Model/Tools.lean`: registry as two dicts with register/unregister/assignment | induction on the history, against a specification reading it backwards |
| C42 | `Model/Tools.lean`: `set_env` with arbitrary body and refusals by the system | invariants of the update and restore loops |
| C43-C45 | tabu, constraint penalties, constrained ask | invariants, loop analysis |
| C46, C62 | `_DE` and `_PSO` bookkeeping (population dictionary, uid queue, lineage, pending asks, global best) as a state machine over ask / constraint-solver trials / tell / foreign tell; numeric recombination and the choice of the non-dominated parent are inputs | invariants over all histories; explicit failing histories |
| C47 | `Model/Crossover.lean`: the crossovers of DE on flat arrays, voronoi distances as input, draws as inputs | per coordinate characterisation |
| C48 | `Model/Es.lean`: `_EvolutionStrategy` bookkeeping (population, queue, waiting list, ranker as an input) | sort specification, invariants over all histories |
| C49 | `Moduler`, `BenchmarkChunk.compute` | modular arithmetic partition, resume invariant |
| C50, C63 | `Model/Mutations.lean`: the mutations and crossovers of `Mutator`, draws read from lists | list inductions; normal quantiles for the witnesses |
| C51 | `Model/ArrayMut.lean`: arrays as functions on multi-indices; `Translation`, `Jumping` (list of slabs), `Crossover`, `LocalGaussian`; draws as inputs | index permutations, list lemmas |
| C52 | `Model/Compare.lean`: `addCompare` on the archive model of C01 | invariant of the archive, induction on the winners |
| C53, C64 | `Model/Oneshot.lean`: `_RandomSearch`, `_SamplingSearch` internal asks, sampler budget, `avg_of_k_best` | induction on pairs of calls; sorting lemmas |
| C65 | `Model/Chain.lean`: `_Chain` asks and tells, budgets of `Chaining` | induction on the list of budgets; counters of each optimizer |
| C66 | `Model/Portfolio.lean`: turns, warm-up, selection, tells and counters of `Portfolio` | counting lemmas on turns, invariants over runs; witnesses |
| C67 | `Model/Split.lean`: block sizes, asks, tells and frozen blocks of `SplitOptimizer`; `_Rescaled` | list slicing lemmas; field arithmetic |
| C68 | `Model/OnePlusOne.lean`: step-size, adaptive, coordinatewise, lognormal, lengler, discreteBSO and doerr rates, annealing of `_OnePlusOne` | induction on the losses told; real analysis for log and exp |
| C69 | `Model/Spsa.lean`: the state machine of `SPSA` with rejected candidates, on exact reals | induction on the pairs with closed forms of the iterates and of their mean |
| C70 | `Model/Cga.lean`: pairing of tells, table updates and draws of `cGA` | invariant of the tables; the table of cumulated probabilities |
| C71 | `Model/PopSize.lean`: `_PopulationSizeController`, floating point division by 0 made explicit | invariant on the sizes; the test restated with means and standard errors |
| C72 | `Model/Eda.lean`: tells, asks and generations of EDA and TBPSA | stable sort, means of logarithms, positive semi-definite matrices, invariants over sessions |
| C73 | `Model/Eda.lean`: sizes, generations and step-size updates of `_EMNA`, array shapes made explicit | case analysis; sums of squares |
| C74 | `Model/Cma.lean`: `_CMA` between ask/tell and an arbitrary external strategy | queue invariants over runs; refinement of the strategy's own loop; stable sort |
| C75 | `Model/Cma.lean`: all optimizers sharing one `ParametrizedCMA` object | invariant over accesses; witnesses |
| C76 | `Model/Delegate.lean`: two nested `Optimizer` objects (asked sets, counters, archives, penalties) | induction over runs; case analysis of `tell` |
| C77 | `Model/Delegate.lean`: `_MetaModel` and `learn_on_k_best`, with arbitrary regression and search | arithmetic on the schedule; sorting; Euclidean norms |
| C78 | `Model/NGOpt.lean`: selection trees of `NGOptBase` and `NGOpt4` to `NGOpt39` | case analysis layer by layer; integer square roots |
| C79 | `Model/CoreFuncs.lean`: the functions of `corefuncs.py` over exact reals, discrete ones over already rounded integers | sums of non-negative terms, trigonometric and exponential bounds; Hamming distances |
| C80 | `Model/Artificial.lean`: transforms with matrices over `Fin`, blocks from the drawn indices through `Tools.grouper`, aggregators, noise, shared random state | sorted permutations, orthogonal matrices, existence of a point by assignment to disjoint indices; invariants over sequences of draws and calls |
| C81 | `Model/Experiment.lean`: bits of the multiplied symmetry number | coprimality with powers of two, finite bijection |
| C82 | `Model/Experiment.lean`: copies, `Experiment.run`, leaderboard | dictionaries as lists without repeated keys; induction over updates |
| C83 | `Model/Template.lean`: scanner of placeholders, substitution, uncommenting, folders with links | induction over texts, exact characterisation of success by an equivalence |
| C84 | `Model/Games.lean`: state machines of three games with shuffles and draws as inputs | invariants on cards, decreasing measure for termination, simulation by exchange of players |
| C85 | `Model/Pbt.lean`: population with a memory of arrays and addresses | invariant on addresses over all histories, exact description of a call |
| C86 | `Model/Solvers.lean`: dispatch, coordinates of evaluated and kept points, restart loops | induction over runs; least value and first run reaching it; counterexamples for the other libraries |
| C87 | `Model/Normalizer.lean`: arrays with shapes, layers with getters and setters, in-place loop with its fallback, integer layers | induction over layers and parameters; exact description of failures |
| C88 | `Model/Bounds.lean`: one entry of a data parameter with its stack of operations and bounds over the reals with NaN, `bounds`, `set_bounds`, `set_mutation(exponent)`, `_fix_legacy` with the state after exceptions, the constructors, `sample`, integer casting | the value is the formula at a point within the bounds of the last layer and `bounds` the formula at these bounds, then monotonicity by induction on the formula; scales and samples computed with logarithms; the calls evaluated symbolically for all numbers |
| C89 | `Model/ConstraintOp.lean`: `function`, `pareto_front()[0]`, the minimization loop with early stopping, `apply_constraint`, and reads of containers and of arrays with their recursion | a candidate with zero losses dominates every violating one, so the pick satisfies; induction on the budget and on the depth of the recursion |
| C90 | `Model/ConstraintOp.lean`: the constructor and `step` with any optimizer and conversion to single precision | invariant over the steps relating the module, the candidate and the history |
| C91 | `Model/Fight.lean`: `_make_winners_df`, `aggregate_winners`, `create_fight_plot` data: win rates, averages, ranking, `complete_runs_only` | sums over settings without repetition, antisymmetry of the score, insertion sort by decreasing average |
| C92 | `Model/Legend.lean`: `LegendGroup`, `compute_best_placements`, `split_long_title`, `NameStyle` | invariant of the groups (partial means do not increase), Abel summation for optimality; the number of groups decreases; product of periods of styles |
| C93 | `Model/XpData.lean`: `remove_errors`, the limits of `create_plots`, `normalized_losses`, `make_data`, `save_txt`, the choice of curves, `merge_optimizer_name_pattern` | cases are disjoint, so the loop is a map; counting in sorted lists for medians; invariant of the leaderboard over the runs; order of the curves gives the precondition of the placement |
| C94 | `Model/Ready.lean`: `Portfolio.__init__` as an assignment to an object, the constructors of its subclasses, asks and selection of `MultiDiscrete` | the second call of the constructor does not depend on the object; comparison of 12·(1+√b) with b; invariant of the rotation until the quarter, then of the selected optimizer; pigeonhole for the budgets |
| C95 | `Model/ExtBo`: names, the fake function with the cache of bayes_opt, initial points, batches of bayes_optim, trial numbers of ax | order of zero-filled names through the value of texts of digits; cache invariant by induction over the tells; `passed.flatten ++ new = told` by induction; exact shift between trial and index by induction over asks |
| C96 | `Model/HyperOpt`: search space, labels, records and their evaluation over trees of parameters; trials as a list of results | mutual structural inductions over trees (soundness, completeness, records with disjoint labels); induction over operations for the trials |
| C97 | `Model/LinkedHv`: references `next` and `prev` of all nodes, `append`, `pop`, `reinsert`, iterations, and the whole recursion on them | relation `Linked` between references and lists; each operation is local to one index; refinement of every loop of `Model/Hypervolume` by induction, with a stack of popped nodes as invariant |
| C98 | `Model/Msr`: clipping, preprocessing, weights drawn at the first tell, tells of the runs with refusals, attribute `loss` of candidates | induction over tells; for any aggregation, two runs with opposite preferences are told multiples of the same numbers |
| C99 | `Model/Bandit`: counter of asks, archive, pending points, the choice of `_internal_ask` | the specification of the number of arms is preserved by each evaluation and determines it; in parallel, an invariant on arms plus pending new points |
| C100 | `Model/NGOptF`: dictionaries in order of insertion, the search, filter of sequential optimizers, the choice through a set, the tables themselves | invariant of the dictionary under insertion, first minimum of the cells in order of iteration, comparison of two minimizers for monotonicity |
| C101 | `Model/NGOptF`: `max(set(l), key=l.count)` with the order of iteration of the set as a parameter | first maximum in the order of iteration; every tied name comes first in some order |
| C102 | `Model/RandState`: parameters as trees with an optional generator each, a world counting generators and draws, programs on a pool of parameters; what a draw does to a value is a parameter | mutual induction on trees: with one generator everywhere no generator is created and two executions which agree on it agree on all values; induction on programs |
| C103 | `Model/MutSteps`: variables numbered as in the standardized data, draws as a stream, shapes with the order of mutation of the sub-parameters; constant sigma, no layers | mutual induction: every action is `x c + sigma c * sum of eps (k + j), j in J c` with disjoint duplicate-free `J`, closed under composition; variance from Mathlib |
| C104 | `Model/TransForce`: reading the value with the indices of the data and writing it again, on the model of choices of C29; sizes for the unordered mutation | position of a value among distinct constants, induction over repetitions; measure of a bin from C29 |
| C105 | `Model/Csec.lean`: the trees of `CSEC`, `CSEC10`, `CSEC11`, `NgIoh4`, `NgIoh21`, `NgDS2`, `NGDSRW`, run on an instance of another class | case analysis tree by tree, arithmetic on budgets and dimensions; totality and parallel use reuse C78 |
| C106 | `Model/IohChain.lean`: the restart part of the seven classes, with the object threaded through the calls of `NgIoh11._select_optimizer_cls(self, sub_budget)` | induction over the copies, division with remainder; budgets of the chain from the model of C65 |
| C107 | `Model/ParamLog.lean`: Python values, JSON, the file as lines, `__call__`, `load`, `load_flattened` with the set order as a parameter | inductions over nested lists and shapes; separators for the unique keys; lookup in updated dictionaries |
| C108 | `Model/Penalty.lean`: results of constraints, `float_penalty`, `satisfies_constraints` over nested parameters, `ConstraintManager`, the part of `tell` which changes the loss, over the reals | real powers, sums of non-negative terms, induction over nested parameters |
| C109 | `Model/Values.lean`: parameters and values as trees, `value` getters and setters with exceptions and partial writes, Python's equality and numpy's broadcast one, `args`, `kwargs`, `get_value_hash` | induction over values, loop lemmas entry by entry, sorted lists with distinct keys |
| C110 | `Model/Configured.lean`: `different_from_defaults`, the name, creation and equality of `ConfiguredOptimizer`, nested ones, `OptimizerSettings`, over arbitrary values with their equality and texts | sorting with distinct keys, injectivity of joined texts, induction over nesting |
| C111 | `Model/Maps.lean`: `_select_optimizer_cls` of 21 classes, on the problems of the models of NGOpt and NgIohTuned | case analysis of each tree; the four Wiz-like classes by refinement of the model of NGOpt; independent tables for smooth problems |
| C112 | `Model/Lsgo.lean`: losses, transforms, indexing, split, chunks and the fifteen functions, over the reals with the data as parameters | transforms act on each entry and keep zeros; chunks vanish when their group does; induction on the groups for covering and disjointness |
| C113 | `Model/Power.lean`: agents, dispatch over any ordered field, simulation over the reals with the draws as parameters, means of the plots | induction on the sorted plants with the productions as a function of the plant; invariants on time steps; exchange argument with a threshold price for optimality |
| C114 | `Model/Sims.lean` (fishing) | invariants on days |
| C115 | `Model/Sims.lean` (unit commitment) | sums of non-negative terms; the numbers of generators that are on and the intervals they can produce |
| C116 | `Model/Sims.lean` (travelling salesman) | sorted permutations are unique; triangle inequality along the path; induction on the tour |
| C117 | `Model/Sphere.lean` (constructions) | sums over permutations and sign patterns by induction; the intervals of the blocks by division; counting strata |
| C118 | `Model/Sphere.lean` (searches) | folds of minima and maxima; the law of cosines on the sphere; invariants on the classes of the dictionary |
| C119 | `Model/Rl.lean` | simulation relation between the run of the whole environment and the one with fixed agents, by induction on the steps; an invariant of unfinished games for the counters of protections |
| C120 | `Model/Mlda.lean` | minima of folds; decomposition of a sum of squares around the mean; sums over permutations; rounding to even characterized by distances |
| C121 | `Model/Cycling.lean` | the orders of the team form a finite set closed under transitions and losses (all cases, for any energies); invariant of the race over the segments; an abstract physics for the race and the concrete one with bounds over the reals |
| C122 | `Model/Arcoating.lean` | the recursion over the complex impedances is the action of a product of real 2x2 matrices; the reflection is one minus a ratio with the determinant; the laws are those of the matrices |
| C123 | `Model/Causal.lean` | the list of the pairs without repetition, the place of a pair in it, induction over the pairs and choices |
| C124 | `Model/Topology.lean` | sums of squares and shares over the elements; the inequality that defines the pattern at its extreme corners |
| C125 | `Model/Rocket.lean` | linearity and positivity of the impulse; the masses by induction with 1 - p <= exp(-p); algebra of the forces; the heights as a growing list |
| C126 | `Model/De.lean`: the moves, the population and the archive of a sequential run | invariants over the draws; the archive of a history without repeated points; transport of the whole archive along bijections; two archives computed by hand |
| C127 | `Model/Photonics.lean` | layers turn the discs of admittances around their index, and a change of the reference index makes a disc larger by the ratio; the quarter wave stack as a limit; places in flattened tables; a state machine for the globals |
| C128 | `Model/Solar.lean`: scattering matrices, fields, flow of energy, cost | the reflections of the two halves of the stack have modulus less than one (Moebius maps), so that all the denominators are not zero and the fields solve the equations of each matrix; the flow is kept by each layer and each interface |
| C129 | `Model/Pymoo.lean`: the map of the points, asks and tells around the thread of `Model/Recast.lean`, the batch version as a state machine | induction on the rounds with the invariant that the thread waits; for batches the invariant that the indices are exactly the asked candidates of pymoo |
| C130 | `Model/Pyomo.lean`: domains to parameters over `Model/Bounds.lean`, names and literals as lists of characters, the instance as a state | values through the bound layer and the integer casting; reading of literals by induction; induction on the calls with the invariant that the compiled code assigns exactly the variables |
| C131 | `Model/Ml.lean`: keyword arguments as partial functions, learners as states, the artificial data as lists of rows | cases over problems and arguments; induction over the folds for the states of the learner; permutations of the indexed rows; inequalities between sine, cosine and square |
| C132 | `Model/GymNet.lean`: dimensions, layers and casts of `GymMulti` over the reals, weights as lists with explicit updates | arithmetic of the dimensions; induction over the layers; monotonicity of tanh and arctan |
| C133 | `Model/GymSim.lean`: the loop over time steps with the archive and the stacked input as state, averages, sparse weights, the environment with tuples | induction over the time steps against a relation of episodes; running mean by induction; concrete environments for the failures |
| C134 | `Model/Launch.lean`: frames as columns and rows, csv files as texts, launches over the chunks of C49 | counting of the rows over the chunks; induction over the repetitions; sorted lists of rows by the lexicographic order |
| C135 | `Model/Command.lean`: the process and the call as a transition system over two bounded pipes, the text of the output, the command line, the function of a folder | invariant of all reachable states, a measure that each step decreases by one, progress when stderr fits into its pipe; inductions over lines |
| C136 | `Model/HullRule.lean`: `convex_limit` and `hull_center` with exact hulls, the numbers of points, the rules of both classes | affine independence of spanning points, hull contained in the affine span; the mean from C64 |
| C137 | `Model/Yabbob.lean`: the lists of functions, budgets and constraints, the three loops with the counter of seeds, the slices of the plans, `refactor_optims`, the constraints | closed form of the loops by induction (quotients and remainders of the number of the combination); tables of flags checked one by one; Minkowski's inequality for the convexity |
| C138 | `Model/MutChoice.lean`: the insertion of layers by level, the copy, the addition of the choice and of its mutations, the calls from the last layer down and from the choice to the selected layer, the registration of sub-parameters | positions in the list of layers; a bounded number of steps with monotonicity and strong induction for the endless call |
| C139 | `Model/Smooth.lean`: the mirrored window and its mean for any number of axes, the loop over the masks with the draws of both generators, the queue of suggestions and the turns of the optimizer | induction over the axes; the folding of the integers is 1-Lipschitz; the invariant that the queue before the n-th ask holds one smoothed copy exactly when n - 1 is a positive multiple of the period |
| C140 | `Model/Callbacks.lean`: the loop over a list of callbacks that may change, the loop of minimize with the default executor and the states that callbacks see, the addition to the front while bounds are set, the tests of printer and logger | induction over the list; the commutation of all steps with additions to the counters; idempotence of the update of the curve |
| C141 | `Model/Morpho.lean`: the matrices of the profile, the modes of a grating and of a homogeneous material, the interface, the stack and the loss, over the complex numbers | the scattering matrix as a relation between waves; the flux is kept by interfaces and layers; symmetries as matrices that commute with the modes; integrals for the Fourier coefficients; the spectral theorem for the modes |
| C142 | `Model/Fdfd.lean`: the sparse matrices as bands over the flattened grid, the loops of the absorbing layers, the wave matrix, the source, the normalization of the modes and the loss | the action of a band and of its adjoint on a field, in coordinates; quadratic forms for the eigenvalues; induction over the loops of the layers |
| C143 | `Model/CrossVal.lean`: the list of experiments with the assertions of `MultiExperiment`, the evaluation on top of the model of `HypervolumePareto` and its front, the objects of a copy | induction over the list of experiments; an invariant of the automatic bounds for lists without dominated points; the members of a selection are recommendations |
| C144 | `Model/Sampling.lean`: the four samplers with their counters and draws, the budget of the sampler without the middle point, the rescaler made from a first pass, `reinitialize`, the scale, the clipping and the quantile function, and the state of the optimizer over asks | induction over asks gives the list of all points; `Seq.lhs_stratified`, `Seq.vdc_first` and `Seq.rescaler_spec_partial` are carried through the clipping (`clip_stratum`: parts are kept below 10^9) and the quantile function; witnesses for the errors |
| C145 | `Model/Names.lean`: parameters as trees, the layers with their arguments, the name of each class, sorting by key, the ignored standard deviation, the test of `copy` | texts have a depth of brackets; commas outside of brackets and closing brackets are found uniquely, hence joined texts are read uniquely (`join_inj`); induction over the size of the tree (`same_name_partial`); sorted lists with different keys are determined by their members (`dict_order`) |
| C146 | `Model/Fourier.lean`: the sums of `rfftn` and `irfftn` for one axis and for two axes, the check of even lengths, the size and the starts of the part, the clipping | orthogonality of the powers of a root of unity, inversion of the complex transform, the real inverse as a complex inverse of the symmetric extension, Parseval |
| C147 | `Model/Control.lean`: the layers and their shapes, the action, the noise, the loop of an episode with any environment and any generator, the mean, the seed | induction over layers (`action_defined`, `action_value`, `coefs_scale`, `action_bounded`), over steps and episodes (`loss_spec`, `loss_defined`), invariance for the state of the generator (`repeatable_partial`) |
| C148 | `Model/SphereMetric.lean`: the products of normalized blurred points, their averages, the caps, the forces and the steps of the three descents | expansion of the squared norm of the sum (`pack_avg_value`), pairing of opposite points (`antithetic_best`, `half_even`), parity (`half_odd_least`), variance of numbers in the unit interval (`cap_bounds`), antisymmetry of the forces (`force_sum`) |
| C149 | `Model/Pooling.lean`: the blocks, their averages, the loop over points with the draws of each of them | sums over blocks rearranged into sums over the array (`pool_total_partial`), Cauchy-Schwarz on a block (`pool_contracts`), induction over the draws and over the points (`max_pooling_partial`) |
| C150 | `Model/Images.lean`: the losses on lists of pixels, the sequence of latent vectors, the attacked image, the cross entropy, the predicted class and the choice of the images | sums of terms that vanish only together (`distances`), sums of permutations (`histogram_is_brightness`), factorization of the parabola (`movability_shape`), bounds on the sum of exponentials (`untargeted_success`, `targeted_success`), an invariant of the fold (`argmax_spec`) |
| C151 | `Model/Ceviche.lean`: one call with the global it reads and writes, and the designs that are simulated; sequences of calls | case analysis on the arguments (`no_history`, `flag`), induction on the calls (`flag_run`), the floor (`round_partial`, `round_near`) |
| C152 | `Model/ExportTable.lean`: texts as lists of characters, the cells, lines and body of the table | a separate reader that splits at ampersands is a left inverse of the join (`cells_join`), induction on the rows (`body_spec`) |
| C153 | `Model/Nash.lean`: the archive as points with counts, the threshold, the sorted distribution, the probabilities and the draw | the greatest count is attained (`maxCount_mem`), sums over sublists and the integer square root (`limited`), permutation and order of the insertion sort (`distribution`) |
| C154 | `Model/Datasets.lean`: the files of the cache as a function, the requests with their outcomes, sequences of calls, the formats | case analysis on the outcomes, induction on the calls with a file that is filled as an invariant (`once`) |
| C155 | `Model/AngleParam.lean`: the two rows of coordinates, the layers below and above the angle, construction, setting, sampling and moves | the argument of complex numbers, the round trips of C20, C21 and C23 composed through the layers |
| C156 | `Model/OptGroups.lean`: the comparison of optimizers, the loop that adds those that are not there yet, the shuffle | the list is that of the first ones (`addGroup_firsts`, by induction on the end of the list), prefixes (`firsts_prefix`) |
| C157 | `Model/PlotCases.lean`: the descriptors, the cases, the selection of rows, the competence map, the names of files | membership in selections by induction on the columns, varying columns by the number of distinct values, the fold of the map by induction on the cases, names by lengths of lists |
| C158 | `Model/Neural.lean`: linear layers, the dense network, softmax, the largest entry, the weighted draw, the evaluation | the first largest entry is unique and kept by increasing functions (`argmax_map`), intervals of draws by induction (`sample_spec`), bounds layer by layer |
| C159 | `Model/FarOptimum.lean`: the losses, the evaluation, the upper bounds | absolute values in an ordered field; the least loss by induction on the recommendations |
| C160 | `Model/BlockClass.lean`: blocks of an axis, boxes of indices, sums, orders, classes | the ends of the blocks telescope; sums over boxes by induction on the axes with the sums exchanged; the order is an insertion sort |
| C161 | `Model/TypeNorm.lean`: the rows with labels, the two turns of the conversion, the replacement in texts | induction on rows with their places; texts from the end |
| C162 | `Model/BoundShape.lean`: the pairs of sizes, the check, the shapes of numpy | equivalence with a relation on lists, in both directions |
| C163 | `Model/PlotFrame.lean`: the limits of the axis, the scale, the confidence lines | characterization of the upper limit by what is below it (fold over the baselines), the best curve is shown (C93), powers and logarithms over the reals |
| C164 | `Model/Waiting.lean`: the sleeper, the loop of `minimize` reduced to numbers of jobs | invariant between turns (timer running and workers full while there is budget), induction on the turns; bounds of a mean |
| C165 | `Model/LazyChoice.lean`: `MetaCMA._select_optimizer_cls`, the lazy `optim`, the setter of `num_objectives` and the calls that use them | case analysis of the choice; invariants over all sequences of calls, for any choice function |
| C166 | `Model/PlotCommand.lean`: the words as argparse sorts them, `parse_args`, the call of `create_plots` | induction on the words, in both directions, against a separate description by arguments; the last value of each option |
| C167 | `Model/Hiplot.lean`: the points made from flattened lines, the keys left out, the axes | infixes of keys; the header of a line survives flattening because keys of list elements end with digits; induction on the lines |
| C168 | `Model/GymRuns.lean`: the lists of controllers, networks, environments, scales and budgets, the loops with their seeds, the environment variables, the assertions of `GymMulti` | membership in the loops against a separate description of names by prefixes and sizes; seeds are positions |
| C169 | `Model/Circuit.lean`: `block` with argmin, rounding and slices; the grid, the waveguides and the middle block of `bender` | first minimum of a list; floors and ceilings in an ordered field |
| C170 | `Model/RollingMean.lean`: `rolling_mean` with its cumulative sums and slices | entries of cumulative sums, sums over ranges and rotations, no bound on the length |
| C171 | `Model/ModeConv.lean`: the centred grid, the waveguides and the middle block of `mode_converter`, on `Model/Circuit.lean` | means of nodes, blocks moved to the grid from zero, floors and ceilings in an ordered field |
| C172 | `Model/SphereTable.lean`: the recorded data, the table of averages and the shares of the heat map | induction on rounds and entries, counting |
| C173 | `Model/CheapLayer.lean`: results of constraint functions, their calls and the two acceptance tests, with `Model/ConstraintOp.lean` for the layer | cases on results, order |
| C174 | `Model/InitRecord.lean`: signatures, binding, recorded arguments, descriptors, `Image` and `ImageFromPGAN` | induction over signatures, lookups in dictionaries |
| C175 | `Model/IterCases.lean`: products of options, the two initializations, the check of the first loss, with `Model/InitRecord.lean` for descriptors | induction over options, lookups in dictionaries |
| C176 | `Model/Olympus.lean`: shifts, noise, evaluation, goal of emulators, bounds; the surfaces and emulators are parameters | group identities, unique best points |
| C177 | `Model/EnvNames.lean`: names, refused parts, outcomes, the loop with its counter of messages | induction over the registry |
| C178 | `Model/MinLosses.lean`: the raw list and the least loss per objective, on the model of the front of C15 | covering of the added candidates by the raw list, induction over the schedule |
| C54 | `Model/Tools.lean`: `pairwise`, `grouper` (zip_longest over one shared iterator), `roundrobin` (deque), `flatten`, `OrderedSet`, `Sleeper` | list inductions; flatten by mutual induction against the list of leaves with their paths |
| C55 | `num_objectives` checks in `tell` | invariant |
| C56 | `optim_curve` append rule | spacing invariant, logarithmic bound |
| C58 | `Int._layered_get_value` with its cache and in-place addition | heap effect as a returned parameter state |
| C57 | `ParetoFront.get_front(size, subset)` | membership, length and least score over the draws |

Properties which the code violates get a theorem proving the negation with a concrete witness and a
`_partial` theorem stating the largest part that holds.

## Disagreements found (proved as theorems)

| property | theorem | what happens |
|---|---|---|
| C01 | `ArchiveSt.recommend_out_of_range`, `recommend_retold_loss` | beyond 1e10 re-evaluations are clipped so the recommendation may be wrong; telling a candidate again overwrites its loss |
| C03 | `Pruning.pruning_ties_empty` | with ties the pruning empties the archive |
| C04 | `MV.multiValue_minimum_not_told`, `multiValue_minimum_missed` | the first evaluation is not clipped, the next ones are |
| C05, C45 | `Opt.num_ask_inflated` | an ask that raises after rejected trials leaves num_ask increased |
| C06 | `Loss.singleton_list_not_clipped`, `singleton_int_list_raises` | one-element lists bypass the clipping, or raise AttributeError |
| C43 | `Opt.tabu_asked_then_told_not_recorded`, `tabu_run_recommends_initial` | with a tabu list, the check made by `tell` finds the value that `ask` just stored, so nothing is ever recorded |
| C44 | `Opt.recommend_infeasible_without_budget` | without budget infeasible candidates are recorded |
| C10 | `Minimize.minimize_loses_candidate`, `minimize_tells_twice`, `minimize_drops_finished` | an exception between ask and registration loses a candidate, between tell and popleft it is told twice on resume, between the two attribute stores all finished jobs are lost |
| C16 | `Hv.hvol_four_wrong`, `hvol_four_wrong_below`, `hvol_six_too_large`, `hvol_seven_order`, `hvol_four_not_volume` | with four objectives and tied coordinates two points flag each other as dominated and both are skipped: adding points lowers the volume |
| C17 | `Hv.hyper_out_of_bounds_breaks` | a point out of the bounds kept in the front gives negative box volumes; later points within the bounds are dropped |
| C18, C19 | `Nsga.fronts_cycle`, `rank_cycle` | the comparison counts objectives instead of testing dominance; three mutually non-dominated candidates can form a cycle and none is ranked |
| C21 | `Tr.affine_zero_accepted`, `cdf_roundtrip_fails` | affine slopes with some (not all) zero entries are accepted; `CumulativeDensity.backward` clips quantiles, so extreme data do not round-trip |
| C22 | `Tr.int_bounds_witness`, `int_draw_zero` | bounds without an integer give a value out of the bounds, as do bounds less than 1e-12 above an integer; a draw of 0 rounds an odd integer down by one |
| C23 | `Tr.modulo_set` | the modulus itself is accepted and reads back 0 |
| C58 | `Tr.read_changes`, `setData_shifts`, `read_drifts` | the first read of a stochastic integer adds the draw in place to the root array: reading moves the parameter |
| C24 | `Tree.set_broadcast_accepted`, `stale_sizes` | a bare array broadcasts data of size 1; the size cache of an outer container is not reset when a nested one gets a new entry |
| C27 | `Param.frozen_softmax_changes`, `frozen_int_redrawn` | assigning to a frozen parameter raises after the layer caches were cleared or overwritten, so its value changes |
| C27 | `Param.sample_shares_constants` | sampling a container shares its constants and resets their parenthood, also when frozen |
| C27, C59 | `Param.frozen_poke_changes`, `assign_shares` | `value` returns the internal array and `value = a` stores the caller's array |
| C29 | `Disc.choice_repetitions_overwrite`, `choice_rejected_alters`, `single_option_nan` | with repetitions, two values going to the same parameter option overwrite each other; a rejected assignment leaves the options altered; a choice with one option gets weight minus infinity, so its standardized data relative to itself is nan |
| C30 | `Disc.noisy_inverse_zero` | with two categories, a draw of 0 inverts category 1 to a number of category 0 |
| C31 | `Disc.encode_zero_draw` | a draw of exactly 0 selects index 0 even with probability zero |
| C60 | `Seq.rescaler_single` | rescaling a set of points that agree on an axis (e.g. budget 1) divides zero by zero |
| C35 | `Recast.dropped_blocks`, `empty_batch_blocks`, `random_tell_raises` | in batch recast, a candidate rejected by a cheap constraint is never told, so its batch never completes; an empty batch blocks; telling a random candidate while the thread is ending raises KeyError |
| C36 | `Recast.penalty_breaks_replay`, `penalty_changes_resumed`, `rejected_stops_resumed`, `suggestion_blocks_resumed` | the replay uses `candidate.loss`, which lacks penalties and is None for rejected candidates; a refused tell of a suggestion leaves num_ask ahead, so the replay takes a point too many |
| C61 | `Recast.solver_shifts_losses`, `race_blocks` | when all trials are rejected, the loss of the solver's candidate is received for the next point, and all later losses are shifted by one; asking twice while the thread is ending waits forever |
| C37 | `Jobs.delayed_raise_again` | a delayed function that raises is called again at the next `result()` |
| C39 | `Tools.noImprovement_late` | the no-improvement criterion stops after window + 1 asks without improvement |
| C40 | `Tools.printer_every_tell`, `printer_silent` | the comparison of the tell counter is reversed: it prints at every tell, and not at all on tells once past the interval |
| C41 | `Tools.stale_info`, `assignment_overwrites` | information survives unregistration; item assignment overwrites silently |
| C42 | `Tools.setEnv_removed`, `setEnv_refused` | a variable removed by the body makes the exit raise and leaves the following ones changed; a refused value leaves the earlier ones set |
| C54 | `Tools.flatten_collision`, `flatten_same_string`, `grouper_zero` | flatten loses leaves when keys contain dots or coincide as strings; groups of size 0 lose everything |
| C46 | `Pop.overcommitted_fails`, `solver_fails`, `foreign_multiobjective_fails`, `empty_population_fails` | with more pending candidates than the population, with constraint-solver candidates, or with a foreign candidate in a multi-objective run, a later tell or ask raises `KeyError`; population size 0 raises |
| C46 | `Pop.retell_worsens`, `retell_shrinks` | telling a member of the population again can worsen the best loss or lose a member |
| C62 | `Pop.swarm_penalty` | with a constraint penalty the comparison mixes the penalised loss of the new candidate with the raw loss of the best, so the best is not the best |
| C47 | `Cross.voronoi_fails` | the voronoi crossover raises on arrays with one entry |
| C48 | `Es.sequential_shrinks`, `penalty_ignored` | in plain sequential use the last initial candidate is counted twice and the population shrinks; selection uses the raw loss, without constraint penalties |
| C48 | `Es.suggestions_starve`, `rejected_suggestion_fails`, `empty_ranking_fails`, `foreign_grows` | suggestions that are not told empty the queue (RuntimeError); a rejected suggestion raises KeyError in the DE-like mode; a ranker that selects nothing empties the population; foreign tells grow the population without bound in the DE-like mode |
| C49 | `Bench.seeded_length_differs`, `split_zero` | the length of a chunk is computed without its seed; splitting in 0 raises |
| C50 | `Mut.doerr_no_change`, `many_categories_no_change`, `one_dimension_no_change` | below dimension 5 the Doerr mutation uses two categories whatever the arity; from 500 categories, and in dimension 1, the category may be unchanged |
| C50 | `Mut.coordinatewise_changes_unselected` | the coordinate-wise mutation converts back with two categories: unselected coordinates change category |
| C51 | `ArrMut.jump_negative_axis`, `crossover_negative_axis`, `jump_size_one`, `jump_fails` | with a negative axis jumping makes the array five times longer and the crossover copies the second array; `Jumping(size=1)` always raises, and so does a chunk covering the array |
| C52 | `ArchiveSt.compare_recommends_loser`, `compare_repeated_winner` | the object kept as current best merges the old losses of the winner, so the loser may still be recommended; a winner listed twice keeps its last rank |
| C53 | `Oneshot.constrained_not_paired`, `stupid_recommendation_breaks` | rejected points and stupid recommendations consume one point of a pair |
| C65 | `Chain.no_crossing_over`, `no_crossing_lost`, `late_tell_lost` | without crossing, tells beyond the last share reach nobody; a point told after the switch is never told to the optimizer that asked it |
| C66 | `Portfolio.check_zero_division`, `distribute_few_turns`, `asked_while_pending`, `distribute_asked_while_pending`, `first_point_rejected`, `over_budget` | only non-parallelizable optimizers and more workers: ZeroDivisionError; they can be asked while pending when tells are out of order or `warmup_ratio` is 1; a freshly asked point may be rejected by `tell`; sub-budgets are exceeded |
| C67 | `Split.solver_key_error`, `shift_not_inverted` | a candidate moved by the constraint solver raises KeyError when told; the shift of `_Rescaled` is not undone |
| C68 | `OnePlusOne.velocity_stuck`, `lengler3_over`, `doerr_two_asks`, `doerr_dim_one` | velocities do not adapt below arity 4; `lengler3` asks for more variables than exist; `doerr` fails on two asks in a row and divides by zero in dimension 1 |
| C69 | `Spsa.next_perturbation`, `rejected_for_good`, `not_asked_first`, `not_asked_shifts`, `two_asks` | the difference is divided by the perturbation of the next pair; a rejected candidate is told infinity and no later point is finite; a foreign point told first makes the first ask NaN; two asks in a row apply a pair twice |
| C70 | `Cga.never_learns` | with an arity above 2 llambda (default 500 against 40) the clipping makes all values equally likely again at each update |
| C71 | `PopSize.plateau_shrinks`, `infinite_shrinks` | equal losses (no progress) or a loss of minus infinity give NaN: the population shrinks instead of growing |
| C72 | `Eda.foreign_centre`, `stuck` | telling or suggesting the current centre (for instance the initial point) to TBPSA gives it step-size 0; if it is among the best, the step-size becomes 0 for good and all later points are the centre |
| C72 | `Eda.cov_not_normalized`, `penalty_ignored` | the covariance of EDA is not divided by the number of parents; candidates are ranked without their penalties |
| C73 | `Emna.isotropic_axes`, `anisotropic_one`, `small_budget_fails`, `mixed_fails` | without adaptation the isotropic option gives per-coordinate step-sizes (too small by the square root of the dimension) and its negation a single one (the root of the total variance); budgets 1 to 3 divide by zero at the last tell; arrays and numbers mixed raise |
| C74 | `Cma.popsize_one_raises`, `penalty_ignored`, `recommend_raises_reached` | `popsize=1` leaves no parent and the next ask raises ZeroDivisionError; the strategy is told losses without penalties; the `high_speed` recommendation raises AssertionError when few of the asked points were told |
| C75 | `Cma.shared_switch`, `shared_swapped` | the first use of an optimizer of dimension 1 writes `fcmaes=True` in the shared configuration: the other optimizers switch to fcmaes, those which already have a `cma` strategy give it losses for points |
| C76 | `Delegate.double_penalty`, `suggestion_raises` | both levels add their penalty and `candidate.loss` becomes the penalised loss; a suggested point raises when told if the inner optimizer only accepts its own points |
| C77 | `MetaModel.sampleSize_coefficients`, `cma_underdetermined` | the sample size is exactly the number of coefficients (the comment says a bit more); the one of CMA's `high_speed` is smaller from dimension 3 on |
| C78 | `NGOpt.no_budget_smooth` | `budget=None`: the first ask raises AssertionError on deterministic continuous problems, or returns copies of the initial point when there are constraints |
| C79 | `Core.bentcigar_vanishes`, `bucherastrigin_one`, `hm_undefined`, `illcond_no_minimum`, `rosenbrock_constant`, `step_double`, `styblinski_negative` | bentcigar tends to 0 at infinity along the first axis; bucherastrigin divides by zero in dimension 1 and hm is NaN at its optimum; deceptiveillcond is infinite at its announced optimum and has no minimum; rosenbrock is constant in dimension 1; the step around 1 is twice as long as the others; styblinski-tang is negative near -2.9035 in every dimension |
| C80 | `Artificial.zeroPen_optimum_lost`, `power_nan`, `same_seed_false`, `dissymmetric_formula`, `hashing_raises`, `hashing_noise` | `zero_pen` penalises the transformed point, hence the optimum itself; a non-integral `expo` gives NaN for negative draws; the transforms are drawn at the first call from the optimizer's random state, so the same seed gives different functions to different optimizers; with hashing two useful variables raise IndexError and the noise is a function of the point |
| C81 | `Exp.symmetrize_outside` | the middle of the first coordinate's bounds is used for all coordinates |
| C82 | `Exp.copy_content_lost`, `constraints_shared`, `rerun_changes`, `error_kept`, `eq_ignores`, `leaders_nan` | a replaced parametrization of the same name is lost by copy; the list of constraints is shared with the copy; each run evaluates on a new copy of the function and never erases an error; equality ignores constraints and suggestions; a NaN loss erases the leaderboard |
| C83 | `Tpl.never_otherFile`, `duplicate_accepted`, `tag_stays`, `stale_file`, `upper_case_array`, `newline_lost`, `lastLine_blank` | the set of names is never filled, so the same name in two files is accepted; tags are only removed in files which have placeholders; files already in the output folder are kept; `.C` files get Python lists; the final line break is lost when a file has tags; blank output raises IndexError instead of "No output" |
| C84 | `Games.fits_asymmetric`, `second_never_out`, `second_out_loses`, `ask_law`, `ask_biased` | in flip a card fits only on an equal card or the one just below, never on the one above; the second player does not win when its hand is empty, since the test is made only after drawing a card; at guess who the answer yes has probability (choice+1)/deck |
| C85 | `Pbt.shared_checkpoint` | `[np.zeros(n)] * num_workers` repeats one array: until a worker is given a copy of another checkpoint, training it changes the checkpoints of all such workers and their recorded losses become wrong; also the noise `np.random.normal(dimension)` is one number of mean `dimension`, the same for all coordinates (`step_coordinate`) |
| C86 | `Solvers.last_run_worse`, `Solvers.cma_result_not_evaluated`, `Solvers.pysot_result_not_evaluated`, `Solvers.restart_ignores_guess`, `Solvers.loop_spins` | direct search, AX, NLOPT, pysot and SMAC recommend the result of the last restart even if an earlier one was better; pysot recommends the point before the map at which the loss was evaluated, CMA with an unbounded variable recommends the image of the point evaluated; random restarts ignore the initial guess; a solver which evaluates nothing is restarted for ever |
| C87 | `Norm.twice_partial`, `Norm.forward_matrix`, `Norm.backward_angles`, `Norm.backward_raises`, `Norm.analyze_continuous` | `_apply_unsafe` works in place, so after an exception the parameters already transformed are transformed again; this happens in `forward` for every bounded array of two or more dimensions and in `backward` for every `Angles`, where the second transform raises for a bounded parameter placed before; drawing integer layers are reported as continuous |
| C88 | `Bnd.opposite_outside`, `opposite_int`, `square_outside`, `array_never_full`, `bounds_twice`, `refused_kept`, `small_exponent`, `negative_exponent` | the bounds announced for decreasing formulas are reversed, so that `-Scalar(lower=0, upper=10)` with integer casting is always -10, and those of `x ** 2` can miss the value 0; `Array(shape=, lower=, upper=)` never samples over the full range since `init is None` is tested after `init` was replaced; a second `set_bounds` raises an `AttributeError` and removes all bounds; bounds refused because of the current value stay and change the value; an allowed exponent below 1 on a bounded parameter raises and removes the bounds; an exponent for a negative value makes it NaN instead of raising the documented error |
| C89 | `Cop.data_violates`, `data_infeasible`, `container_stale` | storing the recommendation of the solver in an array or scalar reads its value and solves again from there; the value returned is the first recommendation, which can violate the constraint, and the data the last one; without a feasible point the recursion does not end; a cached value of a container is kept when a parameter inside it changes |
| C90 | `Cop.torch_first` | the constructor of `TorchOptimizer` asks a candidate without giving it to the module: the first `step` tells this candidate the loss of the initial module |
| C91 | `Fight.better_not_first`, `complete_not` | the docstring of the fight plots says the algorithm which performs better than all others comes first; one which wins most settings against each other optimizer can be second. `complete_runs_only` keeps optimizers without any common setting when none ran everywhere, and gives them rates of 0 |
| C93 | `Xp.normalize_budgets`, `suffix_ignored`, `pure_spaces`, `merge_collision` | `make_data` documents a normalization for each budget, which spans all budgets; `--remove-suffix` has no effect without a merge pattern; the merged name "A,b" can be the name of another optimizer; an optimizer whose name begins another one followed by a space counts as complete |
| C94 | `Ready.announced_absent`, `needs_budget`, `sqrt_alone`, `workers_replaced`, `crossing_always`, `cm_spec`, `discrete_alone`, `discrete_over_budget` | `MultiBFGS`, `MultiSQP`, `MultiCobyla`, `BFGSCMA`, `SQPCMA` and all variants call `Portfolio.__init__` again after installing their optimizers and end up as the default portfolio; the `Log` and `Sqrt` variants replace the number of workers and are Scr-Hammersley alone below 156 evaluations; `FSQPCMA`, `F2SQPCMA`, `F3SQPCMA` raise without a budget; `no_crossing` of `ConfPortfolio` is ignored; a competence map tells its only optimizer twice the budget; `MultiDiscrete` only uses its first optimizer below twelve evaluations per worker, and its optimizers have budgets for a quarter of the run |
| C95 | `ExtBo.bo_second_lost`, `batch_waits`, `ax_wrong_trial` | a second evaluation of a point is not given to bayes_opt (noisy functions keep their first loss); the evaluations of an unfinished batch are never passed to bayes_optim; `AXP` tells the loss with `num_ask` instead of the number of the trial: after a suggestion, or a candidate rejected by a constraint, losses go to wrong trials |
| C96 | `HyperOpt.upper_missing`, `below_lower`, `repetitions_illegal`, `unbounded_refused`, `nested_refused`, `constant_fails`, `nested_choice_wrong`, `tell_fails` | `hp.randint` excludes the upper bound of integers (an integer between 0 and 1 is always 0) and `int()` goes below fractional lower bounds; choices with repetitions get a value instead of a tuple; an instrumentation with a scalar which is not bounded raises a TypeError (`None[0]`); nested positional arguments have equal labels; telling a point which was not asked raises a TypeError when an argument is a constant, and records a value as an index for choices between choices; an asked candidate cannot be told twice |
| C98 | `Msr.runs_agree`, `not_weighted`, `attr_wrong`, `refused` | `tell` already replaced the objectives by one hypervolume loss, so the weights only scale it: all runs of `MultipleSingleRuns` rank points alike; the candidate's `loss` becomes the scaled loss of the last run; when runs refuse points they did not ask, every tell raises |
| C101 | `NGOptF.f2_depends`, `NGOptF.generic_unreachable` (C100) | `max(set(algs), key=algs.count)` depends on the hash seed when several names are tied (8 of the 17 cells of NGOptF2, most of those of NGOptF3); `NGOptF*` and `NGOptRW` raise TypeError without a budget; the branch with `GeneticDE, PSO, NGOpt39` of the four classes is unreachable |
| C102 | `Rand.set_mutation_breaks` | `set_mutation(sigma=Parameter)` writes into `parameters._content` directly and so skips the propagation of the generator done by `Container.__setitem__`: after `p = Array(...).set_bounds(...); p.set_mutation(sigma=Log(...)); p.random_state.seed(12)` mutations still depend on numpy's global generator |
| C103 | `MutSteps.dict_two_steps`, `MutSteps.choice_in_dict_moves` | `Container` does not override `_layered_mutate`: `Dict(x=Scalar()).mutate()` mutates `x` and then steps the whole dictionary, two draws for `x` (variance 2 sigma²; k + 1 draws under k containers), and moves the options of a `Choice` which were not drawn, contrary to its documentation. A mutable sigma also makes two steps, as it sits in the dictionary `parameters` |
| C104 | `Disc.second_scalar_unreachable`, `Disc.unordered_raises` | `TransitionChoice([Scalar(), Scalar()])`: whatever the standardized data, the first option is selected and takes the value of the other (`_internal_set_standardized_data` writes the value back, and the first option accepts it); with `ordered=False` and parameters as options, `mutate` raises ValueError (wrong size) |
| C105 | `Csec.csec_total`, `Csec.tuning_raises`, `Csec.no_budget`, `Csec.never_used` | NgIohTuned raises TypeError (`super()` of a class `self` is not an instance of) on continuous hyper-parameter tuning problems; AssertionError without a budget; most branches of NgDS2 are dead code |
| C106 | `IohChain.last_never_starts` | NgIoh17/NgIoh18: with more than about a million evaluations per squared dimension the sub-budgets, rounded up, use the whole budget before the last restarts |
| C107 | `ParamLog.order_ignored`, `name_hides_loss`, `object_loses_line`, `ragged_raises` | ParametersLogger: `order` is not used, a parameter named `#loss` replaces the loss, a value refused by JSON loses the line, load_flattened raises on ragged lists |
| C108 | `Penalty.sub_constraint_free`, `no_budget_free`, `negative_loss_free`, `violation_early`, `update_rejected_kept`, `nan_satisfied` | a violated constraint of a sub-parameter has penalty 0; without a budget there is no penalty; announced violations add nothing to non-positive losses in the first half of the budget, and the documented formula is not the one used; `update` keeps the exponent it rejects; nan satisfies constraints |
| C109 | `Values.refused_alters`, `constant_accepts_empty`, `constant_accepts_repeated`, `array_accepts_text`, `array_mixed` | a refused assignment to a container keeps what was assigned before the exception; constants accept the empty array and arrays repeating them; arrays accept texts, and turn numbers standing beside texts into texts |
| C110 | `Configured.renamed_equal_settings`, `name_and_object_differ`, `equal_other_name`, `private_hidden`, `commas_confuse` | experiments with an optimizer and its renamed version are equal though described differently, and those with a registered name and its object differ though they run the same; equal optimizers may have different names (2 and 2.0), different ones the same name (private settings, commas) |
| C111 | `Maps.no_budget` | without a budget, the selection raises AssertionError or TypeError on continuous deterministic problems for all 21 classes |
| C112 | `Lsgo.rosenbrock_not_separable` | function 12 (shifted Rosenbrock) is tagged separable: setting its second variable to its optimum can increase the loss |
| C113 | `Power.sizes_wrong`, `Power.width_one`, `Power.deblock24_wrong` | the networks of PowerSystem have `width` layers, `depth` outputs (one is used) and always 14 neurons per hidden layer, width=1 raises; the plots per hour of the day divide sums over days by 24 instead of the number of days |
| C115 | `UnitCom.unsolvable_few` | with at most four generators (three by default) the demands may be out of reach of any number of generators, since the minimum of a generator is 60% of its maximum: the constraints cannot be satisfied |
| C117 | `Sphere.pm_odd_fails`, `Sphere.block_short_fails` | `antithetic_pm` does not normalize the last point of an odd number, so the assertion on the norms fails; `block_symmetry` indexes past the axes of one-dimensional points |
| C118 | `Sphere.greedy_not_best`, `Sphere.disperse_single`, `Sphere.jittered_default`, `Sphere.jittered_stuck`, `Sphere.rs_riesz_single` | `greedy_dispersion` never reads `bigdist`: the best of a batch replaces the one before; `dispersion`, the default for images, takes a minimum of nothing for one point; the default blocks of `jittered` are bound to a misspelt name; its smallest class size is never reset, so the loop may not end; `rs` compares `nan` for ever when there is one point |
| C119 | `Rl.fixed_not_reset`, `Rl.unreset_fails`, `Rl.past_end`, `Rl.copy_std` | `PartialMultiAgentEnv.reset` does not reset its fixed agents, so that they carry their state from one game to the next; stepping it before a reset is a KeyError; a game that is stepped further than a hundred steps is not over any more (`==`); the copy of a `TorchAgent` loses its `instrumentation_std` |
| C120 | `Mlda.constant_axis`, `Mlda.circle_closed`, `Mlda.inside_iff` | `Clustering` divides by the standard deviation of a constant coordinate, and all losses are `nan`; `from_2d_circle` takes `linspace` with both ends, so that n points are n - 1; the position half a pixel after the last row is inside or outside the landscape according to the parity of the number of rows |
| C121 | `Cycling.combined_fails`, `Cycling.follow_gains` | `Cycling(45)` and `Cycling(61)` have an `Instrumentation` with the names `transition` and `pacing`, but their function has a single argument `x`: every call by an optimizer is a TypeError; a rider behind who has to slow down has a negative power and wins energy; the kinetic energy of a rider behind is taken from the difference of the velocities and not of their squares |
| C123 | `Causal.first_alone`, `Causal.unused` | the loops of `choices_to_graph` start at `range(1, nvars)` although the names are counted from 0: the first node is never joined to another one and the last `nvars - 1` choices have no effect |
| C124 | `Topology.constant_target` | in the instances of the second pattern with a number above `160 n` all wanted values are the same and a constant array has the optimal value 0 (20999 of the 50000 instances of size 50) |
| C125 | `Rocket.gravity_newton_iff`, `Rocket.drag_large`, `Rocket.burnt_too_much`, `Rocket.times_used`, `Rocket.angle_differs` | the horizontal gravity is divided by the horizontal distance and the drag of `y` and `z` by the horizontal speed; the share of burnt fuel is taken from what is left, so that too much is burnt and the mass jumps up after the burn; a step of the burn moves the position by the time since the ignition; 45 degrees are taken as radians |
| C126 | `De.recommends_worse`, `De.best_stuck`, `De.mean_fails`, `De.small_standard` | a best point drawn as a parent with twice the same other one is evaluated again and its optimistic estimation rises by 70.7: on a function without noise the default recommendation is then a worse point, and better points found later are not used as the best; `recommendation="mean"` is accepted and always a `KeyError`; `popsize="small"` is `standard` |
| C127 | `Photonics.tuple_mixed`, `Photonics.stale` | `Photonics(..., as_tuple=True)` passes the variables layer by layer to functions that read them kind by kind (`np.concatenate(args).T` of arrays with one axis): heights are used as permittivities; `ceviche` keeps the model of the first evaluated problem when another `benchmark_type` is evaluated |
| C129 | `Pymoo.penalty_ignored`, `reject_error`, `late_dummy` | pymoo gets `candidate.losses`, without the penalties, although the comment says that nevergrad handles the constraints; a point refused by a cheap constraint makes `ask` raise (the candidate has no losses) and the next one wait for ever; a candidate of before the start told afterwards is a KeyError in the batch version |
| C130 | `Pyomo.bounds_violated`, `half_refused`, `open_wrong`, `stepped`, `tuple_broken`, `race_wrong` | the bounds of a `Var` are ignored; `PositiveReals`, `NegativeReals`, `PositiveIntegers` and all half lines without 0 are refused; `nextafter(lb, 1)` goes below an open end of more than 1 (and does not move 1); a stepped range becomes a choice of `range` objects; `x[('a', 'b')]` makes code with a quote inside of a literal; two threads share one instance |
| C131 | `Ml.tree_overfitter`, `tree_ignored`, `memory_leak`, `train_wrong` | `evalparams` overrides the tuned `criterion` and `min_samples_split` of "decision_tree"; the loop over the folds fits one net of keras again and again; `y_train` is the sum of sines whatever the target is, though the folds and the test set use the target |
| C132 | `GymNet.drift_wrong`, `structured_fails`, `conformant_squashed`, `int_high_unreached` | residual layers are views of the weights and `+=` changes the candidate itself at each time step; "structured_neural" gives two arrays to a function of one; conformant actions are squashed by the parametrization and again by the cast; integers are cut downwards from an open range |
| C133 | `GymSim.stacking_leak`, `best_dropped`, `extrapolate_same`, `discount_backward`, `share_wrong`, `sparse_fails`, `tuple_endless` | `extended_input` is never reset; the archive keeps rewards not larger than the mean; `extrapolate` changes nothing; `reward = reward * gamma + r` discounts the first rewards; at least 23 calls whatever the number of calls; `enablers` has one dimension; `reset` leaves `current_step` |
| C134 | `Launch.na_lost`, `nan_wrong` | `read_csv` without `keep_default_na=False` before the append; `sort` of tuples with NaN in `assert_equivalent` |
| C135 | `Command.deadlock`, `indent_lost` | stdout is read to its end before `communicate` reads stderr; `.strip()` of each line |
| C136 | `HullRule.sampling_ignores`, `hull_raises`, `hull_not_max`, `hull_unchecked`, `center_wrong` | `_SamplingSearch._internal_provide_recommendation` knows one rule only; `np.concatenate` of tuples; indices of `hull.vertices` taken for points |
| C137 | `Yabbob.constrained_without`, `last_never`, `mega_first`, `mega_copies`, `twice`, `record_unused`, `opposite_bool` | the slice by 13 selects the functions that get constraints and not those of the plan; `range(1, 8)` for eight constraints; `constraint_case=-1` in all six slices; `deceptivemultimodal` listed twice; `inspect.stack()[1].function` is `yabbob` for all variants; `value > 0` is feasible for a cheap constraint and a violation for a penalized one |
| C138 | `MutChoice.not_chooses`, `last_wins`, `endless`, `apply_twice`, `shared` | `MutationChoice._on_layer_added` adds the mutations above itself; `_select()._layered_recombine` comes back through `_call_deeper`; `copy.copy` of the choice shares the list of mutations and the dictionary of sub-parameters |
| C139 | `Smooth.copy_same`, `not_reproducible`, `no_crossover` | `smooth_copy` repeats the draw of the mask only with several radii and draws `invfreq` by `np.random`; the crossover waits for odd numbers of asks, which are those of the suggestions when the period is two |
| C140 | `Callbacks.not_countsTells`, `twice_kept`, `logger_first_ask`, `printer_several` | the job is removed after the tell and the callbacks are called inside it; `_preprocess_multiobjective` comes before the callbacks; `num_objectives == 1` is false before the first tell; `provide_recommendation` raises with several objectives |
| C143 | `CrossVal.hypervolume_raises`, `reference_none`, `copy_shares`, `overlap_trained`, `alone_raises` | the special experiment never gets the upper bounds of its inner experiment, so that the evaluation uses automatic bounds, without an indicator for the first 15 points; the constructor is called again with the same inner experiment and takes its parametrization object; functions for training are not removed from the held-out ones |
| C144 | `Sampling.random_rescaled_raises`, `rescaled_no_budget`, `rescaled_single`, `auto_one` | `reinitialize` of the random sampler only resets the counter of points, so the rescaler is applied to other points than those it was made from and the transform raises `ValueError`; rescaling calls the sampler `budget` times and fails without one; a single point gives an empty range; `autorescale=True` divides by `np.log(dimension)`, which is 0 in dimension one |
| C145 | `Names.offset_lost`, `copy_keeps`, `base_rounded`, `texts_collide` | the layers `Add`, `Power` and `Modulo` have only the name of their class, `Exponent` writes two decimals; `ExperimentFunction.copy` replaces the parametrization only if the names differ; names are joined without quoting |
| C146 | `Fourier.two_axes_neither`, `two_axes`, `one_axis_last` | with several axes the part replaced is not symmetric for the sign of the frequency, so that the inverse of numpy averages the coefficients of the two parents at the zero frequency of the last axis; `randint(s - size)` leaves the last start out, so that the highest frequency of the second parent is never taken |
| C147 | `Control.layers_ignored`, `noise_zero`, `not_repeatable`, `names_same` | `zip(layers[1:], layer_rescaling_coef[1:])` stops at the shortest; the noise is multiplied by the action; `env.seed(None)` when `random_state` is not given though `deterministic_sim` is true; `r"layer_{a}_{b}"` is not formatted |
| C148 | `SphereMetric.step_size_ignored`, `same_without_blur` | `Riesz_blursum_gradient` and `Riesz_noblur_gradient` take a `step_size` that they do not read |
| C149 | `Pooling.pool_ignores`, `small_shape_random`, `not_dispersed`, `default_kernel`, `max_pooling_axes` | `arr.shape // kernel_size` drops the remainder; `max_small_pooling` pools nothing below 8 pixels; distances are taken before `normalize`; the comment says that the first axis is not pooled; two-dimensional shapes fail |
| C150 | `Images.histogram_is_brightness`, `black_minimizes`, `histogram_not_a_distance`, `interpolate_ends`, `ends_fixed`, `no_folder` | `HistogramDifference` lacks an absolute value: the black image is its optimum for all references; the images go from the target to the initial vector; without a folder the image is black, not random |
| C151 | `Ceviche.missing_history`, `discretize_query`, `round_outside` | benchmarks 1 and 3 of `gambas_function` answer differently before and after the first simulation; `discretize` refuses the queries for the name and the shape, and gives designs outside of {0, 1} |
| C152 | `ExportTable.ampersand_shifts`, `row_not_escaped`, `line_width`, `parameters_lost` | `export_table` escapes the data but not the names of rows and columns; lengths are not checked |
| C153 | `Nash.threshold_differs`, `two_kinds` | `_get_nash` uses the square root of the greatest count where its documentation has the fourth root; `sample_nash` returns data or a parameter |
| C154 | `Datasets.error_page`, `blank_returned`, `height_not_average` | error pages are cached as datasets; the weights of the landscape are not those of a luminance |
| C155 | `AngleParam.bouncing_turns` | with `bound_method="bouncing"` a large move in the direction of the current angle reads as the opposite angle |
| C156 | `OptGroups.name_lost`, `given_twice` | `get_optimizers` drops optimizers that differ by name only, and keeps an optimizer twice when it is given by name and by value |
| C157 | `PlotCases.fightName_collides`, `shorten_dead` | the names of fight plots join column and value without a separator, so that different cases may overwrite each other; the shortenings of names above 240 and 280 characters are never reached |
| C158 | `Neural.failure_better` | a neural agent whose play raises a `RuntimeError` has the loss of a reward of zero, and so is better than every agent with a negative reward |
| C159 | `FarOptimum.upper_negative` | the upper bounds of `FarOptimumFunction` are twice the optimum; with a negative coordinate no point, not even the optimum, is within them |
| C161 | `TypeNorm.good_row_lost`, `nan_kept` | the normalization of types looks rows up by label and drops them by place: rows of numbers are lost when two columns have texts; a column with a NaN is not converted |
| C162 | `BoundShape.wrong_side`, `shape_grows` | `_check_shape` matches axes from the first one, numpy from the last one: bounds `[3]` are refused for an array of shape (2, 3); bounds of several numbers change the shape of an array of one number |
| C163 | `PlotFrame.limits_pure` | the plot of pure algorithms takes its upper limit from baselines that it does not show: the axis may be upside down |
| C164 | `Waiting.batch_warns`, `resumed_warns` | in batch mode with jobs that end at different times, `minimize` stops its timer several times for one start: warnings, and durations that are too short |
| C165 | `LazyChoice.late_objectives`, `recommend_never_raises`, `recommend_differs` | `CMA` asked before its first list of losses keeps a configuration for one objective, and its `recommend` returns a candidate where the base class raises |
| C166 | `PlotCommand.false_is_true`, `pseudotime_takes_file`, `suffix_ignored` | `type=bool` makes every text that is not empty true; `--pseudotime` swallows the file; `--remove-suffix` does nothing without a merge pattern |
| C167 | `Hiplot.not_asked_hidden` | the filter on "ask" meant for `#num-ask` also removes `#num-tell-not-asked` |
| C168 | `GymRuns.multi_structured_not_multi`, `max_excluded`, `optimizer_ignored` | `structured` overwrites the controllers chosen by `multi`; the test on `MAX_GYM_BUDGET` is strict; `ng_full_gym` never reads `GYM_OPTIMIZER` |
| C169 | `Circuit.block_moved`, `block_negative` | the corner of a block outside of the grid is replaced by the nearest node, without shortening the block; a negative length wraps around |
| C170 | `Rolling.not_a_mean`, `window_cut` | `rolling_mean` gives sums, so the window times the constant for a constant vector; windows beyond the length are cut to it |
| C171 | `Circuit.guide_short`, `guide_off` | the second waveguide of the mode converter ends before the grid does, as `PML[0]` counts one cell less than the layer; both waveguides are placed one node of the fine grid off the centre, which the block is not |
| C172 | `SphereTable.sizes_mixed` | the figures of `parallel_create_statistics` are named by number of points and shape, but average the values of all calls so far, whatever these were |
| C173 | `CheapLayer.opposite`, `agree_iff`, `layer_keeps_violations` | with `as_layer` a function as documented for `register_cheap_constraint` is read with the opposite sign; Booleans raise |
| C174 | `InitRec.pgan_losses_lost` | `Image(with_pgan=True)` has the same descriptors for all losses (`loss.__class__.__name__` of a class is `type`) |
| C175 | `IterCases.pbt_itercases_lost`, `far_bounds_lost`, `far_multi_raises` | the cases of `PBT.itercases` have the same descriptors (lists are not recorded); `FarOptimumFunction(multiobjective=True)` loses its upper bounds, experiments with it raise |
| C176 | `Olympus.evaluation_wrong` | `OlympusSurface.evaluation_function` subtracts the shift twice: the optimum is not evaluated as the optimum |
| C178 | `Pareto.minLosses_missed` | in the mode with hypervolume `get_min_losses` can miss a told candidate that nothing dominates, when it lies on a bound or beyond one (core.py 115-121, 130-137) |
