{"claims": [
 {"property": "C01", "status": "proved", "theorems": ["NG.ArchiveSt.recommend_best", "NG.ArchiveSt.recommend_best_candidate", "NG.ArchiveSt.recommend_initial", "NG.ArchiveSt.recommend_noisy", "NG.ArchiveSt.ofPruning_removes", "NG.ArchiveSt.recommend_retold_loss", "NG.ArchiveSt.recommend_out_of_range", "NG.Opt.unconstrained_archive", "NG.Opt.optimizer_recommend_best"], "note": "re-evaluations of a point must lie within +-1e10 (the code clips them); recommend_retold_loss and recommend_out_of_range show the limits"},
 {"property": "C02", "status": "proved", "theorems": ["NG.ArchiveSt.bests_minimal", "NG.ArchiveSt.archive_holds_history"], "note": ""},
 {"property": "C03", "status": "partial", "theorems": ["NG.Pruning.pruning_keeps_best", "NG.Pruning.pruning_raises_iff", "NG.Pruning.pruning_strict_best_survives", "NG.Pruning.pruning_min_len_partial", "NG.Pruning.pruning_ties_empty", "NG.Pruning.pruning_default_sound", "NG.Pruning.pruning_default_sizes", "NG.Pruning.archive_bounded", "NG.Pruning.default_memory"], "note": "size bounds proved; keeping at least min_len points fails with ties (pruning_ties_empty)"},
 {"property": "C04", "status": "proved", "theorems": ["NG.MV.multiValue_statistics", "NG.MV.multiValue_exact", "NG.MV.multiValue_bounds_ordered", "NG.MV.multiValue_minimum_not_told", "NG.MV.multiValue_minimum_missed"], "note": "values within +-1e10; the last two theorems show what happens outside"},
 {"property": "C05", "status": "partial", "theorems": ["NG.Opt.counters_exact", "NG.Opt.num_ask_exact_partial", "NG.Opt.num_ask_inflated"], "note": "num_ask is exact only if no ask raised"},
 {"property": "C06", "status": "partial", "theorems": ["NG.Loss.scalar_loss_recorded_partial", "NG.Loss.scalar_loss_sane", "NG.Loss.scalar_accepted_iff", "NG.Loss.singleton_list_not_clipped", "NG.Loss.singleton_int_list_raises"], "note": "scalar form proved; the list form violates the claim (witnesses)"},
 {"property": "C07", "status": "proved", "theorems": ["NG.Minimize.minimize_spends_budget"], "note": ""},
 {"property": "C08", "status": "proved", "theorems": ["NG.Minimize.minimize_workers", "NG.Minimize.minimize_untold", "NG.Minimize.minimize_batches"], "note": ""},
 {"property": "C09", "status": "proved", "theorems": ["NG.Minimize.minimize_terminates", "NG.Minimize.minimize_overspent_diverges"], "note": ""},
 {"property": "C10", "status": "partial", "theorems": ["NG.Minimize.minimize_resume_partial", "NG.Minimize.minimize_registered_told", "NG.Minimize.minimize_loses_candidate", "NG.Minimize.minimize_tells_twice", "NG.Minimize.minimize_drops_finished", "NG.Minimize.interrupt_drops"], "note": "proved for interruptions between statements; an interruption between the two attribute stores of the split drops the finished jobs (minimize_drops_finished)"},
 {"property": "C100", "status": "proved", "theorems": ["NG.NGOptF.recommend_nearest", "NG.NGOptF.nearest_unique", "NG.NGOptF.nearest_mono", "NG.NGOptF.nearest_mono_dim", "NG.NGOptF.recommend_self", "NG.NGOptF.large_budget", "NG.NGOptF.select_nearest", "NG.NGOptF.select_no_budget", "NG.NGOptF.select_other", "NG.NGOptF.generic_unreachable", "NG.NGOptF.portfolio_parallel", "NG.NGOptF.rw_portfolio", "NG.NGOptF.f_large"], "note": "the flags no_parallelization are a parameter of the theorems; ratios and distances are exact; which names are registered is not modelled"},
 {"property": "C101", "status": "partial", "theorems": ["NG.NGOptF.mostFrequent_mode", "NG.NGOptF.mostFrequent_any", "NG.NGOptF.mostFrequent_determined", "NG.NGOptF.single_mode", "NG.NGOptF.single_determined_partial", "NG.NGOptF.f2_depends", "NG.NGOptF.table_budgets"], "note": "a most frequent one is always used; it is the same for all hash seeds exactly when one of the remaining names is more frequent than all others (single_determined_partial). The tables contain ties, so the claim is false (f2_depends, dimension 5 and budget 1000)"},
 {"property": "C102", "status": "partial", "theorems": ["NG.Rand.get_uniform", "NG.Rand.touch_uniform", "NG.Rand.get_same", "NG.Rand.mutateIn_pos", "NG.Rand.replace_uniform", "NG.Rand.reproducible_partial", "NG.Rand.seeded_reproducible", "NG.Rand.replace_not_reaching", "NG.Rand.set_mutation_breaks", "NG.Rand.set_mutation_repaired"], "note": "true for all programs without set_mutation(sigma=Parameter) and without replacement of a generator midway (reproducible_partial, seeded_reproducible); false with set_mutation on a parameter whose generator exists: sigma keeps a generator of its own, seeded by numpy's global one (set_mutation_breaks); assigning random_state afterwards repairs it (set_mutation_repaired). Replacing a generator does not reach children spawned before (replace_not_reaching). The optimizers which call numpy's global generator directly are not modelled"},
 {"property": "C103", "status": "partial", "theorems": ["NG.MutSteps.mutate_steps", "NG.MutSteps.unmoved", "NG.MutSteps.outside_unmoved", "NG.MutSteps.data_one_step_partial", "NG.MutSteps.nested_steps", "NG.MutSteps.dict_two_steps", "NG.MutSteps.choice_untouched_partial", "NG.MutSteps.choice_in_dict_moves", "NG.MutSteps.variance_steps", "NG.MutSteps.moves_disjoint"], "note": "exact number of steps of every variable for all shapes, no draw used twice (mutate_steps), hence its variance (variance_steps) and independence (moves_disjoint). One step for arrays alone (data_one_step_partial) and untouched options for choices alone (choice_untouched_partial); false within containers: one more step for each container around (nested_steps, dict_two_steps), and options which are not drawn move (choice_in_dict_moves)"},
 {"property": "C104", "status": "partial", "theorems": ["NG.Disc.force_const_partial", "NG.Disc.std_uniform_partial", "NG.Disc.force_first", "NG.Disc.force_first_all", "NG.Disc.second_scalar_unreachable", "NG.Disc.unordered_raises", "NG.Disc.trans_uniform", "NG.Disc.trans_valid"], "note": "true for distinct constants, with any repetitions (force_const_partial, std_uniform_partial); false for parameters: the value is read and written again, and goes to the first option which accepts it (force_first, second_scalar_unreachable); mutate of an unordered transition choice raises exactly when the options or the transitions have variables (unordered_raises)"},
 {"property": "C105", "status": "partial", "theorems": ["NG.Csec.no_budget", "NG.Csec.csec_total", "NG.Csec.csec_total_partial", "NG.Csec.tuning_raises", "NG.Csec.csec_parallel", "NG.Csec.smooth_selection", "NG.Csec.versions_differ", "NG.Csec.never_used", "NG.Csec.rough_selection", "NG.Csec.integer_array", "NG.Csec.neural", "NG.Csec.real_world", "NG.Csec.parallel_named"], "note": "Proved for plain problems with a budget. False in general: without a budget the selection raises AssertionError on every problem (no_budget), and on noise-free continuous problems declared as hyper-parameter tuning with at least 12 evaluations per dimension it raises TypeError (csec_total says exactly when; tuning_raises is an instance). never_used: the DS algorithms of NgDS2 are unreachable."},
 {"property": "C106", "status": "partial", "theorems": ["NG.IohChain.self_kept", "NG.IohChain.chain_spec", "NG.IohChain.last_starts_partial", "NG.IohChain.last_never_starts", "NG.IohChain.chain_budgets", "NG.IohChain.portfolio_spec", "NG.IohChain.mixed_members", "NG.IohChain.member18_kinds", "NG.IohChain.restarts_iff"], "note": "Everything is proved except that every member is used, which holds up to a million evaluations per squared dimension (last_starts_partial) and fails beyond (last_never_starts: the rounded up sub-budgets exhaust the budget before the last members)."},
 {"property": "C107", "status": "partial", "theorems": ["NG.ParamLog.load_calls", "NG.ParamLog.load_create", "NG.ParamLog.dumps_none", "NG.ParamLog.entry_item_partial", "NG.ParamLog.convert_scalar", "NG.ParamLog.entry_header_partial", "NG.ParamLog.header_losses", "NG.ParamLog.flatKey_inj", "NG.ParamLog.flattenLine_get", "NG.ParamLog.flattenLine_order", "NG.ParamLog.array_flattened", "NG.ParamLog.flatten_ok_partial", "NG.ParamLog.indices_spec", "NG.ParamLog.order_ignored", "NG.ParamLog.name_hides_loss", "NG.ParamLog.object_loses_line", "NG.ParamLog.ragged_raises"], "note": "Proved when parameters with the same key agree (entry_item_partial), no parameter is named like a field of the header (entry_header_partial) and lists are rectangular (flatten_ok_partial). Fails otherwise: the order argument has no effect, a parameter named #loss hides the loss, one value JSON refuses loses the whole line, a value such as [1, [2]] makes load_flattened raise."},
 {"property": "C108", "status": "partial", "theorems": ["NG.Penalty.satisfies_iff", "NG.Penalty.amount_zero", "NG.Penalty.penalty_nonneg", "NG.Penalty.penalty_mono", "NG.Penalty.penalty_grows", "NG.Penalty.update_spec", "NG.Penalty.update_rejected_kept", "NG.Penalty.violation_nonneg", "NG.Penalty.violation_late", "NG.Penalty.violation_early", "NG.Penalty.violation_documented_partial", "NG.Penalty.negative_loss_free", "NG.Penalty.run_feasible", "NG.Penalty.run_infeasible", "NG.Penalty.run_penalized_partial", "NG.Penalty.sub_constraint_free", "NG.Penalty.no_budget_free", "NG.Penalty.nan_satisfied", "NG.Penalty.integer_raises"], "note": "Proved for constraints of the candidate itself with a budget (run_penalized_partial), and the documented formula for non-negative losses in the second half of the budget with b or d equal to 1 (violation_documented_partial). Fails otherwise: constraints of sub-parameters have no penalty, nothing is added without a budget, non-positive losses of the first half are told without penalty, a rejected exponent is kept, nan satisfies every constraint."},
 {"property": "C109", "status": "partial", "theorems": ["NG.Values.accepts_iff", "NG.Values.read_back_partial", "NG.Values.set_own", "NG.Values.set_sibling", "NG.Values.rejected_mixture_partial", "NG.Values.dict_refused", "NG.Values.tuple_refused", "NG.Values.leaf_refused", "NG.Values.pyEq_same", "NG.Values.instrumentation_args", "NG.Values.plain_args", "NG.Values.instrumentation_assigned_partial", "NG.Values.hash_iff", "NG.Values.hash_assigned", "NG.Values.refused_alters", "NG.Values.constant_accepts_empty", "NG.Values.constant_accepts_repeated", "NG.Values.array_accepts_text", "NG.Values.array_mixed"], "note": "Acceptance, self-assignment, structure and hashes proved for all trees. Reading back holds where no array meets a constant and no text is given to an array (read_back_partial). Refused assignments keep the parameter only if the keys or the size are wrong or if it is a leaf; otherwise entries assigned before the exception keep their new value (refused_alters), and every entry holds its old or its assigned value (rejected_mixture_partial). Constants accept the empty array and arrays repeating them."},
 {"property": "C11", "status": "proved", "theorems": ["NG.Minimize.minimize_stop_asks_nothing", "NG.Minimize.minimize_stop_collects"], "note": ""},
 {"property": "C110", "status": "partial", "theorems": ["NG.Configured.diff_iff", "NG.Configured.diff_nodup", "NG.Configured.sortItems_perm", "NG.Configured.sortItems_sorted", "NG.Configured.name_default", "NG.Configured.name_order", "NG.Configured.name_determines_partial", "NG.Configured.build_iff", "NG.Configured.mismatch_iff", "NG.Configured.make_total", "NG.Configured.make_problem", "NG.Configured.make_given", "NG.Configured.make_name", "NG.Configured.make_nested", "NG.Configured.dictEq_iff", "NG.Configured.makerEq_symm", "NG.Configured.makerEq_trans", "NG.Configured.makerEq_setName", "NG.Configured.equal_same_name_partial", "NG.Configured.settings_eq_iff", "NG.Configured.incoherent_iff", "NG.Configured.instantiate_problem", "NG.Configured.description_name", "NG.Configured.equal_description_partial", "NG.Configured.renamed_equal_settings", "NG.Configured.name_and_object_differ", "NG.Configured.equal_other_name", "NG.Configured.private_hidden", "NG.Configured.commas_confuse"], "note": "Names, creation and equality proved in general. Same name implies equal public settings if texts of values have no commas and determine the values (name_determines_partial); equal optimizers have the same name if equal values have equal texts (equal_same_name_partial). Otherwise it fails: 2 and 2.0 are equal, private settings are hidden, texts with commas are confused. Renamed optimizers are equal, so experiments described differently are equal; a registered name and its object are not."},
 {"property": "C111", "status": "partial", "theorems": ["NG.Maps.total_partial", "NG.Maps.no_budget", "NG.Maps.parallel", "NG.Maps.wiz_selection", "NG.Maps.ioh1_selection", "NG.Maps.ioh2_selection", "NG.Maps.ioh3_selection", "NG.Maps.wizEnd_ngopt", "NG.Maps.ioh5_selection", "NG.Maps.ioh6_selection", "NG.Maps.ioh7_selection", "NG.Maps.later_versions", "NG.Maps.not_metrizable", "NG.Maps.smooth_expected", "NG.Maps.noisy_discrete", "NG.Maps.integer_arrays", "NG.Maps.opt38_portfolio", "NG.Maps.dsBase_selection", "NG.Maps.optRW_selection", "NG.Maps.rw2_selection", "NG.Maps.opt13_selection", "NG.Maps.sequential_iff"], "note": "Proved for all classes with a budget. Without a budget every one of them raises on continuous deterministic problems, AssertionError or TypeError (no_budget), though the budget is optional."},
 {"property": "C112", "status": "partial", "theorems": ["NG.Lsgo.make_optimum", "NG.Lsgo.shifted_optimum", "NG.Lsgo.rosenbrock_optimum", "NG.Lsgo.multiPart_optimum", "NG.Lsgo.multiPart_separable", "NG.Lsgo.split_spec", "NG.Lsgo.irregular_strictMono", "NG.Lsgo.shifted_separable_partial", "NG.Lsgo.rosenbrock_not_separable", "NG.Lsgo.conflicting_zero", "NG.Lsgo.conflicting_positive"], "note": "Proved, but for the separability of function 12: it is tagged separable and is not (rosenbrock_not_separable)."},
 {"property": "C113", "status": "partial", "theorems": ["NG.Power.dispatch_spec", "NG.Power.dispatch_optimal", "NG.Power.agent_spec", "NG.Power.setParameters_spec", "NG.Power.step_spec", "NG.Power.run_spec", "NG.Power.cost_bounds", "NG.Power.make_agents", "NG.Power.simulate_defined_partial", "NG.Power.block24_spec", "NG.Power.sizes_wrong", "NG.Power.width_one", "NG.Power.deblock24_wrong", "NG.Power.zeros_size", "NG.Power.apply_entries", "NG.Power.inputs_clocks", "NG.Power.run_start"], "note": "Proved, but for the sizes of the networks (depth is given as the number of outputs and width as the number of layers: sizes_wrong, width_one) and for the plots per hour (deblock24_wrong)."},
 {"property": "C114", "status": "proved", "theorems": ["NG.Fishing.day_spec", "NG.Fishing.days_spec", "NG.Fishing.loss_bounds", "NG.Fishing.loss_negative", "NG.Fishing.loss_zero", "NG.Fishing.loss_last", "NG.Fishing.extinction"], "note": "Proved with exact numbers."},
 {"property": "C115", "status": "partial", "theorems": ["NG.UnitCom.objective_spec", "NG.UnitCom.reachable", "NG.UnitCom.make_spec", "NG.UnitCom.solvable_partial", "NG.UnitCom.unsolvable", "NG.UnitCom.unsolvable_few"], "note": "The objective is proved; feasible plans exist for five generators or more (solvable_partial) but may not for fewer, three being the default (unsolvable, unsolvable_few)."},
 {"property": "C116", "status": "proved", "theorems": ["NG.Stsp.argsort_perm", "NG.Stsp.argsort_sorted", "NG.Stsp.argsort_unique", "NG.Stsp.loss_monotone", "NG.Stsp.all_tours", "NG.Stsp.length_ge", "NG.Stsp.loss_ge", "NG.Stsp.tour_reverse", "NG.Stsp.tour_rotate", "NG.Stsp.loss_neg", "NG.Stsp.loss_complex"], "note": "Proved with exact numbers; equal entries are sorted stably."},
 {"property": "C117", "status": "partial", "theorems": ["NG.Sphere.quasi_spec", "NG.Sphere.quasi_fails", "NG.Sphere.method_default", "NG.Sphere.random_spec", "NG.Sphere.pm_even_partial", "NG.Sphere.pm_odd_fails", "NG.Sphere.perms_spec", "NG.Sphere.perms_sum", "NG.Sphere.signs_sum", "NG.Sphere.permute_norm", "NG.Sphere.flip_spec", "NG.Sphere.order_spec", "NG.Sphere.order_balanced", "NG.Sphere.order_sign_balanced", "NG.Sphere.bounds_unique", "NG.Sphere.block_unique", "NG.Sphere.tentative_spec", "NG.Sphere.block_spec_partial", "NG.Sphere.block_short_fails", "NG.Sphere.lhs_strata", "NG.Sphere.lhs_halves"], "note": "Proved with exact real numbers and draws as arguments, except two cases where the code fails: antithetic_pm for an odd number of points (pm_odd_fails) and block_symmetry for arrays with fewer axes than blocks (block_short_fails)."},
 {"property": "C118", "status": "partial", "theorems": ["NG.Sphere.best_round", "NG.Sphere.greedy_last", "NG.Sphere.greedy_not_best", "NG.Sphere.greedy_spec", "NG.Sphere.step_spec", "NG.Sphere.disperse_spec_partial", "NG.Sphere.disperse_single", "NG.Sphere.move_closer", "NG.Sphere.cover_step", "NG.Sphere.jittered_default", "NG.Sphere.jittered_balanced", "NG.Sphere.jittered_stuck", "NG.Sphere.half_bounds", "NG.Sphere.pack_spec", "NG.Sphere.riesz_single", "NG.Sphere.rs_best", "NG.Sphere.rs_defined", "NG.Sphere.rs_nan", "NG.Sphere.rs_riesz_single"], "note": "The steps are proved for two points or more, without a blur in covering. The English claim is wrong in several cases, which are proved: greedy_dispersion keeps the best of its last batch only (greedy_not_best), dispersion fails for a single point (disperse_single), jittered fails by default and may never end (jittered_default, jittered_stuck), and the search with the Riesz energies never ends for a single point (rs_riesz_single)."},
 {"property": "C119", "status": "partial", "theorems": ["NG.Rl.update_possible", "NG.Rl.possible_fire", "NG.Rl.possible_reload", "NG.Rl.play_defined", "NG.Rl.play_swap", "NG.Rl.unfinished_spec", "NG.Rl.play_spec", "NG.Rl.game_ends", "NG.Rl.past_end", "NG.Rl.agent007_wins", "NG.Rl.from_to", "NG.Rl.same_game_partial", "NG.Rl.single_run", "NG.Rl.partial_solo", "NG.Rl.loop_steps", "NG.Rl.run_repeat", "NG.Rl.bond_full", "NG.Rl.bond_single_partial", "NG.Rl.fixed_not_reset", "NG.Rl.unreset_fails", "NG.Rl.make_spec", "NG.Rl.make_state", "NG.Rl.obs_swap", "NG.Rl.single_done", "NG.Rl.given_first", "NG.Rl.copy_std", "NG.Rl.tests_spec"], "note": "The equality of the games is proved for fixed agents that start in a state left unchanged by a reset, because the partial environment does not reset them (fixed_not_reset). Agents and environments are arbitrary deterministic functions with a state; the torch modules themselves are not modelled."},
 {"property": "C12", "status": "proved", "theorems": ["NG.Opt.suggestions_lifo", "NG.Opt.suggestions_reversed", "NG.Opt.suggestion_told_not_asked"], "note": ""},
 {"property": "C120", "status": "partial", "theorems": ["NG.Mlda.affect_spec", "NG.Mlda.kmeans_spec", "NG.Mlda.kmeans_zero", "NG.Mlda.kmeans_more", "NG.Mlda.kmeans_points", "NG.Mlda.kmeans_single", "NG.Mlda.kmeans_lloyd", "NG.Mlda.rescale_spec_partial", "NG.Mlda.clustering_init", "NG.Mlda.rescale_units", "NG.Mlda.constant_axis", "NG.Mlda.perceptron_zero", "NG.Mlda.perceptron_renumber", "NG.Mlda.perceptron_signs", "NG.Mlda.perceptron_range", "NG.Mlda.perceptron_dead", "NG.Mlda.perceptron_last", "NG.Mlda.perceptron_init", "NG.Mlda.inputs_spec", "NG.Mlda.sammon_zero", "NG.Mlda.sammon_moved", "NG.Mlda.sammon_unit", "NG.Mlda.sammon_init", "NG.Mlda.sammon_unreachable", "NG.Mlda.circle_optimal", "NG.Mlda.circle_closed", "NG.Mlda.round_iff", "NG.Mlda.top_spec", "NG.Mlda.pixel_spec", "NG.Mlda.pixel_zero", "NG.Mlda.inside_iff", "NG.Mlda.pixel_flat", "NG.Mlda.init_inside"], "note": "Proved over the real numbers for all data. The rescaled clustering is undefined for data with a constant coordinate (constant_axis), and the circle of from_2d_circle has its first point twice (circle_closed). The downloads of the data sets are not modelled."},
 {"property": "C121", "status": "partial", "theorems": ["NG.Cycling.order_kept", "NG.Cycling.riding_spec", "NG.Cycling.leader_exists", "NG.Cycling.rideStep_spec", "NG.Cycling.tire_spec", "NG.Cycling.segment_result", "NG.Cycling.loop_result", "NG.Cycling.race_result", "NG.Cycling.race_defined", "NG.Cycling.race_refused", "NG.Cycling.objective_grid", "NG.Cycling.call_spec", "NG.Cycling.strategies_spec", "NG.Cycling.combined_fails", "NG.Cycling.pace_balance", "NG.Cycling.pace_moves", "NG.Cycling.lead_spec", "NG.Cycling.energy_spec", "NG.Cycling.follow_gains", "NG.Cycling.follow_steady", "NG.Cycling.density_spec", "NG.Cycling.bodies_fit", "NG.Cycling.cycling_partial"], "note": "That a race always has a result is proved for every physics in which the head always moves on by a minimum (race_defined); for the physics of the code it is proved for a rider who leads from the start (lead_spec), but not for those who take the lead later, because the velocities of the riders behind swing. With combined strategies the function cannot be called by an optimizer (combined_fails), and a rider who brakes wins energy (follow_gains). Real numbers instead of floats."},
 {"property": "C122", "status": "proved", "theorems": ["NG.Arcoating.reflection_range", "NG.Arcoating.reciprocity", "NG.Arcoating.neutral", "NG.Arcoating.refined", "NG.Arcoating.objective_range", "NG.Arcoating.no_coating", "NG.Arcoating.reflection_stack", "NG.Arcoating.impedance_stack"], "note": "Real and complex numbers instead of floats. The invariance under cutting is stated at the wavelengths at which the tangents are finite; at the others the code has a tangent that is only large because of rounding."},
 {"property": "C123", "status": "partial", "theorems": ["NG.Causal.graph_spec", "NG.Causal.graph_antisymm", "NG.Causal.graph_reached_partial", "NG.Causal.first_alone", "NG.Causal.unused", "NG.Causal.unused_count", "NG.Causal.objective_spec", "NG.Causal.length_pairs", "NG.Causal.mem_pairs"], "note": "The correspondence holds for all nodes but the first. The loops start at 1: no choice joins the first node (first_alone), so that a true graph in which it is joined is never found, and the last n-1 choices have no effect (unused, unused_count). The scores of the package cdt are parameters."},
 {"property": "C124", "status": "partial", "theorems": ["NG.Topology.target_values", "NG.Topology.objective_zero", "NG.Topology.objective_share", "NG.Topology.objective_le", "NG.Topology.objective_init", "NG.Topology.constant_target", "NG.Topology.mixed_target_partial"], "note": "The last sentence is false for large instance numbers of the second pattern (constant_target): the wanted values are all the same, so that a constant array has the best value 0. It is proved for the small ones of this pattern (mixed_target_partial). The filter of scipy is a parameter."},
 {"property": "C125", "status": "partial", "theorems": ["NG.Rocket.impulse_kept", "NG.Rocket.normalized_ratio", "NG.Rocket.rocket_shift", "NG.Rocket.rocket_first", "NG.Rocket.normalized_zero", "NG.Rocket.masses_ok", "NG.Rocket.burnt_too_much", "NG.Rocket.gravity_partial", "NG.Rocket.gravity_newton_iff", "NG.Rocket.drag_spec", "NG.Rocket.drag_large", "NG.Rocket.density_nonneg", "NG.Rocket.angle_differs", "NG.Rocket.times_used", "NG.Rocket.burnStep_heights", "NG.Rocket.rocket_spec", "NG.Rocket.rocket_some", "NG.Rocket.fallStep_newton"], "note": "The sentences on the forces hold for their signs only: the size of the gravity is Newton's times sqrt(1 + z^2/r^2) (gravity_partial, gravity_newton_iff), the vertical drag can be any number of times the drag (drag_large), the last mass of the burn is always below the one with the empty engine used after it (burnt_too_much), the positions move for 16.8 seconds in a burn of 1.85 seconds (times_used), and the angles of 45 are taken as radians (angle_differs). Real numbers; the projections of pyproj are parameters; that the loop after the burn ends is not proved."},
 {"property": "C126", "status": "partial", "theorems": ["NG.De.move_spec", "NG.De.run_closed", "NG.De.constant_coordinate", "NG.De.affine_kept", "NG.De.slots", "NG.De.fresh_best", "NG.De.lastMin_spec", "NG.De.recommend_best_partial", "NG.De.order_only", "NG.De.affine_invariant", "NG.De.scale_invariant", "NG.De.noisy_spec", "NG.De.high_speed", "NG.De.recommends_worse", "NG.De.best_stuck", "NG.De.mean_fails", "NG.De.llambda_spec", "NG.De.small_standard", "NG.De.best_told", "NG.De.same_again"], "note": "The first sentence holds as long as no point is evaluated twice (recommend_best_partial, order_only). When the best point is drawn as parent with twice the same other one it is evaluated again, its estimated variance drops to 0, and now the default rule recommends a worse point (recommends_worse); a better point found later is not used as the best in the moves unless it is better by more than 70 (best_stuck). The rule mean is accepted and always a KeyError (mean_fails); the option small is standard in all dimensions below 2^1000 (small_standard). One worker, one objective, the population filled before the moves; the crossovers are masks."},
 {"property": "C127", "status": "partial", "theorems": ["NG.Photonics.bragg_bound", "NG.Photonics.bragg_optimum", "NG.Photonics.bragg_reached", "NG.Photonics.half_wave", "NG.Photonics.layer_merge", "NG.Photonics.merged", "NG.Photonics.chirped_none", "NG.Photonics.chirped_range", "NG.Photonics.makeInit_spec", "NG.Photonics.bounds_spec", "NG.Photonics.lambdas_spec", "NG.Photonics.loss_zero", "NG.Photonics.slices", "NG.Photonics.tuple_partial", "NG.Photonics.tuple_mixed", "NG.Photonics.compute_spec", "NG.Photonics.loss_range", "NG.Photonics.call_right", "NG.Photonics.one_problem_partial", "NG.Photonics.after_shape", "NG.Photonics.stale", "NG.Photonics.layer_disc", "NG.Photonics.fold_disc"], "note": "With as_tuple the variables of the layers are mixed up: the columns are concatenated and the transposition of an array with one axis has no effect, so that heights are taken as permittivities for every point of the domain (tuple_mixed); it is right for the problems with one kind of variables (tuple_partial). After the first evaluation ceviche keeps its device: an evaluation of another problem takes the formula of the new and the device of the old one, unless the shape of the new one is asked for before (stale, one_problem_partial, after_shape). Real and complex numbers; the tangents are finite. The morpho, cf_photosic problems and the simulations of ceviche are not modelled."},
 {"property": "C128", "status": "proved", "theorems": ["NG.Solar.share_formula", "NG.Solar.trapezoid_exact", "NG.Solar.flow_const", "NG.Solar.flow_first", "NG.Solar.reflectance_lt", "NG.Solar.absorb_clear", "NG.Solar.absorb_last", "NG.Solar.energy", "NG.Solar.absorb_range", "NG.Solar.gamma_clear", "NG.Solar.share_range", "NG.Solar.lambdas_ends", "NG.Solar.cost_spec", "NG.Solar.epscSi_spec", "NG.Solar.realistic_range", "NG.Solar.reference_range", "NG.Solar.same_problem", "NG.Solar.bare", "NG.Solar.antireflective", "NG.Solar.cascade2_fields", "NG.Solar.cascade_fields", "NG.Solar.cBas_cascade"], "note": "Exact real and complex numbers; absorption as the two problems call it (pol 0, theta 0, mu 1). The table of silicon is a parameter with positive imaginary parts (the file has them) and the spectrum is not negative. The transversal magnetic polarization and the morpho problem are not modelled."},
 {"property": "C129", "status": "partial", "theorems": ["NG.Pymoo.reach", "NG.Pymoo.monotone", "NG.Pymoo.known", "NG.Pymoo.unknown", "NG.Pymoo.penalty_ignored", "NG.Pymoo.told_losses", "NG.Pymoo.replays", "NG.Pymoo.reject_error", "NG.Pymoo.accept_partial", "NG.Pymoo.dummy_point", "NG.Pymoo.tell_num", "NG.Pymoo.late_dummy", "NG.Pymoo.tell_ok_partial", "NG.Pymoo.dummies_only"], "note": "Fails for penalties (the algorithm gets the losses without them, penalty_ignored), for cheap constraints (an error at the first refused point and an ask that waits for ever, reject_error) and for candidates asked before the number of objectives is known and told after the algorithm has started (KeyError, late_dummy). Pymoo itself is any algorithm that calls the objective; the box of pymoo is taken without its two ends, where the tangent is not defined."},
 {"property": "C13", "status": "proved", "theorems": ["NG.UidQueue.uidQueue_fifo", "NG.UidQueue.uidQueue_fifo_sublist", "NG.UidQueue.uidQueue_ask_fails_iff", "NG.UidQueue.uidQueue_conservation", "NG.UidQueue.uidQueue_unique", "NG.UidQueue.uidQueue_discard", "NG.UidQueue.uidQueue_round_robin", "NG.UidQueue.uidQueue_irregular_discard"], "note": ""},
 {"property": "C130", "status": "partial", "theorems": ["NG.Pyomo.real_within_partial", "NG.Pyomo.real_reach_partial", "NG.Pyomo.open_wrong", "NG.Pyomo.half_refused", "NG.Pyomo.int_spec", "NG.Pyomo.set_spec", "NG.Pyomo.stepped", "NG.Pyomo.many_refused", "NG.Pyomo.lit_escape", "NG.Pyomo.bounds_ignored", "NG.Pyomo.bounds_violated", "NG.Pyomo.names_inj", "NG.Pyomo.readKey_ok", "NG.Pyomo.leftKey_ok", "NG.Pyomo.quote_broken", "NG.Pyomo.tuple_broken", "NG.Pyomo.check_spec", "NG.Pyomo.calls_spec", "NG.Pyomo.loss_order", "NG.Pyomo.race_wrong"], "note": "Fails for the bounds of a variable (not used), half lines without 0 such as PositiveReals and PositiveIntegers (the function cannot be made), open ends beyond 1 or -1 (the next number is taken on the wrong side), ranges with other steps (the value is a range), indexes that are tuples with strings or strings with quotes (the code cannot be compiled) and evaluations in several threads (one instance is shared). Real numbers, with nextafter as a parameter; the expressions of Pyomo are functions of the assignment."},
 {"property": "C131", "status": "partial", "theorems": ["NG.Ml.call_args", "NG.Ml.eval_all", "NG.Ml.eval_args_partial", "NG.Ml.overfitter_partial", "NG.Ml.tree_ignored", "NG.Ml.tree_overfitter", "NG.Ml.cv_states", "NG.Ml.cv_mean_partial", "NG.Ml.objective_partial", "NG.Ml.evaluation_partial", "NG.Ml.fold_split", "NG.Ml.fold_disjoint", "NG.Ml.valid_once", "NG.Ml.valid_size", "NG.Ml.leak", "NG.Ml.memory_leak", "NG.Ml.grid_spec", "NG.Ml.dims_spec", "NG.Ml.reshape_flatten", "NG.Ml.data_spec", "NG.Ml.train_right_partial", "NG.Ml.train_wrong"], "note": "Fails for \"decision_tree\" (the evaluation replaces the recommended criterion and minimal number of samples by constants, also with `overfitter`), for \"keras_dense_nn\" (one net is fitted again for each fold and keeps its weights, so all rows to validate after the first fold were trained on) and for \"artificialcos\" and \"artificialsquare\" (the training set of the evaluation has the labels of the sine). Real numbers; learners, shuffles and the mean squared error are parameters; data from files, and their splits by scikit-learn, are not modelled."},
 {"property": "C132", "status": "partial", "theorems": ["NG.GymNet.dims_total", "NG.GymNet.dims_spec", "NG.GymNet.neural_full", "NG.GymNet.keeps_partial", "NG.GymNet.drift", "NG.GymNet.drift_wrong", "NG.GymNet.places", "NG.GymNet.greedy_spec", "NG.GymNet.linear_spec", "NG.GymNet.structured_eval", "NG.GymNet.structured_fails", "NG.GymNet.softmax_spec", "NG.GymNet.discretize_ok", "NG.GymNet.greedy_odds", "NG.GymNet.tuple_ok", "NG.GymNet.conformant_onto", "NG.GymNet.cast_spec", "NG.GymNet.conformant_squashed", "NG.GymNet.conformant_upper", "NG.GymNet.int_within", "NG.GymNet.int_high_unreached"], "note": "Fails for the residual deep nets of scale 0 (each step adds the identity to the weights of the candidate), for \"structured_neural\" (all calls fail, the second matrix is taken for another argument), for the continuous actions of conformant planning (squashed twice, so the ends of the range are not reached) and for integer actions (the upper bound is not reached). Real numbers; environments and draws are parameters."},
 {"property": "C133", "status": "partial", "theorems": ["NG.GymSim.loss_partial", "NG.GymSim.episode_det", "NG.GymSim.late_failure", "NG.GymSim.input_ok", "NG.GymSim.stack_spec", "NG.GymSim.mean_spec", "NG.GymSim.add_distinct", "NG.GymSim.best_dropped", "NG.GymSim.advice_spec", "NG.GymSim.advice_none", "NG.GymSim.extrapolate_same", "NG.GymSim.conformant_spec", "NG.GymSim.conformant_partial", "NG.GymSim.multi_spec", "NG.GymSim.evaluate_spec", "NG.GymSim.share_partial", "NG.GymSim.share_wrong", "NG.GymSim.sparse_spec", "NG.GymSim.sparse_partial", "NG.GymSim.sparse_fails", "NG.GymSim.prepare_bij", "NG.GymSim.tuple_first", "NG.GymSim.tuple_endless", "NG.GymSim.stacking_leak", "NG.GymSim.discount_backward", "NG.GymSim.oneHot_spec"], "note": "Fails with stacking (the stacked input of a simulation stays in the object and is the input of the next one; the archive drops the traces better than the mean), for the discount (the last reward has the largest weight, and the closed loop ignores gamma), for the share of calls of an evaluation with less than 115 calls, for sparse nets with weights in two dimensions (all calls fail) and for the environment with tuples (no episode after the first one ends). Real numbers; environments, controllers and draws are parameters."},
 {"property": "C134", "status": "partial", "theorems": ["NG.Launch.append_spec", "NG.Launch.append_partial", "NG.Launch.na_lost", "NG.Launch.compute_spec", "NG.Launch.compute_refused", "NG.Launch.chunks_perm", "NG.Launch.cap_spec", "NG.Launch.launch_spec", "NG.Launch.repeated_partial", "NG.Launch.repeated_plan", "NG.Launch.fallback", "NG.Launch.select_spec", "NG.Launch.select_perm", "NG.Launch.holds_spec", "NG.Launch.drop_spec", "NG.Launch.unique_spec", "NG.Launch.unique1_spec", "NG.Launch.equivalent_partial", "NG.Launch.nan_wrong"], "note": "Fails for texts that pandas reads as NaN (\"None\", \"null\", ...: they are erased from the old rows by the next append) and for `assert_equivalent` with NaN (rows with NaN are not sorted, so that rearranged frames are refused). Experiments are functions of the experiment objects, quoting and the texts of numbers are not modelled, savings that fail change nothing."},
 {"property": "C135", "status": "partial", "theorems": ["NG.Command.runs_finite", "NG.Command.ends_partial", "NG.Command.deadlock", "NG.Command.output_spec", "NG.Command.output_partial", "NG.Command.indent_lost", "NG.Command.command_inj", "NG.Command.command_length", "NG.Command.folder_value", "NG.Command.folder_last", "NG.Command.folder_fails"], "note": "A command that writes more to stderr than the pipe holds never ends: stderr is only read after the end of stdout (`deadlock`: every execution comes to a state where both wait). Spaces at both ends of each line of the output are lost (`indent_lost`). Characters that cannot be decoded and processes that stay after closing their streams are not modelled."},
 {"property": "C136", "status": "partial", "theorems": ["NG.HullRule.limit_spec", "NG.HullRule.limit_one", "NG.HullRule.kHull_spec", "NG.HullRule.kHull_range", "NG.HullRule.general_quasi", "NG.HullRule.hull_partial", "NG.HullRule.random_spec", "NG.HullRule.sampling_partial", "NG.HullRule.sampling_ignores", "NG.HullRule.hull_raises", "NG.HullRule.hull_not_max", "NG.HullRule.hull_unchecked", "NG.HullRule.center_wrong", "NG.HullRule.center_indices"], "note": "The sampling searches ignore the rules \"exp\" and \"hull\" though optimizers are registered with them. For the random search the rule \"hull\" raises an error with the required numpy (array of tuples of different shapes); with an older numpy its number of points never depends on the points: the hull of d + 1 points in general position has all of them as vertices, so that the loop is never entered, and with at most d points nothing is checked. `hull_center` (unused) gives the mean of two indices. Hulls are exact."},
 {"property": "C137", "status": "partial", "theorems": ["NG.Yabbob.plan_eq", "NG.Yabbob.mem_plan", "NG.Yabbob.plan_exists", "NG.Yabbob.plan_length", "NG.Yabbob.seeds_apart", "NG.Yabbob.seeds_given", "NG.Yabbob.settings", "NG.Yabbob.plans_exist", "NG.Yabbob.plans_described", "NG.Yabbob.mem_chain", "NG.Yabbob.mem_allFunctions", "NG.Yabbob.rotation_both", "NG.Yabbob.allFunctions_length", "NG.Yabbob.no_constraints", "NG.Yabbob.mem_window", "NG.Yabbob.window_length", "NG.Yabbob.constraints_partial", "NG.Yabbob.constrained_without", "NG.Yabbob.last_never", "NG.Yabbob.others_used", "NG.Yabbob.mega_first", "NG.Yabbob.mega_copies", "NG.Yabbob.twice", "NG.Yabbob.given_ignored", "NG.Yabbob.optims_of_yabbob", "NG.Yabbob.record_unused", "NG.Yabbob.value_isSome", "NG.Yabbob.value_spec", "NG.Yabbob.met_spec", "NG.Yabbob.opposite_bool", "NG.Yabbob.opposite_num", "NG.Yabbob.one_holds", "NG.Yabbob.smooth_center", "NG.Yabbob.smooth_fail", "NG.Yabbob.smooth_convex", "NG.Yabbob.mem_plan_seeds"], "note": "Only one function in thirteen gets the constraints in the plans with constraints; the others stay in the plan without any, though they are marked as having some. The eighth constraint is never used; the plans with a thousand smooth constraints use the first one and repeat the same slice six times. One name is listed twice. All plans of the family get the optimizers recorded for yabbob, since `refactor_optims` reads the name of its caller. The sign of a constraint has opposite meanings for cheap and penalized constraints. The functions and optimizers are names; the smooth constraints come from a global draw (`np.random.rand`), which is a parameter."},
 {"property": "C138", "status": "partial", "theorems": ["NG.MutChoice.addLayer_split", "NG.MutChoice.copyLayers_eq", "NG.MutChoice.apply_eq", "NG.MutChoice.apply_twice", "NG.MutChoice.last_wins", "NG.MutChoice.not_chooses", "NG.MutChoice.endless", "NG.MutChoice.endless_photonics", "NG.MutChoice.chooses_partial", "NG.MutChoice.select_finds", "NG.MutChoice.exec_mono", "NG.MutChoice.register_first", "NG.MutChoice.register_new", "NG.MutChoice.shared"], "note": "The choice is added before its mutations, so that it is below them and is never asked when one of them has the method: the last mutation of the list always does the work (in the photonics problems with rolling, always the translation and never the Cauchy mutation). When no mutation has the method (recombination) and one of them is selected, the calls never end. A choice can be applied to one parameter only, since the mutations are attached themselves; sub-parameters given as parameters are shared. The values are not modelled."},
 {"property": "C139", "status": "partial", "theorems": ["NG.Smooth.reflect_lt", "NG.Smooth.reflect_inside", "NG.Smooth.reflect_after", "NG.Smooth.reflect_before", "NG.Smooth.reflect_near", "NG.Smooth.window_inside", "NG.Smooth.window_near", "NG.Smooth.window_length", "NG.Smooth.window_line", "NG.Smooth.window_one", "NG.Smooth.convolve_mean", "NG.Smooth.convolve_within", "NG.Smooth.convolve_const", "NG.Smooth.convolve_affine", "NG.Smooth.copy_within", "NG.Smooth.copy_coordinate", "NG.Smooth.trial_some", "NG.Smooth.trial_ends", "NG.Smooth.copy_one", "NG.Smooth.copy_same", "NG.Smooth.not_reproducible", "NG.Smooth.run_kinds", "NG.Smooth.smoothed_iff", "NG.Smooth.never_smoothed", "NG.Smooth.queue_le", "NG.Smooth.suggest_next", "NG.Smooth.no_crossover", "NG.Smooth.not_recombines", "NG.Smooth.recombines_partial"], "note": "With one radius, the default, a copy may change no coordinate and then is the best point again; with super_radii the frequency comes from the global generator of numpy, so that the seed of the parametrization does not determine the copy; with one worker and antismooth at most two all turns of the crossover are taken by the smoothed copies and it never takes place. Noise handling, constraints and several objectives are not modelled; floating point rounding is not modelled."},
 {"property": "C14", "status": "proved", "theorems": ["NG.OrderedSet.orderedSet_refines_history", "NG.OrderedSet.orderedSet_observers", "NG.OrderedSet.orderedSet_popright", "NG.OrderedSet.add_index"], "note": ""},
 {"property": "C140", "status": "partial", "theorems": ["NG.Callbacks.fire_quiet", "NG.Callbacks.fireAll_quiet", "NG.Callbacks.register_get", "NG.Callbacks.registerNamed_eq", "NG.Callbacks.fire_fail", "NG.Callbacks.fire_add", "NG.Callbacks.fire_clear", "NG.Callbacks.curve_twice", "NG.Callbacks.tellSnaps_spec", "NG.Callbacks.tellSnaps_seen", "NG.Callbacks.turn_saved", "NG.Callbacks.resume", "NG.Callbacks.resume_same", "NG.Callbacks.counts_tellAll", "NG.Callbacks.counts_after", "NG.Callbacks.not_countsTells", "NG.Callbacks.twice_kept", "NG.Callbacks.not_onceKept", "NG.Callbacks.shown_partial", "NG.Callbacks.logger_losses", "NG.Callbacks.due_first", "NG.Callbacks.logger_first_ask", "NG.Callbacks.printer_several"], "note": "With one objective a continued run is the uninterrupted one, but callbacks registered before the OptimizerDump (a progress bar) count the saved evaluation twice. With several objectives the point was already added to the front when it is saved, and is added again: while the bounds are set automatically it is kept twice and the bounds are set from one evaluation less. The logger fails on ask before the first tell, the printer fails with several objectives. The executor is the default one; early stopping and a maximum time are not part of this model."},
 {"property": "C141", "status": "proved", "theorems": ["NG.Morpho.marche_fourier", "NG.Morpho.marche_hermitian", "NG.Morpho.marche_uniform", "NG.Morpho.marche_period", "NG.Morpho.marche_pos", "NG.Morpho.creneau_lossless", "NG.Morpho.homogene_lossless", "NG.Morpho.eigen_exists", "NG.Morpho.eig_exists", "NG.Morpho.eigen_real", "NG.Morpho.modes_fade", "NG.Morpho.grating_fields", "NG.Morpho.energy", "NG.Morpho.reflected_le", "NG.Morpho.cost_range", "NG.Morpho.eigen_irrelevant", "NG.Morpho.translate", "NG.Morpho.mirror", "NG.Morpho.cost_eigen", "NG.Morpho.cost_translate", "NG.Morpho.cost_mirror", "NG.Morpho.cost_period", "NG.Morpho.bare_regular", "NG.Morpho.bare", "NG.Morpho.cost_bare", "NG.Morpho.flat", "NG.Morpho.widths_ok", "NG.Morpho.waveNumber_spec", "NG.Morpho.lams_spec"], "note": "Numbers are exact. The theorems on stacks assume that the inverses that the code computes exist, and that the routine for eigenvectors returns eigenvectors that span the space; such a routine exists for all motifs whose width is between 0 and the period, and the inverses exist for a bare substrate."},
 {"property": "C142", "status": "proved", "theorems": ["NG.Fdfd.dex_spec", "NG.Fdfd.dey_spec", "NG.Fdfd.dhx_spec", "NG.Fdfd.dhy_spec", "NG.Fdfd.derivatives_commute", "NG.Fdfd.wave_spec", "NG.Fdfd.wave_symm", "NG.Fdfd.reciprocity", "NG.Fdfd.wave_hermitian", "NG.Fdfd.total_field", "NG.Fdfd.source_border", "NG.Fdfd.index_le", "NG.Fdfd.index_le_x", "NG.Fdfd.loss_scale", "NG.Fdfd.stretches_spec", "NG.Fdfd.stretches_absorb", "NG.Fdfd.stretches_symm", "NG.Fdfd.stretches_ends", "NG.Fdfd.interior", "NG.Fdfd.source_wave"], "note": "Numbers are exact. Periodic boundary conditions, which no caller uses, the mode H and the placement of the waveguides on the grid are not modelled; the eigenvectors and the materials are arbitrary."},
 {"property": "C143", "status": "partial", "theorems": ["NG.CrossVal.create_spec", "NG.CrossVal.heldout_unseen", "NG.CrossVal.create_exists", "NG.CrossVal.inner_bounds", "NG.CrossVal.select_spec", "NG.CrossVal.evaluate_spec", "NG.CrossVal.evaluate_exists", "NG.CrossVal.select_few_partial", "NG.CrossVal.hypervolume_raises", "NG.CrossVal.reference_none", "NG.CrossVal.copy_shares", "NG.CrossVal.copy_fresh", "NG.CrossVal.overlap_trained", "NG.CrossVal.alone_raises"], "note": "False of the code: the upper bounds of the inner experiment are not given to the special one, so that no reference is told to the optimizer and the evaluation sets its own bounds with the first 15 recommendations; the selection with the hypervolume then raises for each Pareto front of at most 15 recommendations above the size (`hypervolume_raises`). A copy shares the parametrization object of the original (`copy_shares`). `select_few_partial` has the other methods, for at most 15 recommendations. The scores of the methods are parameters (C57 has the choice of the least one); functions are deterministic."},
 {"property": "C144", "status": "partial", "theorems": ["NG.Sampling.plain_asks", "NG.Sampling.lhs_quantiles", "NG.Sampling.halton_quantiles", "NG.Sampling.hammersley_quantiles", "NG.Sampling.rescaled_asks", "NG.Sampling.rescaled_extremes_partial", "NG.Sampling.rescaled_single", "NG.Sampling.rescaled_no_budget", "NG.Sampling.random_rescaled_raises", "NG.Sampling.auto_one", "NG.Sampling.scale_pos", "NG.Sampling.calls_spec", "NG.Sampling.asks_spec", "NG.Sampling.asks_all", "NG.Sampling.ask_over", "NG.Sampling.sample_range", "NG.Sampling.clip_stratum"], "note": "Halton, Hammersley and Latin hypercube points are proved for all budgets (below 10^9 where the clipping of the transform could merge parts). False parts with witnesses: the rescaled random search draws new points after its rescaler was made and raises an error when one is outside of the range; rescaling without a budget raises for all searches; with only one point from the sampler the rescaled point is not a number; autorescale=True in dimension one divides by log 1 = 0 and no coordinate is a number; \"autotune\" with budget one gives scale zero. Opposition modes, bounded parameters and floating point rounding are not modelled."},
 {"property": "C145", "status": "partial", "theorems": ["NG.Names.same_name_partial", "NG.Names.dict_order", "NG.Names.copy_name", "NG.Names.copy_structure_partial", "NG.Names.offset_lost", "NG.Names.copy_keeps", "NG.Names.base_rounded", "NG.Names.texts_collide", "NG.Names.name_flat", "NG.Names.join_inj", "NG.Names.shapeText_inj"], "note": "Proved for all trees whose constants are words which are not classes or texts in brackets, and up to the names of layers: equal names give equal structures, by a unique reading of the text. False parts with witnesses: offsets, powers and moduli are not in the names and bases are rounded to two decimals, so that a copy of a function whose parametrization was replaced by one with another offset silently keeps the old one (copy_keeps); a number and a string with the same text, a constant with a comma, a constant with the text of a class and an empty name (which an error message of the library recommends) collide with others. Names of transforms are texts; the values of arrays, which names leave out on purpose, are not modelled."},
 {"property": "C146", "status": "partial", "theorems": ["NG.Fourier.transform_one", "NG.Fourier.transform_two", "NG.Fourier.one_axis_partial", "NG.Fourier.one_axis_defined", "NG.Fourier.one_axis_same", "NG.Fourier.one_axis_mean", "NG.Fourier.one_axis_energy", "NG.Fourier.one_axis_last", "NG.Fourier.bounds_kept", "NG.Fourier.two_axes", "NG.Fourier.two_axes_same", "NG.Fourier.two_axes_neither"], "note": "Proved in full along one axis, any other axes being present. With two axes (the default for images, where all axes are used) the claim is false: the exact coefficients are given (two_axes): at the zero frequency of the last axis a coefficient whose opposite is not in the part is the mean of the two parents, with a witness that it is that of none of them (two_axes_neither), since the part drawn is not symmetric and numpy drops the imaginary part. The last frequency always comes from the first parent (one_axis_last). More than two transformed axes are not modelled; numbers are exact."},
 {"property": "C147", "status": "partial", "theorems": ["NG.Control.dimension", "NG.Control.names_same", "NG.Control.action_defined", "NG.Control.action_value", "NG.Control.default_coefs", "NG.Control.layers_ignored", "NG.Control.coefs_scale", "NG.Control.action_bounded", "NG.Control.noise_spec", "NG.Control.noise_zero", "NG.Control.loss_spec", "NG.Control.loss_defined", "NG.Control.repeatable_partial", "NG.Control.drawn_seed", "NG.Control.not_repeatable"], "note": "Proved: the shapes, the value and the size of the action, its bound, the loss as minus the mean of the sums of rewards of runs described step by step, in both directions, and that evaluations agree when there is a seed and no noise. False parts: layers without a rescaling coefficient are silently ignored (layers_ignored); the noise is relative, so that a zero action has none whatever the level (noise_zero); with the default arguments the simulation is said to be deterministic but has no seed (not_repeatable); the names of the layers are all the same text since the prefix of the format is missing (names_same). With no episode the mean is not a number."},
 {"property": "C148", "status": "proved", "theorems": ["NG.SphereMetric.pack_avg_value", "NG.SphereMetric.pack_avg_least", "NG.SphereMetric.pack_abs_spec", "NG.SphereMetric.antithetic_best", "NG.SphereMetric.half_even", "NG.SphereMetric.half_odd", "NG.SphereMetric.half_odd_least", "NG.SphereMetric.cap_bounds", "NG.SphereMetric.cap_symmetric", "NG.SphereMetric.force_sum", "NG.SphereMetric.force_outwards", "NG.SphereMetric.noblur_spec", "NG.SphereMetric.blurred_spec", "NG.SphereMetric.coincide_redrawn", "NG.SphereMetric.two_points", "NG.SphereMetric.opposite_fixed", "NG.SphereMetric.step_size_ignored", "NG.SphereMetric.same_without_blur", "NG.SphereMetric.scores_symmetric"], "note": "Exact arithmetic. The blur is any function, odd for antithetic_best. A finding: the step size is read by Riesz_blurred_gradient only (step_size_ignored), where its default is ten times the step of the other two."},
 {"property": "C149", "status": "partial", "theorems": ["NG.Pooling.pool_spec", "NG.Pooling.pool_axes", "NG.Pooling.pool_total_partial", "NG.Pooling.pool_ignores", "NG.Pooling.pool_one", "NG.Pooling.pool_contracts", "NG.Pooling.max_pooling_partial", "NG.Pooling.max_pooling_unit", "NG.Pooling.max_pooling_axes", "NG.Pooling.small_shape_random", "NG.Pooling.default_kernel", "NG.Pooling.without_pooling", "NG.Pooling.not_dispersed"], "note": "Proved for blocks that fit: the averages, the sum, the contraction, and the choice of the farthest draw. False parts: the entries beyond the last whole block are not read (pool_ignores), so that the sum is that of the whole blocks only; a block larger than an axis makes all distances zero and the points purely random (small_shape_random); the distances are those of the draws before they are normalized, so that a repeated direction can be preferred to the opposite one (not_dispersed); with less than three axes there is an error (max_pooling_axes); the default blocks also average the first axis when it has 16 entries or more (default_kernel)."},
 {"property": "C15", "status": "proved", "theorems": ["NG.Pareto.front_exact", "NG.Pareto.front_covers", "NG.Pareto.hyper_front_exact"], "note": ""},
 {"property": "C150", "status": "partial", "theorems": ["NG.Images.distances", "NG.Images.abs_metric", "NG.Images.reference_accepted", "NG.Images.histogram_is_brightness", "NG.Images.histogram_partial", "NG.Images.black_minimizes", "NG.Images.histogram_not_a_distance", "NG.Images.blur_nonpos", "NG.Images.pixels_range", "NG.Images.pixels_affine", "NG.Images.interpolate_ends", "NG.Images.interpolate_mean", "NG.Images.movability_shape", "NG.Images.movability_single", "NG.Images.total_spec", "NG.Images.single_ignores_ends", "NG.Images.ends_fixed", "NG.Images.pgan_sum", "NG.Images.single_in_ball", "NG.Images.attack_range", "NG.Images.attack_zero", "NG.Images.adv_sign", "NG.Images.argmax_spec", "NG.Images.eval_spec", "NG.Images.untargeted_success", "NG.Images.targeted_success", "NG.Images.folder_spec", "NG.Images.no_folder"], "note": "Networks, the Laplacian and resizing are arguments; exact arithmetic. False parts: HistogramDifference sums differences without absolute value, so that it is the difference of the total brightness, negative for darker images and least for the black image whatever the reference (histogram_is_brightness, black_minimizes, histogram_not_a_distance; histogram_partial is what remains); the order of the sequence of images is the contrary of the comment (interpolate_ends, ends_fixed); the image without a folder is black (no_folder)."},
 {"property": "C151", "status": "partial", "theorems": ["NG.Ceviche.shape_query", "NG.Ceviche.same_loss", "NG.Ceviche.no_history", "NG.Ceviche.after_calls", "NG.Ceviche.flag", "NG.Ceviche.flag_run", "NG.Ceviche.missing_history", "NG.Ceviche.discretize_query", "NG.Ceviche.round_partial", "NG.Ceviche.round_outside", "NG.Ceviche.round_near", "NG.Ceviche.discretized_call"], "note": "The simulators and autograd are arguments, without errors; exact arithmetic. False parts: the two benchmarks that are announced but not defined (1 and 3) return nothing before the first simulation, and afterwards give their name, or an UnboundLocalError for a design (missing_history); with discretize neither the name nor the shape can be asked (discretize_query); values outside of [0, 1] are rounded to other integers (round_outside; round_partial is what remains); asking the fields simulates the design twice (same_loss)."},
 {"property": "C152", "status": "partial", "theorems": ["NG.ExportTable.cell_clean", "NG.ExportTable.cell_plain", "NG.ExportTable.cell_percent", "NG.ExportTable.cell_underscore", "NG.ExportTable.line_cells_partial", "NG.ExportTable.header_cells", "NG.ExportTable.body_spec", "NG.ExportTable.ampersand_shifts", "NG.ExportTable.line_width", "NG.ExportTable.row_not_escaped", "NG.ExportTable.parameters_lost"], "note": "The constant lines of the document and the widths are left out. False parts: the names of rows and columns are not escaped, so that an ampersand moves the data by one column and a percent sign hides the rest of the line (ampersand_shifts, row_not_escaped); the length of the data is not checked (line_width), and missing rows of data stop the export in the middle of the file (body_spec); optimizers that differ by their parameters look the same (parameters_lost). line_cells_partial is what remains."},
 {"property": "C153", "status": "partial", "theorems": ["NG.Nash.distribution", "NG.Nash.fallback", "NG.Nash.deterministic_fallback", "NG.Nash.nonempty", "NG.Nash.limited", "NG.Nash.probabilities_spec", "NG.Nash.sample_spec", "NG.Nash.threshold_partial", "NG.Nash.threshold_differs", "NG.Nash.two_kinds"], "note": "Exact arithmetic: comparisons of roots are comparisons of powers. False parts: the threshold is the square root of the greatest count, not its fourth root (threshold_differs; threshold_partial is what remains); what is sampled is data in some cases and a parameter in others (two_kinds)."},
 {"property": "C154", "status": "partial", "theorems": ["NG.Datasets.cached", "NG.Datasets.downloaded", "NG.Datasets.unverified", "NG.Datasets.failed", "NG.Datasets.unknown", "NG.Datasets.returned_exists", "NG.Datasets.once", "NG.Datasets.error_page", "NG.Datasets.blank_returned", "NG.Datasets.names", "NG.Datasets.paths_differ", "NG.Datasets.height_partial", "NG.Datasets.height_not_average"], "note": "Requests have outcomes given as arguments; parsers and the folder are left out. False parts: the status of the response is not looked at, so that the page of an error is kept for ever as the dataset (error_page), and something blank is returned without an error (blank_returned); the weights of the colors have sum 2.0034, the red one being 1.216 in place of 0.2126 (height_not_average; height_partial is what remains)."},
 {"property": "C155", "status": "partial", "theorems": ["NG.AngleParam.read_range", "NG.AngleParam.assign_spec", "NG.AngleParam.read_stable", "NG.AngleParam.make_spec", "NG.AngleParam.sample_spec", "NG.AngleParam.direction_partial", "NG.AngleParam.reachable", "NG.AngleParam.chord", "NG.AngleParam.bouncing_turns"], "note": "Exact arithmetic (in floating point -pi may be read as -pi); the bound method gaussian is left out. False part: with bounds on the coordinates the value does not depend on the direction only, a bounce turns the angle (bouncing_turns; direction_partial and reachable are proved without bounds)."},
 {"property": "C156", "status": "partial", "theorems": ["NG.OptGroups.get_spec", "NG.OptGroups.no_duplicates_partial", "NG.OptGroups.more_groups", "NG.OptGroups.seeded", "NG.OptGroups.name_lost", "NG.OptGroups.given_twice"], "note": "Groups are lists; the shuffle is an argument. False parts: optimizers are compared by class and configuration, so that one with another name and the same configuration disappears (name_lost), while a name and the configured optimizer of this name are both kept (given_twice)."},
 {"property": "C157", "status": "partial", "theorems": ["NG.PlotCases.cases_partition", "NG.PlotCases.mem_allDescriptors", "NG.PlotCases.mem_combinable", "NG.PlotCases.mem_xpDescriptors", "NG.PlotCases.xp_same_setting", "NG.PlotCases.fixedSets_spec", "NG.PlotCases.bestAlgo_spec", "NG.PlotCases.compactize_spec", "NG.PlotCases.compactize_injective", "NG.PlotCases.shorten_dead", "NG.PlotCases.compactize_suffix", "NG.PlotCases.strip_suffix", "NG.PlotCases.fightName_png", "NG.PlotCases.fightName_collides", "NG.PlotCases.fightName_injective_partial"], "note": "Rows are functions of the column; the digest is any function with 32 characters. False part: two cases of different columns may have the same file (fightName_collides: column d with value 12 and column d1 with value 2). Proved for one choice of columns and values without commas. The shortenings above 240 and 280 characters never apply (shorten_dead). The cleaning of the table and the drawing are not modelled."},
 {"property": "C158", "status": "partial", "theorems": ["NG.Neural.softmax_spec", "NG.Neural.softmax_ratio", "NG.Neural.act_deterministic", "NG.Neural.act_invariant", "NG.Neural.sample_spec", "NG.Neural.act_valid", "NG.Neural.linear_bound", "NG.Neural.denseNet_bound", "NG.Neural.denseNet_homogeneous", "NG.Neural.linear_spec", "NG.Neural.bottleneck", "NG.Neural.evaluation_spec", "NG.Neural.failure_better", "NG.Neural.failure_not_better_partial"], "note": "Real numbers: NaN and overflow are not modelled, an error while playing is an argument. False part: a play that fails counts as a reward of zero, better than all negative rewards (failure_better); it holds for rewards that are not negative (failure_not_better_partial)."},
 {"property": "C159", "status": "partial", "theorems": ["NG.FarOptimum.mono_zero", "NG.FarOptimum.mono_lipschitz", "NG.FarOptimum.towards", "NG.FarOptimum.pareto", "NG.FarOptimum.evaluation_spec", "NG.FarOptimum.upper_partial", "NG.FarOptimum.upper_negative", "NG.IterCases.far_bounds_lost"], "note": "The parametrization is not modelled. False part: the upper bounds are twice the optimum, so that no point is within them when a coordinate of the optimum is negative (upper_negative); proved for the others (upper_partial). Moreover the initialization of the base class replaces the bounds by None (IterCases.far_bounds_lost, see C175); the statements are about the value that was given."},
 {"property": "C16", "status": "partial", "theorems": ["NG.Hv.hvol_exact_partial", "NG.Hv.hvol_cover", "NG.Hv.dominatedVolume_spec", "NG.Hv.hvol_volumeSpec", "NG.Hv.hvol_exact_untied_partial", "NG.Hv.hvol_cover_untied", "NG.Hv.hvol_four_wrong", "NG.Hv.hvol_four_wrong_below", "NG.Hv.hvol_six_too_large", "NG.Hv.hvol_seven_order", "NG.Hv.hvol_four_not_volume"], "note": "exact (Lebesgue measure) for one to three objectives, and for any number of objectives when the points are below the reference without ties on the objectives other than the first two and the last (hvol_exact_untied_partial: the caches, bounds and domination flags are right); false from four objectives on when coordinates are tied (hvol_four_wrong)"},
 {"property": "C160", "status": "proved", "theorems": ["NG.BlockClass.block_unique", "NG.BlockClass.blocks_cover", "NG.BlockClass.block_sizes", "NG.BlockClass.box_spec", "NG.BlockClass.sums_spec", "NG.BlockClass.sums_total", "NG.BlockClass.argsort_spec", "NG.BlockClass.part_spec", "NG.BlockClass.class_direction", "NG.BlockClass.class_max", "NG.BlockClass.class_orders"], "note": "The class is the list that the code hashes; equal hashes of different lists are not modelled. Ties are sorted by index."},
 {"property": "C161", "status": "partial", "theorems": ["NG.TypeNorm.columns_sublist", "NG.TypeNorm.columns_numbers", "NG.TypeNorm.raises_fresh", "NG.TypeNorm.drop_fresh", "NG.TypeNorm.first_column_partial", "NG.TypeNorm.too_many", "NG.TypeNorm.nan_kept", "NG.TypeNorm.good_row_lost", "NG.TypeNorm.strip_spec", "NG.TypeNorm.strip_integer"], "note": "False part: after a first column has lost rows, the labels have holes; rows of the next column are looked up by label and dropped by place, so that rows of numbers are lost (good_row_lost). A column with a NaN is silently left as it is (nan_kept). Proved for the first column that loses rows, without a NaN (first_column_partial)."},
 {"property": "C162", "status": "partial", "theorems": ["NG.BoundShape.axis_some", "NG.BoundShape.check_partial", "NG.BoundShape.shape_partial", "NG.BoundShape.scalar_bounds", "NG.BoundShape.wrong_side", "NG.BoundShape.last_axes", "NG.BoundShape.first_axes_refused", "NG.BoundShape.shape_grows"], "note": "False part: the check matches axes from the first one and numpy from the last one, so that bounds of the last axes are refused and bounds of the first axes go through and fail later (wrong_side, last_axes, first_axes_refused); an array with an axis of size 1 takes the shape of the bounds (shape_grows). Proved for bounds with as many axes as the array (check_partial), of the same sizes or 1 (shape_partial)."},
 {"property": "C163", "status": "partial", "theorems": ["NG.PlotFrame.top_spec", "NG.PlotFrame.bottom_spec", "NG.PlotFrame.last_mem", "NG.PlotFrame.upper_spec", "NG.PlotFrame.upper_all", "NG.PlotFrame.chosen_sub", "NG.PlotFrame.lower_spec", "NG.PlotFrame.limits_partial", "NG.PlotFrame.limits_pure", "NG.PlotFrame.logPlot_spec", "NG.PlotFrame.frame_linear", "NG.PlotFrame.frame_log", "NG.PlotFrame.bands", "NG.PlotFrame.bands_first_order", "NG.PlotFrame.conf_spec", "NG.PlotFrame.baseline_iff"], "note": "False part: the plot of pure algorithms only takes the upper limit from the baselines of all curves; if a baseline beats the pure algorithms, the bottom is above the top (limits_pure). Proved when all curves take part (limits_partial). Losses are exact numbers, the drawing is not modelled."},
 {"property": "C164", "status": "partial", "theorems": ["NG.Waiting.timer_spec", "NG.Waiting.push_spec", "NG.Waiting.pushes_spec", "NG.Waiting.sleep_spec", "NG.Waiting.run_sleeps", "NG.Waiting.quiet_partial", "NG.Waiting.busy_partial", "NG.Waiting.batch_warns", "NG.Waiting.resumed_warns"], "note": "False part: in batch mode, if the jobs of a batch end at different times, the timer is stopped once for each group of ends and warnings are given (batch_warns); the same when a run is resumed with a running job for each worker (resumed_warns). Proved for new optimizers, in steady mode for all ends of jobs and in batch mode if the jobs of a batch end together (quiet_partial, busy_partial). Exceptions of the function are not in this model (see C07 to C10 for the loop itself)."},
 {"property": "C165", "status": "partial", "theorems": ["NG.LazyChoice.old_iff", "NG.LazyChoice.configured", "NG.LazyChoice.run_objectives", "NG.LazyChoice.run_stable", "NG.LazyChoice.step_chooses", "NG.LazyChoice.run_chosen", "NG.LazyChoice.step_raises", "NG.LazyChoice.early_partial", "NG.LazyChoice.late_objectives", "NG.LazyChoice.recommend_never_raises", "NG.LazyChoice.recommend_differs"], "note": "False part: if several losses are first told after an ask, the optimizer has several objectives and keeps the configuration for one objective (late_objectives); recommend never raises on an optimizer which chooses another one, whatever the number of objectives (recommend_never_raises, recommend_differs). Proved if the number of objectives is given first (early_partial). The rest holds for all sequences of calls. Constraints are not in this model."},
 {"property": "C166", "status": "partial", "theorems": ["NG.PlotCommand.parse_words", "NG.PlotCommand.foldl_fields", "NG.PlotCommand.parse_iff", "NG.PlotCommand.main_spec", "NG.PlotCommand.plain_partial", "NG.PlotCommand.false_is_true", "NG.PlotCommand.pseudotime_takes_file", "NG.PlotCommand.suffix_ignored"], "note": "False part: --competencemaps False, --nomanyxp False and --pseudotime False turn the options on (false_is_true); --pseudotime just before the file takes the file as its value and the command fails (pseudotime_takes_file); --remove-suffix is ignored unless names are merged (suffix_ignored). Proved: which command lines are read (parse_iff), all settings (main_spec), and the meaning of the options if they are given as True or not at all (plain_partial). Abbreviated options and options written with = are not in this model."},
 {"property": "C167", "status": "partial", "theorems": ["NG.Hiplot.hidden_iff", "NG.Hiplot.point_values", "NG.Hiplot.parameter_shown", "NG.Hiplot.one_point_per_line", "NG.Hiplot.point_of_candidate", "NG.Hiplot.left_out_partial", "NG.Hiplot.not_asked_hidden", "NG.Hiplot.no_links", "NG.Hiplot.no_uid_raises"], "note": "False part: the number of points told without having been asked is never shown, because its key contains \"ask\" (not_asked_hidden). Proved: everything else; left_out_partial lists exactly the fixed keys left out. Also: with max_list_elements=0 the links to parents are lost (no_links), and a line without uid makes the whole export fail (no_uid_raises)."},
 {"property": "C168", "status": "partial", "theorems": ["NG.GymRuns.controls_iff", "NG.GymRuns.factors_iff", "NG.GymRuns.candidates_iff", "NG.GymRuns.fullGym_iff", "NG.GymRuns.fullGym_raises", "NG.GymRuns.seeds_differ", "NG.GymRuns.accepted_all", "NG.GymRuns.registered_defined", "NG.GymRuns.benchmarks_keep", "NG.GymRuns.multi_structured_not_multi", "NG.GymRuns.max_excluded", "NG.GymRuns.optimizer_ignored", "NG.GymRuns.optimizers_iff", "NG.GymRuns.problemFuncs_iff", "NG.GymRuns.problem_accepted", "NG.GymRuns.gymProblem_iff", "NG.GymRuns.problemOptims_spec", "NG.GymRuns.planning_target", "NG.GymRuns.max_budget_partial"], "note": "False part: multi_structured_ng_full_gym has no network per time step, as the controllers are replaced (multi_structured_not_multi); MAX_GYM_BUDGET excludes the maximum itself (max_excluded); GYM_OPTIMIZER does nothing in ng_full_gym and the benchmarks made from it (optimizer_ignored). Proved: the exact experiments (fullGym_iff, gymProblem_iff), when it raises, different seeds, the assertions of GymMulti on its arguments, the promises of the other names (benchmarks_keep), and that all budgets are below the maximum (max_budget_partial)."},
 {"property": "C169", "status": "partial", "theorems": ["NG.Circuit.snap_spec", "NG.Circuit.nearest_spec", "NG.Circuit.pyRound_close", "NG.Circuit.pyRound_even", "NG.Circuit.block_spec", "NG.Circuit.block_exact", "NG.Circuit.block_place_partial", "NG.Circuit.center_inside", "NG.Circuit.material_defined", "NG.Circuit.material_range", "NG.Circuit.no_gap_in", "NG.Circuit.no_gap_out", "NG.Circuit.design_shapes", "NG.Circuit.bender_takes", "NG.Circuit.block_moved", "NG.Circuit.block_negative"], "note": "False part: a block that lies outside of the grid is moved into it (block_moved), and a negative length fills cells counted from the other end (block_negative). Proved: the rest, with block_place_partial for blocks whose corner is inside the grid. no_gap_out needs a block that is a whole number of half steps wide, as in the source. Numbers without rounding errors. The waveguides of mode_converter are placed in another way, see C171."},
 {"property": "C17", "status": "partial", "theorems": ["NG.Pareto.hyper_losses_partial", "NG.Pareto.lossesOk_bound", "NG.Hv.hyper_losses_code_partial", "NG.Hv.hyper_losses_untied_partial", "NG.Hv.hyper_out_of_bounds_breaks"], "note": "proved for points within the bounds, with the code's own volume up to three objectives or without ties; a point out of the bounds breaks it (hyper_out_of_bounds_breaks)"},
 {"property": "C170", "status": "proved", "theorems": ["NG.Rolling.rolling_get", "NG.Rolling.rolling_length", "NG.Rolling.rolling_outside", "NG.Rolling.rolling_rotate", "NG.Rolling.rolling_total", "NG.Rolling.not_a_mean", "NG.Rolling.window_cut"], "note": "Numbers without rounding errors. Despite the name the entries are sums, not means (not_a_mean), and a window wider than the vector is cut to its length (window_cut)."},
 {"property": "C171", "status": "partial", "theorems": ["NG.Circuit.centred_get", "NG.Circuit.centred_symmetric", "NG.Circuit.block_centred", "NG.Circuit.nearest_between", "NG.Circuit.mode_centre", "NG.Circuit.mode_defined", "NG.Circuit.mode_range", "NG.Circuit.mode_pml", "NG.Circuit.modeGuides_spec", "NG.Circuit.mode_no_gap_partial", "NG.Circuit.mode_cells", "NG.Circuit.mode_takes", "NG.Circuit.guide_short", "NG.Circuit.guide_off"], "note": "False part: with the dimensions in the source the second waveguide stops two cells before the end of the grid (guide_short), and both are half a step of the coarse grid off the centre (guide_off). The corners lie exactly between two nodes there; the model takes the first of two nodes at the same distance, as argmin does without rounding errors. If rounding favours the other node the waveguides are centred and one cell is missing at the end. Proved: the rest, with mode_no_gap_partial for a second waveguide that is not longer than the first."},
 {"property": "C172", "status": "partial", "theorems": ["NG.SphereTable.record_eq", "NG.SphereTable.run_data", "NG.SphereTable.table_partial", "NG.SphereTable.sizes_mixed", "NG.SphereTable.heat_lt", "NG.SphereTable.heat_range", "NG.SphereTable.heat_monotone"], "note": "False part: the data are not kept by number of points and shape, so the table averages the values of all of them (sizes_mixed). Proved: the rest, with table_partial if all rounds so far had the same number of points and shape. Numbers without rounding errors; drawing, files and parallel jobs are not modelled."},
 {"property": "C173", "status": "partial", "theorems": ["NG.CheapLayer.same_value", "NG.CheapLayer.checked_documented", "NG.CheapLayer.layered_num", "NG.CheapLayer.opposite", "NG.CheapLayer.agree_iff", "NG.CheapLayer.as_layer_partial", "NG.CheapLayer.layer_translation", "NG.CheapLayer.layer_keeps_violations"], "note": "False part: the layer expects positive numbers for violated constraints, so that the same function gets the opposite meaning: the two ways agree for the float zero only (agree_iff), and the layer keeps the values that violate the constraint (layer_keeps_violations). The docstring calls as_layer experimental. Proved: the calls, the meaning of checks (checked_documented) and which function to use for a layer (layer_translation)."},
 {"property": "C174", "status": "partial", "theorems": ["NG.InitRec.same_iff", "NG.InitRec.callargs_spec", "NG.InitRec.callargs_twice", "NG.InitRec.copy_args", "NG.InitRec.create_descriptors", "NG.InitRec.distinguishes_partial", "NG.InitRec.copy_equivalent", "NG.InitRec.imageOf_plain", "NG.InitRec.image_losses_partial", "NG.InitRec.pgan_losses_lost", "NG.InitRec.fromPgan_losses", "NG.InitRec.fromPgan_gpu", "NG.InitRec.equivalent_iff", "NG.InitRec.callargs_many"], "note": "False part: the class Image describes its loss by loss.__class__.__name__ though loss is a class, which is always 'type'. With with_pgan the function is a method of the instance and has no name either, so that all losses give equivalent functions with the same descriptors (pgan_losses_lost), and their results are mixed in benchmarks. An argument which is not a text, tuple or number, or which is called name, does not tell instances apart. Proved: binding, copies, descriptors, images without the network and ImageFromPGAN."},
 {"property": "C175", "status": "partial", "theorems": ["NG.IterCases.mem_product", "NG.IterCases.product_length", "NG.IterCases.product_nodup", "NG.IterCases.product_head", "NG.IterCases.far_cases", "NG.IterCases.pbt_tuples_partial", "NG.IterCases.pbt_lists_lost", "NG.IterCases.pbt_itercases_lost", "NG.IterCases.far_bounds_lost", "NG.IterCases.far_multi_raises", "NG.IterCases.assertSingle_iff", "NG.IterCases.firstTell_bounds"], "note": "False parts: PBT.itercases gives lists, which are not recorded as descriptors, so that its six cases are equivalent (pbt_itercases_lost); with tuples, as documented, they would not be. FarOptimumFunction sets its upper bounds before the initialization of the base class, which resets them to None (far_bounds_lost), and experiments with two objectives raise at the first tell (far_multi_raises). Proved: combinations, and that the cases of FarOptimumFunction are told apart."},
 {"property": "C176", "status": "partial", "theorems": ["NG.Olympus.withoutNoise_best", "NG.Olympus.loss_noise", "NG.Olympus.evaluation_moved", "NG.Olympus.evaluation_partial", "NG.Olympus.evaluation_wrong", "NG.Olympus.evaluation_first", "NG.Olympus.emulate_goal", "NG.Olympus.emulate_abs", "NG.Olympus.bounds_spec", "NG.Olympus.bounds_none"], "note": "False part: evaluation_function subtracts the shift, and _simulate_surface subtracts it again. For every shift which is not zero the best point is not evaluated as the best one, and the best evaluation is at a point which is not the best (evaluation_wrong). Proved for a shift of zero (evaluation_partial), and the other statements."},
 {"property": "C177", "status": "proved", "theorems": ["NG.EnvNames.contains_iff", "NG.EnvNames.kept_iff", "NG.EnvNames.names_spec", "NG.EnvNames.names_append", "NG.EnvNames.lines_spec", "NG.EnvNames.lines_length"], "note": "Trying an environment is a parameter. The environment refused by its full name and one of the refused parts are implied by another part (kept_iff)."},
 {"property": "C178", "status": "partial", "theorems": ["NG.Pareto.minLosses_exact", "NG.Pareto.minLosses_none", "NG.Pareto.minLosses_reads", "NG.Pareto.raw_added", "NG.Pareto.minLosses_told_partial", "NG.Pareto.minLosses_real", "NG.Pareto.minLosses_missed"], "note": "Proved for all candidates added to the front, and for all told candidates in the mode without hypervolume. In the mode with hypervolume a told candidate which adds no volume, or is out of the bounds, is not counted (minLosses_missed)."},
 {"property": "C18", "status": "partial", "theorems": ["NG.Nsga.fronts_exact_partial", "NG.Nsga.fronts_majority", "NG.Nsga.fronts_dominated_later", "NG.Nsga.fronts_fuel", "NG.Nsga.fronts_trimmed", "NG.Nsga.fronts_cycle"], "note": "layers of Pareto dominance for one and two objectives; in general layers of a majority relation, which can lose candidates (fronts_cycle)"},
 {"property": "C19", "status": "partial", "theorems": ["NG.Nsga.rank_selects", "NG.Nsga.rank_count_partial", "NG.Nsga.rank_all", "NG.Nsga.crowding_exact", "NG.Nsga.crowding_indep", "NG.Nsga.rank_cycle", "NG.Nsga.crowding_small"], "note": "the count min(n_selected, population) is proved for at most two objectives and fails with three (rank_cycle)"},
 {"property": "C20", "status": "proved", "theorems": ["NG.Tr.clipForward_within", "NG.Tr.clipForward_id", "NG.Tr.clipForward_idem", "NG.Tr.clipForward_entry", "NG.Tr.bounce_reflects", "NG.Tr.initBounds_ok_iff", "NG.Tr.tanh_within", "NG.Tr.arctan_within", "NG.Tr.cdf_within"], "note": ""},
 {"property": "C21", "status": "partial", "theorems": ["NG.Tr.affine_roundtrip", "NG.Tr.affine_zero_accepted", "NG.Tr.exp_roundtrip", "NG.Tr.tanh_roundtrip", "NG.Tr.tanh_roundtrip'", "NG.Tr.arctan_roundtrip", "NG.Tr.arctan_roundtrip'", "NG.Tr.backward_rejects", "NG.Tr.clip_roundtrip", "NG.Tr.normalized_roundtrip", "NG.Tr.cdf_roundtrip_partial", "NG.Tr.cdf_roundtrip'", "NG.Tr.cdf_roundtrip_fails", "NG.Tr.cauchy_spec", "NG.Tr.normal_spec", "NG.Tr.normal_roundtrip"], "note": "exact for every transform but the cumulative density, whose backward clips quantiles to [eps, 1-eps] (cdf_roundtrip_fails); affine slopes with some zero entries are accepted although not invertible (affine_zero_accepted)"},
 {"property": "C22", "status": "partial", "theorems": ["NG.Tr.int_within_partial", "NG.Tr.int_value", "NG.Tr.int_id", "NG.Tr.int_mono", "NG.Tr.int_stochastic", "NG.Tr.int_unbiased", "NG.Tr.int_bounds_witness", "NG.Tr.int_draw_zero"], "note": "bounds must not lie within 1e-12 beyond an integer and the draw must not be exactly 0 (int_bounds_witness, int_draw_zero)"},
 {"property": "C23", "status": "proved", "theorems": ["NG.Tr.modulo_range", "NG.Tr.modulo_periodic", "NG.Tr.modulo_set", "NG.Tr.angle_range", "NG.Tr.angle_roundtrip", "NG.Tr.angle_scale"], "note": ""},
 {"property": "C24", "status": "partial", "theorems": ["NG.Tree.set_get", "NG.Tree.get_self_zero", "NG.Tree.get_injective", "NG.Tree.transfer", "NG.Tree.set_wrong_size_partial", "NG.Tree.setItem_wf", "NG.Tree.set_broadcast_accepted", "NG.Tree.stale_sizes"], "note": "round trip, zeros and injectivity proved; a bare array accepts data of size 1 (set_broadcast_accepted) and a container whose nested content changed after use refuses data of the right size (stale_sizes)"},
 {"property": "C25", "status": "proved", "theorems": ["NG.Tree.get_leaves", "NG.Tree.leaves_fit"], "note": ""},
 {"property": "C26", "status": "proved", "theorems": ["NG.Layers.addLayer_ok", "NG.Layers.addLayers_ok", "NG.Layers.copy_ok", "NG.Layers.index_self", "NG.Layers.callDeeper_spec", "NG.Layers.root_ok"], "note": ""},
 {"property": "C27", "status": "partial", "theorems": ["NG.Param.frozen_stable_partial", "NG.Param.frozen_values", "NG.Param.freeze_all", "NG.Param.frozen_raises", "NG.Param.child_independent", "NG.Param.frozen_softmax_changes", "NG.Param.frozen_int_redrawn", "NG.Param.sample_shares_constants", "NG.Param.frozen_poke_changes"], "note": "proved for value assignment, set_standardized_data, mutate, recombine, copy, spawn_child, sample, freeze, tell on any object tree; a refused assignment still replaces the cached value of a choice's indices (frozen_softmax_changes) or redraws a stochastic integer, samples share constants, and in-place array writes are not prevented"},
 {"property": "C28", "status": "proved", "theorems": ["NG.Param.run_ok", "NG.Param.uid_unique", "NG.Param.spawn_lineage", "NG.Param.copy_lineage", "NG.Param.sample_lineage", "NG.Param.descend_lineage", "NG.Param.constant_spawns_itself"], "note": ""},
 {"property": "C29", "status": "partial", "theorems": ["NG.Disc.choice_set_read", "NG.Disc.choice_rejects", "NG.Disc.choice_repetitions", "NG.Disc.choice_repetitions_partial", "NG.Disc.choice_repetitions_distinct", "NG.Disc.softmax_valid", "NG.Disc.choice_read_some", "NG.Disc.softmax_stable", "NG.Disc.softmax_set_clear", "NG.Disc.weight_fin", "NG.Disc.weight_probability", "NG.Disc.trans_valid", "NG.Disc.trans_set_get", "NG.Disc.trans_mutate", "NG.Disc.trans_uniform", "NG.Disc.single_option_nan", "NG.Disc.choice_repetitions_overwrite", "NG.Disc.choice_rejected_alters"], "note": "proved for single choices, for repetitions over constants and for repetitions whose values go to distinct options; two values going to the same parameter option overwrite each other (choice_repetitions_overwrite) and a rejected assignment may alter options (choice_rejected_alters)"},
 {"property": "C30", "status": "proved", "theorems": ["NG.Disc.threshold_fin", "NG.Disc.threshold_range", "NG.Disc.threshold_extremes", "NG.Disc.threshold_mono", "NG.Disc.threshold_inverse", "NG.Disc.threshold_noisy_inverse", "NG.Disc.threshold_onto", "NG.Disc.threshold_uniform", "NG.Disc.normal_cdf", "NG.Disc.noisy_inverse_zero"], "note": ""},
 {"property": "C31", "status": "partial", "theorems": ["NG.Disc.encode_lt", "NG.Disc.encode_slot_partial", "NG.Disc.encode_positive", "NG.Disc.encode_deterministic", "NG.Disc.encode_law", "NG.Disc.prob_spec", "NG.Disc.prob_distribution", "NG.Disc.encode_zero_draw"], "note": "a draw of exactly 0 returns index 0 even when its probability is zero (encode_zero_draw); everything else proved, including the law of the index under a uniform draw"},
 {"property": "C32", "status": "proved", "theorems": ["NG.Seq.vdc_eq", "NG.Seq.vdc_range", "NG.Seq.vdc_injective", "NG.Seq.vdc_first", "NG.Seq.vdc_stratified", "NG.Seq.permutations_digit", "NG.Seq.halton_points", "NG.Seq.hammersley_first"], "note": ""},
 {"property": "C33", "status": "proved", "theorems": ["NG.Seq.lhs_stratified", "NG.Seq.lhs_reinitialize"], "note": ""},
 {"property": "C34", "status": "partial", "theorems": ["NG.Seq.sieve_prime", "NG.Seq.firstPrimes_partial", "NG.Seq.firstPrimes_listed"], "note": "the primes returned are exactly the first ones; that the sieve is always long enough is Rosser's bound on the n-th prime, not proved here"},
 {"property": "C35", "status": "proved", "theorems": ["NG.Recast.batch_losses", "NG.Recast.batch_tells", "NG.Recast.batch_refused", "NG.Recast.batch_complete", "NG.Recast.empty_batch_blocks", "NG.Recast.dropped_blocks", "NG.Recast.random_tell_raises"], "note": "for every interleaving of thread and caller, batches being non-empty; the other theorems show how an empty batch, a candidate rejected by a cheap constraint, or a race at the end block or break the session"},
 {"property": "C36", "status": "partial", "theorems": ["NG.Recast.resume_partial", "NG.Recast.unpickle_partial", "NG.Recast.unpickle_pending_partial", "NG.Recast.penalty_breaks_replay", "NG.Recast.penalty_changes_resumed", "NG.Recast.rejected_stops_resumed", "NG.Recast.suggestion_blocks_resumed", "NG.Recast.suggestions_count"], "note": "proved for sessions without constraints, penalties and suggestions; false with each of them (witnesses)"},
 {"property": "C37", "status": "partial", "theorems": ["NG.Jobs.delayed_once_partial", "NG.Jobs.delayed_calls", "NG.Jobs.delayed_after", "NG.Jobs.delayed_raise_again"], "note": "called at most once and always the same result, for functions that return; a function that raises is called again at the next result() (delayed_raise_again)"},
 {"property": "C38", "status": "proved", "theorems": ["NG.Jobs.done_spec", "NG.Jobs.one_done", "NG.Jobs.result_spec", "NG.Jobs.reads_ordered", "NG.Jobs.output_stable", "NG.Jobs.result_twice_raises"], "note": "heapq is represented by a list sorted by the comparison it uses; a second result() on the same job raises (result_twice_raises)"},
 {"property": "C39", "status": "partial", "theorems": ["NG.Tools.noImprovement_spec_partial", "NG.Tools.duration_spec", "NG.Tools.noImprovement_late"], "note": "the duration criterion is exact; the no-improvement criterion is characterised exactly and stops one ask later than its window (noImprovement_late)"},
 {"property": "C40", "status": "partial", "theorems": ["NG.Tools.printer_emits_partial", "NG.Tools.printer_every_tell", "NG.Tools.printer_silent"], "note": "the statement is false: the shipped comparison is reversed, a printer registered on tell emits at every tell for all intervals and clocks (printer_emits_partial, printer_every_tell), and conversely never on tells once beyond the interval (printer_silent)"},
 {"property": "C41", "status": "partial", "theorems": ["NG.Tools.registry_history_partial", "NG.Tools.register_spec", "NG.Tools.stale_info", "NG.Tools.assignment_overwrites"], "note": "proved for register and unregister on any history; item assignment overwrites silently and information survives unregistration (witnesses)"},
 {"property": "C42", "status": "partial", "theorems": ["NG.Tools.setEnv_restores_partial", "NG.Tools.setEnv_rejects", "NG.Tools.setEnv_removed", "NG.Tools.setEnv_refused"], "note": "proved when the values are accepted by the system and the body leaves the names present; otherwise variables stay changed (witnesses)"},
 {"property": "C43", "status": "partial", "theorems": ["NG.Tabu.tabu_memory_recent_partial", "NG.Tabu.tabu_refuses_recent", "NG.Tabu.tabu_accepted_sublist", "NG.Opt.tabu_never_fails", "NG.Opt.tabu_tell_not_recorded", "NG.Opt.tabu_asked_then_told_not_recorded", "NG.Opt.tabu_run_recommends_initial"], "note": "the memory holds the most recent accepted values; recording of told candidates is broken by the second check (disagreement theorems)"},
 {"property": "C44", "status": "partial", "theorems": ["NG.Opt.recommend_feasible_partial", "NG.Opt.recommend_infeasible_without_budget", "NG.Penalty.penalty_nonneg", "NG.Penalty.penalty_mono", "NG.Penalty.run_infeasible"], "note": "holds with a budget; without one the code records infeasible candidates"},
 {"property": "C45", "status": "partial", "theorems": ["NG.Opt.ask_counts_once_partial", "NG.Opt.ask_bounded_attempts_partial", "NG.Opt.ask_returns_feasible_partial", "NG.Opt.num_ask_inflated"], "note": "proved without tabu list"},
 {"property": "C46", "status": "partial", "theorems": ["NG.Pop.population_bounded", "NG.Pop.population_never_fails_partial", "NG.Pop.own_never_fails", "NG.Pop.population_best_partial", "NG.Pop.overcommitted_fails", "NG.Pop.solver_fails", "NG.Pop.foreign_multiobjective_fails", "NG.Pop.empty_population_fails", "NG.Pop.retell_worsens", "NG.Pop.retell_shrinks"], "note": "size bounded for all histories; no failure when at most population-size candidates are pending or when no foreign candidate is told; best loss never worse when candidates are told once; false outside (witnesses: overcommitted_fails, solver_fails, foreign_multiobjective_fails, empty_population_fails, retell_worsens, retell_shrinks)"},
 {"property": "C47", "status": "partial", "theorems": ["NG.Cross.crossover_mixes_partial", "NG.Cross.rotated_spec", "NG.Cross.voronoi_fails"], "note": "proved for all variants when they return; the voronoi variant raises on arrays with a single entry (voronoi_fails)"},
 {"property": "C48", "status": "partial", "theorems": ["NG.Es.select_spec_partial", "NG.Es.queue_is_population", "NG.Es.es_never_fails", "NG.Es.es_best", "NG.Es.sequential_shrinks", "NG.Es.penalty_ignored", "NG.Es.suggestions_starve", "NG.Es.rejected_suggestion_fails", "NG.Es.empty_ranking_fails", "NG.Es.foreign_grows"], "note": "selection, queue and best loss proved; the population can be smaller than popsize (sequential_shrinks), constraint penalties are ignored (penalty_ignored), and untold or rejected suggestions make the optimizer fail (witnesses)"},
 {"property": "C49", "status": "partial", "theorems": ["NG.Bench.chunks_partition", "NG.Bench.split_accepting", "NG.Bench.chunk_length_partial", "NG.Bench.iter_spec", "NG.Bench.plan_length", "NG.Bench.resume_spec", "NG.Bench.seeded_length_differs", "NG.Bench.split_zero", "NG.Bench.moduler_accepted"], "note": "partition, lengths and resume proved for makers whose number of experiments does not depend on the seed; the length is computed without the seed (seeded_length_differs)"},
 {"property": "C50", "status": "partial", "theorems": ["NG.Mut.rls_mutates", "NG.Mut.discrete_mutates", "NG.Mut.portfolio_mutates", "NG.Mut.doerr_mutates_partial", "NG.Mut.discrete_ends", "NG.Mut.doerr_no_change", "NG.Mut.many_categories_no_change", "NG.Mut.one_dimension_no_change", "NG.Mut.coordinatewise_changes_unselected", "NG.Mut.portfolio_positions"], "note": "proved below 500 categories, from dimension 2 for the single-variable and portfolio mutations and from dimension 5 for the Doerr mutation; false outside, and for the coordinate-wise mutation (witnesses)"},
 {"property": "C51", "status": "partial", "theorems": ["NG.ArrMut.translate_spec", "NG.ArrMut.translate_perm", "NG.ArrMut.translate_succeeds", "NG.ArrMut.jump_spec", "NG.ArrMut.jump_perm_partial", "NG.ArrMut.jump_fails", "NG.ArrMut.jump_size_one", "NG.ArrMut.jump_negative_axis", "NG.ArrMut.crossover_spec_partial", "NG.ArrMut.crossover_both", "NG.ArrMut.crossover_succeeds", "NG.ArrMut.crossover_negative_axis", "NG.ArrMut.localGaussian_spec"], "note": "proved for non-negative axes (translation: any axis); with a negative axis jumping multiplies the array by five and the crossover returns the second array (witnesses)"},
 {"property": "C52", "status": "partial", "theorems": ["NG.ArchiveSt.compare_orders_partial", "NG.ArchiveSt.compare_keeps", "NG.ArchiveSt.reach_shape", "NG.ArchiveSt.compare_recommends_loser", "NG.ArchiveSt.compare_repeated_winner"], "note": "proved for distinct winners in any state of the archive; the recommendation may still be the loser (compare_recommends_loser)"},
 {"property": "C53", "status": "partial", "theorems": ["NG.Oneshot.random_paired", "NG.Oneshot.sampling_paired_partial", "NG.Oneshot.sampling_middle", "NG.Oneshot.factor_range", "NG.Oneshot.sampling_used", "NG.Oneshot.sampling_within_budget", "NG.Oneshot.sampling_within_budget'", "NG.Oneshot.constrained_not_paired", "NG.Oneshot.stupid_recommendation_breaks"], "note": "proved for the points generated; candidates received are not paired when constraints reject some of them or when a stupid recommendation consumes one (witnesses)"},
 {"property": "C54", "status": "partial", "theorems": ["NG.Tools.roundrobin_spec", "NG.Tools.roundrobin_perm", "NG.Tools.grouper_spec", "NG.Tools.grouper_zero", "NG.Tools.pairwise_spec", "NG.Tools.flatten_spec_partial", "NG.Tools.flatten_collision", "NG.Tools.flatten_same_string", "NG.Tools.osAdd_spec", "NG.Tools.osPopright_spec", "NG.Tools.advisedSleep_range"], "note": "flatten is proved for distinct dot-free keys and loses leaves otherwise (flatten_collision)"},
 {"property": "C55", "status": "proved", "theorems": ["NG.Loss.objectives_consistent", "NG.Loss.objectives_mismatch_refused"], "note": ""},
 {"property": "C56", "status": "proved", "theorems": ["NG.Loss.curve_spaced", "NG.Loss.curve_logarithmic"], "note": ""},
 {"property": "C57", "status": "proved", "theorems": ["NG.Pareto.random_subset", "NG.Pareto.scored_subset"], "note": ""},
 {"property": "C58", "status": "partial", "theorems": ["NG.Tr.read_stable", "NG.Tr.read_pure_partial", "NG.Tr.read_changes", "NG.Tr.setData_shifts", "NG.Tr.read_drifts"], "note": "false for stochastic integer casting over arrays that no layer copies: the first read adds the draw in place (read_changes)"},
 {"property": "C59", "status": "partial", "theorems": ["NG.Param.copy_arrays_partial", "NG.Param.frozen_poke_changes", "NG.Param.assign_shares"], "note": "copies and children own their arrays; reading and assigning share the array with the caller (frozen_poke_changes, assign_shares)"},
 {"property": "C60", "status": "partial", "theorems": ["NG.Seq.rescaler_spec_partial", "NG.Seq.rescaler_single"], "note": "an axis on which all points coincide gives nan (rescaler_single), e.g. a single point; proved for all other axes"},
 {"property": "C61", "status": "partial", "theorems": ["NG.Recast.fifo", "NG.Recast.failure_raised", "NG.Recast.caller_partial", "NG.Recast.trajectory", "NG.Recast.progress_partial", "NG.Recast.solver_shifts_losses", "NG.Recast.race_blocks"], "note": "the k-th loss put is received for the k-th point asked, under every interleaving; false for the optimizer when the constraint solver replaces the candidate (solver_shifts_losses); a race at the end of the thread blocks (race_blocks)"},
 {"property": "C62", "status": "partial", "theorems": ["NG.Pop.swarm_best_partial", "NG.Pop.swarm_penalty"], "note": "proved for candidates told once without penalty; with a penalty the best kept can be a candidate which is not the best (swarm_penalty)"},
 {"property": "C63", "status": "proved", "theorems": ["NG.Mut.mix_spec", "NG.Mut.mix_rotation"], "note": "the mixed vector, before the final discrete mutation (which is C50)"},
 {"property": "C64", "status": "proved", "theorems": ["NG.Oneshot.kBest_range", "NG.Oneshot.kBest_dim", "NG.Oneshot.avg_spec"], "note": "rules dimfourth and exp; the power 1.1**dim is exact; the hull rule depends on an external convex hull"},
 {"property": "C65", "status": "partial", "theorems": ["NG.Chain.inCharge_unique", "NG.Chain.ask_in_charge", "NG.Chain.ask_at_most_budget", "NG.Chain.tell_crossing", "NG.Chain.tell_no_crossing", "NG.Chain.fed_before_asked", "NG.Chain.no_crossing_partial", "NG.Chain.make_budgets", "NG.Chain.make_not_over", "NG.Chain.convert_pos", "NG.Chain.convert_share", "NG.Chain.equal_leaves", "NG.Chain.no_crossing_over", "NG.Chain.no_crossing_lost", "NG.Chain.late_tell_lost"], "note": "asks are exact; without crossing the tells after the last share reach nobody, and tells coming after the switch are lost for the optimizer that asked them (witnesses)"},
 {"property": "C66", "status": "partial", "theorems": ["NG.Portfolio.count_turns", "NG.Portfolio.turns_cover", "NG.Portfolio.check_ok", "NG.Portfolio.served_spec", "NG.Portfolio.window_exact", "NG.Portfolio.window_workers_partial", "NG.Portfolio.selects", "NG.Portfolio.no_selection", "NG.Portfolio.tell_raises_iff", "NG.Portfolio.tell_everyone", "NG.Portfolio.tell_pending", "NG.Portfolio.tell_twice", "NG.Portfolio.tell_just_asked", "NG.Portfolio.within_budget_partial", "NG.Portfolio.warmup_within_budget_partial", "NG.Portfolio.check_zero_division", "NG.Portfolio.distribute_few_turns", "NG.Portfolio.asked_while_pending", "NG.Portfolio.distribute_asked_while_pending", "NG.Portfolio.first_point_rejected", "NG.Portfolio.over_budget", "NG.Portfolio.budget_parallel"], "note": "turns, selection and tells proved; pending points for tells in order only; witnesses of ZeroDivisionError, of asks while pending, of an asked point rejected by tell, and of budgets exceeded"},
 {"property": "C67", "status": "partial", "theorems": ["NG.Split.make_partition", "NG.Split.make_max", "NG.Split.make_num", "NG.Split.make_vars", "NG.Split.ask_slices", "NG.Split.tell_own_partial", "NG.Split.tell_not_asked", "NG.Split.frozen_iff", "NG.Split.frozen_progress", "NG.Split.rescale_inverse_partial", "NG.Split.rescaled_tell", "NG.Split.rescaled_not_asked", "NG.Split.defaultScale_pos", "NG.Split.defaultScale_one", "NG.Split.solver_key_error", "NG.Split.shift_not_inverted", "NG.Split.run_numAsk"], "note": "proved for asked candidates; a candidate moved by the constraint solver cannot be told (KeyError), and a shifted rescaling is not inverted (witnesses); floats are exact"},
 {"property": "C68", "status": "partial", "theorems": ["NG.OnePlusOne.sigma_spec", "NG.OnePlusOne.sigma_pos", "NG.OnePlusOne.adaptive_range", "NG.OnePlusOne.adaptive_intensity", "NG.OnePlusOne.adaptive_direction", "NG.OnePlusOne.bso_range", "NG.OnePlusOne.velocity_range_partial", "NG.OnePlusOne.individual_range", "NG.OnePlusOne.lognormal_range", "NG.OnePlusOne.lognormal_prefix", "NG.OnePlusOne.lognormal_block", "NG.OnePlusOne.mem_rates", "NG.OnePlusOne.greedy_spec", "NG.OnePlusOne.round_spec", "NG.OnePlusOne.doerr_session", "NG.OnePlusOne.lengler_range_partial", "NG.OnePlusOne.temperature_pos", "NG.OnePlusOne.temperature_antitone", "NG.OnePlusOne.anneals_iff", "NG.OnePlusOne.anneals_any_loss", "NG.OnePlusOne.velocity_stuck", "NG.OnePlusOne.doerr_two_asks", "NG.OnePlusOne.doerr_dim_one", "NG.OnePlusOne.lengler3_over"], "note": "velocities need an arity of at least 4 (velocity_stuck), lengler3 asks for more variables than there are (lengler3_over), doerr fails for two asks in a row and divides by zero in dimension 1; exact arithmetic"},
 {"property": "C69", "status": "partial", "theorems": ["NG.Spsa.bigA_spec", "NG.Spsa.ck_pos", "NG.Spsa.ak_pos", "NG.Spsa.ck_strict", "NG.Spsa.ak_strict", "NG.Spsa.ck_pair", "NG.Spsa.points_partial", "NG.Spsa.move_direction", "NG.Spsa.next_perturbation", "NG.Spsa.rejected_for_good", "NG.Spsa.rejected_reached", "NG.Spsa.not_asked_first", "NG.Spsa.not_asked_shifts", "NG.Spsa.two_asks"], "note": "exact iterates for sequential use; the difference is divided by the perturbation of the next pair, a candidate rejected by a constraint makes all later points_partial non-finite, and foreign points_partial or two asks in a row break the pairs (witnesses); exact reals"},
 {"property": "C70", "status": "partial", "theorems": ["NG.Cga.table_dist", "NG.Cga.pairs", "NG.Cga.winner_gains_partial", "NG.Cga.never_learns", "NG.Cga.value_spec"], "note": "distribution, pairing and draws proved; the winner gains as long as all values keep at least 1/llambda; with arity above 2 llambda (the default) the tables never learn (never_learns)"},
 {"property": "C71", "status": "partial", "theorems": ["NG.PopSize.sizes", "NG.PopSize.every_five", "NG.PopSize.resize_spec", "NG.PopSize.growth", "NG.PopSize.grows_iff_partial", "NG.PopSize.worse_grows", "NG.PopSize.plateau_shrinks", "NG.PopSize.infinite_shrinks"], "note": "exact arithmetic; with equal losses (no improvement) or a loss of minus infinity the quotient is NaN and the population shrinks (witnesses)"},
 {"property": "C72", "status": "partial", "theorems": ["NG.Eda.centre_box", "NG.Eda.geo_between", "NG.Eda.geo_log", "NG.Eda.tell_spec", "NG.Eda.always", "NG.Eda.sigma_pos_partial", "NG.Eda.cov_posSemidef", "NG.Eda.cov_not_normalized", "NG.Eda.foreign_centre", "NG.Eda.stuck", "NG.Eda.penalty_ignored"], "note": "generations, sizes and covariance proved; step-sizes stay positive when only asked points are told; telling or suggesting the centre stops TBPSA, the covariance is not divided by mu, and penalties are ignored by the ranking (witnesses); exact reals"},
 {"property": "C73", "status": "partial", "theorems": ["NG.Emna.sizes_spec", "NG.Emna.generation_spec_partial", "NG.Emna.large_isotropic", "NG.Emna.isotropic_axes", "NG.Emna.anisotropic_one", "NG.Emna.small_numbers", "NG.Emna.many_workers", "NG.Emna.isotropic_adaptive", "NG.Emna.mixed_fails", "NG.Emna.small_budget_fails", "NG.Emna.large_anisotropic"], "note": "centre and sizes proved; the isotropic option is swapped without adaptation, budgets below 4 divide by zero, mixed step-sizes raise in parallel adaptive anisotropic use (witnesses)"},
 {"property": "C74", "status": "partial", "theorems": ["NG.Cma.popsize_workers", "NG.Cma.popsize_least", "NG.Cma.run_queue", "NG.Cma.run_batches", "NG.Cma.run_count", "NG.Cma.best_spec", "NG.Cma.flush_parents", "NG.Cma.parents_kept", "NG.Cma.run_total_partial", "NG.Cma.sequential_refines", "NG.Cma.one_strategy", "NG.Cma.restart", "NG.Cma.recommend_raises", "NG.Cma.recommend_point", "NG.Cma.popsize_one_raises", "NG.Cma.penalty_ignored", "NG.Cma.recommend_order", "NG.Cma.recommend_raises_reached", "NG.Cma.asks_counted"], "note": "queue, generations and refinement of the strategy's own loop proved; a population of one leaves no parent, penalties do not reach the strategy and the high_speed recommendation may raise (witnesses); the evolution strategy is an arbitrary external object"},
 {"property": "C75", "status": "partial", "theorems": ["NG.Cma.shared_partial", "NG.Cma.shared_switch", "NG.Cma.shared_swapped"], "note": "proved as long as no optimizer of dimension 1 is made from the configuration; the negation is proved otherwise"},
 {"property": "C76", "status": "partial", "theorems": ["NG.Delegate.run_received", "NG.Delegate.run_archives", "NG.Delegate.run_asked", "NG.Delegate.tell_raises_iff", "NG.Delegate.ask_tell", "NG.Delegate.tell_twice", "NG.Delegate.loss_partial", "NG.Delegate.suggestion_raises", "NG.Delegate.double_penalty"], "note": "order, counters and archives proved; losses of points violating constraints are penalised twice and the field loss is overwritten; suggestions are refused by inner optimizers which only accept their own points (witnesses)"},
 {"property": "C77", "status": "proved", "theorems": ["NG.MetaModel.sampleSize_coefficients", "NG.MetaModel.tries_spacing", "NG.MetaModel.tries_archive", "NG.MetaModel.kBest_spec", "NG.MetaModel.learn_assertion", "NG.MetaModel.learn_near", "NG.MetaModel.learn_spread", "NG.MetaModel.learn_improves", "NG.MetaModel.learn_flat", "NG.MetaModel.learn_ties", "NG.MetaModel.middle_box", "NG.MetaModel.cma_underdetermined"], "note": "the regression and the search are arbitrary functions; algorithms other than image and voxelize; exact reals"},
 {"property": "C78", "status": "partial", "theorems": ["NG.NGOpt.smooth_iff", "NG.NGOpt.arity_pos", "NG.NGOpt.select39_total_partial", "NG.NGOpt.select39_none", "NG.NGOpt.budget_ask", "NG.NGOpt.select39_parallel", "NG.NGOpt.sequential_reached", "NG.NGOpt.noisy", "NG.NGOpt.discrete", "NG.NGOpt.small_budget", "NG.NGOpt.cobyla_16", "NG.NGOpt.portfolio_budget", "NG.NGOpt.multiobjective", "NG.NGOpt.single_objective", "NG.NGOpt.no_budget_smooth", "NG.NGOpt.base_noisy", "NG.NGOpt.rounded4", "NG.NGOpt.metaModel12", "NG.NGOpt.rest12", "NG.NGOpt.budget14", "NG.NGOpt.budget15", "NG.NGOpt.budget16", "NG.NGOpt.portfolios", "NG.NGOpt.choice39", "NG.NGOpt.workers39"], "note": "proved with a budget; without one the selection raises on deterministic continuous problems (no_budget_smooth)"},
 {"property": "C79", "status": "partial", "theorems": ["NG.Core.sphere_optimum", "NG.Core.shifted_optimum", "NG.Core.cigar_optimum", "NG.Core.discus_optimum", "NG.Core.altcigar_optimum", "NG.Core.ellipsoid_optimum", "NG.Core.ellipsoid_condition", "NG.Core.altellipsoid_optimum", "NG.Core.rastrigin_optimum", "NG.Core.rosenbrock_optimum", "NG.Core.ackley_optimum", "NG.Core.schwefel_optimum", "NG.Core.griewank_optimum", "NG.Core.lunacek_optimum", "NG.Core.gaussianpeak_optimum", "NG.Core.multipeak_optimum", "NG.Core.bentcigar_optimum_partial", "NG.Core.bucherastrigin_optimum_partial", "NG.Core.hm_bounds_partial", "NG.Core.deceptive_optimum", "NG.Core.doublelinearslope_zero", "NG.Core.step_spec", "NG.Core.step_mono", "NG.Core.cornerpeak_spec", "NG.Core.slope_unbounded", "NG.Core.styblinski_lower_partial", "NG.Core.delay_spec", "NG.Core.onemax_hamming", "NG.Core.onemax_optimum", "NG.Core.onemax_set", "NG.Core.leadingones_spec", "NG.Core.leadingones_optimum", "NG.Core.jump_spec", "NG.Core.jump_optimum", "NG.Core.jump_local", "NG.Core.jump_small", "NG.Core.bentcigar_vanishes", "NG.Core.bucherastrigin_one", "NG.Core.hm_undefined", "NG.Core.illcond_no_minimum", "NG.Core.rosenbrock_constant", "NG.Core.step_double", "NG.Core.styblinski_negative", "NG.Core.deceptivepath_path", "NG.Core.deceptivemultimodal_path", "NG.Core.lunacek_funnel"], "note": "optima proved over exact reals in every dimension; bentcigar vanishes at infinity, bucherastrigin and hm are undefined at some points, deceptiveillcond has no minimum, styblinski-tang is slightly negative (witnesses); floating point is not modelled"},
 {"property": "C80", "status": "partial", "theorems": ["NG.Artificial.groups_spec", "NG.Artificial.build_disjoint", "NG.Artificial.split_blocks", "NG.Artificial.useless", "NG.Artificial.move_isometry", "NG.Artificial.move_norm", "NG.Artificial.move_eq_iff", "NG.Artificial.agg_lower", "NG.Artificial.optimum", "NG.Artificial.build_optimum", "NG.Artificial.noiseless", "NG.Artificial.noise_formula", "NG.Artificial.dissymmetric_formula", "NG.Artificial.zeroPen_pos", "NG.Artificial.zeroPen_optimum_lost", "NG.Artificial.power_odd", "NG.Artificial.power_nan", "NG.Artificial.run_fixed", "NG.Artificial.run_first", "NG.Artificial.same_seed_partial", "NG.Artificial.same_seed_false", "NG.Artificial.hashing_raises", "NG.Artificial.hashing_noise", "NG.Artificial.hash_noise"], "note": "structure, isometry, optimum and noise proved for arbitrary core functions over exact reals; zero_pen, non-integral exponents, hashing and the lazy draw of the transforms break the claims (witnesses)"},
 {"property": "C81", "status": "partial", "theorems": ["NG.Exp.flips_injective", "NG.Exp.flips_surjective", "NG.Exp.symmetrize_involution", "NG.Exp.symmetrize_optimum", "NG.Exp.symmetrize_different", "NG.Exp.symmetrize_distance", "NG.Exp.symmetrize_inside_partial", "NG.Exp.symmetrize_outside"], "note": "all proved except that points stay within the bounds, which needs equal bounds for all coordinates (symmetrize_outside)"},
 {"property": "C82", "status": "partial", "theorems": ["NG.Exp.copy_iff", "NG.Exp.copy_spec", "NG.Exp.copy_content_partial", "NG.Exp.copy_content_lost", "NG.Exp.constraints_shared", "NG.Exp.run_new", "NG.Exp.run_twice_loss", "NG.Exp.rerun_changes", "NG.Exp.error_kept", "NG.Exp.eq_iff", "NG.Exp.eq_ignores", "NG.Exp.leaders_partial", "NG.Exp.leaders_nan"], "note": "proved for the first run, for parametrizations with another name and for losses which are not NaN; negations proved otherwise; the optimizer and the function are external"},
 {"property": "C83", "status": "partial", "theorems": ["NG.Tpl.matchAt_sound", "NG.Tpl.matchAt_complete", "NG.Tpl.scan_lossless", "NG.Tpl.scan_valid", "NG.Tpl.isDeprecated_iff", "NG.Tpl.cLike_iff", "NG.Tpl.scan_no_missed", "NG.Tpl.sub_spec", "NG.Tpl.convert_spec", "NG.Tpl.uncomment_spec", "NG.Tpl.uncomment_unknown", "NG.Tpl.prepared_no_tag", "NG.Tpl.prepared_lines", "NG.Tpl.join_splitlines", "NG.Tpl.make_spec", "NG.Tpl.call_ok", "NG.Tpl.call_refuses", "NG.Tpl.collect_spec", "NG.Tpl.never_otherFile", "NG.Tpl.instantiate_spec_partial", "NG.Tpl.instantiate_refuses", "NG.Tpl.instantiate_same", "NG.Tpl.lastLine_spec", "NG.Tpl.lastLine_blank", "NG.Tpl.duplicate_accepted", "NG.Tpl.tag_stays", "NG.Tpl.stale_file", "NG.Tpl.upper_case_array", "NG.Tpl.newline_lost", "NG.Tpl.write_link"], "note": "placeholders, substitution, uncommenting and instantiation proved on texts as lists of characters; names shared by two files are accepted, tags stay in files without placeholders, existing files of the output folder are kept and the last line break is lost (witnesses); the folders are assumed disjoint"},
 {"property": "C84", "status": "partial", "theorems": ["NG.Games.index_lt", "NG.Games.index_injective", "NG.Games.warDecide_ok", "NG.Games.turn_good", "NG.Games.warLoop_some", "NG.Games.war_ends", "NG.Games.war_conserves", "NG.Games.turn_over", "NG.Games.war_result", "NG.Games.war_symmetric", "NG.Games.ask_spec", "NG.Games.guess_ends", "NG.Games.guess_winner", "NG.Games.ask_law", "NG.Games.ask_biased", "NG.Games.fits_iff", "NG.Games.fits_asymmetric", "NG.Games.best_spec", "NG.Games.mem_plays", "NG.Games.choose_spec", "NG.Games.default_plays", "NG.Games.flip_ends", "NG.Games.flip_stable", "NG.Games.second_never_out", "NG.Games.first_out", "NG.Games.round_cards", "NG.Games.flip_result", "NG.Games.features_length", "NG.Games.flip_fair", "NG.Games.second_out_loses", "NG.Games.simulate_values_partial", "NG.Games.evaluation_bounds", "NG.Games.deck_values", "NG.Games.features_values"], "note": "war, guess who, flip and the loss; the default and parametric policies of guess who and flip are arbitrary functions, and calls with two default players (which return the length of a policy) are not modelled; phantom go is commented out in the source; the second flip player never wins by emptying its hand, matching is not symmetric and answers at guess who are biased (witnesses)"},
 {"property": "C85", "status": "partial", "theorems": ["NG.Pbt.unflatten_spec", "NG.Pbt.blocks_flatten", "NG.Pbt.value_optimum", "NG.Pbt.evolve_spec", "NG.Pbt.step_coordinate", "NG.Pbt.argmin_spec", "NG.Pbt.distances_spec", "NG.Pbt.call_spec", "NG.Pbt.call_total", "NG.Pbt.owns_from_copy", "NG.Pbt.owner_partial", "NG.Pbt.shared_checkpoint"], "note": "proved for workers which were once given a copy of another checkpoint; before that all workers share one array, so training one changes the others while their recorded losses stay (shared_checkpoint); exact arithmetic, and hyperparameters are not changed by the caller afterwards"},
 {"property": "C86", "status": "partial", "theorems": ["NG.Solvers.branch_registered", "NG.Solvers.normalizer_made", "NG.Solvers.kept_eq_sent", "NG.Solvers.runs_best", "NG.Solvers.runs_last", "NG.Solvers.runs_log", "NG.Solvers.runs_optimal", "NG.Solvers.loop_runs", "NG.Solvers.loop_ends", "NG.Solvers.loop_no_budget", "NG.Solvers.loop_spins", "NG.Solvers.loop_optimal_partial", "NG.Solvers.restart_from_best", "NG.Solvers.first_start", "NG.Solvers.restart_ignores_guess", "NG.Solvers.inner_runs", "NG.Solvers.cma_optimal_partial", "NG.Solvers.pysot_not_mapped", "NG.Solvers.cma_unbounded_mapped", "NG.Solvers.last_run_worse", "NG.Solvers.cma_result_not_evaluated", "NG.Solvers.pysot_result_not_evaluated"], "note": "optimality holds for scipy, BOBYQA and CMA with all variables bounded; it fails for the other libraries, which keep the last run, and for pysot and unbounded CMA, which keep a point in other coordinates; runs of the external libraries and pymoo are not modelled"},
 {"property": "C87", "status": "partial", "theorems": ["NG.Norm.go_slices", "NG.Norm.go_failure", "NG.Norm.forward_range", "NG.Norm.forward1_range", "NG.Norm.setGet_root", "NG.Norm.setGet_op", "NG.Norm.setGet_bound", "NG.Norm.setGet_clip", "NG.Norm.clip_enforced", "NG.Norm.setStd_getStd", "NG.Norm.backward1_spec", "NG.Norm.forward_backward", "NG.Norm.unbounded", "NG.Norm.usable_iff", "NG.Norm.forward1_half", "NG.Norm.fullyBounded_iff", "NG.Norm.twice_partial", "NG.Norm.forward_matrix", "NG.Norm.backward_angles", "NG.Norm.backward_raises", "NG.Norm.detSampling_mode", "NG.Norm.detSampling_value", "NG.Norm.detSampling_cached", "NG.Norm.analyze_spec", "NG.Norm.analyze_continuous", "NG.Norm.angle_read"], "note": "round trips hold for vectors whose layers read back what is set; forward fails for every bounded array with several dimensions and backward for every array of angles, and then all parameters are transformed by the fallback, those before the failing one a second time; layers of the method constraint do not enforce bounds; exact arithmetic, modulo layers not modelled"},
 {"property": "C88", "status": "partial", "theorems": ["NG.Bnd.bounds_ops", "NG.Bnd.bounds_none", "NG.Bnd.value_spec", "NG.Bnd.value_within_partial", "NG.Bnd.value_reversed", "NG.Bnd.rises_ops", "NG.Bnd.rises_pow", "NG.Bnd.falls_inverse", "NG.Bnd.scalar_free", "NG.Bnd.scalar_init", "NG.Bnd.scalar_scale", "NG.Bnd.scalar_ends", "NG.Bnd.scalar_bounds", "NG.Bnd.scalar_refused", "NG.Bnd.array_never_full", "NG.Bnd.array_sample", "NG.Bnd.log_scale", "NG.Bnd.log_ends", "NG.Bnd.log_bounds", "NG.Bnd.scalar_sample", "NG.Bnd.log_sample", "NG.Bnd.legacy_order", "NG.Bnd.small_exponent", "NG.Bnd.bounds_twice", "NG.Bnd.refused_kept", "NG.Bnd.negative_exponent", "NG.Bnd.opposite_outside", "NG.Bnd.int_reversed", "NG.Bnd.opposite_int", "NG.Bnd.square_outside", "NG.Bnd.one_bound_refused", "NG.Bnd.wider_refused", "NG.Bnd.empty_bounds", "NG.Bnd.between_refused", "NG.Bnd.third_refused", "NG.Bnd.negative_powers", "NG.Bnd.operation_not_rearranged"], "note": "values stay within `bounds` for formulas which do not decrease; for the others `bounds` is wrong; scale, sampling of Scalar and Log, and setting bounds and an exponent above 1 in any order are proved; Array never samples over the full range; bounds cannot be set twice, refused bounds stay in place, exponents below 1 lose the bounds, negative values become NaN; real numbers, arctan, tanh, gaussian and modulo layers not modelled here"},
 {"property": "C89", "status": "partial", "theorems": ["NG.Cop.pick_satisfied", "NG.Cop.solve_spec", "NG.Cop.container_read", "NG.Cop.data_read", "NG.Cop.data_read_partial", "NG.Cop.data_violates", "NG.Cop.data_infeasible", "NG.Cop.data_cached", "NG.Cop.container_stale"], "note": "the solver and reads of containers are proved; for arrays and scalars the claim holds if the first solver succeeds: the code enters the constraint again when it stores the recommendation, so the value can violate the constraint although the data does not, and constraints which cannot be satisfied never return; changes inside a container are not seen. Boolean results, NaN, values None, optimizers with their own recommendation (whose missing loss makes the stopping criterion raise) and the reference point of the hypervolume are not modelled"},
 {"property": "C90", "status": "partial", "theorems": ["NG.Cop.torch_told_partial", "NG.Cop.torch_first"], "note": "holds from the second step on; the first candidate is asked but not given to the module, so it is told the loss of the initial module; clipping to the bound and the shapes of the parameters are not modelled"},
 {"property": "C91", "status": "partial", "theorems": ["NG.Fight.winners_score", "NG.Fight.winners_range", "NG.Fight.winners_sum", "NG.Fight.aggregate_spec", "NG.Fight.both_sum", "NG.Fight.rowMax_spec", "NG.Fight.winrate_spec", "NG.Fight.winrate_range", "NG.Fight.winrate_pairs", "NG.Fight.ranking_spec", "NG.Fight.ranking_first", "NG.Fight.best_first_partial", "NG.Fight.num_spec", "NG.Fight.complete_max", "NG.Fight.complete_partial", "NG.Fight.better_not_first", "NG.Fight.complete_not", "NG.Fight.plot_all", "NG.Fight.plot_complete_partial"], "note": "an optimizer which wins against all others need not come first: the ranking is by average win rate (the claim holds if it wins every common setting against everyone); `complete_runs_only` keeps the optimizers run on the most settings, which may share none. Losses are exact numbers; infinite losses, names and drawing are not modelled"},
 {"property": "C92", "status": "proved", "theorems": ["NG.Legend.good_combine", "NG.Legend.group_optimal", "NG.Legend.merge_spec", "NG.Legend.loop_spec", "NG.Legend.placements_optimal", "NG.Legend.placements_kept", "NG.Legend.placements_refused", "NG.Legend.title_spec", "NG.Legend.style_iff", "NG.Legend.getStyle_spec", "NG.Legend.styles_spec", "NG.Legend.make_accepted"], "note": "exact numbers; drawing is not modelled"},
 {"property": "C93", "status": "partial", "theorems": ["NG.Xp.errors_removed", "NG.Xp.errors_count", "NG.Xp.errors_kept", "NG.Xp.limit_spec", "NG.Xp.limit_none", "NG.Xp.normalize_spec", "NG.Xp.normalize_range_partial", "NG.Xp.normalize_budgets", "NG.Xp.normalize_raises", "NG.Xp.normalize_beyond", "NG.Xp.limited_normalized", "NG.Xp.median_counts", "NG.Xp.median_perm", "NG.Xp.median_neg", "NG.Xp.data_spec", "NG.Xp.leaderboard_spec", "NG.Xp.shown_spec", "NG.Xp.shown_best", "NG.Xp.legends_placed", "NG.Xp.pure_spec", "NG.Xp.pure_spaces", "NG.Xp.suffix_ignored", "NG.Xp.merge_spec_partial", "NG.Xp.merge_collision"], "note": "proved except: losses are normalized over all budgets of a setting; numbers at the end of names stay unless a pattern is given; merged names of different optimizers can be equal; lines without a loss stay if there is no column of errors. Standard deviations, pseudotime, conversions of types and drawing are not modelled"},
 {"property": "C94", "status": "partial", "theorems": ["NG.Ready.portfolio_spec", "NG.Ready.construct_default", "NG.Ready.workers_spec", "NG.Ready.content_partial", "NG.Ready.announced_absent", "NG.Ready.own_spec", "NG.Ready.cls_family", "NG.Ready.needs_budget", "NG.Ready.sqrt_alone", "NG.Ready.workers_replaced", "NG.Ready.crossing_always", "NG.Ready.told_own_partial", "NG.Ready.cm_spec", "NG.Ready.as_select", "NG.Ready.as_fallback", "NG.Ready.map_needs_budget", "NG.Ready.discrete_content", "NG.Ready.discrete_needs_budget", "NG.Ready.discrete_alone", "NG.Ready.discrete_rotation", "NG.Ready.discrete_selects", "NG.Ready.discrete_over_budget"], "note": "the twenty-six portfolios of local searches are always the default portfolio (proved for all budgets and workers), so the announced content is refuted; the rest is proved with the exact conditions under which it fails. Which points the optimizers propose is not modelled, nor optimizers which refuse candidates in `MultiDiscrete`"},
 {"property": "C95", "status": "partial", "theorems": ["NG.ExtBo.keys_ordered", "NG.ExtBo.key_injective", "NG.ExtBo.bo_values", "NG.ExtBo.tell_point", "NG.ExtBo.bo_recommends", "NG.ExtBo.bo_second_lost", "NG.ExtBo.fake_refuses", "NG.ExtBo.design_spec", "NG.ExtBo.batch_spec", "NG.ExtBo.batch_order", "NG.ExtBo.batch_waits", "NG.ExtBo.batch_not_asked", "NG.ExtBo.doe_spec", "NG.ExtBo.ax_shift", "NG.ExtBo.ax_trials_partial", "NG.ExtBo.ax_wrong_trial"], "note": "proved for bayes_opt except for repeated evaluations of a point (lost), for bayes_optim except for the evaluations of an unfinished batch, and for ax without suggestions and rejected candidates (exact shift of the trials proved otherwise). Equality of points is exact in the model; what the packages do inside is not modelled"},
 {"property": "C96", "status": "partial", "theorems": ["NG.HyperOpt.proposals_legal_partial", "NG.HyperOpt.proposals_all_partial", "NG.HyperOpt.upper_missing", "NG.HyperOpt.below_lower", "NG.HyperOpt.repetitions_illegal", "NG.HyperOpt.array_mode", "NG.HyperOpt.fallback", "NG.HyperOpt.unbounded_refused", "NG.HyperOpt.nested_refused", "NG.HyperOpt.flat_native", "NG.HyperOpt.record_partial", "NG.HyperOpt.constant_fails", "NG.HyperOpt.nested_choice_wrong", "NG.HyperOpt.trials_spec", "NG.HyperOpt.tell_fails", "NG.HyperOpt.choice_classes"], "note": "legality, reachability of all values and records are proved for all trees of parameters outside of the cases in which they fail (integers, repetitions, constants as arguments, choices between choices), and the failures are proved; trials are proved in general. The draws of hyperopt and the fallback through standardized data are not modelled; constants are numbers"},
 {"property": "C97", "status": "proved", "theorems": ["NG.Links.append_rep", "NG.Links.extend_rep", "NG.Links.createSorted_rep", "NG.Links.createSorted_iterate", "NG.Links.rep_iterate_from", "NG.Links.pop_rep", "NG.Links.pop_keeps", "NG.Links.pops_iterate", "NG.Links.reinsert_pop", "NG.Links.reinserts_pops", "NG.Links.recursive_refines", "NG.Links.compute_refines", "NG.Links.compute_exact", "NG.Links.compute_exact_untied", "NG.Links.reinsert_wrong_order"], "note": "references of nodes are modelled as functions; loops over lists are bounded by the number of points, which the proof shows is enough. The abstraction used for C16 is thereby proved rather than assumed"},
 {"property": "C98", "status": "partial", "theorems": ["NG.Msr.told_scaled_partial", "NG.Msr.runs_agree", "NG.Msr.not_weighted", "NG.Msr.attr_last", "NG.Msr.attr_wrong", "NG.Msr.refused"], "note": "proved what the runs are told: the loss of the optimizer times the sum of their weights, for every sequence of tells. The claim is false: all runs rank alike (runs_agree, not_weighted), the attribute loss of candidates is the one of the last run (attr_wrong), refusals raise (refused)"},
 {"property": "C99", "status": "proved", "theorems": ["NG.Bandit.ask_old_or_new", "NG.Bandit.new_iff", "NG.Bandit.sequential_arms", "NG.Bandit.isArms_unique", "NG.Bandit.evaluations_per_arm", "NG.Bandit.parallel_arms", "NG.Bandit.batch_new"], "note": "arms are identified with natural numbers, fresh draws are assumed different from the arms, the pruning of the archive is left out"}
]}
