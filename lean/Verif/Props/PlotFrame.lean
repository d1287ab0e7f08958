import Verif.Model.PlotFrame
import Verif.Props.XpData
import Mathlib.Tactic.Linarith
import Mathlib.Tactic.Positivity
import Mathlib.Tactic.FieldSimp
import Mathlib.Analysis.Complex.ExponentialBounds

/-!
# C163: the frame of experiment plots
-/

namespace NG.PlotFrame

variable {K : Type} [Field K] [LinearOrder K] [IsStrictOrderedRing K]

theorem top_spec (c : Curve K) (h : c.losses ≠ []) : IsGreatest {x | x ∈ c.losses} c.top := by
  unfold Curve.top
  cases hm : Xp.maxOf c.losses with
  | none => cases hl : c.losses with
    | nil => exact absurd hl h
    | cons a l => rw [hl] at hm; simp [Xp.maxOf] at hm
  | some M => exact (Xp.maxOf_spec _ _).1 hm

theorem bottom_spec (c : Curve K) (h : c.losses ≠ []) : IsLeast {x | x ∈ c.losses} c.bottom := by
  unfold Curve.bottom
  cases hm : Xp.minOf c.losses with
  | none => cases hl : c.losses with
    | nil => exact absurd hl h
    | cons a l => rw [hl] at hm; simp [Xp.minOf] at hm
  | some M => exact (Xp.minOf_spec _ _).1 hm

omit [LinearOrder K] [IsStrictOrderedRing K] in
theorem last_mem (c : Curve K) (h : c.losses ≠ []) : c.last ∈ c.losses := by
  unfold Curve.last
  cases hl : c.losses with
  | nil => exact absurd hl h
  | cons a l => rw [List.getLastD_cons]; cases l with
    | nil => simp
    | cons b l => rw [List.getLastD_eq_getLast?, List.getLast?_eq_some_getLast (by simp)]; simp only [Option.getD_some]; exact List.mem_cons_of_mem _ (List.getLast_mem _)

omit [IsStrictOrderedRing K] in
private theorem fold_spec (y : K) (cs : List (Curve K)) : ∀ u : K,
    (y ≤ cs.foldl (fun u c => if isBaseline c.name then min u c.top else u) u ↔ y ≤ u ∧ ∀ c ∈ cs, isBaseline c.name = true → y ≤ c.top) := by
  induction cs with
  | nil => simp
  | cons c cs ih =>
    intro u
    rw [List.foldl_cons, ih]
    by_cases h : isBaseline c.name = true
    · simp only [h, if_true, le_min_iff, List.mem_cons, forall_eq_or_imp]
      tauto
    · simp only [h, List.mem_cons, forall_eq_or_imp]
      simp

/-- The upper limit is the greatest loss of all the curves, but no more than the greatest loss of any baseline. -/
theorem upper_spec (cs : List (Curve K)) (hne : cs ≠ []) (hl : ∀ c ∈ cs, c.losses ≠ []) : ∃ u, upper cs = some u ∧
    ∀ y, y ≤ u ↔ (∃ c ∈ cs, ∃ x ∈ c.losses, y ≤ x) ∧ ∀ c ∈ cs, isBaseline c.name = true → ∃ x ∈ c.losses, y ≤ x := by
  have htop : ∀ c ∈ cs, ∀ y : K, y ≤ c.top ↔ ∃ x ∈ c.losses, y ≤ x := by
    intro c hc y
    obtain ⟨h1, h2⟩ := top_spec c (hl c hc)
    exact ⟨fun h => ⟨_, h1, h⟩, fun ⟨x, hx, h⟩ => h.trans (h2 hx)⟩
  cases hm : Xp.maxOf (cs.map Curve.top) with
  | none => cases cs with
    | nil => exact absurd rfl hne
    | cons c cs => simp [Xp.maxOf] at hm
  | some M =>
    refine ⟨_, by unfold upper; rw [hm]; rfl, ?_⟩
    intro y
    obtain ⟨h1, h2⟩ := (Xp.maxOf_spec _ _).1 hm
    rw [fold_spec]
    refine and_congr ?_ (forall_congr' fun c => forall_congr' fun hc => forall_congr' fun _ => htop c hc y)
    constructor
    · intro h
      obtain ⟨c, hc, e⟩ := List.mem_map.1 h1
      exact ⟨c, hc, (htop c hc y).1 (by rw [e]; exact h)⟩
    · rintro ⟨c, hc, hx⟩
      exact ((htop c hc y).2 hx).trans (h2 (List.mem_map_of_mem hc))

/-- Without baselines every loss is below the upper limit. -/
theorem upper_all (cs : List (Curve K)) (hne : cs ≠ []) (hl : ∀ c ∈ cs, c.losses ≠ []) (hb : ∀ c ∈ cs, isBaseline c.name = false) (u : K)
    (hu : upper cs = some u) : ∀ c ∈ cs, ∀ x ∈ c.losses, x ≤ u := by
  obtain ⟨u', e, h⟩ := upper_spec cs hne hl
  rw [hu] at e
  obtain rfl := Option.some.inj e
  intro c hc x hx
  refine (h x).2 ⟨⟨c, hc, x, hx, le_rfl⟩, fun c' hc' hb' => ?_⟩
  rw [hb c' hc'] at hb'
  simp at hb'

omit [IsStrictOrderedRing K] in
/-- The curves of the plot are among the curves given, and pass the test. -/
theorem chosen_sub (keep : Curve K → Bool) (cs : List (Curve K)) : ∀ c ∈ chosen keep cs, c ∈ cs ∧ keep c = true := by
  intro c hc
  obtain ⟨p, hp, rfl⟩ := List.mem_map.1 hc
  have : p ∈ (Xp.ordered (cs.map fun c => (c, c.last))).filter fun p => keep p.1 := by
    unfold Xp.shown at hp
    split at hp
    · rcases List.mem_append.1 hp with h | h
      · exact List.mem_of_mem_take h
      · exact List.mem_of_mem_drop h
    · exact hp
  obtain ⟨h1, h2⟩ := List.mem_filter.1 this
  unfold Xp.ordered at h1
  rw [List.mem_insertionSort] at h1
  obtain ⟨c', hc', rfl⟩ := List.mem_map.1 h1
  exact ⟨hc', h2⟩

/-- The lower limit is below every loss of the curves of the plot, and below the known solutions and a tenth around them; it is one of these numbers. -/
theorem lower_spec (marks : List K) (cs : List (Curve K)) (hne : cs ≠ []) (hl : ∀ c ∈ cs, c.losses ≠ []) :
    ∃ l, lower marks cs = some l ∧ (∀ c ∈ cs, ∀ x ∈ c.losses, l ≤ x) ∧ (∀ t ∈ marks, l ≤ t ∧ l ≤ 9 / 10 * t ∧ l ≤ 11 / 10 * t) ∧
      ((∃ c ∈ cs, l ∈ c.losses) ∨ ∃ t ∈ marks, l = t ∨ l = 9 / 10 * t ∨ l = 11 / 10 * t) := by
  unfold lower
  cases hm : Xp.minOf (cs.flatMap fun c => c.bottom :: marks.flatMap fun t => [t, 9 / 10 * t, 11 / 10 * t]) with
  | none =>
    cases cs with
    | nil => exact absurd rfl hne
    | cons c cs => simp [Xp.minOf] at hm
  | some l =>
    obtain ⟨h1, h2⟩ := (Xp.minOf_spec _ _).1 hm
    refine ⟨l, rfl, ?_, ?_, ?_⟩
    · intro c hc x hx
      have := h2 (show c.bottom ∈ _ from List.mem_flatMap.2 ⟨c, hc, by simp⟩)
      exact this.trans ((bottom_spec c (hl c hc)).2 hx)
    · intro t ht
      obtain ⟨c, hc⟩ := List.exists_mem_of_ne_nil cs hne
      have key : ∀ z ∈ [t, 9 / 10 * t, 11 / 10 * t], l ≤ z := fun z hz =>
        h2 (List.mem_flatMap.2 ⟨c, hc, List.mem_cons_of_mem _ (List.mem_flatMap.2 ⟨t, ht, hz⟩)⟩)
      exact ⟨key _ (by simp), key _ (by simp), key _ (by simp)⟩
    · obtain ⟨c, hc, h⟩ := List.mem_flatMap.1 h1
      rcases List.mem_cons.1 h with h | h
      · exact Or.inl ⟨c, hc, by rw [h]; exact (bottom_spec c (hl c hc)).1⟩
      · obtain ⟨t, ht, h⟩ := List.mem_flatMap.1 h
        exact Or.inr ⟨t, ht, by simpa using h⟩

/-- Part of the claim: when all curves take part, the lower limit is below the upper one, even if the baselines are not in the plot. -/
theorem limits_partial (marks : List K) (cs : List (Curve K)) (hne : cs ≠ []) (hl : ∀ c ∈ cs, c.losses ≠ []) :
    ∃ u l, upper cs = some u ∧ lower marks (chosen (fun _ => true) cs) = some l ∧ l ≤ u := by
  obtain ⟨u, hu, hspec⟩ := upper_spec cs hne hl
  obtain ⟨z, hz, hzm, hzb⟩ := Xp.shown_best (cs.map fun c => (c, c.last)) (by simpa using hne)
  obtain ⟨c, hc, rfl⟩ := List.mem_map.1 hzm
  have hin : c ∈ chosen (fun _ => true) cs := by
    unfold chosen
    rw [List.filter_eq_self.2 (by simp)]
    exact List.mem_map.2 ⟨(c, c.last), List.mem_of_getLast? hz, rfl⟩
  obtain ⟨l, h1, h2, _, _⟩ := lower_spec marks (chosen (fun _ => true) cs) (List.ne_nil_of_mem hin) fun c' hc' => hl c' (chosen_sub _ _ c' hc').1
  refine ⟨u, l, hu, h1, (h2 c hin _ (last_mem c (hl c hc))).trans ((hspec _).2 ⟨⟨c, hc, _, last_mem c (hl c hc), le_rfl⟩, ?_⟩)⟩
  intro c' hc' _
  exact ⟨_, last_mem c' (hl c' hc'), hzb _ (List.mem_map.2 ⟨c', hc', rfl⟩)⟩

/-- The claim is false for the plot of pure algorithms: with a baseline that beats them, the lower limit is above the upper one. -/
theorem limits_pure : ∃ (cs : List (Curve ℚ)) (keep : Curve ℚ → Bool) (u l : ℚ), (∃ c ∈ cs, keep c = true) ∧ (∀ c ∈ cs, c.losses ≠ []) ∧
    upper cs = some u ∧ lower [] (chosen keep cs) = some l ∧ topLinear u l < l := by
  refine ⟨[⟨"Zero", [1]⟩, ⟨"DE", [5, 3]⟩], fun c => c.name == "DE", 1, 3, ⟨⟨"DE", [5, 3]⟩, by simp, by rfl⟩, by simp, ?_, ?_, ?_⟩
  · decide +kernel
  · decide +kernel
  · decide +kernel

omit [IsStrictOrderedRing K] in
/-- Logarithms are used when all losses are positive and none is above a hundred millions. -/
theorem logPlot_spec (cs : List (Curve K)) : logPlot cs = true ↔ ∀ c ∈ cs, ∀ x ∈ c.losses, 0 < x ∧ x ≤ 10 ^ 8 := by
  unfold logPlot
  simp only [Bool.not_eq_true', List.any_eq_false, Bool.or_eq_true, decide_eq_true_eq, not_exists, not_and, List.any_eq_true, not_or, not_le, not_lt]

/-- Without logarithms the top leaves a fiftieth of the height above the upper limit: all losses of the plot are in the frame if there is no baseline. -/
theorem frame_linear (u l : K) (h : l ≤ u) : u ≤ topLinear u l ∧ (topLinear u l - l) = 51 / 50 * (u - l) ∧ (topLinear u l = u ↔ u = l) := by
  unfold topLinear
  have h0 : (0 : K) < 2 / 100 := by norm_num
  refine ⟨?_, by ring, ?_⟩
  · have : 0 ≤ 2 / 100 * (u - l) := mul_nonneg h0.le (by linarith)
    linarith
  · constructor
    · intro e
      have : 2 / 100 * (u - l) = 0 := by linarith
      rcases mul_eq_zero.1 this with h' | h'
      · exact absurd h' h0.ne'
      · linarith
    · intro e; rw [e]; ring

/-- With logarithms the top leaves a fiftieth of the height in logarithms. -/
theorem frame_log (u l : ℝ) (hl : 0 < l) (h : l ≤ u) : u ≤ topLog u l ∧ topLog u l / u = (u / l) ^ (1 / 50 : ℝ) := by
  have hu : 0 < u := hl.trans_le h
  have e10 : (10 : ℝ) ^ Real.logb 10 u = u := Real.rpow_logb (by norm_num) (by norm_num) hu
  have el10 : (10 : ℝ) ^ Real.logb 10 l = l := Real.rpow_logb (by norm_num) (by norm_num) hl
  have key : topLog u l = u * (u / l) ^ (1 / 50 : ℝ) := by
    unfold topLog
    rw [Real.rpow_add (by norm_num), e10]
    congr 1
    rw [mul_comm, Real.rpow_mul (by norm_num), Real.rpow_sub (by norm_num), e10, el10]
    norm_num
  refine ⟨?_, ?_⟩
  · rw [key]
    have h1 : 1 ≤ u / l := by rw [le_div_iff₀ hl]; linarith
    have h2 : 1 ≤ (u / l) ^ (1 / 50 : ℝ) := Real.one_le_rpow h1 (by norm_num)
    exact le_mul_of_one_le_right hu.le h2
  · rw [key]; field_simp

/-- The confidence lines are around the loss for two runs or more: at the same distance without logarithms, with the same ratio with them, and then always positive. -/
theorem bands (loss std : ℝ) (runs : Nat) (hs : 0 ≤ std) :
    (bandLinear loss (conf std runs)).1 ≤ loss ∧ loss ≤ (bandLinear loss (conf std runs)).2 ∧
    loss - (bandLinear loss (conf std runs)).1 = (bandLinear loss (conf std runs)).2 - loss ∧
    (0 < loss → 0 < (bandLog loss (conf std runs)).1 ∧ (bandLog loss (conf std runs)).1 ≤ loss ∧ loss ≤ (bandLog loss (conf std runs)).2 ∧
      (bandLog loss (conf std runs)).1 * (bandLog loss (conf std runs)).2 = loss * loss) := by
  have hc : 0 ≤ conf std runs := div_nonneg hs (Real.sqrt_nonneg _)
  generalize conf std runs = c at hc
  refine ⟨by simp only [bandLinear]; linarith, by simp only [bandLinear]; linarith, by simp only [bandLinear]; ring, fun hl => ?_⟩
  have e10 : (10 : ℝ) ^ Real.logb 10 loss = loss := Real.rpow_logb (by norm_num) (by norm_num) hl
  have hd : 0 ≤ 434 / 1000 * c / loss := by positivity
  simp only [bandLog]
  refine ⟨Real.rpow_pos_of_pos (by norm_num) _, ?_, ?_, ?_⟩
  · conv_rhs => rw [← e10]
    exact Real.rpow_le_rpow_of_exponent_le (by norm_num) (by linarith)
  · conv_lhs => rw [← e10]
    exact Real.rpow_le_rpow_of_exponent_le (by norm_num) (by linarith)
  · rw [← Real.rpow_add (by norm_num)]
    have : Real.logb 10 loss - 434 / 1000 * c / loss + (Real.logb 10 loss + 434 / 1000 * c / loss) = Real.logb 10 loss + Real.logb 10 loss := by ring
    rw [this, Real.rpow_add (by norm_num), e10]

private theorem log_ten : 2302 / 1000 < Real.log 10 ∧ Real.log 10 < 2304 / 1000 := by
  have l2 := Real.log_two_gt_d9
  have u2 := Real.log_two_lt_d9
  have h1 : Real.log ((2 : ℝ) ^ 93) < Real.log ((10 : ℝ) ^ 28) := Real.log_lt_log (by norm_num) (by norm_num)
  have h2 : Real.log ((10 : ℝ) ^ 31) < Real.log ((2 : ℝ) ^ 103) := Real.log_lt_log (by norm_num) (by norm_num)
  rw [Real.log_pow, Real.log_pow] at h1 h2
  push_cast at h1 h2
  constructor <;> linarith

/-- The confidence lines with logarithms are those without, to the first order: the lower one is above the one without logarithms, and the upper one is
above the loss by nearly the same distance or more. -/
theorem bands_first_order (loss c : ℝ) (hl : 0 < loss) (hc : 0 ≤ c) :
    (bandLinear loss c).1 ≤ (bandLog loss c).1 ∧ loss + 999 / 1000 * c ≤ (bandLog loss c).2 := by
  obtain ⟨h1, h2⟩ := log_ten
  have e10 : (10 : ℝ) ^ Real.logb 10 loss = loss := Real.rpow_logb (by norm_num) (by norm_num) hl
  have hq : 0 ≤ c / loss := div_nonneg hc hl.le
  have hcl : loss * (c / loss) = c := by field_simp
  have lo : (bandLog loss c).1 = loss * Real.exp (-(434 / 1000 * Real.log 10 * (c / loss))) := by
    simp only [bandLog]
    rw [sub_eq_add_neg, Real.rpow_add (by norm_num), e10, Real.rpow_def_of_pos (by norm_num)]
    congr 2
    ring
  have hi : (bandLog loss c).2 = loss * Real.exp (434 / 1000 * Real.log 10 * (c / loss)) := by
    simp only [bandLog]
    rw [Real.rpow_add (by norm_num), e10, Real.rpow_def_of_pos (by norm_num)]
    congr 2
    ring
  refine ⟨?_, ?_⟩
  · rw [lo]
    have h := Real.add_one_le_exp (-(434 / 1000 * Real.log 10 * (c / loss)))
    have h3 : 1 - c / loss ≤ Real.exp (-(434 / 1000 * Real.log 10 * (c / loss))) := by nlinarith
    have h4 := mul_le_mul_of_nonneg_left h3 hl.le
    simp only [bandLinear]
    calc loss - c = loss * (1 - c / loss) := by rw [mul_sub, hcl, mul_one]
      _ ≤ _ := h4
  · rw [hi]
    have h := Real.add_one_le_exp (434 / 1000 * Real.log 10 * (c / loss))
    have h3 : 1 + 999 / 1000 * (c / loss) ≤ Real.exp (434 / 1000 * Real.log 10 * (c / loss)) := by nlinarith
    have h4 := mul_le_mul_of_nonneg_left h3 hl.le
    calc loss + 999 / 1000 * c = loss * (1 + 999 / 1000 * (c / loss)) := by
          rw [mul_add, mul_one, mul_left_comm, hcl]
      _ ≤ _ := h4

/-- The half width is the standard deviation divided by the square root of the number of runs less one: four times as many, less one, halves it. -/
theorem conf_spec (std : ℝ) (runs : Nat) (h : 2 ≤ runs) :
    conf std runs * Real.sqrt ((runs : ℝ) - 1) = std ∧ conf std (4 * runs - 3) = conf std runs / 2 := by
  have h1 : (1 : ℝ) ≤ (runs : ℝ) - 1 := by
    have : (2 : ℝ) ≤ runs := by exact_mod_cast h
    linarith
  have hp : 0 < Real.sqrt ((runs : ℝ) - 1) := Real.sqrt_pos.2 (by linarith)
  refine ⟨by unfold conf; field_simp, ?_⟩
  unfold conf
  have e : (((4 * runs - 3 : ℕ) : ℝ) - 1) = 2 ^ 2 * ((runs : ℝ) - 1) := by
    rw [Nat.cast_sub (by omega)]; push_cast; ring
  rw [e, Real.sqrt_mul (by norm_num), Real.sqrt_sq (by norm_num)]
  field_simp

/-! ## Cases -/

/-- The baselines: two names in any case of letters, two names as they are. -/
theorem baseline_iff (name : String) :
    isBaseline name = true ↔ name.toLower = "stupid" ∨ name.toLower = "idiot" ∨ name = "Zero" ∨ name = "StupidRandom" := by
  simp [isBaseline, or_assoc]

example : isBaseline "Stupid" = true ∧ isBaseline "Zero" = true ∧ isBaseline "zero" = false ∧ isBaseline "CMA" = false := by decide +kernel
example : upper [⟨"CMA", [9, 4]⟩, ⟨"Zero", [7, 6]⟩, ⟨"DE", [8, 2]⟩] = some (7 : ℚ) := by decide +kernel
example : lower [1] (chosen (fun _ => true) [⟨"CMA", [9, 4]⟩, ⟨"Zero", [7, 6]⟩, ⟨"DE", [8, 2]⟩]) = some (9 / 10 : ℚ) := by decide +kernel
example : topLinear (7 : ℚ) 2 = 71 / 10 := by decide +kernel

end NG.PlotFrame
