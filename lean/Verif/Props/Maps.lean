import Verif.Model.Maps
import Verif.Props.Csec

/-!
# C111: what the other competence maps select
-/

namespace NG
namespace Maps

open NGOpt Csec

/-! ## A known budget is enough -/

theorem ofSel_ok {s : Sel} (h : ∃ a, s = .ok a) : ∃ a, Out.ofSel s = .ok a := by
  obtain ⟨a, rfl⟩ := h; exact ⟨_, rfl⟩

theorem ofNG_ok {o : Option NGOpt.Alg} (h : ∃ a, o = some a) : ∃ a, Out.ofNG o = .ok a := ofSel_ok (Csec.ofNG_ok h)

theorem shiwaEnd_ok {v : Problem} {b : Nat} (h : v.budget = some b) : ∃ a, shiwaEnd v = .ok a := by
  unfold shiwaEnd; repeat' split
  all_goals first | exact ⟨_, rfl⟩ | exact ofSel_ok (base_ok h)

theorem lastEnd_ok {v : Problem} {b : Nat} (h : v.budget = some b) : ∃ a, lastEnd v = .ok a := by
  unfold lastEnd; repeat' split
  all_goals first | exact ⟨_, rfl⟩ | exact ofSel_ok (base_ok h)

theorem wizLike_ok {v : Problem} {b : Nat} (h : v.budget = some b) (f s : Nat → Nat → Bool) : ∃ a, wizLike f s v = .ok a := by
  have h' : v.toEnv.renewed.budget = some b := h
  have h0 : v.toEnv.budget = some b := h
  unfold wizLike wizEnd; repeat' split
  all_goals first
    | exact ⟨_, rfl⟩ | exact ofNG_ok (select16_total h') | exact ofNG_ok (select36_total h') | exact ofNG_ok (select21_total h')
    | exact ofNG_ok (select8_total h') | exact ofNG_ok (select15_total h')

theorem carola_ok {v : Problem} {c : Csec.Alg} {r : Out} (h : ∃ a, r = .ok a) : ∃ a, carola c v r = .ok a := by
  unfold carola; repeat' split
  all_goals first | exact ⟨_, rfl⟩ | exact h

theorem integers_ok {v : Problem} {r : Out} (h : ∃ a, r = .ok a) : ∃ a, integers v r = .ok a := by
  unfold integers; split
  · exact ⟨_, rfl⟩
  · exact h

theorem table_ok {v : Problem} {t : Nat → Nat → Option Csec.Alg} {r : Out} (h : ∃ a, r = .ok a) : ∃ a, table v t r = .ok a := by
  unfold table; repeat' split
  all_goals first | exact ⟨_, rfl⟩ | exact h

/-- With a budget, every class of the family selects an algorithm, whatever the problem. -/
theorem total_partial (c : Cls) {v : Problem} {b : Nat} (h : v.budget = some b) : ∃ a, select c v = .ok a := by
  have h' : v.toEnv.renewed.budget = some b := h
  have h0 : v.toEnv.budget = some b := h
  cases c <;> simp only [select]
  case dsBase =>
    unfold dsBase; rw [h]; dsimp only; repeat' split
    all_goals exact ⟨_, rfl⟩
  case shiwa => exact shiwaEnd_ok h
  case opt13 =>
    unfold opt13; split
    · exact ⟨_, rfl⟩
    · exact ofNG_ok (select12_total h0)
  case opt38 =>
    unfold opt38; repeat' split
    all_goals first
      | exact ⟨_, rfl⟩ | exact ofNG_ok (select16_total h') | exact ofNG_ok (select36_total h') | exact ofNG_ok (select21_total h')
      | exact ofNG_ok (select8_total h') | exact ofNG_ok (select15_total h')
  case optRW =>
    obtain ⟨x, hx⟩ := select39_total_partial h0
    unfold optRW; rw [h, hx]; dsimp only; repeat' split
    all_goals exact ⟨_, rfl⟩
  case wiz => exact wizLike_ok h _ _
  case ioh1 => exact wizLike_ok h _ _
  case ioh2 => exact wizLike_ok h _ _
  case ioh3 => exact wizLike_ok h _ _
  case rw2 =>
    unfold rw2; rw [h]; dsimp only; repeat' split
    all_goals first | exact ⟨_, rfl⟩ | exact ofSel_ok (ioh4_ok h)
  case ioh5 =>
    unfold ioh5; split
    · exact ⟨_, rfl⟩
    · exact carola_ok (shiwaEnd_ok h)
  case ioh6 =>
    unfold ioh6; split
    · exact ⟨_, rfl⟩
    · exact carola_ok (shiwaEnd_ok h)
  case ioh7 => exact integers_ok (carola_ok (shiwaEnd_ok h))
  case ioh8 => exact integers_ok (table_ok (carola_ok (shiwaEnd_ok h)))
  case ioh9 => exact integers_ok (table_ok (carola_ok (lastEnd_ok h)))
  case ioh10 => exact integers_ok (table_ok (carola_ok (lastEnd_ok h)))
  case ioh11 => exact integers_ok (table_ok (carola_ok (lastEnd_ok h)))
  case ds11 => exact integers_ok (table_ok (carola_ok (lastEnd_ok h)))
  case ioh19 => refine integers_ok ?_; split; exacts [⟨_, rfl⟩, table_ok (carola_ok (lastEnd_ok h))]
  case ioh20 => refine integers_ok ?_; split; exacts [⟨_, rfl⟩, table_ok (carola_ok (lastEnd_ok h))]
  case ds => refine integers_ok ?_; split; exacts [⟨_, rfl⟩, table_ok (carola_ok (lastEnd_ok h))]

/-! ## Without a budget -/

theorem smooth1_none {v : Problem} (h : v.budget = none) (t : Nat → Nat → Bool) : smooth1 v t = false := by
  simp [smooth1, known_none (v := v.toEnv) h]

/-- Without a budget, every class raises on continuous deterministic problems (with a metrizable space). -/
theorem no_budget (c : Cls) {v : Problem} (h : v.budget = none) (hl : v.layers = []) (hd : v.funcDet = true) (hm : v.metrizable = true) :
    select c v = .assertionError ∨ select c v = .typeError := by
  obtain ⟨h1, h2⟩ := (smooth_iff v.toEnv).2 ⟨hl, hd⟩
  have h0 : v.toEnv.budget = none := h
  have hr : v.toEnv.renewed.budget = none := h
  have ha : ¬ 0 < v.toEnv.arity := by rw [continuous_arity _ h1]; decide
  have hk : ∀ t, v.known t = false := fun t => known_none h0 t
  have e8 : select8 v.toEnv = none := by unfold select8; rw [h0]
  have e12 : select12 v.toEnv = none := by simp [select12, select10, hk, ha, e8]
  have e16 : select16 v.toEnv = none := by simp [select16, select15, hk, e12]
  have e39 : select39 v.toEnv = none := by rw [select39_none h0]; exact ⟨by simp [h2], by simp [ha]⟩
  have eb : base v = .assertionError := by unfold base selectBase; rw [hr]; rfl
  have es : shiwaEnd v = .assertionError := by simp [shiwaEnd, h2, hm, eb, Out.ofSel]
  have el : lastEnd v = .assertionError := by simp [lastEnd, h2, eb, Out.ofSel]
  have ew : ∀ f s, wizLike f s v = .assertionError := by
    intro f s; simp [wizLike, wizEnd, h1, h2, smooth1_none h, hk, e16, Out.ofNG, Sel.ofNG, Out.ofSel]
  have ec : ∀ c r, carola c v r = r := by intro c r; simp [carola, smooth1_none h]
  have ei : ∀ r, integers v r = r := by intro r; simp [integers, h1]
  have et : ∀ t r, table v t r = r := by intro t r; simp [table, h]
  have e4 : ioh4 v = .assertionError := by simp [ioh4, hk, h2, hm, eb]
  have elg : large v = false := by simp [large, hk]
  cases c <;> simp only [select]
  case dsBase => left; unfold dsBase; rw [h]
  case shiwa => left; exact es
  case opt13 => left; simp [opt13, hk, e12, Out.ofNG, Sel.ofNG, Out.ofSel]
  case opt38 => left; simp [opt38, smooth1_none h, e16, Out.ofNG, Sel.ofNG, Out.ofSel]
  case optRW => right; simp [optRW, h1, h2, h]
  case wiz => left; exact ew _ _
  case ioh1 => left; exact ew _ _
  case ioh2 => left; exact ew _ _
  case ioh3 => left; exact ew _ _
  case rw2 => right; simp [rw2, h1, h2, h]
  case ioh5 => left; simp [ioh5, ha, ec, es]
  case ioh6 => left; simp [ioh6, ha, ec, es]
  case ioh7 => left; simp [ioh7, ei, ec, es]
  case ioh8 => left; simp [ioh8, ei, ec, et, es]
  case ioh9 => left; simp [ioh9, ei, ec, et, el]
  case ioh10 => left; simp [ioh10, ei, ec, et, el]
  case ioh11 => left; simp [ioh11, ei, ec, et, el]
  case ds11 => left; simp [ds11, ei, ec, et, el]
  case ioh19 => left; simp [ioh19, ei, ec, et, el, elg]
  case ioh20 => left; simp [ioh20, ei, ec, et, el, elg]
  case ds => left; simp [ds, ei, ec, et, el, elg]

/-! ## Parallel use -/

/-- Outcomes which are not sequential algorithms. -/
def Par (o : Out) : Prop := ∀ a, o = .ok a → a.sequential = false

theorem par_sel {s : Sel} (h : ∀ a, s = .ok a → a.sequential = false) : Par (Out.ofSel s) := by
  intro a ha
  cases s with
  | ok x => simp only [Out.ofSel, Out.ok.injEq] at ha; subst ha; exact h x rfl
  | assertionError => simp [Out.ofSel] at ha
  | typeError => simp [Out.ofSel] at ha

theorem par_ng {o : Option NGOpt.Alg} (h : ∀ a, o = some a → a.sequential = false) : Par (Out.ofNG o) := by
  refine par_sel (fun a ha => ?_)
  obtain ⟨x, hx, rfl⟩ := ofNG_inj ha
  exact h x hx

theorem par_ok {a : Alg} (h : a.sequential = false) : Par (.ok a) := by
  intro x hx; simp only [Out.ok.injEq] at hx; rw [← hx]; exact h

theorem par_err1 : Par .assertionError := by intro a h; simp at h
theorem par_err2 : Par .typeError := by intro a h; simp at h

theorem smooth1_par {v : Problem} (hw : 1 < v.workers) (t : Nat → Nat → Bool) : smooth1 v t = false := by
  have : ¬ v.workers = 1 := by omega
  simp [smooth1, this]

theorem shiwaEnd_par {v : Problem} (hw : 1 < v.workers) : Par (shiwaEnd v) := by
  unfold shiwaEnd; repeat' split
  all_goals first | exact par_ok rfl | exact par_sel (fun a ha => base_parallel hw ha)

theorem lastEnd_par {v : Problem} (hw : 1 < v.workers) : Par (lastEnd v) := by
  unfold lastEnd; repeat' split
  all_goals first | exact par_ok rfl | exact par_sel (fun a ha => base_parallel hw ha)

theorem select21_par {v : Env} (hw : 1 < v.workers) {a : NGOpt.Alg} (h : select21 v = some a) : a.sequential = false := by
  unfold select21 at h
  split at h
  · simp only [Option.some.injEq] at h; subst h; rfl
  · exact select16_parallel hw h

theorem select36_par {v : Env} (hw : 1 < v.workers) {a : NGOpt.Alg} (h : select36 v = some a) : a.sequential = false := by
  unfold select36 at h
  split at h
  · simp only [Option.some.injEq] at h; subst h; rfl
  · exact select16_parallel hw h

theorem wizLike_par {v : Problem} (hw : 1 < v.workers) (f s : Nat → Nat → Bool) : Par (wizLike f s v) := by
  have h1 : ¬ v.workers = 1 := by omega
  have hr : 1 < v.toEnv.renewed.workers := hw
  have h0 : 1 < v.toEnv.workers := hw
  unfold wizLike wizEnd
  simp only [smooth1_par hw, h1, and_false, if_false, Bool.false_eq_true]
  repeat' split
  all_goals first
    | exact par_ok rfl | exact par_ng (fun a ha => select16_parallel hr ha) | exact par_ng (fun a ha => select36_par hr ha)
    | exact par_ng (fun a ha => select21_par hr ha) | exact par_ng (fun a ha => select8_parallel hr ha)
    | exact par_ng (fun a ha => select15_parallel hr ha) | exact par_ng (fun a ha => select16_parallel h0 ha)

theorem carola_par {v : Problem} (hw : 1 < v.workers) (c : Csec.Alg) (r : Out) : carola c v r = r := by simp [carola, smooth1_par hw]

theorem table_par {v : Problem} (hw : 1 < v.workers) (t : Nat → Nat → Option Csec.Alg) (r : Out) : table v t r = r := by
  have : ¬ v.workers = 1 := by omega
  simp [table, this]

theorem integers_par {v : Problem} {r : Out} (h : Par r) : Par (integers v r) := by
  unfold integers; split
  · exact par_ok rfl
  · exact h

/-- With several workers, no class of the family selects an algorithm which can only run sequentially. -/
theorem parallel (c : Cls) {v : Problem} (hw : 1 < v.workers) {a : Alg} (h : select c v = .ok a) : a.sequential = false := by
  have h1 : ¬ v.workers = 1 := by omega
  have h0 : 1 < v.toEnv.workers := hw
  revert a
  show Par (select c v)
  cases c <;> simp only [select]
  case dsBase =>
    unfold dsBase
    simp only [h1, false_and, if_false]
    repeat' split
    all_goals first | exact par_ok rfl | exact par_err1
  case shiwa => exact shiwaEnd_par hw
  case opt13 =>
    unfold opt13; split
    · exact par_ok rfl
    · exact par_ng (fun a ha => select12_parallel h0 ha)
  case opt38 =>
    simp only [opt38, smooth1_par hw, Bool.false_and, Bool.false_eq_true, if_false]
    exact par_ng (fun a ha => select16_parallel h0 ha)
  case optRW =>
    have := par_ng (o := select39 v.toEnv) (fun a ha => select39_parallel h0 ha)
    unfold optRW; repeat' split
    all_goals first | exact par_ok rfl | exact par_err1 | exact par_err2 | exact this
  case wiz => exact wizLike_par hw _ _
  case ioh1 => exact wizLike_par hw _ _
  case ioh2 => exact wizLike_par hw _ _
  case ioh3 => exact wizLike_par hw _ _
  case rw2 =>
    have := par_sel (s := ioh4 v) (fun a ha => ioh4_parallel hw ha)
    unfold rw2; repeat' split
    all_goals first | exact par_ok rfl | exact par_err2 | exact this
  case ioh5 => unfold ioh5; rw [carola_par hw]; split; exacts [par_ok rfl, shiwaEnd_par hw]
  case ioh6 => unfold ioh6; rw [carola_par hw]; split; exacts [par_ok rfl, shiwaEnd_par hw]
  case ioh7 => unfold ioh7; rw [carola_par hw]; exact integers_par (shiwaEnd_par hw)
  case ioh8 => unfold ioh8; rw [carola_par hw, table_par hw]; exact integers_par (shiwaEnd_par hw)
  case ioh9 => unfold ioh9; rw [carola_par hw, table_par hw]; exact integers_par (lastEnd_par hw)
  case ioh10 => unfold ioh10; rw [carola_par hw, table_par hw]; exact integers_par (lastEnd_par hw)
  case ioh11 => unfold ioh11; rw [carola_par hw, table_par hw]; exact integers_par (lastEnd_par hw)
  case ds11 => unfold ds11; rw [carola_par hw, table_par hw]; exact integers_par (lastEnd_par hw)
  case ioh19 =>
    unfold ioh19; rw [carola_par hw, table_par hw]; refine integers_par ?_
    split
    · split <;> exact par_ok rfl
    · exact lastEnd_par hw
  case ioh20 =>
    unfold ioh20; rw [carola_par hw, table_par hw]; refine integers_par ?_
    split
    · split <;> exact par_ok rfl
    · exact lastEnd_par hw
  case ds =>
    unfold ds; rw [carola_par hw, table_par hw]; refine integers_par ?_
    split
    · exact par_ok rfl
    · exact lastEnd_par hw

/-! ## Wiz and NgIoh to NgIoh3 are NGOpt with Carola2 -/

theorem smooth1_iff {v : Problem} {t : Nat → Nat → Bool} : smooth1 v t = true ↔ ∃ b, Smooth v b ∧ t v.dim b = true := by
  unfold smooth1
  simp only [Bool.and_eq_true, decide_eq_true_eq, Bool.not_eq_true']
  constructor
  · rintro ⟨⟨⟨h1, h2⟩, h3⟩, h4⟩
    cases hb : v.budget with
    | none => simp [Env.known, hb] at h3
    | some b =>
      simp only [Env.known, hb] at h3
      obtain ⟨hl, hd⟩ := (smooth_iff v.toEnv).1 ⟨h1, h4⟩
      exact ⟨b, ⟨hl, hd, hb, h2⟩, h3⟩
  · rintro ⟨b, h, ht⟩
    obtain ⟨h1, h4⟩ := (smooth_iff v.toEnv).2 ⟨h.layers, h.det⟩
    refine ⟨⟨⟨h1, h.workers⟩, ?_⟩, h4⟩
    simp only [Env.known, h.budget]; exact ht

theorem ofNG_ite {c : Prop} [Decidable c] (x y : Option NGOpt.Alg) : Out.ofNG (if c then x else y) = if c then Out.ofNG x else Out.ofNG y := by
  split <;> rfl

/-- Before the first loss is known, or with one objective, what remains after Carola2 is the selection of NGOpt. -/
theorem wizEnd_ngopt {v : Problem} (ho : v.objectives < 2) (hn : ¬ (v.continuous = true ∧ v.noise = true)) : wizEnd v = .ofNG (select39 v.toEnv) := by
  have h16 : select16 v.toEnv = select16 v.toEnv.renewed := by
    have e : ∀ w : Env, w.objectives < 2 → select16 w = select16 { w with objectives := 0 } := by
      intro w hw
      simp only [select16, select15, hw, decide_true, Nat.zero_lt_two]
      rfl
    exact e _ ho
  unfold wizEnd select39
  have hc : (v.continuous && v.noise) = false := by
    rw [Bool.eq_false_iff]; simpa using hn
  rw [hc, if_neg (c := false = true) (by simp)]
  simp only [ofNG_ite, h16]
  rfl

/-- The common claim about the four classes: `w` is the class, `window` the dimensions and budgets for Carola2. -/
def CarolaOrNGOpt (w : Problem → Out) (window : Nat → Nat → Prop) : Prop :=
  ∀ v : Problem, v.objectives < 2 →
    ((∃ b, Smooth v b ∧ 2 ≤ v.dim ∧ window v.dim b) → w v = .ok (.old .carola2)) ∧
    (¬ (∃ b, Smooth v b ∧ 2 ≤ v.dim ∧ window v.dim b) → w v = .ofNG (select39 v.toEnv))

theorem wizLike_claim (f s : Nat → Nat → Bool) (window : Nat → Nat → Prop)
    (hw : ∀ d b, (f d b = true ∨ s d b = true) ↔ (2 ≤ d ∧ window d b)) : CarolaOrNGOpt (wizLike f s) window := by
  intro v ho
  unfold wizLike
  constructor
  · rintro ⟨b, hs, hwin⟩
    obtain ⟨h1, h2, -⟩ := smooth_facts hs
    rw [if_neg (by simp [h2])]
    rcases (hw _ _).2 hwin with h | h
    · rw [if_pos (smooth1_iff.2 ⟨b, hs, h⟩)]; rfl
    · split
      · rfl
      · rw [if_pos (smooth1_iff.2 ⟨b, hs, h⟩)]; rfl
  · intro hne
    by_cases hn : v.continuous = true ∧ v.noise = true
    · rw [if_pos (by simp [hn])]
      have : select39 v.toEnv = some .noisyChain := by unfold select39; rw [if_pos (by simp [hn])]
      rw [this]; rfl
    · rw [if_neg (by simpa using hn)]
      rw [if_neg (fun h => ?_), if_neg (fun h => ?_)]
      · exact wizEnd_ngopt ho hn
      · obtain ⟨b, hs, ht⟩ := smooth1_iff.1 h
        exact hne ⟨b, hs, (hw _ _).1 (Or.inr ht)⟩
      · obtain ⟨b, hs, ht⟩ := smooth1_iff.1 h
        exact hne ⟨b, hs, (hw _ _).1 (Or.inl ht)⟩

/-- `Wiz`: Carola2 below 1000 and above 10000 evaluations per dimension, NGOpt elsewhere. -/
theorem wiz_selection : CarolaOrNGOpt wiz (fun d b => b < 1000 * d ∨ 10000 * d < b) :=
  wizLike_claim _ _ _ (by intro d b; simp only [decide_eq_true_eq]; omega)

/-- `NgIoh`: Carola2 from 20 to 1000 and above 10000 evaluations per dimension. -/
theorem ioh1_selection : CarolaOrNGOpt ioh1 (fun d b => (20 * d < b ∧ b < 1000 * d) ∨ 10000 * d < b) :=
  wizLike_claim _ _ _ (by intro d b; simp only [decide_eq_true_eq]; omega)

/-- `NgIoh2`: Carola2 above 20 evaluations per dimension, below 200 dimensions. -/
theorem ioh2_selection : CarolaOrNGOpt ioh2 (fun d b => 20 * d < b ∧ d < 200) :=
  wizLike_claim _ _ _ (by intro d b; simp only [decide_eq_true_eq]; omega)

/-- `NgIoh3`: below 100 dimensions, and below 50 with 1000 evaluations per dimension or more. -/
theorem ioh3_selection : CarolaOrNGOpt ioh3 (fun d b => 20 * d < b ∧ d < (if 1000 * d ≤ b then 50 else 100)) :=
  wizLike_claim _ _ _ (by
    intro d b
    by_cases h : 1000 * d ≤ b
    · simp only [decide_eq_true_eq, if_pos h]; omega
    · simp only [decide_eq_true_eq, if_neg h]; omega)

/-! ## What the versions changed -/

theorem carola4 (v : Problem) : carola .carola2 v (shiwaEnd v) = .ofSel (ioh4 v) := by
  unfold carola ioh4 shiwaEnd
  have e1 : smooth1 v (fun d b => decide (b < 1000 * d ∧ 20 * d < b ∧ 1 < d ∧ d < 100)) =
      (v.continuous && decide (v.workers = 1) && v.known (fun b => decide (b < 1000 * v.dim ∧ 20 * v.dim < b)) && !v.noise && decide (1 < v.dim ∧ v.dim < 100)) := by
    rw [Bool.eq_iff_iff]
    cases hb : v.budget <;> simp [smooth1, Env.known, hb]
    tauto
  have e2 : smooth1 v (fun d b => decide (1000 * d ≤ b ∧ 1 < d ∧ d < 50)) =
      (v.continuous && decide (v.workers = 1) && v.known (fun b => decide (1000 * v.dim ≤ b)) && !v.noise && decide (1 < v.dim ∧ v.dim < 50)) := by
    rw [Bool.eq_iff_iff]
    cases hb : v.budget <;> simp [smooth1, Env.known, hb]
    tauto
  rw [e1, e2]
  repeat' split
  all_goals rfl

/-- `NgIoh5` is `NgIoh4` except on noise-free problems with choices, given to the Lengler mutation. -/
theorem ioh5_selection (v : Problem) :
    ioh5 v = if v.noise = false ∧ 0 < v.arity then .ok (.old (.known .lengler)) else .ofSel (ioh4 v) := by
  unfold ioh5
  rw [carola4]
  by_cases h : v.noise = false ∧ 0 < v.arity
  · rw [if_pos h, if_pos (by simp [h])]; rfl
  · rw [if_neg h, if_neg (by simpa using h)]

/-- `NgIoh6` only changes the algorithm for these problems. -/
theorem ioh6_selection (v : Problem) :
    ioh6 v = if v.noise = false ∧ 0 < v.arity then .ok .recombiningDiscrete else .ofSel (ioh4 v) := by
  unfold ioh6
  rw [carola4]
  by_cases h : v.noise = false ∧ 0 < v.arity
  · rw [if_pos h, if_pos (by simp [h])]
  · rw [if_neg h, if_neg (by simpa using h)]

/-- `NgIoh7` is `NgIoh4` except on noise-free arrays of integers, given to a portfolio of discrete mutations. -/
theorem ioh7_selection (v : Problem) :
    ioh7 v = if v.isArray = true ∧ v.continuous = false ∧ v.noise = false then .ok (.old .discretePortfolio) else .ofSel (ioh4 v) := by
  unfold ioh7 integers
  rw [carola4]
  by_cases h : v.isArray = true ∧ v.continuous = false ∧ v.noise = false
  · rw [if_pos h, if_pos (by simp [h])]; rfl
  · rw [if_neg h, if_neg (by simpa [and_assoc] using h)]

/-- Neither continuous and noise-free with one worker, nor with more than 2000 evaluations per dimension. -/
def Outside (v : Problem) : Prop := ∀ b, v.budget = some b → v.layers = [] → v.funcDet = true → v.workers ≠ 1 ∧ b ≤ 2000 * v.dim

theorem outside_large {v : Problem} (h1 : Outside v) : large v = false := by
  rw [Bool.eq_false_iff]
  intro hg
  simp only [large, Bool.and_eq_true, Bool.not_eq_true'] at hg
  obtain ⟨hll, hd⟩ := (smooth_iff v.toEnv).1 ⟨hg.1.1, hg.2⟩
  cases hb : v.budget with
  | none => simp [Env.known, hb] at hg
  | some b =>
    have := (h1 b hb hll hd).2
    simp [Env.known, hb] at hg
    omega

theorem outside_table {v : Problem} (h1 : Outside v) (t : Nat → Nat → Option Csec.Alg) (r : Out) : table v t r = r := by
  unfold table
  split
  · rename_i hs
    simp only [Bool.and_eq_true, decide_eq_true_eq, Bool.not_eq_true'] at hs
    obtain ⟨hll, hd⟩ := (smooth_iff v.toEnv).1 ⟨hs.1.1, hs.2⟩
    cases hb : v.budget with
    | none => rfl
    | some b => exact absurd hs.1.2 (h1 b hb hll hd).1
  · rfl

theorem outside_carola {v : Problem} (h1 : Outside v) (c : Csec.Alg) (r : Out) : carola c v r = r := by
  have hsm : ∀ t : Nat → Nat → Bool, smooth1 v t = false := by
    intro t
    rw [Bool.eq_false_iff]
    intro hs
    obtain ⟨b, hs, -⟩ := smooth1_iff.1 hs
    exact (h1 b hs.budget hs.layers hs.det).1 hs.workers
  simp [carola, hsm]

/-- The classes from `NgIoh7` on only differ from `NgIoh7` on continuous noise-free problems with a budget (one worker, or more than 2000 evaluations per dimension), or on
spaces which are not metrizable in dimension 60 or more. -/
theorem later_versions (c : Cls) (hc : c = .ioh8 ∨ c = .ioh9 ∨ c = .ioh10 ∨ c = .ioh11 ∨ c = .ds11 ∨ c = .ioh19 ∨ c = .ioh20 ∨ c = .ds) (v : Problem)
    (h1 : Outside v) (h2 : v.dim < 60 ∨ v.metrizable = true) :
    select c v = ioh7 v := by
  have hl : lastEnd v = shiwaEnd v := by
    unfold lastEnd shiwaEnd
    rw [if_neg (c := 60 ≤ v.dim ∧ v.metrizable = false) (by
      rintro ⟨h3, h4⟩
      rcases h2 with h2 | h2
      · omega
      · rw [h4] at h2; cases h2)]
  rcases hc with h | h | h | h | h | h | h | h <;> subst h <;>
    simp only [select, ioh7, ioh8, ioh9, ioh10, ioh11, ds11, ioh19, ioh20, ds, outside_table h1, outside_carola h1, hl, outside_large h1, Bool.false_eq_true, if_false]

/-- On spaces which are not metrizable in dimension 60 or more and without noise, CMA is selected up to `NgIoh8`, and what NGOpt's base class selects later (but for arrays
of integers). -/
theorem not_metrizable (c : Cls) (hc : c = .ioh7 ∨ c = .ioh8 ∨ c = .ioh9 ∨ c = .ioh10 ∨ c = .ioh11 ∨ c = .ds11 ∨ c = .ioh19 ∨ c = .ioh20 ∨ c = .ds) (v : Problem)
    (h1 : Outside v) (h2 : 60 ≤ v.dim) (h3 : v.metrizable = false) (h4 : v.noise = false) (h5 : ¬ (v.isArray = true ∧ v.continuous = false)) :
    select c v = if c = .ioh7 ∨ c = .ioh8 then .ok (.old (.known .cma)) else .ofSel (base v) := by
  have hi : ∀ r, integers v r = r := by
    intro r
    unfold integers
    rw [if_neg (by simpa [h4] using h5)]
  rcases hc with h | h | h | h | h | h | h | h | h <;> subst h <;>
    simp [select, ioh7, ioh8, ioh9, ioh10, ioh11, ds11, ioh19, ioh20, ds, outside_table h1, outside_carola h1, outside_large h1, hi, shiwaEnd, lastEnd, h2, h3, h4, ng]

/-! ## Continuous noise-free problems with one worker -/

/-- With 300 to 2000 evaluations per dimension, for the DS classes. -/
def dsByDim (d : Nat) : Csec.Alg :=
  if d = 2 then .ds14 else if d = 3 then .ds4 else if d < 8 then .ds5 else if d < 15 then .ds9
  else if d < 30 then .ds8 else .ds9

/-- What is expected in dimensions 2 to 49, from 21 to 299 evaluations per dimension: `meta` is used with few evaluations in high dimension or with some in low dimension. -/
def below300 (chained fallback : Csec.Alg) (d b : Nat) : Csec.Alg :=
  if b < 30 * d then (if 30 < d then chained else fallback)
  else if d = 2 then .sbplx else if d < 15 then chained else fallback

/-- What is expected in dimensions 2 to 49 with more than 20 evaluations per dimension. -/
def expectedBy (c : Cls) (d b : Nat) : Option Alg :=
  match c with
  | .ioh7 => some (.old .carola2)
  | .ioh8 => some (.old (
      if b < 300 * d then below300 .chainMetaModelSQP .carola2 d b
      else if b < 3000 * d ∧ d < 30 then .multiCMA else .carola2))
  | .ioh9 => some (.old (
      if b < 300 * d then below300 .chainMetaModelSQP .carola2 d b
      else if b = 300 * d then (if d < 30 then .multiCMA else .carola2)
      else if d = 3 then .chainMetaModelSQP
      else if b < 3000 * d then (if d = 2 then .metaModelFmin2 else if d < 30 then .multiCMA else .carola2)
      else if b = 3000 * d then .carola2 else .metaModelFmin2))
  | .ioh10 => some (.old (
      if b < 300 * d then below300 .chainMetaModelSQP .carola2 d b
      else if b = 300 * d then (if d < 30 then .multiCMA else .carola2)
      else if b < 3000 * d then (if d = 2 then .fcarola6 else .carola6)
      else if b = 3000 * d then .carola2 else .metaModelFmin2))
  | .ioh11 => some (.old (
      if b < 300 * d then below300 .chainMetaModelSQP .carola2 d b
      else if b = 300 * d then (if d < 30 then .multiCMA else .carola2)
      else if b < 3000 * d then byDim d
      else if b = 3000 * d then .carola2 else .metaModelFmin2))
  | .ds11 => some (.old (
      if b < 300 * d then below300 .chainMetaModelSQP .carola2 d b
      else if b = 300 * d then (if d < 30 then .multiCMA else .carola2)
      else if b < 3000 * d then dsByDim d
      else if b = 3000 * d then .carola2 else .metaModelFmin2))
  | .ioh19 => some (
      if 2000 * d < b then (if d ≤ 4 then .lpcma else .vlpcma)
      else if b < 300 * d then .old (below300 .chainMetaModelSQP .carola2 d b)
      else if b = 300 * d then .old (if d < 30 then .multiCMA else .carola2)
      else .old (byDim d))
  | .ioh20 => some (
      if 2000 * d < b then (if d ≤ 4 then .metaLPCMA else .old .metaVLPCMA)
      else if b < 300 * d then .old (below300 .chainMetaModelSQP .carola2 d b)
      else if b = 300 * d then .old (if d < 30 then .multiCMA else .carola2)
      else .old (byDim d))
  | .ds => some (.old (
      if 2000 * d < b then .metaVLPCMA
      else if b < 300 * d then below300 .chainMetaModelDSSQP .ds2 d b
      else if b = 300 * d then (if d < 30 then .multiDS else .ds2)
      else dsByDim d))
  | _ => none

/-- Evaluate a table whose conditions are decided by the hypotheses. -/
local macro "walk" : tactic => `(tactic| (repeat first | rfl | rw [if_neg (by omega)] | rw [if_pos (by omega)]))

/-- The two tests before the end of the selection, for smooth problems. -/
theorem frame_eval {v : Problem} {b : Nat} (h : Smooth v b) (t : Nat → Nat → Option Csec.Alg) (c : Csec.Alg) (r : Out) (h1 : 1 < v.dim) (h2 : v.dim < 50)
    (h3 : 20 * v.dim < b) : table v t (carola c v r) = alg ((t v.dim b).getD c) := by
  obtain ⟨c1, c2, -⟩ := smooth_facts h
  have hcar : carola c v r = alg c := by
    unfold carola
    by_cases hb : b < 1000 * v.dim
    · rw [if_pos (smooth1_iff.2 ⟨b, h, by simp only [decide_eq_true_eq]; omega⟩)]
    · rw [if_neg (fun hh => ?_), if_pos (smooth1_iff.2 ⟨b, h, by simp only [decide_eq_true_eq]; omega⟩)]
      obtain ⟨b', h', ht⟩ := smooth1_iff.1 hh
      have : b' = b := Option.some.inj (h'.budget.symm.trans h.budget)
      subst this
      simp only [decide_eq_true_eq] at ht
      omega
  unfold table
  rw [hcar, if_pos (by simp [c1, c2, h.workers]), h.budget, Option.bind_some]
  cases t v.dim b <;> rfl

theorem integers_smooth {v : Problem} {b : Nat} (h : Smooth v b) (r : Out) : integers v r = r := by
  obtain ⟨c1, c2, -⟩ := smooth_facts h
  simp [integers, c1]

theorem large_smooth {v : Problem} {b : Nat} (h : Smooth v b) : large v = decide (2000 * v.dim < b) := by
  obtain ⟨c1, c2, -⟩ := smooth_facts h
  simp [large, c1, c2, Env.known, h.budget]

theorem seq8_eval {d b : Nat} (h1 : 1 < d) (h2 : d < 50) : (seq8 d b).getD .carola2 =
    if b < 300 * d then below300 .chainMetaModelSQP .carola2 d b else if b < 3000 * d ∧ d < 30 then .multiCMA else .carola2 := by
  unfold seq8 below300
  by_cases a1 : b < 30 * d
  · by_cases a2 : 30 < d
    · walk
    · walk
  · by_cases a3 : b < 300 * d
    · by_cases a4 : d = 2
      · walk
      · by_cases a5 : d < 15
        · walk
        · walk
    · by_cases a6 : b < 3000 * d ∧ d < 30
      · walk
      · walk

theorem seq9_eval {d b : Nat} (h1 : 1 < d) (h2 : d < 50) : (seq9 d b).getD .carola2 =
    if b < 300 * d then below300 .chainMetaModelSQP .carola2 d b
      else if b = 300 * d then (if d < 30 then .multiCMA else .carola2)
      else if d = 3 then .chainMetaModelSQP
      else if b < 3000 * d then (if d = 2 then .metaModelFmin2 else if d < 30 then .multiCMA else .carola2)
      else if b = 3000 * d then .carola2 else .metaModelFmin2 := by
  unfold seq9
  by_cases a1 : 300 * d < b
  · rw [if_neg (c := b < 300 * d) (by omega), if_neg (c := b = 300 * d) (by omega)]
    by_cases a2 : d = 3
    · walk
    by_cases a3 : b < 3000 * d
    · by_cases a4 : d = 2
      · walk
      · rw [if_neg (by omega), if_neg (by omega), if_neg (by omega), if_neg (by omega), seq8_eval h1 h2]
        by_cases a5 : d < 30
        · walk
        · walk
    · by_cases a6 : b = 3000 * d
      · rw [if_neg (by omega), if_neg (by omega), if_neg (by omega), if_neg (by omega), seq8_eval h1 h2]
        walk
      · walk
  · rw [if_neg (by omega), if_neg (by omega), if_neg (by omega), if_neg (by omega), seq8_eval h1 h2]
    by_cases a7 : b < 300 * d
    · rw [if_pos a7, if_pos a7]
    · by_cases a8 : d < 30
      · walk
      · walk

theorem seq10_eval {d b : Nat} (h1 : 1 < d) (h2 : d < 50) : (seq10 d b).getD .carola2 =
    if b < 300 * d then below300 .chainMetaModelSQP .carola2 d b
      else if b = 300 * d then (if d < 30 then .multiCMA else .carola2)
      else if b < 3000 * d then (if d = 2 then .fcarola6 else .carola6)
      else if b = 3000 * d then .carola2 else .metaModelFmin2 := by
  unfold seq10
  by_cases a1 : 300 * d < b
  · rw [if_neg (c := b < 300 * d) (by omega), if_neg (c := b = 300 * d) (by omega)]
    by_cases a3 : b < 3000 * d
    · by_cases a4 : d = 2
      · walk
      · walk
    · by_cases a6 : b = 3000 * d
      · rw [if_neg (by omega), if_neg (by omega), if_neg (by omega), if_neg (by omega), seq8_eval h1 h2]
        walk
      · walk
  · rw [if_neg (by omega), if_neg (by omega), if_neg (by omega), if_neg (by omega), seq8_eval h1 h2]
    by_cases a7 : b < 300 * d
    · rw [if_pos a7, if_pos a7]
    · by_cases a8 : d < 30
      · walk
      · walk

/-- The tables with a table by dimension from 300 to 3000 evaluations per dimension. -/
theorem by_eval {d b : Nat} (h1 : 1 < d) (h2 : d < 50) (t : Nat → Nat → Option Csec.Alg) (m : Nat → Csec.Alg)
    (ht : t d b = if 300 * d < b ∧ b < 3000 * d then some (m d) else if 3000 * d < b then some .metaModelFmin2 else seq8 d b) : (t d b).getD .carola2 =
    if b < 300 * d then below300 .chainMetaModelSQP .carola2 d b
      else if b = 300 * d then (if d < 30 then .multiCMA else .carola2)
      else if b < 3000 * d then m d
      else if b = 3000 * d then .carola2 else .metaModelFmin2 := by
  rw [ht]
  by_cases a1 : 300 * d < b
  · by_cases a3 : b < 3000 * d
    · walk
    · by_cases a6 : b = 3000 * d
      · rw [if_neg (by omega), if_neg (by omega), seq8_eval h1 h2]
        walk
      · walk
  · rw [if_neg (by omega), if_neg (by omega), seq8_eval h1 h2]
    by_cases a7 : b < 300 * d
    · rw [if_pos a7, if_pos a7]
    · by_cases a8 : d < 30
      · walk
      · walk

theorem ioh21Seq_split {d b : Nat} (h1 : 1 < d) (h2 : d < 50) :
    ioh21Seq d b = if 300 * d < b ∧ b < 3000 * d then some (byDim d) else if 3000 * d < b then some .metaModelFmin2 else seq8 d b := by
  by_cases a1 : 300 * d < b ∧ b < 3000 * d
  · rw [if_pos a1]
    unfold ioh21Seq byDim
    by_cases c1 : d = 2
    · walk
    by_cases c2 : d = 3
    · walk
    by_cases c3 : d < 8
    · walk
    by_cases c4 : d < 15
    · walk
    by_cases c5 : d < 30
    · walk
    · walk
  · rw [if_neg a1]
    unfold ioh21Seq seq8
    iterate 8 rw [if_neg (by omega)]
    by_cases a2 : 3000 * d < b
    · walk
    · rw [if_neg a2, if_neg a2, if_neg (by omega)]

theorem seqDS11_split {d b : Nat} (h1 : 1 < d) (h2 : d < 50) :
    seqDS11 d b = if 300 * d < b ∧ b < 3000 * d then some (dsByDim d) else if 3000 * d < b then some .metaModelFmin2 else seq8 d b := by
  by_cases a1 : 300 * d < b ∧ b < 3000 * d
  · rw [if_pos a1]
    unfold seqDS11 dsByDim
    by_cases c1 : d = 2
    · walk
    by_cases c2 : d = 3
    · walk
    by_cases c3 : d < 8
    · walk
    by_cases c4 : d < 15
    · walk
    by_cases c5 : d < 30
    · walk
    · walk
  · rw [if_neg a1]
    unfold seqDS11
    iterate 8 rw [if_neg (by omega)]
    by_cases a2 : 3000 * d < b
    · walk
    · rw [if_neg a2, if_neg a2, if_neg (by omega)]

theorem ds2Seq_eval {d b : Nat} (h1 : 1 < d) (h2 : d < 50) (h3 : b ≤ 2000 * d) : (ds2Seq d b).getD .ds2 =
    if b < 300 * d then below300 .chainMetaModelDSSQP .ds2 d b
      else if b = 300 * d then (if d < 30 then .multiDS else .ds2)
      else dsByDim d := by
  unfold ds2Seq
  by_cases a1 : 300 * d < b
  · rw [if_neg (c := b < 300 * d) (by omega), if_neg (c := b = 300 * d) (by omega)]
    unfold dsByDim
    by_cases c1 : d = 2
    · walk
    by_cases c2 : d = 3
    · walk
    by_cases c3 : d < 8
    · walk
    by_cases c4 : d < 15
    · walk
    by_cases c5 : d < 30
    · walk
    · walk
  · iterate 10 rw [if_neg (by omega)]
    unfold below300
    by_cases a2 : b < 30 * d
    · by_cases a3 : 30 < d
      · walk
      · walk
    by_cases a4 : b < 300 * d
    · by_cases a5 : d = 2
      · walk
      by_cases a6 : d < 15
      · walk
      · walk
    · by_cases a7 : d < 30
      · walk
      · walk

/-- On continuous noise-free problems in dimensions 2 to 49, with one worker and more than 20 evaluations per dimension, `NgIoh7` to `NgIoh11`, `NgIoh19`, `NgIoh20`, `NgDS11` and
`NgDS` select the expected algorithm. -/
theorem smooth_expected {v : Problem} {b : Nat} (h : Smooth v b) (h1 : 1 < v.dim) (h2 : v.dim < 50) (h3 : 20 * v.dim < b) (c : Cls) (a : Alg)
    (ha : expectedBy c v.dim b = some a) : select c v = .ok a := by
  have htab : ∀ t r, integers v (table v t (carola .carola2 v r)) = alg ((t v.dim b).getD .carola2) := by
    intro t r; rw [integers_smooth h, frame_eval h _ _ _ h1 h2 h3]
  cases c <;> simp only [expectedBy, Option.some.injEq, reduceCtorEq] at ha <;> subst ha <;> simp only [select]
  case ioh7 =>
    have := frame_eval h (fun _ _ => none) .carola2 (shiwaEnd v) h1 h2 h3
    have ht : table v (fun _ _ => none) (carola .carola2 v (shiwaEnd v)) = carola .carola2 v (shiwaEnd v) := by
      unfold table
      cases v.budget <;> simp
    rw [ht] at this
    unfold ioh7
    rw [integers_smooth h, this]
    rfl
  case ioh8 => unfold ioh8; rw [htab, seq8_eval h1 h2]; rfl
  case ioh9 => unfold ioh9; rw [htab, seq9_eval h1 h2]; rfl
  case ioh10 => unfold ioh10; rw [htab, seq10_eval h1 h2]; rfl
  case ioh11 => unfold ioh11; rw [htab, by_eval h1 h2 ioh21Seq byDim (ioh21Seq_split h1 h2)]; rfl
  case ds11 => unfold ds11; rw [htab, by_eval h1 h2 seqDS11 dsByDim (seqDS11_split h1 h2)]; rfl
  case ioh19 =>
    unfold ioh19
    rw [integers_smooth h, large_smooth h, frame_eval h _ _ _ h1 h2 h3, by_eval h1 h2 ioh21Seq byDim (ioh21Seq_split h1 h2)]
    simp only [decide_eq_true_eq]
    by_cases hb : 2000 * v.dim < b
    · rw [if_pos hb, if_pos hb]
      by_cases hd : 4 < v.dim
      · rw [if_pos hd, if_neg (by omega)]
      · rw [if_neg hd, if_pos (by omega)]
    · rw [if_neg hb, if_neg hb]
      split
      · rfl
      · split
        · rfl
        · rw [if_pos (by omega)]; rfl
  case ioh20 =>
    unfold ioh20
    rw [integers_smooth h, large_smooth h, frame_eval h _ _ _ h1 h2 h3, by_eval h1 h2 ioh21Seq byDim (ioh21Seq_split h1 h2)]
    simp only [decide_eq_true_eq]
    by_cases hb : 2000 * v.dim < b
    · rw [if_pos hb, if_pos hb]
      by_cases hd : 4 < v.dim
      · rw [if_pos hd, if_neg (by omega)]
      · rw [if_neg hd, if_pos (by omega)]
    · rw [if_neg hb, if_neg hb]
      split
      · rfl
      · split
        · rfl
        · rw [if_pos (by omega)]; rfl
  case ds =>
    unfold ds
    rw [integers_smooth h, large_smooth h, frame_eval h _ _ _ h1 h2 h3]
    simp only [decide_eq_true_eq]
    by_cases hb : 2000 * v.dim < b
    · rw [if_pos hb, if_pos hb]; rfl
    · rw [if_neg hb, if_neg hb, ds2Seq_eval h1 h2 (by omega)]; rfl

/-! ## Noise, integers, portfolios -/

/-- Noisy problems over spaces which are not metrizable, or with choices which are not softmax, get the optimistic recombining algorithm from `Shiwa` and all the `NgIoh`
classes from `NgIoh5` on, whatever the budget and the number of workers. -/
theorem noisy_discrete (c : Cls) (hc : c = .shiwa ∨ c = .rw2 ∨ c = .ioh5 ∨ c = .ioh6 ∨ c = .ioh7 ∨ c = .ioh8 ∨ c = .ioh9 ∨ c = .ioh10 ∨ c = .ioh11 ∨ c = .ds11 ∨ c = .ioh19
    ∨ c = .ioh20 ∨ c = .ds) (v : Problem) (hn : v.noise = true) (hd : v.notSoftmax = true ∨ v.metrizable = false) :
    select c v = .ok (.old (.known .recombiningPortfolio)) := by
  have hcond : (v.noise && (v.notSoftmax || !v.metrizable)) = true := by
    rcases hd with hd | hd <;> simp [hn, hd]
  have hs : shiwaEnd v = ng .recombiningPortfolio := by unfold shiwaEnd; rw [if_pos hcond]
  have hl : lastEnd v = ng .recombiningPortfolio := by unfold lastEnd; rw [if_pos hcond]
  have hsm : ∀ t : Nat → Nat → Bool, smooth1 v t = false := by intro t; simp [smooth1, hn]
  have hca : ∀ c r, carola c v r = r := by intro c r; simp [carola, hsm]
  have hi : ∀ r, integers v r = r := by intro r; simp [integers, hn]
  have ht : ∀ t r, table v t r = r := by intro t r; simp [table, hn]
  have hg : large v = false := by simp [large, hn]
  have h4 : ioh4 v = .ok (.known .recombiningPortfolio) := by
    unfold ioh4
    simp [hn]
    rcases hd with hd | hd <;> simp [hd]
  rcases hc with h | h | h | h | h | h | h | h | h | h | h | h | h <;> subst h <;>
    simp [select, rw2, ioh5, ioh6, ioh7, ioh8, ioh9, ioh10, ioh11, ds11, ioh19, ioh20, ds, ht, hca, hl, hs, hg, hi, hn, h4, ng, Out.ofSel]

/-- Noise-free arrays of integers get the portfolio of discrete mutations from `NgIoh7` on, also without a budget. -/
theorem integer_arrays (c : Cls) (hc : c = .ioh7 ∨ c = .ioh8 ∨ c = .ioh9 ∨ c = .ioh10 ∨ c = .ioh11 ∨ c = .ds11 ∨ c = .ioh19 ∨ c = .ioh20 ∨ c = .ds) (v : Problem)
    (h1 : v.isArray = true) (h2 : v.continuous = false) (h3 : v.noise = false) : select c v = .ok (.old .discretePortfolio) := by
  have hi : ∀ r, integers v r = alg .discretePortfolio := by intro r; simp [integers, h1, h2, h3]
  rcases hc with h | h | h | h | h | h | h | h | h <;> subst h <;>
    simp [select, ioh7, ioh8, ioh9, ioh10, ioh11, ds11, ioh19, ioh20, ds, hi, alg]

theorem portfolio_ng {o : Option NGOpt.Alg} {n : Nat} {s : Bool} (h : Out.ofNG o = .ok (.old (.known (.portfolio n s)))) : o = some (.portfolio n s) := by
  cases o with
  | none => simp [Out.ofNG, Sel.ofNG, Out.ofSel] at h
  | some a => simp only [Out.ofNG, Sel.ofNG, Out.ofSel, Out.ok.injEq, Alg.old.injEq, Csec.Alg.known.injEq] at h; rw [h]

theorem select36_portfolio {v : Env} {b n : Nat} {s : Bool} (hb : v.budget = some b) (hk : 500 * v.dim < b) (h : select36 v = some (.portfolio n s)) :
    0 < n ∧ 75 * v.dim * n ≤ b := by
  unfold select36 at h
  split at h
  · simp only [Option.some.injEq, NGOpt.Alg.portfolio.injEq] at h
    rw [← h.1, show v.num36 = 1 + Nat.sqrt ((16 * b) / (v.dim * 1000)) by simp [Env.num36, hb]]
    exact ⟨by omega, num36_le hk⟩
  · exact absurd (portfolio_16 h) (by simp [isPortfolio])

theorem select21_portfolio {v : Env} {b n : Nat} {s : Bool} (hb : v.budget = some b) (hk : 500 * v.dim < b) (h : select21 v = some (.portfolio n s)) :
    0 < n ∧ 75 * v.dim * n ≤ b := by
  unfold select21 at h
  split at h
  · simp only [Option.some.injEq, NGOpt.Alg.portfolio.injEq] at h
    rw [← h.1, show v.num21 = 1 + (4 * b) / (v.dim * 1000) by simp [Env.num21, hb]]
    exact ⟨Nat.add_pos_left Nat.one_pos _, num21_le hk⟩
  · exact absurd (portfolio_16 h) (by simp [isPortfolio])

/-- When `NGOpt38` runs several copies, there is at least one, and the budget is enough for 75 evaluations per dimension and per copy. -/
theorem opt38_portfolio {v : Problem} {n : Nat} {s : Bool} (hd : 0 < v.dim) (h : opt38 v = .ok (.old (.known (.portfolio n s)))) :
    ∃ b, v.budget = some b ∧ 0 < n ∧ 75 * v.dim * n ≤ b := by
  unfold opt38 at h
  split at h
  · rename_i hc
    simp only [Bool.and_eq_true] at hc
    obtain ⟨b, hs, hk⟩ := smooth1_iff.1 hc.1.1
    have hb := hs.budget
    simp only [decide_eq_true_eq] at hk
    refine ⟨b, hb, ?_⟩
    split at h
    · exact select36_portfolio (v := v.toEnv.renewed) hb hk (portfolio_ng h)
    split at h
    · exact select21_portfolio (v := v.toEnv.renewed) hb hk (portfolio_ng h)
    split at h
    · simp only [ng, Out.ok.injEq, Alg.old.injEq, Csec.Alg.known.injEq, NGOpt.Alg.portfolio.injEq] at h
      rw [← h.1, show v.numDim10 = 1 + Nat.sqrt ((64 * b) / (v.dim * 1000)) by simp [Env.numDim10, hb]]
      exact ⟨by omega, num10_le hk⟩
    split at h
    · simp only [ng, Out.ok.injEq, Alg.old.injEq, Csec.Alg.known.injEq, NGOpt.Alg.portfolio.injEq] at h
      rw [← h.1, show v.numDim20 = b / (500 * v.dim) by simp [Env.numDim20, hb]]
      have h5 : 0 < 500 * v.dim := Nat.mul_pos (by decide) hd
      have h6 : b / (500 * v.dim) * (500 * v.dim) ≤ b := Nat.div_mul_le_self _ _
      refine ⟨Nat.div_pos hk.le h5, ?_⟩
      nlinarith
    · exact absurd (portfolio_16 (portfolio_ng h)) (by simp [isPortfolio])
  split at h
  · split at h
    · exact absurd (portfolio_8 (portfolio_ng h)) (by simp [isPortfolio])
    · exact absurd (portfolio_15 (portfolio_ng h)) (by simp [isPortfolio])
  · exact absurd (portfolio_16 (portfolio_ng h)) (by simp [isPortfolio])

/-- `NGOptDSBase` is `NGOptBase` except for noise on continuous problems and for the chain with Powell, which starts with a direct search. -/
theorem dsBase_selection {v : Problem} {b : Nat} (hb : v.budget = some b) :
    dsBase v = if v.noise = true ∧ v.continuous = true ∧ v.notSoftmax = false then .ok .dsNoisyChain
      else if base v = .ok (.known .chainCMAPowell) then .ok .chainDSPowell else .ofSel (base v) := by
  have hr : v.toEnv.renewed.budget = some b := hb
  have hbase : base v = .ofNG (selectBase v.toEnv) := by unfold base selectBase; rw [hr, show v.toEnv.budget = some b from hb]; rfl
  by_cases c0 : v.noise = true ∧ v.continuous = true ∧ v.notSoftmax = false
  · rw [if_pos c0]
    unfold dsBase
    rw [hb]
    simp [c0.1, c0.2.1, c0.2.2]
  · rw [if_neg c0]
    have key : ∃ x, selectBase v.toEnv = some x ∧ dsBase v = if x = .chainCMAPowell then .ok .chainDSPowell else ng x := by
      unfold dsBase selectBase
      rw [hb]
      dsimp only
      by_cases c1 : (v.noise && v.notSoftmax) = true
      · rw [if_pos c1, if_pos c1]
        by_cases c2 : v.dim < 60
        · exact ⟨_, by rw [if_pos c2], by rw [if_pos c2]; rfl⟩
        · exact ⟨_, by rw [if_neg c2], by rw [if_neg c2]; rfl⟩
      rw [if_neg c1, if_neg c1]
      have c2 : ¬ (v.noise = true ∧ v.continuous = true) := by
        intro h
        cases hs : v.notSoftmax with
        | false => exact c0 ⟨h.1, h.2, hs⟩
        | true => simp [h.1, hs] at c1
      have c3 : ¬ ((v.realNoise && v.continuous) = true) := by
        intro h
        simp only [Bool.and_eq_true, Env.realNoise, Bool.not_eq_true'] at h
        exact c2 ⟨by simp [Env.noise, h.1], h.2⟩
      rw [if_neg c3, if_neg (c := (v.noise && v.continuous) = true) (by simpa using c2)]
      by_cases c4 : (v.notSoftmax || !v.metrizable || !v.continuous) = true
      · rw [if_pos c4, if_pos c4]; exact ⟨_, rfl, rfl⟩
      rw [if_neg c4, if_neg c4]
      by_cases c5 : b < 5 * v.workers
      · rw [if_pos c5, if_pos c5]
        by_cases c6 : b < 2 * v.workers ∨ b < v.dim
        · rw [if_pos c6, if_pos c6]; exact ⟨_, rfl, rfl⟩
        · rw [if_neg c6, if_neg c6]; exact ⟨_, rfl, rfl⟩
      rw [if_neg c5, if_neg c5]
      by_cases c7 : v.workers = 1 ∧ 6000 < b ∧ 7 < v.dim
      · rw [if_pos c7, if_pos c7]; exact ⟨_, rfl, rfl⟩
      rw [if_neg c7, if_neg c7]
      by_cases c8 : v.workers = 1 ∧ b < v.dim * 30
      · rw [if_pos c8, if_pos c8]
        by_cases c9 : 30 < v.dim
        · exact ⟨_, by rw [if_pos c9], by rw [if_pos c9]; rfl⟩
        · exact ⟨_, by rw [if_neg c9], by rw [if_neg c9]; rfl⟩
      rw [if_neg c8, if_neg c8]
      by_cases c10 : 2000 < v.dim
      · exact ⟨_, by rw [if_pos c10], by rw [if_pos c10]; rfl⟩
      by_cases c11 : 1 < v.dim
      · exact ⟨_, by rw [if_neg c10, if_pos c11], by rw [if_neg c10, if_pos c11]; rfl⟩
      · exact ⟨_, by rw [if_neg c10, if_neg c11], by rw [if_neg c10, if_neg c11]; rfl⟩
    obtain ⟨x, h1, h2⟩ := key
    rw [h2, hbase, h1]
    simp only [Sel.ofNG, Sel.ok.injEq, Csec.Alg.known.injEq]
    rfl

/-- `NGOptRW` adds GeneticDE and PSO to the choice of NGOpt on continuous noise-free problems with 12 evaluations per dimension. -/
theorem optRW_selection {v : Problem} {b : Nat} (hb : v.budget = some b) :
    ∃ a, select39 v.toEnv = some a ∧
      optRW v = .ok (.old (if v.layers = [] ∧ v.funcDet = true ∧ 12 * v.dim ≤ b then .rwPortfolio a else .known a)) := by
  obtain ⟨a, ha⟩ := select39_total_partial (v := v.toEnv) hb
  refine ⟨a, ha, ?_⟩
  unfold optRW
  rw [hb, ha]
  dsimp only
  by_cases h : v.continuous = true ∧ v.noise = false
  · have h' := (smooth_iff v.toEnv).1 h
    rw [if_pos (by simp [h])]
    by_cases hd : 12 * v.dim ≤ b
    · rw [if_pos hd, if_pos ⟨h'.1, h'.2, hd⟩]; rfl
    · rw [if_neg hd, if_neg (fun x => hd x.2.2)]; rfl
  · rw [if_neg (by simpa using h), if_neg (fun x => h ((smooth_iff v.toEnv).2 ⟨x.1, x.2.1⟩))]; rfl

/-- `NgIohRW2` uses a portfolio on the same problems, and is `NgIoh4` elsewhere. -/
theorem rw2_selection {v : Problem} {b : Nat} (hb : v.budget = some b) :
    rw2 v = if v.layers = [] ∧ v.funcDet = true ∧ 12 * v.dim ≤ b then .ok .sqpPortfolio else .ofSel (ioh4 v) := by
  unfold rw2
  rw [hb]
  dsimp only
  by_cases h : v.continuous = true ∧ v.noise = false
  · have h' := (smooth_iff v.toEnv).1 h
    rw [if_pos (by simp [h])]
    by_cases hd : 12 * v.dim ≤ b
    · rw [if_pos hd, if_pos ⟨h'.1, h'.2, hd⟩]
    · rw [if_neg hd, if_neg (fun x => hd x.2.2)]
  · rw [if_neg (by simpa using h), if_neg (fun x => h ((smooth_iff v.toEnv).2 ⟨x.1, x.2.1⟩))]

/-- `NGOpt13` uses HyperOpt on small noise-free problems with fewer than 80 evaluations, and is `NGOpt12` elsewhere. -/
theorem opt13_selection {v : Problem} {b : Nat} (hb : v.budget = some b) :
    opt13 v = if v.noise = false ∧ 3 * v.workers < b ∧ v.dim ≤ 7 ∧ b ≤ 79 then .ok .hyperOpt else .ofNG (select12 v.toEnv) := by
  unfold opt13
  by_cases h : v.noise = false ∧ 3 * v.workers < b ∧ v.dim ≤ 7 ∧ b ≤ 79
  · rw [if_pos h, if_pos (by simp [Env.known, hb, h.1]; omega)]
  · rw [if_neg h, if_neg (fun x => h ?_)]
    simp [Env.known, hb] at x
    exact ⟨x.1, by omega⟩

/-! ## Concrete cases -/

example : wiz (smoothProblem 5 100 1) = .ok (.old .carola2) := by decide
example : wiz (smoothProblem 5 100 4) = .ok (.old (.known .metaModel)) := by decide
example : ioh1 (smoothProblem 5 100 1) ≠ .ok (.old .carola2) := by decide
example : ioh2 (smoothProblem 150 9000 1) = .ok (.old .carola2) := by decide
example : ioh3 (smoothProblem 150 9000 1) ≠ .ok (.old .carola2) := by decide
example : select .ioh9 (smoothProblem 2 700 1) = .ok (.old .metaModelFmin2) := by decide
example : select .ioh10 (smoothProblem 2 700 1) = .ok (.old .fcarola6) := by decide
example : select .ioh19 (smoothProblem 4 9000 3) = .ok .lpcma := by decide
example : select .ds (smoothProblem 20 9000 1) = .ok (.old .ds8) := by decide
example : select .wiz { smoothProblem 5 1000 1 with budget := none } = .assertionError := by decide
example : select .optRW { smoothProblem 5 1000 1 with budget := none } = .typeError := by decide
example : opt38 { smoothProblem 12 30000 1 with bounded := true } = .ok (.old (.known (.portfolio 5 true))) := by decide
example : CarolaOrNGOpt wiz (fun d b => b < 1000 * d ∨ 10000 * d < b) := wiz_selection
example : ioh5 { smoothProblem 5 1000 1 with layers := [⟨true, some 3, false⟩] } = .ok (.old (.known .lengler)) := by decide

end Maps
end NG
