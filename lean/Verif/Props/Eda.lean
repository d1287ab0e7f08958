import Verif.Model.Eda
import Verif.Props.PopSize
import Mathlib.Algebra.Order.Star.Real

/-!
# TBPSA and EDA (C72), EMNA (C73)
-/

namespace NG
namespace Eda

variable {ι : Type} {σ : Type}

/-! ## Selection -/

/-- `best` are `mu` of the candidates `l`, and no other candidate is strictly better than one of them. -/
def Best (mu : Nat) (l best : List (Cand ι σ)) : Prop :=
  ∃ rest, (best ++ rest).Perm l ∧ best.length = mu ∧ ∀ a ∈ best, ∀ b ∈ rest, a.loss ≤ b.loss

theorem ranked_best (mu : Nat) (l : List (Cand ι σ)) (h : mu ≤ l.length) : Best mu l ((ranked l).take mu) := by
  refine ⟨(ranked l).drop mu, ?_, ?_, ?_⟩
  · rw [List.take_append_drop]
    exact List.perm_insertionSort _ _
  · rw [List.length_take, ranked, List.length_insertionSort]
    omega
  · have hs : (ranked l).Pairwise (fun a b => a.loss ≤ b.loss) := by
      have : Std.Total (fun a b : Cand ι σ => a.loss ≤ b.loss) := ⟨fun a b => le_total _ _⟩
      have : IsTrans (Cand ι σ) (fun a b => a.loss ≤ b.loss) := ⟨fun a b c h1 h2 => le_trans h1 h2⟩
      exact List.pairwise_insertionSort _ _
    rw [← List.take_append_drop mu (ranked l), List.pairwise_append] at hs
    exact hs.2.2

theorem best_mem {mu : Nat} {l best : List (Cand ι σ)} (h : Best mu l best) {c : Cand ι σ} (hc : c ∈ best) : c ∈ l := by
  obtain ⟨rest, hp, _⟩ := h
  exact hp.mem_iff.mp (List.mem_append_left _ hc)

theorem sum_ge (l : List ℝ) (lo : ℝ) (h : ∀ x ∈ l, lo ≤ x) : l.length * lo ≤ l.sum := by
  induction l with
  | nil => simp
  | cons x xs ih =>
    have h1 := h x (List.mem_cons_self)
    have h2 := ih (fun y hy => h y (List.mem_cons_of_mem _ hy))
    simp only [List.length_cons, List.sum_cons]
    push_cast
    linarith

theorem sum_le (l : List ℝ) (hi : ℝ) (h : ∀ x ∈ l, x ≤ hi) : l.sum ≤ l.length * hi := by
  induction l with
  | nil => simp
  | cons x xs ih =>
    have h1 := h x (List.mem_cons_self)
    have h2 := ih (fun y hy => h y (List.mem_cons_of_mem _ hy))
    simp only [List.length_cons, List.sum_cons]
    push_cast
    linarith

/-- **C72.** The centre is in every box containing the parents. -/
theorem centre_box (mu : Nat) (hmu : 1 ≤ mu) (parents : List (Cand ι σ)) (hl : parents.length = mu) (i : ι) (lo hi : ℝ)
    (h : ∀ c ∈ parents, lo ≤ c.data i ∧ c.data i ≤ hi) : lo ≤ centre mu parents i ∧ centre mu parents i ≤ hi := by
  have hp : (0 : ℝ) < mu := by exact_mod_cast hmu
  have h1 := sum_ge (parents.map (fun c => c.data i)) lo (fun x hx => by
    obtain ⟨c, hc, rfl⟩ := List.mem_map.mp hx
    exact (h c hc).1)
  have h2 := sum_le (parents.map (fun c => c.data i)) hi (fun x hx => by
    obtain ⟨c, hc, rfl⟩ := List.mem_map.mp hx
    exact (h c hc).2)
  rw [List.length_map, hl] at h1 h2
  unfold centre
  rw [le_div_iff₀ hp, div_le_iff₀ hp]
  exact ⟨by linarith, by linarith⟩

/-- **C72.** The step-size is positive if those of the parents are, and between any bounds on them. -/
theorem geo_between (mu : Nat) (hmu : 1 ≤ mu) (l : List ℝ) (hl : l.length = mu) (lo hi : ℝ) (hlo : 0 < lo)
    (h : ∀ x ∈ l, lo ≤ x ∧ x ≤ hi) : lo ≤ geo mu l ∧ geo mu l ≤ hi := by
  have hp : (0 : ℝ) < mu := by exact_mod_cast hmu
  have h0 : (0 : ℝ) ∉ l := fun h0 => absurd (h 0 h0).1 (not_le.mpr hlo)
  obtain ⟨y, hy⟩ : ∃ y, y ∈ l := List.exists_mem_of_length_pos (by omega)
  have hhi : 0 < hi := lt_of_lt_of_le hlo (le_trans (h y hy).1 (h y hy).2)
  unfold geo
  rw [if_neg h0]
  have h1 := sum_ge (l.map Real.log) (Real.log lo) (fun x hx => by
    obtain ⟨c, hc, rfl⟩ := List.mem_map.mp hx
    exact Real.log_le_log hlo (h c hc).1)
  have h2 := sum_le (l.map Real.log) (Real.log hi) (fun x hx => by
    obtain ⟨c, hc, rfl⟩ := List.mem_map.mp hx
    exact Real.log_le_log (lt_of_lt_of_le hlo (h c hc).1) (h c hc).2)
  rw [List.length_map, hl] at h1 h2
  constructor
  · rw [← Real.log_le_iff_le_exp hlo, le_div_iff₀ hp]
    linarith
  · rw [← Real.le_log_iff_exp_le hhi, div_le_iff₀ hp]
    linarith

/-- **C72.** The logarithm of the step-size is the mean of those of the parents. -/
theorem geo_log (mu : Nat) (l : List ℝ) (h : ∀ x ∈ l, 0 < x) : Real.log (geo mu l) = (l.map Real.log).sum / mu := by
  unfold geo
  rw [if_neg (fun h0 => lt_irrefl _ (h 0 h0)), Real.log_exp]

theorem geo_pos (mu : Nat) (l : List ℝ) (h : ∀ x ∈ l, 0 < x) : 0 < geo mu l := by
  unfold geo
  rw [if_neg (fun h0 => lt_irrefl _ (h 0 h0))]
  exact Real.exp_pos _

/-! ## Generations -/

/-- The controller after a tell. -/
noncomputable def popAfter (cfg : Cfg) (loss : Option ℝ) (s : St ι) : PopSize.St :=
  if cfg.adaptive then PopSize.add cfg.pop loss s.pop else s.pop

/-- **C72.** A tell which does not complete a generation only adds a child; one which does selects the `mu` best children, by raw loss, as parents:
the centre becomes their mean, the step-size the geometric mean of theirs. -/
theorem tell_spec (cfg : Cfg) (c : Cand ι ℝ) (loss : Option ℝ) (s : St ι) (hmu : (popAfter cfg loss s).mu ≤ (popAfter cfg loss s).lam) :
    (tell cfg c loss s).pop = popAfter cfg loss s ∧
    (s.children.length + 1 < (popAfter cfg loss s).lam →
      (tell cfg c loss s).children = s.children ++ [c] ∧ (tell cfg c loss s).centre = s.centre ∧ (tell cfg c loss s).sigma = s.sigma ∧
      (tell cfg c loss s).parents = s.parents ∧ (tell cfg c loss s).cov = s.cov) ∧
    ((popAfter cfg loss s).lam ≤ s.children.length + 1 →
      ∃ best, Best (popAfter cfg loss s).mu (s.children ++ [c]) best ∧ (tell cfg c loss s).parents = best.map some ∧
        (tell cfg c loss s).children = [] ∧
        (∀ i, (tell cfg c loss s).centre i = (best.map (fun p => p.data i)).sum / best.length) ∧
        (tell cfg c loss s).sigma = geo best.length (best.map Cand.sigma) ∧
        ∀ i j, (tell cfg c loss s).cov i j = (if cfg.memory then 9 / 10 else 0) * s.cov i j +
          (if cfg.memory then 1 / 10 else 1) * (best.map (fun p => (p.data i - s.centre i) * (p.data j - s.centre j))).sum) := by
  have e : (if cfg.adaptive then PopSize.add cfg.pop loss s.pop else s.pop) = popAfter cfg loss s := rfl
  unfold tell
  rw [e]
  generalize popAfter cfg loss s = pop at hmu
  refine ⟨?_, fun h => ?_, fun h => ?_⟩
  · split <;> rfl
  · rw [if_neg (by omega)]
    exact ⟨rfl, rfl, rfl, rfl, rfl⟩
  · rw [if_pos h]
    have hb := ranked_best pop.mu (s.children ++ [c]) (by simp; omega)
    refine ⟨(ranked (s.children ++ [c])).take pop.mu, hb, rfl, rfl, ?_, ?_, ?_⟩
    · intro i
      obtain ⟨_, _, hlen, _⟩ := hb
      rw [hlen]
      rfl
    · obtain ⟨_, _, hlen, _⟩ := hb
      rw [hlen]
      rfl
    · intro i j
      simp only [generation, Matrix.add_apply, Matrix.smul_apply, scatter, Matrix.of_apply, smul_eq_mul]
      cases cfg.memory
      · simp
      · simp only [if_true]
        norm_num

/-! ## What always holds -/

/-- Invariant of the optimizer, with a property of the step-sizes told. -/
structure Inv (cfg : Cfg) (s : St ι) : Prop where
  sizes : PopSize.Sizes cfg.pop s.pop
  children : s.children.length < s.pop.lam
  parents : s.parents ≠ []

theorem popAfter_sizes (cfg : Cfg) (hmin : 1 ≤ cfg.pop.minMu) (loss : Option ℝ) (s : St ι) (h : PopSize.Sizes cfg.pop s.pop) :
    PopSize.Sizes cfg.pop (popAfter cfg loss s) := by
  unfold popAfter
  split
  · exact PopSize.add_sizes cfg.pop hmin loss s.pop h
  · exact h

theorem tell_inv (cfg : Cfg) (hmin : 1 ≤ cfg.pop.minMu) (c : Cand ι ℝ) (loss : Option ℝ) (s : St ι) (h : Inv cfg s) :
    Inv cfg (tell cfg c loss s) := by
  have hs := popAfter_sizes cfg hmin loss s h.sizes
  have hmu : (popAfter cfg loss s).mu ≤ (popAfter cfg loss s).lam := by have := hs.parents; omega
  obtain ⟨h1, h2, h3⟩ := tell_spec cfg c loss s hmu
  by_cases hc : s.children.length + 1 < (popAfter cfg loss s).lam
  · obtain ⟨a, _, _, b, _⟩ := h2 hc
    exact ⟨h1 ▸ hs, by rw [a, h1]; simpa using hc, by rw [b]; exact h.parents⟩
  · obtain ⟨best, hb, hp, a, _⟩ := h3 (by omega)
    refine ⟨h1 ▸ hs, by rw [a, h1]; have := hs.parents; have := hs.pos; simp; omega, ?_⟩
    rw [hp]
    obtain ⟨_, _, hlen, _⟩ := hb
    have := hs.pos
    intro h0
    rw [List.map_eq_nil_iff] at h0
    rw [h0] at hlen
    simp at hlen
    omega

theorem start_inv [DecidableEq ι] (adaptive memory : Bool) (size dim workers : Nat) (hs : 1 ≤ size) :
    Inv ⟨adaptive, memory, PopSize.cfgOf size dim workers⟩ (start (ι := ι) size workers) := by
  have := PopSize.start_sizes size dim workers hs
  refine ⟨this, ?_, by simp [start]⟩
  have h1 := this.parents
  have h2 := this.pos
  simp only [start, List.length_nil]
  omega

variable [Fintype ι]

theorem step_inv (cfg : Cfg) (hmin : 1 ≤ cfg.pop.minMu) (s : Session ι) (op : Op ι) (h : Inv cfg s.st) : Inv cfg (step cfg s op).st := by
  cases op with
  | ask g z => exact h
  | tell i raw loss =>
    simp only [step]
    cases s.asked[i]? with
    | none => exact h
    | some c => exact tell_inv cfg hmin _ loss s.st h
  | foreign raw data loss => exact tell_inv cfg hmin _ loss s.st h

/-- **C72.** Whatever is asked and told, in any order: generations are completed in time (fewer children than `llambda` are waiting), and there is
a parent for the next ask. -/
theorem always [DecidableEq ι] (adaptive memory : Bool) (size dim workers : Nat) (hs : 1 ≤ size) (hd : 1 ≤ dim) (ops : List (Op ι)) :
    let s := (run ⟨adaptive, memory, PopSize.cfgOf size dim workers⟩ ⟨start size workers, []⟩ ops).st
    s.children.length < s.pop.lam ∧ s.parents ≠ [] ∧ 4 * s.pop.mu ≤ s.pop.lam ∧ workers ≤ s.pop.lam := by
  have key : ∀ (ops : List (Op ι)) (s : Session ι), Inv ⟨adaptive, memory, PopSize.cfgOf size dim workers⟩ s.st →
      Inv ⟨adaptive, memory, PopSize.cfgOf size dim workers⟩ (run ⟨adaptive, memory, PopSize.cfgOf size dim workers⟩ s ops).st := by
    intro ops
    induction ops with
    | nil => intro s h; exact h
    | cons op ops ih =>
      intro s h
      exact ih _ (step_inv _ (by simp [PopSize.cfgOf]; omega) s op h)
  have h := key ops ⟨start size workers, []⟩ (start_inv adaptive memory size dim workers hs)
  exact ⟨h.children, h.parents, h.sizes.parents, h.sizes.workers⟩

/-- No call tells a point which was not asked. -/
def Own : Op ι → Prop
  | .foreign _ _ _ => False
  | _ => True

theorem mutated_pos (g : ℝ) (s : St ι) (h : 0 < s.sigma) : 0 < mutated g s := mul_pos h (Real.exp_pos _)

/-- **C72.** As long as only asked points are told, the step-sizes stay positive. -/
theorem sigma_pos_partial [DecidableEq ι] (adaptive memory : Bool) (size dim workers : Nat) (hs : 1 ≤ size) (hd : 1 ≤ dim) (ops : List (Op ι))
    (hown : ∀ op ∈ ops, Own op) :
    let s := run ⟨adaptive, memory, PopSize.cfgOf size dim workers⟩ ⟨start size workers, []⟩ ops
    0 < s.st.sigma ∧ ∀ c ∈ s.asked, 0 < c.2 := by
  have key : ∀ (ops : List (Op ι)) (s : Session ι), (∀ op ∈ ops, Own op) → Inv ⟨adaptive, memory, PopSize.cfgOf size dim workers⟩ s.st →
      (0 < s.st.sigma ∧ (∀ c ∈ s.asked, 0 < c.2) ∧ ∀ c ∈ s.st.children, 0 < c.sigma) →
      let t := run ⟨adaptive, memory, PopSize.cfgOf size dim workers⟩ s ops
      (0 < t.st.sigma ∧ (∀ c ∈ t.asked, 0 < c.2) ∧ ∀ c ∈ t.st.children, 0 < c.sigma) := by
    intro ops
    induction ops with
    | nil => intro s _ _ h; exact h
    | cons op ops ih =>
      intro s ho hi h
      have hmin : 1 ≤ (PopSize.cfgOf size dim workers).minMu := by simp [PopSize.cfgOf]; omega
      refine ih (step _ s op) (fun o h => ho o (List.mem_cons_of_mem _ h)) (step_inv _ hmin s op hi) ?_
      obtain ⟨h1, h2, h3⟩ := h
      cases op with
      | ask g z =>
        refine ⟨h1, ?_, h3⟩
        intro c hc
        simp only [step, List.mem_append, List.mem_singleton] at hc
        rcases hc with hc | hc
        · exact h2 c hc
        · rw [hc]
          exact mutated_pos g s.st h1
      | foreign raw data loss => exact absurd (ho _ List.mem_cons_self) (by simp [Own])
      | tell i raw loss =>
        simp only [step]
        cases he : s.asked[i]? with
        | none => exact ⟨h1, h2, h3⟩
        | some c =>
          have hc := h2 c (List.mem_of_getElem? he)
          have hsz := popAfter_sizes ⟨adaptive, memory, PopSize.cfgOf size dim workers⟩ hmin loss s.st hi.sizes
          obtain ⟨_, hA, hB⟩ := tell_spec ⟨adaptive, memory, PopSize.cfgOf size dim workers⟩ ⟨raw, c.1, c.2⟩ loss s.st
            (by have := hsz.parents; omega)
          simp only
          have hall : ∀ d ∈ s.st.children ++ [⟨raw, c.1, c.2⟩], 0 < d.sigma := by
            intro d hd
            simp only [List.mem_append, List.mem_singleton] at hd
            rcases hd with hd | hd
            · exact h3 d hd
            · rw [hd]
              exact hc
          by_cases hlt : s.st.children.length + 1 < (popAfter ⟨adaptive, memory, PopSize.cfgOf size dim workers⟩ loss s.st).lam
          · obtain ⟨a, _, b, _, _⟩ := hA hlt
            rw [a, b]
            exact ⟨h1, h2, hall⟩
          · obtain ⟨best, hb, _, a, _, b, _⟩ := hB (by omega)
            rw [a, b]
            refine ⟨geo_pos _ _ ?_, h2, by simp⟩
            intro x hx
            obtain ⟨d, hd, rfl⟩ := List.mem_map.mp hx
            exact hall d (best_mem hb hd)
  have h := key ops ⟨start size workers, []⟩ hown (start_inv adaptive memory size dim workers hs)
    ⟨by simp [start], by simp, by simp [start]⟩
  exact ⟨h.1, h.2.1⟩

/-! ## Covariance -/

theorem scatter_posSemidef (c : ι → ℝ) (l : List (Cand ι ℝ)) : (scatter c l).PosSemidef := by
  induction l with
  | nil =>
    have : scatter c ([] : List (Cand ι ℝ)) = 0 := by ext i j; simp [scatter]
    rw [this]
    exact Matrix.PosSemidef.zero
  | cons x xs ih =>
    have : scatter c (x :: xs) = Matrix.vecMulVec (fun i => x.data i - c i) (star (fun i => x.data i - c i)) + scatter c xs := by
      ext i j
      simp [scatter, Matrix.vecMulVec_apply]
    rw [this]
    exact (Matrix.posSemidef_vecMulVec_self_star _).add ih

theorem tell_cov (cfg : Cfg) (c : Cand ι ℝ) (loss : Option ℝ) (s : St ι) (h : s.cov.PosSemidef) : (tell cfg c loss s).cov.PosSemidef := by
  unfold tell
  generalize (if cfg.adaptive then PopSize.add cfg.pop loss s.pop else s.pop) = pop
  split
  · simp only [generation]
    apply Matrix.PosSemidef.add
    · apply h.smul
      split <;> norm_num
    · apply (scatter_posSemidef _ _).smul
      split <;> norm_num
  · exact h

/-- **C72.** The covariance always is symmetric and positive semi-definite: the multivariate normal draws of EDA are well defined. -/
theorem cov_posSemidef [DecidableEq ι] (cfg : Cfg) (size workers : Nat) (tells : List (Cand ι ℝ × Option ℝ)) :
    (tells.foldl (fun s t => tell cfg t.1 t.2 s) (start size workers)).cov.PosSemidef := by
  have key : ∀ (s : St ι), s.cov.PosSemidef → (tells.foldl (fun s t => tell cfg t.1 t.2 s) s).cov.PosSemidef := by
    induction tells with
    | nil => intro s h; exact h
    | cons t ts ih => intro s h; exact ih _ (tell_cov cfg t.1 t.2 s h)
  exact key _ Matrix.PosSemidef.one

omit [Fintype ι] in
/-- **C72 (disagreement).** The covariance is not divided by the number of parents: when all parents are at the same place, at distance `d` of the
centre, it is `mu` times `d dᵀ`. -/
theorem cov_not_normalized (mu : Nat) (c d : ι → ℝ) (loss : WithBot ℝ) (s : ℝ) (i j : ι) :
    scatter c (List.replicate mu ⟨loss, fun k => c k + d k, s⟩) i j = mu * (d i * d j) := by
  simp [scatter]

/-! ## Disagreements -/

/-- **C72 (disagreement).** A point which was not asked (or was suggested) and which is the current centre gets step-size 0. If it is among the best
of its generation the step-size of the optimizer becomes 0. -/
theorem foreign_centre (cfg : Cfg) (raw : WithBot ℝ) (loss : Option ℝ) (s : St ι) (hpos : 1 ≤ (popAfter cfg loss s).mu)
    (hmu : (popAfter cfg loss s).mu ≤ (popAfter cfg loss s).lam) (hfull : (popAfter cfg loss s).lam ≤ s.children.length + 1)
    (hbest : ∀ c ∈ s.children, raw < c.loss) : (tellForeign cfg raw s.centre loss s).sigma = 0 := by
  unfold tellForeign
  have hg : guess s.centre s = 0 := by simp [guess]
  rw [hg]
  obtain ⟨_, _, h3⟩ := tell_spec cfg ⟨raw, s.centre, 0⟩ loss s hmu
  obtain ⟨best, hb, _, _, _, hs, _⟩ := h3 hfull
  rw [hs]
  unfold geo
  rw [if_pos]
  obtain ⟨rest, hp, hlen, hle⟩ := hb
  have hin : (⟨raw, s.centre, 0⟩ : Cand ι ℝ) ∈ best ++ rest := hp.mem_iff.mpr (by simp)
  rcases List.mem_append.mp hin with h | h
  · exact List.mem_map.mpr ⟨_, h, rfl⟩
  · -- otherwise some child is at least as good
    obtain ⟨a, ha⟩ : ∃ a, a ∈ best := List.exists_mem_of_length_pos (by omega)
    have h1 := hle a ha _ h
    have h2 : a ∈ s.children ++ [⟨raw, s.centre, 0⟩] := hp.mem_iff.mp (List.mem_append_left _ ha)
    rcases List.mem_append.mp h2 with h2 | h2
    · exact absurd h1 (not_le.mpr (hbest a h2))
    · rw [List.mem_singleton] at h2
      rw [h2] at ha
      exact List.mem_map.mpr ⟨_, ha, rfl⟩

/-- **C72 (disagreement).** Once the step-size is 0 it remains 0, the centre never moves any more, and every point asked is the centre. -/
theorem stuck (cfg : Cfg) (hmin : 1 ≤ cfg.pop.minMu) (s : St ι) (hi : Inv cfg s) (h0 : s.sigma = 0) (hc : s.children = []) (ops : List (Op ι))
    (hown : ∀ op ∈ ops, Own op) :
    (run cfg ⟨s, []⟩ ops).st.sigma = 0 ∧ (run cfg ⟨s, []⟩ ops).st.centre = s.centre ∧
    ∀ c ∈ (run cfg ⟨s, []⟩ ops).asked, c.1 = s.centre := by
  have key : ∀ (ops : List (Op ι)) (t : Session ι), (∀ op ∈ ops, Own op) → Inv cfg t.st →
      (t.st.sigma = 0 ∧ t.st.centre = s.centre ∧ (∀ c ∈ t.asked, c.1 = s.centre ∧ c.2 = 0) ∧
        ∀ c ∈ t.st.children, c.data = s.centre ∧ c.sigma = 0) →
      (run cfg t ops).st.sigma = 0 ∧ (run cfg t ops).st.centre = s.centre ∧ (∀ c ∈ (run cfg t ops).asked, c.1 = s.centre ∧ c.2 = 0) ∧
        ∀ c ∈ (run cfg t ops).st.children, c.data = s.centre ∧ c.sigma = 0 := by
    intro ops
    induction ops with
    | nil => intro t _ _ h; exact h
    | cons op ops ih =>
      intro t ho hi h
      refine ih (step cfg t op) (fun o h => ho o (List.mem_cons_of_mem _ h)) (step_inv _ hmin t op hi) ?_
      obtain ⟨h1, h2, h3, h4⟩ := h
      cases op with
      | foreign raw data loss => exact absurd (ho _ List.mem_cons_self) (by simp [Own])
      | ask g z =>
        refine ⟨h1, h2, ?_, h4⟩
        intro c hc
        simp only [step, List.mem_append, List.mem_singleton] at hc
        rcases hc with hc | hc
        · exact h3 c hc
        · rw [hc]
          simp [ask, mutated, h1, h2]
      | tell i raw loss =>
        simp only [step]
        cases he : t.asked[i]? with
        | none => exact ⟨h1, h2, h3, h4⟩
        | some c =>
          have hc := h3 c (List.mem_of_getElem? he)
          have hsz := popAfter_sizes cfg hmin loss t.st hi.sizes
          obtain ⟨_, hA, hB⟩ := tell_spec cfg ⟨raw, c.1, c.2⟩ loss t.st (by have := hsz.parents; omega)
          simp only
          have hall : ∀ d ∈ t.st.children ++ [⟨raw, c.1, c.2⟩], d.data = s.centre ∧ d.sigma = 0 := by
            intro d hd
            simp only [List.mem_append, List.mem_singleton] at hd
            rcases hd with hd | hd
            · exact h4 d hd
            · rw [hd]
              exact hc
          by_cases hlt : t.st.children.length + 1 < (popAfter cfg loss t.st).lam
          · obtain ⟨a, b, d, _, _⟩ := hA hlt
            rw [a, b, d]
            exact ⟨h1, h2, h3, hall⟩
          · obtain ⟨best, hb, _, a, b, d, _⟩ := hB (by omega)
            have hbl : best.length = (popAfter cfg loss t.st).mu := by obtain ⟨_, _, h, _⟩ := hb; exact h
            have hpos := hsz.pos
            obtain ⟨x, hx⟩ : ∃ x, x ∈ best := List.exists_mem_of_length_pos (by omega)
            rw [a, d]
            refine ⟨?_, ?_, h3, by simp⟩
            · unfold geo
              rw [if_pos]
              exact List.mem_map.mpr ⟨x, hx, (hall x (best_mem hb hx)).2⟩
            · funext k
              rw [b k]
              have : best.map (fun p => p.data k) = List.replicate best.length (s.centre k) := by
                rw [List.eq_replicate_iff]
                refine ⟨by simp, ?_⟩
                intro y hy
                obtain ⟨p, hp, rfl⟩ := List.mem_map.mp hy
                rw [(hall p (best_mem hb hp)).1]
              rw [this]
              have hne : (best.length : ℝ) ≠ 0 := by
                have : best.length ≠ 0 := by omega
                exact_mod_cast this
              simp only [List.sum_replicate, nsmul_eq_mul]
              field_simp
  have h := key ops ⟨s, []⟩ hown hi ⟨h0, rfl, by simp, by simp [hc]⟩
  exact ⟨h.1, h.2.1, fun c hc => (h.2.2.1 c hc).1⟩

omit [Fintype ι] in
/-- **C72 (disagreement).** Candidates are ranked by their raw loss: one which violates a constraint is selected although the loss told to the
optimizer, with its penalty, is larger. (The parents do not depend on the losses told.) -/
theorem penalty_ignored (cfg : Cfg) (hna : cfg.adaptive = false) (c : Cand ι ℝ) (l l' : Option ℝ) (s : St ι) : tell cfg c l s = tell cfg c l' s := by
  unfold tell
  rw [hna]
  rfl

/-! ## Cases -/

/-- In dimension one, a suggestion of the initial point with the best loss stops TBPSA: after the first generation (of four points) the step-size
is zero. -/
example (a b c : ℝ) :
    let cfg : Cfg := ⟨true, false, PopSize.cfgOf 1 1 1⟩
    let s : Session Unit := run cfg ⟨start 1 1, []⟩
      [.ask a (fun _ => 1), .tell 0 (3 : ℝ) (some 3), .ask b (fun _ => -1), .tell 1 (2 : ℝ) (some 2), .ask c (fun _ => 2), .tell 2 (5 : ℝ) (some 5)]
    (tellForeign cfg (1 : ℝ) (fun _ => 0) (some 1) s.st).sigma = 0 := by
  intro cfg s
  have hp : ∀ (l : List (Option ℝ)), l.length < 20 → PopSize.run cfg.pop (PopSize.start 4 1 1) l = { PopSize.start 4 1 1 with record := l } := by
    intro l hl
    rw [PopSize.run_short _ _ _ (by simpa [PopSize.start] using hl)]
    simp [PopSize.start]
  have e : s.st = { (start 1 1 : St Unit) with
      pop := { PopSize.start 4 1 1 with record := [some 3, some 2, some 5] }
      children := [⟨((3 : ℝ) : WithBot ℝ), fun _ => 0 + mutated a (start 1 1 : St Unit) * 1, mutated a (start 1 1 : St Unit)⟩,
        ⟨((2 : ℝ) : WithBot ℝ), fun _ => 0 + mutated b (start 1 1 : St Unit) * (-1), mutated b (start 1 1 : St Unit)⟩,
        ⟨((5 : ℝ) : WithBot ℝ), fun _ => 0 + mutated c (start 1 1 : St Unit) * 2, mutated c (start 1 1 : St Unit)⟩] } := by
    simp [s, run, step, ask, tell, cfg, PopSize.cfgOf, start, PopSize.add, PopSize.start, mutated]
  have hc : s.st.centre = fun _ => 0 := by rw [e]; rfl
  rw [← hc]
  apply foreign_centre
  · rw [e]; simp [popAfter, cfg, PopSize.add, PopSize.start]
  · rw [e]; simp [popAfter, cfg, PopSize.add, PopSize.start]
  · rw [e]; simp [popAfter, cfg, PopSize.add, PopSize.start]
  · rw [e]
    intro d hd
    simp only [List.mem_cons, List.not_mem_nil, or_false] at hd
    rcases hd with rfl | rfl | rfl <;> simp only [WithBot.coe_lt_coe] <;> norm_num

end Eda

/-! ## EMNA -/

namespace Emna

open Eda (Cand ranked centre geo Best ranked_best best_mem)

variable {ι : Type}

/-- **C73.** Sizes without adaptation: `llambda` is at least the number of workers and 64, or exactly the budget if this is too much, so that a
generation is completed within the budget; there is a parent, and four times as many children, if the budget is at least 4. -/
theorem sizes_spec (dim workers : Nat) (budget : Option Nat) :
    (∀ b, budget = some b → (sizes dim workers budget).2 ≤ b) ∧
    4 * (sizes dim workers budget).1 ≤ (sizes dim workers budget).2 ∧
    ((∀ b, budget = some b → 4 ≤ b) → 1 ≤ (sizes dim workers budget).1) ∧
    ((∀ b, budget = some b → max (4 * max 16 dim) workers ≤ b) → workers ≤ (sizes dim workers budget).2 ∧ dim ≤ (sizes dim workers budget).1) := by
  unfold sizes
  cases budget with
  | none => simp
  | some b =>
    simp only [Option.some.injEq, forall_eq']
    split
    · simp only
      omega
    · simp only
      omega

variable [Fintype ι]

/-- **C73 (disagreement).** With a budget of 1, 2 or 3 the last tell of the budget divides by zero. -/
theorem small_budget_fails (cfg : Cfg) (hna : cfg.adaptive = false) (workers b : Nat) (hb : 1 ≤ b) (hb' : b < 4) (tells : List (Cand ι (Sigma ι) × Option ℝ))
    (hl : tells.length + 1 = b) (last : Cand ι (Sigma ι) × Option ℝ) :
    ∃ s, tells.foldl (fun s t => s.bind (tell cfg t.1 t.2)) (some (start cfg.isotropic workers (some b) : St ι)) = some s ∧
      tell cfg last.1 last.2 s = none := by
  have h2 : sizes (Fintype.card ι) workers (some b) = (0, b) := by
    simp only [sizes]
    rw [if_pos (by omega)]
    congr 1
    omega
  have key : ∀ (ts : List (Cand ι (Sigma ι) × Option ℝ)) (s : St ι), s.pop.mu = 0 → s.pop.lam = b → s.children.length + ts.length < b →
      ∃ s', ts.foldl (fun s t => s.bind (tell cfg t.1 t.2)) (some s) = some s' ∧ s'.pop.mu = 0 ∧ s'.pop.lam = b ∧
        s'.children.length = s.children.length + ts.length := by
    intro ts
    induction ts with
    | nil => intro s h1 h2 h3; exact ⟨s, rfl, h1, h2, rfl⟩
    | cons t ts ih =>
      intro s h1 h2 h3
      simp only [List.length_cons] at h3
      have e : tell cfg t.1 t.2 s = some { s with children := s.children ++ [t.1] } := by
        unfold tell
        rw [hna]
        simp only [Bool.false_eq_true, if_false]
        rw [if_neg (by omega)]
      obtain ⟨s', ha, hb1, hb2, hb3⟩ := ih { s with children := s.children ++ [t.1] } h1 h2 (by simp; omega)
      refine ⟨s', ?_, hb1, hb2, ?_⟩
      · rw [List.foldl_cons]
        show ts.foldl _ (tell cfg t.1 t.2 s) = _
        rw [e]
        exact ha
      · rw [hb3]
        simp
        omega
  obtain ⟨s, ha, h1, h3, h4⟩ := key tells (start cfg.isotropic workers (some b)) (by simp [start, h2]) (by simp [start, h2])
    (by simp [start]; omega)
  refine ⟨s, ha, ?_⟩
  unfold tell
  rw [hna]
  simp only [Bool.false_eq_true, if_false]
  rw [if_pos (by rw [h4]; simp [start]; omega)]
  unfold generation
  simp [h1]

/-- **C73.** A completed generation: the centre is the mean of the `mu` best children. -/
theorem generation_spec_partial (cfg : Cfg) (s s' : St ι) (h : generation cfg s = some s') (hmu : s.pop.mu ≤ s.children.length) :
    1 ≤ s.pop.mu ∧ s'.children = [] ∧ s'.pop = s.pop ∧
    ∃ best, Best s.pop.mu s.children best ∧ (∀ i, s'.centre i = (best.map (fun p => p.data i)).sum / best.length) ∧
      newSigma cfg s.pop.mu s.pop.lam s'.centre best = some s'.sigma := by
  unfold generation at h
  by_cases h0 : s.pop.mu = 0
  · rw [if_pos h0] at h
    cases h
  · rw [if_neg h0] at h
    obtain ⟨sigma, hs, rfl⟩ := Option.map_eq_some_iff.mp h
    have hb := ranked_best s.pop.mu s.children hmu
    refine ⟨by omega, rfl, rfl, _, hb, ?_, hs⟩
    intro i
    obtain ⟨_, _, hlen, _⟩ := hb
    rw [hlen]
    rfl

/-- Variance of a coordinate over the parents. -/
noncomputable def variance {σ : Type} (parents : List (Cand ι σ)) (i : ι) : ℝ :=
  (parents.map (fun p => (p.data i - (parents.map (fun p => p.data i)).sum / parents.length) ^ 2)).sum / parents.length

omit [Fintype ι] in
theorem sumSq_nonneg {σ : Type} (c : ι → ℝ) (parents : List (Cand ι σ)) (i : ι) : 0 ≤ sumSq c parents i := by
  apply List.sum_nonneg
  intro x hx
  obtain ⟨y, _, rfl⟩ := List.mem_map.mp hx
  positivity

omit [Fintype ι] in
theorem sumSq_variance {σ : Type} (parents : List (Cand ι σ)) (hp : parents ≠ []) (i : ι) :
    sumSq (centre parents.length parents) parents i = parents.length * variance parents i := by
  have : (parents.length : ℝ) ≠ 0 := by
    have := List.length_pos_iff.mpr hp
    have h : parents.length ≠ 0 := by omega
    exact_mod_cast h
  unfold sumSq variance centre
  rw [mul_div_cancel₀ _ this]

/-- **C73.** With adaptation, a large population and the isotropic option, the squared step-size is the mean over the coordinates of the variances
of the parents. -/
theorem large_isotropic {σ : Type} (parents : List (Cand ι σ)) (hp : parents ≠ []) :
    ∃ s, updateLarge true parents.length (centre parents.length parents) parents = .one s ∧ 0 ≤ s ∧
      s ^ 2 = Finset.univ.sum (variance parents) / Fintype.card ι := by
  refine ⟨_, rfl, Real.sqrt_nonneg _, ?_⟩
  have hn : (parents.length : ℝ) ≠ 0 := by
    have := List.length_pos_iff.mpr hp
    have h : parents.length ≠ 0 := by omega
    exact_mod_cast h
  have e : Finset.univ.sum (sumSq (centre parents.length parents) parents) = parents.length * Finset.univ.sum (variance parents) := by
    rw [Finset.mul_sum]
    exact Finset.sum_congr rfl (fun i _ => sumSq_variance parents hp i)
  rw [Real.sq_sqrt]
  · rw [e]
    simp only [if_true]
    rw [mul_div_mul_left _ _ hn]
  · apply div_nonneg (Finset.sum_nonneg (fun i _ => sumSq_nonneg _ _ i))
    positivity

/-- **C73 (disagreement).** The options are swapped without adaptation. `isotropic=True` gives one step-size per coordinate, whose square is the
variance of the coordinate divided by the dimension. -/
theorem isotropic_axes {σ : Type} (parents : List (Cand ι σ)) (hp : parents ≠ []) :
    ∃ s, update true parents.length (centre parents.length parents) parents = .axes s ∧
      ∀ i, 0 ≤ s i ∧ (s i) ^ 2 = variance parents i / Fintype.card ι := by
  refine ⟨_, rfl, fun i => ⟨Real.sqrt_nonneg _, ?_⟩⟩
  have hn : (parents.length : ℝ) ≠ 0 := by
    have := List.length_pos_iff.mpr hp
    have h : parents.length ≠ 0 := by omega
    exact_mod_cast h
  rw [Real.sq_sqrt]
  · rw [sumSq_variance parents hp, mul_div_mul_left _ _ hn]
  · apply div_nonneg (sumSq_nonneg _ _ i)
    positivity

/-- **C73 (disagreement).** `isotropic=False` gives a single step-size, whose square is the sum of the variances of all coordinates. -/
theorem anisotropic_one {σ : Type} (parents : List (Cand ι σ)) (hp : parents ≠ []) :
    ∃ s, update false parents.length (centre parents.length parents) parents = .one s ∧ 0 ≤ s ∧
      s ^ 2 = Finset.univ.sum (variance parents) := by
  refine ⟨_, rfl, Real.sqrt_nonneg _, ?_⟩
  have hn : (parents.length : ℝ) ≠ 0 := by
    have := List.length_pos_iff.mpr hp
    have h : parents.length ≠ 0 := by omega
    exact_mod_cast h
  have e : Finset.univ.sum (sumSq (centre parents.length parents) parents) = parents.length * Finset.univ.sum (variance parents) := by
    rw [Finset.mul_sum]
    exact Finset.sum_congr rfl (fun i _ => sumSq_variance parents hp i)
  rw [Real.sq_sqrt]
  · rw [e]
    field_simp
  · apply div_nonneg (Finset.sum_nonneg (fun i _ => sumSq_nonneg _ _ i))
    positivity

/-- **C73.** With many workers step-sizes are divided by a number which is at least 1: they decrease. -/
theorem imp_ge (dim lam : Nat) : 1 ≤ imp dim lam := le_max_left _ _

theorem mapM_none' {β : Type} (l : List (Option β)) : l.mapM id = none ↔ none ∈ l := by
  induction l with
  | nil => simp
  | cons x xs ih =>
    rw [List.mapM_cons]
    cases x with
    | none => simp
    | some x =>
      cases h : xs.mapM id with
      | none => simpa using ih.mp h
      | some ys =>
        have : none ∉ xs := fun hn => by rw [ih.mpr hn] at h; cases h
        simpa using this

/-- **C73 (disagreement).** With adaptation, `isotropic=False` and a small population, parents asked before the first update carry an array and
the later ones a number: with both (parallel use) the tell raises. -/
theorem mixed_fails (cfg : Cfg) (ha : cfg.adaptive = true) (mu lam : Nat) (hl : lam < 8 * Fintype.card ι) (c : ι → ℝ) (parents : List (Cand ι (Sigma ι)))
    (h1 : ∃ p ∈ parents, ∃ s, p.sigma = .one s) (h2 : ∃ p ∈ parents, ∃ s, p.sigma = .axes s) : newSigma cfg mu lam c parents = none := by
  unfold newSigma
  rw [if_pos ha, if_pos hl]
  unfold updateSmall
  obtain ⟨p, hp, s, hs⟩ := h1
  obtain ⟨q, hq, t, ht⟩ := h2
  have e1 : (parents.map (fun p => p.sigma.one?)).mapM id = none := by
    rw [mapM_none']
    exact List.mem_map.mpr ⟨q, hq, by rw [ht]; rfl⟩
  have e2 : (parents.map (fun p => p.sigma.axes?)).mapM id = none := by
    rw [mapM_none']
    exact List.mem_map.mpr ⟨p, hp, by rw [hs]; rfl⟩
  rw [e1, e2]
  rfl

/-- **C73.** With adaptation, as long as the step-sizes of the parents are numbers (isotropic use), so is the new one, and the tell does not
fail. -/
theorem isotropic_adaptive (cfg : Cfg) (ha : cfg.adaptive = true) (mu lam : Nat) (c : ι → ℝ)
    (parents : List (Cand ι (Sigma ι))) (h : ∀ p ∈ parents, ∃ s, p.sigma = .one s) : ∃ s, newSigma cfg mu lam c parents = some (.one s) := by
  unfold newSigma
  rw [if_pos ha]
  have key : ∃ s, (if lam < 8 * Fintype.card ι then updateSmall cfg.isotropic mu parents else some (updateLarge cfg.isotropic mu c parents)) =
      some (.one s) := by
    split
    · unfold updateSmall
      cases hm : (parents.map (fun p => p.sigma.one?)).mapM id with
      | none =>
        rw [mapM_none'] at hm
        obtain ⟨p, hp, hn⟩ := List.mem_map.mp hm
        obtain ⟨s, hs⟩ := h p hp
        rw [hs] at hn
        cases hn
      | some l => exact ⟨_, rfl⟩
    · exact ⟨_, rfl⟩
  obtain ⟨s, hs⟩ := key
  rw [hs]
  simp only [Option.map_some]
  split
  · exact ⟨_, rfl⟩
  · exact ⟨s, rfl⟩

/-- **C73.** With adaptation and a small population the new step-size is the geometric mean of those of the parents. -/
theorem small_numbers (isotropic : Bool) (parents : List (Cand ι (Sigma ι))) (l : List ℝ) (h : parents.map Cand.sigma = l.map Sigma.one) :
    updateSmall isotropic parents.length parents = some (.one (geo parents.length l)) := by
  have e : parents.map (fun p => p.sigma.one?) = l.map some := by
    have : parents.map (fun p => p.sigma.one?) = (parents.map Cand.sigma).map Sigma.one? := by simp [List.map_map, Function.comp_def]
    rw [this, h, List.map_map]
    rfl
  unfold updateSmall
  rw [e, PopSize.mapM_some]

/-- **C73.** More than 32 workers per coordinate make the new step-sizes smaller; with fewer workers they are unchanged. -/
theorem many_workers (cfg : Cfg) (hna : cfg.adaptive = false) (mu lam : Nat) (c : ι → ℝ) (parents : List (Cand ι (Sigma ι))) :
    ∃ s, newSigma cfg mu lam c parents = some s ∧ (cfg.pop.workers ≤ 32 * Fintype.card ι → s = update cfg.isotropic mu c parents) ∧
      ∀ i, 0 ≤ s.at i ∧ s.at i ≤ (update cfg.isotropic mu c parents).at i := by
  have hnn : ∀ i, 0 ≤ (update cfg.isotropic mu c parents).at i := by
    intro i
    unfold update
    split
    · exact Real.sqrt_nonneg _
    · exact Real.sqrt_nonneg _
  unfold newSigma
  rw [hna]
  simp only [Bool.false_eq_true, if_false, Option.map_some, Option.some.injEq, exists_eq_left']
  split
  · refine ⟨fun h => by omega, fun i => ?_⟩
    have h1 := imp_ge (Fintype.card ι) lam
    have h2 := hnn i
    have e : ((update cfg.isotropic mu c parents).div (imp (Fintype.card ι) lam)).at i =
        (update cfg.isotropic mu c parents).at i / imp (Fintype.card ι) lam := by
      cases update cfg.isotropic mu c parents <;> rfl
    rw [e]
    exact ⟨div_nonneg h2 (by linarith), div_le_self h2 h1⟩
  · exact ⟨fun _ => rfl, fun i => ⟨hnn i, le_refl _⟩⟩

/-- Two parents in the plane, at (0, 0) and (2, 4): with `isotropic=True` the second step-size is twice the first one; with `isotropic=False`
there is a single one, the square root of 5. -/
example :
    let parents : List (Cand Bool Unit) := [⟨(0 : ℝ), fun _ => 0, ()⟩, ⟨(1 : ℝ), fun b => if b then 4 else 2, ()⟩]
    variance parents false = 1 ∧ variance parents true = 4 ∧ ∃ s, update false 2 (centre 2 parents) parents = .one s ∧ s ^ 2 = 5 := by
  intro parents
  have v1 : variance parents false = 1 := by norm_num [variance, parents]
  have v2 : variance parents true = 4 := by norm_num [variance, parents]
  refine ⟨v1, v2, ?_⟩
  obtain ⟨s, h1, _, h2⟩ := anisotropic_one parents (by simp [parents])
  refine ⟨s, h1, ?_⟩
  rw [h2]
  simp only [Fintype.sum_bool, v1, v2]
  norm_num

example : sizes 3 1 (some 20) = (5, 20) := by decide

end Emna
end NG
