import Verif.Model.Pbt
import Mathlib.Algebra.Order.Ring.Rat
import Mathlib.Tactic.Linarith
import Mathlib.Tactic.Ring

/-!
# C85: population-based training
-/

set_option linter.unusedSectionVars false

namespace NG
namespace Pbt

variable {F : Type} [Field F] [LinearOrder F]

/-! ## Slices -/

/-- The slices, one after the other, are the array; slice `j` has the dimension of function `j`; other sizes are refused. -/
theorem unflatten_spec (dims : List Nat) (x : List F) :
    (x.length = dims.sum → ∃ y, unflatten dims x = some y ∧ y.flatten = x ∧ y.map List.length = dims) ∧
    (x.length ≠ dims.sum → unflatten dims x = none) := by
  have key : ∀ (dims : List Nat) (x : List F), x.length = dims.sum → (blocks dims x).flatten = x ∧ (blocks dims x).map List.length = dims := by
    intro dims
    induction dims with
    | nil => intro x h; simp at h; simp [blocks, h]
    | cons d ds ih =>
      intro x h
      simp only [List.sum_cons] at h
      obtain ⟨h1, h2⟩ := ih (x.drop d) (by simp; omega)
      simp only [blocks, List.flatten_cons, List.map_cons, h1, h2, List.take_append_drop, true_and]
      simp; omega
  refine ⟨fun h => ⟨blocks dims x, by simp [unflatten, h], key dims x h⟩, fun h => ?_⟩
  unfold unflatten
  rw [if_neg (fun e => h e.symm)]

/-- Slicing is the only way to cut an array into slices of these dimensions. -/
theorem blocks_flatten (y : List (List F)) : blocks (y.map List.length) y.flatten = y := by
  induction y with
  | nil => rfl
  | cons a y ih => simp [blocks, ih]

/-! ## Value -/

/-- A consistent function: as many functions as dimensions, and optima of these dimensions. -/
structure Ok (c : Cfg F) : Prop where
  funcs : c.funcs.length = c.dims.length
  optima : c.optima.map List.length = c.dims

theorem sub_self (o : List F) : sub o o = List.replicate o.length 0 := by
  induction o with
  | nil => rfl
  | cons a o ih =>
    simp only [sub, List.zipWith_cons_cons, List.length_cons, List.replicate_succ] at ih ⊢
    rw [ih]; simp

theorem sub_zero_iff (y o : List F) (h : y.length = o.length) : (∀ v ∈ sub y o, v = 0) ↔ y = o := by
  induction y generalizing o with
  | nil => cases o with
    | nil => simp [sub]
    | cons a o => simp at h
  | cons b y ih => cases o with
    | nil => simp at h
    | cons a o =>
      have := ih o (by simpa using h)
      simp only [sub, List.zipWith_cons_cons, List.mem_cons, forall_eq_or_imp, List.cons.injEq] at this ⊢
      rw [this, sub_eq_zero]

/-- Core functions which are non-negative and vanish exactly at zero: then the value is non-negative and vanishes exactly at the optima, put one after
the other. -/
theorem value_optimum [IsStrictOrderedRing F] (c : Cfg F) (hc : Ok c) (hf : ∀ f ∈ c.funcs, ∀ z, 0 ≤ f z ∧ (f z = 0 ↔ ∀ v ∈ z, v = 0)) (x : List F)
    (hx : x.length = c.dims.sum) : ∃ v, value c x = some v ∧ 0 ≤ v ∧ (v = 0 ↔ x = c.optima.flatten) := by
  obtain ⟨y, hy, hfl, hl⟩ := (unflatten_spec c.dims x).1 hx
  refine ⟨total c.funcs y c.optima, by simp [value, hy], ?_⟩
  have key : ∀ (fs : List (List F → F)) (y o : List (List F)), fs.length = o.length → y.map List.length = o.map List.length →
      (∀ f ∈ fs, ∀ z, 0 ≤ f z ∧ (f z = 0 ↔ ∀ v ∈ z, v = 0)) → 0 ≤ total fs y o ∧ (total fs y o = 0 ↔ y = o) := by
    intro fs
    induction fs with
    | nil =>
      intro y o h1 h2 _
      have : o = [] := List.eq_nil_of_length_eq_zero h1.symm
      subst this
      have : y = [] := by simpa using h2
      subst this
      simp [total]
    | cons f fs ih =>
      intro y o h1 h2 hf
      cases o with
      | nil => simp at h1
      | cons b o =>
        cases y with
        | nil => simp at h2
        | cons a y =>
          simp only [List.map_cons, List.cons.injEq] at h2
          obtain ⟨g1, g2⟩ := ih y o (by simpa using h1) h2.2 (fun f h => hf f (List.mem_cons_of_mem _ h))
          obtain ⟨k1, k2⟩ := hf f List.mem_cons_self (sub a b)
          simp only [total, List.cons.injEq]
          refine ⟨by linarith, ?_⟩
          rw [← sub_zero_iff a b h2.1, ← k2, ← g2]
          constructor
          · intro h; constructor <;> linarith
          · rintro ⟨e1, e2⟩; rw [e1, e2]; simp
  obtain ⟨h1, h2⟩ := key c.funcs y c.optima (by rw [hc.funcs, ← hc.optima, List.length_map]) (by rw [hl, hc.optima]) hf
  refine ⟨h1, h2.trans ⟨fun h => by rw [← hfl, h], fun h => ?_⟩⟩
  rw [← blocks_flatten y, ← blocks_flatten c.optima, hfl, ← h, hl, hc.optima]

/-! ## Evolution -/

theorem gradient_length (eps : F) (f : List F → F) (x : List F) : (gradient eps f x).length = x.length := by simp [gradient]

theorem step_length (eps : F) (f : List F → F) (o : List F) (r n : F) (y : List F) (h : o.length = y.length) :
    (step eps f o r n y).length = y.length := by
  simp [step, gradient_length, sub, h]

/-- Each slice takes one step of its own function with its own learning rate, whatever the others. -/
theorem steps_get (eps : F) (fs : List (List F → F)) (os : List (List F)) (rs ns : List F) (ys : List (List F)) (j : Nat) (f : List F → F)
    (o : List F) (r n : F) (y : List F) (h1 : fs[j]? = some f) (h2 : os[j]? = some o) (h3 : rs[j]? = some r) (h4 : ns[j]? = some n)
    (h5 : ys[j]? = some y) : (steps eps fs os rs ns ys)[j]? = some (step eps f o r n y) := by
  induction j generalizing fs os rs ns ys with
  | zero =>
    cases fs <;> cases os <;> cases rs <;> cases ns <;> cases ys <;> simp_all [steps]
  | succ j ih =>
    cases fs <;> cases os <;> cases rs <;> cases ns <;> cases ys <;> simp_all [steps]

theorem steps_lengths (eps : F) (fs : List (List F → F)) (os : List (List F)) (rs ns : List F) (ys : List (List F))
    (h1 : fs.length = ys.length) (h2 : os.map List.length = ys.map List.length) (h3 : rs.length = ys.length) (h4 : ns.length = ys.length) :
    (steps eps fs os rs ns ys).map List.length = ys.map List.length := by
  induction ys generalizing fs os rs ns with
  | nil => cases fs <;> simp_all [steps]
  | cons y ys ih =>
    cases fs with
    | nil => simp at h1
    | cons f fs => cases os with
      | nil => simp at h2
      | cons o os => cases rs with
        | nil => simp at h3
        | cons r rs => cases ns with
          | nil => simp at h4
          | cons n ns =>
            simp only [List.map_cons, List.cons.injEq] at h2
            simp only [steps, List.map_cons, step_length eps f o r n y h2.1]
            rw [ih fs os rs ns (by simpa using h1) h2.2 (by simpa using h3) (by simpa using h4)]

/-- Evolution succeeds on arrays of the right sizes, keeps the size, and its slice `j` is one step of function `j` from slice `j`, with the learning rate
given by hyperparameter `j`. -/
theorem evolve_spec (c : Cfg F) (hc : Ok c) (eps : F) (expo : F → F) (noise x pp : List F) (hx : x.length = c.dims.sum)
    (hp : pp.length = c.dims.length) (hn : noise.length = c.dims.length) :
    ∃ z, evolve c eps expo noise x pp = some z ∧ z.length = c.dims.sum ∧
      ∃ a b, unflatten c.dims x = some a ∧ unflatten c.dims z = some b ∧
        ∀ j (h1 : j < c.funcs.length) (h2 : j < c.optima.length) (h5 : j < pp.length) (h6 : j < noise.length)
          (h3 : j < a.length) (h4 : j < b.length), b[j] = step eps c.funcs[j] c.optima[j] (expo pp[j]) noise[j] a[j] := by
  obtain ⟨a, ha, hfl, hl⟩ := (unflatten_spec c.dims x).1 hx
  have hal : a.length = c.dims.length := by rw [← hl, List.length_map]
  have hs := steps_lengths eps c.funcs c.optima (pp.map expo) noise a (by rw [hc.funcs, hal]) (by rw [hc.optima, hl]) (by simp [hp, hal]) (by rw [hn, hal])
  rw [hl] at hs
  refine ⟨(steps eps c.funcs c.optima (pp.map expo) noise a).flatten, by simp [evolve, hp, ha], by rw [List.length_flatten, hs], a, steps eps c.funcs c.optima (pp.map expo) noise a, ha, ?_, ?_⟩
  · obtain ⟨b, hb, _⟩ := (unflatten_spec c.dims (steps eps c.funcs c.optima (pp.map expo) noise a).flatten).1 (by rw [List.length_flatten, hs])
    have e : blocks c.dims (steps eps c.funcs c.optima (pp.map expo) noise a).flatten = steps eps c.funcs c.optima (pp.map expo) noise a := by
      conv_lhs => rw [← hs]
      exact blocks_flatten _
    simp [unflatten, e, List.length_flatten, hs]
  · intro j h1 h2 h5 h6 h3 h4
    have := steps_get eps c.funcs c.optima (pp.map expo) noise a j _ _ _ _ _ (List.getElem?_eq_getElem h1) (List.getElem?_eq_getElem h2)
      (List.getElem?_eq_getElem (by simpa using h5)) (List.getElem?_eq_getElem h6) (List.getElem?_eq_getElem h3)
    rw [List.getElem?_eq_getElem h4] at this
    simpa using this

/-- A step of gradient descent: every coordinate moves by the learning rate times the difference quotient along this coordinate, plus the same noise for
all the coordinates of the slice. -/
theorem step_coordinate (eps : F) (f : List F → F) (o : List F) (r n : F) (y : List F) (i : Nat) (hi : i < y.length)
    (hi' : i < (step eps f o r n y).length) :
    (step eps f o r n y)[i] = y[i] - r * ((f ((sub y o).modify i (· + eps)) - f (sub y o)) / eps + n) := by
  simp [step, gradient]

/-! ## Selection of the source -/

/-- The source is the first worker of least distance; there is one as soon as there is a worker. -/
theorem argmin_spec {α : Type} [LinearOrder α] (l : List α) :
    (argmin l = none ↔ l = []) ∧
    (∀ v i, argmin l = some (v, i) ↔ ∃ h : i < l.length, l[i] = v ∧ (∀ w ∈ l, v ≤ w) ∧ ∀ j (hj : j < i), v < l[j]'(Nat.lt_trans hj h)) := by
  induction l with
  | nil => simp [argmin]
  | cons a l ih =>
    obtain ⟨h0, h1⟩ := ih
    cases hm : argmin l with
    | none =>
      have := h0.1 hm
      subst this
      simp only [argmin]
      refine ⟨by simp, fun v i => ?_⟩
      simp only [Option.some.injEq, Prod.mk.injEq]
      constructor
      · rintro ⟨rfl, rfl⟩; simp
      · rintro ⟨h, e, _⟩
        have : i = 0 := by simpa using h
        subst this
        exact ⟨by simpa using e, rfl⟩
    | some p =>
      obtain ⟨w, k⟩ := p
      obtain ⟨hk, e, hle, hlt⟩ := (h1 w k).1 hm
      have hdef : argmin (a :: l) = if a ≤ w then some (a, 0) else some (w, k + 1) := by simp only [argmin, hm]
      rw [hdef]
      refine ⟨by split <;> simp, fun v i => ?_⟩
      have uniq : ∀ v i v' i', (∃ h : i < (a :: l).length, (a :: l)[i] = v ∧ (∀ w ∈ a :: l, v ≤ w) ∧ ∀ j (hj : j < i), v < (a :: l)[j]'(Nat.lt_trans hj h)) →
          (∃ h : i' < (a :: l).length, (a :: l)[i'] = v' ∧ (∀ w ∈ a :: l, v' ≤ w) ∧ ∀ j (hj : j < i'), v' < (a :: l)[j]'(Nat.lt_trans hj h)) →
          v = v' ∧ i = i' := by
        rintro v i v' i' ⟨h, e, hle, hlt⟩ ⟨h', e', hle', hlt'⟩
        have hv : v = v' := le_antisymm (by rw [← e']; exact hle _ (List.getElem_mem _)) (by rw [← e]; exact hle' _ (List.getElem_mem _))
        refine ⟨hv, ?_⟩
        rcases Nat.lt_trichotomy i i' with g | g | g
        · have := hlt' i g; rw [e, hv] at this; exact absurd this (lt_irrefl _)
        · exact g
        · have := hlt i' g; rw [e', hv] at this; exact absurd this (lt_irrefl _)
      by_cases ha : a ≤ w
      · rw [if_pos ha]
        have good : ∃ h : 0 < (a :: l).length, (a :: l)[0] = a ∧ (∀ w ∈ a :: l, a ≤ w) ∧ ∀ j (hj : j < 0), a < (a :: l)[j]'(Nat.lt_trans hj h) := by
          refine ⟨by simp, rfl, ?_, by omega⟩
          intro u hu
          rcases List.mem_cons.1 hu with rfl | hu
          · exact le_refl _
          · exact le_trans ha (hle u hu)
        constructor
        · intro h
          simp only [Option.some.injEq, Prod.mk.injEq] at h
          obtain ⟨rfl, rfl⟩ := h
          exact good
        · intro h
          obtain ⟨rfl, rfl⟩ := uniq _ _ _ _ h good
          rfl
      · rw [if_neg ha]
        push Not at ha
        have good : ∃ h : k + 1 < (a :: l).length, (a :: l)[k + 1] = w ∧ (∀ u ∈ a :: l, w ≤ u) ∧
            ∀ j (hj : j < k + 1), w < (a :: l)[j]'(Nat.lt_trans hj h) := by
          refine ⟨by simpa using hk, by simpa using e, ?_, ?_⟩
          · intro u hu
            rcases List.mem_cons.1 hu with rfl | hu
            · exact le_of_lt ha
            · exact hle u hu
          · intro j hj
            cases j with
            | zero => simpa using ha
            | succ j => simpa using hlt j (by omega)
        constructor
        · intro h
          simp only [Option.some.injEq, Prod.mk.injEq] at h
          obtain ⟨rfl, rfl⟩ := h
          exact good
        · intro h
          obtain ⟨rfl, rfl⟩ := uniq _ _ _ _ h good
          rfl

/-! ## The population -/

/-- Sizes are consistent. -/
structure Wf (c : Cfg F) (s : St F) : Prop where
  ptr : s.ptr.length = s.fit.length
  params : s.params.length = s.fit.length
  range : ∀ p ∈ s.ptr, p < s.cells.length
  cells : ∀ l ∈ s.cells, l.length = c.dims.sum

theorem init_wf (c : Cfg F) (w : Nat) : Wf c (init c w) := by
  refine ⟨by simp [init], by simp [init], ?_, ?_⟩ <;> simp [init]

theorem distances_length (c : Cfg F) (s : St F) (hs : Wf c s) (m : Mode) (x : List F) : (distances m x s).length = s.fit.length := by
  cases m <;> simp [distances, hs.params]

/-- The three distances: the losses of the workers, the number of hyperparameters which differ, and the sum of the absolute differences. -/
theorem distances_spec (c : Cfg F) (s : St F) (hs : Wf c s) (x : List F) (i : Nat) (h : i < s.fit.length) :
    (distances .fitness x s)[i]? = some s.fit[i] ∧
    (distances .differ x s)[i]? =
      some (((((s.params.getD i []).zip x).filter (fun p => decide (p.1 ≠ p.2))).length : F) : WithTop F) ∧
    (distances .distance x s)[i]? = some (((((s.params.getD i []).zip x).map (fun p => |p.1 - p.2|)).sum : F) : WithTop F) := by
  have hp : i < s.params.length := by rw [hs.params]; exact h
  have e : s.params.getD i [] = s.params[i] := by simp [List.getD_eq_getElem?_getD, List.getElem?_eq_getElem hp]
  have h0 : ∀ a b : List F, ((sub a b).filter (fun v => decide (v ≠ 0))).length = ((a.zip b).filter (fun p => decide (p.1 ≠ p.2))).length := by
    intro a
    induction a with
    | nil => intro b; rfl
    | cons u a ih =>
      intro b
      cases b with
      | nil => rfl
      | cons v b =>
        have := ih b
        by_cases huv : u = v
        · subst huv
          simpa [sub] using this
        · simpa [sub, huv, sub_eq_zero] using this
  have h1 : ∀ a b : List F, ((sub a b).map (fun v => |v|)).sum = ((a.zip b).map (fun p => |p.1 - p.2|)).sum := by
    intro a
    induction a with
    | nil => intro b; rfl
    | cons u a ih =>
      intro b
      cases b with
      | nil => rfl
      | cons v b => simpa [sub] using ih b
  refine ⟨by simp [distances, h], ?_, ?_⟩
  · simp only [distances, List.getElem?_map, List.getElem?_eq_getElem hp, Option.map_some, norm0, h0, e]
  · simp only [distances, List.getElem?_map, List.getElem?_eq_getElem hp, Option.map_some, norm1, h1, e]

/-- The worker used as a source: the first one of least distance, for the fitness or one of the two distances between hyperparameters. -/
def IsSource (m : Mode) (x : List F) (s : St F) (src : Nat) : Prop :=
  ∃ h : src < (distances m x s).length, (∀ w ∈ distances m x s, (distances m x s)[src] ≤ w) ∧
    ∀ j (hj : j < src), (distances m x s)[src] < (distances m x s)[j]'(Nat.lt_trans hj h)

theorem ckpt_length (c : Cfg F) (s : St F) (hs : Wf c s) (i : Nat) (hi : i < s.fit.length) : (s.ckpt i).length = c.dims.sum := by
  have h1 : i < s.ptr.length := by rw [hs.ptr]; exact hi
  have h2 := hs.range _ (List.getElem_mem h1)
  unfold St.ckpt
  simp only [List.getD_eq_getElem?_getD, List.getElem?_eq_getElem h1, Option.getD_some, List.getElem?_eq_getElem h2]
  exact hs.cells _ (List.getElem_mem _)

/-- A call always succeeds. Its loss is the value of what evolution with the hyperparameters given makes of the checkpoint of the source; the worker drawn gets this
checkpoint, loss and hyperparameters; losses and hyperparameters of the other workers do not change, and neither do their checkpoints unless the
worker is its own source and shares its array with them. -/
theorem call_spec (c : Cfg F) (hc : Ok c) (eps : F) (expo : F → F) (m : Mode) (idx : Nat) (noise x : List F) (s : St F) (hs : Wf c s)
    (hx : x.length = c.dims.length) (hn : noise.length = c.dims.length) (hi : idx < s.fit.length) :
    ∃ v s' src y, call c eps expo m idx noise x s = some (v, s') ∧ Wf c s' ∧ s'.fit.length = s.fit.length ∧ IsSource m x s src ∧
      evolve c eps expo noise (s.ckpt src) x = some y ∧ value c y = some v ∧
      s'.ckpt idx = y ∧ s'.fit.getD idx ⊤ = v ∧ s'.params.getD idx [] = x ∧
      (∀ j, j ≠ idx → s'.fit.getD j ⊤ = s.fit.getD j ⊤ ∧ s'.params.getD j [] = s.params.getD j []) ∧
      (∀ j, j ≠ idx → s'.ptr.getD j 0 = s.ptr.getD j 0) ∧
      (idx ≠ src → s'.ptr.getD idx 0 = s.cells.length) ∧ (idx = src → s'.ptr.getD idx 0 = s.ptr.getD idx 0) ∧
      s.cells.length ≤ s'.cells.length ∧
      (∀ j, j ≠ idx → j < s.fit.length → idx ≠ src ∨ s.ptr.getD j 0 ≠ s.ptr.getD idx 0 → s'.ckpt j = s.ckpt j) ∧
      (∀ j, j ≠ idx → j < s.fit.length → idx = src → s.ptr.getD j 0 = s.ptr.getD idx 0 → s'.ckpt j = y) := by
  have hdl := distances_length c s hs m x
  obtain ⟨w, src, hsrc⟩ : ∃ w src, argmin (distances m x s) = some (w, src) := by
    cases h : argmin (distances m x s) with
    | none =>
      have := (argmin_spec _).1.1 h
      rw [this] at hdl
      simp at hdl; omega
    | some p => exact ⟨p.1, p.2, rfl⟩
  obtain ⟨h1, h2, h3, h4⟩ := ((argmin_spec _).2 _ _).1 hsrc
  subst h2
  have hS : IsSource m x s src := ⟨h1, h3, h4⟩
  have hsl : src < s.fit.length := by rw [← hdl]; exact h1
  have hip : idx < s.ptr.length := by rw [hs.ptr]; exact hi
  have hpa : idx < s.params.length := by rw [hs.params]; exact hi
  have hrange : ∀ j, j < s.fit.length → s.ptr.getD j 0 < s.cells.length := by
    intro j hj
    have hj' : j < s.ptr.length := by rw [hs.ptr]; exact hj
    rw [List.getD_eq_getElem?_getD, List.getElem?_eq_getElem hj', Option.getD_some]
    exact hs.range _ (List.getElem_mem _)
  obtain ⟨y, hy, hyl, _⟩ := evolve_spec c hc eps expo noise (s.ckpt src) x (ckpt_length c s hs src hsl) hx hn
  obtain ⟨b, hb, _⟩ := (unflatten_spec c.dims y).1 hyl
  have hv : value c y = some (total c.funcs b c.optima) := by simp [value, hb]
  by_cases hne : idx = src
  · subst hne
    have hcell : s.ptr.getD idx 0 < s.cells.length := hrange idx hi
    have e1 : (({ s with params := s.params.set idx x } : St F).ckpt idx) = s.ckpt idx := rfl
    have e2 : ({ s with params := s.params.set idx x, cells := s.cells.set (s.ptr.getD idx 0) y } : St F).ckpt idx = y := by
      simp only [St.ckpt]
      rw [List.getD_eq_getElem?_getD (l := s.cells.set _ _), List.getElem?_set_self hcell, Option.getD_some]
    refine ⟨total c.funcs b c.optima, ⟨s.cells.set (s.ptr.getD idx 0) y, s.ptr, s.params.set idx x,
      s.fit.set idx ((total c.funcs b c.optima : F) : WithTop F)⟩, idx, y, ?_, ?_, by simp, hS, hy, hv, e2, ?_, ?_, ?_, fun _ _ => rfl,
      fun h => absurd rfl h, fun _ => rfl, by simp, ?_, ?_⟩
    · unfold call
      rw [if_pos ⟨hx, hi⟩, hsrc]
      simp only [St.copy, ne_eq, not_true_eq_false, if_false]
      rw [e1, hy]
      simp only
      rw [e2, hv]
    · refine ⟨by simpa using hs.ptr, by simpa using hs.params, by simpa using hs.range, ?_⟩
      intro l hl
      rcases List.mem_or_eq_of_mem_set hl with h | h
      · exact hs.cells l h
      · rw [h]; exact hyl
    · simp [List.getD_eq_getElem?_getD, hi]
    · simp [List.getD_eq_getElem?_getD, hpa]
    · intro j hj
      simp [List.getD_eq_getElem?_getD, List.getElem?_set_ne (Ne.symm hj)]
    · intro j hj hjl h
      rcases h with h | h
      · exact absurd rfl h
      · simp only [St.ckpt, List.getD_eq_getElem?_getD] at h ⊢
        rw [List.getElem?_set_ne (Ne.symm h)]
    · intro j hj hjl _ h
      simp only [St.ckpt]
      rw [h, List.getD_eq_getElem?_getD (l := s.cells.set _ _), List.getElem?_set_self hcell, Option.getD_some]
  · have ep : (s.ptr.set idx s.cells.length).getD idx 0 = s.cells.length := by
      rw [List.getD_eq_getElem?_getD, List.getElem?_set_self hip, Option.getD_some]
    have ej : ∀ j, j ≠ idx → (s.ptr.set idx s.cells.length).getD j 0 = s.ptr.getD j 0 := by
      intro j hj
      rw [List.getD_eq_getElem?_getD, List.getElem?_set_ne (Ne.symm hj), ← List.getD_eq_getElem?_getD]
    have ec : (s.cells ++ [s.ckpt src]).set s.cells.length y = s.cells ++ [y] := by
      rw [List.set_append]; simp
    refine ⟨total c.funcs b c.optima, ⟨s.cells ++ [y], s.ptr.set idx s.cells.length, s.params.set idx x,
      (s.fit.set idx (s.fit.getD src ⊤)).set idx ((total c.funcs b c.optima : F) : WithTop F)⟩, src, y, ?_, ?_, by simp, hS, hy, hv, ?_, ?_, ?_, ?_,
      ej, fun _ => ep, fun h => absurd h hne, by simp, ?_, fun j _ _ h _ => absurd h hne⟩
    · unfold call
      rw [if_pos ⟨hx, hi⟩, hsrc]
      simp only [St.copy, ne_eq, hne, not_false_eq_true, if_true]
      have e1 : (⟨s.cells ++ [s.ckpt src], s.ptr.set idx s.cells.length, s.params.set idx x,
          s.fit.set idx (s.fit.getD src ⊤)⟩ : St F).ckpt idx = s.ckpt src := by
        simp only [St.ckpt, ep]
        simp [List.getD_eq_getElem?_getD]
      rw [e1, hy]
      simp only
      rw [ep, ec]
      have e2 : (⟨s.cells ++ [y], s.ptr.set idx s.cells.length, s.params.set idx x,
          s.fit.set idx (s.fit.getD src ⊤)⟩ : St F).ckpt idx = y := by
        simp only [St.ckpt, ep]
        simp [List.getD_eq_getElem?_getD]
      rw [e2, hv]
    · refine ⟨by simpa using hs.ptr, by simpa using hs.params, ?_, ?_⟩
      · intro p hp
        simp only [List.length_append, List.length_singleton]
        rcases List.mem_or_eq_of_mem_set hp with h | h
        · have := hs.range p h; omega
        · omega
      · intro l hl
        rcases List.mem_append.1 hl with h | h
        · exact hs.cells l h
        · rw [List.mem_singleton.1 h]; exact hyl
    · simp only [St.ckpt, ep]
      simp [List.getD_eq_getElem?_getD]
    · simp [List.getD_eq_getElem?_getD, hi]
    · simp [List.getD_eq_getElem?_getD, hpa]
    · intro j hj
      simp [List.getD_eq_getElem?_getD, List.getElem?_set_ne (Ne.symm hj)]
    · intro j hj hjl _
      simp only [St.ckpt, ej j hj]
      have := hrange j hjl
      rw [List.getD_eq_getElem?_getD, List.getElem?_append_left this, ← List.getD_eq_getElem?_getD]

/-! ## Histories -/

/-- The populations met, for any draws and hyperparameters. -/
inductive Reach (c : Cfg F) (eps : F) (expo : F → F) (w : Nat) : St F → Prop
  | start : Reach c eps expo w (init c w)
  | call (m : Mode) (idx : Nat) (noise x : List F) (s s' : St F) (v : F) : Reach c eps expo w s → noise.length = c.dims.length →
      Pbt.call c eps expo m idx noise x s = some (v, s') → Reach c eps expo w s'

/-- Two workers share their array only if neither was ever given a copy, and the loss kept for a worker whose array is not the initial one is the value
of its checkpoint. -/
structure Inv (c : Cfg F) (w : Nat) (s : St F) : Prop where
  wf : Wf c s
  size : s.fit.length = w
  pos : 0 < s.cells.length
  alone : ∀ i j, i < w → j < w → i ≠ j → s.ptr.getD i 0 = s.ptr.getD j 0 → s.ptr.getD i 0 = 0
  fit : ∀ i, i < w → s.ptr.getD i 0 ≠ 0 → (value c (s.ckpt i)).map (fun v => (v : WithTop F)) = some (s.fit.getD i ⊤)

theorem inv_call (c : Cfg F) (hc : Ok c) (eps : F) (expo : F → F) (w : Nat) (m : Mode) (idx : Nat) (noise x : List F) (s s' : St F) (v : F)
    (hI : Inv c w s) (hn : noise.length = c.dims.length) (h : call c eps expo m idx noise x s = some (v, s')) : Inv c w s' := by
  have hg : x.length = c.dims.length ∧ idx < s.fit.length := by
    unfold call at h
    split at h
    · assumption
    · simp at h
  obtain ⟨v1, s1, src, y, h1, hwf, hlen, hS, hev, hval, hck, hfi, hpar, hoth, hptr, hp1, hp2, hcl, hkeep, hshare⟩ :=
    call_spec c hc eps expo m idx noise x s hI.wf hg.1 hn hg.2
  rw [h] at h1
  simp only [Option.some.injEq, Prod.mk.injEq] at h1
  obtain ⟨rfl, rfl⟩ := h1
  have hrange : ∀ j, j < w → s.ptr.getD j 0 < s.cells.length := by
    intro j hj
    have hj' : j < s.ptr.length := by rw [hI.wf.ptr, hI.size]; exact hj
    rw [List.getD_eq_getElem?_getD, List.getElem?_eq_getElem hj', Option.getD_some]
    exact hI.wf.range _ (List.getElem_mem _)
  have hiw : idx < w := by rw [← hI.size]; exact hg.2
  refine ⟨hwf, by rw [hlen, hI.size], by have := hI.pos; omega, ?_, ?_⟩
  · intro i j hi hj hij he
    by_cases hii : i = idx
    · subst hii
      have hji : j ≠ i := fun h => hij h.symm
      rw [hptr j hji] at he
      by_cases hne : i = src
      · rw [hp2 hne] at he ⊢
        exact hI.alone i j hi hj hij he
      · rw [hp1 hne] at he
        have := hrange j hj
        omega
    · rw [hptr i hii] at he ⊢
      by_cases hjj : j = idx
      · subst hjj
        by_cases hne : j = src
        · rw [hp2 hne] at he
          exact hI.alone i j hi hj hij he
        · rw [hp1 hne] at he
          have := hrange i hi
          omega
      · rw [hptr j hjj] at he
        exact hI.alone i j hi hj hij he
  · intro i hi hne0
    by_cases hii : i = idx
    · subst hii
      rw [hck, hval, hfi]; rfl
    · rw [hptr i hii] at hne0
      rw [(hoth i hii).1, hkeep i hii (by rw [hI.size]; exact hi) ?_]
      · exact hI.fit i hi hne0
      · by_cases hne : idx = src
        · right
          intro he
          exact hne0 (hI.alone i idx hi hiw hii he)
        · exact Or.inl hne

theorem reach_inv (c : Cfg F) (hc : Ok c) (eps : F) (expo : F → F) (w : Nat) (s : St F) (h : Reach c eps expo w s) : Inv c w s := by
  induction h with
  | start =>
    refine ⟨init_wf c w, by simp [init], by simp [init], ?_, ?_⟩
    · intro i j hi _ _ _
      simp [init, List.getD_eq_getElem?_getD, hi]
    · intro i hi h
      simp [init, List.getD_eq_getElem?_getD, hi] at h
  | call m idx noise x s s' v _ hn hcall ih => exact inv_call c hc eps expo w m idx noise x s s' v ih hn hcall

/-- A worker owns its checkpoint once it was given a copy of the checkpoint of another one. -/
def Owns (s : St F) (i : Nat) : Prop := s.ptr.getD i 0 ≠ 0

/-- Being given a copy makes a worker the owner of its checkpoint, and this lasts for ever. -/
theorem owns_from_copy (c : Cfg F) (hc : Ok c) (eps : F) (expo : F → F) (w : Nat) (m : Mode) (idx : Nat) (noise x : List F) (s s' : St F) (v : F)
    (hr : Reach c eps expo w s) (hn : noise.length = c.dims.length) (h : call c eps expo m idx noise x s = some (v, s')) :
    (¬ IsSource m x s idx → Owns s' idx) ∧ (∀ i, Owns s i → Owns s' i) := by
  have hI := reach_inv c hc eps expo w s hr
  have hg : x.length = c.dims.length ∧ idx < s.fit.length := by
    unfold call at h
    split at h
    · assumption
    · simp at h
  obtain ⟨v1, s1, src, y, h1, hwf, hlen, hS, hev, hval, hck, hfi, hpar, hoth, hptr, hp1, hp2, hcl, hkeep, hshare⟩ :=
    call_spec c hc eps expo m idx noise x s hI.wf hg.1 hn hg.2
  rw [h] at h1
  simp only [Option.some.injEq, Prod.mk.injEq] at h1
  obtain ⟨rfl, rfl⟩ := h1
  have hpos := hI.pos
  unfold Owns
  constructor
  · intro hns
    have : idx ≠ src := fun e => hns (e ▸ hS)
    rw [hp1 this]; omega
  · intro i hi
    by_cases hii : i = idx
    · subst hii
      by_cases hne : i = src
      · rw [hp2 hne]; exact hi
      · rw [hp1 hne]; omega
    · rw [hptr i hii]; exact hi

/-- The intended behaviour, for owners: the loss kept is the value of the checkpoint, and calls which draw other workers change neither. -/
theorem owner_partial (c : Cfg F) (hc : Ok c) (eps : F) (expo : F → F) (w : Nat) (s : St F) (hr : Reach c eps expo w s) (i : Nat) (hi : i < w)
    (ho : Owns s i) :
    (∃ v, value c (s.ckpt i) = some v ∧ s.fit.getD i ⊤ = v) ∧
    ∀ m idx noise x v s', idx ≠ i → noise.length = c.dims.length → call c eps expo m idx noise x s = some (v, s') →
      s'.ckpt i = s.ckpt i ∧ s'.fit.getD i ⊤ = s.fit.getD i ⊤ ∧ s'.params.getD i [] = s.params.getD i [] := by
  have hI := reach_inv c hc eps expo w s hr
  constructor
  · have := hI.fit i hi ho
    cases hv : value c (s.ckpt i) with
    | none => rw [hv] at this; simp at this
    | some v => rw [hv] at this; simp at this; exact ⟨v, rfl, this.symm⟩
  · intro m idx noise x v s' hne hn h
    have hg : x.length = c.dims.length ∧ idx < s.fit.length := by
      unfold call at h
      split at h
      · assumption
      · simp at h
    obtain ⟨v1, s1, src, y, h1, hwf, hlen, hS, hev, hval, hck, hfi, hpar, hoth, hptr, hp1, hp2, hcl, hkeep, hshare⟩ :=
      call_spec c hc eps expo m idx noise x s hI.wf hg.1 hn hg.2
    rw [h] at h1
    simp only [Option.some.injEq, Prod.mk.injEq] at h1
    obtain ⟨rfl, rfl⟩ := h1
    refine ⟨hkeep i (Ne.symm hne) (by rw [hI.size]; exact hi) (Or.inr ?_), (hoth i (Ne.symm hne)).1, (hoth i (Ne.symm hne)).2⟩
    intro he
    exact ho (hI.alone i idx hi (by rw [← hI.size]; exact hg.2) (Ne.symm hne) he)

/-- No call fails, whatever happened before. -/
theorem call_total (c : Cfg F) (hc : Ok c) (eps : F) (expo : F → F) (w : Nat) (s : St F) (hr : Reach c eps expo w s) (m : Mode) (idx : Nat)
    (noise x : List F) (hi : idx < w) (hx : x.length = c.dims.length) (hn : noise.length = c.dims.length) :
    ∃ v s', call c eps expo m idx noise x s = some (v, s') := by
  have hI := reach_inv c hc eps expo w s hr
  obtain ⟨v1, s1, src, y, h1, _⟩ := call_spec c hc eps expo m idx noise x s hI.wf hx hn (by rw [hI.size]; exact hi)
  exact ⟨v1, s1, h1⟩

/-! ## Disagreement and concrete cases -/

/-- One sphere in dimension 1 with its optimum at 1. -/
def tiny : Cfg Rat := ⟨[fun z => (z.map (· ^ 2)).sum], [[1]], [1]⟩

theorem tiny_ok : Ok tiny := ⟨rfl, rfl⟩

/-- Two calls without copies: the first one for worker 0, selected by its loss, the second one for worker 1, selected as closest. -/
def twoCalls : Option (Rat × St Rat × Rat × St Rat) :=
  match call tiny 1 (fun _ => 1 / 4) .fitness 0 [0] [1] (init tiny 2) with
  | none => none
  | some (v, s) =>
    match call tiny 1 (fun _ => 1 / 4) .distance 1 [0] [0] s with
    | none => none
    | some (v', s') => some (v, s, v', s')

/-- Disagreement: the initial array is shared by all workers. Here training worker 1 also changes the checkpoint of worker 0, whose loss is then the value of a
checkpoint which does not exist any more. -/
theorem shared_checkpoint : ∃ v s v' s', twoCalls = some (v, s, v', s') ∧ s.ckpt 0 ≠ s'.ckpt 0 ∧ s'.fit.getD 0 ⊤ = (v : WithTop Rat) ∧
    value tiny (s'.ckpt 0) ≠ some v := by
  refine ⟨9 / 16, ⟨[[1 / 4]], [0, 0], [[1], [0]], [((9 / 16 : Rat) : WithTop Rat), ⊤]⟩, 25 / 64,
    ⟨[[3 / 8]], [0, 0], [[1], [0]], [((9 / 16 : Rat) : WithTop Rat), ((25 / 64 : Rat) : WithTop Rat)]⟩, ?_, ?_, ?_, ?_⟩ <;> decide +kernel

example : unflatten [2, 1] ([5, 6, 7] : List Rat) = some [[5, 6], [7]] := by decide +kernel
example : argmin ([3, 1, 2, 1] : List Nat) = some (1, 1) := by decide +kernel

end Pbt
end NG
