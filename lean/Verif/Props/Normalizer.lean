import Verif.Model.Normalizer
import Mathlib.Tactic.Common
import Mathlib.Tactic.FieldSimp
import Mathlib.Tactic.Ring
import Mathlib.Tactic.Linarith

/-!
# C87: the normalizer
-/

set_option linter.unusedSectionVars false

namespace NG
namespace Norm

variable {F : Type} [Field F] [LinearOrder F]

/-! ## Slices -/

/-- When no parameter fails, each one transforms its own slice of the array, whatever the others. -/
theorem go_slices (turn : Ref F → List F → Option (List F)) (ts : List (Ref F × List F × List F))
    (h : ∀ t ∈ ts, t.2.1.length = t.1.dim ∧ turn t.1 t.2.1 = some t.2.2) :
    go turn (ts.map (·.1)) (ts.map (·.2.1)).flatten = ((ts.map (·.2.2)).flatten, true) := by
  induction ts with
  | nil => rfl
  | cons t ts ih =>
    obtain ⟨h1, h2⟩ := h t (by simp)
    have ih := ih (fun t ht => h t (by simp [ht]))
    simp only [List.map_cons, List.flatten_cons, go]
    rw [← h1, List.take_left, List.drop_left, h2, ih]

/-- When a parameter fails, the slices before it have been transformed and the others have not. -/
theorem go_failure (turn : Ref F → List F → Option (List F)) (ts : List (Ref F × List F × List F)) (p : Ref F) (ps : List (Ref F)) (x rest : List F)
    (h : ∀ t ∈ ts, t.2.1.length = t.1.dim ∧ turn t.1 t.2.1 = some t.2.2) (hx : x.length = p.dim) (hp : turn p x = none) :
    go turn (ts.map (·.1) ++ p :: ps) ((ts.map (·.2.1)).flatten ++ (x ++ rest)) = ((ts.map (·.2.2)).flatten ++ (x ++ rest), false) := by
  induction ts with
  | nil =>
    simp only [List.map_nil, List.nil_append, List.flatten_nil, go]
    rw [← hx, List.take_left, hp]
  | cons t ts ih =>
    obtain ⟨h1, h2⟩ := h t (by simp)
    have ih := ih (fun t ht => h t (by simp [ht]))
    simp only [List.map_cons, List.flatten_cons, go, List.cons_append, List.append_assoc]
    rw [← h1, List.take_left, List.drop_left, h2, ih]

/-! ## Range of forward -/

/-- Entries within bounds. -/
def Within (lo hi : Nat → F) (v : Arr F) : Prop := ∀ i (h : i < v.data.length), lo i ≤ v.data[i] ∧ v.data[i] ≤ hi i

/-- The bounds of a parameter are enforced: they are in order and the values of its bound layers are within them. -/
def Enforced (p : Ref F) : Prop :=
  ∀ lo hi uni refresh f b, Lay.bound (some lo) (some hi) uni refresh f b ∈ p.layers → (∀ i, lo i < hi i) ∧ ∀ v w, f v = some w → Within lo hi w

theorem get_bound_within (lo hi : Option (Nat → F)) (uni refresh : Bool) (f b : Arr F → Option (Arr F)) (l : List (Lay F)) (r : Arr F) (q : Arr F × Arr F)
    (P : Arr F → Prop) (hf : ∀ v w, f v = some w → P w) (h : get (.bound lo hi uni refresh f b :: l) r = some q) : P q.1 := by
  simp only [get] at h
  rw [Option.bind_eq_some_iff] at h
  obtain ⟨p, _, h⟩ := h
  rw [Option.bind_eq_some_iff] at h
  obtain ⟨w, hw, h⟩ := h
  split at h
  · rw [Option.map_eq_some_iff] at h
    obtain ⟨_, _, rfl⟩ := h
    exact hf _ _ hw
  · cases h; exact hf _ _ hw

theorem mem_of_mem_assign (n : Nat) (v : Arr F) (y : List F) (h : assign n v = some y) (hd : v.data ≠ [] ∨ n = 0 ∨ v.shape.getLast? = some n) :
    ∀ a ∈ y, a ∈ v.data := by
  unfold assign at h
  split at h
  · split at h
    · cases h; exact fun a ha => ha
    · next hn =>
      split at h
      · cases h
        intro a ha
        obtain ⟨h0, rfl⟩ := List.mem_replicate.1 ha
        rcases hd with hd | hd | hd
        · cases e : v.data with
          | nil => exact absurd e hd
          | cons c l => simp
        · exact absurd hd h0
        · exact absurd hd hn
      · exact absurd h (by simp)
  · exact absurd h (by simp)

/-- The slice of a parameter with enforced bounds is sent to the unit interval. -/
theorem forward1_range [IsStrictOrderedRing F] (only : Bool) (uf : List F → Option (List F)) (hu : ∀ x y, uf x = some y → ∀ a ∈ y, 0 ≤ a ∧ a ≤ 1) (p : Ref F) (hp : Enforced p)
    (x y : List F) (h : forward1 only uf p x = some y) : ∀ a ∈ y, 0 ≤ a ∧ a ≤ 1 := by
  unfold forward1 at h
  split at h
  · next lo hi uni refresh f b below e =>
    have hm : Lay.bound (some lo) (some hi) uni refresh f b ∈ p.layers := by
      have : Lay.bound (some lo) (some hi) uni refresh f b ∈ p.from only := by rw [e]; simp
      exact (List.dropWhile_sublist _).subset this
    obtain ⟨hlt, hf⟩ := hp _ _ _ _ _ _ hm
    rw [Option.bind_eq_some_iff] at h
    obtain ⟨r, hr, h⟩ := h
    rw [Option.bind_eq_some_iff] at h
    obtain ⟨q, _, h⟩ := h
    rw [Option.bind_eq_some_iff] at h
    obtain ⟨w, hw, h⟩ := h
    have hw1 := get_bound_within _ _ _ _ _ _ _ _ _ (Within lo hi) hf hw
    have hall : ∀ a ∈ (renorm lo hi w.1).data, 0 ≤ a ∧ a ≤ 1 := by
      intro a ha
      simp only [renorm, List.mem_mapIdx] at ha
      obtain ⟨i, hi', rfl⟩ := ha
      obtain ⟨h1, h2⟩ := hw1 i hi'
      have := hlt i
      have h0 : 0 < hi i - lo i := by linarith
      exact ⟨div_nonneg (by linarith) h0.le, (div_le_one h0).2 (by linarith)⟩
    intro a ha
    unfold assign at h
    split at h
    · split at h
      · cases h; exact hall a ha
      · split at h
        · cases h
          obtain ⟨_, rfl⟩ := List.mem_replicate.1 ha
          cases e : (renorm lo hi w.1).data with
          | nil => simp
          | cons c l => exact hall _ (by rw [e]; simp)
        · exact absurd h (by simp)
    · exact absurd h (by simp)
  · exact hu _ _ h

/-- `forward` sends everything to the unit interval, also after a failure, if the bounds are enforced. -/
theorem forward_range [IsStrictOrderedRing F] (working only : Bool) (uf : List F → Option (List F)) (hu : ∀ x y, uf x = some y → ∀ a ∈ y, 0 ≤ a ∧ a ≤ 1) (ps : List (Ref F))
    (hp : ∀ p ∈ ps, Enforced p) (x y : List F) (hx : x.length = (ps.map Ref.dim).sum) (h : forward working only uf ps x = some y) :
    ∀ a ∈ y, 0 ≤ a ∧ a ≤ 1 := by
  unfold forward apply at h
  split at h
  · have key : ∀ (ps : List (Ref F)), (∀ p ∈ ps, Enforced p) → ∀ (x y : List F), x.length = (ps.map Ref.dim).sum → go (forward1 only uf) ps x = (y, true) →
        ∀ a ∈ y, 0 ≤ a ∧ a ≤ 1 := by
      intro ps
      induction ps with
      | nil =>
        intro _ x y hx h
        simp [go] at h hx
        subst h; simp [hx]
      | cons p ps ih =>
        intro hp x y hx h
        simp only [go] at h
        split at h
        · simp at h
        · next z hz =>
          rw [Prod.mk.injEq] at h
          obtain ⟨rfl, h2⟩ := h
          intro a ha
          rcases List.mem_append.1 ha with ha | ha
          · exact forward1_range only uf hu p (hp p (by simp)) _ _ hz a ha
          · refine ih (fun q hq => hp q (by simp [hq])) (x.drop p.dim) _ ?_ (Prod.ext rfl h2) a ha
            simp [hx]
    split at h
    · next z e => cases h; exact key ps hp x y hx e
    · exact hu _ _ h
  · exact hu _ _ h

/-! ## Setting and reading back -/

/-- What is set through the layers is read back, and reading it changes nothing, for values satisfying `P`; `s` and `n` are the shape and the size of the root. -/
def SetGet (l : List (Lay F)) (s : List Nat) (n : Nat) (P : Arr F → Prop) : Prop :=
  ∀ r v, r.shape = s → P v → ∃ r', set l r v = some r' ∧ r'.shape = s ∧ r'.data.length = n ∧ get l r' = some (v, r')

theorem setGet_root (s : List Nat) (n : Nat) : SetGet ([] : List (Lay F)) s n (fun v => v.shape = s ∧ v.data.length = n) := by
  intro r v hr hv
  exact ⟨v, by simp [set, hr, hv.1], hv.1, hv.2, rfl⟩

theorem setGet_op (f b : Arr F → Option (Arr F)) (l : List (Lay F)) (s : List Nat) (n : Nat) (P Q : Arr F → Prop) (h : SetGet l s n P)
    (hb : ∀ v, Q v → ∃ w, b v = some w ∧ P w ∧ f w = some v) : SetGet (.op f b :: l) s n Q := by
  intro r v hr hv
  obtain ⟨w, h1, h2, h3⟩ := hb v hv
  obtain ⟨r', h4, h5, h6, h7⟩ := h r w hr h2
  exact ⟨r', by simp [set, h1, h4], h5, h6, by simp [get, h7, h3]⟩

theorem setGet_bound (lo hi : Option (Nat → F)) (uni refresh : Bool) (f b : Arr F → Option (Arr F)) (l : List (Lay F)) (s : List Nat) (n : Nat)
    (P Q : Arr F → Prop) (h : SetGet l s n P) (hb : ∀ v, Q v → ∃ w, b v = some w ∧ P w ∧ f w = some v ∧ (refresh = true → v = w)) :
    SetGet (.bound lo hi uni refresh f b :: l) s n Q := by
  intro r v hr hv
  obtain ⟨w, h1, h2, h3, h8⟩ := hb v hv
  obtain ⟨r', h4, h5, h6, h7⟩ := h r w hr h2
  refine ⟨r', by simp [set, h1, h4], h5, h6, ?_⟩
  simp only [get, h7, Option.bind_some, h3]
  rw [if_neg (by rintro ⟨g1, g2⟩; exact g2 (h8 g1))]

/-- Bounds by clipping or bouncing: values within the bounds are read back. -/
theorem setGet_clip (lo hi : Nat → F) (uni bounce : Bool) (l : List (Lay F)) (s : List Nat) (n : Nat) (P : Arr F → Prop) (h : SetGet l s n P) :
    SetGet (clipLayer (some lo) (some hi) uni bounce :: l) s n (fun v => P v ∧ Within lo hi v) := by
  apply setGet_bound _ _ _ _ _ _ _ _ _ P _ h
  rintro v ⟨hP, hv⟩
  have : (∀ i (h : i < v.data.length), (∀ k, some lo = some k → k i ≤ v.data[i]) ∧ (∀ u, some hi = some u → v.data[i] ≤ u i)) := by
    intro i hi'
    obtain ⟨h1, h2⟩ := hv i hi'
    exact ⟨by rintro k ⟨rfl⟩; exact h1, by rintro k ⟨rfl⟩; exact h2⟩
  refine ⟨v, ?_, hP, ?_, fun _ => rfl⟩ <;> simp only [decide_eq_true this, if_true]

/-- Clipping and bouncing enforce their bounds. -/
theorem clip_enforced (lo hi : Nat → F) (hlt : ∀ i, lo i < hi i) (bounce : Bool) (v w : Arr F) (uni : Bool) (f b : Arr F → Option (Arr F)) (r : Bool)
    (lo' hi' : Option (Nat → F)) (h : clipLayer (some lo) (some hi) uni bounce = .bound lo' hi' uni r f b) (hw : f v = some w) : Within lo hi w := by
  simp only [clipLayer, Lay.bound.injEq] at h
  obtain ⟨_, _, _, _, rfl, _⟩ := h
  have hc : ∀ i a, lo i ≤ min (max a (lo i)) (hi i) ∧ min (max a (lo i)) (hi i) ≤ hi i :=
    fun i a => ⟨le_min (le_max_right _ _) (hlt i).le, min_le_right _ _⟩
  simp only at hw
  split at hw
  · next hin =>
    cases hw
    simp only [decide_eq_true_eq] at hin
    intro i hi'
    exact ⟨(hin i hi').1 _ rfl, (hin i hi').2 _ rfl⟩
  · cases hw
    intro i hi'
    simp only [List.getElem_mapIdx]
    split
    · exact hc _ _
    · exact hc _ _

theorem setStd_getStd (p : Ref F) (r : Arr F) (hr : r.data.length = p.dim) (hsh : r.shape = p.value.shape) (hs : p.sigma.length = p.dim) (h0 : ∀ a ∈ p.sigma, a ≠ 0) :
    p.setStd (p.getStd r) = some r := by
  have hl : (p.getStd r).length = p.dim := by simp [Ref.getStd, hr, hs, Ref.dim]
  unfold Ref.setStd
  rw [if_pos hl, ← hsh]
  have : List.zipWith (· * ·) p.sigma (List.zipWith (· + ·) (p.getStd r) (List.zipWith (· / ·) p.value.data p.sigma)) = r.data := by
    apply List.ext_getElem
    · simp [hl, hs, hr, Ref.dim]
    · intro i h1 h2
      have hi : i < p.sigma.length := by rw [hs, ← hr]; exact h2
      have := h0 _ (List.getElem_mem hi)
      simp only [Ref.getStd, List.getElem_zipWith]
      field_simp
      ring
  rw [this]

/-- Layers above the bound, which only transform the value. -/
def Above (l : List (Lay F)) : Prop := ∀ a ∈ l, ∃ f b, a = .op f b ∧ ∀ v, (f v).isSome

theorem get_above (above l : List (Lay F)) (h : Above above) (r v r' : Arr F) (hg : get l r = some (v, r')) : ∃ w, get (above ++ l) r = some (w, r') := by
  induction above with
  | nil => exact ⟨v, hg⟩
  | cons a above ih =>
    obtain ⟨w, hw⟩ := ih (fun b hb => h b (by simp [hb]))
    obtain ⟨f, b, rfl, hf⟩ := h a (by simp)
    obtain ⟨z, hz⟩ := Option.isSome_iff_exists.1 (hf w)
    exact ⟨z, by simp [get, hw, hz]⟩

theorem from_above (above : List (Lay F)) (h : Above above) (lo hi : Nat → F) (uni refresh : Bool) (f b : Arr F → Option (Arr F)) (below : List (Lay F)) (only : Bool)
    (ho : only = true → uni = true) (p : Ref F) (hp : p.layers = above ++ .bound (some lo) (some hi) uni refresh f b :: below) :
    p.from only = .bound (some lo) (some hi) uni refresh f b :: below := by
  unfold Ref.from
  rw [hp, List.dropWhile_append_of_pos]
  · rw [List.dropWhile_cons_of_neg]
    cases only with
    | false => simp [usable]
    | true => simp [usable, ho rfl]
  · intro a ha
    obtain ⟨f, b, rfl, _⟩ := h a ha
    rfl

theorem renorm_denorm [IsStrictOrderedRing F] (lo hi : Nat → F) (hlt : ∀ i, lo i < hi i) (v : Arr F) : renorm lo hi (denorm lo hi v) = v := by
  obtain ⟨s, d⟩ := v
  simp only [renorm, denorm, Arr.mk.injEq, true_and]
  apply List.ext_getElem
  · simp
  · intro i h1 h2
    simp only [List.getElem_mapIdx]
    have : hi i - lo i ≠ 0 := by have := hlt i; intro h; linarith
    field_simp
    ring

/-- A vector: its shape has ones, then its size. -/
def Vector (p : Ref F) : Prop := p.value.shape.dropLast.all (· == 1) = true ∧ p.value.shape.getLast? = some p.dim

/-- Samples are placed in the bounds: from a number in the unit interval, the parameter takes the corresponding value between its bounds, at the layer of the bounds; for vectors `forward`
gives the number back. -/
theorem backward1_spec [IsStrictOrderedRing F] (only : Bool) (uf ub : List F → Option (List F)) (p : Ref F) (above below : List (Lay F)) (ha : Above above) (lo hi : Nat → F)
    (uni refresh : Bool) (f b : Arr F → Option (Arr F)) (hp : p.layers = above ++ .bound (some lo) (some hi) uni refresh f b :: below)
    (ho : only = true → uni = true) (hlt : ∀ i, lo i < hi i) (hs : p.sigma.length = p.dim) (h0 : ∀ a ∈ p.sigma, a ≠ 0) (P : Arr F → Prop)
    (hsg : SetGet (.bound (some lo) (some hi) uni refresh f b :: below) p.value.shape p.dim P) (x : List F) (hx : x.length = p.dim)
    (hP : P (denorm lo hi ⟨p.value.shape, x⟩)) :
    ∃ y r, backward1 only ub p x = some y ∧ y.length = p.dim ∧ p.setStd y = some r ∧
      get (.bound (some lo) (some hi) uni refresh f b :: below) r = some (denorm lo hi ⟨p.value.shape, x⟩, r) ∧
      (Vector p → forward1 only uf p y = some x) := by
  obtain ⟨r, h1, h2, h3, h4⟩ := hsg p.value _ rfl hP
  have hfrom := from_above above ha lo hi uni refresh f b below only ho p hp
  have hstd := setStd_getStd p r h3 h2 hs h0
  have hl : (p.getStd r).length = p.dim := by simp [Ref.getStd, h3, hs, Ref.dim]
  refine ⟨p.getStd r, r, ?_, hl, hstd, h4, ?_⟩
  · unfold backward1
    rw [hfrom]
    simp only [hx, if_true, h1, Option.map_some]
  · intro hv
    unfold forward1
    rw [hfrom]
    obtain ⟨w, hw⟩ := get_above above _ ha r _ _ h4
    rw [← hp] at hw
    simp only [hstd, Option.bind_some, hw, h4, renorm_denorm lo hi hlt]
    unfold assign
    simp only [hv.1, if_true, hv.2, hl]

/-- `forward` undoes `backward` for a whole parametrization: if it does so for each parameter. -/
theorem forward_backward (only : Bool) (uf ub : List F → Option (List F)) (ts : List (Ref F × List F × List F))
    (h : ∀ t ∈ ts, t.2.1.length = t.1.dim ∧ t.2.2.length = t.1.dim ∧ backward1 only ub t.1 t.2.1 = some t.2.2 ∧ forward1 only uf t.1 t.2.2 = some t.2.1) :
    backward true only ub (ts.map (·.1)) (ts.map (·.2.1)).flatten = some (ts.map (·.2.2)).flatten ∧
    forward true only uf (ts.map (·.1)) (ts.map (·.2.2)).flatten = some (ts.map (·.2.1)).flatten := by
  constructor
  · unfold backward apply
    rw [if_pos rfl, go_slices _ ts (fun t ht => ⟨(h t ht).1, (h t ht).2.2.1⟩)]
  · have := go_slices (forward1 only uf) (ts.map (fun t => (t.1, t.2.2, t.2.1))) (by
      intro t ht
      obtain ⟨t', ht', rfl⟩ := List.mem_map.1 ht
      exact ⟨(h t' ht').2.1, (h t' ht').2.2.2⟩)
    simp only [List.map_map, Function.comp_def] at this
    unfold forward apply
    rw [if_pos rfl, this]

theorem dropWhile_nil {β : Type} {q : β → Bool} {l : List β} : l.dropWhile q = [] ↔ ∀ a ∈ l, q a = true := by
  induction l with
  | nil => simp
  | cons a l ih =>
    by_cases h : q a = true
    · simp [h, ih]
    · simp [h]

/-- The layers used are those with both bounds, and if only sampling counts those which sample uniformly. -/
theorem usable_iff (only : Bool) (l : Lay F) :
    usable only l = true ↔ ∃ lo hi uni refresh f b, l = .bound (some lo) (some hi) uni refresh f b ∧ (only = true → uni = true) := by
  constructor
  · intro h
    cases l with
    | op f b => simp [usable] at h
    | bound lo hi uni refresh f b =>
      cases lo with
      | none => simp [usable] at h
      | some lo => cases hi with
        | none => simp [usable] at h
        | some hi =>
          refine ⟨lo, hi, uni, refresh, f, b, rfl, ?_⟩
          rintro rfl
          simpa [usable] using h
  · rintro ⟨lo, hi, uni, refresh, f, b, rfl, h⟩
    cases only with
    | false => simp [usable]
    | true => simp [usable, h rfl]

/-- Reading a clipping layer on a single entry. -/
theorem get_clip1 (lo hi : Option (Nat → F)) (uni : Bool) (l : List (Lay F)) (r : Arr F) (a c : F) (r' : Arr F) (hg : get l r = some (⟨[1], [a]⟩, r'))
    (hc : c = (match hi with | none => (match lo with | none => a | some k => max a (k 0)) | some u => min (match lo with | none => a | some k => max a (k 0)) (u 0))) (hlo : ∀ k u, lo = some k → hi = some u → k 0 ≤ u 0)
    (r'' : Arr F) (hs : c ≠ a → set l r' ⟨[1], [c]⟩ = some r'') : get (clipLayer lo hi uni false :: l) r = some (⟨[1], [c]⟩, if c = a then r' else r'') := by
  have hin : (∀ i (h : i < ([a] : List F).length), (∀ k, lo = some k → k i ≤ ([a] : List F)[i]) ∧ (∀ u, hi = some u → ([a] : List F)[i] ≤ u i)) ↔ c = a := by
    constructor
    · intro h
      have h := h 0 (by simp)
      rw [hc]
      cases lo with
      | none => cases hi with
        | none => rfl
        | some u => exact min_eq_left (h.2 u rfl)
      | some k =>
        have h1 : k 0 ≤ a := h.1 k rfl
        cases hi with
        | none => exact max_eq_left h1
        | some u =>
          have h2 : a ≤ u 0 := h.2 u rfl
          simp only [max_eq_left h1, min_eq_left h2]
    · intro h i hi'
      have : i = 0 := by simpa using hi'
      subst this
      simp only [List.getElem_cons_zero]
      constructor
      · rintro k rfl
        rw [← h, hc]
        cases hi with
        | none => exact le_max_right _ _
        | some u => exact le_min (le_max_right _ _) (hlo k u rfl rfl)
      · rintro u rfl
        rw [← h, hc]
        exact min_le_right _ _
  simp only [clipLayer, get, hg, Option.bind_some]
  by_cases e : c = a
  · simp only [decide_eq_true (hin.2 e), if_true, Option.bind_some, e]
    simp
  · simp only [decide_eq_false (fun h => e (hin.1 h)), Bool.false_eq_true, if_false, Option.bind_some, e]
    have hs := hs e
    cases lo <;> cases hi <;> simp only at hc <;> subst hc <;> first | exact absurd rfl e | simp [e, hs]

/-- The value normalized is the one of the parameter after a complete read: a one-sided bound above limits it too. -/
theorem forward1_half (lo hi u v sigma x : F) (hlt : lo < hi) (hu : lo ≤ u) (uf : List F → Option (List F)) :
    forward1 false uf ⟨⟨[1], [v]⟩, [sigma], [clipLayer none (some fun _ => u) false false, clipLayer (some fun _ => lo) (some fun _ => hi) true false]⟩ [x] =
      some [(min (min (max (sigma * (x + v / sigma)) lo) hi) u - lo) / (hi - lo)] := by
  set a := sigma * (x + v / sigma) with ha
  set c := min (max a lo) hi with hcdef
  set d := min c u with hd
  have hsetC : ∀ z : F, lo ≤ z → z ≤ hi → ∀ r : Arr F, r.shape = [1] →
      set [clipLayer (some fun _ => lo) (some fun _ => hi) true false] r ⟨[1], [z]⟩ = some ⟨[1], [z]⟩ := by
    intro z h1 h2 r hr
    have : (∀ i (h : i < ([z] : List F).length), (∀ k : Nat → F, (some fun _ => lo) = some k → k i ≤ ([z] : List F)[i]) ∧ (∀ k : Nat → F, (some fun _ => hi) = some k → ([z] : List F)[i] ≤ k i)) := by
      intro i hi'
      have : i = 0 := by simpa using hi'
      subst this
      exact ⟨by rintro k ⟨rfl⟩; exact h1, by rintro k ⟨rfl⟩; exact h2⟩
    show (if decide (∀ i (h : i < ([z] : List F).length), (∀ k : Nat → F, (some fun _ => lo) = some k → k i ≤ ([z] : List F)[i]) ∧ (∀ k : Nat → F, (some fun _ => hi) = some k → ([z] : List F)[i] ≤ k i)) = true then some (⟨[1], [z]⟩ : Arr F) else none).bind (set [] r) = _
    rw [decide_eq_true this, if_pos rfl]
    simp [set, hr]
  have hc1 : lo ≤ c ∧ c ≤ hi := ⟨le_min (le_max_right _ _) hlt.le, min_le_right _ _⟩
  have hd1 : lo ≤ d ∧ d ≤ hi := ⟨le_min hc1.1 hu, le_trans (min_le_left _ _) hc1.2⟩
  have hfix : ∀ z, lo ≤ z → z ≤ hi → min (max z lo) hi = z := by intro z h1 h2; rw [max_eq_left h1, min_eq_left h2]
  have g1 : get [clipLayer (some fun _ => lo) (some fun _ => hi) true false] (⟨[1], [a]⟩ : Arr F) = some (⟨[1], [c]⟩, if c = a then ⟨[1], [a]⟩ else ⟨[1], [c]⟩) :=
    get_clip1 _ _ _ [] _ a c ⟨[1], [a]⟩ rfl rfl (by rintro k w ⟨rfl⟩ ⟨rfl⟩; exact hlt.le) _ (by intro _; rfl)
  have e1 : (if c = a then (⟨[1], [a]⟩ : Arr F) else ⟨[1], [c]⟩) = ⟨[1], [c]⟩ := by split_ifs with h <;> simp [h]
  rw [e1] at g1
  have g2 := get_clip1 none (some fun _ => u) false _ _ c d _ g1 rfl (by rintro k w ⟨⟩) ⟨[1], [d]⟩ (fun _ => hsetC d hd1.1 hd1.2 _ rfl)
  have e2 : (if d = c then (⟨[1], [c]⟩ : Arr F) else ⟨[1], [d]⟩) = ⟨[1], [d]⟩ := by split_ifs with h <;> simp [h]
  rw [e2] at g2
  have g3 : get [clipLayer (some fun _ => lo) (some fun _ => hi) true false] (⟨[1], [d]⟩ : Arr F) = some (⟨[1], [d]⟩, if d = d then ⟨[1], [d]⟩ else ⟨[1], [d]⟩) :=
    get_clip1 (some fun _ => lo) (some fun _ => hi) _ [] _ d d ⟨[1], [d]⟩ rfl (hfix d hd1.1 hd1.2).symm (by rintro k w ⟨rfl⟩ ⟨rfl⟩; exact hlt.le) _ (by intro h; exact absurd rfl h)
  simp only [forward1, Ref.from, clipLayer, usable, List.dropWhile]
  simp only [clipLayer] at g2 g3
  have hstd : (⟨⟨[1], [v]⟩, [sigma], [clipLayer none (some fun _ => u) false false, clipLayer (some fun _ => lo) (some fun _ => hi) true false]⟩ : Ref F).setStd [x] = some ⟨[1], [a]⟩ := by
    simp [Ref.setStd, Ref.dim, ha]
  simp only [clipLayer] at hstd
  simp only [Option.isSome_none, Option.isSome_some, Bool.false_and, Bool.not_false, Bool.and_self, Bool.or_true, Bool.not_true, Bool.true_or]
  rw [hstd]
  simp only [Option.bind_some]
  rw [g2]
  simp only [Option.bind_some]
  rw [g3]
  simp [assign, renorm]

/-- A variable in [0, 6] with the further bound 3: at two standard deviations above 1 the value is 3, half of the interval. -/
example : forward1 false some ⟨⟨[1], [1]⟩, [1], [clipLayer none (some fun _ => 3) false false, clipLayer (some fun _ => 0) (some fun _ => 6) true false]⟩ [(5 : ℚ)] = some [1 / 2] := by
  rw [forward1_half 0 6 3 1 1 5 (by norm_num) (by norm_num)]; norm_num

/-- A layer with a single bound is not used. -/
example : usable false (clipLayer (some fun _ => (0 : ℚ)) none true false) = false := by decide

/-- Variables without both bounds use the transform of unbounded variables. -/
theorem unbounded (only : Bool) (u : List F → Option (List F)) (p : Ref F) (h : ∀ l ∈ p.layers, usable only l = false) (x : List F) :
    forward1 only u p x = u x ∧ backward1 only u p x = u x := by
  have : p.from only = [] := by
    unfold Ref.from
    rw [dropWhile_nil]
    intro l hl; simp [h l hl]
  simp [forward1, backward1, this]

/-- `fully_bounded` tells whether the transform of unbounded variables is never needed. -/
theorem fullyBounded_iff (ps : List (Ref F)) : fullyBounded ps = true ↔ ∀ p ∈ ps, p.from false ≠ [] := by
  simp only [fullyBounded, List.all_eq_true, List.any_eq_true]
  constructor
  · intro h p hp e
    obtain ⟨l, hl, hu⟩ := h p hp
    have := dropWhile_nil.1 e l hl
    simp [hu] at this
  · intro h p hp
    by_contra hc
    push Not at hc
    apply h p hp
    unfold Ref.from
    rw [dropWhile_nil]
    intro l hl; simpa using hc l hl

/-! ## Failures -/

/-- Disagreement: after a failure, the slices already transformed are transformed a second time. -/
theorem twice_partial (turn : Ref F → List F → Option (List F)) (u : List F → Option (List F)) (ts : List (Ref F × List F × List F)) (p : Ref F) (ps : List (Ref F)) (x rest : List F)
    (h : ∀ t ∈ ts, t.2.1.length = t.1.dim ∧ turn t.1 t.2.1 = some t.2.2) (hx : x.length = p.dim) (hp : turn p x = none) :
    apply true turn u (ts.map (·.1) ++ p :: ps) ((ts.map (·.2.1)).flatten ++ (x ++ rest)) = u ((ts.map (·.2.2)).flatten ++ (x ++ rest)) := by
  unfold apply
  rw [if_pos rfl, go_failure turn ts p ps x rest h hx hp]

/-- Layers which keep the shape of arrays. -/
def KeepsShape : Lay F → Prop
  | .op f _ => ∀ v w, f v = some w → w.shape = v.shape
  | .bound _ _ _ _ f _ => ∀ v w, f v = some w → w.shape = v.shape

theorem set_shape (l : List (Lay F)) (r v r' : Arr F) (h : set l r v = some r') : r'.shape = r.shape := by
  induction l generalizing v with
  | nil =>
    simp only [set] at h
    split at h
    · next e => cases h; exact e
    · exact absurd h (by simp)
  | cons a l ih =>
    cases a <;> simp only [set, Option.bind_eq_some_iff] at h <;> obtain ⟨w, _, h⟩ := h <;> exact ih w h

theorem get_shape (l : List (Lay F)) (r : Arr F) (q : Arr F × Arr F) (h : get l r = some q) :
    q.2.shape = r.shape ∧ ((∀ a ∈ l, KeepsShape a) → q.1.shape = r.shape) := by
  induction l generalizing q with
  | nil => simp only [get] at h; cases h; exact ⟨rfl, fun _ => rfl⟩
  | cons a l ih =>
    cases a with
    | op f b =>
      simp only [get, Option.bind_eq_some_iff, Option.map_eq_some_iff] at h
      obtain ⟨p, h1, w, h2, rfl⟩ := h
      obtain ⟨g1, g2⟩ := ih p h1
      refine ⟨g1, fun hk => ?_⟩
      rw [← g2 (fun a ha => hk a (by simp [ha]))]
      exact hk (.op f b) (by simp) _ _ h2
    | bound lo hi uni refresh f b =>
      simp only [get, Option.bind_eq_some_iff] at h
      obtain ⟨p, h1, w, h2, h⟩ := h
      obtain ⟨g1, g2⟩ := ih p h1
      have e : q.1 = w ∧ q.2.shape = p.2.shape := by
        split at h
        · rw [Option.map_eq_some_iff] at h
          obtain ⟨r', h, rfl⟩ := h
          exact ⟨rfl, set_shape _ _ _ _ h⟩
        · cases h; exact ⟨rfl, rfl⟩
      refine ⟨by rw [e.2, g1], fun hk => ?_⟩
      rw [e.1, ← g2 (fun a ha => hk a (by simp [ha]))]
      exact hk (.bound lo hi uni refresh f b) (by simp) _ _ h2

/-- Disagreement: `forward` fails for every bounded array with several dimensions of more than one entry. -/
theorem forward_matrix (only : Bool) (uf : List F → Option (List F)) (p : Ref F) (hk : ∀ a ∈ p.layers, KeepsShape a) (lo hi : Nat → F) (uni refresh : Bool)
    (f b : Arr F → Option (Arr F)) (below : List (Lay F)) (hfrom : p.from only = .bound (some lo) (some hi) uni refresh f b :: below)
    (hs : ∃ d ∈ p.value.shape.dropLast, d ≠ 1) (x : List F) : forward1 only uf p x = none := by
  cases hh : forward1 only uf p x with
  | none => rfl
  | some y =>
    exfalso
    unfold forward1 at hh
    rw [hfrom] at hh
    simp only [Option.bind_eq_some_iff] at hh
    obtain ⟨r, h1, q, h2, w, h3, h4⟩ := hh
    have hr : r.shape = p.value.shape := by
      unfold Ref.setStd at h1
      split at h1
      · cases h1; rfl
      · exact absurd h1 (by simp)
    have hsub : ∀ a ∈ Lay.bound (some lo) (some hi) uni refresh f b :: below, KeepsShape a := by
      intro a ha
      rw [← hfrom] at ha
      exact hk a ((List.dropWhile_sublist _).subset ha)
    have hw : w.1.shape = p.value.shape := by rw [(get_shape _ _ _ h3).2 hsub, (get_shape _ _ _ h2).1, hr]
    unfold assign at h4
    rw [if_neg] at h4
    · exact absurd h4 (by simp)
    · obtain ⟨d, hd, h1⟩ := hs
      intro hall
      simp only [renorm, hw, List.all_eq_true] at hall
      exact h1 (by simpa using hall d hd)

/-- Disagreement: `backward` fails for every array of angles: the number of entries sent is the one of the coordinates. -/
theorem backward_angles (only : Bool) (ub : List F → Option (List F)) (p : Ref F) (above : List (Lay F)) (ha : Above above) (lo hi : Nat → F) (uni refresh : Bool)
    (f b : Arr F → Option (Arr F)) (cos sin : F → F) (arg : F → F → F) (hb : ∀ v w, b v = some w → w.shape = v.shape)
    (hp : p.layers = above ++ [.bound (some lo) (some hi) uni refresh f b, angleLayer cos sin arg]) (ho : only = true → uni = true) (x : List F) :
    backward1 only ub p x = none := by
  unfold backward1
  rw [from_above above ha lo hi uni refresh f b _ only ho p hp]
  simp only
  split
  · cases e : b (denorm lo hi ⟨p.value.shape, x⟩) with
    | none => simp [set, e]
    | some w =>
      have := hb _ _ e
      simp only [denorm] at this
      simp [set, e, angleLayer, this]
  · rfl

/-! ## Concrete cases -/

/-- A scalar between 0 and 6. -/
def scalar6 : Ref ℚ := ⟨⟨[1], [3]⟩, [1], [clipLayer (some fun _ => 0) (some fun _ => 6) true true]⟩

/-- One angle; the functions do not matter. -/
def oneAngle : Ref ℚ := ⟨⟨[2, 1], [0, 0]⟩, [1, 1], [clipLayer (some fun _ => -3) (some fun _ => 3) true true, angleLayer id id (· + ·)]⟩

/-- Disagreement: with a bounded scalar and an angle, `backward` raises an exception for samples of the unit interval, whatever the transform of unbounded variables, provided that it rejects
numbers outside of the unit interval. -/
theorem backward_raises (ub : List ℚ → Option (List ℚ)) (hub : ∀ x, (∃ a ∈ x, a < 0 ∨ 1 < a) → ub x = none) :
    backward true false ub [scalar6, oneAngle] [1, 1 / 2, 1 / 2] = none := by
  have h1 : backward1 false ub scalar6 [1] = some [3] := by
    have h : backward1 false ub scalar6 [1] =
        (set scalar6.layers scalar6.value (denorm (fun _ => 0) (fun _ => 6) ⟨[1], [1]⟩)).map scalar6.getStd := rfl
    rw [h]
    decide +kernel
  have h2 : backward1 false ub oneAngle [1 / 2, 1 / 2] = none :=
    backward_angles false ub oneAngle [] (by intro a ha; simp at ha) (fun _ => -3) (fun _ => 3) true true _ _ id id (· + ·) (by
      intro v w h
      split at h
      · cases h; rfl
      · exact absurd h (by simp)) rfl (by simp) _
  have := twice_partial (backward1 false ub) ub [(scalar6, [1], [3])] oneAngle [] [1 / 2, 1 / 2] [] (by
    intro t ht; simp at ht; subst ht; exact ⟨rfl, h1⟩) rfl h2
  simp only [List.map_cons, List.map_nil, List.flatten_cons, List.flatten_nil, List.append_nil, List.cons_append, List.nil_append] at this
  unfold backward
  rw [this]
  exact hub _ ⟨3, by simp, Or.inr (by norm_num)⟩

example : backward true false some [scalar6, scalar6] [1 / 2, 1 / 4] = some [0, -3 / 2] := by decide +kernel
example : forward true false some [scalar6, scalar6] [0, -3 / 2] = some [1 / 2, 1 / 4] := by decide +kernel

/-! ## Deterministic sampling -/

/-- After deterministic sampling, however the body changed the layers, their mode is the one from before. -/
theorem detSampling_mode (body : List IntLayer → List IntLayer) (hb : ∀ l, (body l).length = l.length) (det draw : Nat → Int) (ls : List IntLayer) :
    (detSampling body det draw ls).map (·.deterministic) = ls.map (·.deterministic) := by
  apply List.ext_getElem
  · simp [detSampling, hb]
  · intro i h1 h2
    simp [detSampling]

/-- The value left is the deterministic one if the body ended with nothing cached and in deterministic mode. -/
theorem detSampling_value (body : List IntLayer → List IntLayer) (hb : ∀ l, (body l).length = l.length) (det draw : Nat → Int) (ls : List IntLayer)
    (hc : ∀ l ∈ body (ls.map (fun l => { l with deterministic := true })), l.cache = none ∧ l.deterministic = true) (i : Nat) (hi : i < ls.length) (det' draw' : Int) :
    ((detSampling body det draw ls)[i]?.map (fun l => (l.read det' draw').cache)) = some (some (det i)) := by
  have hl : i < (body (ls.map (fun l => { l with deterministic := true }))).length := by simp [hb, hi]
  obtain ⟨h1, h2⟩ := hc _ (List.getElem_mem hl)
  simp only [detSampling, List.getElem?_zipWith, List.getElem?_mapIdx, List.getElem?_eq_getElem hl, Option.map_some, List.getElem?_map, List.getElem?_eq_getElem hi]
  simp [IntLayer.read, h1, h2]

/-- A value cached before and kept by the body survives, even if it was drawn. -/
theorem detSampling_cached (body : List IntLayer → List IntLayer) (det draw : Nat → Int) (ls : List IntLayer) (i : Nat) (hi : i < ls.length) (v : Int)
    (hl : i < (body (ls.map (fun l => { l with deterministic := true }))).length)
    (hc : (body (ls.map (fun l => { l with deterministic := true })))[i].cache = some v) :
    ((detSampling body det draw ls)[i]?.map (·.cache)) = some (some v) := by
  simp only [detSampling, List.getElem?_zipWith, List.getElem?_mapIdx, List.getElem?_eq_getElem hl, Option.map_some, List.getElem?_map, List.getElem?_eq_getElem hi]
  simp [IntLayer.read, hc]

/-- The analysis of a parametrization: deterministic when no integer layer draws, ordered when all of them are, and the largest arity, or `-1` without any. -/
theorem analyze_spec (ls : List IntLayer) :
    ((analyze ls).1 = true ↔ ∀ l ∈ ls, l.deterministic = true) ∧ ((analyze ls).2.2.1 = true ↔ ∀ l ∈ ls, l.ordered = true) ∧
    (∀ l ∈ ls, ∀ n, l.arity = some n → (n : Int) ≤ (analyze ls).2.2.2) ∧
    ((analyze ls).2.2.2 = -1 ↔ ∀ l ∈ ls, l.arity = none) ∧
    ((analyze ls).2.2.2 ≠ -1 → ∃ l ∈ ls, ∃ n, l.arity = some n ∧ (analyze ls).2.2.2 = n) := by
  have key : ∀ (k : List Int) (a : Int), (∀ x ∈ k, x ≤ k.foldl max a) ∧ a ≤ k.foldl max a ∧ (k.foldl max a = a ∨ k.foldl max a ∈ k) := by
    intro k
    induction k with
    | nil => intro a; simp
    | cons c k ih =>
      intro a
      obtain ⟨h1, h2, h3⟩ := ih (max a c)
      simp only [List.foldl_cons]
      refine ⟨?_, le_trans (le_max_left _ _) h2, ?_⟩
      · intro x hx
        rcases List.mem_cons.1 hx with rfl | hx
        · exact le_trans (le_max_right _ _) h2
        · exact h1 x hx
      · rcases h3 with h3 | h3
        · rcases max_choice a c with e | e
          · left; rw [h3, e]
          · right; rw [h3, e]; simp
        · right; simp [h3]
  have hm : ∀ z : Int, z ∈ (ls.filterMap (·.arity)).map (fun n : Nat => (n : Int)) ↔ ∃ l ∈ ls, ∃ n, l.arity = some n ∧ (n : Int) = z := by
    intro z
    rw [List.mem_map]
    simp only [List.mem_filterMap]
    constructor
    · rintro ⟨n, ⟨l, hl, hn⟩, rfl⟩; exact ⟨l, hl, n, hn, rfl⟩
    · rintro ⟨l, hl, n, hn, rfl⟩; exact ⟨n, ⟨l, hl, hn⟩, rfl⟩
  obtain ⟨h1, h2, h3⟩ := key ((ls.filterMap (·.arity)).map (fun n : Nat => (n : Int))) (-1)
  have hle : ∀ l ∈ ls, ∀ n, l.arity = some n → (n : Int) ≤ (analyze ls).2.2.2 := fun l hl n hn => h1 _ ((hm _).2 ⟨l, hl, n, hn, rfl⟩)
  have hex : (analyze ls).2.2.2 ≠ -1 → ∃ l ∈ ls, ∃ n, l.arity = some n ∧ (analyze ls).2.2.2 = n := by
    intro hne
    rcases h3 with h3 | h3
    · exact absurd h3 hne
    · obtain ⟨l, hl, n, hn, e⟩ := (hm _).1 h3
      exact ⟨l, hl, n, hn, e.symm⟩
  refine ⟨by simp [analyze], by simp [analyze], hle, ?_, hex⟩
  constructor
  · intro e l hl
    cases ha : l.arity with
    | none => rfl
    | some n => have := hle l hl n ha; omega
  · intro h
    by_contra hne
    obtain ⟨l, hl, n, hn, _⟩ := hex hne
    rw [h l hl] at hn
    exact absurd hn (by simp)

/-- Disagreement: a parametrization with only drawing integer layers is reported as entirely continuous. -/
theorem analyze_continuous : (∀ ls, (analyze ls).2.1 = true ↔ ∀ l ∈ ls, l.deterministic = false) ∧ (analyze [⟨false, true, none, none⟩]).2.1 = true := by
  constructor
  · intro ls; simp [analyze]
  · rfl

example : analyze [⟨true, true, some 3, none⟩, ⟨false, false, some 5, none⟩] = (false, false, false, 5) := by decide +kernel

end Norm
end NG
