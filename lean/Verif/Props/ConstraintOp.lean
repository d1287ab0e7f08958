import Verif.Model.ConstraintOp
import Mathlib.Tactic.Common
import Mathlib.Algebra.Order.Ring.Rat

/-!
# C89, C90: the constraint operator and the torch helper
-/

set_option linter.unusedSectionVars false

namespace NG
namespace Cop

variable {X α : Type} [LinearOrder α] [Zero α]

/-- The constraint holds at `x`: no result is positive. -/
def Holds (f : X → List α) (x : X) : Prop := ∀ a ∈ f x, a ≤ 0

theorem satisfied_function (f : X → List α) (x : X) : satisfied (function f x) = true ↔ Holds f x := by
  simp only [satisfied, function, List.all_map, List.all_eq_true, Function.comp, decide_eq_true_eq, Holds]
  constructor
  · intro h a ha
    have := h a ha
    exact not_lt.1 (fun hlt => this (by rw [max_eq_right hlt.le]; exact hlt))
  · intro h a ha
    rw [max_eq_left (h a ha)]
    exact lt_irrefl _

theorem find_first {β : Type} (p : β → Bool) (l : List β) (x : β) (h : l.find? p = some x) : x ∈ l ∧ p x = true := ⟨List.mem_of_find?_eq_some h, List.find?_some h⟩

theorem dominates_iff (a b : List α) : dominates a b = true ↔
    (∀ (i : Nat) (x y : α), a[i]? = some x → b[i]? = some y → x ≤ y) ∧ (∃ (i : Nat) (x y : α), a[i]? = some x ∧ b[i]? = some y ∧ x < y) := by
  induction a generalizing b with
  | nil => simp [dominates]
  | cons x a ih =>
    cases b with
    | nil => simp [dominates]
    | cons y b =>
      have ih := ih b
      simp only [dominates, List.zipWith_cons_cons, List.all_cons, List.any_cons, Bool.and_eq_true, Bool.or_eq_true, id, decide_eq_true_eq, List.all_eq_true, List.any_eq_true] at ih ⊢
      constructor
      · rintro ⟨⟨h1, h2⟩, h3⟩
        have h2' : ∀ (i : Nat) (x y : α), a[i]? = some x → b[i]? = some y → x ≤ y := by
          intro i u v hu hv
          have : decide (u ≤ v) = true := h2 _ (by
            rw [List.mem_iff_getElem?]
            exact ⟨i, by simp [List.getElem?_zipWith, hu, hv]⟩)
          exact of_decide_eq_true this
        refine ⟨?_, ?_⟩
        · intro i u v hu hv
          cases i with
          | zero => simp at hu hv; rw [← hu, ← hv]; exact h1
          | succ i => exact h2' i u v (by simpa using hu) (by simpa using hv)
        · rcases h3 with h3 | ⟨c, hc, hc'⟩
          · exact ⟨0, x, y, rfl, rfl, h3⟩
          · obtain ⟨i, u, v, hu, hv, huv⟩ := (ih.1 ⟨h2, ⟨c, hc, hc'⟩⟩).2
            exact ⟨i + 1, u, v, by simpa using hu, by simpa using hv, huv⟩
      · rintro ⟨h1, i, u, v, hu, hv, huv⟩
        have hall : ∀ c ∈ List.zipWith (fun x y => decide (x ≤ y)) a b, c = true := by
          intro c hc
          rw [List.mem_iff_getElem?] at hc
          obtain ⟨j, hj⟩ := hc
          rw [List.getElem?_zipWith] at hj
          cases ha : a[j]? with
          | none => simp [ha] at hj
          | some s => cases hb : b[j]? with
            | none => simp [ha, hb] at hj
            | some t =>
              simp [ha, hb] at hj
              rw [← hj]
              exact decide_eq_true (h1 (j + 1) s t (by simpa using ha) (by simpa using hb))
        refine ⟨⟨h1 0 x y rfl rfl, hall⟩, ?_⟩
        cases i with
        | zero => simp at hu hv; rw [hu, hv]; exact Or.inl huv
        | succ i =>
          refine Or.inr ⟨decide (u < v), ?_, decide_eq_true huv⟩
          rw [List.mem_iff_getElem?]
          have hu' : a[i]? = some u := by simpa using hu
          have hv' : b[i]? = some v := by simpa using hv
          exact ⟨i, by simp [List.getElem?_zipWith, hu', hv']⟩

/-- Told results are `function` of the candidates, with the same number of results. -/
def Told (f : X → List α) (told : List (X × List α)) : Prop := ∀ p ∈ told, p.2 = function f p.1

/-- One of the candidates is not dominated. -/
theorem pick_exists (told : List (X × List α)) (k : Nat) (hk : ∀ p ∈ told, p.2.length = k) (hne : told ≠ []) : ∃ p, pick told = some p := by
  have hirr : ∀ a : List α, dominates a a = false := by
    intro a
    by_contra h
    rw [Bool.not_eq_false, dominates_iff] at h
    obtain ⟨_, i, x, y, hx, hy, hxy⟩ := h
    rw [hx] at hy; cases hy
    exact lt_irrefl _ hxy
  have htrans : ∀ a b c : List α, a.length = k → b.length = k → c.length = k → dominates a b = true → dominates b c = true → dominates a c = true := by
    intro a b c ha hb hc h1 h2
    rw [dominates_iff] at h1 h2 ⊢
    have hget : ∀ (i : Nat) (x : α), a[i]? = some x → ∃ y, b[i]? = some y := by
      intro i x hx
      have : i < a.length := (List.getElem?_eq_some_iff.1 hx).1
      exact ⟨b[i]'(by omega), List.getElem?_eq_getElem (by omega)⟩
    refine ⟨?_, ?_⟩
    · intro i x z hx hz
      obtain ⟨y, hy⟩ := hget i x hx
      exact le_trans (h1.1 i x y hx hy) (h2.1 i y z hy hz)
    · obtain ⟨i, x, y, hx, hy, hxy⟩ := h1.2
      have hi : i < c.length := by have := (List.getElem?_eq_some_iff.1 hx).1; omega
      exact ⟨i, x, c[i], hx, List.getElem?_eq_getElem hi, lt_of_lt_of_le hxy (h2.1 i y _ hy (List.getElem?_eq_getElem hi))⟩
  -- a minimal element of a nonempty list for a strict order
  have hmin : ∀ l : List (X × List α), (∀ p ∈ l, p.2.length = k) → l ≠ [] → ∃ p ∈ l, ∀ q ∈ l, dominates q.2 p.2 = false := by
    intro l
    induction l with
    | nil => intro _ h; exact absurd rfl h
    | cons a l ih =>
      intro hl _
      by_cases hl0 : l = []
      · subst hl0
        exact ⟨a, by simp, by intro q hq; simp at hq; rw [hq]; exact hirr _⟩
      · obtain ⟨p, hp, hpmin⟩ := ih (fun q hq => hl q (by simp [hq])) hl0
        cases hd : dominates a.2 p.2 with
        | false =>
          refine ⟨p, by simp [hp], ?_⟩
          intro q hq
          rcases List.mem_cons.1 hq with rfl | hq
          · exact hd
          · exact hpmin q hq
        | true =>
          refine ⟨a, by simp, ?_⟩
          intro q hq
          rcases List.mem_cons.1 hq with rfl | hq
          · exact hirr _
          · by_contra hc
            rw [Bool.not_eq_false] at hc
            have := htrans q.2 a.2 p.2 (hl q (by simp [hq])) (hl a (by simp)) (hl p (by simp [hp])) hc hd
            rw [hpmin q hq] at this
            exact absurd this (by simp)
  obtain ⟨p, hp, hpm⟩ := hmin told hk hne
  unfold pick
  cases h : told.find? (fun p => told.all (fun q => !dominates q.2 p.2)) with
  | some r => exact ⟨r, rfl⟩
  | none =>
    rw [List.find?_eq_none] at h
    have := h p hp
    simp only [List.all_eq_true, not_forall] at this
    obtain ⟨q, hq, hc⟩ := this
    rw [hpm q hq] at hc
    exact absurd rfl hc

/-- C89: if one of the candidates told satisfies all constraints, so does the one picked, even with several constraints. -/
theorem pick_satisfied (f : X → List α) (told : List (X × List α)) (k : Nat) (hf : ∀ x, (f x).length = k) (ht : Told f told) (p : X × List α) (hp : p ∈ told) (hs : Holds f p.1) :
    ∃ q, pick told = some q ∧ q ∈ told ∧ Holds f q.1 := by
  have hk : ∀ p ∈ told, p.2.length = k := by intro q hq; rw [ht q hq]; simp [function, hf]
  obtain ⟨q, hq⟩ := pick_exists told k hk (List.ne_nil_of_mem hp)
  obtain ⟨hqm, hqd⟩ := find_first _ _ _ hq
  refine ⟨q, hq, hqm, ?_⟩
  rw [← satisfied_function, ← ht q hqm]
  by_contra hns
  have hnot : ∃ a ∈ q.2, 0 < a := by
    simp only [satisfied, List.all_eq_true, decide_eq_true_eq, not_forall, not_not] at hns
    obtain ⟨a, ha, hpos⟩ := hns
    exact ⟨a, ha, hpos⟩
  have hdom : dominates p.2 q.2 = true := by
    rw [dominates_iff]
    have hp0 : ∀ (i : Nat) (x : α), p.2[i]? = some x → x = 0 := by
      intro i x hx
      have hm := List.mem_of_getElem? hx
      rw [ht p hp] at hm
      simp only [function, List.mem_map] at hm
      obtain ⟨a, ha, rfl⟩ := hm
      exact max_eq_left (hs a ha)
    refine ⟨?_, ?_⟩
    · intro i x y hx hy
      rw [hp0 i x hx]
      have hm := List.mem_of_getElem? hy
      rw [ht q hqm] at hm
      simp only [function, List.mem_map] at hm
      obtain ⟨a, _, rfl⟩ := hm
      exact le_max_left _ _
    · obtain ⟨a, ha, hpos⟩ := hnot
      obtain ⟨i, hi⟩ := List.mem_iff_getElem?.1 ha
      have hlt : i < p.2.length := by have := (List.getElem?_eq_some_iff.1 hi).1; rw [hk p hp]; rw [hk q hqm] at this; exact this
      refine ⟨i, p.2[i], a, List.getElem?_eq_getElem hlt, hi, ?_⟩
      rw [hp0 i _ (List.getElem?_eq_getElem hlt)]
      exact hpos
  have := (List.all_eq_true.1 hqd) p hp
  rw [hdom] at this
  exact absurd this (by simp)

/-- What is told in the end: at most `budget` candidates more, all with their results, and all of them but the last violate a constraint. -/
theorem run_spec (f : X → List α) (k : Nat) (hf : ∀ x, (f x).length = k) (ask : List (X × List α) → X) (b : Nat) (told : List (X × List α)) (ht : Told f told) :
    ∃ new, run f ask b told = told ++ new ∧ new.length ≤ b ∧ Told f (told ++ new) ∧
      (∀ p ∈ (told ++ new).dropLast, new ≠ [] → ¬ Holds f p.1) ∧ (new.length < b → ∃ p ∈ told ++ new, Holds f p.1) := by
  induction b generalizing told with
  | zero => exact ⟨[], by simp [run], by simp, by simpa using ht, by simp, by simp⟩
  | succ b ih =>
    unfold run
    split_ifs with hstop
    · refine ⟨[], by simp, by simp, by simpa using ht, by simp, fun _ => ?_⟩
      obtain ⟨q, hq, hs⟩ : ∃ q, pick told = some q ∧ satisfied q.2 = true := by
        cases hpk : pick told with
        | none => rw [hpk] at hstop; exact absurd hstop (by simp)
        | some q => rw [hpk] at hstop; exact ⟨q, rfl, by simpa using hstop⟩
      obtain ⟨hqm, _⟩ := find_first _ _ _ hq
      refine ⟨q, by simpa using hqm, ?_⟩
      rw [← satisfied_function, ← ht q hqm]
      exact hs
    · have hall : ∀ p ∈ told, ¬ Holds f p.1 := by
        intro p hp hh
        obtain ⟨q, hq, hqm, hqs⟩ := pick_satisfied f told k hf ht p hp hh
        apply hstop
        rw [hq]
        simp only [Option.any_some]
        rw [ht q hqm, satisfied_function]
        exact hqs
      have ht' : Told f (told ++ [(ask told, function f (ask told))]) := by
        intro p hp
        rcases List.mem_append.1 hp with hp | hp
        · exact ht p hp
        · simp at hp; rw [hp]
      obtain ⟨new, h1, h2, h3, h4, h5⟩ := ih (told ++ [(ask told, function f (ask told))]) ht'
      refine ⟨(ask told, function f (ask told)) :: new, by rw [h1]; simp, by simpa using h2, by simpa using h3, ?_, ?_⟩
      · intro p hp _
        by_cases hn : new = []
        · subst hn
          rw [List.dropLast_concat] at hp
          exact hall p hp
        · apply h4 p _ hn
          simpa using hp
      · intro hlt
        obtain ⟨p, hp, hh⟩ := h5 (by simpa using hlt)
        exact ⟨p, by simpa using hp, hh⟩

/-- C89: the solver evaluates at most `budget` candidates and returns one which satisfies the constraints as soon as one was evaluated; it stops there. -/
theorem solve_spec (f : X → List α) (k : Nat) (hf : ∀ x, (f x).length = k) (budget : Nat) (ask : X → List (X × List α) → X) (x : X) :
    ∃ told, told.length ≤ budget ∧ Told f told ∧ (∀ p ∈ told.dropLast, ¬ Holds f p.1) ∧ (told.length < budget → ∃ p ∈ told, Holds f p.1) ∧
      ((∃ p ∈ told, Holds f p.1) → Holds f (solve f budget ask x)) ∧ (told ≠ [] → ∃ p ∈ told, p.1 = solve f budget ask x) ∧ (told = [] → solve f budget ask x = x) := by
  obtain ⟨told, h1, h2, h3, h4, h5⟩ := run_spec f k hf (ask x) budget [] (by intro p hp; simp at hp)
  simp only [List.nil_append] at h1 h3 h4 h5
  refine ⟨told, h2, h3, ?_, h5, ?_, ?_, ?_⟩
  · intro p hp
    exact h4 p hp (by rintro rfl; simp at hp)
  · rintro ⟨p, hp, hh⟩
    obtain ⟨q, hq, _, hs⟩ := pick_satisfied f told k hf h3 p hp hh
    simpa [solve, h1, hq] using hs
  · intro hne
    obtain ⟨q, hq⟩ := pick_exists told k (by intro q hq; rw [h3 q hq]; simp [function, hf]) hne
    exact ⟨q, (find_first _ _ _ hq).1, by simp [solve, h1, hq]⟩
  · rintro rfl
    simp [solve, h1, pick]

/-! ## Reading the value -/

/-- C89: for a container, the value read is the one of its data and of all later reads, and it satisfies the constraints if the data or the recommendation of the solver does. -/
theorem container_read (f : X → List α) (budget : Nat) (ask : Nat → X → List (X × List α) → X) (p : Par X) (hc : p.cache = none) :
    let r := p.readContainer f budget ask
    r.1 = r.2.root ∧ r.2.readContainer f budget ask = (r.1, r.2) ∧ (Holds f p.root → r.1 = p.root) ∧ (¬ Holds f p.root → r.1 = solve f budget (ask p.solved) p.root) := by
  by_cases hs : Holds f p.root
  · have := (satisfied_function f p.root).2 hs
    simp [Par.readContainer, hc, this, hs]
  · have : satisfied (function f p.root) = false := by rw [← Bool.not_eq_true, satisfied_function]; exact hs
    simp [Par.readContainer, hc, this, hs]

/-- The points visited when an array is read: the data, then the recommendations obtained from each other. -/
def visit (f : X → List α) (budget : Nat) (ask : Nat → X → List (X × List α) → X) (p : Par X) : Nat → X
  | 0 => p.root
  | n + 1 => solve f budget (ask (p.solved + n)) (visit f budget ask p n)

/-- Reading an array ends iff one of the points visited satisfies the constraints; the data becomes the first of them, but the value is the first recommendation. -/
theorem data_read (f : X → List α) (budget : Nat) (ask : Nat → X → List (X × List α) → X) (depth : Nat) (p : Par X) (hc : p.cache = none) :
    (∀ n ≤ depth, Holds f (visit f budget ask p n) → (∀ m < n, ¬ Holds f (visit f budget ask p m)) →
      p.readData f budget ask depth = some (visit f budget ask p (min n 1), ⟨visit f budget ask p n, some (visit f budget ask p (min n 1)), p.solved + n⟩)) ∧
    ((∀ n ≤ depth, ¬ Holds f (visit f budget ask p n)) → p.readData f budget ask depth = none) := by
  induction depth generalizing p with
  | zero =>
    constructor
    · intro n hn hh _
      have : n = 0 := by omega
      subst this
      have := (satisfied_function f p.root).2 hh
      simp [Par.readData, hc, this, visit]
    · intro h
      have : satisfied (function f p.root) = false := by rw [← Bool.not_eq_true, satisfied_function]; exact h 0 (le_refl _)
      simp [Par.readData, hc, this]
  | succ depth ih =>
    have hshift : ∀ n, visit f budget ask ⟨solve f budget (ask p.solved) p.root, none, p.solved + 1⟩ n = visit f budget ask p (n + 1) := by
      intro n
      induction n with
      | zero => rfl
      | succ n ihn =>
        rw [visit, visit, ihn]
        congr 2
        show p.solved + 1 + n = p.solved + (n + 1)
        omega
    obtain ⟨ih1, ih2⟩ := ih ⟨solve f budget (ask p.solved) p.root, none, p.solved + 1⟩ rfl
    constructor
    · intro n hn hh hm
      cases n with
      | zero =>
        have := (satisfied_function f p.root).2 hh
        simp [Par.readData, hc, this, visit]
      | succ n =>
        have h0 : satisfied (function f p.root) = false := by rw [← Bool.not_eq_true, satisfied_function]; exact hm 0 (by omega)
        have := ih1 n (by omega) (by rw [hshift]; exact hh) (fun m hmn => by rw [hshift]; exact hm (m + 1) (by omega))
        simp only [Par.readData, hc, h0, Bool.false_eq_true, if_false]
        rw [this]
        simp only [Option.map_some, hshift]
        have e : min (n + 1) 1 = 1 := by omega
        rw [e]
        simp only [visit, Nat.add_zero, Option.some.injEq, Prod.mk.injEq, true_and, Par.mk.injEq]
        omega
    · intro h
      have h0 : satisfied (function f p.root) = false := by rw [← Bool.not_eq_true, satisfied_function]; exact h 0 (by omega)
      have := ih2 (fun n hn => by rw [hshift]; exact h (n + 1) (by omega))
      simp only [Par.readData, hc, h0, Bool.false_eq_true, if_false]
      rw [this]
      rfl

/-- C89, partial: the value of an array satisfies the constraints and is the one of its data, if the data or the first recommendation satisfies them. -/
theorem data_read_partial (f : X → List α) (budget : Nat) (ask : Nat → X → List (X × List α) → X) (depth : Nat) (p : Par X) (hc : p.cache = none)
    (h : Holds f p.root ∨ Holds f (solve f budget (ask p.solved) p.root)) :
    ∃ v p', p.readData f budget ask (depth + 1) = some (v, p') ∧ Holds f v ∧ p'.root = v ∧ (Holds f p.root → v = p.root) := by
  by_cases h0 : Holds f p.root
  · exact ⟨p.root, ⟨p.root, some p.root, p.solved⟩, (data_read f budget ask (depth + 1) p hc).1 0 (by omega) h0 (by omega), h0, rfl, fun _ => rfl⟩
  · have h1 := h.resolve_left h0
    have hm : ∀ m < 1, ¬ Holds f (visit f budget ask p m) := by
      intro m hm
      have : m = 0 := by omega
      subst this
      exact h0
    exact ⟨solve f budget (ask p.solved) p.root, _, (data_read f budget ask (depth + 1) p hc).1 1 (by omega) h1 hm, h1, rfl, fun hh => absurd hh h0⟩

/-- If the first recommendation violates a constraint and a later one does not, the value violates the constraint although the data satisfies it. -/
theorem data_violates (f : X → List α) (budget : Nat) (ask : Nat → X → List (X × List α) → X) (depth n : Nat) (p : Par X) (hc : p.cache = none) (hn : 2 ≤ n) (hd : n ≤ depth)
    (hh : Holds f (visit f budget ask p n)) (hm : ∀ m < n, ¬ Holds f (visit f budget ask p m)) :
    ∃ v p', p.readData f budget ask depth = some (v, p') ∧ ¬ Holds f v ∧ Holds f p'.root ∧ p'.root ≠ v := by
  have hv : ¬ Holds f (visit f budget ask p (min n 1)) := hm _ (by omega)
  exact ⟨_, _, (data_read f budget ask depth p hc).1 n hd hh hm, hv, hh, fun e => hv (e ▸ hh)⟩

/-- Constraints which hold nowhere make the recursion endless, whereas a container gives the recommendation. -/
theorem data_infeasible (f : X → List α) (budget : Nat) (ask : Nat → X → List (X × List α) → X) (depth : Nat) (p : Par X) (hc : p.cache = none) (h : ∀ x, ¬ Holds f x) :
    p.readData f budget ask depth = none := (data_read f budget ask depth p hc).2 (fun _ _ => h _)

/-- Both kinds of reads give the same value again until new data is set, and then forget it. -/
theorem data_cached (f : X → List α) (budget : Nat) (ask : Nat → X → List (X × List α) → X) (depth depth' : Nat) (p p' : Par X) (v : X)
    (h : p.readData f budget ask depth = some (v, p')) : p'.readData f budget ask depth' = some (v, p') ∧ (∀ x, (p'.assign x).cache = none) := by
  have key : p'.cache = some v := by
    cases depth with
    | zero =>
      simp only [Par.readData] at h
      cases hc : p.cache with
      | some w => simp [hc] at h; rw [← h.2, hc, h.1]
      | none =>
        rw [hc] at h
        simp only at h
        split_ifs at h
        cases h; rfl
    | succ depth =>
      simp only [Par.readData] at h
      cases hc : p.cache with
      | some w => simp [hc] at h; rw [← h.2, hc, h.1]
      | none =>
        rw [hc] at h
        simp only at h
        split_ifs at h
        · cases h; rfl
        · simp only [Option.map_eq_some_iff] at h
          obtain ⟨q, _, hq⟩ := h
          cases hq; rfl
  refine ⟨?_, fun x => rfl⟩
  cases depth' <;> simp [Par.readData, key]

/-- A change inside a container is not seen: the value is the old one. -/
theorem container_stale (f : X → List α) (budget : Nat) (ask : Nat → X → List (X × List α) → X) (p : Par X) (x : X) (hc : p.cache = none) :
    (((p.readContainer f budget ask).2.assignInside x).readContainer f budget ask).1 = (p.readContainer f budget ask).1 := by
  by_cases hs : satisfied (function f p.root) = true
  · simp [Par.readContainer, hc, hs, Par.assignInside]
  · rw [Bool.not_eq_true] at hs
    simp [Par.readContainer, hc, hs, Par.assignInside]

/-- Numbers which must not exceed 0; the solver tries the number below its start, once. From 1 one solver is enough. -/
example : (Par.mk (1 : ℤ) none 0).readData (fun x => [x]) 1 (fun _ x _ => x - 1) 5 = some (0, ⟨0, some 0, 1⟩) := by decide

/-- From 3 three solvers are needed: the value is 2, which violates the constraint, and the data 0. -/
example : (Par.mk (3 : ℤ) none 0).readData (fun x => [x]) 1 (fun _ x _ => x - 1) 5 = some (2, ⟨0, some 2, 3⟩) := by decide

/-- A container gives 2 for both. -/
example : (Par.mk (3 : ℤ) none 0).readContainer (fun x => [x]) 1 (fun _ x _ => x - 1) = (2, ⟨2, some 2, 1⟩) := by decide

/-- With two constraints, candidates 5, 3, -1, 7 and budget 4, the solver stops at the third. -/
example : run (fun x : ℤ => [x, x - 4]) (fun told => [5, 3, -1, 7].getD told.length 0) 4 [] = [(5, [5, 1]), (3, [3, 0]), (-1, [0, 0])] := by decide

/-! ## The torch helper -/

/-- C90, partial: from the second step on, the optimizer is told the loss of the module which holds the candidate; the first candidate is told the loss of the initial module. -/
theorem torch_told_partial (ask : List (X × α) → X) (cast : X → X) (loss : X → α) (start : X) (n : Nat) :
    let t := (Torch.init ask start).loop ask cast loss n
    t.told.length = n ∧ (∀ i c l, t.told[i]? = some (c, l) → c = ask (t.told.take i) ∧ l = if i = 0 then loss start else loss (cast c)) ∧
      t.candidate = ask t.told ∧ t.module = if n = 0 then start else cast t.candidate := by
  have key : ∀ n (t : Torch X α), (∀ i c l, t.told[i]? = some (c, l) → c = ask (t.told.take i) ∧ l = if i = 0 then loss start else loss (cast c)) → t.candidate = ask t.told →
      (t.module = if t.told.length = 0 then start else cast t.candidate) →
      let t' := t.loop ask cast loss n
      t'.told.length = t.told.length + n ∧ (∀ i c l, t'.told[i]? = some (c, l) → c = ask (t'.told.take i) ∧ l = if i = 0 then loss start else loss (cast c)) ∧
        t'.candidate = ask t'.told ∧ t'.module = if t'.told.length = 0 then start else cast t'.candidate := by
    intro n
    induction n with
    | zero => intro t h1 h2 h3; exact ⟨rfl, h1, h2, h3⟩
    | succ n ih =>
      intro t h1 h2 h3
      have hstep := ih (t.step ask cast loss) ?_ rfl ?_
      · simp only [Torch.loop] at hstep ⊢
        refine ⟨?_, hstep.2⟩
        rw [hstep.1]
        simp [Torch.step]
        omega
      · intro i c l hi
        simp only [Torch.step] at hi ⊢
        rcases Nat.lt_trichotomy i t.told.length with hlt | heq | hgt
        · rw [List.getElem?_append_left hlt] at hi
          rw [List.take_append_of_le_length hlt.le]
          exact h1 i c l hi
        · subst heq
          simp only [List.getElem?_append_right (le_refl _), Nat.sub_self, List.getElem?_cons_zero, Option.some.injEq, Prod.mk.injEq] at hi
          rw [List.take_left, ← hi.1, ← hi.2, h3]
          refine ⟨h2, ?_⟩
          split_ifs <;> rfl
        · rw [List.getElem?_eq_none (by simp; omega)] at hi
          exact absurd hi (by simp)
      · simp [Torch.step]
  have := key n (Torch.init ask start) (by intro i c l h; simp [Torch.init] at h) rfl (by simp [Torch.init])
  simp only [Torch.init, List.length_nil, Nat.zero_add] at this
  refine ⟨this.1, this.2.1, this.2.2.1, this.2.2.2.trans ?_⟩
  have hn := this.1
  by_cases h0 : n = 0
  · rw [if_pos h0]
    exact if_pos (hn.trans h0)
  · rw [if_neg h0]
    exact if_neg (fun e => h0 (hn.symm.trans e))

/-- So an optimizer whose first candidate is not the initial module is told a wrong loss, whatever the losses at the two points. -/
theorem torch_first (ask : List (X × α) → X) (cast : X → X) (loss : X → α) (start : X) :
    ((Torch.init ask start).step ask cast loss).told = [(ask [], loss start)] := rfl

/-- The optimizer proposes 5 first; the loss told for it is the one of the start 0. -/
example : ((Torch.init (fun told => if told.isEmpty then (5 : ℤ) else 1) 0).loop (fun told => if told.isEmpty then (5 : ℤ) else 1) id (fun x => x * x) 2).told = [(5, 0), (1, 1)] := by decide

end Cop
end NG
