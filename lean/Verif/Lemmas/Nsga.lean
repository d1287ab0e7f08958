import Verif.Model.Nsga
import Mathlib.Tactic.Ring
import Mathlib.Tactic.Linarith
import Mathlib.Data.List.Induction
import Mathlib.Algebra.BigOperators.Fin
import Mathlib.Algebra.Order.BigOperators.Group.Finset

/-!
# Lemmas on the NSGA-II tables and peeling
-/

set_option linter.unusedSectionVars false
namespace NG
namespace Nsga

/-- The comparison says that `a` wins over `b`. -/
def Wins (cmp : Nat → Nat → Int) (a b : Nat) : Prop := cmp a b = -1

instance (cmp : Nat → Nat → Int) (a b : Nat) : Decidable (Wins cmp a b) := by unfold Wins; infer_instance

theorem fold_dominated (cmp : Nat → Nat → Int) (ps : List (Nat × Nat)) (t : Tables) (j i : Nat) :
    ((ps.foldl (cmpStep cmp) t).dominated j).count i =
      (t.dominated j).count i + (if cmp j i = -1 then ps.count (j, i) else 0) + (if cmp i j = 1 then ps.count (i, j) else 0) := by
  induction ps generalizing t with
  | nil => simp
  | cons p ps ih =>
    obtain ⟨a, b⟩ := p
    rw [List.foldl_cons, ih]
    have hstep : ((cmpStep cmp t (a, b)).dominated j).count i = (t.dominated j).count i +
        (if cmp j i = -1 then (if (a, b) = (j, i) then 1 else 0) else 0) +
        (if cmp i j = 1 then (if (a, b) = (i, j) then 1 else 0) else 0) := by
      unfold cmpStep
      by_cases h1 : cmp a b = -1
      · simp only [h1, if_true]
        by_cases hj : j = a
        · subst hj
          simp only [if_true, List.count_append, List.count_singleton]
          by_cases hi : b = i
          · subst hi
            simp only [BEq.rfl, if_true, h1]
            by_cases hc : cmp b j = 1
            · by_cases hjb : j = b
              · subst hjb; simp_all
              · simp [hc, hjb]
            · simp [hc]
          · have h2 : ¬ (b == i) = true := by simpa using hi
            have h3 : ¬ ((j, b) = (j, i)) := by simpa using hi
            simp only [h2, if_false, h3]
            by_cases hc : cmp i j = 1
            · by_cases h4 : (j, b) = (i, j)
              · simp only [Prod.mk.injEq] at h4
                obtain ⟨rfl, rfl⟩ := h4
                simp at hi
              · simp [h4]
            · simp [hc]
        · have h3 : ¬ ((a, b) = (j, i)) := by simp only [Prod.mk.injEq, not_and]; intro h; exact absurd h.symm hj
          simp only [hj, if_false, h3]
          by_cases h4 : (a, b) = (i, j)
          · simp only [Prod.mk.injEq] at h4
            obtain ⟨rfl, rfl⟩ := h4
            have : ¬ cmp a b = 1 := by omega
            simp [this]
          · simp [h4]
      · by_cases h2 : cmp a b = 1
        · have : ¬ cmp a b = -1 := h1
          rw [if_neg h1, if_pos h2]
          simp only
          by_cases hj : j = b
          · subst hj
            simp only [if_true, List.count_append, List.count_singleton]
            by_cases hi : a = i
            · subst hi
              have h5 : ¬ ((a, j) = (j, a) ∧ cmp j a = -1) := by
                rintro ⟨h, h'⟩; simp only [Prod.mk.injEq] at h; obtain ⟨rfl, _⟩ := h; omega
              simp only [BEq.rfl, if_true, h2]
              by_cases hc : cmp j a = -1
              · have : ¬ ((a, j) = (j, a)) := fun h => h5 ⟨h, hc⟩
                simp [this]
              · simp [hc]
            · have h6 : ¬ (a == i) = true := by simpa using hi
              have h3 : ¬ ((a, j) = (i, j)) := by simpa using hi
              simp only [h6, if_false, h3]
              by_cases h4 : (a, j) = (j, i)
              · simp only [Prod.mk.injEq] at h4
                obtain ⟨rfl, rfl⟩ := h4
                simp at hi
              · simp [h4]
          · have h3 : ¬ ((a, b) = (i, j)) := by simp only [Prod.mk.injEq, not_and]; intro _ h; exact absurd h.symm hj
            simp only [hj, if_false, h3]
            by_cases h4 : (a, b) = (j, i)
            · simp only [Prod.mk.injEq] at h4
              obtain ⟨rfl, rfl⟩ := h4
              simp [h1]
            · simp [h4]
        · simp only [h1, h2, if_false]
          by_cases h4 : (a, b) = (j, i)
          · have := h4
            simp only [Prod.mk.injEq] at h4
            obtain ⟨rfl, rfl⟩ := h4
            by_cases h5 : (a, b) = (b, a)
            · simp only [Prod.mk.injEq] at h5
              obtain ⟨rfl, _⟩ := h5
              simp [h1, h2]
            · simp [h1, h5]
          · by_cases h5 : (a, b) = (i, j)
            · simp only [Prod.mk.injEq] at h5
              obtain ⟨rfl, rfl⟩ := h5
              simp [h2, h4]
            · simp [h4, h5]
    rw [hstep, List.count_cons, List.count_cons]
    simp only [beq_iff_eq]
    split_ifs <;> omega

theorem fold_count (cmp : Nat → Nat → Int) (n : Nat) (ps : List (Nat × Nat)) (hps : ∀ p ∈ ps, p.1 < n ∧ p.2 < n) (t : Tables)
    (ht : ∀ i, t.count i = (((List.range n).map (fun j => (t.dominated j).count i)).sum : Nat)) (i : Nat) :
    (ps.foldl (cmpStep cmp) t).count i =
      (((List.range n).map (fun j => ((ps.foldl (cmpStep cmp) t).dominated j).count i)).sum : Nat) := by
  induction ps generalizing t with
  | nil => exact ht i
  | cons p ps ih =>
    rw [List.foldl_cons]
    apply ih (fun q hq => hps q (by simp [hq]))
    intro k
    obtain ⟨h1, h2⟩ := hps p (by simp)
    have upd' : ∀ (g : Nat → List Nat) (a b : Nat), a < n →
      ((List.range n).map (fun j => (if j = a then g a ++ [b] else g j).count k)).sum =
      ((List.range n).map (fun j => (g j).count k)).sum + (if b = k then 1 else 0) := by
      clear ih
      intro g a b ha
      have : ∀ m, ((List.range m).map (fun j => (if j = a then g a ++ [b] else g j).count k)).sum =
          ((List.range m).map (fun j => (g j).count k)).sum + (if a < m then (if b = k then 1 else 0) else 0) := by
        intro m
        induction m with
        | zero => simp
        | succ m ih =>
          rw [List.range_succ, List.map_append, List.sum_append, List.map_append, List.sum_append, ih]
          simp only [List.map_cons, List.map_nil, List.sum_cons, List.sum_nil]
          by_cases hm : m = a
          · subst hm
            simp only [if_true, List.count_append, List.count_singleton, beq_iff_eq, lt_irrefl, if_false, Nat.lt_succ_self]
            omega
          · simp only [hm, if_false]
            by_cases hlt : a < m
            · have h' : a < m + 1 := by omega
              simp only [hlt, h', if_true]; omega
            · have h' : ¬ a < m + 1 := by omega
              simp only [hlt, h', if_false]; omega
      rw [this n, if_pos ha]
    unfold cmpStep
    by_cases c1 : cmp p.1 p.2 = -1
    · simp only [c1, if_true]
      rw [upd' t.dominated p.1 p.2 h1, Nat.cast_add, ← ht k]
      by_cases hk : k = p.2
      · subst hk; simp
      · simp only [hk, if_false, if_neg (Ne.symm hk)]; simp
    · by_cases c2 : cmp p.1 p.2 = 1
      · rw [if_neg c1, if_pos c2]
        simp only
        rw [upd' t.dominated p.2 p.1 h2, Nat.cast_add, ← ht k]
        by_cases hk : k = p.1
        · subst hk; simp
        · simp only [hk, if_false, if_neg (Ne.symm hk)]; simp
      · simp only [c1, c2, if_false]; exact ht k

theorem mem_pairs (n a b : Nat) : (a, b) ∈ pairs n ↔ a < b ∧ b < n := by
  simp only [pairs, List.mem_flatMap, List.mem_range, List.mem_map, List.mem_range'_1, Prod.mk.injEq]
  constructor
  · rintro ⟨c1, h1, c2, ⟨h2, h3⟩, rfl, rfl⟩; omega
  · rintro ⟨h1, h2⟩; exact ⟨a, by omega, b, by omega, rfl, rfl⟩

theorem nodup_pairs (n : Nat) : (pairs n).Nodup := by
  unfold pairs
  rw [List.nodup_flatMap]
  constructor
  · intro c1 _
    exact (List.nodup_range' (step := 1)).map (fun a b h => by simpa using h)
  · refine List.nodup_range.pairwise_of_forall_ne ?_
    intro a _ b _ hab x hx hy
    simp only [List.mem_map] at hx hy
    obtain ⟨_, _, rfl⟩ := hx
    obtain ⟨_, _, h⟩ := hy
    simp only [Prod.mk.injEq] at h
    exact hab h.1.symm

theorem count_pairs (n a b : Nat) : (pairs n).count (a, b) = if a < b ∧ b < n then 1 else 0 := by
  split
  · rename_i h
    exact List.count_eq_one_of_mem (nodup_pairs n) ((mem_pairs n a b).2 h)
  · rename_i h
    exact List.count_eq_zero_of_not_mem (fun hm => h ((mem_pairs n a b).1 hm))

/-- Dominated lists: each loser once. -/
theorem tables_dominated (cmp : Nat → Nat → Int) (hanti : ∀ a b, cmp b a = -cmp a b) (n j i : Nat) :
    ((tables cmp n).dominated j).count i = if j < n ∧ i < n ∧ Wins cmp j i then 1 else 0 := by
  unfold tables
  rw [fold_dominated, count_pairs, count_pairs]
  unfold Wins
  have h := hanti j i
  simp only [List.count_nil]
  by_cases hji : j = i
  · subst hji
    have : cmp j j = 0 := by omega
    simp [this]
  · by_cases hw : cmp j i = -1
    · have : cmp i j = 1 := by omega
      simp only [hw, this, if_true, and_true]
      split_ifs <;> omega
    · have : ¬ cmp i j = 1 := by omega
      simp only [hw, this, if_false, and_false]

theorem tables_count (cmp : Nat → Nat → Int) (n i : Nat) :
    (tables cmp n).count i = (((List.range n).map (fun j => ((tables cmp n).dominated j).count i)).sum : Nat) := by
  unfold tables
  apply fold_count
  · rintro ⟨a, b⟩ hp
    obtain ⟨h1, h2⟩ := (mem_pairs n a b).1 hp
    exact ⟨by simp only; omega, h2⟩
  · intro k
    simp

/-- Lines 181-185 on the flattened list of losers. -/
theorem peel_spec (ds : List Nat) (cnt : Nat → Int) (out : List Nat) :
    (∀ c, (ds.foldl peelOne (cnt, out)).1 c = cnt c - ds.count c) ∧
    ∃ new, (ds.foldl peelOne (cnt, out)).2 = out ++ new ∧ new.Nodup ∧ ∀ c, c ∈ new ↔ 1 ≤ cnt c ∧ cnt c ≤ ds.count c := by
  induction ds generalizing cnt out with
  | nil => exact ⟨by simp, [], by simp, by simp, by intro c; simp; omega⟩
  | cons x ds ih =>
    rw [List.foldl_cons]
    have e : peelOne (cnt, out) x = (fun i => if i = x then cnt x - 1 else cnt i, if cnt x - 1 = 0 then out ++ [x] else out) := rfl
    rw [e]
    obtain ⟨h1, new, h2, h3, h4⟩ := ih (fun i => if i = x then cnt x - 1 else cnt i) (if cnt x - 1 = 0 then out ++ [x] else out)
    constructor
    · intro c
      rw [h1 c, List.count_cons]
      by_cases hc : c = x
      · subst hc; simp; ring
      · have : ¬ (x == c) = true := by simpa using (Ne.symm hc)
        simp [hc, this]
    · by_cases hx : cnt x - 1 = 0
      · refine ⟨x :: new, ?_, ?_, ?_⟩
        · rw [h2]; simp [hx]
        · refine List.nodup_cons.2 ⟨?_, h3⟩
          intro hm
          have := (h4 x).1 hm
          simp only [if_true] at this
          omega
        · intro c
          rw [List.mem_cons, h4 c, List.count_cons]
          by_cases hc : c = x
          · subst hc; simp; omega
          · have : ¬ (x == c) = true := by simpa using (Ne.symm hc)
            simp [hc, this]
      · refine ⟨new, ?_, h3, ?_⟩
        · rw [h2]; simp [hx]
        · intro c
          rw [h4 c, List.count_cons]
          by_cases hc : c = x
          · subst hc; simp; omega
          · have : ¬ (x == c) = true := by simpa using (Ne.symm hc)
            simp [hc, this]

theorem peel_flat (dom : Nat → List Nat) (cnt : Nat → Int) (front : List Nat) :
    peel dom cnt front = (front.flatMap dom).foldl peelOne (cnt, []) := by
  unfold peel
  generalize (cnt, ([] : List Nat)) = s
  induction front generalizing s with
  | nil => rfl
  | cons x l ih => rw [List.foldl_cons, ih, List.flatMap_cons, List.foldl_append]

/-- Specification of peeling relative to the already ranked candidates `D`: each front consists of the remaining
candidates over which no remaining candidate wins, until no such candidate is left. -/
def PeelSpec (W : Nat → Nat → Prop) (n : Nat) : List Nat → List (List Nat) → Prop
  | D, [] => ∀ c < n, c ∉ D → ∃ j < n, j ∉ D ∧ W j c
  | D, f :: fs => f ≠ [] ∧ f.Nodup ∧ (∀ c, c ∈ f ↔ (c < n ∧ c ∉ D) ∧ ∀ j < n, j ∉ D → ¬ W j c) ∧ PeelSpec W n (D ++ f) fs

/-- Remaining winners over `c`. -/
def left (cmp : Nat → Nat → Int) (n : Nat) (D : List Nat) (c : Nat) : Nat :=
  ((List.range n).filter (fun j => decide (j ∉ D) && decide (Wins cmp j c))).length

theorem left_pos (cmp : Nat → Nat → Int) (n : Nat) (D : List Nat) (c : Nat) :
    left cmp n D c = 0 ↔ ∀ j < n, j ∉ D → ¬ Wins cmp j c := by
  unfold left
  rw [List.length_eq_zero_iff, List.filter_eq_nil_iff]
  simp only [List.mem_range, Bool.and_eq_true, decide_eq_true_eq, not_and]

theorem sum_count_front (g : Nat → Nat) (l : List Nat) : (l.map g).sum = l.foldr (fun a s => g a + s) 0 := by
  induction l with
  | nil => rfl
  | cons a l ih => simp [ih]

theorem count_flatMap' (dom : Nat → List Nat) (front : List Nat) (c : Nat) :
    (front.flatMap dom).count c = (front.map (fun j => (dom j).count c)).sum := by
  induction front with
  | nil => rfl
  | cons a l ih => rw [List.flatMap_cons, List.count_append, ih]; simp

theorem sum_ite_length (l : List Nat) (p : Nat → Bool) : (l.map (fun j => if p j then 1 else 0)).sum = (l.filter p).length := by
  induction l with
  | nil => rfl
  | cons a l ih => cases h : p a <;> simp [h, ih]; omega

/-- Winners left = winners in the front + winners left after it. -/
theorem left_append (cmp : Nat → Nat → Int) (n : Nat) (D F : List Nat) (hF : F.Nodup) (hD : ∀ j ∈ F, j < n ∧ j ∉ D) (c : Nat) :
    left cmp n D c = (F.filter (fun j => decide (Wins cmp j c))).length + left cmp n (D ++ F) c := by
  unfold left
  have h1 : (F.filter (fun j => decide (Wins cmp j c))).length =
      ((List.range n).filter (fun j => decide (j ∈ F) && decide (Wins cmp j c))).length := by
    apply List.Perm.length_eq
    rw [List.perm_ext_iff_of_nodup (hF.filter _) (List.nodup_range.filter _)]
    intro j
    simp only [List.mem_filter, List.mem_range, Bool.and_eq_true, decide_eq_true_eq]
    constructor
    · rintro ⟨h, h'⟩; exact ⟨(hD j h).1, h, h'⟩
    · rintro ⟨_, h, h'⟩; exact ⟨h, h'⟩
  rw [h1]
  have : ∀ l : List Nat, (l.filter (fun j => decide (j ∉ D) && decide (Wins cmp j c))).length =
      (l.filter (fun j => decide (j ∈ F) && decide (Wins cmp j c))).length +
      (l.filter (fun j => decide (j ∉ D ++ F) && decide (Wins cmp j c))).length := by
    intro l
    induction l with
    | nil => rfl
    | cons a l ih =>
      by_cases hw : Wins cmp a c
      · by_cases hF' : a ∈ F
        · have := (hD a hF').2
          simp [List.filter_cons, hw, hF', this] at ih ⊢; omega
        · by_cases hD' : a ∈ D
          · simp [List.filter_cons, hw, hF', hD'] at ih ⊢; omega
          · simp [List.filter_cons, hw, hF', hD'] at ih ⊢; omega
      · simp [List.filter_cons, hw] at ih ⊢; omega
  exact this _

theorem loop_spec (cmp : Nat → Nat → Int) (hanti : ∀ a b, cmp b a = -cmp a b) (n : Nat) (fuel : Nat) (D F : List Nat)
    (cnt : Nat → Int) (hDn : D.Nodup) (hDlt : ∀ c ∈ D, c < n) (hDc : ∀ c ∈ D, left cmp n D c = 0)
    (hFn : F.Nodup) (hF : ∀ c, c ∈ F ↔ (c < n ∧ c ∉ D) ∧ left cmp n D c = 0)
    (hcnt : ∀ c < n, cnt c = left cmp n D c) (hcnt' : ∀ c, n ≤ c → cnt c ≤ 0) (hfuel : n < fuel + D.length) :
    PeelSpec (Wins cmp) n D (loop (tables cmp n).dominated fuel cnt F) := by
  induction fuel generalizing D F cnt with
  | zero =>
    have : D.length ≤ n := by
      have := hDn.length_le_of_subset (l₂ := List.range n) (fun c hc => List.mem_range.2 (hDlt c hc))
      simpa using this
    omega
  | succ fuel ih =>
    unfold loop
    by_cases hFe : F = []
    · subst hFe
      simp only [List.isEmpty_nil, if_true]
      intro c hc hcD
      by_contra hno
      push Not at hno
      have : c ∈ ([] : List Nat) := (hF c).2 ⟨⟨hc, hcD⟩, (left_pos cmp n D c).2 hno⟩
      simp at this
    · have : F.isEmpty = false := by simpa using hFe
      simp only [this, Bool.false_eq_true, if_false]
      have hFD : ∀ j ∈ F, j < n ∧ j ∉ D := fun j hj => ((hF j).1 hj).1
      refine ⟨hFe, hFn, ?_, ?_⟩
      · intro c; rw [hF c, left_pos]
      · rw [peel_flat]
        obtain ⟨h1, new, h2, h3, h4⟩ := peel_spec (F.flatMap (tables cmp n).dominated) cnt []
        have hcount : ∀ c, (F.flatMap (tables cmp n).dominated).count c =
            if c < n then (F.filter (fun j => decide (Wins cmp j c))).length else 0 := by
          intro c
          rw [count_flatMap']
          by_cases hc : c < n
          · rw [if_pos hc, ← sum_ite_length]
            congr 1
            apply List.map_congr_left
            intro j hj
            rw [tables_dominated cmp hanti]
            simp [(hFD j hj).1, hc]
          · rw [if_neg hc]
            apply List.sum_eq_zero
            intro x hx
            obtain ⟨j, hj, rfl⟩ := List.mem_map.1 hx
            rw [tables_dominated cmp hanti]
            simp [hc]
        have hleft := fun c => left_append cmp n D F hFn hFD c
        rw [h2, List.nil_append]
        apply ih
        · rw [List.nodup_append]
          refine ⟨hDn, hFn, ?_⟩
          intro a ha b hb hab
          subst hab
          exact (hFD a hb).2 ha
        · intro c hc
          rcases List.mem_append.1 hc with h | h
          · exact hDlt c h
          · exact (hFD c h).1
        · intro c hc
          have := hleft c
          rcases List.mem_append.1 hc with h | h
          · have := hDc c h; omega
          · have := ((hF c).1 h).2; omega
        · exact h3
        · intro c
          rw [h4 c, hcount c]
          constructor
          · rintro ⟨g1, g2⟩
            have hc : c < n := by
              by_contra hge
              have := hcnt' c (by omega)
              omega
            rw [if_pos hc] at g2
            rw [hcnt c hc] at g1 g2
            have := hleft c
            refine ⟨⟨hc, ?_⟩, by omega⟩
            intro hm
            rcases List.mem_append.1 hm with h | h
            · have := hDc c h; omega
            · have := ((hF c).1 h).2; omega
          · rintro ⟨⟨hc, hn⟩, hz⟩
            rw [if_pos hc, hcnt c hc]
            have := hleft c
            refine ⟨?_, by omega⟩
            by_contra hlt
            apply hn
            apply List.mem_append.2
            right
            refine (hF c).2 ⟨⟨hc, fun h => hn (List.mem_append_left _ h)⟩, by omega⟩
        · intro c hc
          rw [h1 c, hcount c, if_pos hc, hcnt c hc]
          have := hleft c
          omega
        · intro c hc
          rw [h1 c, hcount c, if_neg (by omega)]
          have := hcnt' c hc
          omega
        · have : 0 < F.length := List.length_pos_iff.2 hFe
          rw [List.length_append]; omega

theorem left_nil (cmp : Nat → Nat → Int) (hanti : ∀ a b, cmp b a = -cmp a b) (n c : Nat) (hc : c < n) :
    (tables cmp n).count c = left cmp n [] c := by
  rw [tables_count]
  unfold left
  congr 1
  rw [← sum_ite_length]
  congr 1
  apply List.map_congr_left
  intro j hj
  rw [tables_dominated cmp hanti]
  simp [List.mem_range.1 hj, hc]

/-- The fronts are the iterated peeling. -/
theorem fronts_spec (cmp : Nat → Nat → Int) (hanti : ∀ a b, cmp b a = -cmp a b) (n : Nat) :
    PeelSpec (Wins cmp) n [] (fronts cmp n) := by
  unfold fronts
  apply loop_spec cmp hanti
  · simp
  · simp
  · simp
  · exact List.nodup_range.filter _
  · intro c
    simp only [List.mem_filter, List.mem_range, decide_eq_true_eq, List.not_mem_nil, not_false_eq_true, and_true]
    constructor
    · rintro ⟨h1, h2⟩; rw [left_nil cmp hanti n c h1] at h2; exact ⟨h1, by omega⟩
    · rintro ⟨h1, h2⟩; rw [left_nil cmp hanti n c h1]; exact ⟨h1, by omega⟩
  · intro c hc; exact left_nil cmp hanti n c hc
  · intro c hc
    rw [tables_count]
    have : ((List.range n).map (fun j => ((tables cmp n).dominated j).count c)).sum = 0 := by
      apply List.sum_eq_zero
      intro x hx
      obtain ⟨j, hj, rfl⟩ := List.mem_map.1 hx
      rw [tables_dominated cmp hanti, if_neg (by omega)]
    rw [this]; simp
  · simp

end Nsga
end NG
