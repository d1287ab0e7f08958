import Verif.Lemmas.Nsga
import Verif.Props.Pareto

/-!
# C18: NSGA-II fronts

The specification is the textbook definition of non-dominated sorting: layer 0 consists of the candidates that nothing
beats, layer `i + 1` of the remaining candidates that nothing remaining beats.
-/

set_option linter.unusedSectionVars false
namespace NG
namespace Nsga
variable {α : Type} [LinearOrder α] {d : Nat}

open Pareto (Dominates)

/-- Specification: candidates left when the first `i` layers have been taken away, for a relation "beats". -/
def Remaining (beats : Nat → Nat → Prop) (n : Nat) : Nat → Nat → Prop
  | 0, c => c < n
  | i + 1, c => Remaining beats n i c ∧ ∃ j, Remaining beats n i j ∧ beats j c

/-- Specification: the `i`-th layer. -/
def Layer (beats : Nat → Nat → Prop) (n i c : Nat) : Prop :=
  Remaining beats n i c ∧ ∀ j, Remaining beats n i j → ¬ beats j c

/-- Specification: strictly better on strictly more objectives than it is strictly worse on. -/
def Majority (a b : Fin d → α) : Prop :=
  (Finset.univ.filter (fun i => b i < a i)).card < (Finset.univ.filter (fun i => a i < b i)).card

theorem remaining_lt {B : Nat → Nat → Prop} {n i c : Nat} (h : Remaining B n i c) : c < n := by
  induction i with
  | zero => exact h
  | succ i ih => exact ih h.1

theorem remaining_zero_of {B : Nat → Nat → Prop} {n i c : Nat} (k : Nat) (h : Remaining B n (i + k) c) : Remaining B n i c := by
  induction k with
  | zero => exact h
  | succ k ih => exact ih h.1

/-- Peeled fronts are the layers. -/
theorem peelSpec_layer (B : Nat → Nat → Prop) (n : Nat) (fs : List (List Nat)) (D : List Nat) (k : Nat)
    (hD : ∀ c, Remaining B n k c ↔ c < n ∧ c ∉ D) (h : PeelSpec B n D fs) :
    (∀ i (hi : i < fs.length) c, c ∈ fs[i] ↔ Layer B n (k + i) c) ∧
    (∀ c, ¬ Layer B n (k + fs.length) c) ∧ (∀ f ∈ fs, f ≠ []) ∧ fs.flatten.Nodup ∧ (∀ c ∈ fs.flatten, c < n ∧ c ∉ D) := by
  induction fs generalizing D k with
  | nil =>
    refine ⟨by simp, ?_, by simp, by simp, by simp⟩
    intro c hc
    obtain ⟨h1, h2⟩ := hc
    simp only [List.length_nil, Nat.add_zero] at h1 h2
    obtain ⟨g1, g2⟩ := (hD c).1 h1
    obtain ⟨j, hj, hjD, hw⟩ := h c g1 g2
    exact h2 j ((hD j).2 ⟨hj, hjD⟩) hw
  | cons f fs ih =>
    obtain ⟨hne, hnd, hmem, hrest⟩ := h
    have hlayer : ∀ c, c ∈ f ↔ Layer B n k c := by
      intro c
      rw [hmem c]
      unfold Layer
      constructor
      · rintro ⟨h1, h2⟩
        exact ⟨(hD c).2 h1, fun j hj => h2 j ((hD j).1 hj).1 ((hD j).1 hj).2⟩
      · rintro ⟨h1, h2⟩
        exact ⟨(hD c).1 h1, fun j h3 h4 => h2 j ((hD j).2 ⟨h3, h4⟩)⟩
    have hD' : ∀ c, Remaining B n (k + 1) c ↔ c < n ∧ c ∉ D ++ f := by
      intro c
      have hl := hlayer c
      unfold Layer at hl
      show (Remaining B n k c ∧ ∃ j, Remaining B n k j ∧ B j c) ↔ _
      rw [List.mem_append, not_or, hl]
      constructor
      · rintro ⟨h1, j, h2, h3⟩
        have := (hD c).1 h1
        exact ⟨this.1, this.2, fun hh => hh.2 j h2 h3⟩
      · rintro ⟨h1, h2, h3⟩
        have h4 := (hD c).2 ⟨h1, h2⟩
        refine ⟨h4, ?_⟩
        by_contra hno
        push Not at hno
        exact h3 ⟨h4, hno⟩
    obtain ⟨i1, i2, i3, i4, i5⟩ := ih (D ++ f) (k + 1) hD' hrest
    refine ⟨?_, ?_, ?_, ?_, ?_⟩
    · intro i hi c
      cases i with
      | zero => exact hlayer c
      | succ i =>
        have := i1 i (by simpa using hi) c
        rw [List.getElem_cons_succ, this]
        have e : k + 1 + i = k + (i + 1) := by omega
        rw [e]
    · intro c
      have e : k + 1 + fs.length = k + (f :: fs).length := by simp; omega
      rw [← e]; exact i2 c
    · intro g hg
      rcases List.mem_cons.1 hg with rfl | hg
      · exact hne
      · exact i3 g hg
    · rw [List.flatten_cons, List.nodup_append]
      refine ⟨hnd, i4, ?_⟩
      intro a ha b hb hab
      subst hab
      exact (i5 a hb).2 (List.mem_append_right _ ha)
    · intro c hc
      rw [List.flatten_cons, List.mem_append] at hc
      rcases hc with hc | hc
      · exact ((hmem c).1 hc).1
      · have := i5 c hc
        exact ⟨this.1, fun h => this.2 (List.mem_append_left _ h)⟩

theorem compare_antisymm (a b : Fin d → α) : compare b a = - compare a b := by
  unfold compare
  split_ifs <;> omega

theorem compare_iff (a b : Fin d → α) : compare a b = -1 ↔ Majority a b := by
  have e : Majority a b ↔ wins b a < wins a b := Iff.rfl
  rw [e]
  unfold compare
  split_ifs with h1 h2
  · simp [h1]
  · simp [h1]
  · simp [h1]

theorem trim_none (c : Nat) (fs : List (List Nat)) : trim none c fs = fs := by
  induction fs generalizing c with
  | nil => rfl
  | cons f fs ih => simp only [trim, ih]

/-- C18, any number of objectives: front `i` of `compute_ranking` is exactly the `i`-th layer for the relation "wins
on a majority of the objectives in which they differ"; the fronts are not empty, no candidate appears twice, and after
the last front every remaining candidate is beaten by a remaining one. -/
theorem fronts_majority (losses : Nat → Fin d → α) (n : Nat) :
    let fs := computeRanking losses n none
    let B := fun a b => Majority (losses a) (losses b)
    (∀ i (hi : i < fs.length) c, c ∈ fs[i] ↔ Layer B n i c) ∧ (∀ c, ¬ Layer B n fs.length c) ∧
    (∀ f ∈ fs, f ≠ []) ∧ fs.flatten.Nodup ∧ (∀ c ∈ fs.flatten, c < n) := by
  intro fs B
  have e : fs = fronts (fun a b => compare (losses a) (losses b)) n := trim_none 0 _
  have hB : (fun a b => Wins (fun a b => compare (losses a) (losses b)) a b) = B := by
    funext a b; exact propext (compare_iff _ _)
  have h := fronts_spec (fun a b => compare (losses a) (losses b)) (fun a b => compare_antisymm (losses a) (losses b)) n
  rw [← e] at h
  change PeelSpec (fun a b => Wins (fun a b => compare (losses a) (losses b)) a b) n [] fs at h
  rw [hB] at h
  obtain ⟨h1, h2, h3, h4, h5⟩ := peelSpec_layer B n fs [] 0 (by simp [Remaining]) h
  simp only [Nat.zero_add] at h1 h2
  exact ⟨h1, h2, h3, h4, fun c hc => (h5 c hc).1⟩

theorem trim_some (k c : Nat) (fs : List (List Nat)) : ∃ m ≤ fs.length, trim (some k) c fs = fs.take m ∧
    (m = fs.length ∨ k ≤ c + (fs.take m).flatten.length) ∧ (∀ j < m, 1 ≤ j → c + (fs.take j).flatten.length < k) ∧ (fs ≠ [] → 1 ≤ m) := by
  induction fs generalizing c with
  | nil => exact ⟨0, Nat.le_refl _, rfl, Or.inl rfl, by simp, by simp⟩
  | cons f fs ih =>
    by_cases hk : k ≤ c + f.length
    · refine ⟨1, by simp, by simp [trim, hk], Or.inr (by simpa using hk), by omega, by simp⟩
    · obtain ⟨m, h1, h2, h3, h4, _⟩ := ih (c + f.length)
      refine ⟨m + 1, by simpa using h1, by simp [trim, hk, h2], ?_, ?_, by simp⟩
      · rcases h3 with h3 | h3
        · exact Or.inl (by simp [h3])
        · right
          simp only [List.take_succ_cons, List.flatten_cons, List.length_append]
          omega
      · intro j hj h1
        obtain ⟨j, rfl⟩ : ∃ i, j = i + 1 := ⟨j - 1, by omega⟩
        simp only [List.take_succ_cons, List.flatten_cons, List.length_append]
        by_cases h0 : j = 0
        · subst h0; simp; omega
        · have := h4 j (by omega) (by omega)
          omega

/-- C18 with a number of candidates of interest: the fronts returned are the first ones, just as many as needed to cover this number (all of them when
it is out of reach). -/
theorem fronts_trimmed (losses : Nat → Fin d → α) (n k : Nat) :
    ∃ m, computeRanking losses n (some k) = (computeRanking losses n none).take m ∧
      (computeRanking losses n (some k) = computeRanking losses n none ∨ k ≤ (computeRanking losses n (some k)).flatten.length) ∧
      (∀ j < m, 1 ≤ j → ((computeRanking losses n none).take j).flatten.length < k) := by
  unfold computeRanking
  rw [trim_none]
  obtain ⟨m, h1, h2, h3, h4, _⟩ := trim_some k 0 (fronts (fun a b => compare (losses a) (losses b)) n)
  refine ⟨m, h2, ?_, by simpa using h4⟩
  rw [h2]
  rcases h3 with h3 | h3
  · exact Or.inl (by rw [h3, List.take_length])
  · exact Or.inr (by simpa using h3)

/-- A dominating candidate always wins the comparison. -/
theorem majority_of_dominates (a b : Fin d → α) (h : Dominates a b) : Majority a b := by
  unfold Majority
  have : (Finset.univ.filter (fun i => b i < a i)) = ∅ := by
    rw [Finset.filter_eq_empty_iff]
    intro i _
    exact not_lt.2 (h.1 i)
  rw [this, Finset.card_empty, Finset.card_pos]
  obtain ⟨i, hi⟩ := h.2
  exact ⟨i, by simpa using hi⟩

/-- With at most two objectives the comparison is Pareto dominance. -/
theorem majority_iff_dominates (hd : d ≤ 2) (a b : Fin d → α) : Majority a b ↔ Dominates a b := by
  refine ⟨?_, majority_of_dominates a b⟩
  intro h
  unfold Majority at h
  rw [Finset.card_filter, Finset.card_filter] at h
  unfold Dominates
  match d, hd with
  | 0, _ => simp at h
  | 1, _ =>
    simp only [Finset.univ_unique, Fin.default_eq_zero, Finset.sum_singleton, Fin.isValue] at h
    have : a 0 < b 0 := by
      by_contra hn; simp [hn] at h
    exact ⟨fun i => by rw [Subsingleton.elim i 0]; exact this.le, 0, this⟩
  | 2, _ =>
    rw [Fin.sum_univ_two, Fin.sum_univ_two] at h
    rcases lt_trichotomy (a 0) (b 0) with h0 | h0 | h0 <;> rcases lt_trichotomy (a 1) (b 1) with h1 | h1 | h1 <;>
      simp [h0, h1, h0.le, h1.le, not_lt.2 h0.le, not_lt.2 h1.le] at h
    all_goals
      refine ⟨?_, ?_⟩
      · intro i
        rcases Fin.exists_fin_two.1 ⟨i, rfl⟩ with hi | hi <;> rw [hi] <;> first | exact h0.le | exact h1.le
      · first | exact ⟨0, h0⟩ | exact ⟨1, h1⟩

theorem dominates_trans {a b c : Fin d → α} (h : Dominates a b) (h' : Dominates b c) : Dominates a c := by
  obtain ⟨i, hi⟩ := h.2
  exact ⟨fun j => (h.1 j).trans (h'.1 j), i, lt_of_lt_of_le hi (h'.1 i)⟩

theorem dominates_irrefl (a : Fin d → α) : ¬ Dominates a a := fun ⟨_, _, hi⟩ => lt_irrefl _ hi

/-- For a strict order, as long as something remains the layer is not empty. -/
theorem layer_nonempty (B : Nat → Nat → Prop) (n i : Nat) (htr : ∀ a b c, B a b → B b c → B a c) (hir : ∀ a, ¬ B a a)
    (c : Nat) (hc : Remaining B n i c) : ∃ x, Layer B n i x := by
  classical
  -- strong induction on the number of candidates beating `c`
  have main : ∀ m : Nat, ∀ c, Remaining B n i c → ((Finset.range n).filter (fun j => B j c)).card = m → ∃ x, Layer B n i x := by
    intro m
    induction m using Nat.strong_induction_on with
    | _ m ih =>
      intro c hc hm
      by_cases hl : ∀ j, Remaining B n i j → ¬ B j c
      · exact ⟨c, hc, hl⟩
      · push Not at hl
        obtain ⟨j, hj, hb⟩ := hl
        refine ih _ ?_ j hj rfl
        rw [← hm]
        apply Finset.card_lt_card
        refine ⟨?_, ?_⟩
        · intro x hx
          simp only [Finset.mem_filter, Finset.mem_range] at hx ⊢
          exact ⟨hx.1, htr _ _ _ hx.2 hb⟩
        · intro hsub
          have : j ∈ (Finset.range n).filter (fun k => B k j) := hsub (by
            simp only [Finset.mem_filter, Finset.mem_range]; exact ⟨remaining_lt hj, hb⟩)
          simp only [Finset.mem_filter] at this
          exact hir j this.2
  exact main _ c hc rfl

theorem layer_of_lt (B : Nat → Nat → Prop) (n c m : Nat) (hc : c < n) : (∃ i < m, Layer B n i c) ∨ Remaining B n m c := by
  induction m with
  | zero => right; exact hc
  | succ m ih =>
    rcases ih with ⟨i, hi, h⟩ | h
    · left; exact ⟨i, by omega, h⟩
    · by_cases hl : Layer B n m c
      · left; exact ⟨m, by omega, hl⟩
      · right
        refine ⟨h, ?_⟩
        unfold Layer at hl
        by_contra hno
        push Not at hno
        exact hl ⟨h, hno⟩

/-- C18, at most two objectives: the fronts are the layers of strict Pareto dominance and every candidate is in exactly
one of them (`_partial`: for three objectives and more the statement is false, see `fronts_cycle`). -/
theorem fronts_exact_partial (hd : d ≤ 2) (losses : Nat → Fin d → α) (n : Nat) :
    let fs := computeRanking losses n none
    (∀ i (hi : i < fs.length) c, c ∈ fs[i] ↔ Layer (fun a b => Dominates (losses a) (losses b)) n i c) ∧
    (∀ f ∈ fs, f ≠ []) ∧ fs.flatten.Perm (List.range n) := by
  intro fs
  obtain ⟨h1, h2, h3, h4, h5⟩ := fronts_majority losses n
  have hB : (fun a b => Majority (losses a) (losses b)) = (fun a b => Dominates (losses a) (losses b)) := by
    funext a b; exact propext (majority_iff_dominates hd _ _)
  rw [hB] at h1 h2
  refine ⟨h1, h3, ?_⟩
  rw [List.perm_ext_iff_of_nodup h4 List.nodup_range]
  intro c
  rw [List.mem_range]
  refine ⟨h5 c, fun hc => ?_⟩
  rcases layer_of_lt (fun a b => Dominates (losses a) (losses b)) n c fs.length hc with ⟨i, hi, h⟩ | h
  · rw [List.mem_flatten]
    exact ⟨fs[i], List.getElem_mem hi, (h1 i hi c).2 h⟩
  · obtain ⟨x, hx⟩ := layer_nonempty (fun a b => Dominates (losses a) (losses b)) n fs.length
      (fun _ _ _ => dominates_trans) (fun a => dominates_irrefl (losses a)) c h
    exact absurd hx (h2 x)

/-- Lines 151, 177-185 never index beyond `front`: there are at most `n` fronts. -/
theorem fronts_fuel (losses : Nat → Fin d → α) (n : Nat) : (computeRanking losses n none).length ≤ n := by
  obtain ⟨_, _, h3, h4, h5⟩ := fronts_majority losses n
  have h6 : ∀ fs : List (List Nat), (∀ f ∈ fs, f ≠ []) → fs.length ≤ fs.flatten.length := by
    intro fs
    induction fs with
    | nil => simp
    | cons f fs ih =>
      intro h
      have h1 := ih (fun g hg => h g (by simp [hg]))
      have h2 : 0 < f.length := List.length_pos_iff.2 (h f (by simp))
      simp only [List.length_cons, List.flatten_cons, List.length_append]
      omega
  have h7 := h4.length_le_of_subset (l₂ := List.range n) (fun c hc => List.mem_range.2 (h5 c hc))
  rw [List.length_range] at h7
  exact (h6 _ h3).trans h7

/-- A front of dominated candidates comes later: if `a` dominates `b`, `b` in front `j` implies `a` in an earlier front
(any number of objectives). -/
theorem fronts_dominated_later (losses : Nat → Fin d → α) (n a b : Nat) (ha : a < n) (hdom : Dominates (losses a) (losses b)) :
    let fs := computeRanking losses n none
    ∀ j (hj : j < fs.length), b ∈ fs[j] → ∃ i, ∃ hi : i < fs.length, i < j ∧ a ∈ fs[i] := by
  intro fs j hj hb
  obtain ⟨h1, _⟩ := fronts_majority losses n
  have hl := (h1 j hj b).1 hb
  rcases layer_of_lt (fun a b => Majority (losses a) (losses b)) n a j ha with ⟨i, hi, h⟩ | h
  · exact ⟨i, hi.trans hj, hi, (h1 i (hi.trans hj) a).2 h⟩
  · exact absurd (majority_of_dominates _ _ hdom) (hl.2 a h)

/-- Three candidates, three objectives, none dominating another. -/
def cycleLosses : Nat → Fin 3 → Nat
  | 0 => ![1, 2, 3]
  | 1 => ![2, 3, 1]
  | _ => ![3, 1, 2]

/-- C18 fails with three objectives: no candidate dominates another, yet the first front is empty and nobody is ranked. -/
theorem fronts_cycle :
    (∀ a < 3, ∀ b < 3, ¬ Dominates (cycleLosses a) (cycleLosses b)) ∧ computeRanking cycleLosses 3 none = [] := by
  constructor
  · decide
  · decide

/-- Concrete: four candidates, two objectives, three fronts. -/
example : computeRanking (fun i => (![![1, 4], ![2, 2], ![3, 3], ![4, 4]] : Fin 4 → Fin 2 → Nat) (Fin.ofNat 4 i)) 4 none
    = [[0, 1], [2], [3]] := by decide

end Nsga
end NG
