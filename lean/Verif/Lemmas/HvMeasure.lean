import Verif.Model.Hypervolume
import Mathlib.MeasureTheory.Constructions.Pi
import Mathlib.MeasureTheory.Measure.Lebesgue.Basic
import Mathlib.Tactic.Linarith
import Mathlib.Tactic.Ring

/-!
# Volumes of unions of boxes, slice by slice

`c n i` is coordinate `i` of node `n`, relative to the reference point.
-/

set_option linter.unusedSectionVars false
namespace NG
namespace Hv
open MeasureTheory

/-- Points of dimension `k + 1` dominated by a node of `S`, below 0 in the first `k` coordinates and below `t` in the last. -/
def cut (c : Nat → Nat → ℝ) (k : Nat) (S : List Nat) (t : ℝ) : Set (Fin (k + 1) → ℝ) :=
  {y | (∃ n ∈ S, ∀ i : Fin (k + 1), c n i ≤ y i) ∧ (∀ i : Fin k, y i.castSucc < 0) ∧ y (Fin.last k) < t}

/-- Points of dimension `k` dominated by a node of `S` and below 0. -/
def region (c : Nat → Nat → ℝ) (k : Nat) (S : List Nat) : Set (Fin k → ℝ) :=
  {y | (∃ n ∈ S, ∀ i : Fin k, c n i ≤ y i) ∧ ∀ i, y i < 0}

/-- Volume of the dominated region in the first `k` coordinates. -/
noncomputable def H (c : Nat → Nat → ℝ) (k : Nat) (S : List Nat) : ℝ := (volume (region c k S)).toReal

/-- Volume of the part below `t` in coordinate `k`. -/
noncomputable def F (c : Nat → Nat → ℝ) (k : Nat) (S : List Nat) (t : ℝ) : ℝ := (volume (cut c k S t)).toReal

variable (c : Nat → Nat → ℝ)

theorem region_succ (k : Nat) (S : List Nat) : region c (k + 1) S = cut c k S 0 := by
  ext y
  simp only [region, cut, Set.mem_setOf_eq]
  constructor
  · rintro ⟨h1, h2⟩; exact ⟨h1, fun i => h2 _, h2 _⟩
  · rintro ⟨h1, h2, h3⟩
    exact ⟨h1, fun i => Fin.lastCases h3 h2 i⟩

theorem region_eq_iUnion (k : Nat) (S : List Nat) :
    region c k S = ⋃ n ∈ S, Set.pi Set.univ (fun i : Fin k => Set.Ico (c n i) 0) := by
  ext y
  simp only [region, Set.mem_setOf_eq, Set.mem_iUnion, Set.mem_pi, Set.mem_univ, Set.mem_Ico, forall_true_left, exists_prop]
  constructor
  · rintro ⟨⟨n, hn, h1⟩, h2⟩; exact ⟨n, hn, fun i => ⟨h1 i, h2 i⟩⟩
  · rintro ⟨n, hn, h⟩; exact ⟨⟨n, hn, fun i => (h i).1⟩, fun i => (h i).2⟩

theorem measurableSet_region (k : Nat) (S : List Nat) : MeasurableSet (region c k S) := by
  rw [region_eq_iUnion]
  have : Set.Finite {n | n ∈ S} := S.finite_toSet
  exact Set.Finite.measurableSet_biUnion this (fun n _ => MeasurableSet.univ_pi (fun i => measurableSet_Ico))

theorem volume_region_lt_top (k : Nat) (S : List Nat) : volume (region c k S) < ⊤ := by
  rw [region_eq_iUnion]
  have hf : Set.Finite {n | n ∈ S} := S.finite_toSet
  refine (measure_biUnion_lt_top hf ?_)
  intro n _
  rw [volume_pi_pi]
  refine ENNReal.prod_lt_top ?_
  intro i _
  rw [Real.volume_Ico]
  exact ENNReal.ofReal_lt_top

/-- The slab between two heights above all nodes. -/
theorem slab_volume (k : Nat) (S : List Nat) (t t' : ℝ) :
    volume {y : Fin (k + 1) → ℝ | (∃ n ∈ S, ∀ i : Fin k, c n i ≤ y i.castSucc) ∧ (∀ i : Fin k, y i.castSucc < 0) ∧
      t ≤ y (Fin.last k) ∧ y (Fin.last k) < t'} = ENNReal.ofReal (t' - t) * volume (region c k S) := by
  have hp := volume_preserving_piFinSuccAbove (fun _ : Fin (k + 1) => ℝ) (Fin.last k)
  have hm : MeasurableSet (Set.Ico t t' ×ˢ region c k S) := measurableSet_Ico.prod (measurableSet_region c k S)
  have h := hp.measure_preimage hm.nullMeasurableSet
  rw [Measure.volume_eq_prod, Measure.prod_prod, Real.volume_Ico] at h
  rw [← h]
  congr 1
  ext y
  simp only [Set.mem_setOf_eq, Set.mem_preimage, Set.mem_prod, Set.mem_Ico, region, MeasurableEquiv.piFinSuccAbove_apply,
    Fin.insertNthEquiv_symm_apply, Fin.removeNth, Fin.succAbove_last]
  tauto

theorem measurableSet_cut (k : Nat) (S : List Nat) (t : ℝ) : MeasurableSet (cut c k S t) := by
  have : cut c k S t = (⋃ n ∈ S, Set.pi Set.univ (fun i : Fin (k + 1) => Set.Ici (c n i))) ∩
      Set.pi Set.univ (fun i : Fin (k + 1) => if i = Fin.last k then Set.Iio t else Set.Iio 0) := by
    ext y
    simp only [cut, Set.mem_setOf_eq, Set.mem_inter_iff, Set.mem_iUnion, Set.mem_pi, Set.mem_univ, Set.mem_Ici,
      forall_true_left, exists_prop]
    refine and_congr_right (fun _ => ?_)
    constructor
    · rintro ⟨h1, h2⟩ i
      refine Fin.lastCases ?_ (fun j => ?_) i
      · simpa using h2
      · have : j.castSucc ≠ Fin.last k := Fin.castSucc_ne_last j
        rw [if_neg this]; exact h1 j
    · intro h
      refine ⟨fun j => ?_, ?_⟩
      · have := h j.castSucc
        rw [if_neg (Fin.castSucc_ne_last j)] at this; exact this
      · have := h (Fin.last k)
        rw [if_pos rfl] at this; exact this
  rw [this]
  refine MeasurableSet.inter ?_ ?_
  · exact Set.Finite.measurableSet_biUnion S.finite_toSet (fun n _ => MeasurableSet.univ_pi (fun i => measurableSet_Ici))
  · refine MeasurableSet.univ_pi (fun i => ?_)
    split <;> exact measurableSet_Iio

/-- Raising the height: a slab is added. -/
theorem volume_cut_add (k : Nat) (S : List Nat) (t t' : ℝ) (hS : ∀ n ∈ S, c n k ≤ t) (htt : t ≤ t') :
    volume (cut c k S t') = volume (cut c k S t) + ENNReal.ofReal (t' - t) * volume (region c k S) := by
  rw [← slab_volume c k S t t', ← measure_union]
  · congr 1
    ext y
    simp only [cut, Set.mem_setOf_eq, Set.mem_union]
    constructor
    · rintro ⟨⟨n, hn, h1⟩, h2, h3⟩
      by_cases hlt : y (Fin.last k) < t
      · left; exact ⟨⟨n, hn, h1⟩, h2, hlt⟩
      · right; exact ⟨⟨n, hn, fun i => by simpa using h1 i.castSucc⟩, h2, not_lt.1 hlt, h3⟩
    · rintro (⟨h1, h2, h3⟩ | ⟨⟨n, hn, h1⟩, h2, h3, h4⟩)
      · exact ⟨h1, h2, lt_of_lt_of_le h3 htt⟩
      · refine ⟨⟨n, hn, fun i => ?_⟩, h2, h4⟩
        refine Fin.lastCases ?_ (fun j => ?_) i
        · simpa using (hS n hn).trans h3
        · simpa using h1 j
  · rw [Set.disjoint_left]
    rintro y ⟨_, _, h⟩ ⟨_, _, h', _⟩
    exact absurd h (not_lt.2 h')
  · rw [slab_eq]
    exact ((MeasurableEquiv.piFinSuccAbove (fun _ : Fin (k + 1) => ℝ) (Fin.last k)).measurable
      (measurableSet_Ico.prod (measurableSet_region c k S)))
where
  slab_eq : {y : Fin (k + 1) → ℝ | (∃ n ∈ S, ∀ i : Fin k, c n i ≤ y i.castSucc) ∧ (∀ i : Fin k, y i.castSucc < 0) ∧
      t ≤ y (Fin.last k) ∧ y (Fin.last k) < t'} =
      (MeasurableEquiv.piFinSuccAbove (fun _ : Fin (k + 1) => ℝ) (Fin.last k)) ⁻¹' (Set.Ico t t' ×ˢ region c k S) := by
    ext y
    simp only [Set.mem_setOf_eq, Set.mem_preimage, Set.mem_prod, Set.mem_Ico, region, MeasurableEquiv.piFinSuccAbove_apply,
      Fin.insertNthEquiv_symm_apply, Fin.removeNth, Fin.succAbove_last]
    tauto

theorem cut_nil (k : Nat) (t : ℝ) : cut c k [] t = ∅ := by
  ext y; simp [cut]

theorem cut_append (k : Nat) (S : List Nat) (x : Nat) (t : ℝ) (h : t ≤ c x k) : cut c k (S ++ [x]) t = cut c k S t := by
  ext y
  simp only [cut, Set.mem_setOf_eq, List.mem_append, List.mem_singleton]
  constructor
  · rintro ⟨⟨n, hn | rfl, h1⟩, h2, h3⟩
    · exact ⟨⟨n, hn, h1⟩, h2, h3⟩
    · have := h1 (Fin.last k)
      simp only [Fin.val_last] at this
      exact absurd h3 (not_lt.2 (h.trans this))
  · rintro ⟨⟨n, hn, h1⟩, h2, h3⟩
    exact ⟨⟨n, Or.inl hn, h1⟩, h2, h3⟩

/-- Heights of a list sorted by coordinate `k`. -/
theorem volume_cut_lt_top (k : Nat) (S : List Nat) (t : ℝ) : volume (cut c k S t) < ⊤ := by
  have hsub : cut c k S t ⊆ ⋃ n ∈ S, Set.pi Set.univ (fun i : Fin (k + 1) => Set.Ico (c n i) (if i = Fin.last k then t else 0)) := by
    rintro y ⟨⟨n, hn, h1⟩, h2, h3⟩
    simp only [Set.mem_iUnion, Set.mem_pi, Set.mem_univ, Set.mem_Ico, forall_true_left, exists_prop]
    refine ⟨n, hn, fun i => ⟨h1 i, ?_⟩⟩
    refine Fin.lastCases ?_ (fun j => ?_) i
    · simpa using h3
    · rw [if_neg (Fin.castSucc_ne_last j)]; exact h2 j
  refine lt_of_le_of_lt (measure_mono hsub) (measure_biUnion_lt_top S.finite_toSet ?_)
  intro n _
  rw [volume_pi_pi]
  refine ENNReal.prod_lt_top (fun i _ => ?_)
  rw [Real.volume_Ico]
  exact ENNReal.ofReal_lt_top

theorem F_add (k : Nat) (S : List Nat) (t t' : ℝ) (hS : ∀ n ∈ S, c n k ≤ t) (htt : t ≤ t') :
    F c k S t' = F c k S t + (t' - t) * H c k S := by
  unfold F H
  rw [volume_cut_add c k S t t' hS htt, ENNReal.toReal_add (volume_cut_lt_top c k S t).ne, ENNReal.toReal_mul,
    ENNReal.toReal_ofReal (by linarith)]
  exact ENNReal.mul_ne_top ENNReal.ofReal_ne_top (volume_region_lt_top c k S).ne

theorem F_nil (k : Nat) (t : ℝ) : F c k [] t = 0 := by simp [F, cut_nil]

theorem F_append (k : Nat) (S : List Nat) (x : Nat) (t : ℝ) (h : t ≤ c x k) : F c k (S ++ [x]) t = F c k S t := by
  unfold F; rw [cut_append c k S x t h]

theorem H_succ (k : Nat) (S : List Nat) : H c (k + 1) S = F c k S 0 := by
  unfold H F; rw [region_succ]

theorem H_nil (k : Nat) : H c k [] = 0 := by
  unfold H region; simp

theorem H_congr (k : Nat) (S T : List Nat) (h : ∀ n, n ∈ S ↔ n ∈ T) : H c k S = H c k T := by
  unfold H region; simp only [h]

theorem H_zero (S : List Nat) (h : S ≠ []) : H c 0 S = 1 := by
  obtain ⟨x, hx⟩ := List.exists_mem_of_ne_nil S h
  have : region c 0 S = Set.univ := by
    ext y; simp only [region, Set.mem_setOf_eq, Set.mem_univ, iff_true]
    exact ⟨⟨x, hx, fun i => i.elim0⟩, fun i => i.elim0⟩
  unfold H
  rw [this]
  simp [volume_pi, Measure.pi_univ]

/-- One coordinate: the least one counts. -/
theorem H_one (S : List Nat) (x : Nat) (hx : x ∈ S) (hmin : ∀ n ∈ S, c x 0 ≤ c n 0) (h0 : c x 0 ≤ 0) : H c 1 S = - c x 0 := by
  have : region c 1 S = Set.pi Set.univ (fun _ : Fin 1 => Set.Ico (c x 0) 0) := by
    ext y
    simp only [region, Set.mem_setOf_eq, Set.mem_pi, Set.mem_univ, Set.mem_Ico, forall_true_left]
    constructor
    · rintro ⟨⟨n, hn, h1⟩, h2⟩ i
      have hi : i = 0 := Subsingleton.elim _ _
      subst hi
      exact ⟨(hmin n hn).trans (by simpa using h1 0), h2 0⟩
    · intro h
      refine ⟨⟨x, hx, fun i => ?_⟩, fun i => (h i).2⟩
      have hi : i = 0 := Subsingleton.elim _ _
      subst hi
      simpa using (h 0).1
  unfold H
  rw [this, volume_pi_pi]
  simp only [Real.volume_Ico, Finset.univ_unique, Finset.prod_const, Finset.card_singleton, pow_one]
  rw [ENNReal.toReal_ofReal (by linarith)]
  ring

theorem H_mono (k : Nat) (S T : List Nat) (h : ∀ n ∈ S, ∃ m ∈ T, ∀ i < k, c m i ≤ c n i) : H c k S ≤ H c k T := by
  unfold H
  apply ENNReal.toReal_mono (volume_region_lt_top c k T).ne
  apply measure_mono
  rintro y ⟨⟨n, hn, h1⟩, h2⟩
  obtain ⟨m, hm, h3⟩ := h n hn
  exact ⟨⟨m, hm, fun i => (h3 i i.2).trans (h1 i)⟩, h2⟩

theorem H_nonneg (k : Nat) (S : List Nat) : 0 ≤ H c k S := ENNReal.toReal_nonneg

end Hv
end NG
