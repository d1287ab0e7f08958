import Verif.Lemmas.HvGeneral
import Verif.Props.Pareto
import Mathlib.MeasureTheory.Group.Measure

/-!
# C16: the hypervolume indicator; consequences for C17
-/

set_option linter.unusedSectionVars false
namespace NG
namespace Hv
open MeasureTheory
open Pareto (VolumeSpec Cand Hyper LossesOk volumes)

/-- A vector as a function on all indices. -/
def ext {α : Type} [Zero α] {d : Nat} (p : Fin d → α) : Nat → α := fun i => if h : i < d then p ⟨i, h⟩ else 0

/-- `HypervolumeIndicator(ref).compute(points)` on vectors of `d` coordinates. -/
def hvol {α : Type} [LinearOrder α] [Field α] {d : Nat} (ref : Fin d → α) (points : List (Fin d → α)) : α :=
  compute d (ext ref) (points.map ext)

/-- Specification: the region dominated by the points within the reference. -/
def dominatedRegion {d : Nat} (ref : Fin d → ℝ) (points : List (Fin d → ℝ)) : Set (Fin d → ℝ) :=
  ⋃ p ∈ points, Set.Icc p ref

/-- Specification: its Lebesgue measure. -/
noncomputable def dominatedVolume {d : Nat} (ref : Fin d → ℝ) (points : List (Fin d → ℝ)) : ℝ :=
  (volume (dominatedRegion ref points)).toReal

variable {d : Nat}

/-- Half-open variant. -/
def openRegion (ref : Fin d → ℝ) (points : List (Fin d → ℝ)) : Set (Fin d → ℝ) :=
  {y | (∃ p ∈ points, ∀ i, p i ≤ y i) ∧ ∀ i, y i < ref i}

theorem volume_openRegion (ref : Fin d → ℝ) (points : List (Fin d → ℝ)) :
    volume (openRegion ref points) = volume (dominatedRegion ref points) := by
  apply measure_congr
  have hne : ∀ᵐ y : Fin d → ℝ, ∀ i, y i ≠ ref i := by
    rw [ae_all_iff]
    intro i
    exact Measure.ae_eval_ne (fun _ : Fin d => (volume : Measure ℝ)) i (ref i)
  filter_upwards [hne] with y hy
  apply propext
  show y ∈ openRegion ref points ↔ y ∈ dominatedRegion ref points
  simp only [openRegion, dominatedRegion, Set.mem_setOf_eq, Set.mem_iUnion, Set.mem_Icc, exists_prop]
  constructor
  · rintro ⟨⟨p, hp, h1⟩, h2⟩
    exact ⟨p, hp, h1, fun i => (h2 i).le⟩
  · rintro ⟨p, hp, h1, h2⟩
    exact ⟨⟨p, hp, h1⟩, fun i => lt_of_le_of_ne (h2 i) (hy i)⟩

/-- Coordinates of the nodes. -/
def coords {α : Type} [Field α] (ref : Fin d → α) (points : List (Fin d → α)) : Nat → Nat → α :=
  fun n k => ((points.map ext)[n]?.getD (fun _ => 0)) k - ext ref k

theorem coords_apply {α : Type} [Field α] (ref : Fin d → α) (points : List (Fin d → α)) (n : Nat) (hn : n < points.length) (i : Fin d) :
    coords ref points n i = points[n] i - ref i := by
  unfold coords ext
  simp [hn]

theorem H_coords (ref : Fin d → ℝ) (points : List (Fin d → ℝ)) :
    H (coords ref points) d (List.range points.length) = dominatedVolume ref points := by
  unfold H dominatedVolume
  rw [← volume_openRegion]
  have : region (coords ref points) d (List.range points.length) = (fun y => y + ref) ⁻¹' (openRegion ref points) := by
    ext y
    simp only [region, openRegion, Set.mem_setOf_eq, Set.mem_preimage, Pi.add_apply, List.mem_range]
    constructor
    · rintro ⟨⟨n, hn, h1⟩, h2⟩
      refine ⟨⟨points[n], List.getElem_mem hn, fun i => ?_⟩, fun i => ?_⟩
      · have := h1 i; rw [coords_apply ref points n hn] at this; linarith
      · have := h2 i; linarith
    · rintro ⟨⟨p, hp, h1⟩, h2⟩
      obtain ⟨n, hn, rfl⟩ := List.getElem_of_mem hp
      refine ⟨⟨n, hn, fun i => ?_⟩, fun i => ?_⟩
      · have := h1 i; rw [coords_apply ref points n hn]; linarith
      · have := h2 i; linarith
  rw [this, measure_preimage_add_right]

theorem sortBy_perm {α : Type} [LinearOrder α] [Field α] (c : Nat → Nat → α) (k : Nat) (l : List Nat) : (sortBy c k l).Perm l :=
  List.perm_insertionSort _ _

theorem sortBy_sorted {α : Type} [LinearOrder α] [Field α] (c : Nat → Nat → α) (k : Nat) (l : List Nat) :
    (sortBy c k l).Pairwise (fun a b => c a k ≤ c b k) := by
  unfold sortBy
  haveI : Std.Total (fun a b => c a k ≤ c b k) := ⟨fun a b => le_total _ _⟩
  haveI : IsTrans Nat (fun a b => c a k ≤ c b k) := ⟨fun a b c h h' => le_trans h h'⟩
  exact List.pairwise_insertionSort _ l

/-- **C16 (partial).** Full claim: for every number of objectives. Proved for one, two and three: for all points not
exceeding the reference point, `compute` is the Lebesgue measure of the union of the boxes between the points and the
reference point, ties and duplicates included. From four objectives on it is false, `hvol_four_wrong`. -/
theorem hvol_exact_partial (hd0 : 0 < d) (hd : d ≤ 3) (ref : Fin d → ℝ) (points : List (Fin d → ℝ))
    (hle : ∀ p ∈ points, ∀ i, p i ≤ ref i) : hvol ref points = dominatedVolume ref points := by
  rw [← H_coords]
  have hneg : ∀ n ∈ List.range points.length, ∀ i < d, coords ref points n i ≤ 0 := by
    intro n hn i hi
    rw [List.mem_range] at hn
    have := coords_apply ref points n hn ⟨i, hi⟩
    simp only at this
    rw [this]
    have := hle points[n] (List.getElem_mem hn) ⟨i, hi⟩
    linarith
  have e : hvol ref points = (recursive (coords ref points)
      (fun k => sortBy (coords ref points) k (List.range points.length)) (d - 1) (fun _ => true) Mem.init).1 := by
    unfold hvol compute coords
    simp
  rw [e]
  generalize coords ref points = c at hneg
  set nodes := List.range points.length with hnodes
  have hs := fun k => sortBy_sorted c k nodes
  have hp := fun k => sortBy_perm c k nodes
  have hneg' : ∀ k, ∀ n ∈ sortBy c k nodes, ∀ i < d, c n i ≤ 0 := fun k n hn => hneg n ((hp k).mem_iff.1 hn)
  have hfil : ∀ l : List Nat, l.filter (fun _ => true) = l := fun l => by simp
  match d, hd0, hd with
  | 1, _, _ =>
    simp only [Nat.sub_self, recursive, hfil]
    have hs0 := hs 0
    have hp0 := hp 0
    have hn0 := hneg' 0
    generalize sortBy c 0 nodes = L at hs0 hp0 hn0
    rw [← H_congr c 1 L nodes (fun n => hp0.mem_iff)]
    cases L with
    | nil => simp [H_nil]
    | cons x l =>
      simp only
      rw [H_one c (x :: l) x (by simp) ?_ (hn0 x (by simp) 0 (by omega))]
      intro n hn
      rcases List.mem_cons.1 hn with rfl | hn
      · exact le_rfl
      · exact (List.pairwise_cons.1 hs0).1 n hn
  | 2, _, _ =>
    simp only [Nat.add_one_sub_one, recursive, hfil]
    rw [plane_spec c _ (fun n hn => ⟨hneg' 1 n hn 0 (by omega), hneg' 1 n hn 1 (by omega)⟩) (hs 1)]
    exact H_congr c 2 _ _ (fun n => (hp 1).mem_iff)
  | 3, _, _ =>
    simp only [Nat.add_one_sub_one, recursive, hfil]
    have hsub : ∀ (P : Nat → Bool) (m : Mem ℝ), (fun (x : Nat → Bool) (x_1 : Mem ℝ) => (plane c (List.filter x (sortBy c 1 nodes)), x_1)) P m
        = (H c 2 ((sortBy c 1 nodes).filter P), m) := by
      intro P m
      simp only
      rw [plane_spec c]
      · intro n hn
        have := List.mem_of_mem_filter hn
        exact ⟨hneg' 1 n this 0 (by omega), hneg' 1 n this 1 (by omega)⟩
      · exact (hs 1).filter _
    rw [Nat.zero_add, level_spec c 2 (by omega) (sortBy c 1 nodes) _ hsub (sortBy c 2 nodes)]
    · exact H_congr c 3 _ _ (fun n => (hp 2).mem_iff)
    · intro n hn; exact (hp 1).mem_iff.2 ((hp 2).mem_iff.1 hn)
    · exact (hp 2).nodup_iff.2 List.nodup_range
    · intro n hn; exact hneg' 2 n hn 2 (by omega)
    · exact hs 2

/-! ### Any number of objectives -/

/-- Specification: no two points (counted with multiplicity) have the same value of an objective other than the first two and the last. -/
def Untied {α : Type} {d : Nat} (points : List (Fin d → α)) : Prop :=
  ∀ i : Fin d, 2 ≤ i.val → i.val + 1 < d → (points.map (fun p => p i)).Nodup

/-- **C16 (partial), any number of objectives.** For points below the reference point with no ties on the objectives other than the first
two and the last, `compute` is the Lebesgue measure of the dominated region: skipping the points flagged as dominated and reusing the
areas and volumes below the bounds changes nothing. With ties it is false, `hvol_four_wrong`, `hvol_four_wrong_below`. -/
theorem hvol_exact_untied_partial (hd0 : 0 < d) (ref : Fin d → ℝ) (points : List (Fin d → ℝ)) (hlt : ∀ p ∈ points, ∀ i, p i < ref i)
    (hun : Untied points) : hvol ref points = dominatedVolume ref points := by
  rw [← H_coords]
  have e : hvol ref points = (recursive (coords ref points)
      (fun k => sortBy (coords ref points) k (List.range points.length)) (d - 1) (fun _ => true) Mem.init).1 := by
    unfold hvol compute coords
    simp
  have hp := fun k => sortBy_perm (coords ref points) k (List.range points.length)
  have ok : Ok (coords ref points) (fun k => sortBy (coords ref points) k (List.range points.length)) (d - 1) := by
    refine ⟨fun j => (hp j).nodup_iff.2 List.nodup_range, fun i j x hx => (hp j).mem_iff.2 ((hp i).mem_iff.1 hx), fun j => sortBy_sorted _ j _, ?_, ?_⟩
    · intro j x hx i hi
      have hx' := List.mem_range.1 ((hp j).mem_iff.1 hx)
      have := coords_apply ref points x hx' ⟨i, by omega⟩
      simp only at this
      rw [this]
      have := hlt points[x] (List.getElem_mem hx') ⟨i, by omega⟩
      linarith
    · intro j m n hm hn hne i hi2 hi
      have hm' := List.mem_range.1 ((hp j).mem_iff.1 hm)
      have hn' := List.mem_range.1 ((hp j).mem_iff.1 hn)
      have h1 := coords_apply ref points m hm' ⟨i, by omega⟩
      have h2 := coords_apply ref points n hn' ⟨i, by omega⟩
      simp only at h1 h2
      rw [h1, h2]
      intro hc
      have h3 := hun ⟨i, by omega⟩ hi2 (by simp only; omega)
      apply hne
      refine (List.Nodup.getElem_inj_iff h3 (hi := by simpa using hm') (hj := by simpa using hn')).1 ?_
      simp only [List.getElem_map]
      linarith
  rw [e]
  generalize coords ref points = c at *
  set ord := fun k => sortBy c k (List.range points.length) with hord
  have hall : ∀ k m, recursive c ord k (fun _ => true) m = recursive c ord k (fun n => (List.range points.length).contains n) m := by
    intro k m
    have hf : (ord k).filter (fun _ => true) = (ord k).filter (fun n => (List.range points.length).contains n) := by
      apply List.filter_congr
      intro x hx
      rw [eq_comm, List.contains_iff_mem]
      exact (hp k).mem_iff.1 hx
    match k with
    | 0 => rw [recursive, recursive, hf]
    | 1 => rw [recursive, recursive, hf]
    | k + 2 => rw [recursive, recursive, hf]
  rw [hall]
  have hs := recursive_spec ok (d - 1) le_rfl (fun n => (List.range points.length).contains n) Mem.init ?_ ?_
  · rw [hs.1, Nat.sub_add_cancel hd0]
    refine H_congr _ _ _ _ (fun n => ?_)
    rw [List.mem_filter, List.contains_iff_mem, (hp (d - 1)).mem_iff, and_self]
  · intro n hn
    rw [List.contains_iff_mem] at hn
    exact (hp 0).mem_iff.2 hn
  · intro j hj2 _
    refine ⟨?_, fun _ => ?_⟩
    · intro A1 x A2 _ _ hf
      simp only [Mem.init] at hf
      omega
    · rintro A1 x A2 _ _ ⟨v, hv, _⟩
      simp [Mem.init] at hv

theorem Untied.sublist {α : Type} {d : Nat} {l l' : List (Fin d → α)} (h : Untied l') (hs : l.Sublist l') : Untied l :=
  fun i h1 h2 => (h i h1 h2).sublist (hs.map _)

/-- Measures of dominated regions are finite. -/
theorem dominatedRegion_lt_top (ref : Fin d → ℝ) (points : List (Fin d → ℝ)) : volume (dominatedRegion ref points) < ⊤ := by
  unfold dominatedRegion
  refine measure_biUnion_lt_top points.finite_toSet (fun p _ => ?_)
  rw [← Set.pi_univ_Icc, volume_pi_pi]
  refine ENNReal.prod_lt_top (fun i _ => ?_)
  rw [Real.volume_Icc]
  exact ENNReal.ofReal_lt_top

theorem dominatedRegion_append (ref : Fin d → ℝ) (a b : List (Fin d → ℝ)) :
    dominatedRegion ref (a ++ b) = dominatedRegion ref a ∪ dominatedRegion ref b := by
  ext y
  simp only [dominatedRegion, Set.mem_iUnion, List.mem_append, Set.mem_union, exists_prop]
  constructor
  · rintro ⟨p, hp | hp, h⟩
    · exact Or.inl ⟨p, hp, h⟩
    · exact Or.inr ⟨p, hp, h⟩
  · rintro (⟨p, hp, h⟩ | ⟨p, hp, h⟩)
    · exact ⟨p, Or.inl hp, h⟩
    · exact ⟨p, Or.inr hp, h⟩

theorem measurableSet_dominatedRegion (ref : Fin d → ℝ) (points : List (Fin d → ℝ)) : MeasurableSet (dominatedRegion ref points) :=
  Set.Finite.measurableSet_biUnion points.finite_toSet (fun _ _ => measurableSet_Icc)

/-- The measure has the properties assumed in C17, for any number of objectives. -/
theorem dominatedVolume_spec : VolumeSpec (fun (ref : Fin d → ℝ) points => dominatedVolume ref points) where
  mono := by
    intro u l l' _ _ h
    apply ENNReal.toReal_mono (dominatedRegion_lt_top u l').ne
    apply measure_mono
    intro y hy
    simp only [dominatedRegion, Set.mem_iUnion, exists_prop] at hy ⊢
    obtain ⟨p, hp, h1, h2⟩ := hy
    obtain ⟨q, hq, h3⟩ := h p hp
    exact ⟨q, hq, le_trans h3 h1, h2⟩
  submod := by
    intro u l c r _ _ _
    have hX := dominatedRegion_lt_top u (l ++ [c])
    have hY := dominatedRegion_lt_top u (l ++ r)
    have h := measure_union_add_inter (μ := volume) (dominatedRegion u (l ++ [c])) (measurableSet_dominatedRegion u (l ++ r))
    have hU : dominatedRegion u (l ++ [c]) ∪ dominatedRegion u (l ++ r) = dominatedRegion u (l ++ [c] ++ r) := by
      simp only [dominatedRegion_append]
      ext y; simp only [Set.mem_union]; tauto
    have hI : dominatedRegion u l ⊆ dominatedRegion u (l ++ [c]) ∩ dominatedRegion u (l ++ r) := by
      simp only [dominatedRegion_append]
      intro y hy; exact ⟨Or.inl hy, Or.inl hy⟩
    rw [hU] at h
    have h2 := congrArg ENNReal.toReal h
    have hIt : volume (dominatedRegion u (l ++ [c]) ∩ dominatedRegion u (l ++ r)) < ⊤ :=
      lt_of_le_of_lt (measure_mono Set.inter_subset_left) hX
    rw [ENNReal.toReal_add (dominatedRegion_lt_top u _).ne hIt.ne, ENNReal.toReal_add hX.ne hY.ne] at h2
    have h3 := ENNReal.toReal_mono hIt.ne (measure_mono (μ := volume) hI)
    unfold dominatedVolume
    linarith

/-- The code's volume has them up to three objectives. -/
theorem hvol_volumeSpec (hd0 : 0 < d) (hd : d ≤ 3) : VolumeSpec (fun (ref : Fin d → ℝ) points => hvol ref points) where
  mono := by
    intro u l l' h1 h2 h
    rw [hvol_exact_partial hd0 hd u l h1, hvol_exact_partial hd0 hd u l' h2]
    exact dominatedVolume_spec.mono u l l' h1 h2 h
  submod := by
    intro u l c r h1 h2 h3
    have hap : ∀ a b : List (Fin d → ℝ), (∀ p ∈ a, ∀ i, p i ≤ u i) → (∀ p ∈ b, ∀ i, p i ≤ u i) → ∀ p ∈ a ++ b, ∀ i, p i ≤ u i := by
      intro a b ha hb p hp
      rcases List.mem_append.1 hp with h | h
      exacts [ha p h, hb p h]
    have hc : ∀ p ∈ [c], ∀ i, p i ≤ u i := by intro p hp; rw [List.mem_singleton.1 hp]; exact h2
    rw [hvol_exact_partial hd0 hd u _ (hap _ _ (hap _ _ h1 hc) h3), hvol_exact_partial hd0 hd u _ (hap _ _ h1 h3),
      hvol_exact_partial hd0 hd u _ (hap _ _ h1 hc), hvol_exact_partial hd0 hd u _ h1]
    exact dominatedVolume_spec.submod u l c r h1 h2 h3

/-- C16: the order of the points does not matter, and dominated points may be dropped. -/
theorem hvol_cover (hd0 : 0 < d) (hd : d ≤ 3) (ref : Fin d → ℝ) (l l' : List (Fin d → ℝ))
    (h1 : ∀ p ∈ l, ∀ i, p i ≤ ref i) (h2 : ∀ p ∈ l', ∀ i, p i ≤ ref i)
    (h3 : ∀ p ∈ l, ∃ q ∈ l', ∀ i, q i ≤ p i) (h4 : ∀ p ∈ l', ∃ q ∈ l, ∀ i, q i ≤ p i) : hvol ref l = hvol ref l' :=
  le_antisymm ((hvol_volumeSpec hd0 hd).mono ref l l' h1 h2 h3) ((hvol_volumeSpec hd0 hd).mono ref l' l h2 h1 h4)

/-- C16 for any number of objectives: the order of the points does not matter, and dominated points may be dropped. -/
theorem hvol_cover_untied (hd0 : 0 < d) (ref : Fin d → ℝ) (l l' : List (Fin d → ℝ)) (h1 : ∀ p ∈ l, ∀ i, p i < ref i)
    (h2 : ∀ p ∈ l', ∀ i, p i < ref i) (hu : Untied l) (hu' : Untied l') (h3 : ∀ p ∈ l, ∃ q ∈ l', ∀ i, q i ≤ p i)
    (h4 : ∀ p ∈ l', ∃ q ∈ l, ∀ i, q i ≤ p i) : hvol ref l = hvol ref l' := by
  rw [hvol_exact_untied_partial hd0 ref l h1 hu, hvol_exact_untied_partial hd0 ref l' h2 hu']
  exact le_antisymm (dominatedVolume_spec.mono ref l l' (fun p hp i => (h1 p hp i).le) (fun p hp i => (h2 p hp i).le) h3)
    (dominatedVolume_spec.mono ref l' l (fun p hp i => (h2 p hp i).le) (fun p hp i => (h1 p hp i).le) h4)

/-- On untied points the code's volume and the measure lead to the same losses and states. -/
theorem adds_untied (hd0 : 0 < d) (u : Fin d → ℝ) : ∀ (cs : List (Cand d ℝ)) (told : List (Fin d → ℝ)) (s : Hyper d ℝ),
    (s.pf.pareto.map (·.losses)).Sublist told → (∀ p ∈ told, ∀ i, p i < u i) → (∀ c ∈ cs, ∀ i, c.losses i < u i) →
    Untied (told ++ cs.map (·.losses)) → s.upper = some u → s.autoBound = 0 → s.adds hvol false cs = s.adds dominatedVolume false cs
  | [], _, _, _, _, _, _, _, _ => rfl
  | c :: cs, told, s, hsub, ht, hcs, hun, hu, ha => by
    have hun' : Untied ((told ++ [c.losses]) ++ cs.map (·.losses)) := by simpa using hun
    have ht' : ∀ p ∈ told ++ [c.losses], ∀ i, p i < u i := by
      intro p hp
      rcases List.mem_append.1 hp with h | h
      · exact ht p h
      · rw [List.mem_singleton.1 h]; exact hcs c (by simp)
    have hsub' : (s.pf.pareto.map (·.losses) ++ [c.losses]).Sublist (told ++ [c.losses]) := hsub.append_right _
    have hv : hvol u (s.pf.pareto.map (·.losses) ++ [c.losses]) = dominatedVolume u (s.pf.pareto.map (·.losses) ++ [c.losses]) :=
      hvol_exact_untied_partial hd0 u _ (fun p hp => ht' p (hsub'.subset hp))
        (hun'.sublist (hsub'.trans (List.sublist_append_left _ _)))
    have hadd : s.add hvol false c = s.add dominatedVolume false c := by
      simp only [Hyper.add, ha, hu, hv]
    have hin : ¬ ∃ i, u i < c.losses i := by
      rintro ⟨i, hi⟩
      have := hcs c (by simp) i
      linarith
    have hst : let s' := (s.add dominatedVolume false c).2
        (s'.pf.pareto.map (·.losses)).Sublist (told ++ [c.losses]) ∧ s'.upper = some u ∧ s'.autoBound = 0 := by
      simp only [Hyper.add, ha, hu, hin, lt_irrefl, if_false, decide_false, Bool.false_eq_true]
      split
      · exact ⟨by simpa [Pareto.Front.add] using hsub', rfl, rfl⟩
      · refine ⟨?_, rfl, rfl⟩
        simp only [Pareto.Front.getFront, Pareto.Front.refresh]
        refine List.Sublist.trans ?_ (hsub.trans (List.sublist_append_left _ _))
        split
        · exact (List.filter_sublist).map _
        · exact List.Sublist.refl _
    simp only [Hyper.adds, hadd]
    rw [adds_untied hd0 u cs (told ++ [c.losses]) _ hst.1 ht' (fun c' h => hcs c' (by simp [h])) hun' hst.2.1 hst.2.2]

/-- C17 with the code's own volume, any number of objectives: untied points below the bounds. -/
theorem hyper_losses_untied_partial (hd0 : 0 < d) (u : Fin d → ℝ) (auto : Nat) (cs : List (Cand d ℝ)) (hcs : ∀ c ∈ cs, ∀ i, c.losses i < u i)
    (hun : Untied (cs.map (·.losses))) :
    let r := (Hyper.init (some u) auto).adds hvol false cs
    LossesOk none (volumes dominatedVolume u [] cs) r.1 ∧ (cs ≠ [] → r.2.best = some (dominatedVolume u (cs.map (·.losses)))) := by
  intro r
  have e : r = (Hyper.init (some u) auto).adds dominatedVolume false cs :=
    adds_untied hd0 u cs [] _ (by simp [Hyper.init, Pareto.empty]) (by simp) hcs (by simpa using hun) rfl rfl
  rw [e]
  exact Pareto.hyper_losses_partial hd0 _ dominatedVolume_spec u auto cs (fun c hc i => (hcs c hc i).le)

/-- C17 with the code's own volume, up to three objectives, all points within the bounds. -/
theorem hyper_losses_code_partial (hd0 : 0 < d) (hd : d ≤ 3) (u : Fin d → ℝ) (auto : Nat) (cs : List (Cand d ℝ))
    (hcs : ∀ c ∈ cs, ∀ i, c.losses i ≤ u i) :
    let r := (Hyper.init (some u) auto).adds hvol false cs
    LossesOk none (volumes dominatedVolume u [] cs) r.1 ∧
      (cs ≠ [] → r.2.best = some (dominatedVolume u (cs.map (·.losses)))) := by
  intro r
  obtain ⟨h1, h2⟩ := Pareto.hyper_losses_partial hd0 _ (hvol_volumeSpec hd0 hd) u auto cs hcs
  have hv : ∀ (cs : List (Cand d ℝ)) (told : List (Fin d → ℝ)), (∀ p ∈ told, ∀ i, p i ≤ u i) → (∀ c ∈ cs, ∀ i, c.losses i ≤ u i) →
      volumes hvol u told cs = volumes dominatedVolume u told cs := by
    intro cs
    induction cs with
    | nil => intros; rfl
    | cons c cs ih =>
      intro told ht hc
      have ht' : ∀ p ∈ told ++ [c.losses], ∀ i, p i ≤ u i := by
        intro p hp
        rcases List.mem_append.1 hp with h | h
        · exact ht p h
        · rw [List.mem_singleton.1 h]; exact hc c (by simp)
      simp only [volumes]
      rw [hvol_exact_partial hd0 hd u _ ht', ih _ ht' (fun c' hc' => hc c' (by simp [hc']))]
  have hcs' : ∀ p ∈ cs.map (·.losses), ∀ i, p i ≤ u i := by
    intro p hp
    obtain ⟨c, hc, rfl⟩ := List.mem_map.1 hp
    exact hcs c hc
  refine ⟨?_, ?_⟩
  · rw [← hv cs [] (by simp) hcs]; exact h1
  · intro hne
    rw [← hvol_exact_partial hd0 hd u _ hcs']
    exact h2 hne

/-! ### What goes wrong -/

/-- C16 fails from four objectives on, when coordinates are tied: adding two points makes the volume drop from 18 to 9. -/
theorem hvol_four_wrong :
    hvol (fun _ => 0 : Fin 4 → ℚ) [![-3, -3, -1, -2]] = 18 ∧
    hvol (fun _ => 0 : Fin 4 → ℚ) [![-3, -3, -1, -1], ![0, -3, -3, -1], ![-3, -3, -1, -2]] = 9 := by
  constructor <;> decide +kernel

/-- Also when all points are below the reference point: adding two points makes the volume drop from 36 to 32. -/
theorem hvol_four_wrong_below :
    hvol (fun _ => 0 : Fin 4 → ℚ) [![-3, -2, -3, -2]] = 36 ∧
    hvol (fun _ => 0 : Fin 4 → ℚ) [![-3, -2, -3, -1], ![-1, -3, -2, -1], ![-3, -2, -3, -2]] = 32 := by
  constructor <;> decide +kernel

/-- With six objectives the volume can also be too large: the boxes have volumes 0, 8, 0 and 8, whose sum is 16, and the two large ones
share a box of volume 4. -/
theorem hvol_six_too_large :
    hvol (fun _ => 0 : Fin 6 → ℚ) [![-1, 0, -1, -2, -2, -2], ![-2, -1, -2, -1, -2, -1], ![0, 0, 0, 0, -1, 0], ![-2, -2, -1, -1, -2, -1]] = 16 ∧
    hvol (fun _ => 0 : Fin 6 → ℚ) [![-2, -1, -2, -1, -2, -1], ![-2, -2, -1, -1, -2, -1]] = 12 := by
  constructor <;> decide +kernel

/-- With seven objectives no two points need to agree on the first three objectives for the volume to be wrong: 716 instead of 732, the value
for the same points in reverse order. -/
theorem hvol_seven_order :
    hvol (fun _ => 0 : Fin 7 → ℚ) [![-1, -3, -2, -2, -2, -1, -2], ![-1, -2, -3, -3, -3, -2, -1], ![-1, -1, -1, -3, -2, -2, -1],
      ![-2, -2, -1, -1, -2, -3, -1], ![-3, -1, -1, -1, -2, -2, -2], ![-3, -3, -2, -1, -1, -2, -3], ![-2, -2, -3, -3, -3, -2, -3]] = 716 ∧
    hvol (fun _ => 0 : Fin 7 → ℚ) [![-2, -2, -3, -3, -3, -2, -3], ![-3, -3, -2, -1, -1, -2, -3], ![-3, -1, -1, -1, -2, -2, -2],
      ![-2, -2, -1, -1, -2, -3, -1], ![-1, -1, -1, -3, -2, -2, -1], ![-1, -2, -3, -3, -3, -2, -1], ![-1, -3, -2, -2, -2, -1, -2]] = 732 := by
  constructor <;> decide +kernel

/-- Hence the code's volume is not a volume of the dominated region in four dimensions. -/
theorem hvol_four_not_volume : ¬ VolumeSpec (fun (ref : Fin 4 → ℚ) points => hvol ref points) := by
  intro h
  have := h.mono (fun _ => 0) [![-3, -3, -1, -2]] [![-3, -3, -1, -1], ![0, -3, -3, -1], ![-3, -3, -1, -2]]
    (by decide +kernel) (by decide +kernel) (by decide +kernel)
  simp only [hvol_four_wrong.1, hvol_four_wrong.2] at this
  exact absurd this (by decide +kernel)

/-- Four and five objectives without ties on the middle objectives, some ties elsewhere. -/
example : Untied [![-1, -3, -2, -2], ![-3, -1, -1, -2], ![-1, -2, -3, -1]] ∧
    hvol (fun _ => 0 : Fin 4 → ℚ) [![-1, -3, -2, -2], ![-3, -1, -1, -2], ![-1, -2, -3, -1]] = 18 := by
  refine ⟨?_, by decide +kernel⟩
  intro i h1 h2
  have : i = 2 := Fin.ext (by have := i.isLt; show i.val = 2; omega)
  subst this
  decide

/-- Concrete values: two overlapping boxes in the plane, three in space. -/
example : hvol (fun _ => 0 : Fin 2 → ℚ) [![-1, -3], ![-2, -1]] = 4 := by decide +kernel
example : hvol (fun _ => 0 : Fin 3 → ℚ) [![-1, -3, -1], ![-2, -1, -1], ![-1, -1, -4]] = 7 := by decide +kernel

/-- C17 fails when a point out of the bounds enters the front: with bounds (0, 0), after (1, -5) the point (-1, -1),
within the bounds and dominated by nothing, is not added and does not get a negative loss. -/
theorem hyper_out_of_bounds_breaks :
    let s := ((Hyper.init (some (fun _ => 0 : Fin 2 → ℚ)) 0).add hvol false ⟨0, ![1, -5]⟩).2
    let r := s.add hvol false ⟨1, ![-1, -1]⟩
    r.1 = none ∧ r.2.pf.pareto.map (·.uid) = [0] ∧ ¬ Pareto.Dominates (![1, -5] : Fin 2 → ℚ) ![-1, -1] := by
  decide +kernel

end Hv
end NG
