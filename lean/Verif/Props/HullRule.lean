/-
C136: the rules of recommendation of the one-shot optimizers.
-/
import Verif.Model.HullRule
import Verif.Props.Oneshot
import Mathlib.LinearAlgebra.AffineSpace.FiniteDimensional
import Mathlib.Analysis.Convex.Combination
import Mathlib.Tactic.NormNum
import Mathlib.Tactic.Linarith

namespace NG.HullRule

variable {d : Nat}

/-! ### Specification -/

/-- A function whose values increase along the list looks quasiconvex on these points: no point is in the convex hull of better ones. -/
def Quasi (ps : List (Fin d → ℝ)) : Prop := ∀ i x, ps[i]? = some x → x ∉ convexHull ℝ {y | y ∈ ps.take i}

/-- The mean of `k` best points of an archive. -/
def IsMean (k : Nat) (archive : List ((Fin d → ℝ) × ℝ)) (x : Fin d → ℝ) : Prop :=
  ∃ best rest : List ((Fin d → ℝ) × ℝ), (best ++ rest).Perm archive ∧ best.length = k ∧ (∀ a ∈ best, ∀ b ∈ rest, a.2 ≤ b.2) ∧ ∀ i, k * x i = (best.map fun p => p.1 i).sum

/-- Points in general position. -/
def General (ps : List (Fin d → ℝ)) : Prop := AffineIndependent ℝ fun i : Fin ps.length => ps[i]

/-! ### Points in general position -/

theorem range_get (ps : List (Fin d → ℝ)) : Set.range (fun i : Fin ps.length => ps[i]) = {x | x ∈ ps} := by
  ext x
  simp only [Set.mem_range, Set.mem_setOf_eq]
  constructor
  · rintro ⟨i, rfl⟩; exact List.getElem_mem i.2
  · intro h
    obtain ⟨i, hi, rfl⟩ := List.mem_iff_getElem.1 h
    exact ⟨⟨i, hi⟩, rfl⟩

theorem span_top (ps : List (Fin d → ℝ)) (hl : ps.length = d + 1) : affineSpan ℝ {x | x ∈ ps} = ⊤ ↔ General ps := by
  rw [← range_get]
  constructor
  · intro h
    rw [General, affineIndependent_iff_finrank_vectorSpan_eq ℝ _ (n := d) (by simp [hl]), AffineSubspace.vectorSpan_eq_top_of_affineSpan_eq_top ℝ _ _ h]
    simp
  · intro h
    rw [AffineIndependent.affineSpan_eq_top_iff_card_eq_finrank_add_one h]
    simp [hl]

theorem not_in_hull (ps : List (Fin d → ℝ)) (h : General ps) (i : Fin ps.length) (s : Set (Fin ps.length)) (hi : i ∉ s) : ps[i] ∉ convexHull ℝ ((fun j : Fin ps.length => ps[j]) '' s) := by
  intro hc
  have := convexHull_subset_affineSpan (𝕜 := ℝ) _ hc
  exact hi ((AffineIndependent.mem_affineSpan_iff h i s).1 this)

/-- Points in general position look quasiconvex in any order. -/
theorem general_quasi (ps : List (Fin d → ℝ)) (h : General ps) : Quasi ps := by
  intro i x hx hc
  obtain ⟨hi, rfl⟩ := List.getElem?_eq_some_iff.1 hx
  refine not_in_hull ps h ⟨i, hi⟩ {j | j.1 < i} (by simp) ?_
  refine convexHull_mono ?_ hc
  intro y hy
  obtain ⟨j, hj, rfl⟩ := List.mem_iff_getElem.1 hy
  rw [List.length_take] at hj
  exact ⟨⟨j, by omega⟩, by show j < i; omega, by simp⟩

theorem quasi_take (ps : List (Fin d → ℝ)) (n k : Nat) (hk : k ≤ n) (h : Quasi (ps.take n)) : Quasi (ps.take k) := by
  intro i x hx
  obtain ⟨hi, hx'⟩ := List.getElem?_eq_some_iff.1 hx
  rw [List.length_take] at hi
  have h1 := h i x (by rw [List.getElem?_eq_some_iff]; exact ⟨by rw [List.length_take]; omega, by rw [← hx']; simp⟩)
  rw [List.take_take] at h1 ⊢
  rw [show min i k = min i n by omega]
  exact h1

open Classical in
theorem vertices_general (hd : 2 ≤ d) (ps : List (Fin d → ℝ)) (hl : ps.length = d + 1) (h : General ps) : vertices ps = some (List.range (d + 1)) := by
  rw [vertices, if_pos ⟨hd, (span_top ps hl).2 h⟩, hl, List.filter_eq_self.2]
  intro i hi
  have hi' : i < ps.length := by rw [hl]; exact List.mem_range.1 hi
  have e : ps.getD i 0 = ps[i] := by simp [hi']
  rw [decide_eq_true_eq, e]
  constructor
  · intro hc
    refine not_in_hull ps h ⟨i, hi'⟩ {j | j.1 ≠ i} (by simp) (convexHull_mono ?_ hc)
    rintro y ⟨hy, hne⟩
    obtain ⟨j, hj, rfl⟩ := List.mem_iff_getElem.1 hy
    refine ⟨⟨j, hj⟩, ?_, rfl⟩
    rintro rfl
    exact hne rfl
  · intro hc
    obtain ⟨j, hj, e2⟩ := List.mem_iff_getElem.1 hc
    rw [List.length_take] at hj
    have : (⟨j, by omega⟩ : Fin ps.length) = ⟨i, hi'⟩ := h.injective (by simpa using e2)
    simp only [Fin.mk.injEq] at this
    omega

open Classical in
/-- The limit depends on the number of points and on the dimension only: the test of quasiconvexity is never made. -/
theorem limit_spec (hd : 2 ≤ d) (ps : List (Fin d → ℝ)) :
    convexLimit ps = if ps.length ≤ d then some ps.length else if General (ps.take (d + 1)) then some d else none := by
  rw [convexLimit]
  by_cases hn : ps.length ≤ d
  · simp only
    rw [if_pos hn, if_pos (by omega)]
    congr 1
    omega
  · simp only
    rw [if_neg hn, if_neg (by omega), show (min (2 * d + 2) (2 * ps.length) + 1) / 2 = d + 1 by omega]
    have hl : (ps.take (d + 1)).length = d + 1 := by rw [List.length_take]; omega
    rw [List.take_take, show min (d + 1) (d + 1) = d + 1 by omega]
    by_cases hg : General (ps.take (d + 1))
    · rw [if_pos hg, vertices_general hd _ hl hg]
      simp only [hl, List.length_range]
      rw [List.drop_eq_nil_of_le (by simp)]
      simp [limitGo, hl]
    · have : vertices (ps.take (d + 1)) = none := by
        rw [vertices, if_neg]
        rintro ⟨-, h⟩
        exact hg ((span_top _ hl).1 h)
      rw [if_neg hg, this]

/-- In dimension one the hull always fails. -/
theorem limit_one (ps : List (Fin 1 → ℝ)) (h : 2 ≤ ps.length) : convexLimit ps = none := by
  rw [convexLimit]
  have : ¬ 2 * ps.length < 2 * 1 + 2 := by omega
  simp [this, vertices]

/-! ### The number of points -/

theorem floor_nonneg (n d : Nat) : 0 ≤ ⌊(n : ℝ) / (11 / 10) ^ d⌋ := Int.floor_nonneg.2 (by positivity)

/-- At least one point, at most a fourth of the archive, the limit and the number of the rule "exp". -/
theorem kHull_spec (n l : Nat) : kHull n d l = max 1 (min (n / 4) (min l ⌊(n : ℝ) / (11 / 10) ^ d⌋.toNat)) := by
  have := floor_nonneg n d
  rw [kHull]
  split <;> omega

theorem kHull_range (n l : Nat) (hn : 1 ≤ n) : 1 ≤ kHull n d l ∧ kHull n d l ≤ n ∧ kHull n d l ≤ max 1 l := by
  rw [kHull_spec]
  omega

theorem isMean_of (k : Nat) (hk : 1 ≤ k) (archive : List ((Fin d → ℝ) × ℝ)) (hl : k ≤ archive.length) : ∃ x, Res.of (Oneshot.avgOfBest k archive) = .point x ∧ IsMean k archive x := by
  obtain ⟨x, best, rest, h1, h2, h3, h4, h5, -⟩ := Oneshot.avg_spec k hk archive hl
  exact ⟨x, by rw [h1]; rfl, best, rest, h2, h3, h4, h5⟩

theorem sorted_length (archive : List ((Fin d → ℝ) × ℝ)) : (sorted archive).length = archive.length := by simp [sorted]

/-! ### Rules -/

/-- The rule "hull" on a numpy which allows it: the mean of a number of points that only depends on the number of points and the dimension; if there are more points than the dimension then
the function looks quasiconvex on these points. An error when the best points are in one hyperplane. Partial: the number of points is not the largest one, and with few points nothing is checked. -/
theorem hull_partial (hd : 2 ≤ d) (archive : List ((Fin d → ℝ) × ℝ)) (hne : archive ≠ []) :
    ((archive.length ≤ d ∨ General ((sorted archive).take (d + 1))) →
      ∃ k x, avg true .hull archive = .point x ∧ IsMean k archive x ∧ k = max 1 (min (archive.length / 4) (min d ⌊(archive.length : ℝ) / (11 / 10) ^ d⌋.toNat)) ∧
        (d < archive.length → Quasi ((sorted archive).take k))) ∧
    (¬ (archive.length ≤ d ∨ General ((sorted archive).take (d + 1))) → avg true .hull archive = .error) := by
  have hn : 1 ≤ archive.length := List.length_pos_iff.2 hne
  have hls := limit_spec hd (sorted archive)
  rw [sorted_length] at hls
  constructor
  · intro h
    have hl : ∃ l, convexLimit (sorted archive) = some l ∧ min (archive.length / 4) l = min (archive.length / 4) d := by
      rw [hls]
      by_cases hle : archive.length ≤ d
      · rw [if_pos hle]; exact ⟨_, rfl, by omega⟩
      · rw [if_neg hle, if_pos (h.resolve_left hle)]; exact ⟨_, rfl, rfl⟩
    obtain ⟨l, hl, hm⟩ := hl
    obtain ⟨r1, r2, r3⟩ := kHull_range (d := d) archive.length l hn
    obtain ⟨x, hx, hi⟩ := isMean_of (kHull archive.length d l) r1 archive r2
    have hk := kHull_spec (d := d) archive.length l
    refine ⟨_, x, ?_, hi, by rw [hk]; omega, fun hlt => ?_⟩
    · rw [avg, if_pos rfl, hl]; exact hx
    · refine quasi_take _ (d + 1) _ ?_ (general_quasi _ (h.resolve_left (by omega)))
      rw [hk]
      omega
  · intro h
    simp only [not_or] at h
    rw [avg, if_pos rfl, hls, if_neg h.1, if_neg h.2]

/-- The means of the other rules, and the default, for the random search. -/
theorem random_spec (ragged : Bool) (ask : Fin d → ℝ) (archive : List ((Fin d → ℝ) × ℝ)) (hne : archive ≠ []) :
    (∃ x, randomRec ragged false ask .best archive = .point x ∧ IsMean (max 1 (min (archive.length / 4) d)) archive x) ∧
    (∃ x, randomRec ragged false ask .exp archive = .point x ∧ IsMean (max 1 ⌊(archive.length : ℝ) / (11 / 10) ^ d⌋.toNat) archive x) ∧
    randomRec ragged false ask .pessimistic archive = .default ∧ randomRec ragged true ask .best archive = .point ask ∧
    ∀ rule, randomRec ragged false ask rule ([] : List ((Fin d → ℝ) × ℝ)) = .default := by
  have hn : 1 ≤ archive.length := List.length_pos_iff.2 hne
  have hf := floor_nonneg archive.length d
  have e1 : Oneshot.kBest (α := ℝ) false archive.length d = max 1 (min (archive.length / 4) d) := by
    simp only [Oneshot.kBest, Bool.false_eq_true, if_false]; split <;> omega
  have e2 : Oneshot.kBest (α := ℝ) true archive.length d = max 1 ⌊(archive.length : ℝ) / (11 / 10) ^ d⌋.toNat := by
    simp only [Oneshot.kBest, if_true]; split <;> omega
  refine ⟨?_, ?_, by simp [randomRec, hne], by simp [randomRec], by intro rule; simp [randomRec]⟩
  · obtain ⟨r1, r2⟩ := Oneshot.kBest_range (α := ℝ) false archive.length d hn
    obtain ⟨x, hx, hi⟩ := isMean_of _ r1 archive r2
    exact ⟨x, by simp only [randomRec, hne, avg]; simpa using hx, e1 ▸ hi⟩
  · obtain ⟨r1, r2⟩ := Oneshot.kBest_range (α := ℝ) true archive.length d hn
    obtain ⟨x, hx, hi⟩ := isMean_of _ r1 archive r2
    exact ⟨x, by simp only [randomRec, hne, avg]; simpa using hx, e2 ▸ hi⟩

/-- The rule of a sampling search. Partial: "average_of_best" and "pessimistic" only. -/
theorem sampling_partial (archive : List ((Fin d → ℝ) × ℝ)) (hne : archive ≠ []) :
    (∃ x, samplingRec .best archive = .point x ∧ IsMean (max 1 (min (archive.length / 4) d)) archive x) ∧ samplingRec .pessimistic archive = .default ∧
    ∀ rule, samplingRec rule ([] : List ((Fin d → ℝ) × ℝ)) = .default := by
  obtain ⟨⟨x, h1, h2⟩, -⟩ := random_spec true (fun _ => 0) archive hne
  refine ⟨⟨x, ?_, h2⟩, by simp [samplingRec], by simp [samplingRec]⟩
  rw [samplingRec, if_pos ⟨hne, rfl⟩]
  simpa [randomRec, hne] using h1

/-- A sampling search ignores the rules "average_of_exp_best" and "average_of_hull_best". -/
theorem sampling_ignores (archive : List ((Fin d → ℝ) × ℝ)) : samplingRec .exp archive = .default ∧ samplingRec .hull archive = .default := by
  simp [samplingRec]

/-- With the versions of numpy that are required a random search with the rule "average_of_hull_best" never has a recommendation. -/
theorem hull_raises (ask : Fin d → ℝ) (archive : List ((Fin d → ℝ) × ℝ)) (hne : archive ≠ []) : randomRec false false ask .hull archive = .error := by
  simp [randomRec, hne, avg]

/-- With 60 points in general position in dimension 15 the rule averages 14 points, although the 15 best ones look quasiconvex and are not more than the rule "dimfourth" takes. -/
theorem hull_not_max (archive : List ((Fin 15 → ℝ) × ℝ)) (hl : archive.length = 60) (h : General ((sorted archive).take 16)) :
    (∃ x, avg true .hull archive = .point x ∧ IsMean 14 archive x) ∧ Quasi ((sorted archive).take 15) ∧ Oneshot.kBest (α := ℝ) false archive.length 15 = 15 := by
  obtain ⟨k, x, h1, h2, h3, -⟩ := (hull_partial (by omega) archive (by rintro rfl; simp at hl)).1 (.inr h)
  have hf : ⌊(60 : ℝ) / (11 / 10) ^ 15⌋ = 14 := by rw [Int.floor_eq_iff]; norm_num
  rw [hl] at h3
  have h3' : k = 14 := by
    rw [h3]
    rw [show ((60 : Nat) : ℝ) = 60 by norm_num, hf]
    decide
  refine ⟨⟨x, h1, h3' ▸ h2⟩, quasi_take _ 16 15 (by omega) (general_quasi _ h), ?_⟩
  rw [hl]
  decide +kernel

/-- Twelve points in dimension twelve on one line, the third one between the two first ones. -/
noncomputable def onLine : List ((Fin 12 → ℝ) × ℝ) := (List.range 12).map fun i : Nat => (fun _ => if i = 1 then 2 else if i = 2 then 1 else (i : ℝ), (i : ℝ))

theorem sorted_onLine : sorted onLine = onLine.map Prod.fst := by
  rw [sorted, List.mergeSort_of_pairwise]
  rw [onLine, List.pairwise_map]
  refine List.Pairwise.imp ?_ List.pairwise_lt_range
  intro a b h
  simpa using h.le

/-- Nothing is checked with few points: three points are averaged although the third one is in the hull of the two first ones. -/
theorem hull_unchecked : (∃ x, avg true .hull onLine = .point x ∧ IsMean 3 onLine x) ∧ ¬ Quasi ((sorted onLine).take 3) := by
  constructor
  · obtain ⟨k, x, h1, h2, h3, -⟩ := (hull_partial (by omega) onLine (by simp [onLine])).1 (.inl (by simp [onLine]))
    have hf : ⌊(12 : ℝ) / (11 / 10) ^ 12⌋ = 3 := by rw [Int.floor_eq_iff]; norm_num
    have h3' : k = 3 := by
      rw [h3, show onLine.length = 12 by simp [onLine], show ((12 : Nat) : ℝ) = 12 by norm_num, hf]
      decide
    exact ⟨x, h1, h3' ▸ h2⟩
  · intro h
    rw [sorted_onLine] at h
    refine h 2 (fun _ => 1) (by simp [onLine]) ?_
    have h0 : (fun _ => 0 : Fin 12 → ℝ) ∈ convexHull ℝ {y | y ∈ ((onLine.map Prod.fst).take 3).take 2} := subset_convexHull ℝ _ (by simp [onLine, List.range_succ])
    have h2 : (fun _ => 2 : Fin 12 → ℝ) ∈ convexHull ℝ {y | y ∈ ((onLine.map Prod.fst).take 3).take 2} := subset_convexHull ℝ _ (by simp [onLine, List.range_succ])
    have := (convex_convexHull ℝ _) h0 h2 (a := 1 / 2) (b := 1 / 2) (by norm_num) (by norm_num) (by norm_num)
    convert this using 1
    ext i
    simp

theorem foldl_max_spec : ∀ (l : List Nat) (a : Nat), (l.foldl max a = a ∨ l.foldl max a ∈ l) ∧ a ≤ l.foldl max a ∧ ∀ x ∈ l, x ≤ l.foldl max a
  | [], a => by simp
  | y :: l, a => by
    obtain ⟨h1, h2, h3⟩ := foldl_max_spec l (max a y)
    rw [List.foldl_cons]
    refine ⟨?_, by omega, fun x hx => ?_⟩
    · rcases h1 with h | h
      · rw [h]
        rcases max_cases a y with ⟨e, _⟩ | ⟨e, _⟩ <;> rw [e] <;> simp
      · exact Or.inr (List.mem_cons_of_mem _ h)
    · rcases List.mem_cons.1 hx with rfl | hx
      · omega
      · exact h3 x hx

theorem foldl_min_spec : ∀ (l : List Nat) (a : Nat), (l.foldl min a = a ∨ l.foldl min a ∈ l) ∧ l.foldl min a ≤ a ∧ ∀ x ∈ l, l.foldl min a ≤ x
  | [], a => by simp
  | y :: l, a => by
    obtain ⟨h1, h2, h3⟩ := foldl_min_spec l (min a y)
    rw [List.foldl_cons]
    refine ⟨?_, by omega, fun x hx => ?_⟩
    · rcases h1 with h | h
      · rw [h]
        rcases min_cases a y with ⟨e, _⟩ | ⟨e, _⟩ <;> rw [e] <;> simp
      · exact Or.inr (List.mem_cons_of_mem _ h)
    · rcases List.mem_cons.1 hx with rfl | hx
      · omega
      · exact h3 x hx

/-- What the rule averages: the largest and the smallest index of the vertices, and not the points. -/
theorem center_indices (ps : List (Fin d → ℝ)) (k : Nat) {v : List Nat} (hv : vertices (ps.take k) = some v) (hne : v ≠ []) :
    ∃ a ∈ v, ∃ b ∈ v, (∀ x ∈ v, b ≤ x ∧ x ≤ a) ∧ hullCenter ps k = some (((a : ℝ) + b) / 2) := by
  obtain ⟨m1, m2, m3⟩ := foldl_max_spec v (v.headD 0)
  obtain ⟨n1, n2, n3⟩ := foldl_min_spec v (v.headD 0)
  have hh : v.headD 0 ∈ v := by cases v with
    | nil => exact absurd rfl hne
    | cons x l => simp
  refine ⟨_, ?_, _, ?_, fun x hx => ⟨n3 x hx, m3 x hx⟩, ?_⟩
  · rcases m1 with h | h
    · rw [h]; exact hh
    · exact h
  · rcases n1 with h | h
    · rw [h]; exact hh
    · exact h
  · rw [hullCenter, hv]
    congr 1
    ring

/-- `hull_center` is not a point: for points in general position it is half of the dimension, wherever they are. -/
theorem center_wrong (hd : 2 ≤ d) (ps : List (Fin d → ℝ)) (hl : ps.length = d + 1) (h : General ps) : hullCenter ps (d + 1) = some ((d : ℝ) / 2) := by
  have hmax : ∀ n : Nat, (List.range (n + 1)).foldl max 0 = n := by
    intro n
    induction n with
    | zero => rfl
    | succ n ih => rw [List.range_succ, List.foldl_append, ih]; simp
  have hmin : ∀ l : List Nat, l.foldl min 0 = 0 := by
    intro l
    induction l with
    | nil => rfl
    | cons a l ih => simpa using ih
  rw [hullCenter, List.take_of_length_le (by omega), vertices_general hd ps hl h]
  have : (List.range (d + 1)).headD 0 = 0 := by rw [List.range_succ_eq_map]; rfl
  simp only [this, hmax, hmin]
  congr 1
  push_cast
  ring

/-! ### Cases -/

/-- The origin and the unit vectors. -/
def corners (d : Nat) : List (Fin d → ℝ) := List.ofFn fun i : Fin (d + 1) => fun j : Fin d => if i = j.succ then 1 else 0

/-- They are in general position. -/
theorem corners_general (d : Nat) : General (corners d) := by
  have h : AffineIndependent ℝ fun i : Fin (d + 1) => fun j : Fin d => if i = j.succ then (1 : ℝ) else 0 := by
    rw [affineIndependent_iff_of_fintype]
    intro w hw hs
    rw [Finset.weightedVSub_eq_linear_combination _ hw] at hs
    have h1 : ∀ j : Fin d, w j.succ = 0 := by
      intro j
      have := congrFun hs j
      simpa [Finset.sum_apply] using this
    intro i
    refine Fin.cases ?_ h1 i
    rw [Fin.sum_univ_succ] at hw
    simpa [h1] using hw
  have e := h.comp_embedding (finCongr (show (corners d).length = d + 1 by simp [corners])).toEmbedding
  rw [General]
  convert e using 2 with i
  exact List.getElem_ofFn (by simpa [corners] using i.2)

/-- Three points in dimension two: the best one is recommended. -/
example : ∃ x, avg true .hull ([(![0, 0], 1), (![1, 0], 2), (![0, 1], 3)] : List ((Fin 2 → ℝ) × ℝ)) = .point x := by
  have hs : sorted ([(![0, 0], 1), (![1, 0], 2), (![0, 1], 3)] : List ((Fin 2 → ℝ) × ℝ)) = corners 2 := by
    rw [sorted, List.mergeSort_of_pairwise (by simp; norm_num)]
    simp only [corners, List.map_cons, List.map_nil, List.ofFn_succ, List.ofFn_zero]
    congr 1
    · ext j; fin_cases j <;> simp
    congr 1
    · ext j; fin_cases j <;> simp
    congr 1
    · ext j; fin_cases j <;> simp
  obtain ⟨k, x, h, -⟩ := (hull_partial (d := 2) (by omega) [(![0, 0], 1), (![1, 0], 2), (![0, 1], 3)] (by simp)).1 (.inr (by rw [hs, List.take_of_length_le (by simp [corners])]; exact corners_general 2))
  exact ⟨x, h⟩

/-- The center for the triangle. -/
example : hullCenter (corners 2) 3 = some 1 := by rw [center_wrong (by omega) (corners 2) (by simp [corners]) (corners_general 2)]; norm_num

end NG.HullRule
