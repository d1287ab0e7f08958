import Verif.Model.Mlda
import Mathlib.Algebra.Order.BigOperators.Group.List
import Mathlib.Algebra.BigOperators.Field
import Mathlib.Data.Fintype.BigOperators
import Mathlib.Analysis.SpecialFunctions.Trigonometric.DerivHyp
import Mathlib.Analysis.Complex.Trigonometric
import Mathlib.Tactic.Linarith
import Mathlib.Tactic.FieldSimp
import Mathlib.Tactic.Ring
import Mathlib.Tactic.Positivity
import Mathlib.Tactic.FinCases

/-! # C120: the data analysis problems -/

namespace NG.Mlda

set_option linter.unusedSectionVars false

/-! ## Clustering -/

section
variable {ι : Type} [Fintype ι]

theorem sqDist_nonneg (x c : ι → ℝ) : 0 ≤ sqDist x c := Finset.sum_nonneg fun i _ => sq_nonneg _

theorem sqDist_zero (x c : ι → ℝ) : sqDist x c = 0 ↔ x = c := by
  rw [sqDist, Finset.sum_eq_zero_iff_of_nonneg fun i _ => sq_nonneg _]
  constructor
  · intro h
    funext i
    have := h i (Finset.mem_univ i)
    nlinarith
  · rintro rfl i _
    simp

theorem foldl_min (l : List ℝ) : ∀ a, (l.foldl min a ∈ a :: l) ∧ ∀ b ∈ a :: l, l.foldl min a ≤ b := by
  induction l with
  | nil => intro a; simp
  | cons c l ih =>
    intro a
    obtain ⟨h1, h2⟩ := ih (min a c)
    simp only [List.foldl_cons]
    constructor
    · rcases List.mem_cons.1 h1 with h | h
      · rw [h]
        rcases min_choice a c with hm | hm <;> simp [hm]
      · simp [h]
    · intro b hb
      rcases List.mem_cons.1 hb with rfl | hb
      · exact le_trans (h2 _ List.mem_cons_self) (min_le_left _ _)
      · rcases List.mem_cons.1 hb with rfl | hb
        · exact le_trans (h2 _ List.mem_cons_self) (min_le_right _ _)
        · exact h2 b (by simp [hb])

/-- The distance of a point to a set of centers: the smallest one. -/
abbrev Closest (centers : List (ι → ℝ)) (x : ι → ℝ) (d : ℝ) : Prop := (∃ c ∈ centers, sqDist x c = d) ∧ ∀ c ∈ centers, d ≤ sqDist x c

theorem affect_spec (centers : List (ι → ℝ)) (hc : centers ≠ []) (x : ι → ℝ) : ∃ d, affect centers x = some d ∧ Closest centers x d := by
  cases centers with
  | nil => exact absurd rfl hc
  | cons c l =>
    refine ⟨_, rfl, ?_⟩
    obtain ⟨h1, h2⟩ := foldl_min (l.map (sqDist x)) (sqDist x c)
    rw [← List.map_cons] at h1 h2
    obtain ⟨c', hc', he⟩ := List.mem_map.1 h1
    exact ⟨⟨c', hc', he⟩, fun b hb => h2 _ (List.mem_map_of_mem hb)⟩

theorem closest_unique (centers : List (ι → ℝ)) (x : ι → ℝ) (d d' : ℝ) (h : Closest centers x d) (h' : Closest centers x d') : d = d' := by
  obtain ⟨⟨c, hc, rfl⟩, h2⟩ := h
  obtain ⟨⟨c', hc', rfl⟩, h2'⟩ := h'
  exact le_antisymm (h2 _ hc') (h2' _ hc)

/-- C120: the clustering loss is the sum over the points of the squared distance to the closest center. -/
theorem kmeans_spec (points centers : List (ι → ℝ)) (hc : centers ≠ []) : ∃ d : (ι → ℝ) → ℝ, (∀ x, Closest centers x (d x)) ∧ kmeans points centers = some (points.map d).sum := by
  choose d hd using affect_spec centers hc
  refine ⟨d, fun x => (hd x).2, ?_⟩
  have : points.mapM (affect centers) = some (points.map d) := by
    induction points with
    | nil => rfl
    | cons x l ih => simp [List.mapM_cons, (hd x).1, ih]
  rw [kmeans, this]; rfl

/-- C120: the loss is not negative, and zero exactly when each point is a center. -/
theorem kmeans_zero (points centers : List (ι → ℝ)) (v : ℝ) (h : kmeans points centers = some v) (hc : centers ≠ []) : 0 ≤ v ∧ (v = 0 ↔ ∀ x ∈ points, x ∈ centers) := by
  obtain ⟨d, hd, he⟩ := kmeans_spec points centers hc
  rw [h, Option.some.injEq] at he
  have hn : ∀ x, 0 ≤ d x := fun x => by
    obtain ⟨c, -, hx⟩ := (hd x).1
    rw [← hx]; exact sqDist_nonneg x c
  have h0 : 0 ≤ v := by
    rw [he]
    refine List.sum_nonneg fun y hy => ?_
    obtain ⟨x, -, rfl⟩ := List.mem_map.1 hy
    exact hn x
  refine ⟨h0, ?_⟩
  have hz : ∀ x, d x = 0 ↔ x ∈ centers := by
    intro x
    constructor
    · intro hx
      obtain ⟨c, hc, hcd⟩ := (hd x).1
      rw [hx, sqDist_zero] at hcd
      rw [hcd]; exact hc
    · intro hx
      refine le_antisymm ?_ (hn x)
      have := (hd x).2 x hx
      rwa [(sqDist_zero x x).2 rfl] at this
  rw [he]
  clear he h h0
  induction points with
  | nil => simp
  | cons x l ih =>
    simp only [List.map_cons, List.sum_cons, List.forall_mem_cons]
    have hl : 0 ≤ (l.map d).sum := List.sum_nonneg fun y hy => by
      obtain ⟨x, -, rfl⟩ := List.mem_map.1 hy
      exact hn x
    refine Iff.trans ?_ (and_congr (hz x) ih)
    constructor
    · intro h; constructor <;> linarith [hn x]
    · rintro ⟨h1, h2⟩; rw [h1, h2]; ring

/-- C120: more centers never increase the loss; their order and repetitions do not matter. -/
theorem kmeans_more (points centers centers' : List (ι → ℝ)) (hc : centers ≠ []) (hsub : centers ⊆ centers') :
    ∃ v v', kmeans points centers = some v ∧ kmeans points centers' = some v' ∧ v' ≤ v ∧ (centers' ⊆ centers → v' = v) := by
  have hc' : centers' ≠ [] := by
    intro h; rw [h] at hsub
    exact hc (List.subset_nil.1 hsub)
  obtain ⟨d, hd, he⟩ := kmeans_spec points centers hc
  obtain ⟨d', hd', he'⟩ := kmeans_spec points centers' hc'
  refine ⟨_, _, he, he', List.sum_le_sum fun x _ => ?_, fun hsub' => ?_⟩
  · obtain ⟨c, hcm, hcd⟩ := (hd x).1
    rw [← hcd]
    exact (hd' x).2 c (hsub hcm)
  · congr 1
    refine List.map_congr_left fun x _ => ?_
    refine closest_unique centers x _ _ ?_ (hd x)
    obtain ⟨⟨c, hc1, hc2⟩, h2⟩ := hd' x
    exact ⟨⟨c, hsub' hc1, hc2⟩, fun c hc => h2 c (hsub hc)⟩

/-- C120: the order of the points does not matter. -/
theorem kmeans_points (points points' centers : List (ι → ℝ)) (hc : centers ≠ []) (hp : points.Perm points') : kmeans points centers = kmeans points' centers := by
  obtain ⟨d, hd, he⟩ := kmeans_spec points centers hc
  obtain ⟨d', hd', he'⟩ := kmeans_spec points' centers hc
  have : d = d' := funext fun x => closest_unique centers x _ _ (hd x) (hd' x)
  subst this
  rw [he, he', (hp.map d).sum_eq]

theorem sum_sq (l : List ℝ) (m c : ℝ) (hm : m * l.length = l.sum) : (l.map fun a => (a - c) ^ 2).sum = (l.map fun a => (a - m) ^ 2).sum + l.length * (c - m) ^ 2 := by
  have h : ∀ c : ℝ, (l.map fun a => (a - c) ^ 2).sum = (l.map fun a => a ^ 2).sum - 2 * c * l.sum + l.length * c ^ 2 := by
    intro c
    clear hm
    induction l with
    | nil => simp
    | cons a l ih => simp only [List.map_cons, List.sum_cons, ih, List.length_cons]; push_cast; ring
  rw [h c, h m, ← hm]; ring

theorem mean_mul (points : List (ι → ℝ)) (i : ι) (h : points ≠ []) : mean points i * (points.map (· i)).length = (points.map (· i)).sum := by
  have : (points.length : ℝ) ≠ 0 := by
    simp [h]
  simp only [mean, List.length_map]
  field_simp

theorem sum_swap (points : List (ι → ℝ)) (f : ι → ℝ → ℝ) : (points.map fun x => ∑ i, f i (x i)).sum = ∑ i, (points.map fun x => f i (x i)).sum := by
  induction points with
  | nil => simp
  | cons x l ih => simp only [List.map_cons, List.sum_cons, ih, Finset.sum_add_distrib]

theorem total_mean (points : List (ι → ℝ)) (hp : points ≠ []) (c : ι → ℝ) :
    (points.map fun x => sqDist x c).sum = (points.map fun x => sqDist x (mean points)).sum + points.length * sqDist c (mean points) := by
  simp only [sqDist]
  rw [sum_swap points fun i a => (a - c i) ^ 2, sum_swap points fun i a => (a - mean points i) ^ 2, Finset.mul_sum, ← Finset.sum_add_distrib]
  refine Finset.sum_congr rfl fun i _ => ?_
  have := sum_sq (points.map (· i)) (mean points i) (c i) (mean_mul points i hp)
  simpa [List.map_map, Function.comp_def] using this

/-- C120: with one cluster the loss is the one at the mean plus the number of points times the squared distance to the mean: the mean is the only optimum. -/
theorem kmeans_single (points : List (ι → ℝ)) (hp : points ≠ []) (c : ι → ℝ) :
    ∃ v, kmeans points [mean points] = some v ∧ kmeans points [c] = some (v + points.length * sqDist c (mean points)) := by
  have key : ∀ c : ι → ℝ, kmeans points [c] = some (points.map fun x => sqDist x c).sum := by
    intro c
    obtain ⟨d, hd, he⟩ := kmeans_spec points [c] (by simp)
    rw [he]
    congr 2
    refine List.map_congr_left fun x _ => ?_
    obtain ⟨⟨c', h1, h2⟩, -⟩ := hd x
    rw [List.mem_singleton] at h1
    rw [← h2, h1]
  exact ⟨_, key _, by rw [key c, total_mean points hp c]⟩

/-- C120: moving each center to the mean of points among which those that have chosen it (Lloyd's step) never increases the loss, whatever the choice of a closest center. -/
theorem kmeans_lloyd (points : List (ι → ℝ)) (k : Nat) (centers centers' : Fin (k + 1) → ι → ℝ) (choice : (ι → ℝ) → Fin (k + 1))
    (hclose : ∀ x ∈ points, ∀ j, sqDist x (centers (choice x)) ≤ sqDist x (centers j))
    (hmean : ∀ j, (points.filter fun x => choice x = j) ≠ [] → centers' j = mean (points.filter fun x => choice x = j)) :
    ∃ v v', kmeans points (List.ofFn centers) = some v ∧ kmeans points (List.ofFn centers') = some v' ∧ v' ≤ v := by
  have hne : ∀ c : Fin (k + 1) → ι → ℝ, List.ofFn c ≠ [] := fun c h => by simpa using congrArg List.length h
  obtain ⟨d, hd, he⟩ := kmeans_spec points (List.ofFn centers) (hne _)
  obtain ⟨d', hd', he'⟩ := kmeans_spec points (List.ofFn centers') (hne _)
  refine ⟨_, _, he, he', ?_⟩
  have h1 : (points.map d).sum = (points.map fun x => sqDist x (centers (choice x))).sum := by
    congr 1
    refine List.map_congr_left fun x hx => ?_
    obtain ⟨⟨c, hc, hcd⟩, h2⟩ := hd x
    obtain ⟨j, rfl⟩ := (List.mem_ofFn' centers c).1 hc
    exact le_antisymm (h2 _ ((List.mem_ofFn' centers _).2 ⟨_, rfl⟩)) (hcd ▸ hclose x hx j)
  have h2 : (points.map d').sum ≤ (points.map fun x => sqDist x (centers' (choice x))).sum :=
    List.sum_le_sum fun x _ => (hd' x).2 _ ((List.mem_ofFn' centers' _).2 ⟨_, rfl⟩)
  have hsplit : ∀ f : Fin (k + 1) → (ι → ℝ) → ℝ, (points.map fun x => f (choice x) x).sum = ∑ j, ((points.filter fun x => choice x = j).map (f j)).sum := by
    intro f
    clear he he' h1 h2 hclose hmean
    induction points with
    | nil => simp
    | cons x l ih =>
      simp only [List.map_cons, List.sum_cons, ih]
      have : ∀ j, ((List.filter (fun y => decide (choice y = j)) (x :: l)).map (f j)).sum =
          (if j = choice x then f (choice x) x else 0) + ((l.filter fun y => choice y = j).map (f j)).sum := by
        intro j
        by_cases hj : choice x = j
        · subst hj; simp
        · simp [hj, Ne.symm hj]
      simp only [this, Finset.sum_add_distrib, Finset.sum_ite_eq', Finset.mem_univ, if_true]
  rw [h1]
  refine le_trans h2 ?_
  rw [hsplit fun j x => sqDist x (centers' j), hsplit fun j x => sqDist x (centers j)]
  refine Finset.sum_le_sum fun j _ => ?_
  by_cases hj : (points.filter fun x => choice x = j) = []
  · simp [hj]
  · rw [hmean j hj, total_mean _ hj (centers j)]
    have := sqDist_nonneg (centers j) (mean (points.filter fun x => choice x = j))
    have hl : (0 : ℝ) ≤ (points.filter fun x => choice x = j).length := Nat.cast_nonneg _
    nlinarith [mul_nonneg hl this]

/-- The mean of the points with the mean subtracted is zero. -/
theorem mean_centered (points : List (ι → ℝ)) (hp : points ≠ []) (i : ι) : mean (points.map fun x i => x i - mean points i) i = 0 := by
  have h := mean_mul points i hp
  have : (points.map fun x => x i - mean points i).sum = (points.map (· i)).sum - points.length * mean points i := by
    generalize mean points i = m
    clear h hp
    induction points with
    | nil => simp
    | cons x l ih => simp only [List.map_cons, List.sum_cons, ih, List.length_cons]; push_cast; ring
  simp only [mean, List.map_map, Function.comp_def, List.length_map]
  simp only [mean] at this
  have hl : (points.length : ℝ) ≠ 0 := by simp [hp]
  rw [this]
  field_simp
  ring

/-- The variance. -/
theorem std_sq (points : List (ι → ℝ)) (i : ι) : std points i ^ 2 = (points.map fun x => (x i - mean points i) ^ 2).sum / points.length := by
  rw [std, Real.sq_sqrt]
  refine div_nonneg (List.sum_nonneg fun y hy => ?_) (Nat.cast_nonneg _)
  obtain ⟨x, -, rfl⟩ := List.mem_map.1 hy
  exact sq_nonneg _

theorem sum_div (l : List ℝ) (c : ℝ) : (l.map fun a => a / c).sum = l.sum / c := by
  induction l with
  | nil => simp
  | cons a l ih => simp [ih, add_div]

/-- C120: rescaled points have mean zero and variance one on each axis. -/
theorem rescale_spec_partial (points q : List (ι → ℝ)) (hp : points ≠ []) (h : rescale points = some q) (i : ι) :
    q.length = points.length ∧ (q.map (· i)).sum = 0 ∧ (q.map fun x => x i ^ 2).sum = (points.length : ℝ) := by
  simp only [rescale] at h
  split at h
  case isFalse => cases h
  case isTrue hs =>
    simp only [Option.some.injEq] at h
    set y := points.map fun x i => x i - mean points i with hy
    have hyne : y ≠ [] := by simp [hy, hp]
    have hlen : y.length = points.length := by simp [hy]
    have hm := mean_centered points hp i
    rw [← hy] at hm
    have hl : (y.length : ℝ) ≠ 0 := by simp [hyne]
    refine ⟨by rw [← h]; simp [hlen], ?_, ?_⟩
    · rw [← h]
      simp only [List.map_map, Function.comp_def]
      have : (y.map fun x => x i / std y i) = (y.map (· i)).map fun a => a / std y i := by simp [Function.comp_def]
      rw [this, sum_div]
      have h2 := mean_mul y i hyne
      rw [hm, zero_mul] at h2
      rw [← h2, zero_div]
    · rw [← h]
      simp only [List.map_map, Function.comp_def, div_pow]
      have : (y.map fun x => x i ^ 2 / std y i ^ 2) = (y.map fun x => x i ^ 2).map fun a => a / std y i ^ 2 := by simp [Function.comp_def]
      rw [this, sum_div]
      have h3 := std_sq y i
      rw [hm] at h3
      simp only [sub_zero] at h3
      have h4 : std y i ^ 2 ≠ 0 := pow_ne_zero 2 (hs i)
      have h5 : (y.map fun x => x i ^ 2).sum = std y i ^ 2 * y.length := by
        rw [h3]; field_simp
      rw [h5, hlen, mul_div_cancel_left₀ _ h4]

/-- C120: for a rescaled problem the loss of the initial point (all centers at zero) is the number of points times the number of coordinates, and it is the best one with a
single cluster. -/
theorem clustering_init (points : List (ι → ℝ)) (hp : points ≠ []) (q : List (ι → ℝ)) (hq : rescale points = some q) (k : Nat) (c : ι → ℝ) :
    clustering points true (List.replicate (k + 1) fun _ => 0) = some ((points.length : ℝ) * Fintype.card ι) ∧
      ∃ v, clustering points true [c] = some v ∧ (points.length : ℝ) * Fintype.card ι ≤ v := by
  have hsum : (q.map fun x => sqDist x fun _ => 0).sum = (points.length : ℝ) * Fintype.card ι := by
    simp only [sqDist, sub_zero]
    rw [sum_swap q fun i a => a ^ 2]
    rw [Finset.sum_congr rfl fun i _ => (rescale_spec_partial points q hp hq i).2.2]
    simp [mul_comm]
  have hlen : ∀ i : ι, q.length = points.length := fun i => (rescale_spec_partial points q hp hq i).1
  have h0 : kmeans q [fun _ => 0] = some ((points.length : ℝ) * Fintype.card ι) := by
    obtain ⟨d, hd, he⟩ := kmeans_spec q [fun _ => 0] (by simp)
    rw [he, ← hsum]
    congr 2
    refine List.map_congr_left fun x _ => ?_
    obtain ⟨⟨c', h1, h2⟩, -⟩ := hd x
    rw [List.mem_singleton] at h1
    rw [← h2, h1]
  have hqne : q ≠ [] := by
    simp only [rescale] at hq
    split at hq
    · simp only [Option.some.injEq] at hq
      rw [← hq]; simpa using hp
    · cases hq
  simp only [clustering, if_true, hq, Option.bind_some]
  constructor
  · obtain ⟨v, v', h1, h2, -, h4⟩ := kmeans_more q [fun _ => 0] (List.replicate (k + 1) fun _ => 0) (by simp) (by simp [List.replicate_succ])
    rw [h2, h4 (fun x hx => by simpa using List.eq_of_mem_replicate hx), ← h1, h0]
  · have hm : mean q = fun _ => 0 := by
      funext i
      simp [mean, (rescale_spec_partial points q hp hq i).2.1]
    obtain ⟨v, h1, h2⟩ := kmeans_single q hqne c
    rw [hm, h0, Option.some.injEq] at h1
    refine ⟨_, h2, ?_⟩
    rw [h1]
    have : (0 : ℝ) ≤ q.length * sqDist c (mean q) := mul_nonneg (Nat.cast_nonneg _) (sqDist_nonneg _ _)
    linarith

/-- C120: rescaling forgets the unit and the origin of each coordinate: data measured in other units give the same problem. -/
theorem rescale_units (points : List (ι → ℝ)) (hp : points ≠ []) (a b : ι → ℝ) (ha : ∀ i, 0 < a i) : rescale (points.map fun x i => a i * x i + b i) = rescale points := by
  have hmean : ∀ i, mean (points.map fun x i => a i * x i + b i) i = a i * mean points i + b i := by
    intro i
    have h := mean_mul points i hp
    have hl : (points.length : ℝ) ≠ 0 := by simp [hp]
    have : (points.map fun x => a i * x i + b i).sum = a i * (points.map (· i)).sum + points.length * b i := by
      generalize a i = α
      generalize b i = β
      clear h hl hp ha
      induction points with
      | nil => simp
      | cons x l ih => simp only [List.map_cons, List.sum_cons, ih, List.length_cons]; push_cast; ring
    simp only [mean, List.map_map, Function.comp_def, List.length_map]
    rw [this]
    field_simp
  have hc : ((points.map fun x i => a i * x i + b i).map fun x i => x i - mean (points.map fun x i => a i * x i + b i) i) =
      (points.map fun x i => x i - mean points i).map fun x i => a i * x i := by
    simp only [List.map_map]
    refine List.map_congr_left fun x _ => ?_
    funext i
    simp only [Function.comp, hmean]
    ring
  set y := points.map fun x i => x i - mean points i with hy
  have hstd : ∀ i, std (y.map fun x i => a i * x i) i = a i * std y i := by
    intro i
    have hm : mean (y.map fun x i => a i * x i) i = a i * mean y i := by
      simp only [mean, List.map_map, Function.comp_def, List.length_map]
      rw [List.sum_map_mul_left]
      ring
    rw [← Real.sqrt_sq (ha i).le, std, std, ← Real.sqrt_mul (sq_nonneg _), hm]
    congr 1
    simp only [List.map_map, Function.comp_def, List.length_map]
    rw [← mul_div_assoc, ← List.sum_map_mul_left]
    congr 2
    refine List.map_congr_left fun x _ => ?_
    ring
  simp only [rescale]
  rw [hc, ← hy]
  have hiff : (∀ i, std (y.map fun x i => a i * x i) i ≠ 0) ↔ ∀ i, std y i ≠ 0 := by
    refine forall_congr' fun i => ?_
    rw [hstd i]
    simp [(ha i).ne']
  by_cases h : ∀ i, std y i ≠ 0
  · rw [if_pos (hiff.2 h), if_pos h, List.map_map]
    congr 1
    refine List.map_congr_left fun x _ => ?_
    funext i
    simp only [Function.comp, hstd i]
    rw [mul_div_mul_left _ _ (ha i).ne']
  · rw [if_neg (fun hc => h (hiff.1 hc)), if_neg h]

/-- C120 fails for data with a constant coordinate: with the default rescaling the loss is undefined (`nan`) for all centers. -/
theorem constant_axis (points centers : List (ι → ℝ)) (hp : points ≠ []) (i : ι) (a : ℝ) (h : ∀ x ∈ points, x i = a) : clustering points true centers = none := by
  have hm : mean points i = a := by
    have h1 : (points.map (· i)).sum = points.length * a := by
      clear hp
      induction points with
      | nil => simp
      | cons x l ih =>
        simp only [List.map_cons, List.sum_cons, List.length_cons, ih fun y hy => h y (List.mem_cons_of_mem _ hy), h x (by simp)]
        push_cast; ring
    have hl : (points.length : ℝ) ≠ 0 := by simp [hp]
    rw [mean, h1]; field_simp
  have : rescale points = none := by
    simp only [rescale]
    rw [if_neg]
    push Not
    refine ⟨i, ?_⟩
    have hz : ∀ x ∈ points.map fun x i => x i - mean points i, x i = 0 := by
      intro x hx
      obtain ⟨y, hy, rfl⟩ := List.mem_map.1 hx
      simp [hm, h y hy]
    have hmean := mean_centered points hp i
    simp only [std]
    rw [hmean]
    rw [Real.sqrt_eq_zero']
    refine le_of_eq ?_
    have : ((points.map fun x i => x i - mean points i).map fun x => (x i - 0) ^ 2).sum = 0 := by
      refine List.sum_eq_zero fun y hy => ?_
      obtain ⟨x, hx, rfl⟩ := List.mem_map.1 hy
      simp [hz x hx]
    rw [this, zero_div]
  simp [clustering, this]

end

/-! ## Perceptron -/

/-- C120: the loss of the perceptron is not negative, and zero exactly when all outputs are right. -/
theorem perceptron_zero (p : Weights) (data : List (ℝ × ℝ)) (hd : data ≠ []) : 0 ≤ p.loss data ∧ (p.loss data = 0 ↔ ∀ e ∈ data, p.apply e.1 = e.2) := by
  have hl : (data.length : ℝ) ≠ 0 := by simp [hd]
  have hn : ∀ l : List (ℝ × ℝ), 0 ≤ (l.map fun e => (p.apply e.1 - e.2) ^ 2).sum := fun l => List.sum_nonneg fun y hy => by
    obtain ⟨x, -, rfl⟩ := List.mem_map.1 hy
    exact sq_nonneg _
  refine ⟨div_nonneg (hn data) (Nat.cast_nonneg _), ?_⟩
  rw [Weights.loss, div_eq_zero_iff, or_iff_left hl]
  clear hl hd
  induction data with
  | nil => simp
  | cons e l ih =>
    simp only [List.map_cons, List.sum_cons, List.forall_mem_cons]
    refine Iff.trans ?_ (and_congr_right' ih)
    have h1 := hn l
    have h2 := sq_nonneg (p.apply e.1 - e.2)
    constructor
    · intro h
      have h3 : (p.apply e.1 - e.2) ^ 2 = 0 := by linarith
      exact ⟨by nlinarith, by linarith⟩
    · rintro ⟨h3, h4⟩; rw [h3, h4]; ring

/-- C120: the outputs do not change when the hidden units are renumbered, -/
theorem perceptron_renumber (p : Weights) (s : Equiv.Perm (Fin 3)) (x : ℝ) : Weights.apply ⟨p.weight ∘ s, p.bias ∘ s, p.out ∘ s, p.last⟩ x = p.apply x := by
  simp only [Weights.apply, Function.comp]
  rw [Equiv.sum_comp s fun j => Real.tanh (x * p.weight j + p.bias j) * p.out j]

/-- nor when the three weights of some units change their signs: each minimum comes with its 48 images. -/
theorem perceptron_signs (p : Weights) (s : Fin 3 → ℝ) (hs : ∀ j, s j = 1 ∨ s j = -1) (x : ℝ) :
    Weights.apply ⟨fun j => s j * p.weight j, fun j => s j * p.bias j, fun j => s j * p.out j, p.last⟩ x = p.apply x := by
  simp only [Weights.apply]
  congr 1
  refine Finset.sum_congr rfl fun j _ => ?_
  rcases hs j with h | h
  · simp [h]
  · have : x * (s j * p.weight j) + s j * p.bias j = -(x * p.weight j + p.bias j) := by rw [h]; ring
    rw [this, Real.tanh_neg, h]; ring

/-- C120: the outputs stay within the sum of the output weights of the last bias, however large the other weights. -/
theorem perceptron_range (p : Weights) (x : ℝ) : |p.apply x - p.last| ≤ ∑ j, |p.out j| := by
  simp only [Weights.apply, add_sub_cancel_right]
  refine le_trans (Finset.abs_sum_le_sum_abs _ _) (Finset.sum_le_sum fun j _ => ?_)
  rw [abs_mul]
  have := (Real.abs_tanh_lt_one (x * p.weight j + p.bias j)).le
  nlinarith [abs_nonneg (p.out j)]

/-- C120: a unit without output weight has no effect (its two other parameters are flat directions, as at the initial point). -/
theorem perceptron_dead (p : Weights) (w b : Fin 3 → ℝ) (h : ∀ j, p.out j ≠ 0 → w j = p.weight j ∧ b j = p.bias j) (x : ℝ) :
    Weights.apply ⟨w, b, p.out, p.last⟩ x = p.apply x := by
  simp only [Weights.apply]
  congr 1
  refine Finset.sum_congr rfl fun j _ => ?_
  by_cases hj : p.out j = 0
  · simp [hj]
  · obtain ⟨h1, h2⟩ := h j hj
    rw [h1, h2]

/-- C120: as a function of the last bias the loss is a parabola: with all other weights fixed, its minimum is where the errors have mean zero. -/
theorem perceptron_last (p : Weights) (data : List (ℝ × ℝ)) (hd : data ≠ []) (h : (data.map fun e => p.apply e.1 - e.2).sum = 0) (b : ℝ) :
    Weights.loss { p with last := p.last + b } data = p.loss data + b ^ 2 := by
  have hl : (data.length : ℝ) ≠ 0 := by simp [hd]
  have ha : ∀ x, Weights.apply { p with last := p.last + b } x = p.apply x + b := fun x => by simp only [Weights.apply]; ring
  have key : ∀ l : List (ℝ × ℝ), (l.map fun e => (p.apply e.1 + b - e.2) ^ 2).sum =
      (l.map fun e => (p.apply e.1 - e.2) ^ 2).sum + 2 * b * (l.map fun e => p.apply e.1 - e.2).sum + l.length * b ^ 2 := by
    intro l
    induction l with
    | nil => simp
    | cons e l ih => simp only [List.map_cons, List.sum_cons, ih, List.length_cons]; push_cast; ring
  simp only [Weights.loss, ha]
  rw [key data, h]
  field_simp
  ring

/-- C120: the initial point (all parameters zero) predicts zero: its loss is the mean square of the data. -/
theorem perceptron_init (data : List (ℝ × ℝ)) : Weights.loss ⟨fun _ => 0, fun _ => 0, fun _ => 0, 0⟩ data = (data.map fun e => e.2 ^ 2).sum / data.length := by
  simp [Weights.loss, Weights.apply]

/-- C120: the fifty inputs are increasing and within [-1, 1), and the sign of an input that is not zero decides the step data. -/
theorem inputs_spec : inputs.length = 50 ∧ inputs.Pairwise (· < ·) ∧ (∀ x ∈ inputs, -1 ≤ x ∧ x < 1) ∧ ∀ x ∈ inputs, x ≠ 0 := by
  refine ⟨by simp [inputs], ?_, ?_, ?_⟩
  · simp only [inputs, List.pairwise_map]
    refine List.pairwise_lt_range.imp fun {a b} h => ?_
    have : (a : ℝ) < b := by exact_mod_cast h
    linarith
  · intro x hx
    obtain ⟨k, hk, rfl⟩ := List.mem_map.1 hx
    have h1 : (0 : ℝ) ≤ k := Nat.cast_nonneg _
    have h2 : (k : ℝ) ≤ 49 := by exact_mod_cast (by have := List.mem_range.1 hk; omega : k ≤ 49)
    constructor <;> norm_num <;> linarith
  · intro x hx h
    obtain ⟨k, -, rfl⟩ := List.mem_map.1 hx
    have h1 : (k : ℝ) * 408 = 10000 := by norm_num at h; linarith
    have h2 : k * 408 = 10000 := by exact_mod_cast h1
    omega

/-! ## Sammon mapping -/

theorem dist_nonneg (p q : ℝ × ℝ) : 0 ≤ dist p q := Real.sqrt_nonneg _

theorem dist_comm (p q : ℝ × ℝ) : dist p q = dist q p := by
  simp only [dist]; congr 1; ring

theorem dist_self (p : ℝ × ℝ) : dist p p = 0 := by simp [dist]

theorem weight_pos (a : ℝ) : 0 < weight a := by
  simp only [weight]
  split
  · exact one_pos
  · next h => exact lt_of_le_of_ne (sq_nonneg a) (Ne.symm h)

/-- C120: the Sammon loss is not negative, and zero exactly when all distances are the wanted ones. -/
theorem sammon_zero {n : Nat} (proximity : Fin n → Fin n → ℝ) (x : Fin n → ℝ × ℝ) :
    0 ≤ sammon proximity x ∧ (sammon proximity x = 0 ↔ ∀ i j, dist (x i) (x j) = proximity i j) := by
  have h0 : ∀ i j, 0 ≤ (dist (x i) (x j) - proximity i j) ^ 2 / weight (proximity i j) := fun i j => div_nonneg (sq_nonneg _) (weight_pos _).le
  refine ⟨Finset.sum_nonneg fun i _ => Finset.sum_nonneg fun j _ => h0 i j, ?_⟩
  rw [sammon, Finset.sum_eq_zero_iff_of_nonneg fun i _ => Finset.sum_nonneg fun j _ => h0 i j]
  refine ⟨fun h i j => ?_, fun h i _ => Finset.sum_eq_zero fun j _ => ?_⟩
  · have h1 := h i (Finset.mem_univ i)
    rw [Finset.sum_eq_zero_iff_of_nonneg fun j _ => h0 i j] at h1
    have h2 := h1 j (Finset.mem_univ j)
    rw [div_eq_zero_iff, or_iff_left (weight_pos _).ne'] at h2
    nlinarith
  · rw [h i j]; simp

/-- C120: the loss sees the distances only: a movement of the plane does not change it. -/
theorem sammon_moved {n : Nat} (proximity : Fin n → Fin n → ℝ) (x : Fin n → ℝ × ℝ) (c s a b : ℝ) (h : c ^ 2 + s ^ 2 = 1) :
    sammon proximity (fun i => (c * (x i).1 - s * (x i).2 + a, s * (x i).1 + c * (x i).2 + b)) = sammon proximity x ∧
      sammon proximity (fun i => ((x i).1, -(x i).2)) = sammon proximity x := by
  constructor
  · simp only [sammon]
    refine Finset.sum_congr rfl fun i _ => Finset.sum_congr rfl fun j _ => ?_
    congr 3
    simp only [dist]
    congr 1
    have : ((x i).1 - (x j).1) ^ 2 + ((x i).2 - (x j).2) ^ 2 = (c ^ 2 + s ^ 2) * (((x i).1 - (x j).1) ^ 2 + ((x i).2 - (x j).2) ^ 2) := by rw [h, one_mul]
    rw [this]; ring
  · simp only [sammon]
    refine Finset.sum_congr rfl fun i _ => Finset.sum_congr rfl fun j _ => ?_
    congr 3
    simp only [dist]
    congr 1
    ring

/-- C120: the loss does not depend on the unit of the distances: with `k` times the wanted distances and the points, it is the same (when wanted distances are not zero). -/
theorem sammon_unit {n : Nat} (proximity : Fin n → Fin n → ℝ) (x : Fin n → ℝ × ℝ) (k : ℝ) (hk : 0 < k) (hz : ∀ i j, proximity i j = 0 → dist (x i) (x j) = 0) :
    sammon (fun i j => k * proximity i j) (fun i => (k * (x i).1, k * (x i).2)) = sammon proximity x := by
  simp only [sammon]
  refine Finset.sum_congr rfl fun i _ => Finset.sum_congr rfl fun j _ => ?_
  have hd : dist (k * (x i).1, k * (x i).2) (k * (x j).1, k * (x j).2) = k * dist (x i) (x j) := by
    simp only [dist]
    rw [← Real.sqrt_sq hk.le, ← Real.sqrt_mul (sq_nonneg _), Real.sqrt_sq hk.le]
    congr 1; ring
  rw [hd]
  by_cases h : proximity i j = 0
  · simp [h, hz i j h]
  · have h1 : weight (k * proximity i j) = k ^ 2 * weight (proximity i j) := by
      simp only [weight]
      rw [if_neg (by positivity), if_neg (by positivity)]; ring
    rw [h1]
    have h2 := (weight_pos (proximity i j)).ne'
    have h3 := hk.ne'
    field_simp

/-- C120: with all points at the same place, as at the initial point, each pair with a wanted distance that is not zero costs one. -/
theorem sammon_init {n : Nat} (proximity : Fin n → Fin n → ℝ) (p : ℝ × ℝ) :
    sammon proximity (fun _ => p) = ((Finset.univ.filter fun e : Fin n × Fin n => proximity e.1 e.2 ≠ 0).card : ℝ) := by
  have h : ∀ i j, (dist p p - proximity i j) ^ 2 / weight (proximity i j) = if proximity i j ≠ 0 then 1 else 0 := by
    intro i j
    rw [dist_self]
    by_cases h : proximity i j = 0
    · simp [h]
    · have : proximity i j ^ 2 ≠ 0 := pow_ne_zero 2 h
      simp only [weight, if_neg this, zero_sub, neg_sq, ne_eq, h, not_false_eq_true, if_true]
      field_simp
  simp only [sammon, h]
  rw [← Finset.sum_product', Finset.sum_boole]
  rfl

/-- C120: wanted distances that are not distances (not symmetric, not zero between a point and itself, or negative) are never reached. -/
theorem sammon_unreachable {n : Nat} (proximity : Fin n → Fin n → ℝ) (i j : Fin n) (h : proximity i j ≠ proximity j i ∨ proximity i i ≠ 0 ∨ proximity i j < 0) (x : Fin n → ℝ × ℝ) :
    0 < sammon proximity x := by
  obtain ⟨h1, h2⟩ := sammon_zero proximity x
  refine lt_of_le_of_ne h1 fun h0 => ?_
  have hall := h2.1 h0.symm
  rcases h with h | h | h
  · exact h (by rw [← hall i j, ← hall j i, dist_comm])
  · exact h (by rw [← hall i i, dist_self])
  · have := dist_nonneg (x i) (x j)
    rw [hall i j] at this
    linarith

/-- C120: on the circle's own points the loss is zero, -/
theorem circle_optimal (n : Nat) : sammon (fun i j => dist (circle n i) (circle n j)) (circle n) = 0 :=
  (sammon_zero _ _).2.2 fun _ _ => rfl

/-- C120 fails for the number of points: the first and the last one of the circle are the same point. -/
theorem circle_closed (n : Nat) : circle (n + 2) 0 = circle (n + 2) (Fin.last (n + 1)) := by
  have h : ((n + 2 : ℕ) : ℝ) - 1 ≠ 0 := by
    push_cast
    have : (0 : ℝ) ≤ n := Nat.cast_nonneg n
    linarith
  have h2 : 2 * Real.pi * ((Fin.last (n + 1) : Fin (n + 2)) : ℕ) / (((n + 2 : ℕ) : ℝ) - 1) = 2 * Real.pi := by
    rw [div_eq_iff h]
    simp only [Fin.val_last]
    push_cast
    ring
  simp only [circle]
  rw [h2]
  simp

/-! ## Landscape -/

/-- What rounding to the nearest integer, and to the even one in the middle, means. -/
theorem round_iff (x : ℝ) (z : ℤ) : roundEven x = z ↔ |x - z| < 1 / 2 ∨ (|x - z| = 1 / 2 ∧ z % 2 = 0) := by
  have hf := Int.floor_le x
  have hf' := Int.lt_floor_add_one x
  have key : ∀ y : ℤ, (|x - y| < 1 / 2 ∨ (|x - y| = 1 / 2 ∧ y % 2 = 0)) → ∀ z : ℤ, (|x - z| < 1 / 2 ∨ (|x - z| = 1 / 2 ∧ z % 2 = 0)) → y = z := by
    intro y hy z hz
    have hy1 : |x - y| ≤ 1 / 2 := by rcases hy with h | h; exacts [h.le, h.1.le]
    have hz1 : |x - z| ≤ 1 / 2 := by rcases hz with h | h; exacts [h.le, h.1.le]
    have ha := abs_le.1 hy1
    have hb := abs_le.1 hz1
    have h1 : (y : ℝ) - z ≤ 1 := by linarith [ha.1, ha.2, hb.1, hb.2]
    have h2 : (z : ℝ) - y ≤ 1 := by linarith [ha.1, ha.2, hb.1, hb.2]
    have h1' : y - z ≤ 1 := by exact_mod_cast h1
    have h2' : z - y ≤ 1 := by exact_mod_cast h2
    by_contra hne
    have hcase : y = z + 1 ∨ z = y + 1 := by omega
    rcases hcase with rfl | rfl
    · push_cast at *
      have e1 : x - z = 1 / 2 := by linarith [ha.1, ha.2, hb.1, hb.2]
      have e2 : x - (z + 1) = -(1 / 2) := by linarith
      rw [e1] at hz; rw [e2] at hy
      norm_num at hz hy
      omega
    · push_cast at *
      have e1 : x - y = 1 / 2 := by linarith [ha.1, ha.2, hb.1, hb.2]
      have e2 : x - (y + 1) = -(1 / 2) := by linarith
      rw [e1] at hy; rw [e2] at hz
      norm_num at hz hy
      omega
  have hs : |x - (roundEven x : ℤ)| < 1 / 2 ∨ (|x - (roundEven x : ℤ)| = 1 / 2 ∧ roundEven x % 2 = 0) := by
    simp only [roundEven]
    by_cases h1 : x - ⌊x⌋ < 1 / 2
    · rw [if_pos h1]
      left; rw [abs_lt]; constructor <;> linarith
    · rw [if_neg h1]
      by_cases h2 : 1 / 2 < x - ⌊x⌋
      · rw [if_pos h2]
        left; push_cast; rw [abs_lt]; constructor <;> linarith
      · rw [if_neg h2]
        have h3 : x - ⌊x⌋ = 1 / 2 := le_antisymm (not_lt.1 h2) (not_lt.1 h1)
        by_cases h4 : ⌊x⌋ % 2 = 0
        · rw [if_pos h4]
          right; exact ⟨by rw [h3]; norm_num, h4⟩
        · rw [if_neg h4]
          right
          push_cast
          refine ⟨?_, by omega⟩
          have : x - (⌊x⌋ + 1 : ℝ) = -(1 / 2) := by linarith
          rw [this]; norm_num
  exact ⟨fun h => h ▸ hs, fun h => key _ hs z h⟩

theorem foldl_max (l : List ℝ) : ∀ a, (l.foldl max a ∈ a :: l) ∧ ∀ b ∈ a :: l, b ≤ l.foldl max a := by
  induction l with
  | nil => intro a; simp
  | cons c l ih =>
    intro a
    obtain ⟨h1, h2⟩ := ih (max a c)
    simp only [List.foldl_cons]
    constructor
    · rcases List.mem_cons.1 h1 with h | h
      · rw [h]
        rcases max_choice a c with hm | hm <;> simp [hm]
      · simp [h]
    · intro b hb
      rcases List.mem_cons.1 hb with rfl | hb
      · exact le_trans (le_max_left _ _) (h2 _ List.mem_cons_self)
      · rcases List.mem_cons.1 hb with rfl | hb
        · exact le_trans (le_max_right _ _) (h2 _ List.mem_cons_self)
        · exact h2 b (by simp [hb])

/-- The largest pixel. -/
theorem top_spec (h w : Nat) (image : Nat → Nat → ℝ) (hh : 0 < h) (hw : 0 < w) : (∃ i < h, ∃ j < w, image i j = top h w image) ∧ ∀ i < h, ∀ j < w, image i j ≤ top h w image := by
  obtain ⟨h1, h2⟩ := foldl_max ((List.range h).flatMap fun i => (List.range w).map (image i)) (image 0 0)
  have hmem : ∀ i < h, ∀ j < w, image i j ∈ (List.range h).flatMap fun i => (List.range w).map (image i) := by
    intro i hi j hj
    exact List.mem_flatMap.2 ⟨i, List.mem_range.2 hi, List.mem_map.2 ⟨j, List.mem_range.2 hj, rfl⟩⟩
  refine ⟨?_, fun i hi j hj => h2 _ (List.mem_cons_of_mem _ (hmem i hi j hj))⟩
  rcases List.mem_cons.1 h1 with h | h
  · exact ⟨0, hh, 0, hw, h.symm⟩
  · obtain ⟨i, hi, hj⟩ := List.mem_flatMap.1 h
    obtain ⟨j, hj, he⟩ := List.mem_map.1 hj
    exact ⟨i, List.mem_range.1 hi, j, List.mem_range.1 hj, he⟩

/-- C120: inside the image the landscape is the difference between the largest pixel and the pixel of the rounded position, outside it is infinite. -/
theorem pixel_spec (h w : Nat) (image : Nat → Nat → ℝ) (x y : ℝ) :
    (∀ i < h, ∀ j < w, roundEven x = i → roundEven y = j → pixel h w image x y = ((top h w image - image i j : ℝ) : WithTop ℝ)) ∧
      (pixel h w image x y = ⊤ ↔ ¬ ∃ i < h, ∃ j < w, roundEven x = (i : ℕ) ∧ roundEven y = (j : ℕ)) := by
  constructor
  · intro i hi j hj hx hy
    simp only [pixel, hx, hy]
    rw [if_neg (by omega)]
    simp
  · simp only [pixel]
    split
    · next hout =>
      simp only [true_iff]
      rintro ⟨i, hi, j, hj, hx, hy⟩
      omega
    · next hin =>
      push Not at hin
      simp only [WithTop.coe_ne_top, false_iff, not_not]
      exact ⟨(roundEven x).toNat, by omega, (roundEven y).toNat, by omega, by omega, by omega⟩

/-- C120: the landscape is not negative, its minimum is zero, and it is reached exactly where the rounded position has the largest pixel. -/
theorem pixel_zero (h w : Nat) (image : Nat → Nat → ℝ) (hh : 0 < h) (hw : 0 < w) :
    (∀ x y, 0 ≤ pixel h w image x y) ∧ (∃ i < h, ∃ j < w, pixel h w image (i : ℕ) (j : ℕ) = 0) ∧
      ∀ x y, pixel h w image x y = 0 ↔ ∃ i < h, ∃ j < w, roundEven x = (i : ℕ) ∧ roundEven y = (j : ℕ) ∧ ∀ i' < h, ∀ j' < w, image i' j' ≤ image i j := by
  obtain ⟨⟨i, hi, j, hj, he⟩, hle⟩ := top_spec h w image hh hw
  have hr : ∀ k : ℕ, roundEven (k : ℝ) = k := fun k => (round_iff _ _).2 (by left; simp)
  have hval : ∀ x y, pixel h w image x y = ⊤ ∨ ∃ i < h, ∃ j < w, roundEven x = (i : ℕ) ∧ roundEven y = (j : ℕ) ∧ pixel h w image x y = ((top h w image - image i j : ℝ) : WithTop ℝ) := by
    intro x y
    obtain ⟨h1, h2⟩ := pixel_spec h w image x y
    by_cases ht : pixel h w image x y = ⊤
    · exact Or.inl ht
    · obtain ⟨i, hi, j, hj, hx, hy⟩ := not_not.1 fun hn => ht (h2.2 hn)
      exact Or.inr ⟨i, hi, j, hj, hx, hy, h1 i hi j hj hx hy⟩
  refine ⟨fun x y => ?_, ⟨i, hi, j, hj, ?_⟩, fun x y => ?_⟩
  · rcases hval x y with ht | ⟨i, hi, j, hj, -, -, hv⟩
    · rw [ht]; exact le_top
    · rw [hv]
      have := hle i hi j hj
      exact_mod_cast sub_nonneg.2 this
  · rw [(pixel_spec h w image _ _).1 i hi j hj (hr i) (hr j), he, sub_self]; rfl
  · rcases hval x y with ht | ⟨i', hi', j', hj', hx, hy, hv⟩
    · rw [ht]
      refine ⟨fun hc => by simp at hc, ?_⟩
      rintro ⟨i', hi', j', hj', hx, hy, -⟩
      exact absurd ⟨i', hi', j', hj', hx, hy⟩ ((pixel_spec h w image x y).2.1 ht)
    · rw [hv]
      constructor
      · intro h0
        have h0' : top h w image - image i' j' = 0 := by exact_mod_cast h0
        refine ⟨i', hi', j', hj', hx, hy, fun a ha b hb => ?_⟩
        linarith [hle a ha b hb]
      · rintro ⟨a, ha, b, hb, hxa, hyb, hmax⟩
        have e1 : a = i' := by omega
        have e2 : b = j' := by omega
        subst e1 e2
        have : top h w image - image a b = 0 := by
          have := hmax i hi j hj
          linarith [hle a ha b hb]
        rw [this]; rfl

/-- C120: where the landscape is finite: up to half a pixel outside the image, the middle included on the side of the first pixel, and on the side of the last one if and only
if the number of pixels is odd. -/
theorem inside_iff (n : Nat) (x : ℝ) : (∃ i < n, roundEven x = (i : ℕ)) ↔ 0 < n ∧ -(1 / 2) ≤ x ∧ (x < n - 1 / 2 ∨ (x = n - 1 / 2 ∧ n % 2 = 1)) := by
  constructor
  · rintro ⟨i, hi, hx⟩
    rw [round_iff] at hx
    have hin : (i : ℝ) + 1 ≤ n := by exact_mod_cast hi
    have h0 : (0 : ℝ) ≤ i := Nat.cast_nonneg i
    push_cast at hx
    refine ⟨by omega, ?_, ?_⟩
    · rcases hx with hx | hx
      · have := (abs_lt.1 hx).1; linarith
      · have := (abs_le.1 hx.1.le).1; linarith
    · rcases hx with hx | ⟨hx, hp⟩
      · left
        have := (abs_lt.1 hx).2; linarith
      · have h2 := (abs_le.1 hx.le).2
        by_cases h : x = n - 1 / 2
        · right
          refine ⟨h, ?_⟩
          have : (n : ℝ) ≤ i + 1 := by linarith
          have : n ≤ i + 1 := by exact_mod_cast this
          omega
        · left
          exact lt_of_le_of_ne (by linarith) h
  · rintro ⟨hn, h1, h2⟩
    have hr := (round_iff x (roundEven x)).1 rfl
    have hr1 : |x - (roundEven x : ℤ)| ≤ 1 / 2 := by rcases hr with h | h; exacts [h.le, h.1.le]
    obtain ⟨ha, hb⟩ := abs_le.1 hr1
    have hlo : (0 : ℤ) ≤ roundEven x := by
      by_contra hc
      have hc1 : roundEven x ≤ -1 := by omega
      have hc2 : (roundEven x : ℝ) ≤ -1 := by exact_mod_cast hc1
      have hx : x = -(1 / 2) := by linarith
      have : roundEven x = 0 := (round_iff x 0).2 (by right; rw [hx]; norm_num)
      omega
    have hhi : roundEven x < (n : ℤ) := by
      by_contra hc
      have hc1 : (n : ℤ) ≤ roundEven x := by omega
      have hc2 : (n : ℝ) ≤ (roundEven x : ℝ) := by exact_mod_cast hc1
      rcases h2 with h2 | ⟨h2, hodd⟩
      · linarith
      · have : roundEven x = (n : ℤ) - 1 := (round_iff x _).2 (by
          right
          refine ⟨?_, by omega⟩
          rw [h2]; push_cast
          have : (n : ℝ) - 1 / 2 - (n - 1) = 1 / 2 := by ring
          rw [this]; norm_num)
        omega
    exact ⟨(roundEven x).toNat, by omega, by omega⟩

/-- C120: around each pixel the landscape is flat, up to half a pixel. -/
theorem pixel_flat (h w : Nat) (image : Nat → Nat → ℝ) (i j : ℤ) (x y : ℝ) (hx : |x - i| < 1 / 2) (hy : |y - j| < 1 / 2) : pixel h w image x y = pixel h w image i j := by
  have h1 : roundEven x = i := (round_iff x i).2 (Or.inl hx)
  have h2 : roundEven y = j := (round_iff y j).2 (Or.inl hy)
  have h3 : roundEven (i : ℝ) = i := (round_iff _ i).2 (by left; simp)
  have h4 : roundEven (j : ℝ) = j := (round_iff _ j).2 (by left; simp)
  simp only [pixel, h1, h2, h3, h4]

/-- C120: the standard initial point and the one of the transform `square` are inside the image. -/
theorem init_inside (h w : Nat) (image : Nat → Nat → ℝ) (hh : 0 < h) (hw : 0 < w) : pixel h w image 0 0 ≠ ⊤ ∧ pixel h w image (squareInit h) (squareInit w) ≠ ⊤ := by
  have key : ∀ n : Nat, 0 < n → ∃ i < n, roundEven (squareInit n) = (i : ℕ) := by
    intro n hn
    have h1 : (1 : ℝ) ≤ n := by exact_mod_cast hn
    refine (inside_iff n _).2 ⟨hn, ?_, ?_⟩
    · simp only [squareInit]; linarith
    · left; simp only [squareInit]; linarith
  have key0 : roundEven 0 = ((0 : ℕ) : ℤ) := (round_iff 0 _).2 (by left; norm_num)
  constructor
  · intro ht
    exact (pixel_spec h w image 0 0).2.1 ht ⟨0, hh, 0, hw, key0, key0⟩
  · intro ht
    obtain ⟨i, hi, hx⟩ := key h hh
    obtain ⟨j, hj, hy⟩ := key w hw
    exact (pixel_spec h w image _ _).2.1 ht ⟨i, hi, j, hj, hx, hy⟩

/-! ## Cases -/

/-- Two points of the line, at 0 and at 2: one center at 1 costs two, centers at both nothing, a third center at 3 changes nothing. -/
example : kmeans (ι := Fin 1) [fun _ => 0, fun _ => 2] [fun _ => 1] = some 2 ∧ kmeans (ι := Fin 1) [fun _ => 0, fun _ => 2] [fun _ => 2, fun _ => 0] = some 0 ∧
    kmeans (ι := Fin 1) [fun _ => 0, fun _ => 2] [fun _ => 2, fun _ => 0, fun _ => 3] = some 0 := by
  refine ⟨?_, ?_, ?_⟩ <;> simp [kmeans, affect, sqDist] <;> norm_num

/-- These points have a spread, so the rescaled problem exists; with a second, constant coordinate it does not. -/
example : rescale (ι := Fin 1) [fun _ => 0, fun _ => 2] = some [fun _ => -1, fun _ => 1] ∧
    clustering (ι := Fin 2) [fun i => if i = 0 then 0 else 5, fun i => if i = 0 then 2 else 5] true [fun _ => 0] = none := by
  constructor
  · have hm : mean (ι := Fin 1) [fun _ => 0, fun _ => 2] = fun _ => 1 := by funext i; simp [mean]
    have hs : ∀ i, std (ι := Fin 1) [fun _ => -1, fun _ => 1] i = 1 := by intro i; simp [std, mean]
    have hc : ([fun _ => 0, fun _ => 2] : List (Fin 1 → ℝ)).map (fun x i => x i - mean (ι := Fin 1) [fun _ => 0, fun _ => 2] i) = [fun _ => -1, fun _ => 1] := by
      rw [hm]; simp; norm_num
    simp only [rescale, hc, hs]
    simp
  · exact constant_axis _ _ (by simp) 1 5 (by simp)

/-- A perceptron with one active unit. -/
example : Weights.apply ⟨fun _ => 1, fun _ => 0, fun j => if j = 0 then 2 else 0, 3⟩ 0 = 3 := by
  simp [Weights.apply]

/-- On two rows, the position 3/2 is rounded to 2 and outside; on three rows, 5/2 is rounded to 2 and inside. -/
example : (¬ ∃ i < 2, roundEven (3 / 2) = (i : ℕ)) ∧ ∃ i < 3, roundEven (5 / 2) = (i : ℕ) := by
  constructor
  · rw [inside_iff]; norm_num
  · rw [inside_iff]; norm_num

/-- The three points of a circle are two. -/
example : circle 3 0 = circle 3 2 ∧ circle 3 1 ≠ circle 3 0 := by
  refine ⟨circle_closed 1, ?_⟩
  simp only [circle, ne_eq, Prod.mk.injEq, not_and]
  intro h
  exfalso
  norm_num at h

end NG.Mlda
