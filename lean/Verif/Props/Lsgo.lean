import Verif.Model.Lsgo
import Verif.Props.CoreFuncs
import Mathlib.Data.Fintype.Card
import Mathlib.Analysis.SpecialFunctions.Trigonometric.Bounds
import Mathlib.Data.List.FinRange

/-!
# LSGO functions
-/

set_option linter.unusedSectionVars false

namespace NG
namespace Lsgo

/-! ## Specification -/

/-- The function is defined and non-negative on the whole space, and zero at `p` only. -/
def ZeroAt (f : Vec → Option ℝ) (p : Vec) : Prop :=
  ∀ x, x.length = p.length → ∃ v, f x = some v ∧ 0 ≤ v ∧ (v = 0 ↔ x = p)

/-- A square matrix of size `n` which is injective, like all rotations. -/
def Regular (n : Nat) (rot : List Vec) : Prop :=
  rot.length = n ∧ (∀ row ∈ rot, row.length = n) ∧ ∀ u v : Vec, u.length = n → v.length = n → rot.map (dot · u) = rot.map (dot · v) → u = v

/-- What is expected from the data files: positive weights and rotations. -/
structure Valid (d : Data) : Prop where
  w : ∀ c ∈ d.w, 0 < c
  R25 : Regular 25 d.R25
  R50 : Regular 50 d.R50
  R100 : Regular 100 d.R100

/-- Setting the coordinates of `group` to those of `p` never increases the loss, whatever the other coordinates. -/
def Separates (f : Vec → Option ℝ) (p : Vec) (group : List Nat) : Prop :=
  ∀ x x' v v', (∀ i ∈ group, x'[i]? = p[i]?) → (∀ i, i ∉ group → x'[i]? = x[i]?) → f x = some v → f x' = some v' → v' ≤ v

/-! ## Losses -/

theorem dot_self (x : Vec) : dot x x = Core.sphere x := by
  simp [dot, Core.sphere, List.zipWith_self, sq]

theorem sphere_core (x : Vec) : sphere x = Core.sphere x := dot_self x

theorem rastrigin_core (x : Vec) : rastrigin x = Core.rastrigin x := by simp [rastrigin, Core.rastrigin, sphere_core]

theorem ackley_core (x : Vec) : ackley x = Core.ackley x := by simp [ackley, Core.ackley, sphere_core]

theorem schwefel_core (x : Vec) : schwefel x = Core.schwefel x := by simp [schwefel, Core.schwefel, sphere_core]

theorem rosenbrock_core : ∀ x, rosenbrock x = Core.rosenbrock x
  | [] => by simp [rosenbrock, Core.rosenbrock, dot]
  | [a] => by simp [rosenbrock, Core.rosenbrock, dot]
  | a :: b :: r => by
    have ih := rosenbrock_core (b :: r)
    simp only [rosenbrock, Core.rosenbrock, dot_self, List.dropLast_cons_cons, List.tail_cons, List.zipWith_cons_cons, List.map_cons] at ih ⊢
    rw [← ih]
    simp only [Core.sphere, List.map_cons, List.sum_cons]
    ring

theorem elliptic_core (x : Vec) : elliptic x.length x = some (Core.ellipsoid x) := by
  rw [elliptic, if_pos rfl, Core.ellipsoid, dot]
  congr 2
  apply List.ext_getElem
  · simp
  · intro i h1 h2
    simp [linspace, Core.weight, mul_div_assoc]

/-! ## Transforms -/

theorem sign_neg' {v : ℝ} (h : v < 0) : ((SignType.sign v : SignType) : ℝ) = -1 := by rw [sign_neg h]; simp
theorem sign_pos' {v : ℝ} (h : 0 < v) : ((SignType.sign v : SignType) : ℝ) = 1 := by rw [sign_pos h]; simp

/-- The exponent of the irregularity. -/
noncomputable def wave (a b t : ℝ) : ℝ := t + 0.049 * (Real.sin (a * t) + Real.sin (b * t))

theorem sin_sub_le (a b : ℝ) : Real.sin a - Real.sin b ≤ |a - b| := le_trans (le_abs_self _) (Real.abs_sin_sub_sin_le a b)

theorem wave_lt {a b s t : ℝ} (ha : 0 ≤ a) (hb : 0 ≤ b) (hab : 0.049 * (a + b) < 1) (h : s < t) : wave a b s < wave a b t := by
  have h1 := sin_sub_le (a * s) (a * t)
  have h2 := sin_sub_le (b * s) (b * t)
  have e1 : |a * s - a * t| = a * (t - s) := by rw [← mul_sub, abs_mul, abs_of_nonneg ha, abs_of_neg (by linarith)]; ring
  have e2 : |b * s - b * t| = b * (t - s) := by rw [← mul_sub, abs_mul, abs_of_nonneg hb, abs_of_neg (by linarith)]; ring
  rw [e1] at h1
  rw [e2] at h2
  unfold wave
  nlinarith [mul_lt_mul_of_pos_right hab (show 0 < t - s by linarith)]

theorem irregular_pos {v : ℝ} (h : 0 < v) : irregular v = Real.exp (wave 10 7.9 (Real.log v)) := by
  simp only [irregular, if_neg h.ne', abs_of_pos h, sign_pos' h, wave]
  norm_num

theorem irregular_neg {v : ℝ} (h : v < 0) : irregular v = -Real.exp (wave 5.5 3.1 (Real.log (-v))) := by
  simp only [irregular, if_neg h.ne, abs_of_neg h, sign_neg' h, wave]
  norm_num

theorem irregular_zero : irregular 0 = 0 := by simp [irregular]

/-- The irregularity keeps signs and order. -/
theorem irregular_strictMono : StrictMono irregular := by
  intro x y h
  rcases lt_trichotomy x 0 with hx | rfl | hx
  · rcases lt_trichotomy y 0 with hy | rfl | hy
    · rw [irregular_neg hx, irregular_neg hy, neg_lt_neg_iff, Real.exp_lt_exp]
      exact wave_lt (by norm_num) (by norm_num) (by norm_num) (Real.log_lt_log (by linarith) (by linarith))
    · rw [irregular_neg hx, irregular_zero]; linarith [Real.exp_pos (wave 5.5 3.1 (Real.log (-x)))]
    · rw [irregular_neg hx, irregular_pos hy]
      linarith [Real.exp_pos (wave 5.5 3.1 (Real.log (-x))), Real.exp_pos (wave 10 7.9 (Real.log y))]
  · rw [irregular_zero, irregular_pos h]; exact Real.exp_pos _
  · have hy : 0 < y := lt_trans hx h
    rw [irregular_pos hx, irregular_pos hy, Real.exp_lt_exp]
    exact wave_lt (by norm_num) (by norm_num) (by norm_num) (Real.log_lt_log hx h)

theorem irregular_zero_iff (v : ℝ) : irregular v = 0 ↔ v = 0 :=
  ⟨fun h => irregular_strictMono.injective (h.trans irregular_zero.symm), fun h => h ▸ irregular_zero⟩

theorem asym_zero_iff (w v : ℝ) : v ^ (1 + w * Real.sqrt (max 0 v)) = 0 ↔ v = 0 := by
  rcases lt_trichotomy v 0 with hv | rfl | hv
  · rw [max_eq_left hv.le, Real.sqrt_zero, mul_zero, add_zero, Real.rpow_one]
  · simp
  · exact ⟨fun h => absurd h (Real.rpow_pos_of_pos hv _).ne', fun h => absurd h hv.ne'⟩

abbrev Zeros (x : Vec) : Prop := ∀ v ∈ x, v = 0

/-- A transform of arrays of size `m` which acts on each entry and keeps zeros. -/
def Each (m : Nat) (t : Transform) : Prop :=
  ∃ g : Nat → ℝ → ℝ, (∀ i v, g i v = 0 ↔ v = 0) ∧ ∀ y, y.length = m → t y = some (y.mapIdx g)

theorem each_irregularity (m : Nat) : Each m irregularity :=
  ⟨fun _ => irregular, fun _ => irregular_zero_iff, fun y _ => congrArg some (List.ext_getElem (by simp) (by simp))⟩

theorem each_asymmetry (m : Nat) (beta : ℝ) : Each m (asymmetry beta) :=
  ⟨fun i v => v ^ (1 + linspace 0 beta m i * Real.sqrt (max 0 v)), fun _ _ => asym_zero_iff _ _, fun y hy => by simp [asymmetry, hy]⟩

theorem each_ill (m : Nat) {alpha : ℝ} (h : 0 < alpha) : Each m (illconditionning alpha) :=
  ⟨fun i v => alpha ^ linspace 0 0.5 m i * v, fun i v => by simp [(Real.rpow_pos_of_pos h _).ne'], fun y hy => by simp [illconditionning, hy]⟩

theorem each_transforms (k : Kind) (side : Bool) (m : Nat) : ∀ t ∈ k.transforms side, Each m t := by
  cases k <;> cases side <;> simp [Kind.transforms, each_irregularity, each_asymmetry, each_ill]

/-- All together they also act on each entry. -/
theorem each_all {m : Nat} : ∀ {ts : List Transform}, (∀ t ∈ ts, Each m t) →
    ∃ g : Nat → ℝ → ℝ, (∀ i v, g i v = 0 ↔ v = 0) ∧ ∀ y, y.length = m → applyAll ts y = some (y.mapIdx g)
  | [], _ => ⟨fun _ v => v, fun _ _ => Iff.rfl, fun y _ => by
      simp only [applyAll, Option.some.injEq]; exact (List.ext_getElem (by simp) (by simp))⟩
  | t :: r, h => by
    obtain ⟨g, hg, e⟩ := h t (by simp)
    obtain ⟨g', hg', e'⟩ := each_all (ts := r) (fun t ht => h t (by simp [ht]))
    refine ⟨fun i v => g' i (g i v), fun i v => (hg' i _).trans (hg i v), fun y hy => ?_⟩
    rw [applyAll, e y hy, Option.bind_some, e' _ (by simpa using hy)]
    congr 1
    exact List.ext_getElem (by simp) (by simp)

theorem zeros_mapIdx {g : Nat → ℝ → ℝ} (hg : ∀ i v, g i v = 0 ↔ v = 0) (y : Vec) : Zeros (y.mapIdx g) ↔ Zeros y := by
  constructor
  · intro h v hv
    obtain ⟨i, hi, rfl⟩ := List.getElem_of_mem hv
    exact (hg i _).1 (h _ (List.mem_mapIdx.2 ⟨i, hi, rfl⟩))
  · intro h v hv
    obtain ⟨i, hi, rfl⟩ := List.mem_mapIdx.1 hv
    exact (hg i _).2 (h _ (List.getElem_mem hi))

/-- A loss of arrays of size `m` is non-negative, and zero at zero only. -/
def Loss (m : Nat) (l : Vec → Option ℝ) : Prop := ∀ y, y.length = m → ∃ v, l y = some v ∧ 0 ≤ v ∧ (v = 0 ↔ Zeros y)

theorem loss_of_optimum {m : Nat} {f : Vec → ℝ} (h : Core.Optimum m f 0 (List.replicate m 0)) : Loss m (fun x => some (f x)) := by
  intro y hy
  refine ⟨f y, rfl, (h.2.2 y hy).1, fun e v hv => ?_, fun e => ?_⟩
  · have := (h.2.2 y hy).2 e
    rw [this] at hv
    exact List.eq_of_mem_replicate hv
  · rw [Core.eq_replicate hy e, h.2.1]

theorem kind_loss (k : Kind) (side : Bool) {m : Nat} (hm : 0 < m) : Loss m (k.loss m side) := by
  cases k with
  | elliptic =>
    intro y hy
    obtain ⟨v, h1, h2⟩ := loss_of_optimum (Core.ellipsoid_optimum m) y hy
    refine ⟨v, ?_, h2⟩
    subst hy
    rw [← h1]
    exact elliptic_core y
  | rastrigin => simpa [Kind.loss, rastrigin_core] using loss_of_optimum (Core.rastrigin_optimum m)
  | ackley =>
    obtain ⟨n, rfl⟩ : ∃ n, m = n + 1 := ⟨m - 1, by omega⟩
    simpa [Kind.loss, ackley_core] using loss_of_optimum (Core.ackley_optimum n)
  | schwefel =>
    cases side
    · simpa [Kind.loss, schwefel_core] using loss_of_optimum (Core.schwefel_optimum m)
    · simpa [Kind.loss, sphere_core] using loss_of_optimum (Core.sphere_optimum m)

/-! ## Chunks -/

theorem indexing_some {inds : List Nat} {n : Nat} {y : Vec} (hy : y.length = n) (hi : ∀ i ∈ inds, i < n) :
    indexing inds n y = some (inds.map (fun i => y[i]?.getD 0)) := by
  rw [indexing, if_pos hy]
  induction inds with
  | nil => rfl
  | cons a r ih =>
    have ha : a < y.length := hy ▸ hi a (by simp)
    rw [List.mapM_cons, ih (fun i h => hi i (by simp [h]))]
    simp [List.getElem?_eq_getElem ha]

theorem dot_zeros (row : Vec) (m : Nat) : dot row (List.replicate m 0) = 0 := by
  induction m generalizing row with
  | zero => cases row <;> simp [dot]
  | succ m ih =>
    cases row with
    | nil => simp [dot]
    | cons a r =>
      have := ih r
      simp only [dot] at this ⊢
      simp [List.replicate_succ, this]

/-- A list of transforms keeps sizes and zeros. -/
def Keeps (m : Nat) (ts : List Transform) : Prop :=
  ∀ y, y.length = m → ∃ z, applyAll ts y = some z ∧ z.length = m ∧ (Zeros z ↔ Zeros y)

theorem keeps_each {m : Nat} {ts : List Transform} (h : ∀ t ∈ ts, Each m t) : Keeps m ts := by
  intro y hy
  obtain ⟨g, hg, e⟩ := each_all h
  exact ⟨_, e y hy, by simpa using hy, zeros_mapIdx hg y⟩

theorem keeps_rotation {m : Nat} {rot : List Vec} {ts : List Transform} (hr : Regular m rot) (h : Keeps m ts) : Keeps m (rotation rot :: ts) := by
  intro y hy
  obtain ⟨h1, h2, h3⟩ := hr
  have e : rotation rot y = some (rot.map (fun row => dot row y)) := by
    rw [rotation, if_pos ⟨by rw [h1]; exact h2, by rw [h1, hy]⟩]
  obtain ⟨z, hz1, hz2, hz3⟩ := h (rot.map (fun row => dot row y)) (by simp [h1])
  refine ⟨z, by rw [applyAll, e, Option.bind_some, hz1], hz2, hz3.trans ⟨fun hz => ?_, fun hz => ?_⟩⟩
  · have : y = List.replicate m 0 := by
      refine h3 _ _ hy (by simp) (List.map_congr_left (fun row hrow => ?_))
      rw [dot_zeros]
      exact hz _ (List.mem_map_of_mem hrow)
    rw [this]
    exact fun v hv => List.eq_of_mem_replicate hv
  · rw [Core.eq_replicate hy hz]
    intro v hv
    obtain ⟨row, _, rfl⟩ := List.mem_map.1 hv
    exact dot_zeros _ _

/-- A chunk is defined on arrays of size `n` and non-negative, only depends on the entries of its group, and is zero when they are. -/
structure Good (n : Nat) (c : Chunk) (group : List Nat) : Prop where
  value : ∀ y, y.length = n → ∃ v, c.call y = some v ∧ 0 ≤ v ∧ (v = 0 ↔ ∀ i ∈ group, y[i]? = some 0)
  only : ∀ y y', y.length = n → y'.length = n → (∀ i ∈ group, y[i]? = y'[i]?) → c.call y = c.call y'

theorem good_chunk {n m : Nat} {inds : List Nat} {ts : List Transform} {loss : Vec → Option ℝ} {s : ℝ} (hi : ∀ i ∈ inds, i < n) (hm : inds.length = m)
    (ht : Keeps m ts) (hl : Loss m loss) (hs : 0 < s) : Good n ⟨indexing inds n :: ts, loss, s⟩ inds := by
  constructor
  · intro y hy
    obtain ⟨z, h1, h2, h3⟩ := ht (inds.map (fun i => y[i]?.getD 0)) (by simpa using hm)
    obtain ⟨v, h4, h5, h6⟩ := hl z h2
    refine ⟨s * v, by simp [Chunk.call, applyAll, indexing_some hy hi, h1, h4], by positivity, ?_⟩
    rw [mul_eq_zero, or_iff_right hs.ne', h6, h3]
    constructor
    · intro h i hii
      have h7 := h _ (List.mem_map_of_mem hii)
      have h8 : i < y.length := hy ▸ hi i hii
      rw [List.getElem?_eq_getElem h8] at h7 ⊢
      exact congrArg some h7
    · intro h v hv
      obtain ⟨i, hii, rfl⟩ := List.mem_map.1 hv
      rw [h i hii]; rfl
  · intro y y' hy hy' h
    have : inds.map (fun i => y[i]?.getD 0) = inds.map (fun i => y'[i]?.getD 0) :=
      List.map_congr_left (fun i hii => by simp only [h i hii])
    simp only [Chunk.call, applyAll, indexing_some hy hi, indexing_some hy' hi, this]

theorem sum_good {n : Nat} {cs : List Chunk} {gs : List (List Nat)} (h : List.Forall₂ (Good n) cs gs) {y : Vec} (hy : y.length = n) :
    ∃ v, sumCalls cs y = some v ∧ 0 ≤ v ∧ (v = 0 ↔ ∀ g ∈ gs, ∀ i ∈ g, y[i]? = some 0) := by
  induction h with
  | nil => exact ⟨0, rfl, le_refl _, by simp⟩
  | @cons c g cs gs hg _ ih =>
    obtain ⟨v, h1, h2, h3⟩ := hg.value y hy
    obtain ⟨s, h4, h5, h6⟩ := ih
    refine ⟨v + s, by simp [sumCalls, h1, h4], by linarith, ?_⟩
    simp only [List.mem_cons, forall_eq_or_imp]
    rw [← h3, ← h6]
    constructor
    · intro h; constructor <;> linarith
    · rintro ⟨rfl, rfl⟩; simp

/-- Setting one group to zero while the other groups are unchanged does not increase the sum. -/
theorem sum_le {n : Nat} {cs : List Chunk} {gs : List (List Nat)} (h : List.Forall₂ (Good n) cs gs) {y y' : Vec} (hy : y.length = n) (hy' : y'.length = n)
    (hg : ∀ g ∈ gs, (∀ i ∈ g, y'[i]? = some 0) ∨ ∀ i ∈ g, y'[i]? = y[i]?) {v v' : ℝ} (hv : sumCalls cs y = some v) (hv' : sumCalls cs y' = some v') :
    v' ≤ v := by
  induction h generalizing v v' with
  | nil => simp only [sumCalls, Option.some.injEq] at hv hv'; rw [← hv, ← hv']
  | @cons c g cs gs hc _ ih =>
    obtain ⟨u, h1, h2, h3⟩ := hc.value y hy
    obtain ⟨u', h1', h2', h3'⟩ := hc.value y' hy'
    simp only [sumCalls, h1, h1', Option.bind_some, Option.map_eq_some_iff] at hv hv'
    obtain ⟨s, e, rfl⟩ := hv
    obtain ⟨s', e', rfl⟩ := hv'
    have hs := ih (fun g hg' => hg g (by simp [hg'])) e e'
    have : u' ≤ u := by
      rcases hg g (by simp) with h | h
      · rw [h3'.2 h]; exact h2
      · have := hc.only y' y hy' hy h
        rw [h1, h1'] at this
        simp only [Option.some.injEq] at this
        exact this.le
    linarith

/-! ## Shifts -/

theorem sub_length {x p : Vec} (h : x.length = p.length) : (List.zipWith (fun a b => a - b) x p).length = p.length := by simp [h]

theorem sub_zero_iff {x p : Vec} (h : x.length = p.length) {i : Nat} (hi : i < p.length) :
    (List.zipWith (fun a b => a - b) x p)[i]? = some 0 ↔ x[i]? = p[i]? := by
  have hx : i < x.length := h ▸ hi
  rw [List.getElem?_eq_getElem (by simp [hx, hi]), List.getElem?_eq_getElem hx, List.getElem?_eq_getElem hi]
  simp [sub_eq_zero]

theorem sub_congr {x x' p : Vec} {i : Nat} (h : x'[i]? = x[i]?) :
    (List.zipWith (fun a b => a - b) x' p)[i]? = (List.zipWith (fun a b => a - b) x p)[i]? := by
  simp [List.getElem?_zipWith, h]

/-- A sum of chunks which cover all entries is zero at `xopt` only. -/
theorem zeroAt_good {f : Fn} {gs : List (List Nat)} (h : List.Forall₂ (Good f.xopt.length) f.functions gs) (hc : ∀ i < f.xopt.length, ∃ g ∈ gs, i ∈ g)
    (hb : ∀ g ∈ gs, ∀ i ∈ g, i < f.xopt.length) : ZeroAt f.call f.xopt := by
  intro x hx
  obtain ⟨v, h1, h2, h3⟩ := sum_good h (sub_length hx)
  refine ⟨v, by rw [Fn.call, if_pos hx, h1], h2, h3.trans ⟨fun h => ?_, fun h g hg i hi => ?_⟩⟩
  · apply List.ext_getElem? (fun i => ?_)
    by_cases hi : i < f.xopt.length
    · obtain ⟨g, hg, hi'⟩ := hc i hi
      exact (sub_zero_iff hx hi).1 (h g hg i hi')
    · rw [List.getElem?_eq_none (by omega), List.getElem?_eq_none (by omega)]
  · exact (sub_zero_iff hx (hb g hg i hi)).2 (by rw [h])

/-! ## Groups -/

theorem perm_mem {p : List Nat} (h1 : p.Nodup) (h2 : p ≠ []) (h3 : p.max? = some (p.length - 1)) (i : Nat) : i ∈ p ↔ i < p.length := by
  have hpos : 0 < p.length := List.length_pos_iff.2 h2
  have hle : ∀ i ∈ p, i < p.length := fun i hi => by
    have := (List.max?_eq_some_iff.1 h3).2 i hi
    omega
  refine ⟨hle i, fun hi => ?_⟩
  have hs : p.toFinset ⊆ Finset.range p.length := fun j hj => Finset.mem_range.2 (hle j (List.mem_toFinset.1 hj))
  have he := Finset.eq_of_subset_of_card_le hs (by rw [List.toFinset_card_of_nodup h1, Finset.card_range])
  have : i ∈ p.toFinset := by rw [he]; exact Finset.mem_range.2 hi
  exact List.mem_toFinset.1 this

theorem slices_mem {p : List Nat} {o : Nat} : ∀ {dims : List Nat} {st : Nat} {g : List Nat}, g ∈ slices p o st dims → ∀ i ∈ g, i ∈ p
  | [], _, _, h => by simp [slices] at h
  | l :: r, st, g, h => by
    intro i hi
    rcases List.mem_cons.1 h with rfl | h
    · exact List.mem_of_mem_drop (List.mem_of_mem_take hi)
    · exact slices_mem h i hi

theorem slices_nodup {p : List Nat} {o : Nat} (hp : p.Nodup) : ∀ {dims : List Nat} {st : Nat} {g : List Nat}, g ∈ slices p o st dims → g.Nodup
  | [], _, _, h => by simp [slices] at h
  | l :: r, st, g, h => by
    rcases List.mem_cons.1 h with rfl | h
    · exact (hp.sublist (List.drop_sublist _ _)).sublist (List.take_sublist _ _)
    · exact slices_nodup hp h

theorem slices_cover {p : List Nat} {o : Nat} : ∀ {dims : List Nat} {st : Nat}, (∀ l ∈ dims, o ≤ l) → dims ≠ [] →
    p.length + (dims.length - 1) * o = st + dims.sum →
    (slices p o st dims).map List.length = dims ∧ ∀ j, st ≤ j → ∀ hj : j < p.length, ∃ g ∈ slices p o st dims, p[j] ∈ g
  | [], _, _, h, _ => absurd rfl h
  | [l], st, ho, _, he => by
    simp at he
    refine ⟨by simp [slices]; omega, fun j h1 h2 => ⟨_, List.mem_singleton.2 rfl, ?_⟩⟩
    rw [List.mem_iff_getElem]
    exact ⟨j - st, by simp; omega, by simp [List.getElem_take, List.getElem_drop]; congr 1; omega⟩
  | l :: l2 :: r, st, ho, _, he => by
    have ho1 := ho l (by simp)
    have hsum : (r.length + 1) * o ≤ (l2 :: r).sum := by
      have := List.card_nsmul_le_sum (l2 :: r) o (fun x hx => ho x (by simp [hx]))
      simpa using this
    have he' : p.length + (r.length + 1) * o = st + (l + (l2 :: r).sum) := by simpa using he
    have hr : p.length + ((l2 :: r).length - 1) * o = (st + l - o) + (l2 :: r).sum := by
      have e1 : (r.length + 1) * o = r.length * o + o := by ring
      simp only [List.length_cons, Nat.add_sub_cancel]
      omega
    obtain ⟨h1, h2⟩ := slices_cover (dims := l2 :: r) (st := st + l - o) (fun x hx => ho x (by simp [hx])) (by simp) hr
    refine ⟨?_, fun j h3 h4 => ?_⟩
    · rw [slices, List.map_cons, h1]
      simp
      omega
    · by_cases h5 : j < st + l
      · refine ⟨_, List.mem_cons_self, ?_⟩
        rw [List.mem_iff_getElem]
        exact ⟨j - st, by simp; omega, by simp [List.getElem_take, List.getElem_drop]; congr 1; omega⟩
      · obtain ⟨g, hg, hj⟩ := h2 j (by omega) h4
        exact ⟨g, List.mem_cons_of_mem _ hg, hj⟩

theorem slices_get {p : List Nat} {o : Nat} : ∀ {dims : List Nat} {st k : Nat} (_ : ∀ l ∈ dims, o ≤ l) (hk : k < dims.length),
    (slices p o st dims)[k]? = some ((p.drop (st + (dims.take k).sum - k * o)).take dims[k])
  | [], _, _, _, h => by simp at h
  | l :: r, st, 0, _, _ => by simp [slices]
  | l :: r, st, k + 1, ho, h => by
    have hk : k < r.length := by simpa using h
    have ho1 := ho l (by simp)
    have hsum : k * o ≤ (r.take k).sum := by
      have := List.card_nsmul_le_sum (r.take k) o (fun x hx => ho x (by simp [List.mem_of_mem_take hx]))
      rw [List.length_take_of_le (by omega)] at this
      simpa using this
    rw [slices, List.getElem?_cons_succ, slices_get (fun x hx => ho x (by simp [hx])) hk]
    have e1 : (k + 1) * o = k * o + o := by ring
    have e : st + l - o + (r.take k).sum - k * o = st + ((l :: r).take (k + 1)).sum - (k + 1) * o := by
      simp only [List.take_succ_cons, List.sum_cons]
      omega
    rw [e]
    simp

/-- What `split` returns: groups of the given lengths, which together hold each index of a variable, without repetition in a group; the last `overlap` indices of each
group are the first ones of the next group. Without overlap each index is in exactly one group. -/
theorem split_spec {p dims : List Nat} {o : Nat} {gs : List (List Nat)} (h : split p dims o = some gs) (hd : dims ≠ []) (ho : ∀ l ∈ dims, o ≤ l) :
    gs.map List.length = dims ∧ (∀ i, (∃ g ∈ gs, i ∈ g) ↔ i < p.length) ∧ (∀ g ∈ gs, g.Nodup)
    ∧ (∀ k g g', gs[k]? = some g → gs[k + 1]? = some g' → g.drop (g.length - o) = g'.take o)
    ∧ (o = 0 → gs.Pairwise List.Disjoint) := by
  unfold split at h
  split at h
  swap
  · simp at h
  rename_i hc
  obtain ⟨h1, h2, h3, h4, h5⟩ := hc
  simp only [Option.some.injEq] at h
  subst h
  obtain ⟨c1, c2⟩ := slices_cover (p := p) (st := 0) ho hd (by simpa using h5)
  have hlen : (slices p o 0 dims).length = dims.length := by rw [← List.length_map (f := List.length), c1]
  refine ⟨c1, fun i => ⟨?_, fun hi => ?_⟩, fun g hg => slices_nodup h1 hg, fun k g g' hg hg' => ?_, ?_⟩
  · rintro ⟨g, hg, hi⟩
    exact (perm_mem h1 h2 h4 i).1 (slices_mem hg i hi)
  · obtain ⟨j, hj, rfl⟩ := List.getElem_of_mem ((perm_mem h1 h2 h4 i).2 hi)
    exact c2 j (Nat.zero_le _) hj
  · obtain ⟨hk', -⟩ := List.getElem?_eq_some_iff.1 hg'
    have hk1 : k + 1 < dims.length := by omega
    have hl : g.length = dims[k] := by
      have : ((slices p o 0 dims).map List.length)[k]? = some g.length := by rw [List.getElem?_map, hg]; rfl
      rw [c1, List.getElem?_eq_getElem (by omega)] at this
      simpa using this.symm
    rw [hl]
    rw [slices_get ho (by omega)] at hg
    rw [slices_get ho hk1] at hg'
    simp only [Option.some.injEq] at hg hg'
    rw [← hg, ← hg', List.drop_take, List.drop_drop, List.take_take]
    have ok := ho dims[k] (List.getElem_mem _)
    have ok1 := ho dims[k + 1] (List.getElem_mem _)
    have hsum : k * o ≤ (dims.take k).sum := by
      have := List.card_nsmul_le_sum (dims.take k) o (fun x hx => ho x (List.mem_of_mem_take hx))
      rw [List.length_take_of_le (by omega)] at this
      simpa using this
    have hs : (dims.take (k + 1)).sum = (dims.take k).sum + dims[k] := by rw [List.take_succ_eq_append_getElem (by omega), List.sum_append, List.sum_singleton]
    have e1 : (k + 1) * o = k * o + o := by ring
    rw [min_eq_left ok1, hs]
    congr 1
    · omega
    · congr 1; omega
  · rintro rfl
    have hf : ∀ (dims : List Nat) (st : Nat), (slices p 0 st dims).flatten = (p.drop st).take dims.sum := by
      intro dims
      induction dims with
      | nil => intro st; simp [slices]
      | cons l r ih =>
        intro st
        rw [slices, List.flatten_cons, ih, List.sum_cons, List.take_add, List.drop_drop]
        simp
    have hn : (slices p 0 0 dims).flatten.Nodup := by
      rw [hf]
      exact (h1.sublist (List.drop_sublist _ _)).sublist (List.take_sublist _ _)
    exact (List.nodup_flatten.1 hn).2

/-! ## Functions made of several parts -/

theorem rotation_regular {d : Data} (hv : Valid d) {n : Nat} {rot : List Vec} (h : d.rotation n = some rot) : 25 ≤ n ∧ Regular n rot := by
  unfold Data.rotation at h
  split at h
  · rename_i e; simp only [Option.some.injEq] at h; subst h; subst e; exact ⟨le_refl _, hv.R25⟩
  split at h
  · rename_i e; simp only [Option.some.injEq] at h; subst h; subst e; exact ⟨by norm_num, hv.R50⟩
  split at h
  · rename_i e; simp only [Option.some.injEq] at h; subst h; subst e; exact ⟨by norm_num, hv.R100⟩
  · simp at h

theorem parts_good {k : Kind} {d : Data} (hv : Valid d) : ∀ {w : Vec} {gs : List (List Nat)} {cs : List Chunk}, (∀ c ∈ w, 0 < c) →
    (∀ g ∈ gs, ∀ i ∈ g, i < d.p.length) → parts k d w gs = some cs → w.length ≤ gs.length →
    List.Forall₂ (Good d.p.length) cs (gs.take w.length) ∧ ∀ g ∈ gs.take w.length, 25 ≤ g.length
  | [], gs, cs, _, _, h, _ => by
    simp only [parts, Option.some.injEq] at h
    subst h
    simp
  | c :: w, [], cs, _, _, _, hl => by simp at hl
  | c :: w, inds :: r, cs, hw, hb, h, hl => by
    simp only [parts, Option.bind_eq_some_iff, Option.map_eq_some_iff] at h
    obtain ⟨rot, h1, rest, h2, rfl⟩ := h
    obtain ⟨h3, h4⟩ := rotation_regular hv h1
    obtain ⟨h5, h6⟩ := parts_good hv (fun c hc => hw c (by simp [hc])) (fun g hg => hb g (by simp [hg])) h2 (by simpa using hl)
    simp only [List.length_cons, List.take_succ_cons]
    refine ⟨.cons ?_ h5, ?_⟩
    · refine good_chunk (hb inds (by simp)) rfl (keeps_rotation h4 (keeps_each (each_transforms k false _))) (kind_loss k false (by omega)) ?_
      have := hw c (by simp)
      simpa [Chunk.make] using this
    · intro g hg
      rcases List.mem_cons.1 hg with rfl | hg
      · exact h3
      · exact h6 g hg

/-- The dimensions given to `split`. -/
def dims (d : Data) : List Nat := d.s ++ if d.s.sum = 1000 then [] else [700]

theorem slices_le {p : List Nat} {o : Nat} : ∀ {dims : List Nat} {st : Nat}, List.Forall₂ (fun g l => g.length ≤ l) (slices p o st dims) dims
  | [], _ => .nil
  | l :: r, st => .cons (by simp) slices_le

theorem split_parts {p dims : List Nat} {o : Nat} {gs : List (List Nat)} (h : split p dims o = some gs) :
    (∀ g ∈ gs, ∀ i ∈ g, i < p.length) ∧ List.Forall₂ (fun g l => g.length ≤ l) gs dims := by
  unfold split at h
  split at h
  swap
  · simp at h
  rename_i hc
  obtain ⟨h1, h2, h3, h4, h5⟩ := hc
  simp only [Option.some.injEq] at h
  subst h
  exact ⟨fun g hg i hi => (perm_mem h1 h2 h4 i).1 (slices_mem hg i hi), slices_le⟩

/-- The chunks of a function made of several parts and their groups. -/
theorem multiPart_good {k : Kind} {o : Nat} {d : Data} {f : Fn} (hv : Valid d) (ho : o ≤ 25) (h : multiPart k o d = some f) :
    f.xopt = d.xopt ∧ f.optimum = some d.xopt ∧ d.p.length = d.xopt.length ∧
    ∃ gs, split d.p (dims d) o = some gs ∧ dims d ≠ [] ∧ (∀ l ∈ dims d, o ≤ l) ∧ List.Forall₂ (Good d.p.length) f.functions gs := by
  unfold multiPart at h
  simp only at h
  split at h
  swap
  · simp at h
  rename_i hc
  obtain ⟨h1, h2, h3⟩ := hc
  rcases h2 with h2 | h2
  · have hd : dims d = d.s := by unfold dims; rw [if_pos (by omega)]; simp
    simp only [h2, if_pos, List.append_nil, Option.bind_eq_some_iff] at h
    obtain ⟨gs, hs, h⟩ := h
    rw [if_neg (c := (0 : ℕ) = 700) (by norm_num)] at h
    split at h
    swap
    · simp at h
    rename_i hl
    rw [Option.bind_eq_some_iff] at h
    obtain ⟨cs, hp, h⟩ := h
    simp only [Option.some.injEq] at h
    subst h
    obtain ⟨hb, hle⟩ := split_parts hs
    obtain ⟨hg, h25⟩ := parts_good hv hv.w hb hp (by omega)
    rw [List.take_of_length_le (by omega)] at hg h25
    refine ⟨rfl, rfl, h3.symm, gs, by rw [hd]; exact hs, ?_, ?_, hg⟩
    · rw [hd]; rintro e; rw [e] at h2; simp at h2
    · rw [hd]
      intro l hl'
      obtain ⟨i, hi, rfl⟩ := List.getElem_of_mem hl'
      have hlen := hle.length_eq
      have := (List.forall₂_iff_get.1 hle).2 i (by omega) hi
      have := h25 gs[i] (List.getElem_mem (by omega))
      simp only [List.get_eq_getElem] at *
      omega
  · have hd : dims d = d.s ++ [700] := by unfold dims; rw [if_neg (by omega)]
    rw [h2] at h
    rw [if_neg (by norm_num), if_pos rfl] at h
    simp only [Option.bind_eq_some_iff] at h
    obtain ⟨gs, hs, h⟩ := h
    split at h
    swap
    · simp at h
    rename_i hl
    rw [Option.bind_eq_some_iff] at h
    obtain ⟨cs, hp, h⟩ := h
    rw [if_neg (by norm_num)] at h
    split at h
    swap
    · simp at h
    rename_i last hlast
    simp only [Option.some.injEq] at h
    subst h
    obtain ⟨hb, hle⟩ := split_parts hs
    obtain ⟨hg, h25⟩ := parts_good hv hv.w hb hp (by omega)
    obtain ⟨ys, rfl⟩ := List.getLast?_eq_some_iff.1 hlast
    have hy : ys.length = d.w.length := by simp at hl; omega
    rw [List.take_left' hy] at hg h25
    have hlen : ys.length = d.s.length := by have := hle.length_eq; simpa using this
    have hod : ∀ l ∈ d.s ++ [700], o ≤ l := by
      intro l hl'
      rcases List.mem_append.1 hl' with hl' | hl'
      · obtain ⟨i, hi, rfl⟩ := List.getElem_of_mem hl'
        have h6 := (List.forall₂_iff_get.1 hle).2 i (by simp; omega) (by simp; omega)
        simp only [List.get_eq_getElem] at h6
        rw [List.getElem_append_left (by omega), List.getElem_append_left hi] at h6
        have := h25 ys[i] (List.getElem_mem (by omega))
        omega
      · simp at hl'; omega
    have hsp := (split_spec hs (by simp) hod).1
    have hlast' : last.length = 700 := by
      rw [List.map_append] at hsp
      have := (List.append_inj hsp (by simpa using hlen)).2
      simpa using this
    refine ⟨rfl, rfl, h3.symm, ys ++ [last], by rw [hd]; exact hs, by rw [hd]; simp, by rw [hd]; exact hod, ?_⟩
    exact List.rel_append hg (.cons (good_chunk (hb last (by simp)) rfl (keeps_each (each_transforms k true _)) (kind_loss k true (by omega)) one_pos) .nil)

/-! ## Theorems -/

/-- Functions 4 to 11 and 13 are zero at their optimum only. -/
theorem multiPart_optimum {k : Kind} {o : Nat} {d : Data} {f : Fn} (hv : Valid d) (ho : o ≤ 25) (h : multiPart k o d = some f) :
    f.optimum = some d.xopt ∧ ZeroAt f.call d.xopt := by
  obtain ⟨h1, h2, h3, gs, h4, h5, h6, h7⟩ := multiPart_good hv ho h
  obtain ⟨-, hc, -⟩ := split_spec h4 h5 h6
  refine ⟨h2, ?_⟩
  rw [← h1]
  have hl : f.xopt.length = d.p.length := by rw [h1, h3]
  refine zeroAt_good (gs := gs) (by rw [hl]; exact h7) (fun i hi => (hc i).2 (by omega)) (fun g hg i hi => ?_)
  have := (hc i).1 ⟨g, hg, hi⟩
  omega

/-- Functions 4 to 11 are partially separable: each of their groups (successive parts of the permutation) can be set to its optimum, whatever the other variables. -/
theorem multiPart_separable {k : Kind} {d : Data} {f : Fn} (hv : Valid d) (h : multiPart k 0 d = some f) (j : Nat) (hj : j < (dims d).length) :
    Separates f.call d.xopt ((d.p.drop ((dims d).take j).sum).take (dims d)[j]) := by
  obtain ⟨h1, h2, h3, gs, h4, h5, h6, h7⟩ := multiPart_good hv (Nat.zero_le _) h
  obtain ⟨hlen, hc, -, -, hdis⟩ := split_spec h4 h5 h6
  have hgs : gs = slices d.p 0 0 (dims d) := by
    unfold split at h4; split at h4
    · simpa using h4.symm
    · simp at h4
  have hg := slices_get (p := d.p) (o := 0) (st := 0) h6 hj
  rw [← hgs] at hg
  simp only [Nat.zero_add, Nat.mul_zero, Nat.sub_zero] at hg
  intro x x' v v' hx1 hx2 hv1 hv2
  unfold Fn.call at hv1 hv2
  split at hv1
  swap
  · simp at hv1
  split at hv2
  swap
  · simp at hv2
  rename_i hl hl'
  have hn : f.xopt.length = d.p.length := by rw [h1, h3]
  refine sum_le h7 (by rw [sub_length hl, hn]) (by rw [sub_length hl', hn]) (fun g hgm => ?_) hv1 hv2
  obtain ⟨i, hi, rfl⟩ := List.getElem_of_mem hgm
  by_cases e : i = j
  · subst e
    left
    intro q hq
    rw [List.getElem?_eq_getElem hi, Option.some.injEq] at hg
    rw [sub_zero_iff hl' (by rw [hn]; exact (hc q).1 ⟨_, hgm, hq⟩), h1]
    exact hx1 q (hg ▸ hq)
  · right
    intro q hq
    apply sub_congr
    apply hx2
    obtain ⟨hj', hge⟩ := List.getElem?_eq_some_iff.1 hg
    rw [← hge]
    have hd := List.pairwise_iff_getElem.1 (hdis rfl)
    intro hq'
    rcases Nat.lt_or_gt_of_ne e with e | e
    · exact hd i j hi hj' e hq hq'
    · exact hd j i hj' hi e hq' hq

theorem zeros_sub {x p : Vec} (h : x.length = p.length) : Zeros (List.zipWith (fun a b => a - b) x p) ↔ x = p := by
  constructor
  · intro hz
    apply List.ext_getElem? (fun i => ?_)
    by_cases hi : i < p.length
    · rw [← sub_zero_iff h hi]
      have hl : i < (List.zipWith (fun a b => a - b) x p).length := by rw [sub_length h]; exact hi
      rw [List.getElem?_eq_getElem hl, hz _ (List.getElem_mem hl)]
    · rw [List.getElem?_eq_none (by omega), List.getElem?_eq_none (by omega)]
  · rintro rfl v hv
    rw [List.zipWith_self] at hv
    simp at hv
    exact hv.2

/-- Functions 1, 2, 3 and 15 are zero at their optimum only. -/
theorem shifted_optimum (k : Kind) {xopt : Vec} (hx : xopt ≠ []) : (shifted k xopt).optimum = some xopt ∧ ZeroAt (shifted k xopt).call xopt := by
  refine ⟨rfl, fun x hl => ?_⟩
  have hpos : 0 < xopt.length := List.length_pos_iff.2 hx
  obtain ⟨z, h1, h2, h3⟩ := keeps_each (each_transforms k false xopt.length) _ (sub_length hl)
  obtain ⟨v, h4, h5, h6⟩ := kind_loss k false hpos z h2
  refine ⟨v, ?_, h5, h6.trans (h3.trans (zeros_sub hl))⟩
  simp [shifted, Fn.make, Fn.call, hl, sumCalls, Chunk.make, Chunk.call, h1, h4]

/-- Function 12 is zero at its optimum only. -/
theorem rosenbrock_optimum {xopt : Vec} (hx : 2 ≤ xopt.length) : (shiftedRosenbrock xopt).optimum = some (xopt.map (fun v => v + 1))
    ∧ ZeroAt (shiftedRosenbrock xopt).call (xopt.map (fun v => v + 1)) := by
  refine ⟨rfl, fun x hl => ?_⟩
  rw [List.length_map] at hl
  obtain ⟨n, hn⟩ : ∃ n, xopt.length = n + 2 := ⟨xopt.length - 2, by omega⟩
  obtain ⟨-, h1, h2⟩ := Core.rosenbrock_optimum n
  have hy := sub_length hl
  obtain ⟨h3, h4⟩ := h2 _ (hy.trans hn)
  refine ⟨_, by simp only [shiftedRosenbrock, Fn.call, if_pos hl, sumCalls, Chunk.make, Chunk.call, applyAll, Option.bind_some, Option.map_some]; rfl, ?_, ?_⟩
  · rw [rosenbrock_core]; linarith
  · rw [rosenbrock_core, one_mul, add_zero]
    constructor
    · intro h
      have h5 := h4 h
      apply List.ext_getElem (by simp [hl])
      intro i hi hi'
      have h6 : (List.zipWith (fun a b => a - b) x xopt)[i]'(by rw [hy]; omega) = 1 := by
        simp only [h5, List.getElem_replicate]
      simp only [List.getElem_zipWith] at h6
      simp only [List.getElem_map]
      linarith
    · intro h
      rw [← h1]
      congr 1
      apply List.ext_getElem (by simp [hl, hn])
      intro i hi hi'
      simp [h]

/-- Some entries are set to zero. -/
abbrev Reset (z' z : Vec) : Prop := List.Forall₂ (fun a' a => a' = a ∨ a' = 0) z' z

theorem reset_sum {z' z : Vec} (h : Reset z' z) (f : Nat → ℝ → ℝ) (hf : ∀ i v, f i 0 ≤ f i v) : (z'.mapIdx f).sum ≤ (z.mapIdx f).sum := by
  induction h generalizing f with
  | nil => simp
  | @cons a' a r' r ha _ ih =>
    rw [List.mapIdx_cons, List.mapIdx_cons, List.sum_cons, List.sum_cons]
    have h1 := ih (fun i => f (i + 1)) (fun i v => hf (i + 1) v)
    have h2 : f 0 a' ≤ f 0 a := by
      rcases ha with rfl | rfl
      · exact le_refl _
      · exact hf 0 a
    exact add_le_add h2 h1

theorem map_mapIdx (z : Vec) (f : ℝ → ℝ) : z.map f = z.mapIdx (fun _ => f) := List.ext_getElem (by simp) (by simp)

theorem reset_sphere {z' z : Vec} (h : Reset z' z) : Core.sphere z' ≤ Core.sphere z := by
  simp only [Core.sphere, map_mapIdx]
  exact reset_sum h _ (fun _ v => by simp; positivity)

theorem reset_cos {z' z : Vec} (h : Reset z' z) :
    (z.map (fun v => Real.cos (2 * Real.pi * v))).sum ≤ (z'.map (fun v => Real.cos (2 * Real.pi * v))).sum := by
  have := reset_sum h (fun _ v => -Real.cos (2 * Real.pi * v)) (fun _ v => by simpa using Real.cos_le_one _)
  rw [← map_mapIdx, ← map_mapIdx] at this
  have e : ∀ z : Vec, (z.map (fun v => -Real.cos (2 * Real.pi * v))).sum = -(z.map (fun v => Real.cos (2 * Real.pi * v))).sum := by
    intro z
    induction z with
    | nil => simp
    | cons a r ih => simp only [List.map_cons, List.sum_cons, ih]; ring
  rw [e, e] at this
  linarith

theorem reset_loss (k : Kind) (hk : k ≠ .schwefel) {m : Nat} {z' z : Vec} (h : Reset z' z) {v v' : ℝ} (hv : k.loss m false z = some v)
    (hv' : k.loss m false z' = some v') : v' ≤ v := by
  have hl := h.length_eq
  have hs := reset_sphere h
  have hc := reset_cos h
  cases k with
  | elliptic =>
    simp only [Kind.loss] at hv hv'
    have hm : z.length = m := by by_contra hne; rw [elliptic, if_neg hne] at hv; simp at hv
    subst hm
    rw [← hl, elliptic_core] at hv'
    rw [elliptic_core] at hv
    simp only [Option.some.injEq] at hv hv'
    rw [← hv, ← hv', Core.ellipsoid, Core.ellipsoid, hl]
    refine reset_sum h _ (fun i v => ?_)
    have := Core.weight_pos z.length i
    simp
    positivity
  | rastrigin =>
    simp only [Kind.loss, Option.some.injEq] at hv hv'
    rw [← hv, ← hv', rastrigin, rastrigin, sphere_core, sphere_core, hl]
    linarith
  | ackley =>
    simp only [Kind.loss, Option.some.injEq] at hv hv'
    rw [← hv, ← hv', ackley, ackley, sphere_core, sphere_core, hl]
    have h1 : Real.sqrt (Core.sphere z' / z.length) ≤ Real.sqrt (Core.sphere z / z.length) := Real.sqrt_le_sqrt (by gcongr)
    have h2 : Real.exp (-0.2 * Real.sqrt (Core.sphere z / z.length)) ≤ Real.exp (-0.2 * Real.sqrt (Core.sphere z' / z.length)) :=
      Real.exp_le_exp.2 (by linarith)
    have h3 : Real.exp ((z.map (fun v => Real.cos (2 * Real.pi * v))).sum / z.length) ≤ Real.exp ((z'.map (fun v => Real.cos (2 * Real.pi * v))).sum / z.length) :=
      Real.exp_le_exp.2 (by gcongr)
    linarith
  | schwefel => exact absurd rfl hk

/-- Functions 1, 2 and 3 are separable: each variable can be set to its optimum, whatever the others. -/
theorem shifted_separable_partial (k : Kind) (hk : k ≠ .schwefel) (xopt : Vec) (i : Nat) : Separates (shifted k xopt).call xopt [i] := by
  intro x x' v v' h1 h2 hv hv'
  simp only [shifted, Fn.make, Fn.call, sumCalls, Chunk.make, Chunk.call] at hv hv'
  split at hv
  swap
  · simp at hv
  split at hv'
  swap
  · simp at hv'
  rename_i hl hl'
  obtain ⟨g, hg, e⟩ := each_all (each_transforms k false xopt.length)
  rw [e _ (sub_length hl)] at hv
  rw [e _ (sub_length hl')] at hv'
  simp only [Option.bind_some, Option.map_some, Option.bind_eq_some_iff, Option.map_eq_some_iff, one_mul, Option.some.injEq, exists_eq_right] at hv hv'
  obtain ⟨u, hu, rfl⟩ := hv
  obtain ⟨u', hu', rfl⟩ := hv'
  have : u' ≤ u := by
    refine reset_loss k hk ?_ hu hu'
    refine List.forall₂_iff_get.2 ⟨by simp [hl, hl'], fun j hj hj' => ?_⟩
    simp only [List.get_eq_getElem, List.getElem_mapIdx]
    have hj1 : j < xopt.length := by simpa [hl'] using hj
    by_cases hij : j = i
    · subst hij
      right
      rw [hg]
      have := (sub_zero_iff hl' hj1).2 (h1 j (by simp))
      rw [List.getElem?_eq_getElem (by rw [sub_length hl']; exact hj1)] at this
      simpa using this
    · left
      have := sub_congr (p := xopt) (h2 j (by simpa using hij))
      rw [List.getElem?_eq_getElem (by rw [sub_length hl']; exact hj1), List.getElem?_eq_getElem (by rw [sub_length hl]; exact hj1), Option.some.injEq] at this
      rw [this]
  linarith

/-- Function 12 is tagged "separable" and is not: setting the second variable to its optimum can increase the loss. -/
theorem rosenbrock_not_separable (a b : ℝ) (r : Vec) :
    ¬ Separates (shiftedRosenbrock (a :: b :: r)).call ((a :: b :: r).map (fun v => v + 1)) [1] := by
  intro h
  have key : ∀ y : Vec, y.length = (a :: b :: r).length → (shiftedRosenbrock (a :: b :: r)).call (List.zipWith (fun u w => u + w) y (a :: b :: r))
      = some (Core.rosenbrock y) := by
    intro y hy
    have hl : (List.zipWith (fun u w => u + w) y (a :: b :: r)).length = (a :: b :: r).length := by rw [List.length_zipWith, hy]; simp
    have hz : List.zipWith (fun u w => u - w) (List.zipWith (fun u w => u + w) y (a :: b :: r)) (a :: b :: r) = y := by
      apply List.ext_getElem
      · rw [sub_length hl, hy]
      · intro i hi hi'; simp only [List.getElem_zipWith]; ring
    simp only [shiftedRosenbrock, Fn.call, if_pos hl, sumCalls, Chunk.make, Chunk.call, applyAll, Option.bind_some, Option.map_some, hz, rosenbrock_core]
    simp
  have h0 := key (0 :: 0 :: List.replicate r.length 0) (by simp)
  have h1 := key (0 :: 1 :: List.replicate r.length 0) (by simp)
  have hle := h _ _ _ _ (by simp [add_comm]) (fun i hi => by
    match i with
    | 0 => simp
    | 1 => simp at hi
    | i + 2 => simp) h0 h1
  cases r with
  | nil => simp [Core.rosenbrock] at hle; linarith
  | cons c r => simp [Core.rosenbrock, List.replicate_succ] at hle; linarith

/-! ## Conflicting groups -/

theorem mapM_get {x : Vec} : ∀ {q : List Nat}, (∀ i ∈ q, i < x.length) → q.mapM (fun i => x[i]?) = some (q.map (fun i => x[i]?.getD 0))
  | [], _ => rfl
  | a :: q, h => by
    have ha : a < x.length := h a (by simp)
    rw [List.mapM_cons, mapM_get (fun i hi => h i (by simp [hi]))]
    simp [List.getElem?_eq_getElem ha]

/-- The entries of `y` in `group` are those of `target` in `piece`. -/
def Matches (y target : Vec) (group piece : List Nat) : Prop := ∀ (j i i' : Nat), group[j]? = some i → piece[j]? = some i' → y[i]? = target[i']?

theorem conflict_chunk {d : Data} {g q : List Nat} {rot : List Vec} {c : ℝ} (hr : Regular g.length rot) (hg : 0 < g.length) (hl : g.length = q.length)
    (hb : ∀ i ∈ g, i < d.p.length) (hq : ∀ i ∈ q, i < d.xopt.length) (hc : 0 < c) {y : Vec} (hy : y.length = d.p.length) :
    ∃ v, (Chunk.rmul c (.make [indexing g d.p.length, translation (q.map (fun i => d.xopt[i]?.getD 0)), rotation rot, irregularity, asymmetry 0.2]
      (fun x => some (schwefel x)))).call y = some v ∧ 0 ≤ v ∧ (v = 0 ↔ Matches y d.xopt g q) := by
  have hlen : (g.map (fun i => y[i]?.getD 0)).length = (q.map (fun i => d.xopt[i]?.getD 0)).length := by simpa using hl
  have ht : Keeps g.length [rotation rot, irregularity, asymmetry 0.2] :=
    keeps_rotation hr (keeps_each (by simp [each_irregularity, each_asymmetry]))
  obtain ⟨z, h1, h2, h3⟩ := ht (List.zipWith (fun a b => a - b) (g.map (fun i => y[i]?.getD 0)) (q.map (fun i => d.xopt[i]?.getD 0))) (by simp [hl])
  obtain ⟨v, h4, h5, h6⟩ := kind_loss .schwefel false hg z h2
  simp only [Kind.loss, Bool.false_eq_true, if_false] at h4
  refine ⟨c * v, ?_, by positivity, ?_⟩
  · simp only [Chunk.call, Chunk.rmul, Chunk.make, applyAll, indexing_some hy hb, Option.bind_some, translation, if_pos hlen] at h1 ⊢
    rw [h1]
    simp only [Option.some.injEq] at h4
    simp only [Option.bind_some, Option.map_some, one_mul, h4]
  · rw [mul_eq_zero, or_iff_right hc.ne', h6, h3, zeros_sub hlen]
    constructor
    · intro h j i i' hi hi'
      have h7 : (g.map (fun i => y[i]?.getD 0))[j]? = (q.map (fun i => d.xopt[i]?.getD 0))[j]? := by rw [h]
      rw [List.getElem?_map, List.getElem?_map, hi, hi'] at h7
      simp only [Option.map_some, Option.some.injEq] at h7
      have e1 : i < y.length := by rw [hy]; exact hb i (List.mem_of_getElem? hi)
      have e2 : i' < d.xopt.length := hq i' (List.mem_of_getElem? hi')
      rw [List.getElem?_eq_getElem e1, List.getElem?_eq_getElem e2] at h7 ⊢
      exact congrArg some h7
    · intro h
      apply List.ext_getElem hlen
      intro j hj hj'
      simp only [List.length_map] at hj hj'
      simp only [List.getElem_map]
      rw [h j g[j] q[j] (List.getElem?_eq_getElem _) (List.getElem?_eq_getElem _)]

theorem conflicts_good {d : Data} (hv : Valid d) {y : Vec} (hy : y.length = d.p.length) : ∀ {w : Vec} {gs qs : List (List Nat)} {cs : List Chunk},
    (∀ c ∈ w, 0 < c) → (∀ g ∈ gs, ∀ i ∈ g, i < d.p.length) → (∀ q ∈ qs, ∀ i ∈ q, i < d.xopt.length) → gs.map List.length = qs.map List.length →
    w.length = gs.length → conflicts d w gs qs = some cs →
    ∃ v, sumCalls cs y = some v ∧ 0 ≤ v ∧ (v = 0 ↔ ∀ (k : Nat) g q, gs[k]? = some g → qs[k]? = some q → Matches y d.xopt g q)
  | [], [], _, cs, _, _, _, _, _, h => by
    simp only [conflicts, Option.some.injEq] at h
    subst h
    exact ⟨0, rfl, le_refl _, by simp⟩
  | [], _ :: _, _, _, _, _, _, _, hl, _ => by simp at hl
  | _ :: _, [], _, _, _, _, _, _, hl, _ => by simp at hl
  | _ :: _, _ :: _, [], _, _, _, _, hm, _, _ => by simp at hm
  | c :: w, g :: gs, q :: qs, cs, hw, hb, hq, hm, hl, h => by
    simp only [conflicts, Option.bind_eq_some_iff, Option.map_eq_some_iff] at h
    obtain ⟨rot, h1, t, h2, rest, h3, rfl⟩ := h
    simp only [List.map_cons, List.cons.injEq] at hm
    obtain ⟨h25, hr⟩ := rotation_regular hv h1
    rw [mapM_get (hq q (by simp)), Option.some.injEq] at h2
    subst h2
    obtain ⟨u, h4, h5, h6⟩ := conflict_chunk hr (by omega) hm.1 (hb g (by simp)) (hq q (by simp)) (hw c (by simp)) hy
    obtain ⟨s, h7, h8, h9⟩ := conflicts_good hv hy (fun c hc => hw c (by simp [hc])) (fun g hg => hb g (by simp [hg])) (fun q hq' => hq q (by simp [hq'])) hm.2
      (by simpa using hl) h3
    refine ⟨u + s, by simp [sumCalls, h4, h7], by linarith, ?_⟩
    have : u + s = 0 ↔ u = 0 ∧ s = 0 := ⟨fun h => by constructor <;> linarith, fun h => by rw [h.1, h.2, add_zero]⟩
    rw [this, h6, h9]
    constructor
    · rintro ⟨ha, hb'⟩ k g' q' hg' hq'
      cases k with
      | zero =>
        simp only [List.getElem?_cons_zero, Option.some.injEq] at hg' hq'
        subst hg'; subst hq'; exact ha
      | succ k => exact hb' k g' q' (by simpa using hg') (by simpa using hq')
    · intro h
      exact ⟨h 0 g q (by simp) (by simp), fun k g' q' hg' hq' => h (k + 1) g' q' (by simpa using hg') (by simpa using hq')⟩

theorem conflicts_large {d : Data} (hv : Valid d) : ∀ {w : Vec} {gs qs : List (List Nat)} {cs : List Chunk},
    w.length = gs.length → gs.length = qs.length → conflicts d w gs qs = some cs → ∀ g ∈ gs, 25 ≤ g.length
  | [], [], _, _, _, _, _ => by simp
  | [], _ :: _, _, _, hl, _, _ => by simp at hl
  | _ :: _, [], _, _, hl, _, _ => by simp at hl
  | _ :: _, _ :: _, [], _, _, hm, _ => by simp at hm
  | c :: w, g :: gs, q :: qs, cs, hl, hm, h => by
    simp only [conflicts, Option.bind_eq_some_iff, Option.map_eq_some_iff] at h
    obtain ⟨rot, h1, t, h2, rest, h3, rfl⟩ := h
    have h4 := conflicts_large hv (by simpa using hl) (by simpa using hm) h3
    intro g' hg'
    rcases List.mem_cons.1 hg' with rfl | hg'
    · exact (rotation_regular hv h1).1
    · exact h4 g' hg'

/-- Function 14 is zero where the entries of each group (with five entries shared with the next one) are those of its own part of `xopt`. -/
theorem conflicting_zero {d : Data} {f : Fn} (hv : Valid d) (h : conflicting d = some f) {x : Vec} (hx : x.length = 905) :
    ∃ v, f.call x = some v ∧ 0 ≤ v ∧ (v = 0 ↔ ∀ (k l i : Nat), d.s[k]? = some l → ∀ j < l,
      d.p[(d.s.take k).sum - 5 * k + j]? = some i → x[i]? = d.xopt[(d.s.take k).sum + j]?) := by
  unfold conflicting at h
  split at h
  swap
  · simp at h
  rename_i hc
  simp only [Option.bind_eq_some_iff] at h
  obtain ⟨gs, h1, qs, h2, h⟩ := h
  split at h
  swap
  · simp at h
  rename_i hw
  rw [Option.map_eq_some_iff] at h
  obtain ⟨cs, h3, rfl⟩ := h
  obtain ⟨hb, hle⟩ := split_parts h1
  have hs : d.s ≠ [] := by
    rintro e
    rw [e] at h2
    unfold split at h2
    split at h2
    · rename_i h; simp at h
    · simp at h2
  have hq := split_spec h2 hs (fun _ _ => Nat.zero_le _)
  have hy : x.length = d.p.length := by omega
  -- the groups have the same sizes as the pieces as soon as all sizes are large
  have hsum : d.s.sum = 1000 := by
    unfold split at h2
    split at h2
    · rename_i h; simpa using h.2.2.2.2.symm
    · simp at h2
  have hlq : qs.length = d.s.length := by rw [← hq.1, List.length_map]
  have h5 : ∀ l ∈ d.s, 5 ≤ l := by
    intro l hl
    have h25 := conflicts_large hv hw (by rw [hle.length_eq, hlq]) h3
    obtain ⟨i, hi, rfl⟩ := List.getElem_of_mem hl
    have hlen := hle.length_eq
    have h6 := (List.forall₂_iff_get.1 hle).2 i (by omega) hi
    have h7 := h25 gs[i] (List.getElem_mem (by omega))
    simp only [List.get_eq_getElem] at h6
    omega
  have hg := split_spec h1 hs h5
  have hz : List.zipWith (fun a b => a - b) x (List.replicate 905 (0 : ℝ)) = x := by
    apply List.ext_getElem (by rw [List.length_zipWith, List.length_replicate, hx, min_self])
    intro i hi hi'
    rw [List.getElem_zipWith, List.getElem_replicate, sub_zero]
  obtain ⟨v, hv1, hv2, hv3⟩ := conflicts_good hv hy hv.w hb (fun q hq' i hi => by
    have := (hq.2.1 i).1 ⟨q, hq', hi⟩
    rw [List.length_range] at this
    omega) (hg.1.trans hq.1.symm) hw h3
  refine ⟨v, by simp only [Fn.call, List.length_replicate, if_pos hx, hz, hv1], hv2, hv3.trans ?_⟩
  have eg : gs = slices d.p 5 0 d.s := by
    unfold split at h1; split at h1
    · simpa using h1.symm
    · simp at h1
  have eq : qs = slices (List.range 1000) 0 0 d.s := by
    unfold split at h2; split at h2
    · simpa using h2.symm
    · simp at h2
  have gk : ∀ (k l : Nat), d.s[k]? = some l → gs[k]? = some ((d.p.drop ((d.s.take k).sum - 5 * k)).take l)
      ∧ qs[k]? = some (((List.range 1000).drop (d.s.take k).sum).take l) ∧ (d.s.take k).sum + l ≤ 1000 := by
    intro k l hk
    obtain ⟨hk', rfl⟩ := List.getElem?_eq_some_iff.1 hk
    refine ⟨?_, ?_, ?_⟩
    · rw [eg, slices_get h5 hk', Nat.zero_add, Nat.mul_comm]
    · rw [eq, slices_get (fun _ _ => Nat.zero_le _) hk', Nat.zero_add, Nat.mul_zero, Nat.sub_zero]
    · have h6 : (d.s.take (k + 1)).sum = (d.s.take k).sum + d.s[k] := by
        rw [List.take_succ_eq_append_getElem hk', List.sum_append, List.sum_singleton]
      have h7 : (d.s.take (k + 1)).sum + (d.s.drop (k + 1)).sum = d.s.sum := by rw [← List.sum_append, List.take_append_drop]
      omega
  constructor
  · intro hm k l i hk j hj hi
    obtain ⟨e1, e2, e3⟩ := gk k l hk
    refine hm k _ _ e1 e2 j i ((d.s.take k).sum + j) ?_ ?_
    · rw [List.getElem?_take_of_lt hj, List.getElem?_drop]; exact hi
    · rw [List.getElem?_take_of_lt hj, List.getElem?_drop, List.getElem?_range (by omega)]
  · intro hm k g q hgk hqk
    have hk : k < d.s.length := by
      obtain ⟨h, -⟩ := List.getElem?_eq_some_iff.1 hqk
      omega
    obtain ⟨e1, e2, e3⟩ := gk k _ (List.getElem?_eq_getElem hk)
    rw [e1, Option.some.injEq] at hgk
    rw [e2, Option.some.injEq] at hqk
    intro j i i' hi hi'
    rw [← hgk] at hi
    rw [← hqk] at hi'
    have hj : j < d.s[k] := by
      obtain ⟨h, -⟩ := List.getElem?_eq_some_iff.1 hi
      rw [List.length_take] at h
      omega
    rw [List.getElem?_take_of_lt hj, List.getElem?_drop] at hi hi'
    rw [List.getElem?_range (by omega), Option.some.injEq] at hi'
    rw [← hi']
    exact hm k _ i (List.getElem?_eq_getElem hk) j hj hi

theorem conflicting_sizes {d : Data} {f : Fn} (hv : Valid d) (h : conflicting d = some f) :
    d.p.length = 905 ∧ 905 + (d.s.length - 1) * 5 = d.s.sum ∧ ∀ l ∈ d.s, 5 ≤ l := by
  unfold conflicting at h
  split at h
  swap
  · simp at h
  rename_i hc
  simp only [Option.bind_eq_some_iff] at h
  obtain ⟨gs, h1, qs, h2, h⟩ := h
  split at h
  swap
  · simp at h
  rename_i hw
  rw [Option.map_eq_some_iff] at h
  obtain ⟨cs, h3, -⟩ := h
  obtain ⟨-, hle⟩ := split_parts h1
  obtain ⟨-, hle'⟩ := split_parts h2
  refine ⟨hc.2, ?_, fun l hl => ?_⟩
  · unfold split at h1
    split at h1
    · rename_i h'; rw [← h'.2.2.2.2, hc.2]
    · simp at h1
  · have h25 := conflicts_large hv hw (by rw [hle.length_eq, hle'.length_eq]) h3
    obtain ⟨i, hi, rfl⟩ := List.getElem_of_mem hl
    have hlen := hle.length_eq
    have h6 := (List.forall₂_iff_get.1 hle).2 i (by omega) hi
    have h7 := h25 gs[i] (List.getElem_mem (by omega))
    simp only [List.get_eq_getElem] at h6
    omega

theorem sum_ge {l : List Nat} (h : ∀ x ∈ l, 5 ≤ x) : l.length * 5 ≤ l.sum := by simpa using List.card_nsmul_le_sum l 5 h

/-- When the parts of `xopt` disagree on a variable shared by two groups, function 14 is positive everywhere. -/
theorem conflicting_positive {d : Data} {f : Fn} (hv : Valid d) (h : conflicting d = some f) {k j : Nat} (hk : k + 1 < d.s.length)
    (hj : j < 5) (hd : d.xopt[(d.s.take (k + 1)).sum - 5 + j]? ≠ d.xopt[(d.s.take (k + 1)).sum + j]?) {x : Vec} (hx : x.length = 905) :
    ∃ v, f.call x = some v ∧ 0 < v := by
  obtain ⟨hp, hsum, h5⟩ := conflicting_sizes hv h
  obtain ⟨v, h1, h2, h3⟩ := conflicting_zero hv h hx
  refine ⟨v, h1, lt_of_le_of_ne h2 (fun e => hd ?_)⟩
  have hz := h3.1 e.symm
  have e1 : (d.s.take (k + 1)).sum = (d.s.take k).sum + d.s[k] := by
    rw [List.take_succ_eq_append_getElem (by omega), List.sum_append, List.sum_singleton]
  have e2 : d.s.sum = (d.s.take (k + 1)).sum + (d.s[k + 1] + (d.s.drop (k + 2)).sum) := by
    rw [← List.sum_cons, ← List.drop_eq_getElem_cons hk, ← List.sum_append, List.take_append_drop]
  have l1 := h5 d.s[k] (List.getElem_mem _)
  have l2 := h5 d.s[k + 1] (List.getElem_mem _)
  have l3 := sum_ge (l := d.s.take k) (fun x hx => h5 x (List.mem_of_mem_take hx))
  have l4 := sum_ge (l := d.s.drop (k + 2)) (fun x hx => h5 x (List.mem_of_mem_drop hx))
  rw [List.length_take_of_le (by omega)] at l3
  rw [List.length_drop] at l4
  have hi : (d.s.take (k + 1)).sum - 5 * (k + 1) + j < d.p.length := by omega
  have a := hz k d.s[k] d.p[(d.s.take (k + 1)).sum - 5 * (k + 1) + j] (List.getElem?_eq_getElem _) (d.s[k] - 5 + j) (by omega) (by
    rw [List.getElem?_eq_some_iff]
    exact ⟨by omega, by congr 1; omega⟩)
  have b := hz (k + 1) d.s[k + 1] d.p[(d.s.take (k + 1)).sum - 5 * (k + 1) + j] (List.getElem?_eq_getElem _) j (by omega) (List.getElem?_eq_getElem hi)
  rw [a] at b
  rw [← b]
  congr 1
  omega

/-- The numbers of the functions: 1 to 15, all of them with the announced optimum (but 14, without). -/
theorem make_optimum {number : Nat} {d : Data} {f : Fn} (hv : Valid d) (hx : 2 ≤ d.xopt.length) (h : makeFunction number d = some f) :
    1 ≤ number ∧ number ≤ 15 ∧ (number = 14 ↔ f.optimum = none) ∧ ∀ p, f.optimum = some p → p.length = d.xopt.length ∧ ZeroAt f.call p := by
  have hne : d.xopt ≠ [] := by rintro e; rw [e] at hx; simp at hx
  have hm : ∀ {k : Kind} {o : Nat}, o ≤ 25 → multiPart k o d = some f → number ≠ 14 → (number = 14 ↔ f.optimum = none) ∧
      ∀ p, f.optimum = some p → p.length = d.xopt.length ∧ ZeroAt f.call p := by
    intro k o ho h hn
    obtain ⟨h1, h2⟩ := multiPart_optimum hv ho h
    refine ⟨⟨fun e => absurd e hn, fun e => by rw [h1] at e; simp at e⟩, fun p hp => ?_⟩
    rw [h1, Option.some.injEq] at hp
    subst hp
    exact ⟨rfl, h2⟩
  have hs : ∀ {k : Kind}, some (shifted k d.xopt) = some f → number ≠ 14 → (number = 14 ↔ f.optimum = none) ∧
      ∀ p, f.optimum = some p → p.length = d.xopt.length ∧ ZeroAt f.call p := by
    intro k h hn
    simp only [Option.some.injEq] at h
    obtain ⟨h1, h2⟩ := shifted_optimum k hne
    rw [h] at h1 h2
    refine ⟨⟨fun e => absurd e hn, fun e => by rw [h1] at e; simp at e⟩, fun p hp => ?_⟩
    rw [h1, Option.some.injEq] at hp
    subst hp
    exact ⟨rfl, h2⟩
  unfold makeFunction at h
  split at h
  · exact ⟨by norm_num, by norm_num, hs h (by norm_num)⟩
  · exact ⟨by norm_num, by norm_num, hs h (by norm_num)⟩
  · exact ⟨by norm_num, by norm_num, hs h (by norm_num)⟩
  · exact ⟨by norm_num, by norm_num, hm (by norm_num) h (by norm_num)⟩
  · exact ⟨by norm_num, by norm_num, hm (by norm_num) h (by norm_num)⟩
  · exact ⟨by norm_num, by norm_num, hm (by norm_num) h (by norm_num)⟩
  · exact ⟨by norm_num, by norm_num, hm (by norm_num) h (by norm_num)⟩
  · exact ⟨by norm_num, by norm_num, hm (by norm_num) h (by norm_num)⟩
  · exact ⟨by norm_num, by norm_num, hm (by norm_num) h (by norm_num)⟩
  · exact ⟨by norm_num, by norm_num, hm (by norm_num) h (by norm_num)⟩
  · exact ⟨by norm_num, by norm_num, hm (by norm_num) h (by norm_num)⟩
  · simp only [Option.some.injEq] at h
    obtain ⟨h1, h2⟩ := rosenbrock_optimum hx
    rw [h] at h1 h2
    refine ⟨by norm_num, by norm_num, ⟨fun e => by norm_num at e, fun e => by rw [h1] at e; simp at e⟩, fun p hp => ?_⟩
    rw [h1, Option.some.injEq] at hp
    subst hp
    exact ⟨by simp, h2⟩
  · exact ⟨by norm_num, by norm_num, hm (by norm_num) h (by norm_num)⟩
  · have h1 : f.optimum = none := by
      unfold conflicting at h
      split at h
      swap
      · simp at h
      simp only [Option.bind_eq_some_iff] at h
      obtain ⟨gs, h1, qs, h2, h⟩ := h
      split at h
      swap
      · simp at h
      rw [Option.map_eq_some_iff] at h
      obtain ⟨cs, h3, rfl⟩ := h
      rfl
    exact ⟨by norm_num, by norm_num, by simp [h1], by simp [h1]⟩
  · exact ⟨by norm_num, by norm_num, hs h (by norm_num)⟩
  · simp at h

/-! ## Examples -/

/-- Two groups sharing one index, and a wrong size. -/
example : split [2, 0, 1, 4, 3] [3, 3] 1 = some [[2, 0, 1], [1, 4, 3]] ∧ split [2, 0, 1, 4, 3] [3, 2] 0 = some [[2, 0, 1], [4, 3]]
    ∧ split [2, 0, 1, 4, 3] [3, 3] 0 = none ∧ split [2, 0, 1, 4, 4] [3, 2] 0 = none := by decide

/-- The optimum of a shifted Rosenbrock function, and another point. -/
example : (shiftedRosenbrock [3, 4]).call [4, 5] = some 0 ∧ (shiftedRosenbrock [3, 4]).call [3, 4] = some 1 ∧ (shiftedRosenbrock [3, 4]).call [3] = none := by
  simp [shiftedRosenbrock, Fn.call, sumCalls, Chunk.make, Chunk.call, applyAll, rosenbrock, dot]
  norm_num

example : ¬ Separates (shiftedRosenbrock [3, 4, 5]).call [4, 5, 6] [1] := by
  have := rosenbrock_not_separable 3 4 [5]
  norm_num at this
  exact this

/-- Ackley's function vanishes at its shift and nowhere else. -/
example : ∀ a b : ℝ, (shifted .ackley [1, -2]).call [a, b] = some 0 ↔ a = 1 ∧ b = -2 := by
  intro a b
  obtain ⟨v, h1, -, h3⟩ := (shifted_optimum .ackley (xopt := [1, -2]) (by simp)).2 [a, b] rfl
  rw [h1]
  simpa using h3

/-- Data satisfying the hypotheses: ten groups of 100 variables, without rotation. -/
noncomputable def sample : Data :=
  let ident := fun n => (List.range n).map (fun i => (List.range n).map (fun j => if i = j then (1 : ℝ) else 0))
  ⟨List.replicate 1000 3, List.range 1000, List.replicate 10 100, List.replicate 10 2, ident 25, ident 50, ident 100⟩

theorem dot_unit : ∀ (u : Vec) (i : Nat) (hi : i < u.length) , dot ((List.range u.length).map (fun j => if i = j then (1 : ℝ) else 0)) u = u[i]
  | [], _, hi => by simp at hi
  | a :: u, 0, _ => by
    have : ∀ v : Vec, dot ((List.range v.length).map (fun _ => (0 : ℝ))) v = 0 := by
      intro v
      induction v with
      | nil => simp [dot]
      | cons b v ih =>
        simp only [dot, List.length_cons, List.range_succ_eq_map, List.map_cons, List.map_map, List.zipWith_cons_cons, List.sum_cons] at ih ⊢
        simpa [Function.comp_def] using ih
    have h := this u
    simp only [dot, List.length_cons, List.range_succ_eq_map, List.map_cons, List.map_map, List.zipWith_cons_cons, List.sum_cons] at h ⊢
    simpa [Function.comp_def] using h
  | a :: u, i + 1, hi => by
    have h := dot_unit u i (by simpa using hi)
    simp only [dot, List.length_cons, List.range_succ_eq_map, List.map_cons, List.map_map, List.zipWith_cons_cons, List.sum_cons] at h ⊢
    simpa [Function.comp_def] using h

theorem ident_regular (n : Nat) : Regular n ((List.range n).map (fun i => (List.range n).map (fun j => if i = j then (1 : ℝ) else 0))) := by
  refine ⟨by simp, by simp only [List.mem_map]; rintro row ⟨i, _, rfl⟩; simp, fun u v hu hv h => ?_⟩
  apply List.ext_getElem (by rw [hu, hv])
  intro i hi hi'
  have h1 : ((List.range n).map (fun i => (List.range n).map (fun j => if i = j then (1 : ℝ) else 0)))[i]'(by simpa [hu] using hi)
      = (List.range n).map (fun j => if i = j then (1 : ℝ) else 0) := by simp
  have h2 : ∀ z : Vec, z.length = n → ∀ hz : i < z.length,
      (((List.range n).map (fun i => (List.range n).map (fun j => if i = j then (1 : ℝ) else 0))).map (dot · z))[i]? = some z[i] := by
    intro z hz hiz
    rw [List.getElem?_map, List.getElem?_eq_getElem (by simpa [hu] using hi), h1, Option.map_some, ← hz, dot_unit z i hiz]
  have h3 := h2 u hu hi
  rw [h, h2 v hv hi', Option.some.injEq] at h3
  exact h3.symm

theorem parts_some (k : Kind) (d : Data) : ∀ (w : Vec) (gs : List (List Nat)), (∀ g ∈ gs, g.length = 100) → ∃ cs, parts k d w gs = some cs
  | [], _, _ => ⟨[], by simp [parts]⟩
  | _ :: _, [], _ => ⟨[], by simp [parts]⟩
  | c :: w, g :: gs, h => by
    obtain ⟨cs, hcs⟩ := parts_some k d w gs (fun g hg => h g (by simp [hg]))
    simp [parts, h g (by simp), Data.rotation, hcs]

/-- The hypotheses hold for these data, in each kind. -/
example (k : Kind) : Valid sample ∧ ∃ f, multiPart k 0 sample = some f ∧ ZeroAt f.call (List.replicate 1000 3) := by
  have hv : Valid sample := ⟨by simp only [sample]; intro c hc; rw [List.eq_of_mem_replicate hc]; norm_num, ident_regular 25, ident_regular 50, ident_regular 100⟩
  refine ⟨hv, ?_⟩
  have hs : split (List.range 1000) (List.replicate 10 100) 0 = some (slices (List.range 1000) 0 0 (List.replicate 10 100)) := by
    unfold split
    refine if_pos ⟨List.nodup_range, fun h => ?_, ?_, ?_, ?_⟩
    · have := congrArg List.length h
      rw [List.length_range] at this
      simp at this
    · exact List.min?_eq_some_iff.2 ⟨List.mem_range.2 (by norm_num), fun b _ => Nat.zero_le b⟩
    · refine List.max?_eq_some_iff.2 ⟨List.mem_range.2 (by rw [List.length_range]; norm_num), fun b hb => ?_⟩
      have := List.mem_range.1 hb
      rw [List.length_range]; omega
    · rw [List.length_range, List.length_replicate, List.sum_replicate]; rfl
  have hl := (split_spec hs (by simp) (by simp)).1
  obtain ⟨cs, hcs⟩ := parts_some k sample (List.replicate 10 2) (slices (List.range 1000) 0 0 (List.replicate 10 100)) (fun g hg => by
    have h1 : g.length ∈ (slices (List.range 1000) 0 0 (List.replicate 10 100)).map List.length := List.mem_map_of_mem hg
    rw [hl] at h1
    exact List.eq_of_mem_replicate h1)
  have hf : ∀ d : Data, d.p = List.range 1000 → d.s = List.replicate 10 100 → d.w = List.replicate 10 2 → d.xopt = List.replicate 1000 3 →
      parts k d (List.replicate 10 2) (slices (List.range 1000) 0 0 (List.replicate 10 100)) = some cs → multiPart k 0 d = some (.make d.xopt cs) := by
    intro d e1 e2 e3 e4 hcs
    have hsum : d.s.sum = 1000 := by rw [e2]; rfl
    have hx : d.xopt.length = d.p.length := by rw [e1, e4, List.length_replicate, List.length_range]
    have hlen : (slices (List.range 1000) 0 0 (List.replicate 10 100)).length = 10 := by
      rw [← List.length_map (f := List.length), hl, List.length_replicate]
    unfold multiPart
    simp only [hsum, hx, Nat.sub_self, if_pos, List.append_nil, le_refl, true_or, and_self]
    rw [e1, e2, e3, hs, Option.bind_some, if_neg (c := (0 : Nat) = 700) (by norm_num), if_pos (by rw [hlen, List.length_replicate]), hcs]
    rfl
  have hf := hf sample (by simp only [sample]) (by simp only [sample]) (by simp only [sample]) (by simp only [sample]) hcs
  exact ⟨_, hf, (multiPart_optimum hv (by norm_num) hf).2⟩

end Lsgo
end NG
