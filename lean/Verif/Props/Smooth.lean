import Verif.Model.Smooth
import Mathlib.Data.Rat.Defs
import Mathlib.Algebra.Order.Ring.Rat
import Mathlib.Algebra.Field.Rat
import Mathlib.Algebra.Order.BigOperators.Group.List
import Mathlib.Data.List.Forall2
import Mathlib.Tactic.Linarith
import Mathlib.Tactic.Ring
import Mathlib.Tactic.FieldSimp

/-!
C139: the smoothing steps of the one-plus-one optimizers.

A multi-index is in a shape when it has one entry below the length of each axis. The smoothed value of a coordinate must be the mean of the values at indices of the array which are, along each axis, at distance at most half of the radius.
-/

namespace NG.Smooth

/-- A multi-index of an array of the given shape. -/
def Inside (shape idx : List Nat) : Prop := List.Forall₂ (fun n i => i < n) shape idx

/-- The distance between two positions. -/
def far (i j : Nat) : Nat := max (i - j) (j - i)

/-- The indices at distance at most half of the radius along each axis. -/
inductive Near : List Nat → List Nat → List Nat → Prop
  | nil : Near [] [] []
  | cons {r radii i idx j w} : 2 * far i j ≤ r → Near radii idx w → Near (r :: radii) (i :: idx) (j :: w)

theorem reflect_lt (n : Nat) (h : 0 < n) (i : Int) : reflect n i < n := by
  have h1 : 0 ≤ i % (2 * n : Int) := Int.emod_nonneg _ (by omega)
  have h2 : i % (2 * n : Int) < 2 * n := Int.emod_lt_of_pos _ (by omega)
  unfold reflect
  split <;> omega

/-- Inside the array nothing is mirrored. -/
theorem reflect_inside (n i : Nat) (h : i < n) : reflect n i = i := by
  have h2 : (i : Int) % (2 * n : Int) = i := Int.emod_eq_of_lt (by omega) (by omega)
  unfold reflect
  rw [h2]
  simp [h]

/-- Just outside of it the border is read again: `a b c | c b a`. -/
theorem reflect_after (n d : Nat) (h : d < n) : reflect n (n + d : Nat) = n - 1 - d := by
  have h2 : ((n + d : Nat) : Int) % (2 * n : Int) = (n + d : Nat) := Int.emod_eq_of_lt (by omega) (by omega)
  unfold reflect
  rw [h2]
  split <;> omega

theorem reflect_before (n d : Nat) (h : d < n) : reflect n (-(d + 1 : Int)) = d := by
  have h2 : (-(d + 1 : Int)) % (2 * n : Int) = 2 * n - (d + 1) := by
    rw [← Int.add_emod_right]
    rw [show -(d + 1 : Int) + 2 * n = 2 * n - (d + 1) by ring]
    exact Int.emod_eq_of_lt (by omega) (by omega)
  unfold reflect
  rw [h2]
  split <;> omega

/-- Mirroring does not go further from the centre. -/
theorem reflect_near (n i : Nat) (h : i < n) (x : Int) (d : Nat) (h1 : (i : Int) - d ≤ x) (h2 : x ≤ i + d) :
    far i (reflect n x) ≤ d := by
  have e := Int.emod_add_mul_ediv x (2 * n : Int)
  have m0 : 0 ≤ x % (2 * n : Int) := Int.emod_nonneg _ (by omega)
  have m1 : x % (2 * n : Int) < 2 * n := Int.emod_lt_of_pos _ (by omega)
  have cases : (x / (2 * n : Int) = 0) ∨ (2 * n : Int) ≤ 2 * n * (x / (2 * n : Int)) ∨
      (2 * n : Int) * (x / (2 * n : Int)) ≤ - (2 * n) := by
    rcases lt_trichotomy (x / (2 * n : Int)) 0 with c | c | c
    · right; right; nlinarith
    · left; exact c
    · right; left; nlinarith
  unfold far reflect
  rcases cases with c | c | c
  · rw [c] at e
    split <;> omega
  · split <;> omega
  · split <;> omega

/-- The window reads indices of the array only. -/
theorem window_inside {shape : List Nat} : ∀ {radii idx : List Nat}, radii.length = shape.length →
    Inside shape idx → ∀ w ∈ window shape radii idx, Inside shape w := by
  induction shape with
  | nil =>
    intro radii idx hr hi w hw
    cases hi
    simp [window] at hw
    subst hw
    exact List.Forall₂.nil
  | cons n shape ih =>
    intro radii idx hr hi w hw
    cases hi with
    | cons h1 h2 =>
      cases radii with
      | nil => simp at hr
      | cons r radii =>
        simp only [window, List.mem_flatMap, List.mem_map] at hw
        obtain ⟨j, _, u, hu, rfl⟩ := hw
        exact List.Forall₂.cons (reflect_lt n (by omega) _) (ih (by simpa using hr) h2 u hu)

/-- They are at most half of the radius away. -/
theorem window_near {shape : List Nat} : ∀ {radii idx : List Nat}, radii.length = shape.length →
    Inside shape idx → ∀ w ∈ window shape radii idx, Near radii idx w := by
  induction shape with
  | nil =>
    intro radii idx hr hi w hw
    cases hi
    simp [window] at hw
    subst hw
    cases radii with
    | nil => exact Near.nil
    | cons r radii => simp at hr
  | cons n shape ih =>
    intro radii idx hr hi w hw
    cases hi with
    | @cons _ i _ is h1 h2 =>
      cases radii with
      | nil => simp at hr
      | cons r radii =>
        simp only [window, List.mem_flatMap, List.mem_map, List.mem_range] at hw
        obtain ⟨j, hj, u, hu, rfl⟩ := hw
        refine Near.cons ?_ (ih (by simpa using hr) h2 u hu)
        have := reflect_near n i h1 ((i : Int) + j - ((r - 1) / 2 : Nat)) (r / 2) (by omega) (by omega)
        omega

theorem prod_pos' : ∀ radii : List Nat, (∀ r ∈ radii, 0 < r) → 0 < radii.prod
  | [], _ => by simp
  | r :: radii, h => by
    rw [List.prod_cons]
    exact Nat.mul_pos (h r List.mem_cons_self) (prod_pos' radii fun a ha => h a (List.mem_cons_of_mem _ ha))

/-- There are as many as the product of the radii. -/
theorem window_length {shape : List Nat} : ∀ {radii idx : List Nat}, radii.length = shape.length →
    Inside shape idx → (window shape radii idx).length = radii.prod := by
  induction shape with
  | nil =>
    intro radii idx hr hi
    cases hi
    cases radii with
    | nil => simp [window]
    | cons r radii => simp at hr
  | cons n shape ih =>
    intro radii idx hr hi
    cases hi with
    | cons h1 h2 =>
      cases radii with
      | nil => simp at hr
      | cons r radii =>
        simp [window, List.length_flatMap, ih (by simpa using hr) h2]

variable {α : Type*} [Field α]

omit [Field α] in
theorem sum_mul_right [Semiring α] (l : List (List Nat)) (v : List Nat → α) (c : α) :
    (l.map fun w => v w * c).sum = (l.map v).sum * c := by
  induction l with
  | nil => simp
  | cons a l ih => simp [ih, add_mul]

/-- The value of the convolution is the mean over the window. -/
theorem convolve_mean (v : List Nat → α) {shape radii idx : List Nat} (hr : radii.length = shape.length)
    (hi : Inside shape idx) :
    convolve v shape radii idx =
      ((window shape radii idx).map v).sum / ((window shape radii idx).length : α) := by
  rw [window_length hr hi]
  unfold convolve
  rw [sum_mul_right]
  ring

section Order

variable [LinearOrder α] [IsStrictOrderedRing α]

omit [Field α] [LinearOrder α] [IsStrictOrderedRing α] in
theorem sum_le [Field α] [LinearOrder α] [IsStrictOrderedRing α] (l : List (List Nat)) (v : List Nat → α)
    (lo hi : α) (h : ∀ w ∈ l, lo ≤ v w ∧ v w ≤ hi) :
    lo * l.length ≤ (l.map v).sum ∧ (l.map v).sum ≤ hi * l.length := by
  induction l with
  | nil => simp
  | cons a l ih =>
    have h1 := ih (fun w hw => h w (List.mem_cons_of_mem _ hw))
    have h2 := h a (List.mem_cons_self)
    simp only [List.map_cons, List.sum_cons, List.length_cons, Nat.cast_add, Nat.cast_one]
    constructor <;> nlinarith [h1.1, h1.2, h2.1, h2.2]

/-- A smoothed coordinate is between the bounds of the values around it. -/
theorem convolve_within (v : List Nat → α) {shape radii idx : List Nat} (hr : radii.length = shape.length)
    (hp : ∀ r ∈ radii, 0 < r) (hi : Inside shape idx) (lo hi' : α)
    (h : ∀ w, Inside shape w → Near radii idx w → lo ≤ v w ∧ v w ≤ hi') :
    lo ≤ convolve v shape radii idx ∧ convolve v shape radii idx ≤ hi' := by
  have hl : (0 : α) < ((window shape radii idx).length : α) := by
    rw [window_length hr hi]
    exact_mod_cast prod_pos' radii hp
  rw [convolve_mean v hr hi]
  have := sum_le (window shape radii idx) v lo hi'
    (fun w hw => h w (window_inside hr hi w hw) (window_near hr hi w hw))
  exact ⟨(le_div_iff₀ hl).2 this.1, (div_le_iff₀ hl).2 this.2⟩

/-- The copy stays in the range of the values of the array: in particular it stays within bounds. -/
theorem copy_within (v : List Nat → α) {possible shape radii : List Nat}
    {own : Nat → Nat → List Nat → Nat} {glob : Nat → Nat} {fuel : Nat} {u : List Nat → α}
    (hc : smoothCopy v possible shape radii own glob fuel = some u)
    (hr : radii.length = shape.length) (hp : ∀ r ∈ radii, 0 < r) (lo hi : α)
    (h : ∀ w, Inside shape w → lo ≤ v w ∧ v w ≤ hi) (idx : List Nat) (hi' : Inside shape idx) :
    lo ≤ u idx ∧ u idx ≤ hi := by
  simp only [smoothCopy, Option.map_eq_some_iff] at hc
  obtain ⟨t, _, rfl⟩ := hc
  unfold blend
  split
  · exact convolve_within v hr hp hi' lo hi (fun w hw _ => h w hw)
  · exact h idx hi'

end Order

/-- A coordinate of the copy is that of the array or the mean of the values around it. -/
theorem copy_coordinate (v : List Nat → α) {possible shape radii : List Nat}
    {own : Nat → Nat → List Nat → Nat} {glob : Nat → Nat} {fuel : Nat} {u : List Nat → α}
    (hc : smoothCopy v possible shape radii own glob fuel = some u) (hr : radii.length = shape.length)
    (idx : List Nat) (hi : Inside shape idx) :
    u idx = v idx ∨ ∃ l : List (List Nat), l.length = radii.prod ∧
      (∀ w ∈ l, Inside shape w ∧ Near radii idx w) ∧ u idx = (l.map v).sum / (l.length : α) := by
  simp only [smoothCopy, Option.map_eq_some_iff] at hc
  obtain ⟨t, _, rfl⟩ := hc
  unfold blend
  split
  · right
    exact ⟨window shape radii idx, window_length hr hi,
      fun w hw => ⟨window_inside hr hi w hw, window_near hr hi w hw⟩, convolve_mean v hr hi⟩
  · exact Or.inl rfl

/-- Away from the border, the means run over each offset once: along one axis with an odd radius, from `i - r` to `i + r`. -/
theorem window_line (n r i : Nat) (h1 : r ≤ i) (h2 : i + r < n) :
    window [n] [2 * r + 1] [i] = (List.range (2 * r + 1)).map fun j : Nat => [i - r + j] := by
  have key : ∀ l : List Nat, (∀ j ∈ l, j < 2 * r + 1) →
      (l.flatMap fun j : Nat => (window [] [] []).map fun w =>
        reflect n ((i : Int) + j - ((2 * r + 1 - 1) / 2 : Nat)) :: w) = l.map fun j : Nat => [i - r + j] := by
    intro l
    induction l with
    | nil => intro _; rfl
    | cons a l ih =>
      intro hl
      have ha := hl a List.mem_cons_self
      have e : ((i : Int) + a - ((2 * r + 1 - 1) / 2 : Nat)) = ((i - r + a : Nat) : Int) := by omega
      rw [List.flatMap_cons, ih fun j hj => hl j (List.mem_cons_of_mem _ hj), e, reflect_inside n _ (by omega)]
      rfl
  exact key _ fun j hj => List.mem_range.1 hj

/-- A constant array is not changed. -/
theorem convolve_const [CharZero α] (c : α) {shape radii idx : List Nat} (hr : radii.length = shape.length)
    (hp : ∀ r ∈ radii, 0 < r) (hi : Inside shape idx) :
    convolve (fun _ => c) shape radii idx = c := by
  have hl : ((window shape radii idx).length : α) ≠ 0 := by
    rw [window_length hr hi]
    exact_mod_cast (prod_pos' radii hp).ne'
  rw [convolve_mean _ hr hi, List.map_const', List.sum_replicate, nsmul_eq_mul]
  field_simp

/-- Smoothing commutes with a change of unit and of origin. -/
theorem convolve_affine [CharZero α] (v : List Nat → α) (a b : α) {shape radii idx : List Nat}
    (hr : radii.length = shape.length) (hp : ∀ r ∈ radii, 0 < r) (hi : Inside shape idx) :
    convolve (fun w => a * v w + b) shape radii idx = a * convolve v shape radii idx + b := by
  have hl : ((window shape radii idx).length : α) ≠ 0 := by
    rw [window_length hr hi]
    exact_mod_cast (prod_pos' radii hp).ne'
  rw [convolve_mean _ hr hi, convolve_mean _ hr hi]
  have : ∀ l : List (List Nat), (l.map fun w => a * v w + b).sum = a * (l.map v).sum + b * l.length := by
    intro l
    induction l with
    | nil => simp
    | cons x l ih => simp [ih]; ring
  rw [this]
  field_simp

/-- With radius one everywhere nothing changes. -/
theorem window_one {shape : List Nat} : ∀ {idx : List Nat}, Inside shape idx →
    window shape (shape.map fun _ => 1) idx = [idx] := by
  induction shape with
  | nil => intro idx h; cases h; rfl
  | cons n shape ih =>
    intro idx h
    cases h with
    | @cons _ i _ is h1 h2 =>
      have e := reflect_inside n i h1
      have := ih h2
      simp only [List.map_cons, window, this]
      simp [e]

omit [Field α] in
/-- The multi-indices listed for a shape are those inside it. -/
theorem mem_indices {shape : List Nat} : ∀ idx : List Nat, idx ∈ indices shape ↔ Inside shape idx := by
  induction shape with
  | nil =>
    intro idx
    simp [indices, Inside]
  | cons n shape ih =>
    intro idx
    simp only [indices, List.mem_flatMap, List.mem_range, List.mem_map, ih]
    constructor
    · rintro ⟨i, hi, w, hw, rfl⟩
      exact List.Forall₂.cons hi hw
    · intro h
      cases h with
      | cons h1 h2 => exact ⟨_, h1, _, h2, rfl⟩

/-- With several radii the loop ends at the first trial that changes a coordinate, so that one is changed. -/
theorem trial_some {possible shape : List Nat} {own : Nat → Nat → List Nat → Nat} {glob : Nat → Nat}
    (hp : 1 < possible.length) : ∀ {fuel t r : Nat}, trial possible shape own glob fuel t = some r →
      t ≤ r ∧ (∃ idx, Inside shape idx ∧ mask possible own glob r idx = true) ∧
      ∀ q, t ≤ q → q < r → ∀ idx, Inside shape idx → mask possible own glob q idx = false := by
  intro fuel
  induction fuel with
  | zero => intro t r h; simp [trial] at h
  | succ fuel ih =>
    intro t r h
    unfold trial at h
    split at h
    · rename_i c
      obtain ⟨h1, h2, h3⟩ := ih h
      refine ⟨by omega, h2, ?_⟩
      intro q hq hr idx hi
      by_cases e : q = t
      · subst e
        have := List.eq_nil_of_length_eq_zero c.1
        rw [List.filter_eq_nil_iff] at this
        simpa using this idx ((mem_indices idx).2 hi)
      · exact h3 q (by omega) hr idx hi
    · rename_i c
      simp only [Option.some.injEq] at h
      subst h
      refine ⟨le_refl _, ?_, fun q h1 h2 => by omega⟩
      have c' : ((indices shape).filter (mask possible own glob t)).length ≠ 0 := fun e => c ⟨e, hp⟩
      obtain ⟨x, hx⟩ := List.exists_mem_of_ne_nil ((indices shape).filter (mask possible own glob t))
        (fun e => c' (by rw [e]; rfl))
      rw [List.mem_filter] at hx
      exact ⟨x, (mem_indices x).1 hx.1, hx.2⟩

/-- It ends when some trial changes a coordinate. -/
theorem trial_ends {possible shape : List Nat} {own : Nat → Nat → List Nat → Nat} {glob : Nat → Nat}
    {r : Nat} (h : ∃ idx, Inside shape idx ∧ mask possible own glob r idx = true) :
    ∀ {fuel t : Nat}, t ≤ r → r < t + fuel → (trial possible shape own glob fuel t).isSome := by
  intro fuel
  induction fuel with
  | zero => intro t h1 h2; omega
  | succ fuel ih =>
    intro t h1 h2
    unfold trial
    split
    · rename_i c
      by_cases e : r = t
      · exfalso
        subst e
        obtain ⟨idx, hi, hm⟩ := h
        have := List.eq_nil_of_length_eq_zero c.1
        rw [List.filter_eq_nil_iff] at this
        exact this idx ((mem_indices idx).2 hi) hm
      · exact ih (by omega) (by omega)
    · rfl

/-- With one radius there is one trial, and the result depends on the generator of the parametrization only. -/
theorem copy_one (v : List Nat → α) (r0 : Nat) (shape radii : List Nat) (own : Nat → Nat → List Nat → Nat)
    (glob : Nat → Nat) (fuel : Nat) :
    smoothCopy v [r0] shape radii own glob (fuel + 1) =
      some (blend v shape radii fun idx => own 0 4 idx == 0) := by
  simp [smoothCopy, trial]
  rfl

/-- The data and the draws of the witnesses. -/
def ramp (w : List Nat) : ℚ := (w.headD 0 : ℚ) ^ 2

def ownDraw (_ k : Nat) (_ : List Nat) : Nat := if k = 4 then 0 else 1

def ownDraw' (_ k : Nat) (idx : List Nat) : Nat := if k = 4 then 0 else idx.headD 0

def noDraw (_ _ : Nat) (_ : List Nat) : Nat := 1

/-- With one radius all coordinates may be kept: the suggestion is then the best point itself. -/
theorem copy_same : smoothCopy ramp [3] [4] [3] noDraw (fun _ => 0) 1 = some ramp := by
  rw [copy_one]
  congr 1

/-- With two radii the same draws of the parametrization give different copies for different draws of the global generator. -/
theorem not_reproducible : ∃ g g' : Nat → Nat,
    (smoothCopy ramp [3, 4] [8] [3] ownDraw' g 1).map (fun u => u [3]) ≠
      (smoothCopy ramp [3, 4] [8] [3] ownDraw' g' 1).map (fun u => u [3]) :=
  ⟨fun _ => 4, fun _ => 5, by decide +kernel⟩

example : (smoothCopy ramp [3] [4] [3] ownDraw (fun _ => 0) 1).map (fun u => [u [0], u [1], u [2], u [3]]) =
    some [1 / 3, 5 / 3, 14 / 3, 22 / 3] := by decide +kernel

example : window [3, 5] [3, 2] [0, 4] = [[0, 4], [0, 4], [0, 4], [0, 4], [1, 4], [1, 4]] := by decide +kernel

/-! ### When the copies are proposed -/

theorem period_ge (s : Settings) (h : 0 < s.workers) : 2 ≤ period s := by
  unfold period; omega

/-- The specification of the kind of the `n`-th candidate (counted from 0). -/
def kindAt (s : Settings) (size : Nat → Nat) (n : Nat) : Kind :=
  if n = 0 then .initial
  else if s.smoother && s.isArray && n % period s == 1 && decide (1 < n) then .smoothed
  else if s.crossover && n % 2 == 1 && decide (2 < size n) then .crossed
  else .mutated

/-- The suggestions waiting before the `n`-th ask. -/
def waiting (s : Settings) (n : Nat) : List Kind :=
  if s.smoother && s.isArray && n % period s == 1 && decide (1 < n) then [.smoothed] else []

theorem waiting_succ (s : Settings) (h : 0 < s.workers) (n : Nat) :
    waiting s (n + 1) = if smooths s n then [.smoothed] else [] := by
  have hp := period_ge s h
  have key : ((n + 1) % period s = 1) ↔ n % period s = 0 := by
    rw [Nat.add_mod, Nat.mod_eq_of_lt (by omega : 1 < period s)]
    have := Nat.mod_lt n (by omega : 0 < period s)
    by_cases e : n % period s + 1 = period s
    · rw [e, Nat.mod_self]; omega
    · rw [Nat.mod_eq_of_lt (by omega)]; omega
  unfold waiting smooths
  by_cases h0 : n = 0
  · simp [h0]
  · have : (1 < n + 1) = True := by simp; omega
    simp only [this]
    cases s.smoother <;> cases s.isArray <;> simp [key, h0]

theorem ask_step (s : Settings) (h : 0 < s.workers) (size : Nat → Nat) (n : Nat) :
    ask s ⟨n, waiting s n, size n⟩ = (kindAt s size n, ⟨n + 1, waiting s (n + 1), size n⟩) := by
  have hp := period_ge s h
  by_cases hw : (s.smoother && s.isArray && n % period s == 1 && decide (1 < n)) = true
  · have e : waiting s n = [.smoothed] := by unfold waiting; rw [if_pos hw]
    have e2 : waiting s (n + 1) = [] := by
      rw [waiting_succ s h]
      have : smooths s n = false := by
        simp only [Bool.and_eq_true, beq_iff_eq, decide_eq_true_eq] at hw
        unfold smooths
        simp [hw.1.2]
      rw [this]; rfl
    have hn : n ≠ 0 := by
      simp only [Bool.and_eq_true, decide_eq_true_eq] at hw
      omega
    rw [e, e2]
    unfold ask kindAt
    simp only [hn, if_false, hw, if_true]
  · have e : waiting s n = [] := by unfold waiting; rw [if_neg hw]
    rw [e, waiting_succ s h]
    unfold ask internal kindAt
    by_cases h0 : n = 0
    · simp [h0, smooths]
    · simp only [h0, if_false, hw]
      by_cases c : smooths s n = true <;> simp [c]

/-- The candidates of a run without suggestions of the user. -/
theorem run_from (s : Settings) (h : 0 < s.workers) (size : Nat → Nat) (k : Nat) : ∀ n a : Nat,
    (run s size k ⟨n, waiting s n, a⟩).1 = (List.range' n k).map (kindAt s size) := by
  induction k with
  | zero => intro n a; rfl
  | succ k ih =>
    intro n a
    simp only [run, ask_step s h size n, List.range'_succ, List.map_cons]
    rw [ih]

theorem run_kinds (s : Settings) (h : 0 < s.workers) (size : Nat → Nat) (k : Nat) :
    (run s size k ⟨0, [], 0⟩).1 = (List.range k).map (kindAt s size) := by
  have := run_from s h size k 0 0
  have e : waiting s 0 = [] := by simp [waiting]
  rw [e] at this
  rw [List.range_eq_range', ← this]

/-- The `n`-th candidate is a smoothed copy exactly when `n - 1` is a positive multiple of the larger of the number of workers plus one and `antismooth`. -/
theorem smoothed_iff (s : Settings) (h : 0 < s.workers) (hs : s.smoother = true) (ha : s.isArray = true)
    (size : Nat → Nat) (k n : Nat) (hn : n < k) :
    (run s size k ⟨0, [], 0⟩).1[n]? = some .smoothed ↔
      ∃ j, 0 < j ∧ n = j * max (s.workers + 1) s.antismooth + 1 := by
  have hp := period_ge s h
  rw [run_kinds s h, List.getElem?_map, List.getElem?_range hn]
  simp only [Option.map_some, Option.some.injEq]
  change kindAt s size n = .smoothed ↔ ∃ j, 0 < j ∧ n = j * period s + 1
  unfold kindAt
  rw [hs, ha]
  constructor
  · intro e
    split at e
    · cases e
    · split at e
      · rename_i c
        simp only [Bool.and_eq_true, beq_iff_eq, decide_eq_true_eq] at c
        have d := Nat.mod_add_div n (period s)
        refine ⟨n / period s, ?_, ?_⟩
        · rcases Nat.eq_zero_or_pos (n / period s) with z | z
          · rw [z] at d; omega
          · exact z
        · rw [mul_comm]; omega
      · split at e <;> cases e
  · rintro ⟨j, hj, rfl⟩
    have h1 : j * period s + 1 ≠ 0 := by omega
    have h2 : (j * period s + 1) % period s = 1 := by
      rw [Nat.mul_add_mod_self_right, Nat.mod_eq_of_lt (by omega)]
    have h3 : 1 < j * period s + 1 := by
      have : 0 < j * period s := Nat.mul_pos hj (by omega)
      omega
    simp [h2, h3]

/-- Without the option, or for a parametrization which is not an array, there is no smoothed copy. -/
theorem never_smoothed (s : Settings) (h : 0 < s.workers) (hs : s.smoother = false ∨ s.isArray = false)
    (size : Nat → Nat) (k : Nat) : Kind.smoothed ∉ (run s size k ⟨0, [], 0⟩).1 := by
  rw [run_kinds s h, List.mem_map]
  rintro ⟨n, _, e⟩
  unfold kindAt at e
  have : (s.smoother && s.isArray) = false := by rcases hs with e | e <;> simp [e]
  simp only [this, Bool.false_and] at e
  split at e
  · cases e
  · simp only [Bool.false_eq_true, if_false] at e
    split at e <;> cases e

/-- At most one suggestion of the optimizer waits at any time. -/
theorem queue_le (s : Settings) (h : 0 < s.workers) (size : Nat → Nat) (k : Nat) : ∀ n a : Nat,
    (run s size k ⟨n, waiting s n, a⟩).2.queue.length ≤ 1 := by
  induction k with
  | zero =>
    intro n a
    simp only [run, waiting]
    split <;> simp
  | succ k ih =>
    intro n a
    simp only [run, ask_step s h size n]
    exact ih _ _

/-- A suggestion of the user is the next candidate, whatever waits; the others keep their order. -/
theorem suggest_next (s : Settings) (x : State) :
    (ask s (suggest x)).1 = .user ∧ (ask s (suggest x)).2.queue = x.queue := ⟨rfl, rfl⟩

/-- With a period of two, one worker and `antismooth` at most two, the crossover asked for never takes place: its turns are those of the smoothed copies. -/
theorem no_crossover (s : Settings) (h : s.workers = 1) (h2 : s.antismooth ≤ 2) (hs : s.smoother = true)
    (ha : s.isArray = true) (size : Nat → Nat) (hz : ∀ n, size n ≤ n) (k : Nat) :
    Kind.crossed ∉ (run s size k ⟨0, [], 0⟩).1 := by
  have hp : period s = 2 := by unfold period; omega
  rw [run_kinds s (by omega), List.mem_map]
  rintro ⟨n, _, e⟩
  unfold kindAt at e
  rw [hs, ha, hp] at e
  split at e
  · cases e
  · split at e
    · cases e
    · rename_i c
      split at e
      · rename_i d
        simp only [Bool.and_eq_true, beq_iff_eq, decide_eq_true_eq] at d
        have := hz n
        simp [d.1.2] at c
        omega
      · cases e

/-- The steps of an optimizer with crossover are meant to be smoothed ones, crossovers and mutations. -/
def Recombines (s : Settings) : Prop :=
  ∃ k, Kind.crossed ∈ (run s id k ⟨0, [], 0⟩).1

theorem not_recombines : ¬ Recombines ⟨true, true, 2, 1, true⟩ := by
  rintro ⟨k, h⟩
  exact no_crossover _ rfl (le_refl _) rfl rfl id (fun n => le_refl n) k h

/-- With a larger period the crossover takes place. -/
theorem recombines_partial (s : Settings) (h : 0 < s.workers) (hc : s.crossover = true)
    (h3 : 3 ≤ max (s.workers + 1) s.antismooth) : Recombines s := by
  change 3 ≤ period s at h3
  have key : ∃ n, 2 < n ∧ n % 2 = 1 ∧ n % period s ≠ 1 := by
    by_cases e : 3 % period s = 1
    · refine ⟨5, by omega, by omega, ?_⟩
      intro e5
      have d3 := Nat.mod_add_div 3 (period s)
      have : period s = 3 ∨ 3 < period s := by omega
      rcases this with p | p
      · rw [p] at e; omega
      · rw [Nat.mod_eq_of_lt p] at e; omega
    · exact ⟨3, by omega, by omega, e⟩
  obtain ⟨n, h2, hodd, hm⟩ := key
  refine ⟨n + 1, ?_⟩
  rw [run_kinds s h, List.mem_map]
  refine ⟨n, List.mem_range.2 (by omega), ?_⟩
  unfold kindAt
  have n0 : n ≠ 0 := by omega
  simp [n0, hm, hodd, hc, h2]

example : (run ⟨true, true, 3, 1, true⟩ id 9 ⟨0, [], 0⟩).1 =
    [.initial, .mutated, .mutated, .crossed, .smoothed, .crossed, .mutated, .smoothed, .mutated] := by
  decide +kernel

example : (run ⟨true, true, 2, 1, true⟩ id 8 ⟨0, [], 0⟩).1 =
    [.initial, .mutated, .mutated, .smoothed, .mutated, .smoothed, .mutated, .smoothed] := by
  decide +kernel

end NG.Smooth
