import Verif.Model.MutSteps
import Mathlib.Probability.Moments.Variance
import Mathlib.Tactic.FieldSimp
import Mathlib.Tactic.Ring

/-!
# C103: how many Gaussian steps a mutation makes
-/

set_option linter.unusedSectionVars false

namespace NG
namespace MutSteps

variable {K : Type} [Field K]

/-! ## Specification -/

mutual
/-- The sigma of variable `c`. -/
def sigAt : Shape K → Nat → Nat → K
  | .data _ sigma, _, _ => sigma
  | .group _ kids _, off, c => sigAtL kids off c
def sigAtL : List (Shape K) → Nat → Nat → K
  | [], _, _ => 1
  | s :: l, off, c => if c < off + dim s then sigAt s off c else sigAtL l (off + dim s) c
end

mutual
/-- No sigma is zero. -/
def Proper : Shape K → Prop
  | .data _ sigma => sigma ≠ 0
  | .group _ kids _ => ProperL kids
def ProperL : List (Shape K) → Prop
  | [] => True
  | s :: l => Proper s ∧ ProperL l
end

/-- Variable `c` belongs to the parameter `s` whose first variable is `off`. -/
abbrev Inside (s : Shape K) (off c : Nat) : Prop := off ≤ c ∧ c < off + dim s

mutual
/-- How many steps variable `c` makes: one of its own, as many times as its container mutates it, and one for each container which steps itself. -/
def steps : Shape K → Nat → Nat → Nat
  | .data n sigma, off, c => if Inside (.data n sigma) off c then 1 else 0
  | .group order kids own, off, c => stepsL order kids off 0 c + if own = true ∧ Inside (.group order kids own) off c then 1 else 0
def stepsL (order : List Nat) : List (Shape K) → Nat → Nat → Nat → Nat
  | [], _, _, _ => 0
  | s :: l, off, i, c => order.count i * steps s off c + stepsL order l (off + dim s) (i + 1) c
end

mutual
/-- One plus the number of containers around variable `c`. -/
def depth : Shape K → Nat → Nat → Nat
  | .data n sigma, off, c => if Inside (.data n sigma) off c then 1 else 0
  | .group order kids own, off, c => depthL kids off c + if Inside (.group order kids own) off c then 1 else 0
def depthL : List (Shape K) → Nat → Nat → Nat
  | [], _, _ => 0
  | s :: l, off, c => depth s off c + depthL l (off + dim s) c
end

mutual
/-- Only arrays, constants and dictionaries, tuples, instrumentations, with their keys in any order. -/
def Nested : Shape K → Prop
  | .data _ _ => True
  | .group order kids own => own = true ∧ order.Perm (List.range kids.length) ∧ NestedL kids
def NestedL : List (Shape K) → Prop
  | [] => True
  | s :: l => Nested s ∧ NestedL l
end

/-- Different draws for different variables: `J c` are the draws used for variable `c`, all among the first `u`, none used twice. -/
structure Distinct (J : Nat → List Nat) (u : Nat) : Prop where
  lt : ∀ c, ∀ j ∈ J c, j < u
  nodup : ∀ c, (J c).Nodup
  disjoint : ∀ c c', c ≠ c' → ∀ j ∈ J c, j ∉ J c'

/-- The action `A` adds to each variable sigma times the sum of its draws, and uses `u` draws. -/
def IsStep (A : (Nat → K) → (Nat → K) × Nat → (Nat → K) × Nat) (sig : Nat → K) (J : Nat → List Nat) (u : Nat) : Prop :=
  ∀ eps x k, A eps (x, k) = (fun c => x c + sig c * ((J c).map (fun j => eps (k + j))).sum, k + u)

/-! ## Lemmas -/

theorem distinct_nil : Distinct (fun _ => []) 0 :=
  ⟨fun _ _ h => absurd h (by simp), fun _ => List.nodup_nil, fun _ _ _ _ h => absurd h (by simp)⟩

theorem distinct_comp {J J' : Nat → List Nat} {u u' : Nat} (h : Distinct J u) (h' : Distinct J' u') :
    Distinct (fun c => J c ++ (J' c).map (u + ·)) (u + u') := by
  refine ⟨?_, ?_, ?_⟩
  · intro c j hj
    rcases List.mem_append.1 hj with hj | hj
    · have := h.lt c j hj; omega
    · obtain ⟨i, hi, rfl⟩ := List.mem_map.1 hj
      have := h'.lt c i hi
      omega
  · intro c
    refine List.Nodup.append (h.nodup c) ((h'.nodup c).map (fun a b hab => by simpa using hab)) ?_
    intro j hj hj'
    obtain ⟨i, hi, rfl⟩ := List.mem_map.1 hj'
    have := h.lt c _ hj
    omega
  · intro c c' hc j hj hj'
    rcases List.mem_append.1 hj with hj | hj <;> rcases List.mem_append.1 hj' with hj' | hj'
    · exact h.disjoint c c' hc j hj hj'
    · obtain ⟨i, hi, rfl⟩ := List.mem_map.1 hj'
      have := h.lt c _ hj
      omega
    · obtain ⟨i, hi, rfl⟩ := List.mem_map.1 hj
      have := h.lt c' _ hj'
      omega
    · obtain ⟨i, hi, rfl⟩ := List.mem_map.1 hj
      obtain ⟨i', hi', e⟩ := List.mem_map.1 hj'
      have : i' = i := by simpa using e
      exact h'.disjoint c c' hc i hi (this ▸ hi')

theorem isStep_comp {A B : (Nat → K) → (Nat → K) × Nat → (Nat → K) × Nat} {sig : Nat → K} {J J' : Nat → List Nat} {u u' : Nat}
    (h : IsStep A sig J u) (h' : IsStep B sig J' u') :
    IsStep (fun eps st => B eps (A eps st)) sig (fun c => J c ++ (J' c).map (u + ·)) (u + u') := by
  intro eps x k
  simp only [h eps x k, h' eps _ _]
  refine Prod.ext ?_ (by simp; omega)
  funext c
  simp only [List.map_append, List.map_map, List.sum_append, Function.comp_def, add_assoc]
  ring

theorem isStep_congr {A : (Nat → K) → (Nat → K) × Nat → (Nat → K) × Nat} {sig sig' : Nat → K} {J : Nat → List Nat} {u : Nat}
    (h : IsStep A sig J u) (hs : ∀ c, J c = [] ∨ sig c = sig' c) : IsStep A sig' J u := by
  intro eps x k
  rw [h eps x k]
  refine Prod.ext ?_ rfl
  funext c
  rcases hs c with e | e
  · simp [e]
  · simp [e]

mutual
theorem setData_eq (data : Nat → K) : ∀ (s : Shape K) (off : Nat) (x : Nat → K), Proper s → ∀ c,
    setData data off s x c = if Inside s off c then x c + sigAt s off c * data (c - off) else x c
  | .data n sigma, off, x => by
    intro h c
    simp only [Proper] at h
    have e : dim (.data n sigma : Shape K) = n := by rw [dim]
    rw [setData, sigAt]
    beta_reduce
    by_cases hc : off ≤ c ∧ c < off + n
    · rw [if_pos hc, if_pos (by unfold Inside; rw [e]; exact hc)]
      field_simp
      ring
    · rw [if_neg hc, if_neg (by unfold Inside; rw [e]; exact hc)]
  | .group order kids own, off, x => by
    intro h c
    simp only [Proper] at h
    have e : dim (.group order kids own : Shape K) = dimL kids := by rw [dim]
    rw [setData, sigAt, setDataL_eq data kids off x h c]
    by_cases hc : off ≤ c ∧ c < off + dimL kids
    · rw [if_pos hc, if_pos (by unfold Inside; rw [e]; exact hc)]
    · rw [if_neg hc, if_neg (by unfold Inside; rw [e]; exact hc)]
theorem setDataL_eq (data : Nat → K) : ∀ (l : List (Shape K)) (off : Nat) (x : Nat → K), ProperL l → ∀ c,
    setDataL data off l x c = if off ≤ c ∧ c < off + dimL l then x c + sigAtL l off c * data (c - off) else x c
  | [], off, x => by
    intro _ c
    have e : dimL ([] : List (Shape K)) = 0 := by rw [dimL]
    rw [setDataL, if_neg (by omega)]
  | s :: l, off, x => by
    intro h c
    simp only [ProperL] at h
    have e : dimL (s :: l) = dim s + dimL l := by rw [dimL]
    rw [setDataL, sigAtL, setDataL_eq _ l _ _ h.2 c, setData_eq data s off x h.1 c]
    by_cases h1 : off ≤ c ∧ c < off + dim s
    · rw [if_neg (by omega), if_pos h1, if_pos (by omega), if_pos h1.2]
    · by_cases h2 : off + dim s ≤ c ∧ c < off + dim s + dimL l
      · rw [if_pos h2, if_neg h1, if_pos (by omega), if_neg (by omega)]
        have : dim s + (c - (off + dim s)) = c - off := by omega
        rw [this]
      · rw [if_neg h2, if_neg h1, if_neg (by omega)]
end

/-- The draws of a step of its own. -/
def ownJ (s : Shape K) (off c : Nat) : List Nat := if Inside s off c then [c - off] else []

theorem ownStep_isStep (s : Shape K) (off : Nat) (h : Proper s) : IsStep (fun eps => ownStep eps s off) (sigAt s off) (ownJ s off) (dim s) := by
  intro eps x k
  simp only [ownStep]
  refine Prod.ext ?_ rfl
  funext c
  simp only [setData_eq _ s off x h c, ownJ]
  split <;> simp

theorem ownJ_distinct (s : Shape K) (off : Nat) : Distinct (ownJ s off) (dim s) := by
  refine ⟨?_, ?_, ?_⟩
  · intro c j hj
    simp only [ownJ] at hj
    split at hj
    · rw [List.mem_singleton] at hj; omega
    · simp at hj
  · intro c
    simp only [ownJ]
    split <;> simp
  · intro c c' hc j hj hj'
    simp only [ownJ] at hj hj'
    split at hj
    · split at hj'
      · rw [List.mem_singleton] at hj hj'; omega
      · simp at hj'
    · simp at hj

/-- The steps of variable `c` when sub-parameter `i` is mutated once. -/
def kidSteps : List (Shape K) → Nat → Nat → Nat → Nat
  | [], _, _, _ => 0
  | s :: _, off, 0, c => steps s off c
  | s :: l, off, i + 1, c => kidSteps l (off + dim s) i c

theorem stepsL_nil : ∀ (l : List (Shape K)) (off i c : Nat), stepsL [] l off i c = 0
  | [], _, _, _ => by rw [stepsL]
  | s :: l, off, i, c => by rw [stepsL, stepsL_nil l]; simp

theorem stepsL_cons (a : Nat) (order : List Nat) : ∀ (l : List (Shape K)) (off i c : Nat),
    stepsL (a :: order) l off i c = (if i ≤ a then kidSteps l off (a - i) c else 0) + stepsL order l off i c
  | [], off, i, c => by simp [stepsL, kidSteps]
  | s :: l, off, i, c => by
    rw [stepsL, stepsL, stepsL_cons a order l, List.count_cons]
    by_cases h : a = i
    · subst h
      rw [if_pos (by simp), if_neg (by omega), if_pos (le_refl _), Nat.sub_self]
      simp only [kidSteps]
      ring
    · rw [if_neg (by simpa using h)]
      by_cases h' : i ≤ a
      · rw [if_pos (by omega), if_pos h']
        have : a - i = (a - (i + 1)) + 1 := by omega
        rw [this]
        simp only [kidSteps]
        ring
      · rw [if_neg (by omega), if_neg h']
        ring

mutual
theorem steps_outside : ∀ (s : Shape K) (off c : Nat), ¬ Inside s off c → steps s off c = 0
  | .data n sigma, off, c => by
    intro h
    rw [steps, if_neg h]
  | .group order kids own, off, c => by
    intro h
    rw [steps, if_neg (fun h' => h h'.2), stepsL_outside order kids off 0 c (by simpa [Inside, dim] using h)]
theorem stepsL_outside (order : List Nat) : ∀ (l : List (Shape K)) (off i c : Nat), ¬ (off ≤ c ∧ c < off + dimL l) → stepsL order l off i c = 0
  | [], off, i, c => by intro _; rw [stepsL]
  | s :: l, off, i, c => by
    intro h
    simp only [dimL] at h
    rw [stepsL, steps_outside s off c (by simp only [Inside]; omega), stepsL_outside order l _ _ c (by omega)]
    simp
end

/-! ## The theorem -/

mutual
/-- C103 (what `mutate` does, exactly): every variable moves by its sigma times a sum of draws, as many as `steps` says; no draw is used twice. The
draws used do not depend on the values nor on the draws themselves. -/
theorem mutate_steps : ∀ (s : Shape K) (off : Nat), Proper s → ∃ J u, Distinct J u ∧ (∀ c, (J c).length = steps s off c) ∧
    IsStep (fun eps => mutate eps s off) (sigAt s off) J u
  | .data n sigma, off => by
    intro h
    refine ⟨ownJ (.data n sigma) off, n, ownJ_distinct _ off, ?_, ?_⟩
    · intro c
      simp only [ownJ, steps]
      split <;> rfl
    · have := ownStep_isStep (.data n sigma) off h
      intro eps x k
      simp only [mutate]
      exact this eps x k
  | .group order kids own, off => by
    intro h
    have hk : ProperL kids := by simpa only [Proper] using h
    obtain ⟨J, u, h1, h2, h3⟩ := fold_steps kids off hk order
    cases own with
    | false =>
      refine ⟨J, u, h1, ?_, ?_⟩
      · intro c
        rw [h2, steps]
        simp
      · intro eps x k
        have := h3 eps x k
        simp only [mutate, sigAt]
        exact this
    | true =>
      refine ⟨_, _, distinct_comp h1 (ownJ_distinct (.group order kids true) off), ?_, ?_⟩
      · intro c
        rw [List.length_append, h2, List.length_map, steps, ownJ]
        split <;> simp_all
      · intro eps x k
        have := isStep_comp h3 (ownStep_isStep (.group order kids true) off h) eps x k
        simp only [mutate, if_true]
        exact this
theorem fold_steps : ∀ (l : List (Shape K)) (off : Nat), ProperL l → ∀ order : List Nat, ∃ J u, Distinct J u ∧
    (∀ c, (J c).length = stepsL order l off 0 c) ∧
    IsStep (fun eps st => order.foldl (fun st i => match (mutators eps l off)[i]? with | some f => f st | none => st) st) (sigAtL l off) J u
  | l, off => by
    intro h order
    induction order with
    | nil => 
      refine ⟨_, _, distinct_nil, fun c => by rw [stepsL_nil]; rfl, ?_⟩
      intro eps x k
      simp
    | cons a order ih =>
      obtain ⟨J, u, h1, h2, h3⟩ := ih
      obtain ⟨J', u', k1, k2, k3⟩ := kid_steps l off h a
      refine ⟨_, _, distinct_comp k1 h1, ?_, isStep_comp k3 h3⟩
      intro c
      rw [List.length_append, List.length_map, k2, h2, stepsL_cons]
      simp
theorem kid_steps : ∀ (l : List (Shape K)) (off : Nat), ProperL l → ∀ i : Nat, ∃ J u, Distinct J u ∧ (∀ c, (J c).length = kidSteps l off i c) ∧
    IsStep (fun eps st => match (mutators eps l off)[i]? with | some f => f st | none => st) (sigAtL l off) J u
  | [], off => by
    intro _ i
    refine ⟨_, _, distinct_nil, fun c => by simp [kidSteps], ?_⟩
    intro eps x k
    simp [mutators]
  | s :: l, off => by
    intro h i
    simp only [ProperL] at h
    cases i with
    | zero =>
      obtain ⟨J, u, h1, h2, h3⟩ := mutate_steps s off h.1
      refine ⟨J, u, h1, fun c => by rw [h2]; simp only [kidSteps], ?_⟩
      have : IsStep (fun eps st => match (mutators eps (s :: l) off)[0]? with | some f => f st | none => st) (sigAt s off) J u := by
        intro eps x k
        simp only [mutators, List.getElem?_cons_zero]
        exact h3 eps x k
      refine isStep_congr this (fun c => ?_)
      by_cases hc : Inside s off c
      · right
        simp only [sigAtL]
        rw [if_pos hc.2]
      · left
        rw [← List.length_eq_zero_iff, h2, steps_outside s off c hc]
    | succ i =>
      obtain ⟨J, u, h1, h2, h3⟩ := kid_steps l (off + dim s) h.2 i
      refine ⟨J, u, h1, fun c => by rw [h2]; simp only [kidSteps], ?_⟩
      have : IsStep (fun eps st => match (mutators eps (s :: l) off)[i + 1]? with | some f => f st | none => st) (sigAtL l (off + dim s)) J u := by
        intro eps x k
        simp only [mutators, List.getElem?_cons_succ]
        exact h3 eps x k
      refine isStep_congr this (fun c => ?_)
      by_cases hc : c < off + dim s
      · left
        rw [← List.length_eq_zero_iff, h2]
        have : ∀ (l : List (Shape K)) (off i : Nat), c < off → kidSteps l off i c = 0 := by
          intro l
          induction l with
          | nil => intro off i _; simp [kidSteps]
          | cons t l ih =>
            intro off i hc
            cases i with
            | zero => simp only [kidSteps]; exact steps_outside t off c (by simp only [Inside]; omega)
            | succ i => simp only [kidSteps]; exact ih _ i (by omega)
        exact this l _ i hc
      · right
        simp only [sigAtL]
        rw [if_neg hc]
end

/-! ## Consequences -/

/-- A variable which makes no step keeps its value. -/
theorem unmoved (eps : Nat → K) (s : Shape K) (off : Nat) (h : Proper s) (x : Nat → K) (k c : Nat) (hc : steps s off c = 0) :
    (mutate eps s off (x, k)).1 c = x c := by
  obtain ⟨J, u, _, h2, h3⟩ := mutate_steps s off h
  have e : J c = [] := by rw [← List.length_eq_zero_iff, h2, hc]
  have := h3 eps x k
  simp only at this
  rw [this]
  simp [e]

/-- The variables outside of the parameter are not touched. -/
theorem outside_unmoved (eps : Nat → K) (s : Shape K) (off : Nat) (h : Proper s) (x : Nat → K) (k c : Nat) (hc : ¬ Inside s off c) :
    (mutate eps s off (x, k)).1 c = x c := unmoved eps s off h x k c (steps_outside s off c hc)

/-- An array alone: one step for each variable, with a draw of its own. -/
theorem data_one_step_partial (eps : Nat → K) (n : Nat) (sigma : K) (h : sigma ≠ 0) (x : Nat → K) (k c : Nat) (hc : c < n) :
    (mutate eps (.data n sigma) 0 (x, k)).1 c = x c + sigma * eps (k + c) := by
  have := ownStep_isStep (.data n sigma) 0 (by simpa only [Proper] using h) eps x k
  simp only [mutate]
  simp only at this
  rw [this]
  have hi : Inside (.data n sigma : Shape K) 0 c := ⟨Nat.zero_le c, by rw [dim]; omega⟩
  simp only [ownJ, sigAt]
  rw [if_pos hi]
  simp

theorem stepsL_once (order : List Nat) : ∀ (l : List (Shape K)) (off i c : Nat), (∀ j, i ≤ j → j < i + l.length → order.count j = 1) →
    (∀ s ∈ l, ∀ off c, steps s off c = depth s off c) → stepsL order l off i c = depthL l off c
  | [], off, i, c, _, _ => by rw [stepsL, depthL]
  | s :: l, off, i, c, h, hd => by
    have hl : (s :: l).length = l.length + 1 := rfl
    rw [stepsL, depthL, h i (le_refl _) (by omega), hd s List.mem_cons_self,
      stepsL_once order l _ (i + 1) c (fun j h1 h2 => h j (by omega) (by omega)) (fun t ht => hd t (List.mem_cons_of_mem _ ht))]
    simp

mutual
/-- **C103 is false with containers**: in dictionaries, tuples and instrumentations the number of steps of a variable is one plus the number of
containers around it. -/
theorem nested_steps : ∀ (s : Shape K), Nested s → ∀ off c, steps s off c = depth s off c
  | .data n sigma => by
    intro _ off c
    rw [steps, depth]
  | .group order kids own => by
    intro h off c
    simp only [Nested] at h
    obtain ⟨rfl, hp, hk⟩ := h
    rw [steps, depth, stepsL_once order kids off 0 c ?_ (nestedL_steps kids hk)]
    · simp
    · intro j _ hj
      rw [hp.count_eq, List.count_eq_one_of_mem (List.nodup_range) (List.mem_range.2 (by omega))]
theorem nestedL_steps : ∀ (l : List (Shape K)), NestedL l → ∀ s ∈ l, ∀ off c, steps s off c = depth s off c
  | [] => by intro _ s hs; simp at hs
  | t :: l => by
    intro h s hs
    simp only [NestedL] at h
    rcases List.mem_cons.1 hs with e | hs
    · rw [e]; exact nested_steps t h.1
    · exact nestedL_steps l h.2 s hs
end

theorem kidSteps_zero : ∀ (l : List (Shape K)) (off i c : Nat), ¬ (off + dimL (l.take i) ≤ c ∧ c < off + dimL (l.take (i + 1))) → kidSteps l off i c = 0
  | [], _, _, _, _ => by simp [kidSteps]
  | s :: l, off, 0, c, h => by
    simp only [kidSteps]
    refine steps_outside s off c ?_
    simp only [List.take_zero, List.take_succ_cons, dimL] at h
    simp only [Inside]
    omega
  | s :: l, off, i + 1, c, h => by
    simp only [kidSteps]
    refine kidSteps_zero l _ i c ?_
    simp only [List.take_succ_cons, dimL] at h
    omega

theorem dimL_mono : ∀ (l : List (Shape K)) (i j : Nat), i ≤ j → dimL (l.take i) ≤ dimL (l.take j)
  | [], i, j, _ => by simp
  | s :: l, 0, j, _ => by simp [dimL]
  | s :: l, i + 1, 0, h => by omega
  | s :: l, i + 1, j + 1, h => by
    simp only [List.take_succ_cons, dimL]
    have := dimL_mono l i j (by omega)
    omega

theorem stepsL_not_visited (l : List (Shape K)) (off i c : Nat) (hc : off + dimL (l.take i) ≤ c ∧ c < off + dimL (l.take (i + 1))) :
    ∀ order : List Nat, i ∉ order → stepsL order l off 0 c = 0 := by
  intro order
  induction order with
  | nil => intro _; exact stepsL_nil l off 0 c
  | cons a order ih =>
    intro h
    rw [stepsL_cons, ih (fun hi => h (List.mem_cons_of_mem _ hi)), if_pos (Nat.zero_le a), Nat.sub_zero, kidSteps_zero]
    intro ha
    rcases Nat.lt_trichotomy a i with h1 | h1 | h1
    · have := dimL_mono l (a + 1) i (by omega); omega
    · exact h (h1 ▸ List.mem_cons_self)
    · have := dimL_mono l (i + 1) a (by omega); omega

theorem take_append_single (opts : List (Shape K)) (t : Shape K) (i : Nat) (hi : i ≤ opts.length) : (opts ++ [t]).take i = opts.take i :=
  List.take_append_of_le_length hi

/-- A choice alone: as documented, the variables of the options which are not drawn are left untouched. -/
theorem choice_untouched_partial (eps : Nat → K) (opts : List (Shape K)) (w : Nat) (sigma : K) (drawn : List Nat) (off : Nat)
    (h : Proper (choice opts w sigma drawn)) (x : Nat → K) (k i c : Nat) (hi : i < opts.length) (hd : i ∉ drawn)
    (hc : off + dimL (opts.take i) ≤ c ∧ c < off + dimL (opts.take (i + 1))) :
    (mutate eps (choice opts w sigma drawn) off (x, k)).1 c = x c := by
  refine unmoved eps _ off h x k c ?_
  rw [choice, steps, stepsL_not_visited _ off i c ?_ _ ?_]
  · simp
  · rw [take_append_single opts _ i (by omega), take_append_single opts _ (i + 1) (by omega)]
    exact hc
  · intro hm
    rcases List.mem_cons.1 hm with hm | hm
    · omega
    · exact hd hm

theorem dimL_take_le (l : List (Shape K)) (i : Nat) : dimL (l.take i) ≤ dimL l := by
  have := dimL_mono l i (max i l.length) (le_max_left _ _)
  rwa [List.take_of_length_le (le_max_right i l.length)] at this

/-- **Contrary to the documentation**, a choice within a dictionary: the variables of the options which are not drawn make one step. -/
theorem choice_in_dict_moves (opts : List (Shape K)) (w : Nat) (sigma : K) (drawn : List Nat) (off i c : Nat) (hi : i < opts.length) (hd : i ∉ drawn)
    (hc : off + dimL (opts.take i) ≤ c ∧ c < off + dimL (opts.take (i + 1))) :
    steps (dict [0] [choice opts w sigma drawn]) off c = 1 := by
  have hz : steps (choice opts w sigma drawn) off c = 0 := by
    rw [choice, steps, stepsL_not_visited _ off i c ?_ _ ?_]
    · simp
    · rw [take_append_single opts _ i (by omega), take_append_single opts _ (i + 1) (by omega)]
      exact hc
    · intro hm
      rcases List.mem_cons.1 hm with hm | hm
      · omega
      · exact hd hm
  have hdim : dim (choice opts w sigma drawn) = dimL (opts ++ [.data w sigma]) := by rw [choice, dim]
  have h1 := dimL_take_le (opts ++ [.data w sigma]) (i + 1)
  rw [take_append_single opts _ (i + 1) (by omega)] at h1
  have h2 : dimL [choice opts w sigma drawn] = dim (choice opts w sigma drawn) := by simp [dimL]
  have hin : Inside (.group [0] [choice opts w sigma drawn] true) off c := by
    refine ⟨by omega, ?_⟩
    rw [dim, h2, hdim]
    omega
  rw [dict, steps, stepsL, stepsL, hz, if_pos ⟨rfl, hin⟩]
  simp

/-- A dictionary of one array: the values move by the sum of two draws each. -/
theorem dict_two_steps (eps : Nat → K) (n : Nat) (sigma : K) (h : sigma ≠ 0) (x : Nat → K) (k c : Nat) (hc : c < n) :
    (mutate eps (dict [0] [.data n sigma]) 0 (x, k)).1 c = x c + sigma * (eps (k + c) + eps (k + n + c)) := by
  have hp : Proper (.group [0] [.data n sigma] true : Shape K) := by simp only [Proper, ProperL]; exact ⟨h, trivial⟩
  have e1 := data_one_step_partial eps n sigma h x k c hc
  have e2 : (mutate eps (.data n sigma) 0 (x, k)).2 = k + n := by simp only [mutate, ownStep, dim]
  have hi : Inside (.group [0] [.data n sigma] true : Shape K) 0 c := ⟨Nat.zero_le c, by simp only [dim, dimL]; omega⟩
  have hs : sigAt (.group [0] [.data n sigma] true : Shape K) 0 c = sigma := by simp [sigAt, sigAtL, dim, hc]
  simp only [dict, mutate, mutators, List.foldl_cons, List.foldl_nil, List.getElem?_cons_zero, if_true]
  rw [mutate] at e1 e2
  simp only [ownStep]
  rw [setData_eq _ _ 0 _ hp c, if_pos hi, hs]
  simp only [ownStep] at e1 e2
  rw [e1, e2]
  simp only [Nat.sub_zero]
  ring

/-! ## Variance -/

open MeasureTheory ProbabilityTheory in
/-- With independent draws of variance one, the variance of the new value of a variable is the number of its steps times the square of its sigma. -/
theorem variance_steps {Ω : Type} [MeasurableSpace Ω] (μ : Measure Ω) [IsProbabilityMeasure μ] (eps : Nat → Ω → ℝ) (hL : ∀ j, MemLp (eps j) 2 μ)
    (hI : iIndepFun eps μ) (hV : ∀ j, variance (eps j) μ = 1) (s : Shape ℝ) (off : Nat) (h : Proper s) (x : Nat → ℝ) (k c : Nat) :
    variance (fun ω => (mutate (fun j => eps j ω) s off (x, k)).1 c) μ = steps s off c * (sigAt s off c) ^ 2 := by
  obtain ⟨J, u, h1, h2, h3⟩ := mutate_steps s off h
  have e : (fun ω => (mutate (fun j => eps j ω) s off (x, k)).1 c) =
      fun ω => x c + sigAt s off c * (∑ j ∈ ((J c).map (k + ·)).toFinset, eps j) ω := by
    funext ω
    have := h3 (fun j => eps j ω) x k
    simp only at this
    rw [this]
    simp only [Finset.sum_apply]
    rw [List.sum_toFinset _ ((h1.nodup c).map (fun a b hab => by simpa using hab)), List.map_map]
    rfl
  have hm : MemLp (∑ j ∈ ((J c).map (k + ·)).toFinset, eps j) 2 μ := memLp_finsetSum' _ (fun j _ => hL j)
  rw [e, variance_const_add (hm.aestronglyMeasurable.const_mul _), variance_const_mul, IndepFun.variance_sum (fun j _ => hL j)
    (fun i _ j _ hij => hI.indepFun hij)]
  simp only [hV, Finset.sum_const, nsmul_eq_mul, mul_one]
  rw [List.toFinset_card_of_nodup ((h1.nodup c).map (fun a b hab => by simpa using hab)), List.length_map, h2]
  ring

/-- Different variables are moved independently: each of them is a function of draws of its own. -/
theorem moves_disjoint (s : Shape K) (off : Nat) (h : Proper s) (k c c' : Nat) (hc : c ≠ c') :
    ∃ S S' : List Nat, (∀ j ∈ S, j ∉ S') ∧ ∀ (eps eps' : Nat → K) (x : Nat → K),
      ((∀ j ∈ S, eps j = eps' j) → (mutate eps s off (x, k)).1 c = (mutate eps' s off (x, k)).1 c) ∧
      ((∀ j ∈ S', eps j = eps' j) → (mutate eps s off (x, k)).1 c' = (mutate eps' s off (x, k)).1 c') := by
  obtain ⟨J, u, h1, h2, h3⟩ := mutate_steps s off h
  refine ⟨(J c).map (k + ·), (J c').map (k + ·), ?_, ?_⟩
  · intro j hj hj'
    obtain ⟨i, hi, rfl⟩ := List.mem_map.1 hj
    obtain ⟨i', hi', e⟩ := List.mem_map.1 hj'
    have : i' = i := by simpa using e
    exact h1.disjoint c c' hc i hi (this ▸ hi')
  · intro eps eps' x
    have a := h3 eps x k
    have b := h3 eps' x k
    simp only at a b
    rw [a, b]
    constructor <;> intro he <;> simp only <;> congr 2 <;> congr 1 <;> refine List.map_congr_left (fun j hj => he _ (List.mem_map.2 ⟨j, hj, rfl⟩))

/-! ## Examples -/

/-- A scalar in a dictionary (also: a mutable sigma, which sits in the dictionary `parameters`) makes two steps. -/
example : (mutate (fun j => (10 ^ j : ℚ)) (dict [0] [.data 1 3]) 0 (fun _ => 0, 0)).1 0 = 33 := by decide +kernel
example : (mutate (fun j => (10 ^ j : ℚ)) (.data 2 3) 0 (fun _ => 0, 0)).1 1 = 30 := by decide +kernel
/-- An array and a choice between a scalar and an array, within a dictionary; the array is drawn. -/
example : (List.range 6).map (mutate (fun j => (10 ^ j : ℚ)) (dict [1, 0] [.data 1 1, choice [.data 1 1, .data 2 1] 2 1 [1]]) 0 (fun _ => 0, 0)).1 =
    [100000 + 10000, 1000000, 10000000 + 100, 100000000 + 1000, 1000000000 + 1, 10000000000 + 10] := by decide +kernel
example : Nested (dict [1, 0] [.data 1 1, dict [0] [.data 2 1]] : Shape ℚ) := by
  refine ⟨rfl, by decide, trivial, ⟨rfl, by decide, trivial, trivial⟩, trivial⟩
example : (List.range 3).map (depth (dict [1, 0] [.data 1 1, dict [0] [.data 2 1]] : Shape ℚ) 0) = [2, 3, 3] := by decide +kernel

end MutSteps
end NG
