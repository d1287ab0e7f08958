import Verif.Model.Msr
import Mathlib.Algebra.Order.Field.Rat
import Mathlib.Tactic.Linarith
import Mathlib.Tactic.NormNum
import Mathlib.Tactic.FieldSimp
import Mathlib.Algebra.BigOperators.Ring.List

/-!
# C98: the runs of `MultipleSingleRuns` and their weights
-/

set_option linter.unusedSectionVars false
namespace NG
namespace Msr
variable {α : Type} [Field α] [LinearOrder α] [IsStrictOrderedRing α] {σ : Type}

/-- Specification: the weighted sum of several objectives. -/
def dot (w losses : List α) : α := (List.zipWith (fun a b => a * b) w losses).sum

/-- Specification: the numbers the optimizer itself works with, one for each tell. -/
def scalars (pre : σ → List α → α × σ) : σ → List (Nat × Nat × List α) → List α
  | _, [] => []
  | f, (_, _, [x]) :: l => clip x :: scalars pre f l
  | f, (_, _, losses) :: l => (pre f losses).1 :: scalars pre (pre f losses).2 l

theorem clip_mono {x y : α} (h : x ≤ y) : clip x ≤ clip y := by
  unfold clip
  split <;> split <;> linarith

theorem clip_id {x : α} (h : x < 500000000000000000000) : clip x = x := if_pos h

theorem weighted_eq (x : α) (cs : List α) : weighted x cs = x * cs.sum := by
  unfold weighted
  rw [List.sum_map_mul_left]
  simp

/-- What the runs are told when none refuses. -/
theorem tellRuns_ok (cand asker : Nat) (loss : α) : ∀ (coeffs : List (List α)) (runs : List (Run α)) (i : Nat) (attr : Nat → Option α),
    coeffs.length = runs.length → (tellRuns cand asker loss i coeffs runs attr).2.2 = true →
    (tellRuns cand asker loss i coeffs runs attr).1 =
      List.zipWith (fun (cs : List α) (r : Run α) => { r with told := r.told ++ [(cand, clip (loss * cs.sum))] }) coeffs runs ∧
    ∀ cs, coeffs.getLast? = some cs → (tellRuns cand asker loss i coeffs runs attr).2.1 cand = some (clip (loss * cs.sum))
  | [], [], _, _, _, _ => by simp [tellRuns]
  | [], _ :: _, _, _, h, _ => by simp at h
  | _ :: _, [], _, _, h, _ => by simp at h
  | cs :: coeffs, r :: runs, i, attr, h, hok => by
    simp only [tellRuns] at hok ⊢
    split at hok
    · rename_i hc
      rw [if_pos hc]
      simp only at hok ⊢
      obtain ⟨h1, h2⟩ := tellRuns_ok cand asker loss coeffs runs (i + 1) _ (by simpa using h) hok
      refine ⟨by rw [h1, weighted_eq]; rfl, ?_⟩
      intro cs' hcs'
      cases coeffs with
      | nil =>
        simp only [List.getLast?_singleton, Option.some.injEq] at hcs'
        subst hcs'
        simp [tellRuns, weighted_eq]
      | cons a l => exact h2 cs' (by simpa using hcs')
    · simp at hok

/-- The flags of the runs do not change. -/
theorem tell_shape (pre : σ → List α → α × σ) (draw : Nat → List (List α)) (cand asker : Nat) (losses : List α) (s : State α σ)
    (hlen : ∀ k, (draw k).length = s.runs.length) (hne : s.runs ≠ []) (hc : s.coeffs = [] ∨ s.coeffs.length = s.runs.length)
    (hok : (tell pre draw cand asker losses s).2 = true) :
    let s' := (tell pre draw cand asker losses s).1
    let x := (preprocess pre s.front losses).1
    s'.coeffs = (if s.coeffs = [] then draw losses.length else s.coeffs) ∧ s'.coeffs.length = s.runs.length ∧ s'.coeffs ≠ [] ∧
    s'.runs = List.zipWith (fun (cs : List α) (r : Run α) => { r with told := r.told ++ [(cand, clip (x * cs.sum))] }) s'.coeffs s.runs ∧
    (∀ cs, s'.coeffs.getLast? = some cs → s'.attr cand = some (clip (x * cs.sum))) ∧
    s'.front = (preprocess pre s.front losses).2 := by
  have hce : (if s.coeffs.isEmpty then draw losses.length else s.coeffs) = if s.coeffs = [] then draw losses.length else s.coeffs := by
    simp [List.isEmpty_iff]
  have hlen' : (if s.coeffs = [] then draw losses.length else s.coeffs).length = s.runs.length := by
    split
    · exact hlen _
    · rename_i h; exact hc.resolve_left h
  simp only [tell, hce] at hok ⊢
  obtain ⟨h1, h2⟩ := tellRuns_ok cand asker _ _ _ 0 _ hlen' hok
  refine ⟨trivial, hlen', ?_, ?_, ?_, ?_⟩
  · intro h
    rw [h] at hlen'
    exact hne (List.eq_nil_of_length_eq_zero hlen'.symm)
  · exact h1
  · exact h2
  · trivial

/-- **C98 (what is told).** Whatever the objectives, run `i` is told the number of the optimizer multiplied by the sum of its weights. -/
theorem told_scaled_partial (pre : σ → List α → α × σ) (draw : Nat → List (List α)) : ∀ (l : List (Nat × Nat × List α)) (s : State α σ),
    (∀ k, (draw k).length = s.runs.length) → s.runs ≠ [] → (s.coeffs = [] ∨ s.coeffs.length = s.runs.length) →
    (tells pre draw l s).2 = true → l ≠ [] →
    let s' := (tells pre draw l s).1
    s'.coeffs.length = s.runs.length ∧
    s'.runs = List.zipWith (fun (cs : List α) (r : Run α) =>
      { r with told := r.told ++ List.zipWith (fun t x => (t.1, clip (x * cs.sum))) l (scalars pre s.front l) }) s'.coeffs s.runs ∧
    (s.coeffs ≠ [] → s'.coeffs = s.coeffs) ∧ (s.coeffs = [] → ∀ t, l.head? = some t → s'.coeffs = draw t.2.2.length)
  | [], _, _, _, _, _, h => absurd rfl h
  | (cand, asker, losses) :: l, s, hlen, hne, hc, hok, _ => by
    simp only [tells] at hok ⊢
    have hsh := tell_shape pre draw cand asker losses s hlen hne hc
    generalize tell pre draw cand asker losses s = r at *
    obtain ⟨s1, b⟩ := r
    cases b with
    | false => simp at hok
    | true =>
      simp only at hok hsh ⊢
      obtain ⟨h1, h2, h3, h4, _, h6⟩ := hsh trivial
      have hr : s1.runs.length = s.runs.length := by rw [h4, List.length_zipWith, h2, Nat.min_self]
      have hscal : scalars pre s.front ((cand, asker, losses) :: l) =
          (preprocess pre s.front losses).1 :: scalars pre s1.front l := by
        rw [h6]
        match losses with
        | [] => rfl
        | [x] => rfl
        | a :: b :: t => rfl
      rw [hscal]
      generalize (preprocess pre s.front losses).1 = x at *
      by_cases hl : l = []
      · subst hl
        simp only [tells, scalars, List.zipWith_cons_cons, List.zipWith_nil_right]
        refine ⟨h2, h4, fun h => by rw [h1, if_neg h], fun h t ht => ?_⟩
        simp only [List.head?_cons, Option.some.injEq] at ht
        subst ht
        rw [h1, if_pos h]
      · obtain ⟨g1, g2, g3, _⟩ := told_scaled_partial pre draw l s1 (fun k => by rw [hlen, hr]) (by
            intro h; rw [h] at hr; exact hne (List.eq_nil_of_length_eq_zero hr.symm)) (Or.inr (by rw [h2, hr])) hok hl
        rw [g3 h3] at g2 ⊢
        refine ⟨h2, ?_, fun h => by rw [h1, if_neg h], fun h t ht => ?_⟩
        · rw [g2, h4]
          apply List.ext_getElem
          · simp [h2]
          · intro i hi1 hi2
            simp
        · simp only [List.head?_cons, Option.some.injEq] at ht
          subst ht
          rw [h1, if_pos h]

/-- **C98 (false as claimed): the runs agree.** Whatever the weights, provided that their sums are not negative, the losses of all runs are
ordered as the numbers of the optimizer: runs with different weights do not pursue different goals. -/
theorem runs_agree (pre : σ → List α → α × σ) (draw : Nat → List (List α)) (f : σ) (n : Nat) (acc : Bool) (l : List (Nat × Nat × List α))
    (hn : 0 < n) (hlen : ∀ k, (draw k).length = n) (hpos : ∀ k, ∀ cs ∈ draw k, 0 ≤ cs.sum)
    (hok : (tells pre draw l (init f n acc)).2 = true) (r : Run α) (hr : r ∈ (tells pre draw l (init f n acc)).1.runs)
    (a b : Nat) (xa xb : α) (ha : (scalars pre f l)[a]? = some xa) (hb : (scalars pre f l)[b]? = some xb) (hab : xa ≤ xb)
    (ya yb : Nat × α) (hya : r.told[a]? = some ya) (hyb : r.told[b]? = some yb) : ya.2 ≤ yb.2 := by
  by_cases hl : l = []
  · subst hl; simp [scalars] at ha
  have hs := told_scaled_partial pre draw l (init f n acc) (by simpa [init] using hlen) (by
    simp only [init, ne_eq, List.replicate_eq_nil_iff]; omega) (Or.inl rfl) hok hl
  simp only at hs
  generalize (tells pre draw l (init f n acc)).1 = s' at *
  obtain ⟨h1, h2, _, h4⟩ := hs
  rw [h2] at hr
  obtain ⟨i, hi, rfl⟩ := List.getElem_of_mem hr
  have hcs : ∀ cs ∈ s'.coeffs, 0 ≤ cs.sum := by
    cases l with
    | nil => exact absurd rfl hl
    | cons t l =>
      rw [h4 rfl t rfl]
      exact hpos _
  simp only [List.getElem_zipWith, init, List.getElem_replicate, List.nil_append] at hya hyb
  have hi' : i < s'.coeffs.length := by simp at hi; omega
  have hsum := hcs _ (List.getElem_mem hi')
  rw [List.getElem?_zipWith] at hya hyb
  have : (init (α := α) f n acc).front = f := rfl
  simp only [ha, hb] at hya hyb
  cases hla : l[a]? with
  | none => rw [hla] at hya; simp at hya
  | some ta =>
    cases hlb : l[b]? with
    | none => rw [hlb] at hyb; simp at hyb
    | some tb =>
      rw [hla] at hya; rw [hlb] at hyb
      simp only [Option.some.injEq] at hya hyb
      rw [← hya, ← hyb]
      exact clip_mono (mul_le_mul_of_nonneg_right hab hsum)

/-- Two runs whose weights prefer different points. -/
def twoDraw : Nat → List (List ℚ) := fun k => if k = 2 then [[2 / 3, 1 / 3], [1 / 3, 2 / 3]] else [[1], [1]]

/-- **C98 (false as claimed).** However losses are aggregated, one of two runs with weights (2/3, 1/3) and (1/3, 2/3) does not rank the points with
losses (0, 1) and (1, 0) by its weighted sum. -/
theorem not_weighted (pre : σ → List ℚ → ℚ × σ) (f : σ) :
    let s := tells pre twoDraw [(0, 0, [0, 1]), (1, 1, [1, 0])] (init f 2 true)
    s.2 = true ∧ s.1.coeffs = [[2 / 3, 1 / 3], [1 / 3, 2 / 3]] ∧
    ¬ (∀ (i : Nat) (cs : List ℚ) (r : Run ℚ), s.1.coeffs[i]? = some cs → s.1.runs[i]? = some r → ∀ x y : ℚ, r.told = [(0, x), (1, y)] →
        (x < y ↔ dot cs [0, 1] < dot cs [1, 0])) := by
  have hok : (tells pre twoDraw [(0, 0, [0, 1]), (1, 1, [1, 0])] (init f 2 true)).2 = true := by
    simp [tells, tell, tellRuns, init, twoDraw, List.replicate]
  have hlen : ∀ k, (twoDraw k).length = 2 := by intro k; unfold twoDraw; split <;> rfl
  have hs := told_scaled_partial pre twoDraw [(0, 0, [0, 1]), (1, 1, [1, 0])] (init f 2 true) (by simpa [init] using hlen) (by simp [init])
    (Or.inl rfl) hok (by simp)
  simp only at hs
  refine ⟨hok, ?_⟩
  generalize (tells pre twoDraw [(0, 0, [0, 1]), (1, 1, [1, 0])] (init f 2 true)).1 = s' at *
  obtain ⟨_, h2, _, h4⟩ := hs
  have hc : s'.coeffs = [[2 / 3, 1 / 3], [1 / 3, 2 / 3]] := by rw [h4 rfl _ rfl]; simp [twoDraw]
  refine ⟨hc, ?_⟩
  intro h
  rw [hc] at h2 h
  simp only [init, List.replicate, List.zipWith_cons_cons, List.zipWith_nil_left, scalars, List.nil_append, List.sum_cons, List.sum_nil] at h2
  rw [h2] at h
  have e1 := (h 0 _ _ rfl rfl _ _ rfl).2 (by norm_num [dot])
  have e2 := mt (h 1 _ _ rfl rfl _ _ rfl).1 (by norm_num [dot])
  norm_num at e1 e2
  exact absurd e1 (not_lt.2 (by simpa using e2))

/-- **C98: the attribute `loss`.** After a tell, the candidate carries the loss of the last run instead of its own. -/
theorem attr_last (pre : σ → List α → α × σ) (draw : Nat → List (List α)) (cand asker : Nat) (x : α) (s : State α σ)
    (hlen : ∀ k, (draw k).length = s.runs.length) (hne : s.runs ≠ []) (hc : s.coeffs = [] ∨ s.coeffs.length = s.runs.length)
    (hok : (tell pre draw cand asker [x] s).2 = true) (cs : List α) (hcs : (tell pre draw cand asker [x] s).1.coeffs.getLast? = some cs) :
    (tell pre draw cand asker [x] s).1.attr cand = some (clip (clip x * cs.sum)) :=
  (tell_shape pre draw cand asker [x] s hlen hne hc hok).2.2.2.2.1 cs hcs

/-- A loss of 10 with weight 1/2: the candidate then says 5. -/
theorem attr_wrong : let r := tell (α := ℚ) (fun (_ : Unit) _ => (0, ())) (fun _ => [[1 / 4], [1 / 2]]) 7 0 [10] (init () 2 true)
    r.2 = true ∧ r.1.attr 7 = some 5 ∧ r.1.runs.map (·.told) = [[(7, 5 / 2)], [(7, 5)]] := by decide +kernel

/-- **C98: refusals are not caught.** With two or more runs which only accept their own points, every tell raises. -/
theorem refused (pre : σ → List α → α × σ) (draw : Nat → List (List α)) (cand asker : Nat) (losses : List α) (s : State α σ)
    (hlen : ∀ k, (draw k).length = s.runs.length) (h2 : 2 ≤ s.runs.length) (hc : s.coeffs = [] ∨ s.coeffs.length = s.runs.length)
    (hacc : ∀ r ∈ s.runs, r.acceptsOthers = false) :
    (tell pre draw cand asker losses s).2 = false ∧ (asker ≠ 0 → (tell pre draw cand asker losses s).1.runs = s.runs) := by
  have hce : (if s.coeffs.isEmpty then draw losses.length else s.coeffs).length = s.runs.length := by
    split
    · exact hlen _
    · rename_i h
      refine hc.resolve_left ?_
      rintro h'
      exact h (by rw [h']; rfl)
  simp only [tell]
  generalize (if s.coeffs.isEmpty then draw losses.length else s.coeffs) = coeffs at *
  generalize (fun n => if n = cand then some _ else s.attr n) = attr at *
  generalize (preprocess pre s.front losses).1 = x at *
  match hr : s.runs, coeffs, hce with
  | [], _, _ => rw [hr] at h2; simp at h2
  | [_], _, _ => rw [hr] at h2; simp at h2
  | r1 :: r2 :: runs, [], h => simp at h
  | r1 :: r2 :: runs, [_], h => simp at h
  | r1 :: r2 :: runs, c1 :: c2 :: coeffs, _ =>
    have e1 := hacc r1 (by rw [hr]; simp)
    have e2 := hacc r2 (by rw [hr]; simp)
    by_cases h0 : asker = 0
    · subst h0
      simp [tellRuns, e2]
    · simp [tellRuns, e1, h0]

/-- Two runs which accept everything, two objectives summed: both are told multiples of the sum. -/
example : let r := tells (α := ℚ) (fun (_ : Unit) l => (l.sum, ())) twoDraw [(0, 0, [0, 3]), (1, 1, [1, 0])] (init () 2 true)
    r.2 = true ∧ r.1.runs.map (·.told) = [[(0, 3), (1, 1)], [(0, 3), (1, 1)]] := by decide +kernel

end Msr
end NG
