import Verif.Model.TransForce
import Verif.Props.Choice

/-!
# C104: standardized data of transition choices
-/

namespace NG
namespace Disc

variable {O V : Type}

theorem mapM_getElem (get : O → V) (os : List O) : ∀ ks : List ℕ, (∀ k ∈ ks, k < os.length) →
    ∃ vs, readAll get os ks = some vs ∧ vs.length = ks.length ∧ ∀ i (h : i < ks.length) (h' : i < vs.length), os[ks[i]]?.map get = some vs[i] := by
  intro ks
  induction ks with
  | nil => intro _; exact ⟨[], rfl, rfl, fun i h => absurd h (by simp)⟩
  | cons k ks ih =>
    intro hk
    obtain ⟨vs, h1, h2, h3⟩ := ih (fun j hj => hk j (List.mem_cons_of_mem _ hj))
    have hlt := hk k List.mem_cons_self
    refine ⟨get os[k] :: vs, ?_, by simp [h2], ?_⟩
    · unfold readAll at h1 ⊢
      rw [List.mapM_cons, h1, List.getElem?_eq_getElem hlt]
      rfl
    · intro i h h'
      cases i with
      | zero => simp [List.getElem?_eq_getElem hlt]
      | succ i => simpa using h3 i (by simpa using h) (by simpa using h')

/-- Trying distinct constants finds the position of the value. -/
theorem tryOptions_pos [DecidableEq V] : ∀ (os : List V) (s k : ℕ) (_ : os.Nodup) (h : k < os.length),
    tryOptions constSet os[k] os s = (os, some (s + k))
  | [], _, _, _, h => absurd h (by simp)
  | o :: os, s, 0, _, _ => by simp [tryOptions, constSet]
  | o :: os, s, k + 1, hn, h => by
    obtain ⟨ho, hn⟩ := List.nodup_cons.1 hn
    have hk : k < os.length := by simpa using h
    have hne : os[k] ≠ o := fun e => ho (e ▸ List.getElem_mem hk)
    have := tryOptions_pos os (s + 1) k hn hk
    simp only [tryOptions, List.getElem_cons_succ, constSet, decide_eq_true_eq] at this ⊢
    rw [if_neg (by first | exact hne | exact hne.symm), this]
    simp only [Prod.mk.injEq, Option.some.injEq, true_and]
    omega

/-- C104 for distinct constant options: the options given by the data are those selected. -/
theorem force_const_partial [DecidableEq V] (os : List V) (hn : os.Nodup) : ∀ ks : List ℕ, (∀ k ∈ ks, k < os.length) →
    forceBin id constSet os ks = (os, some ks) := by
  intro ks
  induction ks with
  | nil => intro _; rfl
  | cons k ks ih =>
    intro hk
    have ih := ih (fun j hj => hk j (List.mem_cons_of_mem _ hj))
    have hlt := hk k List.mem_cons_self
    obtain ⟨vs, h1, _⟩ := mapM_getElem id os ks (fun j hj => hk j (List.mem_cons_of_mem _ hj))
    have hr : readAll id os (k :: ks) = some (os[k] :: vs) := by
      unfold readAll at h1 ⊢
      rw [List.mapM_cons, h1, List.getElem?_eq_getElem hlt]
      rfl
    simp only [forceBin, h1] at ih
    simp only [forceBin, hr, setAll, tryOptions_pos os 0 k hn hlt, ih, Option.map_some, Nat.zero_add]

/-- So a normal draw selects each of `n` distinct constants with probability `1 / n`. -/
theorem std_uniform_partial [DecidableEq V] (os : List V) (hn : os.Nodup) (k : ℕ) (hk : k < os.length) :
    (ProbabilityTheory.gaussianReal 0 1) {x | (setStd Tr.normCdf id constSet os [x]).2 = some [k]} = ENNReal.ofReal (1 / os.length) := by
  have hv := fun x => trans_valid Tr.normCdf os.length (by omega) 1 x
  have : {x | (setStd Tr.normCdf id constSet os [x]).2 = some [k]} = {x | transGet Tr.normCdf os.length 1 x = (k : ℤ)} := by
    ext x
    have := hv x
    simp only [setStd, Set.mem_setOf_eq, List.map_cons, List.map_nil]
    rw [force_const_partial os hn _ (by intro j hj; rw [List.mem_singleton] at hj; omega)]
    simp only [Option.some.injEq, List.cons.injEq, and_true]
    omega
  rw [this]
  exact trans_uniform os.length k (by omega) (by omega)

/-- **False for parameters**: when the first option accepts all the values (a `Scalar` among scalars), it is the one which is always selected,
whatever the data; its own value is overwritten by that of the option the data pointed at. -/
theorem force_first (get : O → V) (trySet : O → V → O × Bool) (o : O) (os : List O) (hacc : ∀ o v, (trySet o v).2 = true) (k : ℕ)
    (hk : k < (o :: os).length) :
    forceBin get trySet (o :: os) [k] = ((trySet o (get (o :: os)[k])).1 :: os, some [0]) := by
  have hr : readAll get (o :: os) [k] = some [get (o :: os)[k]] := by
    unfold readAll
    rw [List.mapM_cons, List.getElem?_eq_getElem hk]
    rfl
  simp only [forceBin, hr, setAll, tryOptions, hacc, if_true, Option.map_some]

/-- With repetitions all of them get the first option. -/
theorem force_first_all (get : O → V) (trySet : O → V → O × Bool) (hacc : ∀ o v, (trySet o v).2 = true) : ∀ (vs : List V) (o : O) (os : List O),
    (setAll trySet vs (o :: os)).2 = some (vs.map (fun _ => 0))
  | [], o, os => rfl
  | v :: vs, o, os => by
    simp only [setAll, tryOptions, hacc, if_true, List.map_cons]
    rw [force_first_all get trySet hacc vs _ os]
    rfl

/-- The second of two scalars is never selected. -/
theorem second_scalar_unreachable (cdf : ℝ → ℝ) (a b x : ℝ) :
    (setStd cdf id (fun (_ : ℝ) (v : ℝ) => (v, true)) [a, b] [x]).2 = some [0] := by
  have hv := trans_valid cdf (0 + 1 + 1) (by omega) 1 x
  simp only [setStd, List.map_cons, List.map_nil, List.length_cons, List.length_nil]
  rw [force_first id _ a [b] (fun _ _ => rfl) _ (by simp only [List.length_cons, List.length_nil]; omega)]

/-- **Unordered transition choices with options which are parameters (or with transitions which are) cannot be mutated.** -/
theorem unordered_raises (optionsDim repetitions transitionsDim : ℕ) :
    unorderedMutates optionsDim repetitions transitionsDim = false ↔ 0 < optionsDim ∨ 0 < transitionsDim := by
  unfold unorderedMutates
  simp only [decide_eq_false_iff_not]
  omega

example : forceBin id constSet ["a", "b", "c"] [2, 0, 2] = (["a", "b", "c"], some [2, 0, 2]) :=
  force_const_partial _ (by decide) _ (by decide)
example : forceBin id (fun (_ : ℤ) (v : ℤ) => (v, true)) [5, 7] [1] = ([7, 7], some [0]) := by decide
/-- With two repetitions the values themselves are lost: `(5, 7)` becomes `(7, 7)`. -/
example : forceBin id (fun (_ : ℤ) (v : ℤ) => (v, true)) [5, 7] [0, 1] = ([7, 7], some [0, 0]) := by decide

end Disc
end NG
