import Verif.Model.Experiment
import Mathlib.Data.Nat.Bitwise
import Mathlib.Data.Nat.ModEq
import Mathlib.Data.Int.ModEq
import Mathlib.Data.Fintype.EquivFin
import Mathlib.Data.Fintype.Pi
import Mathlib.Data.Fintype.BigOperators
import Mathlib.Tactic.Ring
import Mathlib.Tactic.Linarith
import Mathlib.Tactic.NormNum
import Mathlib.Tactic.FieldSimp
import Mathlib.Tactic.LinearCombination

/-!
# Experiment functions and experiments (C81, C82)
-/

namespace NG
namespace Exp

/-! ## Symmetries -/

theorem flips_testBit (d sym i : Nat) : flips d sym i = ((sym * mult) % 2 ^ d).testBit i := by
  unfold flips
  rw [Nat.testBit_eq_decide_div_mod_eq]
  rfl

/-- Two numbers below `2 ^ d` which flip the same coordinates are equal. -/
theorem flips_injective (d s s' : Nat) (hs : s < 2 ^ d) (hs' : s' < 2 ^ d) (h : ∀ i < d, flips d s i = flips d s' i) : s = s' := by
  have h1 : (s * mult) % 2 ^ d = (s' * mult) % 2 ^ d := by
    refine Nat.eq_of_testBit_eq (fun i => ?_)
    by_cases hi : i < d
    · rw [← flips_testBit, ← flips_testBit]; exact h i hi
    · rw [Nat.testBit_mod_two_pow, Nat.testBit_mod_two_pow]; simp [hi]
  have hc : Nat.Coprime (2 ^ d) mult := Nat.Coprime.pow_left d (by decide)
  have h2 : s ≡ s' [MOD 2 ^ d] := Nat.ModEq.cancel_right_of_coprime hc h1
  have h3 : s % 2 ^ d = s' % 2 ^ d := h2
  rwa [Nat.mod_eq_of_lt hs, Nat.mod_eq_of_lt hs'] at h3

/-- Every choice of the coordinates to flip is obtained from one number below `2 ^ d`. -/
theorem flips_surjective (d : Nat) (pattern : Fin d → Bool) : ∃ s < 2 ^ d, ∀ i : Fin d, flips d s i = pattern i := by
  have hinj : Function.Injective (fun (s : Fin (2 ^ d)) (i : Fin d) => flips d s i) := by
    intro a b h
    exact Fin.ext (flips_injective d a b a.2 b.2 (fun i hi => congrFun h ⟨i, hi⟩))
  have hbij := (Fintype.bijective_iff_injective_and_card (fun (s : Fin (2 ^ d)) (i : Fin d) => flips d s i)).2 ⟨hinj, by simp⟩
  obtain ⟨s, hs⟩ := hbij.2 pattern
  exact ⟨s, s.2, fun i => congrFun hs i⟩

variable {F : Type} [Field F]

/-- The symmetrization is an involution, and the identity for the number 0. -/
theorem symmetrize_involution (b : Option ((Nat → F) × (Nat → F))) (d s : Nat) (x : List F) :
    symmetrize b d s (symmetrize b d s x) = x ∧ symmetrize b d 0 x = x := by
  constructor
  · unfold symmetrize
    refine List.ext_getElem (by simp) (fun i h1 h2 => ?_)
    simp only [List.getElem_mapIdx]
    split <;> ring
  · unfold symmetrize
    refine List.ext_getElem (by simp) (fun i h1 h2 => ?_)
    simp [flips]

/-- So the function and its symmetrized version take the same values, and their optima correspond to each other. -/
theorem symmetrize_optimum {L : Type} [LE L] (f : List F → L) (b : Option ((Nat → F) × (Nat → F))) (d s : Nat) (o : List F)
    (ho : ∀ x, x.length = d → f o ≤ f x) : ∀ x, x.length = d → f (symmetrize b d s (symmetrize b d s o)) ≤ f (symmetrize b d s x) := by
  intro x hx
  rw [(symmetrize_involution b d s o).1]
  exact ho _ (by simp [symmetrize, hx])

/-- Different numbers below `2 ^ d` give different symmetries: they differ at every point whose coordinates all differ from the middle. -/
theorem symmetrize_different [NeZero (2 : F)] (b : Option ((Nat → F) × (Nat → F))) (d s s' : Nat) (hs : s < 2 ^ d) (hs' : s' < 2 ^ d) (hne : s ≠ s')
    (x : List F) (hx : x.length = d) (hmid : ∀ v ∈ x, v ≠ middle b) : symmetrize b d s x ≠ symmetrize b d s' x := by
  intro h
  apply hne
  refine flips_injective d s s' hs hs' (fun i hi => ?_)
  have h1 : (symmetrize b d s x)[i]? = (symmetrize b d s' x)[i]? := by rw [h]
  have hi' : i < x.length := by omega
  have hm := hmid x[i] (List.getElem_mem hi')
  unfold symmetrize at h1
  rw [List.getElem?_mapIdx, List.getElem?_mapIdx, List.getElem?_eq_getElem hi'] at h1
  simp only [Option.map_some, Option.some.injEq] at h1
  have h2 : (2 : F) ≠ 0 := NeZero.ne 2
  cases ha : flips d s i <;> cases hb : flips d s' i
  · rfl
  · exfalso
    apply hm
    simp [ha, hb] at h1
    have : 2 * x[i] = 2 * middle b := by linear_combination h1
    exact mul_left_cancel₀ h2 this
  · exfalso
    apply hm
    simp [ha, hb] at h1
    have : 2 * x[i] = 2 * middle b := by linear_combination -h1
    exact mul_left_cancel₀ h2 this
  · rfl

/-- Distances between the coordinates are preserved. -/
theorem symmetrize_distance [LinearOrder F] [IsStrictOrderedRing F] (b : Option ((Nat → F) × (Nat → F))) (d s : Nat) (x y : List F) (i : Nat)
    (hx : i < x.length) (hy : i < y.length) :
    ∃ (h1 : i < (symmetrize b d s x).length) (h2 : i < (symmetrize b d s y).length),
      |(symmetrize b d s x)[i] - (symmetrize b d s y)[i]| = |x[i] - y[i]| := by
  refine ⟨by simpa [symmetrize] using hx, by simpa [symmetrize] using hy, ?_⟩
  simp only [symmetrize, List.getElem_mapIdx]
  split
  · rw [show 2 * middle b + -1 * x[i] - (2 * middle b + -1 * y[i]) = -(x[i] - y[i]) by ring, abs_neg]
  · congr 1; ring

/-- A point within its bounds. -/
def Inside [LE F] (lo up : Nat → F) (x : List F) : Prop := ∀ i (h : i < x.length), lo i ≤ x[i] ∧ x[i] ≤ up i

/-- With the same bounds for all coordinates, the symmetrized point stays within them. -/
theorem symmetrize_inside_partial [LinearOrder F] [IsStrictOrderedRing F] (a b : F) (d s : Nat) (x : List F) (hx : Inside (fun _ => a) (fun _ => b) x) :
    Inside (fun _ => a) (fun _ => b) (symmetrize (some (fun _ => a, fun _ => b)) d s x) := by
  intro i hi
  have hi' : i < x.length := by simpa [symmetrize] using hi
  obtain ⟨h1, h2⟩ := hx i hi'
  simp only [symmetrize, List.getElem_mapIdx, middle]
  split
  · constructor <;> linarith
  · constructor <;> linarith

/-- It is false with different bounds: the middle of the first coordinate serves for all. -/
theorem symmetrize_outside : ∃ (lo up : Nat → ℚ) (s : Nat) (x : List ℚ), s < 2 ^ x.length ∧ (∀ i, lo i ≤ up i) ∧ Inside lo up x
    ∧ ¬ Inside lo up (symmetrize (some (lo, up)) x.length s x) := by
  refine ⟨fun i => if i = 0 then 0 else 10, fun i => if i = 0 then 1 else 20, 2, [0, 15], by decide, ?_, ?_, ?_⟩
  · intro i; dsimp only; split <;> norm_num
  · intro i hi
    have : i = 0 ∨ i = 1 := by simp at hi; omega
    rcases this with rfl | rfl <;> norm_num
  · intro h
    have h1 := (h 1 (by decide)).1
    revert h1
    decide +kernel

/-! ## Leaderboard -/

/-- As long as no loss is NaN, the leaderboard keeps the smallest loss, and the array of the last update which reached it. -/
theorem leaders_partial {A : Type} : ∀ (us : List (ℚ × A)), us ≠ [] →
    ∃ l a, leaders (us.map (fun u => (some u.1, u.2))) = (some ((l : ℚ) : WithTop ℚ), some a) ∧ (l, a) ∈ us ∧ ∀ u ∈ us, l ≤ u.1 := by
  intro us
  induction us using List.reverseRecOn with
  | nil => intro h; exact absurd rfl h
  | append_singleton us u ih =>
    intro _
    unfold leaders at ih ⊢
    rw [List.map_append, List.foldl_append]
    rcases us with _ | ⟨v, vs⟩
    · refine ⟨u.1, u.2, ?_, by simp, by simp⟩
      simp [leader]
    · obtain ⟨l, a, h1, h2, h3⟩ := ih (by simp)
      rw [h1]
      simp only [List.map_cons, List.map_nil, List.foldl_cons, List.foldl_nil, leader]
      by_cases h : l < u.1
      · rw [if_pos (by exact_mod_cast h)]
        refine ⟨l, a, rfl, List.mem_append_left _ h2, ?_⟩
        intro w hw
        rcases List.mem_append.1 hw with hw | hw
        · exact h3 w hw
        · simp only [List.mem_singleton] at hw; rw [hw]; exact h.le
      · rw [if_neg (by exact_mod_cast h)]
        refine ⟨u.1, u.2, rfl, by simp, ?_⟩
        intro w hw
        rcases List.mem_append.1 hw with hw | hw
        · exact le_trans (not_lt.1 h) (h3 w hw)
        · simp only [List.mem_singleton] at hw; rw [hw]

/-- The claim "the best results are kept" is false with a NaN loss: it erases the best result, and the next loss is then accepted whatever it is. -/
theorem leaders_nan {A : Type} (best : Option (WithTop ℚ) × Option A) (l : ℚ) (a a' : A) :
    leader (leader best none a) (some l) a' = (some (l : WithTop ℚ), some a') := by
  unfold leader
  cases best.1 <;> rfl

example : leaders [(some 1, "x"), (none, "y"), (some 5, "z")] = (some ((5 : ℚ) : WithTop ℚ), some "z") := by decide +kernel

/-! ## Copies -/

theorem get_append (d d' : List (String × Nat)) (k : String) : get (d ++ d') k = (match get d k with | some v => some v | none => get d' k) := by
  unfold get
  rw [List.find?_append]
  cases d.find? (fun p => p.1 == k) <;> rfl

theorem get_mem {d : List (String × Nat)} {k : String} {v : Nat} (h : get d k = some v) : (k, v) ∈ d := by
  unfold get at h
  cases hf : d.find? (fun p => p.1 == k) with
  | none => rw [hf] at h; simp at h
  | some p =>
    rw [hf] at h
    simp only [Option.map_some, Option.some.injEq] at h
    have h1 := List.mem_of_find?_eq_some hf
    have h2 := List.find?_some hf
    simp only [beq_iff_eq] at h2
    rw [← h, ← h2]
    exact h1

theorem get_of_nodup {d : List (String × Nat)} (hd : (d.map Prod.fst).Nodup) {k : String} {v : Nat} (h : (k, v) ∈ d) : get d k = some v := by
  unfold get
  induction d with
  | nil => simp at h
  | cons p d ih =>
    rw [List.map_cons, List.nodup_cons] at hd
    rw [List.find?_cons]
    rcases List.mem_cons.1 h with rfl | h
    · simp
    · have : p.1 ≠ k := fun he => hd.1 (he ▸ List.mem_map_of_mem (f := Prod.fst) h)
      have hb : (p.1 == k) = false := by simpa using this
      rw [hb]
      exact ih hd.2 h

theorem copyParam_name (self fresh : Func) : (copyParam self fresh).name = self.param.name := by
  unfold copyParam
  split
  · rfl
  · rename_i h; simpa using h

/-- A copy is made exactly when the class is the same and the descriptors set by the initialization were not changed since: each of them is a
descriptor of the original with the same value. -/
theorem copy_iff (self fresh : Func) (hd : (self.descriptors.map Prod.fst).Nodup) :
    (∃ out, copy self fresh = some out) ↔ fresh.cls = self.cls ∧ ∀ p ∈ fresh.descriptors, p ∈ self.descriptors := by
  have key : equivalent (assembled self fresh) self = true ↔ fresh.cls = self.cls ∧ ∀ p ∈ fresh.descriptors, p ∈ self.descriptors := by
    unfold equivalent assembled
    simp only [Bool.and_eq_true, beq_iff_eq, copyParam_name, and_true]
    refine and_congr_right (fun _ => ?_)
    unfold sameDict
    simp only [Bool.and_eq_true, List.all_eq_true, beq_iff_eq]
    constructor
    · rintro ⟨h1, _⟩ p hp
      exact get_mem (h1 p (List.mem_append_left _ hp))
    · intro h
      constructor
      · intro p hp
        rcases List.mem_append.1 hp with hp | hp
        · exact get_of_nodup hd (h p hp)
        · exact get_of_nodup hd (List.mem_of_mem_filter hp)
      · intro p hp
        rw [get_append]
        cases hg : get fresh.descriptors p.1 with
        | some v =>
          have h1 := h _ (get_mem hg)
          have h2 := get_of_nodup hd h1
          have h3 := get_of_nodup (v := p.2) hd hp
          rw [h2] at h3
          exact h3
        | none =>
          dsimp only
          have hm : p ∈ self.descriptors.filter (fun p : String × Nat => (get fresh.descriptors p.1).isNone) :=
            List.mem_filter.2 ⟨hp, by simp [hg]⟩
          refine get_of_nodup ?_ hm
          exact hd.sublist (List.Sublist.map _ List.filter_sublist)
  unfold copy
  constructor
  · rintro ⟨out, h⟩
    split at h
    · rename_i hc; exact key.1 hc
    · simp at h
  · intro h
    rw [if_pos (key.2 h)]
    exact ⟨_, rfl⟩

/-- The copy has the name, flags, descriptors and multiobjective bounds of the original. -/
theorem copy_spec (self fresh out : Func) (h : copy self fresh = some out) : out.param.name = self.param.name ∧ out.param.flags = self.param.flags
    ∧ out.upper = self.upper ∧ out.cls = self.cls ∧ ∀ k, get out.descriptors k = get self.descriptors k := by
  unfold copy at h
  split at h
  · rename_i hc
    simp only [Option.some.injEq] at h
    subst h
    unfold equivalent at hc
    simp only [Bool.and_eq_true, beq_iff_eq] at hc
    obtain ⟨⟨h1, h2⟩, h3⟩ := hc
    refine ⟨h3, ?_, rfl, h1, ?_⟩
    · dsimp only
      unfold copyParam
      split <;> rfl
    · intro k
      unfold sameDict at h2
      simp only [Bool.and_eq_true, List.all_eq_true, beq_iff_eq] at h2
      dsimp only
      cases hg : get self.descriptors k with
      | some v => exact h2.2 _ (get_mem hg)
      | none =>
        cases hg' : get (assembled self fresh).descriptors k with
        | none => rfl
        | some v =>
          have := h2.1 _ (get_mem hg')
          rw [hg] at this
          simp at this
  · simp at h

theorem copy_param {self fresh out : Func} (h : copy self fresh = some out) :
    out.param = { copyParam self fresh with checkers := self.param.checkers } := by
  unfold copy at h
  split at h
  · simp only [Option.some.injEq] at h
    subst h
    rfl
  · simp at h

/-- A parametrization set after the initialization is kept if it has another name. -/
theorem copy_content_partial (self fresh out : Func) (h : copy self fresh = some out) (hn : fresh.param.name ≠ self.param.name) :
    out.param.content = self.param.content := by
  rw [copy_param h]
  simp [copyParam, hn]

/-- It is lost if it has the same name: the copy silently has the parametrization of the initialization. -/
theorem copy_content_lost (self fresh out : Func) (h : copy self fresh = some out) (hn : fresh.param.name = self.param.name) :
    out.param.content = fresh.param.content := by
  rw [copy_param h]
  simp [copyParam, hn]

/-- The claim "the copy is independent of the original" is false for the constraints: registering one on the copy also registers it on the original. -/
theorem constraints_shared (self fresh out : Func) (h : copy self fresh = some out) (heap : Nat → List Nat) (c : Nat) :
    register heap out.param c self.param.checkers = heap self.param.checkers ++ [c] := by
  rw [copy_param h]
  simp [register]

example : copy ⟨0, 0, [("name", 1), ("extra", 2)], ⟨"", 7, [true], 4⟩, none⟩ ⟨0, 0, [("name", 1)], ⟨"", 3, [false], 5⟩, some 1⟩
    = some ⟨0, 0, [("name", 1), ("extra", 2)], ⟨"", 3, [true], 4⟩, none⟩
    ∧ copy ⟨0, 0, [("name", 2)], ⟨"", 7, [true], 4⟩, none⟩ ⟨0, 0, [("name", 1)], ⟨"", 3, [false], 5⟩, some 1⟩ = none := by decide

/-! ## Experiments -/

/-- The first run of an experiment: the loss is the value of the recommendation, on the function which was optimized, plus `1e9` if it violates the
constraints and this is penalized; the error is empty exactly when the optimization did not raise and stayed within the budget. -/
theorem run_new {I O : Type} (ext : Ext I O) (budget : Nat) (pen : Bool) (herr : ∀ i o, (ext.minimize i o).2 ≠ some "") :
    ∃ o e, ext.minimize (ext.copyOf 0) (ext.new (ext.copyOf 0)) = (o, e)
      ∧ (run ext budget pen Xp.new).result.loss = some (ext.eval (ext.copyOf 0) o + (if ext.violates (ext.copyOf 0) o = true ∧ pen = true then 1000000000 else 0))
      ∧ (run ext budget pen Xp.new).result.elapsed = some (ext.numAsk o)
      ∧ ((run ext budget pen Xp.new).result.error = "" ↔ e = none ∧ ext.numAsk o ≤ budget) := by
  have herr' := herr (ext.copyOf 0) (ext.new (ext.copyOf 0))
  obtain ⟨o, e, hm⟩ : ∃ o e, ext.minimize (ext.copyOf 0) (ext.new (ext.copyOf 0)) = (o, e) := ⟨_, _, rfl⟩
  rw [hm] at herr'
  refine ⟨o, e, hm, ?_⟩
  unfold run logResults Xp.new
  simp only [Option.getD_none, hm]
  by_cases hb : budget < ext.numAsk o
  · simp [hb, Nat.not_le.2 hb]
  · cases e with
    | none => simp [hb, Nat.not_lt.1 hb]
    | some e =>
      simp [hb]
      intro h
      exact herr' (by rw [h])

/-- Each run gets a new copy of the function: the final loss of a resumed experiment is the one of the optimizer on the last copy, although the optimizer
was told the losses of the previous ones. -/
theorem run_twice_loss {I O : Type} (ext : Ext I O) (budget : Nat) (x : Xp O) (o : O) (hx : x.opt = some o)
    (hstop : ∀ i, ext.minimize i o = (o, none)) :
    (run ext budget false x).result.loss = some (ext.eval (ext.copyOf x.copies) o) := by
  unfold run logResults
  simp only [hx, Option.getD_some, hstop]
  split <;> simp

/-- The claim "running a finished experiment again does not change its result" is false: with random functions, the loss is the one of the
recommendation on another function. -/
theorem rerun_changes : ∃ (ext : Ext Nat Nat) (budget : Nat) , (run ext budget false Xp.new).result.loss = some 0
    ∧ (run ext budget false (run ext budget false Xp.new)).result.loss = some 1
    ∧ (run ext budget false Xp.new).opt = (run ext budget false (run ext budget false Xp.new)).opt :=
  ⟨{ copyOf := fun n => n, new := fun _ => 0, minimize := fun _ o => (o, none), numAsk := fun _ => 1, eval := fun i o => (i : ℚ) + o,
     violates := fun _ _ => false }, 1, by decide +kernel⟩

/-- The error of a run is never erased: an experiment which failed and then succeeded when resumed still reports the error. -/
theorem error_kept {I O : Type} (ext : Ext I O) (budget : Nat) (pen : Bool) (x : Xp O) (he : x.result.error ≠ "")
    (herr : ∀ i o, (ext.minimize i o).2 ≠ some "") : (run ext budget pen x).result.error ≠ "" := by
  have herr' := herr (ext.copyOf x.copies) (x.opt.getD (ext.new (ext.copyOf x.copies)))
  unfold run logResults
  dsimp only
  by_cases hb : budget < ext.numAsk (ext.minimize (ext.copyOf x.copies) (x.opt.getD (ext.new (ext.copyOf x.copies)))).1
  · simp [hb]
  · simp only [hb, if_false]
    cases hm : (ext.minimize (ext.copyOf x.copies) (x.opt.getD (ext.new (ext.copyOf x.copies)))).2 with
    | none => exact he
    | some e =>
      rw [hm] at herr'
      exact fun h => herr' (by rw [← h])

/-- Equality of experiments is an equivalence, but ignores the constraints, the suggestions and whether violations are penalized. -/
theorem eq_ignores (a : Setting) (v : Option Nat) (p : Bool) (s : Option Nat) :
    a.eq { a with violation := v, penalize := p, suggestions := s } = true := by
  unfold Setting.eq
  simp

theorem eq_iff (a b : Setting) : a.eq b = true ↔ a = { b with violation := a.violation, penalize := a.penalize, suggestions := a.suggestions } := by
  unfold Setting.eq
  cases a; cases b
  simp [and_assoc]

end Exp
end NG
