import Verif.Model.ArrayMut
import Mathlib.Data.List.Perm.Basic
import Mathlib.Data.Int.ModEq
import Mathlib.Algebra.BigOperators.Group.List.Basic

/-! # C51: array mutations rearrange without loss -/

namespace NG
namespace ArrMut
variable {β : Type} {n : Nat}

theorem randint_some {lo hi d k : Nat} (h : randint lo hi d = some k) : k = d ∧ lo ≤ d ∧ d < hi := by
  unfold randint at h
  split at h
  · rename_i hc; exact ⟨(Option.some.inj h).symm, hc⟩
  · cases h

/-- Total shift asked for an axis. -/
def shiftOf (n : Nat) (a : Fin n) : List Int → List Nat → Nat
  | b :: axes, k :: shifts => (if axisOf n b = some a then k else 0) + shiftOf n a axes shifts
  | _, _ => 0

/-- C51: translation. The entry found at index `i` afterwards was at the index whose coordinates differ by the total shift of each
axis, circularly. -/
theorem translate_spec {sh : Fin n → Nat} (axes : List Int) (shifts : List Nat) (data out : Idx sh → β)
    (h : translate axes shifts data = some out) (i j : Idx sh)
    (hij : ∀ a, ((j a).val + shiftOf n a axes shifts) % sh a = (i a).val) : out i = data j := by
  induction axes generalizing shifts data i j with
  | nil =>
    simp only [translate, Option.some.injEq] at h
    subst h
    congr 1
    funext a
    apply Fin.ext
    have := hij a
    simp only [shiftOf, Nat.add_zero, Nat.mod_eq_of_lt (j a).2] at this
    exact this.symm
  | cons b axes ih =>
    cases shifts with
    | nil => simp [translate] at h
    | cons k shifts =>
      simp only [translate] at h
      cases hb : axisOf n b with
      | none => rw [hb] at h; cases h
      | some c =>
        rw [hb] at h
        simp only at h
        cases hr : randint 0 (sh c) k with
        | none => rw [hr] at h; cases h
        | some k' =>
          rw [hr] at h
          obtain ⟨rfl, _, hk⟩ := randint_some hr
          -- the index in the rolled array
          let j' : Idx sh := Function.update j c ⟨((j c).val + k') % sh c, Nat.mod_lt _ (by omega)⟩
          have h1 : out i = roll1 c k' data j' := by
            apply ih shifts (roll1 c k' data) h i j'
            intro a
            by_cases hac : a = c
            · subst hac
              have := hij a
              simp only [shiftOf, hb, if_true] at this
              simp only [j', Function.update_self]
              rw [Nat.mod_add_mod, ← this]
              congr 1; omega
            · have := hij a
              have hne : ¬ (some c = some a) := by simpa using (Ne.symm hac)
              simp only [shiftOf, hb, hne, if_false, Nat.zero_add] at this
              simp only [j', Function.update_of_ne hac]
              exact this
          rw [h1]
          unfold roll1
          congr 1
          funext a
          by_cases hac : a = c
          · subst hac
            apply Fin.ext
            simp only [Function.update_self, j']
            rw [Nat.mod_add_mod, Nat.mod_eq_of_lt hk]
            have : (j a).val + k' + (sh a - k') = (j a).val + sh a := by omega
            rw [this, Nat.add_mod_right, Nat.mod_eq_of_lt (j a).2]
          · simp only [Function.update_of_ne hac, j']

/-- Circular shift of the indices. -/
def shiftEquiv (sh : Fin n → Nat) (s : Fin n → Nat) : Idx sh ≃ Idx sh where
  toFun i := fun a => ⟨((i a).val + s a) % sh a, Nat.mod_lt _ (Nat.lt_of_le_of_lt (Nat.zero_le _) (i a).2)⟩
  invFun i := fun a => ⟨((i a).val + (sh a - s a % sh a)) % sh a, Nat.mod_lt _ (Nat.lt_of_le_of_lt (Nat.zero_le _) (i a).2)⟩
  left_inv i := by
    funext a
    apply Fin.ext
    have h0 : 0 < sh a := Nat.lt_of_le_of_lt (Nat.zero_le _) (i a).2
    have hm := Nat.mod_lt (s a) h0
    simp only
    rw [Nat.mod_add_mod]
    have e : (i a).val + s a + (sh a - s a % sh a) = (i a).val + (s a / sh a + 1) * sh a := by
      have := Nat.div_add_mod (s a) (sh a)
      rw [Nat.add_mul, Nat.mul_comm (s a / sh a)]
      omega
    rw [e, Nat.add_mul_mod_self_right, Nat.mod_eq_of_lt (i a).2]
  right_inv i := by
    funext a
    apply Fin.ext
    have h0 : 0 < sh a := Nat.lt_of_le_of_lt (Nat.zero_le _) (i a).2
    have hm := Nat.mod_lt (s a) h0
    simp only
    rw [Nat.mod_add_mod]
    have e : (i a).val + (sh a - s a % sh a) + s a = (i a).val + (s a / sh a + 1) * sh a := by
      have := Nat.div_add_mod (s a) (sh a)
      rw [Nat.add_mul, Nat.mul_comm (s a / sh a)]
      omega
    rw [e, Nat.add_mul_mod_self_right, Nat.mod_eq_of_lt (i a).2]

/-- C51: translation permutes the entries: there is a permutation of the indices carrying the array to the result. -/
theorem translate_perm {sh : Fin n → Nat} (axes : List Int) (shifts : List Nat) (data out : Idx sh → β)
    (h : translate axes shifts data = some out) : ∃ σ : Idx sh ≃ Idx sh, ∀ i, out (σ i) = data i :=
  ⟨shiftEquiv sh (fun a => shiftOf n a axes shifts), fun i => translate_spec axes shifts data out h _ _ (fun _ => rfl)⟩

/-- Translation never fails on axes that exist and are not empty. -/
theorem translate_succeeds {sh : Fin n → Nat} (axes : List Int) (shifts : List Nat) (data : Idx sh → β)
    (h : List.Forall₂ (fun a k => ∃ c, axisOf n a = some c ∧ k < sh c) axes shifts) : (translate axes shifts data).isSome := by
  induction h generalizing data with
  | nil => rfl
  | cons hc _ ih =>
    obtain ⟨c, h1, h2⟩ := hc
    simp only [translate, h1, randint, Nat.zero_le, true_and, h2, if_true]
    exact ih _

/-- C51: jumping moves a contiguous chunk, keeping the order of the other slabs; nothing is lost or duplicated. -/
theorem jump_spec (axis : Int) (ha : 0 ≤ axis) (maxSize size init newpos : Nat) (data out : List β)
    (h : jump axis maxSize size init newpos data = some out) :
    ∃ pre chunk post, data = pre ++ chunk ++ post ∧ pre.length = init ∧ chunk ≠ [] ∧ chunk.length < maxSize ∧
      out = (pre ++ post).take newpos ++ chunk ++ (pre ++ post).drop newpos := by
  unfold jump at h
  cases h1 : randint 1 maxSize size with
  | none => rw [h1] at h; cases h
  | some s =>
    obtain ⟨rfl, hs1, hs2⟩ := randint_some h1
    rw [h1] at h
    cases h2 : randint 0 data.length init with
    | none => simp only [h2] at h; cases h
    | some i0 =>
      obtain ⟨rfl, _, hi⟩ := randint_some h2
      simp only [h2, slabs, ha, if_true] at h
      cases h3 : randint 0 (data.take i0 ++ data.drop (i0 + s)).length newpos with
      | none => rw [h3] at h; cases h
      | some p =>
        obtain ⟨rfl, _, _⟩ := randint_some h3
        rw [h3] at h
        refine ⟨data.take i0, (data.drop i0).take s, data.drop (i0 + s), ?_, by simp; omega, ?_, ?_, (Option.some.inj h).symm⟩
        · rw [List.append_assoc, ← List.drop_drop, List.take_append_drop, List.take_append_drop]
        · intro hc
          have := congrArg List.length hc
          simp at this
          omega
        · simp; omega

/-- C51: jumping permutes the slabs. -/
theorem jump_perm_partial (axis : Int) (ha : 0 ≤ axis) (maxSize size init newpos : Nat) (data out : List β)
    (h : jump axis maxSize size init newpos data = some out) : out.Perm data := by
  obtain ⟨pre, chunk, post, rfl, _, _, _, rfl⟩ := jump_spec axis ha maxSize size init newpos data out h
  have h1 : ((pre ++ post).take newpos ++ chunk ++ (pre ++ post).drop newpos).Perm (chunk ++ (pre ++ post)) := by
    have : ((pre ++ post).take newpos ++ chunk).Perm (chunk ++ (pre ++ post).take newpos) := List.perm_append_comm
    have := this.append_right ((pre ++ post).drop newpos)
    rwa [List.append_assoc chunk, List.take_append_drop] at this
  refine h1.trans ?_
  have h2 : (chunk ++ pre).Perm (pre ++ chunk) := List.perm_append_comm
  have := h2.append_right post
  rwa [List.append_assoc chunk] at this

/-- Jumping fails for sure when the chunk is the complete array. -/
theorem jump_fails (axis : Int) (ha : 0 ≤ axis) (maxSize size newpos : Nat) (data : List β) (h : data.length ≤ size) :
    jump axis maxSize size 0 newpos data = none := by
  unfold jump
  cases h1 : randint 1 maxSize size with
  | none => rfl
  | some s =>
    obtain ⟨rfl, _, _⟩ := randint_some h1
    cases h2 : randint 0 data.length 0 with
    | none => rfl
    | some i0 =>
      obtain ⟨rfl, _, _⟩ := randint_some h2
      simp only [slabs, ha, if_true, List.take_zero, Nat.zero_add, List.nil_append, List.drop_eq_nil_of_le h, List.length_nil]
      simp [randint]

/-- The claim is false for a negative axis (which numpy accepts): the array gets five times longer. -/
theorem jump_negative_axis (axis : Int) (ha : axis < 0) (maxSize size init newpos : Nat) (data out : List β)
    (h : jump axis maxSize size init newpos data = some out) : out = data ++ data ++ data ++ data ++ data := by
  unfold jump at h
  cases h1 : randint 1 maxSize size with
  | none => rw [h1] at h; cases h
  | some s =>
    rw [h1] at h
    cases h2 : randint 0 data.length init with
    | none => simp only [h2] at h; cases h
    | some i0 =>
      simp only [h2, slabs, show ¬ 0 ≤ axis by omega, if_false] at h
      cases h3 : randint 0 (data ++ data).length newpos with
      | none => rw [h3] at h; cases h
      | some p =>
        rw [h3] at h
        simpa using (Option.some.inj h).symm

example : jump (-1) 3 2 0 1 [1, 2] = some [1, 2, 1, 2, 1, 2, 1, 2, 1, 2] := by decide
example : jump 0 3 2 1 3 [1, 2, 3, 4, 5, 6] = some [1, 4, 5, 2, 3, 6] := by decide
/-- `Jumping(axis, size=1)` always raises. -/
theorem jump_size_one (axis : Int) (size init newpos : Nat) (data : List β) : jump axis 1 size init newpos data = none := by
  have : randint 1 1 size = none := by unfold randint; rw [if_neg (by omega)]
  simp only [jump, this]

/-! ## crossover -/

theorem limit_le {sh : Fin n → Nat} {axes : List Int} {m l : Int} (h : limit sh axes m = some l) :
    l ≤ m ∧ ∀ a ∈ axes, ∃ c, axisOf n a = some c ∧ l ≤ (sh c : Int) - 1 := by
  induction axes generalizing l with
  | nil => simp only [limit, Option.some.injEq] at h; exact ⟨h ▸ le_refl _, by simp⟩
  | cons a axes ih =>
    simp only [limit] at h
    cases ha : axisOf n a with
    | none => rw [ha] at h; cases h
    | some c =>
      rw [ha] at h
      obtain ⟨l', hl', rfl⟩ := Option.map_eq_some_iff.mp h
      obtain ⟨h1, h2⟩ := ih hl'
      refine ⟨le_trans (min_le_left _ _) h1, ?_⟩
      intro b hb
      rcases List.mem_cons.mp hb with rfl | hb
      · exact ⟨c, ha, min_le_right _ _⟩
      · obtain ⟨c', hc', hle⟩ := h2 b hb
        exact ⟨c', hc', le_trans (min_le_left _ _) hle⟩

theorem makeSlices_some {sh : Fin n → Nat} {axes : List Int} {size : Nat} {starts : Fin n → Nat} {a : Fin n} {s : Nat × Nat}
    (h : makeSlices sh axes size starts a = some s) :
    ((a.val : Int) ∈ axes → s = (starts a, starts a + size) ∧ starts a + size < sh a) ∧
    ((a.val : Int) ∉ axes → s = (0, sh a)) := by
  unfold makeSlices at h
  split at h
  · rename_i hm
    refine ⟨fun _ => ?_, fun hc => absurd hm hc⟩
    split at h
    · cases h
    · obtain ⟨t, ht, rfl⟩ := Option.map_eq_some_iff.mp h
      obtain ⟨rfl, _, hlt⟩ := randint_some ht
      exact ⟨rfl, by omega⟩
  · rename_i hm
    exact ⟨fun hc => absurd hc hm, fun _ => (Option.some.inj h).symm⟩

theorem axisOf_nonneg {a : Int} {c : Fin n} (h : axisOf n a = some c) (h0 : 0 ≤ a) : (c.val : Int) = a := by
  unfold axisOf at h
  split at h
  · have := Option.some.inj h; subst this; simp; omega
  · split at h
    · omega
    · cases h

/-- C51: array crossover, for all shapes, axes, sizes and draws. Each entry of the result comes from one of the two arrays at the
same position; the entries of the second array form a box, of the same size along each of the (non-negative) axes and complete
along the other dimensions. -/
theorem crossover_spec_partial {sh : Fin n → Nat} (axes : List Int) (maxSize : Int) (size : Nat) (starts : Fin n → Nat)
    (x y out : Idx sh → β) (h : crossover axes maxSize size starts x y = some out) :
    ∃ k : Nat, 1 ≤ k ∧ (k : Int) ≤ maxSize ∧ (∀ a : Fin n, (a.val : Int) ∈ axes → starts a + k < sh a) ∧
      ∀ i, (out i = y i ∧ ∀ a : Fin n, (a.val : Int) ∈ axes → starts a ≤ (i a).val ∧ (i a).val < starts a + k) ∨
        (out i = x i ∧ ∃ a : Fin n, (a.val : Int) ∈ axes ∧ ¬ (starts a ≤ (i a).val ∧ (i a).val < starts a + k)) := by
  cases axes with
  | nil => simp [crossover] at h
  | cons b axes =>
    unfold crossover at h
    simp only at h
    cases hl : limit sh (b :: axes) maxSize with
    | none => rw [hl] at h; cases h
    | some m =>
      rw [hl] at h
      simp only at h
      cases hs : (if m = 1 then some 1 else randint 1 m.toNat size) with
      | none => rw [hs] at h; cases h
      | some k =>
        rw [hs] at h
        simp only at h
        have hk : 1 ≤ k ∧ (k : Int) ≤ m := by
          split at hs
          · rename_i hm; have := Option.some.inj hs; omega
          · obtain ⟨rfl, h1, h2⟩ := randint_some hs; omega
        obtain ⟨hm1, _⟩ := limit_le hl
        split at h
        · rename_i hall
          have hsl : ∀ a : Fin n, ∃ s, makeSlices sh (b :: axes) k starts a = some s := fun a => Option.isSome_iff_exists.mp (hall a)
          refine ⟨k, hk.1, by omega, ?_, ?_⟩
          · intro a ha
            obtain ⟨s, hs'⟩ := hsl a
            exact ((makeSlices_some hs').1 ha).2
          · intro i
            have := Option.some.inj h
            subst this
            simp only
            by_cases hin : ∀ a, ∃ s ∈ makeSlices sh (b :: axes) k starts a, s.1 ≤ (i a).val ∧ (i a).val < s.2
            · left
              have : inBox (makeSlices sh (b :: axes) k starts) i = true := by simp only [inBox, decide_eq_true_eq]; exact hin
              refine ⟨by simp only [this, if_true], ?_⟩
              intro a ha
              obtain ⟨s, hs', hb⟩ := hin a
              obtain ⟨rfl, _⟩ := (makeSlices_some hs').1 ha
              exact hb
            · right
              have : inBox (makeSlices sh (b :: axes) k starts) i = false := by simp only [inBox, decide_eq_false_iff_not]; exact hin
              refine ⟨by simp only [this, Bool.false_eq_true, if_false], ?_⟩
              push Not at hin
              obtain ⟨a, ha⟩ := hin
              obtain ⟨s, hs'⟩ := hsl a
              by_cases hax : (a.val : Int) ∈ b :: axes
              · refine ⟨a, hax, ?_⟩
                obtain ⟨rfl, _⟩ := (makeSlices_some hs').1 hax
                intro hc
                have := ha _ hs' hc.1
                simp only at this
                omega
              · exfalso
                have e := (makeSlices_some hs').2 hax
                subst e
                have := ha _ hs' (Nat.zero_le _)
                have := (i a).2
                simp only at *
                omega
        · cases h

/-- C51: with at least one non-negative axis and a non-empty array, some entry comes from each array: the last index along the axis
is always taken from the first array, and some index from the second. -/
theorem crossover_both {sh : Fin n → Nat} (axes : List Int) (maxSize : Int) (size : Nat) (starts : Fin n → Nat)
    (x y out : Idx sh → β) (h : crossover axes maxSize size starts x y = some out) (hne : ∀ a, 0 < sh a) (b : Fin n)
    (hb : (b.val : Int) ∈ axes) :
    (∀ i : Idx sh, (i b).val = sh b - 1 → out i = x i) ∧ ∃ i, out i = y i ∧ (i b).val = starts b := by
  obtain ⟨k, h1, h2, h3, h4⟩ := crossover_spec_partial axes maxSize size starts x y out h
  constructor
  · intro i hi
    rcases h4 i with ⟨_, hin⟩ | ⟨ho, _⟩
    · have := hin b hb
      have := h3 b hb
      omega
    · exact ho
  · let i : Idx sh := fun a => ⟨if (a.val : Int) ∈ axes then starts a else 0, by
      split
      · rename_i ha; have := h3 a ha; omega
      · exact hne a⟩
    refine ⟨i, ?_, by simp [i, hb]⟩
    rcases h4 i with ⟨ho, _⟩ | ⟨_, a, ha, hno⟩
    · exact ho
    · exfalso
      apply hno
      simp only [i, ha, if_true]
      omega

/-- Crossover can be done whenever each axis exists and has at least two entries, and the maximum size is at least one. -/
theorem crossover_succeeds {sh : Fin n → Nat} (axes : List Int) (ha : axes ≠ []) (maxSize : Int) (hm : 1 ≤ maxSize)
    (hax : ∀ a ∈ axes, ∃ c, axisOf n a = some c ∧ 2 ≤ sh c) (x y : Idx sh → β) :
    ∃ size starts, (crossover axes maxSize size starts x y).isSome := by
  have hlim : ∀ axes : List Int, (∀ a ∈ axes, ∃ c, axisOf n a = some c ∧ 2 ≤ sh c) → ∃ l, limit sh axes maxSize = some l ∧ 1 ≤ l := by
    intro axes
    induction axes with
    | nil => intro _; exact ⟨maxSize, rfl, hm⟩
    | cons a axes ih =>
      intro hax
      obtain ⟨l, hl, hl1⟩ := ih (fun b hb => hax b (List.mem_cons_of_mem _ hb))
      obtain ⟨c, hc, hc2⟩ := hax a (List.mem_cons_self)
      refine ⟨min l ((sh c : Int) - 1), by simp [limit, hc, hl], ?_⟩
      exact le_min hl1 (by omega)
  obtain ⟨l, hl, hl1⟩ := hlim axes hax
  refine ⟨1, fun _ => 0, ?_⟩
  cases axes with
  | nil => exact absurd rfl ha
  | cons b axes =>
    unfold crossover
    simp only [hl]
    have hs : (if l = 1 then some 1 else randint 1 l.toNat 1) = some 1 := by
      split
      · rfl
      · unfold randint; rw [if_pos (by omega)]
    rw [hs]
    simp only
    rw [if_pos]
    · rfl
    · intro a
      unfold makeSlices
      split
      · rename_i hmem
        obtain ⟨c, hc, hc2⟩ := hax _ hmem
        have : c = a := by
          apply Fin.ext
          have := axisOf_nonneg hc (by omega)
          omega
        subst this
        rw [if_neg (by omega)]
        have h0 : 0 < sh c - 1 := by omega
        simp [randint, h0]
      · rfl

/-- The claim that only a part of the second array is taken is false for negative axes: the second array replaces the first one
completely. -/
theorem crossover_negative_axis {sh : Fin n → Nat} (axes : List Int) (hneg : ∀ a ∈ axes, a < 0) (maxSize : Int) (size : Nat)
    (starts : Fin n → Nat) (x y out : Idx sh → β) (h : crossover axes maxSize size starts x y = some out) : out = y := by
  obtain ⟨k, h1, h2, h3, h4⟩ := crossover_spec_partial axes maxSize size starts x y out h
  funext i
  rcases h4 i with ⟨ho, _⟩ | ⟨_, a, ha, _⟩
  · exact ho
  · have := hneg _ ha; omega

/-- It happens: last axis of an array with two rows and three columns. -/
example (x y : Idx ![2, 3] → β) : ∃ out, crossover [-1] 1 1 (fun _ => 0) x y = some out ∧ out = y := by
  have h : (crossover [-1] 1 1 (fun _ => 0) x y).isSome := by rfl
  obtain ⟨out, ho⟩ := Option.isSome_iff_exists.mp h
  exact ⟨out, ho, crossover_negative_axis [-1] (by simp) _ _ _ _ _ _ ho⟩

/-- One column out of three is exchanged. -/
example : (crossover (sh := fun _ : Fin 2 => 3) [1] 1 1 ![0, 1] (fun _ => 0) (fun i => 1 + (i 0).val)).map
    (fun out => [out ![0, 0], out ![0, 1], out ![1, 1], out ![1, 2]]) = some [0, 1, 2, 0] := by
  decide

/-- Rows shifted by one, columns by two. -/
example : (translate (sh := fun _ : Fin 2 => 3) [0, -1] [1, 2] (fun i => 10 * (i 0).val + (i 1).val)).map
    (fun out => [out ![0, 0], out ![0, 1], out ![1, 2], out ![2, 2]]) = some [21, 22, 0, 10] := by
  decide

/-- C51: the local Gaussian mutation leaves every entry out of the box unchanged. -/
theorem localGaussian_spec [Zero β] {sh : Fin n → Nat} (axes : List Int) (size : Nat) (starts : Fin n → Nat) (noise out : Idx sh → β)
    (h : localGaussian axes size starts noise = some out) (i : Idx sh) (b : Fin n) (hb : (b.val : Int) ∈ axes)
    (hi : ¬ (starts b ≤ (i b).val ∧ (i b).val < starts b + size)) : out i = 0 := by
  unfold localGaussian at h
  simp only at h
  split at h
  · rename_i hall
    have := Option.some.inj h
    subst this
    have : inBox (makeSlices sh axes size starts) i = false := by
      simp only [inBox, decide_eq_false_iff_not]
      intro hc
      obtain ⟨s, hs, hin⟩ := hc b
      obtain ⟨rfl, _⟩ := (makeSlices_some hs).1 hb
      exact hi hin
    simp only [this, Bool.false_eq_true, if_false]
  · cases h

end ArrMut
end NG
