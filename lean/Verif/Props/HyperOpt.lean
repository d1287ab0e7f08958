import Verif.Model.HyperOpt
import Verif.Props.ExtBo
import Mathlib.Data.List.Nodup
import Mathlib.Tactic.Linarith
import Mathlib.Tactic.NormNum

/-!
# C96: what hyperopt proposes and records
-/

set_option linter.unusedSectionVars false

namespace NG
namespace HyperOpt

mutual
theorem beq_iff : (v w : V) → (v.beq w = true ↔ v = w)
  | .num a, .num b => by simp [V.beq]
  | .tuple a, .tuple b => by rw [V.beq, beqs_iff a b]; simp
  | .inst n l a, .inst m k b => by rw [V.beq, Bool.and_eq_true, Bool.and_eq_true, beqs_iff a b]; simp [and_assoc]
  | .num _, .tuple _ => by simp [V.beq]
  | .num _, .inst _ _ _ => by simp [V.beq]
  | .tuple _, .num _ => by simp [V.beq]
  | .tuple _, .inst _ _ _ => by simp [V.beq]
  | .inst _ _ _, .num _ => by simp [V.beq]
  | .inst _ _ _, .tuple _ => by simp [V.beq]
theorem beqs_iff : (v w : List V) → (beqs v w = true ↔ v = w)
  | [], [] => by simp [beqs]
  | [], _ :: _ => by simp [beqs]
  | _ :: _, [] => by simp [beqs]
  | a :: l, b :: m => by rw [beqs, Bool.and_eq_true, beq_iff a b, beqs_iff l m]; simp
end

/-! ## Specification -/

mutual
/-- The values a parameter can have. -/
def Legal : P → V → Prop
  | .scalar _ integer lo hi _, v =>
    ∃ q, v = .num q ∧ (∀ l, lo = some l → l ≤ q) ∧ (∀ h, hi = some h → q ≤ h) ∧ (integer = true → ∃ k : ℤ, q = k)
  | .const c, v => v = .num c
  | .choice false _ cs, v => LegalAny cs v
  | .choice true _ cs, v => ∃ w, v = .tuple [w] ∧ LegalAny cs w
  | .inst n names cs, v => ∃ vs, v = .inst n names vs ∧ LegalAll cs vs
  | .other _, _ => False
/-- The values of one of the parameters. -/
def LegalAny : List P → V → Prop
  | [], _ => False
  | p :: l, v => Legal p v ∨ LegalAny l v
/-- The values of all the parameters. -/
def LegalAll : List P → List V → Prop
  | [], vs => vs = []
  | p :: l, vs => ∃ v m, vs = v :: m ∧ Legal p v ∧ LegalAll l m
end

mutual
/-- The values which hyperopt draws (its labels being different). -/
def Gen : Sp → V → Prop
  | .uniform _ lo hi, v => ∃ q, v = .num q ∧ lo ≤ q ∧ q ≤ hi
  | .loguniform _ lo hi, v => ∃ q, v = .num q ∧ lo ≤ q ∧ q ≤ hi
  | .randint _ lo hi, v => ∃ k : ℤ, v = .num k ∧ lo ≤ k ∧ k < hi
  | .choice _ cs, v => GenAny cs v
  | .const c, v => v = .num c
  | .dict n names cs, v => ∃ vs, v = .inst n names vs ∧ GenAll cs vs
/-- One of the spaces. -/
def GenAny : List Sp → V → Prop
  | [], _ => False
  | s :: l, v => Gen s v ∨ GenAny l v
/-- All the spaces. -/
def GenAll : List Sp → List V → Prop
  | [], vs => vs = []
  | s :: l, vs => ∃ v m, vs = v :: m ∧ Gen s v ∧ GenAll l m
end

mutual
/-- Parameters for which all proposals are right: no integer `Log`, no integer scalar with a positive fractional lower bound, no repetitions. -/
def Fine : P → Prop
  | .scalar log integer lo _ _ => integer = true → log = false ∧ ∀ l, lo = some l → l ≤ 0 ∨ ∃ k : ℤ, l = k
  | .const _ => True
  | .choice reps _ cs => reps = false ∧ Fines cs
  | .inst _ _ cs => Fines cs
  | .other _ => True
/-- Several parameters. -/
def Fines : List P → Prop
  | [] => True
  | p :: l => Fine p ∧ Fines l
end

mutual
/-- Parameters for which nothing is missing: no integers and no repetitions. -/
def Real : P → Prop
  | .scalar _ integer _ _ _ => integer = false
  | .const _ => True
  | .choice reps _ cs => reps = false ∧ Reals cs
  | .inst _ _ cs => Reals cs
  | .other _ => True
/-- Several parameters. -/
def Reals : List P → Prop
  | [] => True
  | p :: l => Real p ∧ Reals l
end

/-! ## Inversion of the search space -/

theorem space_inst {name : Name} {n : Nat} {names : List Name} {cs : List P} {s : Sp} (h : space name (.inst n names cs) = .ok s) :
    ∃ l, spaces (instLabel n names) 0 cs = .ok l ∧ s = .dict n names l := by
  rw [space] at h
  cases hl : spaces (instLabel n names) 0 cs with
  | error e => rw [hl] at h; simp at h
  | ok l => rw [hl] at h; exact ⟨l, rfl, by simpa using h.symm⟩

theorem space_choice {name : Name} {reps : Bool} {cur : Nat} {cs : List P} {s : Sp} (h : space name (.choice reps cur cs) = .ok s) :
    ∃ l, spaces (choiceLabel name) 0 cs = .ok l ∧ s = .choice name l ∧ (cs.filterMap cls).Nodup := by
  rw [space] at h
  split at h
  · rename_i hn
    cases hl : spaces (choiceLabel name) 0 cs with
    | error e => rw [hl] at h; simp at h
    | ok l => rw [hl] at h; exact ⟨l, rfl, by simpa using h.symm, hn⟩
  · simp at h

theorem space_scalar {name : Name} {log integer : Bool} {lo hi : Option ℚ} {cur : ℚ} {s : Sp}
    (h : space name (.scalar log integer lo hi cur) = .ok s) :
    ∃ l u, lo = some l ∧ hi = some u ∧
      s = if log then .loguniform name l u else if integer then .randint name (trunc l) (trunc u) else .uniform name l u := by
  cases lo with
  | none => simp [space] at h
  | some l =>
    cases hi with
    | none => simp [space] at h
    | some u =>
      rw [space] at h
      refine ⟨l, u, rfl, rfl, ?_⟩
      cases log <;> cases integer <;> simpa using h.symm

theorem spaces_cons {label : Nat → Name} {i : Nat} {p : P} {l : List P} {ss : List Sp} (h : spaces label i (p :: l) = .ok ss) :
    ∃ s m, space (label i) p = .ok s ∧ spaces label (i + 1) l = .ok m ∧ ss = s :: m := by
  rw [spaces] at h
  cases hs : space (label i) p with
  | error e => rw [hs] at h; simp at h
  | ok s =>
    rw [hs] at h
    simp only at h
    cases hm : spaces label (i + 1) l with
    | error e => rw [hm] at h; simp at h
    | ok m => rw [hm] at h; exact ⟨s, m, rfl, rfl, by simpa using h.symm⟩

theorem trunc_le (q : ℚ) (h : q ≤ 0 ∨ ∃ k : ℤ, q = k) : q ≤ (trunc q : ℚ) := by
  unfold trunc
  rcases h with h | ⟨k, rfl⟩
  · split
    · have : q = 0 := le_antisymm h ‹_›
      subst this; simp
    · exact Int.le_ceil q
  · split <;> simp

theorem trunc_lt (q : ℚ) : (trunc q : ℚ) < q + 1 := by
  unfold trunc
  split
  · exact lt_of_le_of_lt (Int.floor_le q) (by linarith)
  · exact Int.ceil_lt_add_one q

/-! ## Proposals are legal -/

mutual
theorem sound : (p : P) → ∀ (name : Name) (s : Sp), space name p = .ok s → Fine p → ∀ v, Gen s v → Legal p v
  | .scalar log integer lo hi cur => by
    intro name s hs hf v hv
    obtain ⟨l, u, rfl, rfl, rfl⟩ := space_scalar hs
    rw [Legal]
    rw [Fine] at hf
    cases log with
    | true =>
      simp only [if_true, Gen] at hv
      obtain ⟨q, rfl, h1, h2⟩ := hv
      refine ⟨q, rfl, by simpa using h1, by simpa using h2, fun hi => ?_⟩
      have := (hf hi).1
      simp at this
    | false =>
      cases integer with
      | true =>
        simp only [if_true, Bool.false_eq_true, if_false, Gen] at hv
        obtain ⟨k, rfl, h1, h2⟩ := hv
        refine ⟨k, rfl, ?_, ?_, fun _ => ⟨k, rfl⟩⟩
        · intro l' hl'
          have h3 := trunc_le l ((hf rfl).2 l rfl)
          obtain rfl : l = l' := by simpa using hl'
          have : ((trunc l : ℤ) : ℚ) ≤ (k : ℚ) := by exact_mod_cast h1
          linarith
        · intro u' hu'
          obtain rfl : u = u' := by simpa using hu'
          have h3 := trunc_lt u
          have : (k : ℚ) + 1 ≤ ((trunc u : ℤ) : ℚ) := by exact_mod_cast h2
          linarith
      | false =>
        simp only [Bool.false_eq_true, if_false, Gen] at hv
        obtain ⟨q, rfl, h1, h2⟩ := hv
        exact ⟨q, rfl, by simpa using h1, by simpa using h2, by simp⟩
  | .const c => by
    intro name s hs hf v hv
    rw [space] at hs
    injection hs with hs
    subst hs
    simpa [Gen, Legal] using hv
  | .choice reps cur cs => by
    intro name s hs hf v hv
    obtain ⟨l, hl, rfl, -⟩ := space_choice hs
    rw [Fine] at hf
    obtain ⟨rfl, hf⟩ := hf
    rw [Gen] at hv
    rw [Legal]
    exact sound_any cs _ _ l hl hf v hv
  | .inst n names cs => by
    intro name s hs hf v hv
    obtain ⟨l, hl, rfl⟩ := space_inst hs
    rw [Fine] at hf
    rw [Gen] at hv
    obtain ⟨vs, rfl, hv⟩ := hv
    rw [Legal]
    exact ⟨vs, rfl, sound_all cs _ _ l hl hf vs hv⟩
  | .other ty => by
    intro name s hs
    rw [space] at hs
    simp at hs
theorem sound_any : (l : List P) → ∀ (label : Nat → Name) (i : Nat) (ss : List Sp), spaces label i l = .ok ss → Fines l →
    ∀ v, GenAny ss v → LegalAny l v
  | [] => by
    intro label i ss hs hf v hv
    rw [spaces] at hs
    injection hs with hs
    subst hs
    simp [GenAny] at hv
  | p :: l => by
    intro label i ss hs hf v hv
    obtain ⟨s, m, h1, h2, rfl⟩ := spaces_cons hs
    rw [Fines] at hf
    rw [GenAny] at hv
    rw [LegalAny]
    exact hv.imp (sound p _ s h1 hf.1 v) (sound_any l label (i + 1) m h2 hf.2 v)
theorem sound_all : (l : List P) → ∀ (label : Nat → Name) (i : Nat) (ss : List Sp), spaces label i l = .ok ss → Fines l →
    ∀ vs, GenAll ss vs → LegalAll l vs
  | [] => by
    intro label i ss hs hf v hv
    rw [spaces] at hs
    injection hs with hs
    subst hs
    simpa [GenAll, LegalAll] using hv
  | p :: l => by
    intro label i ss hs hf vs hv
    obtain ⟨s, m, h1, h2, rfl⟩ := spaces_cons hs
    rw [Fines] at hf
    rw [GenAll] at hv
    obtain ⟨v, w, rfl, h3, h4⟩ := hv
    rw [LegalAll]
    exact ⟨v, w, rfl, sound p _ s h1 hf.1 v h3, sound_all l label (i + 1) m h2 hf.2 w h4⟩
end

/-! ## All values can be proposed -/

mutual
theorem complete : (p : P) → ∀ (name : Name) (s : Sp), space name p = .ok s → Real p → ∀ v, Legal p v → Gen s v
  | .scalar log integer lo hi cur => by
    intro name s hs hf v hv
    obtain ⟨l, u, rfl, rfl, rfl⟩ := space_scalar hs
    rw [Real] at hf
    subst hf
    rw [Legal] at hv
    obtain ⟨q, rfl, h1, h2, -⟩ := hv
    cases log with
    | true => simpa only [if_true, Gen] using ⟨q, rfl, h1 l rfl, h2 u rfl⟩
    | false => simpa only [Bool.false_eq_true, if_false, Gen] using ⟨q, rfl, h1 l rfl, h2 u rfl⟩
  | .const c => by
    intro name s hs hf v hv
    rw [space] at hs
    injection hs with hs
    subst hs
    simpa [Gen, Legal] using hv
  | .choice reps cur cs => by
    intro name s hs hf v hv
    obtain ⟨l, hl, rfl, -⟩ := space_choice hs
    rw [Real] at hf
    obtain ⟨rfl, hf⟩ := hf
    rw [Gen]
    rw [Legal] at hv
    exact complete_any cs _ _ l hl hf v hv
  | .inst n names cs => by
    intro name s hs hf v hv
    obtain ⟨l, hl, rfl⟩ := space_inst hs
    rw [Real] at hf
    rw [Legal] at hv
    obtain ⟨vs, rfl, hv⟩ := hv
    rw [Gen]
    exact ⟨vs, rfl, complete_all cs _ _ l hl hf vs hv⟩
  | .other ty => by
    intro name s hs
    rw [space] at hs
    simp at hs
theorem complete_any : (l : List P) → ∀ (label : Nat → Name) (i : Nat) (ss : List Sp), spaces label i l = .ok ss → Reals l →
    ∀ v, LegalAny l v → GenAny ss v
  | [] => by
    intro label i ss hs hf v hv
    simp [LegalAny] at hv
  | p :: l => by
    intro label i ss hs hf v hv
    obtain ⟨s, m, h1, h2, rfl⟩ := spaces_cons hs
    rw [Reals] at hf
    rw [GenAny]
    rw [LegalAny] at hv
    exact hv.imp (complete p _ s h1 hf.1 v) (complete_any l label (i + 1) m h2 hf.2 v)
theorem complete_all : (l : List P) → ∀ (label : Nat → Name) (i : Nat) (ss : List Sp), spaces label i l = .ok ss → Reals l →
    ∀ vs, LegalAll l vs → GenAll ss vs
  | [] => by
    intro label i ss hs hf v hv
    rw [spaces] at hs
    injection hs with hs
    subst hs
    simpa [GenAll, LegalAll] using hv
  | p :: l => by
    intro label i ss hs hf vs hv
    obtain ⟨s, m, h1, h2, rfl⟩ := spaces_cons hs
    rw [Reals] at hf
    rw [LegalAll] at hv
    obtain ⟨v, w, rfl, h3, h4⟩ := hv
    rw [GenAll]
    exact ⟨v, w, rfl, complete p _ s h1 hf.1 v h3, complete_all l label (i + 1) m h2 hf.2 w h4⟩
end

theorem construct_native {p : P} {s : Sp} (h : construct p = .ok (.native s)) : space [] p = .ok s ∧ (labels s).Nodup := by
  unfold construct at h
  split at h
  · rename_i n names cs
    cases hs : space [] (.inst n names cs) with
    | error e => rw [hs] at h; cases e <;> simp at h
    | ok s' =>
      rw [hs] at h
      simp only at h
      split at h
      · rename_i hn
        injection h with h
        injection h with h
        subst h
        exact ⟨rfl, hn⟩
      · simp at h
  · simp at h

/-- **C96 (partial).** Every proposal is a legal value of the parametrization, unless it contains an integer `Log`, an integer with a positive
fractional lower bound, or a choice with repetitions. -/
theorem proposals_legal_partial (p : P) (s : Sp) (h : construct p = .ok (.native s)) (hf : Fine p) (v : V) (hv : Gen s v) : Legal p v :=
  sound p [] s (construct_native h).1 hf v hv

/-- **C96 (partial).** Every legal value can be proposed, if there are no integers and no repetitions. -/
theorem proposals_all_partial (p : P) (s : Sp) (h : construct p = .ok (.native s)) (hr : Real p) (v : V) (hv : Legal p v) : Gen s v :=
  complete p [] s (construct_native h).1 hr v hv

/-- **C96 (disagreement).** The upper bound of an integer is never proposed; an integer between 0 and 1 is always 0. -/
theorem upper_missing (name : Name) (a b : ℤ) (cur : ℚ) (hab : a < b) :
    ∃ s, space name (.scalar false true (some a) (some b) cur) = .ok s ∧ Legal (.scalar false true (some a) (some b) cur) (.num b) ∧
      ¬ Gen s (.num b) ∧ (b = a + 1 → ∀ v, Gen s v → v = .num a) := by
  have ht : ∀ k : ℤ, trunc (k : ℚ) = k := by
    intro k; unfold trunc; split <;> simp
  refine ⟨.randint name a b, ?_, ?_, ?_, ?_⟩
  · rw [space]; simp [ht]
  · rw [Legal]
    refine ⟨b, rfl, ?_, ?_, fun _ => ⟨b, rfl⟩⟩
    · intro l hl
      obtain rfl : (a : ℚ) = l := by simpa using hl
      exact_mod_cast hab.le
    · intro h hh
      obtain rfl : (b : ℚ) = h := by simpa using hh
      exact le_refl _
  · rw [Gen]
    rintro ⟨k, hk, h1, h2⟩
    have : (b : ℚ) = (k : ℚ) := by simpa using hk
    have : b = k := by exact_mod_cast this
    omega
  · rintro rfl v hv
    rw [Gen] at hv
    obtain ⟨k, rfl, h1, h2⟩ := hv
    have : k = a := by omega
    rw [this]

/-- **C96 (disagreement).** An integer with a positive fractional lower bound is proposed below this bound. -/
theorem below_lower (name : Name) (l h cur : ℚ) (hl : 0 < l) (hn : ∀ k : ℤ, l ≠ k) (hlh : (trunc l : ℚ) + 1 ≤ h) :
    ∃ s v, space name (.scalar false true (some l) (some h) cur) = .ok s ∧ Gen s v ∧ ¬ Legal (.scalar false true (some l) (some h) cur) v := by
  have h0 : trunc l = ⌊l⌋ := by unfold trunc; rw [if_pos hl.le]
  have hfl : ((⌊l⌋ : ℤ) : ℚ) < l := lt_of_le_of_ne (Int.floor_le l) (fun he => hn _ he.symm)
  have h0f : 0 ≤ ⌊l⌋ := Int.floor_nonneg.mpr hl.le
  have h1 : trunc l < trunc h := by
    have hh : 0 ≤ h := by
      rw [h0] at hlh
      have : (0 : ℚ) ≤ ((⌊l⌋ : ℤ) : ℚ) := by exact_mod_cast h0f
      linarith
    have : trunc h = ⌊h⌋ := by unfold trunc; rw [if_pos hh]
    rw [this]
    have : trunc l + 1 ≤ ⌊h⌋ := Int.le_floor.mpr (by push_cast; exact hlh)
    omega
  refine ⟨.randint name (trunc l) (trunc h), .num (trunc l), ?_, ?_, ?_⟩
  · rw [space]; simp
  · rw [Gen]; exact ⟨trunc l, rfl, le_refl _, h1⟩
  · rw [Legal]
    rintro ⟨q, hq, h2, -⟩
    have h3 := h2 l rfl
    have : ((trunc l : ℤ) : ℚ) = q := by simpa using hq
    rw [← this, h0] at h3
    linarith

/-- **C96 (disagreement).** No proposal for a choice with repetitions is legal: it is not a tuple. -/
theorem repetitions_illegal (name : Name) (cur : Nat) (vs : List ℚ) (s : Sp)
    (hs : space name (.choice true cur (vs.map .const)) = .ok s) (v : V) (hv : Gen s v) : ¬ Legal (.choice true cur (vs.map .const)) v := by
  obtain ⟨l, hl, rfl, -⟩ := space_choice hs
  rw [Gen] at hv
  have hf : Fines (vs.map P.const) := by
    clear hs hl hv
    induction vs with
    | nil => simp [Fines]
    | cons a vs ih => simp [Fines, Fine, ih]
  have := sound_any _ _ _ l hl hf v hv
  rw [Legal]
  rintro ⟨w, rfl, -⟩
  clear hs hl hv hf
  induction vs with
  | nil => simp [LegalAny] at this
  | cons a vs ih =>
    rw [List.map_cons, LegalAny, Legal] at this
    exact this.elim (by simp) ih

/-! ## Which parametrizations are accepted -/

/-- **C96.** Anything which is not an instrumentation is optimized through its standardized data. -/
theorem array_mode (p : P) (h : ∀ n names cs, p ≠ .inst n names cs) : construct p = .ok .array := by
  cases p <;> first | rfl | exact absurd rfl (h _ _ _)

/-- Specification: a bounded scalar or a constant. -/
def Leaf : P → Prop
  | .scalar _ _ lo hi _ => lo.isSome ∧ hi.isSome
  | .const _ => True
  | _ => False

/-- **C96 (fallback).** An instrumentation with an array, or with a choice between several parameters of the same class, after bounded
scalars and constants, is optimized through its standardized data. -/
theorem fallback (n : Nat) (names : List Name) (pre post : List P) (q : P) (hpre : ∀ p ∈ pre, Leaf p)
    (hq : (∃ ty, q = .other ty) ∨ ∃ k cur cs, q = .choice k cur cs ∧ ¬ (cs.filterMap cls).Nodup) :
    construct (.inst n names (pre ++ q :: post)) = .ok .array := by
  have hq' : ∀ name, space name q = .error .notImplemented := by
    intro name
    rcases hq with ⟨ty, rfl⟩ | ⟨k, cur, cs, rfl, h⟩
    · simp [space]
    · simp [space, h]
  have h : ∀ (l : List P) (label : Nat → Name) (i : Nat), (∀ p ∈ l, Leaf p) → spaces label i (l ++ q :: post) = .error .notImplemented := by
    intro l
    induction l with
    | nil => intro label i _; simp [spaces, hq']
    | cons p l ih =>
      intro label i hl
      have hp : ∃ s, space (label i) p = .ok s := by
        have := hl p (by simp)
        cases p with
        | scalar log integer lo hi cur =>
          obtain ⟨h1, h2⟩ := this
          obtain ⟨lo, rfl⟩ := Option.isSome_iff_exists.mp h1
          obtain ⟨hi, rfl⟩ := Option.isSome_iff_exists.mp h2
          simp only [space]
          split
          · exact ⟨_, rfl⟩
          · split <;> exact ⟨_, rfl⟩
        | const v => exact ⟨.const v, by simp [space]⟩
        | _ => exact this.elim
      obtain ⟨s, hs⟩ := hp
      rw [List.cons_append, spaces, hs]
      simp only
      rw [ih label (i + 1) (fun p hp => hl p (List.mem_cons_of_mem _ hp))]
  have h2 : space [] (.inst n names (pre ++ q :: post)) = .error .notImplemented := by
    rw [space, h pre _ 0 hpre]
  unfold construct
  simp only [h2]

/-- **C96 (disagreement).** An instrumentation with a scalar which is not bounded on both sides is refused (here as first argument). -/
theorem unbounded_refused (n : Nat) (names : List Name) (log integer : Bool) (lo hi : Option ℚ) (cur : ℚ) (cs : List P)
    (h : lo = none ∨ hi = none) : ∃ e, construct (.inst n names (.scalar log integer lo hi cur :: cs)) = .error e := by
  refine ⟨.type, ?_⟩
  have : space (instLabel n names 0) (.scalar log integer lo hi cur) = .error .type := by
    rcases h with rfl | rfl
    · simp [space]
    · cases lo <;> simp [space]
  have h2 : space [] (.inst n names (.scalar log integer lo hi cur :: cs)) = .error .type := by
    rw [space, spaces, this]
  unfold construct
  simp only [h2]

/-- **C96 (disagreement).** Nested instrumentations with positional arguments have the same labels and are refused. -/
theorem nested_refused (lo hi lo' hi' cur cur' : ℚ) :
    construct (.inst 2 [] [.scalar false false (some lo) (some hi) cur, .inst 1 [] [.scalar false false (some lo') (some hi') cur']]) =
      .error .duplicate := by
  simp [construct, space, spaces, labels, labelss, instLabel]

/-- Bounded scalars, and choices between constants. -/
def Flat : P → Prop
  | .scalar _ _ lo hi _ => lo.isSome ∧ hi.isSome
  | .choice reps cur cs => reps = false ∧ cur < cs.length ∧ ∀ c ∈ cs, ∃ v, c = .const v
  | _ => False

theorem labelss_consts (label : Nat → Name) (cs : List P) (h : ∀ c ∈ cs, ∃ v, c = .const v) (i : Nat) :
    ∃ l, spaces label i cs = .ok l ∧ labelss l = [] ∧ cs.filterMap cls = [] := by
  induction cs generalizing i with
  | nil => exact ⟨[], by rw [spaces], by rw [labelss], rfl⟩
  | cons c cs ih =>
    obtain ⟨v, rfl⟩ := h c (by simp)
    obtain ⟨l, h1, h2, h3⟩ := ih (fun c hc => h c (by simp [hc])) (i + 1)
    refine ⟨.const v :: l, ?_, ?_, ?_⟩
    · simp [spaces, space, h1]
    · simp [labelss, labels, h2]
    · rw [List.filterMap_cons_none (by rfl), h3]

theorem flat_space (name : Name) (p : P) (h : Flat p) : ∃ s, space name p = .ok s ∧ labels s = [name] := by
  cases p with
  | scalar log integer lo hi cur =>
    obtain ⟨h1, h2⟩ := h
    obtain ⟨l, rfl⟩ := Option.isSome_iff_exists.mp h1
    obtain ⟨u, rfl⟩ := Option.isSome_iff_exists.mp h2
    cases log
    · cases integer
      · exact ⟨.uniform name l u, by simp [space], by rw [labels]⟩
      · exact ⟨.randint name (trunc l) (trunc u), by simp [space], by rw [labels]⟩
    · exact ⟨.loguniform name l u, by simp [space], by rw [labels]⟩
  | choice reps cur cs =>
    obtain ⟨l, h1, h2, h3⟩ := labelss_consts (choiceLabel name) cs h.2.2 0
    exact ⟨.choice name l, by simp [space, h1, h3], by rw [labels, h2]⟩
  | const v => exact absurd h (by simp [Flat])
  | inst _ _ _ => exact absurd h (by simp [Flat])
  | other _ => exact absurd h (by simp [Flat])

theorem flat_spaces (label : Nat → Name) (cs : List P) (h : ∀ c ∈ cs, Flat c) (i : Nat) :
    ∃ l, spaces label i cs = .ok l ∧ labelss l = (List.range cs.length).map (fun k : Nat => label (i + k)) := by
  induction cs generalizing i with
  | nil => exact ⟨[], by rw [spaces], by simp [labelss]⟩
  | cons c cs ih =>
    obtain ⟨s, h1, h2⟩ := flat_space (label i) c (h c (by simp))
    obtain ⟨l, h3, h4⟩ := ih (fun c hc => h c (by simp [hc])) (i + 1)
    refine ⟨s :: l, by simp [spaces, h1, h3], ?_⟩
    rw [labelss, h2, h4, List.length_cons, List.range_succ_eq_map]
    simp only [List.map_cons, List.map_map, Nat.add_zero, List.singleton_append, List.cons.injEq, true_and]
    apply List.map_congr_left
    intro k _
    simp only [Function.comp, Nat.succ_eq_add_one]
    congr 1
    omega

theorem str_injective (i j : Nat) (h : ExtBo.str i = ExtBo.str j) : i = j := by
  have hi := (ExtBo.value_str i).1
  have hj := (ExtBo.value_str j).1
  rw [h] at hi
  exact hi.symm.trans hj

/-- **C96.** An instrumentation with bounded scalars and choices of constants is accepted with a native search space exactly if the names of the
arguments are different from each other and from the positions. -/
theorem flat_native (n : Nat) (names : List Name) (cs : List P) (h : ∀ c ∈ cs, Flat c) (hn : cs.length = n + names.length) :
    ((∃ s, construct (.inst n names cs) = .ok (.native s)) ↔ names.Nodup ∧ ∀ i, i < n → ExtBo.str i ∉ names) ∧
    (¬ (names.Nodup ∧ ∀ i, i < n → ExtBo.str i ∉ names) → construct (.inst n names cs) = .error .duplicate) := by
  obtain ⟨l, h1, h2⟩ := flat_spaces (instLabel n names) cs h 0
  have hlab : labelss l = (List.range n).map ExtBo.str ++ names := by
    rw [h2, hn]
    apply List.ext_getElem?
    intro k
    by_cases hk : k < n
    · rw [List.getElem?_append_left (by simpa using hk)]
      simp [instLabel, hk, List.getElem?_range (show k < n + names.length by omega)]
    · rw [List.getElem?_append_right (by simpa using Nat.le_of_not_lt hk)]
      by_cases hk' : k < n + names.length
      · have : k - n < names.length := by omega
        simp [instLabel, hk, List.getElem?_range hk', List.getD_eq_getElem?_getD, this]
      · have h3 : names.length ≤ k - n := by omega
        simp [h3]
        omega
  have hc : construct (.inst n names cs) = if (labelss l).Nodup then .ok (.native (.dict n names l)) else .error .duplicate := by
    have : space [] (.inst n names cs) = .ok (.dict n names l) := by rw [space, h1]
    unfold construct
    simp only [this, labels]
    rfl
  have hnd : (labelss l).Nodup ↔ names.Nodup ∧ ∀ i, i < n → ExtBo.str i ∉ names := by
    rw [hlab, List.nodup_append]
    constructor
    · rintro ⟨-, h2, h3⟩
      refine ⟨h2, fun i hi hm => h3 _ (List.mem_map.mpr ⟨i, List.mem_range.mpr hi, rfl⟩) _ hm rfl⟩
    · rintro ⟨h2, h3⟩
      refine ⟨List.nodup_range.map (fun i j hij => str_injective i j hij), h2, ?_⟩
      rintro a ha b hb rfl
      obtain ⟨i, hi, rfl⟩ := List.mem_map.mp ha
      exact h3 i (List.mem_range.mp hi) hb
  rw [hc]
  constructor
  · rw [← hnd]
    split
    · rename_i h'; exact ⟨fun _ => h', fun _ => ⟨_, rfl⟩⟩
    · rename_i h'; exact ⟨fun ⟨_, h⟩ => by simp at h, fun h => absurd h h'⟩
  · intro h
    rw [if_neg (by rwa [hnd])]

/-! ## Evaluations which were not asked -/

theorem get_append (d e : List (Name × V)) (l : Name) : get (d ++ e) l = (get e l).or (get d l) := by
  have key : ∀ (e : List (Name × V)) (o : Option V), e.foldl (fun acc e => if e.1 = l then some e.2 else acc) o =
      (e.foldl (fun acc e => if e.1 = l then some e.2 else acc) none).or o := by
    intro e
    induction e with
    | nil => simp
    | cons x e ih =>
      intro o
      rw [List.foldl_cons, List.foldl_cons, ih, ih (if x.1 = l then some x.2 else none)]
      by_cases h : x.1 = l <;> simp [h]
  unfold get
  rw [List.foldl_append, key]

theorem get_cons (x : Name × V) (d : List (Name × V)) (l : Name) : get (x :: d) l = (get d l).or (if x.1 = l then some x.2 else none) := by
  have := get_append [x] d l
  simpa [get] using this

theorem get_none (d : List (Name × V)) (l : Name) (h : ∀ e ∈ d, e.1 ≠ l) : get d l = none := by
  induction d with
  | nil => rfl
  | cons x d ih => rw [get_cons, ih (fun e he => h e (by simp [he])), if_neg (h x (by simp))]; rfl

mutual
/-- No constant as an argument, no repetitions, no choice between choices. -/
def Simple : P → Prop
  | .scalar _ _ _ _ _ => True
  | .const _ => False
  | .choice reps cur cs => reps = false ∧ cur < cs.length ∧ SimpleC cs
  | .inst _ _ cs => Simples cs
  | .other _ => False
/-- Arguments. -/
def Simples : List P → Prop
  | [] => True
  | p :: l => Simple p ∧ Simples l
/-- Choices. -/
def SimpleC : List P → Prop
  | [] => True
  | .scalar _ _ _ _ _ :: l => SimpleC l
  | .const _ :: l => SimpleC l
  | .inst _ _ cs :: l => Simples cs ∧ SimpleC l
  | .choice _ _ _ :: _ => False
  | .other _ :: _ => False
end

theorem values_getElem (l : List P) (i : Nat) : (values l)[i]? = l[i]?.map value := by
  induction l generalizing i with
  | nil => simp [values]
  | cons p l ih => cases i <;> simp [values, ih]

theorem natCast_index (n : Nat) : ((n : ℚ).den = 1 ∧ (0 : ℚ) ≤ (n : ℚ)) ∧ (n : ℚ).num.toNat = n := by simp

/-- The statement for one parameter: what is recorded is about its labels, and evaluates to its value. -/
def Good (s : Sp) (v : V) (od : Option (List (Name × V))) : Prop :=
  ∃ d, od = some d ∧ (∀ e ∈ d, e.1 ∈ labels s) ∧ ∀ a, (∀ l ∈ labels s, a l = get d l) → eval a s = some v

theorem choice_cons (name : Name) (x : V) (i : Nat) (c : P) (l : List P) (s : Sp) (m : List Sp)
    (hnd : (labelss (s :: m)).Nodup) (hname : name ∉ labelss (s :: m)) (hc : Good s (value c) (entry name i c (toDict [] c)))
    (ih : ∃ d, toDictChoice name x (i + 1) l = some d ∧ (∀ e ∈ d, e.1 = name ∨ e.1 ∈ labelss m) ∧
      (get d name = none → ∀ c ∈ l, value c ≠ x) ∧
      (∀ v, get d name = some v → ∃ j, v = .num ((i + 1 + j : Nat) : ℚ) ∧ ∀ a, (∀ l ∈ labelss m, a l = get d l) → (evals a m)[j]? = some (some x))) :
    ∃ d, toDictChoice name x i (c :: l) = some d ∧ (∀ e ∈ d, e.1 = name ∨ e.1 ∈ labelss (s :: m)) ∧
      (get d name = none → ∀ c' ∈ c :: l, value c' ≠ x) ∧
      (∀ v, get d name = some v → ∃ j, v = .num ((i + j : Nat) : ℚ) ∧ ∀ a, (∀ l ∈ labelss (s :: m), a l = get d l) → (evals a (s :: m))[j]? = some (some x)) := by
  obtain ⟨ds, h1, h2, h3, h4⟩ := ih
  obtain ⟨d0, g1, g2, g3⟩ := hc
  rw [labelss] at hnd hname
  rw [List.nodup_append] at hnd
  obtain ⟨n1, n2, n3⟩ := hnd
  have hns : name ∉ labels s := fun h => hname (List.mem_append_left _ h)
  have hnm : name ∉ labelss m := fun h => hname (List.mem_append_right _ h)
  rw [toDictChoice]
  by_cases hx : x.beq (value c) = true
  · rw [if_pos hx, g1, h1]
    have hxv : x = value c := (beq_iff _ _).mp hx
    have hd0 : get d0 name = none := get_none d0 name (fun e he hh => hns (hh ▸ g2 e he))
    refine ⟨_, rfl, ?_, ?_, ?_⟩
    · intro e he
      rcases List.mem_cons.mp he with rfl | he
      · exact Or.inl rfl
      · rcases List.mem_append.mp he with he | he
        · exact Or.inr (by rw [labelss]; exact List.mem_append_left _ (g2 e he))
        · exact (h2 e he).imp id (fun h => by rw [labelss]; exact List.mem_append_right _ h)
    · intro h
      exfalso
      rw [List.cons_append, get_cons, get_append, hd0] at h
      cases hg : get ds name <;> simp [hg] at h
    · intro v hv
      rw [List.cons_append, get_cons, get_append, hd0] at hv
      have hget : ∀ a : Name → Option V, (∀ l ∈ labelss (s :: m), a l = get ((name, V.num i) :: d0 ++ ds) l) →
          (∀ l ∈ labels s, a l = get d0 l) ∧ (∀ l ∈ labelss m, a l = get ds l) := by
        intro a ha
        constructor
        · intro l hl
          rw [ha l (by rw [labelss]; exact List.mem_append_left _ hl), List.cons_append, get_cons, get_append]
          have e1 : get ds l = none := get_none ds l (fun e he hh => by
            rcases h2 e he with h | h
            · exact hns (h ▸ hh ▸ hl)
            · exact n3 l hl l (hh ▸ h) rfl)
          have e2 : name ≠ l := fun h => hns (h ▸ hl)
          rw [e1]
          simp [e2]
        · intro l hl
          rw [ha l (by rw [labelss]; exact List.mem_append_right _ hl), List.cons_append, get_cons, get_append]
          have e1 : get d0 l = none := get_none d0 l (fun e he hh => n3 l (hh ▸ g2 e he) l hl rfl)
          have e2 : name ≠ l := fun h => hnm (h ▸ hl)
          rw [e1]
          simp [e2]
      cases hg : get ds name with
      | none =>
        rw [hg] at hv
        simp at hv
        subst hv
        refine ⟨0, by simp, fun a ha => ?_⟩
        rw [evals, List.getElem?_cons_zero, g3 a (hget a ha).1, hxv]
      | some w =>
        rw [hg] at hv
        simp at hv
        subst hv
        obtain ⟨j, hj, hj'⟩ := h4 w hg
        refine ⟨j + 1, by rw [hj]; congr 2; omega, fun a ha => ?_⟩
        rw [evals, List.getElem?_cons_succ]
        exact hj' a (hget a ha).2
  · rw [if_neg hx]
    refine ⟨ds, h1, ?_, ?_, ?_⟩
    · intro e he
      exact (h2 e he).imp id (fun h => by rw [labelss]; exact List.mem_append_right _ h)
    · intro h c' hc'
      rcases List.mem_cons.mp hc' with rfl | hc'
      · intro hh
        exact hx ((beq_iff _ _).mpr hh.symm)
      · exact h3 h c' hc'
    · intro v hv
      obtain ⟨j, hj, hj'⟩ := h4 v hv
      refine ⟨j + 1, by rw [hj]; congr 2; omega, fun a ha => ?_⟩
      rw [evals, List.getElem?_cons_succ]
      exact hj' a (fun l hl => ha l (by rw [labelss]; exact List.mem_append_right _ hl))

theorem good_scalar (name : Name) (log integer : Bool) (lo hi : Option ℚ) (cur : ℚ) (s : Sp)
    (hs : space name (.scalar log integer lo hi cur) = .ok s) : Good s (.num cur) (some [(name, .num cur)]) := by
  obtain ⟨l, u, -, -, rfl⟩ := space_scalar hs
  refine ⟨_, rfl, ?_, ?_⟩
  · cases log <;> cases integer <;> simp [labels]
  · intro a ha
    cases log <;> cases integer <;> simp [labels, eval, get] at ha ⊢ <;> exact ha

mutual
theorem record : (p : P) → ∀ (name : Name) (s : Sp), Simple p → space name p = .ok s → (labels s).Nodup → Good s (value p) (toDict name p)
  | .scalar log integer lo hi cur => by
    intro name s _ hs _
    rw [toDict, value]
    exact good_scalar name log integer lo hi cur s hs
  | .const c => by
    intro name s h
    simp [Simple] at h
  | .choice reps cur cs => by
    intro name s h hs hn
    rw [Simple] at h
    obtain ⟨rfl, hcur, hC⟩ := h
    obtain ⟨l, hl, rfl, -⟩ := space_choice hs
    rw [labels] at hn
    obtain ⟨hn1, hn2⟩ := List.nodup_cons.mp hn
    have hx : ∃ c, cs[cur]? = some c ∧ (values cs).getD cur (.num 0) = value c := by
      refine ⟨cs[cur], by simp [hcur], ?_⟩
      rw [List.getD_eq_getElem?_getD, values_getElem]
      simp [hcur]
    obtain ⟨c, hc, hx⟩ := hx
    obtain ⟨d, h1, h2, h3, h4⟩ := record_choice cs name ((values cs).getD cur (.num 0)) 0 l hC hl hn2 hn1
    rw [value, toDict]
    refine ⟨d, h1, ?_, ?_⟩
    · intro e he
      rw [labels]
      rcases h2 e he with h | h
      · simp [h]
      · simp [h]
    · intro a ha
      rw [labels] at ha
      rw [eval, ha name (by simp)]
      cases hg : get d name with
      | none => exact absurd hx.symm (h3 hg c (List.mem_of_getElem? hc))
      | some v =>
        obtain ⟨j, rfl, hj⟩ := h4 v hg
        simp only
        rw [if_pos (natCast_index _).1, (natCast_index _).2, List.getD_eq_getElem?_getD, Nat.zero_add,
          hj a (fun l hl => ha l (by simp [hl]))]
        rfl
  | .inst n names cs => by
    intro name s h hs hn
    rw [Simple] at h
    obtain ⟨l, hl, rfl⟩ := space_inst hs
    rw [labels] at hn
    obtain ⟨d, h1, h2, h3⟩ := record_inst cs (instLabel n names) 0 l h hl hn
    rw [value, toDict]
    refine ⟨d, h1, by rw [labels]; exact h2, ?_⟩
    intro a ha
    rw [labels] at ha
    rw [eval, h3 a ha]
    have : ∀ vs : List V, (vs.map some).mapM (m := Option) id = some vs := by
      intro vs
      induction vs with
      | nil => rfl
      | cons v vs ih => simp [List.mapM_cons, ih]
    rw [this]
    rfl
  | .other ty => by
    intro name s h
    simp [Simple] at h
theorem record_inst : (cs : List P) → ∀ (label : Nat → Name) (i : Nat) (ss : List Sp), Simples cs → spaces label i cs = .ok ss →
    (labelss ss).Nodup → ∃ d, toDictInst label i cs = some d ∧ (∀ e ∈ d, e.1 ∈ labelss ss) ∧
      ∀ a, (∀ l ∈ labelss ss, a l = get d l) → evals a ss = (values cs).map some
  | [] => by
    intro label i ss _ hs _
    rw [spaces] at hs
    injection hs with hs
    subst hs
    exact ⟨[], by rw [toDictInst], by simp, fun a _ => by simp [evals, values]⟩
  | p :: l => by
    intro label i ss h hs hn
    rw [Simples] at h
    obtain ⟨s, m, h1, h2, rfl⟩ := spaces_cons hs
    rw [labelss, List.nodup_append] at hn
    obtain ⟨n1, n2, n3⟩ := hn
    obtain ⟨d, d1, d2, d3⟩ := record p (label i) s h.1 h1 n1
    obtain ⟨ds, e1, e2, e3⟩ := record_inst l label (i + 1) m h.2 h2 n2
    refine ⟨d ++ ds, by rw [toDictInst, d1, e1], ?_, ?_⟩
    · intro e he
      rw [labelss]
      exact (List.mem_append.mp he).elim (fun h => List.mem_append_left _ (d2 e h)) (fun h => List.mem_append_right _ (e2 e h))
    · intro a ha
      rw [labelss] at ha
      rw [evals, values, List.map_cons, d3 a ?_, e3 a ?_]
      · intro l hl
        rw [ha l (List.mem_append_right _ hl), get_append, get_none d l (fun e he hh => n3 l (hh ▸ d2 e he) l hl rfl)]
        simp
      · intro l hl
        rw [ha l (List.mem_append_left _ hl), get_append, get_none ds l (fun e he hh => n3 l hl l (hh ▸ e2 e he) rfl)]
        simp
theorem record_choice : (cs : List P) → ∀ (name : Name) (x : V) (i : Nat) (ss : List Sp), SimpleC cs →
    spaces (choiceLabel name) i cs = .ok ss → (labelss ss).Nodup → name ∉ labelss ss →
    ∃ d, toDictChoice name x i cs = some d ∧ (∀ e ∈ d, e.1 = name ∨ e.1 ∈ labelss ss) ∧
      (get d name = none → ∀ c ∈ cs, value c ≠ x) ∧
      (∀ v, get d name = some v → ∃ j, v = .num ((i + j : Nat) : ℚ) ∧ ∀ a, (∀ l ∈ labelss ss, a l = get d l) → (evals a ss)[j]? = some (some x))
  | [] => by
    intro name x i ss _ _ _ _
    refine ⟨[], by rw [toDictChoice], by simp, by simp, ?_⟩
    intro v hv
    simp [get] at hv
  | .scalar log integer lo hi cur :: l => by
    intro name x i ss h hs hn hname
    rw [SimpleC] at h
    obtain ⟨s, m, h1, h2, rfl⟩ := spaces_cons hs
    refine choice_cons name x i _ l s m hn hname ?_ ?_
    · rw [value]
      exact good_scalar _ log integer lo hi cur s h1
    · rw [labelss] at hn hname
      exact record_choice l name x (i + 1) m h h2 (List.nodup_append.mp hn).2.1 (fun h => hname (List.mem_append_right _ h))
  | .const c :: l => by
    intro name x i ss h hs hn hname
    rw [SimpleC] at h
    obtain ⟨s, m, h1, h2, rfl⟩ := spaces_cons hs
    refine choice_cons name x i _ l s m hn hname ?_ ?_
    · rw [space] at h1
      injection h1 with h1
      subst h1
      exact ⟨[], rfl, by simp, fun a _ => by rw [eval, value]⟩
    · rw [labelss] at hn hname
      exact record_choice l name x (i + 1) m h h2 (List.nodup_append.mp hn).2.1 (fun h => hname (List.mem_append_right _ h))
  | .inst n names cs :: l => by
    intro name x i ss h hs hn hname
    rw [SimpleC] at h
    obtain ⟨s, m, h1, h2, rfl⟩ := spaces_cons hs
    refine choice_cons name x i _ l s m hn hname ?_ ?_
    · obtain ⟨l', hl', rfl⟩ := space_inst h1
      rw [labelss] at hn
      have hn' := (List.nodup_append.mp hn).1
      rw [labels] at hn'
      obtain ⟨d, e1, e2, e3⟩ := record_inst cs (instLabel n names) 0 l' h.1 hl' hn'
      refine ⟨d, by rw [entry, toDict, e1], by rw [labels]; exact e2, ?_⟩
      intro a ha
      rw [labels] at ha
      rw [eval, value, e3 a ha]
      have : ∀ vs : List V, (vs.map some).mapM (m := Option) id = some vs := by
        intro vs
        induction vs with
        | nil => rfl
        | cons v vs ih => simp [List.mapM_cons, ih]
      rw [this]
      rfl
    · rw [labelss] at hn hname
      exact record_choice l name x (i + 1) m h.2 h2 (List.nodup_append.mp hn).2.1 (fun h => hname (List.mem_append_right _ h))
  | .choice _ _ _ :: _ => by
    intro name x i ss h
    simp [SimpleC] at h
  | .other _ :: _ => by
    intro name x i ss h
    simp [SimpleC] at h
end

/-- **C96 (partial).** A point which was not asked is recorded so that hyperopt evaluates the record to this point, if no argument is a constant
and no choice is between choices. -/
theorem record_partial (p : P) (s : Sp) (h : construct p = .ok (.native s)) (hp : Simple p) :
    ∃ d, toDict [] p = some d ∧ eval (get d) s = some (value p) := by
  obtain ⟨h1, h2⟩ := construct_native h
  obtain ⟨d, e1, -, e3⟩ := record p [] s hp h1 h2
  exact ⟨d, e1, e3 _ (fun _ _ => rfl)⟩

/-- **C96 (disagreement).** A point which was not asked cannot be told when an argument is a constant. -/
theorem constant_fails (n : Nat) (names : List Name) (cs cs' : List P) (c : ℚ) : toDict [] (.inst n names (cs ++ .const c :: cs')) = none := by
  have : ∀ (label : Nat → Name) (i : Nat), toDictInst label i (cs ++ .const c :: cs') = none := by
    intro label
    induction cs with
    | nil => intro i; simp [toDictInst, toDict]
    | cons p cs ih =>
      intro i
      rw [List.cons_append, toDictInst, ih]
      cases toDict (label i) p <;> rfl
  rw [toDict, this]

/-- **C96 (disagreement).** For a choice between choices the value is recorded instead of the index: the record of the value 1 evaluates to 0. -/
theorem nested_choice_wrong : ∃ (p : P) (s : Sp) (d : List (Name × V)), construct p = .ok (.native s) ∧ toDict [] p = some d ∧
    Legal p (value p) ∧ value p = .inst 0 [['a']] [.num 1] ∧ eval (get d) s = some (.inst 0 [['a']] [.num 0]) := by
  refine ⟨.inst 0 [['a']] [.choice false 0 [.choice false 0 [.const 1, .const 0], .scalar false false (some 5) (some 6) 5]],
    .dict 0 [['a']] [.choice ['a'] [.choice ['a', '_', '_', '0'] [.const 1, .const 0], .uniform ['a', '_', '_', '1'] 5 6]],
    [(['a'], .num 0), (['a', '_', '_', '0'], .num 1)], ?_, ?_, ?_, ?_, ?_⟩
  · have c1 : (List.filterMap cls [P.const 1, P.const 0]).Nodup := by decide +kernel
    have c2 : (List.filterMap cls [P.choice false 0 [.const 1, .const 0], .scalar false false (some 5) (some 6) 5]).Nodup := by decide +kernel
    have e0 : choiceLabel ['a'] 0 = ['a', '_', '_', '0'] := by decide +kernel
    have e1 : choiceLabel ['a'] 1 = ['a', '_', '_', '1'] := by decide +kernel
    have e2 : instLabel 0 [['a']] 0 = ['a'] := by decide +kernel
    have hs : space [] (.inst 0 [['a']] [.choice false 0 [.choice false 0 [.const 1, .const 0], .scalar false false (some 5) (some 6) 5]]) =
        .ok (.dict 0 [['a']] [.choice ['a'] [.choice ['a', '_', '_', '0'] [.const 1, .const 0], .uniform ['a', '_', '_', '1'] 5 6]]) := by
      simp only [space, spaces, c1, c2, if_true, e0, e1, e2, Nat.zero_add, Bool.false_eq_true, if_false]
    simp only [construct, hs]
    exact if_pos (by simp [labels, labelss])
  · simp [toDict, toDictInst, toDictChoice, entry, values, value, V.beq, instLabel, choiceLabel, ExtBo.str]
  · simp [value, values, Legal, LegalAll, LegalAny]
  · simp [value, values]
  · simp [eval, evals, get]

example : toDict [] (.inst 1 [['b']] [.scalar false false (some 0) (some 1) (1 / 2), .choice false 1 [.const 4, .const 7]]) =
    some [(['0'], .num (1 / 2)), (['b'], .num 1)] := by
  simp [toDict, toDictInst, toDictChoice, entry, values, value, V.beq, instLabel, ExtBo.str]

/-! ## Trials -/

section
variable {L : Type}

/-- Several operations. -/
def run (ops : List (Op L)) : Except Err (List (Option L)) := ops.foldlM step []

/-- The trials which were created: asked (`none`) or told without being asked. -/
def created : List (Op L) → List (Option L)
  | [] => []
  | .ask :: ops => none :: created ops
  | .tell _ _ :: ops => created ops
  | .other l :: ops => some l :: created ops

theorem created_append (ops ops' : List (Op L)) : created (ops ++ ops') = created ops ++ created ops' := by
  induction ops with
  | nil => rfl
  | cons o ops ih => cases o <;> simp [created, ih]

theorem run_append (ops : List (Op L)) (op : Op L) : run (ops ++ [op]) = (run ops).bind (fun t => step t op) := by
  unfold run
  rw [List.foldlM_append]
  cases h : ops.foldlM step ([] : List (Option L)) with
  | error e => rfl
  | ok t =>
    simp [bind, Except.bind]
    cases step t op <;> rfl

theorem tell_lt (ops : List (Op L)) (t : List (Option L)) (h : run ops = .ok t) (k : Nat) (l : L) (hm : .tell k l ∈ ops) : k < t.length := by
  induction ops using List.reverseRecOn generalizing t with
  | nil => simp at hm
  | append_singleton ops op ih =>
    rw [run_append] at h
    cases hr : run ops with
    | error e => rw [hr] at h; simp [Except.bind] at h
    | ok t' =>
      rw [hr] at h
      have hlen : t'.length ≤ t.length ∧ (∀ id l, op = .tell id l → id < t.length) := by
        cases op with
        | ask => simp only [Except.bind, step, Except.ok.injEq] at h; subst h; simp
        | other _ => simp only [Except.bind, step, Except.ok.injEq] at h; subst h; simp
        | tell id loss =>
          simp only [Except.bind, step] at h
          split at h
          · rename_i hid
            injection h with h
            subst h
            refine ⟨by simp, ?_⟩
            intro id' l' he
            injection he with he
            subst he
            by_contra hc
            rw [List.getElem?_eq_none (by simpa using hc)] at hid
            simp at hid
          · simp at h
      rcases List.mem_append.mp hm with hm | hm
      · exact lt_of_lt_of_le (ih t' hr hm) hlen.1
      · exact hlen.2 k l (List.mem_singleton.mp hm).symm

/-- **C96.** The results of the trials: each told loss is the result of its own trial, in any order of tells, and trials which were not told have no
result. -/
theorem trials_spec (ops : List (Op L)) (t : List (Option L)) (h : run ops = .ok t) :
    t.length = (created ops).length ∧
    ∀ k l, t[k]? = some (some l) ↔ (created ops)[k]? = some (some l) ∨ (created ops)[k]? = some none ∧ .tell k l ∈ ops := by
  induction ops using List.reverseRecOn generalizing t with
  | nil =>
    have : t = [] := by injection h with h; exact h.symm
    subst this
    simp [created]
  | append_singleton ops op ih =>
    rw [run_append] at h
    cases hr : run ops with
    | error e => rw [hr] at h; simp [Except.bind] at h
    | ok t' =>
      rw [hr] at h
      obtain ⟨h1, h2⟩ := ih t' hr
      rw [created_append]
      cases op with
      | ask =>
        simp only [Except.bind, step, Except.ok.injEq] at h
        subst h
        refine ⟨by simp [created, h1], fun k l => ?_⟩
        by_cases hk : k < t'.length
        · rw [List.getElem?_append_left hk, List.getElem?_append_left (h1 ▸ hk), h2]
          simp
        · have e1 : (t' ++ [none])[k]? ≠ some (some l) := by
            rw [List.getElem?_append_right (by omega)]
            cases k - t'.length <;> simp
          have hold : Op.tell k l ∉ ops := by
            intro hm
            exact hk (tell_lt ops t' hr k l hm)
          refine ⟨fun h => absurd h e1, ?_⟩
          rintro (h | ⟨h, hm⟩)
          · rw [List.getElem?_append_right (by omega)] at h
            simp [created] at h
            cases hh : k - (created ops).length <;> simp [hh] at h
          · simp at hm
            exact absurd hm hold
      | tell id loss =>
        simp only [Except.bind, step] at h
        cases hid : t'[id]? with
        | none => simp [hid] at h
        | some o =>
          cases o with
          | some _ => simp [hid] at h
          | none =>
            simp only [hid, Except.ok.injEq] at h
            subst h
            have hlt : id < t'.length := by
              by_contra hc
              rw [List.getElem?_eq_none (by omega)] at hid
              simp at hid
            have hcr : (created ops)[id]? = some none := by
              have hl : id < (created ops).length := h1 ▸ hlt
              cases hc : (created ops)[id]? with
              | none => rw [List.getElem?_eq_none_iff] at hc; omega
              | some o =>
                cases o with
                | none => rfl
                | some l =>
                  have := (h2 id l).mpr (Or.inl hc)
                  rw [hid] at this
                  simp at this
            refine ⟨by simp [created, h1], fun k l => ?_⟩
            rw [show created ops ++ created [Op.tell id loss] = created ops by simp [created]]
            rw [List.getElem?_set]
            by_cases hk : id = k
            · subst hk
              simp only [if_true, hlt, hcr]
              have hno : Op.tell id l ∉ ops := by
                intro hm
                have := (h2 id l).mpr (Or.inr ⟨hcr, hm⟩)
                rw [hid] at this
                simp at this
              simp [hno, eq_comm]
            · rw [if_neg hk, h2]
              have : Op.tell k l ≠ Op.tell id loss := by
                intro h
                injection h with h
                exact hk h.symm
              simp [this]
      | other loss =>
        simp only [Except.bind, step, Except.ok.injEq] at h
        subst h
        refine ⟨by simp [created, h1], fun k l => ?_⟩
        by_cases hk : k < t'.length
        · rw [List.getElem?_append_left hk, List.getElem?_append_left (h1 ▸ hk), h2]
          simp
        · have hold : Op.tell k l ∉ ops := by
            intro hm
            exact hk (tell_lt ops t' hr k l hm)
          rw [List.getElem?_append_right (by omega), List.getElem?_append_right (by omega), h1]
          simp [created, hold]

/-- **C96.** Telling an asked candidate fails exactly if it was told before (or is not a candidate). (Disagreement: a candidate cannot be told
twice, as for a noisy function.) -/
theorem tell_fails (ops : List (Op L)) (t : List (Option L)) (h : run ops = .ok t) (id : Nat) (l : L) :
    (∃ t', run (ops ++ [.tell id l]) = .ok t') ↔ (created ops)[id]? = some none ∧ ∀ l', .tell id l' ∉ ops := by
  obtain ⟨h1, h2⟩ := trials_spec ops t h
  rw [run_append, h]
  simp only [Except.bind, step]
  constructor
  · rintro ⟨t', ht⟩
    cases hid : t[id]? with
    | none => simp [hid] at ht
    | some o =>
      cases o with
      | some _ => simp [hid] at ht
      | none =>
        have hlt : id < t.length := by
          by_contra hc
          rw [List.getElem?_eq_none (by omega)] at hid
          simp at hid
        have hcr : (created ops)[id]? = some none := by
          cases hc : (created ops)[id]? with
          | none => rw [List.getElem?_eq_none_iff] at hc; omega
          | some o =>
            cases o with
            | none => rfl
            | some l =>
              have := (h2 id l).mpr (Or.inl hc)
              rw [hid] at this
              simp at this
        refine ⟨hcr, fun l' hm => ?_⟩
        have := (h2 id l').mpr (Or.inr ⟨hcr, hm⟩)
        rw [hid] at this
        simp at this
  · rintro ⟨hcr, hno⟩
    have hlt : id < t.length := by
      by_contra hc
      rw [List.getElem?_eq_none (by omega)] at hcr
      simp at hcr
    have : t[id]? = some none := by
      cases hc : t[id]? with
      | none => rw [List.getElem?_eq_none_iff] at hc; omega
      | some o =>
        cases o with
        | none => rfl
        | some l' =>
          rcases (h2 id l').mp hc with h | ⟨-, h⟩
          · rw [hcr] at h; simp at h
          · exact absurd h (hno l')
    exact ⟨_, by rw [this]⟩

end

example : run [Op.ask, .ask, .tell 1 (5 : Nat), .other 7, .tell 0 6] = .ok [some 6, some 5, some 7] := by rfl

end HyperOpt
end NG
