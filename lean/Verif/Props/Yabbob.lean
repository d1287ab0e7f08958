import Verif.Model.Yabbob
import Mathlib.Analysis.InnerProductSpace.PiL2
import Mathlib.Tactic.Ring
import Mathlib.Tactic.Linarith
import Mathlib.Tactic.Positivity

/-!
# What the plans of the yabbob family contain
-/

namespace NG.Yabbob

set_option linter.unusedSectionVars false

/-! ## The loops -/

theorem everyFrom_getElem? {α : Type} (k : Nat) (hk : 0 < k) :
    ∀ (l : List α) (c i : Nat), (everyFrom k c l)[i]? = l[c + k * i]? := by
  intro l
  induction l with
  | nil => intro c i; cases c <;> simp [everyFrom]
  | cons x l ih =>
    intro c i
    cases c with
    | zero =>
      cases i with
      | zero => simp [everyFrom]
      | succ i =>
        simp only [everyFrom, List.getElem?_cons_succ, ih]
        have : 0 + k * (i + 1) = (k - 1 + k * i) + 1 := by
          rw [Nat.mul_succ]; omega
        rw [this, List.getElem?_cons_succ]
    | succ c =>
      simp only [everyFrom, ih]
      have : c + 1 + k * i = (c + k * i) + 1 := by omega
      rw [this, List.getElem?_cons_succ]

/-- `l[::k]` holds the elements at the multiples of `k`, in order. -/
theorem every_getElem? {α : Type} (k : Nat) (hk : 0 < k) (l : List α) (i : Nat) :
    (every k l)[i]? = l[k * i]? := by
  simp [every, everyFrom_getElem? k hk]

example : every 2 [1, 2, 3, 4, 5] = [1, 3, 5] := by decide

/-- The experiment for one choice of optimizer, function and budget, with the seed numbered `n`. -/
def mk (seedg : Nat → Option Nat) (f : Flags) (o : String) (g : FnC) (b n : Nat) : Xp :=
  { fn := g, optim := o, workers := if f.parallel then 100 else 1, budget := b,
    seed := seedg n, hasConstraints := decide (case f ≠ 0) }

/-- The specification of the plan: the combination numbered `n` in the order of the three loops,
dropped when incoherent; its seed is the one numbered `n` after those taken before. -/
def combination (seedg : Nat → Option Nat) (incoherent : Xp → Bool) (f : Flags) (before : Nat)
    (optims : List String) (fns : List FnC) (bs : List Nat) (n : Nat) : Option Xp :=
  optims[n / (fns.length * bs.length)]?.bind fun o =>
    fns[n / bs.length % fns.length]?.bind fun g => bs[n % bs.length]?.bind fun b =>
      if incoherent (mk seedg f o g b (before + n)) then none
      else some (mk seedg f o g b (before + n))

/-- One turn. -/
def one (seedg : Nat → Option Nat) (incoherent : Xp → Bool) (f : Flags) (o : String) (g : FnC)
    (n : Nat) (b : Nat) : Option Xp :=
  if incoherent (mk seedg f o g b n) then none else some (mk seedg f o g b n)

theorem turn_eq (seedg : Nat → Option Nat) (incoherent : Xp → Bool) (f : Flags) (o : String)
    (g : FnC) (n b : Nat) :
    turn seedg incoherent f o g n b = (one seedg incoherent f o g n b).toList := by
  show (if incoherent (mk seedg f o g b n) then [] else [mk seedg f o g b n]) = _
  unfold one
  cases incoherent (mk seedg f o g b n) <;> rfl

theorem overBudgets_eq (seedg : Nat → Option Nat) (incoherent : Xp → Bool) (f : Flags) (o : String)
    (g : FnC) : ∀ (l : List Nat) (n : Nat), overBudgets seedg incoherent f o g n l =
      ((List.range l.length).filterMap
        (fun c : Nat => l[c]?.bind (one seedg incoherent f o g (n + c))), n + l.length) := by
  intro l
  induction l with
  | nil => intro n; simp [overBudgets]
  | cons b l ih =>
    intro n
    simp only [overBudgets, ih, turn_eq, List.length_cons]
    refine Prod.ext ?_ (by simp only []; omega)
    simp only [List.range_succ_eq_map, List.filterMap_cons, List.getElem?_cons_zero,
      Option.bind_some, Nat.add_zero, List.filterMap_map]
    have : ((fun c : Nat => ((b :: l)[c]?).bind (one seedg incoherent f o g (n + c))) ∘ Nat.succ) =
        fun c : Nat => l[c]?.bind (one seedg incoherent f o g (n + 1 + c)) := by
      funext c
      simp only [Function.comp, Nat.succ_eq_add_one, List.getElem?_cons_succ]
      rw [show n + (c + 1) = n + 1 + c by omega]
    rw [this]
    cases one seedg incoherent f o g n b <;> simp

theorem filterMap_range_add {α : Type} (f : Nat → Option α) (a b : Nat) :
    (List.range (a + b)).filterMap f =
      (List.range a).filterMap f ++ (List.range b).filterMap (fun i => f (a + i)) := by
  rw [List.range_add, List.filterMap_append, List.filterMap_map]
  rfl

theorem overFunctions_eq (seedg : Nat → Option Nat) (incoherent : Xp → Bool) (f : Flags)
    (o : String) (hb : 0 < (budgets f).length) : ∀ (l : List FnC) (n : Nat),
    overFunctions seedg incoherent f o n l =
      ((List.range (l.length * (budgets f).length)).filterMap (fun m : Nat =>
        l[m / (budgets f).length]?.bind fun g => (budgets f)[m % (budgets f).length]?.bind
          (one seedg incoherent f o g (n + m))), n + l.length * (budgets f).length) := by
  intro l
  induction l with
  | nil => intro n; simp [overFunctions]
  | cons g l ih =>
    intro n
    simp only [overFunctions, overBudgets_eq, ih, List.length_cons]
    have hl : (l.length + 1) * (budgets f).length =
        (budgets f).length + l.length * (budgets f).length := by
      rw [Nat.add_mul, Nat.one_mul, Nat.add_comm]
    rw [hl, filterMap_range_add]
    refine Prod.ext ?_ (by simp only []; omega)
    simp only
    congr 1
    · apply List.filterMap_congr
      intro c hc
      rw [List.mem_range] at hc
      simp [Nat.div_eq_of_lt hc, Nat.mod_eq_of_lt hc]
    · apply List.filterMap_congr
      intro c _
      rw [Nat.add_div_left _ hb, Nat.add_mod_left]
      simp only [List.getElem?_cons_succ, Nat.add_assoc]

theorem overOptims_eq (seedg : Nat → Option Nat) (incoherent : Xp → Bool) (f : Flags)
    (fns : List FnC) (hb : 0 < (budgets f).length) (hf : 0 < fns.length) :
    ∀ (l : List String) (n : Nat),
    (overOptims seedg incoherent f fns n l).1 =
      (List.range (l.length * (fns.length * (budgets f).length))).filterMap
        (combination seedg incoherent f n l fns (budgets f)) := by
  intro l
  induction l with
  | nil => intro n; simp [overOptims]
  | cons o l ih =>
    intro n
    simp only [overOptims, overFunctions_eq _ _ _ _ hb, ih, List.length_cons]
    have hl : (l.length + 1) * (fns.length * (budgets f).length) =
        fns.length * (budgets f).length + l.length * (fns.length * (budgets f).length) := by
      rw [Nat.add_mul, Nat.one_mul, Nat.add_comm]
    have hp : 0 < fns.length * (budgets f).length := Nat.mul_pos hf hb
    rw [hl, filterMap_range_add]
    congr 1
    · apply List.filterMap_congr
      intro c hc
      rw [List.mem_range] at hc
      have h1 : c / (budgets f).length < fns.length := by
        rw [Nat.div_lt_iff_lt_mul hb]; exact hc
      have h2 : c % (budgets f).length < (budgets f).length := Nat.mod_lt _ hb
      unfold combination
      rw [Nat.div_eq_of_lt hc, Nat.mod_eq_of_lt h1]
      simp only [List.getElem?_cons_zero, Option.bind_some]
      rfl
    · apply List.filterMap_congr
      intro c _
      unfold combination
      rw [Nat.add_div_left _ hp]
      simp only [List.getElem?_cons_succ]
      have h3 : (fns.length * (budgets f).length + c) / (budgets f).length =
          fns.length + c / (budgets f).length := by
        rw [Nat.mul_comm, Nat.mul_add_div hb]
      rw [h3, Nat.add_mod_left]
      have h4 : (fns.length * (budgets f).length + c) % (budgets f).length =
          c % (budgets f).length := by
        rw [Nat.mul_comm, Nat.mul_add_mod]
      rw [h4, Nat.add_assoc]

theorem budgets_pos (f : Flags) : 0 < (budgets f).length := by
  unfold budgets
  simp only
  split
  · decide
  · split
    · decide
    · split
      · decide
      · split <;> decide

theorem addConstraints_length (f : Flags) : ∀ (l : List Fn) (i : Nat),
    (addConstraints f i l).length = l.length := by
  intro l
  induction l with
  | nil => intro i; rfl
  | cons g l ih => intro i; simp [addConstraints, ih]

/-- The function at position `i` of the list, with what the loop gives it. -/
theorem addConstraints_getElem? (f : Flags) : ∀ (l : List Fn) (k i : Nat),
    (addConstraints f k l)[i]? = l[i]?.map fun g =>
      if (k + i) % (if 0 < (case f).natAbs then 13 else 1) = 0 then giveTo f g else { fn := g } := by
  intro l
  induction l with
  | nil => intro k i; simp [addConstraints]
  | cons g l ih =>
    intro k i
    cases i with
    | zero => simp [addConstraints]
    | succ i =>
      simp only [addConstraints, List.getElem?_cons_succ, ih]
      rw [show k + 1 + i = k + (i + 1) by omega]

/-! ## The functions -/

/-- A function is in the full list exactly when its name is one of the names, its numbers of blocks
and of dimensions are in the lists of the plan, and the noise, the splitting and the bounds are
those of the plan; both values of the rotation are there. -/
theorem mem_allFunctions (f : Flags) (g : Fn) : g ∈ allFunctions f ↔
    g.name ∈ names ∧ g.blocks ∈ blocks f ∧ g.d ∈ dims f ∧ g.noiseLevel = noiseLevel f ∧
      g.split = f.split ∧ g.bounded = (f.bounded || f.box) := by
  simp only [allFunctions, List.mem_flatMap, List.mem_map]
  constructor
  · rintro ⟨n, hn, r, _, b, hb, d, hd, rfl⟩
    exact ⟨hn, hb, hd, rfl, rfl, rfl⟩
  · rintro ⟨hn, hb, hd, h1, h2, h3⟩
    refine ⟨g.name, hn, g.rotation, by cases g.rotation <;> decide, g.blocks, hb, g.d, hd, ?_⟩
    rw [← h1, ← h2, ← h3]

/-- Each function is there rotated and not rotated. -/
theorem rotation_both (f : Flags) (g : Fn) (h : g ∈ allFunctions f) (r : Bool) :
    { g with rotation := r } ∈ allFunctions f := by
  rw [mem_allFunctions] at h ⊢
  exact h

theorem everyFrom_sub {α : Type} (k : Nat) : ∀ (l : List α) (c : Nat) (x : α),
    x ∈ everyFrom k c l → x ∈ l := by
  intro l
  induction l with
  | nil => intro c x h; cases c <;> simp [everyFrom] at h
  | cons y l ih =>
    intro c x h
    cases c with
    | zero =>
      simp only [everyFrom, List.mem_cons] at h
      rcases h with h | h
      · exact List.mem_cons.2 (Or.inl h)
      · exact List.mem_cons_of_mem _ (ih _ _ h)
    | succ c => exact List.mem_cons_of_mem _ (ih _ _ h)

theorem functions_some (f : Flags) (fns : List Fn) (h : functions f = some fns) :
    f.reduction ∈ [1, 7, 13, 17] ∧ fns = every f.reduction (allFunctions f) := by
  unfold functions at h
  split at h
  · exact ⟨by assumption, (Option.some.inj h).symm⟩
  · cases h

theorem allFunctions_ne (f : Flags) : ∃ g l, allFunctions f = g :: l := by
  have hm : Fn.mk "hm" true ((blocks f).headD 0) ((dims f).headD 0) (noiseLevel f) f.split
      (f.bounded || f.box) ∈ allFunctions f := by
    rw [mem_allFunctions]
    refine ⟨by simp [names], ?_, ?_, rfl, rfl, rfl⟩
    · unfold blocks; cases f.split <;> simp
    · unfold dims
      cases f.hd <;> cases f.tuning <;> cases f.bounded <;> cases f.noise <;> simp
  cases h : allFunctions f with
  | nil => rw [h] at hm; cases hm
  | cons g l => exact ⟨g, l, rfl⟩

theorem functions_pos (f : Flags) (fns : List Fn) (h : functions f = some fns) :
    0 < fns.length := by
  obtain ⟨_, rfl⟩ := functions_some f fns h
  obtain ⟨g, l, hg⟩ := allFunctions_ne f
  rw [hg]
  simp [every, everyFrom]

/-- **The plan**: the combinations of an optimizer, a function and a budget, each once, in the order
of the loops, without the incoherent ones; the seed of the combination numbered `n` is the one
numbered `n` of the generator after the one or two taken for lists of optimizers. -/
theorem plan_eq (table : String → Option (List String)) (incoherent : Xp → Bool)
    (seedg : Nat → Option Nat) (f : Flags) (plan : List Xp)
    (h : yabbob table incoherent seedg f = some plan) :
    ∃ fns, functions f = some fns ∧
      plan = (List.range ((refactorOptims table "yabbob" []).length *
          (fns.length * (budgets f).length))).filterMap
        (combination seedg incoherent f (seedsBefore f) (refactorOptims table "yabbob" [])
          (addConstraints f 0 fns) (budgets f)) := by
  unfold yabbob at h
  split at h
  · cases h
  · rename_i fns hf
    split at h
    · have hl := addConstraints_length f fns 0
      have hp : 0 < (addConstraints f 0 fns).length := by
        rw [hl]; exact functions_pos f fns hf
      refine ⟨fns, hf, ?_⟩
      rw [← Option.some.inj h, overOptims_eq _ _ _ _ (budgets_pos f) hp, hl]
      rfl
    · cases h

/-- The plan exists exactly when the factor is one of the four and the case is in range. -/
theorem plan_exists (table : String → Option (List String)) (incoherent : Xp → Bool)
    (seedg : Nat → Option Nat) (f : Flags) :
    (yabbob table incoherent seedg f).isSome ↔
      f.reduction ∈ [1, 7, 13, 17] ∧
        (if 0 < f.mega then f.constraintCase.natAbs < 2 * f.mega
          else f.constraintCase.natAbs < 8 + f.maxConstraints) := by
  have hc : caseOk f = true ↔ (if 0 < f.mega then f.constraintCase.natAbs < 2 * f.mega
          else f.constraintCase.natAbs < 8 + f.maxConstraints) := by
    unfold caseOk case constraints maxNum
    by_cases hm : 0 < f.mega
    · simp only [hm, if_true, Int.natAbs_neg, Int.natAbs_abs, List.length_map, List.length_range,
        decide_eq_true_eq]
      omega
    · simp [hm]
  unfold yabbob functions
  by_cases h1 : f.reduction ∈ [1, 7, 13, 17]
  · rw [if_pos h1]
    simp only
    by_cases h2 : caseOk f = true
    · rw [if_pos h2]
      exact ⟨fun _ => ⟨h1, hc.1 h2⟩, fun _ => rfl⟩
    · rw [if_neg h2]
      exact ⟨fun h => by simp at h, fun h => absurd (hc.2 h.2) h2⟩
  · rw [if_neg h1]
    exact ⟨fun h => by simp at h, fun h => absurd h.1 h1⟩

theorem decompose (n F B : Nat) : (n / (F * B) * F + n / B % F) * B + n % B = n := by
  rw [Nat.mul_comm F B, ← Nat.div_div_eq_div_mul, Nat.div_add_mod', Nat.div_add_mod']

theorem recompose (a b c F B : Nat) (hb : b < F) (hc : c < B) :
    ((a * F + b) * B + c) / (F * B) = a ∧ ((a * F + b) * B + c) / B % F = b ∧
      ((a * F + b) * B + c) % B = c := by
  have e : ((a * F + b) * B + c) / B = a * F + b := by
    rw [Nat.mul_comm, Nat.mul_add_div (by omega), Nat.div_eq_of_lt hc, Nat.add_zero]
  refine ⟨?_, ?_, ?_⟩
  · rw [Nat.mul_comm F B, ← Nat.div_div_eq_div_mul, e, Nat.mul_comm, Nat.mul_add_div (by omega),
      Nat.div_eq_of_lt hb, Nat.add_zero]
  · rw [e, Nat.mul_comm, Nat.mul_add_mod, Nat.mod_eq_of_lt hb]
  · rw [Nat.mul_comm, Nat.mul_add_mod, Nat.mod_eq_of_lt hc]

/-- What an experiment of the plan can be, and that each such combination is there. -/
theorem mem_plan (table : String → Option (List String)) (incoherent : Xp → Bool)
    (seedg : Nat → Option Nat) (f : Flags) (plan : List Xp)
    (h : yabbob table incoherent seedg f = some plan) (xp : Xp) :
    xp ∈ plan ↔ ∃ fns a b c o g t, functions f = some fns ∧
      (refactorOptims table "yabbob" [])[a]? = some o ∧ (addConstraints f 0 fns)[b]? = some g ∧
      (budgets f)[c]? = some t ∧
      xp = mk seedg f o g t
        (seedsBefore f + ((a * fns.length + b) * (budgets f).length + c)) ∧
      incoherent xp = false := by
  obtain ⟨fns, hf, hp⟩ := plan_eq table incoherent seedg f plan h
  have hB := budgets_pos f
  have hF : 0 < (addConstraints f 0 fns).length := by
    rw [addConstraints_length]; exact functions_pos f fns hf
  have hl := addConstraints_length f fns 0
  rw [hp, List.mem_filterMap]
  constructor
  · rintro ⟨n, hn, hx⟩
    unfold combination at hx
    obtain ⟨o, ho, hx⟩ := Option.bind_eq_some_iff.1 hx
    obtain ⟨g, hg, hx⟩ := Option.bind_eq_some_iff.1 hx
    obtain ⟨t, ht, hx⟩ := Option.bind_eq_some_iff.1 hx
    split at hx
    · cases hx
    · rename_i hi
      refine ⟨fns, _, _, _, o, g, t, hf, ho, hg, ht, ?_, ?_⟩
      · rw [← Option.some.inj hx, hl]
        congr 2
        exact (decompose n fns.length (budgets f).length).symm
      · rw [← Option.some.inj hx]; simpa using hi
  · rintro ⟨fns', a, b, c, o, g, t, hf', ho, hg, ht, hx, hi⟩
    have : fns' = fns := by rw [hf] at hf'; exact (Option.some.inj hf').symm
    subst this
    have ha : a < (refactorOptims table "yabbob" []).length := (List.getElem?_eq_some_iff.1 ho).1
    have hb : b < fns'.length := by rw [← hl]; exact (List.getElem?_eq_some_iff.1 hg).1
    have hc : c < (budgets f).length := (List.getElem?_eq_some_iff.1 ht).1
    refine ⟨(a * fns'.length + b) * (budgets f).length + c, ?_, ?_⟩
    · rw [List.mem_range]
      have h1 : (a * fns'.length + b + 1) * (budgets f).length ≤
          ((a + 1) * fns'.length) * (budgets f).length := by
        apply Nat.mul_le_mul_right
        rw [Nat.add_mul, Nat.one_mul]; omega
      have h2 : ((a + 1) * fns'.length) * (budgets f).length ≤
          (refactorOptims table "yabbob" []).length * (fns'.length * (budgets f).length) := by
        rw [Nat.mul_assoc]
        exact Nat.mul_le_mul_right _ ha
      rw [Nat.add_mul (a * fns'.length + b), Nat.one_mul] at h1
      omega
    · obtain ⟨e1, e2, e3⟩ := recompose a b c fns'.length (budgets f).length hb hc
      unfold combination
      rw [hl, e1, e2, e3, ho, hg, ht]
      simp only [Option.bind_some]
      rw [hx] at hi
      rw [hi, hx]
      rfl

/-- Two combinations of a plan never take the same seed of the generator. -/
theorem seeds_apart (F B a b c a' b' c' k : Nat) (hb : b < F) (hc : c < B) (hb' : b' < F)
    (hc' : c' < B) (h : k + ((a * F + b) * B + c) = k + ((a' * F + b') * B + c')) :
    a = a' ∧ b = b' ∧ c = c' := by
  have e : (a * F + b) * B + c = (a' * F + b') * B + c' := Nat.add_left_cancel h
  obtain ⟨h1, h2, h3⟩ := recompose a b c F B hb hc
  obtain ⟨h1', h2', h3'⟩ := recompose a' b' c' F B hb' hc'
  rw [e] at h1 h2 h3
  exact ⟨h1.symm.trans h1', h2.symm.trans h2', h3.symm.trans h3'⟩

/-- Without a seed no experiment has one; with a seed they all have one. -/
theorem seeds_given (table : String → Option (List String)) (incoherent : Xp → Bool)
    (draws : Nat → Nat → Nat) (seed : Option Nat) (f : Flags) (plan : List Xp)
    (h : yabbob table incoherent (seedGenerator draws seed) f = some plan) (xp : Xp)
    (hx : xp ∈ plan) : xp.seed.isSome = seed.isSome := by
  obtain ⟨fns, a, b, c, o, g, t, _, _, _, _, e, _⟩ := (mem_plan _ _ _ _ _ h xp).1 hx
  rw [e]
  cases seed <;> rfl

/-- The settings of every experiment of a plan. -/
theorem settings (table : String → Option (List String)) (incoherent : Xp → Bool)
    (seedg : Nat → Option Nat) (f : Flags) (plan : List Xp)
    (h : yabbob table incoherent seedg f = some plan) (xp : Xp) (hx : xp ∈ plan) :
    xp.fn.fn ∈ allFunctions f ∧ xp.budget ∈ budgets f ∧
      xp.workers = (if f.parallel then 100 else 1) ∧
      xp.optim ∈ refactorOptims table "yabbob" [] ∧ incoherent xp = false := by
  obtain ⟨fns, a, b, c, o, g, t, hf, ho, hg, ht, e, hi⟩ := (mem_plan _ _ _ _ _ h xp).1 hx
  obtain ⟨_, hfns⟩ := functions_some f fns hf
  refine ⟨?_, ?_, ?_, ?_, hi⟩
  · rw [addConstraints_getElem?] at hg
    obtain ⟨g', hg', e'⟩ := Option.map_eq_some_iff.1 hg
    have hm : g' ∈ fns := List.mem_of_getElem? hg'
    have hx' : xp.fn.fn = g' := by
      rw [e]; show g.fn = g'
      rw [← e']
      generalize ((0 + b) % if 0 < (case f).natAbs then 13 else 1) = m
      by_cases h0 : m = 0
      · rw [if_pos h0]; rfl
      · rw [if_neg h0]
    rw [hx']
    rw [hfns] at hm
    exact everyFrom_sub _ _ _ _ hm
  · rw [e]; exact List.mem_of_getElem? ht
  · rw [e]; rfl
  · rw [e]; exact List.mem_of_getElem? ho

/-- A description of a plan. -/
structure Described where
  dims : List Nat
  budgets : List Nat
  noise : Nat
  workers : Nat
  bounded : Bool
  blocks : List Nat
deriving DecidableEq

/-- What the names of the plans say: the dimensions, the budgets, the noise, the numbers of workers,
the bounds and the splitting of each. -/
def described (plan : String) : Option Described :=
  if plan = "yabbob" then some ⟨[2, 10, 50], [50, 200, 800, 3200, 12800], 0, 1, false, [1]⟩
  else if plan = "yahdlbbbob" then some ⟨[100, 1000, 3000], [10, 20, 40], 0, 1, false, [1]⟩
  else if plan = "reduced_yahdlbbbob" then some ⟨[100, 1000, 3000], [10, 20, 40], 0, 1, false, [1]⟩
  else if plan = "yanoisysplitbbob" then
    some ⟨[2, 3, 5, 10, 15, 20, 50], [3200, 12800, 51200, 102400], 100, 1, false, [7, 12]⟩
  else if plan = "yahdnoisysplitbbob" then
    some ⟨[100, 1000, 3000], [3200, 12800, 51200, 102400], 100000, 1, false, [7, 12]⟩
  else if plan = "yaconstrainedbbob" ∨ plan = "yapenbbob" ∨ plan = "yaonepenbbob" ∨
      plan = "yamegapenbbob" then
    some ⟨[2, 10, 50], [50, 200, 800, 3200, 12800], 0, 1, false, [1]⟩
  else if plan = "yahdnoisybbob" then
    some ⟨[100, 1000, 3000], [3200, 12800, 51200, 102400], 100000, 1, false, [1]⟩
  else if plan = "yabigbbob" then
    some ⟨[2, 10, 50], [40000, 80000, 160000, 320000], 0, 1, false, [1]⟩
  else if plan = "yasplitbbob" then
    some ⟨[2, 10, 50], [50, 200, 800, 3200, 12800], 0, 1, false, [7, 12]⟩
  else if plan = "yahdsplitbbob" then
    some ⟨[100, 1000, 3000], [50, 200, 800, 3200, 12800], 0, 1, false, [7, 12]⟩
  else if plan = "yatuningbbob" then some ⟨[2, 5, 10, 15], [10, 20, 40], 0, 1, false, [1]⟩
  else if plan = "yatinybbob" then some ⟨[2, 10, 50], [10, 20, 40], 0, 1, false, [1]⟩
  else if plan = "yasmallbbob" then some ⟨[2, 10, 50], [10, 20, 40], 0, 1, false, [1]⟩
  else if plan = "yahdbbob" then
    some ⟨[100, 1000, 3000], [50, 200, 800, 3200, 12800], 0, 1, false, [1]⟩
  else if plan = "yaparabbob" then
    some ⟨[2, 10, 50], [50, 200, 800, 3200, 12800], 0, 100, false, [1]⟩
  else if plan = "yanoisybbob" then
    some ⟨[2, 3, 5, 10, 15, 20, 50], [3200, 12800, 51200, 102400], 100, 1, false, [1]⟩
  else if plan = "yaboundedbbob" then some ⟨[40], [10, 20, 40, 100, 300], 0, 1, true, [1]⟩
  else if plan = "yaboxbbob" then
    some ⟨[2, 10, 50], [50, 200, 800, 3200, 12800], 0, 1, true, [1]⟩
  else none

/-- The names of the modelled plans. -/
def planNames : List String :=
  ["yabbob", "yahdlbbbob", "reduced_yahdlbbbob", "yanoisysplitbbob", "yahdnoisysplitbbob",
    "yaconstrainedbbob", "yapenbbob", "yaonepenbbob", "yamegapenbbob", "yahdnoisybbob",
    "yabigbbob", "yasplitbbob", "yahdsplitbbob", "yatuningbbob", "yatinybbob", "yasmallbbob",
    "yahdbbob", "yaparabbob", "yanoisybbob", "yaboundedbbob", "yaboxbbob"]

/-- The experiments of a chained plan are those of its slices. -/
theorem mem_chain (table : String → Option (List String)) (incoherent : Xp → Bool)
    (seedg : Nat → Option Nat) : ∀ (l : List Flags) (plan : List Xp),
    chain table incoherent seedg l = some plan → ∀ xp, xp ∈ plan ↔
      ∃ f ∈ l, ∃ p, yabbob table incoherent seedg f = some p ∧ xp ∈ p := by
  intro l
  induction l with
  | nil =>
    intro plan h xp
    have : plan = [] := (Option.some.inj h).symm
    subst this
    constructor
    · intro hx; cases hx
    · rintro ⟨f, hf, _⟩; cases hf
  | cons f l ih =>
    intro plan h xp
    simp only [chain] at h
    split at h
    · rename_i a b ha hb
      rw [← Option.some.inj h, List.mem_append, ih b hb xp]
      constructor
      · rintro (hx | ⟨f', hf', p, hp, hx⟩)
        · exact ⟨f, List.mem_cons_self, a, ha, hx⟩
        · exact ⟨f', List.mem_cons_of_mem _ hf', p, hp, hx⟩
      · rintro ⟨f', hf', p, hp, hx⟩
        rcases List.mem_cons.1 hf' with rfl | hf'
        · rw [ha] at hp
          exact Or.inl (Option.some.inj hp ▸ hx)
        · exact Or.inr ⟨f', hf', p, hp, hx⟩
    · cases h

/-- Every modelled plan can be made, whatever the seed and the table of optimizers. -/
theorem plans_exist (table : String → Option (List String)) (incoherent : Xp → Bool)
    (seedg : Nat → Option Nat) (name : String) (hn : name ∈ planNames) :
    (chain table incoherent seedg (slices name)).isSome := by
  have hall : ∀ f ∈ slices name, (yabbob table incoherent seedg f).isSome := by
    intro f hf
    rw [plan_exists]
    revert f
    revert hn name
    decide +kernel
  generalize slices name = l at hall
  induction l with
  | nil => rfl
  | cons f l ih =>
    obtain ⟨a, ha⟩ := Option.isSome_iff_exists.1 (hall f List.mem_cons_self)
    obtain ⟨b, hb⟩ := Option.isSome_iff_exists.1
      (ih fun g hg => hall g (List.mem_cons_of_mem _ hg))
    simp [chain, ha, hb]

/-- **What each plan says of itself holds**: the dimensions, budgets, noise, number of workers,
bounds and numbers of blocks of all its experiments. -/
theorem plans_described (table : String → Option (List String)) (incoherent : Xp → Bool)
    (seedg : Nat → Option Nat) (name : String) (hn : name ∈ planNames) (plan : List Xp)
    (h : chain table incoherent seedg (slices name) = some plan) :
    ∃ D, described name = some D ∧
      ∀ xp ∈ plan, xp.fn.fn.d ∈ D.dims ∧ xp.budget ∈ D.budgets ∧ xp.fn.fn.noiseLevel = D.noise ∧
        xp.workers = D.workers ∧ xp.fn.fn.bounded = D.bounded ∧ xp.fn.fn.blocks ∈ D.blocks ∧
        xp.fn.fn.name ∈ names := by
  have key : ∀ name ∈ planNames, (described name).isSome ∧ ∀ f ∈ slices name,
      described name = some ⟨dims f, budgets f, noiseLevel f, if f.parallel then 100 else 1,
        f.bounded || f.box, blocks f⟩ := by
    decide +kernel
  obtain ⟨hd, hs⟩ := key name hn
  obtain ⟨D, hd⟩ := Option.isSome_iff_exists.1 hd
  refine ⟨D, hd, ?_⟩
  intro xp hx
  obtain ⟨f, hf, p, hp, hx⟩ := (mem_chain _ _ _ _ _ h xp).1 hx
  have e := hs f hf
  rw [hd] at e
  have e := Option.some.inj e
  obtain ⟨h1, h2, h3, _, _⟩ := settings _ _ _ _ _ hp xp hx
  obtain ⟨g1, g2, g3, g4, _, g6⟩ := (mem_allFunctions f _).1 h1
  subst e
  exact ⟨g3, h2, g4, h3, g6, g2, g1⟩

/-! ## The constraints -/

/-- Without a case no experiment has constraints or says that it has. -/
theorem no_constraints (table : String → Option (List String)) (incoherent : Xp → Bool)
    (seedg : Nat → Option Nat) (f : Flags) (h0 : f.constraintCase = 0) (plan : List Xp)
    (h : yabbob table incoherent seedg f = some plan) (xp : Xp) (hx : xp ∈ plan) :
    xp.fn.cheap = [] ∧ xp.fn.penalized = [] ∧ xp.hasConstraints = false := by
  have hc : case f = 0 := by unfold case; rw [h0]; split <;> simp
  obtain ⟨fns, a, b, c, o, g, t, hf, ho, hg, ht, e, hi⟩ := (mem_plan _ _ _ _ _ h xp).1 hx
  rw [addConstraints_getElem?] at hg
  obtain ⟨g', _, e'⟩ := Option.map_eq_some_iff.1 hg
  rw [e]
  refine ⟨?_, ?_, ?_⟩
  · show g.cheap = []
    rw [← e']; simp [hc, giveTo]
  · show g.penalized = []
    rw [← e']; simp [hc, giveTo]
  · simp [mk, hc]

/-- The constraint numbered `j` is in the window of a case exactly when `j` is below the case and
within the last `max_num_constraints` before it. -/
theorem mem_window (f : Flags) (c : Ctr) : c ∈ window f ↔
    ∃ j, (constraints f)[j]? = some c ∧ j < (case f).natAbs ∧ (case f).natAbs - maxNum f ≤ j := by
  unfold window
  rw [List.mem_iff_getElem?]
  simp only [List.getElem?_drop, List.getElem?_take]
  constructor
  · rintro ⟨i, hi⟩
    split at hi
    · exact ⟨_, hi, by assumption, Nat.le_add_right _ _⟩
    · cases hi
  · rintro ⟨j, hj, h1, h2⟩
    refine ⟨j - ((case f).natAbs - maxNum f), ?_⟩
    have e : (case f).natAbs - maxNum f + (j - ((case f).natAbs - maxNum f)) = j := by omega
    rw [e, if_pos h1, hj]

/-- **Which experiments have constraints** when there is a case: those of the functions whose
position in the list is a multiple of 13 get the window, cheap or penalized by the sign of the case;
the others get nothing. All of them are marked as having constraints. -/
theorem constraints_partial (table : String → Option (List String)) (incoherent : Xp → Bool)
    (seedg : Nat → Option Nat) (f : Flags) (h0 : case f ≠ 0) (plan : List Xp)
    (h : yabbob table incoherent seedg f = some plan) (xp : Xp) (hx : xp ∈ plan) :
    xp.hasConstraints = true ∧ ∃ fns b, functions f = some fns ∧ fns[b]? = some xp.fn.fn ∧
      xp.fn.cheap = (if 13 ∣ b ∧ 0 < case f then window f else []) ∧
      xp.fn.penalized = (if 13 ∣ b ∧ case f < 0 then window f else []) := by
  obtain ⟨fns, a, b, c, o, g, t, hf, ho, hg, ht, e, hi⟩ := (mem_plan _ _ _ _ _ h xp).1 hx
  rw [addConstraints_getElem?] at hg
  obtain ⟨g', hg', e'⟩ := Option.map_eq_some_iff.1 hg
  have h1 : 0 < (case f).natAbs := Int.natAbs_pos.2 h0
  rw [if_pos h1, Nat.zero_add] at e'
  have hx' : xp.fn = g := by rw [e]; rfl
  refine ⟨by rw [e]; simp [mk, h0], fns, b, hf, ?_, ?_, ?_⟩
  · rw [hx', ← e', hg']
    by_cases h2 : b % 13 = 0 <;> simp [h2, giveTo]
  · rw [hx', ← e']
    by_cases h2 : b % 13 = 0
    · simp [h2, giveTo, Nat.dvd_of_mod_eq_zero h2]
    · have : ¬ 13 ∣ b := fun h => h2 (Nat.mod_eq_zero_of_dvd h)
      simp [h2, this]
  · rw [hx', ← e']
    by_cases h2 : b % 13 = 0
    · simp [h2, giveTo, Nat.dvd_of_mod_eq_zero h2]
    · have : ¬ 13 ∣ b := fun h => h2 (Nat.mod_eq_zero_of_dvd h)
      simp [h2, this]

/-- The number of functions before the reduction: 22 names, two rotations, and the numbers of blocks
and of dimensions. -/
theorem allFunctions_length (f : Flags) :
    (allFunctions f).length = 44 * ((blocks f).length * (dims f).length) := by
  simp only [allFunctions, List.length_flatMap, List.length_map, List.map_const', List.sum_replicate,
    names, List.map_cons, List.map_nil, List.sum_cons, List.sum_nil, List.cons_append,
    List.nil_append, smul_eq_mul]
  ring

theorem sizes_pos (f : Flags) : 0 < (blocks f).length * (dims f).length := by
  apply Nat.mul_pos
  · unfold blocks; cases f.split <;> simp
  · unfold dims
    cases f.hd <;> cases f.tuning <;> cases f.bounded <;> cases f.noise <;> simp

theorem filterMap_length {α β : Type} (f : α → Option β) : ∀ l : List α,
    (∀ x ∈ l, (f x).isSome) → (l.filterMap f).length = l.length := by
  intro l
  induction l with
  | nil => intro _; rfl
  | cons x l ih =>
    intro h
    obtain ⟨y, hy⟩ := Option.isSome_iff_exists.1 (h x List.mem_cons_self)
    rw [List.filterMap_cons_some hy, List.length_cons, List.length_cons,
      ih fun z hz => h z (List.mem_cons_of_mem _ hz)]

/-- The number of experiments of a plan without reduction, when none is incoherent. -/
theorem plan_length (table : String → Option (List String)) (seedg : Nat → Option Nat)
    (f : Flags) (hr : f.reduction = 1) (plan : List Xp)
    (h : yabbob table (fun _ => false) seedg f = some plan) :
    plan.length = (refactorOptims table "yabbob" []).length *
      (44 * ((blocks f).length * (dims f).length) * (budgets f).length) := by
  obtain ⟨fns, hf, hp⟩ := plan_eq _ _ _ _ _ h
  obtain ⟨_, hfns⟩ := functions_some f fns hf
  have hl : fns.length = 44 * ((blocks f).length * (dims f).length) := by
    rw [← allFunctions_length, hfns, hr]
    apply congrArg List.length
    apply List.ext_getElem?
    intro i
    rw [every_getElem? 1 Nat.one_pos, Nat.one_mul]
  have hF : 0 < fns.length := functions_pos f fns hf
  have hB := budgets_pos f
  rw [hp, ← hl]
  have : ∀ n ∈ List.range ((refactorOptims table "yabbob" []).length *
      (fns.length * (budgets f).length)),
      (combination seedg (fun _ => false) f (seedsBefore f) (refactorOptims table "yabbob" [])
        (addConstraints f 0 fns) (budgets f) n).isSome := by
    intro n hn
    rw [List.mem_range] at hn
    have h1 : n / (fns.length * (budgets f).length) < (refactorOptims table "yabbob" []).length := by
      rw [Nat.div_lt_iff_lt_mul (Nat.mul_pos hF hB)]; exact hn
    have h2 : n / (budgets f).length % fns.length < (addConstraints f 0 fns).length := by
      rw [addConstraints_length]; exact Nat.mod_lt _ hF
    have h3 : n % (budgets f).length < (budgets f).length := Nat.mod_lt _ hB
    unfold combination
    rw [addConstraints_length, List.getElem?_eq_getElem h1, List.getElem?_eq_getElem h2,
      List.getElem?_eq_getElem h3]
    rfl
  rw [filterMap_length _ _ this, List.length_range]

example : (yabbob algos (fun _ => false) (seedGenerator (fun s n => 1000 * s + n) (some 7))
    { small := true, reduction := 13 }).map (fun p => (p.length, p[1]?)) =
    some (264, some ⟨⟨⟨"hm", true, 1, 2, 0, false, false⟩, [], []⟩, "CMA", 1, 20, some 7002,
      false⟩) := by
  decide +kernel

/-- **The plan with constraints has experiments without any.** Whatever the seeds and the case, a
plan that is not reduced has an experiment without a constraint; this holds of each slice of the
plans described as having them. -/
theorem constrained_without (table : String → Option (List String)) (seedg : Nat → Option Nat)
    (f : Flags) (hr : f.reduction = 1) (plan : List Xp)
    (h : yabbob table (fun _ => false) seedg f = some plan) :
    ∃ xp ∈ plan, xp.fn.cheap = [] ∧ xp.fn.penalized = [] := by
  obtain ⟨fns, hf, _⟩ := plan_eq _ _ _ _ _ h
  obtain ⟨_, hfns⟩ := functions_some f fns hf
  have h1 : 1 < (allFunctions f).length := by
    rw [allFunctions_length]
    have := sizes_pos f
    omega
  have hg : fns[1]? = some (allFunctions f)[1] := by
    rw [hfns, hr, every_getElem? 1 Nat.one_pos, Nat.mul_one, List.getElem?_eq_getElem h1]
  have ha := addConstraints_getElem? f fns 0 1
  rw [hg] at ha
  obtain ⟨o, ho⟩ : ∃ o, (refactorOptims table "yabbob" [])[0]? = some o := by
    unfold refactorOptims
    cases table "yabbob" with
    | none => exact ⟨_, rfl⟩
    | some l => cases l <;> exact ⟨_, rfl⟩
  obtain ⟨t, ht⟩ : ∃ t, (budgets f)[0]? = some t := ⟨_, List.getElem?_eq_getElem (budgets_pos f)⟩
  refine ⟨_, (mem_plan _ _ _ _ _ h _).2 ⟨fns, 0, 1, 0, o, _, t, hf, ho, ha, ht, rfl, rfl⟩, ?_⟩
  by_cases h0 : case f = 0
  · simp [mk, h0, giveTo]
  · have : 0 < (case f).natAbs := Int.natAbs_pos.2 h0
    simp [mk, this]

/-- In the plans with the eight constraints no case goes far enough to reach the last one, the ball
as a boolean, although the window could. -/
theorem last_never (name : String) (hn : name ∈ ["yaconstrainedbbob", "yapenbbob", "yaonepenbbob"])
    (f : Flags) (hf : f ∈ slices name) : Ctr.plain "ball" true ∉ window f := by
  revert f
  revert hn name
  decide +kernel

/-- The other seven are all used. -/
theorem others_used (c : Ctr) (hc : c ∈ constraints {}) (hb : c ≠ Ctr.plain "ball" true)
    (name : String) (hn : name ∈ ["yaconstrainedbbob", "yapenbbob", "yaonepenbbob"]) :
    ∃ f ∈ slices name, c ∈ window f := by
  revert hb c
  revert hn name
  decide +kernel

/-- In the plan with one penalized constraint each function that has constraints has one; in the
others it has up to four. -/
theorem window_length (f : Flags) : (window f).length ≤ maxNum f := by
  unfold window
  rw [List.length_drop, List.length_take]
  omega

/-- **The plan with a thousand smooth constraints uses the first one only.** -/
theorem mega_first (f : Flags) (hf : f ∈ slices "yamegapenbbob") :
    window f = [Ctr.smooth 0] ∧ (constraints f).length = 1000 := by
  have hall : ∀ f ∈ slices "yamegapenbbob", f = { constraintCase := -1, mega := 1000 } := by
    decide +kernel
  rw [hall f hf]
  have hc : case { constraintCase := -1, mega := 1000 } = -1 := by decide
  have hm : maxNum { constraintCase := -1, mega := 1000 } = 1000 := by decide
  constructor
  · unfold window
    rw [hc, hm]
    unfold constraints
    rw [if_pos (by decide), ← List.map_take, List.take_range]
    rfl
  · unfold constraints
    rw [if_pos (by decide), List.length_map, List.length_range]

/-- **Its six slices are the same**: the plan is six times the same list of experiments, with the same
seeds. -/
theorem mega_copies (table : String → Option (List String)) (incoherent : Xp → Bool)
    (seedg : Nat → Option Nat) :
    ∃ p, chain table incoherent seedg (slices "yamegapenbbob") = some (List.replicate 6 p).flatten := by
  have hs : slices "yamegapenbbob" =
      List.replicate 6 { constraintCase := -1, mega := 1000 } := by decide +kernel
  rw [hs]
  have hx : (yabbob table incoherent seedg { constraintCase := -1, mega := 1000 }).isSome := by
    rw [plan_exists]; decide
  obtain ⟨p, hp⟩ := Option.isSome_iff_exists.1 hx
  refine ⟨p, ?_⟩
  generalize 6 = n
  induction n with
  | zero => rfl
  | succ n ih => simp [List.replicate_succ, chain, hp, ih]

/-- The functions with one name. -/
def inner (f : Flags) (name : String) : List Fn :=
  [true, false].flatMap fun rotation => (blocks f).flatMap fun nb => (dims f).map fun d =>
    { name := name, rotation := rotation, blocks := nb, d := d, noiseLevel := noiseLevel f,
      split := f.split, bounded := f.bounded || f.box }

theorem inner_nodup (f : Flags) (name : String) : (inner f name).Nodup := by
  unfold inner blocks dims
  cases f.split <;> cases f.hd <;> cases f.tuning <;> cases f.bounded <;> cases f.noise <;>
    simp

/-- **Each function named deceptivemultimodal is twice in the list**, and no other function is. -/
theorem twice (f : Flags) (g : Fn) (hg : g ∈ allFunctions f) :
    (allFunctions f).count g = if g.name = "deceptivemultimodal" then 2 else 1 := by
  have hin : ∀ n : String, (inner f n).count g = if n == g.name then 1 else 0 := by
    intro n
    by_cases hn : n = g.name
    · have hm : g ∈ inner f n := by
        rw [mem_allFunctions] at hg
        simp only [inner, List.mem_flatMap, List.mem_map]
        obtain ⟨_, hb, hd, h1, h2, h3⟩ := hg
        refine ⟨g.rotation, by cases g.rotation <;> decide, g.blocks, hb, g.d, hd, ?_⟩
        rw [← h1, ← h2, ← h3, hn]
      rw [List.count_eq_one_of_mem (inner_nodup f n) hm]
      simp [hn]
    · have hm : g ∉ inner f n := by
        simp only [inner, List.mem_flatMap, List.mem_map]
        rintro ⟨_, _, _, _, _, _, rfl⟩
        exact hn rfl
      rw [List.count_eq_zero_of_not_mem hm]
      simp [hn]
  have hsum : (allFunctions f).count g = names.count g.name := by
    show (names.flatMap (inner f)).count g = _
    generalize names = l
    induction l with
    | nil => rfl
    | cons n l ih =>
      rw [List.flatMap_cons, List.count_append, hin, ih, List.count_cons, Nat.add_comm]
  rw [hsum]
  have hname := ((mem_allFunctions f g).1 hg).1
  generalize g.name = m at hname
  revert m
  decide +kernel

/-! ## The optimizers -/

/-- The list given to `refactor_optims` is never used. -/
theorem given_ignored (table : String → Option (List String)) (caller : String)
    (l l' : List String) : refactorOptims table caller l = refactorOptims table caller l' := rfl

/-- Every plan of the family gets the optimizers recorded for `yabbob`. -/
theorem optims_of_yabbob (table : String → Option (List String)) (incoherent : Xp → Bool)
    (seedg : Nat → Option Nat) (l : List Flags) (plan : List Xp)
    (h : chain table incoherent seedg l = some plan) (xp : Xp) (hx : xp ∈ plan) :
    xp.optim ∈ refactorOptims table "yabbob" [] := by
  obtain ⟨f, _, p, hp, hx⟩ := (mem_chain _ _ _ _ _ h xp).1 hx
  exact (settings _ _ _ _ _ hp xp hx).2.2.2.1

/-- **The best optimizers recorded for a plan of the family are not those it gets**: Cobyla is
recorded for `yatinybbob` and no experiment of that plan has it. -/
theorem record_unused (incoherent : Xp → Bool) (seedg : Nat → Option Nat) (plan : List Xp)
    (h : chain algos incoherent seedg (slices "yatinybbob") = some plan) :
    "Cobyla" ∈ refactorOptims algos "yatinybbob" [] ∧ ∀ xp ∈ plan, xp.optim ≠ "Cobyla" := by
  refine ⟨by decide, ?_⟩
  intro xp hx e
  have := optims_of_yabbob algos incoherent seedg _ plan h xp hx
  rw [e] at this
  revert this
  decide

/-! ## What the constraints mean -/

section Meaning
variable {R : Type} [Field R] [LinearOrder R] [IsStrictOrderedRing R]

/-- Exactly the four names have a value. -/
theorem value_isSome (root : R) (name : String) (data : List R) :
    (value root name data).isSome ↔ name ∈ ["sum", "diff", "second_diff", "ball"] := by
  unfold value
  by_cases h1 : name = "sum"
  · simp [h1]
  · by_cases h2 : name = "diff"
    · simp [h2]
    · by_cases h3 : name = "second_diff"
      · simp [h3]
      · by_cases h4 : name = "ball"
        · simp [h4]
        · simp [h1, h2, h3, h4]

/-- The sum with the weights `a`, `b`, `a`, `b`, ... -/
def alternate (a b : R) : List R → R
  | [] => 0
  | x :: l => a * x + alternate b a l

theorem evens_cons (x : R) (l : List R) : evens (x :: l) = x :: odds l := by
  cases l <;> rfl

theorem odds_cons (x : R) (l : List R) : odds (x :: l) = evens l := rfl

theorem alternate_eq (a b : R) (l : List R) :
    alternate a b l = a * (evens l).sum + b * (odds l).sum := by
  induction l generalizing a b with
  | nil => simp [alternate, evens, odds, every, everyFrom]
  | cons x l ih =>
    rw [alternate, ih, evens_cons, odds_cons, List.sum_cons]
    ring

/-- The four values: the sum, the alternating sums with the weights 1, -1 and -3, 2, and the squared
norm minus the length and its root. -/
theorem value_spec (root : R) (data : List R) :
    value root "sum" data = some (alternate 1 1 data) ∧
    value root "diff" data = some (alternate 1 (-1) data) ∧
    value root "second_diff" data = some (alternate (-3) 2 data) ∧
    (∃ v, value root "ball" data = some v ∧
      (0 < v ↔ (data.length : R) + root < (data.map fun x => x * x).sum)) := by
  refine ⟨?_, ?_, ?_, ?_⟩
  · have : data.sum = alternate 1 1 data := by
      induction data with
      | nil => rfl
      | cons x l ih => rw [List.sum_cons, alternate, one_mul, ← ih]
    simp [value, this]
  · rw [alternate_eq]; simp [value, sub_eq_add_neg]
  · rw [alternate_eq]; simp [value]; ring
  · refine ⟨_, rfl, ?_⟩
    have : (data.map fun x => x ^ 2) = data.map fun x => x * x := by
      apply List.map_congr_left; intro x _; ring
    rw [this]
    constructor <;> intro h <;> linarith

/-- A cheap constraint is met where its value is positive (as a boolean) or not negative (as a number);
a penalized one where it is not positive. -/
theorem met_spec (b : Bool) (v : R) :
    (cheapOk (answer b v) = true ↔ 0 < v ∨ b = false ∧ v = 0) ∧
    (penalizedOk (answer b v) = true ↔ v ≤ 0) := by
  cases b
  · simp only [answer, cheapOk, penalizedOk, Bool.false_eq_true, if_false, decide_eq_true_eq,
      true_and, and_true]
    rw [le_iff_lt_or_eq, eq_comm (a := (0 : R))]
  · simp [answer, cheapOk, penalizedOk]

/-- **The same constraint means opposite things** when it is cheap and when it is penalized: as a
boolean one of the two holds and not the other. -/
theorem opposite_bool (v : R) : cheapOk (answer true v) = !penalizedOk (answer true v) := by
  simp [answer, cheapOk, penalizedOk]

/-- As a number both hold only where the value is zero. -/
theorem opposite_num (v : R) :
    (cheapOk (answer false v) = true ∧ penalizedOk (answer false v) = true) ↔ v = 0 := by
  simp only [answer, cheapOk, penalizedOk, Bool.false_eq_true, if_false, decide_eq_true_eq]
  exact ⟨fun h => le_antisymm h.2 h.1, fun h => by rw [h]; exact ⟨le_refl _, le_refl _⟩⟩

/-- One of the two always holds. -/
theorem one_holds (b : Bool) (v : R) :
    cheapOk (answer b v) = true ∨ penalizedOk (answer b v) = true := by
  cases b
  · simp only [answer, cheapOk, penalizedOk, Bool.false_eq_true, if_false, decide_eq_true_eq]
    exact le_total _ _
  · rw [opposite_bool]; cases penalizedOk (answer true v) <;> simp

end Meaning

example : value (2 : ℚ) "diff" [5, 1, 7, 2] = some 9 ∧
    value (2 : ℚ) "second_diff" [5, 1, 7, 2] = some (-30) ∧
    value (2 : ℚ) "ball" [1, 2, 3, 4] = some 24 := by decide +kernel

/-! ## The smooth constraints -/

/-- The point `xs` meets each smooth constraint, as the assertion of the code says. -/
theorem smooth_center {n : Nat} (a : ℝ) (r s q : Fin n → ℝ) : smooth a r s q s ≤ 0 := by
  unfold smooth
  have h1 : ∑ i, ((s i - s i) * r i) ^ 2 = 0 := by simp
  rw [h1, Real.sqrt_zero, mul_zero, zero_sub, neg_nonpos]
  apply Finset.sum_nonneg
  intro i _
  nlinarith [sq_nonneg (s i - q i)]

/-- The point `xfail` violates it unless it is `xs`. -/
theorem smooth_fail {n : Nat} (a : ℝ) (ha : 0 ≤ a) (r s q : Fin n → ℝ) (hq : q ≠ s) :
    0 < smooth a r s q q := by
  unfold smooth
  have h1 : 0 ≤ a * Real.sqrt (∑ i, ((q i - s i) * r i) ^ 2) :=
    mul_nonneg ha (Real.sqrt_nonneg _)
  have h2 : ∑ i, (s i - q i) * (q i - (s i + q i) / 2) = -(∑ i, (s i - q i) ^ 2) / 2 := by
    rw [neg_div, Finset.sum_div, ← Finset.sum_neg_distrib]
    apply Finset.sum_congr rfl
    intro i _
    ring
  have h3 : 0 < ∑ i, (s i - q i) ^ 2 := by
    obtain ⟨i, hi⟩ := Function.ne_iff.1 hq
    apply Finset.sum_pos' (fun i _ => sq_nonneg _)
    refine ⟨i, Finset.mem_univ _, ?_⟩
    have : s i - q i ≠ 0 := sub_ne_zero.2 (Ne.symm hi)
    positivity
  rw [h2]
  linarith

/-- The points that meet it form a convex set: the constraint is a convex function. -/
theorem smooth_convex {n : Nat} (a : ℝ) (ha : 0 ≤ a) (r s q x y : Fin n → ℝ) (t : ℝ) (h0 : 0 ≤ t)
    (h1 : t ≤ 1) : smooth a r s q (fun i => t * x i + (1 - t) * y i) ≤
      t * smooth a r s q x + (1 - t) * smooth a r s q y := by
  have key : Real.sqrt (∑ i, ((t * x i + (1 - t) * y i - s i) * r i) ^ 2) ≤
      t * Real.sqrt (∑ i, ((x i - s i) * r i) ^ 2) +
        (1 - t) * Real.sqrt (∑ i, ((y i - s i) * r i) ^ 2) := by
    have e : ∀ v : Fin n → ℝ, Real.sqrt (∑ i, (v i) ^ 2) = ‖(WithLp.toLp 2 v : EuclideanSpace ℝ (Fin n))‖ := by
      intro v
      rw [EuclideanSpace.norm_eq]
      congr 1
      apply Finset.sum_congr rfl
      intro i _
      rw [Real.norm_eq_abs, sq_abs]
    rw [e (fun i => (t * x i + (1 - t) * y i - s i) * r i), e (fun i => (x i - s i) * r i),
      e (fun i => (y i - s i) * r i)]
    have hs : (WithLp.toLp 2 (fun i => (t * x i + (1 - t) * y i - s i) * r i) :
        EuclideanSpace ℝ (Fin n)) = t • WithLp.toLp 2 (fun i => (x i - s i) * r i) +
        (1 - t) • WithLp.toLp 2 (fun i => (y i - s i) * r i) := by
      ext i
      simp
      ring
    rw [hs]
    refine (norm_add_le _ _).trans ?_
    rw [norm_smul, norm_smul, Real.norm_of_nonneg h0, Real.norm_of_nonneg (by linarith)]
  have lin : ∑ i, (s i - q i) * (t * x i + (1 - t) * y i - (s i + q i) / 2) =
      t * ∑ i, (s i - q i) * (x i - (s i + q i) / 2) +
        (1 - t) * ∑ i, (s i - q i) * (y i - (s i + q i) / 2) := by
    rw [Finset.mul_sum, Finset.mul_sum, ← Finset.sum_add_distrib]
    apply Finset.sum_congr rfl
    intro i _
    ring
  unfold smooth
  rw [lin]
  have := mul_le_mul_of_nonneg_left key ha
  linarith

end NG.Yabbob
