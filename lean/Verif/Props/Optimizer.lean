import Verif.Model.Optimizer
import Verif.Props.Archive
import Verif.Props.Tabu

/-!
# C05 / C12 / C43 / C44 / C45: ask, suggest, tell, counters and constraints
-/

set_option linter.unusedSectionVars false

namespace NG
namespace Opt
variable {α : Type} [Field α] [LinearOrder α]
variable {U K T : Type} [DecidableEq K] [DecidableEq U] [DecidableEq T]

/-- Calls made by the user; `gen` is what the optimizer-specific part does during that ask. -/
inductive Op (α U : Type) where
  | ask (gen : Nat → Gen U)
  | suggest (u : U)
  | tell (u : U) (loss : α) (extra : Option (Bool × α)) (innerOk : Bool)

/-- What the user observes. -/
inductive Event (U : Type) where
  | asked (u : U) (isSuggestion : Bool)
  | askRaised
  | suggested (u : U)
  | told (u : U)
  | tellRaised (u : U)
deriving DecidableEq

/-- One call. -/
def step (cfg : OptCfg α U K T) (s : Opt α U K T) : Op α U → Opt α U K T × Event U
  | .ask gen =>
    match s.ask cfg gen with
    | .raised s => (s, .askRaised)
    | .ok s u sugg => (s, .asked u sugg)
  | .suggest u => (s.suggest u, .suggested u)
  | .tell u loss extra ok =>
    let r := s.tell cfg u loss extra ok
    (r.2, if r.1 then .told u else .tellRaised u)

/-- State and observed events (most recent first) after a chronological list of calls. -/
def run (cfg : OptCfg α U K T) (root : U) (ops : List (Op α U)) : Opt α U K T × List (Event U) :=
  ops.foldl (fun r op => let q := r.1.step cfg op; (q.1, q.2 :: r.2)) (init root, [])

theorem run_snoc (cfg : OptCfg α U K T) (root : U) (ops : List (Op α U)) (op : Op α U) :
    run cfg root (ops ++ [op]) =
      (((run cfg root ops).1.step cfg op).1, ((run cfg root ops).1.step cfg op).2 :: (run cfg root ops).2) := by
  simp [run, List.foldl_append]

/-! ### Frame lemmas -/

/-- The fields untouched by a constraint check. -/
theorem satisfies_frame (cfg : OptCfg α U K T) (s : Opt α U K T) (u : U) :
    let s' := (s.satisfies cfg u).2
    s'.arch = s.arch ∧ s'.numAsk = s.numAsk ∧ s'.numTell = s.numTell ∧
    s'.numTellNotAsked = s.numTellNotAsked ∧ s'.asked = s.asked ∧ s'.suggestions = s.suggestions ∧
    s'.skip = s.skip := by
  unfold satisfies
  split
  · simp
  · split
    · split <;> simp
    · simp

/-- Fields untouched by the trial loop. -/
def SameCore (s s' : Opt α U K T) : Prop :=
  s'.arch = s.arch ∧ s'.numTell = s.numTell ∧ s'.numTellNotAsked = s.numTellNotAsked ∧ s'.asked = s.asked

theorem SameCore.refl (s : Opt α U K T) : SameCore s s := ⟨rfl, rfl, rfl, rfl⟩

theorem SameCore.trans {a b c : Opt α U K T} (h : SameCore a b) (h' : SameCore b c) : SameCore a c :=
  ⟨h'.1.trans h.1, h'.2.1.trans h.2.1, h'.2.2.1.trans h.2.2.1, h'.2.2.2.trans h.2.2.2⟩

theorem satisfies_same (cfg : OptCfg α U K T) (s : Opt α U K T) (u : U) : SameCore s (s.satisfies cfg u).2 := by
  obtain ⟨h1, -, h3, h4, h5, -⟩ := satisfies_frame cfg s u
  exact ⟨h1, h3, h4, h5⟩

theorem attempt_same (cfg : OptCfg α U K T) (s : Opt α U K T) (g : Gen U) (s1 : Opt α U K T) (u : U) (b : Bool)
    (h : s.attempt cfg g = some (s1, u, b)) : SameCore s s1 := by
  unfold attempt at h
  split at h
  · simp only [Option.some.injEq, Prod.mk.injEq] at h; obtain ⟨rfl, -⟩ := h; exact ⟨rfl, rfl, rfl, rfl⟩
  · split at h
    · simp only [Option.some.injEq, Prod.mk.injEq] at h; obtain ⟨rfl, -⟩ := h; exact SameCore.refl _
    · split at h
      · simp only [Option.some.injEq, Prod.mk.injEq] at h; obtain ⟨rfl, -⟩ := h; exact SameCore.refl _
      · simp at h
    · simp at h

/-- State left by an outcome. -/
def AskOut.state : AskOut α U K T → Opt α U K T
  | .raised s => s
  | .ok s _ _ => s

theorem trials_same (cfg : OptCfg α U K T) (gen : Nat → Gen U) (n k : Nat) (s : Opt α U K T) :
    SameCore s (trials cfg gen n k s).state := by
  induction n generalizing k s with
  | zero =>
    unfold trials
    cases ha : s.attempt cfg (gen k) with
    | none => exact SameCore.refl s
    | some r =>
      obtain ⟨s1, u, b⟩ := r
      have h1 := attempt_same cfg s _ s1 u b ha
      have h2 := satisfies_same cfg s1 u
      simp only
      cases hs : s1.satisfies cfg u with
      | mk sat s2 =>
        rw [hs] at h2
        cases sat with
        | true => exact h1.trans ⟨h2.1, h2.2.1, h2.2.2.1, h2.2.2.2⟩
        | false => exact h1.trans ⟨h2.1, h2.2.1, h2.2.2.1, h2.2.2.2⟩
  | succ n ih =>
    unfold trials
    cases ha : s.attempt cfg (gen k) with
    | none => exact SameCore.refl s
    | some r =>
      obtain ⟨s1, u, b⟩ := r
      have h1 := attempt_same cfg s _ s1 u b ha
      have h2 := satisfies_same cfg s1 u
      simp only
      cases hs : s1.satisfies cfg u with
      | mk sat s2 =>
        rw [hs] at h2
        cases sat with
        | true => exact h1.trans ⟨h2.1, h2.2.1, h2.2.2.1, h2.2.2.2⟩
        | false =>
          refine (h1.trans (show SameCore s1 { s2 with numAsk := s2.numAsk + 1 } from
            ⟨h2.1, h2.2.1, h2.2.2.1, h2.2.2.2⟩)).trans ?_
          exact ih (k + 1) _

/-- Effect of `ask` on the counters and on the set of awaiting candidates. -/
theorem ask_effect (cfg : OptCfg α U K T) (gen : Nat → Gen U) (s : Opt α U K T) :
    match s.ask cfg gen with
    | .raised s' => SameCore s s'
    | .ok s' u sugg => s'.arch = s.arch ∧ s'.numTell = s.numTell ∧ s'.numTellNotAsked = s.numTellNotAsked ∧
        s'.numAsk = s.numAsk + 1 ∧
        (sugg = true → s'.asked = s.asked) ∧ (sugg = false → u ∉ s.asked ∧ s'.asked = s.asked ++ [u]) := by
  unfold ask
  simp only
  have hr : ∀ r : AskOut α U K T, r = (if s.skip && s.suggestions.isEmpty then
      match gen 0 with
      | .cand u => .ok s u false
      | _ => .raised s
      else trials cfg gen (maxTrials cfg - 1) 0 s) → SameCore s r.state := by
    rintro r rfl
    split
    · cases gen 0 <;> exact SameCore.refl s
    · exact trials_same cfg gen _ _ _
  generalize hrr : (if s.skip && s.suggestions.isEmpty then
      match gen 0 with
      | .cand u => AskOut.ok s u false
      | _ => .raised s
      else trials cfg gen (maxTrials cfg - 1) 0 s) = r
  have hcore := hr r hrr.symm
  cases r with
  | raised s1 => exact hcore
  | ok s1 u sugg =>
    simp only
    have h2 := satisfies_same cfg s1 u
    cases hs : s1.satisfies cfg u with
    | mk sat s2 =>
      rw [hs] at h2
      have hc := hcore.trans h2
      simp only
      generalize (if !sat && cfg.tabuLength == 0 then cfg.solver u else u) = u'
      by_cases hb : (!sugg && s2.asked.contains u') = true
      · rw [if_pos hb]; exact hc
      · rw [if_neg hb]
        refine ⟨hc.1, hc.2.1, hc.2.2.1, rfl, ?_, ?_⟩
        · intro h; subst h; simpa using hc.2.2.2
        · intro h
          subst h
          simp only [Bool.not_false, Bool.true_and, List.contains_iff_mem] at hb
          simp only [Bool.false_eq_true, if_false]
          rw [← hc.2.2.2]; exact ⟨hb, rfl⟩

/-- Effect of `tell` on the counters. -/
theorem tell_effect (cfg : OptCfg α U K T) (s : Opt α U K T) (u : U) (loss : α) (extra : Option (Bool × α))
    (ok : Bool) :
    let r := s.tell cfg u loss extra ok
    r.1 = ok ∧ r.2.numAsk = s.numAsk ∧ r.2.suggestions = s.suggestions ∧
    (ok = false → r.2.asked = s.asked ∧ r.2.numTell = s.numTell ∧ r.2.numTellNotAsked = s.numTellNotAsked) ∧
    (ok = true → r.2.numTell = s.numTell + 1 ∧ r.2.asked = s.asked.filter (· ≠ u) ∧
      r.2.numTellNotAsked = s.numTellNotAsked + if u ∈ s.asked then 0 else 1) := by
  unfold tell
  have hf := satisfies_frame cfg s u
  cases hs : s.satisfies cfg u with
  | mk sat s2 =>
    rw [hs] at hf
    obtain ⟨h1, h2, h3, h4, h5, h6, h7⟩ := hf
    simp only at h1 h2 h3 h4 h5 h6 h7
    cases ok with
    | false => simp [h2, h3, h4, h5, h6]
    | true =>
      simp only [Bool.not_true, Bool.false_eq_true, if_false]
      by_cases hu : u ∈ s.asked
      · have : s2.asked.contains u = true := by rw [h5]; simpa using hu
        simp only [this, if_true]
        simp [h2, h3, h4, h5, h6, hu]
      · have : s2.asked.contains u = false := by rw [h5]; simpa using hu
        simp only [this, Bool.false_eq_true, if_false]
        refine ⟨trivial, h2, h6, by simp, ?_⟩
        intro _
        refine ⟨by simp [h3], ?_, by simp [h4, hu]⟩
        rw [h5, List.filter_eq_self.2]
        intro a ha
        simp only [decide_eq_true_eq]
        rintro rfl; exact hu ha

/-! ### C05 -/

/-- Specification: after the events `h` (most recent first), candidate `u` awaits its evaluation: it was
returned by an ask (not as a suggestion) and has not been told since. -/
def Awaiting (h : List (Event U)) (u : U) : Prop :=
  ∃ h₁ h₂, h = h₁ ++ .asked u false :: h₂ ∧ .told u ∉ h₁

/-- Specification: number of successful tells. -/
def tellCount (h : List (Event U)) : Nat :=
  (h.filter (fun e => match e with | .told _ => true | _ => false)).length

/-- Specification: number of asks answered by the optimizer itself. -/
def ownAskCount (h : List (Event U)) : Nat :=
  (h.filter (fun e => match e with | .asked _ false => true | _ => false)).length

/-- Specification: number of successful asks. -/
def askCount (h : List (Event U)) : Nat :=
  (h.filter (fun e => match e with | .asked _ _ => true | _ => false)).length

/-- Specification: `NotAskedCount h n`: `n` successful tells concerned a candidate not awaiting. -/
inductive NotAskedCount : List (Event U) → Nat → Prop where
  | nil : NotAskedCount [] 0
  | told_awaiting {h n u} : NotAskedCount h n → Awaiting h u → NotAskedCount (.told u :: h) n
  | told_other {h n u} : NotAskedCount h n → ¬ Awaiting h u → NotAskedCount (.told u :: h) (n + 1)
  | other {h n e} : NotAskedCount h n → (∀ u, e ≠ .told u) → NotAskedCount (e :: h) n

theorem awaiting_nil (u : U) : ¬ Awaiting ([] : List (Event U)) u := by
  rintro ⟨h₁, h₂, h, -⟩; simp at h

theorem awaiting_cons (h : List (Event U)) (e : Event U) (u : U) :
    Awaiting (e :: h) u ↔ e = .asked u false ∨ (e ≠ .told u ∧ Awaiting h u) := by
  constructor
  · rintro ⟨h₁, h₂, heq, hn⟩
    cases h₁ with
    | nil => simp only [List.nil_append, List.cons.injEq] at heq; exact Or.inl heq.1
    | cons a h₁ =>
      simp only [List.cons_append, List.cons.injEq] at heq
      obtain ⟨rfl, rfl⟩ := heq
      simp only [List.mem_cons, not_or] at hn
      exact Or.inr ⟨fun h => hn.1 h.symm, h₁, h₂, rfl, hn.2⟩
  · rintro (rfl | ⟨hne, h₁, h₂, rfl, hn⟩)
    · exact ⟨[], h, rfl, by simp⟩
    · exact ⟨e :: h₁, h₂, rfl, by simp only [List.mem_cons, not_or]; exact ⟨fun h => hne h.symm, hn⟩⟩

theorem length_filter_ne (l : List U) (h : l.Nodup) (u : U) (hu : u ∈ l) :
    (l.filter (· ≠ u)).length + 1 = l.length := by
  induction l with
  | nil => simp at hu
  | cons a l ih =>
    rw [List.nodup_cons] at h
    by_cases hau : a = u
    · subst hau
      have : (a :: l).filter (· ≠ a) = l := by
        rw [List.filter_cons_of_neg (by simp), List.filter_eq_self]
        intro b hb; simp only [decide_eq_true_eq, ne_eq]; rintro rfl; exact h.1 hb
      rw [this]; simp
    · have hu' : u ∈ l := by
        rcases List.mem_cons.1 hu with h1 | h1
        · exact absurd h1.symm hau
        · exact h1
      rw [List.filter_cons_of_pos (by simpa using hau)]
      simp only [List.length_cons]
      rw [ih h.2 hu']

/-- **C05.** After any sequence of ask, suggest and tell (including duplicate tells, foreign candidates and
failing calls): `num_tell` is the number of successful tells; `num_tell_not_asked` the number of those
whose candidate was not awaiting; the awaiting candidates are stored once each; and the asks answered by
the optimizer split into awaiting and answered. -/
theorem counters_exact (cfg : OptCfg α U K T) (root : U) (ops : List (Op α U)) :
    let s := (run cfg root ops).1
    let h := (run cfg root ops).2
    s.numTell = tellCount h ∧ NotAskedCount h s.numTellNotAsked ∧
    s.asked.Nodup ∧ (∀ u, u ∈ s.asked ↔ Awaiting h u) ∧
    ownAskCount h = s.asked.length + (s.numTell - s.numTellNotAsked) ∧ s.numTellNotAsked ≤ s.numTell := by
  induction ops using List.reverseRecOn with
  | nil =>
    refine ⟨rfl, .nil, by simp [run, init], ?_, rfl, le_refl _⟩
    intro u; simp [run, init, awaiting_nil]
  | append_singleton ops op ih =>
    rw [run_snoc]
    generalize (run cfg root ops).1 = s at *
    generalize (run cfg root ops).2 = h at *
    obtain ⟨i1, i2, i3, i4, i5, i6⟩ := ih
    cases op with
    | suggest u =>
      refine ⟨i1, .other i2 (by intro v; simp [step]), i3, ?_, i5, i6⟩
      intro v
      show v ∈ s.asked ↔ Awaiting (.suggested u :: h) v
      rw [awaiting_cons, i4]; simp
    | ask gen =>
      have he := ask_effect cfg gen s
      simp only [step]
      cases ha : s.ask cfg gen with
      | raised s' =>
        rw [ha] at he
        obtain ⟨-, e1, e2, e3⟩ := he
        simp only
        refine ⟨by rw [e1]; exact i1, by rw [e2]; exact .other i2 (by intro v; simp), by rw [e3]; exact i3, ?_, ?_, ?_⟩
        · intro v; rw [e3, awaiting_cons, i4]; simp
        · rw [e1, e2, e3]; exact i5
        · rw [e1, e2]; exact i6
      | ok s' u sugg =>
        rw [ha] at he
        obtain ⟨-, e1, e2, -, e3, e4⟩ := he
        simp only
        refine ⟨by rw [e1]; exact i1, by rw [e2]; exact .other i2 (by intro v; simp), ?_, ?_, ?_, ?_⟩
        · cases sugg with
          | true => rw [e3 rfl]; exact i3
          | false =>
            obtain ⟨hu, hk⟩ := e4 rfl
            rw [hk, List.nodup_append]
            refine ⟨i3, by simp, ?_⟩
            intro a haa b hb
            rw [List.mem_singleton] at hb; subst hb
            intro hab; exact hu (hab ▸ haa)
        · intro v
          rw [awaiting_cons]
          cases sugg with
          | true => rw [e3 rfl, i4]; simp
          | false =>
            obtain ⟨hu, hk⟩ := e4 rfl
            rw [hk, List.mem_append, i4, List.mem_singleton]
            constructor
            · rintro (h | rfl)
              · exact Or.inr ⟨by simp, h⟩
              · exact Or.inl rfl
            · rintro (h | ⟨-, h⟩)
              · simp only [Event.asked.injEq, and_true] at h; exact Or.inr h.symm
              · exact Or.inl h
        · cases sugg with
          | true => rw [e1, e2, e3 rfl]; exact i5
          | false =>
            obtain ⟨hu, hk⟩ := e4 rfl
            rw [e1, e2, hk]
            have : ownAskCount (.asked u false :: h) = ownAskCount h + 1 := by simp [ownAskCount]
            rw [this, i5]; simp; omega
        · rw [e1, e2]; exact i6
    | tell u loss extra ok =>
      have he := tell_effect cfg s u loss extra ok
      simp only [step]
      obtain ⟨e0, -, -, ef, et⟩ := he
      cases ok with
      | false =>
        obtain ⟨e1, e2, e3⟩ := ef rfl
        rw [e0]
        simp only [Bool.false_eq_true, if_false]
        refine ⟨by rw [e2]; exact i1, by rw [e3]; exact .other i2 (by intro v; simp), by rw [e1]; exact i3, ?_, ?_, ?_⟩
        · intro v; rw [e1, awaiting_cons, i4]; simp
        · rw [e1, e2, e3]; exact i5
        · rw [e2, e3]; exact i6
      | true =>
        obtain ⟨e1, e2, e3⟩ := et rfl
        rw [e0]
        simp only [if_true]
        refine ⟨?_, ?_, ?_, ?_, ?_, ?_⟩
        · rw [e1, i1]; simp [tellCount]
        · rw [e3]
          by_cases hu : u ∈ s.asked
          · rw [if_pos hu]; exact .told_awaiting i2 ((i4 u).1 hu)
          · rw [if_neg hu]; exact .told_other i2 (fun hh => hu ((i4 u).2 hh))
        · rw [e2]; exact i3.filter _
        · intro v
          rw [e2, awaiting_cons, List.mem_filter, i4]
          simp only [ne_eq, decide_eq_true_eq, reduceCtorEq, Event.told.injEq, false_or]
          constructor
          · rintro ⟨h1, h2⟩; exact ⟨fun h => h2 h.symm, h1⟩
          · rintro ⟨h1, h2⟩; exact ⟨h2, fun h => h1 h.symm⟩
        · have : ownAskCount (.told u :: h) = ownAskCount h := by simp [ownAskCount]
          rw [this, e1, e2, e3, i5]
          by_cases hu : u ∈ s.asked
          · rw [if_pos hu]
            have := length_filter_ne _ i3 u hu
            omega
          · rw [if_neg hu]
            rw [List.filter_eq_self.2]
            · omega
            · intro a ha
              simp only [ne_eq, decide_eq_true_eq]
              rintro rfl; exact hu ha
        · rw [e1, e3]; split <;> omega

/-- **C05/C45 (partial).** Full claim: `num_ask` is the number of successful asks. Proved for histories in which
no ask raised; missing: after a raising ask the counter may stay inflated (`num_ask_inflated`). -/
theorem num_ask_exact_partial (cfg : OptCfg α U K T) (root : U) (ops : List (Op α U))
    (hnr : .askRaised ∉ (run cfg root ops).2) :
    (run cfg root ops).1.numAsk = askCount (run cfg root ops).2 := by
  induction ops using List.reverseRecOn with
  | nil => rfl
  | append_singleton ops op ih =>
    rw [run_snoc] at hnr ⊢
    simp only [List.mem_cons, not_or] at hnr
    have ih' := ih hnr.2
    generalize (run cfg root ops).1 = s at *
    generalize (run cfg root ops).2 = h at *
    cases op with
    | suggest u => exact ih'
    | ask gen =>
      have he := ask_effect cfg gen s
      simp only [step] at hnr ⊢
      cases ha : s.ask cfg gen with
      | raised s' => rw [ha] at hnr; simp at hnr
      | ok s' u sugg =>
        rw [ha] at he
        simp only
        rw [he.2.2.2.1, ih']
        simp [askCount]
    | tell u loss extra ok =>
      have he := tell_effect cfg s u loss extra ok
      simp only [step]
      rw [he.2.1, ih']
      cases ok <;> simp [he.1, askCount]

/-! ### C12 -/

/-- No constraint and no tabu list. -/
def Unconstrained (cfg : OptCfg α U K T) : Prop :=
  (∀ u, cfg.inside u = true) ∧ (∀ u, cfg.own u = true) ∧ cfg.tabuLength = 0

theorem satisfies_unconstrained (cfg : OptCfg α U K T) (hc : Unconstrained cfg) (s : Opt α U K T) (u : U) :
    s.satisfies cfg u = (true, s) := by
  simp [satisfies, hc.1 u, hc.2.1 u, hc.2.2]

theorem ask_pops (cfg : OptCfg α U K T) (hc : Unconstrained cfg) (gen : Nat → Gen U) (s : Opt α U K T) (u : U)
    (rest : List U) (hs : s.suggestions = u :: rest) :
    ∃ s', s.ask cfg gen = .ok s' u true ∧ s'.suggestions = rest ∧ s'.asked = s.asked ∧
      s'.numAsk = s.numAsk + 1 := by
  unfold ask
  simp only [hs, List.isEmpty_cons, Bool.and_false, Bool.false_eq_true, if_false]
  have ht : ∀ n, trials cfg gen n 0 s = .ok
      { s with suggestions := rest
               skip := s.skip || (s.numAsk % 10 == 0 && cfg.noConstraint u && cfg.tabuLength == 0) } u true := by
    intro n
    unfold trials attempt
    rw [hs]
    simp [satisfies_unconstrained cfg hc]
  rw [ht]
  simp only [satisfies_unconstrained cfg hc]
  simp

theorem ask_generates (cfg : OptCfg α U K T) (hc : Unconstrained cfg) (gen : Nat → Gen U) (s : Opt α U K T) (u : U)
    (hs : s.suggestions = []) (hg : gen 0 = .cand u) (hu : u ∉ s.asked) :
    ∃ s', s.ask cfg gen = .ok s' u false ∧ s'.suggestions = [] ∧ s'.asked = s.asked ++ [u] ∧
      s'.numAsk = s.numAsk + 1 := by
  unfold ask
  have ht : ∀ n, trials cfg gen n 0 s = .ok { s with
      skip := s.skip || (s.numAsk % 10 == 0 && cfg.noConstraint u && cfg.tabuLength == 0) } u false := by
    intro n
    unfold trials attempt
    rw [hs, hg]
    simp [satisfies_unconstrained cfg hc, hs]
  simp only [hs, List.isEmpty_nil, Bool.and_true]
  by_cases hk : s.skip = true
  · simp only [hk, if_true, hg, satisfies_unconstrained cfg hc]
    simp [hu, hs]
  · simp only [hk, ht, satisfies_unconstrained cfg hc]
    simp [hu, hs]

/-- Suggest/ask calls only. -/
inductive SOp (U : Type) where
  | suggest (u : U)
  | ask (gen : Nat → Gen U)

/-- Specification: answers expected from a last-in first-out stack of suggestions; `none` means that the
answer comes from the optimizer. -/
def stackAnswers : List U → List (SOp U) → List (Option U)
  | _, [] => []
  | st, .suggest u :: ops => stackAnswers (u :: st) ops
  | [], .ask _ :: ops => none :: stackAnswers [] ops
  | u :: st, .ask _ :: ops => some u :: stackAnswers st ops

/-- Answers of the optimizer: the suggestion returned, or `none` for an optimizer-generated candidate or a
raising ask. -/
def answers (cfg : OptCfg α U K T) : Opt α U K T → List (SOp U) → List (Option U)
  | _, [] => []
  | s, .suggest u :: ops => answers cfg (s.suggest u) ops
  | s, .ask gen :: ops =>
    match s.ask cfg gen with
    | .raised s' => none :: answers cfg s' ops
    | .ok s' u sugg => (if sugg then some u else none) :: answers cfg s' ops

theorem trials_suggestions_nil (cfg : OptCfg α U K T) (hc : Unconstrained cfg) (gen : Nat → Gen U) (n k : Nat)
    (s : Opt α U K T) (hs : s.suggestions = []) :
    (trials cfg gen n k s).state.suggestions = [] ∧ ∀ s' u b, trials cfg gen n k s = .ok s' u b → b = false := by
  have : ∀ n, trials cfg gen n k s = match gen k with
      | .cand u => .ok { s with skip := s.skip ||
          (s.numAsk % 10 == 0 && cfg.noConstraint u && cfg.tabuLength == 0) } u false
      | .assertion u => if cfg.hasCheckers then .ok { s with skip := s.skip ||
          (s.numAsk % 10 == 0 && cfg.noConstraint u && cfg.tabuLength == 0) } u false else .raised s
      | .raises => .raised s := by
    intro n
    unfold trials attempt
    rw [hs]
    cases gen k with
    | cand u => simp [satisfies_unconstrained cfg hc, hc.2.2, hs]
    | assertion u => cases cfg.hasCheckers <;> simp [satisfies_unconstrained cfg hc, hc.2.2, hs]
    | raises => simp
  rw [this]
  cases gen k with
  | cand u => refine ⟨hs, ?_⟩; intro s' v b h; simp at h; exact h.2.2.symm ▸ rfl
  | assertion u =>
    cases cfg.hasCheckers with
    | true => refine ⟨hs, ?_⟩; intro s' v b h; simp at h; exact h.2.2.symm ▸ rfl
    | false => exact ⟨hs, by intro s' v b h; simp at h⟩
  | raises => exact ⟨hs, by intro s' v b h; simp at h⟩

/-- **C12.** Whatever the interleaving of suggest and ask (and whatever the optimizer itself generates), without
constraints the suggestions are returned in last-in first-out order, each exactly once, before any
generated candidate. -/
theorem suggestions_lifo (cfg : OptCfg α U K T) (hc : Unconstrained cfg) (s : Opt α U K T) (ops : List (SOp U)) :
    answers cfg s ops = stackAnswers s.suggestions ops := by
  induction ops generalizing s with
  | nil => cases s.suggestions <;> rfl
  | cons op ops ih =>
    cases op with
    | suggest u =>
      show answers cfg (s.suggest u) ops = _
      rw [ih]
      cases hs : s.suggestions <;> simp [stackAnswers, suggest, hs]
    | ask gen =>
      cases hs : s.suggestions with
      | cons u rest =>
        obtain ⟨s', ha, h1, -⟩ := ask_pops cfg hc gen s u rest hs
        simp only [answers, ha, if_true, stackAnswers]
        rw [ih, h1]
      | nil =>
        simp only [answers, stackAnswers]
        have key : ∀ o, s.ask cfg gen = o → o.state.suggestions = [] ∧ ∀ s' u b, o = .ok s' u b → b = false := by
          rintro o rfl
          unfold ask
          simp only [hs, List.isEmpty_nil, Bool.and_true]
          have hr : ∀ r : AskOut α U K T, r = (if s.skip = true then
              match gen 0 with
              | .cand u => .ok s u false
              | _ => .raised s
              else trials cfg gen (maxTrials cfg - 1) 0 s) →
              r.state.suggestions = [] ∧ ∀ s' u b, r = .ok s' u b → b = false := by
            rintro r rfl
            split
            · cases gen 0 with
              | cand u => exact ⟨hs, by intro s' v b h; simp at h; exact h.2.2.symm ▸ rfl⟩
              | assertion u => exact ⟨hs, by intro s' v b h; simp at h⟩
              | raises => exact ⟨hs, by intro s' v b h; simp at h⟩
            · exact trials_suggestions_nil cfg hc gen _ _ s hs
          generalize hrr : (if s.skip = true then
              match gen 0 with
              | .cand u => AskOut.ok s u false
              | _ => .raised s
              else trials cfg gen (maxTrials cfg - 1) 0 s) = r
          obtain ⟨k1, k2⟩ := hr r hrr.symm
          cases r with
          | raised s1 => exact ⟨k1, by intro s' v b h; simp at h⟩
          | ok s1 u b =>
            have hb := k2 s1 u b rfl
            subst hb
            simp only [satisfies_unconstrained cfg hc]
            generalize (if (!true && cfg.tabuLength == 0) = true then cfg.solver u else u) = u'
            split
            · exact ⟨k1, by intro s' v b h; simp at h⟩
            · exact ⟨k1, by intro s' v b h; simp at h; exact h.2.2.symm ▸ rfl⟩
        cases ha : s.ask cfg gen with
        | raised s' =>
          obtain ⟨k1, -⟩ := key _ ha
          simp only
          rw [ih, show s'.suggestions = [] from k1]
        | ok s' u b =>
          obtain ⟨k1, k2⟩ := key _ ha
          have hb := k2 s' u b rfl
          subst hb
          simp only [Bool.false_eq_true, if_false]
          rw [ih, show s'.suggestions = [] from k1]

/-- **C12.** Suggesting `us` and then asking as many times returns `us` in reverse order. -/
theorem suggestions_reversed (cfg : OptCfg α U K T) (hc : Unconstrained cfg) (s : Opt α U K T)
    (hs : s.suggestions = []) (us : List U) (gens : List (Nat → Gen U)) (hl : gens.length = us.length) :
    answers cfg s (us.map SOp.suggest ++ gens.map SOp.ask) = us.reverse.map some := by
  rw [suggestions_lifo cfg hc, hs]
  have h1 : ∀ (us : List U) st ops, stackAnswers st (us.map SOp.suggest ++ ops) = stackAnswers (us.reverse ++ st) ops := by
    intro us
    induction us with
    | nil => intro st ops; simp
    | cons u us ih => intro st ops; cases st <;> simp [stackAnswers, ih]
  have h2 : ∀ (st : List U) (gens : List (Nat → Gen U)), gens.length = st.length →
      stackAnswers st (gens.map SOp.ask) = st.map some := by
    intro st
    induction st with
    | nil => intro gens h; simp at h; simp [h, stackAnswers]
    | cons u st ih =>
      intro gens h
      cases gens with
      | nil => simp at h
      | cons g gens => simp at h; simp [stackAnswers, ih gens h]
  rw [h1, List.append_nil, h2 _ _ (by simpa using hl)]

/-- **C12.** Telling a suggested candidate (that the optimizer itself did not ask) counts as a tell of a
non-asked candidate. -/
theorem suggestion_told_not_asked (cfg : OptCfg α U K T) (hc : Unconstrained cfg) (gen : Nat → Gen U)
    (s : Opt α U K T) (u : U) (hu : u ∉ s.asked) (loss : α) :
    ∃ s', (s.suggest u).ask cfg gen = .ok s' u true ∧
      (s'.tell cfg u loss none true).2.numTellNotAsked = s.numTellNotAsked + 1 := by
  obtain ⟨s', h1, h2, h3, -⟩ := ask_pops cfg hc gen (s.suggest u) u s.suggestions rfl
  refine ⟨s', h1, ?_⟩
  have he := ask_effect cfg gen (s.suggest u)
  rw [h1] at he
  have ht := (tell_effect cfg s' u loss none true).2.2.2.2 rfl
  rw [ht.2.2, he.2.2.1, h3]
  have : u ∉ (s.suggest u).asked := hu
  rw [if_neg this]; rfl

/-! ### C45 -/

/-- **C45.** A successful ask adds exactly one to `num_ask`, whatever the number of attempts. -/
theorem ask_counts_once_partial (cfg : OptCfg α U K T) (gen : Nat → Gen U) (s s' : Opt α U K T) (u : U) (b : Bool)
    (h : s.ask cfg gen = .ok s' u b) : s'.numAsk = s.numAsk + 1 := by
  have := ask_effect cfg gen s
  rw [h] at this; exact this.2.2.2.1

theorem trials_congr (cfg : OptCfg α U K T) (gen gen' : Nat → Gen U) (n k : Nat) (s : Opt α U K T)
    (h : ∀ i, k ≤ i → i ≤ k + n → gen i = gen' i) : trials cfg gen n k s = trials cfg gen' n k s := by
  induction n generalizing k s with
  | zero => unfold trials; rw [h k (le_refl _) (by omega)]
  | succ n ih =>
    unfold trials
    rw [h k (le_refl _) (by omega)]
    cases s.attempt cfg (gen' k) with
    | none => rfl
    | some r =>
      obtain ⟨s1, u, b⟩ := r
      simp only
      cases s1.satisfies cfg u with
      | mk sat s2 =>
        cases sat with
        | true => rfl
        | false => exact ih (k + 1) _ (fun i h1 h2 => h i (by omega) (by omega))

/-- **C45.** At most `max(1, max_trials // 2)` candidates are generated during one ask: the outcome only
depends on that many answers of the optimizer-specific part. -/
theorem ask_bounded_attempts_partial (cfg : OptCfg α U K T) (gen gen' : Nat → Gen U) (s : Opt α U K T)
    (h : ∀ i < max 1 (cfg.maxTrials / 2), gen i = gen' i) : s.ask cfg gen = s.ask cfg gen' := by
  unfold ask
  have h0 : gen 0 = gen' 0 := h 0 (by simp)
  rw [h0, trials_congr cfg gen gen' (maxTrials cfg - 1) 0 s]
  intro i _ hi
  apply h
  have : maxTrials cfg = max 1 (cfg.maxTrials / 2) := rfl
  have : 1 ≤ maxTrials cfg := le_max_left _ _
  omega

theorem satisfies_notabu (cfg : OptCfg α U K T) (ht : cfg.tabuLength = 0) (s : Opt α U K T) (u : U) :
    s.satisfies cfg u = (feasible cfg u, s) := by
  unfold satisfies feasible
  cases cfg.inside u <;> simp [ht]

/-- Trial loop without suggestions nor tabu list, over given candidates. -/
theorem trials_find (cfg : OptCfg α U K T) (ht : cfg.tabuLength = 0) (gen : Nat → Gen U) (c : Nat → U)
    (n k : Nat) (s : Opt α U K T) (hs : s.suggestions = []) (hg : ∀ i, k ≤ i → i ≤ k + n → gen i = .cand (c i)) :
    ∃ s', SameCore s s' ∧
      ((∃ j, k ≤ j ∧ j ≤ k + n ∧ feasible cfg (c j) = true ∧ (∀ i, k ≤ i → i < j → feasible cfg (c i) = false) ∧
        trials cfg gen n k s = .ok s' (c j) false) ∨
      ((∀ i, k ≤ i → i ≤ k + n → feasible cfg (c i) = false) ∧ trials cfg gen n k s = .ok s' (c (k + n)) false)) := by
  induction n generalizing k s with
  | zero =>
    have hgk := hg k (le_refl _) (by omega)
    unfold trials attempt
    rw [hs, hgk]
    simp only [satisfies_notabu cfg ht]
    cases hf : feasible cfg (c k) with
    | true => 
      refine ⟨{ s with skip := s.skip || (s.numAsk % 10 == 0 && cfg.noConstraint (c k) && cfg.tabuLength == 0) },
        ⟨rfl, rfl, rfl, rfl⟩, Or.inl ⟨k, le_refl _, by omega, hf, by intro i h1 h2; omega, ?_⟩⟩
      simp [hs]
    | false =>
      refine ⟨{ s with numAsk := s.numAsk + 1 }, ⟨rfl, rfl, rfl, rfl⟩, Or.inr ⟨?_, by simp [hs]⟩⟩
      intro i h1 h2
      have : i = k := by omega
      rw [this]; exact hf
  | succ n ih =>
    have hgk := hg k (le_refl _) (by omega)
    unfold trials attempt
    rw [hs, hgk]
    simp only [satisfies_notabu cfg ht]
    cases hf : feasible cfg (c k) with
    | true => 
      refine ⟨{ s with skip := s.skip || (s.numAsk % 10 == 0 && cfg.noConstraint (c k) && cfg.tabuLength == 0) },
        ⟨rfl, rfl, rfl, rfl⟩, Or.inl ⟨k, le_refl _, by omega, hf, by intro i h1 h2; omega, ?_⟩⟩
      simp [hs]
    | false =>
      simp only
      obtain ⟨s', h1, h2⟩ := ih (k + 1) { s with numAsk := s.numAsk + 1 } hs
        (fun i h1 h2 => hg i (by omega) (by omega))
      refine ⟨s', ⟨h1.1, h1.2.1, h1.2.2.1, h1.2.2.2⟩, ?_⟩
      rcases h2 with ⟨j, a1, a2, a3, a4, a5⟩ | ⟨a1, a2⟩
      · refine Or.inl ⟨j, by omega, by omega, a3, ?_, ?_⟩
        · intro i h1 h2
          rcases Nat.eq_or_lt_of_le h1 with h3 | h3
          · rw [← h3]; exact hf
          · exact a4 i h3 h2
        · rw [← a5]
      · refine Or.inr ⟨?_, ?_⟩
        · intro i h1 h2
          rcases Nat.eq_or_lt_of_le h1 with h3 | h3
          · rw [← h3]; exact hf
          · exact a1 i h3 (by omega)
        · rw [show k + (n + 1) = k + 1 + n by omega, ← a2]

/-- **C45.** Without pending suggestions nor tabu list, when the optimizer proposes candidates `c 0, c 1, ...`:
if one of the first `max(1, max_trials // 2)` is feasible, ask returns the first feasible one; otherwise
it returns the projection of the last one by the constraint solver. -/
theorem ask_returns_feasible_partial (cfg : OptCfg α U K T) (ht : cfg.tabuLength = 0) (gen : Nat → Gen U) (c : Nat → U)
    (s : Opt α U K T) (hs : s.suggestions = []) (hskip : s.skip = false)
    (hg : ∀ i < max 1 (cfg.maxTrials / 2), gen i = .cand (c i))
    (hfresh : ∀ i, c i ∉ s.asked ∧ cfg.solver (c i) ∉ s.asked) :
    (∀ j < max 1 (cfg.maxTrials / 2), feasible cfg (c j) = true → (∀ i < j, feasible cfg (c i) = false) →
      ∃ s', s.ask cfg gen = .ok s' (c j) false) ∧
    ((∀ i < max 1 (cfg.maxTrials / 2), feasible cfg (c i) = false) →
      ∃ s', s.ask cfg gen = .ok s' (cfg.solver (c (max 1 (cfg.maxTrials / 2) - 1))) false) := by
  have hM : maxTrials cfg = max 1 (cfg.maxTrials / 2) := rfl
  have hM1 : 1 ≤ maxTrials cfg := le_max_left _ _
  rw [← hM] at hg ⊢
  obtain ⟨s1, hcore, hcase⟩ := trials_find cfg ht gen c (maxTrials cfg - 1) 0 s hs
    (fun i _ h => hg i (by omega))
  unfold ask
  simp only [hskip, Bool.false_and, Bool.false_eq_true, if_false]
  constructor
  · intro j hj hf hmin
    rcases hcase with ⟨j', -, b2, b3, b4, b5⟩ | ⟨b1, -⟩
    · have : j' = j := by
        rcases Nat.lt_trichotomy j j' with h | h | h
        · have := b4 j (by omega) h; rw [hf] at this; simp at this
        · exact h.symm
        · have := hmin j' h; rw [b3] at this; simp at this
      subst this
      rw [b5]
      simp only [satisfies_notabu cfg ht, b3]
      have hn : c j' ∉ s1.asked := by rw [hcore.2.2.2]; exact (hfresh j').1
      simp [hn]
    · have := b1 j (by omega) (by omega); rw [hf] at this; simp at this
  · intro hall
    rcases hcase with ⟨j', -, b2, b3, -⟩ | ⟨-, b2⟩
    · have := hall j' (by omega); rw [b3] at this; simp at this
    · rw [b2]
      have hf := hall (0 + (maxTrials cfg - 1)) (by omega)
      simp only [satisfies_notabu cfg ht, hf]
      simp only [ht, Nat.zero_add]
      have hn : cfg.solver (c (maxTrials cfg - 1)) ∉ s1.asked := by
        rw [hcore.2.2.2]; exact (hfresh _).2
      simp [hn]

/-! ### C44 -/

/-- Specification: a tell recorded by the archive: the candidate satisfies the constraints and no violation
was passed. -/
def Clean (cfg : OptCfg α U K T) (op : Op α U) : Option U :=
  match op with
  | .tell u _ extra _ => if feasible cfg u && (match extra with | some (true, _) => false | _ => true) then some u else none
  | _ => none

/-- The part of the archive state that decides the recommendation. -/
theorem tell_not_clean (cfg : OptCfg α U K T) (hb : cfg.budget.isSome = true) (s : Opt α U K T)
    (u : U) (loss : α) (extra : Option (Bool × α)) (ok : Bool)
    (hn : Clean cfg (.tell u loss extra ok) = none) :
    let a := (s.tell cfg u loss extra ok).2.arch
    a.heap = s.arch.heap ∧ a.next = s.arch.next ∧ a.archive = s.arch.archive ∧ a.bests = s.arch.bests := by
  have hfr := satisfies_frame cfg s u
  have hsat : (s.satisfies cfg u).1 = true → feasible cfg u = true := by
    unfold satisfies feasible
    cases cfg.inside u with
    | false => simp
    | true =>
      simp only [Bool.not_true, Bool.false_eq_true, if_false, Bool.true_and]
      split
      · split <;> simp
      · simp
  unfold tell
  cases hs : s.satisfies cfg u with
  | mk sat s2 =>
    rw [hs] at hfr hsat
    have ha : s2.arch = s.arch := hfr.1
    have hnu : ∀ q : Bool × α, q = (match extra with
        | none => (if !sat && cfg.budget.isSome then (true, loss + cfg.penalty s2.numAsk u) else (false, loss))
        | some (viol, amount) =>
          ((if !sat && cfg.budget.isSome then (true, loss + cfg.penalty s2.numAsk u) else (false, loss)).1 || viol,
           (if !sat && cfg.budget.isSome then (true, loss + cfg.penalty s2.numAsk u) else (false, loss)).2 + amount)) →
        q.1 = true := by
      rintro q rfl
      cases hsv : sat with
      | false => cases extra <;> simp [hb]
      | true =>
        have hf := hsat hsv
        simp only [Clean, hf, Bool.true_and] at hn
        cases extra with
        | none => simp at hn
        | some e =>
          obtain ⟨v, a⟩ := e
          cases v with
          | false => simp at hn
          | true => simp
    have key := hnu _ rfl
    cases extra with
    | none =>
      simp only at key ⊢
      simp only [key, if_true]
      cases ok
      · simp [ha]
      · simp only [Bool.not_true, Bool.false_eq_true, if_false]
        split <;> simp [ha]
    | some e =>
      obtain ⟨v, a⟩ := e
      simp only at key ⊢
      simp only [key, if_true]
      cases ok
      · simp [ha]
      · simp only [Bool.not_true, Bool.false_eq_true, if_false]
        split <;> simp [ha]

/-- Addresses of values: every stored candidate satisfies `P`. -/
def AllParams (P : U → Prop) (a : ArchiveSt α U K) : Prop :=
  (∀ i, i < a.next → P (a.heap i).param) ∧ (∀ e ∈ a.archive, e.2 < a.next) ∧
  (∀ c i, a.bests c = some i → i < a.next)

theorem updateBest_cases (cfg : ArchiveCfg α U K) (s : ArchiveSt α U K) (i : Nat) (ex : Bool) (c : Crit) (j : Nat)
    (h : s.updateBest cfg i ex c = some j) : j = i ∨ j ∈ s.archive.map (·.2) ∨ s.bests c = some j := by
  unfold ArchiveSt.updateBest at h
  split at h
  · exact Or.inr (Or.inl ((firstMin_spec _ _).2 j h).1)
  · split at h
    · simp only [Option.some.injEq] at h; exact Or.inl h.symm
    · exact Or.inr (Or.inr h)

theorem tellAs_allParams (P : U → Prop) (cfg : ArchiveCfg α U K) (hpr : ArchiveSt.PruneRemoves cfg)
    (a : ArchiveSt α U K) (u : U) (told loss : α) (ha : AllParams P a) (hu : P u) :
    AllParams P (a.tellAs cfg u told loss) := by
  obtain ⟨h1, h2, h3⟩ := ha
  unfold ArchiveSt.tellAs
  simp only
  unfold ArchiveSt.record
  set a1 : ArchiveSt α U K := { a with candLoss := fun v => if v = u then some told else a.candLoss v } with ha1
  cases hl : a1.lookup (cfg.key u) with
  | none =>
    simp only
    refine ⟨?_, ?_, ?_⟩
    · intro i hi
      simp only at hi ⊢
      by_cases hin : i = a1.next
      · rw [if_pos hin]; exact hu
      · rw [if_neg hin]; exact h1 i (by have : a1.next = a.next := rfl; omega)
    · intro e he
      have := (hpr _ _).subset he
      rw [List.mem_append, List.mem_singleton] at this
      rcases this with h | h
      · have := h2 e h; have : a1.next = a.next := rfl; simp only; omega
      · rw [h]; simp
    · intro c i hi
      dsimp only at hi
      rcases updateBest_cases cfg _ _ _ _ _ hi with h | h | h
      · rw [h]; simp
      · obtain ⟨e, he, rfl⟩ := List.mem_map.1 h
        simp only [List.mem_append, List.mem_singleton] at he
        rcases he with h | h
        · have := h2 e h; have : a1.next = a.next := rfl; simp only; omega
        · rw [h]; simp
      · have := h3 c i h; have : a1.next = a.next := rfl; simp only; omega
  | some i0 =>
    have hi0 : i0 < a.next := h2 _ (ArchiveSt.lookup_some a1 _ _ hl)
    simp only
    refine ⟨?_, ?_, ?_⟩
    · intro i hi
      simp only
      by_cases hin : i = i0
      · rw [if_pos hin]
        split
        · exact hu
        · exact h1 i0 hi0
      · rw [if_neg hin]; exact h1 i hi
    · intro e he; exact h2 e ((hpr _ _).subset he)
    · intro c i hi
      dsimp only at hi
      rcases updateBest_cases cfg _ _ _ _ _ hi with h | h | h
      · rw [h]; exact hi0
      · obtain ⟨e, he, rfl⟩ := List.mem_map.1 h; exact h2 e he
      · exact h3 c i h

theorem tell_arch_cases (cfg : OptCfg α U K T) (s : Opt α U K T) (u : U) (loss : α) (extra : Option (Bool × α))
    (ok : Bool) : (∃ loss', (s.tell cfg u loss extra ok).2.arch = s.arch.tellAs cfg.acfg u loss loss') ∨
      (s.tell cfg u loss extra ok).2.arch =
        { s.arch with candLoss := fun v => if v = u then some loss else s.arch.candLoss v } := by
  unfold tell
  have hfr := satisfies_frame cfg s u
  cases hs : s.satisfies cfg u with
  | mk sat s2 =>
    rw [hs] at hfr
    have ha : s2.arch = s.arch := hfr.1
    simp only
    have aux : ∀ (q : Bool × α), (∃ loss', (if q.1 then
        { s2.arch with candLoss := fun v => if v = u then some loss else s2.arch.candLoss v }
        else s2.arch.tellAs cfg.acfg u loss q.2) = s.arch.tellAs cfg.acfg u loss loss') ∨
        (if q.1 then
        { s2.arch with candLoss := fun v => if v = u then some loss else s2.arch.candLoss v }
        else s2.arch.tellAs cfg.acfg u loss q.2) =
        { s.arch with candLoss := fun v => if v = u then some loss else s.arch.candLoss v } := by
      intro q
      rw [ha]
      cases q.1 with
      | true => right; simp
      | false => left; exact ⟨q.2, by simp⟩
    cases extra with
    | none =>
      have := aux (if !sat && cfg.budget.isSome then (true, loss + cfg.penalty s2.numAsk u) else (false, loss))
      cases ok
      · exact this
      · simp only [Bool.not_true, Bool.false_eq_true, if_false]
        split <;> exact this
    | some e =>
      obtain ⟨v, a⟩ := e
      have := aux ((if !sat && cfg.budget.isSome then (true, loss + cfg.penalty s2.numAsk u) else (false, loss)).1 || v,
        (if !sat && cfg.budget.isSome then (true, loss + cfg.penalty s2.numAsk u) else (false, loss)).2 + a)
      cases ok
      · exact this
      · simp only [Bool.not_true, Bool.false_eq_true, if_false]
        split <;> exact this

/-- **C44.** With a budget, whatever the calls, the recommendation is either the initial parametrization or a
candidate that satisfies the constraints and was told without a positive constraint violation. -/
theorem recommend_feasible_partial (cfg : OptCfg α U K T) (hb : cfg.budget.isSome = true)
    (hpr : ArchiveSt.PruneRemoves cfg.acfg) (root : U) (ops : List (Op α U)) (det : Bool) :
    let r := (run cfg root ops).1.arch.recommend root det
    r = root ∨ (feasible cfg r = true ∧ ∃ op ∈ ops, Clean cfg op = some r) := by
  have inv : AllParams (fun u => feasible cfg u = true ∧ ∃ op ∈ ops, Clean cfg op = some u)
      (run cfg root ops).1.arch := by
    induction ops using List.reverseRecOn with
    | nil => refine ⟨?_, ?_, ?_⟩ <;> simp [run, init, ArchiveSt.init]
    | append_singleton ops op ih =>
      have ih' : AllParams (fun u => feasible cfg u = true ∧ ∃ o ∈ ops ++ [op], Clean cfg o = some u)
          (run cfg root ops).1.arch := by
        refine ⟨fun i hi => ?_, ih.2⟩
        obtain ⟨h1, o, ho, h2⟩ := ih.1 i hi
        exact ⟨h1, o, List.mem_append_left _ ho, h2⟩
      rw [run_snoc]
      generalize (run cfg root ops).1 = s at *
      cases op with
      | suggest u => exact ih'
      | ask gen =>
        have he := ask_effect cfg gen s
        simp only [step]
        cases ha : s.ask cfg gen with
        | raised s' => rw [ha] at he; simp only; rw [he.1]; exact ih'
        | ok s' u b => rw [ha] at he; simp only; rw [he.1]; exact ih'
      | tell u loss extra ok =>
        simp only [step]
        cases hc : Clean cfg (.tell u loss extra ok) with
        | none =>
          obtain ⟨e1, e2, e3, e4⟩ := tell_not_clean cfg hb s u loss extra ok hc
          refine ⟨?_, ?_, ?_⟩
          · intro i hi; rw [e2] at hi; rw [e1]; exact ih'.1 i hi
          · intro e he; rw [e3] at he; rw [e2]; exact ih'.2.1 e he
          · intro c i hi; rw [e4] at hi; rw [e2]; exact ih'.2.2 c i hi
        | some v =>
          have hv : v = u ∧ feasible cfg u = true := by
            simp only [Clean] at hc
            rw [Option.ite_none_right_eq_some, Bool.and_eq_true, Option.some.injEq] at hc
            exact ⟨hc.2.symm, hc.1.1⟩
          have hu : feasible cfg u = true ∧ ∃ o ∈ ops ++ [Op.tell u loss extra ok], Clean cfg o = some u :=
            ⟨hv.2, Op.tell u loss extra ok, by simp, by rw [hc, hv.1]⟩
          rcases tell_arch_cases cfg s u loss extra ok with ⟨l', h⟩ | h
          · rw [h]; exact tellAs_allParams _ cfg.acfg hpr _ u loss l' ih' hu
          · rw [h]; exact ⟨ih'.1, ih'.2.1, ih'.2.2⟩
  simp only [ArchiveSt.recommend]
  cases hbest : (run cfg root ops).1.arch.bests (if det then .minimum else .pessimistic) with
  | none => exact Or.inl rfl
  | some i => exact Or.inr (inv.1 i (inv.2.2 _ _ hbest))

/-- **C44, disagreement.** Without a budget an infeasible told candidate is recorded and may be recommended. -/
theorem recommend_infeasible_without_budget :
    let cfg : OptCfg ℚ Nat Nat Nat :=
      { acfg := ⟨id, id, fun _ a => a⟩, inside := fun _ => true,
        own := fun u => u != 7, noConstraint := fun _ => false, tabuKey := id, tabuLength := 0, budget := none,
        penalty := fun _ _ => 1, maxTrials := 1000, hasCheckers := true, solver := id }
    (run cfg 0 [.tell 7 1 none true]).1.arch.recommend 0 true = 7 := by decide +kernel

/-! ### C01 for full ask/suggest/tell histories -/

/-- Specification: the told (candidate, loss) pairs of a list of calls without constraint violations, in
chronological order. Tells whose optimizer-specific part raises are included: the archive is updated before. -/
def toldPairs : List (Op α U) → List (U × α)
  | [] => []
  | .tell u loss _ _ :: ops => (u, loss) :: toldPairs ops
  | _ :: ops => toldPairs ops

theorem toldPairs_append (a b : List (Op α U)) : toldPairs (a ++ b) = toldPairs a ++ toldPairs b := by
  induction a with
  | nil => rfl
  | cons op a ih => cases op <;> simp [toldPairs, ih]

/-- No call passes constraint violations. -/
def NoViolation (ops : List (Op α U)) : Prop :=
  ∀ op ∈ ops, ∀ u loss extra ok, op = Op.tell u loss extra ok → extra = none

/-- Without constraints, the archive after any interleaving of calls is the archive of its tells. -/
theorem unconstrained_archive (cfg : OptCfg α U K T) (hc : Unconstrained cfg) (root : U) (ops : List (Op α U))
    (hv : NoViolation ops) :
    (run cfg root ops).1.arch = (ArchiveSt.init root).tells cfg.acfg (toldPairs ops) := by
  induction ops using List.reverseRecOn with
  | nil => rfl
  | append_singleton ops op ih =>
    have ih' := ih (fun o ho => hv o (List.mem_append_left _ ho))
    rw [run_snoc, toldPairs_append]
    generalize (run cfg root ops).1 = s at *
    cases op with
    | suggest u => simpa [toldPairs, step, suggest] using ih'
    | ask gen =>
      have he := ask_effect cfg gen s
      simp only [step, toldPairs, List.append_nil]
      cases ha : s.ask cfg gen with
      | raised s' => rw [ha] at he; simp only; rw [he.1]; exact ih'
      | ok s' u b => rw [ha] at he; simp only; rw [he.1]; exact ih'
    | tell u loss extra ok =>
      have hx : extra = none := hv (Op.tell u loss extra ok) (by simp) u loss extra ok rfl
      subst hx
      simp only [step, toldPairs]
      rw [show ∀ (a : ArchiveSt α U K) h e, a.tells cfg.acfg (h ++ [e]) = (a.tells cfg.acfg h).tell cfg.acfg e.1 e.2
        from fun a h e => by simp [ArchiveSt.tells, List.foldl_append], ← ih']
      unfold tell
      rw [satisfies_unconstrained cfg hc]
      simp only [Bool.not_true, Bool.false_and, Bool.false_eq_true, if_false]
      cases ok
      · rfl
      · simp only [Bool.not_true, Bool.false_eq_true, if_false]
        split <;> rfl

/-- **C01.** For a deterministic function without constraints, after any interleaving of ask, suggest and tell
with at least one tell, the recommendation is a told candidate standing for a point at which the smallest
of all told losses was observed. -/
theorem optimizer_recommend_best [IsStrictOrderedRing α] (cfg : OptCfg α U K T) (hc : Unconstrained cfg)
    (hpr : ArchiveSt.PruneRemoves cfg.acfg) (root : U) (ops : List (Op α U)) (hv : NoViolation ops)
    (hne : toldPairs ops ≠ []) (hr : ArchiveSt.ReevaluationsInRange cfg.acfg.key (toldPairs ops)) :
    let r := (run cfg root ops).1.arch.recommend root true
    r ∈ (toldPairs ops).map (·.1) ∧
    ∃ e ∈ toldPairs ops, cfg.acfg.key e.1 = cfg.acfg.key r ∧ ∀ e' ∈ toldPairs ops, e.2 ≤ e'.2 := by
  rw [unconstrained_archive cfg hc root ops hv]
  exact ArchiveSt.recommend_best cfg.acfg hpr root _ hne hr

/-! ### C43: tabu list and recording -/

/-- The tabu memory of the optimizer always is in a legal state: its checks never fail. -/
theorem tabu_never_fails (cfg : OptCfg α U K T) (ht : 0 < cfg.tabuLength) (s : Opt α U K T) (u : U)
    (h : ∃ acc, Tabu.Rel cfg.tabuLength acc s.tabu) :
    (s.tabu.check cfg.tabuLength (cfg.tabuKey u) ≠ .error) ∧
    ∃ acc, Tabu.Rel cfg.tabuLength acc (s.satisfies cfg u).2.tabu := by
  obtain ⟨acc, hr⟩ := h
  by_cases hm : cfg.tabuKey u ∈ s.tabu.set
  · have hc : s.tabu.check cfg.tabuLength (cfg.tabuKey u) = .refused := by simp [Tabu.check, hm]
    refine ⟨by rw [hc]; simp, acc, ?_⟩
    unfold satisfies
    rw [hc]
    split
    · exact hr
    · split <;> exact hr
  · obtain ⟨t', hc, hr'⟩ := Tabu.rel_check cfg.tabuLength ht acc s.tabu hr _ hm
    refine ⟨by rw [hc]; simp, ?_⟩
    unfold satisfies
    rw [hc]
    split
    · exact ⟨acc, hr⟩
    · split
      · exact ⟨_, hr'⟩
      · exact ⟨acc, hr⟩

/-- **C43, disagreement.** With a tabu list and a budget, telling a candidate whose value is in the tabu memory
(as is the case for any candidate just asked) records nothing: archive and bests are unchanged. -/
theorem tabu_tell_not_recorded (cfg : OptCfg α U K T) (hb : cfg.budget.isSome = true) (ht : 0 < cfg.tabuLength)
    (s : Opt α U K T) (u : U) (loss : α) (hm : cfg.tabuKey u ∈ s.tabu.set) (hf : s.fails u < 30) :
    let a := (s.tell cfg u loss none true).2.arch
    a.heap = s.arch.heap ∧ a.next = s.arch.next ∧ a.archive = s.arch.archive ∧ a.bests = s.arch.bests := by
  have hs : (s.satisfies cfg u).1 = false := by
    unfold satisfies
    split
    · rfl
    · simp [ht, hf, Tabu.check, hm]
  have hfr := (satisfies_frame cfg s u).1
  unfold tell
  cases hsat : s.satisfies cfg u with
  | mk sat s2 =>
    rw [hsat] at hs hfr
    simp only at hs hfr
    subst hs
    simp only [Bool.not_false, hb, Bool.and_true, if_true, Bool.not_true, Bool.false_eq_true, if_false]
    split <;> simp [hfr]

/-- The tabu memory is in a legal state. -/
def TabuOk (cfg : OptCfg α U K T) (s : Opt α U K T) : Prop := ∃ acc, Tabu.Rel cfg.tabuLength acc s.tabu

theorem trials_tabuOk (cfg : OptCfg α U K T) (ht : 0 < cfg.tabuLength) (gen : Nat → Gen U) (n k : Nat)
    (s : Opt α U K T) (h : TabuOk cfg s) : TabuOk cfg (trials cfg gen n k s).state := by
  have hatt : ∀ (s : Opt α U K T) g s1 u b, TabuOk cfg s → s.attempt cfg g = some (s1, u, b) → TabuOk cfg s1 := by
    intro s g s1 u b h ha
    unfold attempt at ha
    split at ha
    · simp only [Option.some.injEq, Prod.mk.injEq] at ha; obtain ⟨rfl, -⟩ := ha; exact h
    · split at ha
      · simp only [Option.some.injEq, Prod.mk.injEq] at ha; obtain ⟨rfl, -⟩ := ha; exact h
      · split at ha
        · simp only [Option.some.injEq, Prod.mk.injEq] at ha; obtain ⟨rfl, -⟩ := ha; exact h
        · simp at ha
      · simp at ha
  induction n generalizing k s with
  | zero =>
    unfold trials
    cases ha : s.attempt cfg (gen k) with
    | none => exact h
    | some r =>
      obtain ⟨s1, u, b⟩ := r
      have h2 := (tabu_never_fails cfg ht s1 u (hatt _ _ _ _ _ h ha)).2
      simp only
      cases hs : s1.satisfies cfg u with
      | mk sat s2 =>
        rw [hs] at h2
        cases sat <;> exact h2
  | succ n ih =>
    unfold trials
    cases ha : s.attempt cfg (gen k) with
    | none => exact h
    | some r =>
      obtain ⟨s1, u, b⟩ := r
      have h2 := (tabu_never_fails cfg ht s1 u (hatt _ _ _ _ _ h ha)).2
      simp only
      cases hs : s1.satisfies cfg u with
      | mk sat s2 =>
        rw [hs] at h2
        cases sat with
        | true => exact h2
        | false => exact ih (k + 1) _ h2

/-- The final constraint check of an ask: the memory stays legal and holds the value of the candidate. -/
theorem tabu_ask (cfg : OptCfg α U K T) (ht : 0 < cfg.tabuLength) (hin : ∀ u, cfg.inside u = true)
    (gen : Nat → Gen U) (s : Opt α U K T) (hok : TabuOk cfg s) :
    TabuOk cfg (s.ask cfg gen).state ∧
    ∀ s' u b, s.ask cfg gen = .ok s' u b → s'.fails u < 30 → cfg.tabuKey u ∈ s'.tabu.set := by
  unfold ask
  simp only
  have hr : ∀ r : AskOut α U K T, r = (if s.skip && s.suggestions.isEmpty then
      match gen 0 with
      | .cand u => .ok s u false
      | _ => .raised s
      else trials cfg gen (maxTrials cfg - 1) 0 s) → TabuOk cfg r.state := by
    rintro r rfl
    split
    · cases gen 0 <;> exact hok
    · exact trials_tabuOk cfg ht gen _ _ _ hok
  generalize hrr : (if s.skip && s.suggestions.isEmpty then
      match gen 0 with
      | .cand u => AskOut.ok s u false
      | _ => .raised s
      else trials cfg gen (maxTrials cfg - 1) 0 s) = r
  have hcore := hr r hrr.symm
  cases r with
  | raised s1 => exact ⟨hcore, by intro s' u b h; simp at h⟩
  | ok s1 v sg =>
    have hcore' : TabuOk cfg s1 := hcore
    obtain ⟨hne, hok2⟩ := tabu_never_fails cfg ht s1 v hcore'
    have hz : (cfg.tabuLength == 0) = false := by simp; omega
    have hmem : (s1.satisfies cfg v).2.fails v < 30 → cfg.tabuKey v ∈ (s1.satisfies cfg v).2.tabu.set := by
      intro hf
      unfold satisfies at hf hok2 ⊢
      simp only [hin, Bool.not_true, Bool.false_eq_true, if_false] at hf hok2 ⊢
      by_cases h30 : s1.fails v < 30
      · rw [if_pos ⟨ht, h30⟩] at hf hok2 ⊢
        by_cases hm : cfg.tabuKey v ∈ s1.tabu.set
        · have hc : s1.tabu.check cfg.tabuLength (cfg.tabuKey v) = .refused := by simp [Tabu.check, hm]
          rw [hc]; exact hm
        · obtain ⟨acc, hrel⟩ := hcore'
          obtain ⟨t', hc, hr'⟩ := Tabu.rel_check cfg.tabuLength ht acc s1.tabu hrel _ hm
          rw [hc]
          simp only
          rw [Tabu.rel_mem _ _ _ hr']
          have : (acc ++ [cfg.tabuKey v]).length - cfg.tabuLength ≤ acc.length := by simp; omega
          rw [List.drop_append_of_le_length this]
          simp
      · rw [if_neg (fun hh => h30 hh.2)] at hf
        exact absurd hf h30
    simp only [hz, Bool.and_false, Bool.false_eq_true, if_false]
    constructor
    · split
      · exact hok2
      · exact hok2
    · intro s' u b h hf
      split at h
      · simp at h
      · simp only [AskOut.ok.injEq] at h
        obtain ⟨rfl, rfl, rfl⟩ := h
        exact hmem hf

theorem run_tabuOk (cfg : OptCfg α U K T) (ht : 0 < cfg.tabuLength) (hin : ∀ u, cfg.inside u = true) (root : U)
    (ops : List (Op α U)) : TabuOk cfg (run cfg root ops).1 := by
  induction ops using List.reverseRecOn with
  | nil => exact ⟨[], ⟨by simp [run, init, Tabu.empty], by simp [run, init, Tabu.empty],
      by simp [run, init, Tabu.empty], by simp [run, init, Tabu.empty], by simp [run, init, Tabu.empty]⟩⟩
  | append_singleton ops op ih =>
    rw [run_snoc]
    generalize (run cfg root ops).1 = s at *
    cases op with
    | suggest u => exact ih
    | ask gen =>
      have := (tabu_ask cfg ht hin gen s ih).1
      simp only [step]
      cases ha : s.ask cfg gen <;> (rw [ha] at this; exact this)
    | tell u loss extra ok =>
      have := (tabu_never_fails cfg ht s u ih).2
      have h2 : (s.tell cfg u loss extra ok).2.tabu = (s.satisfies cfg u).2.tabu := by
        unfold tell
        cases hs : s.satisfies cfg u with
        | mk sat s2 =>
          cases extra <;> cases ok <;> simp only [Bool.not_true, Bool.not_false, Bool.false_eq_true, if_false, if_true] <;>
            split <;> rfl
      simp only [step]
      unfold TabuOk
      rw [h2]; exact this

/-- **C43, disagreement.** With a tabu list and a budget, in any history, a candidate told right after it was
asked (and refused less than 30 times) is not recorded: archive, tracked bests and therefore the
recommendation are unchanged, whatever its loss. -/
theorem tabu_asked_then_told_not_recorded (cfg : OptCfg α U K T) (hb : cfg.budget.isSome = true)
    (ht : 0 < cfg.tabuLength) (hin : ∀ u, cfg.inside u = true) (root : U) (ops : List (Op α U))
    (gen : Nat → Gen U) (s' : Opt α U K T) (u : U) (b : Bool)
    (h : (run cfg root ops).1.ask cfg gen = .ok s' u b) (hf : s'.fails u < 30) (loss : α) (det : Bool) :
    (s'.tell cfg u loss none true).2.arch.archive = (run cfg root ops).1.arch.archive ∧
    (s'.tell cfg u loss none true).2.arch.recommend root det = (run cfg root ops).1.arch.recommend root det := by
  have hm := (tabu_ask cfg ht hin gen _ (run_tabuOk cfg ht hin root ops)).2 s' u b h hf
  obtain ⟨e1, -, e3, e4⟩ := tabu_tell_not_recorded cfg hb ht s' u loss hm hf
  have he := ask_effect cfg gen (run cfg root ops).1
  rw [h] at he
  rw [e3, he.1]
  refine ⟨rfl, ?_⟩
  simp only [ArchiveSt.recommend, e1, e4, he.1]

/-- Tabu-enabled configuration: any value is feasible. -/
def tabuDemo : OptCfg ℚ Nat Nat Nat :=
{ acfg := ⟨id, id, fun _ a => a⟩, inside := fun _ => true,
  own := fun _ => true, noConstraint := fun _ => true, tabuKey := id, tabuLength := 3, budget := some 10,
  penalty := fun _ _ => 0, maxTrials := 1000, hasCheckers := false, solver := id }

/-- **C43, disagreement.** A complete run: three candidates asked and told, nothing recorded, the recommendation
is still the initial point although better losses were told. -/
theorem tabu_run_recommends_initial :
    let r := run tabuDemo 0 [.ask (fun _ => .cand 1), .tell 1 5 none true, .ask (fun _ => .cand 2),
      .tell 2 3 none true, .ask (fun _ => .cand 3), .tell 3 1 none true]
    r.1.arch.recommend 0 true = 0 ∧ r.1.arch.archive = [] ∧ r.1.numTell = 3 := by decide +kernel

/-! ### Non-vacuity and further witnesses -/

/-- Unconstrained configuration over natural numbers. -/
def plainCfg : OptCfg ℚ Nat Nat Nat := { tabuDemo with tabuLength := 0 }

example : Unconstrained plainCfg := ⟨fun _ => rfl, fun _ => rfl, rfl⟩

example : NoViolation ([.suggest 8, .ask (fun _ => .cand 1), .tell 8 3 none true, .tell 1 2 none true] : List (Op ℚ Nat)) ∧
    toldPairs ([.suggest 8, .ask (fun _ => .cand 1), .tell 8 3 none true, .tell 1 2 none true] : List (Op ℚ Nat)) = [(8, 3), (1, 2)] := by
  refine ⟨?_, rfl⟩
  intro op hop u l e ok h
  subst h
  simp at hop
  rcases hop with ⟨-, -, h, -⟩ | ⟨-, -, h, -⟩ <;> exact h

/-- Only values above 10 are feasible, the solver maps to 100. -/
def feasCfg : OptCfg ℚ Nat Nat Nat :=
  { tabuDemo with
    tabuLength := 0, own := fun u => decide (10 < u), maxTrials := 6, solver := fun _ => 100, hasCheckers := true }

/-- Three attempts, the second one is feasible. -/
example : (run feasCfg 0 [.ask (fun k => .cand (9 + 2 * k))]).2 = [.asked 11 false] ∧
    (run feasCfg 0 [.ask (fun k => .cand (9 + 2 * k))]).1.numAsk = 1 := by decide +kernel

/-- No attempt is feasible: the solver is used. -/
example : (run feasCfg 0 [.ask (fun k => .cand k)]).2 = [.asked 100 false] ∧
    (run feasCfg 0 [.ask (fun k => .cand k)]).1.numAsk = 1 := by decide +kernel

/-- **C45, disagreement.** When the optimizer-specific part raises after rejected attempts, `num_ask` stays
increased although no candidate was returned. -/
theorem num_ask_inflated :
    (run feasCfg 0 [.ask (fun k => if k = 0 then .cand 1 else .raises)]).1.numAsk = 1 ∧
    (run feasCfg 0 [.ask (fun k => if k = 0 then .cand 1 else .raises)]).2 = [.askRaised] := by decide +kernel

example : let r := run plainCfg 0 [.suggest 8, .ask (fun _ => .cand 1), .ask (fun _ => .cand 1),
      .tell 8 1 none true, .tell 1 1 none true, .tell 1 2 none true]
    r.1.numTell = 3 ∧ r.1.numTellNotAsked = 2 ∧ r.1.asked = [] := by decide +kernel

end Opt
end NG
