import Verif.Model.Rl
import Verif.Props.Tools
import Mathlib.Algebra.Field.Basic
import Mathlib.Algebra.CharZero.Defs
import Mathlib.Data.Rat.Cast.Order
import Mathlib.Tactic.Linarith
import Mathlib.Tactic.FieldSimp
import Mathlib.Tactic.Ring

/-! # C119: the 007 game and the environments with fixed agents -/

namespace NG.Rl

set_option linter.unusedSectionVars false

/-! ## The game -/

/-- The number of times the last action was repeated at the end, if it is `protect`. -/
abbrev trailing (l : List Action) : Nat := (l.reverse.takeWhile (· = .protect)).length

/-- The histories of the games that are not over, with the state they lead to. -/
inductive Unfinished : List (Action × Action) → Game → Prop
  | init : Unfinished [] Game.init
  | step {h g a0 a1 g' rew} : Unfinished h g → g.play a0 a1 = some (g', rew, false) → Unfinished (h ++ [(a0, a1)]) g'

/-- Whether a player shoots: they fire and have ammunition. -/
abbrev Shoots (p : Bond) (a : Action) : Prop := a = .fire ∧ 0 < p.ammunitions

/-- Whether a player reloads, by choice or for lack of ammunition. -/
abbrev Reloads (p : Bond) (a : Action) : Prop := a = .reload ∨ a = .fire ∧ p.ammunitions = 0

/-- What an action does to a player. -/
abbrev After (p p' : Bond) (a : Action) : Prop :=
  (Shoots p a → p'.ammunitions + 1 = p.ammunitions) ∧ (Reloads p a → p'.ammunitions = p.ammunitions + 1) ∧ (a = .protect → p'.ammunitions = p.ammunitions) ∧
    p'.protects = if a = .protect then p.protects + 1 else 0

theorem update_possible (p : Bond) (a : Action) : ∃ p', p.update (possible p a) = some p' ∧ After p p' a := by
  rcases p with ⟨m, c⟩
  rcases a with _ | _ | _
  · by_cases h : m = 0
    · subst h; exact ⟨⟨1, 0⟩, by simp [possible, Bond.update], by simp [After, Shoots, Reloads]⟩
    · refine ⟨⟨m - 1, 0⟩, by simp [possible, Bond.update, h], ?_⟩
      simp [After, Shoots, Reloads, h]; omega
  · exact ⟨⟨m, c + 1⟩, by simp [possible, Bond.update], by simp [After, Shoots, Reloads]⟩
  · exact ⟨⟨m + 1, 0⟩, by simp [possible, Bond.update], by simp [After, Shoots, Reloads]⟩

theorem possible_fire (p : Bond) (a : Action) : possible p a = .fire ↔ Shoots p a := by
  rcases p with ⟨m, c⟩
  cases a <;> simp [possible, Shoots, Nat.pos_iff_ne_zero]

theorem possible_reload (p : Bond) (a : Action) : possible p a = .reload ↔ Reloads p a := by
  rcases p with ⟨m, c⟩
  cases a <;> simp [possible, Reloads]

/-- C119: every action of every player is legal in every state, and does what the rules say; a player never fires without ammunition. -/
theorem play_defined (g : Game) (a0 a1 : Action) : ∃ g' rew over, g.play a0 a1 = some (g', rew, over) ∧ After g.player0 g'.player0 a0 ∧ After g.player1 g'.player1 a1 ∧
    g'.steps = g.steps + 1 := by
  obtain ⟨p0, h0, s0⟩ := update_possible g.player0 a0
  obtain ⟨p1, h1, s1⟩ := update_possible g.player1 a1
  simp only [Game.play, h0, h1]
  exact ⟨_, _, _, rfl, s0, s1, rfl⟩

/-- C119: exchanging the players exchanges their states, their observations and their rewards. -/
theorem play_swap (g : Game) (a0 a1 : Action) (g' : Game) (rew : Nat × Nat) (over : Bool) (h : g.play a0 a1 = some (g', rew, over)) :
    Game.play ⟨g.player1, g.player0, g.steps⟩ a1 a0 = some (⟨g'.player1, g'.player0, g'.steps⟩, (rew.2, rew.1), over) := by
  obtain ⟨p0, h0, -⟩ := update_possible g.player0 a0
  obtain ⟨p1, h1, -⟩ := update_possible g.player1 a1
  simp only [Game.play, h0, h1, Option.bind_eq_bind, Option.bind_some, Option.some.injEq, Prod.mk.injEq] at h
  obtain ⟨rfl, rfl, rfl⟩ := h
  simp only [Game.play, h0, h1, Option.bind_eq_bind, Option.bind_some, Option.some.injEq, Prod.mk.injEq, true_and]
  generalize possible g.player0 a0 = b0
  generalize possible g.player1 a1 = b1
  have e : (4 < p1.protects ∨ 4 < p0.protects) ↔ (4 < p0.protects ∨ 4 < p1.protects) := or_comm
  simp only [e]
  by_cases hp : 4 < p0.protects ∨ 4 < p1.protects
  · rcases Nat.lt_trichotomy p0.protects p1.protects with hl | hl | hl
    · simp [hp, hl, Nat.not_lt.2 hl.le]
    · simp only [hl, lt_self_iff_false, if_false]
      cases b0 <;> cases b1 <;> simp
    · simp [hp, hl, Nat.not_lt.2 hl.le]
  · cases b0 <;> cases b1 <;> simp [hp]

theorem trailing_snoc (l : List Action) (a : Action) : trailing (l ++ [a]) = if a = .protect then trailing l + 1 else 0 := by
  by_cases h : a = .protect
  · simp [trailing, h]
  · simp [trailing, h]

/-- C119: in a game that is not over each player's counter is the number of times they have just protected; if one of them protected more than four times, both did
as often; less than a hundred steps were played. -/
theorem unfinished_spec (h : List (Action × Action)) (g : Game) (hg : Unfinished h g) :
    g.player0.protects = trailing (h.map Prod.fst) ∧ g.player1.protects = trailing (h.map Prod.snd) ∧ g.steps = h.length ∧ h.length < 100 ∧
      (4 < g.player0.protects ∨ 4 < g.player1.protects → g.player0.protects = g.player1.protects) := by
  induction hg with
  | init => simp [Game.init, Bond.init, trailing]
  | @step h g a0 a1 g' rew hu hp ih =>
    obtain ⟨g'', rew', over', hp', s0, s1, hs⟩ := play_defined g a0 a1
    rw [hp] at hp'
    simp only [Option.some.injEq, Prod.mk.injEq] at hp'
    obtain ⟨rfl, rfl, rfl⟩ := hp'
    refine ⟨?_, ?_, ?_, ?_, ?_⟩
    · rw [s0.2.2.2, List.map_append]; simp only [List.map_cons, List.map_nil]; rw [trailing_snoc, ih.1]
    · rw [s1.2.2.2, List.map_append]; simp only [List.map_cons, List.map_nil]; rw [trailing_snoc, ih.2.1]
    · rw [hs, ih.2.2.1]; simp
    all_goals
      obtain ⟨p0, h0, -⟩ := update_possible g.player0 a0
      obtain ⟨p1, h1, -⟩ := update_possible g.player1 a1
      simp only [Game.play, h0, h1, Option.bind_eq_bind, Option.bind_some, Option.some.injEq, Prod.mk.injEq] at hp
      obtain ⟨rfl, hr, ho⟩ := hp
      rw [Bool.or_eq_false_iff] at ho
    · have := of_decide_eq_false ho.1
      rw [ih.2.2.1] at this
      have := ih.2.2.2.1
      simp; omega
    · intro h4
      by_contra hne
      have h4' : 4 < p0.protects ∨ 4 < p1.protects := h4
      have := of_decide_eq_false ho.2
      rcases Nat.lt_or_gt_of_ne hne with hl | hl <;> simp only at hl
      · simp [h4', hl, Nat.not_lt.2 hl.le] at this
      · simp [h4', hl] at this

/-- C119: who wins, in a game that is not over: a player whose shot meets a player who reloads, or a player who has not just protected more than four times when the
other one has. At most one of them wins, and the game is over when someone wins or after a hundred steps. -/
theorem play_spec (h : List (Action × Action)) (g : Game) (hg : Unfinished h g) (a0 a1 : Action) (g' : Game) (rew : Nat × Nat) (over : Bool)
    (hp : g.play a0 a1 = some (g', rew, over)) :
    (rew = (1, 0) ↔ Shoots g.player0 a0 ∧ Reloads g.player1 a1 ∨ 4 < trailing ((h ++ [(a0, a1)]).map Prod.snd) ∧ trailing ((h ++ [(a0, a1)]).map Prod.fst) ≤ 4) ∧
    (rew = (0, 1) ↔ Shoots g.player1 a1 ∧ Reloads g.player0 a0 ∨ 4 < trailing ((h ++ [(a0, a1)]).map Prod.fst) ∧ trailing ((h ++ [(a0, a1)]).map Prod.snd) ≤ 4) ∧
    (rew = (1, 0) ∨ rew = (0, 1) ∨ rew = (0, 0)) ∧ (over = true ↔ h.length + 1 = 100 ∨ rew ≠ (0, 0)) := by
  obtain ⟨t0, t1, hs, hl, heq⟩ := unfinished_spec h g hg
  obtain ⟨p0, h0, s0⟩ := update_possible g.player0 a0
  obtain ⟨p1, h1, s1⟩ := update_possible g.player1 a1
  have e0 : trailing ((h ++ [(a0, a1)]).map Prod.fst) = p0.protects := by
    rw [List.map_append, List.map_cons, List.map_nil, trailing_snoc, ← t0]; exact s0.2.2.2.symm
  have e1 : trailing ((h ++ [(a0, a1)]).map Prod.snd) = p1.protects := by
    rw [List.map_append, List.map_cons, List.map_nil, trailing_snoc, ← t1]; exact s1.2.2.2.symm
  rw [e0, e1, ← possible_fire, ← possible_fire, ← possible_reload, ← possible_reload]
  have f0 := s0.2.2.2
  have f1 := s1.2.2.2
  have k0 : possible g.player0 a0 = .protect ↔ a0 = .protect := by cases a0 <;> simp [possible]; split <;> simp
  have k1 : possible g.player1 a1 = .protect ↔ a1 = .protect := by cases a1 <;> simp [possible]; split <;> simp
  simp only [← k0] at f0
  simp only [← k1] at f1
  simp only [Game.play, h0, h1, Option.bind_eq_bind, Option.bind_some, Option.some.injEq, Prod.mk.injEq] at hp
  obtain ⟨-, hr, ho⟩ := hp
  rw [hr, hs] at ho
  have key : (rew = (1, 0) ∨ rew = (0, 1) ∨ rew = (0, 0)) ∧
      (rew = (1, 0) ↔ possible g.player0 a0 = .fire ∧ possible g.player1 a1 = .reload ∨ 4 < p1.protects ∧ p0.protects ≤ 4) ∧
      (rew = (0, 1) ↔ possible g.player1 a1 = .fire ∧ possible g.player0 a0 = .reload ∨ 4 < p0.protects ∧ p1.protects ≤ 4) := by
    rw [← hr]
    revert f0 f1
    generalize possible g.player0 a0 = b0
    generalize possible g.player1 a1 = b1
    intro f0 f1
    by_cases hb0 : b0 = .protect
    · by_cases hb1 : b1 = .protect
      · subst hb0; subst hb1
        simp only [if_true] at f0 f1
        by_cases h4 : 4 < p0.protects ∨ 4 < p1.protects
        · rcases Nat.lt_trichotomy p0.protects p1.protects with hlt | hlt | hlt
          · have : ¬4 < p0.protects := fun hc => by
              have := heq (Or.inr (by omega)); omega
            have g1 : 4 < p1.protects := by omega
            have g0 : p0.protects ≤ 4 := by omega
            have g2 : ¬p1.protects ≤ 4 := by omega
            simp [g1, hlt, Nat.not_lt.2 hlt.le, this, g0]
          · simp [hlt]
          · have : ¬4 < p1.protects := fun hc => by
              have := heq (Or.inl (by omega)); omega
            have g1 : 4 < p0.protects := by omega
            have g0 : p1.protects ≤ 4 := by omega
            have g2 : ¬p0.protects ≤ 4 := by omega
            simp [g1, hlt, this, g0]
        · simp [h4]; omega
      · simp only [hb1, if_false] at f1
        subst hb0
        by_cases h4 : 4 < p0.protects
        · have g2 : p1.protects < p0.protects := by omega
          have g3 : p1.protects ≤ 4 := by omega
          have g4 : ¬4 < p1.protects := by omega
          simp [h4, g2, g3, g4]
        · have h4' : ¬(4 < p0.protects ∨ 4 < p1.protects) := by omega
          simp only [h4', if_false]
          cases b1 <;> simp at hb1 ⊢ <;> omega
    · simp only [hb0, if_false] at f0
      by_cases h4 : 4 < p1.protects
      · have hb1 : b1 = .protect := by
          by_contra hc
          simp only [hc, if_false] at f1; omega
        subst hb1
        have g2 : p0.protects < p1.protects := by omega
        have g3 : p0.protects ≤ 4 := by omega
        have g4 : ¬4 < p0.protects := by omega
        have g5 : ¬p1.protects < p0.protects := by omega
        simp [h4, g2, g3, g4, g5]
      · have h4' : ¬(4 < p0.protects ∨ 4 < p1.protects) := by omega
        simp only [h4', if_false]
        cases b0 <;> cases b1 <;> simp at hb0 ⊢ <;> omega
  refine ⟨key.2.1, key.2.2, key.1, ?_⟩
  rw [← ho, Bool.or_eq_true, decide_eq_true_iff, decide_eq_true_iff]
  rcases key.1 with h | h | h <;> simp [h]

/-- C119: no game lasts more than a hundred steps, whatever the players do. -/
theorem game_ends (h : List (Action × Action)) (g : Game) (hg : Unfinished h g) : h.length ≤ 99 := by
  have := (unfinished_spec h g hg).2.2.2.1; omega

/-- C119: a game that goes on without a reset after its hundred steps is not announced as over any more. -/
theorem past_end (g : Game) (hs : 100 ≤ g.steps) (he : g.player0.protects = g.player1.protects) :
    ∃ g', g.play .protect .protect = some (g', (0, 0), false) ∧ 100 ≤ g'.steps ∧ g'.player0.protects = g'.player1.protects := by
  refine ⟨⟨⟨g.player0.ammunitions, g.player0.protects + 1⟩, ⟨g.player1.ammunitions, g.player1.protects + 1⟩, g.steps + 1⟩, ?_, ?_, ?_⟩
  · simp [Game.play, possible, Bond.update, he]; omega
  · simp; omega
  · simp [he]

/-- C119: `Agent007` with ammunition wins against a player who has just protected four times, unless this player shoots too. -/
theorem agent007_wins (h : List (Action × Action)) (g : Game) (hg : Unfinished h g) (choose : List Action → Action) (o : Nat × Nat × Nat × Nat)
    (ho : g.obs = [("player_0", o), ("player_1", o.2.2.1, o.2.2.2, o.1, o.2.1)]) (h4 : o.2.2.2 = 4) (hm : 0 < o.1) (a1 : Action) (ha : ¬Shoots g.player1 a1) :
    ∃ g', g.play (agent007 choose o) a1 = some (g', (1, 0), true) := by
  have hf : agent007 choose o = .fire := by simp [agent007, h4]; omega
  rw [hf]
  simp only [Game.obs, List.cons.injEq, Prod.mk.injEq, true_and] at ho
  obtain ⟨g', rew, over, hp, -⟩ := play_defined g .fire a1
  obtain ⟨k1, -, -, k4⟩ := play_spec h g hg .fire a1 g' rew over hp
  have hs : Shoots g.player0 .fire := ⟨rfl, by have := ho.1; simp [← this] at hm; exact hm⟩
  have hr : rew = (1, 0) := by
    rw [k1]
    cases a1 with
    | fire =>
      refine Or.inl ⟨hs, Or.inr ⟨rfl, ?_⟩⟩
      by_contra hc
      exact ha ⟨rfl, Nat.pos_of_ne_zero hc⟩
    | reload => exact Or.inl ⟨hs, Or.inl rfl⟩
    | protect =>
      right
      obtain ⟨-, t1, -⟩ := unfinished_spec h g hg
      rw [List.map_append, List.map_append]
      simp only [List.map_cons, List.map_nil]
      rw [trailing_snoc, trailing_snoc, ← t1]
      have : g.player1.protects = 4 := by rw [← h4, ← ho.1]
      simp [this]
  subst hr
  have : over = true := by rw [k4]; simp
  subst this
  exact ⟨g', hp⟩

/-! ## Fixed agents -/

variable {E O R I A σ : Type}

theorem dictGet_map {V W : Type} (f : String → V → W) (l : List (String × V)) (n : String) :
    Tools.dictGet (l.map fun e => (e.1, f e.1 e.2)) n = (Tools.dictGet l n).map (f n) := by
  induction l with
  | nil => rfl
  | cons e l ih =>
    simp only [Tools.dictGet, List.map_cons, List.find?_cons] at ih ⊢
    by_cases h : e.1 = n
    · simp [h]
    · simpa [h] using ih

theorem dictGet_others (F : List String) (l : List (String × Outcome O R I)) (n : String) :
    Tools.dictGet (others F l) n = if n ∈ F then none else Tools.dictGet l n := by
  induction l with
  | nil => simp [others, Tools.dictGet]
  | cons e l ih =>
    by_cases he : e.1 ∈ F
    · have : others F (e :: l) = others F l := by simp [others, he]
      rw [this, ih]
      by_cases hn : n ∈ F
      · simp [hn]
      · have : e.1 ≠ n := fun hc => hn (hc ▸ he)
        simp [hn, Tools.dictGet, List.find?_cons, this]
    · have : others F (e :: l) = e :: others F l := by simp [others, he]
      rw [this]
      by_cases hen : e.1 = n
      · subst hen
        simp [Tools.dictGet, he]
      · simp only [Tools.dictGet, List.find?_cons, hen, decide_false] at ih ⊢
        exact ih

theorem dictGet_mem {V : Type} (l : List (String × V)) (hl : (l.map Prod.fst).Nodup) (e : String × V) (he : e ∈ l) : Tools.dictGet l e.1 = some e.2 := by
  induction l with
  | nil => simp at he
  | cons x l ih =>
    simp only [List.map_cons, List.nodup_cons] at hl
    rcases List.mem_cons.1 he with rfl | he
    · simp [Tools.dictGet]
    · have : x.1 ≠ e.1 := fun hc => hl.1 (hc ▸ List.mem_map_of_mem he)
      have := ih hl.2 he
      simp only [Tools.dictGet, List.find?_cons] at this ⊢
      simpa [*] using this

theorem dictGet_isSome {V : Type} (l : List (String × V)) (n : String) : (Tools.dictGet l n).isSome = true ↔ n ∈ l.map Prod.fst := by
  induction l with
  | nil => simp [Tools.dictGet]
  | cons x l ih =>
    by_cases h : x.1 = n
    · simp [Tools.dictGet, h]
    · simp only [Tools.dictGet, List.find?_cons, h, decide_false] at ih ⊢
      rw [ih]; simp [Ne.symm h]

theorem from_to (outs : List (String × Outcome O R I)) (hn : (outs.map Prod.fst).Nodup) (done : Bool) : fromStep (toStep outs done) = (outs, done) := by
  have : (fromStep (toStep outs done)).1 = outs := by
    simp only [fromStep, toStep, List.map_map]
    conv_rhs => rw [← List.map_id outs]
    refine List.map_congr_left fun e he => ?_
    simp [dictGet_mem outs hn e he]
  exact Prod.ext this rfl

theorem fromStep_keys (r : StepReturn O R I) : (fromStep r).1.map Prod.fst = r.obs.map Prod.fst := by simp [fromStep]

theorem others_nodup (F : List String) (l : List (String × Outcome O R I)) (h : (l.map Prod.fst).Nodup) : ((others F l).map Prod.fst).Nodup :=
  h.sublist (List.filter_sublist.map _)

/-- The environments whose observations are dictionaries with all the fixed agents. -/
structure Full (env : Env E O R I A) (F : List String) : Prop where
  reset : ∀ e, ((env.reset e).2.map Prod.fst).Nodup ∧ ∀ n ∈ F, n ∈ (env.reset e).2.map Prod.fst
  step : ∀ e a e' r, env.step e a = some (e', r) → (r.obs.map Prod.fst).Nodup ∧ ∀ n ∈ F, n ∈ r.obs.map Prod.fst

/-- A run of the whole environment and a run of the partial one at the same point. -/
structure Same (F : List String) (s : Run E σ O R I) (t : Run (Partial E σ O R I) σ O R I) : Prop where
  env : t.env.inner = s.env
  states : ∀ n, s.states n = if n ∈ F then t.env.states n else t.states n
  outcomes : ∀ n, t.env.outcomes n = if n ∈ F then Tools.dictGet s.outs n else none
  outs : t.outs = others F s.outs
  done : t.done = s.done
  steps : t.steps = s.steps
  sums : ∀ n, n ∉ F → t.sums n = s.sums n

theorem keep_some (F : List String) (outs : List (String × Outcome O R I)) (h : ∀ n ∈ F, n ∈ outs.map Prod.fst) :
    keep F outs = some fun n => if n ∈ F then Tools.dictGet outs n else none := by
  rw [keep, if_pos]
  rw [List.all_eq_true]
  intro n hn
  exact (dictGet_isSome _ _).2 (h n hn)

section
variable [Zero R] [Add R]

theorem same_step (env : Env E O R I A) (ag : Agent σ O R I A) (F : List String) (hF : Full env F) (s s' : Run E σ O R I) (t : Run (Partial E σ O R I) σ O R I)
    (h : Same F s t) (hs : s.step env ag = some s') : ∃ t', t.step (Partial.env env ag F) ag = some t' ∧ Same F s' t' := by
  simp only [Run.step] at hs
  split at hs
  case isFalse => cases hs
  case isTrue hall =>
    rw [List.all_eq_true] at hall
    cases he : env.step s.env (actions ag s.states (Tools.dictGet s.outs)) with
    | none => simp [he] at hs
    | some er =>
      obtain ⟨e, r⟩ := er
      simp only [he, Option.bind_eq_bind, Option.bind_some] at hs
      split at hs
      case isFalse => cases hs
      case isTrue hrew =>
        rw [List.all_eq_true] at hrew
        simp only [Option.some.injEq] at hs
        obtain ⟨hn, hk⟩ := hF.step _ _ _ _ he
        rw [← fromStep_keys] at hn
        have hkeep := keep_some F (fromStep r).1 (by rw [fromStep_keys]; exact hk)
        have hacts : (fun n => (actions ag t.states (Tools.dictGet t.outs) n).orElse fun _ => actions ag t.env.states t.env.outcomes n) =
            actions ag s.states (Tools.dictGet s.outs) := by
          funext n
          simp only [actions, h.outs, dictGet_others, h.states n, h.outcomes n]
          by_cases hF' : n ∈ F
          · simp only [hF', if_true]
            cases t.states n <;> simp
          · simp only [hF', if_false]
            cases t.states n <;> cases Tools.dictGet s.outs n <;> cases t.env.states n <;> simp
        have hall' : (t.outs.all fun e => (t.states e.1).isSome) = true := by
          rw [List.all_eq_true]
          intro e he
          rw [h.outs, others, List.mem_filter] at he
          have := hall e he.1
          rw [h.states] at this
          simpa [of_decide_eq_true he.2] using this
        have hstep : (Partial.env env ag F).step t.env (actions ag t.states (Tools.dictGet t.outs)) =
            some (⟨e, nexts ag t.env.states t.env.outcomes, fun n => if n ∈ F then Tools.dictGet (fromStep r).1 n else none⟩,
              toStep (others F (fromStep r).1) (fromStep r).2) := by
          simp only [Partial.env, Partial.step, hacts, h.env, he, Option.bind_eq_bind, Option.bind_some, hkeep]
        have hft := from_to (others F (fromStep r).1) (others_nodup F _ hn) (fromStep r).2
        refine ⟨⟨⟨e, nexts ag t.env.states t.env.outcomes, fun n => if n ∈ F then Tools.dictGet (fromStep r).1 n else none⟩, nexts ag t.states (Tools.dictGet t.outs),
          others F (fromStep r).1, (fromStep r).2, fun n => t.sums n + ((Tools.dictGet (others F (fromStep r).1) n).bind (·.reward)).getD 0, t.steps + 1⟩, ?_, ?_⟩
        · simp only [Run.step, hall', if_true, hstep, Option.bind_eq_bind, Option.bind_some, hft]
          rw [if_pos]
          rw [List.all_eq_true]
          intro e he
          exact hrew e (List.mem_filter.1 he).1
        · subst hs
          refine ⟨rfl, ?_, fun n => rfl, rfl, rfl, by simp [h.steps], ?_⟩
          · intro n
            simp only [nexts, h.states n, h.outs, dictGet_others, h.outcomes n]
            by_cases hF' : n ∈ F <;> simp [hF']
          · intro n hn
            simp only [h.sums n hn, dictGet_others, hn, if_false]

theorem same_loop (env : Env E O R I A) (ag : Agent σ O R I A) (F : List String) (hF : Full env F) (m : Nat) : ∀ (s s' : Run E σ O R I)
    (t : Run (Partial E σ O R I) σ O R I), Same F s t → Run.loop env ag m s = some s' → ∃ t', Run.loop (Partial.env env ag F) ag m t = some t' ∧ Same F s' t' := by
  induction m with
  | zero =>
    intro s s' t h hs
    simp only [Run.loop, Option.some.injEq] at hs ⊢
    subst hs
    exact ⟨t, rfl, h⟩
  | succ m ih =>
    intro s s' t h hs
    simp only [Run.loop] at hs ⊢
    rw [h.done]
    split at hs
    · simp only [Option.some.injEq] at hs
      subst hs
      exact ⟨t, by simp [*], h⟩
    · rename_i hd
      simp only [hd]
      cases h1 : s.step env ag with
      | none => simp [h1] at hs
      | some s1 =>
        rw [h1, Option.bind_some] at hs
        obtain ⟨t1, ht1, hr⟩ := same_step env ag F hF s s1 t h h1
        rw [ht1]
        exact ih s1 s' t1 hr hs

/-- C119: an environment with some agents fixed plays the same game as the whole environment. Whatever the environment, the agents and the limit on the steps,
if the whole game can be played with agents that a reset leaves as they are, the partial one can, with as many steps and the same rewards and final states for the
other agents. -/
theorem same_game_partial (env : Env E O R I A) (ag : Agent σ O R I A) (F : List String) (hF : Full env F) (m : Nat) (e : E) (states learners : String → Option σ)
    (p : Partial E σ O R I) (hp : p.inner = e) (hfix : ∀ n ∈ F, p.states n = states n ∧ ∀ x, states n = some x → ag.reset x = x)
    (hlearn : ∀ n, n ∉ F → learners n = states n) (s : Run E σ O R I) (hs : runOnce env ag m e states = some s) :
    ∃ t, runOnce (Partial.env env ag F) ag m p learners = some t ∧ t.env.inner = s.env ∧ t.steps = s.steps ∧ ∀ n, n ∉ F → t.sums n = s.sums n ∧ t.states n = s.states n := by
  obtain ⟨hn, hk⟩ := hF.reset e
  have hkeys : ((fromReset (env.reset e).2 : List (String × Outcome O R I)).map Prod.fst) = (env.reset e).2.map Prod.fst := fromStep_keys _
  have hkeep := keep_some F (fromReset (env.reset e).2 : List (String × Outcome O R I)) (by rw [hkeys]; exact hk)
  have hreset : (Partial.env env ag F).reset p =
      (⟨(env.reset e).1, p.states, fun n => if n ∈ F then Tools.dictGet (fromReset (env.reset e).2) n else none⟩,
        (others F (fromReset (env.reset e).2 : List (String × Outcome O R I))).map fun e => (e.1, e.2.obs)) := by
    simp [Partial.env, Partial.reset, hp, hkeep]
  have houts : (fromReset ((others F (fromReset (env.reset e).2 : List (String × Outcome O R I))).map fun e => (e.1, e.2.obs)) : List (String × Outcome O R I)) =
      others F (fromReset (env.reset e).2) := by
    simp only [fromReset, fromStep, List.map_map]
    conv_rhs => rw [← List.map_id (others F _)]
    refine List.map_congr_left fun x hx => ?_
    have := (List.mem_filter.1 hx).1
    simp only [List.mem_map] at this
    obtain ⟨y, -, rfl⟩ := this
    rfl
  simp only [runOnce] at hs ⊢
  rw [hreset]
  simp only
  rw [houts]
  cases hl : Run.loop env ag m ⟨(env.reset e).1, fun n => (states n).map ag.reset, fromReset (env.reset e).2, false, fun _ => 0, 0⟩ with
  | none => simp [hl] at hs
  | some s1 =>
    rw [hl, Option.bind_some] at hs
    split at hs
    case isFalse => cases hs
    case isTrue hall =>
      rw [List.all_eq_true] at hall
      obtain ⟨t1, ht1, h1⟩ := same_loop env ag F hF m _ s1
        ⟨⟨(env.reset e).1, p.states, fun n => if n ∈ F then Tools.dictGet (fromReset (env.reset e).2) n else none⟩, fun n => (learners n).map ag.reset,
          others F (fromReset (env.reset e).2), false, fun _ => 0, 0⟩
        ⟨rfl, by
          intro n
          by_cases hn : n ∈ F
          · simp only [hn, if_true, (hfix n hn).1]
            cases hx : states n with
            | none => rfl
            | some x => simp [(hfix n hn).2 x hx]
          · simp only [hn, if_false, hlearn n hn], fun n => rfl, rfl, rfl, rfl, fun n hn => rfl⟩ hl
      rw [ht1]
      simp only [Option.bind_some]
      rw [if_pos]
      · refine ⟨_, rfl, ?_, ?_, ?_⟩
        · simp only [Option.some.injEq] at hs; subst hs; exact h1.env
        · simp only [Option.some.injEq] at hs; subst hs; exact h1.steps
        · intro n hn
          simp only [Option.some.injEq] at hs; subst hs
          refine ⟨h1.sums n hn, ?_⟩
          simp only [nexts, h1.outs, dictGet_others, hn, if_false, h1.states n]
      · rw [List.all_eq_true]
        intro x hx
        rw [h1.outs, others, List.mem_filter] at hx
        have := hall x hx.1
        rw [h1.states] at this
        simpa [of_decide_eq_true hx.2] using this

/-! ## One agent -/

/-- The environments with one agent, whose end is the end of all. -/
structure Solo (env : Env E O R I A) (an : String) : Prop where
  reset : ∀ e, ∃ o, (env.reset e).2 = [(an, o)]
  step : ∀ e a e' r, env.step e a = some (e', r) → ∃ o b, r.obs = [(an, o)] ∧ r.done an = some b ∧ r.all = some b

/-- A run of an environment with one agent and a run of the single-agent environment at the same point. -/
structure Alone (an : String) (s t : Run E σ O R I) : Prop where
  env : t.env = s.env
  states : t.states san = s.states an
  outs : ∃ o, s.outs = [(an, o)] ∧ t.outs = [(san, o)]
  done : t.done = s.done
  steps : t.steps = s.steps
  sums : t.sums san = s.sums an

theorem single_step (env : Env E O R I A) (ag : Agent σ O R I A) (an : String) (hsolo : Solo env an) (s s' t : Run E σ O R I) (h : Alone an s t)
    (hs : s.step env ag = some s') : ∃ t', t.step (gymEnv env an) ag = some t' ∧ Alone an s' t' := by
  obtain ⟨o, hso, hto⟩ := h.outs
  simp only [Run.step] at hs
  split at hs
  case isFalse => cases hs
  case isTrue hall =>
    cases he : env.step s.env (actions ag s.states (Tools.dictGet s.outs)) with
    | none => simp [he] at hs
    | some er =>
      obtain ⟨e, r⟩ := er
      simp only [he, Option.bind_eq_bind, Option.bind_some] at hs
      split at hs
      case isFalse => cases hs
      case isTrue hrew =>
        simp only [Option.some.injEq] at hs
        obtain ⟨o', b, hobs, hdone, hallb⟩ := hsolo.step _ _ _ _ he
        have hfs : fromStep r = ([(an, ⟨o', r.reward an, b, r.info an⟩)], b) := by simp [fromStep, hobs, hdone, hallb]
        rw [hfs] at hs hrew
        simp only [List.all_cons, List.all_nil, Bool.and_true] at hrew
        have hst : (s.states an).isSome = true := by
          rw [hso] at hall; simpa using hall
        obtain ⟨x, hx⟩ := Option.isSome_iff_exists.1 hst
        have htx : t.states san = some x := by rw [h.states, hx]
        have hacts : (fun n => if n = an then some (ag.act x o).1 else none) = actions ag s.states (Tools.dictGet s.outs) := by
          funext n
          by_cases hn : n = an
          · subst hn; simp [actions, hx, hso, Tools.dictGet]
          · have : an ≠ n := fun hc => hn hc.symm
            cases hsn : s.states n <;> simp [actions, hsn, hso, Tools.dictGet, hn, this]
        have hta : actions ag t.states (Tools.dictGet t.outs) san = some (ag.act x o).1 := by simp [actions, htx, hto, Tools.dictGet]
        have hstep : (gymEnv env an).step t.env (actions ag t.states (Tools.dictGet t.outs)) =
            some (e, ⟨[(san, o')], fun _ => r.reward an, fun _ => some b, some b, fun _ => r.info an⟩) := by
          simp only [gymEnv, hta, singleStep, Option.bind_eq_bind, Option.bind_some, hacts, h.env, he, hobs, hdone, hallb]
          simp [Tools.dictGet]
        refine ⟨⟨e, nexts ag t.states (Tools.dictGet t.outs), [(san, ⟨o', r.reward an, b, r.info an⟩)], b,
          fun n => t.sums n + ((Tools.dictGet [(san, (⟨o', r.reward an, b, r.info an⟩ : Outcome O R I))] n).bind (·.reward)).getD 0, t.steps + 1⟩, ?_, ?_⟩
        · simp only [Run.step, hto, List.all_cons, htx, Option.isSome_some, List.all_nil, Bool.and_true, if_true]
          rw [hto] at hstep
          simp only [hstep, Option.bind_eq_bind, Option.bind_some, fromStep, List.map_cons, List.map_nil, Option.getD_some, List.all_cons, hrew, List.all_nil, Bool.and_true, if_true]
        · subst hs
          refine ⟨rfl, ?_, ⟨_, rfl, rfl⟩, rfl, by simp [h.steps], ?_⟩
          · simp only [nexts, htx, hx, hso, hto]
            simp [Tools.dictGet]
          · simp [h.sums, Tools.dictGet]

theorem single_loop (env : Env E O R I A) (ag : Agent σ O R I A) (an : String) (hsolo : Solo env an) (m : Nat) : ∀ (s s' t : Run E σ O R I), Alone an s t →
    Run.loop env ag m s = some s' → ∃ t', Run.loop (gymEnv env an) ag m t = some t' ∧ Alone an s' t' := by
  induction m with
  | zero =>
    intro s s' t h hs
    simp only [Run.loop, Option.some.injEq] at hs ⊢
    subst hs
    exact ⟨t, rfl, h⟩
  | succ m ih =>
    intro s s' t h hs
    simp only [Run.loop] at hs ⊢
    rw [h.done]
    split at hs
    · simp only [Option.some.injEq] at hs
      subst hs
      exact ⟨t, by simp [*], h⟩
    · rename_i hd
      simp only [hd]
      cases h1 : s.step env ag with
      | none => simp [h1] at hs
      | some s1 =>
        rw [h1, Option.bind_some] at hs
        obtain ⟨t1, ht1, hr⟩ := single_step env ag an hsolo s s1 t h h1
        rw [ht1]
        exact ih s1 s' t1 hr hs

/-- C119: the single-agent environment plays the same game as the environment with one remaining agent: same number of steps, same reward, same final state of the
agent. -/
theorem single_run (env : Env E O R I A) (ag : Agent σ O R I A) (an : String) (hsolo : Solo env an) (m : Nat) (e : E) (states states' : String → Option σ)
    (hst : states' san = states an) (s : Run E σ O R I) (hs : runOnce env ag m e states = some s) :
    ∃ t, runOnce (gymEnv env an) ag m e states' = some t ∧ t.env = s.env ∧ t.steps = s.steps ∧ t.sums san = s.sums an ∧ t.states san = s.states an := by
  obtain ⟨o, ho⟩ := hsolo.reset e
  have hr : (gymEnv env an).reset e = ((env.reset e).1, [(san, o)]) := by simp [gymEnv, singleReset, ho, Tools.dictGet]
  simp only [runOnce] at hs ⊢
  rw [hr]
  simp only
  cases hl : Run.loop env ag m ⟨(env.reset e).1, fun n => (states n).map ag.reset, fromReset (env.reset e).2, false, fun _ => 0, 0⟩ with
  | none => simp [hl] at hs
  | some s1 =>
    rw [hl, Option.bind_some] at hs
    split at hs
    case isFalse => cases hs
    case isTrue hall =>
      obtain ⟨t1, ht1, h1⟩ := single_loop env ag an hsolo m ⟨(env.reset e).1, fun n => (states n).map ag.reset, fromReset (env.reset e).2, false, fun _ => 0, 0⟩ s1
        ⟨(env.reset e).1, fun n => (states' n).map ag.reset, fromReset [(san, o)], false, fun _ => 0, 0⟩
        ⟨rfl, by simp [hst], ⟨_, by rw [ho]; rfl, rfl⟩, rfl, rfl, rfl⟩ hl
      simp only [Option.some.injEq] at hs
      subst hs
      rw [ht1, Option.bind_some]
      obtain ⟨o', hso, hto⟩ := h1.outs
      have : (s1.states an).isSome = true := by rw [hso] at hall; simpa using hall
      rw [if_pos (by simp [hto, h1.states, this])]
      refine ⟨_, rfl, h1.env, h1.steps, h1.sums, ?_⟩
      simp only [nexts, hto, hso, h1.states]
      simp [Tools.dictGet]

/-- A partial environment with one remaining agent, in an environment without ends of single agents, is one for a single agent. -/
theorem partial_solo (env : Env E O R I A) (ag : Agent σ O R I A) (F : List String) (hF : Full env F) (an : String) (han : an ∉ F)
    (hr : ∀ e, an ∈ (env.reset e).2.map Prod.fst ∧ ∀ n ∈ (env.reset e).2.map Prod.fst, n = an ∨ n ∈ F)
    (hs : ∀ e a e' r, env.step e a = some (e', r) → (an ∈ r.obs.map Prod.fst ∧ ∀ n ∈ r.obs.map Prod.fst, n = an ∨ n ∈ F) ∧ r.done an = none) :
    Solo (Partial.env env ag F : Env (Partial E σ O R I) O R I A) an := by
  have key : ∀ outs : List (String × Outcome O R I), (outs.map Prod.fst).Nodup → an ∈ outs.map Prod.fst → (∀ n ∈ outs.map Prod.fst, n = an ∨ n ∈ F) →
      ∃ o, others F outs = [(an, o)] := by
    intro outs
    induction outs with
    | nil => simp
    | cons x l ih =>
      intro hn ha hall
      simp only [List.map_cons, List.nodup_cons] at hn
      by_cases hx : x.1 = an
      · refine ⟨x.2, ?_⟩
        have h1 : others F (x :: l) = x :: others F l := by simp [others, hx, han]
        have h2 : others F l = [] := by
          rw [others, List.filter_eq_nil_iff]
          intro y hy
          have hm : y.1 ∈ l.map Prod.fst := List.mem_map_of_mem hy
          rcases hall y.1 (by simp only [List.map_cons]; exact List.mem_cons_of_mem _ hm) with h | h
          · exact absurd (h ▸ hm) (hx ▸ hn.1)
          · simp [h]
        rw [h1, h2, ← hx]
      · have hxF : x.1 ∈ F := (hall x.1 (by simp)).resolve_left hx
        have h1 : others F (x :: l) = others F l := by simp [others, hxF]
        rw [h1]
        refine ih hn.2 ?_ fun n hn' => hall n (by simp only [List.map_cons]; exact List.mem_cons_of_mem _ hn')
        simp only [List.map_cons] at ha
        rcases List.mem_cons.1 ha with h | h
        · exact absurd h.symm hx
        · exact h
  constructor
  · intro p
    have hkeys : ((fromReset (env.reset p.inner).2 : List (String × Outcome O R I)).map Prod.fst) = (env.reset p.inner).2.map Prod.fst := fromStep_keys _
    obtain ⟨hn, hk⟩ := hF.reset p.inner
    have hkeep := keep_some F (fromReset (env.reset p.inner).2 : List (String × Outcome O R I)) (by rw [hkeys]; exact hk)
    obtain ⟨o, ho⟩ := key (fromReset (env.reset p.inner).2 : List (String × Outcome O R I)) (by rw [hkeys]; exact hn) (by rw [hkeys]; exact (hr _).1)
      (by rw [hkeys]; exact (hr _).2)
    exact ⟨o.obs, by simp [Partial.env, Partial.reset, hkeep, ho]⟩
  · intro p a p' r h
    simp only [Partial.env, Partial.step, Option.bind_eq_bind] at h
    cases he : env.step p.inner (fun n => (a n).orElse fun _ => actions ag p.states p.outcomes n) with
    | none => rw [he, Option.bind_none] at h; cases h
    | some er =>
      obtain ⟨e, r'⟩ := er
      obtain ⟨hn, hk⟩ := hF.step _ _ _ _ he
      obtain ⟨⟨ha, hall⟩, hd⟩ := hs _ _ _ _ he
      rw [← fromStep_keys] at hn hk ha hall
      obtain ⟨o, ho⟩ := key _ hn ha hall
      simp only [he, Option.bind_eq_bind, Option.bind_some, keep_some F (fromStep r').1 hk, ho, Option.some.injEq, Prod.mk.injEq] at h
      obtain ⟨-, rfl⟩ := h
      refine ⟨o.obs, (fromStep r').2, by simp [toStep], ?_, rfl⟩
      have hmem : (an, o) ∈ (fromStep r').1 := by
        have : (an, o) ∈ others F (fromStep r').1 := by rw [ho]; simp
        exact (List.mem_filter.1 this).1
      simp only [fromStep, List.mem_map] at hmem
      obtain ⟨y, -, hy⟩ := hmem
      simp only [Prod.mk.injEq] at hy
      obtain ⟨rfl, rfl⟩ := hy
      simp [toStep, Tools.dictGet, hd, fromStep]

/-! ## Runner -/

/-- C119: the runner plays at most `max_step` steps, and less only if the game is over. -/
theorem loop_steps (env : Env E O R I A) (ag : Agent σ O R I A) (m : Nat) : ∀ (s s' : Run E σ O R I), Run.loop env ag m s = some s' →
    s.steps ≤ s'.steps ∧ s'.steps ≤ s.steps + m ∧ (s'.steps < s.steps + m → s'.done = true) := by
  induction m with
  | zero =>
    intro s s' h
    simp only [Run.loop, Option.some.injEq] at h
    subst h; simp
  | succ m ih =>
    intro s s' h
    simp only [Run.loop] at h
    split at h
    · rename_i hd
      simp only [Option.some.injEq] at h
      subst h; simp [hd]
    · cases h1 : s.step env ag with
      | none => simp [h1] at h
      | some s1 =>
        rw [h1, Option.bind_some] at h
        have h2 : s1.steps = s.steps + 1 := by
          simp only [Run.step] at h1
          split at h1
          · cases he : env.step s.env (actions ag s.states (Tools.dictGet s.outs)) with
            | none => simp [he] at h1
            | some er =>
              simp only [he, Option.bind_eq_bind, Option.bind_some] at h1
              split at h1
              · simp only [Option.some.injEq] at h1
                subst h1; rfl
              · cases h1
          · cases h1
        obtain ⟨k1, k2, k3⟩ := ih s1 s' h
        exact ⟨by omega, by omega, fun hlt => k3 (by omega)⟩

end

/-- A run that starts from the same environment and agents has the same result: the environment forgets its past at a reset, and so do the agents. -/
theorem states_reset [Zero R] [Add R] (env : Env E O R I A) (ag : Agent σ O R I A) (hag : ∀ s o, ag.reset (ag.act s o).2 = ag.reset s) (m : Nat) :
    ∀ (s s' : Run E σ O R I), Run.loop env ag m s = some s' → ∀ n, (s'.states n).map ag.reset = (s.states n).map ag.reset := by
  have hnext : ∀ (st : String → Option σ) (outs : String → Option (Outcome O R I)) n, (nexts ag st outs n).map ag.reset = (st n).map ag.reset := by
    intro st outs n
    simp only [nexts, Option.map_map]
    cases st n with
    | none => rfl
    | some x => cases h : outs n <;> simp [hag]
  induction m with
  | zero =>
    intro s s' h n
    simp only [Run.loop, Option.some.injEq] at h
    subst h; rfl
  | succ m ih =>
    intro s s' h n
    simp only [Run.loop] at h
    split at h
    · simp only [Option.some.injEq] at h
      subst h; rfl
    · cases h1 : s.step env ag with
      | none => simp [h1] at h
      | some s1 =>
        rw [h1, Option.bind_some] at h
        rw [ih s1 s' h n]
        simp only [Run.step] at h1
        split at h1
        · cases he : env.step s.env (actions ag s.states (Tools.dictGet s.outs)) with
          | none => simp [he] at h1
          | some er =>
            simp only [he, Option.bind_eq_bind, Option.bind_some] at h1
            split at h1
            · simp only [Option.some.injEq] at h1
              subst h1
              exact hnext _ _ n
            · cases h1
        · cases h1

/-- C119: with deterministic agents and environments that forget their past at a reset, the mean reward over any number of repetitions is the reward of one game. -/
theorem run_repeat [Field R] [CharZero R] (env : Env E O R I A) (ag : Agent σ O R I A) (henv : ∀ e e', env.reset e = env.reset e')
    (hag : ∀ s o, ag.reset (ag.act s o).2 = ag.reset s) (hid : ∀ s, ag.reset (ag.reset s) = ag.reset s) (m k : Nat) (e : E) (states : String → Option σ)
    (s : Run E σ O R I) (h : runOnce env ag m e states = some s) : run env ag m (k + 1) e states = some s.sums := by
  have hstates : ∀ n, (s.states n).map ag.reset = (states n).map ag.reset := by
    intro n
    simp only [runOnce] at h
    cases hl : Run.loop env ag m ⟨(env.reset e).1, fun n => (states n).map ag.reset, fromReset (env.reset e).2, false, fun _ => 0, 0⟩ with
    | none => simp [hl] at h
    | some s1 =>
      rw [hl, Option.bind_some] at h
      split at h
      · simp only [Option.some.injEq] at h
        subst h
        have := states_reset env ag hag m _ _ hl n
        have h2 : (nexts ag s1.states (Tools.dictGet s1.outs) n).map ag.reset = (s1.states n).map ag.reset := by
          simp only [nexts, Option.map_map]
          cases s1.states n with
          | none => rfl
          | some x => cases h : Tools.dictGet s1.outs n <;> simp [hag]
        simp only
        rw [h2, this]
        simp only [Option.map_map]
        cases states n <;> simp [hid]
      · cases h
  have hagain : ∀ e' st, (∀ n, (st n).map ag.reset = (states n).map ag.reset) → runOnce env ag m e' st = some s := by
    intro e' st hst
    have : (fun n => (st n).map ag.reset) = fun n => (states n).map ag.reset := funext hst
    simp only [runOnce, this, henv e' e]
    exact h
  have hrep : ∀ j e' st sums, (∀ n, (st n).map ag.reset = (states n).map ag.reset) → repeatRuns env ag m j e' st sums = some fun n => sums n + (j : R) * s.sums n := by
    intro j
    induction j with
    | zero => intro e' st sums _; simp [repeatRuns]
    | succ j ih =>
      intro e' st sums hst
      simp only [repeatRuns, hagain e' st hst, Option.bind_some]
      rw [ih _ _ _ hstates]
      congr 1
      funext n
      push_cast; ring
  simp only [run, Nat.succ_ne_zero, if_false]
  rw [hrep (k + 1) e states _ (fun _ => rfl), Option.map_some]
  congr 1
  funext n
  have : ((k + 1 : ℕ) : R) ≠ 0 := by exact_mod_cast Nat.succ_ne_zero k
  field_simp
  ring

/-! ## The game with a fixed opponent -/

theorem bond_full (F : List String) (hF : ∀ n ∈ F, n = "player_0" ∨ n = "player_1") [NatCast R] : Full (doubleOSeven R) F := by
  have hk : ∀ g : Game, (g.obs.map Prod.fst) = ["player_0", "player_1"] := fun g => rfl
  constructor
  · intro e
    simp only [doubleOSeven, hk]
    exact ⟨by decide, fun n hn => by simpa using hF n hn⟩
  · intro e a e' r h
    have : r.obs.map Prod.fst = ["player_0", "player_1"] := by
      simp only [doubleOSeven, Option.bind_eq_bind, Option.bind_eq_some_iff] at h
      obtain ⟨k0, -, k1, -, a0, -, a1, -, ⟨g, rew, over⟩, -, h⟩ := h
      simp only [Option.some.injEq, Prod.mk.injEq] at h
      rw [← h.2]; rfl
    rw [this]
    exact ⟨by decide, fun n hn => by simpa using hF n hn⟩

/-- C119: a player of the 007 game gets the same reward in the single-agent environment against a fixed opponent as in the two-player game, for all agents. -/
theorem bond_single_partial [NatCast R] [Zero R] [Add R] (ag : Agent σ (Nat × Nat × Nat × Nat) R Unit Int) (m : Nat) (g : Game) (x y : σ) (hy : ag.reset y = y)
    (states : String → Option σ) (h0 : states "player_0" = some x) (h1 : states "player_1" = some y) (s : Run Game σ (Nat × Nat × Nat × Nat) R Unit)
    (hs : runOnce (doubleOSeven R) ag m g states = some s) :
    ∃ t, runOnce (gymEnv (Partial.env (doubleOSeven R) ag ["player_1"]) "player_0") ag m ⟨g, fun n => if n = "player_1" then some y else none, fun _ => none⟩
      (fun n => if n = san then some x else none) = some t ∧ t.steps = s.steps ∧ t.sums san = s.sums "player_0" ∧ t.states san = s.states "player_0" := by
  have hF : Full (doubleOSeven R) ["player_1"] := bond_full _ (by simp)
  obtain ⟨t, ht, -, hst, hrest⟩ := same_game_partial (doubleOSeven R) ag ["player_1"] hF m g states states
    ⟨g, fun n => if n = "player_1" then some y else none, fun _ => none⟩ rfl
    (by intro n hn
        simp only [List.mem_singleton] at hn
        subst hn
        refine ⟨by simp [h1], fun z hz => ?_⟩
        rw [h1, Option.some.injEq] at hz
        rw [← hz, hy])
    (fun n _ => rfl) s hs
  have hsolo : Solo (Partial.env (doubleOSeven R) ag ["player_1"] : Env (Partial Game σ _ R Unit) _ R Unit Int) "player_0" := by
    refine partial_solo _ ag _ hF "player_0" (by decide) (fun e => ?_) fun e a e' r h => ?_
    · have : ((doubleOSeven R).reset e).2.map Prod.fst = ["player_0", "player_1"] := rfl
      rw [this]; simp
    · simp only [doubleOSeven, Option.bind_eq_bind, Option.bind_eq_some_iff] at h
      obtain ⟨k0, -, k1, -, a0, -, a1, -, ⟨g, rew, over⟩, -, h⟩ := h
      simp only [Option.some.injEq, Prod.mk.injEq] at h
      rw [← h.2]
      refine ⟨?_, rfl⟩
      have : g.obs.map Prod.fst = ["player_0", "player_1"] := rfl
      simp only [this]; simp
  obtain ⟨u, hu, -, hsteps, hsum, hustates⟩ := single_run _ ag "player_0" hsolo m _ states (fun n => if n = san then some x else none) (by simp [h0]) t ht
  refine ⟨u, hu, by rw [hsteps, hst], ?_, ?_⟩
  · rw [hsum, (hrest "player_0" (by decide)).1]
  · rw [hustates, (hrest "player_0" (by decide)).2]

/-- Players given by a list of actions, and the number of those they have played; a reset starts the list again. -/
abbrev script : Agent (List Int × Nat) (Nat × Nat × Nat × Nat) ℚ Unit Int := ⟨fun s _ => ((s.1[s.2]?).getD 2, (s.1, s.2 + 1)), fun s => (s.1, 0)⟩

/-- C119 fails without the hypothesis on the fixed agents: they are not reset between two games, although the runner resets its own agents. The same players have
another mean reward in the two-player game and with a fixed player. -/
theorem fixed_not_reset :
    (run (doubleOSeven ℚ) script 2 2 Game.init fun n => if n = "player_0" then some ([2, 0], 0) else some ([2, 2, 2, 0], 0)).map (· "player_0") = some 1 ∧
      (run (Partial.env (doubleOSeven ℚ) script ["player_1"]) script 2 2
        ⟨Game.init, fun n => if n = "player_1" then some ([2, 2, 2, 0], 0) else none, fun _ => none⟩ fun n => if n = "player_0" then some ([2, 0], 0) else none).map
          (· "player_0") = some (1 / 2) := by
  constructor <;> decide +kernel

/-- C119: a new partial environment must be reset before its first step: its fixed agents have no outcome to act upon. -/
theorem unreset_fails (ag : Agent σ (Nat × Nat × Nat × Nat) ℚ Unit Int) (states : String → Option σ) (g : Game) (p : Partial Game σ (Nat × Nat × Nat × Nat) ℚ Unit)
    (hp : Partial.make (doubleOSeven ℚ) ["player_1"] states g = some p) (given : String → Option Int) (hg : given "player_1" = none) :
    Partial.step (doubleOSeven ℚ) ag ["player_1"] p given = none := by
  simp only [Partial.make] at hp
  split at hp
  · simp only [Option.some.injEq] at hp
    subst hp
    simp only [Partial.step, doubleOSeven, hg]
    have : (actions ag states (fun _ => none) "player_1" : Option Int) = none := by simp [actions]
    simp only [this]
    cases h0 : ((given "player_0").orElse fun _ => actions ag states (fun _ => none) "player_0") <;> simp [h0]
  · cases hp

/-- C119: only known agents can be fixed. -/
theorem make_spec (env : Env E O R I A) (F : List String) (states : String → Option σ) (e : E) :
    (Partial.make env F states e).isSome = true ↔ ∀ n ∈ F, n ∈ env.names := by
  simp only [Partial.make]
  split
  · rename_i h; simpa using h
  · rename_i h; simpa using h

/-- C119: the environment of a new partial environment is reset, its agents have the given states and no outcomes, and its names are those of the other agents. -/
theorem make_state (env : Env E O R I A) (ag : Agent σ O R I A) (F : List String) (states : String → Option σ) (e : E) (p : Partial E σ O R I) (h : Partial.make env F states e = some p) :
    p.inner = (env.reset e).1 ∧ p.states = states ∧ (∀ n, p.outcomes n = none) ∧ ∀ n, n ∈ (Partial.env env ag F).names ↔ n ∈ env.names ∧ n ∉ F := by
  simp only [Partial.make] at h
  split at h
  · cases h
    exact ⟨rfl, rfl, fun _ => rfl, fun n => by simp [Partial.env, Partial.names]⟩
  · cases h

/-- C119: each player sees the own state first and then that of the other: what one sees is what the other would see with exchanged players. -/
theorem obs_swap (g : Game) :
    Tools.dictGet g.obs "player_0" = some (g.player0.ammunitions, g.player0.protects, g.player1.ammunitions, g.player1.protects) ∧
      Tools.dictGet g.obs "player_1" = Tools.dictGet (Game.obs ⟨g.player1, g.player0, g.steps⟩) "player_0" := ⟨rfl, rfl⟩

/-- C119: for the single agent the game is over when it is over for the agent or for all. -/
theorem single_done (env : Env E O R I A) (an : String) (e e' : E) (a : A) (o : Outcome O R I) (h : singleStep env an e a = some (e', o)) :
    ∃ r, env.step e (fun n => if n = an then some a else none) = some (e', r) ∧ (o.done = true ↔ r.done an = some true ∨ r.all = some true) ∧ Tools.dictGet r.obs an = some o.obs := by
  simp only [singleStep, Option.bind_eq_bind, Option.bind_eq_some_iff] at h
  obtain ⟨⟨e1, r⟩, h1, ob, h2, d, h3, all, h4, h5⟩ := h
  simp only [Option.some.injEq, Prod.mk.injEq] at h5
  obtain ⟨rfl, rfl⟩ := h5
  simp only at h2 h3 h4
  exact ⟨r, h1, by rw [h3, h4]; simp, h2⟩

/-- C119: a given action for a fixed agent replaces its own. -/
theorem given_first (env : Env E O R I A) (ag : Agent σ O R I A) (F : List String) (p : Partial E σ O R I) (given given' : String → Option A)
    (h : ∀ n, (given n).isSome = true → given' n = given n) (h' : ∀ n, given n = none → given' n = actions ag p.states p.outcomes n) :
    Partial.step env ag F p given' = Partial.step env ag F p given := by
  have : (fun n => (given' n).orElse fun _ => actions ag p.states p.outcomes n) = fun n => (given n).orElse fun _ => actions ag p.states p.outcomes n := by
    funext n
    cases hn : given n with
    | some a => rw [h n (by simp [hn]), hn]
    | none => rw [h' n hn]; cases actions ag p.states p.outcomes n <;> simp
  simp only [Partial.step, this]

/-- C119: the copy of a torch agent, also the one `TorchAgentFunction` makes, has the default step-size whatever the one of the agent. -/
theorem copy_std {M S : Type} (default : S) (t : Torch M S) : (t.copy default).module = t.module ∧ (t.copy default).deterministic = t.deterministic ∧
    ((t.copy default).std = t.std ↔ t.std = default) := ⟨rfl, rfl, eq_comm⟩

/-- C119: the evaluation plays at least one run, and between 1000 minus the repetitions and 1000 games when the repetitions are at most 1000. -/
theorem tests_spec (r : Nat) (hr : 0 < r) : 0 < numTests r ∧ (r ≤ 1000 → numTests r * r ≤ 1000 ∧ 1000 < numTests r * r + r) := by
  have h1 : 0 < numTests r := by simp [numTests]
  refine ⟨h1, fun h => ?_⟩
  have h2 : 1 ≤ 1000 / r := (Nat.one_le_div_iff hr).2 h
  have h3 : numTests r = 1000 / r := by simp only [numTests]; omega
  rw [h3]
  refine ⟨Nat.div_mul_le_self 1000 r, ?_⟩
  have := Nat.lt_div_mul_add (a := 1000) hr
  omega

/-- A game: both reload, then player 0 shoots while player 1 fires for the second time without ammunition left. -/
example : (runOnce (doubleOSeven ℚ) script 100 Game.init fun n => if n = "player_0" then some ([2, 2, 0, 0], 0) else some ([2, 1, 0, 0], 0)).map
    (fun s => (s.steps, s.sums "player_0", s.sums "player_1", s.env)) = some (4, 1, 0, ⟨⟨0, 0⟩, ⟨1, 0⟩, 4⟩) := by decide +kernel

example : Unfinished [(.reload, .protect), (.protect, .fire)] ⟨⟨1, 1⟩, ⟨1, 0⟩, 2⟩ :=
  .step (h := [(.reload, .protect)]) (g := ⟨⟨1, 0⟩, ⟨0, 1⟩, 1⟩) (rew := (0, 0)) (.step (h := []) (rew := (0, 0)) .init (by decide)) (by decide)

end NG.Rl
