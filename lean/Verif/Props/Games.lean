import Verif.Model.Games
import Mathlib.Tactic.Ring
import Mathlib.Tactic.NormNum
import Mathlib.Algebra.Order.Field.Basic

/-!
# C84: games

Cards are conserved, games end and never fail, results are fair to both players where the code is.
-/

namespace NG
namespace Games

/-! ## War -/

section War

variable {F : Type} [DecidableEq F] [Zero F]

theorem sort_eq (l m : List Nat) (h : l.Perm m) : l.insertionSort (· ≥ ·) = m.insertionSort (· ≥ ·) :=
  (((List.perm_insertionSort _ l).trans h).trans (List.perm_insertionSort _ m).symm).eq_of_pairwise'
    (List.pairwise_insertionSort _ l) (List.pairwise_insertionSort _ m)

/-- The index of a weight is within the policy when the hand and the stack come from the deck. -/
theorem index_lt (d : Dims) (hc : 0 < d.cards) (hp : 0 < d.pairs) (num : Nat) (stack : List Nat) (hn : num + stack.length ≤ 2 * d.pairs)
    (h : ∀ c ∈ stack, c < d.cards) : d.index num stack < d.length := by
  have hd : stack.headD 0 < d.cards := by
    cases stack with
    | nil => simpa using hc
    | cons a l => exact h a (by simp)
  unfold Dims.index Dims.length
  generalize stack.headD 0 = c at hd
  obtain ⟨b, hb⟩ : ∃ b, b = stack.length / 2 := ⟨_, rfl⟩
  rw [← hb]
  have hb' : num + 2 * b ≤ 2 * d.pairs := by omega
  obtain ⟨a, ha⟩ : ∃ a, a = min num 9 := ⟨_, rfl⟩
  rw [← ha]
  have h1 : a * d.pairs + b + 1 ≤ 10 * d.pairs := by
    by_cases h9 : a = 9
    · subst h9
      have : 9 ≤ num := by omega
      omega
    · have : a ≤ 8 := by omega
      have : a * d.pairs ≤ 8 * d.pairs := Nat.mul_le_mul_right _ this
      omega
  calc a * d.pairs * d.cards + b * d.cards + c < (a * d.pairs + b + 1) * d.cards := by ring_nf; omega
    _ ≤ 10 * d.pairs * d.cards := Nat.mul_le_mul_right _ h1

/-- Different situations (number of cards up to nine, size of the stack, best card) use different weights. -/
theorem index_injective (d : Dims) (n n' : Nat) (s s' : List Nat) (hs : 2 ≤ s.length) (hs' : 2 ≤ s'.length)
    (hl : s.length ≤ 2 * d.pairs) (hl' : s'.length ≤ 2 * d.pairs) (hc : s.headD 0 < d.cards) (hc' : s'.headD 0 < d.cards)
    (h : d.index n s = d.index n' s') : min n 9 = min n' 9 ∧ s.length / 2 = s'.length / 2 ∧ s.headD 0 = s'.headD 0 := by
  unfold Dims.index at h
  generalize s.headD 0 = c at *
  generalize s'.headD 0 = c' at *
  generalize min n 9 = a at *
  generalize min n' 9 = a' at *
  obtain ⟨b, hb⟩ : ∃ b, b = s.length / 2 := ⟨_, rfl⟩
  obtain ⟨b', hb'⟩ : ∃ b, b = s'.length / 2 := ⟨_, rfl⟩
  rw [← hb, ← hb'] at h
  rw [← hb, ← hb']
  have e1 : c + d.cards * (a * d.pairs + b) = c' + d.cards * (a' * d.pairs + b') := by
    calc c + d.cards * (a * d.pairs + b) = a * d.pairs * d.cards + b * d.cards + c := by ring
      _ = a' * d.pairs * d.cards + b' * d.cards + c' := h
      _ = c' + d.cards * (a' * d.pairs + b') := by ring
  have hcc : c = c' := by
    have := congrArg (· % d.cards) e1
    simpa [Nat.add_mul_mod_self_left, Nat.mod_eq_of_lt hc, Nat.mod_eq_of_lt hc'] using this
  have hpos : 0 < d.cards := by omega
  have e2 : a * d.pairs + b = a' * d.pairs + b' := by
    rw [hcc] at e1
    exact Nat.eq_of_mul_eq_mul_left hpos (by omega)
  have hb1 : 1 ≤ b ∧ b ≤ d.pairs := by omega
  have hb2 : 1 ≤ b' ∧ b' ≤ d.pairs := by omega
  have haa : a = a' := by
    rcases Nat.lt_trichotomy a a' with hlt | he | hlt
    · have : (a + 1) * d.pairs ≤ a' * d.pairs := Nat.mul_le_mul_right _ hlt
      rw [Nat.add_mul] at this; omega
    · exact he
    · have : (a' + 1) * d.pairs ≤ a * d.pairs := Nat.mul_le_mul_right _ hlt
      rw [Nat.add_mul] at this; omega
  subst haa
  exact ⟨rfl, by omega, hcc⟩

/-- The cards of the game. -/
def WarSt.all (s : WarSt) : List Nat := s.one ++ s.two ++ s.stack

/-- What holds at the beginning of every turn. -/
def WarSt.Good (deck : List Nat) (s : WarSt) : Prop :=
  s.all.Perm deck ∧ s.stack.length % 2 = 0 ∧ (s.one = [] ∨ s.two = [] → s.stack = [])

/-- A policy which can be used: the default one or one of the announced length. -/
def Fits (d : Dims) (p : Option (List F)) : Prop := ∀ w, p = some w → w.length = d.length

theorem warDecide_ok (d : Dims) (shuffle : F → List Nat → List Nat) (hsh : ∀ s l, (shuffle s l).Perm l) (hc : 0 < d.cards) (hp : 0 < d.pairs)
    (p : Option (List F)) (hf : Fits d p) (num : Nat) (stack : List Nat) (he : stack.length % 2 = 0)
    (hn : num + stack.length ≤ 2 * d.pairs) (hv : ∀ c ∈ stack, c < d.cards) :
    ∃ l, warDecide d shuffle p num stack = some l ∧ l.Perm stack := by
  cases p with
  | none => exact ⟨_, rfl, List.perm_insertionSort _ _⟩
  | some w =>
    simp only [warDecide]
    rw [if_pos he]
    have hi : d.index num (stack.insertionSort (· ≥ ·)) < w.length := by
      rw [hf w rfl]
      apply index_lt d hc hp
      · simpa using hn
      · intro c hcm
        rw [List.mem_insertionSort] at hcm
        exact hv c hcm
    rw [List.getElem?_eq_getElem hi]
    simp only
    split
    · exact ⟨_, rfl, List.perm_insertionSort _ _⟩
    · exact ⟨_, rfl, (hsh _ _).trans (List.perm_insertionSort _ _)⟩

/-- A turn never fails and conserves the cards. -/
theorem turn_good (d : Dims) (shuffle : F → List Nat → List Nat) (hsh : ∀ s l, (shuffle s l).Perm l) (hc : 0 < d.cards) (hp : 0 < d.pairs)
    (p1 p2 : Option (List F)) (h1 : Fits d p1) (h2 : Fits d p2) (deck : List Nat) (hd : deck.length = 2 * d.pairs)
    (hv : ∀ c ∈ deck, c < d.cards) (s : WarSt) (h : s.Good deck) :
    turn d shuffle p1 p2 s ≠ .fails ∧ ∀ s', turn d shuffle p1 p2 s = .next s' → s'.Good deck := by
  obtain ⟨g1, g2, g3⟩ := h
  obtain ⟨one, two, stack⟩ := s
  cases one with
  | nil => cases two <;> simp [turn]
  | cons a one =>
    cases two with
    | nil => simp [turn]
    | cons b two =>
      simp only [turn, WarSt.all] at *
      have hperm : (one ++ two ++ (stack ++ [a, b])).Perm deck := by
        refine List.Perm.trans ?_ g1
        have : (one ++ two ++ (stack ++ [a, b])).Perm (a :: (one ++ (b :: two) ++ stack)) := by
          rw [List.perm_iff_count]
          intro x
          simp [List.count_append, List.count_cons]
          omega
        simpa using this
      have hst : ∀ c ∈ stack ++ [a, b], c < d.cards := fun c hcm => hv c (hperm.mem_iff.1 (by
        rw [List.mem_append]; exact Or.inr hcm))
      have hlen : one.length + two.length + (stack ++ [a, b]).length = 2 * d.pairs := by
        rw [← hd, ← hperm.length_eq]; simp; omega
      have heven : (stack ++ [a, b]).length % 2 = 0 := by simp; omega
      generalize stack ++ [a, b] = st at hperm hst hlen heven
      have hs := List.perm_insertionSort (· ≥ ·) st
      unfold settle
      by_cases hba : b < a
      · rw [if_pos hba]
        obtain ⟨l, hl, hlp⟩ := warDecide_ok d shuffle hsh hc hp p1 h1 one.length (st.insertionSort (· ≥ ·)) (by simpa using heven)
          (by simp; omega) (fun c hcm => hst c (by simpa using hcm))
        rw [hl]
        simp only [ne_eq, reduceCtorEq, not_false_eq_true, Turn.next.injEq, true_and, forall_eq']
        have hls := hlp.trans hs
        refine ⟨?_, rfl, fun _ => rfl⟩
        refine List.Perm.trans ?_ hperm
        rw [List.perm_iff_count]
        intro x
        have := hls.count_eq x
        simp [WarSt.all, List.count_append]
        omega
      · rw [if_neg hba]
        by_cases hab : a < b
        · rw [if_pos hab]
          obtain ⟨l, hl, hlp⟩ := warDecide_ok d shuffle hsh hc hp p2 h2 two.length (st.insertionSort (· ≥ ·)) (by simpa using heven)
            (by simp; omega) (fun c hcm => hst c (by simpa using hcm))
          rw [hl]
          simp only [ne_eq, reduceCtorEq, not_false_eq_true, Turn.next.injEq, true_and, forall_eq']
          have hls := hlp.trans hs
          refine ⟨?_, rfl, fun _ => rfl⟩
          refine List.Perm.trans ?_ hperm
          rw [List.perm_iff_count]
          intro x
          have := hls.count_eq x
          simp [WarSt.all, List.count_append]
          omega
        · rw [if_neg hab]
          by_cases hsmall : one.length < 2 ∨ two.length < 2
          · rw [if_pos hsmall]; simp
          · rw [if_neg hsmall]
            simp only [ne_eq, reduceCtorEq, not_false_eq_true, Turn.next.injEq, true_and, forall_eq']
            cases one with
            | nil => simp at hsmall
            | cons a' one =>
              cases two with
              | nil => simp at hsmall
              | cons b' two =>
                simp only [List.tail_cons, List.headD_cons]
                refine ⟨?_, by simp; omega, ?_⟩
                · refine List.Perm.trans ?_ hperm
                  rw [List.perm_iff_count]
                  intro x
                  simp [WarSt.all, List.count_append, List.count_cons]
                  omega
                · rintro (h | h)
                  · simp only at h; subst h; simp at hsmall
                  · simp only at h; subst h; simp at hsmall

theorem warLoop_some (d : Dims) (shuffle : F → List Nat → List Nat) (hsh : ∀ s l, (shuffle s l).Perm l) (hc : 0 < d.cards) (hp : 0 < d.pairs)
    (p1 p2 : Option (List F)) (h1 : Fits d p1) (h2 : Fits d p2) (deck : List Nat) (hd : deck.length = 2 * d.pairs)
    (hv : ∀ c ∈ deck, c < d.cards) (n : Nat) (s : WarSt) (h : s.Good deck) : ∃ r, warLoop d shuffle p1 p2 n s = some r ∧ r ≤ 2 := by
  induction n generalizing s with
  | zero => exact ⟨0, rfl, by omega⟩
  | succ n ih =>
    have ht := turn_good d shuffle hsh hc hp p1 p2 h1 h2 deck hd hv s h
    simp only [warLoop]
    cases hr : turn d shuffle p1 p2 s with
    | fails => exact absurd hr ht.1
    | next s' => exact ih s' (ht.2 s' hr)
    | over w =>
      refine ⟨w, rfl, ?_⟩
      obtain ⟨one, two, stack⟩ := s
      have hm : ∀ a b, more a b ≤ 2 := by intro a b; unfold more; split <;> [omega; split <;> omega]
      cases one with
      | nil => cases two <;> (simp [turn] at hr; omega)
      | cons a one =>
        cases two with
        | nil => simp [turn] at hr; omega
        | cons b two =>
          simp only [turn, settle] at hr
          split at hr
          · split at hr <;> simp at hr
          · split at hr
            · split at hr <;> simp at hr
            · split at hr
              · simp at hr; rw [← hr]; exact hm _ _
              · simp at hr

theorem deck_spec (d : Dims) (h : d = war ∨ d = batawaf) : d.deck.length = 2 * d.pairs ∧ (∀ c ∈ d.deck, c < d.cards) ∧ 0 < d.cards ∧ 0 < d.pairs := by
  rcases h with rfl | rfl <;> decide +kernel

/-- A game of war or batawaf always ends with a result, whatever the deal and the policies of the announced length: no weight is ever looked up out of
the policy. -/
theorem war_ends (d : Dims) (hd : d = war ∨ d = batawaf) (shuffle : F → List Nat → List Nat) (hsh : ∀ s l, (shuffle s l).Perm l)
    (p1 p2 : Option (List F)) (h1 : Fits d p1) (h2 : Fits d p2) (cards : List Nat) (hc : cards.Perm d.deck) :
    ∃ r, warPlay d shuffle p1 p2 cards = some r ∧ r ≤ 2 := by
  obtain ⟨a, b, c, e⟩ := deck_spec d hd
  apply warLoop_some d shuffle hsh c e p1 p2 h1 h2 d.deck a b
  refine ⟨by simpa [WarSt.all] using hc, rfl, fun _ => rfl⟩

/-- The states met after `k` turns. -/
inductive WarReach (d : Dims) (shuffle : F → List Nat → List Nat) (p1 p2 : Option (List F)) (s₀ : WarSt) : WarSt → Prop
  | start : WarReach d shuffle p1 p2 s₀ s₀
  | step (s s' : WarSt) : WarReach d shuffle p1 p2 s₀ s → turn d shuffle p1 p2 s = .next s' → WarReach d shuffle p1 p2 s₀ s'

/-- Cards are neither lost nor created, and a player without cards faces an opponent who holds all of them. -/
theorem war_conserves (d : Dims) (hd : d = war ∨ d = batawaf) (shuffle : F → List Nat → List Nat) (hsh : ∀ s l, (shuffle s l).Perm l)
    (p1 p2 : Option (List F)) (h1 : Fits d p1) (h2 : Fits d p2) (cards : List Nat) (hc : cards.Perm d.deck) (s : WarSt)
    (h : WarReach d shuffle p1 p2 ⟨cards.take d.pairs, cards.drop d.pairs, []⟩ s) :
    (s.one ++ s.two ++ s.stack).Perm d.deck ∧ (s.one = [] → s.two.Perm d.deck) ∧ (s.two = [] → s.one.Perm d.deck) := by
  obtain ⟨a, b, c, e⟩ := deck_spec d hd
  have hg : s.Good d.deck := by
    induction h with
    | start => exact ⟨by simpa [WarSt.all] using hc, rfl, fun _ => rfl⟩
    | step s s' _ ht ih => exact (turn_good d shuffle hsh c e p1 p2 h1 h2 d.deck a b s ih).2 s' ht
  refine ⟨hg.1, fun h1 => ?_, fun h2 => ?_⟩
  · have := hg.1
    simpa [WarSt.all, h1, hg.2.2 (Or.inl h1)] using this
  · have := hg.1
    simpa [WarSt.all, h2, hg.2.2 (Or.inr h2)] using this

/-- When the game stops, the winner is the player with more cards. -/
theorem turn_over (d : Dims) (shuffle : F → List Nat → List Nat) (p1 p2 : Option (List F)) (s : WarSt) (w : Nat)
    (h : turn d shuffle p1 p2 s = .over w) :
    (w = 1 ∧ s.two.length < s.one.length) ∨ (w = 2 ∧ s.one.length < s.two.length) ∨ (w = 0 ∧ s.one.length = s.two.length) := by
  obtain ⟨one, two, stack⟩ := s
  cases one with
  | nil => cases two <;> simp_all [turn]
  | cons a one =>
    cases two with
    | nil => simp only [turn, Turn.over.injEq] at h; subst h; simp
    | cons b two =>
      simp only [turn, settle] at h
      split at h
      · split at h <;> cases h
      · split at h
        · split at h <;> cases h
        · split at h
          · simp only [Turn.over.injEq] at h
            subst h
            simp only [List.length_cons, more]
            rcases Nat.lt_trichotomy one.length two.length with h | h | h
            · rw [if_neg (by omega), if_pos h]; omega
            · rw [if_neg (by omega), if_neg (by omega)]; omega
            · rw [if_pos h]; omega
          · cases h

/-- A result of war: a player wins exactly in a state met during the game in which this player has more cards and the game stops; any other game is a
draw. -/
theorem war_result (d : Dims) (shuffle : F → List Nat → List Nat) (p1 p2 : Option (List F)) (cards : List Nat) (w : Nat)
    (h : warPlay d shuffle p1 p2 cards = some w) (hw : w ≠ 0) :
    ∃ s, WarReach d shuffle p1 p2 ⟨cards.take d.pairs, cards.drop d.pairs, []⟩ s ∧ turn d shuffle p1 p2 s = .over w ∧
      ((w = 1 ∧ s.two.length < s.one.length) ∨ (w = 2 ∧ s.one.length < s.two.length)) := by
  have key : ∀ n s, WarReach d shuffle p1 p2 ⟨cards.take d.pairs, cards.drop d.pairs, []⟩ s → warLoop d shuffle p1 p2 n s = some w →
      ∃ s, WarReach d shuffle p1 p2 ⟨cards.take d.pairs, cards.drop d.pairs, []⟩ s ∧ turn d shuffle p1 p2 s = .over w := by
    intro n
    induction n with
    | zero => intro s _ h; simp [warLoop] at h; exact absurd h.symm hw
    | succ n ih =>
      intro s hs h
      simp only [warLoop] at h
      cases ht : turn d shuffle p1 p2 s with
      | over v => rw [ht] at h; simp at h; exact ⟨s, hs, by rw [ht, h]⟩
      | fails => rw [ht] at h; simp at h
      | next s' => rw [ht] at h; exact ih s' (.step s s' hs ht) h
  obtain ⟨s, hs, ht⟩ := key _ _ .start h
  refine ⟨s, hs, ht, ?_⟩
  rcases turn_over d shuffle p1 p2 s w ht with h | h | h
  · exact Or.inl h
  · exact Or.inr h
  · exact absurd h.1 hw

/-- The same state seen from the other side. -/
def Mirror (s s' : WarSt) : Prop := s'.one = s.two ∧ s'.two = s.one ∧ s'.stack.Perm s.stack

theorem other_other (w : Nat) (h : w ≤ 2) : other (other w) = w := by
  have : w = 0 ∨ w = 1 ∨ w = 2 := by omega
  rcases this with rfl | rfl | rfl <;> rfl

theorem mirror_loop (d : Dims) (shuffle : F → List Nat → List Nat) (p1 p2 : Option (List F)) (n : Nat) (s s' : WarSt) (h : Mirror s s') :
    warLoop d shuffle p2 p1 n s' = (warLoop d shuffle p1 p2 n s).map other := by
  induction n generalizing s s' with
  | zero => rfl
  | succ n ih =>
    obtain ⟨one, two, stack⟩ := s
    obtain ⟨one', two', stack'⟩ := s'
    obtain ⟨e1, e2, e3⟩ := h
    simp only at e1 e2 e3
    subst e1 e2
    cases two' with
    | nil => cases one' <;> simp [warLoop, turn, other]
    | cons a one =>
      cases one' with
      | nil => simp [warLoop, turn, other]
      | cons b two =>
        have hst : (stack' ++ [b, a]).Perm (stack ++ [a, b]) := e3.append (List.Perm.swap _ _ _)
        have hso := sort_eq _ _ hst
        simp only [warLoop, turn, settle]
        rw [hso]
        by_cases hba : b < a
        · rw [if_neg (by omega), if_pos hba, if_pos hba]
          cases warDecide d shuffle p1 one.length ((stack ++ [a, b]).insertionSort (· ≥ ·)) with
          | none => rfl
          | some l => exact ih _ _ ⟨rfl, rfl, List.Perm.refl _⟩
        · by_cases hab : a < b
          · rw [if_pos hab, if_neg hba, if_pos hab]
            cases warDecide d shuffle p2 two.length ((stack ++ [a, b]).insertionSort (· ≥ ·)) with
            | none => rfl
            | some l => exact ih _ _ ⟨rfl, rfl, List.Perm.refl _⟩
          · rw [if_neg hab, if_neg hba, if_neg hba, if_neg hab]
            by_cases hs : one.length < 2 ∨ two.length < 2
            · rw [if_pos hs, if_pos (Or.symm hs)]
              simp only [Option.map_some, Option.some.injEq]
              unfold more
              rcases Nat.lt_trichotomy one.length two.length with h | h | h
              · rw [if_pos h, if_neg (by omega), if_pos h]; rfl
              · rw [h]; simp [other]
              · rw [if_neg (by omega), if_pos h, if_pos h]; rfl
            · rw [if_neg hs, if_neg (fun h => hs h.symm)]
              exact ih _ _ ⟨rfl, rfl, hst.append (List.Perm.swap _ _ _)⟩

/-- War is fair: exchanging the hands and the policies exchanges the result. -/
theorem war_symmetric (d : Dims) (shuffle : F → List Nat → List Nat) (p1 p2 : Option (List F)) (one two : List Nat) (h1 : one.length = d.pairs)
    (h2 : two.length = d.pairs) : warPlay d shuffle p2 p1 (two ++ one) = (warPlay d shuffle p1 p2 (one ++ two)).map other := by
  unfold warPlay
  apply mirror_loop
  have e1 : (one ++ two).take d.pairs = one := by rw [← h1]; simp
  have e2 : (two ++ one).take d.pairs = two := by rw [← h2]; simp
  have e3 : (one ++ two).drop d.pairs = two := by rw [← h1]; simp
  have e4 : (two ++ one).drop d.pairs = one := by rw [← h2]; simp
  exact ⟨by rw [e2, e3], by rw [e4, e1], List.Perm.refl _⟩

end War

/-! ## Guess who -/

/-- A player who asks keeps at least one card and always loses at least one: the assertions on the decks hold. -/
theorem ask_spec (deck : Nat) (h : 2 ≤ deck) (choice : Int) (r : Nat) : 1 ≤ ask deck choice r ∧ ask deck choice r < deck := by
  unfold ask
  simp only
  have : 1 ≤ (max 1 (min choice ((deck : Int) - 1))).toNat ∧ (max 1 (min choice ((deck : Int) - 1))).toNat ≤ deck - 1 := by omega
  generalize (max 1 (min choice ((deck : Int) - 1))).toNat = c at this
  split <;> omega

/-- The game ends after at most `a + b` plays, whatever the policies and the draws; the winner is the one who first has a single card. -/
theorem guess_ends (p1 p2 : Nat → Nat → Int) (draw : Nat → Nat → Nat) (n : Nat) (who : Bool) (a b : Nat) (ha : 2 ≤ a) (hb : 2 ≤ b)
    (hn : a + b ≤ n + 2) : ∃ r, guess p1 p2 draw n who (a, b) = some r ∧ (r = 1 ∨ r = 2) := by
  induction n generalizing who a b with
  | zero => omega
  | succ n ih =>
    cases who with
    | true =>
      have := ask_spec a ha (p1 a b) (draw n a)
      simp only [guess]
      generalize ask a (p1 a b) (draw n a) = a' at *
      by_cases h : min a' b ≤ 1
      · rw [if_pos h]; exact ⟨1, rfl, Or.inl rfl⟩
      · rw [if_neg h]; exact ih false a' b (by omega) hb (by omega)
    | false =>
      have := ask_spec b hb (p2 b a) (draw n b)
      simp only [guess]
      generalize ask b (p2 b a) (draw n b) = b' at *
      by_cases h : min a b' ≤ 1
      · rw [if_pos h]; exact ⟨2, rfl, Or.inr rfl⟩
      · rw [if_neg h]; exact ih true a b' ha (by omega) (by omega)

/-- The winner has one card left, the loser more. -/
theorem guess_winner (p1 p2 : Nat → Nat → Int) (draw : Nat → Nat → Nat) (n : Nat) (a b : Nat) (ha : 2 ≤ a) (hb : 2 ≤ b) :
    (guess p1 p2 draw (n + 1) true (a, b) = some 1 ↔ ask a (p1 a b) (draw n a) = 1 ∨
      (ask a (p1 a b) (draw n a) ≠ 1 ∧ guess p1 p2 draw n false (ask a (p1 a b) (draw n a), b) = some 1)) := by
  have := ask_spec a ha (p1 a b) (draw n a)
  simp only [guess]
  generalize ask a (p1 a b) (draw n a) = a' at *
  by_cases h : min a' b ≤ 1
  · rw [if_pos h]
    have : a' = 1 := by omega
    simp [this]
  · rw [if_neg h]
    have : a' ≠ 1 := by omega
    simp [this]

/-- The number of integers drawn for which the answer leaves the cards asked for, among the `deck` possible ones: one more than the number of cards
asked for. -/
theorem ask_law (deck c : Nat) (h : c < deck) :
    ((List.range deck).filter (fun r => decide (r ≤ c))).length = c + 1 := by
  have h : (List.range deck).filter (fun r => decide (r ≤ c)) = List.range (c + 1) := by
    have : List.range deck = List.range (c + 1) ++ (List.range (deck - (c + 1))).map (c + 1 + ·) := by
      rw [← List.range_add]; congr 1; omega
    rw [this, List.filter_append]
    have e1 : (List.range (c + 1)).filter (fun r => decide (r ≤ c)) = List.range (c + 1) :=
      List.filter_eq_self.2 (fun x hx => by simp at hx; simp; omega)
    have e2 : ((List.range (deck - (c + 1))).map (c + 1 + ·)).filter (fun r => decide (r ≤ c)) = [] := by
      rw [List.filter_eq_nil_iff]
      intro x hx
      simp at hx
      obtain ⟨y, _, rfl⟩ := hx
      simp; omega
    rw [e1, e2, List.append_nil]
  rw [h, List.length_range]

/-- Disagreement: a question about one of three cards should be answered yes once out of three; it is for two of the three draws. -/
theorem ask_biased : ((List.range 3).filter (fun r => ask 3 1 r = 1)).length = 2 := by decide +kernel

/-! ## Flip -/

section Flip

/-- Disagreement: a card may be put on the card just below, not on the card just above. -/
theorem fits_iff (a b : Nat) (ha : a < 13) (hb : b < 13) : fits a b = true ↔ a = b ∨ a = b + 1 ∨ (a = 0 ∧ b = 12) := by
  unfold fits
  simp only [decide_eq_true_eq]
  omega

theorem fits_asymmetric : fits 3 2 = true ∧ fits 2 3 = false := by decide +kernel

variable {α β : Type} [LinearOrder α] [LinearOrder β]

theorem best_spec (value : List Nat × List Nat → α) (v : α) (r : Option (List Nat × List Nat)) (l : List (List Nat × List Nat)) :
    (best value v r l = r ∧ ∀ c ∈ l, v ≤ value c) ∨
    ∃ c ∈ l, best value v r l = some c ∧ value c < v ∧ ∀ c' ∈ l, value c ≤ value c' := by
  induction l generalizing v r with
  | nil => left; simp [best]
  | cons x l ih =>
    simp only [best]
    by_cases hx : value x < v
    · rw [if_pos hx]
      right
      rcases ih (value x) (some x) with ⟨h1, h2⟩ | ⟨c, h1, h2, h3, h4⟩
      · exact ⟨x, by simp, h1, hx, List.forall_mem_cons.2 ⟨le_refl _, h2⟩⟩
      · refine ⟨c, by simp [h1], h2, h3.trans hx, ?_⟩
        intro c' hc'
        simp at hc'
        rcases hc' with rfl | hc'
        · exact h3.le
        · exact h4 c' hc'
    · rw [if_neg hx]
      rcases ih v r with ⟨h1, h2⟩ | ⟨c, h1, h2, h3, h4⟩
      · left; exact ⟨h1, List.forall_mem_cons.2 ⟨not_lt.1 hx, h2⟩⟩
      · right
        refine ⟨c, by simp [h1], h2, h3, ?_⟩
        intro c' hc'
        simp at hc'
        rcases hc' with rfl | hc'
        · exact h3.le.trans (not_lt.1 hx)
        · exact h4 c' hc'

/-- A play: one visible card which fits one of the two cards of the stack replaces it. -/
theorem mem_plays (visible stack : List Nat) (c : List Nat × List Nat) : c ∈ plays visible stack ↔
    ∃ i l, i < visible.length ∧ l < 2 ∧ fits (visible.getD i 0) (stack.getD l 0) = true ∧
      c = (visible.take i ++ visible.drop (i + 1), ([visible.getD i 0, stack.getD (1 - l) 0]).insertionSort (· ≤ ·)) := by
  simp only [plays, List.mem_flatMap, List.mem_range, List.mem_filterMap]
  constructor
  · rintro ⟨i, hi, l, hl, h⟩
    split at h
    · next hf =>
      refine ⟨i, l, hi, ?_, hf, (Option.some.inj h).symm⟩
      simp at hl; omega
    · simp at h
  · rintro ⟨i, l, hi, hl, hf, rfl⟩
    refine ⟨i, hi, l, ?_, by rw [if_pos hf]⟩
    have : l = 0 ∨ l = 1 := by omega
    simpa using this

/-- The player makes the best possible play, or passes if none is strictly better than passing. -/
theorem choose_spec (val : Value α) (me other : Hand) (stack : List Nat) :
    (choose val me other stack = none ∧ ∀ c ∈ plays me.visible stack,
      val me.visible other.visible me.size other.size stack ≤ val c.1 other.visible (me.size - 1) other.size c.2) ∨
    ∃ c ∈ plays me.visible stack, choose val me other stack = some c ∧
      val c.1 other.visible (me.size - 1) other.size c.2 < val me.visible other.visible me.size other.size stack ∧
      ∀ c' ∈ plays me.visible stack, val c.1 other.visible (me.size - 1) other.size c.2 ≤ val c'.1 other.visible (me.size - 1) other.size c'.2 :=
  best_spec _ _ none _

/-- The default player: the value is the number of cards (game.py 204-205). -/
def greedy : Value Nat := fun _ _ l _ _ => l

/-- The default player plays whenever a play exists. -/
theorem default_plays (me other : Hand) (stack : List Nat) : choose greedy me other stack = none ↔ plays me.visible stack = [] := by
  constructor
  · intro h
    rcases choose_spec greedy me other stack with ⟨_, h2⟩ | ⟨c, _, h2, _⟩
    · cases hp : plays me.visible stack with
      | nil => rfl
      | cons c l =>
        exfalso
        have hc := h2 c (by rw [hp]; simp)
        obtain ⟨i, _, hi, _⟩ := (mem_plays me.visible stack c).1 (by rw [hp]; simp)
        simp [greedy] at hc
        unfold Hand.size at hc
        omega
    · rw [h] at h2; simp at h2
  · intro h; simp [choose, h, best]

theorem after_size (me : Hand) (i : Nat) (hi : i < me.visible.length) :
    (me.after (me.visible.take i ++ me.visible.drop (i + 1))).size + 1 = me.size := by
  unfold Hand.after Hand.size
  simp only [List.length_insertionSort, List.length_append, List.length_take, List.length_drop, List.length_tail]
  omega

/-- Either the player passes or has one card less. -/
theorem first_size (v : Value α) (s : FlipSt) : (first v s = (false, s)) ∨
    ((first v s).1 = true ∧ (first v s).2.one.size + 1 = s.one.size ∧ (first v s).2.two = s.two) := by
  unfold first
  rcases choose_spec v s.one s.two s.stack with ⟨h, _⟩ | ⟨c, hc, h, _⟩
  · left; rw [h]
  · right
    rw [h]
    obtain ⟨i, l, hi, _, _, rfl⟩ := (mem_plays _ _ _).1 hc
    exact ⟨rfl, after_size s.one i hi, rfl⟩

theorem second_size (v : Value α) (s : FlipSt) : (second v s = (false, s)) ∨
    ((second v s).1 = true ∧ (second v s).2.two.size + 1 = s.two.size ∧ (second v s).2.one = s.one) := by
  unfold second
  rcases choose_spec v s.two s.one s.stack with ⟨h, _⟩ | ⟨c, hc, h, _⟩
  · left; rw [h]
  · right
    rw [h]
    obtain ⟨i, l, hi, _, _, rfl⟩ := (mem_plays _ _ _).1 hc
    exact ⟨rfl, after_size s.two i hi, rfl⟩

theorem refill_size (s s' : FlipSt) (h : refill s = some s') : s'.one.size + 1 = s.one.size ∧ s'.two.size + 1 = s.two.size := by
  obtain ⟨⟨v1, h1⟩, ⟨v2, h2⟩, st⟩ := s
  unfold refill at h
  cases h1 with
  | nil => simp at h
  | cons a l =>
    cases h2 with
    | nil => simp at h
    | cons b r =>
      simp at h
      subst h
      simp [Hand.size]
      omega

/-- The game of flip always ends: the number of cards in the hands bounds the number of turns. -/
theorem flip_ends (v1 : Value α) (v2 : Value β) (n : Nat) (s : FlipSt) (h : s.one.size + s.two.size < n) :
    ∃ r, flip v1 v2 n s = some r ∧ r ≤ 2 := by
  induction n generalizing s with
  | zero => omega
  | succ n ih =>
    simp only [flip]
    split
    · exact ⟨1, rfl, by omega⟩
    · split
      · exact ⟨2, rfl, by omega⟩
      · have hf := first_size v1 s
        have hs := second_size v2 (first v1 s).2
        split
        · next hm =>
          apply ih
          rcases hf with hf | hf <;> rcases hs with hs | hs
          · rw [hs, hf] at hm; simp at hm
          · rw [hs.2.2]
            have := hs.2.1
            rw [hf] at this ⊢
            simp only at *
            omega
          · rw [hs]
            simp only
            rw [hf.2.2]
            have := hf.2.1
            omega
          · rw [hs.2.2]
            have h1 := hs.2.1
            have h2 := hf.2.1
            rw [hf.2.2] at h1
            omega
        · next hm =>
          have e : (second v2 (first v1 s).2).2 = s := by
            rcases hf with hf | hf
            · rcases hs with hs | hs
              · rw [hs, hf]
              · rw [hs.1] at hm; simp at hm
            · rw [hf.1] at hm; simp at hm
          rw [e]
          cases hr : refill s with
          | none => exact ⟨_, rfl, by unfold fewer; split <;> [omega; split <;> omega]⟩
          | some s' =>
            have := refill_size s s' hr
            exact ih s' (by omega)

/-- Letting the loop run longer does not change the result. -/
theorem flip_stable (v1 : Value α) (v2 : Value β) (n m : Nat) (s : FlipSt) (r : Nat) (hnm : n ≤ m) (h : flip v1 v2 n s = some r) :
    flip v1 v2 m s = some r := by
  induction n generalizing s m with
  | zero => simp [flip] at h
  | succ n ih =>
    obtain ⟨m, rfl⟩ : ∃ k, m = k + 1 := ⟨m - 1, by omega⟩
    simp only [flip] at h ⊢
    split
    · next hc => rw [if_pos hc] at h; exact h
    · next hc =>
      rw [if_neg hc] at h
      split
      · next hc => rw [if_pos hc] at h; exact h
      · next hc =>
        rw [if_neg hc] at h
        split
        · next hc => rw [if_pos hc] at h; exact ih m _ (by omega) h
        · next hc =>
          rw [if_neg hc] at h
          cases hr : refill (second v2 (first v1 s).2).2 with
          | none => rw [hr] at h; exact h
          | some s' => rw [hr] at h; exact ih m s' (by omega) h

/-- Disagreement: the second player never wins by getting rid of its cards: the test is made only when a card was just added to its hand. -/
theorem second_never_out (v : Value α) (s : FlipSt) (h : (second v s).1 = true) (hh : s.two.hidden ≠ []) :
    (second v s).2.two.visible ≠ [] := by
  unfold second at h ⊢
  cases hc : choose v s.two s.one s.stack with
  | none => rw [hc] at h; simp at h
  | some c =>
    simp only [Hand.after]
    obtain ⟨a, l, hl⟩ := List.exists_cons_of_ne_nil hh
    rw [hl]
    intro e
    have := congrArg List.length e
    simp at this

/-- The first player wins as soon as its hand is empty. -/
theorem first_out (v1 : Value α) (v2 : Value β) (n : Nat) (s : FlipSt) (h : (first v1 s).1 = true) (he : (first v1 s).2.one.visible = []) :
    flip v1 v2 (n + 1) s = some 1 := by
  simp [flip, h, he]

/-- One turn of the loop. -/
def round (v1 : Value α) (v2 : Value β) (s : FlipSt) : FlipSt :=
  let a := first v1 s
  let b := second v2 a.2
  if a.1 || b.1 then b.2 else (refill b.2).getD b.2

def unlucky : List Nat := [7, 1, 2, 0, 4, 5, 3, 5, 5, 3, 1, 2, 6, 1, 0, 6, 6, 7, 0, 5, 6, 4, 7, 1, 7, 0, 2, 4, 4, 2, 3, 3]

/-- All cards of the table and of the hands. -/
def FlipSt.all (s : FlipSt) : List Nat := s.one.visible ++ s.one.hidden ++ (s.two.visible ++ s.two.hidden) ++ s.stack

theorem take_drop_perm (l : List Nat) (i : Nat) (h : i < l.length) : (l.getD i 0 :: (l.take i ++ l.drop (i + 1))).Perm l := by
  have : l = l.take i ++ l.getD i 0 :: l.drop (i + 1) := by
    rw [List.getD_eq_getElem?_getD, List.getElem?_eq_getElem h, Option.getD_some, ← List.drop_eq_getElem_cons h, List.take_append_drop]
  conv_rhs => rw [this]
  exact List.perm_middle.symm

theorem play_count (me : Hand) (stack : List Nat) (hs : stack.length = 2) (c : List Nat × List Nat) (h : c ∈ plays me.visible stack) :
    (∀ x, ((me.after c.1).visible ++ (me.after c.1).hidden ++ c.2.insertionSort (· ≤ ·)).count x ≤ (me.visible ++ me.hidden ++ stack).count x) ∧
    (c.2.insertionSort (· ≤ ·)).length = 2 := by
  obtain ⟨i, l, hi, hl, _, rfl⟩ := (mem_plays _ _ _).1 h
  obtain ⟨a, b, rfl⟩ : ∃ a b, stack = [a, b] := by
    match stack, hs with
    | [a, b], _ => exact ⟨a, b, rfl⟩
  refine ⟨?_, by rw [List.length_insertionSort, List.length_insertionSort]; rfl⟩
  intro x
  have hp := (take_drop_perm me.visible i hi).count_eq x
  have e1 := (List.perm_insertionSort (· ≤ ·) ((me.visible.take i ++ me.visible.drop (i + 1)) ++ me.hidden.take 1)).count_eq x
  have e2 := (List.perm_insertionSort (· ≤ ·) (([me.visible.getD i 0, [a, b].getD (1 - l) 0]).insertionSort (· ≤ ·))).count_eq x
  have e3 := (List.perm_insertionSort (· ≤ ·) [me.visible.getD i 0, [a, b].getD (1 - l) 0]).count_eq x
  have e4 : me.hidden.count x = (me.hidden.take 1).count x + me.hidden.tail.count x := by
    rw [← List.count_append]
    congr 1
    cases me.hidden <;> simp
  have e5 : [[a, b].getD (1 - l) 0].count x ≤ [a, b].count x := by
    have : l = 0 ∨ l = 1 := by omega
    rcases this with rfl | rfl <;> simp [List.count_cons]
  simp only [Hand.after, List.count_append, List.count_cons] at *
  simp only [List.count_nil] at *
  omega

/-- What is on the table or in the hands comes from the deal: no card is created, and the stack always has two cards. -/
theorem round_cards (v1 : Value α) (v2 : Value β) (s : FlipSt) (hs : s.stack.length = 2) :
    (∀ x, (round v1 v2 s).all.count x ≤ s.all.count x) ∧ (round v1 v2 s).stack.length = 2 := by
  have h1 : (∀ x, (first v1 s).2.all.count x ≤ s.all.count x) ∧ (first v1 s).2.stack.length = 2 := by
    unfold first
    rcases choose_spec v1 s.one s.two s.stack with ⟨h, _⟩ | ⟨c, hc, h, _⟩
    · rw [h]; exact ⟨fun x => le_refl _, hs⟩
    · rw [h]
      have := play_count s.one s.stack hs c hc
      refine ⟨fun x => ?_, this.2⟩
      have := this.1 x
      simp only [FlipSt.all, List.count_append] at *
      omega
  have h2 : (∀ x, (second v2 (first v1 s).2).2.all.count x ≤ s.all.count x) ∧ (second v2 (first v1 s).2).2.stack.length = 2 := by
    generalize (first v1 s).2 = t at h1
    unfold second
    rcases choose_spec v2 t.two t.one t.stack with ⟨h, _⟩ | ⟨c, hc, h, _⟩
    · rw [h]; exact h1
    · rw [h]
      have := play_count t.two t.stack h1.2 c hc
      refine ⟨fun x => le_trans ?_ (h1.1 x), this.2⟩
      have := this.1 x
      simp only [FlipSt.all, List.count_append] at *
      omega
  unfold round
  simp only
  split
  · exact h2
  · cases hr : refill (second v2 (first v1 s).2).2 with
    | none => exact h2
    | some t =>
      generalize (second v2 (first v1 s).2).2 = u at h2 hr
      obtain ⟨⟨va, ha⟩, ⟨vb, hb⟩, st⟩ := u
      unfold refill at hr
      cases ha with
      | nil => simp at hr
      | cons a l =>
        cases hb with
        | nil => simp at hr
        | cons b r =>
          simp at hr
          subst hr
          refine ⟨fun x => le_trans ?_ (h2.1 x), rfl⟩
          simp only [Option.getD_some, FlipSt.all, List.count_append, List.count_cons, List.count_nil]
          omega

/-- The result of flip: either the first player has just played the last card, or nobody can play any more, one of the players has no hidden card left,
and the player with fewer visible cards wins. -/
theorem flip_result (v1 : Value α) (v2 : Value β) (n : Nat) (s : FlipSt) (r : Nat) (h : flip v1 v2 n s = some r) :
    ∃ k t, t = (round v1 v2)^[k] s ∧
      ((r = 1 ∧ (first v1 t).1 = true ∧ (first v1 t).2.one.visible = []) ∨
       (choose v1 t.one t.two t.stack = none ∧ choose v2 t.two t.one t.stack = none ∧ (t.one.hidden = [] ∨ t.two.hidden = []) ∧
        ((r = 1 ∧ t.one.visible.length < t.two.visible.length) ∨ (r = 2 ∧ t.two.visible.length < t.one.visible.length) ∨
         (r = 0 ∧ t.one.visible.length = t.two.visible.length)))) := by
  induction n generalizing s with
  | zero => simp [flip] at h
  | succ n ih =>
    simp only [flip] at h
    split at h
    · next hc =>
      simp at hc h
      exact ⟨0, s, rfl, Or.inl ⟨h.symm, hc.1, hc.2⟩⟩
    · split at h
      · next hc =>
        simp only [Bool.and_eq_true, Bool.not_eq_true', List.isEmpty_iff, List.isEmpty_eq_false_iff] at hc
        exact absurd hc.2 (second_never_out v2 _ hc.1.1 hc.1.2)
      · split at h
        · next hm =>
          obtain ⟨k, t, ht, H⟩ := ih _ h
          refine ⟨k + 1, t, ?_, H⟩
          rw [ht, Function.iterate_succ_apply]
          simp only [round, hm, if_true]
        · next hm =>
          have e1 : (first v1 s).2 = s ∧ choose v1 s.one s.two s.stack = none := by
            simp only [Bool.or_eq_true, not_or] at hm
            have := hm.1
            unfold first at this ⊢
            cases hc : choose v1 s.one s.two s.stack with
            | none => simp
            | some c => rw [hc] at this; simp at this
          have e2 : (second v2 s).2 = s ∧ choose v2 s.two s.one s.stack = none := by
            simp only [Bool.or_eq_true, not_or, e1.1] at hm
            have := hm.2
            unfold second at this ⊢
            cases hc : choose v2 s.two s.one s.stack with
            | none => simp
            | some c => rw [hc] at this; simp at this
          rw [e1.1, e2.1] at h
          cases hr : refill s with
          | some s' =>
            rw [hr] at h
            obtain ⟨k, t, ht, H⟩ := ih _ h
            refine ⟨k + 1, t, ?_, H⟩
            rw [ht, Function.iterate_succ_apply]
            simp only [round]
            rw [if_neg hm, e1.1, e2.1, hr]
            rfl
          | none =>
            rw [hr] at h
            simp only [Option.some.injEq] at h
            refine ⟨0, s, rfl, Or.inr ⟨e1.2, e2.2, ?_, ?_⟩⟩
            · unfold refill at hr
              cases ho : s.one.hidden with
              | nil => exact Or.inl rfl
              | cons a l =>
                cases ht : s.two.hidden with
                | nil => exact Or.inr rfl
                | cons b r => rw [ho, ht] at hr; simp at hr
            · subst h
              unfold fewer
              rcases Nat.lt_trichotomy s.one.visible.length s.two.visible.length with h | h | h
              · rw [if_pos h]; omega
              · rw [if_neg (by omega), if_neg (by omega)]; omega
              · rw [if_neg (by omega), if_pos h]; omega

/-- The features have the length expected by the policy, whatever the state. -/
theorem features_length (a b : List Nat) (l1 l2 : Nat) (stack : List Nat) : (features a b l1 l2 stack).length = 57 := by
  simp [features]

/-- Exchanging the policies and the coin exchanges the result: seen before the coin, the game is fair even though the first player is favoured. -/
theorem flip_fair (v1 v2 : Value α) (n : Nat) (coin : Bool) (cards : List Nat)
    (h' : (flip v2 v1 n (deal cards)).all (· ≤ 2)) :
    flipGame v2 v1 n (!coin) cards = (flipGame v1 v2 n coin cards).map other := by
  unfold flipGame
  cases coin with
  | true =>
    simp only [Bool.not_true, Bool.false_eq_true, if_false, if_true, Option.map_map]
    cases hf : flip v2 v1 n (deal cards) with
    | none => rfl
    | some r =>
      rw [hf] at h'
      simp at h'
      simp [other_other r h']
  | false => simp

/-- Disagreement: with two default players and this deal, the second player gets rid of all its cards while the first one still has some, and the first
player wins. -/
theorem second_out_loses : unlucky.Perm flipDeck ∧ (∃ k ≤ 40, ((round greedy greedy)^[k] (deal unlucky)).two.size = 0 ∧
      0 < ((round greedy greedy)^[k] (deal unlucky)).one.size) ∧
    flip greedy greedy 40 (deal unlucky) = some 1 := by
  refine ⟨by decide +kernel, ?_, by decide +kernel⟩
  decide +kernel

end Flip

/-! ## The loss -/

/-- The loss is one of five values: 0 for two wins, 1 for two losses. -/
theorem simulate_values_partial (r1 r2 : Nat) : simulate r1 r2 ∈ ([0, 1 / 4, 1 / 2, 3 / 4, 1] : List Rat) ∧
    (simulate r1 r2 = 0 ↔ r1 = 1 ∧ r2 = 2) ∧ (r1 = 0 → r2 = 0 → simulate r1 r2 = 1 / 2) := by
  unfold simulate loss
  by_cases h1 : r1 = 1 <;> by_cases h2 : r2 = 2 <;> by_cases h3 : r1 = 0 <;> by_cases h4 : r2 = 0 <;>
    simp [h1, h2, h3, h4] <;> norm_num

/-- The evaluation lies between 0 and 1, and is 0 exactly when all games are won. -/
theorem evaluation_bounds (rs : List (Nat × Nat)) (h : rs.length = 42) :
    0 ≤ evaluation rs ∧ evaluation rs ≤ 1 ∧ (evaluation rs = 0 ↔ ∀ p ∈ rs, p.1 = 1 ∧ p.2 = 2) := by
  have hb : ∀ p : Nat × Nat, 0 ≤ simulate p.1 p.2 ∧ simulate p.1 p.2 ≤ 1 := by
    intro p
    have := (simulate_values_partial p.1 p.2).1
    simp at this
    rcases this with h | h | h | h | h <;> rw [h] <;> norm_num
  have hs : ∀ l : List (Nat × Nat), 0 ≤ (l.map (fun p => simulate p.1 p.2)).sum ∧ (l.map (fun p => simulate p.1 p.2)).sum ≤ l.length ∧
      ((l.map (fun p => simulate p.1 p.2)).sum = 0 ↔ ∀ p ∈ l, p.1 = 1 ∧ p.2 = 2) := by
    intro l
    induction l with
    | nil => simp
    | cons p l ih =>
      have hp := hb p
      simp only [List.map_cons, List.sum_cons, List.length_cons, Nat.cast_add, Nat.cast_one, List.mem_cons, forall_eq_or_imp]
      refine ⟨by linarith, by linarith, ?_⟩
      rw [← ih.2.2, ← (simulate_values_partial p.1 p.2).2.1]
      constructor
      · intro h; constructor <;> linarith
      · rintro ⟨h1, h2⟩; rw [h1, h2]; norm_num
  obtain ⟨h1, h2, h3⟩ := hs rs
  rw [h] at h2
  unfold evaluation
  refine ⟨div_nonneg h1 (by norm_num), by rw [div_le_one (by norm_num)]; exact_mod_cast h2, ?_⟩
  rw [← h3, div_eq_zero_iff]
  norm_num

/-! ## Concrete cases -/

example : war.index 9 [12, 3] = 3067 ∧ war.length = 3380 := by decide +kernel
example : warPlay (F := Int) batawaf (fun _ l => l) none none
    [5,5,5,5,5,5,4,4,4,4,4,4,3,3,3,3,3,3,2,2,2,2,2,2,1,1,1,1,1,1,0,0,0,0,0,0] = some 1 := by decide +kernel
example : guess (fun a _ => a / 2) (fun _ _ => 1) (fun _ _ => 0) 40 true (24, 24) = some 2 := by decide +kernel
example : evaluation (List.replicate 42 (1, 0)) = 1 / 4 := by decide +kernel

end Games
end NG
