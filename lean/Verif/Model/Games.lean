import Mathlib.Data.List.Sort
import Mathlib.Data.Rat.Defs
import Mathlib.Algebra.Order.Ring.Rat
import Mathlib.Tactic.Linarith

/-!
# Model of the games

`functions/games/game.py`. Shuffles of the deck, coins and integers drawn are inputs; a policy is the list of its weights or `none` for the default
player; `none` as a result is an exception. Calls with two default players, which return the
length of a policy instead of playing, are not modelled: such games are played here.
-/

namespace NG
namespace Games

/-! ## War and batawaf -/

/-- The sizes used to index a policy: numbers of pairs and of card values (game.py 394-397). -/
structure Dims where
  pairs : Nat
  cards : Nat
deriving DecidableEq, Repr

/-- The two variants (game.py 335-339, 394-397). -/
def war : Dims := ⟨26, 13⟩
/-- The variant with fewer cards. Built on `Dims` (game.py 394-397). -/
def batawaf : Dims := ⟨18, 6⟩

/-- The deck (game.py 339). -/
def Dims.deck (d : Dims) : List Nat := (List.range (2 * d.pairs)).map (· / (2 * d.pairs / d.cards))

/-- The length of a policy (game.py 335-338). -/
def Dims.length (d : Dims) : Nat := 10 * d.pairs * d.cards

/-- The index of the weight used by `war_decide` (game.py 390-397). -/
def Dims.index (d : Dims) (num : Nat) (cards : List Nat) : Nat :=
  min num 9 * d.pairs * d.cards + cards.length / 2 * d.cards + cards.headD 0

variable {F : Type} [DecidableEq F] [Zero F]

/-- `war_decide` (game.py 385-402): the order in which the winner puts the cards back. `shuffle` is the permutation made by the random state of the
weight. -/
def warDecide (d : Dims) (shuffle : F → List Nat → List Nat) (policy : Option (List F)) (num : Nat) (stack : List Nat) : Option (List Nat) :=
  match policy with
  | none => some (stack.insertionSort (· ≥ ·))
  | some w =>
    if stack.length % 2 = 0 then
      match w[d.index num (stack.insertionSort (· ≥ ·))]? with
      | none => none
      | some s => if s = 0 then some (stack.insertionSort (· ≥ ·)) else some (shuffle s (stack.insertionSort (· ≥ ·)))
    else none

/-- The hands and the stack. Used in `settle` (game.py 364-382). -/
structure WarSt where
  one : List Nat
  two : List Nat
  stack : List Nat
deriving DecidableEq, Repr

/-- What happens in a turn: the game ends, goes on or raises. Used in `settle` (game.py 364-382). -/
inductive Turn (S : Type)
  | over (winner : Nat)
  | next (s : S)
  | fails
deriving DecidableEq, Repr

/-- The winner of a comparison of numbers of cards (game.py 377). -/
def more (one two : Nat) : Nat := if two < one then 1 else if one < two then 2 else 0

/-- The end of a turn after the first cards are compared (game.py 364-382). -/
def settle (d : Dims) (shuffle : F → List Nat → List Nat) (p1 p2 : Option (List F)) (a b : Nat) (one two stack : List Nat) : Turn WarSt :=
  if b < a then
    match warDecide d shuffle p1 one.length (stack.insertionSort (· ≥ ·)) with
    | none => .fails
    | some l => .next ⟨one ++ l, two, []⟩
  else if a < b then
    match warDecide d shuffle p2 two.length (stack.insertionSort (· ≥ ·)) with
    | none => .fails
    | some l => .next ⟨one, two ++ l, []⟩
  else if one.length < 2 ∨ two.length < 2 then .over (more one.length two.length)
  else .next ⟨one.tail, two.tail, stack ++ [one.headD 0, two.headD 0]⟩

/-- One turn (game.py 349-382). -/
def turn (d : Dims) (shuffle : F → List Nat → List Nat) (p1 p2 : Option (List F)) (s : WarSt) : Turn WarSt :=
  match s.one, s.two with
  | [], [] => .over 0
  | [], _ :: _ => .over 2
  | _ :: _, [] => .over 1
  | a :: one, b :: two => settle d shuffle p1 p2 a b one two (s.stack ++ [a, b])

/-- The loop (game.py 348-383): at most `n` turns, then a draw. -/
def warLoop (d : Dims) (shuffle : F → List Nat → List Nat) (p1 p2 : Option (List F)) : Nat → WarSt → Option Nat
  | 0, _ => some 0
  | n + 1, s =>
    match turn d shuffle p1 p2 s with
    | .over w => some w
    | .fails => none
    | .next s => warLoop d shuffle p1 p2 n s

/-- `war_play_game` (game.py 332-383) on shuffled cards. -/
def warPlay (d : Dims) (shuffle : F → List Nat → List Nat) (p1 p2 : Option (List F)) (cards : List Nat) : Option Nat :=
  warLoop d shuffle p1 p2 500 ⟨cards.take d.pairs, cards.drop d.pairs, []⟩

/-! ## Guess who -/

/-- `guesswho_play` (game.py 63-71): the number of cards left to the player after asking for `choice` cards; `r` is the integer drawn. -/
def ask (deck : Nat) (choice : Int) (r : Nat) : Nat :=
  let c := (max 1 (min choice ((deck : Int) - 1))).toNat
  if r ≤ c then c else deck - c

/-- The policies give the number of cards to ask for, from the cards left to the player and to the opponent (game.py 43-61); `draw` gives the integer
drawn at each play. Players alternate (game.py 73-87); `who = true` is the turn of the first player. The loop is cut after `n` plays. -/
def guess (p1 p2 : Nat → Nat → Int) (draw : Nat → Nat → Nat) : Nat → Bool → Nat × Nat → Option Nat
  | 0, _, _ => none
  | n + 1, true, (a, b) =>
    let a' := ask a (p1 a b) (draw n a)
    if min a' b ≤ 1 then some 1 else guess p1 p2 draw n false (a', b)
  | n + 1, false, (a, b) =>
    let b' := ask b (p2 b a) (draw n b)
    if min a b' ≤ 1 then some 2 else guess p1 p2 draw n true (a, b')

/-! ## Flip -/

/-- `flip_match` (game.py 97-98). -/
def fits (a b : Nat) : Bool := Int.natAbs (((a : Int) - b) % 13) ≤ 1

/-- The hand of a player: visible cards and hidden ones. Used in `choose` (game.py 121-148, 157-181). -/
structure Hand where
  visible : List Nat
  hidden : List Nat
deriving DecidableEq, Repr

/-- The number of cards of a player. Used in `choose` (game.py 121-148, 157-181). -/
def Hand.size (h : Hand) : Nat := h.visible.length + h.hidden.length

/-- A value for a player: own visible cards, those of the opponent, numbers of cards of both, the stack. Used in `choose` (game.py 121-148, 157-181). -/
abbrev Value (α : Type) := List Nat → List Nat → Nat → Nat → List Nat → α

/-- The plays tried (game.py 128-134, 161-167): positions in the hand and places of the stack, in this order. -/
def plays (visible stack : List Nat) : List (List Nat × List Nat) :=
  (List.range visible.length).flatMap (fun i => [0, 1].filterMap (fun l =>
    if fits (visible.getD i 0) (stack.getD l 0) then
      some (visible.take i ++ visible.drop (i + 1), ([visible.getD i 0, stack.getD (1 - l) 0]).insertionSort (· ≤ ·))
    else none))

/-- The best play (game.py 121-148): the first one of least value, if better than passing. -/
def best {α : Type} [LinearOrder α] (value : List Nat × List Nat → α) : α → Option (List Nat × List Nat) → List (List Nat × List Nat) →
    Option (List Nat × List Nat)
  | _, r, [] => r
  | v, r, c :: l => if value c < v then best value (value c) (some c) l else best value v r l

/-- The choice of a player (game.py 121-148, 157-181). -/
def choose {α : Type} [LinearOrder α] (val : Value α) (me other : Hand) (stack : List Nat) : Option (List Nat × List Nat) :=
  best (fun c => val c.1 other.visible (me.size - 1) other.size c.2) (val me.visible other.visible me.size other.size stack) none
    (plays me.visible stack)

/-- The hand after a play (game.py 151-154, 184-187). -/
def Hand.after (me : Hand) (visible : List Nat) : Hand := ⟨(visible ++ me.hidden.take 1).insertionSort (· ≤ ·), me.hidden.tail⟩

/-- The state of a game. Used in `first` (game.py 121-156). -/
structure FlipSt where
  one : Hand
  two : Hand
  stack : List Nat
deriving DecidableEq, Repr

/-- The turn of the first player (game.py 121-156). -/
def first {α : Type} [LinearOrder α] (val : Value α) (s : FlipSt) : Bool × FlipSt :=
  match choose val s.one s.two s.stack with
  | none => (false, s)
  | some c => (true, { s with one := s.one.after c.1, stack := c.2.insertionSort (· ≤ ·) })

/-- The turn of the second player (game.py 157-187). -/
def second {α : Type} [LinearOrder α] (val : Value α) (s : FlipSt) : Bool × FlipSt :=
  match choose val s.two s.one s.stack with
  | none => (false, s)
  | some c => (true, { s with two := s.two.after c.1, stack := c.2.insertionSort (· ≤ ·) })

/-- The end of a turn of the loop (game.py 190-194) when nobody moved. -/
def refill (s : FlipSt) : Option FlipSt :=
  match s.one.hidden, s.two.hidden with
  | a :: l, b :: r => some ⟨⟨s.one.visible, l⟩, ⟨s.two.visible, r⟩, [a, b]⟩
  | _, _ => none

/-- The winner of the final comparison (game.py 200): the player with fewer visible cards. -/
def fewer (one two : Nat) : Nat := if one < two then 1 else if two < one then 2 else 0

/-- The loop (game.py 111-200), cut after `n` turns. The test on the hand of the second player is inside `if cards2` (game.py 186-189): it is made only
when a card was added to this hand. -/
def flip {α β : Type} [LinearOrder α] [LinearOrder β] (v1 : Value α) (v2 : Value β) : Nat → FlipSt → Option Nat
  | 0, _ => none
  | n + 1, s =>
    let a := first v1 s
    if a.1 && a.2.one.visible.isEmpty then some 1
    else
      let b := second v2 a.2
      if b.1 && !a.2.two.hidden.isEmpty && b.2.two.visible.isEmpty then some 2
      else if a.1 || b.1 then flip v1 v2 n b.2
      else match refill b.2 with
        | some s => flip v1 v2 n s
        | none => some (fewer b.2.one.visible.length b.2.two.visible.length)

/-- The initial state (game.py 104-109) for shuffled cards. -/
def deal (cards : List Nat) : FlipSt :=
  ⟨⟨((cards.drop 2).take 5).insertionSort (· ≤ ·), (cards.drop 12).take 10⟩,
   ⟨((cards.drop 7).take 5).insertionSort (· ≤ ·), (cards.drop 22).take 10⟩, (cards.take 2).insertionSort (· ≤ ·)⟩

/-- The deck (game.py 103). -/
def flipDeck : List Nat := (List.range 32).map (· / 4)

/-- The state given to a policy (game.py 202-213). -/
def features (visible1 visible2 : List Nat) (l1 l2 : Nat) (stack : List Nat) : List Int :=
  [(visible1.length : Int), visible2.length, l1, l2, (stack.getD 1 0 : Int) - (stack.getD 0 0 : Int) % 13] ++
  (List.range 13).flatMap (fun i : Nat =>
    [ ((visible1.filter (fun s : Nat => ((s : Int) - stack.getD 0 0) % 13 == (i : Int))).length : Int),
      (visible1.filter (fun s : Nat => ((s : Int) - stack.getD 1 0) % 13 == (i : Int))).length,
      (visible2.filter (fun s : Nat => ((s : Int) - stack.getD 0 0) % 13 == (i : Int))).length,
      (visible2.filter (fun s : Nat => ((s : Int) - stack.getD 1 0) % 13 == (i : Int))).length ])

/-- The other player. Used in `flipGame` (game.py 89-95). -/
def other (w : Nat) : Nat := if w = 2 then 1 else if w = 1 then 2 else 0

/-- `flip_play_game` (game.py 89-95): with the coin, the players are exchanged. -/
def flipGame {α : Type} [LinearOrder α] (v1 v2 : Value α) (n : Nat) (coin : Bool) (cards : List Nat) : Option Nat :=
  if coin then (flip v2 v1 n (deal cards)).map other else flip v1 v2 n (deal cards)

/-! ## The loss -/

/-- The loss of a result for the player `me` (game.py 431, 436). -/
def loss (me r : Nat) : Rat := if r = me then 0 else if r = 0 then 1 / 2 else 1

/-- `_simulate_game` (game.py 425-436): one game as first player, one as second player. -/
def simulate (r1 r2 : Nat) : Rat := (loss 1 r1 + loss 2 r2) / 2

/-- `evaluation_function` (game.py 438-444): the mean of 42 simulations. -/
def evaluation (rs : List (Nat × Nat)) : Rat := (rs.map (fun p => simulate p.1 p.2)).sum / 42

end Games
end NG
