/-!
# Model of chained optimizers

`_Chain` (optimization/optimizerlib.py 3349-3427): optimizers used one after the other, each with its own budget.
The optimizers themselves are not modelled: what is recorded is which of them is asked and which of them are told.
-/

namespace NG
namespace Chain

/-- The budgets accepted by `Chaining` (3359, 3369-3379). Integers are not negative here (a negative one is rejected by the
assertion of line 3383 just as zero is). -/
inductive Spec where
  | num (n : Nat)
  | workers
  | dimension
  | half
  | third
  | fourth
  | tenth
  | equal
  | most
  | sqrt
deriving DecidableEq, Repr

/-- `x if self.budget else self.num_workers` (3372-3378). -/
def ofBudget (budget : Option Nat) (workers : Nat) (f : Nat → Nat) : Nat :=
  match budget with
  | none => workers
  | some b => if b = 0 then workers else f b

/-- `self.budgets` (3369-3380); `len` is the number of budgets given. -/
def convert (budget : Option Nat) (workers dim len : Nat) : Spec → Nat
  | .num n => n
  | .workers => max 1 workers
  | .dimension => max 1 dim
  | .half => max 1 (ofBudget budget workers (· / 2))
  | .third => max 1 (ofBudget budget workers (· / 3))
  | .fourth => max 1 (ofBudget budget workers (· / 4))
  | .tenth => max 1 (ofBudget budget workers (· / 10))
  | .equal => max 1 (ofBudget budget workers (· / (len + 1)))
  | .most => max 1 (ofBudget budget workers (· * 4 / 5))
  | .sqrt => max 1 (ofBudget budget workers Nat.sqrt)

/-- `last_budget` (3381); the subtraction is truncated here, which the maximum hides. -/
def lastBudget (budget : Option Nat) (bs : List Nat) : Option Nat := budget.map (fun b => max 4 (b - bs.sum))

/-- The budgets of the optimizers (3369-3388), `none` for a failed assertion (3382-3386). -/
def make (budget : Option Nat) (workers dim numOptimizers : Nat) (specs : List Spec) : Option (List (Option Nat)) :=
  if numOptimizers ≠ specs.length + 1 then none
  else if (specs.map (convert budget workers dim specs.length)).any (· == 0) then none
  else some ((specs.map (convert budget workers dim specs.length)).map some ++
    [lastBudget budget (specs.map (convert budget workers dim specs.length))])

/-- The loop of `_internal_ask_candidate` (3399-3406) from optimizer `index` on: the optimizer asked and the `optim_index`
recorded. When the loop ends without a break the optimizer is the last one but the index is still 0. -/
def choose (numAsk : Nat) (index sum : Nat) : List (Option Nat) → Nat × Nat
  | [] => (index - 1, 0)
  | none :: _ => (index, index)
  | some b :: bs => if numAsk < sum + b then (index, index) else choose numAsk (index + 1) (sum + b) bs

/-- Line 3419, with `float("inf")` as `none`. -/
def below (numTell : Nat) : Option Nat → Bool
  | none => true
  | some s => numTell < s

/-- Line 3418. -/
def addBudget (isLast : Bool) (b : Option Nat) (sum : Option Nat) : Option Nat :=
  match sum, b with
  | some s, some b => if isLast then none else some (s + b)
  | _, _ => none

/-- Lines 3419-3422: crossing condition for optimizer `k` and a candidate with the given `optim_index`. -/
def concerned (noCrossing : Bool) (k : Nat) (meta? : Option Nat) : Bool := !(noCrossing && (meta? != some k))

/-- The loop of `_internal_tell_candidate` (3413-3423) from optimizer `k` on: the optimizers told. -/
def told (noCrossing : Bool) (numTell : Nat) (meta? : Option Nat) (k : Nat) (sum : Option Nat) : List (Option Nat) → List Nat
  | [] => []
  | b :: bs =>
    (if below numTell (addBudget bs.isEmpty b sum) && concerned noCrossing k meta? then [k] else []) ++
      told noCrossing numTell meta? (k + 1) (addBudget bs.isEmpty b sum) bs

/-- What happened so far. Candidates are numbered in the order of the asks. Used in `step` (base.py 431, 551). -/
structure St where
  numAsk : Nat := 0
  numTell : Nat := 0
  /-- for each ask, the optimizer asked and the recorded `optim_index`; `none` when a suggestion was served -/
  asks : List (Option (Nat × Nat)) := []
  /-- for each tell, the candidate (`none` for one which was not asked) and the optimizers told -/
  tells : List (Option Nat × List Nat) := []

/-- `candidate._meta.get("optim_index")` of a candidate. Used in `step` (base.py 431, 551). -/
def St.metaOf (s : St) (c : Option Nat) : Option Nat := c.bind (fun i => (s.asks[i]?).bind (fun a => a.map (·.2)))

/-- One call of the user: `ask` (answered by a suggestion or by the chain), or `tell` of a candidate (asked: its number; not
asked: `none`), any number of times and in any order. Candidates rejected by cheap constraints, which advance `num_ask` for a while (base.py 533), are not modelled. -/
inductive Op where
  | ask (suggested : Bool)
  | tell (c : Option Nat)

/-- `ask` and `tell` of base.py for a chain; `num_ask` and `num_tell` are incremented after the internal methods
(base.py 431, 551). -/
def step (noCrossing : Bool) (bs : List (Option Nat)) (s : St) : Op → St
  | .ask suggested =>
    { s with numAsk := s.numAsk + 1, asks := s.asks ++ [if suggested then none else some (choose s.numAsk 0 0 bs)] }
  | .tell c =>
    { s with numTell := s.numTell + 1,
             tells := s.tells ++ [(c, told noCrossing s.numTell (s.metaOf c) 0 (some 0) bs)] }

/-- A session. Built on `step` (base.py 431, 551). -/
def run (noCrossing : Bool) (bs : List (Option Nat)) (ops : List Op) : St := ops.foldl (step noCrossing bs) {}

end Chain
end NG
