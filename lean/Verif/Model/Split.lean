import Mathlib.Analysis.SpecialFunctions.Log.Basic
import Mathlib.Analysis.Real.Sqrt

/-!
# Model of optimizers working on transformed candidates

`SplitOptimizer` and `_Rescaled` (optimization/optimizerlib.py 1615-1660 and 1707-1804). The optimizers they drive are not modelled: the
points they propose are inputs, and what they are told is recorded. Standardized data are lists of numbers; setting them and reading them
back is exact here (C24, C30 study this).
-/

namespace NG
namespace Split

/-! ## Splitting the variables -/

/-- `num_optims`: an integer or `float("inf")`. Used in `capped` (optimizerlib.py 1751). -/
inductive Num where
  | fin (n : Nat)
  | inf
deriving DecidableEq, Repr

/-- Lines 1727-1729. -/
def blocks (dim m : Nat) : List Nat :=
  List.replicate (dim / m) m ++ (if (List.replicate (dim / m) m).sum < dim then [dim - (List.replicate (dim / m) m).sum] else [])

/-- `int(min(num_optims, dimension))` (1751). -/
def capped (dim : Nat) : Num → Nat
  | .fin n => min n dim
  | .inf => dim

/-- Line 1755, or the number given: number of variables of optimizer `i`. -/
def size (dim n : Nat) (vars : List Nat) (i : Nat) : Nat := (vars[i]?).getD (dim / n + if i < dim % n then 1 else 0)

/-- Lines 1753-1757: the number of variables of each optimizer; `none` for a failed assertion. -/
def sizes (dim n : Nat) (vars : List Nat) : Option (List Nat) :=
  if ((List.range n).map (size dim n vars)).all (1 ≤ ·) then some ((List.range n).map (size dim n vars)) else none

/-- Lines 1748-1757 and 1767-1770. -/
def finish (dim : Nat) (num : Num) (vars : List Nat) : Option (List Nat) :=
  (sizes dim (capped dim num) vars).bind (fun ds => if ds.sum = dim then some ds else none)

/-- Lines 1730-1738: `num_vars` given. -/
def given (dim : Nat) (num : Option Num) (vars : List Nat) : Option (List Nat) :=
  if vars.sum ≠ dim then none
  else
    match num with
    | none => finish dim (.fin vars.length) vars
    | some (.fin n) => if n = vars.length then finish dim (.fin n) vars else none
    | some .inf => none

/-- Lines 1722-1770: dimensions of the optimizers, `none` for an exception. `guess` are the dimensions of `list_data(parametrization)`
(empty when the parametrization is an integer). -/
def make (dim : Nat) (guess : List Nat) (num : Option Num) (vars : Option (List Nat)) (maxVars : Option Nat) : Option (List Nat) :=
  match maxVars, vars with
  | some _, some _ => none
  | some m, none => if m = 0 then none else given dim num (blocks dim m)
  | none, some vs => given dim num vs
  | none, none =>
    match num with
    | some n => finish dim n []
    | none =>
      if 2 ≤ guess.length then (if guess.sum = dim then some guess else none)
      else finish dim (.fin 2) []

/-! ## Asking and telling -/

variable {α : Type}

/-- A candidate: its uid and its data. Used in `ask` (optimizerlib.py 1772-1790). -/
structure Cand (α : Type) where
  uid : Nat
  data : List α
deriving DecidableEq, Repr

/-- What an optimizer of the split is told: a candidate it proposed at ask number `n`, the unchanged parameter sent in its place at ask
number `n`, or a candidate made from data. Used in `subsOf` (optimizerlib.py 1773-1780). -/
inductive Sub (α : Type) where
  | own (n : Nat) (data : List α)
  | unchanged (n : Nat) (data : List α)
  | made (data : List α)
deriving DecidableEq, Repr

/-- Data of such a candidate. Used in `ask` (optimizerlib.py 1772-1790). -/
def Sub.data : Sub α → List α
  | .own _ d => d
  | .unchanged _ d => d
  | .made d => d

/-- State: counters, `_asked` of the split optimizer (base.py), `_subcandidates`, and what optimizer `k` was told, with the losses. Used in `ask` (optimizerlib.py 1772-1790). -/
structure St (α β : Type) where
  numAsk : Nat := 0
  uids : Nat := 0
  asked : List Nat := []
  subcands : List (Nat × List (Sub α)) := []
  told : Nat → List (Sub α × β) := fun _ => []

/-- Line 1777: is optimizer `i` of `len` still unchanged? `i / len > sqrt(2 num_ask / budget)`, squared. -/
def frozen (progressive : Option Nat) (numAsk len i : Nat) : Bool :=
  match progressive with
  | none => false
  | some budget => decide (0 < i) && decide (2 * numAsk * (len * len) < i * i * budget)

/-- The sub-candidates of an ask (1773-1780): `pts` are the points the optimizers would propose. -/
def subsOf (zero : α) (progressive : Option Nat) (dims : List Nat) (pts : List (List α)) (numAsk : Nat) : List (Sub α) :=
  (dims.zip pts).mapIdx (fun i p =>
    if frozen progressive numAsk dims.length i then .unchanged numAsk (List.replicate p.1 zero) else .own numAsk p.2)

variable {β : Type}

/-- `ask` when the candidate satisfies the cheap constraints: `_internal_ask_candidate` (1772-1790). -/
def ask (zero : α) (progressive : Option Nat) (dims : List Nat) (pts : List (List α)) (s : St α β) : Cand α × St α β :=
  let subs := subsOf zero progressive dims pts s.numAsk
  (⟨s.uids, (subs.map Sub.data).flatten⟩,
    { s with numAsk := s.numAsk + 1, uids := s.uids + 1, asked := s.asked ++ [s.uids], subcands := s.subcands ++ [(s.uids, subs)] })

/-- `ask` when it does not and the constraint solver provides another candidate, of data `sol` (base.py 535-551, 862-882). -/
def askSolver (zero : α) (progressive : Option Nat) (dims : List Nat) (pts : List (List α)) (sol : List α) (s : St α β) : Cand α × St α β :=
  let subs := subsOf zero progressive dims pts s.numAsk
  (⟨s.uids + 1, sol⟩,
    { s with numAsk := s.numAsk + 1, uids := s.uids + 2, asked := s.asked ++ [s.uids + 1], subcands := s.subcands ++ [(s.uids, subs)] })

/-- Slices of the data (1799-1802). -/
def slices : List Nat → List α → List (List α)
  | [], _ => []
  | d :: ds, l => l.take d :: slices ds (l.drop d)

/-- `opt.tell(cand, loss)` for each optimizer and its candidate (1794-1795, 1804). -/
def forward (loss : β) (subs : List (Sub α)) (told : Nat → List (Sub α × β)) : Nat → List (Sub α × β) :=
  fun k => match subs[k]? with
    | some c => told k ++ [(c, loss)]
    | none => told k

/-- `tell` (base.py 425-431 with 1792-1804); `none` is the `KeyError` of line 1793. -/
def tell (dims : List Nat) (c : Cand α) (loss : β) (s : St α β) : Option (St α β) :=
  if s.asked.contains c.uid then
    match s.subcands.find? (fun e => e.1 == c.uid) with
    | none => none
    | some e => some { s with asked := s.asked.filter (· != c.uid), subcands := s.subcands.filter (fun e => e.1 != c.uid),
                              told := forward loss e.2 s.told }
  else some { s with told := forward loss ((slices dims c.data).map .made) s.told }

/-- One call of the user. Used in `step` (base.py 425-431). -/
inductive Op (α β : Type) where
  | ask (pts : List (List α))
  | askSolver (pts : List (List α)) (sol : List α)
  | tell (c : Cand α) (loss : β)

/-- One call; a tell which raises leaves the state as it is. Built on `tell` (base.py 425-431). -/
def step (zero : α) (progressive : Option Nat) (dims : List Nat) (s : St α β) : Op α β → St α β
  | .ask pts => (ask zero progressive dims pts s).2
  | .askSolver pts sol => (askSolver zero progressive dims pts sol s).2
  | .tell c loss => (tell dims c loss s).getD s

/-- A session. Built on `step` (base.py 425-431). -/
def run (zero : α) (progressive : Option Nat) (dims : List Nat) (ops : List (Op α β)) : St α β :=
  ops.foldl (step zero progressive dims) {}

/-! ## Rescaling -/

/-- `rescale_candidate` (1638-1643) on the data; `noise` is `shift * randn` when there is a shift. -/
def rescale [Field α] (scale : α) (noise : Option (List α)) (inverse : Bool) (data : List α) : List α :=
  ((noise.elim data (fun z => List.zipWith (· + ·) data z))).map (fun x => (if inverse then 1 / scale else scale) * x)

/-- The default scale (1631-1633). -/
noncomputable def defaultScale (budget dim : Nat) : ℝ := Real.sqrt (Real.log budget / dim)

/-- State of `_Rescaled`: as above with a single optimizer, whose candidates are known by the number of the ask. Used in `rask` (optimizerlib.py 1645-1650). -/
structure RSt (α β : Type) where
  uids : Nat := 0
  asked : List Nat := []
  subcands : List (Nat × List α) := []
  told : List (Option Nat × List α × β) := []

/-- `ask` (1645-1650). -/
def rask [Field α] (scale : α) (noise : Option (List α)) (point : List α) (s : RSt α β) : Cand α × RSt α β :=
  (⟨s.uids, rescale scale noise false point⟩,
    { s with uids := s.uids + 1, asked := s.asked ++ [s.uids], subcands := s.subcands ++ [(s.uids, point)] })

/-- `tell` (1652-1657 with base.py 425-431); the optimizer is told its own candidate (named by the ask) or one made from data. -/
def rtell [Field α] (scale : α) (noise : Option (List α)) (c : Cand α) (loss : β) (s : RSt α β) : Option (RSt α β) :=
  if s.asked.contains c.uid then
    match s.subcands.find? (fun e => e.1 == c.uid) with
    | none => none
    | some e => some { s with asked := s.asked.filter (· != c.uid), subcands := s.subcands.filter (fun e => e.1 != c.uid),
                              told := s.told ++ [(some e.1, e.2, loss)] }
  else some { s with told := s.told ++ [(none, rescale scale noise true c.data, loss)] }

end Split
end NG
