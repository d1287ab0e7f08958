/-!
# Model of `OrderedSet` (nevergrad/common/tools.py 128-159) and `UidQueue`
(nevergrad/optimization/utils.py 310-351)

A Python `OrderedDict` is modelled as the list of its `(key, value)` pairs in iteration order.
Keys are unique in every reachable state (proved in `Verif.Props.Queue`).
-/

namespace NG

/-- `OrderedSet` (common/tools.py 128-135): the ordered dict `_data` and the counter `_global_index`. -/
structure OrderedSet (α : Type) where
  data : List (α × Nat)
  gidx : Nat
deriving Repr, DecidableEq

namespace OrderedSet
variable {α : Type} [DecidableEq α]

/-- `OrderedSet.__init__` without keys (common/tools.py 133-135). -/
def empty : OrderedSet α := ⟨[], 0⟩

/-- `self._data.pop(key, default)`: the value stored under `key`, or the default. Used in `add` (tools.py 140-142). -/
def popValue (d : List (α × Nat)) (key : α) (default : Nat) : Nat :=
  match d.find? (fun e => e.1 == key) with
  | some e => e.2
  | none => default

/-- The dict after `pop(key, ...)`/`del`: the entry of `key` is gone, the order of the others is kept. Used in `add` (tools.py 140-142). -/
def remove (d : List (α × Nat)) (key : α) : List (α × Nat) :=
  d.filter (fun e => !(e.1 == key))

/-- `OrderedSet.add` (common/tools.py 140-142). -/
def add (s : OrderedSet α) (key : α) : OrderedSet α :=
  { data := remove s.data key ++ [(key, popValue s.data key s.gidx)]
    gidx := s.gidx + 1 }

/-- `OrderedSet.__contains__` (common/tools.py 152-153). -/
def contains (s : OrderedSet α) (key : α) : Bool := s.data.any (fun e => e.1 == key)

/-- `OrderedSet.discard` (common/tools.py 149-150): `del` raises `KeyError` (`none`) if absent. -/
def discard (s : OrderedSet α) (key : α) : Option (OrderedSet α) :=
  if s.contains key then some { s with data := remove s.data key } else none

/-- `OrderedSet.__iter__` (common/tools.py 155-156). -/
def iter (s : OrderedSet α) : List α := s.data.map (·.1)

/-- `OrderedSet.__len__` (common/tools.py 158-159). -/
def length (s : OrderedSet α) : Nat := s.data.length

/-- `OrderedSet.popright` (common/tools.py 144-147): `none` models the `StopIteration` on the empty set. -/
def popright (s : OrderedSet α) : Option (α × OrderedSet α) :=
  match s.data.reverse with
  | [] => none
  | e :: _ => some (e.1, { s with data := remove s.data e.1 })

/-- `MutableSet.clear` (inherited): pops until empty; the counter is not reset. Used in `clear` (utils.py 323-326). -/
def clear (s : OrderedSet α) : OrderedSet α := { s with data := [] }

/-- `OrderedSet.__init__` with keys (common/tools.py 136-138). -/
def ofKeys (keys : List α) : OrderedSet α := keys.foldl add empty

end OrderedSet

/-- `UidQueue` (optimization/utils.py 319-321): deque `told` (left end first) and ordered set `asked`. -/
structure UidQueue (α : Type) where
  told : List α
  asked : OrderedSet α
deriving Repr, DecidableEq

namespace UidQueue
variable {α : Type} [DecidableEq α]

/-- `UidQueue.__init__`. Built on `UidQueue` (utils.py 319-321). -/
def empty : UidQueue α := ⟨[], OrderedSet.empty⟩

/-- `UidQueue.clear` (optimization/utils.py 323-326). -/
def clear (q : UidQueue α) : UidQueue α := ⟨[], q.asked.clear⟩

/-- `UidQueue.ask` (optimization/utils.py 328-339); `none` is the `RuntimeError`. -/
def ask (q : UidQueue α) : Option (α × UidQueue α) :=
  match q.told with
  | uid :: rest => some (uid, ⟨rest, q.asked.add uid⟩)
  | [] =>
    match q.asked.iter with
    | uid :: _ => some (uid, ⟨[], q.asked.add uid⟩)
    | [] => none

/-- `UidQueue.tell` (optimization/utils.py 341-345). -/
def tell (q : UidQueue α) (uid : α) : UidQueue α :=
  { told := q.told ++ [uid]
    asked := match q.asked.discard uid with
      | some a => a
      | none => q.asked }

/-- `UidQueue.discard` (optimization/utils.py 347-351): `deque.remove` deletes the first occurrence and
raises `ValueError` (`none`) if there is none. -/
def discard (q : UidQueue α) (uid : α) : Option (UidQueue α) :=
  match q.asked.discard uid with
  | some a => some { q with asked := a }
  | none => if uid ∈ q.told then some { q with told := q.told.erase uid } else none

/-- `queue.asked.add(uid)` as done directly by the optimizers when they create the initial population
(differentialevolution.py 217, es.py 50). -/
def register (q : UidQueue α) (uid : α) : UidQueue α := { q with asked := q.asked.add uid }

end UidQueue
end NG
