import Mathlib.Order.Lattice
import Mathlib.Data.List.Basic
import Mathlib.Data.Nat.Digits.Defs

/-!
# Callbacks, registry, environment and container tools

Sources: nevergrad/optimization/callbacks.py, nevergrad/common/decorators.py, nevergrad/common/tools.py.
-/

namespace NG
namespace Tools

/-! ## Early stopping (callbacks.py 356-386) -/

/-- `_LossImprovementToleranceCriterion` (callbacks.py 367-371). -/
structure Tol (α : Type) where
  window : Nat
  best : Option α
  count : Nat

/-- The constructor. Built on `Tol` (callbacks.py 367-371). -/
def Tol.init {α : Type} (window : Nat) : Tol α := { window := window, best := none, count := 0 }

/-- A call (callbacks.py 373-386). `obs` is the loss of the recommendation, `none` if it has none. Losses are comparable
numbers of one objective: nan is not modelled, and with several objectives `recommend` raises. -/
def Tol.step {α : Type} [LE α] [DecidableLE α] (obs : Option α) (c : Tol α) : Bool × Tol α :=
  match obs with
  | none => (false, c)
  | some v =>
    match c.best with
    | none => (false, { c with best := some v })
    | some b =>
      let c' := if b ≤ v then { c with count := c.count + 1 } else { c with count := 0, best := some v }
      (decide (c'.window < c'.count), c')

/-- The answers to a sequence of calls. Built on `Tol.step` (callbacks.py 373-386). -/
def Tol.run {α : Type} [LE α] [DecidableLE α] : List (Option α) → Tol α → List Bool × Tol α
  | [], c => ([], c)
  | o :: os, c =>
    let r := c.step o
    let rest := Tol.run os r.2
    (r.1 :: rest.1, rest.2)

/-- `_DurationCriterion` (callbacks.py 356-364): `start` is `none` for the initial infinity. A call reads the clock when it
starts the timer (`t`) and for the comparison (`t'`). -/
def durationStep {α : Type} [LT α] [DecidableLT α] [Add α] (limit : α) (t t' : α) (start : Option α) : Bool × Option α :=
  let s := start.getD t
  (decide (s + limit < t'), some s)

/-- The answers to a sequence of calls. Built on `durationStep` (callbacks.py 356-364). -/
def durationRun {α : Type} [LT α] [DecidableLT α] [Add α] (limit : α) : List (α × α) → Option α → List Bool
  | [], _ => []
  | c :: cs, start =>
    let r := durationStep limit c.1 c.2 start
    r.1 :: durationRun limit cs r.2

/-! ## Printers and loggers (callbacks.py 23-98) -/

/-- `OptimizationPrinter` and `OptimizationLogger` (callbacks.py 35-41, 67-82). -/
structure Printer (α : Type) where
  intervalTells : Nat
  intervalSeconds : α
  nextTell : Nat
  nextTime : α

/-- The constructor at time `now`; `none` is the AssertionError. Built on `Printer` (callbacks.py 35-41, 67-82). -/
def Printer.make {α : Type} [LT α] [DecidableLT α] [Add α] [Zero α] (tells : Nat) (seconds now : α) : Option (Printer α) :=
  if 0 < tells ∧ 0 < seconds then
    some { intervalTells := tells, intervalSeconds := seconds, nextTell := tells, nextTime := now + seconds }
  else none

/-- A call (callbacks.py 43-48, 84-98): whether it emits. The clock is read twice. -/
def Printer.call {α : Type} [LE α] [DecidableLE α] [Add α] (now now' : α) (numTell : Nat) (p : Printer α) :
    Bool × Printer α :=
  if p.nextTime ≤ now ∨ numTell ≤ p.nextTell then
    (true, { p with nextTime := now' + p.intervalSeconds, nextTell := numTell + p.intervalTells })
  else (false, p)

/-- The answers to a sequence of calls (clock readings and `num_tell`). Built on `Printer.call` (callbacks.py 43-48, 84-98). -/
def Printer.run {α : Type} [LE α] [DecidableLE α] [Add α] : List (α × α × Nat) → Printer α → List Bool
  | [], _ => []
  | c :: cs, p =>
    let r := p.call c.1 c.2.1 c.2.2
    r.1 :: Printer.run cs r.2

/-! ## Registry (decorators.py 15-72) -/

/-- A dict: association list in insertion order, each key once. Used in `Reg.register` (decorators.py 32-41). -/
def dictGet {K V : Type} [DecidableEq K] (d : List (K × V)) (k : K) : Option V := (d.find? (fun e => e.1 = k)).map (·.2)

/-- `d[k] = v`: an existing key keeps its position. Used in `Reg.register` (decorators.py 32-41). -/
def dictSet {K V : Type} [DecidableEq K] (k : K) (v : V) : List (K × V) → List (K × V)
  | [] => [(k, v)]
  | e :: d => if e.1 = k then (k, v) :: d else e :: dictSet k v d

/-- `del d[k]`. Used in `Reg.unregister` (decorators.py 43-48). -/
def dictDel {K V : Type} [DecidableEq K] (k : K) (d : List (K × V)) : List (K × V) := d.filter (fun e => e.1 ≠ k)

/-- `Registry` (decorators.py 18-21). -/
structure Reg (X I : Type) where
  data : List (String × X)
  info : List (String × I)

/-- `register_name` (decorators.py 32-41); `none` is the RuntimeError. -/
def Reg.register {X I : Type} (name : String) (x : X) (info : Option I) (r : Reg X I) : Option (Reg X I) :=
  match dictGet r.data name with
  | some _ => none
  | none =>
    some { data := dictSet name x r.data,
           info := match info with
             | none => r.info
             | some i => dictSet name i r.info }

/-- `unregister` (decorators.py 43-48). -/
def Reg.unregister {X I : Type} (name : String) (r : Reg X I) : Reg X I :=
  match dictGet r.data name with
  | none => r
  | some _ => { r with data := dictDel name r.data }

/-- `get_info` (decorators.py 54-57), the default being the empty dict; `none` is the ValueError. -/
def Reg.getInfo {X I : Type} (empty : I) (name : String) (r : Reg X I) : Option I :=
  match dictGet r.data name with
  | none => none
  | some _ => some ((dictGet r.info name).getD empty)

/-- The operations on a registry; `set` is `registry[name] = x`, which the MutableMapping interface offers. Used in `Reg.step` (decorators.py 43-48). -/
inductive RegOp (X I : Type) where
  | register (name : String) (x : X) (info : Option I)
  | unregister (name : String)
  | set (name : String) (x : X)

/-- One operation; a rejected one leaves the registry as it is. Built on `Reg.unregister` (decorators.py 43-48). -/
def Reg.step {X I : Type} (op : RegOp X I) (r : Reg X I) : Reg X I :=
  match op with
  | .register n x i => (r.register n x i).getD r
  | .unregister n => r.unregister n
  | .set n x => { r with data := dictSet n x r.data }

/-! ## Environment variables (tools.py 206-220) -/

/-- `os.environ`, as a function of the names. Used in `Env.update` (tools.py 213). -/
abbrev Env := String → Option String

/-- `os.environ[k] = v`. Used in `Env.update` (tools.py 213). -/
def Env.set (k v : String) (e : Env) : Env := fun x => if x = k then some v else e x

/-- `os.environ.update` (tools.py 213): variables are set one after the other; a value the system refuses (e.g. containing a null
character) raises, the previous ones being set. -/
def Env.update (valid : String → Bool) : List (String × String) → Env → Bool × Env
  | [], e => (true, e)
  | (k, v) :: kvs, e => if valid v then Env.update valid kvs (e.set k v) else (false, e)

/-- The restoring loop (tools.py 217-220): `os.environ.pop(k)` raises KeyError if `k` is absent. -/
def Env.restore : List (String × Option String) → Env → Bool × Env
  | [], e => (true, e)
  | (k, val) :: rest, e =>
    match e k with
    | none => (false, e)
    | some _ => Env.restore rest (fun x => if x = k then val else e x)

/-- `with set_env(**environ): body` (tools.py 206-220). The names are distinct (keyword arguments); `upper` tells which ones are
capitalized. The body is any transformation of the environment, it may also raise. The boolean is `false` if set_env
itself raised. -/
def setEnv (upper : String → Bool) (valid : String → Bool) (environ : List (String × String)) (body : Env → Env) (e : Env) :
    Bool × Env :=
  let old := environ.map (fun kv => (kv.1, e kv.1))
  if environ.all (fun kv => upper kv.1) then
    match Env.update valid environ e with
    | (false, e') => (false, e')
    | (true, e') => Env.restore old (body e')
  else (false, e)

/-! ## Iteration tools (tools.py 41-76) -/

/-- `pairwise` (tools.py 41-52). -/
def pairwise {α : Type} (xs : List α) : List (α × α) := xs.zip (xs.drop 1)

/-- One tuple of `itertools.zip_longest` over copies of one iterator (tools.py 60-61): `active` tells which positions still
hold the iterator, `m` is their number; an exhausted position is filled, and when the last one is exhausted the iteration
ends (`none`). -/
def zipRow {α : Type} (fill : α) : List Bool → List α → Nat → Option (List α × List Bool × List α × Nat)
  | [], xs, m => some ([], [], xs, m)
  | false :: fs, xs, m => (zipRow fill fs xs m).map (fun r => (fill :: r.1, false :: r.2.1, r.2.2))
  | true :: fs, x :: xs, m => (zipRow fill fs xs m).map (fun r => (x :: r.1, true :: r.2.1, r.2.2))
  | true :: fs, [], m =>
    if m = 1 then none else (zipRow fill fs [] (m - 1)).map (fun r => (fill :: r.1, false :: r.2.1, r.2.2))

/-- The tuples of `itertools.zip_longest`, at most `fuel` of them. Used in `grouper` (tools.py 55-61). -/
def zipLongest {α : Type} (fill : α) : Nat → List Bool → List α → Nat → List (List α)
  | 0, _, _, _ => []
  | fuel + 1, fs, xs, m =>
    if fs = [] ∨ m = 0 then []
    else
      match zipRow fill fs xs m with
      | none => []
      | some (r, fs', xs', m') => r :: zipLongest fill fuel fs' xs' m'

/-- `grouper` (tools.py 55-61). -/
def grouper {α : Type} (xs : List α) (n : Nat) (fill : α) : List (List α) :=
  zipLongest fill (xs.length + 1) (List.replicate n true) xs n

/-- `roundrobin` (tools.py 64-76): the queue of the active iterators in cyclic order; an exhausted one is removed. -/
def roundrobin {α : Type} : List (List α) → List α
  | [] => []
  | [] :: q => roundrobin q
  | (x :: xs) :: q => x :: roundrobin (q ++ [xs])
termination_by q => (q.map List.length).sum + q.length
decreasing_by
  · simp
  · simp; omega

/-! ## Ordered sets (tools.py 128-159) -/

/-- `add` (tools.py 140-142): the key is taken out before being put back. -/
def osAdd {α : Type} [DecidableEq α] (k : α) (s : List α) : List α := s.filter (· ≠ k) ++ [k]

/-- `discard` (tools.py 149-150); `none` is the KeyError. -/
def osDiscard {α : Type} [DecidableEq α] (k : α) (s : List α) : Option (List α) :=
  if k ∈ s then some (s.filter (· ≠ k)) else none

/-- `popright` (tools.py 144-147); `none` is the StopIteration on an empty set. -/
def osPopright {α : Type} [DecidableEq α] (s : List α) : Option (α × List α) :=
  match s.getLast? with
  | none => none
  | some k => (osDiscard k s).map (fun s' => (k, s'))

/-! ## Sleeper (tools.py 112-119) -/

/-- `_get_advised_sleep_duration` (tools.py 112-119): `elapsed` is the time since the timer was started, if it was; `mean` the mean of the queue,
if not empty. -/
def advisedSleep {α : Type} [LinearOrder α] [Div α] (lo hi waits : α) (elapsed mean : Option α) : α :=
  match mean with
  | some m => min (max (m / waits) lo) hi
  | none =>
    match elapsed with
    | none => lo
    | some t => min (max (t / waits) lo) hi

/-! ## Flattening (tools.py 223-245) -/

/-- Keys are character strings. Used in `dictUpdate` (tools.py 242). -/
abbrev Key := List Char

/-- `str(k)` of an index. Used in `flattenList` (tools.py 239-244). -/
def decimal (n : Nat) : Key := if n = 0 then ['0'] else ((Nat.digits 10 n).reverse.map Nat.digitChar)

/-- Nested structures; keys of dicts are strings, as given by `f"{k}"`. Used in `flattenList` (tools.py 239-244). -/
inductive Obj (V : Type) where
  | leaf (v : V)
  | list (xs : List (Obj V))
  | dict (es : List (Key × Obj V))

/-- `output.update(...)` (tools.py 242). -/
def dictUpdate {V : Type} (out new : List (Key × V)) : List (Key × V) := new.foldl (fun d e => dictSet e.1 e.2 d) out

mutual
/-- `flatten`: a dict, or the object itself (second case) when it is a leaf. Used in `flattenList` (tools.py 239-244). -/
def flatten {V : Type} : Obj V → List (Key × V) ⊕ V
  | .leaf v => .inr v
  | .list xs => .inl (flattenList 0 xs [])
  | .dict es => .inl (flattenDict es [])

/-- The loop over a list (tools.py 239-244), from index `i`. -/
def flattenList {V : Type} (i : Nat) : List (Obj V) → List (Key × V) → List (Key × V)
  | [], out => out
  | x :: xs, out =>
    match flatten x with
    | .inl content => flattenList (i + 1) xs (dictUpdate out (content.map (fun e => (decimal i ++ '.' :: e.1, e.2))))
    | .inr v => flattenList (i + 1) xs (dictSet (decimal i) v out)

/-- The loop over a dict. Built on `dictUpdate` (tools.py 242). -/
def flattenDict {V : Type} : List (Key × Obj V) → List (Key × V) → List (Key × V)
  | [], out => out
  | (k, x) :: es, out =>
    match flatten x with
    | .inl content => flattenDict es (dictUpdate out (content.map (fun e => (k ++ '.' :: e.1, e.2))))
    | .inr v => flattenDict es (dictSet k v out)
end

end Tools
end NG
