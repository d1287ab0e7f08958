import Verif.Model.Tools
import Mathlib.Data.Rat.Defs

/-!
# Model of ParametersLogger

optimization/callbacks.py 101-208. The log file is the list of its lines, `none` if there is no file. JSON is taken for granted: `json.loads` gives back
what `json.dumps` wrote, with sequences as lists, and a line holds one object. Writing can fail as a whole (`writable`), not in the middle of a line.
-/

namespace NG
namespace ParamLog

open Tools

/-- What JSON writes without brackets: numbers, texts, and anything else (null, booleans, objects, non-finite numbers) as a code. Used in `scalars` (callbacks.py 202). -/
inductive Leaf where
  | num (x : ℚ)
  | text (s : Key)
  | other (code : Nat)
  deriving DecidableEq

/-- Python values. `leaf` also covers `np.float64`, which is a `float`; `npInt` is `np.int_` or `np.bool_`; `seq` a list or a tuple; `method` a bound
method with the representation of its object; `opaque` what JSON refuses. -/
inductive PV where
  | leaf (l : Leaf)
  | npInt (l : Leaf)
  | seq (xs : List PV)
  | array (shape : List Nat) (data : List Leaf)
  | method (s : Key)
  | opaque

/-- What is read back from JSON. Used in `Line` (callbacks.py 129-135). -/
inductive J where
  | leaf (l : Leaf)
  | list (xs : List J)

/-- `np.ndarray.tolist()`. Used in `convert` (callbacks.py 163-168). -/
def tolist : List Nat → List Leaf → PV
  | [], data => .leaf (data.headD (.other 0))
  | n :: s, data => .seq ((List.range n).map (fun i => tolist s ((data.drop (i * s.prod)).take s.prod)))

/-- The conversion of the value of a parameter (callbacks.py 163-168). -/
def convert : PV → PV
  | .npInt l => .leaf l
  | .method s => .leaf (.text s)
  | .array shape data => tolist shape data
  | v => v

/-- The conversion of the value of a sigma (170-173). -/
def convertSigma : PV → PV
  | .array shape data => tolist shape data
  | v => v

mutual
/-- `json.loads(json.dumps(v))`, `none` if `dumps` raises. Used in `dumps` (callbacks.py 137-178). -/
def toJ : PV → Option J
  | .leaf l => some (.leaf l)
  | .seq xs => (toJList xs).map .list
  | .npInt _ => none
  | .array _ _ => none
  | .method _ => none
  | .opaque => none

/-- Same for the elements of a sequence. Used in `toJ` (callbacks.py 137-178). -/
def toJList : List PV → Option (List J)
  | [] => some []
  | x :: xs =>
    match toJ x, toJList xs with
    | some y, some ys => some (y :: ys)
    | _, _ => none
end

/-- A parameter listed by `helpers.flatten`: its name, its value, and the value of its sigma if it is a `Data`. Used in `addItem` (callbacks.py 162-173). -/
structure Item where
  name : Key
  value : PV
  sigma : Option PV

/-- What the callback reads in the optimizer and the candidate. Used in `base` (callbacks.py 138-150). -/
structure Info where
  parametrization : Leaf
  optimizer : Leaf
  numAsk : Nat
  numTell : Nat
  numNotAsked : Nat
  uid : Leaf
  lineage : Leaf
  generation : Nat
  parents : List Leaf
  loss : Leaf
  numObjectives : Nat
  losses : List Leaf
  paretoLength : Nat
  /-- `configopt.config()`, with values as texts, if there is one. -/
  config : Option (List (Key × Key))
  /-- `candidate._meta["sigma"]` if it is a float. -/
  metaSigma : Option Leaf
  /-- `helpers.flatten(candidate, with_containers=False, order=...)`. -/
  flat : Nat → List Item

/-- The logger: its session and its order. Used in `base` (callbacks.py 138-150). -/
structure Logger where
  session : Leaf
  order : Nat

/-- A number as a leaf. Used in `base` (callbacks.py 138-150). -/
def natLeaf (n : Nat) : PV := .leaf (.num n)

/-- The first part of the dictionary (138-150). -/
def base (lg : Logger) (i : Info) : List (Key × PV) := [
    ("#parametrization".toList, .leaf i.parametrization),
    ("#optimizer".toList, .leaf i.optimizer),
    ("#session".toList, .leaf lg.session),
    ("#num-ask".toList, natLeaf i.numAsk),
    ("#num-tell".toList, natLeaf i.numTell),
    ("#num-tell-not-asked".toList, natLeaf i.numNotAsked),
    ("#uid".toList, .leaf i.uid),
    ("#lineage".toList, .leaf i.lineage),
    ("#generation".toList, natLeaf i.generation),
    ("#parents_uids".toList, .seq []),
    ("#loss".toList, .leaf i.loss)]

/-- Several objectives (151-153). -/
def withLosses (i : Info) (d : List (Key × PV)) : List (Key × PV) :=
  if 1 < i.numObjectives then
    dictSet "#pareto-length".toList (natLeaf i.paretoLength)
      (dictUpdate d (i.losses.zipIdx.map (fun e => ("#losses#".toList ++ decimal e.2, .leaf e.1))))
  else d

/-- The configuration of the optimizer (154-157). -/
def withConfig (i : Info) (d : List (Key × PV)) : List (Key × PV) :=
  match i.config with
  | some c => dictUpdate d (c.map (fun e => ("#optimizer#".toList ++ e.1, .leaf (.text e.2))))
  | none => d

/-- The sigma of the candidate (158-159). -/
def withSigma (i : Info) (d : List (Key × PV)) : List (Key × PV) :=
  match i.metaSigma with
  | some s => dictSet "#meta-sigma".toList (.leaf s) d
  | none => d

/-- The parents (160-161). -/
def withParents (i : Info) (d : List (Key × PV)) : List (Key × PV) :=
  if 1 < i.generation then dictSet "#parents_uids".toList (.seq (i.parents.map .leaf)) d else d

/-- The dictionary before the parameters (138-161). -/
def header (lg : Logger) (i : Info) : List (Key × PV) := withParents i (withSigma i (withConfig i (withLosses i (base lg i))))

/-- `name if name else "0"`. Used in `addItem` (callbacks.py 162-173). -/
def label (name : Key) : Key := if name = [] then ['0'] else name

/-- One turn of the loop over parameters (162-173). -/
def addItem (d : List (Key × PV)) (it : Item) : List (Key × PV) :=
  let d := dictSet (label it.name) (convert it.value) d
  match it.sigma with
  | some s => dictSet (label it.name ++ "#sigma".toList) (convertSigma s) d
  | none => d

/-- `data` (138-173). `order=1` is written in the code: `self._order` is not used. -/
def entry (lg : Logger) (i : Info) : List (Key × PV) := (i.flat 1).foldl addItem (header lg i)

/-- A line, as read back. Used in `create` (callbacks.py 129-135). -/
abbrev Line := List (Key × J)

/-- `json.dumps(data)`. Used in `call` (callbacks.py 137-178). -/
def dumps : List (Key × PV) → Option Line
  | [] => some []
  | (k, v) :: d =>
    match toJ v, dumps d with
    | some j, some l => some ((k, j) :: l)
    | _, _ => none

/-- The constructor (129-135). -/
def create (append : Bool) (file : Option (List Line)) : Option (List Line) := if append then file else none

/-- `__call__` (137-178). The file is opened, and created, before `json.dumps`. -/
def call (lg : Logger) (i : Info) (writable : Bool) (file : Option (List Line)) : Option (List Line) :=
  if writable then
    match dumps (entry lg i) with
    | some l => some (file.getD [] ++ [l])
    | none => some (file.getD [])
  else file

/-- `load` (180-187). -/
def load (file : Option (List Line)) : List Line := file.getD []

mutual
/-- `np.asarray` of a list read from JSON: its shape and its elements. `none` stands for the ValueError on lists which are not rectangular. The elements
are supposed to have one type (otherwise numpy converts them). Used in `addLists` (callbacks.py 203-207). -/
def regular : J → Option (List Nat × List Leaf)
  | .leaf l => some ([], [l])
  | .list [] => some ([0], [])
  | .list (x :: xs) =>
    match regular x with
    | none => none
    | some (s, a) =>
      match regularList s xs with
      | none => none
      | some (n, b) => some ((n + 1) :: s, a ++ b)

/-- The elements of a list, which must have shape `s`: their number and their content. Used in `regular` (callbacks.py 203-207). -/
def regularList (s : List Nat) : List J → Option (Nat × List Leaf)
  | [] => some (0, [])
  | x :: xs =>
    match regular x with
    | none => none
    | some (s', a) =>
      if s' = s then
        match regularList s xs with
        | none => none
        | some (n, b) => some (n + 1, a ++ b)
      else none
end

/-- The indices given by `np.ndenumerate`, the last one running fastest. Used in `addLists` (callbacks.py 203-207). -/
def indices : List Nat → List (List Nat)
  | [] => [[]]
  | n :: s => (List.range n).flatMap (fun i => (indices s).map (i :: ·))

/-- `"_".join(str(i) for i in indices)`. Used in `flatKey` (callbacks.py 207). -/
def join : List Nat → Key
  | [] => []
  | [i] => decimal i
  | i :: is => decimal i ++ '_' :: join is

/-- `key + "#" + ...` (207). -/
def flatKey (key : Key) (idx : List Nat) : Key := key ++ '#' :: join idx

/-- The entries of a line which are not lists (202). -/
def scalars : Line → List (Key × Leaf)
  | [] => []
  | (k, .leaf l) :: d => (k, l) :: scalars d
  | (_, .list _) :: d => scalars d

/-- The loop over `list_keys` (203-207); `none` if it raises. -/
def addLists (line : Line) (max : Nat) : List Key → List (Key × Leaf) → Option (List (Key × Leaf))
  | [], out => some out
  | key :: ks, out =>
    match (dictGet line key).bind regular with
    | none => none
    | some (s, a) => addLists line max ks (dictUpdate out ((((indices s).zip a).take max).map (fun e => (flatKey key e.1, e.2))))

/-- `load_flattened` for one line (200-207): `listKeys` are the keys of lists in the order in which Python goes through the set. -/
def flattenLine (max : Nat) (listKeys : Line → List Key) (line : Line) : Option (List (Key × Leaf)) :=
  addLists line max (listKeys line) (scalars line)

/-- `load_flattened` (189-208); `none` if it raises. -/
def loadFlattened (max : Nat) (listKeys : Line → List Key) (file : Option (List Line)) : Option (List (List (Key × Leaf))) :=
  (load file).mapM (flattenLine max listKeys)

end ParamLog
end NG
