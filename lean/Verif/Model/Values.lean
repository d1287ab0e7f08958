import Mathlib.Data.List.Sort
import Mathlib.Data.Rat.Defs

/-!
# Values of containers

Sources: nevergrad/parametrization/container.py 31-78, 133-159, 184-206, 209-243, core.py 94-109, 239-250, 471-529, data.py 332-341, _layering.py 182-227.

Parameters are trees of constants, one-dimensional arrays and scalars without value layers, dictionaries and tuples; an `Instrumentation` is the tuple of a tuple and
of a dictionary (container.py 230-232). Values are trees too. Booleans are numbers, as in Python; nan and infinities are left out.
-/

namespace NG
namespace Values
variable {K : Type} [LinearOrder K]

/-- Values which are neither containers nor arrays. Used in `asarray` (_layering.py 227). -/
inductive Atom where
  | num (q : Rat)
  | str (s : List Char)
  | nothing
  deriving DecidableEq, Repr

/-- What can be assigned to `value` and what `value` returns. `tup` also stands for the lists that `ArrayCasting` accepts. Used in `get` (core.py 497-498). -/
inductive Val (K : Type) where
  | atom (a : Atom)
  | arr (cells : List Atom)
  | tup (l : List (Val K))
  | dict (l : List (K × Val K))

/-- The parameters. Used in `get` (core.py 497-498). -/
inductive P (K : Type) where
  | const (v : Val K)
  | array (cells : List Atom)
  | scalar (x : Rat)
  | dict (c : List (K × P K))
  | tup (c : List (P K))

/-- The exceptions. Used in `setArray` (_layering.py 224-227). -/
inductive Err where
  | typeError
  | valueError
  deriving DecidableEq, Repr

mutual
/-- `param.value` (core.py 497-498, data.py 340-341, _layering.py 205-211, container.py 145-146, 196-197). -/
def get : P K → Val K
  | .const v => v
  | .array cells => .arr cells
  | .scalar x => .atom (.num x)
  | .dict c => .dict (getD c)
  | .tup c => .tup (getT c)
/-- The comprehension of container.py 146. -/
def getD : List (K × P K) → List (K × Val K)
  | [] => []
  | (k, p) :: rest => (k, get p) :: getD rest
/-- The generator of container.py 197. -/
def getT : List (P K) → List (Val K)
  | [] => []
  | p :: rest => get p :: getT rest
end

/-- The atoms of a tuple without containers. Used in `constAccepts` (core.py 500-510). -/
def atoms : List (Val K) → Option (List Atom)
  | [] => some []
  | .atom a :: rest => (atoms rest).map (a :: ·)
  | _ :: _ => none

mutual
/-- `a == b` between values without arrays; dictionaries are compared whatever their order. Equal arrays inside of a tuple or of a dictionary are taken to be one object
(numpy refuses to decide on the others). Used in `constAccepts` (core.py 500-510). -/
def pyEq : Val K → Val K → Bool
  | .atom a, .atom b => a = b
  | .arr a, .arr b => a = b
  | .tup a, .tup b => pyEqT a b
  | .dict a, .dict b => a.length = b.length && pyEqD a b
  | _, _ => false
/-- Tuples are equal when they have the same length and equal entries. Used in `pyEq` (core.py 500-510). -/
def pyEqT : List (Val K) → List (Val K) → Bool
  | [], [] => true
  | x :: xs, y :: ys => pyEq x y && pyEqT xs ys
  | _, _ => false
/-- Each entry of the first dictionary is in the second one. Used in `pyEq` (core.py 500-510). -/
def pyEqD : List (K × Val K) → List (K × Val K) → Bool
  | [], _ => true
  | (k, v) :: rest, b => (b.any (fun e => e.1 = k && pyEq v e.2)) && pyEqD rest b
end

/-- `np.equal(a, b).all()` for one-dimensional arrays: an array with one entry is broadcast; other differing sizes raise, which is `false` here. Used in `constAccepts` (core.py 500-510). -/
def npEqual (a b : List Atom) : Bool :=
  if a.length = b.length then a = b
  else match a, b with
    | [x], ys => ys.all (· = x)
    | xs, [y] => xs.all (· = y)
    | _, _ => false

/-- Whether `Constant._layered_set_value` accepts `v` (core.py 500-510), `c` being the constant. A constant array compared with something which is not an array gives an
array of Booleans, which only has a truth value if it has one entry. -/
def constAccepts (c v : Val K) : Bool :=
  match v, c with
  | .arr xs, .arr ys => npEqual xs ys
  | .arr xs, .atom y => xs.all (· = y)
  | .arr xs, .tup l => match atoms l with
    | some ys => npEqual xs ys
    | none => false
  | .arr xs, .dict _ => xs.isEmpty
  | .atom x, .arr [y] => x = y
  | .tup [.atom x], .arr [y] => x = y
  | v, c => pyEq v c

/-- Whether an atom is a number. Built on `Atom` (_layering.py 227). -/
def isNum : Atom → Bool
  | .num _ => true
  | _ => false

/-- Whether an atom is a text. Used in `asarray` (_layering.py 227). -/
def isStr : Atom → Bool
  | .str _ => true
  | _ => false

/-- `np.asarray` of a tuple of atoms (_layering.py 227): numbers standing beside texts become texts. -/
def asarray (text : Rat → List Char) (l : List Atom) : List Atom :=
  if l.any isStr && !(l.any (fun a => a = .nothing)) then l.map (fun a => match a with
    | .num q => .str (text q)
    | a => a)
  else l

/-- `ArrayCasting` and `Data._layered_set_value` (_layering.py 224-227, data.py 332-338). The cells may be anything: only the shape is checked. Tuples of containers give
arrays of another shape. -/
def setArray (text : Rat → List Char) (cells : List Atom) (v : Val K) : List Atom × Option Err :=
  match v with
  | .arr ys => if ys.length = cells.length then (ys, none) else (cells, some .valueError)
  | .tup l => match atoms l with
    | some ys => if ys.length = cells.length then (asarray text ys, none) else (cells, some .valueError)
    | none => (cells, some .valueError)
  | _ => (cells, some .typeError)

/-- `_ScalarCasting` (_layering.py 213-216). -/
def setScalar (x : Rat) (v : Val K) : Rat × Option Err :=
  match v with
  | .atom (.num q) => (q, none)
  | _ => (x, some .typeError)

/-- `_content[key]`. Used in `setD` (container.py 156-157). -/
def find (c : List (K × P K)) (k : K) : Option (P K) := (c.find? (fun e => e.1 = k)).map (·.2)

/-- The entry of `k` became `p`. Used in `setD` (container.py 156-157). -/
def put (c : List (K × P K)) (k : K) (p : P K) : List (K × P K) := c.map (fun e => if e.1 = k then (k, p) else e)

/-- `set(value) != set(self)` is false (container.py 152). -/
def sameKeys (a b : List K) : Bool := a.all (· ∈ b) && b.all (· ∈ a)

mutual
/-- `param.value = v`: the parameter afterwards, and the exception if one is raised (core.py 500-510, container.py 148-157, 199-206). -/
def set (text : Rat → List Char) : Val K → P K → P K × Option Err
  | v, .const c => (.const c, if constAccepts c v then none else some .valueError)
  | v, .array cells => let r := setArray text cells v; (.array r.1, r.2)
  | v, .scalar x => let r := setScalar x v; (.scalar r.1, r.2)
  | .dict items, .dict c =>
    if sameKeys (items.map (·.1)) (c.map (·.1)) then
      let r := setD text items c; (.dict r.1, r.2)
    else (.dict c, some .valueError)
  | _, .dict c => (.dict c, some .typeError)
  | .tup vals, .tup c =>
    if vals.length = c.length then let r := setT text vals c; (.tup r.1, r.2) else (.tup c, some .valueError)
  | _, .tup c => (.tup c, some .valueError)
/-- The loop of container.py 156-157 over the given dictionary. -/
def setD (text : Rat → List Char) : List (K × Val K) → List (K × P K) → List (K × P K) × Option Err
  | [], c => (c, none)
  | (k, v) :: rest, c =>
    match find c k with
    | none => (c, some .valueError)
    | some p =>
      let r := set text v p
      if r.2.isSome then (put c k r.1, r.2) else setD text rest (put c k r.1)
/-- The loop of container.py 205-206. -/
def setT (text : Rat → List Char) : List (Val K) → List (P K) → List (P K) × Option Err
  | [], c => (c, none)
  | _ :: _, [] => ([], some .valueError)
  | v :: rest, p :: ps =>
    let r := set text v p
    if r.2.isSome then (r.1 :: ps, r.2)
    else let q := setT text rest ps; (r.1 :: q.1, q.2)
end

/-- `args` (core.py 94-100, container.py 234-236): of an `Instrumentation` the first entry of the value, of other parameters the value. -/
def args (isInstrumentation : Bool) (p : P K) : List (Val K) :=
  if isInstrumentation then
    match get p with
    | .tup (.tup a :: _) => a
    | _ => []
  else [get p]

/-- `kwargs` (core.py 102-108, container.py 238-240). -/
def kwargs (isInstrumentation : Bool) (p : P K) : List (K × Val K) :=
  if isInstrumentation then
    match get p with
    | .tup [_, .dict d] => d
    | _ => []
  else []

/-- `Instrumentation(*args, **kwargs)` (container.py 230-232), for parameters. -/
def instrumentation (a : List (P K)) (kw : List (K × P K)) : P K := .tup [.tup a, .dict kw]

/-- Hashes of values. `bytes` is the content of an array. Used in `hash` (core.py 239-250, 491-495). -/
inductive Hash (K : Type) where
  | atom (a : Atom)
  | bytes (cells : List Atom)
  | items (l : List (K × Hash K))
  | entries (l : List (Nat × Hash K))

/-- The hash of constants whose value cannot be hashed (core.py 495). -/
def marker : List Char := "#non-hashable-constant#".toList

/-- `sorted` of pairs with distinct keys. Used in `hash` (core.py 239-250, 491-495). -/
def sortD {B : Type} (l : List (K × B)) : List (K × B) := l.insertionSort (fun a b => a.1 ≤ b.1)

mutual
/-- `get_value_hash` (core.py 239-250, 491-495, container.py 76-77). `tobytes` is represented by the cells themselves: arrays of one type. -/
def hash : P K → Hash K
  | .const (.atom .nothing) => .atom (.str marker)
  | .const (.atom a) => .atom a
  | .const (.arr cells) => .bytes cells
  | .const _ => .atom (.str marker)
  | .array cells => .bytes cells
  | .scalar x => .atom (.num x)
  | .dict c => .items (sortD (hashD c))
  | .tup c => .entries (sortD (hashT 0 c))
/-- The pairs of container.py 77 for a dictionary. -/
def hashD : List (K × P K) → List (K × Hash K)
  | [] => []
  | (k, p) :: rest => (k, hash p) :: hashD rest
/-- The pairs of container.py 77 for a tuple, whose keys are 0, 1, ... (container.py 186). -/
def hashT (n : Nat) : List (P K) → List (Nat × Hash K)
  | [] => []
  | p :: rest => (n, hash p) :: hashT (n + 1) rest
end

end Values
end NG
