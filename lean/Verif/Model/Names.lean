import Mathlib.Data.List.Lex
import Mathlib.Data.List.Sort
import Mathlib.Data.Nat.Digits.Defs
import Mathlib.Data.Rat.Floor
import Mathlib.Algebra.Order.Round

/-!
# Names of parametrizations (nevergrad/parametrization/_layering.py 126-159, data.py 25-30 and 141-152, container.py 73-74 and 159-163 and 188-189, choice.py 41-47, core.py 488-489)

Texts are lists of characters. The values of the data, which are not in the names, are left out.
-/

namespace NG
namespace Names

/-- A text. Used in `name` (_layering.py 126-144). -/
abbrev Str := List Char

/-- `",".join(...)` (container.py 163, 189, data.py 151). -/
def join : List Str → Str
  | [] => []
  | [a] => a
  | a :: b :: l => a ++ ',' :: join (b :: l)

/-- The decimal digits of a number, as in `str(shape)` (data.py 145). -/
def dec (n : Nat) : Str := if n = 0 then ['0'] else (Nat.digits 10 n).reverse.map Nat.digitChar

/-- `str(shape).replace(" ", "")` (data.py 145): a tuple with one element ends with a comma. -/
def shapeText : List Nat → Str
  | [n] => '(' :: dec n ++ [',', ')']
  | l => '(' :: join (l.map dec) ++ [')']

/-- The format `.2f` of a positive number (_datalayers.py 189), where half a hundredth is rounded up. -/
def fmt2 (b : ℚ) : Str :=
  let n := (round (100 * b)).toNat
  dec (n / 100) ++ '.' :: (if n % 100 < 10 then '0' :: dec (n % 100) else dec (n % 100))

/-- The layers of a `Data` (_datalayers.py 28-320, _layering.py 240-290). `bound` has the name of its transform (_datalayers.py 268), `mult` the text of its factor (_datalayers.py 232). -/
inductive Lay
  | casting
  | add (offset : ℚ)
  | power (power : ℚ)
  | modulo (module : ℚ)
  | mult (text : Str)
  | expo (base : ℚ)
  | int (deterministic : Bool)
  | softmax (arity : Nat) (deterministic : Bool)
  | bound (transform : Str)

/-- The name of a layer (_layering.py 126-130, 265-267, _datalayers.py 189, 232, 268, 288-290); `none` for the casting layers, which are left out (data.py 146-150). -/
def Lay.name : Lay → Option Str
  | .casting => none
  | .add _ => some "Add".toList
  | .power _ => some "Power".toList
  | .modulo _ => some "Modulo".toList
  | .mult t => some ("Mult(".toList ++ t ++ [')'])
  | .expo b => some ("exp=".toList ++ fmt2 b)
  | .int d => some ("Int".toList ++ if d then [] else "{rand}".toList)
  | .softmax _ d => some ("SoftmaxSampling".toList ++ if d then "{det}".toList else [])
  | .bound t => some t

/-- A constant: a number, with its text, or a string. Used in `Par` (core.py 467-489). -/
inductive Val
  | number (text : Str)
  | string (s : Str)
deriving DecidableEq

/-- `str(value)` (core.py 489). -/
def Val.text : Val → Str
  | .number t => t
  | .string s => s

/-- Parameters (core.py 467-489, data.py 34-113, container.py 15-260, choice.py 21-170): a constant, a `Data` with its shape, layers and internal parameters, a `Dict` or a choice with its keys, a `Tuple` or an
`Instrumentation`, and a parameter whose name was set. -/
inductive Par
  | const (v : Val)
  | data (cls : Str) (shape : List Nat) (layers : List Lay) (params : List (Str × Par))
  | dict (cls : Str) (content : List (Str × Par))
  | tuple (cls : Str) (content : List Par)
  | named (s : Str) (p : Par)

/-- Sorted by the keys, which are all different in a dictionary (container.py 160-162, choice.py 42-46). -/
def byKey {β : Type} (l : List (Str × β)) : List (Str × β) := l.insertionSort (fun a b => a.1 ≤ b.1)

/-- The items of a dictionary, without those to be ignored (container.py 160-163). -/
def items (ignored : Str → Str → Bool) (l : List (Str × Str)) : Str :=
  join ((byKey (l.filter fun x => !ignored x.1 x.2)).map fun x => x.1 ++ '=' :: x.2)

/-- The standard deviation is left out if its name is "1.0" (data.py 113). -/
def sigmaOne (k n : Str) : Bool := k == "sigma".toList && n == "1.0".toList

/-- `_param_string` (data.py 25-30). -/
def paramString (s : Str) : Str := if s = [] then [] else '[' :: s ++ [']']

/-- The descriptors in braces (data.py 143-151). -/
def descriptors (shape : List Nat) (layers : List Lay) : List Str :=
  (if shape = [1] then [] else [shapeText shape]) ++ layers.filterMap Lay.name

/-- The descriptors as a text (data.py 151). -/
def description (d : List Str) : Str := if d = [] then [] else '{' :: join d ++ ['}']

/-- `name` (_layering.py 136-144, data.py 141-152, container.py 73-74, 159-163, 188-189, choice.py 41-47, core.py 488-489). -/
def Par.name : Par → Str
  | .const v => v.text
  | .data cls shape layers params =>
    cls ++ description (descriptors shape layers) ++ paramString (items sigmaOne (params.attach.map fun x => (x.1.1, x.1.2.name)))
  | .dict cls content => cls ++ '(' :: items (fun _ _ => false) (content.attach.map fun x => (x.1.1, x.1.2.name)) ++ [')']
  | .tuple cls content => cls ++ '(' :: join (content.attach.map fun x => x.1.name) ++ [')']
  | .named s _ => s
termination_by p => sizeOf p
decreasing_by
  · have := List.sizeOf_lt_of_mem x.2
    have h2 : sizeOf x.1.2 < sizeOf x.1 := by cases x.1; simp
    simp only [Par.data.sizeOf_spec]; omega
  · have := List.sizeOf_lt_of_mem x.2
    have h2 : sizeOf x.1.2 < sizeOf x.1 := by cases x.1; simp
    simp only [Par.dict.sizeOf_spec]; omega
  · have := List.sizeOf_lt_of_mem x.2
    simp only [Par.tuple.sizeOf_spec]; omega

/-- The parametrization of a copy of a function (functions/base.py 159-182): the constructor is called again with the parametrization it was given (`initial`), which is replaced by a copy of the current one
(`current`) only if their names differ. -/
def copyParam (initial current : Par) : Par := if initial.name ≠ current.name then current else initial

end Names
end NG
