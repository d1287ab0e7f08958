import Mathlib.Data.List.Basic

/-!
# The types of the columns that are plotted

Model of the normalization of types in `create_plots` (`nevergrad/benchmark/plotting.py` 260-301).  A row has a label and a cell for every column.
Labels are the numbers of the rows at first (`reset_index`, line 162).
-/

namespace NG.TypeNorm

/-- A cell of a column: a finite number, with the integer it is cast to; a number without an integer (NaN, infinite); a text that is not a number. -/
inductive Cell where
  | num (z : Int)
  | nan
  | bad
  deriving DecidableEq

variable {ρ : Type}

/-- A line of the table (plotting.py 228-262). -/
structure Row (ρ : Type) where
  label : Nat
  data : ρ

/-- `df[col][i]` (plotting.py 283): the row with this label. -/
def lookup (rows : List (Row ρ)) (i : Nat) : Option (Row ρ) := rows.find? fun r => r.label == i

/-- Whether `float(df[col][i])` raises (plotting.py 282-284), for a missing label as well. -/
def raises (cell : ρ → Cell) (rows : List (Row ρ)) (i : Nat) : Bool :=
  match lookup rows i with
  | none => true
  | some r => decide (cell r.data = .bad)

/-- `failed_indices` (plotting.py 281-285). -/
def failed (cell : ρ → Cell) (rows : List (Row ρ)) : List Nat := (List.range rows.length).filter (raises cell rows)

/-- Whether `astype(float).astype(int)` raises nothing (plotting.py 277). -/
def converts (cell : ρ → Cell) (rows : List (Row ρ)) : Bool :=
  rows.all fun r => match cell r.data with | .num _ => true | _ => false

/-- `df.drop(df.index[failed_indices])` (plotting.py 290): the rows at these places go away. -/
def dropAt (rows : List (Row ρ)) (places : List Nat) : List (Row ρ) :=
  (rows.zipIdx.filter fun p => !places.contains p.2).map (·.1)

/-- One turn of the loop (plotting.py 275-291); `none` is the error of too many failures (286-288). -/
def turn (cell : ρ → Cell) (rows : List (Row ρ)) : Option (List (Row ρ)) :=
  if converts cell rows then some rows
  else if (failed cell rows).length < 100 then some (dropAt rows (failed cell rows)) else none

/-- The two turns for a column of integers (plotting.py 266-291). -/
def column (cell : ρ → Cell) (rows : List (Row ρ)) : Option (List (Row ρ)) := (turn cell rows).bind (turn cell)

/-- Whether the column is converted to integers at the end: the second turn converts (plotting.py 275-291). -/
def converted (cell : ρ → Cell) (rows : List (Row ρ)) : Bool :=
  match turn cell rows with
  | none => false
  | some rows' => converts cell rows'

/-- All the columns of integers in turn (plotting.py 262-291). -/
def columns : List (ρ → Cell) → List (Row ρ) → Option (List (Row ρ))
  | [], rows => some rows
  | c :: cs, rows => (column c rows).bind (columns cs)

/-- The replacement of `\.[0]*$` by nothing (plotting.py 296) in a text given from its end: the zeros, then a point. -/
def stripEnd (s : List Char) : List Char :=
  match s.dropWhile (· == '0') with
  | '.' :: t => t
  | _ => s

/-- The replacement for a text (plotting.py 296). Line ends are left out. -/
def strip (s : List Char) : List Char := (stripEnd s.reverse).reverse

end NG.TypeNorm
