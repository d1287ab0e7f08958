/-
Launching benchmarks and reading their results (`nevergrad/benchmark/core.py` 37-48, 223-304, `nevergrad/benchmark/__main__.py` 16-131, `nevergrad/benchmark/utils.py` 13-104).

Simplifications. A data frame is its list of columns with a list of rows; a row is a function of the column that is `nan` for all others. A csv file is a header with lines of texts: quotes are not
modelled, and neither is the change of the text of a number by reading and writing it. A saving that fails leaves all files as they were. The result of an experiment is a function of the experiment.
The names of columns are of any type. Python's `sort` is an insertion sort, which is the same for rows that can be compared.
-/
import Verif.Model.Bench
import Mathlib.Data.List.Sort
import Mathlib.Order.Lattice

namespace NG.Launch

/-- A cell: NaN or a value. Used in `Crit.holds` (utils.py 42-47). -/
inductive Cell (α : Type) where
  | nan
  | val (a : α)
deriving DecidableEq, Repr

/-- A data frame. Used in `ofDicts` (core.py 220). -/
structure Frame (C α : Type) where
  cols : List C
  rows : List (C → Cell α)

/-- A csv file: header and lines. Used in `write` (core.py 48). -/
structure File (C : Type) where
  header : List C
  lines : List (List String)
deriving DecidableEq, Repr

section
variable {C α : Type} [DecidableEq C]

/-! ### Frames -/

/-- A column is added once. Used in `ofDicts` (core.py 220). -/
def addNew (cs : List C) (c : C) : List C := if c ∈ cs then cs else cs ++ [c]

/-- A summary of an experiment: a dictionary. Used in `ofDicts` (core.py 220). -/
abbrev Dict (C α : Type) := List (C × Cell α)

/-- `Selector(data=self.summaries)` (core.py 220). -/
def ofDicts (ds : List (Dict C α)) : Frame C α :=
  ⟨(ds.flatMap fun d => d.map Prod.fst).foldl addNew [], ds.map fun d c => (d.lookup c).getD .nan⟩

/-- `pd.concat(..., sort=False)` (core.py 47, 304); `none` for the ValueError of an empty list. -/
def concat (fs : List (Frame C α)) : Option (Frame C α) :=
  if fs.isEmpty then none else some ⟨(fs.flatMap fun f => f.cols).foldl addNew [], fs.flatMap fun f => f.rows⟩

/-! ### Files -/

/-- The text of a cell. Used in `write` (core.py 48). -/
def Cell.text : Cell String → String
  | .nan => ""
  | .val s => s

/-- `to_csv(path, index=False)` (core.py 48). -/
def write (f : Frame C String) : File C := ⟨f.cols, f.rows.map fun r => f.cols.map fun c => (r c).text⟩

/-- `pd.read_csv` (core.py 41-46, utils.py 84-86): `na` are the texts that are read as NaN, the empty one is among them in pandas; `none` when there is no column. -/
def read (na : String → Bool) (f : File C) : Option (Frame C String) :=
  if f.header = [] then none
  else some ⟨f.header, f.lines.map fun l c => match (f.header.zip l).lookup c with
    | none => .nan
    | some s => if na s then .nan else .val s⟩

/-- `save_or_append_to_csv` (core.py 37-48). -/
def saveOrAppend (na : String → Bool) (df : Frame C String) : Option (File C) → Option (File C)
  | none => some (write df)
  | some f => do
    let p ← read na f
    let d ← concat [p, df]
    return write d

/-- The files by their path. Used in `launch` (__main__.py 16-44). -/
abbrev Fs (C : Type) := String → Option (File C)

/-- Saving to a path, which may be one that cannot be written. Built on `saveOrAppend` (core.py 37-48). -/
def save (na : String → Bool) (ok : String → Bool) (df : Frame C String) (path : String) (fs : Fs C) : Option (Fs C) :=
  if ok path then (saveOrAppend na df (fs path)).map fun f => Function.update fs path (some f) else none

/-! ### Launches -/

/-- The run of a chunk (core.py 181-220), without interruption. -/
def runChunk {X : Type} (eq : X → X → Bool) (describe : X → Dict C α) (plan : List X) (m : Bench.Moduler) : Frame C α :=
  ofDicts (Bench.compute eq describe (fun _ => true) 0 ((Bench.iter plan m).map fun e => e.2) ⟨[], none⟩).2.summaries

/-- `compute` (core.py 270-304) with `_submit_jobs` (223-266); `none` for several workers without executor, for an empty plan and for no worker. -/
def compute {X : Type} (maker : Option Nat → List X) (eq : X → X → Bool) (describe : X → Dict C α) (workers : Nat) (executor : Bool) (seed cap : Option Nat) : Option (Frame C α) :=
  if executor = false ∧ 1 < workers then none
  else if maker none = [] then none
  else
    let bench : Bench.Chunk X := ⟨maker, 1, seed, cap⟩
    concat ((bench.moduler.split workers).map fun m => runChunk eq describe bench.plan m)

/-- `launch` (__main__.py 16-44): the path of the results and the files. -/
def launch {X : Type} (na ok : String → Bool) (maker : Option Nat → List X) (eq : X → X → Bool) (describe : X → Dict C String) (experiment : String) (workers : Nat) (seed cap : Option Nat)
    (output : Option String) (fs : Fs C) : Option (String × Fs C) := do
  let path := output.getD (experiment ++ ".csv")
  let df ← compute maker eq describe workers (decide (workers ≠ 1)) seed cap
  match save na ok df path fs with
  | some fs' => some (path, fs')
  | none => (save na ok df (experiment ++ ".csv") fs).map fun fs' => (experiment ++ ".csv", fs')

/-- `repeated_launch` (__main__.py 95-122), from the repetition `k` on; the path that is read for the plots is given too. -/
def repeated {X : Type} (na ok : String → Bool) (maker : Option Nat → List X) (eq : X → X → Bool) (describe : X → Dict C String) (experiment : String) (workers : Nat) (seed cap : Option Nat)
    (output : Option String) : Nat → Nat → String × Fs C → Option (String × Fs C)
  | 0, _, s => some s
  | n + 1, k, s => do
    let s ← launch na ok maker eq describe experiment workers (seed.map (· + k)) cap output s.2
    repeated na ok maker eq describe experiment workers seed cap output n (k + 1) s

/-! ### Selections -/

/-- A criterion of `select`: some values (a text stands for itself), or a function. Used in `Crit.holds` (utils.py 42-47). -/
inductive Crit (α : Type) where
  | isin (vs : List (Cell α))
  | pred (p : Cell α → Bool)

/-- The rows that a criterion selects (utils.py 42-47). -/
def Crit.holds [DecidableEq α] : Crit α → Cell α → Bool
  | .isin vs, v => decide (v ∈ vs)
  | .pred p, v => p v

/-- `select` (utils.py 24-49); `none` for the KeyError of an unknown column. -/
def select [DecidableEq α] : List (C × Crit α) → Frame C α → Option (Frame C α)
  | [], f => some f
  | (c, k) :: kw, f => if c ∈ f.cols then select kw ⟨f.cols, f.rows.filter fun r => k.holds (r c)⟩ else none

/-- `select_and_drop` (utils.py 51-57). -/
def selectAndDrop [DecidableEq α] (kw : List (C × Crit α)) (f : Frame C α) : Option (Frame C α) :=
  (select kw f).map fun g =>
    let cols := g.cols.filter fun c => decide (c ∉ kw.map Prod.fst)
    ⟨cols, g.rows.map fun r c => if c ∈ cols then r c else .nan⟩

/-- `unique` for one column (utils.py 75-76), as a list without repetition. -/
def unique1 [DecidableEq α] (c : C) (f : Frame C α) : Option (List (Cell α)) := if c ∈ f.cols then some ((f.rows.map fun r => r c).dedup) else none

/-- `unique` for a list of columns (utils.py 77-81); `none` for an unknown column or a NaN in the columns. -/
def unique [DecidableEq α] (cs : List C) (f : Frame C α) : Option (List (List (Cell α))) :=
  if ∀ c ∈ cs, c ∈ f.cols then (if ∀ r ∈ f.rows, ∀ c ∈ cs, r c ≠ .nan then some ((f.rows.map fun r => cs.map r).dedup) else none) else none

/-! ### Comparisons -/

/-- `<` of two cells: it is never true with a NaN. Used in `rowLt` (utils.py 88-104). -/
def Cell.lt [LinearOrder α] : Cell α → Cell α → Bool
  | .val a, .val b => decide (a < b)
  | _, _ => false

/-- `<` of two tuples: that of the first cells that are not equal, where NaN is not equal to itself. Used in `equivalent` (utils.py 88-104). -/
def rowLt [LinearOrder α] : List (Cell α) → List (Cell α) → Bool
  | [], [] => false
  | [], _ :: _ => true
  | _ :: _, [] => false
  | a :: as, b :: bs => if a = b ∧ a ≠ .nan then rowLt as bs else a.lt b

/-- `assert_equivalent` (utils.py 88-104): whether it passes. `np.testing.assert_array_equal` takes NaN as equal. -/
def equivalent [LinearOrder α] (self other : Frame C α) : Bool :=
  decide ((∀ c ∈ other.cols, c ∈ self.cols) ∧ ∀ c ∈ self.cols, c ∈ other.cols) && decide (other.rows.length = self.rows.length) &&
  (let sorted := fun (f : Frame C α) => (f.rows.map fun r => self.cols.map r).insertionSort fun a b => rowLt b a = false
   decide (sorted self = sorted other))

end

end NG.Launch
