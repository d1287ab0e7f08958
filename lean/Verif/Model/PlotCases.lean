import Mathlib.Data.List.Dedup
import Mathlib.Data.List.Sublists

/-!
# Which plots are drawn from a table of results

Model of the selection of cases in `create_plots` (`nevergrad/benchmark/plotting.py` 228-506), of
`Selector.select` and `Selector.unique` (`nevergrad/benchmark/utils.py` 27-80) restricted to what
`create_plots` uses, and of `compactize` (plotting.py 36-43).

A row is a function from columns to values and the table is a list of rows.  The earlier cleaning of
the table (types, errors, limits of losses) is not part of this model, nor is the drawing.
-/

namespace NG.PlotCases

variable {C V : Type} [DecidableEq V]

/-- `df.unique(x)` for one column (utils.py 71-72). -/
def values (rows : List (C → V)) (c : C) : List V :=
  (rows.map fun r => r c).dedup

/-- `all_descriptors` (plotting.py 325-331): the columns that are not required, without the columns of one
value only (`to_drop`).  `cols` is the sorted list of the columns outside
`required | {"instrum_str", "seed", "pseudotime"}`. -/
def allDescriptors (rows : List (C → V)) (cols : List C) : List C :=
  cols.filter fun c => decide ((values rows c).length ≠ 1)

/-- `fight_descriptors` and `combinable` (plotting.py 337-338). -/
def combinable (rows : List (C → V)) (cols : List C) (budget : C) : List C :=
  (allDescriptors rows cols ++ [budget]).filter fun c => decide (1 < (values rows c).length)

/-- `df.loc[df["budget"] == b]` (plotting.py 344). -/
def atBudget (rows : List (C → V)) (budget : C) (b : V) : List (C → V) :=
  rows.filter fun r => decide (r budget = b)

/-- The test `acceptable` of a descriptor (plotting.py 342-346): for some budget there are several values. -/
def acceptable (rows : List (C → V)) (budget : C) (d : C) : Bool :=
  (values rows budget).any fun b => decide (1 < (values (atBudget rows budget b) d).length)

/-- `descriptors` of the xp plots (plotting.py 339-348). -/
def xpDescriptors (rows : List (C → V)) (cols : List C) (budget : C) : List C :=
  (allDescriptors rows cols).filter (acceptable rows budget)

/-- `df.unique(columns)` for several columns (utils.py 73-77).  Without a column there is no tuple. -/
def unique (rows : List (C → V)) (cs : List C) : List (List V) :=
  if cs = [] then [] else (rows.map fun r => cs.map r).dedup

/-- The cases of a list of columns: `df.unique(fixed) if fixed else [()]` (plotting.py 389), and
`cases = df.unique(descriptors)` with `[()]` when there is none (plotting.py 442-444);
the two agree for a table with at least one row. -/
def cases (rows : List (C → V)) (cs : List C) : List (List V) :=
  if cs = [] then [[]] else unique rows cs

/-- `df.select(**dict(zip(columns, case)))` (utils.py 27-49): one selection after the other. -/
def select (rows : List (C → V)) : List C → List V → List (C → V)
  | c :: cs, v :: vs => select (rows.filter fun r => decide (r c = v)) cs vs
  | _, _ => rows

/-- The combinations of columns that are fixed (plotting.py 353-359). `competence` is `competencemaps`. -/
def fixedSets (combinable : List C) (maxComb : Nat) (competence : Bool) : List (List C) :=
  (List.range ((if competence then max maxComb 2 else maxComb) + 1)).flatMap
    fun k => combinable.sublistsLen k

/-! ## The competence map of two columns -/

/-- One write `best_algo[xindices.index(x)][yindices.index(y)] = best` (plotting.py 399).  The table of
lists is modelled as a function of the two values. -/
def put (t : V → V → String) (x y : V) (s : String) : V → V → String :=
  fun x' y' => if x' = x ∧ y' = y then s else t x' y'

/-- One case of two columns (plotting.py 391-399); `best` is the first name of the win rates of the rows of a
case. -/
def mapStep (rows : List (C → V)) (c d : C) (best : List (C → V) → String) (t : V → V → String) :
    List V → V → V → String
  | [x, y] => put t x y (best (select rows [c, d] [x, y]))
  | _ => t

/-- The table after all the cases of two fixed columns, from "none" everywhere (plotting.py 384-399). -/
def bestAlgo (rows : List (C → V)) (c d : C) (best : List (C → V) → String) : V → V → String :=
  (cases rows [c, d]).foldl (mapStep rows c d best) fun _ _ => "none"

/-! ## Names of files -/

/-- The text up to the first parenthesis and the rest. -/
def body : List Char → List Char
  | [] => []
  | c :: l => if c = '(' ∨ c = ')' then c :: l else body l

/-- `re.sub(r"\([^()]*\)", "", name)` (plotting.py 40): the innermost groups are removed, once.  The first
argument bounds the number of steps; the length of the text is enough. -/
def strip : Nat → List Char → List Char
  | 0, l => l
  | _ + 1, [] => []
  | n + 1, c :: l =>
    if c = '(' then
      match body l with
      | ')' :: rest => strip n rest
      | _ => c :: strip n l
    else c :: strip n l

/-- `name[:mid] + hashcode + name[-mid:]` (plotting.py 42). -/
def squeeze (mid : Nat) (hash name : List Char) : List Char :=
  name.take mid ++ hash ++ name.drop (name.length - mid)

/-- `compactize` (plotting.py 36-43); `md5` is the hexadecimal digest. -/
def compactize (md5 : List Char → List Char) (name : List Char) : List Char :=
  if name.length < 70 then name
  else squeeze 35 (md5 name) (strip name.length name)

/-- The second shortening of the name of a fight plot (plotting.py 412-416). -/
def shorten (md5 : List Char → List Char) (name : List Char) : List Char :=
  if 240 < name.length then squeeze 120 (md5 name) (strip name.length name) else name

/-- The second shortening of the description of an xp plot (plotting.py 489-491). -/
def shortenXp (md5 : List Char → List Char) (name : List Char) : List Char :=
  if 280 < name.length then squeeze 140 (md5 name) name else name

/-- `"{}{}".format(x, y)` joined by commas (plotting.py 401). -/
def joined : List (List Char × List Char) → List Char
  | [] => []
  | [p] => p.1 ++ p.2
  | p :: q :: l => p.1 ++ p.2 ++ ',' :: joined (q :: l)

/-- The file of a fight plot (plotting.py 401-416). -/
def fightName (md5 : List Char → List Char) (fixed : List (List Char × List Char)) : List Char :=
  let name := "fight_".toList ++ joined fixed ++ ".png".toList
  let name := if name = "fight_.png".toList then "fight_all.png".toList else name
  shorten md5 (compactize md5 name)

end NG.PlotCases
