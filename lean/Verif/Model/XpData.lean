import Mathlib.Algebra.Order.Field.Basic
import Mathlib.Order.WithBot
import Mathlib.Data.List.Dedup
import Mathlib.Data.List.Sort

/-!
# Model of the preparation of the data of experiment plots

`remove_errors`, the limits set by `create_plots`, `merge_optimizer_name_pattern`, `normalized_losses`, `XpPlotter.make_data`, `XpPlotter.save_txt` and the choice of the curves shown
(`benchmark/plotting.py`). `O` are the names of optimizers, `B` the budgets, `C` the values of all the other columns which describe the setting, `K` the losses. Drawing is not modelled.
-/

namespace NG
namespace Xp

variable {O B C K : Type} [DecidableEq O] [DecidableEq B] [LinearOrder B] [DecidableEq C] [Field K] [LinearOrder K]

/-- One line of the table of results; `L` is the type of losses. Used in `removeErrors` (plotting.py 136-164). -/
structure Row (O B C L : Type) where
  opt : O
  budget : B
  setting : C
  loss : L
deriving DecidableEq, Repr

/-- `remove_errors` (plotting.py 136-164): lines with a NaN loss (`none`) are removed, if there is a column of errors. The assignment of infinity afterwards (156-157) changes the table given,
not the result. -/
def removeErrors (errorColumn : Bool) (rows : List (Row O B C (Option K))) : List (Row O B C (Option K)) :=
  if errorColumn then rows.filter (fun r => r.loss.isSome) else rows

/-- The greatest element. Used in `limitLosses` (plotting.py 255-258). -/
def maxOf : List K → Option K
  | [] => none
  | a :: l => some (l.foldl max a)

/-- The smallest element. Used in `normalizeCase` (plotting.py 218-224). -/
def minOf : List K → Option K
  | [] => none
  | a :: l => some (l.foldl min a)

/-- `clip(lower, upper)` of pandas, which orders the limits. Used in `limitLosses` (plotting.py 255-258). -/
def clip (lo hi x : K) : K := min (max x (min lo hi)) (max lo hi)

/-- The limits in `create_plots` (plotting.py 255-258) with `limit = 1e26`: `none` if no loss is below the limit (`np.max` of nothing raises). -/
def limitLosses (limit : K) (rows : List (Row O B C K)) : Option (List (Row O B C K)) :=
  (maxOf ((rows.map Row.loss).filter (· < limit))).map (fun upper => rows.map (fun r => { r with loss := clip (-limit) upper r.loss }))

/-- One turn of the loop of `normalized_losses` (plotting.py 218-224). -/
def normalizeCase (limit : K) (case : C) (rows : List (Row O B C K)) : Option (List (Row O B C K)) :=
  let losses := (rows.filter (fun r => r.setting = case)).map Row.loss
  (minOf losses).bind (fun m => (maxOf (losses.filter (· < limit))).map (fun M =>
    rows.map (fun r => if r.setting = case then { r with loss := if M ≠ m then (r.loss - m) / (M - m) else 1 } else r)))

/-- `normalized_losses` (plotting.py 212-225); `cases` is the set `df.unique(descriptors)` in any order. `none` if `max` of nothing raises. -/
def normalize (limit : K) : List C → List (Row O B C K) → Option (List (Row O B C K))
  | [], rows => some rows
  | c :: cs, rows => (normalizeCase limit c rows).bind (normalize limit cs)

/-- `median` of pandas. Used in `makeData` (plotting.py 779-832). -/
def median (l : List K) : K :=
  let s := l.insertionSort (· ≤ ·)
  if s.length % 2 = 1 then s.getD (s.length / 2) 0 else (s.getD (s.length / 2 - 1) 0 + s.getD (s.length / 2) 0) / 2

/-- The losses of a group of `groupby(["optimizer_name", "budget"])`. Used in `makeData` (plotting.py 779-832). -/
def group (rows : List (Row O B C K)) (o : O) (b : B) : List K := (rows.filter (fun r => r.opt = o ∧ r.budget = b)).map Row.loss

/-- The budgets of an optimizer, which `groupby` sorts. Used in `makeData` (plotting.py 779-832). -/
def budgets (rows : List (Row O B C K)) (o : O) : List B := (((rows.filter (fun r => r.opt = o)).map Row.budget).dedup).insertionSort (· ≤ ·)

/-- What is kept for an optimizer and a budget: the median loss and the number of runs; standard deviations are not modelled. Used in `makeData` (plotting.py 779-832). -/
structure Point (B K : Type) where
  budget : B
  loss : K
  num : Nat
deriving DecidableEq, Repr

/-- `make_data` (plotting.py 779-832) without `normalized_loss`; the names are in any order (`df.unique` is a set), here the one of the table. -/
def makeData (rows : List (Row O B C K)) : List (O × List (Point B K)) :=
  ((rows.map Row.opt).dedup).map (fun o => (o, (budgets rows o).map (fun b => ⟨b, median (group rows o b), (group rows o b).length⟩)))

/-- The dictionary of `save_txt`: `best_performance[i]` with its default, which is stored by reading (plotting.py 845). -/
abbrev Board (O B K : Type) := List (B × WithTop K × Option O)

/-- `if l < best_performance[i][0]: best_performance[i] = (l, optim)` (plotting.py 848-849). -/
def record (o : O) (b : B) (l : WithTop K) : Board O B K → Board O B K
  | [] => [(b, if l < ⊤ then (l, some o) else (⊤, none))]
  | e :: es => if e.1 = b then (if l < e.2.1 then (b, l, some o) else e) :: es else e :: record o b l es

/-- The loops of `save_txt` (plotting.py 846-849). -/
def leaderboard (data : List (O × List (B × WithTop K))) : Board O B K :=
  data.foldl (fun d p => p.2.foldl (fun d q => record p.1 q.1 q.2 d) d) []

/-- `sorted(optim_vals, key=lambda x: optim_vals[x]["loss"][-1], reverse=True)` (plotting.py 639): by decreasing last loss. Python keeps the order of equal elements. -/
def ordered (data : List (O × K)) : List (O × K) := data.insertionSort (fun a b => b.2 ≤ a.2)

/-- The curves shown (plotting.py 672-676): the first and the last 35. -/
def shown (l : List (O × K)) : List (O × K) := if 35 < l.length then l.take 1 ++ l.drop (l.length - 35) else l

/-- The test of `pure_only` (plotting.py 640-644): a name followed by a space begins a label of the fight plot. -/
def pureTest (labels : List (List Char)) (o : List Char) : Bool := labels.any (fun p => p.take (o.length + 1) == o ++ [' '])

/-- The label of an optimizer in the fight plot (plotting.py 981), `counts` being the text of the numbers. -/
def label (o counts : List Char) : List Char := o ++ [' ', '('] ++ counts ++ [')']

/-- `merge_optimizer_name_pattern` (plotting.py 177-209) with the columns of the pattern as one value `P` per line; `pattern` is none for the empty text, `strip` removes numbers at
the end of a name. -/
def mergeNames {P : Type} [DecidableEq P] (pattern : Option (O → P → O)) (removeSuffix : Bool) (strip : O → O) (rows : List (O × P)) : List O :=
  match pattern with
  | none => rows.map Prod.fst
  | some f =>
    let merged :=
      if 1 < ((rows.map Prod.snd).dedup).length then
        rows.map (fun r => if 1 < (((rows.filter (fun s => s.1 = r.1)).map Prod.snd).dedup).length then f r.1 r.2 else r.1)
      else rows.map Prod.fst
    if removeSuffix then merged.map strip else merged

end Xp
end NG
