import Mathlib.Algebra.Order.Field.Basic
import Mathlib.Data.List.Dedup
import Mathlib.Data.List.Sort

/-!
# Model of the comparison of optimizers in fight plots

`_make_winners_df`, `aggregate_winners`, `_make_sorted_winrates_df`, `FightPlotter.winrates_from_selection` and `normalized_losses` (`benchmark/plotting.py`). `O` are the names of
optimizers, `D` the names of columns (descriptors) and `C` their values. Losses are finite numbers of a field: `create_plots` removes NaN and clips infinite losses beforehand.
-/

namespace NG
namespace Fight

variable {O D C K : Type} [DecidableEq O] [DecidableEq C] [Field K] [LinearOrder K]

/-- One line of the table of results. Used in `meanLoss` (plotting.py 77). -/
structure Row (O D C K : Type) where
  opt : O
  cat : D → C
  loss : K

/-- `groupby(["optimizer_name"]).mean()` (plotting.py 77): none for optimizers without lines. -/
def meanLoss (rows : List (Row O D C K)) (o : O) : Option K :=
  let l := (rows.filter (fun r => r.opt = o)).map Row.loss
  if l = [] then none else some (l.sum / l.length)

/-- `_make_winners_df` (plotting.py 66-82): 1 for a smaller mean loss, 1/2 for ties, 0 otherwise and for optimizers without lines. -/
def winners (rows : List (Row O D C K)) (i j : O) : K :=
  match meanLoss rows i, meanLoss rows j with
  | some a, some b => (if a - b < 0 then 1 else 0) + 1 / 2 * (if a - b = 0 then 1 else 0)
  | _, _ => 0

/-- `aggregate_winners` (plotting.py 85-117), for a table which is not empty (otherwise `zip(*())` raises, if there are categories). -/
def aggregate : List D → List (Row O D C K) → (O → O → K) × Nat
  | [], rows => (winners rows, 1)
  | c :: cats, rows =>
    let subcases := (rows.map (fun r => r.cat c)).dedup
    if subcases.length = 1 then aggregate cats rows
    else
      let parts := subcases.map (fun v => aggregate cats (rows.filter (fun r => r.cat c = v)))
      (fun i j => (parts.map (fun p => p.1 i j)).sum, (parts.map Prod.snd).sum)

/-- `(victories + victories.T).max(axis=1)` (plotting.py 127) in the row `j`. -/
def rowMax (all : List O) (v : O → O → K) (j : O) : K :=
  match all with
  | [] => 0
  | k :: ks => ks.foldl (fun m k => max m (v j k + v k j)) (v j k + v k j)

/-- `winrates` (plotting.py 127): the division of a table by a series aligns the series with the columns. -/
def winrate (all : List O) (v : O → O → K) (i j : O) : K := v i j / rowMax all v j

/-- `winrates.mean(axis=1)` (plotting.py 129). -/
def meanWin (all : List O) (v : O → O → K) (i : O) : K := (all.map (winrate all v i)).sum / all.length

/-- `_make_sorted_winrates_df` (plotting.py 120-131): the order of the names. The order of ties is not specified by pandas, the one of the input here. -/
def ranking (all : List O) (v : O → O → K) : List O := all.insertionSort (fun i j => meanWin all v j ≤ meanWin all v i)

/-- The maximum of a list which is not empty. Used in `complete` (plotting.py 963-968). -/
def maxOf : List K → K
  | [] => 0
  | a :: l => l.foldl max a

/-- `complete_runs_only` (plotting.py 963-968): the names kept; twice the number of self-victories is the number of cases. -/
def complete (all : List O) (v : O → O → K) : List O :=
  all.filter (fun n => 2 * v n n = maxOf (all.map (fun n => 2 * v n n)))

/-- `winrates_from_selection` (plotting.py 938-992): the names in their order, the rates, the number of cases of each name and in total. -/
structure Plot (O K : Type) where
  names : List O
  rate : O → O → K
  num : O → K
  total : Nat

/-- `all_optimizers = list(df.unique("optimizer_name"))`. Used in `plot` (plotting.py 938-992). -/
def optimizers (rows : List (Row O D C K)) : List O := (rows.map Row.opt).dedup

/-- `winrates_from_selection` (plotting.py 938-992). -/
def plot (cats : List D) (completeOnly : Bool) (rows : List (Row O D C K)) : Plot O K :=
  let all := optimizers rows
  let agg := aggregate cats rows
  if completeOnly then
    let kept := complete all agg.1
    if 0 < kept.length then
      let agg' := aggregate cats (rows.filter (fun r => r.opt ∈ kept))
      ⟨ranking kept agg'.1, winrate kept agg'.1, fun n => 2 * agg'.1 n n, agg'.2⟩
    else ⟨ranking all agg.1, winrate all agg.1, fun n => 2 * agg.1 n n, agg.2⟩
  else ⟨ranking all agg.1, winrate all agg.1, fun n => 2 * agg.1 n n, agg.2⟩

end Fight
end NG
