import Verif.Model.ParamLog

/-!
# Model of the export of logs to HiPlot

`ParametersLogger.to_hiplot_experiment` (optimization/callbacks.py 210-258): one point for each line of the log. HiPlot itself is not modelled, nor the settings of its display other than
the two axes.
-/

namespace NG
namespace Hiplot

open Tools ParamLog

/-- `hip.Datapoint` (callbacks.py 245-251). -/
structure Point where
  fromUid : Option Leaf
  uid : Leaf
  values : List (Key × Leaf)
deriving DecidableEq

/-- `text in key` (callbacks.py 249). -/
def contains (text : Key) : Key → Bool
  | [] => text.isEmpty
  | c :: k => text.isPrefixOf (c :: k) || contains text k

/-- The keys left out (callbacks.py 249). -/
def hidden (k : Key) : Bool := "#".toList.isPrefixOf k && (contains "uid".toList k || contains "ask".toList k)

/-- One point (callbacks.py 245-251); `none` is the `KeyError` of a line without uid. -/
def point (xp : List (Key × Leaf)) : Option Point :=
  (dictGet xp "#uid".toList).map (fun u =>
    { fromUid := dictGet xp "#parents_uids#0".toList
      uid := u
      values := xp.filter (fun e => !hidden e.1) })

/-- The default of `max_list_elements` (callbacks.py 211). -/
def defaultMax : Nat := 24

/-- The axes of the display (callbacks.py 255). -/
def axes : Key × Key := ("#num-tell".toList, "#loss".toList)

/-- The points of `to_hiplot_experiment` (callbacks.py 243-253). -/
def experiment (max : Nat) (listKeys : Line → List Key) (file : Option (List Line)) : Option (List Point) :=
  (loadFlattened max listKeys file).bind (fun l => l.mapM point)

end Hiplot
end NG
