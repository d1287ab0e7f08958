import Mathlib.Data.List.Basic

/-!
# Model of the command `python -m nevergrad.benchmark.plotting`

`main` (benchmark/plotting.py 1095-1161): its options, read by argparse, and what it passes to `merge_optimizer_name_pattern` (177-209) and `create_plots`. Options are written in full
and separated from their values by spaces; the conversion of a text to an integer and the removal of the suffix of a path are arguments. `none` is an error.
-/

namespace NG
namespace PlotCommand

/-- The options which take a value (plotting.py 1098-1144); `--pseudotime` is apart, its value may be left out. -/
inductive Opt where
  | output | combsize | competencemaps | nomanyxp | mergePattern
deriving DecidableEq

/-- The options without a value (plotting.py 1127-1136). -/
inductive Flag where
  | mergeParam | removeSuffix
deriving DecidableEq

/-- A word of the command line, as argparse sorts it (plotting.py 1145). -/
inductive Tok where
  | opt (o : Opt)
  | pseudotime
  | flag (f : Flag)
  | val (s : String)
deriving DecidableEq

/-- The result of `parse_args` (plotting.py 1145). `pseudotime` only matters through its truth. -/
structure Args where
  filepath : Option String := none
  output : Option String := none
  combsize : Int := 0
  pseudotime : Bool := false
  competencemaps : Bool := false
  nomanyxp : Bool := false
  mergeParam : Bool := false
  removeSuffix : Bool := false
  mergePattern : String := ""
deriving DecidableEq

/-- `type=bool` (plotting.py 1119-1126): python's `bool` of a text. -/
def toBool (v : String) : Bool := decide (v ≠ "")

/-- The value of an option is stored; `none` if it cannot be converted (plotting.py 1098-1144). -/
def store (toInt : String → Option Int) (a : Args) (v : String) : Opt → Option Args
  | .output => some { a with output := some v }
  | .combsize => (toInt v).map (fun n => { a with combsize := n })
  | .competencemaps => some { a with competencemaps := toBool v }
  | .nomanyxp => some { a with nomanyxp := toBool v }
  | .mergePattern => some { a with mergePattern := v }

/-- `action="store_true"` (plotting.py 1127-1136). -/
def setFlag (a : Args) : Flag → Args
  | .mergeParam => { a with mergeParam := true }
  | .removeSuffix => { a with removeSuffix := true }

/-- `parse_args` (plotting.py 1145) from the result so far. An option with `nargs="?"` (1114-1118) takes the next word if it is not an option. -/
def parse (toInt : String → Option Int) : List Tok → Args → Option Args
  | [], a => if a.filepath.isSome then some a else none
  | .val f :: r, a => if a.filepath.isSome then none else parse toInt r { a with filepath := some f }
  | .flag f :: r, a => parse toInt r (setFlag a f)
  | .pseudotime :: .val v :: r, a => parse toInt r { a with pseudotime := toBool v }
  | .pseudotime :: r, a => parse toInt r { a with pseudotime := true }
  | .opt o :: .val v :: r, a =>
    match store toInt a v o with
    | none => none
    | some a' => parse toInt r a'
  | .opt _ :: _, _ => none

/-- What the command does: the file read, the pattern used to merge names (empty for none), whether numbers at the end of names are removed, and the arguments of `create_plots`
(plotting.py 1146-1161). -/
structure Call where
  filepath : String
  pattern : String
  stripped : Bool
  outputFolder : String
  maxCombsize : Int
  pseudotime : Bool
  competencemaps : Bool
  nomanyxp : Bool
deriving DecidableEq

/-- `_PARAM_MERGE_PATTERN` (plotting.py 174). -/
def paramPattern : String := "{optimizer_name},{parametrization}"

/-- The part of `main` after `parse_args` (plotting.py 1146-1161), with the tests at the start of `merge_optimizer_name_pattern` (183-191). -/
def call (noSuffix : String → String) (a : Args) : Option Call :=
  match a.filepath with
  | none => none
  | some f =>
    if a.mergeParam = true ∧ a.mergePattern ≠ "" then none
    else
      let pattern := if a.mergeParam = true then paramPattern else a.mergePattern
      some
        { filepath := f
          pattern := pattern
          stripped := decide (pattern ≠ "") && a.removeSuffix
          outputFolder := match a.output with
            | none => noSuffix f ++ "_plots"
            | some o => o
          maxCombsize := if a.competencemaps = true then 2 else a.combsize
          pseudotime := a.pseudotime
          competencemaps := a.competencemaps
          nomanyxp := a.nomanyxp }

/-- The command (plotting.py 1095-1161). -/
def main (toInt : String → Option Int) (noSuffix : String → String) (l : List Tok) : Option Call := (parse toInt l {}).bind (call noSuffix)

end PlotCommand
end NG
