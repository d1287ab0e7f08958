import Verif.Model.Archive

/-!
# Model of the comparison-based tell

`addCompare` (nevergrad/optimization/base.py 749-770), for a single-objective unconstrained optimizer. The effect of `tell` on the
algorithm itself and the counters are left out here (see `Model/Optimizer.lean`).
-/

namespace NG
namespace ArchiveSt
variable {α : Type} [Field α] [LinearOrder α] {U K : Type} [DecidableEq K] [DecidableEq U]

/-- `self.archive[data] = MultiValue(...)` (766-768; optimization/utils.py 195-196): a new object, at the place of the former one
if there is one. -/
def setEntry (s : ArchiveSt α U K) (k : K) (v : MV α U) : ArchiveSt α U K :=
  { s with
    heap := fun j => if j = s.next then v else s.heap j
    next := s.next + 1
    archive := match s.lookup k with
      | none => s.archive ++ [(k, s.next)]
      | some _ => s.archive.map (fun e => if e.1 = k then (k, s.next) else e) }

/-- The best value among the losers known to the archive, at most 0 (756-760). -/
def bestLoser (cfg : ArchiveCfg α U K) (s : ArchiveSt α U K) (losers : List U) : α :=
  losers.foldl (fun b u => match s.lookup (cfg.key u) with
    | none => b
    | some i => min b (s.heap i).mean) 0

/-- The loop on the winners (763-768), `i` being the rank of the first of them, `n` the number of winners. -/
def tellWinners (cfg : ArchiveCfg α U K) (best : α) (n : Nat) : Nat → List U → ArchiveSt α U K → ArchiveSt α U K
  | _, [], s => s
  | i, u :: us, s =>
    let v : α := best - n + i
    tellWinners cfg best n (i + 1) us ((s.tell cfg u v).setEntry (cfg.key u) (MV.init u v))

/-- `compare` (750-768). -/
def compare (cfg : ArchiveCfg α U K) (s : ArchiveSt α U K) (winners losers : List U) : ArchiveSt α U K :=
  tellWinners cfg (s.bestLoser cfg losers) winners.length 0 winners s

end ArchiveSt
end NG
