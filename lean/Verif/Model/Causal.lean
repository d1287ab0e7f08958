/-
The search for causal graphs of `nevergrad/functions/causaldiscovery/core.py`: the graph of a choice of links (lines 78, 92-107) and the objective (lines 82-90).

Simplifications. A graph is the list of its nodes and the list of its edges, without repetition, in the order of the insertions; the scores of the `cdt` library are an
argument. The counter `k` goes through the links together with the pairs, which is written as a recursion on the two lists. An `IndexError` is `none`.
-/
import Mathlib.Data.List.Basic

namespace NG.Causal

/-- A directed graph of `networkx`. Used in `addLinks` (core.py 102-106). -/
structure Graph (α : Type) where
  nodes : List α
  edges : List (α × α)

section
variable {α : Type} [DecidableEq α]

/-- `add_node`: nothing if it is there. Used in `addMissing` (core.py 92-95). -/
def Graph.addNode (g : Graph α) (n : α) : Graph α := if n ∈ g.nodes then g else ⟨g.nodes ++ [n], g.edges⟩

/-- `add_edge`: also adds the nodes. Used in `addLinks` (core.py 102-106). -/
def Graph.addEdge (g : Graph α) (u v : α) : Graph α :=
  let h := (g.addNode u).addNode v
  if (u, v) ∈ h.edges then h else ⟨h.nodes, h.edges ++ [(u, v)]⟩

/-- The pairs of the two loops (core.py 100-101). -/
def pairs (nvars : Nat) : List (Nat × Nat) := (List.range' 1 (nvars - 1)).flatMap fun i => (List.range' (i + 1) (nvars - (i + 1))).map fun j => (i, j)

/-- The body of the loops (core.py 102-106). -/
def addLinks (names : List α) : List (Nat × Nat) → List Int → Graph α → Option (Graph α)
  | [], _, g => some g
  | _ :: _, [], _ => none
  | (i, j) :: ps, l :: ls, g =>
    if l = -1 then do addLinks names ps ls (g.addEdge (← names[j]?) (← names[i]?))
    else if l = 1 then do addLinks names ps ls (g.addEdge (← names[i]?) (← names[j]?))
    else addLinks names ps ls g

/-- `add_missing_nodes` (core.py 92-95); the order of the added nodes is that of the list. -/
def addMissing (names : List α) (g : Graph α) : Graph α := (names.filter fun n => decide (n ∉ g.nodes)).foldl Graph.addNode g

/-- `choices_to_graph` (core.py 97-107). -/
def toGraph (names : List α) (nvars : Nat) (links : List Int) : Option (Graph α) := (addLinks names (pairs nvars) links ⟨[], []⟩).map (addMissing names)

/-- The number of choices (core.py 78). -/
def choices (nvars : Nat) : Nat := nvars * (nvars - 1) / 2

/-- `objective` (core.py 82-90); `precision` and `shd` are the two scores for the ground truth. -/
def objective {R : Type} [Neg R] [Sub R] (precision shd : Graph α → R) (names : List α) (nvars : Nat) (links : List Int) : Option R :=
  (toGraph names nvars links).map fun g => -(precision g - shd g)

end

end NG.Causal
