import Verif.Model.Pareto

/-!
# NSGA-II ranking (nevergrad/optimization/multiobjective/nsga2.py)

Candidates are given by their position in the population (`uid`s are distinct, so the detour through
`uid2candidate` of lines 153-159 and 195 is the identity).
-/

namespace NG
namespace Nsga
variable {α : Type} [LinearOrder α] {d : Nat}

/-- Number of objectives in which the first is strictly better (nsga2.py 126-127). -/
def wins (a b : Fin d → α) : Nat := (Finset.univ.filter (fun i => a i < b i)).card

/-- `compare` (nsga2.py 120-132). -/
def compare (a b : Fin d → α) : Int :=
  if wins b a < wins a b then -1 else if wins a b < wins b a then 1 else 0

/-- The two tables filled by the double loop of lines 155-168. -/
structure Tables where
  dominated : Nat → List Nat
  count : Nat → Int

/-- Body of the inner loop, lines 159-168. -/
def cmpStep (cmp : Nat → Nat → Int) (t : Tables) (pair : Nat × Nat) : Tables :=
  let c1 := pair.1
  let c2 := pair.2
  let r := cmp c1 c2
  if r = -1 then
    { dominated := fun i => if i = c1 then t.dominated c1 ++ [c2] else t.dominated i
      count := fun i => if i = c2 then t.count c2 + 1 else t.count i }
  else if r = 1 then
    { dominated := fun i => if i = c2 then t.dominated c2 ++ [c1] else t.dominated i
      count := fun i => if i = c1 then t.count c1 + 1 else t.count i }
  else t

/-- Pairs visited by lines 155-157: `c1 in range(n - 1)`, `c2 in range(c1 + 1, n)`. -/
def pairs (n : Nat) : List (Nat × Nat) :=
  (List.range (n - 1)).flatMap (fun c1 => (List.range' (c1 + 1) (n - (c1 + 1))).map (fun c2 => (c1, c2)))

/-- Lines 143-168. -/
def tables (cmp : Nat → Nat → Int) (n : Nat) : Tables :=
  (pairs n).foldl (cmpStep cmp) ⟨fun _ => [], fun _ => 0⟩

/-- Lines 183-185 for one dominated candidate. -/
def peelOne (s : (Nat → Int) × List Nat) (c2 : Nat) : (Nat → Int) × List Nat :=
  let v := s.1 c2 - 1
  (fun i => if i = c2 then v else s.1 i, if v = 0 then s.2 ++ [c2] else s.2)

/-- Lines 181-185: the next front. -/
def peel (dominated : Nat → List Nat) (count : Nat → Int) (front : List Nat) : (Nat → Int) × List Nat :=
  front.foldl (fun s c1 => (dominated c1).foldl peelOne s) (count, [])

/-- The while loop of lines 177-185. `fuel` is the number of entries of `front` (nsga2.py 151): python would raise
IndexError if it were exhausted, see `fronts_fuel`. -/
def loop (dominated : Nat → List Nat) : Nat → (Nat → Int) → List Nat → List (List Nat)
  | 0, _, _ => []
  | fuel + 1, count, front =>
    if front.isEmpty then []
    else
      let r := peel dominated count front
      front :: loop dominated fuel r.1 r.2

/-- Lines 175-185: all non-empty fronts. -/
def fronts (cmp : Nat → Nat → Int) (n : Nat) : List (List Nat) :=
  let t := tables cmp n
  loop t.dominated (n + 1) t.count ((List.range n).filter (fun c => t.count c = 0))

/-- Lines 189-199: the fronts needed to cover `k` candidates. -/
def trim (k : Option Nat) : Nat → List (List Nat) → List (List Nat)
  | _, [] => []
  | count, f :: fs =>
    let count := count + f.length
    match k with
    | some k => if k ≤ count then [f] else f :: trim (some k) count fs
    | none => f :: trim none count fs

/-- `compute_ranking` (nsga2.py 135-199). -/
def computeRanking (losses : Nat → Fin d → α) (n : Nat) (k : Option Nat) : List (List Nat) :=
  trim k 0 (fronts (fun a b => compare (losses a) (losses b)) n)

/-! ### Crowding distance -/

variable [Field α]

/-- Crowding distances; `⊤` is `float("inf")`. Used in `accInner` (nsga2.py 39-50). -/
abbrev Dist (α : Type) := WithTop α

/-- Stable sort by a key, `sorted(front, key=...)`. Used in `accObjective` (nsga2.py 18-78). -/
def sortKey {β : Type} [LinearOrder β] (key : Nat → β) (l : List Nat) : List Nat := l.insertionSort (fun a b => key a ≤ key b)

/-- Lines 39-50: inner points of the sorted front, from the second one; `first`, `last` are the extreme losses. -/
def accInner (key : Nat → α) (lo hi : α) (dist : Nat → Dist α) : List Nat → Nat → Dist α
  | a :: b :: c :: l =>
    let diff := key c - key a
    let v := if hi - lo = 0 then diff else diff / (hi - lo)
    accInner key lo hi (fun i => if i = b then dist b + (v : Dist α) else dist i) (b :: c :: l)
  | _ => dist

/-- `accumulate_distance_per_objective` (nsga2.py 18-78); both branches do the same on their key. -/
def accObjective (key : Nat → α) (front : List Nat) (dist : Nat → Dist α) : Nat → Dist α :=
  let s := sortKey key front
  match s.head?, s.getLast? with
  | some f, some l =>
    let dist := fun i => if i = f ∨ i = l then ⊤ else dist i
    accInner key (key f) (key l) dist s
  | _, _ => dist

/-- `compute_distance` (nsga2.py 80-107). -/
def crowding (losses : Nat → Fin d → α) (front : List Nat) (dist : Nat → Dist α) : Nat → Dist α :=
  if front.length = 0 then dist
  else if front.length ≤ 2 then fun i => if i ∈ front then ⊤ else dist i
  else (List.finRange d).foldl (fun dist i => accObjective (fun c => losses c i) front dist)
    (fun i => if i ∈ front then 0 else dist i)

/-- `sort` (nsga2.py 109-114): in place, largest first; python's `reverse=True` keeps the original order of ties. -/
def sortDesc (dist : Nat → Dist α) (l : List Nat) : List Nat := l.insertionSort (fun a b => dist b ≤ dist a)

/-- An entry of the result of `rank`: uid, (rank, front index, crowding distance). Used in `rankLoop` (nsga2.py 212-230). -/
structure Entry (α : Type) where
  cand : Nat
  rank : Nat
  front : Nat
  dist : Dist α

/-- The loop of `rank` (nsga2.py 212-230) from front number `fi`. The dictionary is the list of its entries in insertion
order; `dist0` are the crowding distances stored by earlier uses. -/
def rankLoop (losses : Nat → Fin d → α) (sel : Option Nat) : List (List Nat) → Nat → Nat → Nat → (Nat → Dist α) →
    List (Entry α) → List (Entry α)
  | [], _, _, _, _, out => out
  | f :: fs, fi, count, next, dist, out =>
    let count := count + f.length
    match sel with
    | none =>
      let dist := crowding losses f dist
      let s := sortDesc dist f
      let new := s.zipIdx.map (fun e => ⟨e.1, next + e.2, fi, dist e.1⟩)
      rankLoop losses none fs (fi + 1) count (next + f.length) dist (out ++ new)
    | some n =>
      if n < count then
        let dist := crowding losses f dist
        let s := (sortDesc dist f).take (n - out.length)
        out ++ s.zipIdx.map (fun e => ⟨e.1, next + e.2, fi, dist e.1⟩)
      else
        rankLoop losses (some n) fs (fi + 1) count (next + 1) dist (out ++ f.map (fun c => ⟨c, next, fi, ⊤⟩))

/-- `rank` (nsga2.py 202-231). -/
def rank (losses : Nat → Fin d → α) (n : Nat) (sel : Option Nat) : List (Entry α) :=
  rankLoop losses sel (computeRanking losses n none) 0 0 0 (fun _ => 0) []

end Nsga
end NG
