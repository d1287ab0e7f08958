import Verif.Model.ExtBo
import Mathlib.Data.Rat.Floor

/-!
# Model of the wrapper of hyperopt

optimization/externalbo.py 17-199. hyperopt is a parameter: an expression `uniform`, `loguniform`, `randint`, `lognormal` or `choice` has the
values its documentation says, and a search space with twice the same label is refused (`DuplicateLabel`). Values are rational numbers,
tuples, and values of instrumentations; constants other than numbers are not modelled.
-/

namespace NG
namespace HyperOpt

/-- Labels. Used in `instLabel` (externalbo.py 50-57). -/
abbrev Name := List Char

/-- Values of parameters: numbers, tuples (choices with repetitions), and pairs of positional and named values of an instrumentation. Used in `entry` (externalbo.py 32-36). -/
inductive V where
  | num (q : ℚ)
  | tuple (vs : List V)
  | inst (nargs : Nat) (names : List Name) (vs : List V)

mutual
/-- Python's `==` of values. Used in `toDictChoice` (externalbo.py 29-36). -/
def V.beq : V → V → Bool
  | .num a, .num b => decide (a = b)
  | .tuple a, .tuple b => beqs a b
  | .inst n l a, .inst m k b => decide (n = m) && decide (l = k) && beqs a b
  | _, _ => false
/-- Python's `==` of lists of values. Used in `V.beq` (externalbo.py 29-36). -/
def beqs : List V → List V → Bool
  | [], [] => true
  | a :: l, b :: m => a.beq b && beqs l m
  | _, _ => false
end

/-- Parameters with their current values: scalars (or `Log`) with bounds, constants, choices (`reps`: with `repetitions=1`) with the chosen index,
instrumentations (the `nargs` first children are positional, the others have names), and other classes (arrays, `Dict`...). Used in `cls` (externalbo.py 76-80). -/
inductive P where
  | scalar (log integer : Bool) (lo hi : Option ℚ) (cur : ℚ)
  | const (v : ℚ)
  | choice (reps : Bool) (cur : Nat) (cs : List P)
  | inst (nargs : Nat) (names : List Name) (cs : List P)
  | other (ty : Nat)

mutual
/-- `.value`. Used in `entry` (externalbo.py 32-36). -/
def value : P → V
  | .scalar _ _ _ _ cur => .num cur
  | .const v => .num v
  | .choice false cur cs => (values cs).getD cur (.num 0)
  | .choice true cur cs => .tuple [(values cs).getD cur (.num 0)]
  | .inst n names cs => .inst n names (values cs)
  | .other _ => .tuple []
/-- The values of several parameters. Used in `toDict` (externalbo.py 17-37). -/
def values : List P → List V
  | [] => []
  | p :: l => value p :: values l
end

/-- Search spaces of hyperopt; `dict` is `{"args": ..., "kwargs": ...}`. Used in `space` (externalbo.py 47-96). -/
inductive Sp where
  | uniform (label : Name) (lo hi : ℚ)
  | loguniform (label : Name) (lo hi : ℚ)
  | randint (label : Name) (lo hi : ℤ)
  | choice (label : Name) (cs : List Sp)
  | const (v : ℚ)
  | dict (nargs : Nat) (names : List Name) (cs : List Sp)

/-- Errors: `NotImplementedError` (caught), `TypeError` and `ValueError`, `DuplicateLabel`, `AssertionError`. Used in `space` (externalbo.py 47-96). -/
inductive Err where
  | notImplemented | type | value | duplicate | assertion
deriving DecidableEq, Repr

/-- The label of the `i`-th child of an instrumentation: `str(idx_param)` or the name (50-57). -/
def instLabel (nargs : Nat) (names : List Name) (i : Nat) : Name :=
  if i < nargs then ExtBo.str i else names.getD (i - nargs) []

/-- The label of the `i`-th choice: `param_name + "__" + str(i)` (87). -/
def choiceLabel (name : Name) (i : Nat) : Name := name ++ '_' :: '_' :: ExtBo.str i

/-- `int(...)` of a number. Used in `space` (externalbo.py 47-96). -/
def trunc (q : ℚ) : ℤ := if 0 ≤ q then ⌊q⌋ else ⌈q⌉

/-- The class of a choice, `none` for instrumentations and constants (76-80). -/
def cls : P → Option Nat
  | .scalar true _ _ _ _ => some 0
  | .scalar false _ _ _ _ => some 1
  | .choice _ _ _ => some 2
  | .other ty => some (3 + ty)
  | .const _ => none
  | .inst _ _ _ => none

mutual
/-- `_get_search_space` (47-96). The bounds of a scalar which is not bounded are `None`, so that `param.bounds[0][0]` is a `TypeError` (61): the
branch for `lognormal` (62-63) is never used. -/
def space (name : Name) : P → Except Err Sp
  | .inst n names cs =>
    match spaces (instLabel n names) 0 cs with
    | .error e => .error e
    | .ok l => .ok (.dict n names l)
  | .scalar log integer lo hi _ =>
    match lo, hi with
    | some l, some h =>
      if log then .ok (.loguniform name l h)
      else if integer then .ok (.randint name (trunc l) (trunc h))
      else .ok (.uniform name l h)
    | _, _ => .error .type
  | .choice _ _ cs =>
    if (cs.filterMap cls).Nodup then
      match spaces (choiceLabel name) 0 cs with
      | .error e => .error e
      | .ok l => .ok (.choice name l)
    else .error .notImplemented
  | .const v => .ok (.const v)
  | .other _ => .error .notImplemented
/-- The spaces of the children, in order. Used in `space` (externalbo.py 47-96). -/
def spaces (label : Nat → Name) (i : Nat) : List P → Except Err (List Sp)
  | [] => .ok []
  | p :: l =>
    match space (label i) p with
    | .error e => .error e
    | .ok s => match spaces label (i + 1) l with
      | .error e => .error e
      | .ok ss => .ok (s :: ss)
end

mutual
/-- The labels of a search space. Used in `construct` (externalbo.py 113-125). -/
def labels : Sp → List Name
  | .uniform n _ _ => [n]
  | .loguniform n _ _ => [n]
  | .randint n _ _ => [n]
  | .choice n cs => n :: labelss cs
  | .const _ => []
  | .dict _ _ cs => labelss cs
/-- The labels of several search spaces. Used in `labels` (externalbo.py 113-125). -/
def labelss : List Sp → List Name
  | [] => []
  | s :: l => labels s ++ labelss l
end

/-- How points are proposed: with a search space of hyperopt, or with one uniform variable per coordinate of the standardized data. Used in `construct` (externalbo.py 113-125). -/
inductive Mode where
  | native (s : Sp)
  | array

/-- `_HyperOpt.__init__` (113-125). -/
def construct (p : P) : Except Err Mode :=
  match p with
  | .inst _ _ _ =>
    match space [] p with
    | .error .notImplemented => .ok .array
    | .error e => .error e
    | .ok s => if (labels s).Nodup then .ok (.native s) else .error .duplicate
  | _ => .ok .array

/-! ## Evaluations which were not asked -/

/-- Dictionaries: the last entry of a label counts. Built on `V` (externalbo.py 32-36). -/
def get (d : List (Name × V)) (l : Name) : Option V := d.foldl (fun acc e => if e.1 = l then some e.2 else acc) none

/-- What is recorded for the chosen choice `c` apart from its index (32-36): `sub` is `_hp_parametrization_to_dict(c)`. -/
def entry (name : Name) (i : Nat) (c : P) (sub : Option (List (Name × V))) : Option (List (Name × V)) :=
  match c with
  | .scalar _ _ _ _ _ => some [(choiceLabel name i, value c)]
  | .choice _ _ _ => some [(choiceLabel name i, value c)]
  | .inst _ _ _ => sub
  | .const _ => some []
  | .other _ => some []

mutual
/-- `_hp_parametrization_to_dict` (17-37); `none`: the function returns `None`, and `update` then raises a `TypeError`. -/
def toDict (name : Name) : P → Option (List (Name × V))
  | .inst n names cs => toDictInst (instLabel n names) 0 cs
  | .scalar _ _ _ _ cur => some [(name, .num cur)]
  | .choice false cur cs => toDictChoice name ((values cs).getD cur (.num 0)) 0 cs
  | .choice true cur cs => toDictChoice name (.tuple [(values cs).getD cur (.num 0)]) 0 cs
  | .const _ => none
  | .other _ => none
/-- The loop over the children of an instrumentation (20-23). -/
def toDictInst (label : Nat → Name) (i : Nat) : List P → Option (List (Name × V))
  | [] => some []
  | p :: l =>
    match toDict (label i) p, toDictInst label (i + 1) l with
    | some d, some ds => some (d ++ ds)
    | _, _ => none
/-- The loop over the choices (29-36): every choice with the value `x` is recorded. -/
def toDictChoice (name : Name) (x : V) (i : Nat) : List P → Option (List (Name × V))
  | [] => some []
  | c :: l =>
    if x.beq (value c) then
      match entry name i c (toDict [] c), toDictChoice name x (i + 1) l with
      | some d, some ds => some ((name, .num i) :: d ++ ds)
      | _, _ => none
    else toDictChoice name x (i + 1) l
end

mutual
/-- `hyperopt.space_eval` of recorded values, followed by `_hp_dict_to_parametrization` (40-45); `none` when a value is missing or is not an
index. -/
def eval (a : Name → Option V) : Sp → Option V
  | .uniform n _ _ => a n
  | .loguniform n _ _ => a n
  | .randint n _ _ => a n
  | .const v => some (.num v)
  | .choice n cs =>
    match a n with
    | some (.num q) => if q.den = 1 ∧ 0 ≤ q then (evals a cs).getD q.num.toNat none else none
    | _ => none
  | .dict n names cs => ((evals a cs).mapM id).map (fun vs => .inst n names vs)
/-- The values of several search spaces. Used in `eval` (externalbo.py 40-45). -/
def evals (a : Name → Option V) : List Sp → List (Option V)
  | [] => []
  | s :: l => eval a s :: evals a l
end

/-! ## Trials -/

/-- What happens: a candidate is asked, an asked candidate (of this trial) is told, or another candidate is told. Used in `step` (externalbo.py 134-165). -/
inductive Op (L : Type) where
  | ask
  | tell (id : Nat) (loss : L)
  | other (loss : L)

/-- The results of the trials (`none`: new), after `_internal_ask_candidate` (134-165), `_internal_tell_candidate` (167-179) or
`_internal_tell_not_asked` (181-199); numbers of trials are positions. -/
def step {L : Type} (t : List (Option L)) : Op L → Except Err (List (Option L))
  | .ask => .ok (t ++ [none])
  | .tell id loss =>
    match t[id]? with
    | some none => .ok (t.set id (some loss))
    | _ => .error .assertion
  | .other loss => .ok (t ++ [some loss])

end HyperOpt
end NG
