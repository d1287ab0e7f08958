/-
Models of Pyomo as functions to optimize (`nevergrad/functions/pyomo/core.py`).

Simplifications. Numbers are real; `np.nextafter` is a parameter. A model of Pyomo is given by its variables, the value of its objective for an assignment of the variables, and the truth of its
constraints. The names of the components are identifiers. In the code that is compiled for the assignments only the literals are read (escapes other than `\\`, `\'`, `\"` and `\n` are kept as
they are), and the representation of characters that are not printable is not modelled. Nested choices and the parameters (`pyomo.Param`) have no effect and are left out.
-/
import Verif.Model.Bounds
import Verif.Model.Tools

namespace NG.Pyomo

/-! ### Domains of the variables -/

/-- A `NumericRange` of Pyomo, as it is read in core.py 31-42; `numeric` is the test of line 32. -/
structure Rng where
  start : Option ℝ
  stop : Option ℝ
  step : ℤ
  closed : Bool × Bool
  numeric : Bool

/-- The domain of a variable (core.py 70-78): a `RangeSet` with its ranges (`finite` for `FiniteSimpleRangeSet`), a finite `Set`, or anything else. -/
inductive Domain (ν : Type)
  | ranges (rs : List Rng) (finite : Bool)
  | set (elements : List ν)
  | other

/-- A variable: its domain, its own bounds (`Var(bounds=...)`), and whether it is fixed. Used in `Var.par` (core.py 55-82). -/
structure Var (ν : Type) where
  domain : Domain ν
  lb : Option ℝ
  ub : Option ℝ
  fixed : Bool

/-- Exceptions: `NotImplementedError`, or an error of the parametrization. Used in `fromRanges` (core.py 23-52). -/
inductive Err
  | notImplemented
  | value
deriving DecidableEq

/-- The options of a choice: elements of a set, or `range` objects (core.py 46-48). -/
inductive Opt (ν : Type)
  | element (v : ν)
  | range (r : Rng)

/-- The parameters that are made: a scalar, maybe cast to integers, or a choice. Used in `fromRanges` (core.py 23-52). -/
inductive Par (ν : Type)
  | scalar (p : Bnd.P) (int : Bool)
  | choice (options : List (Opt ν))

/-- The bounds given to the scalar (core.py 33-39). -/
noncomputable def ends (nx : ℝ → ℝ → ℝ) (r : Rng) : Option ℝ × Option ℝ :=
  let (lb, ub) := if r.step < 0 then (r.stop, r.start) else (r.start, r.stop)
  (if r.closed.1 then lb else lb.map fun x => nx x 1, if r.closed.2 then ub else ub.map fun x => nx x (-1))

/-- `_make_pyomo_range_set_to_parametrization` (core.py 23-52). -/
noncomputable def fromRanges {ν : Type} (nx : ℝ → ℝ → ℝ) (rs : List Rng) (finite : Bool) : Except Err (Par ν) :=
  let many : Except Err (Par ν) := if finite then .ok (.choice (rs.map .range)) else .error .notImplemented
  match rs with
  | [r] =>
    if r.step = -1 ∨ r.step = 0 ∨ r.step = 1 then
      if r.numeric then
        match Bnd.scalar none (ends nx r).1 (ends nx r).2 with
        | (p, none) => .ok (.scalar p (decide (r.step ≠ 0)))
        | (_, some _) => .error .value
      else .error .notImplemented
    else many
  | _ => many

/-- `_make_pyomo_variable_to_parametrization` (core.py 55-82) for one variable. -/
noncomputable def Var.par {ν : Type} (nx : ℝ → ℝ → ℝ) (v : Var ν) : Except Err (Par ν) :=
  if v.fixed then .error .notImplemented
  else
    match v.domain with
    | .ranges rs finite => fromRanges nx rs finite
    | .set elements => .ok (.choice (elements.map .element))
    | .other => .error .notImplemented

/-- What a candidate gives to the variable. Used in `Par.value` (core.py 23-52). -/
inductive Val (ν : Type)
  | num (x : ℝ)
  | opt (o : Opt ν)

/-- The value of a parameter whose internal value was changed to `root` by an optimizer, and whose choice is `i`. Used in `fromRanges` (core.py 23-52). -/
noncomputable def Par.value {ν : Type} (root : ℝ) (i : Nat) : Par ν → Option (Val ν)
  | .scalar p false =>
    match ({ p with root := some root } : Bnd.P).read with
    | some (some v, _) => some (.num v)
    | _ => none
  | .scalar p true => (Bnd.castInt { p with root := some root }).map fun (n : ℤ) => .num (n : ℝ)
  | .choice options => options[i]?.map .opt

/-! ### Names and the code of the assignments -/

/-- The keys of an indexed variable. Used in `ngName` (core.py 16-20). -/
inductive Atom
  | int (n : ℤ)
  | str (s : List Char)

/-- The key of a variable. Used in `ngName` (core.py 16-20). -/
inductive Key
  | none
  | one (a : Atom)
  | tuple (as : List Atom)

/-- `str` of an integer. Used in `ngName` (core.py 16-20). -/
def intStr (n : ℤ) : List Char := (if n < 0 then ['-'] else []) ++ Tools.decimal n.natAbs

/-- `repr` of a string. Used in `Atom.repr` (core.py 16-20). -/
def reprStr (s : List Char) : List Char :=
  if '\'' ∈ s ∧ '"' ∉ s then ['"'] ++ s.flatMap (fun c => if c = '\\' then ['\\', '\\'] else [c]) ++ ['"']
  else ['\''] ++ s.flatMap (fun c => if c = '\\' ∨ c = '\'' then ['\\', c] else [c]) ++ ['\'']

/-- `repr` of an entry of a tuple. Used in `ngName` (core.py 16-20). -/
def Atom.repr : Atom → List Char
  | .int n => intStr n
  | .str s => reprStr s

/-- `_convert_to_ng_name` (core.py 16-20). -/
def ngName : Key → List Char
  | .none => "None".toList
  | .one (.str s) => ['"'] ++ s ++ ['"']
  | .one (.int n) => intStr n
  | .tuple as => ['('] ++ (", ".toList).intercalate (as.map Atom.repr) ++ (if as.length = 1 then [','] else []) ++ [')']

/-- The name of the parameter of a variable (core.py 66-69). -/
def paramName (comp : List Char) : Key → List Char
  | .none => comp
  | k => comp ++ ['['] ++ ngName k ++ [']']

/-- The line of code for a name (core.py 155-156), from the opening quote: the literal that is read, and what follows it. -/
def lit (q : Char) : List Char → Option (List Char × List Char)
  | [] => none
  | '\n' :: _ => none
  | '\\' :: 'n' :: r => (lit q r).map fun x => ('\n' :: x.1, x.2)
  | '\\' :: c :: r =>
    (lit q r).map fun x => (if c = '\\' ∨ c = '\'' ∨ c = '"' then (c :: x.1, x.2) else ('\\' :: c :: x.1, x.2))
  | c :: r => if c = q then some ([], r) else (lit q r).map fun x => (c :: x.1, x.2)

/-- The key of `k_model_variables[...]` in the line for the name `k`: `none` if the text between the brackets is not one literal. Built on `lit` (core.py 155-156). -/
def readKey (k : List Char) : Option (List Char) :=
  match lit '\'' (k ++ "']".toList) with
  | some (body, [']']) => some body
  | _ => none

/-- The index on the left side for a key that is a string. Built on `lit` (core.py 155-156). -/
def leftKey (s : List Char) : Option (List Char) :=
  match lit '"' (s ++ "\"]".toList) with
  | some (body, [']']) => some body
  | _ => none

/-! ### Evaluations -/

/-- A constraint: one relation, or a list of them with their indexes (core.py 171-179). -/
inductive Constr (A : Type)
  | simple (c : A → Bool)
  | indexed (cs : List (A → Bool))

/-- `_pyomo_constraint_wrapper` (core.py 167-183) after the assignment. -/
def Constr.check {A : Type} (a : A) : Constr A → Bool
  | .simple c => c a
  | .indexed cs => go true cs
where
  go (ret : Bool) : List (A → Bool) → Bool
    | [] => ret
    | c :: cs =>
      let ret := ret && c a
      if !ret then ret else go ret cs

/-- The instance: the compiled code, as the names that it assigns (empty string at first), and the values of the variables. Used in `Inst.assign` (core.py 152-159). -/
structure Inst (V : Type) where
  code : Option (List String)
  store : String → V

/-- `_pyomo_value_assignment` (core.py 152-159); `none` for a KeyError. -/
def Inst.assign {V : Type} (kw : List (String × V)) (s : Inst V) : Option (Inst V) :=
  let names := s.code.getD (kw.map Prod.fst)
  let rec go : List String → (String → V) → Option (String → V)
    | [], st => some st
    | n :: ns, st =>
      match Tools.dictGet kw n with
      | none => none
      | some v => go ns (fun m => if m = n then v else st m)
  (go names s.store).map fun st => { code := some names, store := st }

/-- The function: its objective with its sense (1 to minimize, -1 to maximize) and its constraints. Used in `Fn.loss` (core.py 161-165). -/
structure Fn (V : Type) where
  objective : (String → V) → ℝ
  sense : ℤ
  constraints : List (Constr (String → V))

/-- `_pyomo_obj_function_wrapper` (core.py 161-165) after the assignment. -/
noncomputable def Fn.loss {V : Type} (f : Fn V) (s : Inst V) : ℝ := f.objective s.store * f.sense

/-- The result of a call: a loss, or whether a constraint holds. Used in `Fn.call` (core.py 161-165). -/
inductive Res
  | loss (x : ℝ)
  | holds (b : Bool)

/-- A call of the objective (`none`), or of a constraint, for a candidate; `none` for an exception. Built on `Fn.loss` (core.py 161-165). -/
noncomputable def Fn.call {V : Type} (f : Fn V) (which : Option Nat) (kw : List (String × V)) (s : Inst V) : Option (Res × Inst V) :=
  (s.assign kw).bind fun s' =>
    match which with
    | none => some (.loss (f.loss s'), s')
    | some i => f.constraints[i]?.map fun c => (.holds (c.check s'.store), s')

/-- Several calls, one after the other. Built on `Fn.call` (core.py 161-165). -/
noncomputable def Fn.calls {V : Type} (f : Fn V) : List (Option Nat × List (String × V)) → Inst V → Option (List Res × Inst V)
  | [], s => some ([], s)
  | c :: cs, s => do
    let (x, s') ← f.call c.1 c.2 s
    let (r, s'') ← f.calls cs s'
    return (x :: r, s'')

/-- Two calls of the objective in two threads: both assign, then the first one evaluates. Built on `Fn.loss` (core.py 161-165). -/
noncomputable def Fn.race {V : Type} (f : Fn V) (kw1 kw2 : List (String × V)) (s : Inst V) : Option ℝ :=
  (s.assign kw1).bind fun s1 => (s1.assign kw2).map fun s2 => f.loss s2

end NG.Pyomo
