import Mathlib.Data.Rat.Defs

/-!
# Model of the arguments and descriptors recorded by experiment functions

`ExperimentFunction.__new__` (functions/base.py 49-74), the part of `__init__` about descriptors (89-92), `add_descriptors` (135-136), `equivalent_to` (143-155), `_internal_copy` (157-165), and the
initialization of `Image` (functions/images/core.py 29-93) and `ImageFromPGAN` (functions/images/core.py 318-358) as far as descriptors are concerned. Signatures have no `*args` and no `**kwargs`.
-/

namespace NG
namespace InitRec

/-- The elements of tuples and lists, texts or numbers. Used in `record` (functions/base.py 63-65). -/
abbrev Item := String ⊕ ℚ

/-- Values of arguments, used in `record` (functions/base.py 63-65). `num` stands for `int`, `float` and `bool`, which Python compares as numbers (`True == 1 == 1.0`; nan is left out); `cls` is a class with
its name and the name of its own class (`type` for ordinary classes); `obj` is any other object, given by the name of its class. -/
inductive Val where
  | str (s : String)
  | num (q : ℚ)
  | tup (l : List Item)
  | lst (l : List Item)
  | cls (name kind : String)
  | obj (className : String)
deriving DecidableEq, Repr

/-- A dictionary, used in `record` (functions/base.py 63-65). The first entry of a key counts. -/
abbrev Dict := List (String × Val)

/-- `d[k] = v`, also `d.update(k=v)` (functions/base.py 72, 92, 136). The order of the entries is not the one of Python; nothing depends on it. -/
def set (d : Dict) (k : String) (v : Val) : Dict := (k, v) :: d.filter fun p => p.1 != k

/-- The values of a signature in its order, from positional and keyword arguments and defaults: `sig.bind` and `apply_defaults` (functions/base.py 56-60); `none` is `TypeError`. -/
def bind : List (String × Option Val) → List Val → Dict → Option Dict
  | [], [], _ => some []
  | [], _ :: _, _ => none
  | (n, _) :: sig, v :: pos, kw => if (kw.lookup n).isSome then none else (bind sig pos kw).map fun a => (n, v) :: a
  | (n, d) :: sig, [], kw =>
    match (kw.lookup n).or d with
    | none => none
    | some v => (bind sig [] kw).map fun a => (n, v) :: a

/-- `callargs` (functions/base.py 54-62), `none` for a `TypeError`: keywords which are not in the signature raise. `self` is left out from the start. -/
def callargs (sig : List (String × Option Val)) (pos : List Val) (kw : Dict) : Option Dict :=
  if kw.all (fun p => (sig.map Prod.fst).contains p.1) then bind sig pos kw else none

/-- `isinstance(y, (str, tuple, int, float, bool))` (functions/base.py 64). -/
def Val.recorded : Val → Bool
  | .str _ | .num _ | .tup _ => true
  | .lst _ | .cls _ _ | .obj _ => false

/-- The descriptors set by `__new__` (functions/base.py 63-65, 72). -/
def record (cls : String) (args : Dict) : Dict := set (args.filter fun p => p.2.recorded) "function_class" (.str cls)

/-- The function given to `ExperimentFunction.__init__` (functions/base.py 89-91): a method of the very instance, something with a `__name__`, or a callable object. -/
inductive Fn where
  | own
  | named (name : String)
  | object (className : String)
deriving DecidableEq, Repr

/-- The descriptor `name` (functions/base.py 89-92). -/
def named (d : Dict) : Fn → Dict
  | .own => d
  | .named n => set d "name" (.str n)
  | .object c => set d "name" (.str c)

/-- An experiment function: class, recorded arguments (`_auto_init`), descriptors, name of the parametrization. Used in `equivalent` (functions/base.py 143-155). -/
structure Inst where
  cls : String
  args : Dict
  descriptors : Dict
  paramName : String
deriving DecidableEq, Repr

/-- `self._descriptors == other._descriptors` (functions/base.py 152-153). -/
def same (d e : Dict) : Bool := d.all (fun p => e.lookup p.1 == d.lookup p.1) && e.all (fun p => d.lookup p.1 == e.lookup p.1)

/-- `equivalent_to` (functions/base.py 143-155). -/
def equivalent (f g : Inst) : Bool := f.cls == g.cls && (same f.descriptors g.descriptors && f.paramName == g.paramName)

/-- A new instance from its bound arguments: `__new__`, then `__init__` with the function `fn` and a parametrization of the given name (functions/base.py 49-102). -/
def create (cls : String) (args : Dict) (fn : Fn) (paramName : String) : Inst :=
  { cls := cls, args := args, descriptors := named (record cls args) fn, paramName := paramName }

/-- `add_descriptors` for one key (functions/base.py 135-136). -/
def addDescriptor (f : Inst) (k : String) (v : Val) : Inst := { f with descriptors := set f.descriptors k v }

/-- `x.__class__.__name__` (functions/images/core.py 92, 358). -/
def Val.className : Val → String
  | .str _ => "str"
  | .num _ => "float"
  | .tup _ => "tuple"
  | .lst _ => "list"
  | .cls _ m => m
  | .obj c => c

/-- `loss(reference=self.data)` (functions/images/core.py 74): calling a class gives an object of that class. -/
def Val.instantiate : Val → Option String
  | .cls n _ => some n
  | _ => none

/-- The signature of `Image.__init__` (functions/images/core.py 29-36). -/
def imageSig : List (String × Option Val) :=
  [("problem_name", some (.str "recovering")), ("index", some (.num 0)), ("loss", some (.cls "SumAbsoluteDifferences" "type")),
    ("with_pgan", some (.num 0)), ("num_images", some (.num 1))]

/-- `Image(...)` (functions/images/core.py 29-93); `none` when something is raised: arguments that do not fit, the asserts of 52-53 and 62, a loss which is not a class. Both parametrizations are renamed to the
empty name (68-70, 87). `use_gpu` is not an argument, its removal (88) does nothing. The network and the arrays are not modelled. -/
def image (pos : List Val) (kw : Dict) : Option Inst := do
  let args ← callargs imageSig pos kw
  let loss ← args.lookup "loss"
  let lossName ← loss.instantiate
  if args.lookup "problem_name" = some (.str "recovering") ∧ args.lookup "index" = some (.num 0) then
    if args.lookup "with_pgan" = some (.num 0) then
      if args.lookup "num_images" = some (.num 1) then
        some (addDescriptor (create "Image" args (.object lossName) "") "loss" (.str loss.className))
      else none
    else some (addDescriptor (create "Image" args .own "") "loss" (.str loss.className))
  else none

/-- The descriptors of `ImageFromPGAN` (functions/images/core.py 318-358) from its bound arguments: the loss is an object here, `None` is replaced by `Koncept512()` (327-328), and `use_gpu` is removed (356). -/
def fromPgan (args : Dict) (loss : Option String) : Inst :=
  let f := create "ImageFromPGAN" args .own ""
  let g := { f with descriptors := f.descriptors.filter fun p => p.1 != "use_gpu" }
  addDescriptor g "loss" (.str (Val.obj (loss.getD "Koncept512")).className)

end InitRec
end NG
