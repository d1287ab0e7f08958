/-!
# Random generators of parameters (nevergrad/parametrization/core.py 123-143, 362-404, 450-468, container.py 60-65, 105-108, data.py 165-171, 259-266,
_layering.py 111-112, 182-186)

A parameter is the tree of its sub-parameters. Generators are numbers; generator `g` provides the draws `s g 0, s g 1, ...`, and a world remembers
how many of them were used and how many generators were created from numpy's global generator. What mutating does with a draw is a parameter.
-/

namespace NG
namespace Rand

variable {α D : Type}

/-- A parameter: its `_random_state`, whether it is a container (sampled through its content), whether its own mutation draws (constants do not),
its value, and its sub-parameters. Used in `setState` (core.py 380-382). -/
inductive Node (α : Type) where
  | mk (rs : Option Nat) (container draws : Bool) (val : α) (kids : List (Node α))

/-- `next` generators were created, `pos g` numbers were drawn from generator `g`. Used in `get` (core.py 364-374). -/
structure World where
  next : Nat
  pos : Nat → Nat

/-- The generator of the node itself. Used in `get` (core.py 364-374). -/
def Node.rs : Node α → Option Nat
  | .mk rs _ _ _ _ => rs

/-- The value of the node. Used in `mutateIn` (core.py 123-130). -/
def Node.val : Node α → α
  | .mk _ _ _ v _ => v

mutual
/-- `_set_random_state` (core.py 380-382). -/
def setState (g : Option Nat) : Node α → Node α
  | .mk _ c d v kids => .mk g c d v (setStates g kids)
/-- On the sub-parameters. Used in `setState` (core.py 380-382). -/
def setStates (g : Option Nat) : List (Node α) → List (Node α)
  | [] => []
  | n :: l => setState g n :: setStates g l
end

/-- Reading `random_state` (core.py 364-374): a generator is created when there is none, and propagated. -/
def get (w : World) (n : Node α) : Nat × Node α × World :=
  match n.rs with
  | some g => (g, n, w)
  | none => (w.next, setState (some w.next) n, { w with next := w.next + 1 })

/-- A number from generator `g`. Used in `mutateIn` (core.py 123-130). -/
def draw (s : Nat → Nat → D) (w : World) (g : Nat) : D × World :=
  (s g (w.pos g), { w with pos := fun h => if h = g then w.pos h + 1 else w.pos h })

mutual
/-- Reading `random_state` of a parameter and then of its sub-parameters, as done by `value` (_layering.py 182-186) and `_check_frozen`
(core.py 457-468); written on the tree as it is after the first reading. -/
def touchKids (w : World) : Node α → Node α × World
  | .mk rs c d v kids =>
    match rs with
    | some g => let r := touchList w kids; (.mk (some g) c d v r.1, r.2)
    | none => (.mk (some w.next) c d v (setStates (some w.next) kids), { w with next := w.next + 1 })
/-- On the sub-parameters, in order. Used in `touchKids` (_layering.py 182-186). -/
def touchList (w : World) : List (Node α) → List (Node α) × World
  | [] => ([], w)
  | n :: l => let r := touchKids w n; let r' := touchList r.2 l; (r.1 :: r'.1, r'.2)
end

mutual
/-- `mutate` after `_check_frozen` (core.py 123-130): the sub-parameters, then the parameter itself with a draw of its own generator. A parameter
without generator is not possible there (it would draw nothing here). `f` computes the new value. -/
def mutateIn (f : α → List α → D → α) (s : Nat → Nat → D) (w : World) : Node α → Node α × World
  | .mk rs c d v kids =>
    let r := mutateList f s w kids
    match d, rs with
    | true, some g => let x := draw s r.2 g; (.mk rs c d (f v (r.1.map Node.val) x.1) r.1, x.2)
    | _, _ => (.mk rs c d v r.1, r.2)
/-- On the sub-parameters, in order. Used in `mutateIn` (core.py 123-130). -/
def mutateList (f : α → List α → D → α) (s : Nat → Nat → D) (w : World) : List (Node α) → List (Node α) × World
  | [] => ([], w)
  | n :: l => let r := mutateIn f s w n; let r' := mutateList f s r.2 l; (r.1 :: r'.1, r'.2)
end

/-- `mutate` (core.py 123-127). -/
def mutate (f : α → List α → D → α) (s : Nat → Nat → D) (w : World) (n : Node α) : Node α × World :=
  let r := touchKids w n
  mutateIn f s r.2 r.1

/-- `spawn_child` (core.py 384-408): the generator is initialized before copying; the copy has the same generators (core.py 410-440). Returns the
parameter, the child and the world. -/
def spawn (w : World) (n : Node α) : Node α × Node α × World :=
  let r := get w n
  (r.2.1, r.2.1, r.2.2)

mutual
/-- `_layered_sample` on a copy: containers sample their content (container.py 105-108), other parameters mutate a child (data.py 165-171). -/
def sampleIn (f : α → List α → D → α) (s : Nat → Nat → D) (w : World) : Node α → Node α × World
  | .mk rs c d v kids =>
    if c then let r := sampleList f s w kids; (.mk rs c d v r.1, r.2)
    else mutateIn f s w (.mk rs c d v kids)
/-- On the content, in order. Used in `sampleIn` (container.py 105-108). -/
def sampleList (f : α → List α → D → α) (s : Nat → Nat → D) (w : World) : List (Node α) → List (Node α) × World
  | [] => ([], w)
  | n :: l => let r := sampleIn f s w n; let r' := sampleList f s r.2 l; (r.1 :: r'.1, r'.2)
end

/-- `sample` (core.py 132-147): the parameter, the child and the world. Missing generators of the child are created first (in the code, when they
are needed, in the same order). -/
def sample (f : α → List α → D → α) (s : Nat → Nat → D) (w : World) (n : Node α) : Node α × Node α × World :=
  let r := get w n
  let t := touchKids r.2.2 r.2.1
  let c := sampleIn f s t.2 t.1
  (r.2.1, c.1, c.2)

/-- Replacing the sub-parameter at position `k`, adding it at the end if there is none. Used in `setItem` (container.py 60-65). -/
def replaceAt (k : Nat) (sub : Node α) : List (Node α) → List (Node α)
  | [] => [sub]
  | n :: l => match k with
    | 0 => sub :: l
    | k + 1 => n :: replaceAt k sub l

/-- `container[name] = sub` (container.py 60-65): the generator is passed on when there is one. -/
def setItem (k : Nat) (sub : Node α) : Node α → Node α
  | .mk rs c d v kids =>
    match rs with
    | some g => .mk rs c d v (replaceAt k (setState (some g) sub) kids)
    | none => .mk rs c d v (replaceAt k sub kids)

/-- `set_mutation(sigma=sub)` (data.py 259-266): `self.parameters._content["sigma"] = sub`, without the generator. (`parameters` is a container
between the parameter and sigma, left out here.) -/
def setMutation (k : Nat) (sub : Node α) : Node α → Node α
  | .mk rs c d v kids => .mk rs c d v (replaceAt k sub kids)

/-- What a program does with a pool of parameters (the parametrization first, and everything created from it). Used in `step` (data.py 259-266). -/
inductive Op (α : Type) where
  | read (i : Nat)
  | mutate (i : Nat)
  | copy (i : Nat)
  | spawn (i : Nat)
  | sample (i : Nat)
  | setItem (i k : Nat) (sub : Node α)
  | setMutation (i k : Nat) (sub : Node α)
  | setState (i : Nat) (g : Nat)

/-- One operation; indices out of range do nothing. Copies and samples are added to the pool. Built on `setMutation` (data.py 259-266). -/
def step (f : α → List α → D → α) (s : Nat → Nat → D) (st : World × List (Node α)) : Op α → World × List (Node α)
  | .read i => match st.2[i]? with
    | none => st
    | some n => let r := touchKids st.1 n; (r.2, st.2.set i r.1)
  | .mutate i => match st.2[i]? with
    | none => st
    | some n => let r := mutate f s st.1 n; (r.2, st.2.set i r.1)
  | .copy i => match st.2[i]? with
    | none => st
    | some n => (st.1, st.2 ++ [n])
  | .spawn i => match st.2[i]? with
    | none => st
    | some n => let r := spawn st.1 n; (r.2.2, st.2.set i r.1 ++ [r.2.1])
  | .sample i => match st.2[i]? with
    | none => st
    | some n => let r := sample f s st.1 n; (r.2.2, st.2.set i r.1 ++ [r.2.1])
  | .setItem i k sub => match st.2[i]? with
    | none => st
    | some n => (st.1, st.2.set i (setItem k sub n))
  | .setMutation i k sub => match st.2[i]? with
    | none => st
    | some n => (st.1, st.2.set i (setMutation k sub n))
  | .setState i g => match st.2[i]? with
    | none => st
    | some n => (st.1, st.2.set i (setState (some g) n))

/-- A program. Built on `step` (data.py 259-266). -/
def run (f : α → List α → D → α) (s : Nat → Nat → D) : World × List (Node α) → List (Op α) → World × List (Node α)
  | st, [] => st
  | st, o :: os => run f s (step f s st o) os

end Rand
end NG
