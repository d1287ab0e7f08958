import Verif.Model.Discrete

/-!
# Model of the discrete mutations

`Mutator` (optimization/mutations.py 13-170). Normal draws are read from a list: `none` means that the list is exhausted before the
code is done with drawing (its loops end when a suitable draw comes), or an assertion failed. `cat arity x` is the category of `x`,
`threshold_discretization([x], arity)[0]`.
-/

namespace NG
namespace Mut
variable {β α : Type}

/-- `significantly_mutate` (19-31). -/
def significantly (cat : Nat → β → Int) (arity : Nat) (v : β) : List β → Option (β × List β)
  | [] => none
  | w :: ws =>
    if 499 < arity then some (w, ws)
    else if arity ≤ 1 then none
    else if cat arity w = cat arity v then significantly cat arity v ws else some (w, ws)

/-- `[s if b else self.significantly_mutate(s, arity) for (b, s) in zip(boolean_vector, parent)]` (97, 127). -/
def masked (cat : Nat → β → Int) (arity : Nat) : List Bool → List β → List β → Option (List β)
  | b :: bs, s :: ss, ws =>
    if b then (masked cat arity bs ss ws).map (s :: ·)
    else
      match significantly cat arity s ws with
      | none => none
      | some (w, ws') => (masked cat arity bs ss ws').map (w :: ·)
  | _, _, _ => some []

/-- The loops drawing the boolean vector (95-96, 125-126): the first vector of draws with an entry not above the rate. -/
def mask [LinearOrder α] (rate : α) (us : List (List α)) : Option (List Bool) :=
  (us.map (fun u => u.map (fun x => decide (rate < x)))).find? (fun b => !(b.all id))

/-- `discrete_mutation` (121-127). -/
def discrete [Field α] [LinearOrder α] (cat : Nat → β → Int) (arity : Nat) (us : List (List α)) (ws : List β) (parent : List β) :
    Option (List β) :=
  (mask (1 / (parent.length : α)) us).bind (fun b => masked cat arity b parent ws)

/-- `portfolio_discrete_mutation` (80-98); `intensity` may be a float (optimizerlib.py 337). -/
def portfolio [Field α] [LinearOrder α] (cat : Nat → β → Int) (arity : Nat) (intensity : Option α) (r : Nat) (us : List (List α))
    (ws : List β) (parent : List β) : Option (List β) :=
  let intensity : α := match intensity with
    | some i => i
    | none => if parent.length = 1 then 1 else r
  if parent.length = 1 then ws.head?.map (fun w => [w])
  else (mask (intensity / (parent.length : α)) us).bind (fun b => masked cat arity b parent ws)

/-- `doubledoerr_discrete_mutation` (40-60); `u` is the draw among `1, ..., max_mutations - 1`. -/
def doubledoerr [Field α] [LinearOrder α] (cat : Nat → β → Int) (arity : Nat) (u : Nat) (us : List (List α)) (ws : List β)
    (parent : List β) : Option (List β) :=
  portfolio cat arity (some (u : α)) 0 us ws parent

/-- `doerr_discrete_mutation` (33-38): the arity is not passed on in small dimension. -/
def doerr [Field α] [LinearOrder α] (cat : Nat → β → Int) (arity : Nat) (u : Nat) (us : List (List α)) (ws : List β)
    (parent : List β) : Option (List β) :=
  if parent.length < 5 then discrete cat 2 us ws parent else doubledoerr cat arity u us ws parent

/-- `rls_mutation` (62-78). -/
def rls (cat : Nat → β → Int) (arity ind : Nat) (ws : List β) (parent : List β) : Option (List β) :=
  if parent.length = 1 then ws.head?.map (fun w => [w])
  else
    match parent[ind]? with
    | none => none
    | some v => (significantly cat arity v ws).map (fun r => parent.set ind r.1)

/-- One coordinate of `coordinatewise_mutation` (113-119): `move` is none if the coordinate is not selected, else the sign times
the velocity. The inverse uses its default arity of 2. -/
def coordinatewise [Field α] [LinearOrder α] [FloorRing α] (cdf ppf : α → α) (arity : Nat) (move : Option α) (x : α) : α :=
  let k : α := (Disc.threshold cdf arity (.fin x) : α) + move.getD 0
  ppf (k * (1 / 2) + (1 / 2) / 2)

/-- `crossover` (129-159) before the final mutation: the option after line 138, which draws it. -/
inductive Kind
  | rotation (k : Nat) | max | min | onepoint (idx : Nat) (neg : Bool) | twopoint (idx idx2 : Nat) (neg : Bool) | other

/-- The mixed vector (132-158). `pick` are the outcomes of the choices between the two values (true for the donor). Half-integers
are doubled. -/
def mix [LinearOrder β] (kind : Kind) (pick : Nat → Bool) (parent donor : List β) : List β :=
  let sgn := fun neg : Bool => if neg then (-1 : Int) else 1
  let default := (parent.zip donor).mapIdx (fun i p => if pick i then p.2 else p.1)
  match kind with
  | .rotation k => parent.mapIdx (fun i p => if pick i then (donor[(i + k) % parent.length]?).getD p else p)
  | .max => (parent.zip donor).map (fun p => Min.min p.2 p.1)
  | .min => (parent.zip donor).map (fun p => Max.max p.2 p.1)
  | .onepoint idx neg =>
    if 4 < parent.length then
      (parent.zip donor).mapIdx (fun i p => if (2 * (i : Int) - (2 * idx + 1)) * sgn neg < 0 then p.2 else p.1)
    else default
  | .twopoint idx idx2 neg =>
    if 6 < parent.length then
      (parent.zip donor).mapIdx (fun i p =>
        if (2 * (i : Int) - (2 * idx + 1)) * (2 * (i : Int) - (2 * idx2 + 1)) * sgn neg < 0 then p.2 else p.1)
    else default
  | .other => default

end Mut
end NG
