/-
The team pursuit of `nevergrad/functions/cycling`: the order of the team (teampursuit.py 118-139, mensteampursuit.py 101-109), the race (mensteampursuit.py 26-99,
womensteampursuit.py 26-96), the physics of a rider (cyclist.py 36-99) and of the air (teampursuit.py 101-116), and the objective function (cycling.py 80-108).

Simplifications. Numbers are exact. The race is written once, for the number of riders and segments of the two events and for any physics of a rider; the physics of
the code is given apart, over the real numbers. An exception is `none`. The loop over the time steps of a segment takes a bound on the number of steps, and is `none`
beyond it. The positions of the team are a list of numbers. Not modelled: the setters of the weather and of the riders, `to_string`.
-/
import Mathlib.Analysis.SpecialFunctions.Pow.Real
import Mathlib.Analysis.Real.Sqrt

namespace NG.Cycling

/-! ### The order of the team -/

/-- `cyclists_remaining` (teampursuit.py 118-125): the riders without energy get position zero. -/
def drop (alive : List Bool) (pos : List Nat) : List Nat := List.zipWith (fun a p => if a then p else 0) alive pos

/-- `transition` (teampursuit.py 133-139): the leader gets the number of riders that remain, the other ones move up. -/
def transition (alive : List Bool) (pos : List Nat) : List Nat :=
  (List.range pos.length).foldl
    (fun q i =>
      if 0 < q[i]?.getD 0 then
        if q[i]?.getD 0 = 1 then (drop alive q).set i (alive.count true) else q.set i (q[i]?.getD 0 - 1)
      else q)
    pos

/-- `validate_order` (mensteampursuit.py 101-109): the last of four becomes the third of three, and the riders behind the missing one move up. -/
def validate (pos : List Nat) : List Nat :=
  (List.range pos.length).foldl
    (fun q i =>
      if q[i]?.getD 0 = 4 then
        let q := q.set i 3
        if q[(i + 1) % 4]?.getD 0 = 0 then (q.set ((i + 2) % 4) 1).set ((i + 3) % 4) 2
        else if q[(i + 2) % 4]?.getD 0 = 0 then q.set ((i + 3) % 4) 2
        else q
      else q)
    pos

/-! ### The race -/

section
variable {σ R : Type} [Field R] [LinearOrder R]

/-- A rider (cyclist.py 20-34): position, fatigue, and what the physics needs (velocity and energy). -/
structure Rider (σ : Type) where
  pos : Nat
  fatigue : Nat
  phys : σ

/-- The physics of the riders (cyclist.py 36-99): the energy left, the state after `reset`, `set_pace` with its distance, and `follow`; both get the fatigue. -/
structure Physics (σ R : Type) where
  energy : σ → R
  fresh : σ
  pace : Nat → R → σ → Option (σ × R)
  follow : Nat → Nat → R → σ → Option σ

/-- The two events (mensteampursuit.py 14-18, womensteampursuit.py 14-18). -/
structure Event where
  riders : Nat
  segments : Nat
  length : Nat
  men : Bool

/-- `mensteampursuit` (mensteampursuit.py 14-18). -/
def mens : Event := ⟨4, 31, 4000, true⟩

/-- `womensteampursuit` (womensteampursuit.py 14-18). -/
def womens : Event := ⟨3, 23, 3000, false⟩

variable (ph : Physics σ R)

/-- Which riders have energy left (teampursuit.py 121). -/
def alive (team : List (Rider σ)) : List Bool := team.map fun r => decide (0 < ph.energy r.phys)

/-- The positions of the team, and the team with other ones. Used in `remaining` (teampursuit.py 118-125). -/
def positions (team : List (Rider σ)) : List Nat := team.map (·.pos)

/-- `set_position` for all riders. Used in `remaining` (teampursuit.py 118-125). -/
def place (team : List (Rider σ)) (pos : List Nat) : List (Rider σ) := List.zipWith (fun r p => { r with pos := p }) team pos

/-- `cyclists_remaining` (teampursuit.py 118-125). -/
def remaining (team : List (Rider σ)) : List (Rider σ) × Nat := (place team (drop (alive ph team) (positions team)), (alive ph team).count true)

/-- The riders behind the leader follow (mensteampursuit.py 69-71). -/
def followAll (dist : R) (team : List (Rider σ)) : Option (List (Rider σ)) :=
  team.mapM fun r => if 1 < r.pos then (ph.follow r.fatigue r.pos dist r.phys).map fun s => { r with phys := s } else some r

/-- One time step (mensteampursuit.py 67-71; the leader is the first rider at position one, teampursuit.py 127-131). -/
def rideStep (power : R) (leader : Nat) (team : List (Rider σ)) : Option (List (Rider σ) × R) := do
  let r ← team[leader]?
  let (s, d) ← ph.pace r.fatigue power r.phys
  let team ← followAll ph d (team.set leader { r with phys := s })
  some (team, d)

/-- The loop of a segment (mensteampursuit.py 64-78): the team and the number of time steps, with at most `fuel` of them. -/
def ride (power distance : R) (leader : Nat) : Nat → List (Rider σ) → R → Nat → Option (List (Rider σ) × Nat)
  | 0, team, ridden, steps => if ridden < distance then none else some (team, steps)
  | fuel + 1, team, ridden, steps =>
    if ridden < distance then
      (rideStep ph power leader team).bind fun t =>
        ride power distance leader fuel t.1 (if ridden + t.2 ≤ distance then ridden + t.2 else distance) (steps + 1)
    else some (team, steps)

/-- `increase_fatigue` for the leader and `recover` for the followers (mensteampursuit.py 80-83, cyclist.py 132-137). -/
def tire (leader : Nat) (team : List (Rider σ)) : List (Rider σ) :=
  team.mapIdx fun i r => if i = leader then { r with fatigue := r.fatigue + 2 } else if 1 < r.pos then { r with fatigue := r.fatigue - 1 } else r

/-- The state between the segments (mensteampursuit.py 45-47); the time `none` is infinite. -/
structure Race (σ R : Type) where
  team : List (Rider σ)
  time : Option R
  completed : R

/-- The length of a segment (mensteampursuit.py 50-53). -/
def segLength (ev : Event) (i : Nat) : R := if i = 0 ∨ i = ev.segments - 1 then 187.5 else 125

/-- One segment (mensteampursuit.py 49-93, womensteampursuit.py 49-90): the state, and whether the race goes on. -/
def segment (ev : Event) (fuel : Nat) (trans : List Bool) (pacing : List R) (i : Nat) (s : Race σ R) : Option (Race σ R × Bool) :=
  let r := remaining ph s.team
  if (if ev.men then 3 ≤ r.2 else r.2 = 3) then
    let team := if ev.men ∧ r.2 = 3 then place r.1 (validate (positions r.1)) else r.1
    let change : Bool := decide (1 ≤ i) && trans[i - 1]?.getD false
    let team := if change then place team (transition (alive ph team) (positions team)) else team
    let time := if change then s.time.map (· + 0.12) else s.time
    match (positions team).findIdx? (· = 1) with
    | none => none
    | some leader =>
      (ride ph (pacing[i]?.getD 0) (segLength ev i) leader fuel team 0 0).map fun t =>
        let e := remaining ph (tire leader t.1)
        if 3 ≤ e.2 then (⟨e.1, time.map (· + t.2 * 0.1), s.completed + segLength ev i / ev.length⟩, true) else (⟨e.1, none, s.completed⟩, true)
  else some (⟨r.1, none, s.completed⟩, false)

/-- The loop over the segments (mensteampursuit.py 49-93). -/
def segmentLoop (ev : Event) (fuel : Nat) (trans : List Bool) (pacing : List R) : List Nat → Race σ R → Option (Race σ R)
  | [], s => some s
  | i :: l, s => (segment ph ev fuel trans pacing i s).bind fun t => if t.2 then segmentLoop ev fuel trans pacing l t.1 else some t.1

/-- The team after `reset` (mensteampursuit.py 42-43, cyclist.py 139-143; the start positions of mensteampursuit.py 23-24). -/
def start (ev : Event) : List (Rider σ) := (List.range ev.riders).map fun i => ⟨i + 1, 0, ph.fresh⟩

/-- `simulate` (mensteampursuit.py 26-99): `none` also for strategies of other lengths or powers out of bounds. -/
def simulate (ev : Event) (fuel : Nat) (trans : List Bool) (pacing : List R) : Option (Race σ R) :=
  if trans.length ≠ ev.segments - 1 ∨ pacing.length ≠ ev.segments ∨ ¬ pacing.all fun p => decide (p ≤ 1200) && decide (200 ≤ p) then none
  else segmentLoop ph ev fuel trans pacing (List.range ev.segments) ⟨start ph ev, some 0, 0⟩

/-! ### The objective (cycling.py) -/

/-- What `team_pursuit_simulation` is given (cycling.py 82-92): the value of an instrumentation, transitions, or powers. -/
inductive Input (R : Type)
  | pair (trans : List Bool) (pacing : List R)
  | transitions (l : List Bool)
  | powers (l : List R)

/-- The strategies (cycling.py 82-92). -/
def strategies : Input R → Option (List Bool × List R)
  | .pair t p => some (t, p)
  | .transitions l =>
    if l.length = 30 ∨ l.length = 22 then some (l, List.replicate (l.length + 1) (if l.length = 30 then 550 else 400)) else none
  | .powers l =>
    if l.length = 31 ∨ l.length = 23 then some ((List.replicate ((l.length - 1) / 2) [true, false]).flatten, l) else none

/-- The value for the strategies (cycling.py 98-108); `men` and `women` are the physics of the two teams. -/
def objective (men women : Physics σ R) (fuel : Nat) (x : Input R) : Option R :=
  (strategies x).bind fun sp =>
    if sp.2.length = 23 ∨ sp.2.length = 31 then
      (simulate (if sp.2.length = 23 then women else men) (if sp.2.length = 23 then womens else mens) fuel sp.1 sp.2).map fun s =>
        match s.time with
        | none => 10000
        | some t => if 10000 < t then 10000 else t
    else none

/-- A call of the function, which has one argument `x`, with positional and named arguments (cycling.py 80; functions/base.py 122-124): a `TypeError` otherwise. -/
def call {α β : Type} (f : α → Option β) (args : List α) (kwargs : List (String × α)) : Option β :=
  match args, kwargs with
  | [x], [] => f x
  | [], [(n, x)] => if n = "x" then f x else none
  | _, _ => none

end

/-! ### The physics (cyclist.py) -/

/-- The state of a rider: velocity and remaining energy (cyclist.py 29, 34). -/
structure Phys where
  velocity : ℝ
  energy : ℝ

/-- What the physics of a rider depends on: the mass with the bike, and half the drag area times the air density. Used in `deltaKe` (cyclist.py 37-48). -/
structure Body where
  mass : ℝ
  drag : ℝ
  total : ℝ

/-- `if self.remaining_energy > power * time_step` (cyclist.py 60-63, 96-99). -/
noncomputable def spend (energy power : ℝ) : ℝ := if energy > power * 0.1 then energy - power * 0.1 else 0

/-- `delta_ke` of `set_pace` (cyclist.py 37-48). -/
noncomputable def deltaKe (b : Body) (fatigue : Nat) (power v : ℝ) : ℝ :=
  (power * 0.977 * (1 - 0.01 * (fatigue : ℝ)) - b.drag * v ^ 3 - 0.0025 * b.mass * 9.80665 * v) * 0.1

/-- `set_pace` (cyclist.py 36-65): `math.pow` of a negative number and 0.5 is a `ValueError`. -/
noncomputable def setPace (b : Body) (fatigue : Nat) (power : ℝ) (s : Phys) : Option (Phys × ℝ) :=
  let w := 2 * deltaKe b fatigue power s.velocity / b.mass + s.velocity ^ 2
  if w < 0 then none
  else
    let v := Real.sqrt w
    some (⟨v, spend s.energy power⟩, s.velocity * 0.1 + 0.5 * (v - s.velocity) * 0.1 ^ 2)

/-- `drafting_coefficients[position - 2]` (teampursuit.py 14, cyclist.py 80); an `IndexError` beyond the third. -/
noncomputable def drafting (pos : Nat) : Option ℝ := [0.75, 0.65, 0.55][pos - 2]?

/-- The new velocity of `follow` (cyclist.py 70-75). -/
noncomputable def followVelocity (dist v : ℝ) : ℝ := v + 2 * (dist - v * 0.1) / 0.1 ^ 2 * 0.1

/-- The power of `follow` (cyclist.py 68, 76-92); a division by zero when the fatigue is 100. -/
noncomputable def followPower (b : Body) (fatigue pos : Nat) (dist v : ℝ) : Option ℝ :=
  (drafting pos).bind fun c =>
    if (1 - 0.01 * (fatigue : ℝ)) = 0 then none
    else
      let deltaKe := 0.5 * b.mass * (followVelocity dist v - v)
      some ((b.drag * c * v ^ 3 + 0.0025 * b.mass * 9.80665 * v + deltaKe / 0.1) / (0.977 * (1 - 0.01 * (fatigue : ℝ))))

/-- `follow` (cyclist.py 67-99). -/
noncomputable def follow (b : Body) (fatigue pos : Nat) (dist : ℝ) (s : Phys) : Option Phys :=
  (followPower b fatigue pos dist s.velocity).map fun p => ⟨followVelocity dist s.velocity, spend s.energy p⟩

/-- The physics of the code. Built on `follow` (cyclist.py 67-99). -/
noncomputable def physics (b : Body) : Physics Phys ℝ := ⟨Phys.energy, ⟨0, b.total⟩, setPace b, follow b⟩

/-- `update_air_density` (teampursuit.py 101-116): the pressure of the water vapour, -/
noncomputable def vapour (humidity temperature : ℝ) : ℝ :=
  100 * humidity * (6.1078 * (10 : ℝ) ^ ((7.5 * (temperature + 273.15) - 2048.625) / (temperature + 273.15 - 35.85)))

/-- and the density. Built on `vapour` (teampursuit.py 101-116). -/
noncomputable def airDensity (humidity temperature pressure : ℝ) : ℝ :=
  (100 * pressure - vapour humidity temperature) / (287.058 * (temperature + 273.15)) + vapour humidity temperature / (461.495 * (temperature + 273.15))

/-- `update_cda` (cyclist.py 145-148). -/
noncomputable def dragArea (height weight : ℝ) : ℝ := 0.65 * (0.0293 * height ^ (0.725 : ℝ) * weight ^ (0.425 : ℝ) + 0.0604)

/-- A rider of given height, weight and power in the default weather (cyclist.py 20-34, 150-153; teampursuit.py 19-23). -/
noncomputable def body (height weight power : ℝ) (male : Bool) : Body :=
  ⟨weight + 7.7, dragArea height weight * 0.5 * airDensity 0.5 20 1013.25, power * weight * (if male then 240 else 210)⟩

end NG.Cycling
