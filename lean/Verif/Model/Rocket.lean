/-
The rocket of `nevergrad/functions/rocket/rocket.py`.

Simplifications. Real numbers instead of floats. The projections of `pyproj` are arguments: the position of the launch and the altitude of a position. The lists of positions
are not rounded; only the one of the heights, which is the one used, is kept. The loop after the burn takes a bound on the number of its steps. An exception is `none`.
-/
import Mathlib.Analysis.SpecialFunctions.Pow.Real
import Mathlib.Analysis.SpecialFunctions.Trigonometric.Basic

namespace NG.Rocket

/-- The table of the engine (rocket.py 173-201): thrust and time, times 1000. -/
def table : List (Nat × Nat) :=
  [(0, 0), (946, 31), (4826, 92), (9936, 139), (14090, 192), (11446, 209), (7381, 231), (6151, 248), (5489, 292), (4921, 370), (4448, 475), (4258, 671), (4542, 702),
   (4164, 723), (4448, 850), (4353, 1063), (4353, 1211), (4069, 1242), (4258, 1303), (4353, 1468), (4448, 1656), (4448, 1821), (2933, 1834), (1325, 1847), (0, 1860)]

/-- `thrust_list` before the modification (rocket.py 203), times 1000. -/
def thrusts : List Nat := (table.map (·.1)).dropLast

/-- `thrust_time_list` (rocket.py 204), times 1000. -/
def durations : List Nat := List.zipWith (fun a b => b - a) (table.map (·.2)) (table.map (·.2)).tail

/-- `np.sum(np.multiply(a, thrust_time_list))` (rocket.py 205, 211). -/
noncomputable def impulse (a : List ℝ) : ℝ := (List.zipWith (fun x (d : Nat) => x * ((d : ℝ) / 1000)) a durations).sum

/-- The thrusts of the table (rocket.py 203). -/
noncomputable def given : List ℝ := thrusts.map fun (t : Nat) => (t : ℝ) / 1000

/-- The first modification (rocket.py 209). -/
noncomputable def biased (bias : List ℝ) : List ℝ := List.zipWith (fun t b => t * Real.exp b) given bias

/-- The normalization (rocket.py 211). -/
noncomputable def normalized (bias : List ℝ) : List ℝ := (biased bias).map fun t => t * impulse given / impulse (biased bias)

/-- The mass of the rocket without engine and the one of the loaded engine (rocket.py 159, 163), in kg. -/
noncomputable def rocMass : ℝ := 0.0472
/-- See `rocMass`. Used in `massList` (rocket.py 217-237). -/
noncomputable def engInitial : ℝ := 0.024
/-- The mass of the empty engine (rocket.py 164). -/
noncomputable def engFinal : ℝ := 0.0132

/-- The loop over the rows of the table (rocket.py 224-236): the list of the masses, or a failed assertion. -/
noncomputable def masses (total : ℝ) : List ℝ → ℝ → Option (List ℝ)
  | [], _ => some []
  | t :: l, left =>
    let p := t / total
    if p < -1e-5 ∨ 1 < p then none
    else (masses total l (left - left * p)).map fun ms => (rocMass + (left - left * p)) :: ms

/-- `mass_list` (rocket.py 217-237); the last row has no thrust. -/
noncomputable def massList (bias : List ℝ) : Option (List ℝ) := masses (normalized bias).sum (normalized bias ++ [0]) engInitial

/-- A position or a velocity. Used in `Vec.norm` (rocket.py 64, 155). -/
structure Vec where
  x : ℝ
  y : ℝ
  z : ℝ

/-- The distance to the center (rocket.py 64, 155). -/
noncomputable def Vec.norm (v : Vec) : ℝ := Real.sqrt (v.x ^ 2 + v.y ^ 2 + v.z ^ 2)

/-- `grav_force` (rocket.py 56-69). -/
noncomputable def gravity (p : Vec) (m : ℝ) : Vec :=
  let F := (-6.67408 * (1 / 10 ^ 11)) * (5.972 * 10 ^ 24) * m / p.norm ^ 2
  ⟨F * (p.x / Real.sqrt (p.x ^ 2 + p.y ^ 2)), F * (p.y / Real.sqrt (p.x ^ 2 + p.y ^ 2)), F * p.z / p.norm⟩

/-- `air_density` (rocket.py 36-47). -/
noncomputable def density (alt : ℝ) : ℝ :=
  let tp : ℝ × ℝ :=
    if alt ≤ 11000 then (15.04 - 0.00649 * alt, 101.29 * ((15.04 - 0.00649 * alt + 273.1) / 288.08) ^ (5.256 : ℝ))
    else if alt ≤ 25000 then (-56.46, 22.65 * Real.exp (1.73 - 0.000157 * alt))
    else (-131.21 + 0.00299 * alt, 2.488 * ((-131.21 + 0.00299 * alt + 273.1) / 216.6) ^ (-11.388 : ℝ))
  tp.2 / (0.2869 * (tp.1 + 273.1))

/-- `drag_force` (rocket.py 71-89); the density of the air is given. Without horizontal speed the code divides by zero (`inf` or `nan` in numpy); here this gives 0. -/
noncomputable def drag (rho : ℝ) (v : Vec) : Vec :=
  let vs := v.x ^ 2 + v.y ^ 2 + v.z ^ 2
  let c := 1 / 2 * rho * vs * 0.94 * 0.00487
  ⟨if v.x = 0 then 0 else c * (-v.x / Real.sqrt vs), if v.y = 0 then 0 else c * (-v.y / Real.sqrt (v.x ^ 2 + v.y ^ 2)), if v.z = 0 then 0 else c * (-v.z / Real.sqrt (v.x ^ 2 + v.y ^ 2))⟩

/-- `net_force` (rocket.py 92-98). -/
noncomputable def net (alt : Vec → ℝ) (p v : Vec) (m : ℝ) : Vec :=
  let d := drag (density (alt p)) v
  let g := gravity p m
  ⟨d.x + g.x, d.y + g.y, d.z + g.z⟩

/-- The state of the flight: position, velocity, the radius `r` of the last step and the heights so far. Used in `burnStep` (rocket.py 250-264). -/
structure Flight where
  pos : Vec
  vel : Vec
  r : ℝ
  heights : List ℝ

/-- A step of the burn (rocket.py 250-264): the position moves with the time of the row, the velocity with the duration of the row. -/
noncomputable def burnStep (alt : Vec → ℝ) (time duration thrust m : ℝ) (s : Flight) : Flight :=
  let f := net alt s.pos s.vel m
  let p : Vec := ⟨s.pos.x + s.vel.x * time, s.pos.y + s.vel.y * time, s.pos.z + s.vel.z * time⟩
  let v : Vec := ⟨s.vel.x + (thrust * Real.sin 45 * Real.cos 45 + f.x) * duration / m, s.vel.y + (thrust * Real.sin 45 * Real.sin 45 + f.y) * duration / m,
    s.vel.z + (thrust * Real.cos 45 + f.z) * duration / m⟩
  ⟨p, v, s.pos.norm, s.heights ++ [p.z]⟩

/-- The loop of the burn (rocket.py 250): the rows of the table but the last two. -/
noncomputable def burn (alt : Vec → ℝ) : List (ℝ × ℝ × ℝ × ℝ) → Flight → Flight
  | [], s => s
  | (time, duration, thrust, m) :: l, s => burn alt l (burnStep alt time duration thrust m s)

/-- A step after the burn (rocket.py 276-289). -/
noncomputable def fallStep (alt : Vec → ℝ) (s : Flight) : Flight :=
  let m := rocMass + engFinal
  let f := net alt s.pos s.vel m
  let p : Vec := ⟨s.pos.x + s.vel.x * 0.05, s.pos.y + s.vel.y * 0.05, s.pos.z + s.vel.z * 0.05⟩
  let v : Vec := ⟨s.vel.x + f.x * 0.05 / m, s.vel.y + f.y * 0.05 / m, s.vel.z + f.z * 0.05 / m⟩
  ⟨p, v, s.pos.norm, s.heights ++ [p.z]⟩

open Classical in
/-- The loop after the burn (rocket.py 275-294). -/
noncomputable def fall (alt : Vec → ℝ) (rInitial : ℝ) : Nat → Flight → Option Flight
  | 0, s => if s.r > rInitial then none else some s
  | k + 1, s => if s.r > rInitial then fall alt rInitial k (fallStep alt s) else some s

/-- `rocket` (rocket.py 27-296): `launch` is the position of the launch. -/
noncomputable def rocket (alt : Vec → ℝ) (launch : Vec) (fuel : Nat) (bias : List ℝ) : Option ℝ :=
  if bias.length ≠ 24 then none
  else (massList bias).bind fun ms =>
    let rows := List.zip (table.map fun (e : Nat × Nat) => (e.2 : ℝ) / 1000) (List.zip (durations.map fun (d : Nat) => (d : ℝ) / 1000) (List.zip (normalized bias) ms))
    let s := burn alt (rows.take 23) ⟨launch, ⟨0, 0, 0⟩, 0, [launch.z]⟩
    (fall alt launch.norm fuel s).map fun s => 1 - s.heights.foldl max launch.z / 3032708.353202

end NG.Rocket
