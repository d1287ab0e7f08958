/-
C130: models of Pyomo as functions.
-/
import Verif.Model.Pyomo
import Verif.Props.Bounds
import Verif.Props.IntModulo
import Verif.Props.Flatten

set_option linter.unusedSectionVars false
set_option linter.unusedSimpArgs false

namespace NG.Pyomo

/-! ### Domains -/

/-- The numbers of a range, as a specification: between the ends, without those that are open, and on the grid of the step. -/
def Rng.Mem (r : Rng) (x : ℝ) : Prop :=
  (∀ a, r.start = some a → if r.step < 0 then (if r.closed.1 then x ≤ a else x < a) else (if r.closed.1 then a ≤ x else a < x)) ∧
  (∀ b, r.stop = some b → if r.step < 0 then (if r.closed.2 then b ≤ x else b < x) else (if r.closed.2 then x ≤ b else x < b)) ∧
  (r.step ≠ 0 → ∃ k : ℤ, x = r.start.getD 0 + k * r.step)

/-- `np.nextafter` among the numbers `F` of the machine. -/
structure NextAfter (F : Set ℝ) (nx : ℝ → ℝ → ℝ) : Prop where
  up : ∀ x t, x < t → x < nx x t ∧ nx x t ≤ t
  down : ∀ x t, t < x → nx x t < x ∧ t ≤ nx x t
  same : ∀ x, nx x x = x
  next : ∀ x t y, x < t → y ∈ F → x < y → nx x t ≤ y
  prev : ∀ x t y, t < x → y ∈ F → y < x → y ≤ nx x t

/-- The layers of a scalar that was accepted. -/
theorem scalar_ok {lo hi : Option ℝ} {p : Bnd.P} (h : Bnd.scalar none lo hi = (p, none)) :
    (lo = none ∧ hi = none ∧ p.layers = []) ∨
      (∃ u l, p.layers = [.bound lo hi .bounce u l]) ∧ (∀ a b, lo = some a → hi = some b → a < b) ∧ (hi = none → ∀ a, lo = some a → a ≤ 0) ∧ (lo = none → ∀ b, hi = some b → 0 ≤ b) := by
  cases lo with
  | none =>
    cases hi with
    | none => left; rw [Bnd.scalar_free] at h; cases h; exact ⟨rfl, rfl, rfl⟩
    | some b =>
      right
      by_cases hb : (0:ℝ) ≤ b
      · simp [Bnd.scalar, Bnd.setBounds, Bnd.P.read, Bnd.get, Bnd.mkBound, Bnd.callBound, Bnd.P.assign, Bnd.set, Bnd.Lay.bwd, Bnd.Inside, hb, Bnd.fixLegacy, List.filter] at h
        subst h
        exact ⟨⟨_, _, rfl⟩, by simp, by simp, fun _ b' h' => by cases h'; exact hb⟩
      · simp [Bnd.scalar, Bnd.setBounds, Bnd.P.read, Bnd.get, Bnd.mkBound, Bnd.callBound, Bnd.P.assign, Bnd.set, Bnd.Lay.bwd, Bnd.Inside, hb] at h
  | some a =>
    cases hi with
    | none =>
      right
      by_cases ha : a ≤ (0:ℝ)
      · simp [Bnd.scalar, Bnd.setBounds, Bnd.P.read, Bnd.get, Bnd.mkBound, Bnd.callBound, Bnd.P.assign, Bnd.set, Bnd.Lay.bwd, Bnd.Inside, ha, Bnd.fixLegacy, List.filter] at h
        subst h
        exact ⟨⟨_, _, rfl⟩, by simp, fun _ a' h' => by cases h'; exact ha, by simp⟩
      · simp [Bnd.scalar, Bnd.setBounds, Bnd.P.read, Bnd.get, Bnd.mkBound, Bnd.callBound, Bnd.P.assign, Bnd.set, Bnd.Lay.bwd, Bnd.Inside, ha] at h
    | some b =>
      right
      by_cases hab : a < b
      · rw [Bnd.scalar_bounded a b hab] at h
        cases h
        exact ⟨⟨_, _, rfl⟩, fun a' b' h1 h2 => by cases h1; cases h2; exact hab, by simp, by simp⟩
      · have := Bnd.scalar_refused none a b (Or.inl (not_lt.1 hab))
        rw [h] at this
        cases this

/-- A half line without zero is refused. -/
theorem scalar_half (a : ℝ) : (0 < a → (Bnd.scalar none (some a) none).2 = some .value) ∧ (a < 0 → (Bnd.scalar none none (some a)).2 = some .value) := by
  constructor
  · intro ha
    have : ¬ a ≤ 0 := not_le.2 ha
    simp [Bnd.scalar, Bnd.setBounds, Bnd.P.read, Bnd.get, Bnd.mkBound, Bnd.callBound, Bnd.P.assign, Bnd.set, Bnd.Lay.bwd, Bnd.Inside, this]
  · intro ha
    have : ¬ 0 ≤ a := not_le.2 ha
    simp [Bnd.scalar, Bnd.setBounds, Bnd.P.read, Bnd.get, Bnd.mkBound, Bnd.callBound, Bnd.P.assign, Bnd.set, Bnd.Lay.bwd, Bnd.Inside, this]

/-- The value that is read lies within the bounds, and numbers within the bounds are read as they are. -/
theorem read_spec {lo hi : Option ℝ} {p : Bnd.P} (h : Bnd.scalar none lo hi = (p, none)) (root : ℝ) :
    (∀ v p', ({ p with root := some root } : Bnd.P).read = some (v, p') → ∃ x, v = some x ∧ Bnd.Inside lo hi x) ∧
    (Bnd.Inside lo hi root → ∃ p', ({ p with root := some root } : Bnd.P).read = some (some root, p')) ∧
    (∃ v p', ({ p with root := some root } : Bnd.P).read = some (v, p')) := by
  rcases scalar_ok h with ⟨rfl, rfl, hl⟩ | ⟨⟨u, l, hl⟩, hb, -⟩
  · refine ⟨?_, ?_, ?_⟩
    · intro v p' hr
      simp only [Bnd.P.read, hl, Bnd.get, Option.map_some, Option.some.injEq, Prod.mk.injEq] at hr
      exact ⟨root, hr.1.symm, by simp [Bnd.Inside]⟩
    · intro _; exact ⟨_, by simp [Bnd.P.read, hl, Bnd.get]; rfl⟩
    · exact ⟨_, _, by simp [Bnd.P.read, hl, Bnd.get]; exact ⟨rfl, rfl⟩⟩
  · have hle : ∀ a b, lo = some a → hi = some b → a ≤ b := fun a b h1 h2 => (hb a b h1 h2).le
    have hex : ∃ x p', ({ p with root := some root } : Bnd.P).read = some (some x, p') := by
      simp only [Bnd.P.read, hl, Bnd.get, Option.bind_some, Bnd.Lay.fwd, Bnd.set]
      split_ifs <;> exact ⟨_, _, by simp; exact ⟨rfl, rfl⟩⟩
    refine ⟨?_, ?_, ?_⟩
    · intro v p' hr
      obtain ⟨x, q, hx⟩ := hex
      rw [hx] at hr
      cases hr
      obtain ⟨w, hw, hf⟩ := Bnd.value_spec [] lo hi hle .bounce (by simp) u l [] { p with root := some root } (by simpa using hl) _ _ hx
      simp only [List.map_nil, Bnd.formula] at hf
      cases hf
      exact ⟨_, rfl, hw⟩
    · intro hi'
      exact ⟨{ p with root := some root }, by simp [Bnd.P.read, hl, Bnd.get, Bnd.Lay.fwd, hi']⟩
    · obtain ⟨x, q, hx⟩ := hex; exact ⟨_, _, hx⟩

theorem par_range {ν : Type} {nx : ℝ → ℝ → ℝ} {v : Var ν} {r : Rng} {fin : Bool} (hd : v.domain = .ranges [r] fin) (hst : r.step = -1 ∨ r.step = 0 ∨ r.step = 1) {q : Par ν}
    (h : v.par nx = .ok q) : v.fixed = false ∧ ∃ p, Bnd.scalar none (ends nx r).1 (ends nx r).2 = (p, none) ∧ q = .scalar p (decide (r.step ≠ 0)) := by
  simp only [Var.par] at h
  split at h
  · cases h
  rename_i hf
  refine ⟨by simpa using hf, ?_⟩
  rw [hd] at h
  simp only [fromRanges, if_pos hst] at h
  split at h
  · split at h
    · rename_i p hp
      cases h
      exact ⟨p, hp, rfl⟩
    · cases h
  · cases h

/-- The ends of a real range that is given to the scalar. -/
theorem ends_real (nx : ℝ → ℝ → ℝ) (r : Rng) (h : r.step = 0) :
    ends nx r = (if r.closed.1 then r.start else r.start.map fun x => nx x 1, if r.closed.2 then r.stop else r.stop.map fun x => nx x (-1)) := by
  simp [ends, h]

/-- **C130**, the part that holds for real domains: when the lower end is closed or less than 1, and the upper end closed or more than -1, every candidate gives a number of the domain. -/
theorem real_within_partial {ν : Type} {F : Set ℝ} {nx : ℝ → ℝ → ℝ} (hnx : NextAfter F nx) (v : Var ν) (r : Rng) (fin : Bool) (hd : v.domain = .ranges [r] fin) (hst : r.step = 0)
    (ho1 : r.closed.1 = false → ∀ a, r.start = some a → a < 1) (ho2 : r.closed.2 = false → ∀ b, r.stop = some b → -1 < b) (q : Par ν) (h : v.par nx = .ok q) (root : ℝ) (i : Nat) :
    ∃ x, q.value root i = some (.num x) ∧ r.Mem x := by
  obtain ⟨-, p, hp, rfl⟩ := par_range hd (Or.inr (Or.inl hst)) h
  obtain ⟨h1, -, w, p', hw⟩ := read_spec hp root
  obtain ⟨x, rfl, hx⟩ := h1 w p' hw
  refine ⟨x, by simp [Par.value, hst, hw], ?_, ?_, fun hc => absurd hst hc⟩
  · intro a ha
    rw [hst, if_neg (lt_irrefl _)]
    have := hx.1
    rw [ends_real nx r hst] at this
    split
    · rename_i hc
      exact this a (by simp [hc, ha])
    · rename_i hc
      have hc : r.closed.1 = false := by simpa using hc
      have h2 := this (nx a 1) (by simp [hc, ha])
      exact lt_of_lt_of_le (hnx.up a 1 (ho1 hc a ha)).1 h2
  · intro b hb
    rw [hst, if_neg (lt_irrefl _)]
    have := hx.2
    rw [ends_real nx r hst] at this
    split
    · rename_i hc
      exact this b (by simp [hc, hb])
    · rename_i hc
      have hc : r.closed.2 = false := by simpa using hc
      have h2 := this (nx b (-1)) (by simp [hc, hb])
      exact lt_of_le_of_lt h2 (hnx.down b (-1) (ho2 hc b hb)).1

/-- **C130.** Every number of the machine in such a domain is the value of a candidate. -/
theorem real_reach_partial {ν : Type} {F : Set ℝ} {nx : ℝ → ℝ → ℝ} (hnx : NextAfter F nx) (v : Var ν) (r : Rng) (fin : Bool) (hd : v.domain = .ranges [r] fin) (hst : r.step = 0)
    (ho1 : r.closed.1 = false → ∀ a, r.start = some a → a < 1) (ho2 : r.closed.2 = false → ∀ b, r.stop = some b → -1 < b) (q : Par ν) (h : v.par nx = .ok q) (x : ℝ) (hF : x ∈ F) (hx : r.Mem x) (i : Nat) :
    q.value x i = some (.num x) := by
  obtain ⟨-, p, hp, rfl⟩ := par_range hd (Or.inr (Or.inl hst)) h
  obtain ⟨-, h2, -⟩ := read_spec hp x
  obtain ⟨m1, m2, -⟩ := hx
  simp only [hst, lt_irrefl, if_false] at m1 m2
  obtain ⟨p', hr⟩ := h2 (by
    rw [ends_real nx r hst]
    constructor
    · intro l hl
      by_cases hc : r.closed.1 = true
      · simp only [hc, if_true] at hl m1
        exact m1 l hl
      · have hc : r.closed.1 = false := by simpa using hc
        simp only [hc, Bool.false_eq_true, if_false, Option.map_eq_some_iff] at hl m1
        obtain ⟨a, ha, rfl⟩ := hl
        exact hnx.next a 1 x (ho1 hc a ha) hF (m1 a ha)
    · intro u hu
      by_cases hc : r.closed.2 = true
      · simp only [hc, if_true] at hu m2
        exact m2 u hu
      · have hc : r.closed.2 = false := by simpa using hc
        simp only [hc, Bool.false_eq_true, if_false, Option.map_eq_some_iff] at hu m2
        obtain ⟨b, hb, rfl⟩ := hu
        exact hnx.prev b (-1) x (ho2 hc b hb) hF (m2 b hb))
  simp [Par.value, hst, hr]

/-- C130 fails for open lower ends from 1 on: the number next to the end is taken on the wrong side, and candidates give numbers that are not in the domain. -/
theorem open_wrong {ν : Type} {F : Set ℝ} {nx : ℝ → ℝ → ℝ} (hnx : NextAfter F nx) (v : Var ν) (r : Rng) (fin : Bool) (hd : v.domain = .ranges [r] fin) (hst : r.step = 0)
    (hc : r.closed.1 = false) (a : ℝ) (ha : r.start = some a) (h1 : 1 ≤ a) (q : Par ν) (h : v.par nx = .ok q) (i : Nat) : ∃ root x, q.value root i = some (.num x) ∧ ¬ r.Mem x := by
  obtain ⟨-, p, hp, rfl⟩ := par_range hd (Or.inr (Or.inl hst)) h
  have hle : nx a 1 ≤ a := by
    rcases eq_or_lt_of_le h1 with h | h
    · rw [← h, hnx.same]
    · exact (hnx.down a 1 h).1.le
  have hlo : (ends nx r).1 = some (nx a 1) := by rw [ends_real nx r hst]; simp [hc, ha]
  obtain ⟨w, p', hr⟩ := (read_spec hp (nx a 1)).2.2
  have hin : Bnd.Inside (ends nx r).1 (ends nx r).2 (nx a 1) := by
    refine ⟨fun l hl => ?_, fun u hu => ?_⟩
    · rw [hlo] at hl; cases hl; exact le_refl _
    · rcases scalar_ok hp with ⟨h3, -⟩ | ⟨-, hb, -⟩
      · rw [h3] at hlo; cases hlo
      · exact (hb _ _ hlo hu).le
  obtain ⟨p'', hr'⟩ := (read_spec hp (nx a 1)).2.1 hin
  refine ⟨nx a 1, nx a 1, by simp [Par.value, hst, hr'], fun hm => ?_⟩
  have := hm.1 a ha
  simp only [hst, lt_irrefl, if_false, hc, Bool.false_eq_true] at this
  exact absurd this (not_lt.2 hle)

/-- C130 fails for half lines without 0, among them `PositiveReals` and `NegativeReals`: the function cannot be made, since the initial value 0 is not in the domain. -/
theorem half_refused {ν : Type} {F : Set ℝ} {nx : ℝ → ℝ → ℝ} (hnx : NextAfter F nx) (v : Var ν) (r : Rng) (fin : Bool) (hd : v.domain = .ranges [r] fin) (hf : v.fixed = false) (hn : r.numeric = true)
    (hst : r.step = 0 ∨ r.step = 1)
    (h : (∃ a, r.start = some a ∧ r.stop = none ∧ if r.closed.1 then 0 < a else 0 ≤ a) ∨ (∃ b, r.stop = some b ∧ r.start = none ∧ if r.closed.2 then b < 0 else b ≤ 0)) :
    v.par nx = .error .value := by
  have hst' : r.step = -1 ∨ r.step = 0 ∨ r.step = 1 := Or.inr hst
  have hlt : ¬ r.step < 0 := by omega
  have key : (Bnd.scalar none (ends nx r).1 (ends nx r).2).2 = some .value := by
    simp only [ends, if_neg hlt]
    rcases h with ⟨a, h1, h2, h3⟩ | ⟨b, h1, h2, h3⟩
    · simp only [h1, h2, Option.map_none, ite_self]
      split
      · rename_i hc
        rw [if_pos hc] at h3
        exact (scalar_half a).1 h3
      · rename_i hc
        rw [if_neg hc] at h3
        refine (scalar_half _).1 ?_
        rcases lt_trichotomy a 1 with h4 | h4 | h4
        · exact lt_of_le_of_lt h3 (hnx.up a 1 h4).1
        · rw [h4]; beta_reduce; rw [hnx.same]; exact one_pos
        · exact lt_of_lt_of_le one_pos (hnx.down a 1 h4).2
    · simp only [h1, h2, Option.map_none, ite_self]
      split
      · rename_i hc
        rw [if_pos hc] at h3
        exact (scalar_half b).2 h3
      · rename_i hc
        rw [if_neg hc] at h3
        refine (scalar_half _).2 ?_
        rcases lt_trichotomy b (-1) with h4 | h4 | h4
        · exact lt_of_le_of_lt (hnx.up b (-1) h4).2 (by norm_num)
        · rw [h4]; beta_reduce; rw [hnx.same]; norm_num
        · exact lt_of_lt_of_le (hnx.down b (-1) h4).1 h3
  simp only [Var.par, hf, hd, fromRanges, if_pos hst', hn, if_true, Bool.false_eq_true, if_false]
  generalize Bnd.scalar none (ends nx r).1 (ends nx r).2 = s at key
  obtain ⟨p, e⟩ := s
  simp only at key
  subst key
  rfl

/-- The integer domains: the ends given to the scalar. -/
theorem ends_int (nx : ℝ → ℝ → ℝ) (r : Rng) (hc : r.closed = (true, true)) : ends nx r = if r.step < 0 then (r.stop, r.start) else (r.start, r.stop) := by
  simp [ends, hc]

theorem castInt_scalar {lo hi : Option ℝ} {p : Bnd.P} (h : Bnd.scalar none lo hi = (p, none)) (root : ℝ) :
    ∃ x, Bnd.Inside lo hi x ∧ (Bnd.Inside lo hi root → x = root) ∧ Bnd.castInt { p with root := some root } = some (Tr.intGet none lo hi x) := by
  obtain ⟨h1, h2, w, p', hr⟩ := read_spec h root
  obtain ⟨x, rfl, hx⟩ := h1 w p' hr
  refine ⟨x, hx, fun hi' => ?_, ?_⟩
  · obtain ⟨p'', h3⟩ := h2 hi'
    rw [hr] at h3
    cases h3
    rfl
  · have hb : Bnd.bounds p.layers = (lo.map some, hi.map some) := by
      rcases scalar_ok h with ⟨rfl, rfl, hl⟩ | ⟨⟨u, l, hl⟩, -⟩
      · rw [hl]; rfl
      · rw [hl]; rfl
    simp only [Bnd.castInt, hr, hb]
    cases lo <;> cases hi <;> rfl

/-- **C130.** Integer domains with steps 1 or -1: every candidate gives an element, and every element is the value of a candidate. -/
theorem int_spec {ν : Type} (nx : ℝ → ℝ → ℝ) (v : Var ν) (r : Rng) (fin : Bool) (hd : v.domain = .ranges [r] fin) (hst : r.step = 1 ∨ r.step = -1) (hc : r.closed = (true, true))
    (hi1 : ∀ a, r.start = some a → ∃ m : ℤ, a = m) (hi2 : ∀ b, r.stop = some b → ∃ m : ℤ, b = m) (q : Par ν) (h : v.par nx = .ok q) (i : Nat) :
    (∀ root, ∃ x, q.value root i = some (.num x) ∧ r.Mem x) ∧ (∀ x, r.Mem x → q.value x i = some (.num x)) := by
  have hst' : r.step = -1 ∨ r.step = 0 ∨ r.step = 1 := by omega
  obtain ⟨-, p, hp, rfl⟩ := par_range hd hst' h
  have hne : r.step ≠ 0 := by omega
  obtain ⟨lo, hi, he⟩ : ∃ lo hi, ends nx r = (lo, hi) := ⟨_, _, rfl⟩
  rw [he] at hp
  simp only at hp
  have hends := ends_int nx r hc
  rw [he] at hends
  -- the ends are integers
  have hlo : ∀ l, lo = some l → ∃ m : ℤ, l = m := by
    intro l hl
    split at hends
    · cases hends; exact hi2 l hl
    · cases hends; exact hi1 l hl
  have hhi : ∀ l, hi = some l → ∃ m : ℤ, l = m := by
    intro l hl
    split at hends
    · cases hends; exact hi1 l hl
    · cases hends; exact hi2 l hl
  have hmem : ∀ x : ℝ, r.Mem x ↔ Bnd.Inside lo hi x ∧ ∃ n : ℤ, x = n := by
    intro x
    have hgrid : (r.step ≠ 0 → ∃ k : ℤ, x = r.start.getD 0 + k * r.step) ↔ ∃ n : ℤ, x = n := by
      have hs0 : ∃ m : ℤ, r.start.getD 0 = m := by
        cases hs : r.start with
        | none => exact ⟨0, by simp⟩
        | some a => obtain ⟨m, hm⟩ := hi1 a hs; exact ⟨m, by simpa using hm⟩
      obtain ⟨m, hm⟩ := hs0
      constructor
      · intro hh
        obtain ⟨k, hk⟩ := hh hne
        exact ⟨m + k * r.step, by rw [hk, hm]; push_cast; ring⟩
      · rintro ⟨n, rfl⟩ _
        refine ⟨(n - m) * r.step, ?_⟩
        have h2 : (r.step : ℝ) * r.step = 1 := by rcases hst with h3 | h3 <;> rw [h3] <;> norm_num
        rw [hm]; push_cast
        linear_combination (-(n:ℝ) + m) * h2
    simp only [Rng.Mem, hgrid, hc, if_true]
    split at hends
    · rename_i hs
      cases hends
      simp only [Bnd.Inside, hs, if_true]
      tauto
    · rename_i hs
      cases hends
      simp only [Bnd.Inside, hs, if_false]
      tauto
  have good : ∀ m : ℤ, Tr.GoodLower (m : ℝ) := fun m => Or.inl (Int.fract_intCast m)
  have hg1 : ∀ l, lo = some l → Tr.GoodLower l := fun l hl => by obtain ⟨m, rfl⟩ := hlo l hl; exact good m
  have hg2 : ∀ l, hi = some l → Tr.GoodLower (-l) := fun l hl => by
    obtain ⟨m, rfl⟩ := hhi l hl
    have := good (-m)
    push_cast at this
    exact this
  have hord : ∀ a b, lo = some a → hi = some b → a < b := by
    rcases scalar_ok hp with ⟨h1, -⟩ | ⟨-, h1, -⟩
    · intro a b ha; rw [h1] at ha; cases ha
    · exact h1
  have hex : ∃ n : ℤ, (∀ l, lo = some l → l ≤ n) ∧ (∀ u, hi = some u → (n : ℝ) ≤ u) := by
    cases hlo' : lo with
    | some l =>
      obtain ⟨m, hm⟩ := hlo l hlo'
      exact ⟨m, fun l' hl' => by cases hl'; exact hm.le, fun u hu => by rw [← hm]; exact (hord l u hlo' hu).le⟩
    | none =>
      cases hhi' : hi with
      | none => exact ⟨0, by simp, by simp⟩
      | some u =>
        obtain ⟨m, hm⟩ := hhi u hhi'
        exact ⟨m, by simp, fun u' hu' => by cases hu'; exact hm.ge⟩
  have hdec : decide (r.step ≠ 0) = true := by simpa using hne
  rw [hdec]
  constructor
  · intro root
    obtain ⟨x, -, -, hcast⟩ := castInt_scalar hp root
    refine ⟨_, by simp only [Par.value, hcast, Option.map_some]; rfl, (hmem _).2 ⟨?_, ⟨_, rfl⟩⟩⟩
    exact Tr.int_within_partial none lo hi x hg1 hg2 hex
  · intro x hx
    obtain ⟨hin, n, rfl⟩ := (hmem x).1 hx
    obtain ⟨y, -, hy, hcast⟩ := castInt_scalar hp (n : ℝ)
    rw [hy hin, Tr.int_id lo hi n hg1 hg2 hin.1 hin.2] at hcast
    simp only [Par.value, hcast, Option.map_some]

/-- **C130.** Finite sets: the values are exactly the elements. -/
theorem set_spec {ν : Type} (nx : ℝ → ℝ → ℝ) (v : Var ν) (els : List ν) (hd : v.domain = .set els) (hf : v.fixed = false) :
    ∃ q, v.par nx = .ok q ∧ ∀ root w, (∃ i, q.value root i = some w) ↔ ∃ e ∈ els, w = .opt (.element e) := by
  refine ⟨.choice (els.map .element), by simp [Var.par, hd, hf], fun root w => ?_⟩
  simp only [Par.value, List.getElem?_map, Option.map_eq_some_iff]
  constructor
  · rintro ⟨i, o, ⟨e, he, rfl⟩, rfl⟩
    exact ⟨e, List.mem_of_getElem? he, rfl⟩
  · rintro ⟨e, he, rfl⟩
    obtain ⟨i, hi, rfl⟩ := List.getElem_of_mem he
    exact ⟨i, _, ⟨_, List.getElem?_eq_getElem hi, rfl⟩, rfl⟩

/-- C130 fails for ranges with other steps: the values are never numbers, but whole ranges. -/
theorem stepped {ν : Type} (nx : ℝ → ℝ → ℝ) (v : Var ν) (r : Rng) (hd : v.domain = .ranges [r] true) (hf : v.fixed = false) (hst : ¬(r.step = -1 ∨ r.step = 0 ∨ r.step = 1)) :
    ∃ q, v.par nx = .ok q ∧ ∀ root, q.value root 0 = some (.opt (.range r)) ∧ ∀ i x, q.value root i ≠ some (.num x) := by
  refine ⟨.choice [.range r], by simp [Var.par, hd, hf, fromRanges, if_neg hst], fun root => ⟨rfl, fun i x => ?_⟩⟩
  simp only [Par.value, ne_eq, Option.map_eq_some_iff, not_exists, not_and]
  intro o _ h
  cases h

/-- Domains of several ranges which are not finite are refused. -/
theorem many_refused {ν : Type} (nx : ℝ → ℝ → ℝ) (v : Var ν) (r r' : Rng) (rs : List Rng) (hd : v.domain = .ranges (r :: r' :: rs) false) : v.par nx = .error .notImplemented := by
  unfold Var.par
  rw [hd]
  split
  · rfl
  · simp [fromRanges]

/-- C130 fails for the bounds of a variable: they are not used, and a real variable between 0 and 1 is given all the real numbers. -/
theorem bounds_ignored {ν : Type} (nx : ℝ → ℝ → ℝ) (d : Domain ν) (f : Bool) (lb ub lb' ub' : Option ℝ) : (Var.mk d lb ub f).par nx = (Var.mk d lb' ub' f).par nx := rfl

theorem bounds_violated {ν : Type} (nx : ℝ → ℝ → ℝ) (x : ℝ) : ∃ q, (Var.mk (ν := ν) (.ranges [⟨none, none, 0, (true, true), true⟩] false) (some 0) (some 1) false).par nx = .ok q ∧
    q.value x 0 = some (.num x) := by
  refine ⟨.scalar (Bnd.scalar none none none).1 false, ?_, ?_⟩
  · simp [Var.par, fromRanges, ends, Bnd.scalar_free]
  · simp [Par.value, Bnd.scalar_free, Bnd.P.read, Bnd.get]

/-! ### Names -/

/-- Variables without index, and with indexes that are integers or strings, have different names. The name of the component has no bracket. -/
theorem names_inj (c c' : List Char) (hc : '[' ∉ c) (hc' : '[' ∉ c') (k k' : Key) (hk : ∀ as, k ≠ .tuple as) (hk' : ∀ as, k' ≠ .tuple as) (h : paramName c k = paramName c' k') : c = c' ∧ k = k' := by
  have split : ∀ (a b x y : List Char), '[' ∉ a → '[' ∉ b → a ++ '[' :: x = b ++ '[' :: y → a = b ∧ x = y := by
    intro a
    induction a with
    | nil =>
      intro b x y _ hb he
      cases b with
      | nil => simp only [List.nil_append, List.cons.injEq, true_and] at he; exact ⟨rfl, he⟩
      | cons d b =>
        simp only [List.nil_append, List.cons_append, List.cons.injEq] at he
        exact absurd (by rw [← he.1]; simp) hb
    | cons e a ih =>
      intro b x y ha hb he
      cases b with
      | nil =>
        simp only [List.nil_append, List.cons_append, List.cons.injEq] at he
        exact absurd (by rw [he.1]; simp) ha
      | cons d b =>
        simp only [List.cons_append, List.cons.injEq] at he
        obtain ⟨h1, h2⟩ := ih b x y (fun hm => ha (List.mem_cons_of_mem _ hm)) (fun hm => hb (List.mem_cons_of_mem _ hm)) he.2
        exact ⟨by rw [he.1, h1], h2⟩
  have nob : ∀ (a b x : List Char), '[' ∉ a → a ≠ b ++ '[' :: x := by
    rintro a b x ha rfl
    exact ha (by simp)
  have digit : ∀ n, ∀ ch ∈ Tools.decimal n, ch ≠ '-' ∧ ch ≠ '"' := by
    intro n ch hch
    obtain ⟨ds, h1, h2, -⟩ := Tools.decimal_digits n
    rw [h1] at hch
    obtain ⟨d, hd, rfl⟩ := List.mem_map.1 hch
    have := h2 d (List.mem_reverse.1 hd)
    interval_cases d <;> simp [Nat.digitChar]
  have intq : ∀ n : ℤ, ∀ ch ∈ intStr n, ch ≠ '"' := by
    intro n ch hch
    simp only [intStr, List.mem_append] at hch
    rcases hch with hch | hch
    · split_ifs at hch
      · simp only [List.mem_singleton] at hch; rw [hch]; decide
      · simp at hch
    · exact (digit _ ch hch).2
  have intinj : ∀ m n : ℤ, intStr m = intStr n → m = n := by
    intro m n hmn
    simp only [intStr] at hmn
    split_ifs at hmn with h1 h2 h2
    · have := Tools.decimal_inj _ _ (List.append_cancel_left hmn)
      omega
    · exfalso
      have hm : '-' ∈ Tools.decimal n.natAbs := by rw [List.nil_append] at hmn; rw [← hmn]; simp
      exact (digit _ _ hm).1 rfl
    · exfalso
      have hm : '-' ∈ Tools.decimal m.natAbs := by rw [List.nil_append] at hmn; rw [hmn]; simp
      exact (digit _ _ hm).1 rfl
    · simp only [List.nil_append] at hmn
      have := Tools.decimal_inj _ _ hmn
      omega
  cases k with
  | none =>
    cases k' with
    | none => exact ⟨h, rfl⟩
    | one a => simp only [paramName, List.append_assoc, List.singleton_append] at h; exact absurd h (nob c c' _ hc)
    | tuple as => exact absurd rfl (hk' as)
  | one a =>
    cases k' with
    | none => simp only [paramName, List.append_assoc, List.singleton_append] at h; exact absurd h.symm (nob c' c _ hc')
    | one b =>
      simp only [paramName, List.append_assoc, List.singleton_append] at h
      obtain ⟨h1, h2⟩ := split c c' _ _ hc hc' h
      have h2 := List.append_cancel_right h2
      refine ⟨h1, ?_⟩
      cases a with
      | int m =>
        cases b with
        | int n => rw [intinj m n h2]
        | str s =>
          exfalso
          simp only [ngName] at h2
          exact intq m '"' (by rw [h2]; simp) rfl
      | str s =>
        cases b with
        | int n =>
          exfalso
          simp only [ngName] at h2
          exact intq n '"' (by rw [← h2]; simp) rfl
        | str t =>
          simp only [ngName] at h2
          have := List.append_cancel_left (List.append_cancel_right h2)
          rw [this]
    | tuple as => exact absurd rfl (hk' as)
  | tuple as => exact absurd rfl (hk as)

theorem lit_plain (q : Char) (s r : List Char) (hq : q ≠ '\n' ∧ q ≠ '\\') (h : ∀ c ∈ s, c ≠ q ∧ c ≠ '\\' ∧ c ≠ '\n') : lit q (s ++ q :: r) = some (s, r) := by
  induction s with
  | nil =>
    rw [List.nil_append, lit]
    · simp
    · intro h1; exact hq.1 h1
    · intro _ h1; exact absurd h1 hq.2
    · intro _ _ h1; exact absurd h1 hq.2
  | cons c s ih =>
    have hc := h c (by simp)
    rw [List.cons_append, lit]
    · rw [if_neg hc.1, ih (fun d hd => h d (by simp [hd]))]; rfl
    · intro h1; exact hc.2.2 h1
    · intro _ h1; exact absurd h1 hc.2.1
    · intro _ _ h1; exact absurd h1 hc.2.1

/-- A backslash before another character is part of the key, one before `n` is not. -/
theorem lit_escape (q c : Char) (r : List Char) (h : c ≠ 'n') (h1 : c ≠ '\\') (h2 : c ≠ '\'') (h3 : c ≠ '"') :
    lit q ('\\' :: c :: r) = (lit q r).map (fun x => ('\\' :: c :: x.1, x.2)) ∧
    lit q ('\\' :: 'n' :: r) = (lit q r).map (fun x => ('\n' :: x.1, x.2)) := by
  constructor
  · rw [lit]
    · simp [h1, h2, h3]
    · exact fun e => h e
  · rw [lit]

/-- **C130.** The line of code for a name without quotes `'`, backslashes and ends of lines reads the value of that name. -/
theorem readKey_ok (k : List Char) (h : ∀ c ∈ k, c ≠ '\'' ∧ c ≠ '\\' ∧ c ≠ '\n') : readKey k = some k := by
  have := lit_plain '\'' k [']'] (by decide) h
  simp only [readKey]
  have e : "']".toList = ['\'', ']'] := rfl
  rw [e, this]
  rfl

/-- **C130.** The index on the left side is read back. -/
theorem leftKey_ok (k : List Char) (h : ∀ c ∈ k, c ≠ '"' ∧ c ≠ '\\' ∧ c ≠ '\n') : leftKey k = some k := by
  have := lit_plain '"' k [']'] (by decide) h
  simp only [leftKey]
  have e : "\"]".toList = ['"', ']'] := rfl
  rw [e, this]
  rfl

/-- C130 fails for names with a quote: the text between the brackets is not one literal. -/
theorem quote_broken (pre post : List Char) (h : ∀ c ∈ pre, c ≠ '\'' ∧ c ≠ '\\' ∧ c ≠ '\n') : readKey (pre ++ '\'' :: post) = none := by
  have e : (pre ++ '\'' :: post) ++ "']".toList = pre ++ '\'' :: (post ++ ['\'', ']']) := by simp
  simp only [readKey]
  rw [e, lit_plain '\'' pre _ (by decide) h]
  split
  · rename_i body heq
    simp only [Option.some.injEq, Prod.mk.injEq] at heq
    have := congrArg List.length heq.2
    simp at this
  · rfl

/-- C130 fails for variables indexed by tuples that begin with a string, as in a transport problem: the code of the assignments cannot be compiled. -/
theorem tuple_broken (comp s : List Char) (as : List Atom) (hc : ∀ c ∈ comp, c ≠ '\'' ∧ c ≠ '\\' ∧ c ≠ '\n') (hs : '\'' ∉ s) : readKey (paramName comp (.tuple (.str s :: as))) = none := by
  have : ∃ post, paramName comp (.tuple (.str s :: as)) = (comp ++ ['[', '(']) ++ '\'' :: post := by
    have hr : ¬('\'' ∈ s ∧ '"' ∉ s) := fun h => hs h.1
    obtain ⟨rest, hrest⟩ : ∃ rest, (", ".toList).intercalate ((Atom.str s :: as).map Atom.repr) = reprStr s ++ rest := by
      cases as with
      | nil => exact ⟨[], by simp [List.intercalate, Atom.repr]⟩
      | cons a as => exact ⟨_, by simp only [List.intercalate, List.map_cons, List.intersperse_cons_cons, List.flatten_cons, Atom.repr]; rfl⟩
    refine ⟨s.flatMap (fun c => if c = '\\' ∨ c = '\'' then ['\\', c] else [c]) ++ ['\''] ++ rest ++ (if (Atom.str s :: as).length = 1 then [','] else []) ++ [')'] ++ [']'], ?_⟩
    simp only [paramName, ngName, hrest, reprStr, if_neg hr, List.append_assoc, List.singleton_append, List.cons_append, List.nil_append]
  obtain ⟨post, hp⟩ := this
  rw [hp]
  apply quote_broken
  intro c hm
  rcases List.mem_append.1 hm with hm | hm
  · exact hc c hm
  · simp only [List.mem_cons, List.not_mem_nil, or_false] at hm
    rcases hm with rfl | rfl <;> decide

/-! ### Evaluations -/

/-- **C130.** A constraint of the model is checked as it is written: an indexed one is the conjunction of its members. -/
theorem check_spec {A : Type} (a : A) (c : Constr A) : c.check a = true ↔ match c with | .simple p => p a = true | .indexed ps => ∀ p ∈ ps, p a = true := by
  cases c with
  | simple p => rfl
  | indexed ps =>
    have : ∀ (ps : List (A → Bool)) (ret : Bool), Constr.check.go a ret ps = true ↔ ret = true ∧ ∀ p ∈ ps, p a = true := by
      intro ps
      induction ps with
      | nil => intro ret; simp [Constr.check.go]
      | cons p ps ih =>
        intro ret
        simp only [Constr.check.go]
        cases ret <;> cases hp : p a <;> simp [hp, ih]
    simp only [Constr.check, this, true_and]

theorem assign_go {V : Type} (kw : List (String × V)) : ∀ (ns : List String) (st : String → V), (∀ n ∈ ns, (Tools.dictGet kw n).isSome) →
    ∃ st', Inst.assign.go kw ns st = some st' ∧ (∀ n, n ∈ ns → some (st' n) = Tools.dictGet kw n) ∧ (∀ n, n ∉ ns → st' n = st n) := by
  intro ns
  induction ns with
  | nil => intro st _; exact ⟨st, rfl, by simp, by simp⟩
  | cons n ns ih =>
    intro st h
    have hn := h n (by simp)
    obtain ⟨v, hv⟩ := Option.isSome_iff_exists.1 hn
    obtain ⟨st', h1, h2, h3⟩ := ih (fun m => if m = n then v else st m) (fun m hm => h m (by simp [hm]))
    refine ⟨st', by simp only [Inst.assign.go, hv]; exact h1, fun m hm => ?_, fun m hm => ?_⟩
    · by_cases hmn : m ∈ ns
      · exact h2 m hmn
      · have : m = n := by simpa [hmn] using hm
        subst this
        rw [h3 m hmn]; simp [hv]
    · simp only [List.mem_cons, not_or] at hm
      rw [h3 m hm.2]; simp [hm.1]

/-- The candidates of one function: each gives a value to each of the variables. -/
def Full {V : Type} (vars : List String) (kw : List (String × V)) : Prop := ∀ n, n ∈ vars ↔ (Tools.dictGet kw n).isSome

theorem assign_spec {V : Type} (vars : List String) (kw : List (String × V)) (h : Full vars kw) (s : Inst V) (hs : ∀ c, s.code = some c → ∀ n, n ∈ c ↔ n ∈ vars) :
    ∃ s', s.assign kw = some s' ∧ (∀ c, s'.code = some c → ∀ n, n ∈ c ↔ n ∈ vars) ∧ ∀ n ∈ vars, some (s'.store n) = Tools.dictGet kw n := by
  have hkeys : ∀ n, n ∈ kw.map Prod.fst ↔ n ∈ vars := by
    intro n
    rw [h n, Tools.dictGet, Option.isSome_map, List.find?_isSome]
    simp
  have hn : ∀ n, n ∈ s.code.getD (kw.map Prod.fst) ↔ n ∈ vars := by
    cases hc : s.code with
    | none => exact hkeys
    | some c => exact hs c hc
  obtain ⟨st', h1, h2, -⟩ := assign_go kw _ s.store (fun n hm => (h n).1 ((hn n).1 hm))
  refine ⟨{ code := some (s.code.getD (kw.map Prod.fst)), store := st' }, by simp [Inst.assign, h1], ?_, fun n hm => h2 n ((hn n).2 hm)⟩
  intro c hc
  cases hc
  exact hn

/-- What a call must give: the objective with its sense, or the truth of the constraint, for the values of the candidate only. -/
def Right {V : Type} (f : Fn V) (which : Option Nat) (a : String → V) : Option Res :=
  match which with
  | none => some (.loss (f.sense * f.objective a))
  | some i => f.constraints[i]?.map fun c => .holds (c.check a)

/-- The objective and the constraints use the variables only. -/
def Uses {V : Type} (f : Fn V) (vars : List String) : Prop := ∀ a b : String → V, (∀ n ∈ vars, a n = b n) → f.objective a = f.objective b ∧ ∀ c ∈ f.constraints, c.check a = c.check b

/-- **C130.** One after the other, all the calls of the objective and of the constraints give the result for the values of their own candidate, whatever was evaluated before. -/
theorem calls_spec {V : Type} (f : Fn V) (vars : List String) (hu : Uses f vars) :
    ∀ (cs : List (Option Nat × List (String × V))) (s : Inst V), (∀ c, s.code = some c → ∀ n, n ∈ c ↔ n ∈ vars) → (∀ c ∈ cs, Full vars c.2 ∧ ∀ i, c.1 = some i → i < f.constraints.length) →
      ∃ rs s', f.calls cs s = some (rs, s') ∧ rs.length = cs.length ∧ ∀ (j : Nat) (c : Option Nat × List (String × V)), cs[j]? = some c → ∀ a : String → V, (∀ n ∈ vars, some (a n) = Tools.dictGet c.2 n) →
        rs[j]? = Right f c.1 a := by
  intro cs
  induction cs with
  | nil => intro s _ _; exact ⟨[], s, rfl, rfl, by simp⟩
  | cons c cs ih =>
    intro s hs hc
    obtain ⟨hfull, hi⟩ := hc c (by simp)
    obtain ⟨s1, h1, h2, h3⟩ := assign_spec vars c.2 hfull s hs
    obtain ⟨rs, s', h4, h5, h6⟩ := ih s1 h2 (fun d hd => hc d (by simp [hd]))
    have hagree : ∀ a : String → V, (∀ n ∈ vars, some (a n) = Tools.dictGet c.2 n) → ∀ n ∈ vars, s1.store n = a n := by
      intro a ha n hn
      have := (h3 n hn).trans (ha n hn).symm
      simpa using this
    obtain ⟨r, hr, hright⟩ : ∃ r, f.call c.1 c.2 s = some (r, s1) ∧ ∀ a : String → V, (∀ n ∈ vars, some (a n) = Tools.dictGet c.2 n) → some r = Right f c.1 a := by
      simp only [Fn.call, h1, Option.bind_some]
      cases hw : c.1 with
      | none =>
        refine ⟨_, rfl, fun a ha => ?_⟩
        simp only [Right, Fn.loss, (hu _ _ (hagree a ha)).1]
        rw [mul_comm]
      | some i =>
        have hlt := hi i hw
        refine ⟨.holds (f.constraints[i].check s1.store), by simp [List.getElem?_eq_getElem hlt], fun a ha => ?_⟩
        simp only [Right, List.getElem?_eq_getElem hlt, Option.map_some, (hu _ _ (hagree a ha)).2 _ (List.getElem_mem hlt)]
    refine ⟨r :: rs, s', by simp [Fn.calls, hr, h4], by simp [h5], ?_⟩
    intro j d hd a ha
    cases j with
    | zero =>
      simp only [List.getElem?_cons_zero, Option.some.injEq] at hd ⊢
      subst hd
      simpa using hright a ha
    | succ j =>
      simp only [List.getElem?_cons_succ] at hd ⊢
      exact h6 j d hd a ha

/-- **C130.** The loss orders the assignments as the objective does: the smaller loss is the smaller value to minimize, and the greater one to maximize. -/
theorem loss_order {V : Type} (f : Fn V) (s t : Inst V) : (f.sense = 1 → (f.loss s < f.loss t ↔ f.objective s.store < f.objective t.store)) ∧
    (f.sense = -1 → (f.loss s < f.loss t ↔ f.objective t.store < f.objective s.store)) := by
  constructor <;> intro h <;> simp [Fn.loss, h]

/-- C130 fails for evaluations in several threads: the first one gets the loss of the second candidate. -/
theorem race_wrong {V : Type} (f : Fn V) (vars : List String) (hu : Uses f vars) (kw1 kw2 : List (String × V)) (h1 : Full vars kw1) (h2 : Full vars kw2) (st : String → V) (a : String → V)
    (ha : ∀ n ∈ vars, some (a n) = Tools.dictGet kw2 n) : f.race kw1 kw2 { code := none, store := st } = some (f.sense * f.objective a) := by
  obtain ⟨s1, e1, c1, -⟩ := assign_spec vars kw1 h1 { code := none, store := st } (by simp)
  obtain ⟨s2, e2, -, d2⟩ := assign_spec vars kw2 h2 s1 c1
  simp only [Fn.race, e1, e2, Option.bind_some, Option.map_some, Fn.loss]
  rw [(hu s2.store a (fun n hn => by have := (d2 n hn).trans (ha n hn).symm; simpa using this)).1, mul_comm]

/-! ### Examples -/

example : paramName "x".toList (.one (.str "New York".toList)) = "x[\"New York\"]".toList ∧ paramName "x".toList (.one (.int (-12))) = "x[-12]".toList ∧
    paramName "x".toList (.tuple [.str "a".toList, .int 2]) = "x[('a', 2)]".toList := by decide +kernel

example : readKey "x[\"New York\"]".toList = some "x[\"New York\"]".toList ∧ readKey "x[('a', 2)]".toList = none ∧ readKey "x[(1, 2)]".toList = some "x[(1, 2)]".toList := by decide +kernel

/-- A machine that has the integers. -/
example : NextAfter (Set.range fun n : ℤ => (n : ℝ)) (fun x t => if x < t then min t (⌊x⌋ + 1) else if t < x then max t (⌈x⌉ - 1) else x) := by
  refine ⟨fun x t h => ?_, fun x t h => ?_, fun x => by simp, fun x t y h => ?_, fun x t y h => ?_⟩
  · simp only [if_pos h]; exact ⟨lt_min h (Int.lt_floor_add_one x), min_le_left _ _⟩
  · simp only [if_neg (not_lt.2 h.le), if_pos h]
    exact ⟨max_lt h (by have := Int.ceil_lt_add_one x; linarith), le_max_left _ _⟩
  · rintro ⟨n, rfl⟩ hy
    simp only [if_pos h]
    refine (min_le_right _ _).trans ?_
    have : ⌊x⌋ < n := Int.floor_lt.2 hy
    exact_mod_cast this
  · rintro ⟨n, rfl⟩ hy
    simp only [if_neg (not_lt.2 h.le), if_pos h]
    refine le_trans ?_ (le_max_right _ _)
    have : n < ⌈x⌉ := Int.lt_ceil.2 hy
    have h2 : n ≤ ⌈x⌉ - 1 := by omega
    exact_mod_cast h2

/-- `PositiveReals`. -/
example {F : Set ℝ} {nx : ℝ → ℝ → ℝ} (hnx : NextAfter F nx) : (Var.mk (ν := Nat) (.ranges [⟨some 0, none, 0, (false, true), true⟩] false) none none false).par nx = .error .value :=
  half_refused hnx _ _ false rfl rfl rfl (Or.inl rfl) (Or.inl ⟨0, rfl, rfl, by simp⟩)

/-- `PositiveIntegers`. -/
example {F : Set ℝ} {nx : ℝ → ℝ → ℝ} (hnx : NextAfter F nx) : (Var.mk (ν := Nat) (.ranges [⟨some 1, none, 1, (true, true), true⟩] false) none none false).par nx = .error .value :=
  half_refused hnx _ _ false rfl rfl rfl (Or.inr rfl) (Or.inl ⟨1, rfl, rfl, by simp⟩)

/-- The open interval from 2 to 5 has a candidate at the number below 2. -/
example {F : Set ℝ} {nx : ℝ → ℝ → ℝ} (hnx : NextAfter F nx) (h5 : nx 5 (-1) = 4.5) :
    ∃ q, (Var.mk (ν := Nat) (.ranges [⟨some 2, some 5, 0, (false, false), true⟩] false) none none false).par nx = .ok q := by
  have h2 := (hnx.down 2 1 (by norm_num)).1
  refine ⟨.scalar (Bnd.scalar none (some (nx 2 1)) (some (nx 5 (-1)))).1 false, ?_⟩
  have := Bnd.scalar_bounded (nx 2 1) (nx 5 (-1)) (by rw [h5]; linarith)
  simp [Var.par, fromRanges, ends, this]

example : (Constr.indexed [fun x : Nat => decide (x < 5), fun x => decide (1 < x)]).check 3 = true ∧ (Constr.indexed [fun x : Nat => decide (x < 5), fun x => decide (1 < x)]).check 1 = false := by decide

end NG.Pyomo
