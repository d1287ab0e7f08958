/-
C129: the optimizers made from pymoo.
-/
import Verif.Model.Pymoo
import Verif.Props.Recast

set_option linter.unusedSectionVars false
set_option linter.unusedSimpArgs false

namespace NG.Pymoo

open Recast

variable {P L S : Type}

/-! ### The points -/

/-- **C129.** Every point of the space is the image of exactly one point of the inside of the box of pymoo. -/
theorem reach {d : Nat} (v : Fin d → ℝ) : ∃! X : Fin d → ℝ, (∀ i, X i ∈ Set.Ioo bounds.1 bounds.2) ∧ toData X = v := by
  have hb : Set.Ioo bounds.1 bounds.2 = Set.Ioo (-(Real.pi / 2)) (Real.pi / 2) := by
    simp only [bounds]; congr 1 <;> ring
  rw [hb]
  refine ⟨fun i => Real.arctan (v i), ⟨fun i => Real.arctan_mem_Ioo _, ?_⟩, ?_⟩
  · funext i; simp [toData, Real.tan_arctan]
  · rintro X ⟨h1, rfl⟩
    funext i
    simp only [toData]
    rw [Real.arctan_tan (h1 i).1 (h1 i).2]

/-- The order of the values of a coordinate is kept. -/
theorem monotone {d : Nat} {X Y : Fin d → ℝ} (hX : ∀ i, X i ∈ Set.Ioo bounds.1 bounds.2) (hY : ∀ i, Y i ∈ Set.Ioo bounds.1 bounds.2) (i : Fin d) :
    toData X i < toData Y i ↔ X i < Y i := by
  have hb : Set.Ioo bounds.1 bounds.2 = Set.Ioo (-(Real.pi / 2)) (Real.pi / 2) := by
    simp only [bounds]; congr 1 <;> ring
  rw [hb] at hX hY
  exact Real.strictMonoOn_tan.lt_iff_lt (hX i) (hY i)

/-! ### One point at a time -/

/-- The algorithm called as a function on the objective, as a specification: the points that it evaluates. -/
def direct (alg : S → Act P (List L) S) (fuel : Nat) (f : P → List L) : Nat → Sys P (List L) S → Option (List P × Sys P (List L) S)
  | 0, y => some ([], y)
  | k + 1, y =>
    match Recast.ask alg fuel y with
    | (.point x, y') => (direct alg fuel f k (Recast.tell alg (some (f x)) y')).map fun r => (x :: r.1, r.2)
    | _ => none

theorem tell_plain {alg : S → Act P (List L) S} {n : Nat} {y y' : Sys P (List L) S} (hp : Plain y) {x : P} (ha : Recast.ask alg (n + 2) y = (.point x, y')) (l : List L) :
    Plain (Recast.tell alg (some l) y') ∧ y'.wk.alive = true := by
  obtain ⟨k, h1, h2, h3, h4⟩ := ask_plain alg n y hp x y' ha
  have ht : Recast.tell alg (some l) y' = { y' with qTell := y'.qTell ++ [some l], puts := y'.puts ++ [some l] } := by
    simp [Recast.tell, Recast.step, h1, h4, Wk.alive]
  refine ⟨?_, by rw [h1]; rfl⟩
  rw [ht]
  exact ⟨h3, h4, Or.inr ⟨x, k, l, h1, by simp [h2]⟩⟩

theorem round_point {alg : S → Act P (List L) S} {n : Nat} {s0 : S} {inf : L} {init : P} {f : P → List L} {v : L} {o : Py P L S} (hn : o.num ≠ 0)
    (hp : Plain (o.thread.getD (.start s0))) {x : P} {y' : Sys P (List L) S} (ha : Recast.ask alg (n + 2) (o.thread.getD (.start s0)) = (.point x, y')) (hf : (f x).length = o.num) :
    Py.round alg (n + 2) s0 inf init f v o = some (x, [(x, some (f x))], { num := o.num, thread := some (Recast.tell alg (some (f x)) y') }) := by
  obtain ⟨-, hal⟩ := tell_plain hp ha (f x)
  have h0 : ¬((f x).length = 0) := by omega
  have h1 : ¬(o.num ≠ 0 ∧ o.num ≠ (f x).length) := by omega
  simp only [Py.round, Py.trials, Py.ask, if_neg hn, ha, if_true, Py.tell, if_neg h0, if_neg h1, Py.internalTell, hal, postLoss, Option.map_some, Option.any_some]
  rw [hf]

/-- **C129.** When the number of objectives is given before, the evaluated points are exactly those that the algorithm evaluates when it is called with the objective, no evaluation is lost,
and the archive for pickling has the told points with their losses. -/
theorem known (alg : S → Act P (List L) S) (n : Nat) (s0 : S) (inf : L) (init : P) (f : P → List L) (m : Nat) (hm : m ≠ 0) (hf : ∀ x, (f x).length = m) :
    ∀ (vs : List L) (o : Py P L S), o.num = m → Plain (o.thread.getD (.start s0)) → ∀ xs y, direct alg (n + 2) f vs.length (o.thread.getD (.start s0)) = some (xs, y) →
      ∃ o', Py.rounds alg (n + 2) s0 inf init f vs o = some (xs, xs.map (fun x => (x, some (f x))), o') ∧ o'.num = m ∧ o'.thread.getD (.start s0) = y := by
  intro vs
  induction vs with
  | nil =>
    intro o ho hp xs y hd
    simp only [List.length_nil, direct, Option.some.injEq, Prod.mk.injEq] at hd
    obtain ⟨rfl, rfl⟩ := hd
    exact ⟨o, rfl, ho, rfl⟩
  | cons v vs ih =>
    intro o ho hp xs y hd
    simp only [List.length_cons, direct] at hd
    cases ha : Recast.ask alg (n + 2) (o.thread.getD (.start s0)) with
    | mk r y1 =>
      cases r with
      | point x =>
        simp only [ha, Option.map_eq_some_iff] at hd
        obtain ⟨⟨zs, z⟩, hd, he⟩ := hd
        simp only [Prod.mk.injEq] at he
        obtain ⟨rfl, rfl⟩ := he
        have hr := round_point (inf := inf) (init := init) (v := v) (f := f) (by omega) hp ha (by rw [hf, ho])
        obtain ⟨o', h1, h2, h3⟩ := ih { num := o.num, thread := some (Recast.tell alg (some (f x)) y1) } ho (tell_plain hp ha (f x)).1 zs z hd
        exact ⟨o', by simp [Py.rounds, hr, h1], h2, h3⟩
      | random => simp only [ha] at hd; cases hd
      | raised => simp only [ha] at hd; cases hd
      | stuck => simp only [ha] at hd; cases hd

/-- **C129.** When the number of objectives is not given, one evaluation of the initial value is made first and not used; afterwards everything is as if it had been given. -/
theorem unknown (alg : S → Act P (List L) S) (fuel : Nat) (s0 : S) (inf : L) (init : P) (f : P → List L) (hf : (f init).length ≠ 0) (v : L) (vs : List L) :
    Py.rounds alg fuel s0 inf init f (v :: vs) { num := 0, thread := none } =
      (Py.rounds alg fuel s0 inf init f vs { num := (f init).length, thread := none }).map fun r => (init :: r.1, r.2) := by
  simp only [Py.rounds, Py.round, Py.trials, Py.ask, if_true, Py.tell, if_neg hf, Py.internalTell, ne_eq, not_true, false_and, if_false, Option.map_some, Option.any_none]
  simp only [Option.bind_eq_bind, Option.bind_some, Bool.false_eq_true, if_false, List.nil_append]
  cases Py.rounds alg fuel s0 inf init f vs { num := (f init).length, thread := none } <;> rfl

/-- C129 fails for penalties ("constraints handled already by nevergrad", recastlib.py 860): whatever is added to the losses for violated constraints, the algorithm receives the same values and
evaluates the same points. -/
theorem penalty_ignored (alg : S → Act P (List L) S) (fuel : Nat) (s0 : S) (inf : L) (init : P) (f : P → List L) :
    ∀ (vs ws : List L) (o : Py P L S), vs.length = ws.length → Py.rounds alg fuel s0 inf init f vs o = Py.rounds alg fuel s0 inf init f ws o := by
  intro vs
  induction vs with
  | nil => intro ws o h; cases ws <;> simp_all [Py.rounds]
  | cons v vs ih =>
    intro ws o h
    cases ws with
    | nil => simp at h
    | cons w ws =>
      have hr : Py.round alg fuel s0 inf init f v o = Py.round alg fuel s0 inf init f w o := rfl
      simp only [Py.rounds, hr]
      congr 1
      funext r
      rw [ih ws _ (by simpa using h)]

/-- The losses that the algorithm receives are the told ones, all of them: nothing is said about penalties. -/
theorem told_losses (losses : List L) (penalized : L) : postLoss (some losses) penalized = some losses := rfl

/-- **C129.** Pickling: the replay of the archive rebuilds the thread, with any penalties. -/
theorem replays [DecidableEq P] (alg : S → Act P (List L) S) (fuel : Nat) (f : P → List L) :
    ∀ (k : Nat) (y0 : Sys P (List L) S) (xs : List P) (y : Sys P (List L) S), direct alg fuel f k y0 = some (xs, y) →
      replay alg fuel (xs.map fun x => (x, some (f x))) y0 = some y := by
  intro k
  induction k with
  | zero =>
    intro y0 xs y hd
    simp only [direct, Option.some.injEq, Prod.mk.injEq] at hd
    obtain ⟨rfl, rfl⟩ := hd
    rfl
  | succ k ih =>
    intro y0 xs y hd
    simp only [direct] at hd
    cases ha : Recast.ask alg fuel y0 with
    | mk r y1 =>
      cases r with
      | point x =>
        simp only [ha, Option.map_eq_some_iff] at hd
        obtain ⟨⟨zs, z⟩, hd, he⟩ := hd
        simp only [Prod.mk.injEq] at he
        obtain ⟨rfl, rfl⟩ := he
        simp only [List.map_cons, replay, ha, if_true]
        exact ih _ _ _ hd
      | random => simp only [ha] at hd; cases hd
      | raised => simp only [ha] at hd; cases hd
      | stuck => simp only [ha] at hd; cases hd

/-- C129 fails for cheap constraints: as soon as the algorithm proposes a point that violates them, `ask` raises an error (the candidate has no losses yet), and the next `ask` waits for ever. -/
theorem reject_error (alg : S → Act P (List L) S) (n t : Nat) (s0 : S) (inf : L) (ok : P → Bool) (init rnd : P) (solver : P → P) (o : Py P L S) (hn : o.num ≠ 0)
    (hp : Plain (o.thread.getD (.start s0))) {x : P} {y' : Sys P (List L) S} (ha : Recast.ask alg (n + 2) (o.thread.getD (.start s0)) = (.point x, y')) (hx : ok x = false) :
    ∃ o', Py.trials alg (n + 2) s0 inf ok init rnd solver (t + 1) o = (.error, o') ∧ (Py.trials alg (n + 2) s0 inf ok init rnd solver (t + 1) o').1 = .stuck := by
  obtain ⟨k, h1, h2, h3, h4⟩ := ask_plain alg n _ hp x y' ha
  have hal : y'.wk.alive = true := by rw [h1]; rfl
  refine ⟨{ num := o.num, thread := some y' }, ?_, ?_⟩
  · simp only [Py.trials, Py.ask, if_neg hn, ha, hx, Bool.false_eq_true, if_false, Py.internalTell, hal, if_true, postLoss, Option.map_none]
  · have hstuck : (Recast.ask alg (n + 2) y').1 = .stuck := by
      have he : Recast.step alg .enter y' = some { y' with blocked := true } := by simp [Recast.step, h1, Wk.alive, h4]
      have hd : drain alg (n + 2) { y' with blocked := true } = { y' with blocked := true } := by
        simp [drain, work, h1, h2]
      rw [Recast.ask, he]
      simp only [hd]
      simp [Recast.step, h3]
    simp only [Py.trials, Py.ask, if_neg hn, Option.getD_some]
    generalize Recast.ask alg (n + 2) y' = r at hstuck
    obtain ⟨r1, r2⟩ := r
    simp only at hstuck
    subst hstuck
    rfl

/-- C129, the part that holds: as long as the proposed points satisfy the constraints, an ask gives the point of the algorithm. -/
theorem accept_partial (alg : S → Act P (List L) S) (fuel t : Nat) (s0 : S) (inf : L) (ok : P → Bool) (init rnd : P) (solver : P → P) (o : Py P L S) (hn : o.num ≠ 0)
    {x : P} {y' : Sys P (List L) S} (ha : Recast.ask alg fuel (o.thread.getD (.start s0)) = (.point x, y')) (hx : ok x = true) :
    Py.trials alg fuel s0 inf ok init rnd solver (t + 1) o = (.point x, { num := o.num, thread := some y' }) := by
  simp only [Py.trials, Py.ask, if_neg hn, ha, hx, if_true]

/-- Before the number of objectives is known, an ask gives the value of the parametrization when it satisfies the constraints, and not a random point. -/
theorem dummy_point (alg : S → Act P (List L) S) (fuel t : Nat) (s0 : S) (inf : L) (ok : P → Bool) (init rnd : P) (solver : P → P) (o : Py P L S) (hn : o.num = 0) (hx : ok init = true) :
    Py.trials alg fuel s0 inf ok init rnd solver (t + 1) o = (.point init, o) := by
  simp only [Py.trials, Py.ask, if_pos hn, hx, if_true]

/-- The number of objectives does not change, and a tell with another number is refused. -/
theorem tell_num (alg : S → Act P (List L) S) (losses : List L) (v : L) (o o' : Py P L S) (h : Py.tell alg losses v o = some o') :
    o'.num = losses.length ∧ losses ≠ [] ∧ (o.num = 0 ∨ o.num = losses.length) := by
  simp only [Py.tell] at h
  split at h
  · cases h
  split at h
  · cases h
  rename_i h1 h2
  have hnum : o'.num = losses.length := by
    simp only [Py.internalTell] at h
    split at h
    · cases h; rfl
    · split at h
      · simp only [Option.map_eq_some_iff] at h
        obtain ⟨l, -, rfl⟩ := h
        rfl
      · split at h
        · cases h
        · cases h; rfl
  refine ⟨hnum, by intro h3; apply h1; simp [h3], by omega⟩

/-! ### Batches -/

/-- What holds in all states of a batch optimizer. -/
structure PBInv (s : PB P L S) : Prop where
  fresh : ∀ e ∈ s.b.batch.indices, e.1 < s.b.batch.next ∧ e.1 ∉ s.dummies
  old : ∀ d ∈ s.dummies, d < s.b.batch.next
  current : ∀ c ∈ s.b.batch.current, c.1 ∈ s.b.batch.indices.map Prod.fst
  pending : ∀ u ∈ s.pending, u ∈ s.dummies ∨ u ∈ s.b.batch.indices.map Prod.fst
  nodup : (s.pending ++ s.b.batch.current.map Prod.fst).Nodup
  blocked : s.b.sys.blocked = true → s.b.batch.current = [] ∧ s.b.batch.indices = []

theorem PBInv.init (s0 : S) (num : Nat) : PBInv (PB.init s0 num : PB P L S) := by
  refine ⟨?_, ?_, ?_, ?_, ?_, ?_⟩ <;> simp [PB.init, BSys.start, Batch.init]

theorem receive_uids (b : Batch P (List L)) (points : List P) : (b.receive points).current.map Prod.fst = (List.range points.length).map (fun i => b.next + i) := by
  apply List.ext_getElem?
  intro i
  simp only [Batch.receive, List.getElem?_mapIdx, List.getElem?_map]
  by_cases hi : i < points.length
  · rw [List.getElem?_eq_getElem hi, List.getElem?_range hi]; rfl
  · rw [List.getElem?_eq_none (by omega), List.getElem?_eq_none (by simp; omega)]; rfl

theorem receive_indices (b : Batch P (List L)) (points : List P) : (b.receive points).indices.map Prod.fst = (b.receive points).current.map Prod.fst := by
  rw [receive_uids]
  apply List.ext_getElem?
  intro i
  simp only [Batch.receive, List.getElem?_mapIdx, List.getElem?_map]
  by_cases hi : i < points.length
  · rw [List.getElem?_eq_getElem hi, List.getElem?_range hi]; rfl
  · rw [List.getElem?_eq_none (by omega), List.getElem?_eq_none (by simp; omega)]; rfl

theorem pop_current {b b' : Batch P (List L)} {c : Nat × P} (h : b.pop = some (c, b')) :
    b.current = b'.current ++ [c] ∧ b'.indices = b.indices ∧ b'.next = b.next := by
  simp only [Batch.pop] at h
  split at h
  · cases h
  · rename_i c' hc
    simp only [Option.some.injEq, Prod.mk.injEq] at h
    obtain ⟨rfl, rfl⟩ := h
    refine ⟨?_, rfl, rfl⟩
    exact (List.dropLast_append_getLast? _ hc).symm

theorem step_blocked {alg : S → Act (List P) (List (Option (List L))) S} {y y' : Sys (List P) (List (Option (List L))) S} (h : Recast.step alg .work y = some y') : y'.blocked = y.blocked := by
  simp only [Recast.step, work] at h
  split at h
  · split at h <;> (cases h; rfl)
  · split at h
    · cases h
    · cases h; rfl
    · cases h; rfl
  · cases h; rfl
  · cases h; rfl
  · cases h

/-- The new members of a batch are given uids that were never used. -/
theorem PBInv.receive {s : PB P L S} (h : PBInv s) (hb : s.b.sys.blocked = true) (points : List P) :
    (∀ e ∈ (s.b.batch.receive points).indices, e.1 < (s.b.batch.receive points).next ∧ e.1 ∉ s.dummies) ∧
    (∀ u ∈ s.pending, u ∈ s.dummies ∧ u < s.b.batch.next) ∧
    (s.pending ++ (s.b.batch.receive points).current.map Prod.fst).Nodup := by
  have hpd : ∀ u ∈ s.pending, u ∈ s.dummies ∧ u < s.b.batch.next := by
    intro u hu
    rcases h.pending u hu with h1 | h1
    · exact ⟨h1, h.old u h1⟩
    · rw [(h.blocked hb).2] at h1; simp at h1
  have key : ∀ u ∈ (s.b.batch.receive points).current.map Prod.fst, s.b.batch.next ≤ u ∧ u < s.b.batch.next + points.length := by
    intro u hu
    rw [receive_uids] at hu
    simp only [List.mem_map, List.mem_range] at hu
    obtain ⟨i, hi, rfl⟩ := hu
    omega
  refine ⟨?_, hpd, ?_⟩
  · intro e he
    have := key e.1 (by rw [← receive_indices]; exact List.mem_map_of_mem he)
    refine ⟨this.2, fun hd => ?_⟩
    have := h.old _ hd
    omega
  · rw [List.nodup_append]
    refine ⟨(List.nodup_append.1 h.nodup).1, ?_, ?_⟩
    · rw [receive_uids]
      exact List.Nodup.map (fun a b hab => by simpa using hab) List.nodup_range
    · intro a ha c hc hac
      have := (hpd a ha).2
      have := (key c hc).1
      omega

theorem PBInv.step {alg : S → Act (List P) (List (Option (List L))) S} {op : PBOp L} {s s' : PB P L S} (h : PBInv s) (hs : s.step alg op = .ok s') : PBInv s' := by
  cases op with
  | dummy =>
    simp only [PB.step] at hs
    split at hs
    · cases hs
      have hnp : s.b.batch.next ∉ s.pending ++ s.b.batch.current.map Prod.fst := by
        intro hm
        rcases List.mem_append.1 hm with hm | hm
        · rcases h.pending _ hm with h1 | h1
          · have := h.old _ h1; omega
          · obtain ⟨e, he, h2⟩ := List.mem_map.1 h1
            have := (h.fresh e he).1; omega
        · obtain ⟨c, hc, h2⟩ := List.mem_map.1 hm
          obtain ⟨e, he, h3⟩ := List.mem_map.1 (h.current c hc)
          have := (h.fresh e he).1; omega
      refine ⟨?_, ?_, h.current, ?_, ?_, h.blocked⟩
      · intro e he
        have h1 := h.fresh e he
        refine ⟨by have := h1.1; simp only; omega, fun hd => ?_⟩
        rcases List.mem_cons.1 hd with hd | hd
        · have := h1.1; omega
        · exact h1.2 hd
      · intro d hd
        rcases List.mem_cons.1 hd with rfl | hd
        · simp
        · have := h.old d hd; simp only; omega
      · intro u hu
        rcases List.mem_cons.1 hu with rfl | hu
        · exact Or.inl (List.mem_cons_self ..)
        · exact (h.pending u hu).imp (List.mem_cons_of_mem _) id
      · simp only [List.cons_append, List.nodup_cons]
        exact ⟨hnp, h.nodup⟩
    · cases hs
  | work =>
    simp only [PB.step] at hs
    split at hs
    · split at hs
      · cases hs
      · rename_i b hb
        cases hs
        simp only [bstep, Option.map_eq_some_iff] at hb
        obtain ⟨y, hy, rfl⟩ := hb
        exact ⟨h.fresh, h.old, h.current, h.pending, h.nodup, fun hbl => h.blocked (by rw [← step_blocked hy]; exact hbl)⟩
    · cases hs
  | pop =>
    simp only [PB.step] at hs
    split at hs
    · cases hs
    split at hs
    · rename_i c b1 b hc hb
      cases hs
      simp only [bstep, hc] at hb
      split at hb
      · cases hb
      · rename_i hbl
        cases hb
        obtain ⟨h1, h2, h3⟩ := pop_current hc
        refine ⟨by simpa only [h2, h3] using h.fresh, by simpa only [h3] using h.old, ?_, ?_, ?_, fun hb => absurd hb hbl⟩
        · intro c' hc'
          simp only [h2]
          exact h.current c' (by rw [h1]; exact List.mem_append_left _ hc')
        · intro u hu
          simp only [h2]
          rcases List.mem_cons.1 hu with rfl | hu
          · exact Or.inr (h.current c (by rw [h1]; simp))
          · exact h.pending u hu
        · have hn := h.nodup
          rw [h1, List.map_append, ← List.append_assoc] at hn
          simp only [List.map_cons, List.map_nil] at hn
          exact (List.perm_append_singleton _ _).nodup_iff.1 hn
    · cases hs
  | enter =>
    simp only [PB.step] at hs
    split at hs
    · cases hs
    split at hs
    · cases hs
    · rename_i b hb
      cases hs
      simp only [bstep] at hb
      split at hb
      · rename_i hc
        simp only [Option.map_eq_some_iff] at hb
        obtain ⟨y, hy, rfl⟩ := hb
        refine ⟨h.fresh, h.old, h.current, h.pending, h.nodup, fun _ => ⟨hc.1, ?_⟩⟩
        have := hc.2
        simpa [Batch.canAsk, hc.1] using this
      · cases hb
  | take =>
    simp only [PB.step] at hs
    have hbl : ∀ b, bstep alg .take s.b = some b → s.b.sys.blocked = true ∧ b.sys.blocked = false := by
      intro b hb
      simp only [bstep] at hb
      split at hb
      · cases hb
      · rename_i y hy
        have : s.b.sys.blocked = true ∧ y.blocked = false := by
          simp only [Recast.step] at hy
          split at hy
          · rename_i h1
            refine ⟨h1, ?_⟩
            split at hy
            · cases hy
            · cases hy; rfl
            · cases hy; rfl
          · cases hy
        split at hb
        · split at hb
          · cases hb; exact this
          · cases hb; exact this
        · cases hb; exact this
    cases hb : bstep alg .take s.b with
    | none => simp only [hb] at hs; cases hs
    | some b =>
      obtain ⟨hb1, hb2⟩ := hbl b hb
      simp only [hb] at hs
      have hnb : ∀ {q : Prop}, b.sys.blocked = true → q := fun hq => by rw [hb2] at hq; cases hq
      cases hq : s.b.sys.qAsk with
      | nil =>
        simp only [hq] at hs
        cases hs
        simp only [bstep] at hb
        split at hb
        · cases hb
        · simp only [hq] at hb
          cases hb
          exact ⟨h.fresh, h.old, h.current, h.pending, h.nodup, fun hq => hnb hq⟩
      | cons m ms =>
        cases m with
        | pt points =>
          simp only [hq] at hs
          obtain ⟨r1, r2, r3⟩ := h.receive hb1 points
          have r4 : ∀ d ∈ s.dummies, d < (s.b.batch.receive points).next := fun d hd => by
            have := h.old d hd
            simp only [Batch.receive]; omega
          simp only [bstep, hq] at hb
          split at hb
          · cases hb
          cases hpop : (s.b.batch.receive points).pop with
          | none =>
            simp only [hpop] at hs hb
            cases hs
            cases hb
            refine ⟨r1, r4, ?_, fun u hu => Or.inl (r2 u hu).1, r3, fun hq => hnb hq⟩
            intro c hc
            simp only [receive_indices]
            exact List.mem_map_of_mem hc
          | some cb =>
            obtain ⟨c, b1⟩ := cb
            simp only [hpop] at hs hb
            cases hs
            cases hb
            obtain ⟨h1, h2, h3⟩ := pop_current hpop
            refine ⟨by simpa only [h2, h3] using r1, by simpa only [h3] using r4, ?_, ?_, ?_, fun hq => hnb hq⟩
            · intro c' hc'
              simp only [h2, receive_indices, h1]
              exact List.mem_map_of_mem (List.mem_append_left _ hc')
            · intro u hu
              simp only [h2]
              rcases List.mem_cons.1 hu with rfl | hu
              · right
                rw [receive_indices, h1]
                simp
              · exact Or.inl (r2 u hu).1
            · rw [h1, List.map_append, ← List.append_assoc] at r3
              simp only [List.map_cons, List.map_nil] at r3
              exact (List.perm_append_singleton _ _).nodup_iff.1 r3
        | none =>
          simp only [hq] at hs
          cases hs
          simp only [bstep, hq] at hb
          split at hb
          · cases hb
          · cases hb
            exact ⟨h.fresh, h.old, h.current, h.pending, h.nodup, fun hq => hnb hq⟩
        | exc =>
          simp only [hq] at hs
          cases hs
          simp only [bstep, hq] at hb
          split at hb
          · cases hb
          · cases hb
            exact ⟨h.fresh, h.old, h.current, h.pending, h.nodup, fun hq => hnb hq⟩
  | tell uid losses =>
    simp only [PB.step] at hs
    split at hs
    · cases hs
    split at hs
    · cases hs
    rename_i hup
    split at hs
    · cases hs
    rename_i hbl
    have hup : uid ∈ s.pending := by simpa using hup
    have hnd : (s.pending.erase uid ++ s.b.batch.current.map Prod.fst).Nodup :=
      h.nodup.sublist (List.Sublist.append_right (List.erase_sublist) _)
    have hpn : s.pending.Nodup := (List.nodup_append.1 h.nodup).1
    split at hs
    · cases hs
      exact ⟨h.fresh, h.old, h.current, fun u hu => h.pending u (List.mem_of_mem_erase hu), hnd, h.blocked⟩
    · split at hs
      · cases hs
      · rename_i bt b hbt hb
        cases hs
        have hne : ∀ c ∈ s.b.batch.current, c.1 ≠ uid := by
          intro c hc he
          exact (List.nodup_append.1 h.nodup).2.2 uid hup c.1 (List.mem_map_of_mem hc) he.symm
        have hB : bt.1.current = s.b.batch.current ∧ bt.1.next = s.b.batch.next ∧ bt.1.indices = s.b.batch.indices.filter (fun e => e.1 != uid) := by
          simp only [Batch.tell] at hbt
          split at hbt
          · cases hbt
          · split at hbt
            · cases hbt; exact ⟨rfl, rfl, rfl⟩
            · cases hbt; exact ⟨rfl, rfl, rfl⟩
        have hbb : b.batch = bt.1 ∧ b.sys.blocked = false := by
          obtain ⟨b1, v⟩ := bt
          simp only [bstep, hbt] at hb
          split at hb
          · rename_i hal
            cases v with
            | none => simp only at hb; cases hb; exact ⟨rfl, hal.2⟩
            | some v =>
              simp only [Option.map_eq_some_iff] at hb
              obtain ⟨y, hy, rfl⟩ := hb
              refine ⟨rfl, ?_⟩
              simp only [Recast.step, if_pos hal] at hy
              cases hy
              exact hal.2
          · cases hb
        obtain ⟨e1, e2, e3⟩ := hB
        rw [← hbb.1] at e1 e2 e3
        have hkeep : ∀ u, u ≠ uid → u ∈ s.b.batch.indices.map Prod.fst → u ∈ b.batch.indices.map Prod.fst := by
          intro u hu hm
          obtain ⟨e, he, rfl⟩ := List.mem_map.1 hm
          rw [e3]
          exact List.mem_map_of_mem (List.mem_filter.2 ⟨he, by simpa using hu⟩)
        refine ⟨?_, ?_, ?_, ?_, ?_, fun hq => by rw [hbb.2] at hq; cases hq⟩
        · intro e he
          simp only [e3, e2] at he ⊢
          exact h.fresh e (List.mem_of_mem_filter he)
        · simpa only [e2] using h.old
        · intro c hc
          simp only [e1] at hc
          exact hkeep _ (hne c hc) (h.current c hc)
        · intro u hu
          have hu' := (hpn.mem_erase_iff).1 hu
          exact (h.pending u hu'.2).imp id (hkeep u hu'.1)
        · simpa only [e1] using hnd
      · cases hs

theorem PBInv.exec {alg : S → Act (List P) (List (Option (List L))) S} : ∀ {ops : List (PBOp L)} {s s' : PB P L S}, PBInv s → PB.exec alg ops s = some s' → PBInv s'
  | [], s, s', h, he => by simp only [PB.exec, Option.some.injEq] at he; exact he ▸ h
  | op :: ops, s, s', h, he => by
    simp only [PB.exec] at he
    split at he
    · rename_i s1 h1
      exact (h.step h1).exec he
    · cases he

/-- **C129, disagreement.** A candidate asked before the number of objectives was known, and told after pymoo has started, makes `tell` raise a KeyError. -/
theorem late_dummy (alg : S → Act (List P) (List (Option (List L))) S) (s0 : S) (num : Nat) (ops : List (PBOp L)) (s : PB P L S) (h : PB.exec alg ops (PB.init s0 num) = some s)
    (uid : Nat) (losses : List L) (h1 : uid ∈ s.dummies) (h2 : uid ∈ s.pending) (hl : losses.length ≠ 0) (hn : s.num = losses.length) (hb : s.b.sys.blocked = false)
    (hst : s.started = true) (hal : s.b.sys.wk.alive = true) : s.step alg (.tell uid losses) = .keyError := by
  have hi := (PBInv.init s0 num).exec h
  have hf : s.b.batch.indices.find? (fun e => e.1 == uid) = none := by
    rw [List.find?_eq_none]
    intro e he heq
    have := (hi.fresh e he).2
    simp only [beq_iff_eq] at heq
    exact this (heq ▸ h1)
  have ht : s.b.batch.tell uid losses = none := by simp only [Batch.tell, hf]
  have c1 : ¬(losses.length = 0 ∨ (s.num ≠ 0 ∧ s.num ≠ losses.length)) := by omega
  have c2 : ¬(uid ∉ s.pending) := by simpa using h2
  simp only [PB.step, if_neg c1, if_neg c2, hb, hst, hal, ht, Bool.false_eq_true, if_false, or_self, reduceCtorEq]

/-- C129, the part that holds: a candidate that pymoo asked for, or one told before pymoo has started, can be told in any order. -/
theorem tell_ok_partial (alg : S → Act (List P) (List (Option (List L))) S) (s0 : S) (num : Nat) (ops : List (PBOp L)) (s : PB P L S) (h : PB.exec alg ops (PB.init s0 num) = some s)
    (uid : Nat) (losses : List L) (h1 : uid ∉ s.dummies ∨ s.started = false) (h2 : uid ∈ s.pending) (hl : losses.length ≠ 0) (hn : s.num = 0 ∨ s.num = losses.length) (hb : s.b.sys.blocked = false) :
    ∃ s', s.step alg (.tell uid losses) = .ok s' ∧ s'.pending = s.pending.erase uid ∧ s'.num = losses.length := by
  have hi := (PBInv.init s0 num).exec h
  have c1 : ¬(losses.length = 0 ∨ (s.num ≠ 0 ∧ s.num ≠ losses.length)) := by omega
  have c2 : ¬(uid ∉ s.pending) := by simpa using h2
  simp only [PB.step, if_neg c1, if_neg c2, hb, Bool.false_eq_true, if_false]
  by_cases hc : s.started = false ∨ s.b.sys.wk.alive = false
  · rw [if_pos hc]; exact ⟨_, rfl, rfl, rfl⟩
  · rw [if_neg hc]
    have h1 : uid ∉ s.dummies := h1.resolve_right (fun h3 => hc (Or.inl h3))
    have hal : s.b.sys.wk.alive = true := by
      cases ha : s.b.sys.wk.alive with
      | true => rfl
      | false => exact absurd (Or.inr ha) hc
    have hm := (hi.pending uid h2).resolve_left h1
    obtain ⟨e, he, heq⟩ := List.mem_map.1 hm
    cases hf : s.b.batch.indices.find? (fun e => e.1 == uid) with
    | none =>
      rw [List.find?_eq_none] at hf
      exact absurd (by simpa using heq) (hf e he)
    | some ei =>
      simp only [bstep, hal, hb, and_self, if_true, Batch.tell, hf]
      by_cases hz : s.b.batch.counter + 1 = s.b.batch.size
      · simp only [if_pos hz, Recast.step, hal, hb, and_self, if_true, Option.map_some]
        exact ⟨_, rfl, rfl, rfl⟩
      · simp only [if_neg hz]
        exact ⟨_, rfl, rfl, rfl⟩

/-- The candidates that pymoo did not ask for are all asked before the number of objectives is known. -/
theorem dummies_only (alg : S → Act (List P) (List (Option (List L))) S) (s : PB P L S) (h : s.num ≠ 0) : s.step alg .dummy = .blocked := by
  simp only [PB.step, if_neg h]

/-! ### Examples -/

/-- An algorithm on the integers: evaluate the current value, and add the two losses to it. -/
def adding : Int → Act Int (List Int) Int := fun s => .call s (fun l => s + l.sum)

example : ((Py.rounds adding 5 1 1000 50 (fun x => [x, 1]) [7, 7, 7] { num := 2, thread := none }).map fun r => (r.1, r.2.1)) =
    some ([1, 3, 7], [(1, some [1, 1]), (3, some [3, 1]), (7, some [7, 1])]) := by decide +kernel

example : ((Py.rounds adding 5 1 1000 50 (fun x => [x, 1]) [7, 8, 9, 10] { num := 0, thread := none }).map fun r => (r.1, r.2.1)) =
    some ([50, 1, 3, 7], [(1, some [1, 1]), (3, some [3, 1]), (7, some [7, 1])]) := by decide +kernel

example : ((direct adding 5 (fun x => [x, 1]) 3 (.start 1)).map Prod.fst) = some [1, 3, 7] := by decide +kernel

/-- The point 1 is refused by the constraint: an error, then an ask that waits for ever. -/
example : (match Py.trials adding 5 1 1000 (fun x => decide (x ≠ 1)) 50 60 id 3 { num := 2, thread := none } with
    | (.error, o) => (match (Py.trials adding 5 1 1000 (fun x => decide (x ≠ 1)) 50 60 id 3 o).1 with | .stuck => true | _ => false)
    | _ => false) = true := by decide +kernel

/-- Batches of two points. -/
def pairs : Int → Act (List Int) (List (Option (List Int))) Int := fun s => .call [s, s + 1] (fun l => s + l.length)

/-- Two asks before the first tell, then one real ask: the second tell is a KeyError, and that of the real candidate is not. -/
example : ((PB.exec pairs [.dummy, .dummy, .tell 0 [1, 2], .enter, .work, .take] (PB.init 0 0)).map fun s =>
    (s.pending, s.dummies, (match s.step pairs (.tell 1 [1, 2]) with | .keyError => true | _ => false), (match s.step pairs (.tell 3 [1, 2]) with | .ok s' => s'.pending | _ => []))) =
    some ([3, 1], [1, 0], true, [1]) := by decide +kernel

/-- All the tells before the first real ask are accepted. -/
example : ((PB.exec pairs [.dummy, .dummy, .tell 0 [1, 2], .tell 1 [3, 4], .enter, .work, .take, .pop, .tell 2 [5, 6], .tell 3 [7, 8]] (PB.init 0 0)).map fun s =>
    (s.pending, s.b.sys.qTell)) = some ([], [some [some [5, 6], some [7, 8]]]) := by rfl

end NG.Pymoo
