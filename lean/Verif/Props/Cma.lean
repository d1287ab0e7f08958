import Verif.Model.Cma
import Mathlib.Data.List.Count
import Mathlib.Tactic.Ring
import Mathlib.Logic.Function.Iterate

/-!
# The CMA wrapper: queue, generations, parents, recommendation, shared configuration
-/

namespace NG
namespace Cma

variable {E X L : Type}

/-! ## Specification -/

/-- The candidates told by the user, in order. -/
def toldBy : List (Op X L) → List (Cand X L)
  | [] => []
  | .ask :: ops => toldBy ops
  | .tell c :: ops => c :: toldBy ops

/-- The number of points asked by the user. -/
def askedBy : List (Op X L) → Nat
  | [] => 0
  | .ask :: ops => askedBy ops + 1
  | .tell _ :: ops => askedBy ops

/-- One iteration of the documented loop of an evolution strategy: `xs = es.ask(); es.tell(xs, [f(x) for x in xs])`. -/
def generation (ext : Es E X L) (f : X → L) (e : E) : E := (ext.tell (ext.ask e).2 (ext.ask e).1 ((ext.ask e).1.map f)).2

/-- The strategy never stops by itself. -/
def Calm (ext : Es E X L) (cfg : Cfg) : Prop := ∀ e, cfg.fcmaes = true ∨ ext.stop e = false

/-! ## Population size -/

/-- The population contains at least one point per worker, and the population asked for. -/
theorem popsize_workers (pop : Option Nat) (logTerm workers : Nat) (elitist : Bool) :
    workers ≤ popsizeOf pop logTerm workers elitist ∧ (∀ p, pop = some p → p ≤ popsizeOf pop logTerm workers elitist)
      ∧ (elitist = true → workers < popsizeOf pop logTerm workers elitist)
      ∧ (pop = none → 4 ≤ popsizeOf pop logTerm workers elitist) := by
  cases pop <;> cases elitist <;> simp [popsizeOf]

/-- It is not larger than needed. -/
theorem popsize_least (pop : Option Nat) (logTerm workers m : Nat) (elitist : Bool) (hw : workers ≤ m)
    (hp : ∀ p, pop = some p → p ≤ m) (hn : pop = none → 4 + logTerm ≤ m) (he : elitist = true → workers < m) :
    popsizeOf pop logTerm workers elitist ≤ m := by
  cases pop <;> cases elitist <;> simp_all [popsizeOf] <;> omega

example : popsizeOf none 3 1 false = 7 ∧ popsizeOf none 3 20 true = 21 ∧ popsizeOf (some 5) 3 1 false = 5 := by decide

/-! ## The queue -/

theorem getEs_toAsk (ext : Es E X L) (cfg : Cfg) (s : St E X L) : (getEs ext cfg s).2.toAsk = s.toAsk := by
  unfold getEs; cases s.es <;> simp; split <;> rfl

theorem getEs_toTell (ext : Es E X L) (cfg : Cfg) (s : St E X L) : (getEs ext cfg s).2.toTell = s.toTell := by
  unfold getEs; cases s.es <;> simp; split <;> rfl

theorem getEs_parents (ext : Es E X L) (cfg : Cfg) (s : St E X L) : (getEs ext cfg s).2.parents = s.parents := by
  unfold getEs; cases s.es <;> simp; split <;> rfl

theorem getEs_calm {ext : Es E X L} {cfg : Cfg} (hc : Calm ext cfg) {s : St E X L} {e : E} (h : s.es = some e) :
    getEs ext cfg s = (e, s) := by
  unfold getEs
  rw [h]
  rcases hc e with h' | h' <;> simp [h']

theorem refill_toTell (ext : Es E X L) (cfg : Cfg) (s : St E X L) : (refill ext cfg s).2.toTell = s.toTell := by
  unfold refill; split
  · exact getEs_toTell ext cfg s
  · rfl

theorem refill_parents (ext : Es E X L) (cfg : Cfg) (s : St E X L) : (refill ext cfg s).2.parents = s.parents := by
  unfold refill; split
  · exact getEs_parents ext cfg s
  · rfl

theorem refill_toAsk (ext : Es E X L) (cfg : Cfg) (s : St E X L) :
    (refill ext cfg s).2.toAsk = s.toAsk ++ ((refill ext cfg s).1.toList).flatten := by
  unfold refill; split
  · rename_i h
    have : s.toAsk = [] := by simpa using h
    simp [this]
  · simp

theorem pop_spec {n : Nat} {s s' : St E X L} {r : X × Option (Cand X L)} (h : pop n s = some (r, s')) :
    s.toAsk = r.1 :: s'.toAsk ∧ s'.toTell = s.toTell ∧ s'.parents = s.parents ∧ s'.es = s.es ∧ r.2 ∈ s.parents := by
  unfold pop at h
  cases ha : s.toAsk with
  | nil => simp [ha] at h
  | cons x rest =>
    rw [ha] at h
    cases hp : s.parents[n % s.parents.length]? with
    | none => simp [hp] at h
    | some p =>
      simp only [hp, Option.some.injEq, Prod.mk.injEq] at h
      obtain ⟨h1, h2⟩ := h
      subst h1 h2
      exact ⟨rfl, rfl, rfl, rfl, List.mem_of_getElem? hp⟩

/-- `ask` succeeds as soon as there is a parent and the queue, once filled, is not empty. -/
theorem ask_some {ext : Es E X L} {cfg : Cfg} {s : St E X L} (n : Nat) (hp : s.parents ≠ []) {x : X} {rest : List X}
    (ha : (refill ext cfg s).2.toAsk = x :: rest) :
    ∃ p, ask ext cfg n s = some ((x, p), { (refill ext cfg s).2 with toAsk := rest }) := by
  unfold ask pop
  rw [ha]
  have hl : n % s.parents.length < s.parents.length := Nat.mod_lt _ (List.length_pos_of_ne_nil hp)
  refine ⟨s.parents[n % s.parents.length], ?_⟩
  simp only [refill_parents, List.getElem?_eq_getElem hl]

section
variable [LinearOrder L]

theorem flush_toAsk (ext : Es E X L) (cfg : Cfg) (s : St E X L) : (flush ext cfg s).toAsk = s.toAsk := by
  unfold flush; split <;> exact getEs_toAsk ext cfg s

theorem flush_toTell (ext : Es E X L) (cfg : Cfg) (s : St E X L) : (flush ext cfg s).toTell = [] := by
  unfold flush; split <;> rfl

/-- One call never loses, duplicates or reorders a point, in either direction. -/
theorem step_queue {ext : Es E X L} {cfg : Cfg} {n : Nat} {op : Op X L} {s s' : St E X L} {t : Trace X L}
    (h : step ext cfg n op s = some (t, s')) :
    t.points ++ s'.toAsk = s.toAsk ++ t.fetched.flatten ∧ t.batches.flatten ++ s'.toTell = s.toTell ++ toldBy [op]
      ∧ t.points.length = askedBy [op] := by
  cases op with
  | ask =>
    simp only [step, Option.map_eq_some_iff, Prod.mk.injEq] at h
    obtain ⟨r, hr, ht, hs⟩ := h
    subst ht hs
    obtain ⟨h1, h2, -⟩ := pop_spec (s' := r.2) (r := r.1) hr
    refine ⟨?_, ?_, rfl⟩
    · simp only [List.singleton_append, ← h1, refill_toAsk]
    · simp [toldBy, h2, refill_toTell]
  | tell c =>
    simp only [step, Option.some.injEq, Prod.mk.injEq] at h
    obtain ⟨ht, hs⟩ := h
    subst ht hs
    unfold tell
    split
    · simp [flush_toAsk, flush_toTell, getEs_toAsk, toldBy, askedBy]
    · simp [getEs_toAsk, getEs_toTell, toldBy, askedBy]

/-- Over any sequence of calls: the points returned to the user, followed by the waiting ones, are exactly what the strategy gave, in order, and
what the strategy received, followed by the waiting losses, is exactly what the user told, in order. -/
theorem run_queue (ext : Es E X L) (cfg : Cfg) : ∀ (ops : List (Op X L)) (n : Nat) (s s' : St E X L) (t : Trace X L),
    run ext cfg n ops s = some (t, s') →
    t.points ++ s'.toAsk = s.toAsk ++ t.fetched.flatten ∧ t.batches.flatten ++ s'.toTell = s.toTell ++ toldBy ops
      ∧ t.points.length = askedBy ops := by
  intro ops
  induction ops with
  | nil =>
    intro n s s' t h
    simp only [run, Option.some.injEq, Prod.mk.injEq] at h
    obtain ⟨ht, hs⟩ := h
    subst ht hs
    simp [toldBy, askedBy]
  | cons op ops ih =>
    intro n s s' t h
    simp only [run] at h
    cases h1 : step ext cfg n op s with
    | none => simp [h1] at h
    | some r1 =>
      obtain ⟨t1, s1⟩ := r1
      simp only [h1] at h
      generalize hm : op.next n = m at h
      cases h2 : run ext cfg m ops s1 with
      | none => simp [h2] at h
      | some r2 =>
        obtain ⟨t2, s2⟩ := r2
        simp only [h2, Option.some.injEq, Prod.mk.injEq] at h
        obtain ⟨ht, hs⟩ := h
        subst ht hs
        obtain ⟨a1, b1, c1⟩ := step_queue h1
        obtain ⟨a2, b2, c2⟩ := ih m s1 s2 t2 h2
        refine ⟨?_, ?_, ?_⟩
        · simp only [List.flatten_append, List.append_assoc, a2]
          rw [← List.append_assoc, a1, List.append_assoc]
        · simp only [List.flatten_append, List.append_assoc, b2]
          rw [← List.append_assoc, b1]
          cases op <;> simp [toldBy]
        · simp only [List.length_append, c1, c2]
          cases op <;> simp [askedBy, Nat.add_comm]

/-- The strategy is only told full generations: exactly `P` candidates, and less than `P` are waiting. -/
theorem run_batches (ext : Es E X L) (cfg : Cfg) {P : Nat} (hP : 0 < P) (hpop : ∀ e, ext.popsize e = P) :
    ∀ (ops : List (Op X L)) (n : Nat) (s s' : St E X L) (t : Trace X L), s.toTell.length < P → run ext cfg n ops s = some (t, s') →
    (∀ b ∈ t.batches, b.length = P) ∧ s'.toTell.length < P := by
  intro ops
  induction ops with
  | nil =>
    intro n s s' t hl h
    simp only [run, Option.some.injEq, Prod.mk.injEq] at h
    obtain ⟨ht, hs⟩ := h
    subst ht hs
    exact ⟨by simp, hl⟩
  | cons op ops ih =>
    intro n s s' t hl h
    simp only [run] at h
    cases h1 : step ext cfg n op s with
    | none => simp [h1] at h
    | some r1 =>
      obtain ⟨t1, s1⟩ := r1
      simp only [h1] at h
      generalize hm : op.next n = m at h
      cases h2 : run ext cfg m ops s1 with
      | none => simp [h2] at h
      | some r2 =>
        obtain ⟨t2, s2⟩ := r2
        simp only [h2, Option.some.injEq, Prod.mk.injEq] at h
        obtain ⟨ht, hs⟩ := h
        subst ht hs
        have key : (∀ b ∈ t1.batches, b.length = P) ∧ s1.toTell.length < P := by
          cases op with
          | ask =>
            simp only [step, Option.map_eq_some_iff, Prod.mk.injEq] at h1
            obtain ⟨r, hr, ht, hs⟩ := h1
            subst ht hs
            obtain ⟨-, h2, -⟩ := pop_spec (s' := r.2) (r := r.1) hr
            exact ⟨by simp, by rw [h2, refill_toTell]; exact hl⟩
          | tell c =>
            simp only [step, Option.some.injEq, Prod.mk.injEq] at h1
            obtain ⟨ht, hs⟩ := h1
            subst ht hs
            unfold tell
            rw [hpop]
            split
            · refine ⟨?_, by rw [flush_toTell]; exact hP⟩
              intro b hb
              simp only [Option.toList_some, List.mem_singleton] at hb
              subst hb
              simp; omega
            · refine ⟨by simp, ?_⟩
              rw [getEs_toTell]; simp; omega
        obtain ⟨k1, k2⟩ := ih m s1 s2 t2 key.2 h2
        refine ⟨?_, k2⟩
        intro b hb
        rcases List.mem_append.1 hb with hb | hb
        · exact key.1 b hb
        · exact k1 b hb

/-- The number of generations the strategy has learnt from is the number of told points divided by the population size. -/
theorem run_count (ext : Es E X L) (cfg : Cfg) {P : Nat} (hP : 0 < P) (hpop : ∀ e, ext.popsize e = P) {ops : List (Op X L)} {n : Nat}
    {s' : St E X L} {t : Trace X L} (h : run ext cfg n ops ({} : St E X L) = some (t, s')) :
    t.batches.length = (toldBy ops).length / P ∧ s'.toTell.length = (toldBy ops).length % P := by
  obtain ⟨hb, hl⟩ := run_batches ext cfg hP hpop ops n _ s' t (by simpa using hP) h
  obtain ⟨-, hq, -⟩ := run_queue ext cfg ops n _ s' t h
  have hf : t.batches.flatten.length = t.batches.length * P := by
    have : ∀ l : List (List (Cand X L)), (∀ b ∈ l, b.length = P) → l.flatten.length = l.length * P := by
      intro l
      induction l with
      | nil => simp
      | cons a l ih =>
        intro h
        rw [List.flatten_cons, List.length_append, ih (fun b hb => h b (by simp [hb])), h a (by simp), List.length_cons]
        ring
    exact this _ hb
  have hlen : t.batches.length * P + s'.toTell.length = (toldBy ops).length := by
    have := congrArg List.length hq
    simpa [hf] using this
  rw [← hlen]
  constructor
  · rw [Nat.add_comm, Nat.add_mul_div_right _ _ hP, Nat.div_eq_of_lt hl]; omega
  · rw [Nat.add_comm, Nat.add_mul_mod_self_right, Nat.mod_eq_of_lt hl]

/-! ## The parents -/

/-- After a generation, the parents are the best told candidates: `min (P/2) P` of them, none worse than a candidate left out. -/
theorem best_spec (n : Nat) (l : List (Cand X L)) :
    (best n l).length = min n l.length ∧ ∃ rest, (best n l ++ rest).Perm l ∧ ∀ a ∈ best n l, ∀ b ∈ rest, a.loss ≤ b.loss := by
  have hperm := List.perm_insertionSort (fun a b : Cand X L => a.loss ≤ b.loss) l
  have hs : (l.insertionSort (fun a b => a.loss ≤ b.loss)).Pairwise (fun a b => a.loss ≤ b.loss) :=
    haveI : Std.Total (fun a b : Cand X L => a.loss ≤ b.loss) := ⟨fun a b => le_total a.loss b.loss⟩
    haveI : IsTrans (Cand X L) (fun a b => a.loss ≤ b.loss) := ⟨fun a b c => le_trans⟩
    List.pairwise_insertionSort _ l
  refine ⟨by simp [best, List.length_insertionSort], (l.insertionSort (fun a b => a.loss ≤ b.loss)).drop n, ?_, ?_⟩
  · unfold best; rw [List.take_append_drop]; exact hperm
  · intro a ha b hb
    rw [← List.take_append_drop n (l.insertionSort _)] at hs
    exact (List.pairwise_append.1 hs).2.2 a ha b hb

/-- A successful generation sets the parents to the best half of the told batch. -/
theorem flush_parents (ext : Es E X L) (cfg : Cfg) (s : St E X L) :
    (flush ext cfg s).parents = (best cfg.spawners s.toTell).map some ∨ (flush ext cfg s).parents = s.parents := by
  unfold flush; split
  · exact .inl rfl
  · exact .inr (getEs_parents ext cfg s)

/-- With at least two points per generation there is always a parent, so that `ask` can only fail when the strategy gives no point. -/
theorem parents_kept {ext : Es E X L} {cfg : Cfg} (hs : 0 < cfg.spawners) {c : Cand X L} {s : St E X L} (h : s.parents ≠ []) :
    (tell ext cfg c s).2.parents ≠ [] := by
  unfold tell
  split
  · rcases flush_parents ext cfg (getEs ext cfg { s with toTell := s.toTell ++ [c] }).2 with h' | h'
    · rw [h', getEs_toTell]
      intro h0
      have := congrArg List.length h0
      rw [List.length_map, (best_spec _ _).1] at this
      simp at this; omega
    · rw [h', getEs_parents]; exact h
  · rw [getEs_parents]; exact h

/-- All the calls of a user succeed if there are at least two points per generation and the strategy always gives points. -/
theorem run_total_partial (ext : Es E X L) (cfg : Cfg) (hs : 0 < cfg.spawners) (hask : ∀ e, (ext.ask e).1 ≠ []) :
    ∀ (ops : List (Op X L)) (n : Nat) (s : St E X L), s.parents ≠ [] → ∃ r, run ext cfg n ops s = some r := by
  intro ops
  induction ops with
  | nil => intro n s _; exact ⟨_, rfl⟩
  | cons op ops ih =>
    intro n s hp
    have key : ∃ t s1, step ext cfg n op s = some (t, s1) ∧ s1.parents ≠ [] := by
      cases op with
      | ask =>
        have hne : (refill ext cfg s).2.toAsk ≠ [] := by
          unfold refill; split
          · exact hask _
          · rename_i h; simpa using h
        obtain ⟨x, rest, hx⟩ := List.exists_cons_of_ne_nil hne
        obtain ⟨p, hq⟩ := ask_some (cfg := cfg) n hp hx
        refine ⟨_, _, by simp only [step, hq]; rfl, ?_⟩
        show (refill ext cfg s).2.parents ≠ []
        rw [refill_parents]; exact hp
      | tell c => exact ⟨_, _, rfl, parents_kept hs hp⟩
    obtain ⟨t, s1, h1, hp1⟩ := key
    obtain ⟨r, hr⟩ := ih (op.next n) s1 hp1
    refine ⟨({ points := t.points ++ r.1.points, fetched := t.fetched ++ r.1.fetched, batches := t.batches ++ r.1.batches }, r.2), ?_⟩
    simp only [run, h1]
    rw [hr]

/-- With one point per generation (`ParametrizedCMA(popsize=1)`, one worker, not elitist), the first successful generation leaves no parent,
and every later `ask` raises ZeroDivisionError. -/
theorem popsize_one_raises (ext : Es E X L) (size : Option Nat) (logTerm : Nat) (hpop : popsizeOf size logTerm 1 false = 1) (fc : Bool)
    (hsize : ∀ e, ext.popsize e = 1) (htell : ∀ e xs ls, (ext.tell e xs ls).1 = true) (c : Cand X L) (s : St E X L) (n : Nat) :
    ask ext (cfgOf (popsizeOf size logTerm 1 false) fc) n (tell ext (cfgOf (popsizeOf size logTerm 1 false) fc) c s).2 = none := by
  rw [hpop]
  have hpar : (tell ext (cfgOf 1 fc) c s).2.parents = [] := by
    unfold tell
    rw [hsize]
    simp [flush, htell, best, cfgOf]
  unfold ask pop
  rw [refill_parents, hpar]
  cases (refill ext (cfgOf 1 fc) (tell ext (cfgOf 1 fc) c s).2).2.toAsk <;> simp

example : popsizeOf (some 1) 5 1 false = 1 := by decide

/-! ## Generations -/

/-- Closed loop: `ask`, evaluate, `tell`, as `minimize` does with one worker. -/
def drive (ext : Es E X L) (cfg : Cfg) (f : X → L) : Nat → Nat → St E X L → Option (List X × St E X L)
  | 0, _, s => some ([], s)
  | k + 1, n, s =>
    match ask ext cfg n s with
    | none => none
    | some (r, s') => (drive ext cfg f k (n + 1) (tell ext cfg ⟨r.1, f r.1⟩ s').2).map (fun q => (r.1 :: q.1, q.2))

theorem tell_wait {ext : Es E X L} {cfg : Cfg} (hc : Calm ext cfg) {P : Nat} (hpop : ∀ e, ext.popsize e = P) {s : St E X L} {e : E}
    (he : s.es = some e) (c : Cand X L) (hl : s.toTell.length + 1 < P) : (tell ext cfg c s).2 = { s with toTell := s.toTell ++ [c] } := by
  unfold tell
  rw [hpop, if_neg (by omega), getEs_calm hc (e := e) (by simpa using he)]

theorem tell_full {ext : Es E X L} {cfg : Cfg} (hc : Calm ext cfg) {P : Nat} (hpop : ∀ e, ext.popsize e = P) {s : St E X L} {e : E}
    (he : s.es = some e) (c : Cand X L) (hl : s.toTell.length + 1 = P) :
    (tell ext cfg c s).2.es = some (ext.tell e ((s.toTell ++ [c]).map Cand.data) ((s.toTell ++ [c]).map Cand.loss)).2
      ∧ (tell ext cfg c s).2.toTell = [] ∧ (tell ext cfg c s).2.toAsk = s.toAsk := by
  unfold tell
  rw [hpop, if_pos (by omega), getEs_calm hc (e := e) (by simpa using he)]
  refine ⟨?_, flush_toTell _ _ _, by rw [flush_toAsk]⟩
  unfold flush
  rw [getEs_calm hc (e := e) (by simpa using he)]
  split <;> rfl

/-- The end of a generation in the closed loop. -/
theorem drive_rest {ext : Es E X L} {cfg : Cfg} (hc : Calm ext cfg) (hs : 0 < cfg.spawners) {P : Nat} (hpop : ∀ e, ext.popsize e = P)
    (f : X → L) : ∀ (xs : List X) (n : Nat) (s : St E X L) (e : E), xs ≠ [] → s.es = some e → s.toAsk = xs → s.parents ≠ [] →
    s.toTell.length + xs.length = P →
    ∃ s', drive ext cfg f xs.length n s = some (xs, s') ∧ s'.toAsk = [] ∧ s'.toTell = [] ∧ s'.parents ≠ []
      ∧ s'.es = some (ext.tell e (s.toTell.map Cand.data ++ xs) (s.toTell.map Cand.loss ++ xs.map f)).2 := by
  intro xs
  induction xs with
  | nil => intro n s e h; exact absurd rfl h
  | cons x xs ih =>
    intro n s e _ he ha hp hl
    have hr : refill ext cfg s = (none, s) := by unfold refill; simp [ha]
    obtain ⟨p, hq⟩ := ask_some (ext := ext) (cfg := cfg) n hp (x := x) (rest := xs) (by rw [hr]; exact ha)
    rw [hr] at hq
    simp only [List.length_cons, drive, hq]
    by_cases hx : xs = []
    · subst hx
      obtain ⟨t1, t2, t3⟩ := tell_full hc hpop (s := { s with toAsk := [] }) (e := e) (by simpa using he) ⟨x, f x⟩ (by simpa using hl)
      refine ⟨_, by simp only [List.length_nil, drive]; rfl, by simpa using t3, t2, parents_kept hs (by simpa using hp), ?_⟩
      rw [t1]; simp
    · have hw := tell_wait hc hpop (s := { s with toAsk := xs }) (e := e) (by simpa using he) ⟨x, f x⟩
        (by have := List.length_pos_of_ne_nil hx; simp at hl ⊢; omega)
      rw [hw]
      obtain ⟨s', h1, h2, h3, h4, h5⟩ := ih (n + 1) { s with toAsk := xs, toTell := s.toTell ++ [⟨x, f x⟩] } e hx (by simpa using he) rfl
        (by simpa using hp) (by simp at hl ⊢; omega)
      refine ⟨s', ?_, h2, h3, h4, ?_⟩
      · rw [h1]; rfl
      · rw [h5]; simp

/-- One generation of the closed loop is one iteration of the strategy's own loop. -/
theorem drive_generation {ext : Es E X L} {cfg : Cfg} (hc : Calm ext cfg) (hs : 0 < cfg.spawners) {P : Nat} (hP : 0 < P)
    (hpop : ∀ e, ext.popsize e = P) (hask : ∀ e, (ext.ask e).1.length = P) (f : X → L) (n : Nat) (s : St E X L) (e : E)
    (he : (getEs ext cfg s).1 = e) (ha : s.toAsk = []) (ht : s.toTell = []) (hp : s.parents ≠ []) :
    ∃ s', drive ext cfg f P n s = some ((ext.ask e).1, s') ∧ s'.toAsk = [] ∧ s'.toTell = [] ∧ s'.parents ≠ []
      ∧ s'.es = some (generation ext f e) := by
  set s1 : St E X L := (refill ext cfg s).2 with hs1
  have hr : (refill ext cfg s).2 = { (getEs ext cfg s).2 with es := some (ext.ask e).2, toAsk := (ext.ask e).1 } := by
    unfold refill; simp [ha, he]
  have hne : (ext.ask e).1 ≠ [] := by
    intro h; have := hask e; rw [h] at this; simp at this; omega
  obtain ⟨s', h1, h2, h3, h4, h5⟩ := drive_rest hc hs hpop f (ext.ask e).1 n s1 (ext.ask e).2 hne (by rw [hs1, hr]) (by rw [hs1, hr])
    (by rw [hs1, refill_parents]; exact hp) (by rw [hs1, refill_toTell, ht, hask]; simp)
  refine ⟨s', ?_, h2, h3, h4, ?_⟩
  · rw [hask] at h1
    rw [← h1]
    obtain ⟨k, rfl⟩ := Nat.exists_eq_succ_of_ne_zero hP.ne'
    have : ask ext cfg n s = ask ext cfg n s1 := by
      have h0 : refill ext cfg s1 = (none, s1) := by
        unfold refill
        have : s1.toAsk = (ext.ask e).1 := by rw [hs1, hr]
        simp [this, hne]
      unfold ask
      rw [h0]
    simp only [drive, this]
  · rw [h5, hs1, refill_toTell, ht]; rfl

theorem drive_add (ext : Es E X L) (cfg : Cfg) (f : X → L) : ∀ (a b n : Nat) (s : St E X L),
    drive ext cfg f (a + b) n s = (match drive ext cfg f a n s with
      | none => none
      | some (xs, s') => (drive ext cfg f b (n + a) s').map (fun q => (xs ++ q.1, q.2))) := by
  intro a
  induction a with
  | zero => intro b n s; simp [drive]
  | succ a ih =>
    intro b n s
    rw [Nat.succ_add]
    simp only [drive]
    cases ask ext cfg n s with
    | none => rfl
    | some r =>
      obtain ⟨r, s'⟩ := r
      simp only [ih b (n + 1)]
      cases drive ext cfg f a (n + 1) (tell ext cfg ⟨r.1, f r.1⟩ s').2 with
      | none => rfl
      | some q =>
        obtain ⟨xs, s''⟩ := q
        have : n + 1 + a = n + (a + 1) := by ring
        simp [this, Option.map_map, Function.comp_def]

/-- Refinement: `k` generations of the sequential loop (`minimize` with one worker) put the external strategy in the state it would have after
`k` iterations of its own documented loop, whatever the strategy, the objective function and the number of generations. -/
theorem sequential_refines {ext : Es E X L} {cfg : Cfg} (hc : Calm ext cfg) (hs : 0 < cfg.spawners) {P : Nat} (hP : 0 < P)
    (hpop : ∀ e, ext.popsize e = P) (hask : ∀ e, (ext.ask e).1.length = P) (f : X → L) (k : Nat) (hk : 0 < k) :
    ∃ s', drive ext cfg f (k * P) 0 ({} : St E X L)
        = some ((List.range k).flatMap (fun i => (ext.ask ((generation ext f)^[i] (ext.fresh 0))).1), s')
      ∧ s'.es = some ((generation ext f)^[k] (ext.fresh 0)) := by
  have key : ∀ k, 0 < k → ∃ s', drive ext cfg f (k * P) 0 ({} : St E X L)
        = some ((List.range k).flatMap (fun i => (ext.ask ((generation ext f)^[i] (ext.fresh 0))).1), s')
      ∧ s'.es = some ((generation ext f)^[k] (ext.fresh 0)) ∧ s'.toAsk = [] ∧ s'.toTell = [] ∧ s'.parents ≠ [] := by
    intro k
    induction k with
    | zero => intro h; omega
    | succ k ih =>
      intro _
      rcases Nat.eq_zero_or_pos k with h0 | h0
      · subst h0
        obtain ⟨s', h1, h2, h3, h4, h5⟩ := drive_generation hc hs hP hpop hask f 0 ({} : St E X L) (ext.fresh 0) rfl rfl rfl (by simp)
        refine ⟨s', ?_, by simpa using h5, h2, h3, h4⟩
        have : (0 + 1) * P = P := by ring
        rw [this, h1]; simp
      · obtain ⟨s1, h1, h2, h3, h4, h5⟩ := ih h0
        obtain ⟨s', g1, g2, g3, g4, g5⟩ := drive_generation hc hs hP hpop hask f (0 + k * P) s1 _ (by rw [getEs_calm hc h2]) h3 h4 h5
        refine ⟨s', ?_, ?_, g2, g3, g4⟩
        · have : (k + 1) * P = k * P + P := by ring
          rw [this, drive_add, h1]
          simp only [g1, List.range_succ, List.flatMap_append]
          simp
        · rw [g5, Function.iterate_succ_apply']
  obtain ⟨s', h1, h2, -⟩ := key k hk
  exact ⟨s', h1, h2⟩

/-- With fcmaes, or a strategy which does not stop, one strategy is created. -/
theorem one_strategy {ext : Es E X L} {cfg : Cfg} (hc : Calm ext cfg) (s : St E X L) (h : s.es = none → s.made = 0)
    (h' : s.es ≠ none → s.made = 1) : (getEs ext cfg s).2.made = 1 ∧ (getEs ext cfg s).2.es ≠ none := by
  cases he : s.es with
  | none => unfold getEs; simp [he, h he]
  | some e => rw [getEs_calm hc he]; exact ⟨h' (by simp [he]), by simp [he]⟩

/-- A strategy which has stopped is replaced by a new one at its next use (not with fcmaes), and the waiting candidates are kept for it. -/
theorem restart {ext : Es E X L} {cfg : Cfg} (hf : cfg.fcmaes = false) {s : St E X L} {e : E} (he : s.es = some e) (hstop : ext.stop e = true) :
    (getEs ext cfg s).1 = ext.fresh s.made ∧ (getEs ext cfg s).2.es = some (ext.fresh s.made)
      ∧ (getEs ext cfg s).2.toTell = s.toTell ∧ (getEs ext cfg s).2.toAsk = s.toAsk := by
  refine ⟨?_, ?_, getEs_toTell _ _ _, getEs_toAsk _ _ _⟩ <;> simp [getEs, he, hf, hstop]
end

/-- Witness: a strategy which counts its calls; two generations of two points. -/
def counter : Es Nat Nat Nat where
  fresh := fun _ => 0
  ask := fun e => ([e, e + 1], e + 10)
  tell := fun e _ ls => (true, e + ls.sum)
  stop := fun _ => false
  popsize := fun _ => 2

example : ((drive counter (cfgOf 2 false) (fun x => x + 5) 4 0 {}).map (fun r => (r.1, r.2.es))) = some ([0, 1, 21, 22], some 84) := by
  decide +kernel

/-! ## Disagreements -/

/-- The claim "a candidate violating a constraint is worse, for the strategy, than a feasible one when its loss with penalty is larger" is
false: a violating candidate with loss 0 and penalty 10 is told with loss 0, and becomes the only parent, the feasible one with loss 1 does not. -/
theorem penalty_ignored : ∃ (a b : Nat × Nat), a = baseTell 0 10 ∧ b = baseTell 1 0 ∧ b.2 < a.2
    ∧ (tell counter (cfgOf 2 false) ⟨8, b.1⟩ (tell counter (cfgOf 2 false) ⟨7, a.1⟩ {}).2).1 = some [⟨7, 0⟩, ⟨8, 1⟩]
    ∧ (tell counter (cfgOf 2 false) ⟨8, b.1⟩ (tell counter (cfgOf 2 false) ⟨7, a.1⟩ {}).2).2.parents = [some ⟨7, 0⟩] :=
  ⟨(0, 10), (1, 1), rfl, rfl, by decide, by decide +kernel, by decide +kernel⟩

/-- `recommend` with `high_speed=True` raises exactly when enough points were asked but fewer distinct points are in the archive. -/
theorem recommend_raises {X : Type} (hs : Bool) (d numAsk archive : Nat) (learnt esBest : Option X) (pess : X) :
    recommend hs d numAsk archive learnt esBest pess = .raises ↔ hs = true ∧ sampleSize d ≤ numAsk ∧ archive < sampleSize d := by
  unfold recommend
  by_cases h1 : (hs && decide (sampleSize d ≤ numAsk)) = true
  · rw [if_pos h1]
    simp only [Bool.and_eq_true, decide_eq_true_eq] at h1
    by_cases h2 : archive < sampleSize d
    · simp [h2, h1.1, h1.2]
    · rw [if_neg h2]
      cases learnt <;> cases esBest <;> simp [h2]
  · rw [if_neg h1]
    simp only [Bool.and_eq_true, decide_eq_true_eq, not_and] at h1
    cases esBest <;> simp <;> intro h h' <;> exact absurd h' (h1 h)

/-- It does happen: `high_speed`, dimension 2, six points asked and one told. -/
theorem recommend_raises_reached : recommend true 2 6 1 none none (0 : Nat) = .raises := by decide

/-- Otherwise the recommendation is the learnt optimum, else the strategy's best point, else the pessimistic best. -/
theorem recommend_point {X : Type} (hs : Bool) (d numAsk archive : Nat) (learnt esBest : Option X) (pess : X)
    (h : hs = true → sampleSize d ≤ numAsk → sampleSize d ≤ archive) :
    ∃ x, recommend hs d numAsk archive learnt esBest pess = .point x ∧ (learnt = some x ∨ esBest = some x ∨ x = pess) := by
  cases hr : recommend hs d numAsk archive learnt esBest pess with
  | raises =>
    obtain ⟨h1, h2, h3⟩ := (recommend_raises hs d numAsk archive learnt esBest pess).1 hr
    have := h h1 h2
    omega
  | point x =>
    refine ⟨x, rfl, ?_⟩
    unfold recommend at hr
    split at hr
    · split at hr
      · simp at hr
      · cases learnt <;> cases esBest <;> simp_all
    · cases esBest <;> simp_all

/-- The order of preference: the learnt optimum when the metamodel is used, else the strategy's best point, else the pessimistic best. -/
theorem recommend_order {X : Type} (hs : Bool) (d numAsk archive : Nat) (learnt : Option X) (x pess : X) :
    (hs = true → sampleSize d ≤ numAsk → sampleSize d ≤ archive → ∀ esBest, recommend hs d numAsk archive (some x) esBest pess = .point x)
    ∧ (hs = true → sampleSize d ≤ numAsk → sampleSize d ≤ archive → recommend hs d numAsk archive none (some x) pess = .point x
        ∧ recommend hs d numAsk archive none none pess = .point pess)
    ∧ (hs = false ∨ numAsk < sampleSize d → recommend hs d numAsk archive learnt (some x) pess = .point x
        ∧ recommend hs d numAsk archive learnt none pess = .point pess) := by
  unfold recommend
  refine ⟨fun h1 h2 h3 e => ?_, fun h1 h2 h3 => ?_, fun h => ?_⟩
  · simp [h1, h2, Nat.not_lt.2 h3]
  · simp [h1, h2, Nat.not_lt.2 h3]
  · have : (hs && decide (sampleSize d ≤ numAsk)) = false := by
      rcases h with h | h
      · simp [h]
      · simp [Nat.not_le.2 h]
    simp [this]

/-- The number of points needed is the number of coefficients of a quadratic model in dimension `d`, plus two minus the linear part:
`d (d + 1) / 2 + 3`. -/
theorem sampleSize_double (d : Nat) : 2 * sampleSize d = d * (d + 1) + 6 := by
  unfold sampleSize
  have h : (d * d + d) % 2 = 0 := by
    have := Nat.even_mul_succ_self d
    rw [Nat.even_iff] at this
    have e : d * (d + 1) = d * d + d := by ring
    rw [e] at this; exact this
  have e : d * (d + 1) = d * d + d := by ring
  omega

/-! ## Optimizers made from the same configuration object -/

theorem access_calm {stop : Bool} {i : Nat} {p : Proc} (hf : p.fcmaes = false) (hd : ∀ a ∈ p.insts, a.dim ≠ 1 ∧ a.kind ≠ some true) :
    (access stop i p).fcmaes = false ∧ ∀ a ∈ (access stop i p).insts, a.dim ≠ 1 ∧ a.kind ≠ some true := by
  unfold access
  cases h : p.insts[i]? with
  | none => exact ⟨hf, hd⟩
  | some a =>
    obtain ⟨h1, h2⟩ := hd a (List.mem_of_getElem? h)
    have hb : (a.dim == 1) = false := by simpa using h1
    refine ⟨by simp [hf, hb], ?_⟩
    intro b hb'
    rcases List.mem_or_eq_of_mem_set hb' with h' | h'
    · exact hd b h'
    · subst h'
      refine ⟨h1, ?_⟩
      cases hk : a.kind with
      | none => simp [hf, hb]
      | some k =>
        rw [hk] at h2
        cases stop <;> simp_all

/-- As long as no optimizer of dimension 1 was made from the configuration, every strategy is of the configured kind and receives its arguments
in the right order. -/
theorem shared_partial (l : List (Nat × Bool)) (p : Proc) (hf : p.fcmaes = false)
    (hd : ∀ a ∈ p.insts, a.dim ≠ 1 ∧ a.kind ≠ some true) :
    (accesses l p).fcmaes = false ∧ ∀ i, goodOrder i (accesses l p) = true := by
  have key : ∀ (l : List (Nat × Bool)) (p : Proc), p.fcmaes = false → (∀ a ∈ p.insts, a.dim ≠ 1 ∧ a.kind ≠ some true) →
      (accesses l p).fcmaes = false ∧ ∀ a ∈ (accesses l p).insts, a.dim ≠ 1 ∧ a.kind ≠ some true := by
    intro l
    induction l with
    | nil => intro p hf hd; exact ⟨hf, hd⟩
    | cons c l ih =>
      intro p hf hd
      obtain ⟨h1, h2⟩ := access_calm (stop := c.2) (i := c.1) hf hd
      exact ih _ h1 h2
  obtain ⟨h1, h2⟩ := key l p hf hd
  refine ⟨h1, ?_⟩
  intro i
  unfold goodOrder
  cases h : (accesses l p).insts[i]? with
  | none => rfl
  | some a =>
    have := (h2 a (List.mem_of_getElem? h)).2
    cases hk : a.kind with
    | none => simp [hk]
    | some k => cases k <;> simp_all

/-- The claim "two optimizers made from the same configuration do not influence each other" is false: once the strategy of an optimizer of
dimension 1 has been used, every other one of that configuration, whatever its dimension, uses fcmaes. -/
theorem shared_switch (p : Proc) (i j : Nat) (a b : Inst) (hi : p.insts[i]? = some a) (ha : a.dim = 1) (hij : i ≠ j)
    (hj : p.insts[j]? = some b) (hb : b.kind = none) (s s' : Bool) :
    (access s' j (access s i p)).fcmaes = true
      ∧ ∃ c, (access s' j (access s i p)).insts[j]? = some c ∧ c.dim = b.dim ∧ c.kind = some true := by
  have hlt : j < p.insts.length := by
    by_contra h
    rw [List.getElem?_eq_none (by omega)] at hj
    simp at hj
  have h1 : (access s i p).fcmaes = true := by unfold access; rw [hi]; simp [ha]
  have h2 : (access s i p).insts[j]? = some b := by
    unfold access; rw [hi]; simp only; rw [List.getElem?_set_ne hij]; exact hj
  have h3 : (access s i p).insts.length = p.insts.length := by unfold access; rw [hi]; simp
  generalize access s i p = q at h1 h2 h3 ⊢
  unfold access
  rw [h2]
  refine ⟨by simp [h1], ⟨b.dim, some true⟩, ?_, rfl, rfl⟩
  simp [h1, hb, h3, hlt]

/-- And an optimizer which already has a `cma` strategy then gives it losses for points and points for losses. -/
theorem shared_swapped : ∃ p : Proc, p.fcmaes = false ∧ p.insts = [⟨2, none⟩, ⟨1, none⟩]
    ∧ goodOrder 0 (accesses [(0, false)] p) = true ∧ goodOrder 0 (accesses [(0, false), (1, false), (0, false)] p) = false :=
  ⟨⟨false, [⟨2, none⟩, ⟨1, none⟩]⟩, rfl, rfl, by decide +kernel, by decide +kernel⟩

end Cma
end NG
