import Verif.Model.Jobs
import Mathlib.Algebra.Order.Monoid.Defs
import Mathlib.Algebra.Order.Monoid.Unbundled.Basic
import Mathlib.Data.Rat.Cast.Order
import Mathlib.Data.List.Range
import Mathlib.Tactic.Common

/-! # C37, C38: jobs and executors -/

namespace NG
namespace Jobs

/-! ## C37: delayed jobs -/

/-- Whatever is called once the function gave a value, `result` gives this value and the function is not called any more. -/
theorem delayed_after {R : Type} (func : Nat → Option R) (r : R) : ∀ (ops : List JobOp) (j : Delayed R),
    j.result = some r → (Delayed.run func ops j).2 = j ∧
      ∀ x ∈ (Delayed.run func ops j).1, x = .bool true ∨ x = .value r
  | [], j, _ => ⟨rfl, by simp [Delayed.run]⟩
  | op :: ops, j, h => by
    have hs : (j.step func op).2 = j ∧ ((j.step func op).1 = .bool true ∨ (j.step func op).1 = .value r) := by
      cases op with
      | done => exact ⟨rfl, Or.inl rfl⟩
      | result => simp [Delayed.step, h]
    have ih := delayed_after func r ops j h
    simp only [Delayed.run, hs.1]
    refine ⟨ih.1, ?_⟩
    intro x hx
    rcases List.mem_cons.mp hx with rfl | hx
    · exact hs.2
    · exact ih.2 x hx

/-- C37: if the function does not raise, whatever the sequence of calls of `done` and `result`: the function is called once if
`result` is called at all, never otherwise; `done` is always true and `result` always gives the value of this call. -/
theorem delayed_once_partial {R : Type} (func : Nat → Option R) (r : R) (hf : func 0 = some r) (ops : List JobOp) :
    let out := Delayed.run func ops Delayed.init
    (out.2.calls = if JobOp.result ∈ ops then 1 else 0) ∧
      ∀ (i : Nat) (op : JobOp), ops[i]? = some op →
        out.1[i]? = some (match op with | .done => .bool true | .result => .value r) := by
  have hafter : ∀ (ops : List JobOp) (j : Delayed R), j.result = some r → ∀ (i : Nat) (op : JobOp), ops[i]? = some op →
      (Delayed.run func ops j).1[i]? = some (match op with | .done => .bool true | .result => .value r) := by
    intro ops
    induction ops with
    | nil => intro j _ i op h; simp at h
    | cons o ops ih =>
      intro j hj i op h
      have hs : (j.step func o).2 = j := by cases o <;> simp [Delayed.step, hj]
      cases i with
      | zero =>
        simp only [List.getElem?_cons_zero, Option.some.injEq] at h
        subst h
        cases o <;> simp [Delayed.run, Delayed.step, hj]
      | succ i =>
        simp only [List.getElem?_cons_succ] at h
        simp only [Delayed.run, List.getElem?_cons_succ, hs]
        exact ih j hj i op h
  induction ops with
  | nil => exact ⟨by simp [Delayed.run, Delayed.init], by simp⟩
  | cons o ops ih =>
    cases o with
    | done =>
      refine ⟨?_, ?_⟩
      · have := ih.1
        simpa [Delayed.run, Delayed.step] using this
      · intro i op h
        cases i with
        | zero =>
          simp only [List.getElem?_cons_zero, Option.some.injEq] at h
          subst h
          simp [Delayed.run, Delayed.step]
        | succ i =>
          simp only [List.getElem?_cons_succ] at h
          simp only [Delayed.run, List.getElem?_cons_succ, Delayed.step]
          exact ih.2 i op h
    | result =>
      have hs : (Delayed.init : Delayed R).step func .result = (.value r, { result := some r, calls := 1 }) := by
        simp [Delayed.step, Delayed.init, hf]
      refine ⟨?_, ?_⟩
      · have := (delayed_after func r ops { result := some r, calls := 1 } rfl).1
        simp [Delayed.run, hs, this]
      · intro i op h
        cases i with
        | zero =>
          simp only [List.getElem?_cons_zero, Option.some.injEq] at h
          subst h
          simp [Delayed.run, hs]
        | succ i =>
          simp only [List.getElem?_cons_succ] at h
          simp only [Delayed.run, List.getElem?_cons_succ, hs]
          exact hafter ops _ rfl i op h

/-- C37: in general the function is called until it gives a value: `calls` is at most the number of `result` calls, all calls
but possibly the last raised, and the value kept is the one of the last call. -/
theorem delayed_calls {R : Type} (func : Nat → Option R) (ops : List JobOp) :
    let j := (Delayed.run func ops Delayed.init).2
    j.calls ≤ (ops.filter (fun o => match o with | .result => true | .done => false)).length ∧
      (∀ n, n + 1 < j.calls → func n = none) ∧
      (∀ r, j.result = some r → 0 < j.calls ∧ func (j.calls - 1) = some r) ∧
      (j.result = none → ∀ n, n < j.calls → func n = none) := by
  have gen : ∀ (ops : List JobOp) (j : Delayed R), (∀ n, n + 1 < j.calls → func n = none) →
      (∀ r, j.result = some r → 0 < j.calls ∧ func (j.calls - 1) = some r) →
      (j.result = none → ∀ n, n < j.calls → func n = none) →
      let j' := (Delayed.run func ops j).2
      j'.calls ≤ j.calls + (ops.filter (fun o => match o with | .result => true | .done => false)).length ∧
      (∀ n, n + 1 < j'.calls → func n = none) ∧
      (∀ r, j'.result = some r → 0 < j'.calls ∧ func (j'.calls - 1) = some r) ∧
      (j'.result = none → ∀ n, n < j'.calls → func n = none) := by
    intro ops
    induction ops with
    | nil => intro j h1 h2 h3; exact ⟨by simp [Delayed.run], h1, h2, h3⟩
    | cons o ops ih =>
      intro j h1 h2 h3
      cases o with
      | done =>
        have := ih j h1 h2 h3
        simpa [Delayed.run, Delayed.step] using this
      | result =>
        simp only [Delayed.run]
        cases hr : j.result with
        | some r =>
          have hs : (j.step func .result).2 = j := by simp [Delayed.step, hr]
          rw [hs]
          obtain ⟨g1, g2⟩ := ih j h1 h2 h3
          refine ⟨?_, g2⟩
          simp only [List.filter_cons, if_true, List.length_cons]
          omega
        | none =>
          cases hf : func j.calls with
          | some r =>
            have hs : (j.step func .result).2 = { result := some r, calls := j.calls + 1 } := by
              simp [Delayed.step, hr, hf]
            rw [hs]
            obtain ⟨g1, g2⟩ := ih { result := some r, calls := j.calls + 1 }
              (fun n hn => h3 hr n (by simp at hn; omega))
              (fun r' hr' => by simp at hr'; subst hr'; simp [hf]) (by simp)
            refine ⟨?_, g2⟩
            simp only [List.filter_cons, if_true, List.length_cons]
            simp only at g1
            omega
          | none =>
            have hs : (j.step func .result).2 = { j with calls := j.calls + 1 } := by
              simp [Delayed.step, hr, hf]
            rw [hs]
            have h4 : ∀ n, n < j.calls + 1 → func n = none := by
              intro n hn
              by_cases h : n = j.calls
              · rw [h, hf]
              · exact h3 hr n (by omega)
            obtain ⟨g1, g2⟩ := ih { j with calls := j.calls + 1 } (fun n hn => h4 n (by simp at hn; omega))
              (fun r' hr' => by simp [hr] at hr') (fun _ => h4)
            refine ⟨?_, g2⟩
            simp only [List.filter_cons, if_true, List.length_cons]
            simp only at g1
            omega
  have := gen ops Delayed.init (by simp [Delayed.init]) (by simp [Delayed.init]) (by simp [Delayed.init])
  simpa [Delayed.init] using this

/-- C37 fails for a function that raises: it is called again by the next `result`. -/
theorem delayed_raise_again : ∃ func : Nat → Option Nat,
    Delayed.run func [.result, .done, .result, .result] Delayed.init =
      ([.raised, .bool true, .value 7, .value 7], { result := some 7, calls := 2 }) :=
  ⟨fun n => if n = 0 then none else some 7, rfl⟩

example : (Delayed.run (fun n => some (n + 5)) [.done, .result, .done, .result] Delayed.init) =
    ([.bool true, .value 5, .bool true, .value 5], { result := some 5, calls := 1 }) := rfl

/-! ## C38: the mocked executor -/

variable {α Out : Type} [LinearOrder α] [AddCommGroup α] [IsOrderedAddMonoid α]

/-- `x` comes before `y`: earlier release time, or submitted before at equal release times. -/
def Before (x y : α × Nat × Nat) : Prop := x.1 < y.1 ∨ x.1 = y.1 ∧ x.2.1 < y.2.1

/-- The invariant in steady mode. -/
structure Ok (e : Ex α Out) : Prop where
  steady : e.batch = false
  le : e.order ≤ e.jobs.length
  todo : e.todo = List.range' e.order (e.jobs.length - e.order)
  fresh : ∀ j job, e.order ≤ j → e.jobs[j]? = some job → job.time = e.time ∧ job.read = false
  delay : ∀ (j : Nat) (job : Job α Out) (o : Out) (d : α), e.jobs[j]? = some job → job.out = some (o, d) → 0 ≤ d
  queue : ∀ x ∈ e.queue, x.2.1 = x.2.2 ∧ x.2.2 < e.order ∧ e.time ≤ x.1 ∧
    ∃ job, e.jobs[x.2.2]? = some job ∧ job.release = some x.1 ∧ job.read = false
  complete : ∀ j job, j < e.order → e.jobs[j]? = some job → job.read = false → ∃ x ∈ e.queue, x.2.2 = j
  sorted : e.queue.Pairwise Before
  past : e.reads.Pairwise (fun x y => x.2 ≤ y.2) ∧ ∀ x ∈ e.reads, x.2 ≤ e.time
  clock : e.time = (e.reads.getLast?.map (·.2)).getD 0
  once : (e.reads.map (·.1)).Nodup
  old : ∀ x ∈ e.reads, x.1 < e.order
  read : ∀ j job, e.jobs[j]? = some job → (job.read = true ↔ j ∈ e.reads.map (·.1))

theorem Ok.init : Ok (Ex.init false : Ex α Out) where
  steady := rfl
  le := by simp [Ex.init]
  todo := by simp [Ex.init]
  fresh := by simp [Ex.init]
  delay := by simp [Ex.init]
  queue := by simp [Ex.init]
  complete := by simp [Ex.init]
  sorted := by simp [Ex.init]
  past := by simp [Ex.init]
  clock := by simp [Ex.init]
  once := by simp [Ex.init]
  old := by simp [Ex.init]
  read := by simp [Ex.init]

theorem Ok.submit {e : Ex α Out} (h : Ok e) : Ok e.submit := by
  have hg : ∀ (j : Nat) (job : Job α Out), e.submit.jobs[j]? = some job →
      e.jobs[j]? = some job ∨ (j = e.jobs.length ∧ job = { time := e.time, out := none, read := false }) := by
    intro j job hj
    simp only [Ex.submit] at hj
    by_cases hlt : j < e.jobs.length
    · rw [List.getElem?_append_left hlt] at hj; exact Or.inl hj
    · have : j = e.jobs.length := by
        have := (List.getElem?_eq_some_iff.mp hj).1
        simp at this; omega
      subst this
      simp at hj
      exact Or.inr ⟨rfl, hj.symm⟩
  have hle := h.le
  refine ⟨h.steady, by simp [Ex.submit]; omega, ?_, ?_, ?_, ?_, ?_, h.sorted, h.past, h.clock, h.once, h.old, ?_⟩
  · simp only [Ex.submit, h.todo, List.length_append, List.length_singleton]
    rw [show e.jobs.length + 1 - e.order = (e.jobs.length - e.order) + 1 by omega, List.range'_concat]
    simp only [List.append_cancel_left_eq, List.cons.injEq, and_true]
    omega
  · intro j job hj hjob
    rcases hg j job hjob with g | ⟨_, rfl⟩
    · exact h.fresh j job hj g
    · exact ⟨rfl, rfl⟩
  · intro j job o d hjob ho
    rcases hg j job hjob with g | ⟨_, rfl⟩
    · exact h.delay j job o d g ho
    · simp at ho
  · intro x hx
    obtain ⟨h1, h2, h3, job, h4, h5⟩ := h.queue x hx
    refine ⟨h1, h2, h3, job, ?_, h5⟩
    simp only [Ex.submit]
    rw [List.getElem?_append_left (List.getElem?_eq_some_iff.mp h4).1]
    exact h4
  · intro j job hj hjob hr
    rcases hg j job hjob with g | ⟨rfl, _⟩
    · exact h.complete j job hj g hr
    · simp only [Ex.submit] at hj; omega
  · intro j job hjob
    rcases hg j job hjob with g | ⟨rfl, rfl⟩
    · exact h.read j job g
    · simp only [Ex.submit]
      refine ⟨by simp, fun hm => ?_⟩
      obtain ⟨x, hx, hxe⟩ := List.mem_map.mp hm
      have := h.old x hx
      omega

/-- Replacing a job by one with the same time and read mark, and an output only if it is not in the queue. -/
theorem Ok.process {e : Ex α Out} (h : Ok e) (F : Nat → Nat → Option (Out × α)) (j : Nat) : Ok (e.process F j).2 := by
  unfold Ex.process
  cases hj : e.jobs[j]? with
  | none => exact h
  | some job =>
    simp only
    cases ho : job.out with
    | some o => exact h
    | none =>
      simp only
      cases hF : F e.calls j with
      | none => exact ⟨h.steady, h.le, h.todo, h.fresh, h.delay, h.queue, h.complete, h.sorted, h.past, h.clock, h.once, h.old, h.read⟩
      | some od =>
        obtain ⟨o, d⟩ := od
        simp only
        have hlt := (List.getElem?_eq_some_iff.mp hj).1
        have hg : ∀ (i : Nat) (job' : Job α Out), (e.jobs.set j { job with out := some (o, max 0 d) })[i]? = some job' →
            (i = j ∧ job' = { job with out := some (o, max 0 d) }) ∨ (i ≠ j ∧ e.jobs[i]? = some job') := by
          intro i job' hi
          by_cases hij : i = j
          · subst hij
            simp [hlt] at hi
            exact Or.inl ⟨rfl, hi.symm⟩
          · rw [List.getElem?_set_ne (Ne.symm hij)] at hi
            exact Or.inr ⟨hij, hi⟩
        refine ⟨h.steady, by simpa using h.le, by simpa using h.todo, ?_, ?_, ?_, ?_, h.sorted, h.past, h.clock, h.once, h.old, ?_⟩
        · intro i job' hle hi
          rcases hg i job' hi with ⟨rfl, rfl⟩ | ⟨_, g⟩
          · exact h.fresh i job hle hj
          · exact h.fresh i job' hle g
        · intro i job' o' d' hi ho'
          rcases hg i job' hi with ⟨rfl, rfl⟩ | ⟨_, g⟩
          · simp only [Option.some.injEq, Prod.mk.injEq] at ho'
            rw [← ho'.2]
            exact le_max_left _ _
          · exact h.delay i job' o' d' g ho'
        · intro x hx
          obtain ⟨h1, h2, h3, job', h4, h5, h6⟩ := h.queue x hx
          refine ⟨h1, h2, h3, ?_⟩
          by_cases hxj : x.2.2 = j
          · rw [hxj, hj] at h4
            simp only [Option.some.injEq] at h4
            subst h4
            simp [Job.release, ho] at h5
          · exact ⟨job', by rw [List.getElem?_set_ne (Ne.symm hxj)]; exact h4, h5, h6⟩
        · intro i job' hlt' hi hr
          rcases hg i job' hi with ⟨rfl, rfl⟩ | ⟨_, g⟩
          · exact h.complete i job hlt' hj hr
          · exact h.complete i job' hlt' g hr
        · intro i job' hi
          rcases hg i job' hi with ⟨rfl, rfl⟩ | ⟨_, g⟩
          · exact h.read i job hj
          · exact h.read i job' g

/-- What `process` leaves as it is. -/
theorem process_same (F : Nat → Nat → Option (Out × α)) (j : Nat) (e : Ex α Out) :
    let e' := (e.process F j).2
    e'.batch = e.batch ∧ e'.todo = e.todo ∧ e'.queue = e.queue ∧ e'.order = e.order ∧ e'.time = e.time ∧
      e'.reads = e.reads ∧ e'.jobs.length = e.jobs.length := by
  unfold Ex.process
  cases hj : e.jobs[j]? with
  | none => simp
  | some job =>
    simp only
    cases ho : job.out with
    | some o => simp
    | none =>
      simp only
      cases hF : F e.calls j with
      | none => simp
      | some od => simp

theorem mem_push (x y : α × Nat × Nat) : ∀ q : List (α × Nat × Nat), y ∈ push x q ↔ y = x ∨ y ∈ q
  | [] => by simp [push]
  | z :: q => by
    unfold push
    split
    · simp only [List.mem_cons, mem_push x y q]; tauto
    · simp only [List.mem_cons]

theorem Before.trans {x y z : α × Nat × Nat} (h : Before x y) (h' : Before y z) : Before x z := by
  rcases h with h | ⟨h1, h2⟩ <;> rcases h' with h' | ⟨h1', h2'⟩
  · exact Or.inl (h.trans h')
  · exact Or.inl (h1' ▸ h)
  · exact Or.inl (h1 ▸ h')
  · exact Or.inr ⟨h1.trans h1', h2.trans h2'⟩

theorem push_sorted (x : α × Nat × Nat) : ∀ q : List (α × Nat × Nat), (∀ y ∈ q, y.2.1 ≠ x.2.1) → q.Pairwise Before →
    (push x q).Pairwise Before
  | [], _, _ => by simp [push]
  | y :: q, hne, hs => by
    have hs' := List.pairwise_cons.mp hs
    unfold push
    split
    case isTrue hlt =>
      rw [List.pairwise_cons]
      refine ⟨?_, push_sorted x q (fun z hz => hne z (by simp [hz])) hs'.2⟩
      intro z hz
      rcases (mem_push x z q).mp hz with rfl | hz
      · exact hlt
      · exact hs'.1 z hz
    case isFalse hnl =>
      have hxy : Before x y := by
        have hn := hne y (by simp)
        rw [not_or, not_and_or] at hnl
        rcases lt_trichotomy x.1 y.1 with g | g | g
        · exact Or.inl g
        · refine Or.inr ⟨g, ?_⟩
          rcases hnl.2 with k | k
          · exact absurd g.symm k
          · omega
        · exact absurd g hnl.1
      rw [List.pairwise_cons]
      refine ⟨?_, hs⟩
      intro z hz
      rcases List.mem_cons.mp hz with rfl | hz
      · exact hxy
      · exact hxy.trans (hs'.1 z hz)

theorem Ok.processAll (F : Nat → Nat → Option (Out × α)) : ∀ (n : Nat) {e : Ex α Out}, Ok e →
    Ok (e.processAll F n).2
  | 0, e, h => h
  | n + 1, e, h => by
    unfold Ex.processAll
    cases ht : e.todo with
    | nil => exact h
    | cons j todo =>
      simp only
      have hp := h.process F j
      have hsame := process_same F j e
      cases hpr : e.process F j with
      | mk ok e' =>
        rw [hpr] at hp hsame
        simp only at hp hsame
        cases ok with
        | false => exact hp
        | true =>
          simp only
          cases hr : (e'.jobs[j]?).bind Job.release with
          | none => exact hp
          | some r =>
            simp only
            apply Ok.processAll F n
            obtain ⟨job, hjob, hrel⟩ := Option.bind_eq_some_iff.mp hr
            have htodo := hp.todo
            rw [hsame.2.1, ht] at htodo
            have hlen : e'.jobs.length - e'.order = (e'.jobs.length - e'.order - 1) + 1 := by
              have := congrArg List.length htodo
              simp at this
              omega
            rw [hlen, List.range'_succ] at htodo
            simp only [List.cons.injEq] at htodo
            obtain ⟨hjo, htodo⟩ := htodo
            obtain ⟨hjt, hjr⟩ := hp.fresh j job (by omega) hjob
            have hjlt := (List.getElem?_eq_some_iff.mp hjob).1
            have hrt : e'.time ≤ r := by
              unfold Job.release at hrel
              obtain ⟨od, hod, rfl⟩ := Option.map_eq_some_iff.mp hrel
              have := hp.delay j job od.1 od.2 hjob hod
              rw [hjt]
              exact le_add_of_nonneg_left this
            have hst := hp.steady
            refine ⟨hst, by simp only; omega, ?_, ?_, hp.delay, ?_, ?_, ?_, hp.past, hp.clock, hp.once, ?_, hp.read⟩
            · simp only [htodo]
              congr 1
            · intro i job' hi hjob'
              exact hp.fresh i job' (by simp only at hi; omega) hjob'
            · intro x hx
              simp only [hst, Bool.false_eq_true, if_false] at hx
              rcases (mem_push _ _ _).mp hx with rfl | hx
              · exact ⟨hjo.symm, by simp only; omega, hrt, job, hjob, hrel, hjr⟩
              · obtain ⟨h1, h2, h3, h4⟩ := hp.queue x hx
                exact ⟨h1, by simp only; omega, h3, h4⟩
            · intro i job' hi hjob' hrd
              simp only [hst, Bool.false_eq_true, if_false]
              by_cases hij : i = j
              · exact ⟨_, (mem_push _ _ _).mpr (Or.inl rfl), hij.symm⟩
              · obtain ⟨x, hx, hxi⟩ := hp.complete i job' (by simp only at hi; omega) hjob' hrd
                exact ⟨x, (mem_push _ _ _).mpr (Or.inr hx), hxi⟩
            · simp only [hst, Bool.false_eq_true, if_false]
              apply push_sorted _ _ _ hp.sorted
              intro y hy
              obtain ⟨h1, h2, _⟩ := hp.queue y hy
              simp only
              omega
            · intro x hx
              have := hp.old x hx
              simp only
              omega

/-- After `_process_submissions` without exception nothing is left to process. -/
theorem processAll_todo (F : Nat → Nat → Option (Out × α)) : ∀ (n : Nat) (e e' : Ex α Out), e.todo.length ≤ n →
    e.processAll F n = (true, e') → e'.todo = []
  | 0, e, e', hn, h => by
    simp only [Ex.processAll, Prod.mk.injEq, true_and] at h
    subst h
    exact List.eq_nil_of_length_eq_zero (by omega)
  | n + 1, e, e', hn, h => by
    unfold Ex.processAll at h
    cases ht : e.todo with
    | nil =>
      simp only [ht, Prod.mk.injEq, true_and] at h
      subst h
      exact ht
    | cons j todo =>
      simp only [ht] at h
      cases hpr : e.process F j with
      | mk ok e1 =>
        cases ok with
        | false => simp only [hpr] at h; simp at h
        | true =>
          simp only [hpr] at h
          cases hr : (e1.jobs[j]?).bind Job.release with
          | none => simp only [hr] at h; simp at h
          | some r =>
            simp only [hr] at h
            exact processAll_todo F n _ e' (by simp only; rw [ht] at hn; simp at hn; exact hn) h

/-- What `_process_submissions` leaves as it is. -/
theorem processAll_same (F : Nat → Nat → Option (Out × α)) : ∀ (n : Nat) (e : Ex α Out),
    (e.processAll F n).2.jobs.length = e.jobs.length ∧ (e.processAll F n).2.reads = e.reads ∧
      (e.processAll F n).2.time = e.time
  | 0, e => ⟨rfl, rfl, rfl⟩
  | n + 1, e => by
    unfold Ex.processAll
    cases ht : e.todo with
    | nil => exact ⟨rfl, rfl, rfl⟩
    | cons j todo =>
      simp only
      have hsame := process_same F j e
      cases hpr : e.process F j with
      | mk ok e' =>
        rw [hpr] at hsame
        simp only at hsame
        cases ok with
        | false => exact ⟨hsame.2.2.2.2.2.2, hsame.2.2.2.2.2.1, hsame.2.2.2.2.1⟩
        | true =>
          simp only
          cases hr : (e'.jobs[j]?).bind Job.release with
          | none => exact ⟨hsame.2.2.2.2.2.2, hsame.2.2.2.2.2.1, hsame.2.2.2.2.1⟩
          | some r =>
            simp only
            have := processAll_same F n
              { e' with queue := if e'.batch then e'.queue else push (r, e'.order, j) e'.queue, todo := todo, order := e'.order + 1 }
            exact ⟨this.1.trans hsame.2.2.2.2.2.2, this.2.1.trans hsame.2.2.2.2.2.1, this.2.2.trans hsame.2.2.2.2.1⟩

/-- Job `j` is the first of the unread jobs: all are computed, and every other one has a later release time, or the same and
was submitted later. -/
def FirstUnread (e : Ex α Out) (j : Nat) : Prop :=
  ∃ job r, e.jobs[j]? = some job ∧ job.read = false ∧ job.release = some r ∧
    ∀ (i : Nat) (job' : Job α Out), i ≠ j → e.jobs[i]? = some job' → job'.read = false →
      ∃ r', job'.release = some r' ∧ (r < r' ∨ r = r' ∧ j < i)

theorem FirstUnread.unique {e : Ex α Out} {i j : Nat} (hi : FirstUnread e i) (hj : FirstUnread e j) : i = j := by
  by_contra hne
  obtain ⟨job, r, h1, h2, h3, h4⟩ := hi
  obtain ⟨job', r', g1, g2, g3, g4⟩ := hj
  obtain ⟨a, ha, ha'⟩ := h4 j job' (Ne.symm hne) g1 g2
  obtain ⟨b, hb, hb'⟩ := g4 i job hne h1 h2
  rw [g3] at ha
  rw [h3] at hb
  simp only [Option.some.injEq] at ha hb
  subst ha hb
  rcases ha' with k | ⟨k, k'⟩ <;> rcases hb' with m | ⟨m, m'⟩
  · exact lt_asymm k m
  · exact absurd k (by rw [m]; exact lt_irrefl _)
  · exact absurd m (by rw [k]; exact lt_irrefl _)
  · omega

theorem Ok.head {e : Ex α Out} (h : Ok e) (ht : e.todo = []) (x : α × Nat × Nat) (q : List (α × Nat × Nat))
    (hq : e.queue = x :: q) : FirstUnread e x.2.2 := by
  have hlen : e.order = e.jobs.length := by
    have := h.todo
    rw [ht] at this
    have := congrArg List.length this
    have := h.le
    simp at *
    omega
  have hs := h.sorted
  rw [hq, List.pairwise_cons] at hs
  obtain ⟨h1, h2, h3, job, h4, h5, h6⟩ := h.queue x (by rw [hq]; simp)
  refine ⟨job, x.1, h4, h6, h5, ?_⟩
  intro i job' hne hi hr
  obtain ⟨y, hy, hyi⟩ := h.complete i job' (by rw [hlen]; exact (List.getElem?_eq_some_iff.mp hi).1) hi hr
  obtain ⟨g1, g2, g3, job'', g4, g5, g6⟩ := h.queue y hy
  rw [hyi, hi] at g4
  simp only [Option.some.injEq] at g4
  subst g4
  refine ⟨y.1, g5, ?_⟩
  rw [hq] at hy
  rcases List.mem_cons.mp hy with rfl | hy
  · exact absurd hyi.symm hne
  · rcases hs.1 y hy with g | ⟨g, g'⟩
    · exact Or.inl g
    · exact Or.inr ⟨g, by omega⟩

theorem Ok.empty {e : Ex α Out} (h : Ok e) (ht : e.todo = []) (hq : e.queue = []) (j : Nat) (job : Job α Out)
    (hj : e.jobs[j]? = some job) : job.read = true := by
  have hlen : e.order = e.jobs.length := by
    have := h.todo
    rw [ht] at this
    have := congrArg List.length this
    have := h.le
    simp at *
    omega
  by_contra hr
  obtain ⟨x, hx, _⟩ := h.complete j job (by rw [hlen]; exact (List.getElem?_eq_some_iff.mp hj).1) hj (by simpa using hr)
  rw [hq] at hx
  cases hx

theorem done_ok {e : Ex α Out} (h : Ok e) (F : Nat → Nat → Option (Out × α)) (j : Nat) : Ok (e.done F j).2 := by
  have hs := h.processAll F e.todo.length
  unfold Ex.done Ex.settle
  cases he : e.processAll F e.todo.length with
  | mk ok e' =>
    rw [he] at hs
    cases ok with
    | false => exact hs
    | true =>
      simp only
      cases hj : e'.jobs[j]? with
      | none => exact hs
      | some job =>
        simp only
        split
        · exact hs
        · cases e'.queue <;> exact hs

theorem done_cases {e : Ex α Out} (h : Ok e) (F : Nat → Nat → Option (Out × α)) (j : Nat) (b : Bool) (e' : Ex α Out)
    (hd : e.done F j = (some b, e')) :
    Ok e' ∧ e'.todo = [] ∧ e'.reads = e.reads ∧ e'.time = e.time ∧ e'.jobs.length = e.jobs.length ∧
      ∃ job, e'.jobs[j]? = some job ∧ (job.read = true ∧ b = true ∨
        job.read = false ∧ ∃ x q, e'.queue = x :: q ∧ b = (x.2.2 == j)) := by
  have hs := h.processAll F e.todo.length
  have hsame := processAll_same F e.todo.length e
  unfold Ex.done Ex.settle at hd
  cases he : e.processAll F e.todo.length with
  | mk ok e1 =>
    rw [he] at hs hsame
    cases ok with
    | false => simp only [he] at hd; simp at hd
    | true =>
      have ht := processAll_todo F _ e e1 (le_refl _) he
      simp only [he] at hd
      cases hj : e1.jobs[j]? with
      | none => simp only [hj] at hd; simp at hd
      | some job =>
        simp only [hj] at hd
        have hst := hs.steady
        simp only at hst
        simp only [hst, Bool.false_eq_true, false_or] at hd
        by_cases hr : job.read = true
        · simp only [hr, if_true, Prod.mk.injEq, Option.some.injEq] at hd
          obtain ⟨rfl, rfl⟩ := hd
          exact ⟨hs, ht, hsame.2.1, hsame.2.2, hsame.1, job, hj, Or.inl ⟨hr, rfl⟩⟩
        · simp only [hr, Bool.false_eq_true, if_false] at hd
          cases hq : e1.queue with
          | nil => simp only [hq] at hd; simp at hd
          | cons x q =>
            simp only [hq, Prod.mk.injEq, Option.some.injEq] at hd
            obtain ⟨rfl, rfl⟩ := hd
            exact ⟨hs, ht, hsame.2.1, hsame.2.2, hsame.1, job, hj, Or.inr ⟨by simpa using hr, x, q, hq, rfl⟩⟩

/-- The analysis of a call of `result`. -/
theorem result_cases {e : Ex α Out} (h : Ok e) (F : Nat → Nat → Option (Out × α)) (j : Nat) :
    Ok (e.result F j).2 ∧
      ((∀ o, (e.result F j).1 ≠ .value o) ∧ (e.result F j).2.reads = e.reads ∧ (e.result F j).2.time = e.time ∨
      ∃ (e2 : Ex α Out) (job : Job α Out) (o : Out) (d r : α), FirstUnread e2 j ∧ e2.jobs[j]? = some job ∧
        e2.jobs.length = e.jobs.length ∧ e.time ≤ r ∧
        job.out = some (o, d) ∧ job.release = some r ∧ (e.result F j).1 = .value o ∧
        (e.result F j).2 = { e2 with jobs := e2.jobs.set j { job with read := true }, queue := e2.queue.tail, time := r,
                                     reads := e.reads ++ [(j, r)] }) := by
  unfold Ex.result
  have hp := h.process F j
  have hps := process_same F j e
  cases hpr : e.process F j with
  | mk ok e1 =>
    rw [hpr] at hp hps
    simp only at hp hps
    cases ok with
    | false => exact ⟨hp, Or.inl ⟨by simp, hps.2.2.2.2.2.1, hps.2.2.2.2.1⟩⟩
    | true =>
      simp only
      have hdo := done_ok hp F j
      cases hd : e1.done F j with
      | mk b e2 =>
        rw [hd] at hdo
        simp only at hdo
        cases b with
        | none =>
          refine ⟨hdo, Or.inl ⟨by simp, ?_, ?_⟩⟩
          · have := processAll_same F e1.todo.length e1
            unfold Ex.done Ex.settle at hd
            cases he : e1.processAll F e1.todo.length with
            | mk ok e3 =>
              rw [he] at this hd
              have h2 : e3 = e2 := by
                cases ok with
                | false => simpa using hd
                | true =>
                  simp only at hd
                  split at hd
                  · simpa using hd
                  · split at hd
                    · simp at hd
                    · split at hd <;> simp at hd; exact hd
              subst h2
              exact this.2.1.trans hps.2.2.2.2.2.1
          · have := processAll_same F e1.todo.length e1
            unfold Ex.done Ex.settle at hd
            cases he : e1.processAll F e1.todo.length with
            | mk ok e3 =>
              rw [he] at this hd
              have h2 : e3 = e2 := by
                cases ok with
                | false => simpa using hd
                | true =>
                  simp only at hd
                  split at hd
                  · simpa using hd
                  · split at hd
                    · simp at hd
                    · split at hd <;> simp at hd; exact hd
              subst h2
              exact this.2.2.trans hps.2.2.2.2.1
        | some b =>
          obtain ⟨hok, ht, hrd, htm, hlen, job, hj, hcase⟩ := done_cases hp F j b e2 hd
          have hrd' : e2.reads = e.reads := hrd.trans hps.2.2.2.2.2.1
          have htm' : e2.time = e.time := htm.trans hps.2.2.2.2.1
          have hlen' : e2.jobs.length = e.jobs.length := hlen.trans hps.2.2.2.2.2.2
          cases b with
          | false => exact ⟨hdo, Or.inl ⟨by simp, hrd', htm'⟩⟩
          | true =>
            simp only [hj]
            have hsettle : ∀ e3 : Ex α Out, e3.todo = [] → e3.settle F = (true, e3) := by
              intro e3 h3
              simp [Ex.settle, h3, Ex.processAll]
            rw [hsettle _ (by simpa using ht)]
            simp only
            have hst := hok.steady
            rcases hcase with ⟨hr, _⟩ | ⟨hr, x, q, hq, hb⟩
            · have hset : e2.jobs.set j { job with read := true } = e2.jobs := by
                have : ({ job with read := true } : Job α Out) = job := by rw [← hr]
                rw [this]
                obtain ⟨hlt, hget⟩ := List.getElem?_eq_some_iff.mp hj
                rw [← hget]
                exact List.set_getElem_self hlt
              have hE : { e2 with jobs := e2.jobs.set j { job with read := true } } = e2 := by rw [hset]
              rw [hE]
              cases ho : job.out with
              | none => exact ⟨hok, Or.inl ⟨by simp, hrd', htm'⟩⟩
              | some od =>
                cases hrel : job.release with
                | none => exact ⟨hok, Or.inl ⟨by simp, hrd', htm'⟩⟩
                | some r =>
                  simp only [hst, Bool.false_eq_true, if_false]
                  cases hq : e2.queue with
                  | nil => exact ⟨hok, Or.inl ⟨by simp, hrd', htm'⟩⟩
                  | cons x q =>
                    simp only
                    have hxj : x.2.2 ≠ j := by
                      intro hc
                      obtain ⟨_, _, _, job', g1, _, g2⟩ := hok.queue x (by rw [hq]; simp)
                      rw [hc, hj] at g1
                      simp only [Option.some.injEq] at g1
                      subst g1
                      rw [hr] at g2
                      cases g2
                    rw [if_neg hxj]
                    exact ⟨hok, Or.inl ⟨by simp, hrd', htm'⟩⟩
            · have hxj : x.2.2 = j := by simpa using hb.symm
              have hfirst := hok.head ht x q hq
              rw [hxj] at hfirst
              obtain ⟨h1, h2, h3, job', h4, h5, h6⟩ := hok.queue x (by rw [hq]; simp)
              rw [hxj, hj] at h4
              simp only [Option.some.injEq] at h4
              subst h4
              have h5' := h5
              unfold Job.release at h5'
              obtain ⟨od, hod, hodr⟩ := Option.map_eq_some_iff.mp h5'
              obtain ⟨o, d⟩ := od
              simp only [hod, h5, hst, Bool.false_eq_true, if_false, hq, if_pos hxj, hrd']
              have hmax : max e2.time x.1 = x.1 := max_eq_right h3
              rw [hmax]
              refine ⟨?_, Or.inr ⟨e2, job, o, d, x.1, hfirst, hj, hlen', htm' ▸ h3, hod, h5, rfl, by simp [hst, hod, hq]⟩⟩
              have hlt := (List.getElem?_eq_some_iff.mp hj).1
              have hg : ∀ (i : Nat) (job' : Job α Out), (e2.jobs.set j { time := job.time, out := some (o, d), read := true })[i]? = some job' →
                  (i = j ∧ job' = { time := job.time, out := some (o, d), read := true }) ∨ (i ≠ j ∧ e2.jobs[i]? = some job') := by
                intro i job' hi
                by_cases hij : i = j
                · subst hij
                  simp [hlt] at hi
                  exact Or.inl ⟨rfl, hi.symm⟩
                · rw [List.getElem?_set_ne (Ne.symm hij)] at hi
                  exact Or.inr ⟨hij, hi⟩
              have hord : e2.order = e2.jobs.length := by
                have := hok.todo
                rw [ht] at this
                have := congrArg List.length this
                have := hok.le
                simp at *
                omega
              have hsort := hok.sorted
              rw [hq, List.pairwise_cons] at hsort
              refine ⟨rfl, by simpa using hok.le, by simpa using hok.todo, ?_, ?_, ?_, ?_, hsort.2, ?_, ?_, ?_, ?_, ?_⟩
              · intro i job' hi hjob'
                exfalso
                have := (List.getElem?_eq_some_iff.mp hjob').1
                simp at this hi
                omega
              · intro i job' o' d' hi ho'
                rcases hg i job' hi with ⟨rfl, rfl⟩ | ⟨_, g⟩
                · exact hok.delay i job o' d' hj (by rw [hod]; exact ho')
                · exact hok.delay i job' o' d' g ho'
              · intro y hy
                obtain ⟨g1, g2, g3, job', g4, g5, g6⟩ := hok.queue y (by rw [hq]; simp [hy])
                have hbef := hsort.1 y hy
                have hne : y.2.2 ≠ j := by
                  intro hc
                  rcases hbef with k | ⟨_, k⟩
                  · rw [hc, hj] at g4
                    simp only [Option.some.injEq] at g4
                    subst g4
                    rw [h5] at g5
                    simp only [Option.some.injEq] at g5
                    rw [g5] at k
                    exact lt_irrefl _ k
                  · omega
                refine ⟨g1, g2, ?_, job', by simp only; rw [List.getElem?_set_ne (Ne.symm hne)]; exact g4, g5, g6⟩
                rcases hbef with k | ⟨k, _⟩
                · exact le_of_lt k
                · exact le_of_eq k
              · intro i job' hi hjob' hrd2
                rcases hg i job' hjob' with ⟨rfl, rfl⟩ | ⟨hne, g⟩
                · cases hrd2
                · obtain ⟨y, hy, hyi⟩ := hok.complete i job' hi g hrd2
                  rw [hq] at hy
                  rcases List.mem_cons.mp hy with rfl | hy
                  · exact absurd (hyi.symm.trans hxj) hne
                  · exact ⟨y, hy, hyi⟩
              · have hpast := hok.past
                rw [hrd'] at hpast
                refine ⟨?_, ?_⟩
                · rw [List.pairwise_append]
                  refine ⟨hpast.1, by simp, ?_⟩
                  intro a ha b hb'
                  simp only [List.mem_singleton] at hb'
                  subst hb'
                  exact (hpast.2 a ha).trans h3
                · intro a ha
                  rcases List.mem_append.mp ha with ha | ha
                  · exact (hpast.2 a ha).trans h3
                  · simp only [List.mem_singleton] at ha
                    subst ha
                    exact le_refl _
              · simp
              · simp only [List.map_append, List.map_cons, List.map_nil]
                rw [List.nodup_append]
                have honce := hok.once
                rw [hrd'] at honce
                refine ⟨honce, by simp, ?_⟩
                intro a ha b hb' hab
                simp only [List.mem_singleton] at hb'
                subst hb' hab
                have := (hok.read a job hj).mpr (by rw [hrd']; exact ha)
                rw [hr] at this
                cases this
              · intro a ha
                rcases List.mem_append.mp ha with ha | ha
                · exact hok.old a (by rw [hrd']; exact ha)
                · simp only [List.mem_singleton] at ha
                  subst ha
                  simp only
                  omega
              · intro i job' hi
                have hread := hok.read
                rw [hrd'] at hread
                rcases hg i job' hi with ⟨rfl, rfl⟩ | ⟨hne, g⟩
                · simp
                · simp only [List.map_append, List.mem_append, List.map_cons, List.map_nil, List.mem_singleton]
                  rw [hread i job' g]
                  exact ⟨Or.inl, fun k => k.resolve_right hne⟩

/-- The states reached by any sequence of operations in steady mode. -/
def reach (F : Nat → Nat → Option (Out × α)) (ops : List ExOp) : Ex α Out :=
  ops.foldl (fun e op => e.step F op) (Ex.init false)

theorem step_ok {e : Ex α Out} (h : Ok e) (F : Nat → Nat → Option (Out × α)) (op : ExOp) : Ok (e.step F op) := by
  unfold Ex.step
  cases op with
  | submit => exact h.submit
  | done j =>
    simp only
    split
    · exact done_ok h F j
    · exact h
  | result j =>
    simp only
    split
    · exact (result_cases h F j).1
    · exact h

theorem reach_ok (F : Nat → Nat → Option (Out × α)) (ops : List ExOp) : Ok (reach F ops) := by
  unfold reach
  suffices ∀ e : Ex α Out, Ok e → Ok (ops.foldl (fun e op => e.step F op) e) from this _ Ok.init
  induction ops with
  | nil => exact fun e h => h
  | cons op ops ih => exact fun e h => ih _ (step_ok h F op)

/-- C38: whatever the history, durations and exceptions of the functions: `done` tells exactly whether the job was read or is
the first of the unread jobs by release time then submission. -/
theorem done_spec (F : Nat → Nat → Option (Out × α)) (ops : List ExOp) (j : Nat) (b : Bool) (e' : Ex α Out)
    (hd : (reach F ops).done F j = (some b, e')) :
    b = true ↔ (∃ job, e'.jobs[j]? = some job ∧ job.read = true) ∨ FirstUnread e' j := by
  obtain ⟨hok, ht, _, _, _, job, hj, hc⟩ := done_cases (reach_ok F ops) F j b e' hd
  rcases hc with ⟨hr, rfl⟩ | ⟨hr, x, q, hq, rfl⟩
  · exact ⟨fun _ => Or.inl ⟨job, hj, hr⟩, fun _ => rfl⟩
  · have hfirst := hok.head ht x q hq
    constructor
    · intro hb
      have hb' : x.2.2 = j := by simpa using hb
      exact Or.inr (hb' ▸ hfirst)
    · rintro (⟨job', hj', hr'⟩ | hf)
      · rw [hj] at hj'
        simp only [Option.some.injEq] at hj'
        subst hj'
        rw [hr] at hr'
        cases hr'
      · simpa using hfirst.unique hf

/-- C38: whenever some job is unread, exactly one unread job is done (functions not raising meanwhile). -/
theorem one_done (F : Nat → Nat → Option (Out × α)) (ops : List ExOp) (j : Nat) (b : Bool) (e' : Ex α Out)
    (hd : (reach F ops).done F j = (some b, e')) (i : Nat) (job : Job α Out) (hi : e'.jobs[i]? = some job)
    (hr : job.read = false) : ∃! k, FirstUnread e' k := by
  obtain ⟨hok, ht, _⟩ := done_cases (reach_ok F ops) F j b e' hd
  cases hq : e'.queue with
  | nil =>
    have := hok.empty ht hq i job hi
    rw [hr] at this
    cases this
  | cons x q => exact ⟨x.2.2, hok.head ht x q hq, fun k hk => hk.unique (hok.head ht x q hq)⟩

/-- C38: a job can only be read while it is the first of the unread jobs; reading it sets the time of the executor to its
release time, which is not before any earlier time. -/
theorem result_spec (F : Nat → Nat → Option (Out × α)) (ops : List ExOp) (j : Nat) (o : Out) (e' : Ex α Out)
    (hr : (reach F ops).result F j = (.value o, e')) :
    ∃ (e2 : Ex α Out) (job : Job α Out) (d r : α), FirstUnread e2 j ∧ e2.jobs[j]? = some job ∧
      e2.jobs.length = (reach F ops).jobs.length ∧ job.out = some (o, d) ∧ job.release = some r ∧
      j ∉ (reach F ops).reads.map (·.1) ∧ e'.reads = (reach F ops).reads ++ [(j, r)] ∧ e'.time = r ∧
      (reach F ops).time ≤ e'.time := by
  have h := reach_ok F ops
  obtain ⟨hok, hc⟩ := result_cases h F j
  rw [hr] at hc hok
  rcases hc with ⟨hn, _⟩ | ⟨e2, job, o', d, r, h1, h2, h3, h4, h5, h6, h7, h8⟩
  · exact absurd rfl (hn o)
  · simp only [Res.value.injEq] at h7
    subst h7
    simp only at h8 hok
    have honce := hok.once
    rw [h8] at honce
    simp only [List.map_append, List.map_cons, List.map_nil] at honce
    have hnot : j ∉ (reach F ops).reads.map (·.1) := by
      intro hm
      rw [List.nodup_append] at honce
      exact honce.2.2 j hm j (by simp) rfl
    refine ⟨e2, job, d, r, h1, h2, h3, h5, h6, hnot, by rw [h8], by rw [h8], ?_⟩
    rw [h8]
    exact h4

/-- C38: jobs are read in the order of their release times, each at most once, and the time is the one of the last reading. -/
theorem reads_ordered (F : Nat → Nat → Option (Out × α)) (ops : List ExOp) :
    (reach F ops).reads.Pairwise (fun x y => x.2 ≤ y.2) ∧ ((reach F ops).reads.map (·.1)).Nodup ∧
      (reach F ops).time = ((reach F ops).reads.getLast?.map (·.2)).getD 0 :=
  let h := reach_ok F ops
  ⟨h.past.1, h.once, h.clock⟩

theorem process_stable (F : Nat → Nat → Option (Out × α)) (k : Nat) (e : Ex α Out) (j : Nat) (job : Job α Out)
    (x : Out × α) (hj : e.jobs[j]? = some job) (hx : job.out = some x) :
    ∃ job', (e.process F k).2.jobs[j]? = some job' ∧ job'.out = some x := by
  unfold Ex.process
  cases hk : e.jobs[k]? with
  | none => exact ⟨job, hj, hx⟩
  | some jk =>
    simp only
    cases ho : jk.out with
    | some o => exact ⟨job, hj, hx⟩
    | none =>
      simp only
      cases hF : F e.calls k with
      | none => exact ⟨job, hj, hx⟩
      | some od =>
        simp only
        have hne : k ≠ j := by
          rintro rfl
          rw [hj] at hk
          simp only [Option.some.injEq] at hk
          subst hk
          rw [hx] at ho
          cases ho
        exact ⟨job, by rw [List.getElem?_set_ne hne]; exact hj, hx⟩

theorem processAll_stable (F : Nat → Nat → Option (Out × α)) (j : Nat) (x : Out × α) : ∀ (n : Nat) (e : Ex α Out)
    (job : Job α Out), e.jobs[j]? = some job → job.out = some x →
    ∃ job', (e.processAll F n).2.jobs[j]? = some job' ∧ job'.out = some x
  | 0, e, job, hj, hx => ⟨job, hj, hx⟩
  | n + 1, e, job, hj, hx => by
    unfold Ex.processAll
    cases ht : e.todo with
    | nil => exact ⟨job, hj, hx⟩
    | cons k todo =>
      simp only
      obtain ⟨job', hj', hx'⟩ := process_stable F k e j job x hj hx
      cases hpr : e.process F k with
      | mk ok e' =>
        rw [hpr] at hj'
        cases ok with
        | false => exact ⟨job', hj', hx'⟩
        | true =>
          simp only
          cases hr : (e'.jobs[k]?).bind Job.release with
          | none => exact ⟨job', hj', hx'⟩
          | some r => exact processAll_stable F j x n _ job' hj' hx'

/-- C38: once computed, the output and the delay of a job never change: no function is called again after it gave a value. -/
theorem output_stable (F : Nat → Nat → Option (Out × α)) (e : Ex α Out) (op : ExOp) (j : Nat) (job : Job α Out)
    (x : Out × α) (hj : e.jobs[j]? = some job) (hx : job.out = some x) :
    ∃ job', (e.step F op).jobs[j]? = some job' ∧ job'.out = some x := by
  have hdone : ∀ (e : Ex α Out) (i : Nat) (job : Job α Out), e.jobs[j]? = some job → job.out = some x →
      ∃ job', (e.done F i).2.jobs[j]? = some job' ∧ job'.out = some x := by
    intro e i job hj hx
    obtain ⟨job', h1, h2⟩ := processAll_stable F j x e.todo.length e job hj hx
    unfold Ex.done Ex.settle
    cases he : e.processAll F e.todo.length with
    | mk ok e' =>
      rw [he] at h1
      cases ok with
      | false => exact ⟨job', h1, h2⟩
      | true =>
        simp only
        cases e'.jobs[i]? with
        | none => exact ⟨job', h1, h2⟩
        | some ji =>
          simp only
          split
          · exact ⟨job', h1, h2⟩
          · cases e'.queue <;> exact ⟨job', h1, h2⟩
  unfold Ex.step
  cases op with
  | submit =>
    exact ⟨job, by simp only [Ex.submit]; rw [List.getElem?_append_left (List.getElem?_eq_some_iff.mp hj).1]; exact hj, hx⟩
  | done i =>
    simp only
    split
    · exact hdone e i job hj hx
    · exact ⟨job, hj, hx⟩
  | result i =>
    simp only
    split
    case isFalse => exact ⟨job, hj, hx⟩
    case isTrue =>
    unfold Ex.result
    obtain ⟨job1, h1, h2⟩ := process_stable F i e j job x hj hx
    cases hpr : e.process F i with
    | mk ok e1 =>
      rw [hpr] at h1
      cases ok with
      | false => exact ⟨job1, h1, h2⟩
      | true =>
        simp only
        obtain ⟨job2, h3, h4⟩ := hdone e1 i job1 h1 h2
        cases hd : e1.done F i with
        | mk b e2 =>
          rw [hd] at h3
          simp only at h3
          cases b with
          | none => exact ⟨job2, h3, h4⟩
          | some b =>
            cases b with
            | false => exact ⟨job2, h3, h4⟩
            | true =>
              simp only
              cases hi : e2.jobs[i]? with
              | none => exact ⟨job2, h3, h4⟩
              | some ji =>
                simp only
                have h5 : ∃ job3, (e2.jobs.set i { ji with read := true })[j]? = some job3 ∧ job3.out = some x := by
                  by_cases hij : i = j
                  · subst hij
                    rw [h3] at hi
                    simp only [Option.some.injEq] at hi
                    subst hi
                    exact ⟨{ job2 with read := true }, by simp [(List.getElem?_eq_some_iff.mp h3).1], h4⟩
                  · exact ⟨job2, by rw [List.getElem?_set_ne hij]; exact h3, h4⟩
                obtain ⟨job3, h6, h7⟩ := h5
                unfold Ex.settle
                obtain ⟨job4, h8, h9⟩ := processAll_stable F j x e2.todo.length
                  { e2 with jobs := e2.jobs.set i { ji with read := true } } job3 h6 h7
                cases hs : Ex.processAll F e2.todo.length { e2 with jobs := e2.jobs.set i { ji with read := true } } with
                | mk ok e4 =>
                  rw [hs] at h8
                  simp only at h8 ⊢
                  cases ok with
                  | false => exact ⟨job4, h8, h9⟩
                  | true =>
                    simp only
                    split
                    · split
                      · exact ⟨job4, h8, h9⟩
                      · split
                        · exact ⟨job4, h8, h9⟩
                        · split <;> exact ⟨job4, h8, h9⟩
                    · exact ⟨job4, h8, h9⟩

/-- Three jobs of durations 5, 2 and 2: job 1 is read first, then job 2, then job 0; job 0 cannot be read first. -/
example :
    let F : Nat → Nat → Option (Nat × ℚ) := fun _ j => some (10 + j, if j = 0 then 5 else 2)
    let e := reach F [.submit, .submit, .submit]
    (e.result F 0).1 = .notReady ∧ (e.result F 1).1 = .value 11 ∧ ((e.result F 1).2.result F 0).1 = .notReady ∧
      ((e.result F 1).2.result F 2).1 = .value 12 ∧
      (reach F [.submit, .submit, .submit, .result 1, .result 2, .result 0]).reads = [(1, 2), (2, 2), (0, 5)] := by
  decide +kernel

/-- Calling `result` twice on the same job raises the second time, although `done()` is true: "Only first job should be read"
(execution.py 126), or IndexError if no other job is pending. -/
theorem result_twice_raises :
    let F : Nat → Nat → Option (Nat × ℚ) := fun _ _ => some (7, 1)
    let e := reach F [.submit, .submit, .result 0]
    (e.done F 0).1 = some true ∧ (e.result F 0).1 = .notFirst := by decide +kernel

end Jobs
end NG
