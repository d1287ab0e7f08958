import Verif.Lemmas.Queue

/-!
# C13 / C14: the ordered set and the uid queue

Specifications are stated on histories (lists of operations), most recent operation first for the
ordered set and chronological for the queue.
-/

namespace NG
namespace OrderedSet
variable {α : Type} [DecidableEq α]

/-- Public operations on the ordered set. -/
inductive Op (α : Type) where
  | add (k : α)
  | discard (k : α)
  | clear

/-- One operation; a failing `discard` (KeyError) leaves the set unchanged. -/
def step (s : OrderedSet α) : Op α → OrderedSet α
  | .add k => s.add k
  | .discard k => (s.discard k).getD s
  | .clear => s.clear

/-- State after a history given most recent operation first. -/
def run : List (Op α) → OrderedSet α
  | [] => empty
  | op :: past => step (run past) op

/-- Specification: time of the latest `add` of `k` if `k` has not been discarded since. -/
def lastAdd : List (Op α) → α → Option Nat
  | [], _ => none
  | .add k' :: past, k => if k = k' then some past.length else lastAdd past k
  | .discard k' :: past, k => if k = k' then none else lastAdd past k
  | .clear :: _, _ => none

/-- Strict order of two elements by the time of their latest insertion. -/
def AddedBefore (h : List (Op α)) (a b : α) : Prop :=
  ∃ i j, lastAdd h a = some i ∧ lastAdd h b = some j ∧ i < j

theorem lastAdd_lt (h : List (Op α)) (k : α) (i : Nat) (hk : lastAdd h k = some i) : i < h.length := by
  induction h with
  | nil => simp [lastAdd] at hk
  | cons op past ih =>
    cases op with
    | add k' =>
      simp only [lastAdd] at hk
      split at hk
      · simp only [Option.some.injEq] at hk; simp only [List.length_cons]; omega
      · have := ih hk; simp only [List.length_cons]; omega
    | discard k' =>
      simp only [lastAdd] at hk
      split at hk
      · simp at hk
      · have := ih hk; simp only [List.length_cons]; omega
    | clear => simp [lastAdd] at hk

theorem iter_step_discard (s : OrderedSet α) (k : α) :
    (step s (.discard k)).iter = s.iter.filter (fun x => !(x == k)) := by
  show ((s.discard k).getD s).iter = _
  by_cases h : k ∈ s.iter
  · rw [discard_some _ _ h]; exact iter_remove _ _
  · rw [discard_none _ _ h]; exact (filter_ne_of_notMem _ _ h).symm

/-- **C14.** Whatever the history, iterating over the set gives each present element exactly once, an
element is present iff it was added and not discarded since, and the elements come in the order of
their latest insertion. -/
theorem orderedSet_refines_history (h : List (Op α)) :
    (run h).iter.Nodup ∧
    (∀ k, k ∈ (run h).iter ↔ ∃ i, lastAdd h k = some i) ∧
    (run h).iter.Pairwise (AddedBefore h) := by
  induction h with
  | nil => simp [run, empty, iter, lastAdd]
  | cons op past ih =>
    obtain ⟨hn, hm, hp⟩ := ih
    cases op with
    | add k' =>
      refine ⟨nodup_add _ _ hn, ?_, ?_⟩
      · intro k
        show k ∈ ((run past).add k').iter ↔ _
        rw [mem_add]
        by_cases hk : k = k'
        · simp [hk, lastAdd]
        · simp [hk, lastAdd, hm k]
      · show (((run past).add k').iter).Pairwise _
        rw [iter_add, List.pairwise_append]
        refine ⟨?_, by simp, ?_⟩
        · rw [List.pairwise_filter]
          refine hp.imp ?_
          intro a b hab ha hb
          obtain ⟨i, j, h1, h2, h3⟩ := hab
          have ha' : a ≠ k' := by simpa using ha
          have hb' : b ≠ k' := by simpa using hb
          exact ⟨i, j, by simp [lastAdd, ha', h1], by simp [lastAdd, hb', h2], h3⟩
        · intro a ha b hb
          rw [mem_filter_ne] at ha
          simp only [List.mem_singleton] at hb
          subst hb
          obtain ⟨i, hi⟩ := (hm a).1 ha.1
          exact ⟨i, past.length, by simp [lastAdd, ha.2, hi], by simp [lastAdd], lastAdd_lt _ _ _ hi⟩
    | discard k' =>
      have e : (run (.discard k' :: past)).iter = (run past).iter.filter (fun x => !(x == k')) :=
        iter_step_discard _ _
      rw [e]
      refine ⟨hn.filter _, ?_, ?_⟩
      · intro k
        rw [mem_filter_ne, hm k]
        by_cases hk : k = k' <;> simp [hk, lastAdd]
      · rw [List.pairwise_filter]
        refine hp.imp ?_
        intro a b hab ha hb
        obtain ⟨i, j, h1, h2, h3⟩ := hab
        have ha' : a ≠ k' := by simpa using ha
        have hb' : b ≠ k' := by simpa using hb
        exact ⟨i, j, by simp [lastAdd, ha', h1], by simp [lastAdd, hb', h2], h3⟩
    | clear => simp [run, step, clear, iter, lastAdd]

/-- **C14.** Length and membership agree with the iteration; `discard` fails exactly on absent elements. -/
theorem orderedSet_observers (s : OrderedSet α) (k : α) :
    s.length = s.iter.length ∧ (s.contains k = true ↔ k ∈ s.iter) ∧ (s.discard k = none ↔ k ∉ s.iter) := by
  refine ⟨by simp [length, iter], contains_iff s k, ?_, ?_⟩
  · intro h hk; rw [discard_some _ _ hk] at h; simp at h
  · exact discard_none s k

/-- **C14.** `popright` fails exactly on the empty set, otherwise it returns the element inserted last
and the set behaves afterwards as if that element had been discarded. -/
theorem orderedSet_popright (h : List (Op α)) :
    ((run h).popright = none ↔ (run h).iter = []) ∧
    (∀ k s, (run h).popright = some (k, s) →
      (∀ b ∈ (run h).iter, b = k ∨ AddedBefore h b k) ∧ k ∈ (run h).iter ∧ s = run (.discard k :: h)) := by
  obtain ⟨hn, hm, hp⟩ := orderedSet_refines_history h
  generalize hs : run h = s0 at *
  constructor
  · unfold popright iter
    cases hr : s0.data.reverse with
    | nil => simp at hr; simp [hr]
    | cons e t =>
      have : s0.data ≠ [] := by intro hh; simp [hh] at hr
      simp [this]
  · intro k s hk
    unfold popright at hk
    cases hr : s0.data.reverse with
    | nil => rw [hr] at hk; simp at hk
    | cons e t =>
      rw [hr] at hk
      simp only [Option.some.injEq, Prod.mk.injEq] at hk
      obtain ⟨rfl, rfl⟩ := hk
      have hd : s0.data = t.reverse ++ [e] := by
        have := congrArg List.reverse hr
        simpa using this
      have hi : s0.iter = t.reverse.map (·.1) ++ [e.1] := by
        unfold iter; rw [hd]; simp
      have hmem : e.1 ∈ s0.iter := by rw [hi]; simp
      refine ⟨?_, hmem, ?_⟩
      · intro b hb
        rw [hi, List.mem_append] at hb
        rcases hb with hb | hb
        · right
          rw [hi, List.pairwise_append] at hp
          exact hp.2.2 b hb e.1 (by simp)
        · left; simpa using hb
      · show _ = step (run h) _
        rw [hs]
        show _ = (s0.discard e.1).getD s0
        rw [discard_some _ _ hmem]
        rfl

/-- Re-adding an element moves it to the end. -/
example : (run [Op.add 1, .discard 7, .add 3, .add 2, .add 1, .add (7 : Nat)]).iter = [2, 3, 1] := by decide

end OrderedSet

namespace UidQueue
variable {α : Type} [DecidableEq α]

/-- Operations on the queue used by the optimizers. -/
inductive Op (α : Type) where
  | ask
  | tell (u : α)
  | register (u : α)
  | discard (u : α)
  | clear

/-- One operation: new state and what an `ask` returned (`none` if it failed or for other operations). -/
def step (q : UidQueue α) : Op α → UidQueue α × Option α
  | .ask => match q.ask with
    | some (u, q') => (q', some u)
    | none => (q, none)
  | .tell u => (q.tell u, none)
  | .register u => (q.register u, none)
  | .discard u => ((q.discard u).getD q, none)
  | .clear => (q.clear, none)

/-- Final state of a chronological history. -/
def run (q : UidQueue α) : List (Op α) → UidQueue α
  | [] => q
  | op :: ops => run (step q op).1 ops

/-- Uids returned by the asks of the history which were served while some uid was waiting as told. -/
def servedFromTold (q : UidQueue α) : List (Op α) → List α
  | [] => []
  | op :: ops =>
    (if q.told = [] then [] else (step q op).2.toList) ++ servedFromTold (step q op).1 ops

/-- The uids told during the history, in order. -/
def tells : List (Op α) → List α
  | [] => []
  | .tell u :: ops => u :: tells ops
  | _ :: ops => tells ops

/-- Histories which only ask, tell and register. -/
def Plain : List (Op α) → Prop
  | [] => True
  | .discard _ :: _ => False
  | .clear :: _ => False
  | _ :: ops => Plain ops

/-- **C13 (order).** Told uids are served first-in first-out: the uids served while some were told,
followed by those still waiting, are those waiting initially followed by the ones told since. -/
theorem uidQueue_fifo (q : UidQueue α) (ops : List (Op α)) (hp : Plain ops) :
    servedFromTold q ops ++ (run q ops).told = q.told ++ tells ops := by
  induction ops generalizing q with
  | nil => simp [servedFromTold, run, tells]
  | cons op ops ih =>
    cases op with
    | ask =>
      have := ih (step q .ask).1 hp
      simp only [servedFromTold, run, tells, List.append_assoc, this]
      unfold step ask
      cases ht : q.told with
      | nil => cases hi : q.asked.iter <;> simp [ht]
      | cons u r => simp
    | tell u =>
      have := ih (step q (.tell u)).1 hp
      simp only [servedFromTold, run, tells, List.append_assoc, this]
      simp [step, tell]
    | register u =>
      have := ih (step q (.register u)).1 hp
      simp only [servedFromTold, run, tells, List.append_assoc, this]
      simp [step, register]
    | discard u => exact hp.elim
    | clear => exact hp.elim

/-- **C13 (order), with discards and clears**: what is served is still in telling order. -/
theorem uidQueue_fifo_sublist (q : UidQueue α) (ops : List (Op α)) :
    (servedFromTold q ops ++ (run q ops).told).Sublist (q.told ++ tells ops) := by
  induction ops generalizing q with
  | nil => simp [servedFromTold, run, tells]
  | cons op ops ih =>
    cases op with
    | ask =>
      have := ih (step q .ask).1
      simp only [servedFromTold, run, tells, List.append_assoc]
      refine (List.Sublist.append_left this _).trans ?_
      rw [← List.append_assoc]
      apply List.Sublist.append_right
      unfold step ask
      cases ht : q.told with
      | nil => cases hi : q.asked.iter <;> simp [ht]
      | cons u r => simp
    | tell u =>
      have := ih (step q (.tell u)).1
      simp only [servedFromTold, run, tells, List.append_assoc]
      refine (List.Sublist.append_left this _).trans ?_
      simp [step, tell]
    | register u =>
      have := ih (step q (.register u)).1
      simp only [servedFromTold, run, tells, List.append_assoc]
      refine (List.Sublist.append_left this _).trans ?_
      simp [step, register]
    | discard u =>
      have := ih (step q (.discard u)).1
      simp only [servedFromTold, run, tells, List.append_assoc]
      refine (List.Sublist.append_left this _).trans ?_
      rw [← List.append_assoc]
      apply List.Sublist.append_right
      simp only [step, Option.toList_none, ite_self, List.nil_append]
      unfold discard
      by_cases h : u ∈ q.asked.iter
      · rw [OrderedSet.discard_some _ _ h]; simp
      · rw [OrderedSet.discard_none _ _ h]
        by_cases h2 : u ∈ q.told
        · simp [h2, List.erase_sublist]
        · simp [h2]
    | clear =>
      have := ih (step q (.clear)).1
      simp only [servedFromTold, run, tells, List.append_assoc]
      refine (List.Sublist.append_left this _).trans ?_
      simp [step, clear]

/-- A uid is held by the queue. -/
def Holds (q : UidQueue α) (u : α) : Prop := u ∈ q.told ∨ u ∈ q.asked.iter

/-- **C13 (failure).** `ask` fails exactly when the queue holds no uid. -/
theorem uidQueue_ask_fails_iff (q : UidQueue α) : q.ask = none ↔ ∀ u, ¬ q.Holds u := by
  unfold ask Holds
  cases ht : q.told with
  | nil =>
    cases hi : q.asked.iter with
    | nil => simp
    | cons a l =>
      simp only [reduceCtorEq, false_iff]
      intro h; exact h a (Or.inr (by simp))
  | cons a l =>
    simp only [reduceCtorEq, false_iff]
    intro h; exact h a (Or.inl (by simp))

/-- Uids introduced by a history. -/
def Introduced (ops : List (Op α)) (u : α) : Prop := ∃ op ∈ ops, op = .tell u ∨ op = .register u

theorem holds_step_ask (q : UidQueue α) (u : α) : (step q .ask).1.Holds u ↔ q.Holds u := by
  unfold step ask Holds
  cases ht : q.told with
  | nil =>
    cases hi : q.asked.iter with
    | nil => simp [ht, hi]
    | cons a l =>
      simp only [List.not_mem_nil, false_or]
      rw [OrderedSet.mem_add, hi]
      simp
  | cons a l =>
    simp only [List.mem_cons]
    rw [OrderedSet.mem_add]
    grind

theorem holds_tell (q : UidQueue α) (u v : α) : (q.tell v).Holds u ↔ q.Holds u ∨ u = v := by
  unfold Holds
  rw [tell_told, tell_asked_iter, OrderedSet.mem_filter_ne]
  simp only [List.mem_append, List.mem_singleton]
  grind

/-- **C13 (conservation).** Asking, telling and registering neither lose nor invent uids. -/
theorem uidQueue_conservation (q : UidQueue α) (ops : List (Op α)) (hp : Plain ops) (u : α) :
    (run q ops).Holds u ↔ q.Holds u ∨ Introduced ops u := by
  induction ops generalizing q with
  | nil => simp [run, Introduced]
  | cons op ops ih =>
    cases op with
    | ask =>
      have := ih (step q .ask).1 hp
      rw [run, this, holds_step_ask]
      simp [Introduced]
    | tell v =>
      have := ih (step q (.tell v)).1 hp
      rw [run, this]
      show (q.tell v).Holds u ∨ _ ↔ _
      rw [holds_tell]
      simp only [Introduced, List.mem_cons, exists_eq_or_imp]
      grind
    | register v =>
      have := ih (step q (.register v)).1 hp
      rw [run, this]
      show (q.register v).Holds u ∨ _ ↔ _
      simp only [Introduced, List.mem_cons, exists_eq_or_imp, Holds, register, OrderedSet.mem_add]
      grind
    | discard u => exact hp.elim
    | clear => exact hp.elim

/-- Each uid is held at most once. -/
def Unique (q : UidQueue α) : Prop :=
  q.told.Nodup ∧ q.asked.iter.Nodup ∧ ∀ u ∈ q.told, u ∉ q.asked.iter

/-- A history is *regular* when a uid is only told or registered while it is not already waiting as
told (each pending evaluation of a uid is reported once). -/
def Regular (q : UidQueue α) : List (Op α) → Prop
  | [] => True
  | op :: ops =>
    (match op with
      | .tell u => u ∉ q.told
      | .register u => u ∉ q.told
      | _ => True) ∧ Regular (step q op).1 ops

theorem unique_step (q : UidQueue α) (op : Op α) (h : q.Unique)
    (hr : match op with | .tell u => u ∉ q.told | .register u => u ∉ q.told | _ => True) :
    (step q op).1.Unique := by
  obtain ⟨h1, h2, h3⟩ := h
  cases op with
  | ask =>
    unfold step ask
    cases ht : q.told with
    | nil =>
      cases hi : q.asked.iter with
      | nil => simp only [Unique, ht, hi]; simp
      | cons a l =>
        refine ⟨by simp, OrderedSet.nodup_add _ _ h2, by simp⟩
    | cons a l =>
      rw [ht] at h1 h3
      refine ⟨(List.nodup_cons.1 h1).2, OrderedSet.nodup_add _ _ h2, ?_⟩
      intro u hu
      rw [OrderedSet.mem_add]
      have := (List.nodup_cons.1 h1).1
      have := h3 u (by simp [show u ∈ l from hu])
      grind
  | tell u =>
    refine ⟨?_, ?_, ?_⟩
    · show (q.told ++ [u]).Nodup
      rw [List.nodup_append]
      exact ⟨h1, by simp, by intro a ha b hb; simp only [List.mem_singleton] at hb; subst hb
                             intro e; exact hr (e ▸ ha)⟩
    · show (q.tell u).asked.iter.Nodup
      rw [tell_asked_iter]; exact h2.filter _
    · intro v hv
      show v ∉ (q.tell u).asked.iter
      rw [tell_asked_iter, OrderedSet.mem_filter_ne]
      replace hv : v ∈ q.told ++ [u] := hv
      simp only [List.mem_append, List.mem_singleton] at hv
      rcases hv with hv | hv
      · have := h3 v hv; grind
      · grind
  | register u =>
    refine ⟨h1, OrderedSet.nodup_add _ _ h2, ?_⟩
    intro v hv
    show v ∉ (q.asked.add u).iter
    rw [OrderedSet.mem_add]
    replace hv : v ∈ q.told := hv
    have := h3 v hv
    replace hr : u ∉ q.told := hr
    grind
  | discard u =>
    show ((q.discard u).getD q).Unique
    unfold discard
    by_cases hu : u ∈ q.asked.iter
    · rw [OrderedSet.discard_some _ _ hu]
      simp only [Option.getD_some]
      refine ⟨h1, ?_, ?_⟩
      · show ({ q.asked with data := _ } : OrderedSet α).iter.Nodup
        rw [OrderedSet.iter_remove]; exact h2.filter _
      · intro v hv
        show v ∉ ({ q.asked with data := _ } : OrderedSet α).iter
        rw [OrderedSet.iter_remove, OrderedSet.mem_filter_ne]
        have := h3 v hv; grind
    · rw [OrderedSet.discard_none _ _ hu]
      by_cases ht : u ∈ q.told
      · simp only [ht, if_true, Option.getD_some]
        exact ⟨h1.erase _, h2, fun v hv => h3 v (List.mem_of_mem_erase hv)⟩
      · simp only [ht, if_false, Option.getD_none]
        exact ⟨h1, h2, h3⟩
  | clear => simp [step, clear, Unique, OrderedSet.clear, OrderedSet.iter]

/-- **C13 (uniqueness).** Along every regular history each uid is held at most once. -/
theorem uidQueue_unique (q : UidQueue α) (ops : List (Op α)) (h : q.Unique) (hr : Regular q ops) :
    (run q ops).Unique := by
  induction ops generalizing q with
  | nil => exact h
  | cons op ops ih => exact ih _ (unique_step q op h hr.1) hr.2

/-- **C13 (discard).** When each uid is held at most once, `discard` succeeds exactly on held uids and
removes that uid only. -/
theorem uidQueue_discard (q : UidQueue α) (u : α) (h : q.Unique) :
    (q.discard u = none ↔ ¬ q.Holds u) ∧
    ∀ q', q.discard u = some q' → ∀ v, q'.Holds v ↔ q.Holds v ∧ v ≠ u := by
  obtain ⟨h1, h2, h3⟩ := h
  unfold discard Holds
  by_cases hu : u ∈ q.asked.iter
  · rw [OrderedSet.discard_some _ _ hu]
    refine ⟨by simp [hu], ?_⟩
    intro q' hq v
    simp only [Option.some.injEq] at hq
    subst hq
    simp only
    rw [OrderedSet.iter_remove, OrderedSet.mem_filter_ne]
    have : u ∉ q.told := fun hh => h3 u hh hu
    grind
  · rw [OrderedSet.discard_none _ _ hu]
    by_cases ht : u ∈ q.told
    · simp only [ht, if_true]
      refine ⟨by simp, ?_⟩
      intro q' hq v
      simp only [Option.some.injEq] at hq
      subst hq
      simp only
      rw [h1.mem_erase_iff]
      grind
    · simp [ht, hu]

/-- `k` successive asks. -/
def askN (q : UidQueue α) : Nat → List α × UidQueue α
  | 0 => ([], q)
  | n + 1 => match q.ask with
    | some (u, q') => let r := askN q' n; (u :: r.1, r.2)
    | none => ([], q)

/-- **C13 (round robin).** When nothing is told, `n` asks on `n` asked uids return all of them, oldest
first, and leave the queue in the same order, so every uid is served equally often. -/
theorem uidQueue_round_robin (q : UidQueue α) (ht : q.told = []) (hn : q.asked.iter.Nodup) :
    (askN q q.asked.iter.length).1 = q.asked.iter ∧
    (askN q q.asked.iter.length).2.told = [] ∧
    (askN q q.asked.iter.length).2.asked.iter = q.asked.iter := by
  have key : ∀ (l r : List α) (q : UidQueue α), q.told = [] → q.asked.iter = l ++ r →
      (l ++ r).Nodup → (askN q l.length).1 = l ∧ (askN q l.length).2.told = [] ∧
      (askN q l.length).2.asked.iter = r ++ l := by
    intro l
    induction l with
    | nil => intro r q h1 h2 _; simpa [askN] using ⟨h1, h2⟩
    | cons a l ih =>
      intro r q h1 h2 h3
      have hask : q.ask = some (a, ⟨[], q.asked.add a⟩) := by
        unfold ask; rw [h1, h2]; simp
      have hit : (q.asked.add a).iter = l ++ (r ++ [a]) := by
        rw [OrderedSet.iter_add, h2]
        have : a ∉ l ++ r := by
          simp only [List.cons_append] at h3
          exact (List.nodup_cons.1 h3).1
        simp only [List.cons_append, List.filter_cons, beq_self_eq_true, Bool.not_true,
          Bool.false_eq_true, if_false]
        rw [OrderedSet.filter_ne_of_notMem _ _ this, List.append_assoc]
      have hnd : (l ++ (r ++ [a])).Nodup := by
        rw [← hit]; exact OrderedSet.nodup_add _ _ (h2 ▸ h3)
      have := ih (r ++ [a]) ⟨[], q.asked.add a⟩ rfl hit hnd
      simp only [List.length_cons, askN, hask]
      refine ⟨by rw [this.1], this.2.1, ?_⟩
      rw [this.2.2]; simp
  have := key q.asked.iter [] q ht (by simp) (by simpa using hn)
  simpa using this

/-- Non-vacuity: a regular history using every operation. -/
example : Regular (empty : UidQueue Nat) [.register 1, .register 2, .tell 1, .ask, .tell 1, .discard 2, .clear]
    ∧ (empty : UidQueue Nat).Unique := by
  simp [Regular, step, empty, register, tell, ask, OrderedSet.add, OrderedSet.remove, OrderedSet.empty,
    OrderedSet.discard, OrderedSet.contains, OrderedSet.popValue, Unique, OrderedSet.iter]

example : let q : UidQueue Nat := run empty [.register 1, .register 2, .register 3]
    q.told = [] ∧ q.asked.iter.Nodup ∧ (askN q 7).1 = [1, 2, 3, 1, 2, 3, 1] := by decide

/-- Without regularity uniqueness fails: the same uid told twice survives a `discard`. This is the root
of the population failure of C46. -/
theorem uidQueue_irregular_discard :
    ∃ (ops : List (Op Nat)) (u : Nat) (q' : UidQueue Nat),
      (run empty ops).discard u = some q' ∧ q'.Holds u := by
  refine ⟨[.tell 1, .tell 1], 1, (run empty [.tell 1]), by decide, ?_⟩
  unfold Holds; left; decide

end UidQueue
end NG
