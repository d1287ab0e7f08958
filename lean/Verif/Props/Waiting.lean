import Verif.Model.Waiting
import Verif.Props.Tools
import Mathlib.Algebra.Order.BigOperators.Group.List
import Mathlib.Tactic.Linarith
import Mathlib.Tactic.FieldSimp

/-!
# C164: the waiting times of `minimize`
-/

namespace NG.Waiting

variable {K : Type} [Field K] [LinearOrder K]

/-! ## The sleeper -/

/-- A measure is kept when the timer runs, and only a warning is given otherwise; the same for a second start. -/
theorem timer_spec (s : Sleeper K) (t t' : K) :
    (s.start = none → (s.startTimer t).start = some t ∧ (s.startTimer t).queue = s.queue ∧ (s.startTimer t).warnings = s.warnings ∧
      s.stopTimer t = { s with warnings := s.warnings + 1 }) ∧
    (s.start = some t' → s.startTimer t = { s with warnings := s.warnings + 1 } ∧ (s.stopTimer t).start = none ∧
      (s.stopTimer t).queue = push s.size s.queue (t - t') ∧ (s.stopTimer t).warnings = s.warnings) := by
  refine ⟨fun h => ?_, fun h => ?_⟩ <;> simp [Sleeper.startTimer, Sleeper.stopTimer, h]

/-- The queue holds the last durations, as many as its size at most. -/
theorem push_spec (size : Nat) (l : List K) (x : K) (h : l.length ≤ size) :
    (push size l x).length = min size (l.length + 1) ∧ ∃ old, l ++ [x] = old ++ push size l x ∧ old.length = l.length + 1 - size := by
  unfold push
  refine ⟨?_, (l ++ [x]).take (l.length + 1 - size), (List.take_append_drop _ _).symm, ?_⟩
  · simp only [List.length_drop, List.length_append, List.length_singleton]; omega
  · simp only [List.length_take, List.length_append, List.length_singleton]; omega

/-- After any number of durations, the queue is the last ones. -/
theorem pushes_spec (size : Nat) (xs : List K) : xs.foldl (push size) [] = xs.drop (xs.length - size) := by
  induction xs using List.reverseRecOn with
  | nil => simp
  | append_singleton xs x ih =>
    rw [List.foldl_append, List.foldl_cons, List.foldl_nil, ih]
    unfold push
    simp only [List.length_drop, List.length_append, List.length_singleton]
    by_cases h : xs.length ≤ size
    · have e : xs.length - size = 0 := by omega
      rw [e]; simp
    · have e : xs.length - (xs.length - size) + 1 - size = 1 := by omega
      have e' : xs.length + 1 - size = (xs.length - size) + 1 := by omega
      rw [e, e', ← List.drop_append_of_le_length (by omega), List.drop_drop]

variable [IsStrictOrderedRing K]

private theorem mean_bounds (l : List K) (a b : K) (h : ∀ x ∈ l, a ≤ x ∧ x ≤ b) (m : K) (hm : mean l = some m) : a ≤ m ∧ m ≤ b := by
  unfold mean at hm
  split at hm
  · simp at hm
  · next hne =>
    simp only [Option.some.injEq] at hm
    subst hm
    have hpos : (0 : K) < l.length := by
      have : 0 < l.length := List.length_pos_iff.2 hne
      exact_mod_cast this
    have h1 : l.length • a ≤ l.sum := List.card_nsmul_le_sum l a fun x hx => (h x hx).1
    have h2 : l.sum ≤ l.length • b := List.sum_le_card_nsmul l b fun x hx => (h x hx).2
    rw [nsmul_eq_mul] at h1 h2
    exact ⟨by rw [le_div_iff₀ hpos]; linarith, by rw [div_le_iff₀ hpos]; linarith⟩

/-- A sleep is never shorter than the minimum nor longer than the maximum, and between these limits is between a tenth of the shortest and a tenth of the
longest of the durations kept: about a tenth of the time is lost. -/
theorem sleep_spec (s : Sleeper K) (now : K) (h : s.lo ≤ s.hi) :
    s.lo ≤ s.sleep now ∧ s.sleep now ≤ s.hi ∧
    (s.queue ≠ [] → ∀ a b, (∀ x ∈ s.queue, a ≤ x ∧ x ≤ b) → min (a / 10) s.hi ≤ s.sleep now ∧ s.sleep now ≤ max (b / 10) s.lo) ∧
    (s.queue = [] → s.start = none → s.sleep now = s.lo) ∧
    (s.queue = [] → ∀ t, s.start = some t → s.sleep now = min (max ((now - t) / 10) s.lo) s.hi) := by
  obtain ⟨h1, h2⟩ := NG.Tools.advisedSleep_range s.lo s.hi 10 (s.start.map fun t => now - t) (mean s.queue) h
  refine ⟨h1, h2, fun hq a b hab => ?_, fun hq hs => ?_, fun hq t hs => ?_⟩
  · obtain ⟨m, hm⟩ : ∃ m, mean s.queue = some m := ⟨_, if_neg hq⟩
    obtain ⟨m1, m2⟩ := mean_bounds s.queue a b hab m hm
    have e : s.sleep now = min (max (m / 10) s.lo) s.hi := by simp only [Sleeper.sleep, Tools.advisedSleep, hm]
    rw [e]
    have d1 : a / 10 ≤ m / 10 := by linarith
    have d2 : m / 10 ≤ b / 10 := by linarith
    exact ⟨le_min ((min_le_left _ _).trans (d1.trans (le_max_left _ _))) (min_le_right _ _), (min_le_left _ _).trans (max_le_max d2 le_rfl)⟩
  · simp [Sleeper.sleep, Tools.advisedSleep, mean, hq, hs]
  · simp [Sleeper.sleep, Tools.advisedSleep, mean, hq, hs]

omit [IsStrictOrderedRing K] in
private theorem sleeper_turn (workers : Nat) (batch : Bool) (s : Loop K) (t : Turn K) :
    ((turn workers batch s t).sleeper.lo = s.sleeper.lo ∧ (turn workers batch s t).sleeper.hi = s.sleeper.hi ∧
      (turn workers batch s t).sleeper.size = s.sleeper.size) ∧
    (s.sleeper.queue.length ≤ s.sleeper.size → (turn workers batch s t).sleeper.queue.length ≤ s.sleeper.size) ∧
    ((turn workers batch s t).slept = s.slept ∨ (turn workers batch s t).slept = s.slept ++ [s.sleeper.sleep t.time1]) := by
  have hstart : ∀ (x : Sleeper K) (a : K), (x.startTimer a).lo = x.lo ∧ (x.startTimer a).hi = x.hi ∧ (x.startTimer a).size = x.size ∧
      (x.startTimer a).queue = x.queue := by
    intro x a; unfold Sleeper.startTimer; split <;> simp
  have hstop : ∀ (x : Sleeper K) (a : K), (x.stopTimer a).lo = x.lo ∧ (x.stopTimer a).hi = x.hi ∧ (x.stopTimer a).size = x.size ∧
      (x.queue.length ≤ x.size → (x.stopTimer a).queue.length ≤ x.size) := by
    intro x a; unfold Sleeper.stopTimer; split
    · simp
    · refine ⟨rfl, rfl, rfl, fun h => ?_⟩
      rw [(push_spec _ _ _ h).1]; exact min_le_left _ _
  have hb : ((begin s t).1 = s.sleeper ∨ (begin s t).1 = s.sleeper.stopTimer t.time1) ∧
      ((begin s t).2 = s.slept ∨ (begin s t).2 = s.slept ++ [s.sleeper.sleep t.time1]) := by
    unfold begin; split
    · split <;> simp
    · split <;> simp
  have hbs : (begin s t).1.lo = s.sleeper.lo ∧ (begin s t).1.hi = s.sleeper.hi ∧ (begin s t).1.size = s.sleeper.size ∧
      (s.sleeper.queue.length ≤ s.sleeper.size → (begin s t).1.queue.length ≤ s.sleeper.size) := by
    rcases hb.1 with h | h <;> rw [h]
    · exact ⟨rfl, rfl, rfl, id⟩
    · exact hstop _ _
  unfold turn
  split
  · exact ⟨⟨rfl, rfl, rfl⟩, id, Or.inl rfl⟩
  · refine ⟨?_, ?_, hb.2⟩
    · simp only
      split
      · obtain ⟨a, b, c, _⟩ := hstart (begin s t).1 t.time2
        rw [a, b, c]; exact ⟨hbs.1, hbs.2.1, hbs.2.2.1⟩
      · exact ⟨hbs.1, hbs.2.1, hbs.2.2.1⟩
    · intro hq
      simp only
      split
      · rw [(hstart (begin s t).1 t.time2).2.2.2]; exact hbs.2.2.2 hq
      · exact hbs.2.2.2 hq

/-- Whatever happens, `minimize` sleeps between the minimum and the maximum each time, and keeps no more durations than the size of the queue. -/
theorem run_sleeps (workers : Nat) (batch : Bool) (budget : Nat) (lo hi : K) (size : Nat) (h : lo ≤ hi) (l : List (Turn K)) :
    (∀ d ∈ (run workers batch (fresh budget lo hi size) l).slept, lo ≤ d ∧ d ≤ hi) ∧
    (run workers batch (fresh budget lo hi size) l).sleeper.queue.length ≤ size := by
  suffices H : ∀ (l : List (Turn K)) (s : Loop K), s.sleeper.lo = lo → s.sleeper.hi = hi → s.sleeper.size = size → s.sleeper.queue.length ≤ size →
      (∀ d ∈ s.slept, lo ≤ d ∧ d ≤ hi) → (∀ d ∈ (run workers batch s l).slept, lo ≤ d ∧ d ≤ hi) ∧ (run workers batch s l).sleeper.queue.length ≤ size from
    H l _ rfl rfl rfl (by simp [fresh, Sleeper.new]) (by simp [fresh])
  intro l
  induction l with
  | nil => intro s _ _ _ hq hs; exact ⟨hs, hq⟩
  | cons t l ih =>
    intro s e1 e2 e3 hq hs
    obtain ⟨⟨a, b, c⟩, hq', hs'⟩ := sleeper_turn workers batch s t
    refine ih (turn workers batch s t) (a.trans e1) (b.trans e2) (c.trans e3) ?_ ?_
    · rw [← e3]; exact hq' (by rw [e3]; exact hq)
    · rcases hs' with h' | h' <;> rw [h']
      · exact hs
      · intro d hd
        rcases List.mem_append.1 hd with hd | hd
        · exact hs d hd
        · rw [List.mem_singleton] at hd
          subst hd
          have := sleep_spec s.sleeper t.time1 (by rw [e1, e2]; exact h)
          rw [e1, e2] at this
          exact ⟨this.1, this.2.1⟩

/-! ## Warnings -/

/-- What holds between the turns: the timer runs and all workers are used as long as there is budget. -/
structure Inv (workers : Nat) (batch : Bool) (s : Loop K) : Prop where
  quiet : s.sleeper.warnings = 0
  begun : s.first = true → s.running = 0 ∧ s.finished = 0 ∧ s.sleeper.start = none
  room : s.running + s.finished ≤ workers
  full : s.first = false → s.remaining ≠ 0 → s.running + s.finished = workers ∧ s.sleeper.start.isSome = true
  whole : batch = true → s.running = 0 ∨ s.finished = 0

omit [IsStrictOrderedRing K] in
private theorem inv_turn (workers : Nat) (hw : 0 < workers) (batch : Bool) (s : Loop K) (t : Turn K) (h : Inv workers batch s)
    (ht : batch = true → t.done = 0 ∨ workers ≤ t.done) : Inv workers batch (turn workers batch s t) := by
  by_cases hend : s.remaining = 0 ∧ s.running = 0 ∧ s.finished = 0
  · unfold turn; rw [if_pos hend]; exact h
  -- what the beginning of the turn leaves
  have hb : (begin s t).1.warnings = 0 ∧ (0 < suggestions workers batch s → (begin s t).1.start = none) ∧
      (suggestions workers batch s = 0 → s.remaining ≠ 0 → (begin s t).1.start.isSome = true) := by
    have hsug : suggestions workers batch s = 0 → s.remaining ≠ 0 → (batch = true ∧ 0 < s.running) ∨ workers ≤ s.running := by
      intro h0 hr
      unfold suggestions at h0
      split at h0
      · right; omega
      · next hc =>
        left
        simp only [Bool.or_eq_true, Bool.not_eq_true', beq_iff_eq, not_or, Bool.not_eq_false] at hc
        exact ⟨hc.1, by omega⟩
    have hpos : 0 < suggestions workers batch s → s.remaining ≠ 0 ∧ s.running < workers ∧ (batch = true → s.running = 0) := by
      intro h0
      unfold suggestions at h0
      split at h0
      · next hc =>
        refine ⟨by omega, by omega, fun hbt => ?_⟩
        simpa [hbt] using hc
      · omega
    cases hf : s.first with
    | true =>
      obtain ⟨r0, f0, st0⟩ := h.begun hf
      have e : (begin s t).1 = s.sleeper := by simp [begin, f0, hf]
      rw [e]
      refine ⟨h.quiet, fun _ => st0, fun h0 hr => ?_⟩
      rcases hsug h0 hr with ⟨_, h1⟩ | h1 <;> omega
    | false =>
      by_cases hfin : 0 < s.finished
      · cases hst : s.sleeper.start with
        | none =>
          have hrem : s.remaining = 0 := by
            by_contra hr
            have := (h.full hf hr).2
            rw [hst] at this; simp at this
          have e : (begin s t).1 = s.sleeper := by simp [begin, hfin, hf, hst, hrem]
          rw [e]
          refine ⟨h.quiet, fun _ => hst, fun _ hr => absurd hrem hr⟩
        | some t0 =>
          have e : (begin s t).1 = s.sleeper.stopTimer t.time1 := by simp [begin, hfin, hf, hst]
          rw [e]
          refine ⟨by simp [Sleeper.stopTimer, hst, h.quiet], fun _ => by simp [Sleeper.stopTimer, hst], fun h0 hr => ?_⟩
          exfalso
          have hfull := (h.full hf hr).1
          rcases hsug h0 hr with ⟨hbt, h1⟩ | h1
          · rcases h.whole hbt with h2 | h2 <;> omega
          · omega
      · have e : (begin s t).1 = s.sleeper := by simp [begin, hfin, hf]
        rw [e]
        refine ⟨h.quiet, fun h0 => ?_, fun _ hr => (h.full hf hr).2⟩
        exfalso
        obtain ⟨hr, h1, h2⟩ := hpos h0
        have hfull := (h.full hf hr).1
        omega
  have hrun : s.running + suggestions workers batch s ≤ workers := by
    have := h.room
    unfold suggestions
    split <;> omega
  have hasks : (asks (suggestions workers batch s) t.early).1 ≤ suggestions workers batch s ∧
      ((asks (suggestions workers batch s) t.early).2 = false → (asks (suggestions workers batch s) t.early).1 = suggestions workers batch s) := by
    unfold asks
    split
    · split <;> simp <;> omega
    · simp
  obtain ⟨b1, b2, b3⟩ := hb
  obtain ⟨a1, a2⟩ := hasks
  unfold turn
  rw [if_neg hend]
  dsimp only
  generalize hn : suggestions workers batch s = n at *
  generalize asks n t.early = a at *
  refine ⟨?_, by simp, ?_, ?_, ?_⟩
  · dsimp only
    split
    · next h0 => simp [Sleeper.startTimer, b2 h0, b1]
    · exact b1
  · simp only; omega
  · intro _ hr
    simp only at hr ⊢
    by_cases ha : a.2 = true
    · simp [ha] at hr
    · rw [Bool.not_eq_true] at ha
      simp only [ha, Bool.false_eq_true, if_false] at hr
      have hA := a2 ha
      refine ⟨?_, ?_⟩
      · -- all workers are used
        have : s.running + n = workers := by
          have hrem : s.remaining ≠ 0 := by omega
          by_cases h0 : n = 0
          · cases hf : s.first with
            | true =>
              obtain ⟨r0, _, _⟩ := h.begun hf
              unfold suggestions at hn
              rw [r0] at hn
              simp at hn
              omega
            | false =>
              have hfull := (h.full hf hrem).1
              by_cases hfin : s.finished = 0
              · omega
              · exfalso
                unfold suggestions at hn
                split at hn
                · omega
                · next hc =>
                  simp only [Bool.or_eq_true, Bool.not_eq_true', beq_iff_eq, not_or, Bool.not_eq_false] at hc
                  rcases h.whole hc.1 with h2 | h2 <;> omega
          · unfold suggestions at hn
            split at hn
            · omega
            · omega
        omega
      · split
        · next h0 => simp [Sleeper.startTimer, b2 h0]
        · next h0 => exact b3 (by omega) (by omega)
  · intro hbt
    simp only
    rcases ht hbt with h0 | h0
    · right; rw [h0]; simp
    · left; omega

omit [IsStrictOrderedRing K] in
private theorem inv_run (workers : Nat) (hw : 0 < workers) (batch : Bool) (l : List (Turn K)) : ∀ (s : Loop K), Inv workers batch s →
    (∀ t ∈ l, batch = true → t.done = 0 ∨ workers ≤ t.done) → Inv workers batch (run workers batch s l) := by
  induction l with
  | nil => intro s h _; exact h
  | cons t l ih =>
    intro s h ht
    exact ih (turn workers batch s t) (inv_turn workers hw batch s t h (ht t (by simp))) fun t' ht' => ht t' (by simp [ht'])

omit [IsStrictOrderedRing K] in
/-- Part of the claim: `minimize` of a new optimizer never misuses the timer in steady mode, whatever the ends of the jobs and early stoppings, nor in batch mode
if all the jobs of a batch end together. -/
theorem quiet_partial (workers : Nat) (hw : 0 < workers) (batch : Bool) (budget : Nat) (lo hi : K) (size : Nat) (l : List (Turn K))
    (ht : ∀ t ∈ l, batch = true → t.done = 0 ∨ workers ≤ t.done) : (run workers batch (fresh budget lo hi size) l).sleeper.warnings = 0 :=
  (inv_run workers hw batch l _ ⟨rfl, fun _ => ⟨rfl, rfl, rfl⟩, by simp [fresh], by simp [fresh], fun _ => Or.inl rfl⟩ ht).quiet

omit [IsStrictOrderedRing K] in
/-- In these cases, as long as there is budget, all the workers have a job after each turn and the timer runs. -/
theorem busy_partial (workers : Nat) (hw : 0 < workers) (batch : Bool) (budget : Nat) (lo hi : K) (size : Nat) (l : List (Turn K)) (hl : l ≠ [])
    (ht : ∀ t ∈ l, batch = true → t.done = 0 ∨ workers ≤ t.done) (hr : (run workers batch (fresh budget lo hi size) l).remaining ≠ 0) :
    (run workers batch (fresh budget lo hi size) l).running + (run workers batch (fresh budget lo hi size) l).finished = workers ∧
    (run workers batch (fresh budget lo hi size) l).sleeper.start.isSome = true := by
  have hinv := inv_run workers hw batch l (fresh budget lo hi size) ⟨rfl, fun _ => ⟨rfl, rfl, rfl⟩, by simp [fresh], by simp [fresh], fun _ => Or.inl rfl⟩ ht
  refine hinv.full ?_ hr
  have hnf : ∀ (l : List (Turn K)) (s : Loop K), s.first = false → (run workers batch s l).first = false := by
    intro l
    induction l with
    | nil => intro s h; exact h
    | cons t l ih =>
      intro s h
      refine ih _ ?_
      unfold turn
      split
      · exact h
      · rfl
  cases l with
  | nil => exact absurd rfl hl
  | cons t l =>
    by_cases hb : budget = 0
    · exfalso
      apply hr
      have e : ∀ (l : List (Turn K)), run workers batch (fresh budget lo hi size) l = fresh budget lo hi size := by
        intro l
        induction l with
        | nil => rfl
        | cons t l ih =>
          have : turn workers batch (fresh budget lo hi size) t = fresh budget lo hi size := by
            unfold turn; rw [if_pos ⟨hb, rfl, rfl⟩]
          unfold run at ih ⊢
          rw [List.foldl_cons, this, ih]
      rw [e]
      exact hb
    · refine hnf l _ ?_
      unfold turn
      rw [if_neg (by simp [fresh, hb])]

/-- The claim is false in batch mode if the jobs of a batch end at different times: two workers, a budget of three; the timer is stopped twice. -/
theorem batch_warns : (run 2 true (fresh 3 (0 : ℚ) 1 10) [⟨0, 0, none, 1⟩, ⟨1, 1, none, 1⟩, ⟨2, 2, none, 0⟩]).sleeper.warnings = 1 := by decide +kernel

/-- The claim is false for an optimizer that is resumed with running jobs for all its workers: the timer is stopped before any start. -/
theorem resumed_warns : (run 1 false ⟨2, 1, 0, true, Sleeper.new (0 : ℚ) 1 10, []⟩ [⟨0, 0, none, 1⟩, ⟨1, 1, none, 0⟩]).sleeper.warnings = 1 := by
  decide +kernel

/-! ## Cases -/

example : ((Sleeper.new (0 : ℚ) 1 2).startTimer 1 |>.stopTimer 4 |>.startTimer 5 |>.stopTimer 6 |>.startTimer 8 |>.stopTimer 13).queue = [1, 5] := by decide +kernel
example : ((Sleeper.new (0 : ℚ) 1 2).startTimer 1 |>.stopTimer 4 |>.startTimer 5 |>.stopTimer 6).sleep 7 = 1 / 5 := by decide +kernel
example : (run 2 false (fresh 3 (1 / 100 : ℚ) 1 10) [⟨0, 0, none, 1⟩, ⟨3, 3, none, 0⟩, ⟨4, 4, none, 2⟩, ⟨5, 5, none, 0⟩])
    = ⟨0, 0, 0, false, ⟨1 / 100, 1, 10, none, [3, 2], 0⟩, [3 / 10]⟩ := by decide +kernel

end NG.Waiting
