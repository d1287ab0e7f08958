import Verif.Lemmas.Minimize

/-!
# C07-C11: the minimize loop

All theorems quantify over every input list: every completion schedule, clock, early stop, interruption
and resumption. `asks`, `tells`, `stopped`, `damage` (in `Lemmas/Minimize.lean`) read the log of observable
events.
-/

namespace NG
namespace Minimize
variable {R : Type}

theorem run_inv (cfg : Cfg R) (n0 : Nat) (inps : List Inp) : Inv cfg n0 (run cfg (init n0) inps) := by
  induction inps using List.reverseRecOn with
  | nil => exact inv_init cfg n0
  | append_singleton inps i ih =>
    have : run cfg (init n0) (inps ++ [i]) = step cfg (run cfg (init n0) inps) i := by simp [run, List.foldl_append]
    rw [this]; exact inv_step cfg n0 _ i ih

theorem run_ctl (cfg : Cfg R) (hw : 1 ≤ cfg.workers) (n0 : Nat) (hn : n0 ≤ cfg.budget) (inps : List Inp) :
    Ctl cfg (run cfg (init n0) inps) := by
  induction inps using List.reverseRecOn with
  | nil => exact ctl_init cfg n0 hn
  | append_singleton inps i ih =>
    have : run cfg (init n0) (inps ++ [i]) = step cfg (run cfg (init n0) inps) i := by simp [run, List.foldl_append]
    rw [this]; exact ctl_step cfg hw n0 _ i (run_inv cfg n0 inps) ih

/-- No exception left `minimize`. -/
def NoCrash (log : List (Ev R)) : Prop := ∀ d, Ev.crash d ∉ log

theorem damage_noCrash (log : List (Ev R)) (h : NoCrash log) : damage log = 0 := by
  induction log with
  | nil => rfl
  | cons e l ih =>
    have hl : NoCrash l := fun d hd => h d (List.mem_cons_of_mem _ hd)
    cases e with
    | crash d => exact absurd (List.mem_cons_self) (h d)
    | _ => exact ih hl

theorem cons_noCrash (cfg : Cfg R) (n0 : Nat) (s : St R) (h : Inv cfg n0 s) (hc : NoCrash s.log) (c : Nat) :
    ((tells s.log).map (·.1)).count c + (s.running.map (·.cand)).count c +
      (s.finished.map (·.cand)).count c + (inflight s.pc).count c =
      (asks s.log).count c + (popdup s).count c := by
  obtain ⟨lost, dups, h1, h2⟩ := h.cons
  rw [damage_noCrash _ hc] at h1
  have hl : lost = [] := List.length_eq_zero_iff.1 (by omega)
  have hd : dups = [] := List.length_eq_zero_iff.1 (by omega)
  have := h2 c
  simpa [hl, hd] using this

/-- No early stop since the last call. -/
def NotStopped (log : List (Ev R)) : Prop := stopped log = false

/-- **C07.** When a call returns (without time limit, exception or early stop), exactly `budget` candidates have
been asked, each candidate asked by minimize was asked once and told exactly once, with the value of the
objective on itself, and nothing is left running. -/
theorem minimize_spends_budget (cfg : Cfg R) (hw : 1 ≤ cfg.workers) (n0 : Nat) (hn : n0 ≤ cfg.budget)
    (inps : List Inp) :
    let s := run cfg (init n0) inps
    s.pc = .returned → NoCrash s.log → NotStopped s.log →
    s.numAsk = cfg.budget ∧ (asks s.log).length = cfg.budget - n0 ∧ (asks s.log).Nodup ∧
    ((tells s.log).map (·.1)).Perm (asks s.log) ∧ (∀ e ∈ tells s.log, e.2 = cfg.f e.1) ∧
    s.running = [] ∧ s.finished = [] := by
  intro s hpc hc hs
  have hi : Inv cfg n0 s := run_inv cfg n0 inps
  have hr : Ctl cfg s := run_ctl cfg hw n0 hn inps
  have h3 := hr.rem
  rw [RemAt, hpc] at h3
  obtain ⟨h4, h5, h6⟩ := h3
  have h7 := h6 hs
  have := hi.len
  refine ⟨h7, by omega, hi.nodup, ?_, hi.res, h4, h5⟩
  rw [List.perm_iff_count]
  intro c
  have := cons_noCrash cfg n0 s hi hc c
  simpa [h4, h5, hpc, inflight, popdup] using this

/-- **C08.** At every point of every run (with interruptions and resumptions), the registered jobs that are not
told yet are at most `num_workers`. -/
theorem minimize_workers (cfg : Cfg R) (hw : 1 ≤ cfg.workers) (n0 : Nat) (hn : n0 ≤ cfg.budget)
    (inps : List Inp) :
    let s := run cfg (init n0) inps
    s.running.length + s.finished.length ≤ cfg.workers := by
  intro s
  have : s.running.length + s.finished.length + pend s.pc ≤ cfg.workers := (run_ctl cfg hw n0 hn inps).wk
  omega

theorem length_of_count (a b : List Nat) (h : ∀ c, a.count c = b.count c) : a.length = b.length :=
  (List.perm_iff_count.2 h).length_eq

/-- **C08.** Without exception, at every point at most `num_workers` asked candidates are not told. -/
theorem minimize_untold (cfg : Cfg R) (hw : 1 ≤ cfg.workers) (n0 : Nat) (hn : n0 ≤ cfg.budget)
    (inps : List Inp) :
    let s := run cfg (init n0) inps
    NoCrash s.log → (asks s.log).length ≤ (tells s.log).length + cfg.workers := by
  intro s hc
  have hi : Inv cfg n0 s := run_inv cfg n0 inps
  have hr := (run_ctl cfg hw n0 hn inps).wk
  have h := length_of_count ((tells s.log).map (·.1) ++ s.running.map (·.cand) ++ s.finished.map (·.cand) ++ inflight s.pc)
    (asks s.log ++ popdup s) (fun c => by
      simp only [List.count_append]
      exact cons_noCrash cfg n0 s hi hc c)
  have hin : (inflight s.pc).length ≤ pend s.pc := by
    cases s.pc <;> simp [inflight, pend]
  simp only [List.length_append, List.length_map] at h
  have : s.running.length + s.finished.length + pend s.pc ≤ cfg.workers := hr
  omega

/-- Candidates asked since the last tell or poll. -/
def recentAsks : List (Ev R) → List Nat
  | [] => []
  | .ask c :: l => c :: recentAsks l
  | .tell _ _ :: _ => []
  | .poll :: _ => []
  | _ :: l => recentAsks l

/-- Specification of batches: whenever a candidate is asked, each earlier candidate was told, or was asked
in the same batch (no job was inspected or told since). -/
def Batched (log : List (Ev R)) : Prop :=
  ∀ l₁ c l₂, log = l₁ ++ .ask c :: l₂ → ∀ c' ∈ asks l₂, c' ∈ (tells l₂).map (·.1) ∨ c' ∈ recentAsks l₂

/-- Only batch-mode calls. -/
def BatchCalls (inps : List Inp) : Prop := Inp.call false ∉ inps

theorem batched_cons (e : Ev R) (l : List (Ev R)) (h : Batched l)
    (he : ∀ c, e = .ask c → ∀ c' ∈ asks l, c' ∈ (tells l).map (·.1) ∨ c' ∈ recentAsks l) : Batched (e :: l) := by
  intro l₁ c l₂ heq
  cases l₁ with
  | nil =>
    simp only [List.nil_append, List.cons.injEq] at heq
    obtain ⟨h1, rfl⟩ := heq
    exact he c h1
  | cons a l₁ =>
    simp only [List.cons_append, List.cons.injEq] at heq
    exact h l₁ c l₂ heq.2

/-- Batch-mode invariant. -/
structure BInv (s : St R) : Prop where
  batch : s.pc ≠ .idle → s.pc ≠ .returned → s.batch = true
  good : Batched s.log
  launch : ∀ k, (s.pc = .launch (k + 1) ∨ ∃ c, s.pc = .submit (k + 1) c) →
    ∀ c' ∈ asks s.log, c' ∈ (tells s.log).map (·.1) ∨ c' ∈ recentAsks s.log

theorem binv_step (cfg : Cfg R) (n0 : Nat) (s : St R) (inp : Inp) (hb : inp ≠ .call false) (hi : Inv cfg n0 s)
    (hc : NoCrash (step cfg s inp).log) (h : BInv s) : BInv (step cfg s inp) := by
  obtain ⟨h1, h2, h3⟩ := h
  cases inp with
  | call batch =>
    have hbt : batch = true := by cases batch <;> simp_all
    subst hbt
    simp only [step]
    split
    · exact ⟨fun _ _ => rfl, batched_cons _ _ h2 (by simp), by simp⟩
    · exact ⟨fun _ _ => rfl, batched_cons _ _ h2 (by simp), by simp⟩
    · exact ⟨h1, h2, h3⟩
  | crash =>
    simp only [step]
    split
    · exact ⟨h1, h2, h3⟩
    · exact ⟨h1, h2, h3⟩
    · exact ⟨by simp [interrupt], batched_cons _ _ h2 (by simp), by simp [interrupt]⟩
  | go timeUp ask done =>
    have hc' : NoCrash (exec cfg s timeUp ask done).log := hc
    show BInv (exec cfg s timeUp ask done)
    unfold exec at hc' ⊢
    cases hpc : s.pc with
    | idle => exact ⟨h1, h2, h3⟩
    | returned => exact ⟨h1, h2, h3⟩
    | test =>
      have hbt := h1 (by simp [hpc]) (by simp [hpc])
      simp only
      split
      · split
        · exact ⟨by simp, batched_cons _ _ h2 (by simp), by simp⟩
        · exact ⟨fun _ _ => hbt, h2, by simp⟩
      · exact ⟨by simp, h2, by simp⟩
    | tell =>
      have hbt := h1 (by simp [hpc]) (by simp [hpc])
      simp only
      split
      · exact ⟨fun _ _ => hbt, h2, by simp⟩
      · exact ⟨fun _ _ => hbt, batched_cons _ _ h2 (by simp), by simp⟩
    | pop =>
      have hbt := h1 (by simp [hpc]) (by simp [hpc])
      exact ⟨fun _ _ => hbt, h2, by simp⟩
    | start =>
      have hbt := h1 (by simp [hpc]) (by simp [hpc])
      have hf := hi.empty (by simp [hpc, noFin])
      have hcs : NoCrash s.log := by
        rw [hpc] at hc'
        simp only at hc'
        split at hc' <;> exact hc'
      simp only [hbt, Bool.not_true, Bool.false_or]
      split
      · rename_i hr
        rw [List.isEmpty_iff] at hr
        refine ⟨fun _ _ => rfl, h2, ?_⟩
        intro k _ c' hc'
        left
        have hcount := cons_noCrash cfg n0 s hi hcs c'
        simp only [hr, hf, hpc, inflight, popdup, List.map_nil, List.count_nil] at hcount
        have hpos : 0 < (asks s.log).count c' := List.count_pos_iff.2 hc'
        refine List.count_pos_iff.1 ?_
        show 0 < ((tells s.log).map (·.1)).count c'
        omega
      · exact ⟨fun _ _ => rfl, h2, by simp⟩
    | launch k =>
      have hbt := h1 (by simp [hpc]) (by simp [hpc])
      cases k with
      | zero => exact ⟨fun _ _ => hbt, h2, by simp⟩
      | succ k =>
        have hl := h3 k (Or.inl hpc)
        simp only
        cases ask with
        | cand =>
          refine ⟨fun _ _ => hbt, batched_cons _ _ h2 (by intro c hc; exact hl), ?_⟩
          intro k' _ c' hc'
          simp only [asks, List.mem_cons] at hc'
          simp only [tells, recentAsks, List.mem_cons]
          rcases hc' with rfl | hc'
          · exact Or.inr (Or.inl rfl)
          · rcases hl c' hc' with h | h
            · exact Or.inl h
            · exact Or.inr (Or.inr h)
        | stop => exact ⟨fun _ _ => hbt, batched_cons _ _ h2 (by simp), by simp⟩
        | raises => exact ⟨by simp [interrupt], batched_cons _ _ h2 (by simp), by simp [interrupt]⟩
    | submit k c =>
      have hbt := h1 (by simp [hpc]) (by simp [hpc])
      refine ⟨fun _ _ => hbt, batched_cons _ _ h2 (by simp), ?_⟩
      intro k' hk'
      simp only [Pc.launch.injEq, reduceCtorEq, exists_false, or_false] at hk'
      exact h3 k' (Or.inr ⟨c, by rw [hpc, hk']⟩)
    | refresh =>
      have hbt := h1 (by simp [hpc]) (by simp [hpc])
      exact ⟨fun _ _ => hbt, h2, by simp⟩
    | split =>
      have hbt := h1 (by simp [hpc]) (by simp [hpc])
      exact ⟨fun _ _ => hbt, batched_cons _ _ h2 (by simp), by simp⟩
    | half fin =>
      have hbt := h1 (by simp [hpc]) (by simp [hpc])
      exact ⟨fun _ _ => hbt, h2, by simp⟩

theorem log_mono (cfg : Cfg R) (s : St R) (inp : Inp) : ∃ l, (step cfg s inp).log = l ++ s.log := by
  cases inp with
  | call batch => simp only [step]; split <;> first | exact ⟨[], rfl⟩ | exact ⟨[_], rfl⟩
  | crash => simp only [step]; split <;> first | exact ⟨[], rfl⟩ | exact ⟨[_], rfl⟩
  | go t a d =>
    show ∃ l, (exec cfg s t a d).log = l ++ s.log
    unfold exec
    split <;> (try split) <;> (try split) <;> first | exact ⟨[], rfl⟩ | exact ⟨[_], rfl⟩

/-- **C08.** In batch mode, without exception, new candidates are asked only when every candidate of earlier
batches was told. -/
theorem minimize_batches (cfg : Cfg R) (n0 : Nat) (inps : List Inp) (hb : BatchCalls inps)
    (hc : NoCrash (run cfg (init n0) inps).log) : Batched (run cfg (init n0) inps).log := by
  suffices BInv (run cfg (init n0) inps) from this.good
  induction inps using List.reverseRecOn with
  | nil => exact ⟨by simp [run, init], by intro l₁ c l₂ h; simp [run, init] at h, by simp [run, init]⟩
  | append_singleton inps i ih =>
    have e : run cfg (init n0) (inps ++ [i]) = step cfg (run cfg (init n0) inps) i := by simp [run, List.foldl_append]
    rw [e] at hc ⊢
    obtain ⟨l, hl⟩ := log_mono cfg (run cfg (init n0) inps) i
    refine binv_step cfg n0 _ i (fun h => hb (by simp [h])) (run_inv cfg n0 inps) hc (ih ?_ ?_)
    · intro h; exact hb (List.mem_append_left _ h)
    · intro d hd; exact hc d (by rw [hl]; exact List.mem_append_right _ hd)

/-! ### C09: termination -/

/-- Consecutive fruitless polls: `idleStep` counts the inspections of a non-empty list of running jobs that
found no job done, since the last one that did. -/
def idleStep (s : St R) (i : Nat) : Inp → Nat
  | .go _ _ done =>
    match s.pc with
    | .split => if s.running.any (fun j => done j.cand) then 0 else if s.running.isEmpty then i else i + 1
    | _ => i
  | _ => i

/-- The number of consecutive fruitless polls never exceeds `K` along the run. -/
def Patient (cfg : Cfg R) (K : Nat) : St R → Nat → List Inp → Prop
  | _, i, [] => i ≤ K
  | s, i, inp :: inps => i ≤ K ∧ Patient cfg K (step cfg s inp) (idleStep s i inp) inps

/-- Statements executed normally: no exception, no time limit (early stops are allowed). -/
def Normal : Inp → Prop
  | .go timeUp ask _ => timeUp = false ∧ ask ≠ .raises
  | _ => False

/-- Work left. -/
def work (cfg : Cfg R) (s : St R) : Nat :=
  3 * (cfg.budget - s.numAsk) + 2 * s.running.length + s.finished.length +
    match s.pc with
    | .submit _ _ => 2
    | .half fin => fin.length
    | _ => 0

/-- Rank inside one iteration of the loop. -/
def rank (cfg : Cfg R) (s : St R) : Nat :=
  match s.pc with
  | .idle => 0
  | .returned => 0
  | .half fin => if s.running = [] ∧ fin = [] then 2 else 2 * cfg.workers + 9
  | .test => if s.remaining = 0 ∧ s.running = [] ∧ s.finished = [] then 1 else 2 * cfg.workers + 8
  | .tell => 2 * cfg.workers + 7
  | .pop => 2 * cfg.workers + 6
  | .start => 2 * cfg.workers + 6
  | .launch k => 2 * k + 5
  | .submit k _ => 2 * k + 6
  | .refresh => 4
  | .split => 3

/-- Measure decreasing at each step. -/
def measure (cfg : Cfg R) (K : Nat) (s : St R) (i : Nat) : Nat :=
  (work cfg s * (K + 1) + (K - i)) * (2 * cfg.workers + 10) + rank cfg s

/-- Inside a call. -/
def Active (s : St R) : Prop := s.pc ≠ .idle ∧ s.pc ≠ .returned

theorem rank_le (cfg : Cfg R) (s : St R) (h : Ctl cfg s) : rank cfg s < 2 * cfg.workers + 10 := by
  have := h.wk
  unfold rank
  cases hpc : s.pc <;> simp only [hpc, pend] at this ⊢ <;> (try split) <;> omega

theorem lex_lt (K B w w' i i' r r' : Nat) (hr : r < B) (hr' : r' < B) (hi' : i' ≤ K)
    (h : w' < w ∨ (w' = w ∧ i < i') ∨ (w' = w ∧ i' = i ∧ r' < r)) :
    (w' * (K + 1) + (K - i')) * B + r' < (w * (K + 1) + (K - i)) * B + r := by
  rcases h with h | ⟨rfl, h⟩ | ⟨rfl, rfl, h⟩
  · have h1 : w' * (K + 1) + (K - i') + 1 ≤ w * (K + 1) + (K - i) := by
      have : (w' + 1) * (K + 1) ≤ w * (K + 1) := Nat.mul_le_mul_right _ h
      have e : (w' + 1) * (K + 1) = w' * (K + 1) + (K + 1) := by ring
      omega
    calc (w' * (K + 1) + (K - i')) * B + r' < (w' * (K + 1) + (K - i')) * B + B := by omega
      _ = (w' * (K + 1) + (K - i') + 1) * B := by ring
      _ ≤ (w * (K + 1) + (K - i)) * B := Nat.mul_le_mul_right _ h1
      _ ≤ _ := Nat.le_add_right _ _
  · have h1 : w' * (K + 1) + (K - i') + 1 ≤ w' * (K + 1) + (K - i) := by omega
    calc (w' * (K + 1) + (K - i')) * B + r' < (w' * (K + 1) + (K - i')) * B + B := by omega
      _ = (w' * (K + 1) + (K - i') + 1) * B := by ring
      _ ≤ (w' * (K + 1) + (K - i)) * B := Nat.mul_le_mul_right _ h1
      _ ≤ _ := Nat.le_add_right _ _
  · omega

theorem measure_step (cfg : Cfg R) (hw : 1 ≤ cfg.workers) (n0 : Nat) (K : Nat) (s : St R) (i : Nat) (inp : Inp)
    (hn : Normal inp) (ha : Active s) (hi : Inv cfg n0 s) (hctl : Ctl cfg s) (hK : idleStep s i inp ≤ K) :
    measure cfg K (step cfg s inp) (idleStep s i inp) < measure cfg K s i ∧ (step cfg s inp).pc ≠ .idle := by
  have hctl' := ctl_step cfg hw n0 s inp hi hctl
  have r1 := rank_le cfg s hctl
  have r2 := rank_le cfg _ hctl'
  cases inp with
  | call b => exact hn.elim
  | crash => exact hn.elim
  | go timeUp ask done =>
    obtain ⟨hn1, hn2⟩ := hn
    subst hn1
    suffices h : (work cfg (step cfg s (.go false ask done)) < work cfg s ∨
        (work cfg (step cfg s (.go false ask done)) = work cfg s ∧ i < idleStep s i (.go false ask done)) ∨
        (work cfg (step cfg s (.go false ask done)) = work cfg s ∧ idleStep s i (.go false ask done) = i ∧
          rank cfg (step cfg s (.go false ask done)) < rank cfg s)) ∧ (step cfg s (.go false ask done)).pc ≠ .idle by
      exact ⟨lex_lt K _ _ _ _ _ _ _ r1 r2 hK h.1, h.2⟩
    have hask := hctl.ask
    have hwk := hctl.wk
    have hrem := hctl.rem
    show (work cfg (exec cfg s false ask done) < work cfg s ∨ _) ∧ (exec cfg s false ask done).pc ≠ .idle
    simp only [idleStep, step]
    unfold exec
    cases hpc : s.pc with
    | idle => exact absurd hpc ha.1
    | returned => exact absurd hpc ha.2
    | test =>
      refine ⟨Or.inr (Or.inr ⟨?_, rfl, ?_⟩), ?_⟩
      · simp only; split <;> simp [work, hpc]
      · simp only
        split
        · rename_i hc
          have : ¬ (s.remaining = 0 ∧ s.running = [] ∧ s.finished = []) := by
            rintro ⟨a, b, c⟩; simp [a, b, c] at hc
          simp only [rank, hpc, this, if_false, Bool.false_eq_true]; omega
        · rename_i hc
          have : s.remaining = 0 ∧ s.running = [] ∧ s.finished = [] := by
            simpa only [not_or, not_not] using hc
          simp [rank, hpc, this]
      · simp only; split <;> simp
    | tell =>
      refine ⟨Or.inr (Or.inr ⟨?_, rfl, ?_⟩), ?_⟩
      · simp only; split <;> simp_all [work]
      · simp only; split <;> simp [rank, hpc]
      · simp only; split <;> simp
    | pop =>
      have hne := hi.popne hpc
      refine ⟨Or.inl ?_, by simp⟩
      have : s.finished.tail.length + 1 = s.finished.length := by
        cases hf : s.finished with
        | nil => exact absurd hf hne
        | cons a l => simp
      simp only [work, hpc]
      omega
    | start =>
      refine ⟨Or.inr (Or.inr ⟨?_, rfl, ?_⟩), ?_⟩
      · simp only; split <;> simp [work, hpc]
      · have := hctl'.wk
        simp only [step, exec, hpc] at this
        simp only
        split
        · rename_i hb
          rw [if_pos hb] at this
          simp only [pend] at this
          simp only [rank, hpc]
          omega
        · simp only [rank, hpc]; omega
      · simp only; split <;> simp
    | launch k =>
      cases k with
      | zero => exact ⟨Or.inr (Or.inr ⟨by simp [work, hpc], rfl, by simp [rank, hpc]⟩), by simp⟩
      | succ k =>
        cases ask with
        | cand =>
          rw [RemAt, hpc] at hrem
          have h1 := hrem.1
          refine ⟨Or.inl ?_, by simp⟩
          simp only [work, hpc]
          omega
        | stop =>
          refine ⟨Or.inr (Or.inr ⟨by simp [work, hpc], rfl, ?_⟩), by simp⟩
          simp only [rank, hpc]; omega
        | raises => exact absurd rfl hn2
    | submit k c =>
      refine ⟨Or.inr (Or.inr ⟨?_, rfl, by simp [rank, hpc]⟩), by simp⟩
      simp only [work, hpc, List.length_append, List.length_singleton]; omega
    | refresh => exact ⟨Or.inr (Or.inr ⟨by simp [work, hpc], rfl, by simp [rank, hpc]⟩), by simp⟩
    | split =>
      have h5 : ∀ (l : List Job) (p : Job → Bool), (l.filter p).length + (l.filter (fun j => !p j)).length = l.length := by
        intro l p
        induction l with
        | nil => rfl
        | cons a l ih => cases hp : p a <;> simp [hp] <;> omega
      have h4 := h5 s.running (fun j => done j.cand)
      refine ⟨?_, by simp⟩
      by_cases hany : s.running.any (fun j => done j.cand) = true
      · left
        have hpos : 0 < (s.running.filter (fun j => done j.cand)).length := by
          rw [List.any_eq_true] at hany
          obtain ⟨j, hj, hd⟩ := hany
          exact List.length_pos_of_mem (List.mem_filter.2 ⟨hj, hd⟩)
        simp only [work, hpc]
        omega
      · have hnil : s.running.filter (fun j => done j.cand) = [] := by
          rw [List.filter_eq_nil_iff]
          intro j hj hd
          exact hany (List.any_eq_true.2 ⟨j, hj, hd⟩)
        have hwork : work cfg { s with pc := .half (s.running.filter (fun j => done j.cand)), running := s.running.filter (fun j => !done j.cand), log := .poll :: s.log } = work cfg s := by
          simp only [work, hpc, hnil, List.length_nil] at h4 ⊢
          omega
        by_cases hemp : s.running = []
        · right; right
          refine ⟨hwork, by simp [hemp], ?_⟩
          simp [rank, hpc, hemp]
        · right; left
          refine ⟨hwork, ?_⟩
          have : s.running.isEmpty = false := by simpa using hemp
          simp [hany, this]
    | half fin =>
      have hf := hi.empty (by simp [hpc, noFin])
      refine ⟨Or.inr (Or.inr ⟨?_, rfl, ?_⟩), by simp⟩
      · simp [work, hpc, hf]
      · rw [RemAt, hpc] at hrem
        simp only [rank, hpc]
        by_cases hz : s.running = [] ∧ fin = []
        · have := hrem.2 hz.1 hz.2
          simp [hz, this]
        · rw [if_neg hz]
          split <;> omega

/-- **C09.** A call terminates: if `num_ask ≤ budget` and no more than `K` consecutive inspections of running jobs
find nothing done, the call returns within a number of statements that only depends on the budget, the number
of workers and `K`. `inps₀` is any earlier life of the optimizer (calls, exceptions, resumptions). -/
theorem minimize_terminates (cfg : Cfg R) (hw : 1 ≤ cfg.workers) (n0 : Nat) (hn : n0 ≤ cfg.budget)
    (inps₀ : List Inp) (batch : Bool) (K : Nat) (inps : List Inp)
    (hidle : (run cfg (init n0) inps₀).pc = .idle ∨ (run cfg (init n0) inps₀).pc = .returned)
    (hnormal : ∀ i ∈ inps, Normal i)
    (hp : Patient cfg K (step cfg (run cfg (init n0) inps₀) (.call batch)) 0 inps)
    (hlen : ((3 * cfg.budget + 2 * cfg.workers) * (K + 1) + K + 1) * (2 * cfg.workers + 10) ≤ inps.length) :
    (run cfg (init n0) (inps₀ ++ .call batch :: inps)).pc = .returned := by
  have key : ∀ (inps : List Inp) (s : St R) (i : Nat), Inv cfg n0 s → Ctl cfg s → s.pc ≠ .idle →
      (∀ i ∈ inps, Normal i) → Patient cfg K s i inps → measure cfg K s i < inps.length →
      (run cfg s inps).pc = .returned := by
    intro inps
    induction inps with
    | nil => intro s i _ _ _ _ _ h; simp at h
    | cons inp inps ih =>
      intro s i hi hc hpc hnorm hpat hm
      show (run cfg (step cfg s inp) inps).pc = .returned
      by_cases hret : s.pc = .returned
      · have stay : ∀ (l : List Inp), (∀ i ∈ l, Normal i) → (run cfg s l).pc = .returned := by
          intro l
          induction l with
          | nil => intro _; exact hret
          | cons a l ihl =>
            intro hl
            have : step cfg s a = s := by
              have := hl a (by simp)
              cases a with
              | call b => exact this.elim
              | crash => exact this.elim
              | go t k d => simp [step, exec, hret]
            show (run cfg (step cfg s a) l).pc = _
            rw [this]; exact ihl (fun i hi => hl i (by simp [hi]))
        exact stay (inp :: inps) hnorm
      · obtain ⟨hp1, hp2⟩ := hpat
        have hK : idleStep s i inp ≤ K := by
          cases inps with
          | nil => exact hp2
          | cons a l => exact hp2.1
        obtain ⟨m1, m2⟩ := measure_step cfg hw n0 K s i inp (hnorm inp (by simp)) ⟨hpc, hret⟩ hi hc hK
        apply ih _ _ (inv_step cfg n0 s inp hi) (ctl_step cfg hw n0 s inp hi hc) m2 (fun i hi => hnorm i (by simp [hi])) hp2
        simp only [List.length_cons] at hm
        omega
  have e : run cfg (init n0) (inps₀ ++ .call batch :: inps) =
      run cfg (step cfg (run cfg (init n0) inps₀) (.call batch)) inps := by
    simp [run, List.foldl_append]
  rw [e]
  set s0 := run cfg (init n0) inps₀ with hs0
  have hi0 : Inv cfg n0 s0 := run_inv cfg n0 inps₀
  have hc0 : Ctl cfg s0 := run_ctl cfg hw n0 hn inps₀
  have hi1 := inv_step cfg n0 s0 (.call batch) hi0
  have hc1 := ctl_step cfg hw n0 s0 (.call batch) hi0 hc0
  have hpc1 : (step cfg s0 (.call batch)).pc = .test := by
    rcases hidle with h | h <;> simp [step, h]
  apply key inps _ 0 hi1 hc1 (by rw [hpc1]; simp) hnormal hp
  refine lt_of_lt_of_le ?_ hlen
  have r := rank_le cfg _ hc1
  have hwk := hc1.wk
  rw [hpc1] at hwk
  simp only [pend] at hwk
  have hwork : work cfg (step cfg s0 (.call batch)) ≤ 3 * cfg.budget + 2 * cfg.workers := by
    simp only [work, hpc1]; omega
  unfold measure
  calc _ < (work cfg (step cfg s0 (.call batch)) * (K + 1) + (K - 0)) * (2 * cfg.workers + 10) + (2 * cfg.workers + 10) := by omega
    _ = (work cfg (step cfg s0 (.call batch)) * (K + 1) + K + 1) * (2 * cfg.workers + 10) := by rw [Nat.sub_zero]; ring
    _ ≤ _ := by
      apply Nat.mul_le_mul_right
      have := Nat.mul_le_mul_right (K + 1) hwork
      omega

/-- **C09.** If more candidates than the budget were already asked, a call never returns without time limit or
exception, whatever the executor does. -/
theorem minimize_overspent_diverges (cfg : Cfg R) (n0 : Nat) (hn : cfg.budget < n0) (batch : Bool) (inps : List Inp)
    (hnormal : ∀ i ∈ inps, Normal i) :
    let s := run cfg (init n0) (.call batch :: inps)
    s.pc ≠ .returned ∧ s.pc ≠ .idle ∧ s.numAsk = n0 := by
  have key : ∀ (inps : List Inp) (s : St R), (∀ i ∈ inps, Normal i) →
      (s.numAsk = n0 ∧ s.remaining = (cfg.budget : Int) - n0 ∧ s.running = [] ∧ s.finished = [] ∧
        (s.pc = .test ∨ s.pc = .tell ∨ s.pc = .start ∨ s.pc = .launch 0 ∨ s.pc = .refresh ∨ s.pc = .split ∨ s.pc = .half [])) →
      (run cfg s inps).pc ≠ .returned ∧ (run cfg s inps).pc ≠ .idle ∧ (run cfg s inps).numAsk = n0 := by
    intro inps
    induction inps with
    | nil =>
      intro s _ ⟨h1, _, _, _, h⟩
      refine ⟨?_, ?_, h1⟩ <;> (show s.pc ≠ _) <;> rcases h with h | h | h | h | h | h | h <;> simp [h]
    | cons a l ih =>
      intro s hl ⟨h1, h2, h3, h4, h⟩
      show (run cfg (step cfg s a) l).pc ≠ _ ∧ (run cfg (step cfg s a) l).pc ≠ _ ∧ (run cfg (step cfg s a) l).numAsk = n0
      apply ih _ (fun i hi => hl i (by simp [hi]))
      have hna := hl a (by simp)
      cases a with
      | call b => exact hna.elim
      | crash => exact hna.elim
      | go t k d =>
        obtain ⟨rfl, hk⟩ := hna
        have hne : s.remaining ≠ 0 := by omega
        rcases h with h | h | h | h | h | h | h
        · have hz : ¬ ((cfg.budget : Int) - n0 = 0) := by omega
          simp [step, exec, h, h1, h2, h3, h4, hz]
        · simp [step, exec, h, h1, h2, h3, h4]
        · have : max 0 (min ((cfg.budget : Int) - n0) (cfg.workers : Int)) = 0 := by omega
          simp [step, exec, h, h1, h2, h3, h4, this]
        · simp [step, exec, h, h1, h2, h3, h4]
        · have : ¬ ((cfg.budget : Int) - n0 > 0) := by omega
          simp [step, exec, h, h1, h2, h3, h4]
        · simp [step, exec, h, h1, h2, h3, h4]
        · simp [step, exec, h, h1, h2, h3, h4]
  intro s
  exact key inps (step cfg (init n0) (.call batch)) hnormal
    ⟨rfl, rfl, rfl, rfl, Or.inl rfl⟩

/-! ### C10: interruptions -/

/-- Number of exceptions that left `minimize`. -/
def crashCount (log : List (Ev R)) : Nat :=
  (log.filter (fun e => match e with | .crash _ => true | _ => false)).length

/-- Every interruption hits outside of the double attribute store of base.py 739. -/
def AtomicStore (log : List (Ev R)) : Prop := ∀ d, Ev.crash d ∈ log → d = 0

theorem damage_atomic (log : List (Ev R)) (h : AtomicStore log) : damage log = crashCount log := by
  induction log with
  | nil => rfl
  | cons e l ih =>
    have hl : AtomicStore l := fun d hd => h d (List.mem_cons_of_mem _ hd)
    cases e with
    | crash d =>
      have hd := h d (List.mem_cons_self)
      simp only [damage, hd, ih hl, crashCount]
      simp; omega
    | _ => simpa [damage, crashCount] using ih hl

/-- **C10 (partial).** Full claim: any number of interruptions at any point and resumptions affect at most one
candidate each. Proved when each interruption hits between two statements (`AtomicStore`): when a later call
finally returns (no early stop), `budget` candidates were asked, and the told candidates are the asked ones
except for at most one candidate per interruption that is told twice (`dups`) or never (`lost`). Missing: an
interruption inside the tuple assignment of base.py 739 (`minimize_drops_finished`). -/
theorem minimize_resume_partial (cfg : Cfg R) (hw : 1 ≤ cfg.workers) (n0 : Nat) (hn : n0 ≤ cfg.budget)
    (inps : List Inp) :
    let s := run cfg (init n0) inps
    s.pc = .returned → AtomicStore s.log → NotStopped s.log →
    s.numAsk = cfg.budget ∧ (asks s.log).Nodup ∧ (asks s.log).length = cfg.budget - n0 ∧
    (∀ e ∈ tells s.log, e.2 = cfg.f e.1) ∧ s.running = [] ∧ s.finished = [] ∧
    ∃ lost dups : List Nat, ((tells s.log).map (·.1) ++ lost).Perm (asks s.log ++ dups) ∧
      lost.length + dups.length ≤ crashCount s.log := by
  intro s hpc hc hs
  have hi : Inv cfg n0 s := run_inv cfg n0 inps
  have hr : Ctl cfg s := run_ctl cfg hw n0 hn inps
  have h3 := hr.rem
  rw [RemAt, hpc] at h3
  obtain ⟨h4, h5, h6⟩ := h3
  have h7 := h6 hs
  have := hi.len
  obtain ⟨lost, dups, g1, g2⟩ := hi.cons
  refine ⟨h7, hi.nodup, by omega, hi.res, h4, h5, lost, dups, ?_, by rw [← damage_atomic _ hc]; exact g1⟩
  rw [List.perm_iff_count]
  intro c
  have := g2 c
  simpa [h4, h5, hpc, inflight, popdup, List.count_append] using this

/-- Candidates of registered jobs that are neither told nor listed anywhere: none. -/
def Kept (s : St R) : Prop := ∀ c, Ev.submit c ∈ s.log →
  c ∈ s.running.map (·.cand) ∨ c ∈ s.finished.map (·.cand) ∨ c ∈ (pcJobs s.pc).map (·.cand) ∨
    c ∈ (tells s.log).map (·.1)

theorem kept_step (cfg : Cfg R) (n0 : Nat) (s : St R) (inp : Inp) (hi : Inv cfg n0 s)
    (hc : AtomicStore (step cfg s inp).log) (hp : s.pc = .pop → ∀ j, s.finished.head? = some j →
      j.cand ∈ (tells s.log).map (·.1)) (h : Kept s) : Kept (step cfg s inp) := by
  have keep : ∀ s' : St R, s'.running = s.running → s'.finished = s.finished → pcJobs s.pc = [] →
      tells s'.log = tells s.log → (∀ c, Ev.submit c ∈ s'.log → Ev.submit c ∈ s.log) → Kept s' := by
    intro s' e1 e2 e3 e4 e5 c hcs
    have := h c (e5 c hcs)
    rw [e3] at this
    rw [e1, e2, e4]
    simp only [List.map_nil, List.not_mem_nil, false_or] at this ⊢
    tauto
  cases inp with
  | call b =>
    simp only [step]
    split
    · rename_i hpc; exact keep _ rfl rfl (by simp [hpc, pcJobs]) rfl (by simp)
    · rename_i hpc; exact keep _ rfl rfl (by simp [hpc, pcJobs]) rfl (by simp)
    · exact h
  | crash =>
    simp only [step] at hc ⊢
    split
    · exact h
    · exact h
    · rename_i h1 h2
      have hpj : (pcJobs s.pc).map (·.cand) = [] := by
        cases hpc : s.pc with
        | half fin =>
          rw [hpc] at hc
          have := hc fin.length (by simp [interrupt, hpc])
          simpa [pcJobs] using this
        | _ => simp [pcJobs]
      intro c hcs
      have := h c (by simpa [interrupt] using hcs)
      rw [hpj] at this
      simp only [interrupt, tells, pcJobs, List.map_nil, List.not_mem_nil, false_or] at this ⊢
      exact this
  | go t a d =>
    show Kept (exec cfg s t a d)
    have hc' : AtomicStore (exec cfg s t a d).log := hc
    unfold exec at hc' ⊢
    cases hpc : s.pc with
    | idle => exact h
    | returned => exact h
    | test =>
      simp only
      split
      · split
        · exact keep _ rfl rfl (by simp [hpc, pcJobs]) rfl (by simp)
        · exact keep _ rfl rfl (by simp [hpc, pcJobs]) rfl (by simp)
      · exact keep _ rfl rfl (by simp [hpc, pcJobs]) rfl (by simp)
    | tell =>
      simp only
      split
      · exact keep _ rfl (by simp_all) (by simp [hpc, pcJobs]) rfl (by simp)
      · intro c hcs
        have := h c (by simpa using hcs)
        simp only [hpc, pcJobs, List.map_nil, List.not_mem_nil, false_or, tells, List.map_cons, List.mem_cons] at this ⊢
        tauto
    | pop =>
      intro c hcs
      have := h c hcs
      simp only [hpc, pcJobs, List.map_nil, List.not_mem_nil, false_or] at this ⊢
      cases hf : s.finished with
      | nil => rw [hf] at this; simpa using this
      | cons x xs =>
        have h2 := hp hpc x (by rw [hf]; rfl)
        rw [hf] at this
        simp only [List.map_cons, List.mem_cons, List.tail_cons] at this ⊢
        rcases this with h | (rfl | h) | h
        · exact Or.inl h
        · exact Or.inr (Or.inr h2)
        · exact Or.inr (Or.inl h)
        · exact Or.inr (Or.inr h)
    | start =>
      simp only
      split
      · exact keep _ rfl rfl (by simp [hpc, pcJobs]) rfl (by simp)
      · exact keep _ rfl rfl (by simp [hpc, pcJobs]) rfl (by simp)
    | launch k =>
      cases k with
      | zero => exact keep _ rfl rfl (by simp [hpc, pcJobs]) rfl (by simp)
      | succ k => cases a <;> exact keep _ rfl rfl (by simp [hpc, pcJobs]) rfl (by simp [interrupt])
    | submit k c0 =>
      intro c hcs
      simp only [List.mem_cons, Ev.submit.injEq] at hcs
      simp only [pcJobs, List.map_append, List.map_cons, List.map_nil, List.mem_append, List.mem_singleton, tells,
        List.not_mem_nil, false_or]
      rcases hcs with rfl | hcs
      · exact Or.inl (Or.inr rfl)
      · have := h c hcs
        simp only [hpc, pcJobs, List.map_nil, List.not_mem_nil, false_or] at this
        tauto
    | refresh => exact keep _ rfl rfl (by simp [hpc, pcJobs]) rfl (by simp)
    | split =>
      have hf := hi.empty (by simp [hpc, noFin])
      intro c hcs
      have := h c (by simpa using hcs)
      simp only [hpc, pcJobs, List.map_nil, List.not_mem_nil, false_or, hf, tells] at this ⊢
      rcases this with hr | hr
      · obtain ⟨j, hj, rfl⟩ := List.mem_map.1 hr
        cases hd : d j.cand
        · exact Or.inl (List.mem_map.2 ⟨j, List.mem_filter.2 ⟨hj, by simp [hd]⟩, rfl⟩)
        · exact Or.inr (Or.inl (List.mem_map.2 ⟨j, List.mem_filter.2 ⟨hj, hd⟩, rfl⟩))
      · exact Or.inr (Or.inr hr)
    | half fin =>
      have hf := hi.empty (by simp [hpc, noFin])
      intro c hcs
      have := h c hcs
      simp only [hpc, pcJobs, List.map_nil, List.not_mem_nil, false_or, hf] at this ⊢
      exact this

/-- At `pop` the head of the finished jobs was just told. -/
def PopTold (s : St R) : Prop := s.pc = .pop → ∀ j, s.finished.head? = some j → j.cand ∈ (tells s.log).map (·.1)

theorem popTold_step (cfg : Cfg R) (s : St R) (inp : Inp) (h : PopTold s) : PopTold (step cfg s inp) := by
  cases inp with
  | call b =>
    simp only [step]
    split
    · intro hp; simp at hp
    · intro hp; simp at hp
    · exact h
  | crash =>
    simp only [step]
    split
    · exact h
    · exact h
    · intro hp; simp [interrupt] at hp
  | go t a d =>
    show PopTold (exec cfg s t a d)
    unfold exec
    cases hpc : s.pc with
    | tell =>
      simp only
      split
      · intro hp; simp at hp
      · intro _ j hj
        simp_all [tells]
    | idle => exact h
    | returned => exact h
    | test => simp only; split <;> (try split) <;> (intro hp; simp at hp)
    | pop => intro hp; simp at hp
    | start => simp only; split <;> (intro hp; simp at hp)
    | launch k =>
      cases k with
      | zero => intro hp; simp at hp
      | succ k => cases a <;> (intro hp; simp [interrupt] at hp)
    | submit k c => intro hp; simp at hp
    | refresh => intro hp; simp at hp
    | split => intro hp; simp at hp
    | half fin => intro hp; simp at hp

/-- **C10.** If every interruption hits between two statements, each candidate whose job was registered has been
told (at least once) when a later call finally returns. -/
theorem minimize_registered_told (cfg : Cfg R) (hw : 1 ≤ cfg.workers) (n0 : Nat) (hn : n0 ≤ cfg.budget)
    (inps : List Inp) :
    let s := run cfg (init n0) inps
    s.pc = .returned → AtomicStore s.log → ∀ c, Ev.submit c ∈ s.log → c ∈ (tells s.log).map (·.1) := by
  have main : ∀ inps : List Inp, AtomicStore (run cfg (init n0) inps).log →
      Kept (run cfg (init n0) inps) ∧ PopTold (run cfg (init n0) inps) := by
    intro inps
    induction inps using List.reverseRecOn with
    | nil => intro _; exact ⟨by intro c hc; simp [run, init] at hc, by intro hp; simp [run, init] at hp⟩
    | append_singleton inps i ih =>
      have e : run cfg (init n0) (inps ++ [i]) = step cfg (run cfg (init n0) inps) i := by simp [run, List.foldl_append]
      rw [e]
      intro hc
      obtain ⟨l, hl⟩ := log_mono cfg (run cfg (init n0) inps) i
      have hprev := ih (fun d hd => hc d (by rw [hl]; exact List.mem_append_right _ hd))
      exact ⟨kept_step cfg n0 _ i (run_inv cfg n0 inps) hc hprev.2 hprev.1, popTold_step cfg _ i hprev.2⟩
  intro s hpc hc c hcs
  have hr : Ctl cfg s := run_ctl cfg hw n0 hn inps
  have h3 := hr.rem
  rw [RemAt, hpc] at h3
  obtain ⟨h4, h5, -⟩ := h3
  have := (main inps hc).1 c hcs
  change c ∈ s.running.map (·.cand) ∨ c ∈ s.finished.map (·.cand) ∨ c ∈ (pcJobs s.pc).map (·.cand) ∨
    c ∈ (tells s.log).map (·.1) at this
  simpa [h4, h5, hpc, pcJobs] using this

/-- Statement executed with everything going well. -/
def goOn : Inp := .go false .cand (fun _ => true)

/-- Demonstration configuration: budget 3, two workers. -/
def demo : Cfg Nat := ⟨3, 2, fun c => 10 * c⟩

/-- **C10, disagreement.** An exception between `ask` and the registration of the job loses the candidate: asked,
never told. -/
theorem minimize_loses_candidate :
    let s := run demo (init 0) ([.call false] ++ List.replicate 4 goOn ++ [.crash, .call false] ++ List.replicate 60 goOn)
    s.pc = .returned ∧ s.numAsk = 3 ∧ ¬ (0 ∈ (tells s.log).map (·.1)) ∧ 0 ∈ asks s.log := by decide +kernel

/-- **C10, disagreement.** An exception between `tell` and `popleft` makes the candidate told twice. -/
theorem minimize_tells_twice :
    let s := run demo (init 0) ([.call false] ++ List.replicate 13 goOn ++ [.crash, .call false] ++ List.replicate 60 goOn)
    s.pc = .returned ∧ ((tells s.log).map (·.1)).count 0 = 2 := by decide +kernel

/-- **C10, disagreement.** An exception between the two attribute stores of the split drops all finished jobs. -/
theorem minimize_drops_finished :
    let s := run demo (init 0) ([.call false] ++ List.replicate 10 goOn ++ [.crash, .call false] ++ List.replicate 60 goOn)
    s.pc = .returned ∧ (tells s.log).map (·.1) = [2] ∧ s.numAsk = 3 := by decide +kernel

/-! ### C11: early stopping -/

/-- Specification: no candidate is asked between an early stop and the next call. -/
def NoAskAfterStop (log : List (Ev R)) : Prop := ∀ l₁ c l₂, log = l₁ ++ .ask c :: l₂ → stopped l₂ = false

/-- **C11.** After the early-stopping exception, the call asks nothing more. -/
theorem minimize_stop_asks_nothing (cfg : Cfg R) (hw : 1 ≤ cfg.workers) (n0 : Nat) (hn : n0 ≤ cfg.budget)
    (inps : List Inp) : NoAskAfterStop (run cfg (init n0) inps).log := by
  induction inps using List.reverseRecOn with
  | nil => intro l₁ c l₂ h; simp [run, init] at h
  | append_singleton inps i ih =>
    have e : run cfg (init n0) (inps ++ [i]) = step cfg (run cfg (init n0) inps) i := by simp [run, List.foldl_append]
    rw [e]
    have hc := run_ctl cfg hw n0 hn inps
    generalize run cfg (init n0) inps = s at *
    have hcons : ∀ ev, (∀ c, ev ≠ .ask c) → NoAskAfterStop (ev :: s.log) := by
      intro ev hev l₁ c l₂ h
      cases l₁ with
      | nil =>
        simp only [List.nil_append, List.cons.injEq] at h
        exact absurd h.1 (hev c)
      | cons a l₁ =>
        simp only [List.cons_append, List.cons.injEq] at h
        exact ih l₁ c l₂ h.2
    cases i with
    | call b => simp only [step]; split <;> first | exact hcons _ (by simp) | exact ih
    | crash => simp only [step]; split <;> first | exact hcons _ (by simp) | exact ih
    | go t a d =>
      show NoAskAfterStop (exec cfg s t a d).log
      have hrem := hc.rem
      unfold exec
      cases hpc : s.pc with
      | launch k =>
        cases k with
        | zero => exact ih
        | succ k =>
          cases a with
          | cand =>
            rw [RemAt, hpc] at hrem
            have hst := (hrem.2.1 (by simp)).1
            intro l₁ c l₂ h
            cases l₁ with
            | nil =>
              simp only [List.nil_append, List.cons.injEq] at h
              rw [← h.2]; exact hst
            | cons x l₁ =>
              simp only [List.cons_append, List.cons.injEq] at h
              exact ih l₁ c l₂ h.2
          | stop => exact hcons _ (by simp)
          | raises => exact hcons _ (by simp)
      | idle => exact ih
      | returned => exact ih
      | test => simp only; split <;> (try split) <;> first | exact ih | exact hcons _ (by simp)
      | tell => simp only; split <;> first | exact ih | exact hcons _ (by simp)
      | pop => exact ih
      | start => simp only; split <;> exact ih
      | submit k c => exact hcons _ (by simp)
      | refresh => exact ih
      | split => exact hcons _ (by simp)
      | half fin => exact ih

/-- **C11.** When the call returns after an early stop, every asked candidate has been told exactly once. -/
theorem minimize_stop_collects (cfg : Cfg R) (hw : 1 ≤ cfg.workers) (n0 : Nat) (hn : n0 ≤ cfg.budget)
    (inps : List Inp) :
    let s := run cfg (init n0) inps
    s.pc = .returned → NoCrash s.log →
    ((tells s.log).map (·.1)).Perm (asks s.log) ∧ (asks s.log).Nodup ∧ s.running = [] ∧ s.finished = [] := by
  intro s hpc hc
  have hi : Inv cfg n0 s := run_inv cfg n0 inps
  have hr : Ctl cfg s := run_ctl cfg hw n0 hn inps
  have h3 := hr.rem
  rw [RemAt, hpc] at h3
  obtain ⟨h4, h5, -⟩ := h3
  refine ⟨?_, hi.nodup, h4, h5⟩
  rw [List.perm_iff_count]
  intro c
  have := cons_noCrash cfg n0 s hi hc c
  simpa [h4, h5, hpc, inflight, popdup] using this

/-! ### Non-vacuity -/

/-- A normal run: three candidates told in order, with their own values. -/
example : let s := run demo (init 0) (.call false :: List.replicate 60 goOn)
    s.pc = .returned ∧ tells s.log = [(2, 20), (1, 10), (0, 0)] ∧ NotStopped s.log := by
  refine ⟨by decide +kernel, by decide +kernel, ?_⟩
  unfold NotStopped; decide +kernel

/-- An early stop at the second ask: one candidate, told. -/
example : let s := run demo (init 0) (.call false :: List.replicate 5 goOn ++ [.go false .stop (fun _ => true)] ++ List.replicate 60 goOn)
    s.pc = .returned ∧ tells s.log = [(0, 0)] ∧ stopped s.log = true := by decide +kernel

/-- A slow executor: one poll out of two finds nothing. -/
example : Patient demo 1 (step demo (init 0) (.call true)) 0
    [goOn, goOn, goOn, goOn, goOn, goOn, goOn, goOn, goOn, .go false .cand (fun _ => false), goOn] := by
  simp only [Patient]; decide +kernel

end Minimize
end NG
