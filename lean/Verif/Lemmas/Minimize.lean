import Verif.Model.Minimize
import Mathlib.Data.List.Count
import Mathlib.Data.List.Induction
import Mathlib.Data.List.Perm.Basic
import Mathlib.Data.List.Nodup
import Mathlib.Tactic.Ring
import Mathlib.Tactic.Linarith

/-!
# Invariants of the minimize loop
-/

namespace NG
namespace Minimize
variable {R : Type}

/-- Asked candidates, most recent first. -/
def asks : List (Ev R) → List Nat
  | [] => []
  | .ask c :: l => c :: asks l
  | _ :: l => asks l

/-- Told candidates with the told value, most recent first. -/
def tells : List (Ev R) → List (Nat × R)
  | [] => []
  | .tell c r :: l => (c, r) :: tells l
  | _ :: l => tells l

/-- Has the early stop been raised since the last call? -/
def stopped : List (Ev R) → Bool
  | [] => false
  | .stop :: _ => true
  | .call :: _ => false
  | _ :: l => stopped l

/-- Candidates that interruptions may affect: one each, or the dropped ones. -/
def damage : List (Ev R) → Nat
  | [] => 0
  | .crash d :: l => max 1 d + damage l
  | _ :: l => damage l

/-- Candidates not registered in the two job lists. -/
def inflight : Pc → List Nat
  | .submit _ c => [c]
  | .half fin => fin.map (·.cand)
  | _ => []

/-- Between tell and `popleft` the first finished candidate is already told. -/
def popdup (s : St R) : List Nat :=
  match s.pc with
  | .pop => (s.finished.head?.map (·.cand)).toList
  | _ => []

/-- Jobs held by the program point. -/
def pcJobs : Pc → List Job
  | .half fin => fin
  | _ => []

/-- Points at which all finished jobs have been told. -/
def noFin : Pc → Bool
  | .start | .launch _ | .submit _ _ | .refresh | .split | .half _ => true
  | _ => false

/-- Conservation of candidates. -/
structure Inv (cfg : Cfg R) (n0 : Nat) (s : St R) : Prop where
  le : n0 ≤ s.numAsk
  len : (asks s.log).length + n0 = s.numAsk
  lt : ∀ c ∈ asks s.log, c < s.numAsk
  nodup : (asks s.log).Nodup
  jobs : ∀ j ∈ s.running ++ s.finished ++ pcJobs s.pc, j.arg = j.cand
  res : ∀ e ∈ tells s.log, e.2 = cfg.f e.1
  popne : s.pc = .pop → s.finished ≠ []
  empty : noFin s.pc = true → s.finished = []
  cons : ∃ lost dups : List Nat, lost.length + dups.length ≤ damage s.log ∧
    ∀ c, ((tells s.log).map (·.1)).count c + (s.running.map (·.cand)).count c +
      (s.finished.map (·.cand)).count c + (inflight s.pc).count c + lost.count c =
      (asks s.log).count c + dups.count c + (popdup s).count c

theorem inv_init (cfg : Cfg R) (n0 : Nat) : Inv cfg n0 (init n0) := by
  refine ⟨le_refl _, ?_, ?_, ?_, ?_, ?_, ?_, ?_, [], [], ?_, ?_⟩ <;>
    simp [init, asks, tells, pcJobs, inflight, popdup, damage, noFin]

theorem count_partition (l : List Job) (p : Job → Bool) (c : Nat) :
    ((l.filter p).map (·.cand)).count c + ((l.filter (fun j => !p j)).map (·.cand)).count c =
      (l.map (·.cand)).count c := by
  induction l with
  | nil => rfl
  | cons a l ih =>
    cases hp : p a with
    | true =>
      rw [List.filter_cons_of_pos hp, List.filter_cons_of_neg (by simp [hp])]
      simp only [List.map_cons, List.count_cons]
      omega
    | false =>
      rw [List.filter_cons_of_neg (by simp [hp]), List.filter_cons_of_pos (by simp [hp])]
      simp only [List.map_cons, List.count_cons]
      omega

theorem inv_interrupt (cfg : Cfg R) (n0 : Nat) (s : St R) (h : Inv cfg n0 s) : Inv cfg n0 (interrupt s) := by
  obtain ⟨h1, h2, h3, h4, h5, h6, h7, h70, lost, dups, h8, h9⟩ := h
  refine ⟨h1, h2, h3, h4, ?_, h6, ?_, by simp [interrupt, noFin], lost ++ inflight s.pc, dups ++ popdup s, ?_, ?_⟩
  · intro j hj
    apply h5
    simp only [interrupt, pcJobs, List.append_nil] at hj
    exact List.mem_append_left _ hj
  · simp [interrupt]
  · simp only [interrupt, damage, List.length_append]
    cases hpc : s.pc <;> simp [inflight, popdup, hpc] <;> try omega
    cases s.finished <;> simp <;> omega
  · intro c
    have := h9 c
    simp only [interrupt, tells, asks, inflight, popdup, List.count_append, List.count_nil] at this ⊢
    omega

theorem inv_step (cfg : Cfg R) (n0 : Nat) (s : St R) (inp : Inp) (h : Inv cfg n0 s) :
    Inv cfg n0 (step cfg s inp) := by
  cases inp with
  | call batch =>
    have hc : ∀ pc', (s.pc = .idle ∨ s.pc = .returned) → pc' = s.pc →
        Inv cfg n0 { s with pc := .test, remaining := (cfg.budget : Int) - s.numAsk, batch := batch, log := .call :: s.log } := by
      intro _ hp _
      obtain ⟨h1, h2, h3, h4, h5, h6, h7, h70, lost, dups, h8, h9⟩ := h
      refine ⟨h1, h2, h3, h4, ?_, h6, by simp, by simp [noFin], lost, dups, h8, ?_⟩
      · intro j hj
        apply h5
        simp only [pcJobs, List.append_nil] at hj
        exact List.mem_append_left _ hj
      · intro c
        have := h9 c
        rcases hp with hp | hp <;>
        · simp only [tells, asks, inflight, popdup, hp, List.count_nil] at this ⊢
          omega
    simp only [step]
    split
    · rename_i hp; exact hc _ (Or.inl hp) rfl
    · rename_i hp; exact hc _ (Or.inr hp) rfl
    · exact h
  | crash =>
    simp only [step]
    split
    · exact h
    · exact h
    · exact inv_interrupt cfg n0 s h
  | go timeUp ask done =>
    show Inv cfg n0 (exec cfg s timeUp ask done)
    have hint := inv_interrupt cfg n0 s h
    obtain ⟨h1, h2, h3, h4, h5, h6, h7, h70, lost, dups, h8, h9⟩ := id h
    -- steps that only move the program counter or the local variables
    have move : ∀ s' : St R, s'.numAsk = s.numAsk → s'.running = s.running → s'.finished = s.finished →
        asks s'.log = asks s.log → tells s'.log = tells s.log → damage s'.log = damage s.log →
        s'.pc ≠ .pop → (noFin s'.pc = true → s.finished = []) → pcJobs s'.pc = [] → inflight s'.pc = [] → inflight s.pc = [] → popdup s = [] →
        Inv cfg n0 s' := by
      intro s' e1 e2 e3 e4 e5 e6 e7 e70 e8 e9 e10 e11
      have e12 : popdup s' = [] := by
        unfold popdup; split
        · rename_i hp; exact absurd hp e7
        · rfl
      refine ⟨by rw [e1]; exact h1, by rw [e4, e1]; exact h2, by rw [e4, e1]; exact h3, by rw [e4]; exact h4, ?_,
        by rw [e5]; exact h6, fun hp => absurd hp e7, fun hp => by rw [e3]; exact e70 hp, lost, dups, by rw [e6]; exact h8, ?_⟩
      · intro j hj
        apply h5
        rw [e2, e3, e8, List.append_nil] at hj
        exact List.mem_append_left _ hj
      · intro c
        have := h9 c
        rw [e2, e3, e4, e5, e9, e12]
        rw [e10, e11] at this
        exact this
    unfold exec
    cases hpc : s.pc with
    | idle => simpa [hpc] using h
    | returned => simpa [hpc] using h
    | test =>
      simp only
      split
      · split <;> exact move _ rfl rfl rfl rfl rfl rfl (by simp) (by simp [noFin, h70, hpc]) rfl rfl (by simp [hpc, inflight]) (by simp [popdup, hpc])
      · exact move _ rfl rfl rfl rfl rfl rfl (by simp) (by simp [noFin, h70, hpc]) rfl rfl (by simp [hpc, inflight]) (by simp [popdup, hpc])
    | tell =>
      simp only
      cases hf : s.finished with
      | nil => exact move _ rfl rfl (by simp [hf]) rfl rfl rfl (by simp) (by simp [hf]) rfl rfl (by simp [hpc, inflight]) (by simp [popdup, hpc])
      | cons j js =>
        refine ⟨h1, h2, h3, h4, ?_, ?_, by simp, by simp [noFin], lost, dups, h8, ?_⟩
        · intro k hk
          apply h5
          simp only [pcJobs, List.append_nil] at hk
          rw [hf]
          exact List.mem_append_left _ hk
        · intro e he
          simp only [tells, List.mem_cons] at he
          rcases he with rfl | he
          · have := h5 j (by simp [hf])
            simp [this]
          · exact h6 e he
        · intro c
          have := h9 c
          simp only [tells, asks, inflight, popdup, hpc, hf, List.count_nil, List.map_cons, List.count_cons,
            List.head?_cons, Option.map_some, Option.toList_some] at this ⊢
          omega
    | pop =>
      simp only
      cases hf : s.finished with
      | nil => exact absurd hf (h7 hpc)
      | cons j js =>
        refine ⟨h1, h2, h3, h4, ?_, h6, by simp, by simp [noFin, h70, hpc], lost, dups, h8, ?_⟩
        · intro k hk
          apply h5
          simp only [pcJobs, List.append_nil, List.tail_cons, List.mem_append] at hk
          simp only [hf, List.mem_append, List.mem_cons]
          tauto
        · intro c
          have := h9 c
          simp only [tells, asks, inflight, popdup, hpc, hf, List.count_nil, List.map_cons, List.count_cons,
            List.head?_cons, Option.map_some, Option.toList_some, List.tail_cons] at this ⊢
          omega
    | start =>
      simp only
      split <;> exact move _ rfl rfl rfl rfl rfl rfl (by simp) (by simp [noFin, h70, hpc]) rfl rfl (by simp [hpc, inflight]) (by simp [popdup, hpc])
    | launch k =>
      cases k with
      | zero => exact move _ rfl rfl rfl rfl rfl rfl (by simp) (by simp [noFin, h70, hpc]) rfl rfl (by simp [hpc, inflight]) (by simp [popdup, hpc])
      | succ k =>
        simp only
        cases ask with
        | stop => exact move _ rfl rfl rfl rfl rfl rfl (by simp) (by simp [noFin, h70, hpc]) rfl rfl (by simp [hpc, inflight]) (by simp [popdup, hpc])
        | raises => exact hint
        | cand =>
          refine ⟨Nat.le_succ_of_le h1, by simp only [asks, List.length_cons]; omega, ?_, ?_, ?_, h6, by simp, by simp [noFin, h70, hpc], lost, dups, h8, ?_⟩
          · intro c hc
            simp only [asks, List.mem_cons] at hc
            rcases hc with rfl | hc
            · simp
            · exact Nat.lt_succ_of_lt (h3 c hc)
          · simp only [asks, List.nodup_cons]
            exact ⟨fun hh => lt_irrefl _ (h3 _ hh), h4⟩
          · intro j hj
            apply h5
            simp only [pcJobs, List.append_nil] at hj
            exact List.mem_append_left _ hj
          · intro c
            have := h9 c
            simp only [tells, asks, inflight, popdup, hpc, List.count_nil, List.count_cons] at this ⊢
            omega
    | submit k c0 =>
      simp only
      refine ⟨h1, h2, h3, h4, ?_, h6, by simp, by simp [noFin, h70, hpc], lost, dups, h8, ?_⟩
      · intro j hj
        simp only [pcJobs, List.append_nil, List.mem_append, List.mem_singleton] at hj
        rcases hj with (hj | rfl) | hj
        · exact h5 j (by simp [hj])
        · rfl
        · exact h5 j (by simp [hj])
      · intro c
        have := h9 c
        simp only [inflight, popdup, hpc, List.count_nil, List.count_cons, List.map_append, List.count_append,
          List.map_cons, List.map_nil, asks, tells] at this ⊢
        omega
    | refresh =>
      exact move _ rfl rfl rfl rfl rfl rfl (by simp) (by simp [noFin, h70, hpc]) rfl rfl (by simp [hpc, inflight]) (by simp [popdup, hpc])
    | split =>
      simp only
      refine ⟨h1, h2, h3, h4, ?_, h6, by simp, by simp [noFin, h70, hpc], lost, dups, h8, ?_⟩
      · intro j hj
        simp only [pcJobs, List.mem_append, List.mem_filter] at hj
        apply h5
        simp only [List.mem_append]
        tauto
      · intro c
        have := h9 c
        have hp := count_partition s.running (fun j => done j.cand) c
        simp only [inflight, popdup, hpc, List.count_nil, asks, tells] at this ⊢
        omega
    | half fin =>
      have he := h70 (by simp [hpc, noFin])
      simp only
      refine ⟨h1, h2, h3, h4, ?_, h6, by simp, by simp [noFin], lost, dups, h8, ?_⟩
      · intro j hj
        simp only [pcJobs, List.append_nil, List.mem_append] at hj
        apply h5
        simp only [hpc, pcJobs, List.mem_append]
        tauto
      · intro c
        have := h9 c
        simp only [inflight, popdup, hpc, he, List.map_nil, List.count_nil] at this ⊢
        omega

/-- Places still reserved by the program point. -/
def pend : Pc → Nat
  | .launch k => k
  | .submit k _ => k + 1
  | .half fin => fin.length
  | _ => 0

/-- `remaining` is accurate, or zero after an early stop. -/
def Acc (cfg : Cfg R) (s : St R) : Prop :=
  (stopped s.log = true → s.remaining = 0) ∧
  (stopped s.log = false → s.remaining = (cfg.budget : Int) - s.numAsk)

/-- `remaining` may be out of date but is positive. -/
def Weak (cfg : Cfg R) (s : St R) : Prop :=
  (stopped s.log = true → s.remaining = 0) ∧
  (stopped s.log = false → 0 < s.remaining ∨ s.remaining = (cfg.budget : Int) - s.numAsk)

/-- What `remaining` means at each point. -/
def RemAt (cfg : Cfg R) (s : St R) : Prop :=
  match s.pc with
  | .idle => True
  | .returned => s.running = [] ∧ s.finished = [] ∧ (stopped s.log = false → s.numAsk = cfg.budget)
  | .test | .tell | .pop | .start => Acc cfg s
  | .split => Acc cfg s ∧ (s.running = [] → s.remaining = 0)
  | .half fin => Acc cfg s ∧ (s.running = [] → fin = [] → s.remaining = 0)
  | .launch k => k + s.numAsk ≤ cfg.budget ∧ (k ≠ 0 → stopped s.log = false ∧ 0 < s.remaining) ∧ Weak cfg s ∧
      (k = 0 → s.running = [] → s.remaining = 0)
  | .submit k _ => k + s.numAsk ≤ cfg.budget ∧ stopped s.log = false ∧ 0 < s.remaining
  | .refresh => Weak cfg s ∧ (s.running = [] → s.remaining = 0)

/-- Control invariant. -/
structure Ctl (cfg : Cfg R) (s : St R) : Prop where
  ask : s.numAsk ≤ cfg.budget
  wk : s.running.length + s.finished.length + pend s.pc ≤ cfg.workers
  rem : RemAt cfg s

theorem ctl_init (cfg : Cfg R) (n0 : Nat) (h : n0 ≤ cfg.budget) : Ctl cfg (init n0) :=
  ⟨h, by simp [init, pend], trivial⟩

theorem ctl_interrupt (cfg : Cfg R) (s : St R) (h : Ctl cfg s) : Ctl cfg (interrupt s) := by
  refine ⟨h.ask, ?_, trivial⟩
  have := h.wk
  simp only [interrupt, pend]
  omega

theorem ctl_step (cfg : Cfg R) (hw : 1 ≤ cfg.workers) (n0 : Nat) (s : St R) (inp : Inp) (hi : Inv cfg n0 s)
    (h : Ctl cfg s) : Ctl cfg (step cfg s inp) := by
  have hint := ctl_interrupt cfg s h
  obtain ⟨h1, h2, h3⟩ := id h
  cases inp with
  | call batch =>
    simp only [step]
    split
    · refine ⟨h1, ?_, ?_⟩
      · simp only [pend]; omega
      · exact ⟨by simp [stopped], by simp [stopped]⟩
    · refine ⟨h1, ?_, ?_⟩
      · simp only [pend]; omega
      · exact ⟨by simp [stopped], by simp [stopped]⟩
    · exact h
  | crash =>
    simp only [step]
    split
    · exact h
    · exact h
    · exact hint
  | go timeUp ask done =>
    show Ctl cfg (exec cfg s timeUp ask done)
    unfold exec
    unfold RemAt at h3
    cases hpc : s.pc with
    | idle => simpa [hpc] using h
    | returned => simpa [hpc] using h
    | test =>
      rw [hpc] at h2 h3
      simp only [pend] at h2 h3 ⊢
      split
      · split
        · exact ⟨h1, h2, trivial⟩
        · exact ⟨h1, h2, h3⟩
      · rename_i hn
        simp only [not_or, not_not] at hn
        refine ⟨h1, h2, hn.2.1, hn.2.2, ?_⟩
        intro hs
        have := h3.2 hs
        simp only at this ⊢
        omega
    | tell =>
      rw [hpc] at h2 h3
      simp only [pend] at h2 h3 ⊢
      cases hf : s.finished with
      | nil => rw [hf] at h2; exact ⟨h1, by simpa [pend] using h2, h3⟩
      | cons j js => rw [hf] at h2; exact ⟨h1, by simpa [pend] using h2, h3⟩
    | pop =>
      rw [hpc] at h2 h3
      simp only [pend] at h2 h3 ⊢
      refine ⟨h1, ?_, h3⟩
      have : s.finished.tail.length ≤ s.finished.length := by simp
      simp only [pend]; omega
    | start =>
      have hf := hi.empty (by simp [hpc, noFin])
      rw [hpc] at h2 h3
      simp only [pend, hf, List.length_nil] at h2 h3 ⊢
      split
      · set k := (max 0 (min s.remaining ((cfg.workers : Int) - s.running.length))).toNat with hk
        refine ⟨h1, ?_, ?_, ?_, ?_, ?_⟩
        · simp only [pend, List.length_nil]; omega
        · simp only
          by_cases hs : stopped s.log = true
          · have := h3.1 hs; omega
          · have := h3.2 (by simpa using hs); omega
        · intro hk0
          simp only
          by_cases hs : stopped s.log = true
          · have := h3.1 hs; omega
          · exact ⟨by simpa using hs, by omega⟩
        · exact ⟨h3.1, fun hs => Or.inr (h3.2 hs)⟩
        · intro hk0 hr
          simp only at hr ⊢
          rw [hr] at hk
          simp only [List.length_nil] at hk
          by_cases hs : stopped s.log = true
          · exact h3.1 hs
          · have := h3.2 (by simpa using hs); omega
      · rename_i hb
        simp only [Bool.or_eq_true, Bool.not_eq_true', List.isEmpty_iff, not_or] at hb
        refine ⟨h1, h2, ⟨h3.1, fun hs => Or.inr (h3.2 hs)⟩, ?_⟩
        intro hr; exact absurd hr hb.2
    | launch k =>
      rw [hpc] at h2 h3
      cases k with
      | zero =>
        simp only [pend] at h2 h3 ⊢
        exact ⟨h1, h2, h3.2.2.1, h3.2.2.2 trivial⟩
      | succ k =>
        simp only [pend] at h2 h3 ⊢
        obtain ⟨g1, g2, g3, g4⟩ := h3
        obtain ⟨g5, g6⟩ := g2 (by simp)
        cases ask with
        | cand =>
          refine ⟨?_, ?_, ?_, ?_, ?_⟩
          · simp only; omega
          · simp only [pend]; omega
          · simp only; omega
          · simpa [stopped] using g5
          · exact g6
        | stop =>
          refine ⟨h1, ?_, ⟨?_, ?_⟩, ?_⟩
          · simp only [pend]; omega
          · intro _; rfl
          · intro hs; simp [stopped] at hs
          · intro _; rfl
        | raises => exact hint
    | submit k c =>
      rw [hpc] at h2 h3
      simp only [pend] at h2 h3 ⊢
      obtain ⟨g1, g2, g3⟩ := h3
      refine ⟨h1, ?_, g1, fun _ => ⟨g2, g3⟩, ⟨?_, fun _ => Or.inl g3⟩, ?_⟩
      · simp only [pend, List.length_append, List.length_singleton]; omega
      · intro hs; simp only [stopped] at hs; rw [g2] at hs; simp at hs
      · intro _ hr; simp at hr
    | refresh =>
      rw [hpc] at h2 h3
      simp only [pend] at h2 h3 ⊢
      obtain ⟨⟨g1, g2⟩, g3⟩ := h3
      refine ⟨h1, h2, ⟨?_, ?_⟩, ?_⟩
      · intro hs
        have := g1 hs
        simp [this]
      · intro hs
        have := g2 hs
        simp only
        split
        · rfl
        · rcases this with h | h
          · omega
          · exact h
      · intro hr
        have := g3 hr
        simp [this]
    | split =>
      have hf := hi.empty (by simp [hpc, noFin])
      rw [hpc] at h2 h3
      simp only [pend, hf, List.length_nil] at h2 h3 ⊢
      refine ⟨h1, ?_, h3.1, ?_⟩
      · simp only [pend, List.length_nil]
        have h5 : ∀ (l : List Job) (p : Job → Bool), (l.filter p).length + (l.filter (fun j => !p j)).length = l.length := by
          intro l p
          induction l with
          | nil => rfl
          | cons a l ih => cases hp : p a <;> simp [hp] <;> omega
        have h4 := h5 s.running (fun j => done j.cand)
        omega
      · intro hr hn
        apply h3.2
        simp only at hr
        rcases List.eq_nil_or_concat s.running with h | ⟨l, j, hl⟩
        · exact h
        · exfalso
          have hj : j ∈ s.running := by rw [hl]; simp
          cases hd : done j.cand with
          | true =>
            have : j ∈ s.running.filter (fun j => done j.cand) := List.mem_filter.2 ⟨hj, hd⟩
            rw [hn] at this; simp at this
          | false =>
            have : j ∈ s.running.filter (fun j => !done j.cand) := List.mem_filter.2 ⟨hj, by simp [hd]⟩
            rw [hr] at this; simp at this
    | half fin =>
      have hf := hi.empty (by simp [hpc, noFin])
      rw [hpc] at h2 h3
      simp only [pend, hf, List.length_nil] at h2 h3 ⊢
      refine ⟨h1, ?_, h3.1⟩
      simp only [pend]; omega

end Minimize
end NG
