import Verif.Model.Bandit
import Mathlib.Tactic.Linarith
import Mathlib.Tactic.Ring

/-!
# C99: the arms of NoisyBandit
-/

namespace NG
namespace Bandit

/-- When no new arm is added there are arms. -/
theorem archive_ne_nil (s : State) (h : ¬ s.archive.length ^ 3 ≤ 20 * s.numAsk) : s.archive ≠ [] := by
  intro hc
  rw [hc] at h
  simp at h

/-- **C99 (an old or a new point).** Every asked point is a fresh normal draw or an arm already evaluated, whatever the random numbers. -/
theorem ask_old_or_new (s : State) (d : Draw) (hb : s.archive ≠ [] → d.best ∈ s.archive) :
    ((ask s d).2.1 = .new ∧ (ask s d).1 = d.fresh) ∨ ((ask s d).2.1 ≠ .new ∧ (ask s d).1 ∈ s.archive) := by
  simp only [ask, internalAsk]
  split
  · exact Or.inl ⟨rfl, rfl⟩
  · rename_i h
    have hne := archive_ne_nil s h
    right
    split
    · refine ⟨by simp, ?_⟩
      have hlt : d.idx % s.archive.length < s.archive.length := Nat.mod_lt _ (List.length_pos_iff.2 hne)
      rw [List.getElem?_eq_getElem hlt]
      exact List.getElem_mem hlt
    · exact ⟨by simp, hb hne⟩

/-- **C99 (documentation).** A new arm is added exactly when `20 * #ask >= #arms ** 3`. -/
theorem new_iff (s : State) (d : Draw) : (ask s d).2.1 = .new ↔ s.archive.length ^ 3 ≤ 20 * s.numAsk := by
  simp only [ask, internalAsk]
  split
  · rename_i h; simp [h]
  · rename_i h
    split <;> simp [h]

/-- Specification of a sequential run from a state: the fresh draws are not among the arms, the optimistic best is one of them. -/
def Fresh : State → List Draw → Prop
  | _, [] => True
  | s, d :: ds => d.fresh ∉ s.archive ∧ (s.archive ≠ [] → d.best ∈ s.archive) ∧ Fresh (step (step s (.ask d)) .tell) ds

/-- One evaluation. -/
theorem step_seq (s : State) (d : Draw) (hp : s.pending = []) (hf : d.fresh ∉ s.archive) (hb : s.archive ≠ [] → d.best ∈ s.archive) :
    let s' := step (step s (.ask d)) .tell
    s'.pending = [] ∧ s'.numAsk = s.numAsk + 1 ∧
    s'.archive.length = if s.archive.length ^ 3 ≤ 20 * s.numAsk then s.archive.length + 1 else s.archive.length := by
  have h := ask_old_or_new s d hb
  have hn := new_iff s d
  simp only [step, ask, hp, List.nil_append, tell] at h hn ⊢
  refine ⟨by simp, trivial, ?_⟩
  rcases h with ⟨h1, h2⟩ | ⟨h1, h2⟩
  · rw [if_pos (hn.1 h1), h2, if_neg hf]; simp
  · rw [if_neg (fun hc => h1 (hn.2 hc)), if_pos h2]

/-- Specification: the number of arms after `n` evaluations, one plus the integer cube root of `20 (n - 1)`, but not more than `n`. -/
def IsArms (n a : Nat) : Prop := (n = 0 ∧ a = 0) ∨ (1 ≤ a ∧ a ≤ n ∧ (a - 1) ^ 3 ≤ 20 * (n - 1) ∧ (a < n → 20 * (n - 1) < a ^ 3))

theorem isArms_step {n a : Nat} (h : IsArms n a) : IsArms (n + 1) (if a ^ 3 ≤ 20 * n then a + 1 else a) := by
  rcases h with ⟨rfl, rfl⟩ | ⟨h1, h2, h3, h4⟩
  · exact Or.inr (by simp)
  · right
    simp only [Nat.add_sub_cancel]
    split
    · rename_i hc
      refine ⟨by omega, by omega, by simpa using hc, ?_⟩
      intro hlt
      have h5 := h4 (by omega)
      have h6 : n = (n - 1) + 1 := by omega
      have h7 : a ≤ n - 1 := by omega
      have h8 : 3 ≤ a := by
        by_contra h9
        have : a = 1 ∨ a = 2 := by omega
        rcases this with rfl | rfl <;> omega
      nlinarith [h5, h8, Nat.mul_le_mul h8 h8, h6]
    · rename_i hc
      refine ⟨h1, by omega, h3.trans (by omega), fun _ => by omega⟩

/-- The specification determines the number. -/
theorem isArms_unique {n a b : Nat} (ha : IsArms n a) (hb : IsArms n b) : a = b := by
  have key : ∀ a b, IsArms n a → IsArms n b → ¬ a < b := by
    intro a b ha hb hlt
    rcases ha with ⟨rfl, rfl⟩ | ⟨a1, a2, a3, a4⟩
    · rcases hb with ⟨_, rfl⟩ | ⟨b1, b2, b3, b4⟩ <;> omega
    · rcases hb with ⟨rfl, rfl⟩ | ⟨b1, b2, b3, b4⟩
      · omega
      · have h1 := a4 (by omega)
        have h2 : a ^ 3 ≤ (b - 1) ^ 3 := Nat.pow_le_pow_left (by omega) 3
        omega
  exact le_antisymm (not_lt.1 (key b a hb ha)) (not_lt.1 (key a b ha hb))

theorem run_append (es fs : List Event) : run (es ++ fs) = fs.foldl step (run es) := by
  simp [run]

theorem sequential_arms_from : ∀ (ds : List Draw) (s : State) (n : Nat), s.pending = [] → s.numAsk = n → IsArms n s.archive.length → Fresh s ds →
    IsArms (n + ds.length) ((sequential ds).foldl step s).archive.length ∧ ((sequential ds).foldl step s).pending = []
  | [], s, n, hp, _, h, _ => by simpa [sequential] using ⟨h, hp⟩
  | d :: ds, s, n, hp, hn, h, hf => by
    obtain ⟨h1, h2, h3⟩ := step_seq s d hp hf.1 hf.2.1
    have e : (sequential (d :: ds)).foldl step s = (sequential ds).foldl step (step (step s (.ask d)) .tell) := by
      simp [sequential]
    have h4 : IsArms (n + 1) (step (step s (.ask d)) .tell).archive.length := by
      rw [h3, hn]; exact isArms_step h
    have := sequential_arms_from ds _ (n + 1) h1 (by rw [h2, hn]) h4 hf.2.2
    rw [e, List.length_cons, show n + (ds.length + 1) = n + 1 + ds.length by omega]
    exact this

/-- **C99 (number of arms).** After `n` sequential evaluations there are `min n (⌊(20 (n - 1))^(1/3)⌋ + 1)` arms, whatever the draws and losses. -/
theorem sequential_arms (ds : List Draw) (h : Fresh init ds) : IsArms ds.length (run (sequential ds)).archive.length := by
  have := (sequential_arms_from ds init 0 rfl rfl (Or.inl ⟨rfl, rfl⟩) h).1
  simpa [run] using this

/-- **C99 (evaluations per arm).** The arms are evaluated again and again: `a` arms have at least `(a - 1)^3 / 20` evaluations in total. -/
theorem evaluations_per_arm (ds : List Draw) (h : Fresh init ds) :
    ((run (sequential ds)).archive.length - 1) ^ 3 ≤ 20 * ds.length := by
  rcases sequential_arms ds h with ⟨_, h2⟩ | ⟨_, _, h3, _⟩
  · rw [h2]; simp
  · omega

/-- Specification of a run with at most `w` points pending: before each ask fewer are pending, and the optimistic best is an arm. -/
def Parallel (w : Nat) : State → List Event → Prop
  | _, [] => True
  | s, .ask d :: es => s.pending.length < w ∧ (s.archive ≠ [] → d.best ∈ s.archive) ∧ Parallel w (step s (.ask d)) es
  | s, .tell :: es => Parallel w (step s .tell) es

/-- Pending points which are not arms yet. -/
def newPending (s : State) : Nat := (s.pending.filter (fun a => a ∉ s.archive)).length

theorem parallel_inv (w : Nat) : ∀ (es : List Event) (s : State), s.pending.length ≤ w → (s.archive.length + newPending s - w) ^ 3 ≤ 20 * s.numAsk →
    Parallel w s es → ((es.foldl step s).archive.length - w) ^ 3 ≤ 20 * (es.foldl step s).numAsk
  | [], s, _, h, _ => by
    refine le_trans (Nat.pow_le_pow_left ?_ 3) h
    simp only [List.foldl_nil]
    omega
  | .ask d :: es, s, hw, h, hp => by
    refine parallel_inv w es (step s (.ask d)) (by simp only [step, ask, List.length_append, List.length_singleton]; have := hp.1; omega) ?_ hp.2.2
    have hon := ask_old_or_new s d hp.2.1
    have hn := new_iff s d
    rcases hon with ⟨h1, h2⟩ | ⟨h1, h2⟩
    · have hle : newPending (step s (.ask d)) ≤ w := by
        refine le_trans (List.length_filter_le _ _) ?_
        simp only [step, ask, List.length_append, List.length_singleton]
        have := hp.1
        omega
      have h3 := hn.1 h1
      have e1 : (step s (.ask d)).archive = s.archive := rfl
      have e2 : (step s (.ask d)).numAsk = s.numAsk + 1 := rfl
      rw [e1, e2]
      have h4 : (s.archive.length + newPending (step s (.ask d)) - w) ^ 3 ≤ s.archive.length ^ 3 := Nat.pow_le_pow_left (by omega) 3
      omega
    · have e : newPending (step s (.ask d)) = newPending s := by
        have h3 : (step s (.ask d)).pending = s.pending ++ [(ask s d).1] := rfl
        have h4 : (step s (.ask d)).archive = s.archive := rfl
        unfold newPending
        rw [h3, h4, List.filter_append, List.filter_cons_of_neg (by simpa using h2), List.filter_nil, List.append_nil]
      have e1 : (step s (.ask d)).archive = s.archive := rfl
      have e2 : (step s (.ask d)).numAsk = s.numAsk + 1 := rfl
      rw [e, e1, e2]
      omega
  | .tell :: es, s, hw, h, hp => by
    cases hpe : s.pending with
    | nil =>
      have e : step s .tell = s := by simp [step, hpe]
      rw [List.foldl_cons, e]
      exact parallel_inv w es s hw h (by simpa [Parallel, e] using hp)
    | cons a l =>
      have e : step s .tell = tell s a := by simp [step, hpe]
      rw [List.foldl_cons, e]
      have hp' : Parallel w (tell s a) es := by simpa [Parallel, e] using hp
      have hlen : (tell s a).pending = l := by simp [tell, hpe]
      refine parallel_inv w es (tell s a) (by rw [hlen]; rw [hpe] at hw; simp at hw; omega) ?_ hp'
      refine le_trans (Nat.pow_le_pow_left ?_ 3) h
      have : (tell s a).archive.length + newPending (tell s a) ≤ s.archive.length + newPending s := by
        simp only [newPending, hlen, hpe]
        by_cases ha : a ∈ s.archive
        · simp only [tell, if_pos ha]
          rw [List.filter_cons_of_neg (by simpa using ha)]
        · simp only [tell, if_neg ha, List.length_append, List.length_singleton]
          rw [List.filter_cons_of_pos (by simpa using ha), List.length_cons]
          have : (l.filter (fun x => decide (x ∉ s.archive ++ [a]))).length ≤ (l.filter (fun x => decide (x ∉ s.archive))).length := by
            apply List.Sublist.length_le
            apply List.monotone_filter_right
            intro x
            simp only [List.mem_append, not_or, decide_eq_true_eq]
            exact fun h => h.1
          omega
      omega

/-- **C99 (parallel use).** With at most `w` evaluations at the same time, there are at most `w` arms more than the cube root of 20 times the number
of asks, whatever the order in which the results come. -/
theorem parallel_arms (w : Nat) (es : List Event) (h : Parallel w init es) : ((run es).archive.length - w) ^ 3 ≤ 20 * (run es).numAsk :=
  parallel_inv w es init (by simp [init]) (by simp [init, newPending]) h

/-- Without results all points are new: the first batch of any size is only made of fresh draws. -/
theorem batch_new (ds : List Draw) : (run (ds.map .ask)).pending = ds.map (·.fresh) := by
  have : ∀ (ds : List Draw) (s : State), s.archive = [] → ((ds.map Event.ask).foldl step s).pending = s.pending ++ ds.map (·.fresh) := by
    intro ds
    induction ds with
    | nil => intro s _; simp
    | cons d ds ih =>
      intro s hs
      rw [List.map_cons, List.foldl_cons, ih (step s (.ask d)) (by simp [step, ask, hs])]
      simp [step, ask, internalAsk, hs]
  simpa [run, init] using this ds init rfl

instance decFresh : ∀ (s : State) (ds : List Draw), Decidable (Fresh s ds)
  | _, [] => isTrue trivial
  | s, d :: ds => by
    have := decFresh (step (step s (.ask d)) .tell) ds
    unfold Fresh
    infer_instance

/-- Ten sequential evaluations: six arms. -/
def tenDraws : List Draw := (List.range 10).map (fun i => ⟨i, i % 2 == 0, i, 0⟩)

example : (run (sequential tenDraws)).archive = [0, 1, 2, 3, 4, 7] ∧ IsArms 10 6 := by
  refine ⟨by decide +kernel, Or.inr (by decide)⟩

example : Fresh init tenDraws := by
  decide +kernel

end Bandit
end NG
