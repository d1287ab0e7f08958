import Verif.Lemmas.Pruning
import Mathlib.Tactic.NormNum
import Mathlib.Data.List.Induction
import Mathlib.Data.Rat.Cast.Order

/-!
# C03: pruning of the archive
-/

set_option linter.unusedSectionVars false

namespace NG
namespace Pruning
variable {α : Type} [LinearOrder α] {β : Type}

/-- Specification: at most `m` archived points are at least as good as `v` for criterion `c`. -/
def AmongBest (est : β → Crit → α) (archive : List β) (m : Nat) (c : Crit) (v : β) : Prop :=
  (archive.filter (fun w => decide (est w c ≤ est v c))).length ≤ m

instance (est : β → Crit → α) (archive : List β) (m : Nat) (c : Crit) (v : β) :
    Decidable (AmongBest est archive m c v) := inferInstanceAs (Decidable (_ ≤ _))

/-- Specification of the pruned archive: points among the `m` best for one of the three criteria. -/
def keep (est : β → Crit → α) (archive : List β) (m : Nat) : List β :=
  archive.filter (fun v => decide (AmongBest est archive m .optimistic v ∨
    AmongBest est archive m .pessimistic v ∨ AmongBest est archive m .average v))

theorem countP_map_le (est : β → Crit → α) (archive : List β) (c : Crit) (t : α) :
    (archive.map (est · c)).countP (fun x => decide (x ≤ t))
      = (archive.filter (fun w => decide (est w c ≤ t))).length := by
  rw [List.countP_map, List.countP_eq_length_filter]; rfl

theorem countP_map_lt (est : β → Crit → α) (archive : List β) (c : Crit) (t : α) :
    (archive.map (est · c)).countP (fun x => decide (x < t))
      = (archive.filter (fun w => decide (est w c < t))).length := by
  rw [List.countP_map, List.countP_eq_length_filter]; rfl

theorem length_filter_or (l : List β) (p q r : β → Bool) :
    (l.filter (fun v => p v || q v || r v)).length
      ≤ (l.filter p).length + (l.filter q).length + (l.filter r).length := by
  induction l with
  | nil => simp
  | cons a l ih =>
    simp only [List.filter_cons]
    cases p a <;> cases q a <;> cases r a <;> simp <;> omega

theorem prune_eq (p : Pruning) (est : β → Crit → α) (archive : List β) (h : p.minLen + 1 ≤ archive.length) :
    p.prune est archive = some (keep est archive p.minLen) ∧
      (keep est archive p.minLen).length ≤ 3 * p.minLen ∧
      (∀ c ∈ names, (archive.map (est · c)).Nodup → p.minLen ≤ (keep est archive p.minLen).length) := by
  obtain ⟨qo, ho, ho1, ho2, ho3⟩ :=
    (lowerQuantile_spec (archive.map (est · .optimistic)) p.minLen).2 (by simpa using h)
  obtain ⟨qp, hp, hp1, hp2, hp3⟩ :=
    (lowerQuantile_spec (archive.map (est · .pessimistic)) p.minLen).2 (by simpa using h)
  obtain ⟨qa, ha, ha1, ha2, ha3⟩ :=
    (lowerQuantile_spec (archive.map (est · .average)) p.minLen).2 (by simpa using h)
  have hf : archive.filter (fun v => decide (est v .optimistic < qo) || decide (est v .pessimistic < qp)
      || decide (est v .average < qa)) = keep est archive p.minLen := by
    unfold keep AmongBest
    apply List.filter_congr
    intro v _
    rw [Bool.eq_iff_iff]
    simp only [Bool.or_eq_true, decide_eq_true_eq]
    rw [ho1, hp1, ha1, countP_map_le, countP_map_le, countP_map_le, or_assoc]
  refine ⟨?_, ?_, ?_⟩
  · unfold prune
    rw [ho, hp, ha]
    simp only [Option.bind_eq_bind, Option.bind_some, Option.pure_def]
    rw [hf]
  · rw [← hf]
    refine le_trans (length_filter_or _ _ _ _) ?_
    rw [countP_map_lt] at ho2 hp2 ha2
    omega
  · intro c hc hnd
    rw [← hf]
    have hsub : ∀ f : β → Bool, (∀ v, f v = true → (decide (est v .optimistic < qo) ||
        decide (est v .pessimistic < qp) || decide (est v .average < qa)) = true) →
        (archive.filter f).length ≤ (archive.filter (fun v => decide (est v .optimistic < qo) ||
        decide (est v .pessimistic < qp) || decide (est v .average < qa))).length := by
      intro f hfv
      exact (List.monotone_filter_right archive hfv).length_le
    simp only [names, List.mem_cons, List.not_mem_nil, or_false] at hc
    rcases hc with rfl | rfl | rfl
    · have := ho3 hnd; rw [countP_map_lt] at this
      exact le_trans this (hsub _ (by intro v hv; simp [hv]))
    · have := hp3 hnd; rw [countP_map_lt] at this
      exact le_trans this (hsub _ (by intro v hv; simp [hv]))
    · have := ha3 hnd; rw [countP_map_lt] at this
      exact le_trans this (hsub _ (by intro v hv; simp [hv]))

/-- **C03.** Below `max_len` points the archive is untouched; from `max_len` on, exactly the points that are
among the `min_len` best for the optimistic, pessimistic or average criterion are kept (in order), so at
most `3 * min_len` points remain. -/
theorem pruning_keeps_best (p : Pruning) (est : β → Crit → α) (archive : List β) :
    (archive.length < p.maxLen → p.call est archive = some archive) ∧
    (p.maxLen ≤ archive.length → p.minLen < archive.length →
      p.call est archive = some (keep est archive p.minLen) ∧
      (keep est archive p.minLen).length ≤ 3 * p.minLen) := by
  refine ⟨fun h => by simp [call, h], fun h1 h2 => ?_⟩
  have := prune_eq p est archive h2
  rw [call, if_neg (by omega)]
  exact ⟨this.1, this.2.1⟩

/-- **C03.** The call raises exactly when the archive has reached `max_len` with at most `min_len` points. -/
theorem pruning_raises_iff (p : Pruning) (est : β → Crit → α) (archive : List β) :
    p.call est archive = none ↔ p.maxLen ≤ archive.length ∧ archive.length ≤ p.minLen := by
  by_cases h1 : archive.length < p.maxLen
  · rw [(pruning_keeps_best p est archive).1 h1]; simp; omega
  · by_cases h2 : p.minLen < archive.length
    · rw [((pruning_keeps_best p est archive).2 (by omega) h2).1]; simp; omega
    · have : p.call est archive = none := by
        rw [call, if_neg h1, prune, (lowerQuantile_spec _ _).1 (by simpa using by omega)]; rfl
      rw [this]; simp; omega

/-- **C03.** A point strictly better than all others for one of the three criteria survives pruning. -/
theorem pruning_strict_best_survives (p : Pruning) (est : β → Crit → α) (l₁ l₂ : List β) (v : β) (c : Crit)
    (hc : c ∈ names) (hm : 1 ≤ p.minLen) (hn : p.minLen < (l₁ ++ v :: l₂).length)
    (hbest : ∀ w ∈ l₁ ++ l₂, est v c < est w c) :
    ∃ kept, p.call est (l₁ ++ v :: l₂) = some kept ∧ v ∈ kept := by
  by_cases h1 : (l₁ ++ v :: l₂).length < p.maxLen
  · exact ⟨_, (pruning_keeps_best p est _).1 h1, by simp⟩
  · refine ⟨_, ((pruning_keeps_best p est _).2 (by omega) hn).1, ?_⟩
    have : AmongBest est (l₁ ++ v :: l₂) p.minLen c v := by
      unfold AmongBest
      rw [List.filter_append, List.filter_cons]
      have e1 : l₁.filter (fun w => decide (est w c ≤ est v c)) = [] := by
        rw [List.filter_eq_nil_iff]; intro w hw; simpa using hbest w (by simp [hw])
      have e2 : l₂.filter (fun w => decide (est w c ≤ est v c)) = [] := by
        rw [List.filter_eq_nil_iff]; intro w hw; simpa using hbest w (by simp [hw])
      rw [e1, e2]; simpa using hm
    unfold keep
    rw [List.mem_filter]
    refine ⟨by simp, ?_⟩
    simp only [names, List.mem_cons, List.not_mem_nil, or_false] at hc
    rcases hc with rfl | rfl | rfl <;> simp [this]

/-- **C03 (partial).** Full claim: the pruned archive still holds at least `min_len` points ("minimum length of
the pruned archive"). Proved when one of the criteria takes pairwise distinct values; missing: archives
with ties, for which the claim is false (`pruning_ties_empty`). -/
theorem pruning_min_len_partial (p : Pruning) (est : β → Crit → α) (archive kept : List β)
    (hn : p.minLen < archive.length) (c : Crit) (hc : c ∈ names) (hd : (archive.map (est · c)).Nodup)
    (h : p.call est archive = some kept) : p.minLen ≤ kept.length := by
  by_cases h1 : archive.length < p.maxLen
  · rw [(pruning_keeps_best p est _).1 h1] at h
    simp only [Option.some.injEq] at h; subst h; omega
  · rw [((pruning_keeps_best p est _).2 (by omega) hn).1] at h
    simp only [Option.some.injEq] at h; subst h
    exact (prune_eq p est archive hn).2.2 c hc hd

/-- **C03, disagreement.** An archive of `n ≥ max_len` points with equal estimations is emptied by pruning,
for every `n > min_len`. -/
theorem pruning_ties_empty (p : Pruning) (x : α) (archive : List β) (h1 : p.maxLen ≤ archive.length)
    (h2 : p.minLen < archive.length) : p.call (fun _ _ => x) archive = some [] := by
  rw [((pruning_keeps_best p _ _).2 h1 h2).1]
  simp [keep, AmongBest]
  intro _ _
  simpa using h2

/-- **C03.** The default pruning never raises and never lets the archive exceed its maximum length. -/
theorem pruning_default_sound (numWorkers dimension : Nat) (est : β → Crit → α) (archive : List β) :
    ∃ kept, (sensibleDefault numWorkers dimension).call est archive = some kept ∧
      kept.Sublist archive ∧ kept.length ≤ (sensibleDefault numWorkers dimension).maxLen := by
  have hmin : 100 ≤ (sensibleDefault numWorkers dimension).minLen := le_max_left _ _
  have hmax : 3 * (sensibleDefault numWorkers dimension).minLen ≤
    (sensibleDefault numWorkers dimension).maxLen := le_max_left _ _
  generalize sensibleDefault numWorkers dimension = p at *
  by_cases h1 : archive.length < p.maxLen
  · exact ⟨_, (pruning_keeps_best p est _).1 h1, List.Sublist.refl _, by omega⟩
  · have := (pruning_keeps_best p est archive).2 (by omega) (by omega)
    exact ⟨_, this.1, List.filter_sublist, by omega⟩

/-- **C03.** With the default pruning, `sensible_default` keeps between 100 points and the larger of
`3 * min_len` and the smaller of `10 * min_len` and what fits in 1GB of 16-byte entries. -/
theorem pruning_default_sizes (numWorkers dimension : Nat) :
    100 ≤ (sensibleDefault numWorkers dimension).minLen ∧
    7 * numWorkers ≤ (sensibleDefault numWorkers dimension).minLen ∧
    3 * (sensibleDefault numWorkers dimension).minLen ≤ (sensibleDefault numWorkers dimension).maxLen ∧
    (sensibleDefault numWorkers dimension).maxLen ≤ 10 * (sensibleDefault numWorkers dimension).minLen := by
  have h : ∀ a b c : Nat, c = max 100 a → 3 * c ≤ max (3 * c) (min (10 * c) b) ∧
      max (3 * c) (min (10 * c) b) ≤ 10 * c := by
    intro a b c _; constructor
    · exact le_max_left _ _
    · exact max_le (by omega) (min_le_left _ _)
  refine ⟨le_max_left _ _, le_max_right _ _, ?_, ?_⟩
  · exact (h _ _ _ rfl).1
  · exact (h (7 * numWorkers) _ _ rfl).2

section Tell
variable {γ U K : Type} [Field γ] [LinearOrder γ] [DecidableEq K] [DecidableEq U]

theorem ofPruning_length_le (numWorkers dimension : Nat) (key : U → K) (sqrt : γ → γ)
    (heap : Nat → MV γ U) (a : List (K × Nat)) :
    ((ArchiveCfg.ofPruning key sqrt (sensibleDefault numWorkers dimension)).prune heap a).length
      ≤ (sensibleDefault numWorkers dimension).maxLen := by
  obtain ⟨kept, hk, -, hl⟩ := pruning_default_sound numWorkers dimension
    (fun (e : K × Nat) c => (heap e.2).estimation sqrt c) a
  simp only [ArchiveCfg.ofPruning]
  rw [hk]; exact hl

/-- **C03.** Whatever the history of tells, an optimizer with the default pruning never stores more than the
maximum archive length. -/
theorem archive_bounded (numWorkers dimension : Nat) (key : U → K) (sqrt : γ → γ) (root : U)
    (h : List (U × γ)) :
    ((ArchiveSt.init root).tells (ArchiveCfg.ofPruning key sqrt (sensibleDefault numWorkers dimension))
      h).archive.length ≤ (sensibleDefault numWorkers dimension).maxLen := by
  induction h using List.reverseRecOn with
  | nil => simp [ArchiveSt.tells, ArchiveSt.init]
  | append_singleton h e _ =>
    unfold ArchiveSt.tells
    rw [List.foldl_append, List.foldl_cons, List.foldl_nil]
    exact ofPruning_length_le numWorkers dimension key sqrt _ _

end Tell

/-- A concrete archive: 4 points, `min_len = 1`, three different points are best for the three criteria. -/
example : (Pruning.mk 1 3).call (fun (v : Nat × Nat × Nat) c => match c with
      | .optimistic => v.1 | .pessimistic => v.2.1 | _ => v.2.2)
    [(0, 9, 5), (5, 1, 4), (4, 8, 3), (7, 7, 7)] = some [(0, 9, 5), (5, 1, 4), (4, 8, 3)] := by
  rw [((pruning_keeps_best _ _ _).2 (by decide) (by decide)).1]
  decide

end Pruning
end NG
