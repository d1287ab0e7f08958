import Verif.Model.Archive
import Verif.Props.MultiValue
import Mathlib.Data.List.Induction
import Mathlib.Data.List.Nodup
import Mathlib.Tactic.Linarith

set_option linter.unusedSectionVars false

namespace NG

theorem foldl_min_spec {β γ : Type} [LinearOrder γ] (f : β → γ) (l : List β) (b : β) :
    let m := l.foldl (fun m x => if f x < f m then x else m) b
    (m = b ∨ m ∈ l) ∧ f m ≤ f b ∧ ∀ x ∈ l, f m ≤ f x := by
  induction l generalizing b with
  | nil => simp
  | cons a l ih =>
    simp only [List.foldl_cons]
    by_cases h : f a < f b
    · simp only [if_pos h]
      obtain ⟨h1, h2, h3⟩ := ih a
      refine ⟨Or.inr ?_, le_trans h2 h.le, ?_⟩
      · rcases h1 with h1 | h1
        · rw [h1]; simp
        · exact List.mem_cons_of_mem _ h1
      · intro x hx
        rcases List.mem_cons.1 hx with rfl | hx
        · exact h2
        · exact h3 x hx
    · simp only [if_neg h]
      obtain ⟨h1, h2, h3⟩ := ih b
      refine ⟨?_, h2, ?_⟩
      · rcases h1 with h1 | h1
        · exact Or.inl h1
        · exact Or.inr (List.mem_cons_of_mem _ h1)
      · intro x hx
        rcases List.mem_cons.1 hx with rfl | hx
        · exact le_trans h2 (not_lt.1 h)
        · exact h3 x hx

theorem firstMin_spec {β γ : Type} [LinearOrder γ] (f : β → γ) (l : List β) :
    (firstMin f l = none → l = []) ∧
    (∀ m, firstMin f l = some m → m ∈ l ∧ ∀ x ∈ l, f m ≤ f x) := by
  cases l with
  | nil => simp [firstMin]
  | cons b l =>
    simp only [firstMin]
    refine ⟨by simp, ?_⟩
    intro m hm
    simp only [Option.some.injEq] at hm
    obtain ⟨h1, h2, h3⟩ := foldl_min_spec f l b
    rw [hm] at h1 h2 h3
    refine ⟨?_, ?_⟩
    · rcases h1 with h1 | h1
      · rw [h1]; simp
      · exact List.mem_cons_of_mem _ h1
    · intro x hx
      rcases List.mem_cons.1 hx with rfl | hx
      · exact h2
      · exact h3 x hx

namespace ArchiveSt
variable {α : Type} [Field α] [LinearOrder α] {U K : Type} [DecidableEq K] [DecidableEq U]

/-- Structural invariant and minimality of the tracked bests. -/
structure Inv (cfg : ArchiveCfg α U K) (s : ArchiveSt α U K) : Prop where
  keysND : (s.archive.map (·.1)).Nodup
  idsND : (s.archive.map (·.2)).Nodup
  idlt : ∀ e ∈ s.archive, e.2 < s.next
  bestlt : ∀ c i, s.bests c = some i → i < s.next
  best : ∀ c, ∀ e ∈ s.archive, s.bestEst cfg c ≤ (((s.heap e.2).estimation cfg.sqrt c : α) : WithTop α)

theorem lookup_some (s : ArchiveSt α U K) (x : K) (i : Nat) (h : s.lookup x = some i) :
    (x, i) ∈ s.archive := by
  unfold lookup at h
  rw [Option.map_eq_some_iff] at h
  obtain ⟨e, he, rfl⟩ := h
  have h1 := List.find?_some he
  have h2 := List.mem_of_find?_eq_some he
  simp only [beq_iff_eq] at h1
  rw [← h1]; exact h2

theorem lookup_none (s : ArchiveSt α U K) (x : K) (h : s.lookup x = none) : x ∉ s.archive.map (·.1) := by
  unfold lookup at h
  rw [Option.map_eq_none_iff, List.find?_eq_none] at h
  intro hx
  obtain ⟨e, he, rfl⟩ := List.mem_map.1 hx
  exact (h e he) (by simp)

theorem snd_inj (l : List (K × Nat)) (h : (l.map (·.2)).Nodup) (e e' : K × Nat) (he : e ∈ l) (he' : e' ∈ l)
    (heq : e.2 = e'.2) : e = e' := List.inj_on_of_nodup_map h he he' heq

/-- Structural part of the invariant: distinct keys, distinct and allocated addresses. -/
structure Shape (s : ArchiveSt α U K) : Prop where
  keysND : (s.archive.map (·.1)).Nodup
  idsND : (s.archive.map (·.2)).Nodup
  idlt : ∀ e ∈ s.archive, e.2 < s.next

theorem Inv.shape {cfg : ArchiveCfg α U K} {s : ArchiveSt α U K} (h : Inv cfg s) : Shape s := ⟨h.keysND, h.idsND, h.idlt⟩

/-- State after the candidate loss has been set and the value recorded. -/
theorem record_spec (cfg : ArchiveCfg α U K) (s : ArchiveSt α U K) (u : U) (loss : α) (h : Shape s) :
    let r := s.record cfg u loss
    r.1.bests = s.bests ∧ r.1.candLoss = s.candLoss ∧ s.next ≤ r.1.next ∧ r.2.1 < r.1.next ∧
    (r.1.archive.map (·.1)).Nodup ∧ (r.1.archive.map (·.2)).Nodup ∧
    (∀ e ∈ r.1.archive, e.2 < r.1.next) ∧ (cfg.key u, r.2.1) ∈ r.1.archive ∧
    (∀ e ∈ r.1.archive, e.2 ≠ r.2.1 → e ∈ s.archive) ∧
    (∀ j, j ≠ r.2.1 → r.1.heap j = s.heap j) ∧
    (∀ j, j < r.1.next → j ≠ r.2.1 → j < s.next) ∧
    (r.2.2 = false → r.2.1 = s.next ∧ cfg.key u ∉ s.archive.map (·.1) ∧
      r.1.heap r.2.1 = MV.init u loss ∧ r.1.archive = s.archive ++ [(cfg.key u, r.2.1)]) ∧
    (r.2.2 = true → (cfg.key u, r.2.1) ∈ s.archive ∧ r.1.archive = s.archive ∧
      r.1.heap r.2.1 = { (s.heap r.2.1).addEvaluation cfg.sqrt loss with
        param := if lossGt (s.candLoss (s.heap r.2.1).param) (s.candLoss u) then u
          else (s.heap r.2.1).param }) := by
  unfold record
  cases hl : s.lookup (cfg.key u) with
  | none =>
    have hx := lookup_none s _ hl
    simp only
    refine ⟨trivial, trivial, by omega, by omega, ?_, ?_, ?_, ?_, ?_, ?_, ?_, ?_, by simp⟩
    · rw [List.map_append, List.nodup_append]
      refine ⟨h.keysND, by simp, ?_⟩
      intro a ha b hb
      simp only [List.map_cons, List.map_nil, List.mem_singleton] at hb
      subst hb; intro hab; subst hab; exact hx ha
    · rw [List.map_append, List.nodup_append]
      refine ⟨h.idsND, by simp, ?_⟩
      intro a ha b hb
      simp only [List.map_cons, List.map_nil, List.mem_singleton] at hb
      obtain ⟨e, he, rfl⟩ := List.mem_map.1 ha
      have := h.idlt e he
      omega
    · intro e he
      rcases List.mem_append.1 he with he | he
      · have := h.idlt e he; omega
      · rw [List.mem_singleton] at he; subst he; simp
    · simp
    · intro e he hne
      rcases List.mem_append.1 he with he | he
      · exact he
      · rw [List.mem_singleton] at he; subst he; exact absurd rfl hne
    · intro j hj; simp [hj]
    · intro j hj hne; omega
    · intro _; exact ⟨trivial, hx, by simp, trivial⟩
  | some i =>
    have hx := lookup_some s _ _ hl
    have hi := h.idlt _ hx
    simp only at hi
    simp only
    refine ⟨trivial, trivial, le_refl _, hi, h.keysND, h.idsND, h.idlt, hx, ?_, ?_, ?_, by simp, ?_⟩
    · intro e he _; exact he
    · intro j hj; simp [hj]
    · intro j hj _; exact hj
    · intro _
      refine ⟨hx, trivial, ?_⟩
      simp only [if_true]
      have : ((s.heap i).addEvaluation cfg.sqrt loss).param = (s.heap i).param := rfl
      rw [this]
      split <;> rfl

/-- The tracked best after the update of one criterion. -/
theorem updateBest_spec (cfg : ArchiveCfg α U K) (s : ArchiveSt α U K) (x : K) (i : Nat) (ex : Bool) (c : Crit)
    (hi : (x, i) ∈ s.archive) (hex : ex = false → s.bests c ≠ some i)
    (hb : s.bests c ≠ some i → ∀ e ∈ s.archive, e.2 ≠ i →
      s.bestEst cfg c ≤ (((s.heap e.2).estimation cfg.sqrt c : α) : WithTop α)) :
    ∃ j, s.updateBest cfg i ex c = some j ∧
      (∀ e ∈ s.archive, (s.heap j).estimation cfg.sqrt c ≤ (s.heap e.2).estimation cfg.sqrt c) ∧
      (j = i ∨ j ∈ s.archive.map (·.2) ∨ s.bests c = some j) ∧
      (s.bests c ≠ some i → (j = i ∨ s.bests c = some j) ∧
        ((((s.heap j).estimation cfg.sqrt c : α) : WithTop α) ≤ s.bestEst cfg c)) ∧
      (s.bests c = some i → j ∈ s.archive.map (·.2)) := by
  unfold updateBest
  by_cases h1 : (ex && (s.bests c == some i)) = true
  · rw [if_pos h1]
    simp only [Bool.and_eq_true, beq_iff_eq] at h1
    have hne : s.archive.map (·.2) ≠ [] := by
      intro h; have : i ∈ s.archive.map (·.2) := List.mem_map.2 ⟨_, hi, rfl⟩
      rw [h] at this; simp at this
    obtain ⟨f1, f2⟩ := firstMin_spec (fun j => (s.heap j).estimation cfg.sqrt c) (s.archive.map (·.2))
    cases hm : firstMin (fun j => (s.heap j).estimation cfg.sqrt c) (s.archive.map (·.2)) with
    | none => exact absurd (f1 hm) hne
    | some j =>
      obtain ⟨g1, g2⟩ := f2 j hm
      exact ⟨j, rfl, fun e he => g2 e.2 (List.mem_map.2 ⟨e, he, rfl⟩), Or.inr (Or.inl g1),
        fun h => absurd h1.2 h, fun _ => g1⟩
  · rw [if_neg h1]
    have hne : s.bests c ≠ some i := by
      intro h
      cases ex with
      | false => exact hex rfl h
      | true => exact h1 (by simp [h])
    have hb' := hb hne
    split
    · rename_i hle
      refine ⟨i, rfl, ?_, Or.inl rfl, fun _ => ⟨Or.inl rfl, hle⟩, fun h => absurd h hne⟩
      intro e he
      by_cases hei : e.2 = i
      · rw [hei]
      · exact WithTop.coe_le_coe.1 (le_trans hle (hb' e he hei))
    · rename_i hle
      rw [not_le] at hle
      cases hbc : s.bests c with
      | none => exfalso; simp [bestEst, hbc] at hle
      | some j =>
        have hbe : s.bestEst cfg c = (((s.heap j).estimation cfg.sqrt c : α) : WithTop α) := by
          simp [bestEst, hbc]
        refine ⟨j, rfl, ?_, Or.inr (Or.inr rfl), fun _ => ⟨Or.inr rfl, hbe.ge⟩, ?_⟩
        · intro e he
          by_cases hei : e.2 = i
          · rw [hei]; rw [hbe] at hle; exact (WithTop.coe_lt_coe.1 hle).le
          · have := hb' e he hei; rw [hbe] at this; exact WithTop.coe_le_coe.1 this
        · intro h; rw [hbc] at hne; exact absurd h hne

/-- The bests after `record` then `updateBest`, related to the bests before. -/
theorem record_best (cfg : ArchiveCfg α U K) (s1 : ArchiveSt α U K) (u : U) (loss : α) (h1 : Inv cfg s1) (c : Crit) :
    let r := s1.record cfg u loss
    ∃ j, r.1.updateBest cfg r.2.1 r.2.2 c = some j ∧ j < r.1.next ∧
      (∀ e ∈ r.1.archive, (r.1.heap j).estimation cfg.sqrt c ≤ (r.1.heap e.2).estimation cfg.sqrt c) ∧
      (s1.bests c ≠ some r.2.1 → (((r.1.heap j).estimation cfg.sqrt c : α) : WithTop α) ≤ s1.bestEst cfg c) := by
  obtain ⟨rb, _, rn, rlt, rk, ri, rid, rmem, rold, rheap, rlt2, rnew, rex⟩ := record_spec cfg s1 u loss h1.shape
  intro r
  have hex : r.2.2 = false → r.1.bests c ≠ some r.2.1 := by
    intro hf hb
    rw [rb] at hb
    have q1 := h1.bestlt c _ hb
    have q2 := (rnew hf).1
    exact absurd q2 (ne_of_lt q1)
  have hbe : r.1.bests c ≠ some r.2.1 → r.1.bestEst cfg c = s1.bestEst cfg c := by
    intro hne
    unfold bestEst
    rw [rb]
    rw [rb] at hne
    cases hbc : s1.bests c with
    | none => rfl
    | some j =>
      have : j ≠ r.2.1 := by rintro rfl; exact hne hbc
      simp only [r, rheap j this]
  have hb : r.1.bests c ≠ some r.2.1 → ∀ e ∈ r.1.archive, e.2 ≠ r.2.1 →
      r.1.bestEst cfg c ≤ (((r.1.heap e.2).estimation cfg.sqrt c : α) : WithTop α) := by
    intro hne e he hei
    rw [hbe hne, rheap _ hei]
    exact h1.best c e (rold e he hei)
  obtain ⟨j, hj, hmin, hor, hne, -⟩ := updateBest_spec cfg r.1 (cfg.key u) r.2.1 r.2.2 c rmem hex hb
  refine ⟨j, hj, ?_, hmin, ?_⟩
  · rcases hor with hor | hor | hor
    · rw [hor]; exact rlt
    · obtain ⟨e, he, rfl⟩ := List.mem_map.1 hor; exact rid e he
    · rw [rb] at hor; exact lt_of_lt_of_le (h1.bestlt c j hor) rn
  · intro hn
    have hn' : r.1.bests c ≠ some r.2.1 := by rw [rb]; exact hn
    rw [← hbe hn']; exact (hne hn').2

/-- Effect of `tell` on the invariant and on the bests. -/
theorem tell_spec (cfg : ArchiveCfg α U K) (hpr : ∀ hp a, (cfg.prune hp a).Sublist a)
    (s : ArchiveSt α U K) (u : U) (loss : α) (h : Inv cfg s) :
    Inv cfg (s.tell cfg u loss) ∧ ∀ c, ∃ j, (s.tell cfg u loss).bests c = some j := by
  set s1 : ArchiveSt α U K := { s with candLoss := fun v => if v = u then some loss else s.candLoss v }
    with hs1
  have h1 : Inv cfg s1 := ⟨h.keysND, h.idsND, h.idlt, h.bestlt, h.best⟩
  obtain ⟨rb, _, rn, rlt, rk, ri, rid, rmem, rold, rheap, rlt2, rnew, rex⟩ := record_spec cfg s1 u loss h1.shape
  have hub := fun c => record_best cfg s1 u loss h1 c
  set r := s1.record cfg u loss with hr
  have ht : s.tell cfg u loss = { r.1 with
      bests := fun c => r.1.updateBest cfg r.2.1 r.2.2 c
      archive := cfg.prune r.1.heap r.1.archive } := rfl
  rw [ht]
  have hsub := hpr r.1.heap r.1.archive
  refine ⟨⟨?_, ?_, ?_, ?_, ?_⟩, ?_⟩
  · exact rk.sublist (hsub.map _)
  · exact ri.sublist (hsub.map _)
  · intro e he; exact rid e (hsub.subset he)
  · intro c i hi
    obtain ⟨j, hj, hlt, -⟩ := hub c
    have hij : i = j := by
      have : some j = some i := hj.symm.trans hi
      simpa using this.symm
    subst hij
    exact hlt
  · intro c e he
    obtain ⟨j, hj, -, hmin, -⟩ := hub c
    simp only [bestEst]
    rw [hj]
    exact WithTop.coe_le_coe.2 (hmin e (hsub.subset he))
  · intro c
    obtain ⟨j, hj, -⟩ := hub c
    exact ⟨j, hj⟩

theorem init_inv (cfg : ArchiveCfg α U K) (root : U) : Inv cfg (init root) :=
  ⟨by simp [init], by simp [init], by simp [init], by simp [init], by simp [init]⟩

theorem tells_snoc (cfg : ArchiveCfg α U K) (s : ArchiveSt α U K) (h : List (U × α)) (e : U × α) :
    s.tells cfg (h ++ [e]) = (s.tells cfg h).tell cfg e.1 e.2 := by
  simp [tells, List.foldl_append]

theorem tells_inv (cfg : ArchiveCfg α U K) (hpr : ∀ hp a, (cfg.prune hp a).Sublist a) (root : U)
    (h : List (U × α)) : Inv cfg ((init root).tells cfg h) := by
  induction h using List.reverseRecOn with
  | nil => exact init_inv cfg root
  | append_singleton h e ih => rw [tells_snoc]; exact (tell_spec cfg hpr _ _ _ ih).1

end ArchiveSt
end NG
