import Verif.Props.PopulationRuns

/-! # C46, C62: the best member of differential evolution, the best particle of a swarm -/

namespace NG
namespace Pop
open Tools UidQueue

variable {U α : Type} [DecidableEq U] [LinearOrder α] [OrderTop α]

/-- Uids are new and each candidate is told at most once, with a non-negative penalty; single objective. Any number of pending
candidates, foreign candidates, rejected attempts, candidates of the solver. -/
def Once : List U → List U → List (Op U α) → Prop
  | _, _, [] => True
  | A, T, .ask u :: ops => u ∉ A ∧ u ∉ T ∧ Once (u :: A) T ops
  | A, T, .trial u :: ops => u ∉ A ∧ u ∉ T ∧ Once A (u :: T) ops
  | A, T, .submit u _ :: ops => u ∉ A ∧ u ∉ T ∧ Once (u :: A) T ops
  | A, T, .tell u v l replace victim :: ops => u ∉ T ∧ v ≤ l ∧ replace = none ∧ victim = none ∧ Once A (u :: T) ops

/-- The invariant: `A` asked, `T` told (or rejected). -/
structure Weak (A T : List U) (s : St U α) : Prop where
  nodup : (keys s.pop).Nodup
  holds : ∀ k ∈ keys s.pop, s.queue.Holds k
  loss : ∀ x, x ∉ T → s.loss x = ⊤
  pend : ∀ x, x ∈ s.pending ↔ x ∈ A ∧ x ∉ T
  origin : ∀ k ∈ keys s.pop, k ∈ T ∨ (k ∈ A ∧ s.lineage k = k)
  member : ∀ e ∈ s.pop, e.2 ∈ T ∨ e.2 = e.1

/-- Some member of `s'` is at least as good as each member of `s`. -/
def NoWorse (s s' : St U α) : Prop := ∀ e ∈ s.pop, ∃ e' ∈ s'.pop, s'.loss e'.2 ≤ s.loss e.2

omit [DecidableEq U] [OrderTop α] in
theorem NoWorse.refl (s : St U α) : NoWorse s s := fun e he => ⟨e, he, le_refl _⟩

omit [DecidableEq U] [OrderTop α] in
theorem NoWorse.trans {s s' s'' : St U α} (h : NoWorse s s') (h' : NoWorse s' s'') : NoWorse s s'' := by
  intro e he
  obtain ⟨e', he', h1⟩ := h e he
  obtain ⟨e'', he'', h2⟩ := h' e' he'
  exact ⟨e'', he'', h2.trans h1⟩

/-- An internal ask, successful or not. `u` joins the asked candidates if `b`, the rejected ones otherwise. -/
theorem Weak.ask {A T : List U} {s : St U α} (h : Weak A T s) (cfg : Cfg) (u : U) (hA : u ∉ A) (hT : u ∉ T) :
    ∃ r s', internalAsk cfg u s = (r, s') ∧ s'.loss = s.loss ∧ s'.pending = s.pending ∧ NoWorse s s' ∧
      (keys s'.pop).Nodup ∧ (∀ k ∈ keys s'.pop, s'.queue.Holds k) ∧
      (∀ k ∈ keys s'.pop, k ∈ T ∨ (k ∈ A ∧ s'.lineage k = k) ∨ (r = none ∧ k = u ∧ s'.lineage k = k)) ∧
      (∀ e ∈ s'.pop, e.2 ∈ T ∨ e.2 = e.1) ∧ (r = none → s'.lineage u ∈ keys s'.pop) := by
  have huk : u ∉ keys s.pop := by
    intro hc
    rcases h.origin u hc with h1 | h1
    · exact hT h1
    · exact hA h1.1
  have hne : ∀ k ∈ keys s.pop, k ≠ u := fun k hk hc => huk (hc ▸ hk)
  unfold internalAsk
  by_cases hlen : s.pop.length < cfg.lam
  · rw [if_pos hlen]
    have hset : ∀ k, k ∈ keys (dictSet u u s.pop) ↔ k ∈ keys s.pop ∨ k = u := by
      intro k
      rw [keys_set, if_neg huk]; simp
    refine ⟨_, _, rfl, rfl, rfl, ?_, nodup_set u u s.pop h.nodup, ?_, ?_, ?_, ?_⟩
    · intro e he
      refine ⟨e, (mem_set u u s.pop h.nodup e).mpr (Or.inr ⟨he, ?_⟩), le_refl _⟩
      exact hne _ (List.mem_map.mpr ⟨e, he, rfl⟩)
    · intro k hk
      simp only
      rw [holds_register]
      rcases (hset k).mp hk with h1 | h1
      · exact Or.inl (h.holds k h1)
      · exact Or.inr h1
    · intro k hk
      rcases (hset k).mp hk with h1 | h1
      · rcases h.origin k h1 with h2 | h2
        · exact Or.inl h2
        · exact Or.inr (Or.inl ⟨h2.1, by simp [hne k h1, h2.2]⟩)
      · exact Or.inr (Or.inr ⟨rfl, h1, by simp [h1]⟩)
    · intro e he
      rcases (mem_set u u s.pop h.nodup e).mp he with rfl | he
      · exact Or.inr rfl
      · exact h.member e he.1
    · intro _
      simp only [if_true]
      exact (hset u).mpr (Or.inr rfl)
  · rw [if_neg hlen]
    have horig : ∀ (lin' : U → U), (∀ x, x ≠ u → lin' x = s.lineage x) → ∀ (r : Option Err), ∀ k ∈ keys s.pop,
        k ∈ T ∨ (k ∈ A ∧ lin' k = k) ∨ (r = none ∧ k = u ∧ lin' k = k) := by
      intro lin' hl r k hk
      rcases h.origin k hk with h2 | h2
      · exact Or.inl h2
      · exact Or.inr (Or.inl ⟨h2.1, by rw [hl k (hne k hk)]; exact h2.2⟩)
    cases hask : s.queue.ask with
    | none =>
      exact ⟨_, _, rfl, rfl, rfl, NoWorse.refl s, h.nodup, h.holds, horig s.lineage (fun _ _ => rfl) _, h.member, by simp⟩
    | some kq =>
      obtain ⟨k, q⟩ := kq
      have hq : ∀ k' ∈ keys s.pop, q.Holds k' := fun k' hk' => (ask_holds s.queue q k k' hask).1.mpr (h.holds k' hk')
      simp only
      cases hg : dictGet s.pop k with
      | none =>
        exact ⟨_, _, rfl, rfl, rfl, NoWorse.refl s, h.nodup, hq, horig s.lineage (fun _ _ => rfl) _, h.member, by simp⟩
      | some p =>
        refine ⟨_, _, rfl, rfl, rfl, NoWorse.refl s, h.nodup, hq, horig _ ?_ _, h.member, ?_⟩
        · intro x hx; simp [hx]
        · intro _
          simp only [if_true]
          exact (mem_keys_iff s.pop k).mpr ⟨p, hg⟩

theorem once_mono (ops : List (Op U α)) : ∀ A A' T T' : List U, A ⊆ A' → T ⊆ T' → Once A' T' ops → Once A T ops := by
  induction ops with
  | nil => intros; trivial
  | cons op ops ih =>
    intro A A' T T' hA hT hc
    cases op with
    | ask u =>
      simp only [Once] at hc ⊢
      exact ⟨fun h => hc.1 (hA h), fun h => hc.2.1 (hT h), ih _ _ _ _ (List.cons_subset_cons u hA) hT hc.2.2⟩
    | trial u =>
      simp only [Once] at hc ⊢
      exact ⟨fun h => hc.1 (hA h), fun h => hc.2.1 (hT h), ih _ _ _ _ hA (List.cons_subset_cons u hT) hc.2.2⟩
    | submit u p =>
      simp only [Once] at hc ⊢
      exact ⟨fun h => hc.1 (hA h), fun h => hc.2.1 (hT h), ih _ _ _ _ (List.cons_subset_cons u hA) hT hc.2.2⟩
    | tell u v l replace victim =>
      simp only [Once] at hc ⊢
      exact ⟨fun h => hc.1 (hT h), hc.2.1, hc.2.2.1, hc.2.2.2.1, ih _ _ _ _ hA (List.cons_subset_cons u hT) hc.2.2.2.2⟩

/-- Telling a candidate whose lineage is present. -/
theorem Weak.answer {A T : List U} {s : St U α} (h : Weak A T s) (cfg : Cfg) (hpso : cfg.pso = false) (u : U) (v l : α)
    (hT : u ∉ T) (hv : v ≤ l) (s1 : St U α) (hs1 : s1 = { s with loss := fun x => if x = u then v else s.loss x }) (p : U)
    (hg : dictGet s1.pop (s1.lineage u) = some p) (hlin : u ∈ A) :
    ∃ s2, tellCandidate cfg u l none none s1 = (none, s2) ∧
      Weak A (u :: T) { s2 with pending := s2.pending.filter (fun x => x ≠ u) } ∧ NoWorse s s2 ∧ s2.pending = s.pending := by
  have hpop1 : s1.pop = s.pop := by rw [hs1]
  have hlin1 : s1.lineage = s.lineage := by rw [hs1]
  have hpend1 : s1.pending = s.pending := by rw [hs1]
  have hq1 : s1.queue = s.queue := by rw [hs1]
  have hloss : ∀ x, s1.loss x ≤ s.loss x := by
    intro x
    rw [hs1]
    by_cases hx : x = u
    · simp [hx, h.loss u hT]
    · simp [hx]
  have hlossu : s1.loss u = v := by simp [hs1]
  obtain ⟨s2, g1, g2, g3, g4, g5⟩ := tellCandidate_cases cfg u l none none s1 p hg
  rw [hpop1, hlin1] at hg
  rw [hq1, hlin1] at g2
  rw [hpend1] at g4
  rw [hpop1, hlin1] at g5
  have hk : s.lineage u ∈ keys s.pop := (mem_keys_iff s.pop _).mpr ⟨p, hg⟩
  have hkeys : keys s2.pop = keys s.pop := by
    rcases g5 with g5 | g5
    · rw [g5.1, keys_set, if_pos hk]
    · rw [g5.1]
  refine ⟨s2, g1, ⟨?_, ?_, ?_, ?_, ?_, ?_⟩, ?_, g4⟩
  · simp only [hkeys]; exact h.nodup
  · intro k hkk
    simp only [hkeys] at hkk
    simp only [g2]
    rw [holds_tell]
    exact Or.inl (h.holds k hkk)
  · intro x hx
    simp only [List.mem_cons, not_or] at hx
    simp only [g3, hs1, hx.1, if_false]
    exact h.loss x hx.2
  · intro x
    simp only [g4, List.mem_filter, h.pend, List.mem_cons, not_or, decide_eq_true_eq]
    tauto
  · intro k hkk
    simp only [hkeys] at hkk
    simp only [List.mem_cons]
    rcases h.origin k hkk with h1 | ⟨h1, h2⟩
    · exact Or.inl (Or.inr h1)
    · have hlin2 : s2.lineage = s.lineage ∨ s2.lineage = fun x => if x = p then s.lineage u else s.lineage x := by
        rcases g5 with g5 | g5
        · exact Or.inl g5.2.1
        · exact g5.2.2.2.2
      rcases hlin2 with e | e
      · exact Or.inr ⟨h1, by rw [e]; exact h2⟩
      · by_cases hkp : k = p
        · rcases h.member _ (get_mem s.pop _ _ hg) with h3 | h3
          · exact Or.inl (Or.inr (hkp ▸ h3))
          · simp only at h3
            exact Or.inr ⟨h1, by rw [e]; simp only [hkp, if_true]; exact h3.symm⟩
        · exact Or.inr ⟨h1, by rw [e]; simp only [hkp, if_false]; exact h2⟩
  · intro e he
    simp only [List.mem_cons]
    have : e = (s.lineage u, u) ∨ e ∈ s.pop := by
      rcases g5 with g5 | g5
      · simp only [g5.1] at he
        rcases (mem_set _ _ s.pop h.nodup e).mp he with h1 | h1
        · exact Or.inl h1
        · exact Or.inr h1.1
      · simp only [g5.1] at he
        exact Or.inr he
    rcases this with rfl | he
    · exact Or.inl (Or.inl rfl)
    · rcases h.member e he with h1 | h1
      · exact Or.inl (Or.inr h1)
      · exact Or.inr h1
  · intro e he
    rcases g5 with g5 | g5
    · by_cases hek : e.1 = s.lineage u
      · have hep : e.2 = p := by
          have := mem_get s.pop h.nodup e.1 e.2 he
          rw [hek, hg] at this
          exact (Option.some.inj this).symm
        refine ⟨(s.lineage u, u), ?_, ?_⟩
        · rw [g5.1]; exact (mem_set _ _ s.pop h.nodup _).mpr (Or.inl rfl)
        · simp only [g3, hlossu]
          exact hv.trans ((g5.2.2.1 hpso rfl).trans (hep ▸ hloss p))
      · refine ⟨e, ?_, by rw [g3]; exact hloss _⟩
        rw [g5.1]; exact (mem_set _ _ s.pop h.nodup _).mpr (Or.inr ⟨he, hek⟩)
    · exact ⟨e, by rw [g5.1]; exact he, by rw [g3]; exact hloss _⟩

/-- Telling a candidate outside the population. -/
theorem Weak.outside {A T : List U} {s : St U α} (h : Weak A T s) (cfg : Cfg) (hlam : 0 < cfg.lam) (hpso : cfg.pso = false)
    (hs : s.pop.length ≤ cfg.lam) (u : U) (v l : α) (hT : u ∉ T) (hv : v ≤ l) (s1 : St U α)
    (hs1 : s1 = { s with loss := fun x => if x = u then v else s.loss x }) (huk : u ∉ keys s.pop) :
    ∃ s2, tellNotAsked cfg u l none s1 = (none, s2) ∧
      Weak A (u :: T) { s2 with pending := s2.pending.filter (fun x => x ≠ u) } ∧ NoWorse s s2 ∧ s2.pending = s.pending := by
  have hpop1 : s1.pop = s.pop := by rw [hs1]
  have hlin1 : s1.lineage = s.lineage := by rw [hs1]
  have hpend1 : s1.pending = s.pending := by rw [hs1]
  have hq1 : s1.queue = s.queue := by rw [hs1]
  have hloss : ∀ x, s1.loss x ≤ s.loss x := by
    intro x
    rw [hs1]
    by_cases hx : x = u
    · simp [hx, h.loss u hT]
    · simp [hx]
  have hlossu : s1.loss u = v := by simp [hs1]
  obtain ⟨s2, g1, g2, g3, g4, g5⟩ := tellNotAsked_cases cfg hlam u l none s1 (Or.inl rfl) (by rw [hpop1]; exact h.nodup)
    (by rw [hpop1, hq1]; exact h.holds) (by rw [hpop1]; exact hs)
  rw [hpend1] at g4
  rw [hlin1] at g3
  rw [hpop1, hq1] at g5
  have hne : ∀ e ∈ s.pop, e.1 ≠ u := fun e he hc => huk (List.mem_map.mpr ⟨e, he, hc⟩)
  have hkeys : ∀ k ∈ keys s2.pop, k ∈ keys s.pop ∨ k = u := by
    intro k hk
    rcases g5 with g5 | g5 | ⟨w, q, _, _, _, _, _, g5, _⟩
    · rw [g5.1] at hk; exact Or.inl hk
    · rw [g5.1, keys_set, if_neg huk] at hk
      simpa using hk
    · rw [g5, keys_set, keys_del] at hk
      split at hk
      · exact Or.inl (List.mem_filter.mp hk).1
      · rcases List.mem_append.mp hk with hk | hk
        · exact Or.inl (List.mem_filter.mp hk).1
        · exact Or.inr (List.mem_singleton.mp hk)
  have hmem : ∀ e ∈ s2.pop, e ∈ s.pop ∨ e = (u, u) := by
    intro e he
    rcases g5 with g5 | g5 | ⟨w, q, _, _, _, _, _, g5, _⟩
    · rw [g5.1] at he; exact Or.inl he
    · rw [g5.1] at he
      rcases (mem_set u u s.pop h.nodup e).mp he with h1 | h1
      · exact Or.inr h1
      · exact Or.inl h1.1
    · rw [g5] at he
      rcases (mem_set u u _ (nodup_del w.1 s.pop h.nodup) e).mp he with h1 | h1
      · exact Or.inr h1
      · exact Or.inl ((mem_del _ _ _).mp h1.1).1
  refine ⟨s2, g1, ⟨?_, ?_, ?_, ?_, ?_, ?_⟩, ?_, g4⟩
  · show (keys s2.pop).Nodup
    rcases g5 with g5 | g5 | ⟨w, q, _, _, _, _, _, g5, _⟩
    · rw [g5.1]; exact h.nodup
    · rw [g5.1]; exact nodup_set u u _ h.nodup
    · rw [g5]; exact nodup_set u u _ (nodup_del _ _ h.nodup)
  · show ∀ k ∈ keys s2.pop, s2.queue.Holds k
    intro k hk
    rcases g5 with g5 | g5 | ⟨w, q, _, _, _, _, hd, g5, g6, _⟩
    · rw [g5.1] at hk; rw [g5.2.1]; exact h.holds k hk
    · rw [g5.2.1, holds_tell]
      rcases hkeys k hk with h1 | h1
      · exact Or.inl (h.holds k h1)
      · exact Or.inr h1
    · rw [g6, holds_tell]
      by_cases hku : k = u
      · exact Or.inr hku
      · left
        have hkd : k ∈ keys (dictDel w.1 s.pop) := by
          rw [g5, keys_set] at hk
          split at hk
          · exact hk
          · rcases List.mem_append.mp hk with hk | hk
            · exact hk
            · exact absurd (List.mem_singleton.mp hk) hku
        rw [keys_del] at hkd
        simp only [List.mem_filter, decide_eq_true_eq] at hkd
        exact discard_holds_other s.queue q w.1 k hd (h.holds k hkd.1) hkd.2
  · intro x hx
    simp only [List.mem_cons, not_or] at hx
    simp only [g2, hs1, hx.1, if_false]
    exact h.loss x hx.2
  · intro x
    simp only [g4, List.mem_filter, h.pend, List.mem_cons, not_or, decide_eq_true_eq]
    tauto
  · intro k hk
    simp only [List.mem_cons, g3]
    rcases hkeys k hk with h1 | h1
    · rcases h.origin k h1 with h2 | h2
      · exact Or.inl (Or.inr h2)
      · exact Or.inr h2
    · exact Or.inl (Or.inl h1)
  · intro e he
    simp only [List.mem_cons]
    rcases hmem e he with h1 | rfl
    · rcases h.member e h1 with h2 | h2
      · exact Or.inl (Or.inr h2)
      · exact Or.inr h2
    · exact Or.inr rfl
  · intro e he
    rcases g5 with g5 | g5 | ⟨w, q, hw, hmax, _, hlt, _, g5, _⟩
    · exact ⟨e, by rw [g5.1]; exact he, by rw [g2]; exact hloss _⟩
    · exact ⟨e, by rw [g5.1]; exact (mem_set u u _ h.nodup _).mpr (Or.inr ⟨he, hne e he⟩), by rw [g2]; exact hloss _⟩
    · by_cases hew : e.1 = w.1
      · have hee : e.2 = w.2 := by
          have h1 := mem_get s.pop h.nodup e.1 e.2 he
          rw [hew, mem_get s.pop h.nodup w.1 w.2 hw] at h1
          exact (Option.some.inj h1).symm
        refine ⟨(u, u), by rw [g5]; exact (mem_set u u _ (nodup_del _ _ h.nodup) _).mpr (Or.inl rfl), ?_⟩
        simp only [g2, hlossu, hee]
        exact hv.trans ((le_of_lt (hlt hpso)).trans (hloss _))
      · refine ⟨e, ?_, by rw [g2]; exact hloss _⟩
        rw [g5]
        exact (mem_set u u _ (nodup_del _ _ h.nodup) _).mpr (Or.inr ⟨(mem_del _ _ _).mpr ⟨he, hew⟩, hne e he⟩)

/-- One call of differential evolution. -/
theorem Weak.step {A T : List U} {s : St U α} (h : Weak A T s) (cfg : Cfg) (hlam : 0 < cfg.lam) (hpso : cfg.pso = false)
    (hs : s.pop.length ≤ cfg.lam) (op : Op U α) (ops : List (Op U α)) (hc : Once A T (op :: ops)) :
    ∃ A' T', Weak A' T' (step cfg op s).2 ∧ Once A' T' ops ∧ NoWorse s (step cfg op s).2 := by
  cases op with
  | ask u =>
    simp only [Once] at hc
    obtain ⟨r, s', h1, h2, h3, h4, h5, h6, h7, h8, _⟩ := h.ask cfg u hc.1 hc.2.1
    cases r with
    | some e =>
      -- the uid of a failed ask was not used
      refine ⟨A, T, ?_, ?_, ?_⟩
      · simp only [Pop.step, h1]
        refine ⟨h5, h6, by rw [h2]; exact h.loss, by rw [h3]; exact h.pend, ?_, h8⟩
        intro k hk
        rcases h7 k hk with h9 | h9 | h9
        · exact Or.inl h9
        · exact Or.inr h9
        · simp at h9
      · exact once_mono ops _ _ _ _ (List.subset_cons_self _ _) (List.Subset.refl _) hc.2.2
      · simpa only [Pop.step, h1] using h4
    | none =>
      refine ⟨u :: A, T, ?_, hc.2.2, ?_⟩
      · simp only [Pop.step, h1]
        refine ⟨h5, h6, by rw [h2]; exact h.loss, ?_, ?_, h8⟩
        · intro x
          simp only [List.mem_cons, h3, h.pend]
          constructor
          · rintro (rfl | h9)
            · exact ⟨Or.inl rfl, hc.2.1⟩
            · exact ⟨Or.inr h9.1, h9.2⟩
          · rintro ⟨rfl | h9, h10⟩
            · exact Or.inl rfl
            · exact Or.inr ⟨h9, h10⟩
        · intro k hk
          rcases h7 k hk with h9 | h9 | h9
          · exact Or.inl h9
          · exact Or.inr ⟨by simp [h9.1], h9.2⟩
          · exact Or.inr ⟨by simp [h9.2.1], h9.2.2⟩
      · simp only [Pop.step, h1]
        exact h4
  | trial u =>
    simp only [Once] at hc
    obtain ⟨r, s', h1, h2, h3, h4, h5, h6, h7, h8, h9⟩ := h.ask cfg u hc.1 hc.2.1
    cases r with
    | some e =>
      refine ⟨A, T, ?_, ?_, ?_⟩
      · simp only [Pop.step, h1]
        refine ⟨h5, h6, by rw [h2]; exact h.loss, by rw [h3]; exact h.pend, ?_, h8⟩
        intro k hk
        rcases h7 k hk with h9 | h9 | h9
        · exact Or.inl h9
        · exact Or.inr h9
        · simp at h9
      · exact once_mono ops _ _ _ _ (List.Subset.refl _) (List.subset_cons_self _ _) hc.2.2
      · simpa only [Pop.step, h1] using h4
    | none =>
      have hw : Weak (u :: A) T { s' with pending := u :: s'.pending } := by
        refine ⟨h5, h6, by simp only [h2]; exact h.loss, ?_, ?_, h8⟩
        · intro x
          simp only [List.mem_cons, h3, h.pend]
          constructor
          · rintro (rfl | h9)
            · exact ⟨Or.inl rfl, hc.2.1⟩
            · exact ⟨Or.inr h9.1, h9.2⟩
          · rintro ⟨rfl | h9, h10⟩
            · exact Or.inl rfl
            · exact Or.inr ⟨h9, h10⟩
        · intro k hk
          rcases h7 k hk with h9 | h9 | h9
          · exact Or.inl h9
          · exact Or.inr ⟨by simp [h9.1], h9.2⟩
          · exact Or.inr ⟨by simp [h9.2.1], h9.2.2⟩
      obtain ⟨p, hg⟩ := (mem_keys_iff s'.pop _).mp (h9 rfl)
      have hls : (fun x => if x = u then ⊤ else s'.loss x) = s'.loss := by
        funext x
        by_cases hx : x = u
        · simp [hx, h2, h.loss u hc.2.1]
        · simp [hx]
      obtain ⟨s2, g1, g2, g3, g4⟩ := hw.answer cfg hpso u ⊤ ⊤ hc.2.1 (le_refl _)
        { s' with pending := u :: s'.pending } (by simp only [hls]) p hg (by simp)
      -- the rejected attempt is told without being registered as pending
      obtain ⟨t2, f1, f2, f3, f4, f5⟩ := tellCandidate_cases cfg u ⊤ none none s' p hg
      have hst : Pop.step cfg (.trial u) s = (none, t2) := by simp [Pop.step, h1, hpso, f1]
      have hcomm : s2.pop = t2.pop ∧ s2.queue = t2.queue ∧ s2.loss = t2.loss ∧ s2.lineage = t2.lineage := by
        simp only [tellCandidate, hg, hpso, Bool.false_eq_true, if_false] at g1 f1
        by_cases hle : (⊤ : α) ≤ s'.loss p
        · rw [if_pos (by simpa using hle)] at g1 f1
          simp only [Prod.mk.injEq, true_and] at g1 f1
          subst g1 f1
          exact ⟨rfl, rfl, rfl, rfl⟩
        · rw [if_neg (by simpa using hle)] at g1 f1
          by_cases hpr : cfg.propagate = true
          · rw [if_pos hpr] at g1 f1
            simp only [Prod.mk.injEq, true_and] at g1 f1
            subst g1 f1
            exact ⟨rfl, rfl, rfl, rfl⟩
          · rw [if_neg hpr] at g1 f1
            simp only [Prod.mk.injEq, true_and] at g1 f1
            subst g1 f1
            exact ⟨rfl, rfl, rfl, rfl⟩
      rw [hst]
      refine ⟨A, u :: T, ⟨?_, ?_, ?_, ?_, ?_, ?_⟩, hc.2.2, ?_⟩
      · have := g2.nodup; simp only [hcomm.1] at this; exact this
      · have := g2.holds; simp only [hcomm.1, hcomm.2.1] at this; exact this
      · have := g2.loss; simp only [hcomm.2.2.1] at this; exact this
      · intro x
        rw [f4, h3, h.pend]
        simp only [List.mem_cons, not_or]
        constructor
        · rintro ⟨h10, h11⟩; exact ⟨h10, fun hxu => hc.1 (hxu ▸ h10), h11⟩
        · rintro ⟨h10, _, h11⟩; exact ⟨h10, h11⟩
      · intro k hk
        have := g2.origin
        simp only [hcomm.1, hcomm.2.2.2] at this
        rcases this k hk with h10 | ⟨h10, h11⟩
        · exact Or.inl h10
        · rcases List.mem_cons.mp h10 with rfl | h10
          · exact Or.inl (by simp)
          · exact Or.inr ⟨h10, h11⟩
      · have := g2.member; simp only [hcomm.1] at this; exact this
      · refine h4.trans ?_
        intro e he
        obtain ⟨e', he', h10⟩ := g3 e he
        rw [hcomm.1] at he'
        rw [hcomm.2.2.1] at h10
        exact ⟨e', he', h10⟩
  | submit u p =>
    simp only [Once] at hc
    have huk : u ∉ keys s.pop := by
      intro hcu
      rcases h.origin u hcu with h1 | h1
      · exact hc.2.1 h1
      · exact hc.1 h1.1
    refine ⟨u :: A, T, ⟨h.nodup, h.holds, h.loss, ?_, ?_, h.member⟩, hc.2.2, NoWorse.refl s⟩
    · intro x
      simp only [Pop.step, List.mem_cons, h.pend]
      constructor
      · rintro (rfl | h9)
        · exact ⟨Or.inl rfl, hc.2.1⟩
        · exact ⟨Or.inr h9.1, h9.2⟩
      · rintro ⟨rfl | h9, h10⟩
        · exact Or.inl rfl
        · exact Or.inr ⟨h9, h10⟩
    · intro k hk
      have hku : k ≠ u := fun hcu => huk (hcu ▸ hk)
      rcases h.origin k hk with h1 | h1
      · exact Or.inl h1
      · exact Or.inr ⟨by simp [h1.1], by simp [Pop.step, hku, h1.2]⟩
  | tell u v l replace victim =>
    simp only [Once] at hc
    obtain ⟨hT, hv, rfl, rfl, hrest⟩ := hc
    by_cases hup : u ∈ s.pending
    · have huA : u ∈ A := ((h.pend u).mp hup).1
      cases hg : dictGet s.pop (s.lineage u) with
      | some p =>
        obtain ⟨s2, g1, g2, g3, _⟩ := h.answer cfg hpso u v l hT hv _ rfl p hg huA
        refine ⟨A, u :: T, ?_, hrest, ?_⟩
        · simp only [Pop.step, hup, if_true, g1]; exact g2
        · simp only [Pop.step, hup, if_true, g1]; exact g3
      | none =>
        have huk : u ∉ keys s.pop := by
          intro hcu
          rcases h.origin u hcu with h1 | h1
          · exact hT h1
          · obtain ⟨p, hp⟩ := (mem_keys_iff s.pop u).mp hcu
            rw [h1.2, hp] at hg
            cases hg
        obtain ⟨s2, g1, g2, g3, _⟩ := h.outside cfg hlam hpso hs u v l hT hv _ rfl huk
        have hnone := tellCandidate_none cfg u l none none { s with loss := fun x => if x = u then v else s.loss x } hg
        refine ⟨A, u :: T, ?_, hrest, ?_⟩
        · simp only [Pop.step, hup, if_true, hnone, g1]; exact g2
        · simp only [Pop.step, hup, if_true, hnone, g1]; exact g3
    · have huk : u ∉ keys s.pop := by
        intro hcu
        rcases h.origin u hcu with h1 | h1
        · exact hT h1
        · exact hup ((h.pend u).mpr ⟨h1.1, hT⟩)
      obtain ⟨s2, g1, g2, g3, g4⟩ := h.outside cfg hlam hpso hs u v l hT hv _ rfl huk
      have hfil : s2.pending.filter (fun x => x ≠ u) = s2.pending := by
        rw [g4]
        exact List.filter_eq_self.mpr (fun x hx => by simp; rintro rfl; exact hup hx)
      rw [hfil] at g2
      refine ⟨A, u :: T, ?_, hrest, ?_⟩
      · simp only [Pop.step, hup, if_false, g1]; exact g2
      · simp only [Pop.step, hup, if_false, g1]; exact g3

theorem Weak.init (lin : U → U) : Weak (α := α) [] [] (St.init lin : St U α) where
  nodup := by simp [St.init, keys]
  holds := by simp [St.init, keys]
  loss := by simp [St.init]
  pend := by simp [St.init]
  origin := by simp [St.init, keys]
  member := by simp [St.init]

theorem weak_run (cfg : Cfg) (hlam : 0 < cfg.lam) (hpso : cfg.pso = false) (ops later : List (Op U α)) : ∀ (A T : List U)
    (s : St U α), Once A T (ops ++ later) → Weak A T s → s.pop.length ≤ cfg.lam →
    ∃ A' T', Weak A' T' (run cfg ops s).2 ∧ Once A' T' later ∧ NoWorse s (run cfg ops s).2 := by
  induction ops with
  | nil => intro A T s hc h _; exact ⟨A, T, h, hc, NoWorse.refl s⟩
  | cons op ops ih =>
    intro A T s hc h hs
    obtain ⟨A1, T1, h1, h2, h3⟩ := h.step cfg hlam hpso hs op (ops ++ later) hc
    obtain ⟨A2, T2, g1, g2, g3⟩ := ih A1 T1 _ h2 h1 (step_size cfg op s hs)
    exact ⟨A2, T2, g1, g2, h3.trans g3⟩

theorem run_append (cfg : Cfg) (ops later : List (Op U α)) : ∀ s : St U α,
    (run cfg (ops ++ later) s).2 = (run cfg later (run cfg ops s).2).2 := by
  induction ops with
  | nil => intro s; rfl
  | cons op ops ih => intro s; exact ih _

/-- C46: if candidates are told once each, the best loss in the population of differential evolution never gets worse,
whatever is told, in any order, even after exceptions: for each member at some time there is at any later time a member whose
loss is at least as good. -/
theorem population_best_partial (cfg : Cfg) (hlam : 0 < cfg.lam) (hpso : cfg.pso = false) (lin : U → U) (ops later : List (Op U α))
    (hc : Once [] [] (ops ++ later)) (e : U × U) (he : e ∈ (run cfg ops (St.init lin)).2.pop) :
    ∃ e' ∈ (run cfg (ops ++ later) (St.init lin)).2.pop,
      (run cfg (ops ++ later) (St.init lin)).2.loss e'.2 ≤ (run cfg ops (St.init lin)).2.loss e.2 := by
  obtain ⟨A, T, h1, h2, _⟩ := weak_run cfg hlam hpso ops later [] [] (St.init lin) hc (Weak.init lin) (by simp [St.init])
  obtain ⟨_, _, _, _, h3⟩ := weak_run cfg hlam hpso later [] A T _ (by simpa using h2) h1
    (run_size cfg ops _ (by simp [St.init]))
  rw [run_append]
  exact h3 e he

/-- Telling a candidate again can make the best worse: it is the same object, so the loss of the member changes. -/
theorem retell_worsens :
    let r := fun ops => (run (α := WithTop Nat) (U := Nat) ⟨1, false, false⟩ ops (St.init id)).2
    let before : List (Op Nat (WithTop Nat)) := [.ask 1, .tell 1 5 5 none none]
    let after := before ++ [.tell 1 9 9 none none]
    ((r before).pop.map (fun e => (r before).loss e.2), (r after).pop.map (fun e => (r after).loss e.2)) = ([5], [9]) := by
  decide +kernel

/-- Telling a member again can also shrink the population: the worst is removed, and the member takes its own place. -/
theorem retell_shrinks :
    (run (α := WithTop Nat) (U := Nat) ⟨2, false, false⟩ [.ask 1, .ask 2, .tell 1 5 5 none none, .tell 2 9 9 none none,
      .tell 1 4 4 none none] (St.init id)).2.pop = [(1, 1)] := by decide +kernel

/-! ## C62: the best particle -/

/-- Holds in every history: keys are distinct and all held by the queue. -/
def Held (s : St U α) : Prop := (keys s.pop).Nodup ∧ ∀ k ∈ keys s.pop, s.queue.Holds k

theorem held_tellNotAsked (cfg : Cfg) (u : U) (l : α) (victim : Option (Option U)) (s : St U α) (h : Held s) :
    Held (tellNotAsked cfg u l victim s).2 := by
  have hset : ∀ (pop : List (U × U)) (q : UidQueue U), ((keys pop).Nodup ∧ ∀ k ∈ keys pop, q.Holds k) →
      (keys (dictSet u u pop)).Nodup ∧ ∀ k ∈ keys (dictSet u u pop), (q.tell u).Holds k := by
    intro pop q hh
    refine ⟨nodup_set u u _ hh.1, ?_⟩
    intro k hk
    rw [holds_tell]
    rw [keys_set] at hk
    split at hk
    · exact Or.inl (hh.2 k hk)
    · rcases List.mem_append.mp hk with hk | hk
      · exact Or.inl (hh.2 k hk)
      · exact Or.inr (List.mem_singleton.mp hk)
  have add : ∀ s' : St U α, Held s' → Held (addNew cfg u l s') := by
    intro s' hh
    unfold addNew
    split
    · exact hset _ _ hh
    · split
      · exact hset _ _ hh
      · exact hh
  unfold tellNotAsked
  split
  · exact h
  · exact h
  · exact add s h
  · rename_i k hk
    cases hg : dictGet s.pop k with
    | none => exact h
    | some p =>
      have hkk : k ∈ keys s.pop := (mem_keys_iff s.pop k).mpr ⟨p, hg⟩
      obtain ⟨q, hd⟩ := discard_some_of_holds s.queue k (h.2 k hkk)
      simp only [hd]
      apply add
      refine ⟨nodup_del k _ h.1, ?_⟩
      intro k' hk'
      simp only [keys_del, List.mem_filter, decide_eq_true_eq] at hk'
      exact discard_holds_other s.queue q k k' hd (h.2 k' hk'.1) hk'.2

theorem held_tellCandidate (cfg : Cfg) (u : U) (l : α) (replace : Option Bool) (victim : Option (Option U)) (s : St U α)
    (h : Held s) : Held (tellCandidate cfg u l replace victim s).2 := by
  cases hg : dictGet s.pop (s.lineage u) with
  | none => rw [tellCandidate_none cfg u l replace victim s hg]; exact held_tellNotAsked cfg u l victim s h
  | some p =>
    have hk : s.lineage u ∈ keys s.pop := (mem_keys_iff s.pop _).mpr ⟨p, hg⟩
    obtain ⟨s', g1, g2, _, _, g5⟩ := tellCandidate_cases cfg u l replace victim s p hg
    rw [g1]
    have hkeys : keys s'.pop = keys s.pop := by
      rcases g5 with g5 | g5
      · rw [g5.1, keys_set, if_pos hk]
      · rw [g5.1]
    refine ⟨by rw [hkeys]; exact h.1, ?_⟩
    intro k hkk
    simp only [hkeys] at hkk
    simp only [g2]
    rw [holds_tell]
    exact Or.inl (h.2 k hkk)

omit [LinearOrder α] [OrderTop α] in
theorem held_internalAsk (cfg : Cfg) (u : U) (s : St U α) (h : (keys s.pop).Nodup ∧ ∀ k ∈ keys s.pop, s.queue.Holds k) :
    (keys (internalAsk cfg u s).2.pop).Nodup ∧ ∀ k ∈ keys (internalAsk cfg u s).2.pop, (internalAsk cfg u s).2.queue.Holds k := by
  unfold internalAsk
  split
  · refine ⟨nodup_set u u _ h.1, ?_⟩
    intro k hk
    simp only at hk ⊢
    rw [holds_register]
    rw [keys_set] at hk
    split at hk
    · exact Or.inl (h.2 k hk)
    · rcases List.mem_append.mp hk with hk | hk
      · exact Or.inl (h.2 k hk)
      · exact Or.inr (List.mem_singleton.mp hk)
  · cases hask : s.queue.ask with
    | none => exact h
    | some kq =>
      obtain ⟨k, q⟩ := kq
      have hq : ∀ k' ∈ keys s.pop, q.Holds k' := fun k' hk' => (ask_holds s.queue q k k' hask).1.mpr (h.2 k' hk')
      simp only
      cases dictGet s.pop k with
      | none => exact ⟨h.1, hq⟩
      | some p => exact ⟨h.1, hq⟩

theorem held_step (cfg : Cfg) (op : Op U α) (s : St U α) (h : Held s) : Held (step cfg op s).2 := by
  cases op with
  | ask u =>
    have := held_internalAsk cfg u s h
    simp only [Pop.step]
    split <;> exact this
  | trial u =>
    have := held_internalAsk cfg u s h
    simp only [Pop.step]
    split
    · exact this
    · split
      · exact this
      · exact held_tellCandidate cfg u _ _ _ _ this
  | submit u p => exact h
  | tell u v l replace victim =>
    simp only [Pop.step]
    split
    · have := held_tellCandidate cfg u l replace victim { s with loss := fun x => if x = u then v else s.loss x } h
      split <;> exact this
    · exact held_tellNotAsked cfg u l victim _ h

/-- The candidates told, with their losses. -/
def tells : List (Op U α) → List (U × α)
  | [] => []
  | .tell u v _ _ _ :: ops => (u, v) :: tells ops
  | _ :: ops => tells ops

/-- All losses are told as they are (no penalty) and finite. -/
def Plainly : List (Op U α) → Prop
  | [] => True
  | .tell _ v l _ _ :: ops => l = v ∧ v < ⊤ ∧ Plainly ops
  | _ :: ops => Plainly ops

/-- The invariant: `told` are the candidates told so far. -/
structure BestInv (told : List (U × α)) (s : St U α) : Prop where
  untold : ∀ x, x ∉ told.map (·.1) → s.loss x = ⊤
  loss : ∀ e ∈ told, s.loss e.1 = e.2
  best : ∀ e ∈ told, ∃ b w, s.best = some b ∧ (b, w) ∈ told ∧ w ≤ e.2
  none : told = [] → s.best = none

omit [LinearOrder α] [OrderTop α] in
theorem internalAsk_other (cfg : Cfg) (u : U) (s : St U α) :
    (internalAsk cfg u s).2.loss = s.loss ∧ (internalAsk cfg u s).2.best = s.best := by
  unfold internalAsk
  split
  · exact ⟨rfl, rfl⟩
  · cases s.queue.ask with
    | none => exact ⟨rfl, rfl⟩
    | some kq =>
      simp only
      cases dictGet s.pop kq.1 <;> exact ⟨rfl, rfl⟩

theorem BestInv.add {told : List (U × α)} {s : St U α} (h : BestInv told s) (u : U) (v : α) (hu : u ∉ told.map (·.1))
    (s2 : St U α) (hl : s2.loss = fun x => if x = u then v else s.loss x)
    (hb : s2.best = some u ∧ (∀ b, s.best = some b → v ≤ s.loss b) ∨ ∃ b, s.best = some b ∧ s2.best = some b ∧ s.loss b ≤ v) :
    BestInv ((u, v) :: told) s2 := by
  have hne : ∀ e ∈ told, e.1 ≠ u := fun e he hc => hu (List.mem_map.mpr ⟨e, he, hc⟩)
  have hmem : ∀ b, s.best = some b → ∃ w, (b, w) ∈ told ∧ s.loss b = w := by
    intro b hb
    cases htold : told with
    | nil => rw [h.none htold] at hb; cases hb
    | cons e es =>
      obtain ⟨b', w, h1, h2, _⟩ := h.best e (by simp [htold])
      rw [hb] at h1
      cases h1
      exact ⟨w, htold ▸ h2, h.loss _ h2⟩
  refine ⟨?_, ?_, ?_, by simp⟩
  · intro x hx
    simp only [List.map_cons, List.mem_cons, not_or] at hx
    rw [hl]
    simp only [hx.1, if_false]
    exact h.untold x hx.2
  · intro e he
    rw [hl]
    rcases List.mem_cons.mp he with rfl | he
    · simp
    · simp only [hne e he, if_false]
      exact h.loss e he
  · intro e he
    rcases hb with ⟨h1, h2⟩ | ⟨b, h1, h2, h3⟩
    · refine ⟨u, v, h1, by simp, ?_⟩
      rcases List.mem_cons.mp he with rfl | he
      · exact le_refl _
      · obtain ⟨b, w, g1, g2, g3⟩ := h.best e he
        have := h2 b g1
        rw [h.loss _ g2] at this
        exact this.trans g3
    · obtain ⟨w, hw, hw'⟩ := hmem b h1
      refine ⟨b, w, h2, by simp [hw], ?_⟩
      rcases List.mem_cons.mp he with rfl | he
      · rw [← hw']; exact h3
      · obtain ⟨b', w', g1, g2, g3⟩ := h.best e he
        rw [h1] at g1
        cases g1
        rw [← hw', h.loss _ g2]
        exact g3

/-- C62: in a particle swarm where candidates are told once each, with finite losses and without penalty, the global best
towards which particles move is at any time a told candidate of smallest loss. -/
theorem swarm_best_partial (cfg : Cfg) (hlam : 0 < cfg.lam) (hpso : cfg.pso = true) (lin : U → U) (ops : List (Op U α))
    (hn : ((tells ops).map (·.1)).Nodup) (hpl : Plainly ops) (u : U) (v : α) (hu : (u, v) ∈ tells ops) :
    ∃ b w, (run cfg ops (St.init lin)).2.best = some b ∧ (b, w) ∈ tells ops ∧ w ≤ v := by
  have gen : ∀ (ops : List (Op U α)) (told : List (U × α)) (s : St U α), Held s → s.pop.length ≤ cfg.lam → BestInv told s →
      (told.map (·.1) ++ (tells ops).map (·.1)).Nodup → Plainly ops →
      ∃ told', BestInv told' (run cfg ops s).2 ∧ told'.Perm (told ++ tells ops) := by
    intro ops
    induction ops with
    | nil => intro told s _ _ h _ _; exact ⟨told, h, by simp [tells]⟩
    | cons op ops ih =>
      intro told s hh hs h hnd hp
      have hh' := held_step cfg op s hh
      have hs' := step_size cfg op s hs
      cases op with
      | ask x =>
        refine ih told _ hh' hs' ?_ hnd hp
        obtain ⟨h1, h2⟩ := internalAsk_other cfg x s
        have hb : (step cfg (.ask x) s).2.loss = s.loss ∧ (step cfg (.ask x) s).2.best = s.best := by
          simp only [Pop.step]
          split <;> exact ⟨h1, h2⟩
        exact ⟨by rw [hb.1]; exact h.untold, by rw [hb.1]; exact h.loss, by rw [hb.2]; exact h.best, by rw [hb.2]; exact h.none⟩
      | trial x =>
        refine ih told _ hh' hs' ?_ hnd hp
        obtain ⟨h1, h2⟩ := internalAsk_other cfg x s
        have hb : (step cfg (.trial x) s).2.loss = s.loss ∧ (step cfg (.trial x) s).2.best = s.best := by
          simp only [Pop.step, hpso, if_true]
          split <;> exact ⟨h1, h2⟩
        exact ⟨by rw [hb.1]; exact h.untold, by rw [hb.1]; exact h.loss, by rw [hb.2]; exact h.best, by rw [hb.2]; exact h.none⟩
      | submit x p => exact ih told _ hh' hs' ⟨h.untold, h.loss, h.best, h.none⟩ hnd hp
      | tell x v l replace victim =>
        simp only [tells, Plainly, List.map_cons] at hnd hp
        obtain ⟨rfl, hfin, hp⟩ := hp
        have hx : x ∉ told.map (·.1) := by
          rw [List.nodup_append] at hnd
          exact fun hc => hnd.2.2 x hc x (by simp) rfl
        have hnd' : (((x, l) :: told).map (·.1) ++ (tells ops).map (·.1)).Nodup := by
          have := (List.perm_middle (l₁ := told.map (·.1)) (l₂ := (tells ops).map (·.1)) (a := x)).nodup_iff.mp hnd
          simpa using this
        have hbl : ∀ b, s.best = some b → b ≠ x := by
          intro b hb hc
          cases htold : told with
          | nil => rw [h.none htold] at hb; cases hb
          | cons e es =>
            obtain ⟨b', w, h1, h2, _⟩ := h.best e (by simp [htold])
            rw [hb] at h1
            cases h1
            exact hx (hc ▸ List.mem_map.mpr ⟨_, h2, rfl⟩)
        have key : BestInv ((x, l) :: told) (step cfg (.tell x l l replace victim) s).2 := by
          set s1 : St U α := { s with loss := fun y => if y = x then l else s.loss y } with hs1
          have hb1 : ∀ b, s.best = some b → s1.loss b = s.loss b := by
            intro b hb
            simp [hs1, hbl b hb]
          have hbest : s1.best = s.best := rfl
          -- outcome of a tell of a candidate without lineage
          have out : ∃ s2, tellNotAsked cfg x l victim s1 = (none, s2) ∧ s2.loss = s1.loss ∧
              (s2.best = some x ∧ (∀ b, s.best = some b → l ≤ s.loss b) ∨
                ∃ b, s.best = some b ∧ s2.best = some b ∧ s.loss b ≤ l) := by
            obtain ⟨s2, g1, g2, _, _, g5⟩ := tellNotAsked_cases cfg hlam x l victim s1 (Or.inr hpso) hh.1 hh.2 hs
            refine ⟨s2, g1, g2, ?_⟩
            have hnew : s2.best = newBestNotAsked l x s1 →
                (s2.best = some x ∧ (∀ b, s.best = some b → l ≤ s.loss b) ∨
                  ∃ b, s.best = some b ∧ s2.best = some b ∧ s.loss b ≤ l) := by
              intro hb
              unfold newBestNotAsked at hb
              rw [hbest] at hb
              cases hsb : s.best with
              | none => rw [hsb] at hb; simp only [hfin, if_true] at hb; exact Or.inl ⟨hb, by simp⟩
              | some b =>
                rw [hsb] at hb
                simp only [hb1 b hsb] at hb
                by_cases hlt : l < s.loss b
                · rw [if_pos hlt] at hb
                  exact Or.inl ⟨hb, by rintro b' hb'; cases hb'; exact le_of_lt hlt⟩
                · rw [if_neg hlt] at hb
                  exact Or.inr ⟨b, rfl, hb, not_lt.mp hlt⟩
            rcases g5 with ⟨_, _, e3, w, hw, _, hwl⟩ | ⟨_, _, _, e4⟩ | ⟨_, _, _, _, _, _, _, _, _, e4⟩
            · have hlt := hwl hpso
              have hwx : w.2 ≠ x := by
                intro hc
                simp [hs1, hc] at hlt
              have hlw : s1.loss w.2 = s.loss w.2 := by simp [hs1, hwx]
              rw [hlw] at hlt
              have hmem : w.2 ∈ told.map (·.1) := by
                by_contra hc
                rw [h.untold _ hc] at hlt
                exact absurd hlt (not_lt.mpr le_top)
              obtain ⟨e, he, hew⟩ := List.mem_map.mp hmem
              obtain ⟨b, w', f1, f2, f3⟩ := h.best e he
              refine Or.inr ⟨b, f1, by rw [e3, hbest]; exact f1, ?_⟩
              rw [h.loss _ f2]
              refine f3.trans ?_
              rw [← h.loss e he, hew]
              exact le_of_lt hlt
            · rw [hpso, if_pos rfl] at e4
              exact hnew e4
            · rw [hpso, if_pos rfl] at e4
              exact hnew e4
          simp only [Pop.step]
          by_cases hup : x ∈ s.pending
          · simp only [hup, if_true]
            cases hg : dictGet s1.pop (s1.lineage x) with
            | none =>
              obtain ⟨s2, g1, g2, g3⟩ := out
              rw [tellCandidate_none cfg x l replace victim s1 hg, g1]
              exact h.add x l hx _ g2 g3
            | some p =>
              obtain ⟨s2, g1, _, g3, _, g5⟩ := tellCandidate_cases cfg x l replace victim s1 p hg
              rw [g1]
              refine h.add x l hx _ g3 ?_
              rcases g5 with g5 | g5
              · have hb := g5.2.2.2
                rw [hpso, if_pos rfl] at hb
                unfold newBest at hb
                rw [hbest] at hb
                cases hsb : s.best with
                | none => rw [hsb] at hb; exact Or.inl ⟨hb, by simp⟩
                | some b =>
                  rw [hsb] at hb
                  simp only [hb1 b hsb] at hb
                  by_cases hlt : l < s.loss b
                  · rw [if_pos hlt] at hb
                    exact Or.inl ⟨hb, by rintro b' hb'; cases hb'; exact le_of_lt hlt⟩
                  · rw [if_neg hlt] at hb
                    exact Or.inr ⟨b, rfl, hb, not_lt.mp hlt⟩
              · rw [hpso] at g5; simp at g5
          · simp only [hup, if_false]
            obtain ⟨s2, g1, g2, g3⟩ := out
            rw [g1]
            exact h.add x l hx _ g2 g3
        obtain ⟨told', h1, h2⟩ := ih _ _ hh' hs' key hnd' hp
        refine ⟨told', h1, h2.trans ?_⟩
        simp only [tells, List.cons_append]
        exact List.perm_middle.symm
  obtain ⟨told', h1, h2⟩ := gen ops [] (St.init lin) ⟨by simp [St.init, keys], by simp [St.init, keys]⟩ (by simp [St.init])
    ⟨by simp [St.init], by simp, by simp, by simp [St.init]⟩ (by simpa using hn) hpl
  obtain ⟨b, w, g1, g2, g3⟩ := h1.best (u, v) (h2.mem_iff.mpr (by simpa using hu))
  exact ⟨b, w, g1, by simpa using h2.mem_iff.mp g2, g3⟩

example : (run (α := WithTop Nat) (U := Nat) ⟨1, true, false⟩ [.ask 1, .tell 1 5 5 none none, .ask 2, .tell 2 9 9 none none,
    .tell 8 3 3 none none, .tell 9 4 4 none none] (St.init id)).2.best = some 8 := by decide +kernel

/-- With a penalty the global best can be a candidate which is not the best: 1 is told 0 with penalty 9, 2 is told 5. -/
theorem swarm_penalty :
    (run (α := WithTop Nat) (U := Nat) ⟨2, true, false⟩ [.ask 1, .tell 1 0 9 none none, .ask 2, .tell 2 5 5 none none]
      (St.init id)).2.best = some 1 := by decide +kernel

end Pop
end NG
