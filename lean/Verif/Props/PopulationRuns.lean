import Verif.Props.Population

/-! # C46: asks never fail and the best member never gets worse -/

namespace NG
namespace Pop
open Tools UidQueue

variable {U α : Type} [DecidableEq U]

/-! ## Foreign candidates and at most `llambda` pending ones -/

/-- The candidates told so far are `T`. Lineages held by the queue are exactly the keys of the population, each once; the ones
in `asked` are exactly those of the pending candidates still in the population. -/
structure Inv (T : List U) (pop : List (U × U)) (q : UidQueue U) (lin : U → U) (pend : List U) : Prop where
  nodup : (keys pop).Nodup
  uniq : q.Unique
  holds : ∀ k, q.Holds k ↔ k ∈ keys pop
  pnodup : pend.Nodup
  fresh : ∀ u ∈ pend, u ∉ T
  inj : ∀ u ∈ pend, ∀ u' ∈ pend, lin u = lin u' → u = u'
  asked : ∀ u ∈ pend, lin u ∈ keys pop → lin u ∈ q.asked.iter
  pended : ∀ k ∈ q.asked.iter, ∃ u ∈ pend, lin u = k
  origin : ∀ k, (k ∈ keys pop ∨ ∃ u ∈ pend, lin u = k) → k ∈ T ∨ (k ∈ pend ∧ lin k = k)
  member : ∀ e ∈ pop, e.2 ∈ T ∨ e.2 = e.1

variable {T : List U} {pop : List (U × U)} {q : UidQueue U} {lin : U → U} {pend : List U}

theorem Inv.init (lin : U → U) : Inv (U := U) [] [] UidQueue.empty lin [] where
  nodup := by simp [keys]
  uniq := by simp [UidQueue.Unique, UidQueue.empty, OrderedSet.empty, OrderedSet.iter]
  holds := by simp [Holds, UidQueue.empty, OrderedSet.empty, OrderedSet.iter, keys]
  pnodup := by simp
  fresh := by simp
  inj := by simp
  asked := by simp
  pended := by simp [UidQueue.empty, OrderedSet.empty, OrderedSet.iter]
  origin := by simp [keys]
  member := by simp

/-- Removing a member. -/
theorem Inv.drop (h : Inv T pop q lin pend) (k : U) (q' : UidQueue U) (hd : q.discard k = some q') :
    Inv T (dictDel k pop) q' lin pend where
  nodup := nodup_del k pop h.nodup
  uniq := by
    have := unique_step q (.discard k) h.uniq trivial
    simpa [UidQueue.step, hd] using this
  holds := by
    intro k'
    rw [(uidQueue_discard q k h.uniq).2 q' hd k', h.holds, keys_del]
    simp
  pnodup := h.pnodup
  fresh := h.fresh
  inj := h.inj
  asked := by
    intro u hu hk
    rw [keys_del] at hk
    simp only [List.mem_filter, decide_eq_true_eq] at hk
    exact (discard_asked q q' k _ hd).mpr ⟨h.asked u hu hk.1, hk.2⟩
  pended := fun k' hk' => h.pended k' ((discard_asked q q' k _ hd).mp hk').1
  origin := by
    rintro k' (hk | hk)
    · rw [keys_del] at hk
      exact h.origin k' (Or.inl (List.mem_filter.mp hk).1)
    · exact h.origin k' (Or.inr hk)
  member := fun e he => h.member e ((mem_del k pop e).mp he).1

/-- Adding a told candidate. -/
theorem Inv.insert (h : Inv T pop q lin pend) (u : U) (hT : u ∈ T) (hk : u ∉ keys pop) (hp : ∀ x ∈ pend, lin x ≠ u) :
    Inv T (dictSet u u pop) (q.tell u) lin pend where
  nodup := nodup_set u u pop h.nodup
  uniq := by
    have := unique_step q (.tell u) h.uniq (fun hc => hk ((h.holds u).mp (Or.inl hc)))
    exact this
  holds := by
    intro k
    rw [holds_tell, h.holds, keys_set, if_neg hk]
    simp
  pnodup := h.pnodup
  fresh := h.fresh
  inj := h.inj
  asked := by
    intro x hx hkx
    rw [keys_set, if_neg hk] at hkx
    rw [tell_asked_iter, OrderedSet.mem_filter_ne]
    rcases List.mem_append.mp hkx with hkx | hkx
    · exact ⟨h.asked x hx hkx, hp x hx⟩
    · exact absurd (List.mem_singleton.mp hkx) (hp x hx)
  pended := by
    intro k hkk
    rw [tell_asked_iter, OrderedSet.mem_filter_ne] at hkk
    exact h.pended k hkk.1
  origin := by
    rintro k (hkk | hkk)
    · rw [keys_set, if_neg hk] at hkk
      rcases List.mem_append.mp hkk with hkk | hkk
      · exact h.origin k (Or.inl hkk)
      · left; rw [List.mem_singleton.mp hkk]; exact hT
    · exact h.origin k (Or.inr hkk)
  member := by
    intro e he
    rcases (mem_set u u pop h.nodup e).mp he with rfl | he
    · exact Or.inr rfl
    · exact h.member e he.1

/-- A candidate whose lineage is gone is no longer pending. -/
theorem Inv.unpend (h : Inv T pop q lin pend) (u : U) (hu : u ∈ pend) (hk : lin u ∉ keys pop) :
    Inv (u :: T) pop q lin (pend.filter (fun x => x ≠ u)) where
  nodup := h.nodup
  uniq := h.uniq
  holds := h.holds
  pnodup := h.pnodup.filter _
  fresh := by
    intro x hx
    simp only [List.mem_filter, decide_eq_true_eq] at hx
    simp only [List.mem_cons, not_or]
    exact ⟨hx.2, h.fresh x hx.1⟩
  inj := fun x hx y hy => h.inj x (List.mem_filter.mp hx).1 y (List.mem_filter.mp hy).1
  asked := fun x hx => h.asked x (List.mem_filter.mp hx).1
  pended := by
    intro k hkk
    obtain ⟨x, hx, hl⟩ := h.pended k hkk
    refine ⟨x, ?_, hl⟩
    simp only [List.mem_filter, decide_eq_true_eq]
    refine ⟨hx, ?_⟩
    rintro rfl
    exact hk (hl ▸ (h.holds k).mp (Or.inr hkk))
  origin := by
    intro k hkk
    have hkk' : k ∈ keys pop ∨ ∃ u ∈ pend, lin u = k := by
      rcases hkk with hkk | ⟨x, hx, hl⟩
      · exact Or.inl hkk
      · exact Or.inr ⟨x, (List.mem_filter.mp hx).1, hl⟩
    rcases h.origin k hkk' with h1 | h1
    · exact Or.inl (List.mem_cons_of_mem _ h1)
    · by_cases hku : k = u
      · exact Or.inl (by simp [hku])
      · exact Or.inr ⟨by simp [h1.1, hku], h1.2⟩
  member := by
    intro e he
    rcases h.member e he with h1 | h1
    · exact Or.inl (List.mem_cons_of_mem _ h1)
    · exact Or.inr h1

omit [DecidableEq U] in
/-- A foreign candidate is told. -/
theorem Inv.mono (h : Inv T pop q lin pend) (u : U) (hu : u ∉ pend) : Inv (u :: T) pop q lin pend where
  nodup := h.nodup
  uniq := h.uniq
  holds := h.holds
  pnodup := h.pnodup
  fresh := by
    intro x hx
    simp only [List.mem_cons, not_or]
    exact ⟨fun hc => hu (hc ▸ hx), h.fresh x hx⟩
  inj := h.inj
  asked := h.asked
  pended := h.pended
  origin := by
    intro k hkk
    rcases h.origin k hkk with h1 | h1
    · exact Or.inl (List.mem_cons_of_mem _ h1)
    · exact Or.inr h1
  member := by
    intro e he
    rcases h.member e he with h1 | h1
    · exact Or.inl (List.mem_cons_of_mem _ h1)
    · exact Or.inr h1

/-- A pending candidate is told, its lineage being present. -/
theorem Inv.answer (h : Inv T pop q lin pend) (u p : U) (hu : u ∈ pend) (hg : dictGet pop (lin u) = some p)
    (pop' : List (U × U)) (lin' : U → U) (hpop : pop' = dictSet (lin u) u pop ∨ pop' = pop)
    (hlin : lin' = lin ∨ lin' = fun x => if x = p then lin u else lin x) :
    Inv (u :: T) pop' (q.tell (lin u)) lin' (pend.filter (fun x => x ≠ u)) := by
  have hk : lin u ∈ keys pop := (mem_keys_iff pop _).mpr ⟨p, hg⟩
  have hkeys : keys pop' = keys pop := by
    rcases hpop with rfl | rfl
    · rw [keys_set, if_pos hk]
    · rfl
  -- lineages of pending candidates do not change
  have hsame : ∀ x ∈ pend, lin' x = lin x := by
    intro x hx
    rcases hlin with rfl | rfl
    · rfl
    · by_cases hxp : x = p
      · subst hxp
        simp only [if_true]
        rcases h.member _ (get_mem pop _ _ hg) with h1 | h1
        · exact absurd h1 (h.fresh x hx)
        · simp only at h1
          rcases h.origin _ (Or.inl hk) with h2 | h2
          · exact absurd (h1 ▸ h2) (h.fresh x hx)
          · rw [← h1] at h2 ⊢
            exact h2.2.symm
      · simp [hxp]
  have hask := h.asked u hu hk
  refine ⟨?_, ?_, ?_, h.pnodup.filter _, ?_, ?_, ?_, ?_, ?_, ?_⟩
  · rw [hkeys]; exact h.nodup
  · exact unique_step q (.tell (lin u)) h.uniq (fun hc => h.uniq.2.2 _ hc hask)
  · intro k
    rw [holds_tell, h.holds, hkeys]
    constructor
    · rintro (h1 | rfl)
      · exact h1
      · exact hk
    · exact Or.inl
  · intro x hx
    simp only [List.mem_filter, decide_eq_true_eq] at hx
    simp only [List.mem_cons, not_or]
    exact ⟨hx.2, h.fresh x hx.1⟩
  · intro x hx y hy hxy
    have hx' := (List.mem_filter.mp hx).1
    have hy' := (List.mem_filter.mp hy).1
    rw [hsame x hx', hsame y hy'] at hxy
    exact h.inj x hx' y hy' hxy
  · intro x hx hkx
    simp only [List.mem_filter, decide_eq_true_eq] at hx
    rw [hsame x hx.1, hkeys] at hkx
    rw [hsame x hx.1, tell_asked_iter, OrderedSet.mem_filter_ne]
    exact ⟨h.asked x hx.1 hkx, fun hc => hx.2 (h.inj x hx.1 u hu hc)⟩
  · intro k hkk
    rw [tell_asked_iter, OrderedSet.mem_filter_ne] at hkk
    obtain ⟨x, hx, hl⟩ := h.pended k hkk.1
    refine ⟨x, ?_, (hsame x hx).trans hl⟩
    simp only [List.mem_filter, decide_eq_true_eq]
    refine ⟨hx, ?_⟩
    rintro rfl
    exact hkk.2 hl.symm
  · intro k hkk
    have hkk' : k ∈ keys pop ∨ ∃ u ∈ pend, lin u = k := by
      rcases hkk with hkk | ⟨x, hx, hl⟩
      · rw [hkeys] at hkk; exact Or.inl hkk
      · have hx' := (List.mem_filter.mp hx).1
        exact Or.inr ⟨x, hx', (hsame x hx').symm.trans hl⟩
    rcases h.origin k hkk' with h1 | h1
    · exact Or.inl (List.mem_cons_of_mem _ h1)
    · by_cases hku : k = u
      · exact Or.inl (by simp [hku])
      · exact Or.inr ⟨by simp [h1.1, hku], (hsame k h1.1).trans h1.2⟩
  · intro e he
    have : e = (lin u, u) ∨ e ∈ pop := by
      rcases hpop with rfl | rfl
      · rcases (mem_set _ _ pop h.nodup e).mp he with h1 | h1
        · exact Or.inl h1
        · exact Or.inr h1.1
      · exact Or.inr he
    rcases this with rfl | he
    · exact Or.inl (by simp)
    · rcases h.member e he with h1 | h1
      · exact Or.inl (List.mem_cons_of_mem _ h1)
      · exact Or.inr h1

omit [DecidableEq U] in
theorem Inv.not_key (h : Inv T pop q lin pend) (u : U) (hT : u ∉ T) (hp : u ∉ pend) :
    u ∉ keys pop ∧ ∀ x ∈ pend, lin x ≠ u := by
  constructor
  · intro hc
    rcases h.origin u (Or.inl hc) with h1 | h1
    · exact hT h1
    · exact hp h1.1
  · intro x hx hc
    rcases h.origin u (Or.inr ⟨x, hx, hc⟩) with h1 | h1
    · exact hT h1
    · exact hp h1.1

/-- A new member is asked. -/
theorem Inv.askNew (h : Inv T pop q lin pend) (u : U) (hT : u ∉ T) (hp : u ∉ pend) :
    Inv T (dictSet u u pop) (q.register u) (fun x => if x = u then u else lin x) (u :: pend) := by
  obtain ⟨hk, hl⟩ := h.not_key u hT hp
  have hne : ∀ x ∈ pend, x ≠ u := fun x hx hc => hp (hc ▸ hx)
  have hq : u ∉ q.told := fun hc => hk ((h.holds u).mp (Or.inl hc))
  have hset : ∀ k, k ∈ keys (dictSet u u pop) ↔ k ∈ keys pop ∨ k = u := by
    intro k
    rw [keys_set, if_neg hk]; simp
  have hasked : ∀ k, k ∈ (q.register u).asked.iter ↔ k = u ∨ k ∈ q.asked.iter := by
    intro k
    rw [register, OrderedSet.mem_add]
  refine ⟨nodup_set u u pop h.nodup, unique_step q (.register u) h.uniq hq, ?_, ?_, ?_, ?_, ?_, ?_, ?_, ?_⟩
  · intro k
    rw [holds_register, h.holds, hset]
  · exact List.nodup_cons.mpr ⟨hp, h.pnodup⟩
  · intro x hx
    rcases List.mem_cons.mp hx with rfl | hx
    · exact hT
    · exact h.fresh x hx
  · intro x hx y hy hxy
    rcases List.mem_cons.mp hx with hx | hx <;> rcases List.mem_cons.mp hy with hy | hy
    · rw [hx, hy]
    · rw [hx] at hxy ⊢
      simp only [if_true, hne y hy, if_false] at hxy
      exact absurd hxy.symm (hl y hy)
    · rw [hy] at hxy ⊢
      simp only [if_true, hne x hx, if_false] at hxy
      exact absurd hxy (hl x hx)
    · simp only [hne x hx, hne y hy, if_false] at hxy
      exact h.inj x hx y hy hxy
  · intro x hx hkx
    rw [hasked]
    rcases List.mem_cons.mp hx with hx | hx
    · left; simp [hx]
    · simp only [hne x hx, if_false] at hkx ⊢
      rw [hset] at hkx
      rcases hkx with h1 | h1
      · exact Or.inr (h.asked x hx h1)
      · exact absurd h1 (hl x hx)
  · intro k hk
    rw [hasked] at hk
    rcases hk with rfl | hk
    · exact ⟨k, by simp, by simp⟩
    · obtain ⟨x, hx, hxl⟩ := h.pended k hk
      exact ⟨x, by simp [hx], by simp [hne x hx, hxl]⟩
  · intro k hk
    by_cases hku : k = u
    · exact Or.inr ⟨by simp [hku], by simp [hku]⟩
    · have : k ∈ keys pop ∨ ∃ u ∈ pend, lin u = k := by
        rcases hk with hk | ⟨x, hx, hxl⟩
        · rw [hset] at hk
          rcases hk with hk | hk
          · exact Or.inl hk
          · exact absurd hk hku
        · rcases List.mem_cons.mp hx with hx | hx
          · rw [hx] at hxl; simp at hxl; exact absurd hxl.symm hku
          · simp only [hne x hx, if_false] at hxl
            exact Or.inr ⟨x, hx, hxl⟩
      rcases h.origin k this with h1 | h1
      · exact Or.inl h1
      · exact Or.inr ⟨by simp [h1.1], by simp [hku, h1.2]⟩
  · intro e he
    rcases (mem_set u u pop h.nodup e).mp he with rfl | he
    · exact Or.inr rfl
    · exact h.member e he.1

/-- The next lineage of the told queue is asked. -/
theorem Inv.askOld (h : Inv T pop q lin pend) (u k : U) (rest : List U) (ht : q.told = k :: rest) (hT : u ∉ T) (hp : u ∉ pend) :
    Inv T pop ⟨rest, q.asked.add k⟩ (fun x => if x = u then k else lin x) (u :: pend) := by
  obtain ⟨hk, hl⟩ := h.not_key u hT hp
  have hask : q.ask = some (k, ⟨rest, q.asked.add k⟩) := by simp [UidQueue.ask, ht]
  have hne : ∀ x ∈ pend, x ≠ u := fun x hx hc => hp (hc ▸ hx)
  have hkT : k ∈ q.told := by simp [ht]
  have hkk : k ∈ keys pop := (h.holds k).mp (Or.inl hkT)
  have hnot : ∀ x ∈ pend, lin x ≠ k := by
    intro x hx hc
    exact h.uniq.2.2 k hkT (hc ▸ h.asked x hx (hc ▸ hkk))
  have hasked : ∀ k', k' ∈ (q.asked.add k).iter ↔ k' = k ∨ k' ∈ q.asked.iter := by
    intro k'
    rw [OrderedSet.mem_add]
  refine ⟨h.nodup, ask_unique q _ k hask h.uniq, ?_, ?_, ?_, ?_, ?_, ?_, ?_, h.member⟩
  · intro k'
    rw [(ask_holds q _ k k' hask).1, h.holds]
  · exact List.nodup_cons.mpr ⟨hp, h.pnodup⟩
  · intro x hx
    rcases List.mem_cons.mp hx with rfl | hx
    · exact hT
    · exact h.fresh x hx
  · intro x hx y hy hxy
    rcases List.mem_cons.mp hx with hx | hx <;> rcases List.mem_cons.mp hy with hy | hy
    · rw [hx, hy]
    · rw [hx] at hxy ⊢
      simp only [if_true, hne y hy, if_false] at hxy
      exact absurd hxy.symm (hnot y hy)
    · rw [hy] at hxy ⊢
      simp only [if_true, hne x hx, if_false] at hxy
      exact absurd hxy (hnot x hx)
    · simp only [hne x hx, hne y hy, if_false] at hxy
      exact h.inj x hx y hy hxy
  · intro x hx hkx
    simp only
    rw [hasked]
    rcases List.mem_cons.mp hx with hx | hx
    · left; simp [hx]
    · simp only [hne x hx, if_false] at hkx ⊢
      exact Or.inr (h.asked x hx hkx)
  · intro k' hk'
    simp only at hk'
    rw [hasked] at hk'
    rcases hk' with rfl | hk'
    · exact ⟨u, by simp, by simp⟩
    · obtain ⟨x, hx, hxl⟩ := h.pended k' hk'
      exact ⟨x, by simp [hx], by simp [hne x hx, hxl]⟩
  · intro k' hk'
    have : k' ∈ keys pop ∨ ∃ u ∈ pend, lin u = k' := by
      rcases hk' with hk' | ⟨x, hx, hxl⟩
      · exact Or.inl hk'
      · rcases List.mem_cons.mp hx with hx | hx
        · rw [hx] at hxl; simp at hxl; exact Or.inl (hxl ▸ hkk)
        · simp only [hne x hx, if_false] at hxl
          exact Or.inr ⟨x, hx, hxl⟩
    rcases h.origin k' this with h1 | h1
    · exact Or.inl h1
    · exact Or.inr ⟨by simp [h1.1], by simp [hne k' h1.1, h1.2]⟩

omit [DecidableEq U] in
/-- With fewer pending candidates than members, some lineage is in the told queue. -/
theorem Inv.told_ne_nil (h : Inv T pop q lin pend) (hlt : pend.length < pop.length) : q.told ≠ [] := by
  intro ht
  have hsub : keys pop ⊆ pend.map lin := by
    intro k hk
    rcases (h.holds k).mpr hk with h1 | h1
    · rw [ht] at h1; cases h1
    · obtain ⟨u, hu, hl⟩ := h.pended k h1
      exact List.mem_map.mpr ⟨u, hu, hl⟩
  have := (List.subperm_of_subset h.nodup hsub).length_le
  rw [length_keys, List.length_map] at this
  omega

variable [LinearOrder α] [OrderTop α]

/-- `Inv` of a state. -/
def Ok (T : List U) (s : St U α) : Prop := Inv T s.pop s.queue s.lineage s.pending

omit [LinearOrder α] [OrderTop α] in
/-- Internal ask with fewer than `llambda` pending candidates. -/
theorem internalAsk_ok (cfg : Cfg) (s : St U α) (h : Ok T s) (u : U) (hT : u ∉ T) (hp : u ∉ s.pending)
    (hlt : s.pending.length < cfg.lam) :
    ∃ s', internalAsk cfg u s = (none, s') ∧ s'.pending = s.pending ∧
      Inv T s'.pop s'.queue s'.lineage (u :: s.pending) ∧ s'.lineage u ∈ keys s'.pop ∧ s'.loss = s.loss := by
  unfold internalAsk
  by_cases hlen : s.pop.length < cfg.lam
  · rw [if_pos hlen]
    refine ⟨_, rfl, rfl, h.askNew u hT hp, ?_, rfl⟩
    simp only [if_true]
    rw [keys_set]
    split
    · assumption
    · simp
  · rw [if_neg hlen]
    have hne := h.told_ne_nil (by omega)
    cases ht : s.queue.told with
    | nil => exact absurd ht hne
    | cons k rest =>
      have hask : s.queue.ask = some (k, ⟨rest, s.queue.asked.add k⟩) := by simp [UidQueue.ask, ht]
      have hk : k ∈ keys s.pop := (h.holds k).mp (Or.inl (by simp [ht]))
      obtain ⟨p, hg⟩ := (mem_keys_iff s.pop k).mp hk
      simp only [hask, hg]
      exact ⟨_, rfl, rfl, h.askOld u k rest ht hT hp, by simpa using hk, rfl⟩

/-- Telling a candidate which is, from now on, in no way related to the population. -/
theorem tellNotAsked_ok (cfg : Cfg) (hlam : 0 < cfg.lam) (u : U) (l : α) (victim : Option (Option U)) (s : St U α)
    (pend : List U) (hv : victim = none ∨ cfg.pso = true) (hs : s.pop.length ≤ cfg.lam)
    (h : Inv T s.pop s.queue s.lineage pend) (hT : u ∈ T) (hk : u ∉ keys s.pop) (hp : ∀ x ∈ pend, s.lineage x ≠ u) :
    ∃ s', tellNotAsked cfg u l victim s = (none, s') ∧ s'.pending = s.pending ∧ Inv T s'.pop s'.queue s'.lineage pend := by
  obtain ⟨s', h1, _, h3, h4, h5⟩ := tellNotAsked_cases cfg hlam u l victim s hv h.nodup (fun k hk => (h.holds k).mpr hk) hs
  refine ⟨s', h1, h4, ?_⟩
  rw [h3]
  rcases h5 with ⟨e1, e2, _⟩ | ⟨e1, e2, _⟩ | ⟨w, q, hw, _, _, _, hd, e1, e2, _⟩
  · rw [e1, e2]; exact h
  · rw [e1, e2]; exact h.insert u hT hk hp
  · rw [e1, e2]
    refine (h.drop w.1 q hd).insert u hT ?_ hp
    rw [keys_del]
    exact fun hc => hk (List.mem_filter.mp hc).1

/-- A history of calls `A` asked and `T` told so far: uids are new, candidates are told once, and there are always fewer than
`llambda` candidates pending when asking. No candidate of the constraint solver; one objective (or PSO). -/
def Calm (cfg : Cfg) : List U → List U → List (Op U α) → Prop
  | _, _, [] => True
  | A, T, .ask u :: ops => u ∉ A ∧ u ∉ T ∧ (A.filter (fun x => x ∉ T)).length < cfg.lam ∧ Calm cfg (u :: A) T ops
  | A, T, .trial u :: ops => cfg.pso = false ∧ u ∉ A ∧ u ∉ T ∧ (A.filter (fun x => x ∉ T)).length < cfg.lam ∧ Calm cfg A (u :: T) ops
  | _, _, .submit _ _ :: _ => False
  | A, T, .tell u _ _ _ victim :: ops => u ∉ T ∧ (victim = none ∨ cfg.pso = true) ∧ Calm cfg A (u :: T) ops

theorem filter_told (A T : List U) (u : U) :
    A.filter (fun x => x ∉ u :: T) = (A.filter (fun x => x ∉ T)).filter (fun x => x ≠ u) := by
  rw [List.filter_filter]
  apply List.filter_congr
  intro x _
  simp [not_or]

/-- C46: in such histories, whatever the losses, nothing ever fails, and the queue holds exactly the population. -/
theorem calm_run (cfg : Cfg) (hlam : 0 < cfg.lam) (ops : List (Op U α)) : ∀ (A T : List U) (s : St U α), Calm cfg A T ops →
    Ok T s → s.pending = A.filter (fun x => x ∉ T) → s.pop.length ≤ cfg.lam →
    (∀ e ∈ (run cfg ops s).1, e = none) ∧ (∃ T', Ok T' (run cfg ops s).2) := by
  induction ops with
  | nil => intro A T s _ h _ _; exact ⟨by simp [run], T, h⟩
  | cons op ops ih =>
    intro A T s hc h hp hs
    have hsz := step_size cfg op s hs
    have fin : ∀ (A' T' : List U) (s' : St U α), step cfg op s = (none, s') → Calm cfg A' T' ops → Ok T' s' →
        s'.pending = A'.filter (fun x => x ∉ T') →
        (∀ e ∈ (run cfg (op :: ops) s).1, e = none) ∧ (∃ T', Ok T' (run cfg (op :: ops) s).2) := by
      intro A' T' s' hst hc' ho' hp'
      rw [hst] at hsz
      obtain ⟨g1, g2⟩ := ih A' T' s' hc' ho' hp' hsz
      simp only [run, hst]
      refine ⟨?_, g2⟩
      intro e he
      rcases List.mem_cons.mp he with rfl | he
      · rfl
      · exact g1 e he
    cases op with
    | ask u =>
      simp only [Calm] at hc
      have hup : u ∉ s.pending := by rw [hp]; exact fun hm => hc.1 (List.mem_filter.mp hm).1
      obtain ⟨s', h1, h2, h3, _⟩ := internalAsk_ok cfg s h u hc.2.1 hup (by rw [hp]; exact hc.2.2.1)
      refine fin (u :: A) T { s' with pending := u :: s'.pending } (by simp [step, h1]) hc.2.2.2 ?_ ?_
      · show Inv T s'.pop s'.queue s'.lineage (u :: s'.pending)
        rw [h2]; exact h3
      · simp [h2, hp, hc.2.1]
    | trial u =>
      simp only [Calm] at hc
      have hup : u ∉ s.pending := by rw [hp]; exact fun hm => hc.2.1 (List.mem_filter.mp hm).1
      obtain ⟨s', h1, h2, h3, h4, _⟩ := internalAsk_ok cfg s h u hc.2.2.1 hup (by rw [hp]; exact hc.2.2.2.1)
      obtain ⟨p, hg⟩ := (mem_keys_iff s'.pop _).mp h4
      obtain ⟨s2, g1, g2, _, g4, g5⟩ := tellCandidate_cases cfg u ⊤ none none s' p hg
      have hfil : (u :: s.pending).filter (fun x => x ≠ u) = s.pending := by
        simp only [List.filter_cons, ne_eq, not_true_eq_false, decide_false, Bool.false_eq_true, if_false]
        exact List.filter_eq_self.mpr (fun x hx => by simp; rintro rfl; exact hup hx)
      have hA : A.filter (fun x => x ∉ u :: T) = A.filter (fun x => x ∉ T) := by
        apply List.filter_congr
        intro x hx
        have : x ≠ u := fun hxu => hc.2.1 (hxu ▸ hx)
        simp [this]
      refine fin A (u :: T) s2 (by simp [step, h1, hc.1, g1]) hc.2.2.2.2 ?_ (by rw [g4, h2, hp, hA])
      show Inv (u :: T) s2.pop s2.queue s2.lineage s2.pending
      rw [g4, h2, ← hfil, g2]
      apply h3.answer u p (by simp) hg
      · rcases g5 with g5 | g5
        · exact Or.inl g5.1
        · exact Or.inr g5.1
      · rcases g5 with g5 | g5
        · exact Or.inl g5.2.1
        · exact g5.2.2.2.2
    | submit u p => exact hc.elim
    | tell u v l replace victim =>
      simp only [Calm] at hc
      set s1 : St U α := { s with loss := fun x => if x = u then v else s.loss x } with hs1
      have hok1 : Inv T s1.pop s1.queue s1.lineage s.pending := h
      by_cases hup : u ∈ s.pending
      · cases hg : dictGet s1.pop (s1.lineage u) with
        | some p =>
          obtain ⟨s2, g1, g2, _, g4, g5⟩ := tellCandidate_cases cfg u l replace victim s1 p hg
          refine fin A (u :: T) { s2 with pending := s2.pending.filter (fun x => x ≠ u) }
            (by simp only [step, hup, if_true, ← hs1, g1]) hc.2.2 ?_ ?_
          · show Inv (u :: T) s2.pop s2.queue s2.lineage (s2.pending.filter (fun x => x ≠ u))
            rw [g4, g2]
            apply hok1.answer u p hup hg
            · rcases g5 with g5 | g5
              · exact Or.inl g5.1
              · exact Or.inr g5.1
            · rcases g5 with g5 | g5
              · exact Or.inl g5.2.1
              · exact g5.2.2.2.2
          · simp only [g4]
            rw [filter_told, ← hp]
        | none =>
          have hk : s1.lineage u ∉ keys s1.pop := by
            rw [mem_keys_iff, hg]; simp
          have hun := hok1.unpend u hup hk
          have huk : u ∉ keys s1.pop := by
            intro hcu
            rcases hok1.origin u (Or.inl hcu) with h1 | h1
            · exact hc.1 h1
            · exact hk (h1.2.symm ▸ hcu)
          have hul : ∀ x ∈ s.pending.filter (fun x => x ≠ u), s1.lineage x ≠ u := by
            intro x hx hxu
            simp only [List.mem_filter, decide_eq_true_eq] at hx
            rcases hok1.origin u (Or.inr ⟨x, hx.1, hxu⟩) with h1 | h1
            · exact hc.1 h1
            · exact hx.2 (hok1.inj x hx.1 u hup (hxu.trans h1.2.symm))
          obtain ⟨s2, g1, g2, g3⟩ := tellNotAsked_ok cfg hlam u l victim s1 _ hc.2.1 hs hun (by simp) huk hul
          refine fin A (u :: T) { s2 with pending := s2.pending.filter (fun x => x ≠ u) }
            (by simp only [step, hup, if_true, ← hs1, tellCandidate_none cfg u l replace victim s1 hg, g1]) hc.2.2 ?_ ?_
          · show Inv (u :: T) s2.pop s2.queue s2.lineage (s2.pending.filter (fun x => x ≠ u))
            rw [g2]; exact g3
          · simp only [g2]
            rw [filter_told, ← hp]
      · have hmono := hok1.mono u hup
        obtain ⟨huk, hul⟩ := hok1.not_key u hc.1 hup
        obtain ⟨s2, g1, g2, g3⟩ := tellNotAsked_ok cfg hlam u l victim s1 _ hc.2.1 hs hmono (by simp) huk hul
        refine fin A (u :: T) s2 (by simp only [step, hup, if_false, ← hs1, g1]) hc.2.2 ?_ ?_
        · show Inv (u :: T) s2.pop s2.queue s2.lineage s2.pending
          rw [g2]; exact g3
        · rw [g2, filter_told, ← hp]
          exact (List.filter_eq_self.mpr (fun x hx => by simp; rintro rfl; exact hup hx)).symm

/-- C46: with at most `llambda` candidates pending and candidates told once each, no ask or tell ever fails, whatever foreign
candidates are told and whatever the losses, and the lineages waiting in the queue are exactly those of the population. -/
theorem population_never_fails_partial (cfg : Cfg) (hlam : 0 < cfg.lam) (lin : U → U) (ops : List (Op U α))
    (hc : Calm cfg [] [] ops) :
    (∀ e ∈ (run cfg ops (St.init lin)).1, e = none) ∧
      ∀ k, (run cfg ops (St.init lin)).2.queue.Holds k ↔ k ∈ (run cfg ops (St.init lin)).2.pop.map (·.1) := by
  obtain ⟨h1, T, h2⟩ := calm_run cfg hlam ops [] [] (St.init lin) hc (Inv.init lin) rfl (by simp [St.init])
  exact ⟨h1, h2.holds⟩

/-- Two members, a foreign candidate and a child of a removed member. -/
example : Calm (α := WithTop Nat) ⟨2, false, false⟩ [] []
    [.ask 1, .ask 2, .tell 1 5 5 none none, .tell 9 3 3 none none, .ask 3, .tell 2 4 4 none none, .tell 3 7 7 none none] := by
  simp [Calm]

example : (run (α := WithTop Nat) ⟨2, false, false⟩
    [.ask 1, .ask 2, .tell 1 5 5 none none, .tell 9 3 3 none none, .ask 3, .tell 2 4 4 none none, .tell 3 7 7 none none]
    (St.init id)).2.pop = [(9, 9), (2, 2)] := by decide +kernel

/-! ## Without foreign candidates -/

/-- Only candidates which were asked, and not told yet, are told; uids are new; the candidates of the constraint solver are
children of rejected attempts. No bound on the number of pending candidates, any number of objectives. -/
def Own : List U → List U → List (Op U α) → Prop
  | _, _, [] => True
  | A, T, .ask u :: ops => u ∉ A ∧ u ∉ T ∧ Own (u :: A) T ops
  | A, T, .trial u :: ops => u ∉ A ∧ u ∉ T ∧ Own A (u :: T) ops
  | A, T, .submit u p :: ops => u ∉ A ∧ u ∉ T ∧ p ∈ T ∧ Own (u :: A) T ops
  | A, T, .tell u _ _ _ _ :: ops => u ∈ A ∧ u ∉ T ∧ Own A (u :: T) ops

/-- The invariant: the queue holds exactly the population, and so do the lineages of all known candidates. -/
structure OwnInv (A T : List U) (s : St U α) : Prop where
  holds : ∀ k, s.queue.Holds k ↔ k ∈ keys s.pop
  lin : ∀ x, x ∈ A ∨ x ∈ T → s.lineage x ∈ keys s.pop

theorem OwnInv.ask {A T : List U} {s : St U α} (h : OwnInv A T s) (cfg : Cfg) (hlam : 0 < cfg.lam) (u : U) (hA : u ∉ A) (hT : u ∉ T) :
    ∃ s', internalAsk cfg u s = (none, s') ∧ s'.pending = s.pending ∧ (∀ k, s'.queue.Holds k ↔ k ∈ keys s'.pop) ∧
      (∀ x, x = u ∨ x ∈ A ∨ x ∈ T → s'.lineage x ∈ keys s'.pop) := by
  unfold internalAsk
  by_cases hlen : s.pop.length < cfg.lam
  · rw [if_pos hlen]
    have hset : ∀ k, k ∈ keys (dictSet u u s.pop) ↔ k ∈ keys s.pop ∨ k = u := by
      intro k
      rw [keys_set]
      split
      · constructor
        · exact Or.inl
        · rintro (h1 | rfl)
          · exact h1
          · assumption
      · simp
    refine ⟨_, rfl, rfl, ?_, ?_⟩
    · intro k
      simp only
      rw [holds_register, h.holds, hset]
    · intro x hx
      simp only
      rw [hset]
      by_cases hxu : x = u
      · simp [hxu]
      · simp only [hxu, if_false]
        rcases hx with hx | hx
        · exact absurd hx hxu
        · exact Or.inl (h.lin x hx)
  · rw [if_neg hlen]
    cases hask : s.queue.ask with
    | none =>
      exfalso
      rw [uidQueue_ask_fails_iff] at hask
      have : s.pop ≠ [] := by intro hc; rw [hc] at hlen; simp at hlen; omega
      obtain ⟨e, d, he⟩ := List.exists_cons_of_ne_nil this
      exact hask e.1 ((h.holds _).mpr (by simp [keys, he]))
    | some kq =>
      obtain ⟨k, q⟩ := kq
      have hk := ask_holds s.queue q k
      have hkk : k ∈ keys s.pop := (h.holds k).mp (hk k hask).2
      obtain ⟨p, hg⟩ := (mem_keys_iff s.pop k).mp hkk
      simp only [hg]
      refine ⟨_, rfl, rfl, ?_, ?_⟩
      · intro k'
        simp only
        rw [(hk k' hask).1, h.holds]
      · intro x hx
        simp only
        by_cases hxu : x = u
        · simpa [hxu] using hkk
        · simp only [hxu, if_false]
          rcases hx with hx | hx
          · exact absurd hx hxu
          · exact h.lin x hx

theorem OwnInv.tell {A T : List U} {s : St U α} (cfg : Cfg) (u : U) (l : α) (replace : Option Bool) (victim : Option (Option U))
    (holds : ∀ k, s.queue.Holds k ↔ k ∈ keys s.pop) (lin : ∀ x, x = u ∨ x ∈ A ∨ x ∈ T → s.lineage x ∈ keys s.pop) :
    ∃ s', tellCandidate cfg u l replace victim s = (none, s') ∧ s'.pending = s.pending ∧
      (∀ k, s'.queue.Holds k ↔ k ∈ keys s'.pop) ∧ (∀ x, x = u ∨ x ∈ A ∨ x ∈ T → s'.lineage x ∈ keys s'.pop) := by
  have hk := lin u (Or.inl rfl)
  obtain ⟨p, hg⟩ := (mem_keys_iff s.pop _).mp hk
  obtain ⟨s', g1, g2, _, g4, g5⟩ := tellCandidate_cases cfg u l replace victim s p hg
  have hkeys : keys s'.pop = keys s.pop := by
    rcases g5 with g5 | g5
    · rw [g5.1, keys_set, if_pos hk]
    · rw [g5.1]
  refine ⟨s', g1, g4, ?_, ?_⟩
  · intro k
    rw [g2, holds_tell, holds, hkeys]
    constructor
    · rintro (h1 | rfl)
      · exact h1
      · exact hk
    · exact Or.inl
  · intro x hx
    rw [hkeys]
    have hlin : s'.lineage = s.lineage ∨ s'.lineage = fun x => if x = p then s.lineage u else s.lineage x := by
      rcases g5 with g5 | g5
      · exact Or.inl g5.2.1
      · exact g5.2.2.2.2
    rcases hlin with e | e
    · rw [e]; exact lin x hx
    · rw [e]
      simp only
      split
      · exact hk
      · exact lin x hx

/-- C46: without foreign tells nothing ever fails: any number of pending candidates, any objectives, rejected attempts and
candidates of the constraint solver. -/
theorem own_never_fails (cfg : Cfg) (hlam : 0 < cfg.lam) (lin : U → U) (ops : List (Op U α)) (hc : Own [] [] ops) :
    ∀ e ∈ (run cfg ops (St.init lin)).1, e = none := by
  have gen : ∀ (ops : List (Op U α)) (A T : List U) (s : St U α), Own A T ops → OwnInv A T s →
      (∀ x, x ∈ s.pending ↔ x ∈ A ∧ x ∉ T) → ∀ e ∈ (run cfg ops s).1, e = none := by
    intro ops
    induction ops with
    | nil => intro A T s _ _ _; simp [run]
    | cons op ops ih =>
      intro A T s hc h hp
      have fin : ∀ (A' T' : List U) (s' : St U α), step cfg op s = (none, s') → Own A' T' ops → OwnInv A' T' s' →
          (∀ x, x ∈ s'.pending ↔ x ∈ A' ∧ x ∉ T') → ∀ e ∈ (run cfg (op :: ops) s).1, e = none := by
        intro A' T' s' hst hc' ho' hp' e he
        simp only [run, hst] at he
        rcases List.mem_cons.mp he with rfl | he
        · rfl
        · exact ih A' T' s' hc' ho' hp' e he
      cases op with
      | ask u =>
        simp only [Own] at hc
        obtain ⟨s', h1, h2, h3, h4⟩ := h.ask cfg hlam u hc.1 hc.2.1
        refine fin (u :: A) T { s' with pending := u :: s'.pending } (by simp [step, h1]) hc.2.2 ⟨h3, ?_⟩ ?_
        · intro x hx
          apply h4
          simp only [List.mem_cons] at hx
          tauto
        · intro x
          simp only [h2, List.mem_cons, hp]
          constructor
          · rintro (rfl | h5)
            · exact ⟨Or.inl rfl, hc.2.1⟩
            · exact ⟨Or.inr h5.1, h5.2⟩
          · rintro ⟨rfl | h5, h6⟩
            · exact Or.inl rfl
            · exact Or.inr ⟨h5, h6⟩
      | trial u =>
        simp only [Own] at hc
        obtain ⟨s', h1, h2, h3, h4⟩ := h.ask cfg hlam u hc.1 hc.2.1
        have hpp : ∀ x, x ∈ s.pending ↔ x ∈ A ∧ x ∉ u :: T := by
          intro x
          rw [hp]
          simp only [List.mem_cons, not_or]
          constructor
          · rintro ⟨h5, h6⟩
            exact ⟨h5, fun hxu => hc.1 (hxu ▸ h5), h6⟩
          · rintro ⟨h5, _, h6⟩
            exact ⟨h5, h6⟩
        cases hpso : cfg.pso with
        | true =>
          refine fin A (u :: T) s' (by simp [step, h1, hpso]) hc.2.2 ⟨h3, ?_⟩ (by rw [h2]; exact hpp)
          intro x hx
          apply h4
          simp only [List.mem_cons] at hx
          tauto
        | false =>
          obtain ⟨s2, g1, g2, g3, g4⟩ := OwnInv.tell (A := A) (T := T) cfg u ⊤ none none h3 h4
          refine fin A (u :: T) s2 (by simp [step, h1, hpso, g1]) hc.2.2 ⟨g3, ?_⟩ (by rw [g2, h2]; exact hpp)
          intro x hx
          apply g4
          simp only [List.mem_cons] at hx
          tauto
      | submit u p =>
        simp only [Own] at hc
        refine fin (u :: A) T _ rfl hc.2.2.2 ⟨h.holds, ?_⟩ ?_
        · intro x hx
          simp only
          by_cases hxu : x = u
          · simp only [hxu, if_true]
            exact h.lin p (Or.inr hc.2.2.1)
          · simp only [hxu, if_false]
            apply h.lin
            simp only [List.mem_cons] at hx
            tauto
        · intro x
          simp only [List.mem_cons, hp]
          constructor
          · rintro (rfl | h5)
            · exact ⟨Or.inl rfl, hc.2.1⟩
            · exact ⟨Or.inr h5.1, h5.2⟩
          · rintro ⟨rfl | h5, h6⟩
            · exact Or.inl rfl
            · exact Or.inr ⟨h5, h6⟩
      | tell u v l replace victim =>
        simp only [Own] at hc
        set s1 : St U α := { s with loss := fun x => if x = u then v else s.loss x } with hs1
        have hup : u ∈ s.pending := (hp u).mpr ⟨hc.1, hc.2.1⟩
        obtain ⟨s2, g1, g2, g3, g4⟩ := OwnInv.tell (A := A) (T := T) (s := s1) cfg u l replace victim h.holds
          (by
            rintro x (rfl | hx)
            · exact h.lin x (Or.inl hc.1)
            · exact h.lin x hx)
        refine fin A (u :: T) { s2 with pending := s2.pending.filter (fun x => x ≠ u) }
          (by simp only [step, hup, if_true, ← hs1, g1]) hc.2.2 ⟨g3, ?_⟩ ?_
        · intro x hx
          apply g4
          simp only [List.mem_cons] at hx
          tauto
        · intro x
          simp only [g2, List.mem_filter, decide_eq_true_eq, List.mem_cons, not_or]
          rw [show s1.pending = s.pending from rfl, hp]
          tauto
  refine gen ops [] [] (St.init lin) hc ⟨?_, by simp⟩ (by simp [St.init])
  intro k
  simp [Holds, UidQueue.empty, OrderedSet.empty, OrderedSet.iter, keys, St.init]

/-! ## Failures -/

/-- C46 fails with more than `llambda` candidates pending: population of 2, candidates 1 and 2 asked and told, then 3, 4 and 5
asked together; after the tells of 3 and 5, lineage 1 waits twice in the queue. A foreign candidate better than its member
removes one copy; asking then raises KeyError. -/
theorem overcommitted_fails :
    (run (α := WithTop Nat) ⟨2, false, false⟩ [.ask 1, .ask 2, .tell 1 9 9 none none, .tell 2 5 5 none none,
      .ask 3, .ask 4, .ask 5, .tell 3 10 10 none none, .tell 5 10 10 none none, .tell 8 1 1 none none, .ask 6]
      (St.init id)).1 = [none, none, none, none, none, none, none, none, none, none, some .key] := by decide +kernel

/-- C46 fails with one worker after the constraint solver was used: the attempt 3 is told an infinite loss, then its child 4
is told too. -/
theorem solver_fails :
    (run (α := WithTop Nat) ⟨2, false, false⟩ [.ask 1, .tell 1 9 9 none none, .ask 2, .tell 2 5 5 none none,
      .trial 3, .submit 4 3, .tell 4 10 10 none none, .tell 8 1 1 none none, .ask 5, .tell 5 7 7 none none, .ask 6]
      (St.init id)).1 = [none, none, none, none, none, none, none, none, none, none, some .key] := by decide +kernel

/-- C46 fails with several objectives: a foreign candidate is stored under its own uid but removed under the lineage it
inherited (0, the uid of the parametrization), so the tell of a second foreign candidate raises KeyError. -/
theorem foreign_multiobjective_fails :
    (run (α := WithTop Nat) ⟨1, false, false⟩ [.tell 8 5 5 none (some none), .tell 9 1 1 none (some (some 8))]
      (St.init (fun _ => 0))).1 = [none, some .key] := by decide +kernel

/-- An empty population (`popsize=0`) fails at the first ask. -/
theorem empty_population_fails : (run (α := WithTop Nat) (U := Nat) ⟨0, false, false⟩ [.ask 1] (St.init id)).1 = [some .runtime] := by
  decide +kernel

end Pop
end NG
