import Verif.Lemmas.Population

/-! # C46: populations of differential evolution and particle swarms -/

namespace NG
namespace Pop
open Tools

variable {U α : Type} [DecidableEq U] [LinearOrder α] [OrderTop α]

/-! ## The worst member -/

omit [DecidableEq U] [OrderTop α] in
theorem worst_spec (loss : U → α) : ∀ d : List (U × U), (d = [] ∧ worst loss d = none) ∨
    ∃ w, worst loss d = some w ∧ w ∈ d ∧ ∀ e ∈ d, loss e.2 ≤ loss w.2
  | [] => Or.inl ⟨rfl, rfl⟩
  | e :: es => by
    right
    rcases worst_spec loss es with ⟨rfl, h⟩ | ⟨w, h, hm, hw⟩
    · exact ⟨e, by simp [worst], by simp, by simp⟩
    · by_cases hlt : loss e.2 < loss w.2
      · refine ⟨w, by simp [worst, h, hlt], by simp [hm], ?_⟩
        intro x hx
        rcases List.mem_cons.mp hx with rfl | hx
        · exact le_of_lt hlt
        · exact hw x hx
      · refine ⟨e, by simp [worst, h, hlt], by simp, ?_⟩
        intro x hx
        rcases List.mem_cons.mp hx with rfl | hx
        · exact le_refl _
        · exact (hw x hx).trans (not_lt.mp hlt)

/-! ## What a tell-not-asked does, one objective -/

/-- The three outcomes: refused, added to a population with room, or added in place of the worst. -/
theorem tellNotAsked_cases (cfg : Cfg) (hlam : 0 < cfg.lam) (u : U) (l : α) (victim : Option (Option U)) (s : St U α)
    (hv : victim = none ∨ cfg.pso = true) (hn : (keys s.pop).Nodup) (hq : ∀ k ∈ keys s.pop, s.queue.Holds k)
    (hs : s.pop.length ≤ cfg.lam) :
    ∃ s', tellNotAsked cfg u l victim s = (none, s') ∧ s'.loss = s.loss ∧ s'.lineage = s.lineage ∧ s'.pending = s.pending ∧
      ((s'.pop = s.pop ∧ s'.queue = s.queue ∧ s'.best = s.best ∧ (∃ e ∈ s.pop, s.loss e.2 ≤ l ∧ (cfg.pso = true → s.loss e.2 < l))) ∨
        (s'.pop = dictSet u u s.pop ∧ s'.queue = s.queue.tell u ∧ s.pop.length < cfg.lam ∧
          s'.best = (if cfg.pso then newBestNotAsked l u s else s.best)) ∨
        ∃ w q, w ∈ s.pop ∧ (∀ e ∈ s.pop, s.loss e.2 ≤ s.loss w.2) ∧ l ≤ s.loss w.2 ∧ (cfg.pso = false → l < s.loss w.2) ∧
          s.queue.discard w.1 = some q ∧
          s'.pop = dictSet u u (dictDel w.1 s.pop) ∧ s'.queue = q.tell u ∧
          s'.best = (if cfg.pso then newBestNotAsked l u s else s.best)) := by
  by_cases hlen : s.pop.length < cfg.lam
  · refine ⟨addNew cfg u l s, by simp [tellNotAsked, kick, hlen], ?_⟩
    cases hp : cfg.pso with
    | true => simp [addNew, hp, hlen]
    | false => simp [addNew, hp, hlen]
  · rcases worst_spec s.loss s.pop with ⟨he, _⟩ | ⟨w, hw, hmem, hmax⟩
    · exfalso; rw [he] at hlen; simp at hlen; omega
    · obtain ⟨q, hdq⟩ := discard_some_of_holds s.queue w.1 (hq _ (List.mem_map.mpr ⟨w, hmem, rfl⟩))
      have hget := mem_get s.pop hn w.1 w.2 hmem
      have hdel := length_del w.1 s.pop (List.mem_map.mpr ⟨w, hmem, rfl⟩)
      cases hp : cfg.pso with
      | true =>
        by_cases hlt : s.loss w.2 < l
        · refine ⟨s, ?_, rfl, rfl, rfl, Or.inl ⟨rfl, rfl, rfl, w, hmem, le_of_lt hlt, fun _ => hlt⟩⟩
          simp [tellNotAsked, kick, hlen, hp, hw, hlt]
        · refine ⟨addNew cfg u l { s with pop := dictDel w.1 s.pop, queue := q }, ?_, ?_⟩
          · simp [tellNotAsked, kick, hlen, hp, hw, hlt, hget, hdq]
          · refine ⟨by simp [addNew, hp], by simp [addNew, hp], by simp [addNew, hp], Or.inr (Or.inr ⟨w, q, hmem, hmax,
              not_lt.mp hlt, by simp, hdq, by simp [addNew, hp], by simp [addNew, hp], ?_⟩)⟩
            simp [addNew, hp, newBestNotAsked]
      | false =>
        have hv' : victim = none := by
          rcases hv with h | h
          · exact h
          · rw [hp] at h; simp at h
        subst hv'
        by_cases hlt : l < s.loss w.2
        · refine ⟨addNew cfg u l { s with pop := dictDel w.1 s.pop, queue := q }, ?_, ?_⟩
          · simp [tellNotAsked, kick, hlen, hp, hw, hlt, hget, hdq]
          · have hroom : (dictDel w.1 s.pop).length < cfg.lam := by omega
            refine ⟨by simp [addNew, hp, hroom], by simp [addNew, hp, hroom], by simp [addNew, hp, hroom],
              Or.inr (Or.inr ⟨w, q, hmem, hmax, le_of_lt hlt, fun _ => hlt, hdq, by simp [addNew, hp, hroom],
                by simp [addNew, hp, hroom], by simp [addNew, hp, hroom]⟩)⟩
        · refine ⟨s, ?_, rfl, rfl, rfl, Or.inl ⟨rfl, rfl, rfl, w, hmem, not_lt.mp hlt, by simp⟩⟩
          simp [tellNotAsked, kick, hlen, hp, hw, hlt, addNew]

/-! ## C46: size -/

theorem tellNotAsked_size (cfg : Cfg) (u : U) (l : α) (victim : Option (Option U)) (s : St U α) (h : s.pop.length ≤ cfg.lam) :
    (tellNotAsked cfg u l victim s).2.pop.length ≤ cfg.lam := by
  have add : ∀ s' : St U α, s'.pop.length < cfg.lam → (addNew cfg u l s').pop.length ≤ cfg.lam := by
    intro s' hs
    have : (dictSet u u s'.pop).length ≤ cfg.lam := by
      rw [length_set]; split <;> omega
    unfold addNew
    cases cfg.pso <;> simp [hs, this]
  unfold tellNotAsked
  cases hk : kick cfg l victim s with
  | error e => exact h
  | ok o =>
    cases o with
    | none => exact h
    | some o =>
      cases o with
      | none =>
        simp only
        by_cases hlen : s.pop.length < cfg.lam
        · exact add s hlen
        · have hp : cfg.pso = false := by
            by_contra hp
            simp only [Bool.not_eq_false] at hp
            unfold kick at hk
            rw [if_neg hlen, hp] at hk
            simp only at hk
            split at hk
            · cases hk
            · simp only [if_true] at hk
              split at hk <;> cases hk
          simp [addNew, hp, hlen, h]
      | some k =>
        simp only
        cases hg : dictGet s.pop k with
        | none => exact h
        | some p =>
          have hdel := length_del k s.pop ((mem_keys_iff s.pop k).mpr ⟨p, hg⟩)
          simp only
          cases hd : s.queue.discard k with
          | none => simp only; omega
          | some q => exact add _ (by simp only; omega)

/-- What telling does when the lineage is present: the entry is replaced or not, and the lineage joins the told queue. -/
theorem tellCandidate_cases (cfg : Cfg) (u : U) (l : α) (replace : Option Bool) (victim : Option (Option U)) (s : St U α)
    (p : U) (hg : dictGet s.pop (s.lineage u) = some p) :
    ∃ s', tellCandidate cfg u l replace victim s = (none, s') ∧ s'.queue = s.queue.tell (s.lineage u) ∧ s'.loss = s.loss ∧
      s'.pending = s.pending ∧
      ((s'.pop = dictSet (s.lineage u) u s.pop ∧ s'.lineage = s.lineage ∧ (cfg.pso = false → replace = none → l ≤ s.loss p) ∧
          s'.best = if cfg.pso then newBest l u s else s.best) ∨
        (s'.pop = s.pop ∧ cfg.pso = false ∧ (replace = none → s.loss p < l) ∧ s'.best = s.best ∧
          (s'.lineage = s.lineage ∨ s'.lineage = fun x => if x = p then s.lineage u else s.lineage x))) := by
  simp only [tellCandidate, hg]
  cases hp : cfg.pso with
  | true =>
    simp only [if_true]
    exact ⟨_, rfl, rfl, rfl, rfl, Or.inl ⟨rfl, rfl, by simp, rfl⟩⟩
  | false =>
    simp only [Bool.false_eq_true, if_false]
    have fin : ∀ d : Bool, (d = true → replace = none → l ≤ s.loss p) → (d = false → replace = none → s.loss p < l) →
        ∃ s' : St U α, (if d = true then (none, { s with queue := s.queue.tell (s.lineage u), pop := dictSet (s.lineage u) u s.pop })
          else if cfg.propagate = true then (none, { s with queue := s.queue.tell (s.lineage u),
                                                            lineage := fun x => if x = p then s.lineage u else s.lineage x })
          else ((none : Option Err), { s with queue := s.queue.tell (s.lineage u) })) = (none, s') ∧
          s'.queue = s.queue.tell (s.lineage u) ∧ s'.loss = s.loss ∧ s'.pending = s.pending ∧
          ((s'.pop = dictSet (s.lineage u) u s.pop ∧ s'.lineage = s.lineage ∧ (True → replace = none → l ≤ s.loss p) ∧
              s'.best = s.best) ∨
            (s'.pop = s.pop ∧ True ∧ (replace = none → s.loss p < l) ∧ s'.best = s.best ∧
              (s'.lineage = s.lineage ∨ s'.lineage = fun x => if x = p then s.lineage u else s.lineage x))) := by
      intro d h1 h2
      cases d with
      | true =>
        rw [if_pos rfl]
        exact ⟨_, rfl, rfl, rfl, rfl, Or.inl ⟨rfl, rfl, fun _ => h1 rfl, rfl⟩⟩
      | false =>
        rw [if_neg (by simp)]
        by_cases hpr : cfg.propagate = true
        · rw [if_pos hpr]
          exact ⟨_, rfl, rfl, rfl, rfl, Or.inr ⟨rfl, trivial, h2 rfl, rfl, Or.inr rfl⟩⟩
        · rw [if_neg hpr]
          exact ⟨_, rfl, rfl, rfl, rfl, Or.inr ⟨rfl, trivial, h2 rfl, rfl, Or.inl rfl⟩⟩
    cases replace with
    | none => simpa using fin (decide (l ≤ s.loss p)) (by simp) (by simp)
    | some b => simpa using fin b (by simp) (by simp)

theorem tellCandidate_none (cfg : Cfg) (u : U) (l : α) (replace : Option Bool) (victim : Option (Option U)) (s : St U α)
    (hg : dictGet s.pop (s.lineage u) = none) : tellCandidate cfg u l replace victim s = tellNotAsked cfg u l victim s := by
  simp only [tellCandidate, hg]

theorem tellCandidate_size (cfg : Cfg) (u : U) (l : α) (replace : Option Bool) (victim : Option (Option U)) (s : St U α)
    (h : s.pop.length ≤ cfg.lam) : (tellCandidate cfg u l replace victim s).2.pop.length ≤ cfg.lam := by
  cases hg : dictGet s.pop (s.lineage u) with
  | none => rw [tellCandidate_none cfg u l replace victim s hg]; exact tellNotAsked_size cfg u l victim s h
  | some p =>
    have hk : s.lineage u ∈ keys s.pop := (mem_keys_iff s.pop _).mpr ⟨p, hg⟩
    obtain ⟨s', hs, _, _, _, h1 | h1⟩ := tellCandidate_cases cfg u l replace victim s p hg
    · rw [hs, h1.1, length_set, if_pos hk]; exact h
    · rw [hs, h1.1]; exact h

omit [LinearOrder α] [OrderTop α] in
theorem internalAsk_size (cfg : Cfg) (u : U) (s : St U α) (h : s.pop.length ≤ cfg.lam) :
    (internalAsk cfg u s).2.pop.length ≤ cfg.lam := by
  unfold internalAsk
  split
  · simp only [length_set]; split <;> omega
  · cases s.queue.ask with
    | none => exact h
    | some kq =>
      simp only
      cases dictGet s.pop kq.1 <;> exact h

theorem step_size (cfg : Cfg) (op : Op U α) (s : St U α) (h : s.pop.length ≤ cfg.lam) :
    (step cfg op s).2.pop.length ≤ cfg.lam := by
  cases op with
  | ask u =>
    have := internalAsk_size cfg u s h
    simp only [step]
    split <;> exact this
  | trial u =>
    have := internalAsk_size cfg u s h
    simp only [step]
    split
    · exact this
    · split
      · exact this
      · exact tellCandidate_size cfg u _ _ _ _ this
  | submit u p => exact h
  | tell u v l replace victim =>
    simp only [step]
    split
    · have := tellCandidate_size cfg u l replace victim { s with loss := fun x => if x = u then v else s.loss x } h
      split <;> exact this
    · exact tellNotAsked_size cfg u l victim _ h

theorem run_size (cfg : Cfg) (ops : List (Op U α)) (s : St U α) (h : s.pop.length ≤ cfg.lam) :
    (run cfg ops s).2.pop.length ≤ cfg.lam := by
  induction ops generalizing s with
  | nil => exact h
  | cons op ops ih => exact ih _ (step_size cfg op s h)

/-- C46: whatever the calls (asks, tells, foreign tells, retells, constraint violations, several objectives) and even after
exceptions, the population never exceeds its size. -/
theorem population_bounded (cfg : Cfg) (lin : U → U) (ops : List (Op U α)) :
    (run cfg ops (St.init lin)).2.pop.length ≤ cfg.lam := run_size cfg ops _ (by simp [St.init])

end Pop
end NG
