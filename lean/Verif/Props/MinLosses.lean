import Verif.Model.MinLosses
import Verif.Props.Hypervolume

/-!
# C178: the least losses of the front
-/

set_option linter.unusedSectionVars false
namespace NG
namespace Pareto
variable {α : Type} [LinearOrder α] {d : Nat}

/-- Specification: `m` is the vector of the least losses of `l`, each of them attained. -/
def IsIdeal (l : List (Cand d α)) (m : Fin d → α) : Prop :=
  ∀ i, (∃ c ∈ l, c.losses i = m i) ∧ ∀ c ∈ l, m i ≤ c.losses i

theorem isIdeal_unique (l : List (Cand d α)) (m n : Fin d → α) (hm : IsIdeal l m) (hn : IsIdeal l n) : m = n := by
  funext i
  obtain ⟨⟨a, ha, ea⟩, la⟩ := hm i
  obtain ⟨⟨b, hb, eb⟩, lb⟩ := hn i
  exact le_antisymm (eb ▸ la b hb) (ea ▸ lb a ha)

theorem foldl_ideal (l : List (Cand d α)) : ∀ (pre : List (Cand d α)) (m : Fin d → α), IsIdeal pre m →
    IsIdeal (pre ++ l) (l.foldl (fun m p => fun i => min (m i) (p.losses i)) m) := by
  induction l with
  | nil => intro pre m h; simpa using h
  | cons c l ih =>
    intro pre m h
    have := ih (pre ++ [c]) (fun i => min (m i) (c.losses i)) (by
      intro i
      obtain ⟨⟨a, ha, ea⟩, la⟩ := h i
      refine ⟨?_, ?_⟩
      · rcases le_total (m i) (c.losses i) with hle | hle
        · exact ⟨a, by simp [ha], by simp [hle, ea]⟩
        · exact ⟨c, by simp, by simp [hle]⟩
      · intro o ho
        rcases List.mem_append.1 ho with ho | ho
        · exact (min_le_left _ _).trans (la o ho)
        · rw [List.mem_singleton.1 ho]; exact min_le_right _ _)
    simpa using this

theorem leastRow_ideal (l : List (Cand d α)) (m : Fin d → α) (h : leastRow l = some m) : IsIdeal l m := by
  cases l with
  | nil => simp [leastRow] at h
  | cons c l =>
    simp only [leastRow, Option.some.injEq] at h
    subst h
    exact foldl_ideal l [c] c.losses (fun i => ⟨⟨c, by simp, rfl⟩, by simp⟩)

theorem leastRow_none (l : List (Cand d α)) : leastRow l = none ↔ l = [] := by
  cases l <;> simp [leastRow]

/-- Each added candidate is matched or beaten, on all the objectives together, by a member of the raw list. -/
theorem raw_covers (ops : List (Op d α)) (c : Cand d α) (hc : c ∈ added ops) :
    ∃ o ∈ (run ops).getRaw, ∀ i, o.losses i ≤ c.losses i := by
  have hsub : ∀ o ∈ (run ops).getFront.1, o ∈ (run ops).getRaw := by
    intro o ho
    simp only [Front.getFront, Front.refresh] at ho
    split at ho
    · exact (List.mem_filter.1 ho).1
    · exact ho
  rcases front_covers ops c hc with h | ⟨o, ho, hd⟩
  · exact ⟨c, hsub c h, fun _ => le_rfl⟩
  · exact ⟨o, hsub o ho, hd.1⟩

/-- **C178.** The raw list only has candidates that were added. -/
theorem raw_added (ops : List (Op d α)) : ∀ c ∈ (run ops).getRaw, c ∈ added ops := by
  induction ops using List.reverseRecOn with
  | nil => simp [run, empty, Front.getRaw]
  | append_singleton ops o ih =>
    have e : run (ops ++ [o]) = step (run ops) o := by simp [run, List.foldl_append]
    have hr : ∀ c ∈ (run ops).refresh.pareto, c ∈ added ops := by
      intro c hc
      unfold Front.refresh at hc
      split at hc
      · exact ih c (List.mem_filter.1 hc).1
      · exact ih c hc
    rw [e, added_append]
    intro c hc
    cases o with
    | add a =>
      rcases List.mem_append.1 (show c ∈ (run ops).pareto ++ [a] from hc) with h | h
      · exact List.mem_append_left _ (ih c h)
      · exact List.mem_append_right _ (by simpa [added] using h)
    | front => exact List.mem_append_left _ (hr c hc)
    | random size draws =>
      have e2 : ((run ops).getRandom size draws).2 = (run ops).refresh := by
        simp only [Front.getRandom]; split <;> rfl
      exact List.mem_append_left _ (hr c (by simpa [step, e2, Front.getRaw] using hc))

/-- **C178.** After any schedule of additions and reads, the least losses are those of all the added candidates: for each
objective one of them attains the value and none is below it, though the list read may or may not have been filtered. -/
theorem minLosses_exact (ops : List (Op d α)) (m : Fin d → α) (h : (run ops).getMinLosses = some m) :
    IsIdeal (added ops) m := by
  have hi := leastRow_ideal _ m h
  intro i
  obtain ⟨⟨a, ha, ea⟩, la⟩ := hi i
  refine ⟨⟨a, raw_added ops a ha, ea⟩, ?_⟩
  intro c hc
  obtain ⟨o, ho, hle⟩ := raw_covers ops c hc
  exact (la o ho).trans (hle i)

/-- **C178.** They are an error exactly when nothing was added. -/
theorem minLosses_none (ops : List (Op d α)) : (run ops).getMinLosses = none ↔ added ops = [] := by
  rw [Front.getMinLosses, leastRow_none]
  constructor
  · intro h
    by_contra hne
    obtain ⟨c, hc⟩ := List.exists_mem_of_ne_nil _ hne
    obtain ⟨o, ho, _⟩ := raw_covers ops c hc
    simp [h] at ho
  · intro h
    by_contra hne
    obtain ⟨c, hc⟩ := List.exists_mem_of_ne_nil _ hne
    simpa [h] using raw_added ops c hc

/-- **C178.** Two schedules that add the same candidates, in any order and with any reads in between, have the same least
losses. -/
theorem minLosses_reads (a b : List (Op d α)) (h : ∀ c, c ∈ added a ↔ c ∈ added b) :
    (run a).getMinLosses = (run b).getMinLosses := by
  cases ea : (run a).getMinLosses with
  | none =>
    have := (minLosses_none a).1 ea
    symm; rw [minLosses_none]
    exact List.eq_nil_iff_forall_not_mem.2 (fun c hc => by simpa [this] using (h c).2 hc)
  | some m =>
    cases eb : (run b).getMinLosses with
    | none =>
      have := (minLosses_none b).1 eb
      have : added a = [] := List.eq_nil_iff_forall_not_mem.2 (fun c hc => by simpa [this] using (h c).1 hc)
      rw [(minLosses_none a).2 this] at ea
      cases ea
    | some n =>
      have hm := minLosses_exact a m ea
      have hn := minLosses_exact b n eb
      rw [isIdeal_unique (added b) m n (fun i => by
        obtain ⟨⟨x, hx, ex⟩, lx⟩ := hm i
        exact ⟨⟨x, (h x).1 hx, ex⟩, fun c hc => lx c ((h c).2 hc)⟩) hn]

example : (run [.add ⟨0, ![3, 1]⟩, .add ⟨1, ![(1 : ℤ), 4]⟩, .front, .add ⟨2, ![5, 5]⟩]).getMinLosses = some ![1, 1] := by
  decide
example : (run [.add ⟨0, ![3, 1]⟩, .add ⟨1, ![(2 : ℤ), 1]⟩, .front]).getRaw.map (·.uid) = [1] := by decide

/-! ### HypervolumePareto -/

section
variable [Field α] [IsStrictOrderedRing α]

/-- Every member of the list was told. -/
theorem adds_told (vol : (Fin d → α) → List (Fin d → α) → α) (noHv : Bool) (cs : List (Cand d α)) (s : Hyper d α) :
    ∀ c ∈ (s.adds vol noHv cs).2.pf.pareto, c ∈ s.pf.pareto ∨ c ∈ cs := by
  induction cs generalizing s with
  | nil => intro c hc; exact Or.inl hc
  | cons a cs ih =>
    intro c hc
    have hadd : ∀ c ∈ (s.pf.add a).pareto, c ∈ s.pf.pareto ∨ c = a := by
      intro c hc; simpa [Front.add] using hc
    have hfr : ∀ c ∈ s.pf.refresh.pareto, c ∈ s.pf.pareto := by
      intro c hc
      unfold Front.refresh at hc
      split at hc
      · exact (List.mem_filter.1 hc).1
      · exact hc
    have hstep : ∀ c ∈ (s.add vol noHv a).2.pf.pareto, c ∈ s.pf.pareto ∨ c = a := by
      intro c hc
      unfold Hyper.add at hc
      split at hc
      · simp only at hc
        split at hc
        · exact hadd c hc
        · split at hc
          · exact Or.inl hc
          · exact hadd c hc
      · split at hc
        · exact Or.inl hc
        · split at hc
          · simp only at hc
            generalize (if above _ s.best = true then _ else s.best) = b at hc
            cases hn : negative b
            · rw [hn] at hc; exact Or.inl hc
            · rw [hn] at hc; exact hadd c hc
          · split at hc
            · exact hadd c hc
            · simp only at hc
              split at hc
              · exact hadd c hc
              · exact Or.inl (hfr c hc)
    rcases ih _ c hc with h | h
    · rcases hstep c h with h | h
      · exact Or.inl h
      · exact Or.inr (by simp [h])
    · exact Or.inr (List.mem_cons_of_mem _ h)

/-- **C178 (partial).** Full claim: in all modes. Proved in the mode without hypervolume, whatever the bounds: the least
losses reported are those of all the told candidates. Missing: the mode with hypervolume, where it can fail
(`minLosses_missed`). -/
theorem minLosses_told_partial (hd : 0 < d) (vol : (Fin d → α) → List (Fin d → α) → α) (upper : Option (Fin d → α)) (auto : Nat)
    (hauto : upper = none → 0 < auto) (cs : List (Cand d α)) (m : Fin d → α)
    (h : ((Hyper.init upper auto).adds vol true cs).2.pf.getMinLosses = some m) : IsIdeal cs m := by
  have hi := leastRow_ideal _ m h
  have hfront := hyper_front_exact hd vol upper auto hauto cs
  have htold := adds_told vol true cs (Hyper.init upper auto)
  intro i
  obtain ⟨⟨a, ha, ea⟩, la⟩ := hi i
  refine ⟨⟨a, ?_, ea⟩, ?_⟩
  · rcases htold a ha with h | h
    · simp [Hyper.init, empty] at h
    · exact h
  · intro c hc
    have hsub : ∀ o ∈ nonDominated cs, o ∈ ((Hyper.init upper auto).adds vol true cs).2.pf.getRaw := by
      intro o ho
      rw [← hfront] at ho
      simp only [Front.getFront, Front.refresh] at ho
      split at ho
      · exact (List.mem_filter.1 ho).1
      · exact ho
    by_cases hb : cs.any (fun o => beats o c) = true
    · rw [← any_nd, List.any_eq_true] at hb
      obtain ⟨o, ho, hb⟩ := hb
      rw [← nonDominated_eq_nd] at ho
      exact (la o (hsub o ho)).trans (((beats_iff o c).1 hb).1 i)
    · refine la c (hsub c ?_)
      rw [nonDominated_eq_nd]
      exact List.mem_filter.2 ⟨hc, by simp [hb]⟩

/-- **C178.** In both modes the least losses reported are losses of told candidates: none is made up. -/
theorem minLosses_real (vol : (Fin d → α) → List (Fin d → α) → α) (noHv : Bool) (upper : Option (Fin d → α)) (auto : Nat)
    (cs : List (Cand d α)) (m : Fin d → α)
    (h : ((Hyper.init upper auto).adds vol noHv cs).2.pf.getMinLosses = some m) (i : Fin d) : ∃ c ∈ cs, c.losses i = m i := by
  obtain ⟨⟨a, ha, ea⟩, -⟩ := leastRow_ideal _ m h i
  rcases adds_told vol noHv cs (Hyper.init upper auto) a ha with h | h
  · simp [Hyper.init, empty] at h
  · exact ⟨a, h, ea⟩

end

/-- The least losses can miss told candidates in the mode with hypervolume: with bounds (0, 0), after (-1, -1), the
candidate (-5, 0) is within the bounds and nothing dominates it, but it adds no volume, and (-7, 1) is out of the bounds.
The first least loss reported is still -1. -/
theorem minLosses_missed :
    ((Hyper.init (some (fun _ => 0 : Fin 2 → ℚ)) 0).adds Hv.hvol false
      [⟨0, ![-1, -1]⟩, ⟨1, ![-5, 0]⟩, ⟨2, ![-7, 1]⟩]).2.pf.getMinLosses = some ![-1, -1] := by
  decide +kernel

example : ((Hyper.init (some (fun _ => 0 : Fin 2 → ℚ)) 0).adds Hv.hvol true
    [⟨0, ![-1, -1]⟩, ⟨1, ![-5, 0]⟩, ⟨2, ![-7, 1]⟩]).2.pf.getMinLosses = some ![-7, -1] := by
  decide +kernel

end Pareto
end NG
