import Verif.Model.PopSize
import Mathlib.Tactic.Linarith
import Mathlib.Tactic.Positivity
import Mathlib.Tactic.Ring
import Mathlib.Tactic.FieldSimp
import Mathlib.Tactic.NormNum

/-!
# Population-size controller (C71)
-/

namespace NG
namespace PopSize

/-! ## Sizes -/

/-- What always holds of the sizes. -/
structure Sizes (cfg : Cfg) (s : St) : Prop where
  min_mu : cfg.minMu ≤ s.mu
  pos : 1 ≤ s.mu
  parents : 4 * s.mu ≤ s.lam
  workers : cfg.workers ≤ s.lam
  record : s.record.length < 5 * s.lam

theorem resize_sizes (cfg : Cfg) (hmin : 1 ≤ cfg.minMu) (g : Bool) (s : St) (h : Sizes cfg s) : Sizes cfg (resize cfg g s) := by
  obtain ⟨h1, h2, h3, h4, h5⟩ := h
  have key : cfg.minMu ≤ (if g then s.mu * 2 else max cfg.minMu (shrunk s.mu)) := by
    cases g
    · exact le_max_left _ _
    · simp; omega
  unfold resize
  generalize (if g then s.mu * 2 else max cfg.minMu (shrunk s.mu)) = m at key
  split
  · constructor <;> simp only [List.length_nil] <;> omega
  · constructor <;> simp only [List.length_nil] <;> omega

theorem add_sizes (cfg : Cfg) (hmin : 1 ≤ cfg.minMu) (loss : Option ℝ) (s : St) (h : Sizes cfg s) : Sizes cfg (add cfg loss s) := by
  unfold add
  split
  · exact resize_sizes cfg hmin _ s h
  · rename_i hc
    obtain ⟨h1, h2, h3, h4, h5⟩ := h
    exact ⟨h1, h2, h3, h4, by simp; omega⟩

theorem start_sizes (mu dim workers : Nat) (hmu : 1 ≤ mu) : Sizes (cfgOf mu dim workers) (start (4 * mu) mu workers) := by
  constructor <;> simp [cfgOf, start] <;> omega

/-- **C71.** Whatever values are received, there are at least `min(mu, dimension)` parents, at least four times as many children per generation,
and at least as many children as workers. -/
theorem sizes (mu dim workers : Nat) (hmu : 1 ≤ mu) (hd : 1 ≤ dim) (losses : List (Option ℝ)) :
    let s := run (cfgOf mu dim workers) (start (4 * mu) mu workers) losses
    min mu dim ≤ s.mu ∧ 1 ≤ s.mu ∧ 4 * s.mu ≤ s.lam ∧ workers ≤ s.lam := by
  have : Sizes (cfgOf mu dim workers) (run (cfgOf mu dim workers) (start (4 * mu) mu workers) losses) := by
    unfold run
    generalize hs : start (4 * mu) mu workers = s
    have h : Sizes (cfgOf mu dim workers) s := hs ▸ start_sizes mu dim workers hmu
    clear hs
    induction losses generalizing s with
    | nil => exact h
    | cons l ls ih => exact ih _ (add_sizes _ (by simp [cfgOf]; omega) l s h)
  exact ⟨this.min_mu, this.pos, this.parents, this.workers⟩

/-! ## When sizes change -/

theorem run_append (cfg : Cfg) (s : St) (l m : List (Option ℝ)) : run cfg s (l ++ m) = run cfg (run cfg s l) m := by
  simp [run, List.foldl_append]

theorem run_short (cfg : Cfg) (s : St) (losses : List (Option ℝ)) (h : s.record.length + losses.length < 5 * s.lam) :
    run cfg s losses = { s with record := s.record ++ losses } := by
  induction losses generalizing s with
  | nil => simp [run]
  | cons l ls ih =>
    have e : run cfg s (l :: ls) = run cfg (add cfg l s) ls := rfl
    have ha : add cfg l s = { s with record := s.record ++ [l] } := by
      unfold add
      rw [if_neg]
      simp only [List.length_cons] at h
      omega
    rw [e, ha, ih]
    · simp
    · simp only [List.length_append, List.length_cons, List.length_nil] at h ⊢
      omega

/-- **C71.** Sizes change exactly every `5 llambda` values, from these values only. -/
theorem every_five (cfg : Cfg) (s : St) (hs : s.record = []) (hl : 1 ≤ s.lam) (losses : List (Option ℝ)) :
    (losses.length < 5 * s.lam → (run cfg s losses).mu = s.mu ∧ (run cfg s losses).lam = s.lam) ∧
    (losses.length = 5 * s.lam → run cfg s losses = resize cfg (grows s.lam losses) s ∧ (run cfg s losses).record = []) := by
  refine ⟨fun h => ?_, fun h => ?_⟩
  · rw [run_short cfg s losses (by rw [hs]; simpa using h)]
    exact ⟨rfl, rfl⟩
  · rcases List.eq_nil_or_concat losses with h0 | ⟨ls, l, h0⟩
    · rw [h0] at h
      simp at h
      omega
    · rw [List.concat_eq_append] at h0
      subst h0
      have hlen : ls.length + 1 = 5 * s.lam := by simpa using h
      rw [run_append, run_short cfg s ls (by rw [hs]; simp; omega)]
      have : run cfg { s with record := s.record ++ ls } [l] = resize cfg (grows s.lam (ls ++ [l])) s := by
        show add cfg l _ = _
        unfold add
        simp only [hs, List.nil_append]
        rw [if_pos (by omega)]
        rfl
      rw [this]
      refine ⟨rfl, ?_⟩
      unfold resize
      split <;> rfl

/-- **C71.** The new number of parents: doubled, or multiplied by 0.84 (rounded down) but not below the minimum; with several workers also at least
a quarter of them. The number of children is four times the number of parents (or the number of workers). -/
theorem resize_spec (cfg : Cfg) (g : Bool) (s : St) :
    (cfg.workers ≤ 1 → (resize cfg g s).lam = 4 * (resize cfg g s).mu ∧
      (resize cfg g s).mu = if g then 2 * s.mu else max cfg.minMu (s.mu * 84 / 100)) ∧
    (1 < cfg.workers → (resize cfg g s).mu = (resize cfg g s).lam / 4 ∧
      (resize cfg g s).mu = max (if g then 2 * s.mu else max cfg.minMu (s.mu * 84 / 100)) (cfg.workers / 4) ∧
      (resize cfg g s).lam = max (4 * (if g then 2 * s.mu else max cfg.minMu (s.mu * 84 / 100))) cfg.workers) := by
  have e : (if g then s.mu * 2 else max cfg.minMu (shrunk s.mu)) = if g then 2 * s.mu else max cfg.minMu (s.mu * 84 / 100) := by
    unfold shrunk
    cases g
    · simp only [Bool.false_eq_true, if_false]
      congr 1
      omega
    · simp only [if_true]
      omega
  unfold resize
  rw [e]
  generalize (if g then 2 * s.mu else max cfg.minMu (s.mu * 84 / 100)) = m
  refine ⟨fun h => ?_, fun h => ?_⟩
  · rw [if_neg (by omega)]
    exact ⟨rfl, rfl⟩
  · rw [if_pos h]
    simp only [and_true, true_and]
    omega

/-- **C71.** After `n` values the number of children is at most what it was at the start or two fifths of `n`: a generation never needs more
evaluations than were already made, the first ones excepted. -/
theorem growth (cfg : Cfg) (s : St) (h : Sizes cfg s) (hmin : 1 ≤ cfg.minMu) (hr : s.record = []) (losses : List (Option ℝ)) :
    5 * (run cfg s losses).lam ≤ max (5 * s.lam) (2 * losses.length) := by
  have hm : 1 ≤ s.mu := h.pos
  -- invariant with the number of values received
  have key : ∀ (ls : List (Option ℝ)) (t : St) (n : Nat), Sizes cfg t → t.record.length ≤ n → 5 * t.lam ≤ max (5 * s.lam) (2 * n) →
      5 * (run cfg t ls).lam ≤ max (5 * s.lam) (2 * (n + ls.length)) := by
    intro ls
    induction ls with
    | nil => intro t n _ _ hb; simpa [run] using hb
    | cons l ls ih =>
      intro t n ht hn hb
      have e : run cfg t (l :: ls) = run cfg (add cfg l t) ls := rfl
      rw [e]
      have := ih (add cfg l t) (n + 1) (add_sizes cfg hmin l t ht) ?_ ?_
      · simpa [Nat.add_assoc, Nat.add_comm 1] using this
      · unfold add
        split
        · unfold resize; split <;> simp
        · simp; exact hn
      · unfold add
        split
        · rename_i hc
          have hlam : 4 * (if grows t.lam (t.record ++ [l]) then t.mu * 2 else max cfg.minMu (shrunk t.mu)) ≤ 2 * t.lam := by
            have h1 := ht.parents
            have h2 := ht.min_mu
            have h3 : shrunk t.mu ≤ t.mu := by unfold shrunk; omega
            split
            · omega
            · have : max cfg.minMu (shrunk t.mu) ≤ t.mu := max_le h2 h3
              omega
          have hw := ht.workers
          have hs := h.workers
          unfold resize
          generalize (if grows t.lam (t.record ++ [l]) then t.mu * 2 else max cfg.minMu (shrunk t.mu)) = m at hlam
          split
          · simp only
            omega
          · simp only
            omega
        · simp only
          omega
  have := key losses s 0 h (by simp [hr]) (le_max_left _ _)
  simpa using this

/-! ## The test -/

/-- Mean of some values. -/
noncomputable def avg (l : List ℝ) : ℝ := l.sum / l.length

/-- Squared standard error of the mean. -/
noncomputable def sqErr (l : List ℝ) : ℝ := (l.map (fun x => (x - avg l) ^ 2)).sum / (l.length * (l.length - 1))

theorem mapM_some (l : List ℝ) : (l.map some).mapM id = some l := by
  induction l with
  | nil => rfl
  | cons x xs ih =>
    rw [List.map_cons, List.mapM_cons, ih]
    rfl

theorem mapM_none (l : List (Option ℝ)) (h : none ∈ l) : l.mapM id = none := by
  induction l with
  | nil => simp at h
  | cons x xs ih =>
    rw [List.mapM_cons]
    rcases List.mem_cons.mp h with h | h
    · rw [← h]; rfl
    · rw [ih h]
      cases x <;> rfl

theorem sqErr_nonneg (l : List ℝ) (h : 2 ≤ l.length) : 0 ≤ sqErr l := by
  unfold sqErr
  apply div_nonneg
  · apply List.sum_nonneg
    intro x hx
    obtain ⟨y, _, rfl⟩ := List.mem_map.mp hx
    positivity
  · have : (2 : ℝ) ≤ l.length := by exact_mod_cast h
    nlinarith

/-- **C71.** The population grows unless the last fifth of the values is better than the first one by at least two standard errors of the
difference; when all values of each fifth are equal, it grows only if the last ones are worse. -/
theorem grows_iff_partial (first mid last : List ℝ) (lam : Nat) (hl : 2 ≤ lam) (h1 : first.length = lam) (h2 : last.length = lam) :
    grows lam ((first ++ mid ++ last).map some) = true ↔
      if sqErr first + sqErr last = 0 then avg first < avg last
      else avg first - avg last < 2 * Real.sqrt (sqErr first + sqErr last) := by
  have e1 : ((first ++ mid ++ last).map some).take lam = first.map some := by
    rw [List.append_assoc, List.map_append, List.take_append_of_le_length (by simp [h1]), List.take_of_length_le (by simp [h1])]
  have e2 : ((first ++ mid ++ last).map some).drop (((first ++ mid ++ last).map some).length - lam) = last.map some := by
    rw [List.map_append, List.drop_append_of_le_length (by simp [h2]; omega), List.drop_of_length_le (by simp [h2]; omega)]
    rfl
  have hv : ∀ l : List ℝ, l.length = lam → mean lam (l.map some) = some (avg l) ∧ var lam (l.map some) = some (sqErr l) := by
    intro l hlen
    unfold mean var
    rw [if_neg (by omega), mapM_some]
    simp only [Option.map_some, Option.some.injEq]
    refine ⟨by rw [avg, hlen], ?_⟩
    rw [sqErr, div_div]
    simp only [avg, hlen]
  unfold grows
  rw [e1, e2, (hv first h1).1, (hv first h1).2, (hv last h2).1, (hv last h2).2]
  simp only
  have hp : 0 ≤ sqErr first + sqErr last := add_nonneg (sqErr_nonneg _ (by omega)) (sqErr_nonneg _ (by omega))
  unfold divLtTwo
  by_cases h0 : sqErr first + sqErr last = 0
  · rw [h0]
    simp
  · have hpos : 0 < Real.sqrt (sqErr first + sqErr last) := Real.sqrt_pos.mpr (lt_of_le_of_ne hp (Ne.symm h0))
    rw [if_neg hpos.ne', if_neg h0]
    simp only [decide_eq_true_eq]
    rw [div_lt_iff₀ hpos]

/-- **C71.** Getting worse always makes the population grow. -/
theorem worse_grows (first mid last : List ℝ) (lam : Nat) (hl : 2 ≤ lam) (h1 : first.length = lam) (h2 : last.length = lam)
    (h : avg first < avg last) : grows lam ((first ++ mid ++ last).map some) = true := by
  rw [grows_iff_partial first mid last lam hl h1 h2]
  split
  · exact h
  · have := Real.sqrt_nonneg (sqErr first + sqErr last)
    linarith

theorem avg_const (n : Nat) (hn : 1 ≤ n) (x : ℝ) : avg (List.replicate n x) = x ∧ sqErr (List.replicate n x) = 0 := by
  have hn' : (n : ℝ) ≠ 0 := by exact_mod_cast Nat.one_le_iff_ne_zero.mp hn
  have h1 : avg (List.replicate n x) = x := by
    unfold avg
    simp only [List.sum_replicate, List.length_replicate, nsmul_eq_mul]
    field_simp
  refine ⟨h1, ?_⟩
  unfold sqErr
  rw [h1]
  simp

/-- **C71 (disagreement).** On a plateau (all values equal, no improvement at all) the quotient is 0/0 and the population shrinks. -/
theorem plateau_shrinks (cfg : Cfg) (s : St) (hs : s.record = []) (hl : 2 ≤ s.lam) (hw : cfg.workers ≤ 1) (x : ℝ) :
    (run cfg s (List.replicate (5 * s.lam) (some x))).mu = max cfg.minMu (s.mu * 84 / 100) := by
  have hg : grows s.lam (List.replicate (5 * s.lam) (some x)) = false := by
    have e : List.replicate (5 * s.lam) (some x) =
        (List.replicate s.lam x ++ List.replicate (3 * s.lam) x ++ List.replicate s.lam x).map some := by
      rw [← List.replicate_add, ← List.replicate_add, List.map_replicate]
      congr 1
      omega
    rw [← Bool.not_eq_true, e, grows_iff_partial _ _ _ s.lam hl (by simp) (by simp), (avg_const s.lam (by omega) x).1,
      (avg_const s.lam (by omega) x).2]
    simp
  rw [((every_five cfg s hs (by omega) _).2 (by simp)).1, hg, ((resize_spec cfg false s).1 hw).2]
  simp

/-- **C71 (disagreement).** One value minus infinity among the last fifth (or the first one) makes the population shrink, whatever the others
are. -/
theorem infinite_shrinks (lam : Nat) (record : List (Option ℝ)) (h : none ∈ record.take lam ∨ none ∈ record.drop (record.length - lam)) :
    grows lam record = false := by
  unfold grows
  rcases h with h | h
  · have : mean lam (record.take lam) = none := by unfold mean; rw [mapM_none _ h]; rfl
    rw [this]
  · have : mean lam (record.drop (record.length - lam)) = none := by unfold mean; rw [mapM_none _ h]; rfl
    rw [this]
    cases mean lam (record.take lam) <;> rfl

/-- Two parents, eight children: after forty equal values there still are two parents. -/
example : (run ⟨2, 1⟩ (start 8 2 1) (List.replicate 40 (some 3))).mu = 2 := by
  have := plateau_shrinks ⟨2, 1⟩ (start 8 2 1) rfl (by decide) (by decide) 3
  simpa [start] using this

/-- Losses going from 1 to 3: the population doubles. -/
example : grows 2 ((([1, 1] : List ℝ) ++ [1, 2, 3, 2, 1, 3] ++ [3, 3]).map some) = true :=
  worse_grows [1, 1] [1, 2, 3, 2, 1, 3] [3, 3] 2 (by decide) rfl rfl (by norm_num [avg])

/-- Losses around 10, then around 1: the population shrinks. -/
example : grows 2 ((([9, 11] : List ℝ) ++ [1, 2, 3, 2, 1, 3] ++ [1, 1]).map some) = false := by
  rw [← Bool.not_eq_true, grows_iff_partial [9, 11] [1, 2, 3, 2, 1, 3] [1, 1] 2 (by decide) rfl rfl]
  have h : sqErr [9, 11] + sqErr [1, 1] = 1 := by norm_num [sqErr, avg]
  rw [h]
  norm_num [avg]

example : (resize ⟨3, 20⟩ false ⟨6, 24, []⟩).mu = 5 := by decide

end PopSize
end NG
