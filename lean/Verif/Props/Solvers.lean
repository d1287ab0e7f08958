import Verif.Model.Solvers
import Mathlib.Tactic.Common

/-!
# C86: wrapped solvers
-/

set_option linter.unusedSectionVars false

namespace NG
namespace Solvers

variable {X α : Type} [LinearOrder α]

/-! ## Dispatch -/

/-- The registered names of methods. -/
def scipyNames : List Text := ["Nelder-Mead".toList, "Powell".toList, "BFGS".toList, "L-BFGS-B".toList, "COBYLA".toList, "SLSQP".toList]

/-- Every registered method reaches the library it is named after, in any dimension. -/
theorem branch_registered (dim : Nat) :
    branch tBOBYQA dim = .bobyqa ∧ branch tAX dim = .ax ∧ branch tSMAC3 dim = .smac ∧ branch tpysot dim = .pysot ∧
    (∀ m ∈ scipyNames, branch m dim = .scipy) ∧ (∀ l, branch (tNLOPT ++ l) dim = .nlopt) ∧ (∀ l, branch (tDS ++ l) dim = .direct) ∧
    branch tCma 1 = .bobyqa ∧ (1 < dim → branch tCma dim = .cma) := by
  refine ⟨?_, ?_, ?_, ?_, ?_, ?_, ?_, ?_, ?_⟩
  · simp [branch]
  · unfold branch
    rw [if_neg (by rintro (h | h) <;> simp [tAX, tBOBYQA, tCma] at h)]
    simp [tAX, tDS, tPDS]
  · unfold branch
    rw [if_neg (by rintro (h | h) <;> simp [tSMAC3, tBOBYQA, tCma] at h)]
    rw [show within tpysot tSMAC3 = false by decide +kernel]
    simp [tSMAC3, tDS, tPDS, tAX, tNLOPT]
  · unfold branch
    rw [if_neg (by rintro (h | h) <;> simp [tpysot, tBOBYQA, tCma] at h)]
    rw [show within tpysot tpysot = true by decide +kernel]
    simp [tpysot, tDS, tPDS, tAX, tNLOPT]
  · intro m hm
    have h : ∀ m ∈ scipyNames, m ≠ tBOBYQA ∧ m ≠ tCma ∧ m.take 2 ≠ tDS ∧ m.take 3 ≠ tPDS ∧ m ≠ tAX ∧ m.take 5 ≠ tNLOPT ∧
        within tpysot m = false ∧ m ≠ tSMAC3 := by decide +kernel
    obtain ⟨h1, h2, h3, h4, h5, h6, h7, h8⟩ := h m hm
    simp [branch, h1, h2, h3, h4, h5, h6, h7, h8]
  · intro l
    unfold branch
    rw [if_neg (by rintro (h | h) <;> simp [tNLOPT, tBOBYQA, tCma] at h)]
    simp [tNLOPT, tDS, tPDS, tAX]
  · intro l
    unfold branch
    rw [if_neg (by rintro (h | h) <;> simp [tDS, tBOBYQA, tCma] at h)]
    simp [tDS]
  · simp [branch]
  · intro hd
    unfold branch
    rw [if_neg (by rintro (h | h); · simp [tBOBYQA, tCma] at h
                   · omega)]
    rw [show within tpysot tCma = false by decide +kernel]
    simp [hd, tCma, tDS, tPDS, tAX, tNLOPT, tSMAC3]

/-! ## Which point is kept -/

/-- The point kept for a returned point is the one at which the objective was evaluated for it: for every library but pysot and CMA, with the normalizer
made for the method. -/
theorem kept_eq_sent (method : Text) (dim : Nat) (c : Coord X) (hc : c.back.isSome = hasNormalizer method) (z : X)
    (hm : branch method dim = .scipy ∨ branch method dim = .bobyqa ∨ branch method dim = .ax ∨ branch method dim = .nlopt ∨
      branch method dim = .smac ∨ (branch method dim = .cma ∧ c.fully = true) ∨
      ((branch method dim = .direct ∨ branch method dim = .proba) ∧ hasNormalizer method = false)) :
    kept (branch method dim) c z = sent (branch method dim) c z := by
  rcases hm with h | h | h | h | h | ⟨h, hf⟩ | ⟨h | h, hn⟩ <;> rw [h] <;> simp only [kept, sent]
  · rw [if_pos hf]
  all_goals
    rw [hn] at hc
    simp at hc
    simp [Coord.map, hc]

/-- The libraries whose points are mapped before the evaluation always have a normalizer. -/
theorem normalizer_made (method : Text) (dim : Nat)
    (h : branch method dim = .ax ∨ branch method dim = .nlopt ∨ branch method dim = .pysot ∨ branch method dim = .smac ∨ branch method dim = .cma) :
    hasNormalizer method = true := by
  have hAX : within tAX tAX = true := by decide +kernel
  have hSM : within tSMAC tSMAC3 = true := by decide +kernel
  unfold branch at h
  unfold hasNormalizer
  split at h
  · simp at h
  split at h
  · simp at h
  split at h
  · simp at h
  split at h
  · next e => subst e; simp [hAX]
  split at h
  · next e =>
    have : within tNLOPT method = true := by
      unfold within
      rw [← e]
      exact decide_eq_true (List.take_prefix 5 method).isInfix
    simp [this]
  split at h
  · next e => simp [e]
  split at h
  · next e => subst e; simp [hSM]
  split at h
  · next e => simp [e.1]
  · simp at h

/-- Disagreement: with pysot the objective is evaluated at the image of the point but the point itself is kept. -/
theorem pysot_not_mapped (c : Coord X) (f : X → X) (h : c.back = some f) (z : X) :
    sent .pysot c z = f z ∧ kept .pysot c z = z := by
  simp [sent, kept, Coord.map, h]

/-- Disagreement: with CMA and some variable without bounds, the objective is evaluated at the point itself but its image is kept. -/
theorem cma_unbounded_mapped (c : Coord X) (f : X → X) (h : c.back = some f) (hf : c.fully = false) (z : X) :
    sent .cma c z = z ∧ kept .cma c z = f z := by
  simp [sent, kept, Coord.map, h, hf]

/-! ## Sequences of runs -/

/-- The runs made, in order. -/
def runs (b : Branch) (c : Coord X) (budget : Nat) (s : St X α) (rs : List (Run X α)) : St X α := rs.foldl (once b c budget) s

/-- The points at which the objective was evaluated are those of the runs, in order. -/
theorem runs_log (b : Branch) (c : Coord X) (budget : Nat) (s : St X α) (rs : List (Run X α)) :
    (runs b c budget s rs).log = s.log ++ (rs.flatMap (·.evals)).map (sent b c) := by
  induction rs generalizing s with
  | nil => simp [runs]
  | cons r rs ih =>
    have : (once b c budget s r).log = s.log ++ r.evals.map (sent b c) := by
      unfold once; simp only; split
      · split <;> rfl
      · rfl
    have e : runs b c budget s (r :: rs) = runs b c budget (once b c budget s r) rs := rfl
    rw [e, ih, this]; simp

/-- The best of several runs: for libraries whose results are compared, the value kept is the least one and the point is the one of the first run which
reached it; if no run did better than the initial value, the initial point stays. -/
theorem runs_best (b : Branch) (hb : compares b = true) (c : Coord X) (budget : Nat) (s : St X α) (rs : List (Run X α)) :
    (∀ r ∈ rs, (runs b c budget s rs).best ≤ r.f) ∧ (runs b c budget s rs).best ≤ s.best ∧
    (((runs b c budget s rs).best = s.best ∧ (runs b c budget s rs).x = s.x) ∨
     ∃ l r l', rs = l ++ r :: l' ∧ (runs b c budget s rs).best = r.f ∧ (runs b c budget s rs).x = kept b c r.x ∧ r.f < s.best ∧ ∀ q ∈ l, r.f < q.f) := by
  induction rs generalizing s with
  | nil => exact ⟨by simp, le_refl _, Or.inl ⟨rfl, rfl⟩⟩
  | cons r rs ih =>
    have e : runs b c budget s (r :: rs) = runs b c budget (once b c budget s r) rs := rfl
    obtain ⟨h1, h2, h3⟩ := ih (once b c budget s r)
    rw [e]
    by_cases hlt : r.f < s.best
    · have eb : (once b c budget s r).best = r.f := by simp [once, hb, hlt]
      have ex : (once b c budget s r).x = kept b c r.x := by simp [once, hb, hlt]
      rw [eb, ex] at h3
      rw [eb] at h2
      refine ⟨?_, le_trans h2 (le_of_lt hlt), Or.inr ?_⟩
      · intro q hq
        rcases List.mem_cons.1 hq with rfl | hq
        · exact h2
        · exact h1 q hq
      · rcases h3 with ⟨h4, h5⟩ | ⟨l, q, l', h4, h5, h6, h7, h8⟩
        · exact ⟨[], r, rs, rfl, h4, h5, hlt, by simp⟩
        · refine ⟨r :: l, q, l', by rw [h4]; rfl, h5, h6, lt_trans h7 hlt, ?_⟩
          intro p hp
          rcases List.mem_cons.1 hp with rfl | hp
          · exact h7
          · exact h8 p hp
    · have eb : (once b c budget s r).best = s.best := by simp [once, hb, hlt]
      have ex : (once b c budget s r).x = s.x := by simp [once, hb, hlt]
      rw [eb, ex] at h3
      rw [eb] at h2
      push Not at hlt
      refine ⟨?_, h2, ?_⟩
      · intro q hq
        rcases List.mem_cons.1 hq with rfl | hq
        · exact le_trans h2 hlt
        · exact h1 q hq
      · rcases h3 with h3 | ⟨l, q, l', h4, h5, h6, h7, h8⟩
        · exact Or.inl h3
        · refine Or.inr ⟨r :: l, q, l', by rw [h4]; rfl, h5, h6, h7, ?_⟩
          intro p hp
          rcases List.mem_cons.1 hp with rfl | hp
          · exact lt_of_lt_of_le h7 hlt
          · exact h8 p hp

/-- For the other libraries the point kept is the one of the last run, whatever the values. -/
theorem runs_last (b : Branch) (hb : compares b = false) (c : Coord X) (budget : Nat) (s : St X α) (rs : List (Run X α)) (r : Run X α) :
    (runs b c budget s (rs ++ [r])).x = kept b c r.x := by
  simp [runs, once, hb]

/-- A solver which does its job: it returns the best of the points it evaluated with its loss. -/
def Honest (b : Branch) (c : Coord X) (loss : X → WithTop α) (r : Run X α) : Prop :=
  r.x ∈ r.evals ∧ r.f = loss (sent b c r.x) ∧ ∀ z ∈ r.evals, r.f ≤ loss (sent b c z)

/-- With honest solvers whose results are compared and kept in the coordinates of the objective, the result is the best of all points evaluated in all
runs. -/
theorem runs_optimal (b : Branch) (hb : compares b = true) (c : Coord X) (hk : ∀ z, kept b c z = sent b c z) (loss : X → WithTop α) (budget : Nat)
    (guess : Option X) (current : X) (asks : Nat) (rs : List (Run X α)) (hh : ∀ r ∈ rs, Honest b c loss r) (hf : ∃ r ∈ rs, r.f < ⊤) :
    let s := runs b c budget (initial guess current asks) rs
    s.x ∈ s.log ∧ ∀ y ∈ s.log, loss s.x ≤ loss y := by
  intro s
  obtain ⟨h1, _, h3⟩ := runs_best b hb c budget (initial guess current asks) rs
  have hlog : s.log = (rs.flatMap (·.evals)).map (sent b c) := by
    have := runs_log b c budget (initial (α := α) guess current asks) rs
    rw [show (initial (α := α) guess current asks).log = [] from rfl, List.nil_append] at this
    exact this
  rcases h3 with ⟨h3, _⟩ | ⟨l, r, l', e, h4, h5, _, _⟩
  · obtain ⟨r, hr, hlt⟩ := hf
    have := lt_of_le_of_lt (h1 r hr) hlt
    rw [h3] at this
    exact absurd this (by simp [initial])
  · have hr : r ∈ rs := by rw [e]; simp
    obtain ⟨g1, g2, _⟩ := hh r hr
    have hx : s.x = sent b c r.x := by rw [← hk]; exact h5
    rw [hlog]
    constructor
    · rw [hx]
      exact List.mem_map.2 ⟨r.x, List.mem_flatMap.2 ⟨r, hr, g1⟩, rfl⟩
    · intro y hy
      obtain ⟨z, hz, rfl⟩ := List.mem_map.1 hy
      obtain ⟨q, hq, hz⟩ := List.mem_flatMap.1 hz
      rw [hx, ← g2, ← h4]
      exact le_trans (h1 q hq) ((hh q hq).2.2 z hz)

/-! ## The loop -/

theorem once_asks (b : Branch) (hb : b ≠ .smac) (c : Coord X) (budget : Nat) (s : St X α) (r : Run X α) :
    (once b c budget s r).asks = s.asks + r.evals.length := by
  unfold once
  simp only [hb, if_false]
  split
  · split <;> rfl
  · rfl

/-- What the loop does: runs of the solver from the announced starting points, until the budget is used; no run is started once it is. -/
theorem loop_runs (b : Branch) (c : Coord X) (restart : Bool) (draw : Nat → X) (centre : X) (budget : Nat) (solver : Nat → Option X → Nat → Run X α)
    (n k : Nat) (s s' : St X α) (h : loop b c restart draw centre (some budget) solver n k s = some s') :
    ∃ rs, s' = runs b c budget s rs ∧ budget ≤ s'.asks ∧
      ∀ i (hi : i < rs.length), (runs b c budget s (rs.take i)).asks < budget ∧
        rs[i] = solver (k + i) (start b restart (runs b c budget s (rs.take i)).x (draw (k + i)) centre) (runs b c budget s (rs.take i)).asks := by
  induction n generalizing k s with
  | zero => simp [loop] at h
  | succ n ih =>
    simp only [loop] at h
    split at h
    · next hb =>
      simp at h hb
      subst h
      exact ⟨[], rfl, hb, by simp⟩
    · next hb =>
      simp at hb
      obtain ⟨rs, h1, h2, h3⟩ := ih _ _ h
      refine ⟨_ :: rs, h1, h2, ?_⟩
      intro i hi
      cases i with
      | zero => exact ⟨hb, rfl⟩
      | succ i =>
        have := h3 i (by simpa using hi)
        simp only [List.take_succ_cons, List.getElem_cons_succ]
        rw [show k + (i + 1) = k + 1 + i by omega]
        exact this

/-- The loop ends as soon as the budget is used, after at most as many runs as asks left, if every run evaluates at least one point. -/
theorem loop_ends (b : Branch) (c : Coord X) (restart : Bool) (draw : Nat → X) (centre : X) (budget : Nat) (solver : Nat → Option X → Nat → Run X α)
    (hs : ∀ k x m, (solver k x m).evals ≠ []) (k : Nat) (s : St X α) (n : Nat) (hn : budget - s.asks < n) :
    ∃ s', loop b c restart draw centre (some budget) solver n k s = some s' := by
  induction n generalizing k s with
  | zero => omega
  | succ n ih =>
    simp only [loop]
    split
    · exact ⟨s, rfl⟩
    · next hb =>
      simp at hb
      apply ih
      by_cases hsm : b = .smac
      · subst hsm
        simp [once, compares]
        omega
      · rw [once_asks b hsm]
        have := List.length_pos_iff.2 (hs k (start b restart s.x (draw k) centre) s.asks)
        omega

/-- Without a budget the loop never ends: the optimizer never gets a result from it. -/
theorem loop_no_budget (b : Branch) (c : Coord X) (restart : Bool) (draw : Nat → X) (centre : X) (solver : Nat → Option X → Nat → Run X α)
    (n k : Nat) (s : St X α) : loop b c restart draw centre none solver n k s = none := by
  induction n generalizing k s with
  | zero => rfl
  | succ n ih => simp only [loop, Option.any_none, Bool.false_eq_true, if_false]; exact ih _ _

/-- A solver which stops without evaluating anything is restarted for ever. -/
theorem loop_spins (b : Branch) (hb : b ≠ .smac) (c : Coord X) (restart : Bool) (draw : Nat → X) (centre : X) (budget : Nat)
    (solver : Nat → Option X → Nat → Run X α) (hs : ∀ k x m, (solver k x m).evals = []) (n k : Nat) (s : St X α) (h : s.asks < budget) :
    loop b c restart draw centre (some budget) solver n k s = none := by
  induction n generalizing k s with
  | zero => rfl
  | succ n ih =>
    simp only [loop]
    rw [if_neg (by simpa using h)]
    apply ih
    rw [once_asks b hb, hs]
    simpa using h

/-- The wrapped solvers of scipy and BOBYQA: when the loop ends, its result is the best of all the points evaluated, provided the
solver returns the best of those it evaluated and one of them has a finite loss. -/
theorem loop_optimal_partial (b : Branch) (hb : b = .scipy ∨ b = .bobyqa) (c : Coord X) (restart : Bool) (draw : Nat → X) (centre : X) (budget : Nat)
    (solver : Nat → Option X → Nat → Run X α) (loss : X → WithTop α) (hh : ∀ k x m, Honest b c loss (solver k x m) ∧ (solver k x m).f < ⊤)
    (guess : Option X) (current : X) (asks : Nat) (hasks : asks < budget) (n : Nat) (s' : St X α)
    (h : loop b c restart draw centre (some budget) solver n 0 (initial guess current asks) = some s') :
    s'.x ∈ s'.log ∧ (∀ y ∈ s'.log, loss s'.x ≤ loss y) ∧ s'.asks = asks + s'.log.length := by
  obtain ⟨rs, h1, h2, h3⟩ := loop_runs b c restart draw centre budget solver n 0 _ s' h
  have hr : ∀ r ∈ rs, Honest b c loss r ∧ r.f < ⊤ := by
    intro r hr
    obtain ⟨i, hi, rfl⟩ := List.getElem_of_mem hr
    rw [(h3 i hi).2]
    exact hh _ _ _
  have hne : rs ≠ [] := by
    rintro rfl
    rw [h1] at h2
    simp [runs, initial] at h2
    omega
  have hcmp : compares b = true := by rcases hb with rfl | rfl <;> rfl
  have hk : ∀ z, kept b c z = sent b c z := by rcases hb with rfl | rfl <;> intro z <;> rfl
  obtain ⟨r, hrm⟩ := List.exists_mem_of_ne_nil rs hne
  have := runs_optimal b hcmp c hk loss budget guess current asks rs (fun r hr' => (hr r hr').1) ⟨r, hrm, (hr r hrm).2⟩
  rw [← h1] at this
  refine ⟨this.1, this.2, ?_⟩
  have hsm : b ≠ .smac := by rcases hb with rfl | rfl <;> simp
  have key : ∀ (rs : List (Run X α)) (s : St X α), (runs b c budget s rs).asks = s.asks + (rs.flatMap (·.evals)).length := by
    intro rs
    induction rs with
    | nil => intro s; simp [runs]
    | cons r rs ih =>
      intro s
      have e : runs b c budget s (r :: rs) = runs b c budget (once b c budget s r) rs := rfl
      rw [e, ih, once_asks b hsm]; simp; omega
  rw [h1, key, runs_log]
  simp [initial]

/-- Restarts from the best point: without random restarts every run of scipy starts from the best point so far, the first one from the initial guess
when there is one; with BOBYQA too. -/
theorem restart_from_best (b : Branch) (hb : b = .scipy ∨ b = .bobyqa) (best draw centre : X) : start b false best draw centre = some best := by
  rcases hb with rfl | rfl <;> rfl

/-- The first run starts from the initial guess if there is one, from the current recommendation otherwise. -/
theorem first_start (b : Branch) (hb : b = .scipy ∨ b = .bobyqa) (c : Coord X) (draw : Nat → X) (centre : X) (budget : Nat)
    (solver : Nat → Option X → Nat → Run X α) (g current : X) (asks n : Nat) (hn : asks < budget) :
    loop b c false draw centre (some budget) solver (n + 1) 0 (initial (some g) current asks) =
      loop b c false draw centre (some budget) solver n 1 (once b c budget ⟨⊤, g, asks, []⟩ (solver 0 (some g) asks)) ∧
    loop b c false draw centre (some budget) solver (n + 1) 0 (initial none current asks) =
      loop b c false draw centre (some budget) solver n 1 (once b c budget ⟨⊤, current, asks, []⟩ (solver 0 (some current) asks)) := by
  have hb' : ∀ g cur, ¬ (some budget).any (· ≤ (initial (α := α) (X := X) g cur asks).asks) = true := by
    intro g cur
    simp [initial]; exact decide_eq_false (Nat.not_le.2 hn)
  rcases hb with rfl | rfl <;>
  · constructor
    · rw [loop, if_neg (hb' _ _)]; rfl
    · rw [loop, if_neg (hb' _ _)]; rfl

/-- Disagreement: with random restarts also the first run starts from a random point, so that the initial guess is never used. -/
theorem restart_ignores_guess (c : Coord X) (draw : Nat → X) (centre : X) (budget : Nat) (solver : Nat → Option X → Nat → Run X α)
    (g g' current current' : X) (asks n : Nat) (hs : ∀ k x m, (solver k x m).f < ⊤) (hn : asks < budget) :
    loop .scipy c true draw centre (some budget) solver n 0 (initial (some g) current asks) =
      loop .scipy c true draw centre (some budget) solver n 0 (initial (some g') current' asks) := by
  cases n with
  | zero => rfl
  | succ n =>
    simp only [loop]
    have hb : ∀ g cur, ¬ (some budget).any (· ≤ (initial (α := α) (X := X) g cur asks).asks) = true := by
      intro g cur
      simp [initial]; exact decide_eq_false (Nat.not_le.2 hn)
    rw [if_neg (hb _ _), if_neg (hb _ _)]
    congr 1
    simp only [start, initial, if_true]
    have := hs 0 (some (draw 0)) asks
    simp [once, compares, this]

/-! ## CMA -/

/-- The inner loop of CMA makes runs until they have used the whole budget by themselves. -/
theorem inner_runs (c : Coord X) (budget : Nat) (solver : Nat → Run X α) (n k calls : Nat) (s s' : St X α) (k' : Nat)
    (h : inner c budget solver n k calls s = some (s', k')) :
    ∃ rs, s' = runs .cma c budget s rs ∧ (∀ r ∈ rs, ∃ i, r = solver i) ∧ budget ≤ calls + (rs.flatMap (·.evals)).length := by
  induction n generalizing k calls s with
  | zero => simp [inner] at h
  | succ n ih =>
    simp only [inner] at h
    split at h
    · simp at h
      obtain ⟨rfl, rfl⟩ := h
      exact ⟨[], rfl, by simp, by simpa⟩
    · obtain ⟨rs, h1, h2, h3⟩ := ih _ _ _ h
      refine ⟨solver k :: rs, h1, ?_, ?_⟩
      · intro r hr
        rcases List.mem_cons.1 hr with rfl | hr
        · exact ⟨k, rfl⟩
        · exact h2 r hr
      · rw [List.flatMap_cons, List.length_append]; omega

/-- With all variables bounded, CMA also returns the best of all points evaluated. -/
theorem cma_optimal_partial (c : Coord X) (hc : c.fully = true) (budget : Nat) (solver : Nat → Run X α) (loss : X → WithTop α)
    (hh : ∀ k, Honest .cma c loss (solver k) ∧ (solver k).f < ⊤) (guess : Option X) (current : X) (asks : Nat) (hasks : asks < budget) (n : Nat)
    (s' : St X α) (h : cmaLoop c budget solver n 0 (initial guess current asks) = some s') :
    s'.x ∈ s'.log ∧ ∀ y ∈ s'.log, loss s'.x ≤ loss y := by
  have key : ∀ n k (s : St X α), cmaLoop c budget solver n k s = some s' →
      ∃ rs, s' = runs .cma c budget s rs ∧ (∀ r ∈ rs, ∃ i, r = solver i) ∧ budget ≤ s'.asks := by
    intro n
    induction n with
    | zero => intro k s h; simp [cmaLoop] at h
    | succ n ih =>
      intro k s h
      simp only [cmaLoop] at h
      split at h
      · next hb => simp at h; subst h; exact ⟨[], rfl, by simp, hb⟩
      · cases hi : inner c budget solver (n + 1) k 0 s with
        | none => rw [hi] at h; simp at h
        | some p =>
          obtain ⟨t, j⟩ := p
          rw [hi] at h
          obtain ⟨rs, h1, h2, _⟩ := inner_runs c budget solver _ _ _ _ _ _ hi
          obtain ⟨qs, g1, g2, g3⟩ := ih j t h
          refine ⟨rs ++ qs, ?_, ?_, g3⟩
          · rw [g1, h1]; simp [runs]
          · intro r hr
            rcases List.mem_append.1 hr with hr | hr
            · exact h2 r hr
            · exact g2 r hr
  obtain ⟨rs, h1, h2, h3⟩ := key _ _ _ h
  have hr : ∀ r ∈ rs, Honest .cma c loss r ∧ r.f < ⊤ := by
    intro r hr
    obtain ⟨i, rfl⟩ := h2 r hr
    exact hh i
  have hne : rs ≠ [] := by
    rintro rfl
    rw [h1] at h3
    simp [runs, initial] at h3
    omega
  obtain ⟨r, hrm⟩ := List.exists_mem_of_ne_nil rs hne
  have := runs_optimal .cma rfl c (fun z => by simp [kept, sent, hc]) loss budget guess current asks rs (fun r hr' => (hr r hr').1) ⟨r, hrm, (hr r hrm).2⟩
  rw [← h1] at this
  exact this

/-! ## Disagreements and concrete cases -/

/-- The loss of the witnesses: a square on integers. -/
def sq (x : Int) : WithTop Int := ((x * x : Int) : WithTop Int)

/-- A solver which evaluates one point per run and returns it: 1, then 3, and so on. -/
def oneByOne : Nat → Option Int → Nat → Run Int Int := fun k _ _ => ⟨[2 * k + 1], 2 * k + 1, sq (2 * k + 1)⟩

/-- Disagreement: with direct search (and likewise AX, NLOPT and pysot) the result is the one of the last run, here worse than the first one. -/
theorem last_run_worse : ∃ s, loop .direct (⟨none, false⟩ : Coord Int) false (fun _ => 0) 0 (some 2) oneByOne 5 0 (initial none 0 0) = some s ∧
    s.x = 3 ∧ (1 : Int) ∈ s.log ∧ sq 1 < sq s.x := by
  refine ⟨⟨⊤, 3, 2, [1, 3]⟩, ?_, rfl, ?_, ?_⟩ <;> decide +kernel

/-- Disagreement: with variables without bounds the result of CMA was never evaluated. -/
theorem cma_result_not_evaluated : ∃ s, cmaLoop (⟨some (· + 100), false⟩ : Coord Int) 1 (fun _ => ⟨[0], 0, sq 0⟩) 5 0 (initial none 7 0) = some s ∧
    s.x = 100 ∧ s.log = [0] := by
  refine ⟨⟨sq 0, 100, 1, [0]⟩, ?_, rfl, rfl⟩
  decide +kernel

/-- Disagreement: the same with pysot, also with bounds. -/
theorem pysot_result_not_evaluated : ∃ s, loop .pysot (⟨some (· + 100), true⟩ : Coord Int) false (fun _ => 0) 0 (some 1)
      (fun _ _ _ => (⟨[0], 0, sq 100⟩ : Run Int Int)) 5 0 (initial none 7 0) = some s ∧
    s.x = 0 ∧ s.log = [100] := by
  refine ⟨⟨sq 100, 0, 1, [100]⟩, ?_, rfl, rfl⟩
  decide +kernel

example : loop .scipy (⟨none, false⟩ : Coord Int) false (fun _ => 0) 0 (some 3) oneByOne 5 0 (initial none 0 0) = some ⟨sq 1, 1, 3, [1, 3, 5]⟩ := by
  decide +kernel
example : ∀ k x m, Honest .scipy (⟨none, false⟩ : Coord Int) sq (oneByOne k x m) ∧ (oneByOne k x m).f < ⊤ := by
  intro k x m
  refine ⟨⟨by simp [oneByOne], rfl, ?_⟩, WithTop.coe_lt_top _⟩
  intro z hz
  simp [oneByOne] at hz
  subst hz
  exact le_refl _

end Solvers
end NG
