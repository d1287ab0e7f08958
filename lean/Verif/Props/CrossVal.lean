import Verif.Model.CrossVal
import Verif.Lemmas.Pareto
import Mathlib.Tactic.Ring
import Mathlib.Tactic.Linarith
import Mathlib.Data.Fin.VecNotation
import Mathlib.Tactic.FinCases

/-!
# C143: cross-validation of multiobjective experiments
-/

namespace NG
namespace CrossVal
open Pareto

/-! ### The experiments -/

section exps
variable {ι X α : Type} [DecidableEq ι]

/-- Trained with exactly: the other instances, and the ones for training. -/
theorem mem_train (exps training : List ι) (e t : ι) : t ∈ train exps training e ↔ (t ∈ exps ∧ t ≠ e) ∨ t ∈ training := by
  simp [train]

theorem one_fields (w : World ι X α) (exps training : List ι) (size : Nat) (subset : String) (e : ι) (s : Special ι α)
    (h : one w exps training size subset e = some s) :
    s.evaluation = e ∧ s.size = some size ∧ s.subset = subset ∧ s.upper = none ∧
    ((∃ t, train exps training e = [t] ∧ s.inner = .single t) ∨
     ((train exps training e).length ≠ 1 ∧ s.inner = .packed (train exps training e) ((train exps training e).map fun t => w.f t (w.origin e)))) := by
  unfold one at h
  split at h
  · rename_i t ht
    injection h with h
    subst h
    exact ⟨rfl, rfl, rfl, rfl, Or.inl ⟨t, ht, rfl⟩⟩
  · rename_i hne
    rw [Option.map_eq_some_iff] at h
    obtain ⟨inner, hi, hs⟩ := h
    subst hs
    refine ⟨rfl, rfl, rfl, rfl, Or.inr ⟨?_, ?_⟩⟩
    · intro hl
      obtain ⟨t, ht⟩ := List.length_eq_one_iff.1 hl
      exact hne t ht
    · unfold pack at hi
      split at hi
      · cases hi
      · rename_i x rest heq
        split at hi
        · injection hi with hi
          rw [← heq] at hi
          simpa [Special.new] using hi.symm
        · cases hi

theorem mapM_getElem {A B : Type} (g : A → Option B) : ∀ (l : List A) (r : List B), l.mapM g = some r →
    r.length = l.length ∧ ∀ (k : Nat) (a : A), l[k]? = some a → ∃ b, r[k]? = some b ∧ g a = some b := by
  intro l
  induction l with
  | nil =>
    intro r h
    simp at h
    subst h
    simp
  | cons x l ih =>
    intro r h
    rw [List.mapM_cons] at h
    cases hx : g x with
    | none => simp [hx] at h
    | some b =>
      cases hl : l.mapM g with
      | none => simp [hx, hl] at h
      | some r' =>
        simp [hx, hl] at h
        subst h
        obtain ⟨h1, h2⟩ := ih r' hl
        refine ⟨by simp [h1], ?_⟩
        intro k a hk
        cases k with
        | zero =>
          simp at hk
          subst hk
          exact ⟨b, by simp, hx⟩
        | succ k =>
          simp at hk
          obtain ⟨b', hb⟩ := h2 k a hk
          exact ⟨b', by simpa using hb⟩

theorem pairs_getElem (subsets : List String) (exps : List ι) (i j : Nat) (s : String) (e : ι) (hs : subsets[i]? = some s) (he : exps[j]? = some e) :
    (subsets.flatMap fun s => exps.map fun e => (s, e))[i * exps.length + j]? = some (s, e) := by
  have hj : j < exps.length := (List.getElem?_eq_some_iff.1 he).1
  induction subsets generalizing i with
  | nil => simp at hs
  | cons a l ih =>
    rw [List.flatMap_cons]
    cases i with
    | zero =>
      simp at hs
      subst hs
      rw [List.getElem?_append_left (by simpa using hj)]
      simp [he]
    | succ i =>
      simp at hs
      rw [List.getElem?_append_right (by simp; nlinarith)]
      have : (i + 1) * exps.length + j - (exps.map fun e => (a, e)).length = i * exps.length + j := by
        simp only [List.length_map, Nat.succ_mul]
        omega
      rw [this]
      exact ih i hs

/-- **C143.** One experiment for each method and each held-out function, in this order; the held-out function is the evaluation, and the optimized losses are the ones of all other functions, then of the functions for
training, in their order: one loss alone if there is only one. -/
theorem create_spec (w : World ι X α) (exps training : List ι) (size : Nat) (subsets : List String) (l : List (Special ι α))
    (h : create w exps training size subsets = some l) :
    l.length = subsets.length * exps.length ∧
    ∀ i j m e, subsets[i]? = some m → exps[j]? = some e →
      ∃ s, l[i * exps.length + j]? = some s ∧ s.evaluation = e ∧ s.subset = m ∧ s.size = some size ∧
        ∀ x, s.inner.call w x = ((exps.filter fun t => decide (t ≠ e)) ++ training).map fun t => w.f t x := by
  obtain ⟨h1, h2⟩ := mapM_getElem _ _ _ h
  constructor
  · rw [h1]
    clear h h1 h2
    induction subsets with
    | nil => simp
    | cons a l ih => rw [List.flatMap_cons, List.length_append, ih]; simp [Nat.succ_mul, Nat.add_comm]
  · intro i j m e hm he
    obtain ⟨s, hs, ho⟩ := h2 _ _ (pairs_getElem subsets exps i j m e hm he)
    obtain ⟨f1, f2, f3, -, f5⟩ := one_fields w exps training size m e s ho
    refine ⟨s, hs, f1, f3, f2, ?_⟩
    intro x
    have ht : (exps.filter fun t => decide (t ≠ e)) ++ training = train exps training e := rfl
    rw [ht]
    rcases f5 with ⟨t, h3, h4⟩ | ⟨-, h4⟩
    · rw [h3, h4]; rfl
    · rw [h4]; rfl

theorem mem_create (w : World ι X α) (exps training : List ι) (size : Nat) (subsets : List String) (l : List (Special ι α))
    (h : create w exps training size subsets = some l) (s : Special ι α) (hs : s ∈ l) : ∃ m, ∃ e ∈ exps, one w exps training size m e = some s := by
  obtain ⟨h1, h2⟩ := mapM_getElem _ _ _ h
  obtain ⟨k, hk, hk2⟩ := List.mem_iff_getElem.1 hs
  have hk' : k < (subsets.flatMap fun s => exps.map fun e => (s, e)).length := by omega
  obtain ⟨b, hb, ho⟩ := h2 k _ (List.getElem?_eq_getElem hk')
  rw [List.getElem?_eq_getElem hk, hk2] at hb
  injection hb with hb
  subst hb
  refine ⟨_, _, ?_, ho⟩
  have := List.getElem_mem hk'
  rw [List.mem_flatMap] at this
  obtain ⟨m, -, hm⟩ := this
  rw [List.mem_map] at hm
  obtain ⟨e, he, heq⟩ := hm
  rw [← heq]
  exact he

/-- **C143.** The held-out function is not seen by the optimizer: with any other function in its place (outside of the functions for training), the optimized losses are the same. -/
theorem heldout_unseen (w w' : World ι X α) (exps training : List ι) (size : Nat) (subsets : List String) (l : List (Special ι α))
    (h : create w exps training size subsets = some l) (s : Special ι α) (hs : s ∈ l) (hnot : s.evaluation ∉ training)
    (hw : ∀ t, t ≠ s.evaluation → w.f t = w'.f t) (x : X) : s.inner.call w x = s.inner.call w' x := by
  obtain ⟨m, e, -, ho⟩ := mem_create w exps training size subsets l h s hs
  obtain ⟨f1, -, -, -, f5⟩ := one_fields w exps training size m e s ho
  have key : ∀ t ∈ train exps training e, w.f t x = w'.f t x := by
    intro t ht
    rw [mem_train] at ht
    rcases ht with ⟨-, hne⟩ | ht
    · rw [hw t (by rw [f1]; exact hne)]
    · rw [hw t (fun hc => hnot (hc ▸ ht))]
  rcases f5 with ⟨t, h3, h4⟩ | ⟨-, h4⟩
  · rw [h4]
    have := key t (by rw [h3]; simp)
    simp [Inner.call, this]
  · rw [h4]
    exact List.map_congr_left key

/-- **C143.** The experiments exist as soon as there are at least two functions in all: for different instances without upper bounds whose parametrizations have the same name. -/
theorem create_exists (w : World ι X α) (exps training : List ι) (size : Nat) (subsets : List String) (hn : (exps ++ training).Nodup)
    (hm : ∀ e ∈ exps ++ training, w.multi e = false) (name : String) (hname : ∀ e ∈ exps ++ training, w.name e = name) (h2 : 2 ≤ exps.length + training.length) :
    ∃ l, create w exps training size subsets = some l := by
  have hone : ∀ m, ∀ e ∈ exps, ∃ s, one w exps training size m e = some s := by
    intro m e he
    have hsub : List.Sublist (train exps training e) (exps ++ training) := by
      unfold train
      exact List.Sublist.append List.filter_sublist (List.Sublist.refl _)
    have hnod := hn.sublist hsub
    have hne : train exps training e ≠ [] := by
      intro hc
      unfold train at hc
      rw [List.append_eq_nil_iff] at hc
      obtain ⟨hc1, hc2⟩ := hc
      subst hc2
      simp only [List.length_nil, Nat.add_zero] at h2
      rw [List.filter_eq_nil_iff] at hc1
      simp only [List.append_nil] at hn
      match exps, h2, hn, hc1 with
      | a :: b :: r, _, hn, hc1 =>
        have ha := hc1 a (by simp)
        have hb := hc1 b (by simp)
        simp at ha hb
        rw [ha, hb] at hn
        simp at hn
    unfold one
    split
    · exact ⟨_, rfl⟩
    · have : ∃ inner, pack w (train exps training e) ((train exps training e).map fun t => w.f t (w.origin e)) = some inner := by
        cases hT : train exps training e with
        | nil => exact absurd hT hne
        | cons x rest =>
          have hmem : ∀ t ∈ x :: rest, t ∈ exps ++ training := fun t ht => hsub.subset (hT ▸ ht)
          refine ⟨.packed (x :: rest) ((x :: rest).map fun t => w.f t (w.origin e)), ?_⟩
          · unfold pack
            simp only
            rw [if_pos]
            simp only [Bool.and_eq_true, List.all_eq_true, decide_eq_true_eq]
            refine ⟨⟨hT ▸ hnod, ?_⟩, ?_⟩
            · intro t ht; simp [hm t (hmem t ht)]
            · intro t ht
              simp [hname x (hmem x (by simp)), hname t (hmem t (by simp [ht]))]
      obtain ⟨inner, hi⟩ := this
      exact ⟨_, by rw [hi]; rfl⟩
  have hall : ∀ (L : List (String × ι)), (∀ p ∈ L, p.2 ∈ exps) → ∃ l, L.mapM (fun p => one w exps training size p.1 p.2) = some l := by
    intro L
    induction L with
    | nil => intro _; exact ⟨[], by simp⟩
    | cons p L ih =>
      intro hp
      obtain ⟨s, hs⟩ := hone p.1 p.2 (hp p (by simp))
      obtain ⟨l, hl⟩ := ih fun q hq => hp q (by simp [hq])
      exact ⟨s :: l, by rw [List.mapM_cons]; simp [hs, hl]⟩
  apply hall
  intro p hp
  rw [List.mem_flatMap] at hp
  obtain ⟨m, -, hm⟩ := hp
  rw [List.mem_map] at hm
  obtain ⟨e, he, heq⟩ := hm
  rw [← heq]
  exact he

/-- **C143 (disagreement).** One function alone cannot be cross-validated. -/
theorem alone_raises (w : World ι X α) (e : ι) (size : Nat) (m : String) (subsets : List String) : create w [e] [] size (m :: subsets) = none := by
  unfold create
  simp only [List.flatMap_cons, List.map_cons, List.map_nil, List.cons_append, List.nil_append, List.mapM_cons]
  have : one w [e] [] size m e = none := by simp [one, train, pack]
  simp [this]

/-- **C143 (disagreement).** The upper bounds computed at the origin are kept in the inner experiment only: no reference is told to the optimizer of a benchmark. -/
theorem reference_none (w : World ι X α) (exps training : List ι) (size : Nat) (subsets : List String) (l : List (Special ι α))
    (h : create w exps training size subsets = some l) (s : Special ι α) (hs : s ∈ l) : s.reference = none := by
  obtain ⟨m, e, -, ho⟩ := mem_create w exps training size subsets l h s hs
  exact (one_fields w exps training size m e s ho).2.2.2.1

/-- **C143.** The upper bounds of the inner experiment are its losses at the origin of the held-out function. -/
theorem inner_bounds (w : World ι X α) (exps training : List ι) (size : Nat) (subsets : List String) (l : List (Special ι α))
    (h : create w exps training size subsets = some l) (s : Special ι α) (hs : s ∈ l) (xs : List ι) (u : List α) (hi : s.inner = .packed xs u) :
    u = s.inner.call w (w.origin s.evaluation) ∧ xs.length ≠ 1 := by
  obtain ⟨m, e, -, ho⟩ := mem_create w exps training size subsets l h s hs
  obtain ⟨f1, -, -, -, f5⟩ := one_fields w exps training size m e s ho
  rcases f5 with ⟨t, h3, h4⟩ | ⟨h3, h4⟩
  · rw [h4] at hi; cases hi
  · rw [h4] at hi
    injection hi with hx hu
    rw [h4, f1, ← hx, ← hu]
    exact ⟨rfl, h3⟩

end exps

/-- Three functions of one integer. -/
def demoWorld : World Nat Int Int where
  f := fun e x => (e : Int) * x + e
  origin := fun e => (e : Int)
  name := fun _ => "x"
  multi := fun _ => false

example : (create demoWorld [0, 1, 2] [] 16 ["random", "EPS"]).map (fun l => l.map fun s => (s.evaluation, s.subset, s.inner)) =
    some [(0, "random", .packed [1, 2] [1, 2]), (1, "random", .packed [0, 2] [0, 4]), (2, "random", .packed [0, 1] [0, 3]),
          (0, "EPS", .packed [1, 2] [1, 2]), (1, "EPS", .packed [0, 2] [0, 4]), (2, "EPS", .packed [0, 1] [0, 3])] := by decide +kernel

/-- **C143 (disagreement).** A function which is also given for training is trained on while it is held out, and a function given twice is left out twice. -/
theorem overlap_trained : ∃ l, create demoWorld [0, 1] [1] 12 ["random"] = none ∧ create demoWorld [1] [0, 1] 12 ["random"] = some l ∧
    (l.map fun s => (s.evaluation, s.inner)) = [(1, .packed [0, 1] [0, 2])] ∧
    (create demoWorld [1, 1, 0] [] 12 ["random"]) = none := by
  refine ⟨_, by decide +kernel, rfl, by decide +kernel, by decide +kernel⟩

/-! ### The evaluation -/

section eval
variable {α : Type} [LinearOrder α] [Field α] [IsStrictOrderedRing α] {d : Nat}

theorem refresh_subset (s : Front d α) : ∀ c ∈ s.refresh.pareto, c ∈ s.pareto := by
  intro c hc
  unfold Front.refresh at hc
  split at hc
  · exact (List.mem_filter.1 hc).1
  · exact hc

theorem add_subset (vol : (Fin d → α) → List (Fin d → α) → α) (b : Bool) (h : Hyper d α) (c : Cand d α) :
    ∀ x ∈ (h.add vol b c).2.pf.pareto, x ∈ h.pf.pareto ∨ x = c := by
  intro x hx
  have key : ∀ p : Front d α, x ∈ (p.add c).pareto → x ∈ p.pareto ∨ x = c := by
    intro p hp
    simpa [Front.add] using hp
  unfold Hyper.add at hx
  simp only at hx
  split at hx
  · split at hx
    · exact key _ hx
    · split at hx
      · exact Or.inl hx
      · exact key _ hx
  · split at hx
    · exact Or.inl hx
    · split at hx
      · split at hx
        · split at hx
          · exact key _ hx
          · exact Or.inl hx
        · split at hx
          · exact key _ hx
          · exact Or.inl hx
      · split at hx
        · exact key _ hx
        · split at hx
          · exact key _ hx
          · exact Or.inl (refresh_subset _ x hx)

theorem extend_subset (vol : (Fin d → α) → List (Fin d → α) → α) (recs : List (Cand d α)) : ∀ (h : Hyper d α) (b : Bool),
    ∀ x ∈ (extend vol h b recs).1.pf.pareto, x ∈ h.pf.pareto ∨ x ∈ recs := by
  induction recs with
  | nil => intro h b x hx; exact Or.inl hx
  | cons c cs ih =>
    intro h b x hx
    rw [extend] at hx
    rcases ih _ _ x hx with h1 | h1
    · rcases add_subset vol false h c x h1 with h2 | h2
      · exact Or.inl h2
      · exact Or.inr (by simp [h2])
    · exact Or.inr (by simp [h1])

theorem random_mem (s : Front d α) (n : Nat) (draws : Nat → Nat) (x : Cand d α) (hx : x ∈ (s.getRandom n draws).1) : x ∈ s.refresh.pareto := by
  unfold Front.getRandom at hx
  simp only at hx
  split at hx
  · exact hx
  · obtain ⟨k, -, hk⟩ := List.mem_filterMap.1 hx
    exact List.mem_of_getElem? hk

theorem filterMap_length (l : List (Cand d α)) (hl : 0 < l.length) (g : Nat → Nat) (ks : List Nat) :
    (ks.filterMap fun k => l[g k % l.length]?).length = ks.length := by
  induction ks with
  | nil => rfl
  | cons a ks ih =>
    rw [List.filterMap_cons, List.getElem?_eq_getElem (Nat.mod_lt _ hl)]
    simp [ih]

theorem scored_mem {β : Type} [LinearOrder β] (s : Front d α) (n t : Nat) (ht : 0 < t) (draws : Nat → Nat → Nat)
    (score : List (Cand d α) → List (Cand d α) → β) (hn : n < s.refresh.pareto.length) :
    (s.getScored n t draws score).1.length = n ∧ ∀ x ∈ (s.getScored n t draws score).1, x ∈ s.refresh.pareto := by
  unfold Front.getScored
  simp only
  rw [if_neg (by omega)]
  set subsets := (List.range t).map (fun t => (List.range n).filterMap (fun k => s.refresh.pareto[draws t k % s.refresh.pareto.length]?)) with hsub
  have hP : ∀ l ∈ subsets, l.length = n ∧ ∀ x ∈ l, x ∈ s.refresh.pareto := by
    intro l hl
    obtain ⟨k, -, hk⟩ := List.mem_map.1 hl
    subst hk
    refine ⟨by rw [filterMap_length _ (by omega)]; simp, ?_⟩
    intro x hx
    obtain ⟨k, -, hk⟩ := List.mem_filterMap.1 hx
    exact List.mem_of_getElem? hk
  have hlen : subsets.length = t := by simp [hsub]
  have harg : ∀ l : List β, l ≠ [] → argmin l < l.length := by
    intro l
    induction l with
    | nil => intro h; exact absurd rfl h
    | cons a r ih =>
      intro _
      match r, ih with
      | [], _ => simp [argmin]
      | b :: r, ih =>
        have := ih (by simp)
        simp only [argmin]
        split
        · split
          · simp
          · simpa using this
        · simp
  have hlt := harg (subsets.map (score s.refresh.pareto)) (by
    intro hc
    have := congrArg List.length hc
    simp [hlen] at this
    omega)
  rw [List.length_map] at hlt
  rw [List.getElem?_eq_getElem hlt, Option.getD_some]
  exact hP _ (List.getElem_mem hlt)

/-- **C143.** All recommendations are evaluated if there are at most `size` of them or no size is given; otherwise some recommendations are selected, at most `size` of them. -/
theorem select_spec (vol : (Fin d → α) → List (Fin d → α) → α) (size : Option Nat) (subset : String) (t : Nat) (ht : 0 < t) (draws : Nat → Nat → Nat)
    (score : String → List (Cand d α) → List (Cand d α) → α) (recs l : List (Cand d α)) (h : select vol size subset t draws score recs = some l) :
    (∀ x ∈ l, x ∈ recs) ∧ (∀ n, size = some n → l.length ≤ n) ∧ ((∀ n, size = some n → recs.length ≤ n) → l = recs) := by
  unfold select at h
  cases size with
  | none =>
    simp only [Option.some.injEq] at h
    subst h
    exact ⟨fun x hx => hx, by simp, fun _ => rfl⟩
  | some n =>
    simp only at h
    split at h
    · rename_i hle
      injection h with h
      subst h
      refine ⟨fun x hx => hx, ?_, fun _ => rfl⟩
      intro m hm
      injection hm with hm
      omega
    · rename_i hgt
      have hsub : ∀ x ∈ (extend vol (Hyper.init none 15) false recs).1.pf.refresh.pareto, x ∈ recs := by
        intro x hx
        rcases extend_subset vol recs _ _ x (refresh_subset _ x hx) with h1 | h1
        · simp [Hyper.init, empty] at h1
        · exact h1
      have habs : (∀ m, some n = some m → recs.length ≤ m) → l = recs := fun hc => absurd (hc n rfl) hgt
      split at h
      · rename_i hfl
        injection h with h
        subst h
        refine ⟨hsub, ?_, habs⟩
        intro m hm
        injection hm with hm
        omega
      · rename_i hfg
        split at h
        · injection h with h
          subst h
          refine ⟨fun x hx => hsub x (random_mem _ _ _ x hx), ?_, habs⟩
          intro m hm
          injection hm with hm
          subst hm
          unfold Front.getRandom
          simp only
          rw [if_neg hfg, filterMap_length _ (by omega)]
          simp
        · split at h
          · cases h
          · split at h
            · injection h with h
              subst h
              obtain ⟨s1, s2⟩ := scored_mem (extend vol (Hyper.init none 15) false recs).1.pf n t ht draws (score subset) (by omega)
              refine ⟨fun x hx => hsub x (s2 x hx), ?_, habs⟩
              intro m hm
              injection hm with hm
              omega
            · cases h

/-- **C143.** The score is the held-out loss of one of the recommendations; without a selection it is the least one, and a selection never makes it lower. -/
theorem evaluate_spec (vol : (Fin d → α) → List (Fin d → α) → α) (ev : Cand d α → α) (size : Option Nat) (subset : String) (t : Nat) (ht : 0 < t) (draws : Nat → Nat → Nat)
    (score : String → List (Cand d α) → List (Cand d α) → α) (recs : List (Cand d α)) (v : α) (h : evaluate vol ev size subset t draws score recs = some v) :
    (∃ c ∈ recs, v = ev c) ∧ ((∀ n, size = some n → recs.length ≤ n) → ∀ c ∈ recs, v ≤ ev c) := by
  unfold evaluate at h
  rw [Option.bind_eq_some_iff] at h
  obtain ⟨l, hl, hv⟩ := h
  obtain ⟨h1, -, h3⟩ := select_spec vol size subset t ht draws score recs l hl
  rw [List.min?_eq_some_iff] at hv
  obtain ⟨hv1, hv2⟩ := hv
  rw [List.mem_map] at hv1
  obtain ⟨c, hc, hcv⟩ := hv1
  refine ⟨⟨c, h1 c hc, hcv.symm⟩, ?_⟩
  intro hs c hc
  rw [← h3 hs] at hc
  exact hv2 _ (List.mem_map_of_mem hc)

/-- **C143.** No error without a selection. -/
theorem evaluate_exists (vol : (Fin d → α) → List (Fin d → α) → α) (ev : Cand d α → α) (size : Option Nat) (subset : String) (t : Nat) (draws : Nat → Nat → Nat)
    (score : String → List (Cand d α) → List (Cand d α) → α) (recs : List (Cand d α)) (hne : recs ≠ []) (hs : ∀ n, size = some n → recs.length ≤ n) :
    ∃ v, evaluate vol ev size subset t draws score recs = some v := by
  have : select vol size subset t draws score recs = some recs := by
    unfold select
    cases size with
    | none => rfl
    | some n => simp only; rw [if_pos (hs n rfl)]
  unfold evaluate
  rw [this]
  simp only [Option.bind_some]
  cases hm : (recs.map ev).min? with
  | none =>
    rw [List.min?_eq_none_iff] at hm
    simp at hm
    exact absurd hm hne
  | some v => exact ⟨v, rfl⟩

/-- No candidate of the list beats another one: what `optimizer.pareto_front()` returns. -/
def Mutual (recs : List (Cand d α)) : Prop := ∀ a ∈ recs, ∀ b ∈ recs, ¬ ((∀ i, a.losses i ≤ b.losses i) ∧ ∃ i, a.losses i < b.losses i)

/-- The state during the automatic bounds: all candidates are kept, the bound is above each of them, and at each coordinate it is one of them. -/
theorem auto_inv (hd : 0 < d) (vol : (Fin d → α) → List (Fin d → α) → α) : ∀ (cs : List (Cand d α)) (done : List (Cand d α)) (h : Hyper d α) (b : Bool),
    Mutual (done ++ cs) → h.pf.pareto = done → cs.length ≤ h.autoBound →
    (∀ u, h.upper = some u → ∃ a ∈ done, ∀ i, a.losses i ≤ u i) →
    (extend vol h b cs).1.pf.pareto = done ++ cs ∧ (extend vol h b cs).2 = b := by
  intro cs
  induction cs with
  | nil => intro done h b _ hp _ _; simp [extend, hp]
  | cons c cs ih =>
    intro done h b hm hp hl hu
    have hpos : 0 < h.autoBound := by simp at hl; omega
    have hne : (h.autoBound == 0) = false := by simp; omega
    have hstep : extend vol h b (c :: cs) = extend vol (h.add vol false c).2 b cs := by
      rw [extend]
      cases h.upper with
      | none => simp
      | some u => simp [hne]
    rw [hstep]
    have hadd : (h.add vol false c).2.pf.pareto = done ++ [c] ∧ (h.add vol false c).2.autoBound = h.autoBound - 1 ∧
        (∀ u, (h.add vol false c).2.upper = some u → ∃ a ∈ done ++ [c], ∀ i, a.losses i ≤ u i) := by
      unfold Hyper.add
      rw [if_pos hpos]
      simp only
      cases hup : h.upper with
      | none =>
        refine ⟨by simp [Front.add, hp], rfl, ?_⟩
        intro u hu'
        injection hu' with hu'
        exact ⟨c, by simp, fun i => by rw [← hu']⟩
      | some u =>
        simp only
        have hnot : ¬ ∀ i, u i < c.losses i := by
          intro hall
          obtain ⟨a, ha, hau⟩ := hu u hup
          exact hm a (by simp [ha]) c (by simp) ⟨fun i => (lt_of_le_of_lt (hau i) (hall i)).le, ⟨⟨0, hd⟩, lt_of_le_of_lt (hau _) (hall _)⟩⟩
        rw [if_neg (by simpa using hnot)]
        refine ⟨by simp [Front.add, hp], rfl, ?_⟩
        intro u' hu'
        injection hu' with hu'
        exact ⟨c, by simp, fun i => by rw [← hu']; exact le_max_right _ _⟩
    obtain ⟨a1, a2, a3⟩ := hadd
    have := ih (done ++ [c]) (h.add vol false c).2 b (by simpa using hm) a1 (by rw [a2]; simp at hl; omega) a3
    simpa using this

theorem extend_flag (vol : (Fin d → α) → List (Fin d → α) → α) (recs : List (Cand d α)) (hd : 0 < d) (hm : Mutual recs) (h15 : recs.length ≤ 15) :
    (extend vol (Hyper.init none 15) false recs).1.pf.pareto = recs ∧ (extend vol (Hyper.init none 15) false recs).2 = false := by
  have := auto_inv hd vol recs [] (Hyper.init none 15) false (by simpa using hm) rfl (by simpa [Hyper.init] using h15) (by simp [Hyper.init])
  simpa using this

theorem refresh_mutual (s : Front d α) (hm : Mutual s.pareto) : s.refresh.pareto = s.pareto := by
  unfold Front.refresh
  split
  · unfold Front.filter
    simp only
    rw [List.filter_eq_self]
    intro a ha
    rw [Bool.not_eq_true', List.any_eq_false]
    intro b hb hc
    exact hm b hb a ha ((beats_iff b a).1 hc)
  · rfl

/-- **C143.** With at most 15 recommendations of a Pareto front, the selections other than with the hypervolume succeed and give exactly `size` recommendations. -/
theorem select_few_partial (vol : (Fin d → α) → List (Fin d → α) → α) (n : Nat) (subset : String)
    (hsub : subset ∈ ["random", "loss-covering", "EPS", "domain-covering"]) (t : Nat) (ht : 0 < t) (draws : Nat → Nat → Nat)
    (score : String → List (Cand d α) → List (Cand d α) → α) (recs : List (Cand d α)) (hd : 0 < d) (hm : Mutual recs) (hn : n < recs.length) (h15 : recs.length ≤ 15) :
    ∃ l, select vol (some n) subset t draws score recs = some l ∧ l.length = n := by
  obtain ⟨e1, e2⟩ := extend_flag vol recs hd hm h15
  have e3 : (extend vol (Hyper.init none 15) false recs).1.pf.refresh.pareto = recs := by
    rw [refresh_mutual _ (by rw [e1]; exact hm), e1]
  unfold select
  simp only
  rw [if_neg (by omega), if_neg (by rw [e3]; omega)]
  obtain ⟨s1, -⟩ := scored_mem (extend vol (Hyper.init none 15) false recs).1.pf n t ht draws (score subset) (by rw [e3]; omega)
  simp only [List.mem_cons, List.not_mem_nil, or_false] at hsub
  rcases hsub with h | h | h | h <;> subst h
  · refine ⟨_, rfl, ?_⟩
    unfold Front.getRandom
    simp only
    rw [if_neg (by rw [e3]; omega), filterMap_length _ (by rw [e3]; omega)]
    simp
  · exact ⟨_, rfl, s1⟩
  · exact ⟨_, rfl, s1⟩
  · exact ⟨_, rfl, s1⟩

/-- **C143 (disagreement).** The selection with the hypervolume raises for every Pareto front of at most 15 recommendations which is larger than `size` (12 by default): without upper bounds these 15 points only set them,
and no indicator exists. -/
theorem hypervolume_raises (vol : (Fin d → α) → List (Fin d → α) → α) (ev : Cand d α → α) (n t : Nat) (draws : Nat → Nat → Nat)
    (score : String → List (Cand d α) → List (Cand d α) → α) (recs : List (Cand d α)) (hd : 0 < d) (hm : Mutual recs) (hn : n < recs.length) (h15 : recs.length ≤ 15) :
    evaluate vol ev (some n) "hypervolume" t draws score recs = none := by
  obtain ⟨e1, e2⟩ := extend_flag vol recs hd hm h15
  have e3 : (extend vol (Hyper.init none 15) false recs).1.pf.refresh.pareto = recs := by
    rw [refresh_mutual _ (by rw [e1]; exact hm), e1]
  unfold evaluate select
  simp only
  rw [if_neg (by omega), if_neg (by rw [e3]; omega), if_neg (by decide), if_pos (by rw [e2]; decide)]
  rfl

end eval

/-- `k` points on a line, none of which beats another one. -/
def line (k : Nat) : List (Cand 2 ℚ) := (List.range k).map fun i => ⟨i, ![(i : ℚ), -(i : ℚ)]⟩

theorem line_mutual (k : Nat) : Mutual (line k) := by
  intro a ha b hb ⟨h1, h2⟩
  unfold line at ha hb
  rw [List.mem_map] at ha hb
  obtain ⟨i, -, rfl⟩ := ha
  obtain ⟨j, -, rfl⟩ := hb
  have a0 := h1 0
  have a1 := h1 1
  obtain ⟨c, hc⟩ := h2
  simp at a0 a1
  have hij : i = j := by omega
  subst hij
  fin_cases c <;> simp at hc

/-- The default size and 13 recommendations. -/
example (vol) (draws) (score) : evaluate vol (fun c => c.losses 0) (some 12) "hypervolume" 30 draws score (line 13) = none :=
  hypervolume_raises vol _ 12 30 draws score _ (by decide) (line_mutual 13) (by decide) (by decide)

example : evaluate (fun _ _ => 0) (fun c => c.losses 1) (some 3) "random" 30 (fun _ k => 2 * k) (fun _ _ _ => 0) (line 5) = some (-4) := by decide +kernel

example : evaluate (fun _ _ => 0) (fun c => c.losses 1) (some 5) "hypervolume" 30 (fun _ k => 2 * k) (fun _ _ _ => 0) (line 5) = some (-4) := by decide +kernel

/-! ### Copies -/

/-- **C143 (disagreement).** A copy of a special experiment has the parametrization object of the original, and of the originally given experiment, whatever the number of copies; its experiments are new. -/
theorem copy_shares (experiment evaluation : Exp) (ks : List Nat) :
    (ks.foldl (fun s k => Obj.copy k s) (Obj.new experiment evaluation)).param = (Obj.new experiment evaluation).param ∧
    (Obj.new experiment evaluation).param = experiment.param := by
  have : ∀ (ks : List Nat) (s : Obj), s.param = s.recorded.param → (ks.foldl (fun s k => Obj.copy k s) s).param = s.param := by
    intro ks
    induction ks with
    | nil => intro s _; rfl
    | cons k ks ih =>
      intro s hs
      rw [List.foldl_cons, ih]
      · exact hs.symm
      · rfl
  exact ⟨this ks _ rfl, rfl⟩

/-- **C143.** The experiments of a copy are new objects, and so are their parametrizations: they differ from every earlier object. -/
theorem copy_fresh (k : Nat) (s : Obj) (h : s.experiment.inst < k ∧ s.experiment.param < k ∧ s.evaluation.inst < k ∧ s.evaluation.param < k) :
    (s.copy k).experiment.inst ≠ s.experiment.inst ∧ (s.copy k).experiment.param ≠ s.experiment.param ∧
    (s.copy k).evaluation.inst ≠ s.evaluation.inst ∧ (s.copy k).evaluation.param ≠ s.evaluation.param ∧ (s.copy k).experiment.inst ≠ (s.copy k).evaluation.inst := by
  obtain ⟨a, b, c, e⟩ := h
  simp only [Obj.copy, Exp.copy]
  omega

example : ((Obj.new ⟨0, 1⟩ ⟨2, 3⟩).copy 4).param = 1 ∧ ((Obj.new ⟨0, 1⟩ ⟨2, 3⟩).copy 4).experiment.param = 4 := by decide

end CrossVal
end NG
