/-
C156: the optimizers of groups: each once, in the order of the groups.
-/
import Verif.Model.OptGroups
import Mathlib.Data.List.Perm.Basic
import Mathlib.Tactic.Common

namespace NG.OptGroups

/-- Specification: the same registered name, or the same class and configuration. -/
def Same (a b : Optim) : Prop :=
  (∃ s, a = .name s ∧ b = .name s) ∨ ∃ c k n m, a = .conf c k n ∧ b = .conf c k m

theorem same_iff (a b : Optim) : a.same b = true ↔ Same a b := by
  unfold Same
  cases a <;> cases b <;> simp [Optim.same]
  exact eq_comm

theorem same_refl (a : Optim) : Same a a := by
  cases a with
  | name s => exact Or.inl ⟨s, rfl, rfl⟩
  | conf c k n => exact Or.inr ⟨c, k, n, n, rfl, rfl⟩

theorem same_symm {a b : Optim} (h : Same a b) : Same b a := by
  rcases h with ⟨s, rfl, rfl⟩ | ⟨c, k, n, m, rfl, rfl⟩
  · exact Or.inl ⟨s, rfl, rfl⟩
  · exact Or.inr ⟨c, k, m, n, rfl, rfl⟩

theorem same_trans {a b c : Optim} (h : Same a b) (h' : Same b c) : Same a c := by
  rw [← same_iff] at *
  cases a <;> cases b <;> cases c <;> simp_all [Optim.same]

/-- Specification: the first optimizer of each kind, in order. -/
def firsts : List Optim → List Optim
  | [] => []
  | o :: l => o :: (firsts l).filter fun x => !o.same x

theorem any_iff (l : List Optim) (o : Optim) : l.any (fun x => x.same o) = true ↔ ∃ x ∈ l, Same x o := by
  simp [List.any_eq_true, same_iff]

theorem firsts_subset (l : List Optim) (x : Optim) (h : x ∈ firsts l) : x ∈ l := by
  induction l with
  | nil => exact h
  | cons o l ih =>
    rcases List.mem_cons.1 h with rfl | h
    · simp
    · exact List.mem_cons_of_mem _ (ih (List.mem_filter.1 h).1)

theorem firsts_covers (l : List Optim) (x : Optim) (h : x ∈ l) : ∃ y ∈ firsts l, Same y x := by
  induction l with
  | nil => simp at h
  | cons o l ih =>
    rcases List.mem_cons.1 h with rfl | h
    · exact ⟨x, by simp [firsts], same_refl x⟩
    · obtain ⟨y, hy, hs⟩ := ih h
      by_cases ho : Same o y
      · exact ⟨o, by simp [firsts], same_trans ho hs⟩
      · refine ⟨y, ?_, hs⟩
        simp only [firsts, List.mem_cons, List.mem_filter, Bool.not_eq_true']
        right
        refine ⟨hy, ?_⟩
        rw [← Bool.not_eq_true, same_iff]
        exact ho

open Classical in
theorem firsts_snoc (l : List Optim) (o : Optim) : firsts (l ++ [o]) = if (∃ x ∈ l, Same x o) then firsts l else firsts l ++ [o] := by
  classical
  induction l with
  | nil => simp [firsts]
  | cons a l ih =>
    rw [List.cons_append, firsts, ih, firsts]
    by_cases ha : Same a o
    · have hp : ∃ x ∈ a :: l, Same x o := ⟨a, by simp, ha⟩
      rw [if_pos hp]
      split
      · rfl
      · rw [List.filter_append]
        have : ([o].filter fun x => !a.same x) = [] := by simp [(same_iff a o).2 ha]
        rw [this, List.append_nil]
    · have hf : a.same o = false := by rw [← Bool.not_eq_true, same_iff]; exact ha
      by_cases hl : ∃ x ∈ l, Same x o
      · obtain ⟨x, hx, hs⟩ := hl
        have h1 : ∃ x ∈ l, Same x o := ⟨x, hx, hs⟩
        have h2 : ∃ x ∈ a :: l, Same x o := ⟨x, List.mem_cons_of_mem _ hx, hs⟩
        rw [if_pos h1, if_pos h2]
      · have hn : ¬ ∃ x ∈ a :: l, Same x o := by
          rintro ⟨x, hx, hs⟩
          rcases List.mem_cons.1 hx with rfl | hx
          · exact ha hs
          · exact hl ⟨x, hx, hs⟩
        rw [if_neg hl, if_neg hn, List.filter_append]
        simp [hf]

theorem addGroup_firsts (l g : List Optim) : addGroup (firsts l) g = firsts (l ++ g) := by
  classical
  unfold addGroup
  induction g generalizing l with
  | nil => simp
  | cons o g ih =>
    rw [List.foldl_cons]
    have e : (if (firsts l).any (fun x => x.same o) then firsts l else firsts l ++ [o]) = firsts (l ++ [o]) := by
      rw [firsts_snoc]
      have : ((firsts l).any (fun x => x.same o) = true) ↔ ∃ x ∈ l, Same x o := by
        rw [any_iff]
        constructor
        · rintro ⟨x, hx, hs⟩; exact ⟨x, firsts_subset l x hx, hs⟩
        · rintro ⟨x, hx, hs⟩
          obtain ⟨y, hy, hyx⟩ := firsts_covers l x hx
          exact ⟨y, hy, same_trans hyx hs⟩
      by_cases h : ∃ x ∈ l, Same x o
      · rw [if_pos h, if_pos (this.2 h)]
      · rw [if_neg h, if_neg (fun h' => h (this.1 h'))]
    rw [e, ih]
    simp

theorem collect_firsts (registry : String → Option (List Optim)) (names : List String) (l : List Optim) :
    collect registry names (firsts l) = (names.mapM registry).map fun gs => firsts (l ++ gs.flatten) := by
  induction names generalizing l with
  | nil => simp [collect]
  | cons n names ih =>
    unfold collect
    cases hr : registry n with
    | none => simp [hr]
    | some g =>
      dsimp only
      rw [addGroup_firsts, ih]
      simp only [List.mapM_cons, hr]
      cases names.mapM registry with
      | none => rfl
      | some gs => simp

variable (registry : String → Option (List Optim)) (shuffle : Nat → List Optim → List Optim)

/-- **C156.** Without a seed the list has the first optimizer of each kind, in the order of the groups; an unknown group raises. -/
theorem get_spec (names : List String) : getOptimizers registry shuffle names none = (names.mapM registry).map fun gs => firsts gs.flatten := by
  unfold getOptimizers
  have : collect registry names [] = (names.mapM registry).map fun gs => firsts gs.flatten := by
    have := collect_firsts registry names []
    simpa [firsts] using this
  rw [this]
  cases names.mapM registry <;> rfl

/-- **C156, partial.** No two optimizers of the list are the same; each one comes from a group, and each one of the groups is the same as one of the list.
Missing: a configured optimizer and its name are not the same (`given_twice`). -/
theorem no_duplicates_partial (names : List String) (gs : List (List Optim)) (h : names.mapM registry = some gs) :
    ∃ l, getOptimizers registry shuffle names none = some l ∧ l.Pairwise (fun a b => ¬ Same a b) ∧ (∀ x ∈ l, ∃ g ∈ gs, x ∈ g) ∧ ∀ g ∈ gs, ∀ x ∈ g, ∃ y ∈ l, Same y x := by
  refine ⟨firsts gs.flatten, by rw [get_spec, h]; rfl, ?_, ?_, ?_⟩
  · generalize gs.flatten = l
    induction l with
    | nil => simp [firsts]
    | cons o l ih =>
      rw [firsts, List.pairwise_cons]
      refine ⟨fun x hx => ?_, ih.filter _⟩
      have := (List.mem_filter.1 hx).2
      rw [Bool.not_eq_true', ← Bool.not_eq_true, same_iff] at this
      exact this
  · intro x hx
    exact List.mem_flatten.1 (firsts_subset _ x hx)
  · intro g hg x hx
    exact firsts_covers _ x (List.mem_flatten.2 ⟨g, hg, hx⟩)

theorem firsts_prefix (l m : List Optim) : firsts l <+: firsts (l ++ m) := by
  classical
  induction m generalizing l with
  | nil => simp
  | cons o m ih =>
    have := ih (l ++ [o])
    rw [List.append_assoc, List.singleton_append] at this
    refine List.IsPrefix.trans ?_ this
    rw [firsts_snoc]
    split
    · exact List.prefix_refl _
    · exact List.prefix_append _ _

theorem mapM_append' (a b : List String) : (a ++ b).mapM registry = (a.mapM registry).bind fun x => (b.mapM registry).map fun y => x ++ y := by
  induction a with
  | nil =>
    rw [List.nil_append]
    cases h : List.mapM registry b <;> simp
  | cons n a ih =>
    simp only [List.cons_append, List.mapM_cons, ih]
    cases registry n <;> cases List.mapM registry a <;> cases List.mapM registry b <;> rfl

/-- **C156.** More groups only add optimizers at the end; a group that is given twice adds nothing. -/
theorem more_groups (names more : List String) (l l' : List Optim) (h : getOptimizers registry shuffle names none = some l)
    (h' : getOptimizers registry shuffle (names ++ more) none = some l') : l <+: l' ∧ ((∀ n ∈ more, n ∈ names) → l' = l) := by
  rw [get_spec, Option.map_eq_some_iff] at h h'
  obtain ⟨gs, hg, rfl⟩ := h
  obtain ⟨gs', hg', rfl⟩ := h'
  rw [mapM_append', hg] at hg'
  simp only [Option.bind_some, Option.map_eq_some_iff] at hg'
  obtain ⟨ms, hm, rfl⟩ := hg'
  rw [List.flatten_append]
  refine ⟨firsts_prefix _ _, fun hs => ?_⟩
  have hsub : ∀ x ∈ ms.flatten, x ∈ gs.flatten := by
    have key : ∀ (ns : List String) (r : List (List Optim)), ns.mapM registry = some r → (∀ n ∈ ns, ∃ g ∈ r, registry n = some g) ∧ ∀ g ∈ r, ∃ n ∈ ns, registry n = some g := by
      intro ns
      induction ns with
      | nil => intro r hr; simp at hr; subst hr; simp
      | cons n ns ih =>
        intro r hr
        rw [List.mapM_cons] at hr
        cases hn : registry n with
        | none => simp [hn] at hr
        | some g =>
          cases ht : ns.mapM registry with
          | none => simp [hn, ht] at hr
          | some t =>
            simp [hn, ht] at hr
            subst hr
            obtain ⟨h1, h2⟩ := ih t ht
            refine ⟨fun m hm => ?_, fun g' hg' => ?_⟩
            · rcases List.mem_cons.1 hm with rfl | hm
              · exact ⟨g, by simp, hn⟩
              · obtain ⟨g', hg', e⟩ := h1 m hm
                exact ⟨g', by simp [hg'], e⟩
            · rcases List.mem_cons.1 hg' with rfl | hg'
              · exact ⟨n, by simp, hn⟩
              · obtain ⟨m, hm, e⟩ := h2 g' hg'
                exact ⟨m, by simp [hm], e⟩
    intro x hx
    obtain ⟨g, hg1, hx⟩ := List.mem_flatten.1 hx
    obtain ⟨n, hn, e⟩ := (key more ms hm).2 g hg1
    obtain ⟨g', hg', e'⟩ := (key names gs hg).1 n (hs n hn)
    rw [e] at e'
    cases e'
    exact List.mem_flatten.2 ⟨g, hg', hx⟩
  generalize ms.flatten = m at hsub
  classical
  have : ∀ (m l : List Optim), (∀ x ∈ m, x ∈ l) → firsts (l ++ m) = firsts l := by
    intro m
    induction m with
    | nil => simp
    | cons o m ih =>
      intro l hl
      have e := ih (l ++ [o]) fun x hx => by simp [hl x (List.mem_cons_of_mem _ hx)]
      rw [List.append_assoc, List.singleton_append] at e
      rw [e, firsts_snoc, if_pos ⟨o, hl o (by simp), same_refl o⟩]
  exact this m _ hsub

/-- **C156.** With a seed the list has the same optimizers in another order, always the same one. -/
theorem seeded (hs : ∀ s l, (shuffle s l).Perm l) (names : List String) (seed : Nat) (l : List Optim) (h : getOptimizers registry shuffle names (some seed) = some l) :
    ∃ l', getOptimizers registry shuffle names none = some l' ∧ l.Perm l' ∧ l = shuffle seed l' := by
  unfold getOptimizers at h ⊢
  rw [Option.map_eq_some_iff] at h
  obtain ⟨l', h1, rfl⟩ := h
  exact ⟨l', by rw [h1]; rfl, hs seed l', rfl⟩

/-- **C156, negative.** Two optimizers with different names and the same configuration are taken as one: the second name disappears. -/
theorem name_lost (c : String) (k : List (String × String)) (n m : String) (hn : registry "g" = some [.conf c k n, .conf c k m]) :
    getOptimizers registry shuffle ["g"] none = some [.conf c k n] := by
  rw [get_spec]
  simp [hn, firsts, Optim.same]

/-- **C156, negative.** A name and the configured optimizer of this name are two optimizers: it will be run twice. -/
theorem given_twice (c : String) (k : List (String × String)) (n : String) (hn : registry "g" = some [.name n, .conf c k n, .name n]) :
    getOptimizers registry shuffle ["g"] none = some [.name n, .conf c k n] := by
  rw [get_spec]
  simp [hn, firsts, Optim.same]

example : getOptimizers (fun n => if n = "a" then some [.name "DE", .name "PSO", .name "DE"] else if n = "b" then some [.name "CMA", .name "PSO"] else none) (fun _ l => l)
    ["a", "b"] none = some [.name "DE", .name "PSO", .name "CMA"] := by decide

end NG.OptGroups
