import Verif.Model.Tabu
import Mathlib.Data.List.Basic
import Mathlib.Data.List.Nodup
import Mathlib.Data.List.Perm.Basic
import Mathlib.Data.List.Induction

/-!
# C43: the tabu memory holds the most recently accepted values
-/

set_option linter.unusedSectionVars false

namespace NG
namespace Tabu
variable {T : Type} [DecidableEq T]

/-- Checks a chronological list of values; returns the accepted values (chronological) and the memory, or
`none` if a Python error occurs. -/
def run (len : Nat) : List T → Tabu T → Option (List T × Tabu T)
  | [], t => some ([], t)
  | v :: vs, t =>
    match t.check len v with
    | .refused => run len vs t
    | .accepted t' => (run len vs t').map (fun r => (v :: r.1, r.2))
    | .error => none

/-- Invariant: `acc` are the accepted values so far. -/
structure Rel (len : Nat) (acc : List T) (t : Tabu T) : Prop where
  length : t.list.length = min acc.length len
  index : t.index = acc.length % len
  window : t.list.drop t.index ++ t.list.take t.index = acc.drop (acc.length - len)
  perm : t.set.Perm t.list
  nodup : t.list.Nodup

theorem rel_mem (len : Nat) (acc : List T) (t : Tabu T) (h : Rel len acc t) (v : T) :
    v ∈ t.set ↔ v ∈ acc.drop (acc.length - len) := by
  rw [h.perm.mem_iff, ← h.window, List.mem_append, or_comm, ← List.mem_append, List.take_append_drop]

theorem rel_check (len : Nat) (hl : 0 < len) (acc : List T) (t : Tabu T) (h : Rel len acc t) (v : T)
    (hv : v ∉ t.set) : ∃ t', t.check len v = .accepted t' ∧ Rel len (acc ++ [v]) t' := by
  have hvl : v ∉ t.list := fun hh => hv (h.perm.mem_iff.2 hh)
  unfold check
  rw [if_neg hv]
  rcases Nat.lt_or_ge acc.length len with hlt | hge
  · -- memory not full
    have hlen : t.list.length = acc.length := by rw [h.length]; omega
    have hidx : t.index = acc.length := by rw [h.index, Nat.mod_eq_of_lt hlt]
    have hnone : t.list[t.index]? = none := by rw [List.getElem?_eq_none]; omega
    have hlist : t.list = acc := by
      have := h.window
      rw [hidx, ← hlen, List.drop_length, List.take_length, List.nil_append, hlen,
        Nat.sub_eq_zero_of_le (Nat.le_of_lt hlt), List.drop_zero] at this
      exact this
    simp only [hnone]
    rw [if_pos (by omega)]
    refine ⟨_, rfl, ⟨?_, ?_, ?_, ?_, ?_⟩⟩
    · simp only [List.length_append, List.length_singleton]; omega
    · simp only [List.length_append, List.length_singleton, hidx]
    · simp only [hlist, hidx]
      rcases Nat.lt_or_ge (acc.length + 1) len with h1 | h1
      · rw [Nat.mod_eq_of_lt h1]
        have e1 : (acc ++ [v]).length = acc.length + 1 := by simp
        rw [← e1, List.drop_length, List.take_length, List.nil_append, e1,
          Nat.sub_eq_zero_of_le (Nat.le_of_lt h1), List.drop_zero]
      · have h2 : len = acc.length + 1 := by omega
        rw [← h2, Nat.mod_self, List.drop_zero, List.take_zero, List.append_nil]
        have e1 : (acc ++ [v]).length = len := by simp [h2]
        rw [e1, Nat.sub_self, List.drop_zero]
    · exact h.perm.append_right [v]
    · rw [List.nodup_append]
      refine ⟨h.nodup, by simp, ?_⟩
      intro a ha b hb hab
      rw [List.mem_singleton] at hb; subst hb; subst hab
      exact hvl ha
  · -- memory full
    have hlen : t.list.length = len := by rw [h.length]; omega
    have hidxlt : t.index < len := by rw [h.index]; exact Nat.mod_lt _ hl
    have hil : t.index < t.list.length := by omega
    obtain ⟨A, old, B, hA, hlist⟩ : ∃ A old B, A.length = t.index ∧ t.list = A ++ old :: B := by
      refine ⟨t.list.take t.index, t.list[t.index], t.list.drop (t.index + 1), ?_, ?_⟩
      · rw [List.length_take]; omega
      · rw [← List.drop_eq_getElem_cons hil, List.take_append_drop]
    have hget : t.list[t.index]? = some old := by
      rw [hlist, ← hA, List.getElem?_append_right (Nat.le_refl _)]; simp
    have holdmem : old ∈ t.set ++ [v] := by
      rw [List.mem_append, h.perm.mem_iff, hlist]; simp
    simp only [hget]
    rw [if_pos holdmem]
    have hset : t.list.set t.index v = A ++ v :: B := by
      rw [hlist, ← hA, List.set_append_right _ _ (Nat.le_refl _)]; simp
    have hwin : old :: (B ++ A) = acc.drop (acc.length - len) := by
      rw [← h.window, hlist, ← hA, List.drop_left, List.take_left]; simp
    have hwin' : B ++ A ++ [v] = (acc ++ [v]).drop ((acc ++ [v]).length - len) := by
      have e1 : (acc ++ [v]).length - len = (acc.length - len) + 1 := by
        simp only [List.length_append, List.length_singleton]; omega
      rw [e1, List.drop_append_of_le_length (by omega), ← List.drop_drop, ← hwin]
      rfl
    have hAB : A.length + B.length + 1 = len := by
      rw [← hlen, hlist]; simp; omega
    refine ⟨_, rfl, ⟨?_, ?_, ?_, ?_, ?_⟩⟩
    · simp only [List.length_set, List.length_append, List.length_singleton]; omega
    · simp only [List.length_append, List.length_singleton, h.index]
      rw [Nat.mod_add_mod]
    · simp only [hset]
      rw [← hwin']
      rcases Nat.lt_or_ge (t.index + 1) len with h1 | h1
      · rw [Nat.mod_eq_of_lt h1, ← hA]
        have e : A ++ v :: B = (A ++ [v]) ++ B := by simp
        have e2 : A.length + 1 = (A ++ [v]).length := by simp
        rw [e, e2, List.drop_left, List.take_left]; simp
      · have hB : B = [] := by
          have : B.length = 0 := by omega
          exact List.length_eq_zero_iff.1 this
        have h2 : t.index + 1 = len := by omega
        rw [h2, Nat.mod_self, List.drop_zero, List.take_zero, hB]; simp
    · simp only [hset]
      have p1 : (t.set ++ [v]).Perm (old :: (A ++ v :: B)) := by
        refine (h.perm.append_right [v]).trans ?_
        rw [hlist]
        have : A ++ old :: B ++ [v] = A ++ old :: (B ++ [v]) := by simp
        rw [this]
        refine List.perm_middle.trans (List.Perm.cons _ ?_)
        exact List.Perm.append_left A (List.perm_append_singleton v B)
      have p2 := p1.erase old
      rw [List.erase_cons_head] at p2
      exact p2
    · simp only [hset]
      have hn := h.nodup
      rw [hlist] at hn
      rw [hlist] at hvl
      rw [List.nodup_middle] at hn ⊢
      rw [List.nodup_cons] at hn ⊢
      refine ⟨fun hm => hvl ?_, hn.2⟩
      rw [List.mem_append] at hm ⊢
      rcases hm with hm | hm
      · exact Or.inl hm
      · exact Or.inr (List.mem_cons_of_mem _ hm)

theorem run_rel (len : Nat) (hl : 0 < len) (vs acc : List T) (t : Tabu T) (h : Rel len acc t) :
    ∃ acc' t', run len vs t = some (acc', t') ∧ Rel len (acc ++ acc') t' := by
  induction vs generalizing acc t with
  | nil => exact ⟨[], t, rfl, by simpa using h⟩
  | cons v vs ih =>
    by_cases hv : v ∈ t.set
    · obtain ⟨acc', t', h1, h2⟩ := ih acc t h
      refine ⟨acc', t', ?_, h2⟩
      simp [run, check, if_pos hv, h1]
    · obtain ⟨t1, hc, hr⟩ := rel_check len hl acc t h v hv
      obtain ⟨acc', t', h1, h2⟩ := ih _ t1 hr
      refine ⟨v :: acc', t', ?_, by simpa using h2⟩
      simp [run, hc, h1]

theorem rel_empty (len : Nat) : Rel len ([] : List T) empty :=
  ⟨by simp [empty], by simp [empty], by simp [empty], by simp [empty], by simp [empty]⟩

/-- **C43.** Whatever the sequence of checked values and the (positive) tabu length, no error occurs, the
memory holds exactly the `len` most recently accepted values, each once, so at most `len`. -/
theorem tabu_memory_recent_partial (len : Nat) (hl : 0 < len) (vs : List T) :
    ∃ acc t, run len vs empty = some (acc, t) ∧ t.set.Nodup ∧ t.set.length ≤ len ∧
      ∀ v, v ∈ t.set ↔ v ∈ acc.drop (acc.length - len) := by
  obtain ⟨acc, t, h1, h2⟩ := run_rel len hl vs [] empty (rel_empty len)
  rw [List.nil_append] at h2
  refine ⟨acc, t, h1, h2.perm.nodup_iff.2 h2.nodup, ?_, rel_mem len acc t h2⟩
  rw [h2.perm.length_eq, h2.length]; omega

/-- **C43.** A value is refused iff it is among the `len` most recently accepted values; an accepted value
becomes the most recent one. -/
theorem tabu_refuses_recent (len : Nat) (hl : 0 < len) (vs : List T) (v : T) :
    ∃ acc t, run len vs empty = some (acc, t) ∧
      (v ∈ acc.drop (acc.length - len) → run len (vs ++ [v]) empty = some (acc, t)) ∧
      (v ∉ acc.drop (acc.length - len) → ∃ t', run len (vs ++ [v]) empty = some (acc ++ [v], t')) := by
  have happ : ∀ (vs : List T) t0 acc t, run len vs t0 = some (acc, t) →
      run len (vs ++ [v]) t0 = (run len [v] t).map (fun r => (acc ++ r.1, r.2)) := by
    intro vs
    induction vs with
    | nil =>
      intro t0 acc t h
      simp only [run, Option.some.injEq, Prod.mk.injEq] at h
      obtain ⟨rfl, rfl⟩ := h
      simp
    | cons w vs ih =>
      intro t0 acc t h
      simp only [run, List.cons_append] at h ⊢
      cases hc : t0.check len w with
      | refused => rw [hc] at h; simp only at h ⊢; rw [ih t0 acc t h]; rfl
      | accepted t1 =>
        rw [hc] at h; simp only at h ⊢
        rw [Option.map_eq_some_iff] at h
        obtain ⟨r, hr, he⟩ := h
        simp only [Prod.mk.injEq] at he
        obtain ⟨rfl, rfl⟩ := he
        rw [ih t1 r.1 r.2 hr]
        simp only [run]
        cases r.2.check len v <;> simp
      | error => rw [hc] at h; simp at h
  obtain ⟨acc, t, h1, h2⟩ := run_rel len hl vs [] empty (rel_empty len)
  rw [List.nil_append] at h2
  refine ⟨acc, t, h1, ?_, ?_⟩
  · intro hv
    rw [happ _ _ _ _ h1]
    have : v ∈ t.set := (rel_mem len acc t h2 v).2 hv
    simp [run, check, if_pos this]
  · intro hv
    have hv' : v ∉ t.set := fun hh => hv ((rel_mem len acc t h2 v).1 hh)
    obtain ⟨t1, hc, hr⟩ := rel_check len hl acc t h2 v hv'
    refine ⟨t1, ?_⟩
    rw [happ _ _ _ _ h1]
    simp [run, hc]

/-- **C43.** Accepted values are checked values, in order. -/
theorem tabu_accepted_sublist (len : Nat) (vs : List T) (t0 : Tabu T) (acc : List T) (t : Tabu T)
    (h : run len vs t0 = some (acc, t)) : acc.Sublist vs := by
  induction vs generalizing t0 acc with
  | nil => simp only [run, Option.some.injEq, Prod.mk.injEq] at h; rw [← h.1]
  | cons v vs ih =>
    simp only [run] at h
    cases hc : t0.check len v with
    | refused => rw [hc] at h; exact (ih _ _ h).trans (List.sublist_cons_self _ _)
    | accepted t1 =>
      rw [hc] at h; simp only [Option.map_eq_some_iff] at h
      obtain ⟨r, hr, he⟩ := h
      simp only [Prod.mk.injEq] at he
      rw [← he.1]; exact (ih t1 r.1 (by rw [hr, ← he.2])).cons_cons v
    | error => rw [hc] at h; simp at h

example : run 2 [1, 2, 1, 3, 1, 3] (empty (T := Nat)) = some ([1, 2, 3, 1], ⟨[3, 1], [3, 1], 0⟩) := by decide

end Tabu
end NG
