import Verif.Model.Pareto
import Mathlib.Tactic.Ring
import Mathlib.Tactic.Linarith

/-!
# Lemmas on domination
-/

set_option linter.unusedSectionVars false
namespace NG
namespace Pareto
variable {α : Type} [LinearOrder α] {d : Nat}

theorem beats_iff (a b : Cand d α) : beats a b = true ↔ (∀ i, a.losses i ≤ b.losses i) ∧ ∃ i, a.losses i < b.losses i := by
  simp [beats]

theorem beats_trans {a b c : Cand d α} (h1 : beats a b = true) (h2 : beats b c = true) : beats a c = true := by
  rw [beats_iff] at *
  obtain ⟨h1, i, hi⟩ := h1
  obtain ⟨h2, _⟩ := h2
  exact ⟨fun j => le_trans (h1 j) (h2 j), i, lt_of_lt_of_le hi (h2 i)⟩

theorem beats_irrefl (a : Cand d α) : beats a a = false := by
  by_contra h
  rw [Bool.not_eq_false, beats_iff] at h
  obtain ⟨_, i, hi⟩ := h
  exact lt_irrefl _ hi

/-- Every element that is beaten is beaten by an unbeaten one. -/
theorem beaten_by_unbeaten (l : List (Cand d α)) (c : Cand d α) (h : ∃ o ∈ l, beats o c = true) :
    ∃ o ∈ l, beats o c = true ∧ ∀ o' ∈ l, beats o' o = false := by
  -- strong induction on the number of elements beating `o`
  have key : ∀ n, ∀ o ∈ l, (l.filter (fun x => beats x o)).length = n → beats o c = true →
      ∃ o ∈ l, beats o c = true ∧ ∀ o' ∈ l, beats o' o = false := by
    intro n
    induction n using Nat.strong_induction_on with
    | _ n ih =>
      intro o ho hn hoc
      by_cases hb : ∀ o' ∈ l, beats o' o = false
      · exact ⟨o, ho, hoc, hb⟩
      · push Not at hb
        obtain ⟨o', ho', hb⟩ := hb
        rw [ne_eq, Bool.not_eq_false] at hb
        have hlt : (l.filter (fun x => beats x o')).length < n := by
          rw [← hn]
          have e : l.filter (fun x => beats x o') = (l.filter (fun x => beats x o)).filter (fun x => beats x o') := by
            rw [List.filter_filter]
            apply List.filter_congr
            intro x _
            by_cases hx : beats x o' = true
            · simp [hx, beats_trans hx hb]
            · simp [hx]
          rw [e]
          apply List.length_filter_lt_length_iff_exists.2
          exact ⟨o', List.mem_filter.2 ⟨ho', hb⟩, by simp [beats_irrefl]⟩
        exact ih _ hlt o' ho' rfl (beats_trans hb hoc)
  obtain ⟨o, ho, hoc⟩ := h
  exact key _ o ho rfl hoc

/-- The undominated members of a list. -/
def nd (l : List (Cand d α)) : List (Cand d α) := l.filter (fun param => !(l.any (fun other => beats other param)))

theorem any_nd (l : List (Cand d α)) (c : Cand d α) : (nd l).any (fun o => beats o c) = l.any (fun o => beats o c) := by
  rw [Bool.eq_iff_iff, List.any_eq_true, List.any_eq_true]
  constructor
  · rintro ⟨o, ho, h⟩; exact ⟨o, (List.mem_filter.1 ho).1, h⟩
  · rintro h
    obtain ⟨o, ho, hoc, hun⟩ := beaten_by_unbeaten l c h
    refine ⟨o, List.mem_filter.2 ⟨ho, ?_⟩, hoc⟩
    rw [Bool.not_eq_true', List.any_eq_false]
    intro x hx; simp [hun x hx]

theorem nd_append_nd (l r : List (Cand d α)) : nd (nd l ++ r) = nd (l ++ r) := by
  have hany : ∀ c, ((nd l ++ r).any fun o => beats o c) = ((l ++ r).any fun o => beats o c) := by
    intro c; rw [List.any_append, List.any_append, any_nd]
  unfold nd
  conv_rhs => rw [List.filter_append]
  rw [List.filter_append]
  congr 1
  · change (nd l).filter (fun p => !((nd l ++ r).any fun o => beats o p)) = _
    unfold nd at *
    rw [List.filter_filter]
    apply List.filter_congr
    intro x _
    rw [hany x]
    rw [List.any_append]
    cases l.any (fun o => beats o x) <;> simp
  · apply List.filter_congr
    intro x _
    have := hany x
    unfold nd at this
    rw [this]

theorem nd_nd (l : List (Cand d α)) : nd (nd l) = nd l := by
  have := nd_append_nd l []
  simpa using this

end Pareto
end NG
