import Verif.Model.Queue

/-! Helper lemmas for `OrderedSet` and `UidQueue`. -/

namespace NG
namespace OrderedSet
variable {α : Type} [DecidableEq α]

theorem map_remove (d : List (α × Nat)) (k : α) :
    (remove d k).map (·.1) = (d.map (·.1)).filter (fun x => !(x == k)) := by
  unfold remove
  induction d with
  | nil => rfl
  | cons e d ih =>
    by_cases h : e.1 = k <;> simp [h, ih]

theorem iter_add (s : OrderedSet α) (k : α) :
    (s.add k).iter = s.iter.filter (fun x => !(x == k)) ++ [k] := by
  unfold iter add
  simp only [List.map_append, map_remove, List.map_cons, List.map_nil]

theorem contains_iff (s : OrderedSet α) (k : α) : s.contains k = true ↔ k ∈ s.iter := by
  unfold contains iter
  simp only [List.any_eq_true, beq_iff_eq, List.mem_map]

theorem discard_some (s : OrderedSet α) (k : α) (h : k ∈ s.iter) :
    s.discard k = some { s with data := remove s.data k } := by
  unfold discard
  rw [if_pos ((contains_iff s k).2 h)]

theorem discard_none (s : OrderedSet α) (k : α) (h : k ∉ s.iter) : s.discard k = none := by
  unfold discard
  rw [if_neg]
  intro hc
  exact h ((contains_iff s k).1 hc)

theorem iter_remove (s : OrderedSet α) (k : α) :
    ({ s with data := remove s.data k } : OrderedSet α).iter = s.iter.filter (fun x => !(x == k)) := by
  unfold iter
  exact map_remove _ _

theorem filter_ne_of_notMem (l : List α) (k : α) (h : k ∉ l) :
    l.filter (fun x => !(x == k)) = l := by
  rw [List.filter_eq_self]
  intro a ha
  have : a ≠ k := fun e => h (e ▸ ha)
  simp [this]

theorem mem_filter_ne (l : List α) (k x : α) :
    x ∈ l.filter (fun x => !(x == k)) ↔ x ∈ l ∧ x ≠ k := by
  simp [List.mem_filter]

theorem nodup_add (s : OrderedSet α) (k : α) (h : s.iter.Nodup) : (s.add k).iter.Nodup := by
  rw [iter_add, List.nodup_append]
  refine ⟨h.filter _, by simp, ?_⟩
  intro a ha b hb
  rw [mem_filter_ne] at ha
  simp only [List.mem_singleton] at hb
  subst hb
  exact ha.2

theorem mem_add (s : OrderedSet α) (k x : α) : x ∈ (s.add k).iter ↔ x = k ∨ x ∈ s.iter := by
  rw [iter_add, List.mem_append, mem_filter_ne]
  simp only [List.mem_singleton]
  by_cases h : x = k <;> simp [h]

end OrderedSet

namespace UidQueue
variable {α : Type} [DecidableEq α]

theorem tell_asked_iter (q : UidQueue α) (u : α) :
    (q.tell u).asked.iter = q.asked.iter.filter (fun x => !(x == u)) := by
  unfold tell
  by_cases h : u ∈ q.asked.iter
  · rw [OrderedSet.discard_some _ _ h]
    exact OrderedSet.iter_remove _ _
  · rw [OrderedSet.discard_none _ _ h]
    exact (OrderedSet.filter_ne_of_notMem _ _ h).symm

theorem tell_told (q : UidQueue α) (u : α) : (q.tell u).told = q.told ++ [u] := rfl

end UidQueue
end NG
