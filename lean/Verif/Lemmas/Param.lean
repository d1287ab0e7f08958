import Verif.Model.Param
import Mathlib.Tactic.Linarith

/-! Lemmas on parameter trees. -/

namespace NG
namespace Param
variable {V : Type}

theorem PT.ind {P : PT V → Prop} (h : ∀ i s, (∀ t ∈ s, P t) → P (.mk i s)) : ∀ t, P t :=
  fun t => PT.rec (motive_1 := P) (motive_2 := fun l => ∀ t ∈ l, P t) h
    (by intro e he; cases he)
    (by
      intro a l ha hl' e he
      rcases List.mem_cons.1 he with rfl | he
      · exact ha
      · exact hl' e he) t

theorem infosL_append (a b : List (PT V)) : infosL (a ++ b) = infosL a ++ infosL b := by
  induction a with
  | nil => rfl
  | cons t ts ih => simp [infosL, ih]

theorem mem_infosL (l : List (PT V)) (i : Info V) : i ∈ infosL l ↔ ∃ t ∈ l, i ∈ infos t := by
  induction l with
  | nil => simp [infosL]
  | cons t ts ih => simp [infosL, ih]

theorem mapIL_eq (f : Info V → Info V) (l : List (PT V)) : mapIL f l = l.map (mapI f) := by
  induction l with
  | nil => rfl
  | cons t ts ih => simp [mapIL, ih]

theorem infos_mapI (f : Info V → Info V) : ∀ t : PT V, infos (mapI f t) = (infos t).map f := by
  apply PT.ind
  intro i s ih
  simp only [mapI, infos, List.map_cons, List.cons.injEq, true_and]
  induction s with
  | nil => rfl
  | cons t ts ih2 =>
    simp only [mapIL, infosL, List.map_append]
    rw [ih t List.mem_cons_self, ih2 (fun u hu => ih u (List.mem_cons_of_mem _ hu))]

theorem infosL_mapIL (f : Info V → Info V) (l : List (PT V)) : infosL (mapIL f l) = (infosL l).map f := by
  induction l with
  | nil => rfl
  | cons t ts ih => simp [mapIL, infosL, ih, infos_mapI]

theorem mapI_congr (f g : Info V → Info V) : ∀ t : PT V, (∀ i ∈ infos t, f i = g i) → mapI f t = mapI g t := by
  apply PT.ind
  intro i s ih h
  simp only [mapI]
  rw [h i (by simp [infos])]
  congr 1
  have h' : ∀ j ∈ infosL s, f j = g j := fun j hj => h j (by simp [infos, hj])
  clear h
  induction s with
  | nil => rfl
  | cons t ts ih2 =>
    simp only [mapIL]
    rw [ih t List.mem_cons_self (fun j hj => h' j (by simp [infosL, hj])),
      ih2 (fun u hu => ih u (List.mem_cons_of_mem _ hu)) (fun j hj => h' j (by simp [infosL, hj]))]

theorem mapI_id : ∀ t : PT V, mapI (fun i => i) t = t := by
  apply PT.ind
  intro i s ih
  simp only [mapI]
  congr 1
  induction s with
  | nil => rfl
  | cons t ts ih2 =>
    simp only [mapIL]
    rw [ih t List.mem_cons_self, ih2 (fun u hu => ih u (List.mem_cons_of_mem _ hu))]

theorem mapIL_same (f : Info V → Info V) (l : List (PT V)) (h : ∀ i ∈ infosL l, f i = i) : mapIL f l = l := by
  rw [mapIL_eq]
  conv_rhs => rw [← List.map_id l]
  apply List.map_congr_left
  intro t ht
  rw [mapI_congr f (fun i => i) t (fun i hi => h i ((mem_infosL _ _).2 ⟨t, ht, hi⟩)), mapI_id]
  rfl

theorem mapI_info (f : Info V → Info V) (t : PT V) : (mapI f t).info = f t.info := by
  cases t; rfl

theorem info_mem (t : PT V) : t.info ∈ infos t := by
  cases t; simp [infos, PT.info]

theorem find_spec (a : Nat) : ∀ t r : PT V, find a t = some r → r.info.addr = a ∧ ∀ i ∈ infos r, i ∈ infos t := by
  apply PT.ind (P := fun t => ∀ r, find a t = some r → r.info.addr = a ∧ ∀ i ∈ infos r, i ∈ infos t)
  intro i s ih r h
  simp only [find] at h
  by_cases ha : i.addr = a
  · rw [if_pos ha] at h
    cases h
    exact ⟨ha, fun _ h => h⟩
  · rw [if_neg ha] at h
    have key : r.info.addr = a ∧ ∀ i ∈ infos r, i ∈ infosL s := by
      clear ha
      induction s with
      | nil => cases h
      | cons t ts ih2 =>
        simp only [findL] at h
        cases ht : find a t with
        | some u =>
          rw [ht] at h
          cases h
          obtain ⟨h1, h2⟩ := ih t List.mem_cons_self r ht
          exact ⟨h1, fun i hi => by simp [infosL, h2 i hi]⟩
        | none =>
          rw [ht] at h
          obtain ⟨h1, h2⟩ := ih2 (fun u hu => ih u (List.mem_cons_of_mem _ hu)) h
          exact ⟨h1, fun i hi => by simp [infosL, h2 i hi]⟩
    exact ⟨key.1, fun j hj => by simp [infos, key.2 j hj]⟩

theorem findL_spec (a : Nat) (l : List (PT V)) (r : PT V) (h : findL a l = some r) :
    r.info.addr = a ∧ ∀ i ∈ infos r, i ∈ infosL l := by
  induction l with
  | nil => cases h
  | cons t ts ih2 =>
    simp only [findL] at h
    cases ht : find a t with
    | some u =>
      rw [ht] at h
      cases h
      obtain ⟨h1, h2⟩ := find_spec a t r ht
      exact ⟨h1, fun i hi => by simp [infosL, h2 i hi]⟩
    | none =>
      rw [ht] at h
      obtain ⟨h1, h2⟩ := ih2 h
      exact ⟨h1, fun i hi => by simp [infosL, h2 i hi]⟩

/-- Every address which occurs is found. -/
theorem find_isSome (a : Nat) : ∀ t : PT V, (∃ i ∈ infos t, i.addr = a) → (find a t).isSome := by
  apply PT.ind
  intro i s ih h
  simp only [find]
  by_cases ha : i.addr = a
  · rw [if_pos ha]; rfl
  · rw [if_neg ha]
    obtain ⟨j, hj, hja⟩ := h
    simp only [infos, List.mem_cons] at hj
    rcases hj with rfl | hj
    · exact (ha hja).elim
    · clear ha
      induction s with
      | nil => simp [infosL] at hj
      | cons t ts ih2 =>
        simp only [findL]
        cases ht : find a t with
        | some u => rfl
        | none =>
          simp only [infosL, List.mem_append] at hj
          rcases hj with hj | hj
          · have := ih t List.mem_cons_self ⟨j, hj, hja⟩
            rw [ht] at this; cases this
          · exact ih2 (fun u hu => ih u (List.mem_cons_of_mem _ hu)) hj

theorem findL_isSome (a : Nat) (l : List (PT V)) (h : ∃ i ∈ infosL l, i.addr = a) : (findL a l).isSome := by
  induction l with
  | nil => simp [infosL] at h
  | cons t ts ih =>
    simp only [findL]
    cases ht : find a t with
    | some u => rfl
    | none =>
      obtain ⟨j, hj, hja⟩ := h
      simp only [infosL, List.mem_append] at hj
      rcases hj with hj | hj
      · have := find_isSome a t ⟨j, hj, hja⟩
        rw [ht] at this; cases this
      · exact ih ⟨j, hj, hja⟩

/-- Copy of one object. -/
def copyI (i : Info V) (n : Nat) : Info V :=
  { i with
    addr := n
    uid := n
    frozen := false
    loss := false
    arr := if i.kind = .data then n else i.arr }

theorem copy_infos : ∀ t : PT V, ∀ n, infos (copyT t n).1 = (infos t).mapIdx (fun k i => copyI i (n + k)) ∧
    (copyT t n).2 = n + (infos t).length := by
  apply PT.ind (P := fun t => ∀ n, infos (copyT t n).1 = (infos t).mapIdx (fun k i => copyI i (n + k)) ∧
    (copyT t n).2 = n + (infos t).length)
  intro i s ih n
  have key : ∀ m, infosL (copyL s m).1 = (infosL s).mapIdx (fun k i => copyI i (m + k)) ∧ (copyL s m).2 = m + (infosL s).length := by
    induction s with
    | nil => intro m; exact ⟨rfl, rfl⟩
    | cons t ts ih2 =>
      intro m
      obtain ⟨h1, h2⟩ := ih t List.mem_cons_self m
      obtain ⟨h3, h4⟩ := ih2 (fun u hu => ih u (List.mem_cons_of_mem _ hu)) (copyT t m).2
      simp only [copyL, infosL]
      rw [h1, h3, h4, h2, List.mapIdx_append, List.length_append]
      refine ⟨?_, by omega⟩
      congr 1
      apply List.ext_getElem
      · simp
      · intro k hk1 hk2
        simp only [List.getElem_mapIdx]
        congr 1
        omega
  obtain ⟨h1, h2⟩ := key (n + 1)
  simp only [copyT, infos]
  rw [h1, h2, List.mapIdx_cons, List.length_cons]
  refine ⟨?_, by omega⟩
  congr 1
  apply List.ext_getElem
  · simp
  · intro k hk1 hk2
    simp only [List.getElem_mapIdx]
    congr 1
    omega

/-- Child of one object. -/
def childI (i : Info V) (n : Nat) : Info V := { copyI i n with gen := i.gen + 1, parents := [i.uid] }

theorem child_infos : ∀ t : PT V, ∀ n, infos (setParent (copyT t n).1 t) = (infos t).mapIdx (fun k i => childI i (n + k)) := by
  apply PT.ind (P := fun t => ∀ n, infos (setParent (copyT t n).1 t) = (infos t).mapIdx (fun k i => childI i (n + k)))
  intro i s ih n
  have key : ∀ m, infosL (setParentL (copyL s m).1 s) = (infosL s).mapIdx (fun k i => childI i (m + k)) := by
    induction s with
    | nil => intro m; rfl
    | cons t ts ih2 =>
      intro m
      have h1 := ih t List.mem_cons_self m
      have h3 := ih2 (fun u hu => ih u (List.mem_cons_of_mem _ hu)) (copyT t m).2
      simp only [copyL, setParentL, infosL]
      rw [h1, h3, (copy_infos t m).2, List.mapIdx_append]
      congr 1
      apply List.ext_getElem
      · simp
      · intro k hk1 hk2
        simp only [List.getElem_mapIdx]
        congr 1
        omega
  simp only [copyT, setParent, infos]
  rw [key (n + 1), List.mapIdx_cons]
  congr 1
  apply List.ext_getElem
  · simp
  · intro k hk1 hk2
    simp only [List.getElem_mapIdx]
    congr 1
    omega

theorem mem_mapIdx {A B : Type} (l : List A) (f : Nat → A → B) (b : B) (h : b ∈ l.mapIdx f) : ∃ k a, k < l.length ∧ l[k]? = some a ∧ b = f k a := by
  obtain ⟨k, hk, rfl⟩ := List.mem_iff_getElem.1 h
  rw [List.length_mapIdx] at hk
  exact ⟨k, l[k], hk, List.getElem?_eq_getElem hk, by simp⟩

end Param
end NG
