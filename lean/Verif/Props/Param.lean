import Verif.Lemmas.Param
import Mathlib.Data.List.Forall2

/-!
# C27, C28, C59: frozen parameters, copies and lineage
-/

namespace NG
namespace Param
variable {V : Type}

mutual
/-- Constants hold no sub-parameters (core.py 471-486). -/
def leafConst : PT V → Prop
  | .mk i s => (i.kind = .constant → s = []) ∧ leafConstL s
/-- Same, for several trees. -/
def leafConstL : List (PT V) → Prop
  | [] => True
  | t :: ts => leafConst t ∧ leafConstL ts
end

theorem leafConstL_iff (l : List (PT V)) : leafConstL l ↔ ∀ t ∈ l, leafConst t := by
  induction l with
  | nil => simp [leafConstL]
  | cons t ts ih => simp [leafConstL, ih]

theorem leafConst_mapI (f : Info V → Info V) (hf : ∀ i, (f i).kind = i.kind) : ∀ t : PT V, leafConst t → leafConst (mapI f t) := by
  apply PT.ind
  intro i s ih h
  simp only [mapI, leafConst]
  refine ⟨?_, ?_⟩
  · intro hk
    rw [hf] at hk
    rw [h.1 hk]; rfl
  · rw [mapIL_eq, leafConstL_iff]
    intro t ht
    obtain ⟨u, hu, rfl⟩ := List.mem_map.1 ht
    exact ih u hu ((leafConstL_iff s).1 h.2 u hu)

theorem leafConst_find (a : Nat) : ∀ t r : PT V, leafConst t → find a t = some r → leafConst r := by
  apply PT.ind (P := fun t => ∀ r, leafConst t → find a t = some r → leafConst r)
  intro i s ih r hl h
  simp only [find] at h
  by_cases ha : i.addr = a
  · rw [if_pos ha] at h
    cases h
    exact hl
  · rw [if_neg ha] at h
    have hl2 := hl.2
    clear ha hl
    induction s with
    | nil => cases h
    | cons t ts ih2 =>
      simp only [findL] at h
      cases ht : find a t with
      | some u =>
        rw [ht] at h
        cases h
        exact ih t List.mem_cons_self r hl2.1 ht
      | none =>
        rw [ht] at h
        exact ih2 (fun u hu => ih u (List.mem_cons_of_mem _ hu)) h hl2.2

theorem leafConst_findL (a : Nat) (l : List (PT V)) (r : PT V) (hl : leafConstL l) (h : findL a l = some r) : leafConst r := by
  induction l with
  | nil => cases h
  | cons t ts ih2 =>
    simp only [findL] at h
    cases ht : find a t with
    | some u =>
      rw [ht] at h
      cases h
      exact leafConst_find a t r hl.1 ht
    | none =>
      rw [ht] at h
      exact ih2 hl.2 h

theorem leafConst_copy : ∀ t : PT V, leafConst t → ∀ n, leafConst (copyT t n).1 ∧ leafConst (setParent (copyT t n).1 t) := by
  apply PT.ind
  intro i s ih h n
  have key : ∀ m, leafConstL (copyL s m).1 ∧ leafConstL (setParentL (copyL s m).1 s) := by
    have h2 := h.2
    clear h
    induction s with
    | nil => intro m; exact ⟨trivial, trivial⟩
    | cons t ts ih2 =>
      intro m
      obtain ⟨a, b⟩ := ih t List.mem_cons_self h2.1 m
      obtain ⟨c, d⟩ := ih2 (fun u hu => ih u (List.mem_cons_of_mem _ hu)) h2.2 (copyT t m).2
      exact ⟨⟨a, c⟩, ⟨b, d⟩⟩
  obtain ⟨a, b⟩ := key (n + 1)
  simp only [copyT, setParent, leafConst]
  refine ⟨⟨?_, a⟩, ?_, b⟩
  · intro hk
    rw [h.1 hk]; rfl
  · intro hk
    rw [h.1 hk]; rfl

theorem leafConst_sample (g : Info V → V) : ∀ t : PT V, leafConst t → ∀ n, leafConst (sampleT g t n).1 := by
  apply PT.ind
  intro i s ih h n
  unfold sampleT
  cases hk : i.kind with
  | constant => exact leafConst_mapI orphan (fun _ => rfl) _ h
  | data =>
    simp only
    refine leafConst_mapI orphan (fun _ => rfl) _ (leafConst_mapI _ ?_ _ ?_)
    · intro j; unfold mutI; split <;> rfl
    · unfold spawnT
      rw [if_neg (by simp [PT.info, hk])]
      exact (leafConst_copy _ h n).2
  | container =>
    simp only
    refine leafConst_mapI orphan (fun _ => rfl) _ ?_
    simp only [leafConst]
    constructor
    · intro hc
      exfalso
      unfold spawnT at hc
      rw [if_neg (by simp [PT.info, hk])] at hc
      simp only [copyT, setParent, PT.info, hk] at hc
      cases hc
    · have key : ∀ (l : List (PT V)), (∀ t ∈ l, t ∈ s) → ∀ m, leafConstL (sampleL g l m).1 := by
        intro l
        induction l with
        | nil => intro _ m; trivial
        | cons t ts ih2 =>
          intro hsub m
          exact ⟨ih t (hsub t List.mem_cons_self) ((leafConstL_iff s).1 h.2 t (hsub t List.mem_cons_self)) m,
            ih2 (fun u hu => hsub u (List.mem_cons_of_mem _ hu)) _⟩
      exact key s (fun _ h => h) _

/-- Specification of a consistent world: one state per address, one uid per object, everything below the supply. -/
structure Ok (w : World V) : Prop where
  lt : ∀ i ∈ infosL w.roots, i.addr < w.next ∧ i.uid < w.next ∧ i.arr < w.next
  coh : ∀ i ∈ infosL w.roots, ∀ j ∈ infosL w.roots, i.addr = j.addr → i = j
  uid : ∀ i ∈ infosL w.roots, ∀ j ∈ infosL w.roots, i.uid = j.uid → i.addr = j.addr
  lc : leafConstL w.roots

/-- Specification: what may happen to an object over time. Identity never changes; a frozen object stays frozen and
keeps its array and the content of this array; so does a constant. -/
structure Keep (i j : Info V) : Prop where
  addr : j.addr = i.addr
  uid : j.uid = i.uid
  kind : j.kind = i.kind
  frozen : i.frozen = true → j.frozen = true
  val : i.frozen = true ∨ i.kind = .constant → j.val = i.val ∧ j.arr = i.arr

theorem Keep.refl (i : Info V) : Keep i i := ⟨rfl, rfl, rfl, fun h => h, fun _ => ⟨rfl, rfl⟩⟩

theorem Keep.trans {i j k : Info V} (h : Keep i j) (h' : Keep j k) : Keep i k where
  addr := h'.addr.trans h.addr
  uid := h'.uid.trans h.uid
  kind := h'.kind.trans h.kind
  frozen := fun hf => h'.frozen (h.frozen hf)
  val := fun hf => by
    have h1 := h.val hf
    have h2 := h'.val (hf.elim (fun x => Or.inl (h.frozen x)) (fun x => Or.inr (h.kind.trans x)))
    exact ⟨h2.1.trans h1.1, h2.2.trans h1.2⟩

theorem ok_write (w : World V) (F : Info V → Info V) (n' : Nat) (h : Ok w) (hn : w.next ≤ n')
    (hF : ∀ i ∈ infosL w.roots, (F i).addr = i.addr ∧ (F i).uid = i.uid ∧ (F i).arr < n') (hk : ∀ i, (F i).kind = i.kind) : Ok { next := n', roots := mapIL F w.roots } := by
  have mem : ∀ j ∈ infosL (mapIL F w.roots), ∃ i ∈ infosL w.roots, j = F i := by
    intro j hj
    rw [infosL_mapIL] at hj
    obtain ⟨i, hi, rfl⟩ := List.mem_map.1 hj
    exact ⟨i, hi, rfl⟩
  refine ⟨?_, ?_, ?_, ?_⟩
  rotate_left 3
  · simp only [mapIL_eq]
    rw [leafConstL_iff]
    intro t ht
    obtain ⟨u, hu, rfl⟩ := List.mem_map.1 ht
    exact leafConst_mapI F hk u ((leafConstL_iff _).1 h.lc u hu)
  · intro j hj
    obtain ⟨i, hi, rfl⟩ := mem j hj
    obtain ⟨h1, h2, h3⟩ := hF i hi
    obtain ⟨g1, g2, _⟩ := h.lt i hi
    exact ⟨by rw [h1]; exact lt_of_lt_of_le g1 hn, by rw [h2]; exact lt_of_lt_of_le g2 hn, h3⟩
  · intro j hj k hk he
    obtain ⟨i, hi, rfl⟩ := mem j hj
    obtain ⟨i', hi', rfl⟩ := mem k hk
    rw [(hF i hi).1, (hF i' hi').1] at he
    rw [h.coh i hi i' hi' he]
  · intro j hj k hk he
    obtain ⟨i, hi, rfl⟩ := mem j hj
    obtain ⟨i', hi', rfl⟩ := mem k hk
    rw [(hF i hi).2.1, (hF i' hi').2.1] at he
    rw [(hF i hi).1, (hF i' hi').1]
    exact h.uid i hi i' hi' he

/-- Newly created object. -/
def New (n n' : Nat) (j : Info V) : Prop := n ≤ j.addr ∧ j.addr < n' ∧ j.uid = j.addr ∧ j.arr < n' ∧ j.frozen = false ∧
  (j.kind = .data → n ≤ j.arr)

theorem ok_extend (w : World V) (t : PT V) (n' : Nat) (h : Ok w) (hn : w.next ≤ n')
    (ht : ∀ j ∈ infos t, New w.next n' j ∨ j ∈ infosL w.roots)
    (hc : ∀ i ∈ infos t, ∀ j ∈ infos t, i.addr = j.addr → i = j) (hl : leafConst t) :
    Ok { next := n', roots := w.roots ++ [t] } := by
  have mem : ∀ j ∈ infosL (w.roots ++ [t]), j ∈ infosL w.roots ∨ (New w.next n' j ∧ j ∈ infos t) := by
    intro j hj
    rw [infosL_append] at hj
    rcases List.mem_append.1 hj with hj | hj
    · exact Or.inl hj
    · have hj' : j ∈ infos t := by simpa [infosL] using hj
      rcases ht j hj' with h | h
      · exact Or.inr ⟨h, hj'⟩
      · exact Or.inl h
  refine ⟨?_, ?_, ?_, ?_⟩
  rotate_left 3
  · rw [leafConstL_iff]
    intro u hu
    rcases List.mem_append.1 hu with hu | hu
    · exact (leafConstL_iff _).1 h.lc u hu
    · rw [List.mem_singleton.1 hu]; exact hl
  · intro j hj
    rcases mem j hj with hj | ⟨hj, _⟩
    · obtain ⟨a, b, c⟩ := h.lt j hj
      exact ⟨by simp only; omega, by simp only; omega, by simp only; omega⟩
    · obtain ⟨a, b, c, d, _⟩ := hj
      exact ⟨b, by rw [c]; exact b, d⟩
  · intro i hi j hj he
    rcases mem i hi with hi | ⟨hi, hi'⟩ <;> rcases mem j hj with hj | ⟨hj, hj'⟩
    · exact h.coh i hi j hj he
    · have := (h.lt i hi).1; have := hj.1; omega
    · have := (h.lt j hj).1; have := hi.1; omega
    · exact hc i hi' j hj' he
  · intro i hi j hj he
    rcases mem i hi with hi | ⟨hi, hi'⟩ <;> rcases mem j hj with hj | ⟨hj, hj'⟩
    · exact h.uid i hi j hj he
    · have := (h.lt i hi).2.1; have := hj.1; have := hj.2.2.1; omega
    · have := (h.lt j hj).2.1; have := hi.1; have := hi.2.2.1; omega
    · rw [hi.2.2.1, hj.2.2.1] at he; exact he

/-! ### Copies, children and samples -/

theorem new_copyI (i : Info V) (n n' k : Nat) (hi : i.arr < n) (hk : n + k < n') : New n n' (copyI i (n + k)) := by
  refine ⟨by simp [copyI], by simpa [copyI] using hk, rfl, ?_, rfl, ?_⟩
  · simp only [copyI]; split <;> omega
  · intro hd
    have : i.kind = .data := hd
    simp [copyI, this]

theorem copy_new (t : PT V) (n : Nat) (h : ∀ i ∈ infos t, i.arr < n) :
    (∀ j ∈ infos (copyT t n).1, New n (copyT t n).2 j) ∧
    (∀ i ∈ infos (copyT t n).1, ∀ j ∈ infos (copyT t n).1, i.addr = j.addr → i = j) := by
  rw [(copy_infos t n).1, (copy_infos t n).2]
  constructor
  · intro j hj
    obtain ⟨k, a, hk, hka, rfl⟩ := mem_mapIdx _ _ _ hj
    exact new_copyI a n _ k (h a (List.mem_of_getElem? hka)) (by omega)
  · intro i hi j hj he
    obtain ⟨k, a, hk, hka, rfl⟩ := mem_mapIdx _ _ _ hi
    obtain ⟨k', a', hk', hka', rfl⟩ := mem_mapIdx _ _ _ hj
    have : k = k' := by simpa [copyI] using he
    subst this
    rw [hka] at hka'; cases hka'; rfl

theorem child_new (t : PT V) (n : Nat) (h : ∀ i ∈ infos t, i.arr < n) :
    (∀ j ∈ infos (setParent (copyT t n).1 t), New n (copyT t n).2 j) ∧
    (∀ i ∈ infos (setParent (copyT t n).1 t), ∀ j ∈ infos (setParent (copyT t n).1 t), i.addr = j.addr → i = j) := by
  rw [child_infos t n, (copy_infos t n).2]
  constructor
  · intro j hj
    obtain ⟨k, a, hk, hka, rfl⟩ := mem_mapIdx _ _ _ hj
    exact new_copyI a n _ k (h a (List.mem_of_getElem? hka)) (by omega)
  · intro i hi j hj he
    obtain ⟨k, a, hk, hka, rfl⟩ := mem_mapIdx _ _ _ hi
    obtain ⟨k', a', hk', hka', rfl⟩ := mem_mapIdx _ _ _ hj
    have : k = k' := by simpa [copyI, childI] using he
    subst this
    rw [hka] at hka'; cases hka'; rfl

/-- Outcome of sampling. -/
structure SampleOk (src res : List (Info V)) (n n' : Nat) : Prop where
  le : n ≤ n'
  mem : ∀ j ∈ res, New n n' j ∨ ∃ i ∈ src, i.kind = .constant ∧ j = orphan i
  coh : ∀ i ∈ res, ∀ j ∈ res, i.addr = j.addr → i = j
  orph : ∀ j ∈ res, j.gen = 0 ∧ j.lineage = j.uid ∧ j.parents = []

theorem New.mono {n n' m m' : Nat} {j : Info V} (h : New n n' j) (h1 : m ≤ n) (h2 : n' ≤ m') : New m m' j :=
  ⟨h1.trans h.1, lt_of_lt_of_le h.2.1 h2, h.2.2.1, lt_of_lt_of_le h.2.2.2.1 h2, h.2.2.2.2.1, fun hd => h1.trans (h.2.2.2.2.2 hd)⟩

theorem new_orphan {n n' : Nat} {j : Info V} (h : New n n' j) : New n n' (orphan j) := h

theorem sample_ok (g : Info V → V) : ∀ t : PT V, leafConst t → ∀ n, (∀ i ∈ infos t, i.addr < n ∧ i.arr < n) →
    (∀ i ∈ infos t, ∀ j ∈ infos t, i.addr = j.addr → i = j) →
    SampleOk (infos t) (infos (sampleT g t n).1) n (sampleT g t n).2 := by
  apply PT.ind (P := fun t => leafConst t → ∀ n, (∀ i ∈ infos t, i.addr < n ∧ i.arr < n) →
    (∀ i ∈ infos t, ∀ j ∈ infos t, i.addr = j.addr → i = j) → SampleOk (infos t) (infos (sampleT g t n).1) n (sampleT g t n).2)
  intro i s ih hlc n hlt hcoh
  unfold sampleT
  cases hk : i.kind with
  | constant =>
    simp only
    have hs : s = [] := hlc.1 hk
    subst hs
    simp only [mapI, mapIL, infos, infosL]
    refine ⟨le_rfl, ?_, ?_, ?_⟩
    · intro j hj
      rw [List.mem_singleton.1 hj]
      exact Or.inr ⟨i, by simp, hk, rfl⟩
    · intro a ha b hb _
      rw [List.mem_singleton.1 ha, List.mem_singleton.1 hb]
    · intro j hj
      rw [List.mem_singleton.1 hj]
      exact ⟨rfl, rfl, rfl⟩
  | data =>
    simp only
    have hsp : spawnT (.mk i s) n = (setParent (copyT (.mk i s) n).1 (.mk i s), (copyT (.mk i s) n).2) := by
      unfold spawnT
      rw [if_neg]
      simp [PT.info, hk]
    rw [hsp]
    obtain ⟨h1, h2⟩ := child_new (.mk i s) n (fun j hj => (hlt j hj).2)
    have hle : n ≤ (copyT (.mk i s) n).2 := by rw [(copy_infos _ n).2]; omega
    simp only
    generalize (copyT (.mk i s) n).2 = m at *
    generalize setParent (copyT (.mk i s) n).1 (.mk i s) = c at *
    rw [infos_mapI, infos_mapI, List.map_map]
    refine ⟨by omega, ?_, ?_, ?_⟩
    · intro j hj
      obtain ⟨a, ha, rfl⟩ := List.mem_map.1 hj
      left
      have hn := h1 a ha
      simp only [Function.comp_apply, mutI]
      by_cases hd : a.kind = .data
      · rw [if_pos hd]
        obtain ⟨p1, p2, p3, p4, p5, p6⟩ := hn
        refine ⟨p1, ?_, p3, ?_, p5, ?_⟩ <;> simp only [orphan] <;> intros <;> omega
      · rw [if_neg hd]
        exact new_orphan (hn.mono le_rfl (by omega))
    · intro x hx y hy he
      obtain ⟨a, ha, rfl⟩ := List.mem_map.1 hx
      obtain ⟨b, hb, rfl⟩ := List.mem_map.1 hy
      have hadd : ∀ z : Info V, ((orphan ∘ mutI g m) z).addr = z.addr := by
        intro z; simp only [Function.comp_apply, mutI, orphan]; split <;> rfl
      rw [hadd, hadd] at he
      rw [h2 a ha b hb he]
    · intro j hj
      obtain ⟨a, ha, rfl⟩ := List.mem_map.1 hj
      exact ⟨rfl, rfl, rfl⟩
  | container =>
    simp only
    have hsp : spawnT (.mk i s) n = (setParent (copyT (.mk i s) n).1 (.mk i s), (copyT (.mk i s) n).2) := by
      unfold spawnT
      rw [if_neg]
      simp [PT.info, hk]
    rw [hsp]
    obtain ⟨h1, h2⟩ := child_new (.mk i s) n (fun j hj => (hlt j hj).2)
    have hle : n < (copyT (.mk i s) n).2 := by rw [(copy_infos _ n).2]; simp [infos]
    have hroot : (setParent (copyT (.mk i s) n).1 (.mk i s)).info.addr = n := rfl
    have hrm := info_mem (setParent (copyT (.mk i s) n).1 (.mk i s))
    have hrnew := h1 _ hrm
    simp only
    generalize (copyT (.mk i s) n).2 = m at *
    generalize setParent (copyT (.mk i s) n).1 (.mk i s) = c at *
    have key : ∀ (l : List (PT V)), (∀ t ∈ l, t ∈ s) → ∀ m', m ≤ m' →
        SampleOk (infosL l) (infosL (sampleL g l m').1) m' (sampleL g l m').2 := by
      intro l
      induction l with
      | nil => intro _ m' _; exact ⟨le_rfl, by simp [sampleL, infosL], by simp [sampleL, infosL], by simp [sampleL, infosL]⟩
      | cons t ts ih2 =>
        intro hsub m' hm'
        have hts : ∀ j ∈ infosL (t :: ts), j ∈ infos (.mk i s) := by
          intro j hj
          obtain ⟨u, hu, hju⟩ := (mem_infosL _ _).1 hj
          simp only [infos, List.mem_cons]
          exact Or.inr ((mem_infosL _ _).2 ⟨u, hsub u hu, hju⟩)
        have ht : ∀ j ∈ infos t, j ∈ infos (.mk i s) := fun j hj => hts j (by simp [infosL, hj])
        have hts' : ∀ j ∈ infosL ts, j ∈ infos (.mk i s) := fun j hj => hts j (by simp [infosL, hj])
        have r1 := ih t (hsub t List.mem_cons_self) ((leafConstL_iff s).1 hlc.2 t (hsub t List.mem_cons_self)) m'
          (fun j hj => by have := hlt j (ht j hj); omega) (fun a ha b hb => hcoh a (ht a ha) b (ht b hb))
        have r2 := ih2 (fun u hu => hsub u (List.mem_cons_of_mem _ hu)) (sampleT g t m').2 (le_trans hm' r1.le)
        simp only [sampleL, infosL]
        refine ⟨r1.le.trans r2.le, ?_, ?_, ?_⟩
        · intro j hj
          rcases List.mem_append.1 hj with hj | hj
          · rcases r1.mem j hj with h | ⟨a, ha, h⟩
            · exact Or.inl (h.mono le_rfl r2.le)
            · exact Or.inr ⟨a, by simp [ha], h⟩
          · rcases r2.mem j hj with h | ⟨a, ha, h⟩
            · exact Or.inl (h.mono r1.le le_rfl)
            · exact Or.inr ⟨a, by simp [ha], h⟩
        · have cross : ∀ x ∈ infos (sampleT g t m').1, ∀ y ∈ infosL (sampleL g ts (sampleT g t m').2).1, x.addr = y.addr → x = y := by
            intro x hx y hy he
            have hle1 := r1.le
            rcases r1.mem x hx with hX | ⟨a, ha, hak, hax⟩ <;> rcases r2.mem y hy with hY | ⟨b, hb, hbk, hby⟩
            · have := hX.2.1; have := hY.1; omega
            · have := hlt b (hts' b hb); have := hX.1
              rw [hby] at he; simp only [orphan] at he; omega
            · have := hlt a (ht a ha); have := hY.1
              rw [hax] at he; simp only [orphan] at he; omega
            · rw [hax, hby] at he ⊢
              rw [hcoh a (ht a ha) b (hts' b hb) he]
          intro x hx y hy he
          rcases List.mem_append.1 hx with hx | hx <;> rcases List.mem_append.1 hy with hy | hy
          · exact r1.coh x hx y hy he
          · exact cross x hx y hy he
          · exact (cross y hy x hx he.symm).symm
          · exact r2.coh x hx y hy he
        · intro j hj
          rcases List.mem_append.1 hj with hj | hj
          · exact r1.orph j hj
          · exact r2.orph j hj
    have r := key s (fun _ h => h) m le_rfl
    have horp : ∀ l : List (PT V), (∀ j ∈ infosL l, j.gen = 0 ∧ j.lineage = j.uid ∧ j.parents = []) → mapIL orphan l = l := by
      intro l hl
      apply mapIL_same
      intro j hj
      obtain ⟨a, b, c⟩ := hl j hj
      cases j
      simp only at a b c
      subst a; subst b; subst c
      rfl
    simp only [mapI, infos]
    rw [horp _ r.orph]
    have hle' := r.le
    refine ⟨by omega, ?_, ?_, ?_⟩
    · intro j hj
      rcases List.mem_cons.1 hj with rfl | hj
      · exact Or.inl (new_orphan (hrnew.mono le_rfl r.le))
      · rcases r.mem j hj with h | ⟨a, ha, h⟩
        · exact Or.inl (h.mono hle.le le_rfl)
        · exact Or.inr ⟨a, by simp [ha], h⟩
    · have cross : ∀ y ∈ infosL (sampleL g s m).1, c.info.addr ≠ y.addr := by
        intro y hy he
        rcases r.mem y hy with hY | ⟨b, hb, hbk, hby⟩
        · have := hY.1; omega
        · have := hlt b (by simp [infos, hb])
          rw [hby] at he; simp only [orphan] at he; omega
      intro x hx y hy he
      rcases List.mem_cons.1 hx with rfl | hx <;> rcases List.mem_cons.1 hy with rfl | hy
      · rfl
      · exact (cross y hy he).elim
      · exact (cross x hx he.symm).elim
      · exact r.coh x hx y hy he
    · intro j hj
      rcases List.mem_cons.1 hj with rfl | hj
      · exact ⟨rfl, rfl, rfl⟩
      · exact r.orph j hj


/-! ### Every operation -/
variable [DecidableEq V]

/-- One call: the world stays consistent, the objects of existing trees change as allowed by `Keep` and only if they belong
to the tree the call is made on, and the trees that appear hold new objects, or objects of that tree which are constants. -/
theorem step_spec (w : World V) (op : Op V) (h : Ok w) :
    Ok (step w op).1 ∧ w.next ≤ (step w op).1.next ∧ ∃ F extra, (step w op).1.roots = mapIL F w.roots ++ extra ∧
      (∀ i ∈ infosL w.roots, Keep i (F i)) ∧
      (∀ t, findL op.target w.roots = some t → (∀ i ∈ infosL w.roots, i.addr ∉ addrs t → F i = i) ∧
        ∀ j ∈ infosL extra, w.next ≤ j.addr ∨ j.addr ∈ addrs t) ∧
      (findL op.target w.roots = none → (∀ i ∈ infosL w.roots, F i = i) ∧ extra = []) := by
  have hid : ∀ b : Bool, Ok (w, b).1 ∧ w.next ≤ (w, b).1.next ∧ ∃ F extra, (w, b).1.roots = mapIL F w.roots ++ extra ∧
      (∀ i ∈ infosL w.roots, Keep i (F i)) ∧
      (∀ t, findL op.target w.roots = some t → (∀ i ∈ infosL w.roots, i.addr ∉ addrs t → F i = i) ∧
        ∀ j ∈ infosL extra, w.next ≤ j.addr ∨ j.addr ∈ addrs t) ∧
      (findL op.target w.roots = none → (∀ i ∈ infosL w.roots, F i = i) ∧ extra = []) := by
    intro b
    refine ⟨h, le_rfl, fun i => i, [], ?_, fun i _ => Keep.refl i, ?_, fun _ => ⟨fun _ _ => rfl, rfl⟩⟩
    · rw [mapIL_same _ _ (fun _ _ => rfl)]; simp
    · intro t _
      exact ⟨fun _ _ _ => rfl, by simp [infosL]⟩
  cases hfind : findL op.target w.roots with
  | none =>
    have : step w op = (w, false) := by unfold step; rw [hfind]
    rw [this]
    have := hid false
    rw [hfind] at this
    exact this
  | some t =>
    obtain ⟨hta, htm⟩ := findL_spec _ _ _ hfind
    have htaddr : op.target ∈ addrs t := List.mem_map.2 ⟨t.info, info_mem t, hta⟩
    have hlc := leafConst_findL _ _ _ h.lc hfind
    have hcoh : ∀ i ∈ infosL w.roots, i.addr ∈ addrs t → i ∈ infos t := by
      intro i hi ha
      obtain ⟨j, hj, hja⟩ := List.mem_map.1 ha
      rw [h.coh i hi j (htm j hj) hja.symm]
      exact hj
    -- writes
    have hwrite : ∀ (S : Nat → Bool) (f : Info V → Info V) (n' : Nat) (b : Bool), w.next ≤ n' → (∀ i, S i = true → i ∈ addrs t) →
        (∀ i, (f i).kind = i.kind) →
        (∀ i ∈ infos t, Keep i (f i) ∧ (f i).arr < n') →
        ∀ w' : World V, w' = { next := n', roots := mapIL (fun i => if S i.addr then f i else i) w.roots } →
        Ok (w', b).1 ∧ w.next ≤ (w', b).1.next ∧ ∃ F extra, (w', b).1.roots = mapIL F w.roots ++ extra ∧
          (∀ i ∈ infosL w.roots, Keep i (F i)) ∧
          (∀ u, some t = some u → (∀ i ∈ infosL w.roots, i.addr ∉ addrs u → F i = i) ∧
            ∀ j ∈ infosL extra, w.next ≤ j.addr ∨ j.addr ∈ addrs u) ∧
          (some t = none → (∀ i ∈ infosL w.roots, F i = i) ∧ extra = []) := by
      rintro S f n' b hn hS hkd hf w' rfl
      have hK : ∀ i ∈ infosL w.roots, Keep i (if S i.addr then f i else i) ∧ (if S i.addr then f i else i).arr < n' := by
        intro i hi
        split
        · rename_i hs
          exact hf i (hcoh i hi (hS _ hs))
        · exact ⟨Keep.refl i, lt_of_lt_of_le (h.lt i hi).2.2 hn⟩
      refine ⟨?_, hn, fun i => if S i.addr then f i else i, [], ?_, fun i hi => (hK i hi).1, ?_, ?_⟩
      · apply ok_write w _ n' h hn
        · intro i hi
          have := hK i hi
          exact ⟨this.1.addr, this.1.uid, this.2⟩
        · intro i
          split
          · exact hkd i
          · rfl
      · simp
      · intro u hu
        cases hu
        refine ⟨?_, by simp [infosL]⟩
        intro i hi hna
        apply if_neg
        intro hs
        exact hna (hS _ hs)
      · intro hu; cases hu
    -- new trees
    have hext : ∀ (c : PT V) (n' : Nat) (b : Bool), w.next ≤ n' → (∀ j ∈ infos c, New w.next n' j ∨ j ∈ infos t) →
        (∀ i ∈ infos c, ∀ j ∈ infos c, i.addr = j.addr → i = j) → leafConst c →
        ∀ w' : World V, w' = { next := n', roots := w.roots ++ [c] } →
        Ok (w', b).1 ∧ w.next ≤ (w', b).1.next ∧ ∃ F extra, (w', b).1.roots = mapIL F w.roots ++ extra ∧
          (∀ i ∈ infosL w.roots, Keep i (F i)) ∧
          (∀ u, some t = some u → (∀ i ∈ infosL w.roots, i.addr ∉ addrs u → F i = i) ∧
            ∀ j ∈ infosL extra, w.next ≤ j.addr ∨ j.addr ∈ addrs u) ∧
          (some t = none → (∀ i ∈ infosL w.roots, F i = i) ∧ extra = []) := by
      rintro c n' b hn hc hcc hl w' rfl
      refine ⟨?_, hn, fun i => i, [c], ?_, fun i _ => Keep.refl i, ?_, ?_⟩
      · exact ok_extend w c n' h hn (fun j hj => (hc j hj).imp id (htm j)) hcc hl
      · rw [mapIL_same _ _ (fun _ _ => rfl)]
      · intro u hu
        cases hu
        refine ⟨fun _ _ _ => rfl, ?_⟩
        intro j hj
        have hj' : j ∈ infos c := by simpa [infosL] using hj
        rcases hc j hj' with hN | hN
        · exact Or.inl hN.1
        · exact Or.inr (List.mem_map.2 ⟨j, hN, rfl⟩)
      · intro hu; cases hu
    rw [hfind] at hid
    unfold step
    rw [hfind]
    simp only
    have hlt : ∀ i ∈ infos t, i.addr < w.next ∧ i.arr < w.next := fun i hi => ⟨(h.lt i (htm i hi)).1, (h.lt i (htm i hi)).2.2⟩
    have hinc : ∀ b, (addrs t).contains b = true → b ∈ addrs t := fun b hb => by simpa using hb
    cases op with
    | freeze a =>
      refine hwrite (fun b => (addrs t).contains b) (fun i => { i with frozen := true }) w.next false le_rfl hinc (fun _ => rfl) ?_ _ rfl
      intro i hi
      exact ⟨⟨rfl, rfl, rfl, fun _ => rfl, fun _ => ⟨rfl, rfl⟩⟩, (hlt i hi).2⟩
    | tell a =>
      refine hwrite (fun b => b == a) (fun i => { i with loss := true }) w.next false le_rfl ?_ (fun _ => rfl) ?_ _ rfl
      · intro b hb
        rw [beq_iff_eq.1 hb]
        exact htaddr
      · intro i hi
        exact ⟨⟨rfl, rfl, rfl, fun h => h, fun _ => ⟨rfl, rfl⟩⟩, (hlt i hi).2⟩
    | assign a v arr =>
      simp only
      cases hk : t.info.kind with
      | constant => exact hid _
      | container => exact hid _
      | data =>
        simp only
        by_cases hl : isLocked t
        · rw [if_pos hl]; exact hid _
        · rw [if_neg hl]
          have hta' : t.info.addr = a := hta
          refine hwrite (fun b => b == a) (fun i => if i.addr = a then { i with val := v, arr := arr } else i) (max w.next (arr + 1)) false
            (le_max_left _ _) ?_ ?_ ?_ _ ?_
          · intro b hb
            rw [beq_iff_eq.1 hb]
            exact htaddr
          · intro i; split <;> rfl
          · intro i hi
            by_cases hia : i.addr = a
            · rw [if_pos hia]
              have hit : i = t.info := h.coh i (htm i hi) t.info (htm _ (info_mem t)) (by rw [hia, hta'])
              refine ⟨⟨rfl, rfl, rfl, fun h => h, ?_⟩, by simp⟩
              intro hfr
              exfalso
              apply hl
              unfold isLocked
              rw [List.any_eq_true]
              refine ⟨i, hi, ?_⟩
              rw [← hit] at hk
              rcases hfr with hfr | hfr
              · simp [hfr, hk]
              · rw [hk] at hfr; cases hfr
            · rw [if_neg hia]
              exact ⟨Keep.refl i, lt_of_lt_of_le (hlt i hi).2 (le_max_left _ _)⟩
          · simp only [World.write, World.mk.injEq, true_and]
            congr 1
            funext i
            by_cases hia : i.addr = a <;> simp [hia]
    | modify a g =>
      simp only
      by_cases hl : isLocked t
      · rw [if_pos hl]; exact hid _
      · rw [if_neg hl]
        refine hwrite (fun b => (addrs t).contains b) (mutI g w.next) (2 * w.next) false (by omega) hinc ?_ ?_ _ rfl
        · intro i; unfold mutI; split <;> rfl
        · intro i hi
          unfold mutI
          have := hlt i hi
          split
          · rename_i hd
            refine ⟨⟨rfl, rfl, rfl, fun h => h, ?_⟩, by simp only; omega⟩
            intro hfr
            exfalso
            apply hl
            unfold isLocked
            rw [List.any_eq_true]
            refine ⟨i, hi, ?_⟩
            rcases hfr with hfr | hfr
            · simp [hfr, hd]
            · rw [hd] at hfr; cases hfr
          · exact ⟨Keep.refl i, by omega⟩
    | copy a =>
      obtain ⟨h1, h2⟩ := copy_new t w.next (fun i hi => (hlt i hi).2)
      exact hext (copyT t w.next).1 (copyT t w.next).2 false (by rw [(copy_infos _ _).2]; omega) (fun j hj => Or.inl (h1 j hj)) h2
        (leafConst_copy t hlc _).1 _ rfl
    | spawn a =>
      simp only [spawnT]
      by_cases hk : t.info.kind = .constant
      · rw [if_pos hk]
        exact hext t w.next false le_rfl (fun j hj => Or.inr hj) (fun i hi j hj => h.coh i (htm i hi) j (htm j hj)) hlc _ rfl
      · rw [if_neg hk]
        obtain ⟨h1, h2⟩ := child_new t w.next (fun i hi => (hlt i hi).2)
        exact hext (setParent (copyT t w.next).1 t) (copyT t w.next).2 false (by rw [(copy_infos _ _).2]; omega) (fun j hj => Or.inl (h1 j hj)) h2
          (leafConst_copy t hlc _).2 _ rfl
    | sample a g =>
      have r := sample_ok g t hlc w.next hlt (fun i hi j hj => h.coh i (htm i hi) j (htm j hj))
      have hl := leafConst_sample g t hlc w.next
      simp only
      generalize hsr : sampleT g t w.next = res at *
      have hshare : ∀ b, (addrs res.1).contains b = true → b < w.next → b ∈ addrs t := by
        intro b hb hlt'
        obtain ⟨j, hj, hja⟩ := List.mem_map.1 (by simpa using hb : b ∈ addrs res.1)
        rcases r.mem j hj with hN | ⟨i, hi, _, hij⟩
        · have := hN.1; omega
        · exact List.mem_map.2 ⟨i, hi, by rw [hij] at hja; exact hja⟩
      have hw1 : Ok { next := w.next, roots := mapIL (fun i => if (addrs res.1).contains i.addr then orphan i else i) w.roots } := by
        apply ok_write w _ w.next h le_rfl
        · intro i hi
          split
          · exact ⟨rfl, rfl, (h.lt i hi).2.2⟩
          · exact ⟨rfl, rfl, (h.lt i hi).2.2⟩
        · intro i; split <;> rfl
      refine ⟨?_, r.le, fun i => if (addrs res.1).contains i.addr then orphan i else i, [res.1], rfl, ?_, ?_, ?_⟩
      · refine ok_extend _ res.1 res.2 hw1 r.le ?_ r.coh hl
        intro j hj
        rcases r.mem j hj with hN | ⟨i, hi, _, hij⟩
        · exact Or.inl hN
        · right
          unfold World.write
          rw [infosL_mapIL]
          refine List.mem_map.2 ⟨i, htm i hi, ?_⟩
          rw [if_pos, hij]
          simp only [List.contains_iff_mem]
          exact List.mem_map.2 ⟨j, hj, by rw [hij]; rfl⟩
      · intro i hi
        simp only
        split
        · exact ⟨rfl, rfl, rfl, fun h => h, fun _ => ⟨rfl, rfl⟩⟩
        · exact Keep.refl i
      · intro u hu
        cases hu
        constructor
        · intro i hi hna
          apply if_neg
          intro hc
          exact hna (hshare _ hc (h.lt i hi).1)
        · intro j hj
          have hj' : j ∈ infos res.1 := by simpa [infosL] using hj
          rcases r.mem j hj' with hN | ⟨i, hi, _, hij⟩
          · exact Or.inl hN.1
          · exact Or.inr (List.mem_map.2 ⟨i, hi, by rw [hij]; rfl⟩)
      · intro hu; cases hu

/-- C28: consistency holds in every reachable world; in particular objects and uids are in one-to-one correspondence. -/
theorem run_ok (w : World V) (ops : List (Op V)) (h : Ok w) : Ok (run w ops) := by
  induction ops generalizing w with
  | nil => exact h
  | cons op ops ih => exact ih _ (step_spec w op h).1

/-- C28: uids are unique, whatever is copied, spawned, sampled. -/
theorem uid_unique (w : World V) (ops : List (Op V)) (h : Ok w) :
    ∀ i ∈ infosL (run w ops).roots, ∀ j ∈ infosL (run w ops).roots, i.uid = j.uid ↔ i.addr = j.addr := by
  intro i hi j hj
  have := run_ok w ops h
  exact ⟨this.uid i hi j hj, fun he => by rw [this.coh i hi j hj he]⟩

theorem map_map_tree (F G : Info V → Info V) : ∀ t : PT V, mapI G (mapI F t) = mapI (fun i => G (F i)) t := by
  apply PT.ind
  intro i s ih
  simp only [mapI]
  congr 1
  induction s with
  | nil => rfl
  | cons t ts ih2 =>
    simp only [mapIL]
    rw [ih t List.mem_cons_self, ih2 (fun u hu => ih u (List.mem_cons_of_mem _ hu))]

theorem mapIL_append (F : Info V → Info V) (a b : List (PT V)) : mapIL F (a ++ b) = mapIL F a ++ mapIL F b := by
  simp [mapIL_eq]

/-- C27: over any sequence of calls on any objects, every object frozen at some point remains frozen and keeps its array
and the content of this array (constants always keep theirs); no tree loses or exchanges objects. -/
theorem frozen_stable_partial (w : World V) (ops : List (Op V)) (h : Ok w) :
    ∃ F extra, (run w ops).roots = mapIL F w.roots ++ extra ∧ ∀ i ∈ infosL w.roots, Keep i (F i) := by
  induction ops generalizing w with
  | nil => exact ⟨fun i => i, [], by rw [mapIL_same _ _ (fun _ _ => rfl)]; simp [run], fun i _ => Keep.refl i⟩
  | cons op ops ih =>
    obtain ⟨h1, _, F, extra, hr, hK, _⟩ := step_spec w op h
    obtain ⟨G, extra', hr', hK'⟩ := ih (step w op).1 h1
    refine ⟨fun i => G (F i), mapIL G extra ++ extra', ?_, ?_⟩
    · change (run (step w op).1 ops).roots = _
      rw [hr', hr, mapIL_append, List.append_assoc]
      congr 1
      simp only [mapIL_eq, List.map_map]
      apply List.map_congr_left
      intro t _
      exact map_map_tree F G t
    · intro i hi
      apply (hK i hi).trans
      apply hK'
      rw [hr, infosL_append, infosL_mapIL]
      exact List.mem_append_left _ (List.mem_map.2 ⟨i, hi, rfl⟩)

/-- C27: in particular a tree whose objects are all frozen keeps all its values. -/
theorem frozen_values (w : World V) (ops : List (Op V)) (h : Ok w) (k : Nat) (t : PT V) (hk : w.roots[k]? = some t)
    (hf : ∀ i ∈ infos t, i.frozen = true) :
    ∃ t', (run w ops).roots[k]? = some t' ∧ (infos t').map (fun i => (i.addr, i.val, i.arr)) = (infos t).map (fun i => (i.addr, i.val, i.arr)) := by
  obtain ⟨F, extra, hr, hK⟩ := frozen_stable_partial w ops h
  have hlt : k < w.roots.length := by
    by_contra hc
    rw [List.getElem?_eq_none (by omega)] at hk
    cases hk
  refine ⟨mapI F t, ?_, ?_⟩
  · rw [hr, List.getElem?_append_left (by rw [mapIL_eq, List.length_map]; exact hlt), mapIL_eq, List.getElem?_map, hk]
    rfl
  · rw [infos_mapI, List.map_map]
    apply List.map_congr_left
    intro i hi
    have hm : i ∈ infosL w.roots := (mem_infosL _ _).2 ⟨t, List.mem_of_getElem? hk, hi⟩
    have := hK i hm
    have hv := this.val (Or.inl (hf i hi))
    simp only [Function.comp_apply]
    rw [this.addr, hv.1, hv.2]

/-- C27: `freeze` freezes the object and everything it holds. -/
theorem freeze_all (w : World V) (a : Nat) (t : PT V) (hf : findL a w.roots = some t) :
    ∀ i ∈ infosL (step w (.freeze a)).1.roots, i.addr ∈ addrs t → i.frozen = true := by
  intro i hi ha
  unfold step at hi
  simp only [Op.target, hf, World.write] at hi
  rw [infosL_mapIL] at hi
  obtain ⟨j, hj, rfl⟩ := List.mem_map.1 hi
  by_cases hc : (addrs t).contains j.addr
  · rw [if_pos hc]
  · rw [if_neg hc] at ha
    exact (hc (by simpa using ha)).elim

/-- C27: changing the value of a frozen object which is not a constant, or of an object holding one, raises and changes nothing. -/
theorem frozen_raises (w : World V) (a : Nat) (t : PT V) (hf : findL a w.roots = some t)
    (hfr : ∃ i ∈ infos t, i.frozen = true ∧ i.kind ≠ .constant) :
    (∀ g, step w (.modify a g) = (w, true)) ∧ (t.info.kind = .data → ∀ v arr, step w (.assign a v arr) = (w, true)) := by
  have hl : isLocked t = true := by
    obtain ⟨i, hi, h1, h2⟩ := hfr
    unfold isLocked
    rw [List.any_eq_true]
    exact ⟨i, hi, by simp [h1, h2]⟩
  constructor
  · intro g
    simp [step, Op.target, hf, hl]
  · intro hk v arr
    simp [step, Op.target, hf, hl, hk]

/-- A tree is out of reach of the addresses below `N`. -/
def Above (N : Nat) (w : World V) (k : Nat) : Prop :=
  (∀ i ∈ infosL (w.roots.take k), i.addr < N) ∧ (∀ i ∈ infosL (w.roots.drop k), N ≤ i.addr) ∧ N ≤ w.next

theorem sep_step (N : Nat) (w : World V) (k : Nat) (op : Op V) (h : Ok w) (hs : Above N w k) (hop : N ≤ op.target) (hk : k ≤ w.roots.length) :
    (step w op).1.roots.take k = w.roots.take k ∧ Above N (step w op).1 k ∧ k ≤ (step w op).1.roots.length := by
  obtain ⟨h1, hn, F, extra, hr, hK, hsome, hnone⟩ := step_spec w op h
  have hsplit : infosL w.roots = infosL (w.roots.take k) ++ infosL (w.roots.drop k) := by
    rw [← infosL_append, List.take_append_drop]
  -- the tree the call is made on is made of high addresses
  have hhigh : ∀ t, findL op.target w.roots = some t → ∀ b ∈ addrs t, N ≤ b := by
    intro t ht b hb
    have hnot : findL op.target (w.roots.take k) = none := by
      cases hf : findL op.target (w.roots.take k) with
      | none => rfl
      | some u =>
        obtain ⟨e1, e2⟩ := findL_spec _ _ _ hf
        have := hs.1 _ (e2 _ (info_mem u))
        omega
    have happ : ∀ (l l' : List (PT V)), findL op.target l = none → findL op.target (l ++ l') = findL op.target l' := by
      intro l l' hl
      induction l with
      | nil => rfl
      | cons x xs ih =>
        simp only [findL, List.cons_append] at hl ⊢
        cases hx : find op.target x with
        | some u => rw [hx] at hl; cases hl
        | none => rw [hx] at hl; exact ih hl
    have hd : findL op.target (w.roots.drop k) = some t := by
      rw [← happ _ _ hnot, List.take_append_drop]; exact ht
    obtain ⟨_, e2⟩ := findL_spec _ _ _ hd
    obtain ⟨i, hi, rfl⟩ := List.mem_map.1 hb
    exact hs.2.1 i (e2 i hi)
  have hlow : ∀ i ∈ infosL (w.roots.take k), F i = i := by
    intro i hi
    have him : i ∈ infosL w.roots := by rw [hsplit]; exact List.mem_append_left _ hi
    cases hf : findL op.target w.roots with
    | none => exact (hnone hf).1 i him
    | some t =>
      apply (hsome t hf).1 i him
      intro hc
      have := hhigh t hf _ hc
      have := hs.1 i hi
      omega
  have hex : ∀ j ∈ infosL extra, N ≤ j.addr := by
    intro j hj
    cases hf : findL op.target w.roots with
    | none => rw [(hnone hf).2] at hj; simp [infosL] at hj
    | some t =>
      rcases (hsome t hf).2 j hj with hc | hc
      · exact hs.2.2.trans hc
      · exact hhigh t hf _ hc
  have hlen : (mapIL F w.roots).length = w.roots.length := by rw [mapIL_eq, List.length_map]
  have htake : (step w op).1.roots.take k = w.roots.take k := by
    rw [hr, List.take_append_of_le_length (by rw [hlen]; exact hk)]
    rw [mapIL_eq, ← List.map_take, ← mapIL_eq]
    exact mapIL_same _ _ hlow
  refine ⟨htake, ⟨?_, ?_, hs.2.2.trans hn⟩, ?_⟩
  · rw [htake]; exact hs.1
  · rw [hr, List.drop_append_of_le_length (by rw [hlen]; exact hk)]
    intro i hi
    rw [infosL_append] at hi
    rcases List.mem_append.1 hi with hi | hi
    · rw [mapIL_eq, ← List.map_drop, ← mapIL_eq, infosL_mapIL] at hi
      obtain ⟨j, hj, rfl⟩ := List.mem_map.1 hi
      have hjm : j ∈ infosL w.roots := by rw [hsplit]; exact List.mem_append_right _ hj
      rw [(hK j hjm).addr]
      exact hs.2.1 j hj
    · exact hex i hi
  · rw [hr, List.length_append, hlen]
    omega

/-- C27: a copy, or a child of something else than a constant, is independent and unfrozen: all its objects are new and not
frozen, and no sequence of calls made on it (or on what is copied, spawned or sampled from it) changes anything in the trees
that were there before. -/
theorem child_independent (w : World V) (a : Nat) (t : PT V) (h : Ok w) (hf : findL a w.roots = some t) (op : Op V)
    (hop : op = .copy a ∨ (op = .spawn a ∧ t.info.kind ≠ .constant)) :
    ∃ c, (step w op).1.roots = w.roots ++ [c] ∧ (∀ i ∈ infos c, w.next ≤ i.addr ∧ i.frozen = false) ∧
      ∀ ops : List (Op V), (∀ o ∈ ops, w.next ≤ o.target) → (run (step w op).1 ops).roots.take w.roots.length = w.roots := by
  have hstep : ∃ c n', step w op = ({ next := n', roots := w.roots ++ [c] }, false) ∧ (∀ j ∈ infos c, New w.next n' j) := by
    obtain ⟨_, htm⟩ := findL_spec _ _ _ hf
    have harr : ∀ i ∈ infos t, i.arr < w.next := fun i hi => (h.lt i (htm i hi)).2.2
    rcases hop with rfl | ⟨rfl, hk⟩
    · exact ⟨_, _, by simp only [step, Op.target, hf], (copy_new t w.next harr).1⟩
    · refine ⟨setParent (copyT t w.next).1 t, (copyT t w.next).2, ?_, (child_new t w.next harr).1⟩
      simp only [step, Op.target, hf, spawnT]
      rw [if_neg hk]
  obtain ⟨c, n', hst, hnew⟩ := hstep
  have hok := (step_spec w op h).1
  have hle := (step_spec w op h).2.1
  rw [hst] at hok hle ⊢
  refine ⟨c, rfl, fun i hi => ⟨(hnew i hi).1, (hnew i hi).2.2.2.2.1⟩, ?_⟩
  intro ops hops
  have hab : Above w.next ({ next := n', roots := w.roots ++ [c] } : World V) w.roots.length := by
    refine ⟨?_, ?_, hle⟩
    · simp only [List.take_left]
      exact fun i hi => (h.lt i hi).1
    · simp only [List.drop_left]
      intro i hi
      exact (hnew i (by simpa [infosL] using hi)).1
  have key : ∀ (w' : World V), Ok w' → Above w.next w' w.roots.length → w.roots.length ≤ w'.roots.length →
      w'.roots.take w.roots.length = w.roots → (run w' ops).roots.take w.roots.length = w.roots := by
    induction ops with
    | nil => intro w' _ _ _ ht; exact ht
    | cons o ops ih =>
      intro w' hok' hab' hlen ht
      obtain ⟨e1, e2, e3⟩ := sep_step w.next w' w.roots.length o hok' hab' (hops o List.mem_cons_self) hlen
      exact ih (fun x hx => hops x (List.mem_cons_of_mem _ hx)) (step w' o).1 (step_spec w' o hok').1 e2 e3 (e1.trans ht)
  exact key _ hok hab (by simp) (by simp)

/-- C59: the arrays of a copy (or child) are its own: whoever modifies in place an array of the copy leaves the trees that were
there before unchanged. Constants share their value. -/
theorem copy_arrays_partial (w : World V) (a : Nat) (t : PT V) (h : Ok w) (hf : findL a w.roots = some t) (op : Op V)
    (hop : op = .copy a ∨ (op = .spawn a ∧ t.info.kind ≠ .constant)) :
    ∃ c, (step w op).1.roots = w.roots ++ [c] ∧ ∀ i ∈ infos c, i.kind = .data → ∀ v,
      (poke (step w op).1 i.arr v).roots.take w.roots.length = w.roots := by
  obtain ⟨_, htm⟩ := findL_spec _ _ _ hf
  have harr : ∀ i ∈ infos t, i.arr < w.next := fun i hi => (h.lt i (htm i hi)).2.2
  have hstep : ∃ c n', step w op = ({ next := n', roots := w.roots ++ [c] }, false) ∧ (∀ j ∈ infos c, New w.next n' j) := by
    rcases hop with rfl | ⟨rfl, hk⟩
    · exact ⟨_, _, by simp only [step, Op.target, hf], (copy_new t w.next harr).1⟩
    · refine ⟨setParent (copyT t w.next).1 t, (copyT t w.next).2, ?_, (child_new t w.next harr).1⟩
      simp only [step, Op.target, hf, spawnT]
      rw [if_neg hk]
  obtain ⟨c, n', hst, hnew⟩ := hstep
  rw [hst]
  refine ⟨c, rfl, ?_⟩
  intro i hi hd v
  simp only [poke]
  rw [mapIL_append, List.take_append_of_le_length (by rw [mapIL_eq, List.length_map]), mapIL_same]
  · simp
  · intro j hj
    have h1 := (h.lt j hj).2.2
    have h2 := (hnew i hi).2.2.2.2.2 hd
    rw [if_neg]
    rintro ⟨h3, _⟩
    omega

/-! ### Lineage -/

/-- Specification of a child's object relative to the parent's object it comes from. -/
structure ChildOf (n : Nat) (p c : Info V) : Prop where
  gen : c.gen = p.gen + 1
  parents : c.parents = [p.uid]
  lineage : c.lineage = p.lineage
  uid : n ≤ c.uid
  loss : c.loss = false
  same : c.kind = p.kind ∧ c.val = p.val

/-- Specification of a copy's object. -/
structure CopyOf (n : Nat) (p c : Info V) : Prop where
  gen : c.gen = p.gen
  parents : c.parents = p.parents
  lineage : c.lineage = p.lineage
  uid : n ≤ c.uid
  loss : c.loss = false
  same : c.kind = p.kind ∧ c.val = p.val

theorem forall₂_mapIdx {A B : Type} (l : List A) (f : Nat → A → B) (R : A → B → Prop) (h : ∀ k, ∀ a ∈ l, R a (f k a)) :
    List.Forall₂ R l (l.mapIdx f) := by
  induction l generalizing f with
  | nil => exact .nil
  | cons a l ih =>
    rw [List.mapIdx_cons]
    exact .cons (h 0 a List.mem_cons_self) (ih _ (fun k b hb => h (k + 1) b (List.mem_cons_of_mem _ hb)))

/-- C28: `spawn_child`, for the parameter and all its sub-parameters. -/
theorem spawn_lineage (t : PT V) (n : Nat) (hk : t.info.kind ≠ .constant) :
    List.Forall₂ (ChildOf n) (infos t) (infos (spawnT t n).1) := by
  unfold spawnT
  rw [if_neg hk]
  simp only
  rw [child_infos]
  apply forall₂_mapIdx
  intro k i _
  exact ⟨rfl, rfl, rfl, by simp [childI, copyI], rfl, rfl, rfl⟩

/-- C28: `copy`. -/
theorem copy_lineage (t : PT V) (n : Nat) : List.Forall₂ (CopyOf n) (infos t) (infos (copyT t n).1) := by
  rw [(copy_infos t n).1]
  apply forall₂_mapIdx
  intro k i _
  exact ⟨rfl, rfl, rfl, by simp [copyI], rfl, rfl, rfl⟩

/-- C28: `sample` restarts the lineage: every object of the sample is of generation 0, without parents, its own lineage. -/
theorem sample_lineage (w : World V) (a : Nat) (g : Info V → V) (t : PT V) (h : Ok w) (hf : findL a w.roots = some t) :
    ∀ j ∈ infos (sampleT g t w.next).1, j.gen = 0 ∧ j.lineage = j.uid ∧ j.parents = [] := by
  obtain ⟨_, htm⟩ := findL_spec _ _ _ hf
  exact (sample_ok g t (leafConst_findL _ _ _ h.lc hf) w.next (fun i hi => ⟨(h.lt i (htm i hi)).1, (h.lt i (htm i hi)).2.2⟩)
    (fun i hi j hj => h.coh i (htm i hi) j (htm j hj))).orph

/-- Repeated `spawn_child`. -/
def descend (t : PT V) (n : Nat) : Nat → PT V
  | 0 => t
  | k + 1 => (spawnT (descend t n k) (n + k * (infos t).length)).1

/-- C28: after `k` successive children, the generation has grown by `k` and the lineage is that of the first. -/
theorem descend_lineage (t : PT V) (n k : Nat) (hk : t.info.kind ≠ .constant) :
    (descend t n k).info.gen = t.info.gen + k ∧ (descend t n k).info.lineage = t.info.lineage ∧ (descend t n k).info.kind = t.info.kind := by
  induction k with
  | zero => exact ⟨rfl, rfl, rfl⟩
  | succ k ih =>
    obtain ⟨h1, h2, h3⟩ := ih
    have hs := spawn_lineage (descend t n k) (n + k * (infos t).length) (by rw [h3]; exact hk)
    simp only [descend]
    generalize hc : (spawnT (descend t n k) (n + k * (infos t).length)).1 = c at *
    generalize hd : descend t n k = d at *
    cases c with
    | mk ci cs =>
      cases d with
      | mk di ds =>
        simp only [infos] at hs
        cases hs with
        | cons hci _ =>
          simp only [PT.info] at *
          exact ⟨by rw [hci.gen, h1]; rfl, by rw [hci.lineage, h2], by rw [hci.same.1, h3]⟩

/-! ### Concrete cases and disagreements -/

section examples

/-- A Dict of a frozen array and a constant. -/
def demo : World Int :=
  { next := 10
    roots := [.mk ⟨0, .container, 0, true, 3, [7], 5, true, 0, 0⟩
      [.mk ⟨1, .data, 1, true, 3, [8], 5, false, 4, 42⟩ [], .mk ⟨2, .constant, 2, true, 0, [], 2, false, 2, 9⟩ []]] }

/-- C27, C59, negative: the array of a frozen parameter can be modified in place by whoever read its value. -/
theorem frozen_poke_changes : (infosL (poke demo 4 43).roots).map (·.val) = [0, 43, 9] := by decide +kernel

/-- C59, negative: after `p.value = q.value`, two parameters hold the same array. -/
theorem assign_shares :
    let w := run demo [.spawn 0, .spawn 1, .assign 13 5 4]
    (infosL (poke w 4 77).roots).map (·.val) = [0, 77, 9, 0, 42, 9, 77] := by decide +kernel

/-- C28, negative: a constant is its own child: no new generation, no new uid. -/
theorem constant_spawns_itself (t : PT V) (n : Nat) (hk : t.info.kind = .constant) : spawnT t n = (t, n) := by
  unfold spawnT
  rw [if_pos hk]

/-- C27, negative: sampling a container shares its constants with the sample, and resets their parenthood in the frozen original. -/
theorem sample_shares_constants :
    let w := run { demo with roots := (demo.roots.map (mapI (fun i => { i with gen := 3, parents := [8] }))) } [.sample 0 (fun _ => 50)]
    (infosL w.roots).map (fun i => (i.addr, i.gen, i.parents)) =
      [(0, 3, [8]), (1, 3, [8]), (2, 0, []), (10, 0, []), (13, 0, []), (2, 0, [])] := by decide +kernel

example : Ok demo := by
  refine ⟨?_, ?_, ?_, ?_⟩
  · decide +kernel
  · decide +kernel
  · decide +kernel
  · simp [demo, leafConstL, leafConst]

/-- C27, negative: assigning to the indices of a frozen choice raises, but the value read afterwards is the refused one. -/
theorem frozen_softmax_changes {W I : Type} (enc : I → W) (draw : W → I) (v : I) (p : Cached W I) (hf : p.frozen = true) :
    (softSet enc v p).2 = true ∧ (cachedGet draw (softSet enc v p).1).1 = v ∧ (softSet enc v p).1.root = p.root := by
  simp [softSet, hf, cachedGet]

/-- C27, negative: assigning to a frozen stochastic integer raises, and its value is drawn again afterwards. -/
theorem frozen_int_redrawn {W I : Type} (cast : I → W) (draw : W → I) (v : I) (p : Cached W I) (hf : p.frozen = true) :
    (intSet cast v p).2 = true ∧ (cachedGet draw (intSet cast v p).1).1 = draw p.root := by
  simp [intSet, hf, cachedGet]

/-- A frozen array refuses; its child accepts and the parent keeps its value. -/
example : (step demo (.assign 1 5 9)).2 = true ∧
    (infosL (run demo [.spawn 0, .assign 11 5 20, .freeze 10, .modify 10 (fun _ => 3)]).roots).map (fun i => (i.gen, i.val)) =
      [(3, 0), (3, 42), (0, 9), (4, 0), (4, 5), (1, 9)] := by decide +kernel

end examples

end Param
end NG
