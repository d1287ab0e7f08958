import Verif.Model.Tree
import Mathlib.Data.List.Forall2
import Mathlib.Data.List.Perm.Basic

/-! Dictionary, sorting and slicing lemmas for `Verif.Model.Tree`. -/

namespace NG

theorem forall₂_exists {A B : Type} {R : A → B → Prop} (c : List A) (h : ∀ e ∈ c, ∃ f, R e f) : ∃ c', List.Forall₂ R c c' := by
  induction c with
  | nil => exact ⟨[], .nil⟩
  | cons e c ih =>
    obtain ⟨c', h'⟩ := ih (fun x hx => h x (List.mem_cons_of_mem _ hx))
    obtain ⟨f, hf⟩ := h e List.mem_cons_self
    exact ⟨f :: c', .cons hf h'⟩

theorem forall₂_map {A B C : Type} {R : A → B → Prop} {c : List A} {c' : List B} (h : List.Forall₂ R c c') (g : B → C) (g' : A → C)
    (hg : ∀ e f, R e f → g f = g' e) : c'.map g = c.map g' := by
  induction h with
  | nil => rfl
  | cons h _ ih => simp only [List.map_cons]; rw [hg _ _ h, ih]

theorem forall₂_mem {A B : Type} {R : A → B → Prop} {c : List A} {c' : List B} (h : List.Forall₂ R c c') {f : B} (hf : f ∈ c') :
    ∃ e ∈ c, R e f := by
  induction h with
  | nil => cases hf
  | cons h _ ih =>
    rcases List.mem_cons.1 hf with rfl | hf
    · exact ⟨_, List.mem_cons_self, h⟩
    · obtain ⟨e, he, hr⟩ := ih hf
      exact ⟨e, List.mem_cons_of_mem _ he, hr⟩

namespace Tree
variable {K α : Type}

/-- Induction on trees. -/
theorem ind {P : Tree K α → Prop} (hc : P .const) (hl : ∀ v s, P (.leaf v s))
    (hn : ∀ s c, (∀ e ∈ c, P e.2) → P (.node s c)) : ∀ t, P t :=
  fun t => Tree.rec (motive_1 := P) (motive_2 := fun l => ∀ e ∈ l, P e.2) (motive_3 := fun e => P e.2) hc hl hn
    (by intro e he; cases he)
    (by
      intro a l ha hl' e he
      rcases List.mem_cons.1 he with rfl | he
      · exact ha
      · exact hl' e he)
    (by intro _ t ht; exact ht) t

variable [LinearOrder K]
variable {β γ : Type}

/-- Keys of a dictionary. -/
def keys (l : List (K × β)) : List K := l.map (·.1)

theorem lookup_cons (e : K × β) (l : List (K × β)) (k : K) : lookup (e :: l) k = if e.1 = k then some e.2 else lookup l k := by
  unfold lookup
  by_cases h : e.1 = k <;> simp [List.find?_cons, h]

theorem lookup_mem {l : List (K × β)} (hn : (keys l).Nodup) (k : K) (v : β) : lookup l k = some v ↔ (k, v) ∈ l := by
  induction l with
  | nil => simp [lookup]
  | cons e l ih =>
    rw [keys, List.map_cons, List.nodup_cons] at hn
    rw [lookup_cons]
    split
    · rename_i h
      subst h
      constructor
      · intro h; cases h; exact List.mem_cons_self
      · intro h
        rcases List.mem_cons.1 h with h | h
        · rw [← h]
        · exact (hn.1 (List.mem_map.2 ⟨_, h, rfl⟩)).elim
    · rename_i h
      rw [ih hn.2]
      constructor
      · exact fun h => List.mem_cons_of_mem _ h
      · intro h'
        rcases List.mem_cons.1 h' with h' | h'
        · exact (h (by rw [← h'])).elim
        · exact h'

theorem lookup_isSome (l : List (K × β)) (k : K) : (lookup l k).isSome ↔ k ∈ keys l := by
  induction l with
  | nil => simp [lookup, keys]
  | cons e l ih =>
    rw [lookup_cons]
    split
    · rename_i h; simp [keys, h]
    · rename_i h
      rw [ih]
      simp only [keys, List.map_cons, List.mem_cons]
      constructor
      · exact Or.inr
      · rintro (h' | h')
        · exact (h h'.symm).elim
        · exact h'

theorem sortKeys_perm (l : List (K × β)) : (sortKeys l).Perm l := List.perm_insertionSort _ _

theorem keys_sortKeys_perm (l : List (K × β)) : (keys (sortKeys l)).Perm (keys l) := (sortKeys_perm l).map _

theorem sortKeys_nodup {l : List (K × β)} (hn : (keys l).Nodup) : (keys (sortKeys l)).Nodup :=
  (keys_sortKeys_perm l).nodup_iff.2 hn

theorem lookup_sortKeys {l : List (K × β)} (hn : (keys l).Nodup) (k : K) : lookup (sortKeys l) k = lookup l k := by
  ext v
  show lookup (sortKeys l) k = some v ↔ lookup l k = some v
  rw [lookup_mem (sortKeys_nodup hn), lookup_mem hn, (sortKeys_perm l).mem_iff]

theorem sortKeys_sorted (l : List (K × β)) : (keys (sortKeys l)).Pairwise (· ≤ ·) := by
  haveI : Std.Total (fun a b : K × β => a.1 ≤ b.1) := ⟨fun a b => le_total _ _⟩
  haveI : IsTrans (K × β) (fun a b => a.1 ≤ b.1) := ⟨fun a b c h1 h2 => le_trans h1 h2⟩
  unfold keys
  rw [List.pairwise_map]
  exact List.pairwise_insertionSort _ _

/-- Two dictionaries with the same keys are enumerated in the same order once sorted. -/
theorem keys_sortKeys_eq {l : List (K × β)} {l' : List (K × γ)} (h : (keys l).Perm (keys l')) : keys (sortKeys l) = keys (sortKeys l') :=
  List.Perm.eq_of_pairwise (fun _ _ _ _ h1 h2 => le_antisymm h1 h2) (sortKeys_sorted l) (sortKeys_sorted l')
    (((keys_sortKeys_perm l).trans h).trans (keys_sortKeys_perm l').symm)

/-- The sorted dictionary of a function of the entries. -/
theorem sortKeys_map (f : K × β → γ) (l : List (K × β)) : sortKeys (l.map (fun e => (e.1, f e))) = (sortKeys l).map (fun e => (e.1, f e)) := by
  unfold sortKeys
  induction l with
  | nil => rfl
  | cons e l ih =>
    simp only [List.map_cons, List.insertionSort_cons, ih]
    generalize l.insertionSort (fun a b : K × β => a.1 ≤ b.1) = s
    induction s with
    | nil => rfl
    | cons x s ihs =>
      simp only [List.map_cons, List.orderedInsert_cons]
      split
      · simp
      · simp [ihs]

/-- What `slice` does on the sizes of a dictionary: the slices, taken in order, make up the data. -/
theorem slices_flatten (sz : List (K × Nat)) (hn : (keys sz).Nodup) (data : List α) (h : data.length = (sz.map (·.2)).sum) :
    ∃ parts : List (List α), sz.map (fun e => slice sz data e.1) = parts.map some ∧ parts.flatten = data ∧
      parts.map List.length = sz.map (·.2) := by
  induction sz generalizing data with
  | nil =>
    refine ⟨[], rfl, ?_, rfl⟩
    simp at h
    simp [h]
  | cons e sz ih =>
    rw [keys, List.map_cons, List.nodup_cons] at hn
    simp only [List.map_cons, List.sum_cons] at h
    obtain ⟨parts, h1, h2, h3⟩ := ih hn.2 (data.drop e.2) (by rw [List.length_drop]; omega)
    refine ⟨data.take e.2 :: parts, ?_, ?_, ?_⟩
    · simp only [List.map_cons, slice, if_true, List.cons.injEq, true_and]
      rw [← h1]
      apply List.map_congr_left
      intro x hx
      rw [if_neg]
      intro he
      exact hn.1 (List.mem_map.2 ⟨x, hx, he.symm⟩)
    · simp [h2]
    · simp [h3]
      omega

theorem slice_mem (sz : List (K × Nat)) (hn : (keys sz).Nodup) (data : List α) (h : data.length = (sz.map (·.2)).sum) (e : K × Nat)
    (he : e ∈ sz) : ∃ s, slice sz data e.1 = some s ∧ s.length = e.2 := by
  induction sz generalizing data with
  | nil => cases he
  | cons x sz ih =>
    rw [keys, List.map_cons, List.nodup_cons] at hn
    simp only [List.map_cons, List.sum_cons] at h
    rcases List.mem_cons.1 he with rfl | he
    · refine ⟨data.take e.2, by simp [slice], ?_⟩
      rw [List.length_take]; omega
    · obtain ⟨s, h1, h2⟩ := ih hn.2 (data.drop x.2) (by rw [List.length_drop]; omega) he
      refine ⟨s, ?_, h2⟩
      rw [slice, if_neg]
      · exact h1
      · intro hx
        exact hn.1 (List.mem_map.2 ⟨e, he, hx.symm⟩)

theorem dimL_eq (c : List (K × Tree K α)) : dimL c = (c.map (fun e => dim e.2)).sum := by
  induction c with
  | nil => rfl
  | cons e c ih => simp [dimL, ih]

variable [Field α]

theorem getL_iff (rc c : List (K × Tree K α)) (data : List (K × List α)) :
    getL rc c = some data ↔
      List.Forall₂ (fun e f => f.1 = e.1 ∧ ∃ t, lookup c e.1 = some t ∧ get e.2 t = some f.2) rc data := by
  induction rc generalizing data with
  | nil => simp [getL, eq_comm]
  | cons e rc ih =>
    constructor
    · intro h
      rw [getL] at h
      split at h
      · cases h
      · rename_i t ht
        split at h
        · cases h
        · rename_i d hd
          split at h
          · cases h
          · rename_i ds hds
            cases h
            exact List.Forall₂.cons ⟨rfl, t, ht, hd⟩ ((ih ds).1 hds)
    · intro h
      cases h with
      | cons h1 h2 =>
        obtain ⟨hk, t, ht, hd⟩ := h1
        rename_i f ds
        rw [getL]
        simp only [ht, hd, (ih ds).2 h2]
        rw [← hk]

theorem setL_iff (c rc : List (K × Tree K α)) (sz : List (K × Nat)) (data : List α) (c' : List (K × Tree K α))
    (hs : ∀ e ∈ c, (slice sz data e.1).isSome) :
    setL c rc sz data = some c' ↔
      List.Forall₂ (fun e f => f.1 = e.1 ∧ ∃ s r, slice sz data e.1 = some s ∧ lookup rc e.1 = some r ∧ set e.2 r s = some f.2) c c' := by
  induction c generalizing c' with
  | nil => simp [setL, eq_comm]
  | cons e c ih =>
    have hs' : ∀ e ∈ c, (slice sz data e.1).isSome := fun x hx => hs x (List.mem_cons_of_mem _ hx)
    obtain ⟨s, hse⟩ := Option.isSome_iff_exists.1 (hs e List.mem_cons_self)
    rw [setL]
    simp only [hse]
    constructor
    · intro h
      split at h
      · cases h
      · rename_i r hr
        split at h
        · cases h
        · rename_i t ht
          rw [Option.map_eq_some_iff] at h
          obtain ⟨l, hl, rfl⟩ := h
          exact List.Forall₂.cons ⟨rfl, s, r, hse, hr, ht⟩ ((ih l hs').1 hl)
    · intro h
      cases h with
      | cons h1 h2 =>
        obtain ⟨hk, s', r, hs1, hr, ht⟩ := h1
        rename_i f ds
        rw [hse] at hs1
        cases hs1
        simp only [hr, ht, (ih ds hs').2 h2, Option.map_some]
        rw [← hk]

end Tree
end NG
