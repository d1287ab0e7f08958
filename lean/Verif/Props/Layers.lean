import Verif.Model.Layers
import Mathlib.Data.List.InsertIdx
import Mathlib.Tactic.Linarith

/-!
# C26: layer stacks
-/

namespace NG
namespace Layers
variable {β : Type}

/-- Specification of a proper stack: the root (level 0) first, levels non-decreasing, every layer knowing its position. -/
structure Ok (l : List (Layer β)) : Prop where
  root : ∃ r rest, l = r :: rest ∧ r.level = 0
  sorted : l.Pairwise (fun a b => a.level ≤ b.level)
  index : ∀ k (h : k < l.length), (l[k]).index = k

/-- What a stack is made of, without the positions. -/
def content (l : List (Layer β)) : List (Nat × β) := l.map (fun x => (x.level, x.tag))

/-- `bisect_right` on a sorted list splits it in elements `≤ x` and elements `> x`. -/
theorem bisectRight_spec (levels : List Nat) (x : Nat) (hs : levels.Pairwise (· ≤ ·)) : ∀ lo hi, lo ≤ hi → hi ≤ levels.length →
    (∀ k (h : k < levels.length), k < lo → levels[k] ≤ x) → (∀ k (h : k < levels.length), hi ≤ k → x < levels[k]) →
    bisectRight levels x lo hi ≤ levels.length ∧
    (∀ k (h : k < levels.length), k < bisectRight levels x lo hi → levels[k] ≤ x) ∧
    (∀ k (h : k < levels.length), bisectRight levels x lo hi ≤ k → x < levels[k]) := by
  intro lo hi
  induction hm : hi - lo using Nat.strong_induction_on generalizing lo hi with
  | _ m ih =>
    intro hle hlen h1 h2
    unfold bisectRight
    by_cases hlt : lo < hi
    · rw [dif_pos hlt]
      have hmid : (lo + hi) / 2 < levels.length := by omega
      have hget : levels.getD ((lo + hi) / 2) 0 = levels[(lo + hi) / 2] := by
        simp [List.getD_eq_getElem?_getD, List.getElem?_eq_getElem hmid]
      simp only [hget]
      split
      · rename_i hx
        refine ih _ ?_ _ _ rfl (by omega) (by omega) h1 ?_
        · omega
        · intro k hk hkm
          rcases Nat.eq_or_lt_of_le hkm with h | h
          · subst h; exact hx
          · exact lt_of_lt_of_le hx (List.pairwise_iff_getElem.1 hs _ _ hmid hk h)
      · rename_i hx
        refine ih _ ?_ _ _ rfl (by omega) (by omega) ?_ h2
        · omega
        · intro k hk hkm
          rcases Nat.lt_or_ge k ((lo + hi) / 2) with h | h
          · exact le_trans (List.pairwise_iff_getElem.1 hs _ _ hk hmid h) (by omega)
          · have : k = (lo + hi) / 2 := by omega
            subst this; omega
    · rw [dif_neg hlt]
      refine ⟨by omega, h1, ?_⟩
      intro k hk hkl
      exact h2 k hk (by omega)

theorem insertIdx_split (l : List (Layer β)) (n : Nat) (x : Layer β) (h : n ≤ l.length) : l.insertIdx n x = l.take n ++ x :: l.drop n := by
  induction l generalizing n with
  | nil =>
    have : n = 0 := by simpa using h
    subst this; rfl
  | cons y l ih =>
    cases n with
    | zero => rfl
    | succ n => simp [List.insertIdx_succ_cons, ih n (by simpa using h)]

/-- Specification: stable insertion. The new element comes after all the elements of lower or equal level and before
the others. -/
def StableInsert (l : List (Nat × β)) (x : Nat × β) (l' : List (Nat × β)) : Prop :=
  ∃ a b, l = a ++ b ∧ l' = a ++ x :: b ∧ (∀ y ∈ a, y.1 ≤ x.1) ∧ (∀ y ∈ b, x.1 < y.1)

theorem reindex_content (l : List (Layer β)) : content (reindex l) = content l := by
  apply List.ext_getElem <;> simp [content, reindex]

theorem reindex_index (l : List (Layer β)) (k : Nat) (h : k < (reindex l).length) : ((reindex l)[k]).index = k := by
  simp [reindex]

theorem content_sorted (l : List (Layer β)) : l.Pairwise (fun a b => a.level ≤ b.level) ↔ (content l).Pairwise (fun a b => a.1 ≤ b.1) := by
  simp [content, List.pairwise_map]

theorem stable_sorted {l l' : List (Nat × β)} {x : Nat × β} (h : StableInsert l x l') (hs : l.Pairwise (fun a b => a.1 ≤ b.1)) :
    l'.Pairwise (fun a b => a.1 ≤ b.1) := by
  obtain ⟨a, b, rfl, rfl, ha, hb⟩ := h
  rw [List.pairwise_append] at hs ⊢
  obtain ⟨h1, h2, h3⟩ := hs
  refine ⟨h1, List.pairwise_cons.2 ⟨fun y hy => (hb y hy).le, h2⟩, ?_⟩
  intro y hy z hz
  rcases List.mem_cons.1 hz with rfl | hz
  · exact ha y hy
  · exact h3 y hy z hz

/-- C26: adding a layer to a proper stack gives a proper stack, where the layer has been inserted after all those of
lower or equal level and before those of higher level, all others keeping their order. -/
theorem addLayer_ok (l : List (Layer β)) (x : Layer β) (h : Ok l) :
    ∃ l', addLayer l x = some l' ∧ Ok l' ∧ StableInsert (content l) (x.level, x.tag) (content l') := by
  obtain ⟨r, rest, hl, hr⟩ := h.root
  have hne : l ≠ [] := by rw [hl]; simp
  have hlast : l.getLast? = some (l.getLast hne) := List.getLast?_eq_getLast_of_ne_nil hne
  unfold addLayer
  rw [hlast]
  simp only
  by_cases hlev : (l.getLast hne).level ≤ x.level
  · rw [if_pos hlev]
    have hall : ∀ y ∈ l, y.level ≤ x.level := by
      intro y hy
      rcases List.mem_iff_getElem.1 hy with ⟨k, hk, rfl⟩
      rcases Nat.lt_or_ge k (l.length - 1) with hk' | hk'
      · have := List.pairwise_iff_getElem.1 h.sorted k (l.length - 1) hk (by omega) hk'
        rw [List.getLast_eq_getElem] at hlev
        omega
      · have : k = l.length - 1 := by omega
        subst this
        rw [List.getLast_eq_getElem] at hlev
        exact hlev
    have hst : StableInsert (content l) (x.level, x.tag) (content (l ++ [{ x with index := l.length }])) := by
      refine ⟨content l, [], by simp, by simp [content], ?_, by simp⟩
      intro y hy
      obtain ⟨z, hz, rfl⟩ := List.mem_map.1 hy
      exact hall z hz
    refine ⟨_, rfl, ⟨⟨r, rest ++ [{ x with index := l.length }], by rw [hl]; rfl, hr⟩, ?_, ?_⟩, hst⟩
    · rw [content_sorted]
      exact stable_sorted hst ((content_sorted l).1 h.sorted)
    · intro k hk
      rcases Nat.lt_or_ge k l.length with hk' | hk'
      · rw [List.getElem_append_left hk']; exact h.index k hk'
      · have : k = l.length := by simp at hk; omega
        subst this
        simp
  · rw [if_neg hlev]
    have hs : (l.map (·.level)).Pairwise (· ≤ ·) := by rw [List.pairwise_map]; exact h.sorted
    obtain ⟨b1, b2, b3⟩ := bisectRight_spec (l.map (·.level)) x.level hs 0 (l.map (·.level)).length (Nat.zero_le _) le_rfl
      (fun k _ h => by omega) (fun k h h' => by omega)
    generalize bisectRight (l.map (·.level)) x.level 0 (l.map (·.level)).length = ind at *
    rw [List.length_map] at b1
    have hins : l.insertIdx ind x = l.take ind ++ x :: l.drop ind := by
      exact insertIdx_split l ind x b1
    have hst : StableInsert (content l) (x.level, x.tag) (content (reindex (l.insertIdx ind x))) := by
      refine ⟨content (l.take ind), content (l.drop ind), ?_, ?_, ?_, ?_⟩
      · unfold content
        rw [← List.map_append, List.take_append_drop]
      · rw [reindex_content, hins]
        unfold content
        rw [List.map_append]; rfl
      · intro y hy
        obtain ⟨z, hz, rfl⟩ := List.mem_map.1 hy
        obtain ⟨k, hk, rfl⟩ := List.mem_iff_getElem.1 hz
        rw [List.length_take] at hk
        have := b2 k (by rw [List.length_map]; omega) (by omega)
        simpa using this
      · intro y hy
        obtain ⟨z, hz, rfl⟩ := List.mem_map.1 hy
        obtain ⟨k, hk, rfl⟩ := List.mem_iff_getElem.1 hz
        rw [List.length_drop] at hk
        have := b3 (ind + k) (by rw [List.length_map]; omega) (by omega)
        simpa using this
    have hpos : 0 < ind := by
      by_contra h0
      have h0' : ind = 0 := by omega
      subst h0'
      have := b3 0 (by rw [hl]; simp) le_rfl
      simp only [hl, List.map_cons, List.getElem_cons_zero, hr] at this
      omega
    refine ⟨_, rfl, ⟨?_, ?_, fun k hk => reindex_index _ k hk⟩, hst⟩
    · obtain ⟨j, rfl⟩ : ∃ j, ind = j + 1 := ⟨ind - 1, by omega⟩
      have e : l.insertIdx (j + 1) x = r :: (rest.take j ++ x :: rest.drop j) := by rw [hins, hl]; rfl
      rw [e]
      unfold reindex
      rw [List.mapIdx_cons]
      exact ⟨_, _, rfl, hr⟩
    · rw [content_sorted]
      exact stable_sorted hst ((content_sorted l).1 h.sorted)

/-- Specification: the layers of one level, in order. -/
def ofLevel (l : List (Nat × β)) (c : Nat) : List (Nat × β) := l.filter (fun y => y.1 = c)

theorem ofLevel_insert {l l' : List (Nat × β)} {x : Nat × β} (h : StableInsert l x l') (c : Nat) :
    ofLevel l' c = ofLevel l c ++ if x.1 = c then [x] else [] := by
  obtain ⟨a, b, rfl, rfl, ha, hb⟩ := h
  unfold ofLevel
  rw [List.filter_append, List.filter_append, List.filter_cons]
  by_cases hc : x.1 = c
  · have : b.filter (fun y => decide (y.1 = c)) = [] := by
      rw [List.filter_eq_nil_iff]
      intro y hy
      have := hb y hy
      simp; omega
    simp [hc, this]
  · simp [hc]

/-- C26: after any sequence of `add_layer` calls, starting from a proper stack: the stack is proper, and for each level
the layers are those there before followed by the added ones in the order of the calls. -/
theorem addLayers_ok (l : List (Layer β)) (xs : List (Layer β)) (h : Ok l) :
    ∃ l', addLayers l xs = some l' ∧ Ok l' ∧
      (∀ c, ofLevel (content l') c = ofLevel (content l) c ++ ofLevel (content xs) c) := by
  induction xs generalizing l with
  | nil => exact ⟨l, rfl, h, fun c => by simp [content, ofLevel]⟩
  | cons x xs ih =>
    obtain ⟨l1, h1, h2, h3⟩ := addLayer_ok l x h
    obtain ⟨l2, h4, h5, h6⟩ := ih l1 h2
    refine ⟨l2, by simp [addLayers, h1, h4], h5, ?_⟩
    intro c
    rw [h6, ofLevel_insert h3]
    simp only [content, ofLevel, List.map_cons, List.filter_cons, List.append_assoc]
    by_cases hc : x.level = c <;> simp [hc]

/-- A list sorted by level is determined by its layers of each level. -/
theorem sorted_ofLevel_unique : ∀ (l l' : List (Nat × β)), l.Pairwise (fun a b => a.1 ≤ b.1) → l'.Pairwise (fun a b => a.1 ≤ b.1) →
    (∀ c, ofLevel l c = ofLevel l' c) → l = l' := by
  intro l
  induction l with
  | nil =>
    intro l' _ _ h
    cases l' with
    | nil => rfl
    | cons y l' =>
      have := h y.1
      simp [ofLevel] at this
  | cons x l ih =>
    intro l' hs hs' h
    cases l' with
    | nil =>
      have := h x.1
      simp [ofLevel] at this
    | cons y l' =>
      have hxy : x.1 = y.1 := by
        apply le_antisymm
        · have hy : y ∈ ofLevel (x :: l) y.1 := by rw [h]; simp [ofLevel]
          have : y ∈ x :: l := List.mem_of_mem_filter hy
          rcases List.mem_cons.1 this with rfl | hm
          · exact le_rfl
          · exact (List.pairwise_cons.1 hs).1 y hm
        · have hx : x ∈ ofLevel (y :: l') x.1 := by rw [← h]; simp [ofLevel]
          have : x ∈ y :: l' := List.mem_of_mem_filter hx
          rcases List.mem_cons.1 this with rfl | hm
          · exact le_rfl
          · exact (List.pairwise_cons.1 hs').1 x hm
      have hx := h x.1
      simp only [ofLevel, List.filter_cons, decide_true, if_true, ← hxy] at hx
      obtain ⟨rfl, _⟩ := List.cons.inj hx
      congr 1
      apply ih _ (List.pairwise_cons.1 hs).2 (List.pairwise_cons.1 hs').2
      intro c
      have := h c
      simp only [ofLevel, List.filter_cons] at this
      by_cases hc : x.1 = c
      · simpa [hc, ofLevel] using this
      · simpa [hc, ofLevel] using this

/-- C26: copying a proper stack gives a proper stack with the same layers in the same order. -/
theorem copy_ok (l : List (Layer β)) (h : Ok l) : ∃ l', copy l = some l' ∧ Ok l' ∧ content l' = content l := by
  obtain ⟨r, rest, hl, hr⟩ := h.root
  have hroot : Ok [({ r with index := 0 } : Layer β)] :=
    ⟨⟨_, [], rfl, hr⟩, by simp, fun k hk => by simp at hk; subst hk; rfl⟩
  obtain ⟨l', h1, h2, h3⟩ := addLayers_ok _ (rest.map (fun x => { x with index := 0 })) hroot
  refine ⟨l', by rw [hl]; exact h1, h2, ?_⟩
  apply sorted_ofLevel_unique _ _ ((content_sorted _).1 h2.sorted) ((content_sorted _).1 h.sorted)
  intro c
  rw [h3, hl]
  simp only [ofLevel, content, List.map_cons, List.map_nil, List.map_map]
  rw [← List.filter_append]
  rfl

/-- C26: in a proper stack the consistency check of `_call_deeper` (the layer at the recorded position is the caller)
holds for every layer. -/
theorem index_self (l : List (Layer β)) (h : Ok l) (k : Nat) (hk : k < l.length) : l[(l[k]).index]? = some l[k] := by
  rw [h.index k hk]
  exact List.getElem?_eq_getElem hk

/-- C26: `_call_deeper` reaches the nearest deeper layer which implements the method. -/
theorem callDeeper_spec (l : List (Layer β)) (impl : β → Bool) (i j : Nat) (hi : i ≤ l.length) :
    callDeeper l impl i = some j ↔ j < i ∧ (∃ x, l[j]? = some x ∧ impl x.tag = true) ∧
      ∀ k, j < k → k < i → ∀ x, l[k]? = some x → impl x.tag = false := by
  unfold callDeeper
  induction i with
  | zero => simp
  | succ i ih =>
    rw [List.range_succ, List.reverse_append, List.reverse_singleton, List.singleton_append, List.find?_cons]
    have hli : l[i]? = some l[i] := List.getElem?_eq_getElem (by omega)
    simp only [hli]
    cases him : impl (l[i]).tag with
    | true =>
      simp only [Option.some.injEq]
      constructor
      · rintro rfl
        exact ⟨by omega, ⟨_, hli, him⟩, fun k h1 h2 => by omega⟩
      · rintro ⟨h1, _, h3⟩
        rcases Nat.lt_or_ge j i with h | h
        · have := h3 i h (by omega) _ hli
          rw [him] at this; cases this
        · omega
    | false =>
      simp only
      rw [ih (by omega)]
      constructor
      · rintro ⟨h1, h2, h3⟩
        refine ⟨by omega, h2, ?_⟩
        intro k hk1 hk2 x hx
        rcases Nat.lt_or_ge k i with h | h
        · exact h3 k hk1 h x hx
        · have : k = i := by omega
          subst this
          rw [hli] at hx; cases hx; exact him
      · rintro ⟨h1, ⟨x, hx, hx'⟩, h3⟩
        refine ⟨?_, ⟨x, hx, hx'⟩, fun k hk1 hk2 => h3 k hk1 (by omega)⟩
        rcases Nat.lt_or_ge j i with h | h
        · exact h
        · have : j = i := by omega
          subst this
          rw [hli] at hx; cases hx; rw [him] at hx'; cases hx'

/-- A root is a proper stack on its own: every stack built by `add_layer` is proper. -/
theorem root_ok (r : Layer β) (h : r.level = 0) (h0 : r.index = 0) : Ok [r] :=
  ⟨⟨r, [], rfl, h⟩, by simp, fun k hk => by simp at hk; subst hk; exact h0⟩

/-- An array (level 0) with array casting (900), a bound (10), integer casting (800), then an exponent (10): the
operations come first, in the order in which they were added. -/
example : (addLayers [⟨0, 0, "root"⟩] [⟨900, 0, "array"⟩, ⟨10, 0, "bound"⟩, ⟨800, 0, "int"⟩, ⟨10, 0, "exp"⟩]).map
    (fun l => l.map (fun x => (x.level, x.index, x.tag)))
    = some [(0, 0, "root"), (10, 1, "bound"), (10, 2, "exp"), (800, 3, "int"), (900, 4, "array")] := by decide +kernel

end Layers
end NG
