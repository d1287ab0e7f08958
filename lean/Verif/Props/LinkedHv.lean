import Verif.Model.LinkedHv
import Verif.Props.Hypervolume

/-! # C97: the linked lists of the hypervolume indicator -/

namespace NG
namespace Links
open Hv

/-! ## Lists threaded by references -/

/-- Specification: from node `a`, the references `nx` visit `L` then `b`, and the references `pv` visit the same backwards. -/
def Linked (nx pv : Node → Node) : Node → List Nat → Node → Prop
  | a, [], b => nx a = b ∧ pv b = a
  | a, x :: L, b => nx a = some x ∧ pv (some x) = a ∧ Linked nx pv (some x) L b

/-- Specification: list `i` contains exactly `L`, in this order. -/
def Rep (l : Refs) (i : Nat) (L : List Nat) : Prop := L.Nodup ∧ Linked (l.next i) (l.prev i) none L none

/-- Assignment of one reference. -/
def put (f : Node → Node) (a b : Node) : Node → Node := fun n => if n = a then b else f n

theorem linked_congr {nx pv nx' pv' : Node → Node} {b : Node} : ∀ {L : List Nat} {a : Node}, Linked nx pv a L b →
    (∀ n, n = a ∨ n ∈ L.map some → nx' n = nx n) → (∀ n, n = b ∨ n ∈ L.map some → pv' n = pv n) → Linked nx' pv' a L b
  | [], a, h, h1, h2 => ⟨by rw [h1 a (Or.inl rfl)]; exact h.1, by rw [h2 b (Or.inl rfl)]; exact h.2⟩
  | x :: L, a, h, h1, h2 => by
    refine ⟨by rw [h1 a (Or.inl rfl)]; exact h.1, by rw [h2 (some x) (Or.inr (by simp))]; exact h.2.1, linked_congr h.2.2 ?_ ?_⟩
    · rintro n (rfl | hn)
      · exact h1 _ (Or.inr (by simp))
      · exact h1 _ (Or.inr (by simp only [List.map_cons, List.mem_cons]; exact Or.inr hn))
    · rintro n (rfl | hn)
      · exact h2 _ (Or.inl rfl)
      · exact h2 _ (Or.inr (by simp only [List.map_cons, List.mem_cons]; exact Or.inr hn))

theorem linked_split {nx pv : Node → Node} {b : Node} {x : Nat} {L2 : List Nat} : ∀ {L1 : List Nat} {a : Node},
    Linked nx pv a (L1 ++ x :: L2) b → Linked nx pv a L1 (some x) ∧ Linked nx pv (some x) L2 b
  | [], _, h => ⟨⟨h.1, h.2.1⟩, h.2.2⟩
  | _ :: _, _, h => ⟨⟨h.1, h.2.1, (linked_split h.2.2).1⟩, (linked_split h.2.2).2⟩

theorem linked_first {nx pv : Node → Node} {a b : Node} {L : List Nat} (h : Linked nx pv a L b) : nx a = (L.head?).or b := by
  cases L with
  | nil => exact h.1
  | cons x L => exact h.1

theorem linked_last {nx pv : Node → Node} {b : Node} : ∀ {L : List Nat} {a : Node}, Linked nx pv a L b → pv b = (L.getLast?).or a
  | [], _, h => h.2
  | [x], _, h => h.2.2.2
  | x :: y :: L, a, h => by
    have := linked_last h.2.2
    rw [this, List.getLast?_cons_cons]
    cases hL : (y :: L).getLast? with
    | none => simp at hL
    | some z => rfl

theorem rep_head {l : Refs} {i : Nat} {L : List Nat} (h : Rep l i L) : l.next i none = L.head? := by
  rw [linked_first h.2]; simp

theorem rep_last {l : Refs} {i : Nat} {L : List Nat} (h : Rep l i L) : l.prev i none = L.getLast? := by
  rw [linked_last h.2]; simp

theorem rep_next {l : Refs} {i x : Nat} {L1 L2 : List Nat} (h : Rep l i (L1 ++ x :: L2)) : l.next i (some x) = L2.head? := by
  rw [linked_first (linked_split h.2).2]; simp

theorem rep_prev {l : Refs} {i x : Nat} {L1 L2 : List Nat} (h : Rep l i (L1 ++ x :: L2)) : l.prev i (some x) = L1.getLast? := by
  rw [linked_last (linked_split h.2).1]; simp

/-- The references of the neighbours of a node of the list. -/
theorem rep_back {l : Refs} {i x : Nat} {L : List Nat} (h : Rep l i L) (hx : x ∈ L) :
    l.next i (l.prev i (some x)) = some x ∧ l.prev i (l.next i (some x)) = some x := by
  obtain ⟨L1, L2, rfl⟩ := List.append_of_mem hx
  have h1 := rep_prev h
  have h2 := rep_next h
  constructor
  · rw [h1]
    rcases List.eq_nil_or_concat L1 with rfl | ⟨L1', z, rfl⟩
    · simpa using rep_head h
    · have : Rep l i (L1' ++ z :: (x :: L2)) := by simpa using h
      simpa using rep_next this
  · rw [h2]
    cases L2 with
    | nil => simpa using rep_last h
    | cons z L2 =>
      have : Rep l i ((L1 ++ [x]) ++ z :: L2) := by simpa using h
      simpa using rep_prev this

/-! ## Iterations -/

theorem chain_next {nx pv : Node → Node} : ∀ {L : List Nat} {a : Node} {N : Nat}, Linked nx pv a L none → L.length ≤ N → chain nx N (nx a) = L
  | [], a, N, h, _ => by rw [h.1]; cases N <;> rfl
  | x :: L, a, 0, _, hN => by simp at hN
  | x :: L, a, N + 1, h, hN => by
    rw [h.1, chain, chain_next h.2.2 (by simpa using hN)]

theorem linked_reverse {nx pv : Node → Node} {b : Node} : ∀ {L : List Nat} {a : Node}, Linked nx pv a L b → Linked pv nx b L.reverse a := by
  intro L
  induction L using List.reverseRecOn generalizing b with
  | nil => intro a h; exact ⟨h.2, h.1⟩
  | append_singleton L x ih =>
    intro a h
    obtain ⟨h1, h2⟩ := linked_split h
    rw [List.reverse_append, List.reverse_singleton, List.singleton_append]
    exact ⟨h2.2, h2.1, ih h1⟩

theorem rep_iterate {l : Refs} {i N : Nat} {L : List Nat} (h : Rep l i L) (hN : L.length ≤ N) : iterate N l i = L := chain_next h.2 hN

theorem rep_reverseIterate {l : Refs} {i N : Nat} {L : List Nat} (h : Rep l i L) (hN : L.length ≤ N) : reverseIterate N l i = L.reverse :=
  chain_next (linked_reverse h.2) (by simpa using hN)

theorem rep_chainLength {l : Refs} {i N : Nat} {L : List Nat} (h : Rep l i L) (hN : L.length ≤ N) : chainLength N l i = L.length := by
  rw [chainLength, rep_iterate h hN]

/-- Iteration from a node of the list: the node and those after it. -/
theorem rep_iterate_from {l : Refs} {i N x : Nat} {L1 L2 : List Nat} (h : Rep l i (L1 ++ x :: L2)) (hN : L2.length < N) :
    chain (l.next i) N (some x) = x :: L2 := by
  obtain ⟨N, rfl⟩ : ∃ M, N = M + 1 := ⟨N - 1, by omega⟩
  rw [chain, chain_next (linked_split h.2).2 (by omega)]

/-- Two descriptions of a list agree. -/
theorem rep_unique {l : Refs} {i : Nat} {L L' : List Nat} (h : Rep l i L) (h' : Rep l i L') : L = L' := by
  rw [← rep_iterate h (le_max_left L.length L'.length), rep_iterate h' (le_max_right _ _)]

/-! ## Each operation changes one list -/

structure Local (f : Refs → Nat → Refs) : Prop where
  next_other : ∀ l i j, j ≠ i → (f l i).next j = l.next j
  prev_other : ∀ l i j, j ≠ i → (f l i).prev j = l.prev j
  congr : ∀ l l' i, l.next i = l'.next i → l.prev i = l'.prev i → (f l i).next i = (f l' i).next i ∧ (f l i).prev i = (f l' i).prev i

theorem local_fold {f : Refs → Nat → Refs} (h : Local f) (l : Refs) (i : Nat) : ∀ k,
    (((List.range k).foldl f l).next i = if i < k then (f l i).next i else l.next i) ∧
    (((List.range k).foldl f l).prev i = if i < k then (f l i).prev i else l.prev i)
  | 0 => by simp
  | k + 1 => by
    obtain ⟨h1, h2⟩ := local_fold h l i k
    rw [List.range_succ, List.foldl_append, List.foldl_cons, List.foldl_nil]
    by_cases hik : i = k
    · subst hik
      rw [if_neg (by omega)] at h1 h2
      rw [if_pos (by omega), if_pos (by omega)]
      exact h.congr _ _ _ h1 h2
    · rw [h.next_other _ _ _ hik, h.prev_other _ _ _ hik, h1, h2]
      by_cases hlt : i < k
      · rw [if_pos hlt, if_pos hlt, if_pos (by omega), if_pos (by omega)]; exact ⟨rfl, rfl⟩
      · rw [if_neg hlt, if_neg hlt, if_neg (by omega), if_neg (by omega)]; exact ⟨rfl, rfl⟩

theorem set_self (f : Nat → Node → Node) (i : Nat) (a b : Node) : set f i a b i = put (f i) a b := by
  funext n; simp [set, put]

theorem set_other (f : Nat → Node → Node) {i j : Nat} (a b : Node) (h : j ≠ i) : set f i a b j = f j := by
  funext n; simp [set, h]

theorem popOne_local (x : Nat) : Local (fun l i => popOne l x i) where
  next_other l i j h := set_other _ _ _ h
  prev_other l i j h := set_other _ _ _ h
  congr l l' i h1 h2 := by simp only [popOne, set_self, h1, h2, and_self]

theorem reinsertOne_local (x : Nat) : Local (fun l i => reinsertOne l x i) where
  next_other l i j h := set_other _ _ _ h
  prev_other l i j h := set_other _ _ _ h
  congr l l' i h1 h2 := by simp only [reinsertOne, set_self, h1, h2, and_self]

theorem append_next (l : Refs) (n i : Nat) : (append l n i).next i = put (put (l.next i) (some n) none) (l.prev i none) (some n) := by
  simp only [append, set_self]

theorem append_prev (l : Refs) (n i : Nat) : (append l n i).prev i = put (put (l.prev i) (some n) (l.prev i none)) none (some n) := by
  simp only [append, set_self]

theorem append_other (l : Refs) (n : Nat) {i j : Nat} (h : j ≠ i) : (append l n i).next j = l.next j ∧ (append l n i).prev j = l.prev j := by
  simp only [append, set_other _ _ _ h, and_self]

theorem extend_local (f : Nat → List Nat) : Local (fun l i => extend l (f i) i) where
  next_other l i j h := by
    simp only [extend]
    generalize f i = L
    induction L generalizing l with
    | nil => rfl
    | cons n L ih => rw [List.foldl_cons, ih, (append_other l n h).1]
  prev_other l i j h := by
    simp only [extend]
    generalize f i = L
    induction L generalizing l with
    | nil => rfl
    | cons n L ih => rw [List.foldl_cons, ih, (append_other l n h).2]
  congr l l' i h1 h2 := by
    simp only [extend]
    generalize f i = L
    induction L generalizing l l' with
    | nil => exact ⟨h1, h2⟩
    | cons n L ih =>
      rw [List.foldl_cons, List.foldl_cons]
      exact ih _ _ (by rw [append_next, append_next, h1, h2]) (by rw [append_prev, append_prev, h2])

theorem pop_at (l : Refs) (x k i : Nat) :
    (pop l x k).next i = (if i < k then put (l.next i) (l.prev i (some x)) (l.next i (some x)) else l.next i) ∧
    (pop l x k).prev i = (if i < k then put (l.prev i) (l.next i (some x)) (l.prev i (some x)) else l.prev i) := by
  have h := local_fold (popOne_local x) l i k
  simp only [popOne, set_self] at h
  exact h

theorem reinsert_at (l : Refs) (x k i : Nat) :
    (reinsert l x k).next i = (if i < k then put (l.next i) (l.prev i (some x)) (some x) else l.next i) ∧
    (reinsert l x k).prev i =
      (if i < k then put (l.prev i) (put (l.next i) (l.prev i (some x)) (some x) (some x)) (some x) else l.prev i) := by
  have h := local_fold (reinsertOne_local x) l i k
  have e1 : (reinsertOne l x i).next i = put (l.next i) (l.prev i (some x)) (some x) := by simp only [reinsertOne, set_self]
  have e2 : (reinsertOne l x i).prev i = put (l.prev i) (put (l.next i) (l.prev i (some x)) (some x) (some x)) (some x) := by
    simp only [reinsertOne, set_self]
  rw [← e2, ← e1]
  exact h

/-! ## Appending -/

theorem linked_append {nx pv : Node → Node} {n : Nat} : ∀ {L : List Nat} {a : Node}, Linked nx pv a L none → a ≠ some n → n ∉ L → L.Nodup →
    a ∉ L.map some → Linked (put (put nx (some n) none) (pv none) (some n)) (put (put pv (some n) (pv none)) none (some n)) a (L ++ [n]) none
  | [], a, h, ha, _, _, _ => by
    obtain ⟨_, h2⟩ := h
    refine ⟨by simp [put, h2], by simp [put, h2], ?_, by simp [put]⟩
    simp only [put]; rw [h2, if_neg (fun h => ha h.symm)]; simp
  | z :: L, a, h, ha, hn, hd, haL => by
    have hlast := linked_last h.2.2
    have hne : a ≠ pv none := by
      rw [hlast]
      intro hc
      apply haL
      rw [hc]
      cases hL : L.getLast? with
      | none => simp
      | some y => simp; exact Or.inr (List.mem_of_getLast? hL)
    refine ⟨?_, ?_, ?_⟩
    · simp only [put]; rw [if_neg hne, if_neg ha]; exact h.1
    · simp only [put]
      rw [if_neg (by simp), if_neg (by simp only [Option.some.injEq]; rintro rfl; exact hn (by simp))]; exact h.2.1
    · refine linked_append h.2.2 ?_ (fun hc => hn (List.mem_cons_of_mem _ hc)) (List.nodup_cons.mp hd).2 ?_
      · simp only [ne_eq, Option.some.injEq]; rintro rfl; exact hn (by simp)
      · simp only [List.mem_map, Option.some.injEq, exists_eq_right]; exact (List.nodup_cons.mp hd).1

/-- **C97 (append).** `append` adds the node at the end of list `i`; the other lists are unchanged. -/
theorem append_rep {l : Refs} {i n : Nat} {L : List Nat} (h : Rep l i L) (hn : n ∉ L) :
    Rep (append l n i) i (L ++ [n]) ∧ ∀ j L', j ≠ i → Rep l j L' → Rep (append l n i) j L' := by
  refine ⟨⟨?_, ?_⟩, ?_⟩
  · rw [List.nodup_append]; exact ⟨h.1, by simp, by simp; intro a ha; rintro rfl; exact hn ha⟩
  · rw [append_next, append_prev]
    exact linked_append h.2 (by simp) hn h.1 (by simp)
  · intro j L' hj hr
    refine ⟨hr.1, ?_⟩
    rw [(append_other l n hj).1, (append_other l n hj).2]
    exact hr.2

/-- **C97 (extend).** -/
theorem extend_rep {i : Nat} : ∀ {ns : List Nat} {l : Refs} {L : List Nat}, Rep l i L → (L ++ ns).Nodup → Rep (extend l ns i) i (L ++ ns)
  | [], l, L, h, _ => by simpa [extend] using h
  | n :: ns, l, L, h, hd => by
    have hn : n ∉ L := by
      intro hc
      rw [List.nodup_append] at hd
      exact hd.2.2 n hc n (by simp) rfl
    have := extend_rep (ns := ns) (append_rep h hn).1 (by simpa using hd)
    simpa [extend] using this

variable {α : Type} [LinearOrder α]

/-- **C97 (create_sorted).** Each list of index below the dimension contains all the nodes, in the order of `sort_by_index`. -/
theorem createSorted_rep [Field α] (c : Nat → Nat → α) {d i : Nat} (n : Nat) (hi : i < d) : Rep (createSorted c d n) i (sortBy c i (List.range n)) := by
  have hl := local_fold (extend_local (fun i => sortBy c i (List.range n))) Refs.init i d
  rw [if_pos hi, if_pos hi] at hl
  have hnd : (sortBy c i (List.range n)).Nodup := (sortBy_perm c i (List.range n)).nodup_iff.mpr List.nodup_range
  have h0 : Rep Refs.init i [] := ⟨List.nodup_nil, rfl, rfl⟩
  have := extend_rep (ns := sortBy c i (List.range n)) h0 (by simpa using hnd)
  refine ⟨hnd, ?_⟩
  rw [createSorted, hl.1, hl.2]
  exact this.2

theorem no_swap {a b : Nat} : ∀ {l : List Nat}, l.Nodup → [a, b].Sublist l → [b, a].Sublist l → False
  | [], _, h1, _ => by simp at h1
  | x :: l, hd, h1, h2 => by
    obtain ⟨hx, hl⟩ := List.nodup_cons.mp hd
    cases h1 with
    | cons _ h1 =>
      cases h2 with
      | cons _ h2 => exact no_swap hl h1 h2
      | cons_cons _ h2 => exact hx (h1.subset (by simp))
    | cons_cons _ h1 =>
      cases h2 with
      | cons _ h2 => exact hx (h2.subset (by simp))
      | cons_cons _ h2 => exact hx (h1.subset (by simp))

theorem sortBy_stable [Field α] (c : Nat → Nat → α) (k n : Nat) :
    (sortBy c k (List.range n)).Pairwise (fun a b => c a k < c b k ∨ (c a k = c b k ∧ a < b)) := by
  have hnd : (sortBy c k (List.range n)).Nodup := (sortBy_perm c k _).nodup_iff.mpr List.nodup_range
  rw [List.pairwise_iff_forall_sublist]
  intro a b hab
  have hle : c a k ≤ c b k := List.pairwise_iff_forall_sublist.mp (sortBy_sorted c k _) hab
  rcases lt_or_eq_of_le hle with h | h
  · exact Or.inl h
  · refine Or.inr ⟨h, ?_⟩
    by_contra hc
    have hne : a ≠ b := by
      rintro rfl
      have := hnd.sublist hab
      simp at this
    have hlt : b < a := by omega
    have ha : a < n := by
      have := (sortBy_perm c k _).mem_iff.mp (hab.subset (List.mem_cons_self (a := a)))
      simpa using this
    have hsub : [b, a].Sublist (List.range n) := by
      obtain ⟨m, rfl⟩ : ∃ m, n = a + (m + 1) := ⟨n - a - 1, by omega⟩
      rw [List.range_add]
      have h1 : [b].Sublist (List.range a) := by rw [List.singleton_sublist]; simpa using hlt
      have h2 : [a].Sublist ((List.range (m + 1)).map (fun x => a + x)) := by
        rw [List.singleton_sublist, List.mem_map]; exact ⟨0, by simp, by simp⟩
      exact h1.append h2
    haveI : Std.Total (fun a b : Nat => c a k ≤ c b k) := ⟨fun a b => le_total _ _⟩
    haveI : IsTrans Nat (fun a b => c a k ≤ c b k) := ⟨fun a b c h h' => le_trans h h'⟩
    exact no_swap hnd hab (List.pair_sublist_insertionSort (r := fun a b => c a k ≤ c b k) h.ge hsub)

/-- **C97 (the lists created).** Iteration visits every point once by increasing coordinate, points with equal coordinates by their
position; the reversed iteration visits them in the opposite order; each list has as many nodes as there are points. -/
theorem createSorted_iterate [Field α] (c : Nat → Nat → α) {d i N : Nat} (n : Nat) (hi : i < d) (hN : n ≤ N) :
    (iterate N (createSorted c d n) i).Perm (List.range n) ∧
    (iterate N (createSorted c d n) i).Pairwise (fun a b => c a i < c b i ∨ (c a i = c b i ∧ a < b)) ∧
    reverseIterate N (createSorted c d n) i = (iterate N (createSorted c d n) i).reverse ∧
    chainLength N (createSorted c d n) i = n := by
  have h := createSorted_rep c n hi
  have hlen : (sortBy c i (List.range n)).length = n := by rw [(sortBy_perm c i _).length_eq, List.length_range]
  rw [rep_reverseIterate h (by omega), rep_chainLength h (by omega), rep_iterate h (by omega)]
  exact ⟨sortBy_perm _ _ _, sortBy_stable _ _ _, rfl, hlen⟩

/-! ## Popping and reinserting -/

theorem linked_pop {nx pv : Node → Node} {x : Nat} {L2 : List Nat} : ∀ {L1 : List Nat} {a : Node}, Linked nx pv a (L1 ++ x :: L2) none →
    (L1 ++ x :: L2).Nodup → a ∉ (L1 ++ x :: L2).map some →
    Linked (put nx (pv (some x)) (nx (some x))) (put pv (nx (some x)) (pv (some x))) a (L1 ++ L2) none
  | [], a, h, hd, ha => by
    obtain ⟨h1, h2, h3⟩ := h
    cases L2 with
    | nil => exact ⟨by simp [put, h2, h3.1], by simp [put, h2, h3.1]⟩
    | cons y L2 =>
      simp only [List.nil_append, List.nodup_cons, List.mem_cons, not_or] at hd
      refine ⟨by simp [put, h2, h3.1], by simp [put, h2, h3.1], linked_congr h3.2.2 ?_ ?_⟩
      · intro n hn
        simp only [put, h2]
        rw [if_neg]
        rintro rfl
        apply ha
        simp only [List.nil_append, List.map_cons, List.mem_cons]
        rcases hn with rfl | hn
        · simp
        · exact Or.inr (Or.inr hn)
      · intro n hn
        simp only [put, h3.1]
        rw [if_neg]
        rintro rfl
        rcases hn with hn | hn
        · simp at hn
        · simp only [List.mem_map, Option.some.injEq, exists_eq_right] at hn
          exact hd.2.1 hn
  | z :: L1, a, h, hd, ha => by
    obtain ⟨h1, h2, h3⟩ := h
    have hs := linked_split h3
    have hp := linked_last hs.1
    have hn := linked_first hs.2
    have hd' := List.nodup_cons.mp hd
    refine ⟨?_, ?_, linked_pop h3 hd'.2 ?_⟩
    · simp only [put]
      rw [if_neg]
      · exact h1
      · intro hc
        apply ha
        rw [hc, hp]
        cases hL : L1.getLast? with
        | none => simp
        | some y => simp [List.mem_of_getLast? hL]
    · simp only [put]
      rw [if_neg]
      · exact h2
      · intro hc
        rw [hn] at hc
        cases L2 with
        | nil => simp at hc
        | cons y L2 =>
          simp only [List.head?_cons, Option.some_or, Option.some.injEq] at hc
          subst hc
          exact hd'.1 (by simp)
    · simp only [List.mem_map, Option.some.injEq, exists_eq_right]; exact hd'.1

/-- **C97 (pop).** `pop(node, k)` removes exactly the node from every list of index below `k` and leaves the other lists as they are. -/
theorem pop_rep {l : Refs} {k i x : Nat} {L : List Nat} (h : Rep l i L) (hx : x ∈ L) :
    Rep (pop l x k) i (if i < k then L.erase x else L) := by
  by_cases hi : i < k
  · rw [if_pos hi]
    obtain ⟨L1, L2, rfl⟩ := List.append_of_mem hx
    have hx1 : x ∉ L1 := by
      intro hc
      exact (List.nodup_append.mp h.1).2.2 x hc x (by simp) rfl
    rw [List.erase_append_right _ hx1, List.erase_cons_head]
    refine ⟨h.1.sublist (List.Sublist.append_left (List.sublist_cons_self _ _) _), ?_⟩
    obtain ⟨h1, h2⟩ := pop_at l x k i
    rw [h1, h2, if_pos hi, if_pos hi]
    exact linked_pop h.2 h.1 (by simp)
  · rw [if_neg hi]
    obtain ⟨h1, h2⟩ := pop_at l x k i
    refine ⟨h.1, ?_⟩
    rw [h1, h2, if_neg hi, if_neg hi]
    exact h.2

theorem refs_ext {l l' : Refs} (h : ∀ i, l.next i = l'.next i ∧ l.prev i = l'.prev i) : l = l' := by
  cases l; cases l'
  simp only [Refs.mk.injEq]
  exact ⟨funext (fun i => (h i).1), funext (fun i => (h i).2)⟩

/-- **C97 (reinsert).** `reinsert` after `pop` restores all references exactly. -/
theorem reinsert_pop {l : Refs} {k x : Nat} (h : ∀ i < k, ∃ L, Rep l i L ∧ x ∈ L) : reinsert (pop l x k) x k = l := by
  apply refs_ext
  intro i
  obtain ⟨h1, h2⟩ := reinsert_at (pop l x k) x k i
  obtain ⟨h3, h4⟩ := pop_at l x k i
  by_cases hi : i < k
  · rw [h1, h2, h3, h4]
    simp only [if_pos hi]
    obtain ⟨L, hL, hx⟩ := h i hi
    obtain ⟨hb1, hb2⟩ := rep_back hL hx
    have e1 : put (l.prev i) (l.next i (some x)) (l.prev i (some x)) (some x) = l.prev i (some x) := by
      simp only [put]; split <;> rfl
    have e2 : put (put (l.next i) (l.prev i (some x)) (l.next i (some x))) (l.prev i (some x)) (some x) = l.next i := by
      funext n
      simp only [put]
      by_cases hn : n = l.prev i (some x)
      · rw [if_pos hn, hn, hb1]
      · rw [if_neg hn, if_neg hn]
    rw [e1, e2]
    refine ⟨rfl, ?_⟩
    funext n
    simp only [put]
    by_cases hn : n = l.next i (some x)
    · rw [if_pos hn, hn, hb2]
    · rw [if_neg hn, if_neg hn]
  · rw [h1, h2, h3, h4]
    simp only [if_neg hi, and_self]

/-- **C97 (a popped node).** It keeps its own references, which are those of the neighbours it had. -/
theorem pop_keeps (l : Refs) (k x i : Nat) : (pop l x k).next i (some x) = l.next i (some x) ∧ (pop l x k).prev i (some x) = l.prev i (some x) := by
  obtain ⟨h1, h2⟩ := pop_at l x k i
  rw [h1, h2]
  constructor
  · split
    · simp only [put]; split <;> rfl
    · rfl
  · split
    · simp only [put]; split <;> rfl
    · rfl

/-- **C97 (what iterations see after pops).** After popping any distinct nodes, the lists of index below `k` contain the other nodes in
the same order, in both directions, and `chain_length` counts them. -/
theorem pops_iterate {k i N : Nat} (hi : i < k) : ∀ {xs : List Nat} {l : Refs} {L : List Nat}, xs.Nodup → Rep l i L → (∀ x ∈ xs, x ∈ L) → L.length ≤ N →
    iterate N (xs.foldl (fun l x => pop l x k) l) i = L.filter (fun n => !xs.contains n) ∧
    reverseIterate N (xs.foldl (fun l x => pop l x k) l) i = (L.filter (fun n => !xs.contains n)).reverse ∧
    chainLength N (xs.foldl (fun l x => pop l x k) l) i = L.length - xs.length
  | [], l, L, _, hL, _, hN => by
    have e : L.filter (fun n => !([] : List Nat).contains n) = L := List.filter_eq_self.mpr (by simp)
    rw [e]
    exact ⟨rep_iterate hL hN, rep_reverseIterate hL hN, rep_chainLength hL hN⟩
  | x :: xs, l, L, hd, hL, hx, hN => by
    obtain ⟨hxn, hd'⟩ := List.nodup_cons.mp hd
    have hxL := hx x (by simp)
    have hr := pop_rep (k := k) hL hxL
    rw [if_pos hi] at hr
    have hlen := List.length_erase_of_mem hxL
    have ih := pops_iterate (N := N) hi hd' hr (fun y hy => by
      rw [List.mem_erase_of_ne (by rintro rfl; exact hxn hy)]
      exact hx y (by simp [hy])) (by omega)
    have e : (L.erase x).filter (fun n => !xs.contains n) = L.filter (fun n => !(x :: xs).contains n) := by
      rw [hL.1.erase_eq_filter, List.filter_filter]
      apply List.filter_congr
      intro n _
      rw [List.contains_cons]
      rw [Bool.not_or, Bool.and_comm]; rfl
    rw [e, hlen] at ih
    rw [List.foldl_cons]
    refine ⟨ih.1, ih.2.1, ?_⟩
    rw [ih.2.2, List.length_cons]
    omega

/-- **C97 (last in, first out).** Popping any distinct nodes of the lists then reinserting them in the opposite order restores all
references exactly. -/
theorem reinserts_pops {k : Nat} : ∀ {xs : List Nat} {l : Refs}, xs.Nodup → (∀ i < k, ∃ L, Rep l i L ∧ ∀ x ∈ xs, x ∈ L) →
    xs.reverse.foldl (fun l x => reinsert l x k) (xs.foldl (fun l x => pop l x k) l) = l
  | [], l, _, _ => rfl
  | x :: xs, l, hd, h => by
    rw [List.reverse_cons, List.foldl_append, List.foldl_cons (l := xs), reinserts_pops (List.nodup_cons.mp hd).2]
    · exact reinsert_pop (fun i hi => let ⟨L, hL, hx⟩ := h i hi; ⟨L, hL, hx x (by simp)⟩)
    · intro i hi
      obtain ⟨L, hL, hx⟩ := h i hi
      have := pop_rep (k := k) hL (hx x (by simp))
      rw [if_pos hi] at this
      refine ⟨_, this, fun y hy => ?_⟩
      rw [List.mem_erase_of_ne]
      · exact hx y (by simp [hy])
      · rintro rfl; exact (List.nodup_cons.mp hd).1 hy

/-! ## The recursion on the references follows the recursion on sorted lists -/

section Refine
variable [Field α]

theorem filter_erase (A R : List Nat) (x : Nat) (hA : A.Nodup) (hx : x ∉ R) :
    (A.filter (fun n => (x :: R).contains n)).erase x = A.filter (fun n => R.contains n) := by
  rw [(hA.filter _).erase_eq_filter, List.filter_filter]
  apply List.filter_congr
  intro n _
  by_cases hn : n = x
  · subst hn; simp [hx]
  · simp [hn]

/-- The popped nodes and the references: reinserting the first one gives references which represent the lists with it, and so on until
the references `l0`. -/
def Stack (ord : Nat → List Nat) (dim : Nat) (l0 : Refs) : List Nat → (Nat → Bool) → Refs → Prop
  | [], _, l => l = l0
  | x :: rest, P, l => (∀ i < dim, Rep (reinsert l x dim) i ((ord i).filter (fun n => P n || n == x))) ∧
      Stack ord dim l0 rest (fun n => P n || n == x) (reinsert l x dim)

theorem stack_at {ord : Nat → List Nat} {dim : Nat} {l0 : Refs} : ∀ {popped : List Nat} {P : Nat → Bool} {l : Refs}, Stack ord dim l0 popped P l →
    l.next dim = l0.next dim ∧ l.prev dim = l0.prev dim
  | [], _, l, h => by cases h; exact ⟨rfl, rfl⟩
  | x :: rest, P, l, h => by
    have h1 := stack_at h.2
    obtain ⟨h2, h3⟩ := reinsert_at l x dim dim
    rw [if_neg (by omega)] at h2 h3
    rw [← h2, ← h3]
    exact h1

theorem stack_rep {ord : Nat → List Nat} {dim : Nat} {l0 : Refs} {popped : List Nat} {P : Nat → Bool} {l : Refs} {L : List Nat}
    (h : Stack ord dim l0 popped P l) (hr : Rep l0 dim L) : Rep l dim L := by
  obtain ⟨h1, h2⟩ := stack_at h
  exact ⟨hr.1, by rw [h1, h2]; exact hr.2⟩

variable {N : Nat} {c : Nat → Nat → α} {ord : Nat → List Nat} (hord : ∀ i, (ord i).Nodup) (hmem : ∀ i j x, x ∈ ord i → x ∈ ord j)
  (hN : ∀ i, (ord i).length ≤ N)
include hord hmem hN

theorem popLoop_refines {dim : Nat} (hdim : 0 < dim) {l0 : Refs} : ∀ {R popped : List Nat} {l : Refs} {b : Nat → Option α} {fuel : Nat} {cur : Node},
    R.length ≤ fuel → R ≠ [] → (∀ x ∈ R, x ∈ ord dim) → Rep l0 dim (R.reverse ++ popped) →
    Stack ord dim l0 popped (fun n => R.contains n) l → (∀ i < dim, Rep l i ((ord i).filter (fun n => R.contains n))) →
    ∃ l', Links.popLoop N c dim fuel R.head? cur l b = ((Hv.popLoop c dim R popped b).1.head?, l', (Hv.popLoop c dim R popped b).2.2) ∧
      (Hv.popLoop c dim R popped b).1 ≠ [] ∧
      (Hv.popLoop c dim R popped b).1.reverse ++ (Hv.popLoop c dim R popped b).2.1 = R.reverse ++ popped ∧
      Stack ord dim l0 (Hv.popLoop c dim R popped b).2.1 (fun n => (Hv.popLoop c dim R popped b).1.contains n) l' ∧
      (∀ i < dim, Rep l' i ((ord i).filter (fun n => (Hv.popLoop c dim R popped b).1.contains n)))
  | [], _, _, _, _, _, _, h, _, _, _, _ => absurd rfl h
  | [x], popped, l, b, 0, _, hf, _, _, _, _, _ => by simp at hf
  | [x], popped, l, b, fuel + 1, cur, _, _, hR, hr0, hst, hr => by
    have hlen : ¬ (1 < chainLength N l (dim - 1)) := by
      rw [rep_chainLength (hr (dim - 1) (by omega)) ((List.length_filter_le _ _).trans (hN _))]
      have : (ord (dim - 1)).filter (fun n => [x].contains n) = (ord (dim - 1)).filter (fun n => n == x) :=
        List.filter_congr (fun n _ => by rw [List.contains_cons]; simp)
      rw [this]
      have h1 := (List.nodup_iff_count_le_one.mp (hord (dim - 1))) x
      rw [List.count_eq_length_filter] at h1
      omega
    refine ⟨l, ?_, by simp [Hv.popLoop], by simp [Hv.popLoop], by simpa [Hv.popLoop] using hst, by simpa [Hv.popLoop] using hr⟩
    simp only [List.head?_cons, Links.popLoop, hlen, decide_false, Bool.false_and, Bool.false_eq_true, if_false, Hv.popLoop]
  | x :: y :: R, popped, l, b, 0, _, hf, _, _, _, _, _ => by simp at hf
  | x :: y :: R, popped, l, b, fuel + 1, cur, hf, _, hR, hr0, hst, hr => by
    have hnd : (x :: y :: R).Nodup := by
      have := (List.nodup_append.mp hr0.1).1
      rwa [List.nodup_reverse] at this
    have hxR : x ∉ y :: R := (List.nodup_cons.mp hnd).1
    have hperm : ∀ i, ((ord i).filter (fun n => (x :: y :: R).contains n)).Perm (x :: y :: R) := by
      intro i
      rw [List.perm_ext_iff_of_nodup ((hord i).filter _) hnd]
      intro n
      simp only [List.mem_filter, List.contains_iff_mem, and_iff_right_iff_imp]
      intro hn
      exact hmem _ _ _ (hR n hn)
    have hlen : 1 < chainLength N l (dim - 1) := by
      rw [rep_chainLength (hr (dim - 1) (by omega)) ((List.length_filter_le _ _).trans (hN _)), (hperm _).length_eq]
      simp
    have hrd := stack_rep hst hr0
    have hprev : l.prev dim (some x) = some y := by
      have : Rep l dim ((y :: R).reverse ++ x :: popped) := by simpa using hrd
      rw [rep_prev this]
      simp
    simp only [List.head?_cons, Links.popLoop, hlen, decide_true, Bool.true_and, hprev, coord, Option.elim_some]
    by_cases hc : (gtBound (c x dim) (b dim) || geBound (c y dim) (b dim)) = true
    · rw [if_pos hc]
      have e : Hv.popLoop c dim (x :: y :: R) popped b = Hv.popLoop c dim (y :: R) (x :: popped) (updBounds c b x dim) := by
        rw [Hv.popLoop, if_pos hc]
      have hprev' : (pop l x dim).prev dim (some x) = (y :: R).head? := by
        rw [(pop_at l x dim dim).2, if_neg (by omega), hprev]; rfl
      have hreins : reinsert (pop l x dim) x dim = l := by
        apply reinsert_pop
        intro i hi
        exact ⟨_, hr i hi, (hperm i).mem_iff.mpr (by simp)⟩
      have hP : (fun n => (y :: R).contains n || n == x) = (fun n => (x :: y :: R).contains n) := by
        funext n
        rw [List.contains_cons (a := x), Bool.or_comm]
      have e2 : (x :: y :: R).reverse ++ popped = (y :: R).reverse ++ x :: popped := by simp
      rw [e, hprev', e2]
      refine popLoop_refines hdim (by simpa using hf) (by simp) (fun z hz => hR z (List.mem_cons_of_mem _ hz)) (by simpa using hr0) ?_ ?_
      · refine ⟨?_, ?_⟩
        · rw [hreins, hP]; exact hr
        · rw [hreins, hP]; exact hst
      · intro i hi
        have := pop_rep (k := dim) (hr i hi) ((hperm i).mem_iff.mpr (List.mem_cons_self))
        rw [if_pos hi, filter_erase _ _ _ (hord i) hxR] at this
        exact this
    · rw [if_neg hc]
      have e : Hv.popLoop c dim (x :: y :: R) popped b = (x :: y :: R, popped, b) := by
        rw [Hv.popLoop, if_neg hc]
      rw [e]
      exact ⟨l, rfl, by simp, rfl, hst, hr⟩

omit hord hmem hN in
theorem skipDominated_refines {dim : Nat} {sub : Refs → Mem α → α × Refs × Mem α} {sub' : (Nat → Bool) → Mem α → α × Mem α}
    {l : Refs} {P : Nat → Bool} {prev : Node} {n : Nat} {m : Mem α} (hsub : ∀ m, sub l m = ((sub' P m).1, l, (sub' P m).2))
    (hp : l.prev dim (some n) = prev) :
    Links.skipDominated sub dim n l m = (l, Hv.skipDominated sub' dim P prev n m) := by
  simp only [Links.skipDominated, Hv.skipDominated, hsub, hp]
  split
  · rfl
  · split <;> rfl

omit hord hmem hN in
theorem insertLoop_refines {dim : Nat} {sub : Refs → Mem α → α × Refs × Mem α} {sub' : (Nat → Bool) → Mem α → α × Mem α} {l0 : Refs}
    (hsub : ∀ l P m, (∀ i < dim, Rep l i ((ord i).filter P)) → sub l m = ((sub' P m).1, l, (sub' P m).2)) :
    ∀ {popped B : List Nat} {prev : Nat} {P : Nat → Bool} {l : Refs} {hv : α} {m : Mem α} {fuel : Nat},
    popped.length ≤ fuel → Rep l0 dim (B ++ prev :: popped) → Stack ord dim l0 popped P l →
    Links.insertLoop c sub dim fuel popped.head? hv l m =
      ((Hv.insertLoop c sub' dim popped P prev hv m).1, l0, (Hv.insertLoop c sub' dim popped P prev hv m).2.2) ∧
    some (Hv.insertLoop c sub' dim popped P prev hv m).2.1 = (B ++ prev :: popped).getLast?
  | [], B, prev, P, l, hv, m, fuel, _, _, hst => by
    cases hst
    refine ⟨?_, by simp [Hv.insertLoop]⟩
    cases fuel <;> simp [Links.insertLoop, Hv.insertLoop]
  | n :: popped, B, prev, P, l, hv, m, 0, hf, _, _ => by simp at hf
  | n :: popped, B, prev, P, l, hv, m, fuel + 1, hf, hr0, hst => by
    obtain ⟨hr, hst'⟩ := hst
    have hrd0 : Rep l dim ((B ++ [prev]) ++ n :: popped) := by
      have := stack_rep (popped := n :: popped) ⟨hr, hst'⟩ hr0
      simpa using this
    have hrd1 : Rep (reinsert l n dim) dim ((B ++ [prev]) ++ n :: popped) := by
      have := stack_rep hst' hr0
      simpa using this
    have hp0 : l.prev dim (some n) = some prev := by rw [rep_prev hrd0]; simp
    have hp1 : (reinsert l n dim).prev dim (some n) = some prev := by rw [rep_prev hrd1]; simp
    have hn1 : (reinsert l n dim).next dim (some n) = popped.head? := rep_next hrd1
    have ih := insertLoop_refines hsub (popped := popped) (B := B ++ [prev]) (prev := n) (P := fun n' => P n' || n' == n)
      (l := reinsert l n dim) (hv := hv + m.area prev dim * (c n dim - c prev dim))
      (m := Hv.skipDominated sub' dim (fun n' => P n' || n' == n) (some prev) n
        { m with bounds := updBounds c (fun i => if i = dim then some (c n dim) else m.bounds i) n dim,
                 volume := upd m.volume n dim (hv + m.area prev dim * (c n dim - c prev dim)) })
      (fuel := fuel) (by simpa using hf) (by simpa using hr0) hst'
    simp only [List.head?_cons, Links.insertLoop, hp0, areaOf, coord, Option.elim_some]
    rw [skipDominated_refines (fun m => hsub _ _ m hr) hp1]
    simp only [hn1, Hv.insertLoop]
    refine ⟨ih.1, ?_⟩
    have := ih.2
    simpa using this

omit hord hmem hN in
theorem flag_fold (dim : Nat) (hd : 0 < dim) : ∀ (L : List Nat) (m : Mem α),
    L.foldl (fun m n => if m.flag n < dim then { m with flag := fun n' => if n' = n then 0 else m.flag n' } else m) m =
      { m with flag := fun n => if n ∈ L ∧ m.flag n < dim then 0 else m.flag n }
  | [], m => by simp
  | x :: L, m => by
    rw [List.foldl_cons, flag_fold dim hd L]
    by_cases hx : m.flag x < dim
    · rw [if_pos hx]
      simp only [Mem.mk.injEq, true_and, and_true]
      funext n
      by_cases hn : n = x
      · subst hn; simp [hx]
      · simp [hn]
    · rw [if_neg hx]
      simp only [Mem.mk.injEq, true_and, and_true]
      funext n
      by_cases hn : n = x
      · subst hn; simp [hx]
      · simp [hn]

theorem level_refines {dim : Nat} (hdim : 0 < dim) {sub : Refs → Mem α → α × Refs × Mem α} {sub' : (Nat → Bool) → Mem α → α × Mem α} {l : Refs}
    {P : Nat → Bool} {m : Mem α} (hsub : ∀ l P m, (∀ i < dim, Rep l i ((ord i).filter P)) → sub l m = ((sub' P m).1, l, (sub' P m).2))
    (hr : ∀ i ≤ dim, Rep l i ((ord i).filter P)) :
    Links.level N c sub dim l m = ((Hv.level c sub' dim ((ord dim).filter P) m).1, l, (Hv.level c sub' dim ((ord dim).filter P) m).2) := by
  have hlenN : ∀ i, ((ord i).filter P).length ≤ N := fun i => (List.length_filter_le _ _).trans (hN i)
  have hperm : ∀ i j, ((ord i).filter P).Perm ((ord j).filter P) := by
    intro i j
    rw [List.perm_ext_iff_of_nodup ((hord i).filter _) ((hord j).filter _)]
    intro n
    simp only [List.mem_filter]
    exact ⟨fun h => ⟨hmem _ _ _ h.1, h.2⟩, fun h => ⟨hmem _ _ _ h.1, h.2⟩⟩
  have hcl : chainLength N l (dim - 1) = ((ord dim).filter P).length := by
    rw [rep_chainLength (hr (dim - 1) (by omega)) (hlenN _), (hperm _ dim).length_eq]
  have hrd := hr dim le_rfl
  generalize hL : (ord dim).filter P = L at *
  simp only [Links.level, Hv.level, hcl]
  cases hLe : L.isEmpty with
  | true =>
    rw [List.isEmpty_iff] at hLe
    subst hLe
    simp
  | false =>
    have hne : L ≠ [] := by rintro rfl; simp at hLe
    rw [if_neg (by rw [List.length_eq_zero_iff]; exact hne), if_neg (by simp)]
    rw [rep_reverseIterate hrd (by rw [← hL]; exact hlenN dim), flag_fold dim hdim]
    simp only [List.mem_reverse]
    have hcont : ∀ i, (ord i).filter P = (ord i).filter (fun n => L.reverse.contains n) := by
      intro i
      apply List.filter_congr
      intro n hn
      rw [Bool.eq_iff_iff, List.contains_iff_mem, List.mem_reverse, ← hL, List.mem_filter]
      exact ⟨fun h => ⟨hmem _ _ _ hn, h⟩, fun h => h.2⟩
    obtain ⟨l', hl', hne', happ, hst, hrep⟩ := popLoop_refines (c := c) hord hmem hN hdim (l0 := l) (R := L.reverse) (popped := []) (l := l)
      (b := m.bounds) (fuel := N) (cur := L.reverse.head?) (by rw [List.length_reverse, ← hL]; exact hlenN dim) (by simpa using hne)
      (by intro x hx; rw [List.mem_reverse, ← hL] at hx; exact List.mem_of_mem_filter hx) (by simpa using hrd) rfl
      (fun i hi => hcont i ▸ hr i hi.le)
    have hlast : l.prev dim none = L.reverse.head? := by rw [rep_last hrd, List.head?_reverse]
    rw [hlast, hl']
    generalize hpl : Hv.popLoop c dim L.reverse [] m.bounds = pl at *
    obtain ⟨R, popped, b⟩ := pl
    simp only at hne' happ hst hrep ⊢
    cases R with
    | nil => exact absurd rfl hne'
    | cons cur before =>
      simp only [List.head?_cons]
      have hrd' : Rep l dim (before.reverse ++ cur :: popped) := by
        have : before.reverse ++ cur :: popped = L := by simpa using happ
        rw [this]; exact hrd
      have hrdl : Rep l' dim (before.reverse ++ cur :: popped) := stack_rep hst hrd'
      have hprev : l'.prev dim (some cur) = before.head? := by rw [rep_prev hrdl]; simp
      have hnext : l'.next dim (some cur) = popped.head? := rep_next hrdl
      have hnd : (cur :: before).Nodup := by
        have h1 : (before.reverse ++ cur :: popped).Nodup := hrd'.1
        have h2 : (before.reverse ++ [cur] ++ popped).Nodup := by simpa using h1
        have h3 := (List.nodup_append.mp h2).1
        rw [← List.reverse_cons, List.nodup_reverse] at h3
        exact h3
      have hin : ∀ x ∈ cur :: before, x ∈ ord dim := by
        intro x hx
        have : x ∈ L := by
          have e : before.reverse ++ cur :: popped = L := by simpa using happ
          rw [← e]
          simp only [List.mem_cons] at hx
          rcases hx with rfl | hx
          · simp
          · simp [hx]
        rw [← hL] at this
        exact List.mem_of_mem_filter this
      have hcl' : chainLength N l' (dim - 1) = before.length + 1 := by
        rw [rep_chainLength (hrep (dim - 1) (by omega)) ((List.length_filter_le _ _).trans (hN _))]
        have : ((ord (dim - 1)).filter (fun n => (cur :: before).contains n)).Perm (cur :: before) := by
          rw [List.perm_ext_iff_of_nodup ((hord _).filter _) hnd]
          intro n
          simp only [List.mem_filter, List.contains_iff_mem, and_iff_right_iff_imp]
          intro hn
          exact hmem _ _ _ (hin n hn)
        rw [this.length_eq, List.length_cons]
      have hpoplen : popped.length ≤ N := by
        have e : before.reverse ++ cur :: popped = L := by simpa using happ
        have : L.length ≤ N := by rw [← hL]; exact hlenN dim
        rw [← e] at this
        simp at this
        omega
      rw [hcl', hprev]
      have key : ∀ (hv : α) (m2 : Mem α),
          (let r := Links.skipDominated sub dim cur l' m2
           let r := Links.insertLoop c sub dim N (r.1.next dim (some cur)) hv r.1 r.2
           (r.1 - areaOf r.2.2 (r.2.1.prev dim none) dim * coord c (r.2.1.prev dim none) dim, r.2.1, r.2.2)) =
          (let m3 := Hv.skipDominated sub' dim (fun n => (cur :: before).contains n) before.head? cur m2
           let r := Hv.insertLoop c sub' dim popped (fun n => (cur :: before).contains n) cur hv m3
           (r.1 - r.2.2.area r.2.1 dim * c r.2.1 dim, l, r.2.2)) := by
        intro hv m2
        simp only
        rw [skipDominated_refines (fun m => hsub _ _ m hrep) hprev]
        simp only [hnext]
        obtain ⟨h1, h2⟩ := insertLoop_refines (c := c) hsub (popped := popped) (B := before.reverse) (prev := cur)
          (P := fun n => (cur :: before).contains n) (l := l') (hv := hv)
          (m := Hv.skipDominated sub' dim (fun n => (cur :: before).contains n) before.head? cur m2) (fuel := N) hpoplen hrd' hst
        rw [h1]
        simp only
        rw [rep_last hrd', ← h2]
        simp [areaOf, coord]
      cases before with
      | nil =>
        simp only [List.length_nil, Nat.zero_add, lt_irrefl, if_false]
        exact key _ _
      | cons p before =>
        rw [if_pos (by simp)]
        simp only [List.head?_cons, areaOf, volumeOf, coord, Option.elim_some]
        exact key _ _

omit hord hmem hN in
theorem planeLoop_refines {l : Refs} : ∀ {L : List Nat} {B : List Nat} {x : Nat} {h acc : α} {fuel : Nat}, L.length < fuel → Rep l 1 (B ++ x :: L) →
    (Links.planeLoop c l fuel (some x) h acc).2 + (Links.planeLoop c l fuel (some x) h acc).1 * coord c (B ++ x :: L).getLast? 1 =
      Hv.planeLoop c x h acc L
  | [], B, x, h, acc, 0, hf, _ => by simp at hf
  | [], B, x, h, acc, fuel + 1, _, hr => by
    have hn := rep_next hr
    simp only [List.head?_nil] at hn
    simp [Links.planeLoop, Hv.planeLoop, hn, coord]
  | y :: L, B, x, h, acc, 0, hf, _ => by simp at hf
  | y :: L, B, x, h, acc, fuel + 1, hf, hr => by
    have hn := rep_next hr
    simp only [List.head?_cons] at hn
    have ih := planeLoop_refines (L := L) (B := B ++ [x]) (x := y) (h := min h (c y 0)) (acc := acc + h * (c x 1 - c y 1)) (fuel := fuel)
      (by simpa using hf) (by simpa using hr)
    simp only [Links.planeLoop, hn, Hv.planeLoop]
    rw [← ih]
    simp

theorem recursive_refines : ∀ (k : Nat) (l : Refs) (P : Nat → Bool) (m : Mem α), (∀ i ≤ k, Rep l i ((ord i).filter P)) →
    Links.recursive N c k l m = ((Hv.recursive c ord k P m).1, l, (Hv.recursive c ord k P m).2)
  | 0, l, P, m, hr => by
    have h0 := hr 0 le_rfl
    have hlen := rep_chainLength h0 ((List.length_filter_le _ _).trans (hN 0))
    have hhd := rep_head h0
    simp only [Links.recursive, Hv.recursive, hlen, hhd]
    cases (ord 0).filter P with
    | nil => simp
    | cons x L => simp [coord]
  | 1, l, P, m, hr => by
    have h0 := hr 0 (by omega)
    have h1 := hr 1 le_rfl
    have hlen0 := rep_chainLength h0 ((List.length_filter_le _ _).trans (hN 0))
    have hperm : ((ord 0).filter P).Perm ((ord 1).filter P) := by
      rw [List.perm_ext_iff_of_nodup ((hord 0).filter _) ((hord 1).filter _)]
      intro n
      simp only [List.mem_filter]
      exact ⟨fun h => ⟨hmem _ _ _ h.1, h.2⟩, fun h => ⟨hmem _ _ _ h.1, h.2⟩⟩
    have hle : ((ord 1).filter P).length ≤ N := (List.length_filter_le _ _).trans (hN 1)
    rw [hperm.length_eq] at hlen0
    simp only [Links.recursive, Hv.recursive, hlen0, Links.plane, rep_head h1, rep_last h1]
    generalize (ord 1).filter P = L at *
    cases L with
    | nil => simp [Hv.plane]
    | cons x L =>
      rw [if_neg (by simp)]
      have := planeLoop_refines (c := c) (L := L) (B := []) (x := x) (h := c x 0) (acc := 0) (fuel := N) (by simpa using hle) (by simpa using h1)
      simp only [List.nil_append] at this
      simp only [List.head?_cons, Hv.plane, ← this]
      rfl
  | k + 2, l, P, m, hr => by
    simp only [Links.recursive, Hv.recursive]
    exact level_refines hord hmem hN (by omega) (fun l P m h => recursive_refines (k + 1) l P m (fun i hi => h i (by omega))) hr

end Refine

/-- **C97 (refinement).** For any number of objectives and any points, the computation with the linked lists gives the value of the
computation on sorted lists restricted to the nodes present, and leaves the linked lists as `create_sorted` made them. -/
theorem compute_refines [Field α] {d : Nat} (hd : 0 < d) (ref : Nat → α) (points : List (Nat → α)) :
    Links.compute d ref points =
      (Hv.compute d ref points, createSorted (fun n k => (points[n]?.getD (fun _ => 0)) k - ref k) d points.length) := by
  simp only [Links.compute, Hv.compute]
  rw [recursive_refines (ord := fun k => sortBy (fun n k => (points[n]?.getD (fun _ => 0)) k - ref k) k (List.range points.length))
    (fun i => (sortBy_perm _ _ _).nodup_iff.mpr List.nodup_range)
    (fun i j x hx => (sortBy_perm _ _ _).mem_iff.mpr ((sortBy_perm _ _ _).mem_iff.mp hx))
    (fun i => by rw [(sortBy_perm _ _ _).length_eq, List.length_range])
    (d - 1) _ (fun _ => true) Mem.init]
  intro i hi
  rw [List.filter_true]
  exact createSorted_rep _ _ (by omega)

/-- **C97 (exact up to three objectives).** The value returned by the computation with the linked lists is the volume of the region dominated
by the points within the reference point. -/
theorem compute_exact {d : Nat} (hd0 : 0 < d) (hd : d ≤ 3) (ref : Fin d → ℝ) (points : List (Fin d → ℝ))
    (h : ∀ p ∈ points, ∀ i, p i ≤ ref i) :
    (Links.compute d (ext ref) (points.map ext)).1 = dominatedVolume ref points := by
  rw [compute_refines hd0]
  exact hvol_exact_partial hd0 hd ref points h

/-- C16 on the linked lists for any number of objectives. -/
theorem compute_exact_untied {d : Nat} (hd0 : 0 < d) (ref : Fin d → ℝ) (points : List (Fin d → ℝ)) (h : ∀ p ∈ points, ∀ i, p i < ref i)
    (hun : Untied points) : (Links.compute d (ext ref) (points.map ext)).1 = dominatedVolume ref points := by
  rw [compute_refines hd0]
  exact hvol_exact_untied_partial hd0 ref points h hun

/-! ## Cases -/

/-- Three points with two objectives. -/
def sample : Nat → Nat → ℚ := fun n k => if k = 0 then (if n = 1 then 0 else 1) else if n = 2 then 0 else n

example : iterate 3 (createSorted sample 2 3) 0 = [1, 0, 2] ∧ iterate 3 (createSorted sample 2 3) 1 = [0, 2, 1] ∧
    reverseIterate 3 (createSorted sample 2 3) 1 = [1, 2, 0] ∧ chainLength 3 (createSorted sample 2 3) 0 = 3 := by decide +kernel

example : iterate 3 (pop (createSorted sample 2 3) 0 1) 0 = [1, 2] ∧ iterate 3 (pop (createSorted sample 2 3) 0 1) 1 = [0, 2, 1] ∧
    iterate 3 (reinsert (pop (createSorted sample 2 3) 0 1) 0 1) 0 = [1, 0, 2] := by decide +kernel

/-- **C97 (the order matters).** Reinserting in the order of the pops shows, until the end, a node which is not in the list. -/
theorem reinsert_wrong_order :
    ¬ ∀ (l : Refs) (L : List Nat) (x y N : Nat), Rep l 0 L → x ∈ L → y ∈ L → x ≠ y → L.length ≤ N →
      iterate N (reinsert (pop (pop l x 1) y 1) x 1) 0 = L.filter (fun n => n != y) := by
  intro h
  have h3 : Rep (extend Refs.init [0, 1, 2] 0) 0 [0, 1, 2] := by
    have := extend_rep (ns := [0, 1, 2]) (l := Refs.init) (L := []) (i := 0) ⟨List.nodup_nil, rfl, rfl⟩ (by decide)
    simpa using this
  have := h _ _ 0 1 3 h3 (by simp) (by simp) (by simp) (by simp)
  revert this
  decide +kernel

/-- Two objectives. -/
example : (Links.compute 2 (fun _ => (3 : ℚ)) [fun k => if k = 0 then 1 else 2, fun k => if k = 0 then 2 else 0, fun _ => 2]).1 = 4 := by decide +kernel

/-- Three objectives, with dominated and equal points. -/
example : (Links.compute 3 (fun _ => (4 : ℚ)) [fun k => if k = 0 then 1 else 3, fun k => if k = 1 then 0 else 2, fun k => if k = 2 then 1 else 3,
    fun _ => 3, fun k => if k = 0 then 1 else 3]).1 = 18 := by decide +kernel

end Links
end NG
