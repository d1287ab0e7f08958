import Verif.Model.ParamLog
import Verif.Props.Flatten
import Verif.Lemmas.Population

/-! # C107: what ParametersLogger writes and reads -/

namespace NG
namespace ParamLog

open Tools

/-! ## Specification: elements of nested lists, row-major positions -/

/-- The element `x[i0][i1]...`. -/
def at? : J → List Nat → Option J
  | x, [] => some x
  | .leaf _, _ :: _ => none
  | .list xs, i :: is => (xs[i]?).bind (fun y => at? y is)

mutual
/-- The lengths of the first lists at each depth. -/
def shape : J → List Nat
  | .leaf _ => []
  | .list xs => xs.length :: shapeHead xs

/-- The shape of the first element. -/
def shapeHead : List J → List Nat
  | [] => []
  | x :: _ => shape x
end

/-- An index within a shape. -/
abbrev Valid (s idx : List Nat) : Prop := List.Forall₂ (· < ·) idx s

/-- The row-major position of an index. -/
def pos : List Nat → List Nat → Nat
  | _ :: s, i :: is => i * s.prod + pos s is
  | _, _ => 0

theorem pos_lt : ∀ {s idx : List Nat}, Valid s idx → pos s idx < s.prod
  | _, _, .nil => by simp [pos]
  | n :: s, i :: is, .cons h t => by
    have := pos_lt t
    simp only [pos, List.prod_cons]
    calc i * s.prod + pos s is < i * s.prod + s.prod := by omega
      _ = (i + 1) * s.prod := by ring
      _ ≤ n * s.prod := Nat.mul_le_mul_right _ h

/-! ## The indices enumerated -/

theorem block {β : Type} (f : Nat → List β) (P : Nat) (hf : ∀ i, (f i).length = P) : ∀ (n k : Nat) (y : β),
    ((List.range n).flatMap f)[k]? = some y ↔ ∃ i < n, ∃ r < P, k = i * P + r ∧ (f i)[r]? = some y := by
  intro n
  have hlen : ∀ n, ((List.range n).flatMap f).length = n * P := by
    intro n
    induction n with
    | zero => simp
    | succ n ih => rw [List.range_succ, List.flatMap_append, List.length_append, ih]; simp [hf]; ring
  induction n with
  | zero => simp
  | succ n ih =>
    intro k y
    rw [List.range_succ, List.flatMap_append]
    simp only [List.flatMap_singleton]
    rcases Nat.lt_or_ge k (n * P) with hk | hk
    · rw [List.getElem?_append_left (by rw [hlen]; exact hk), ih]
      constructor
      · rintro ⟨i, hi, r, hr, h1, h2⟩
        exact ⟨i, by omega, r, hr, h1, h2⟩
      · rintro ⟨i, hi, r, hr, h1, h2⟩
        refine ⟨i, ?_, r, hr, h1, h2⟩
        by_contra hc
        have : i = n := by omega
        subst this
        omega
    · rw [List.getElem?_append_right (by rw [hlen]; exact hk), hlen]
      constructor
      · intro h
        have hr : k - n * P < P := by
          have := (List.getElem?_eq_some_iff.1 h).1
          rwa [hf] at this
        exact ⟨n, by omega, k - n * P, hr, by omega, h⟩
      · rintro ⟨i, hi, r, hr, h1, h2⟩
        have : i = n := by
          by_contra hc
          have h3 : i + 1 ≤ n := by omega
          have h4 : (i + 1) * P ≤ n * P := Nat.mul_le_mul_right _ h3
          rw [Nat.add_mul, Nat.one_mul] at h4
          omega
        subst this
        rw [h1, Nat.add_sub_cancel_left]
        exact h2

theorem indices_length : ∀ s : List Nat, (indices s).length = s.prod
  | [] => rfl
  | n :: s => by
    have ih := indices_length s
    simp only [indices, List.prod_cons]
    induction n with
    | zero => simp
    | succ n ih' => rw [List.range_succ, List.flatMap_append, List.length_append, ih']; simp [ih]; ring

/-- The indices are enumerated in row-major order. -/
theorem indices_spec : ∀ (s : List Nat) (k : Nat) (idx : List Nat), (indices s)[k]? = some idx ↔ Valid s idx ∧ pos s idx = k
  | [], k, idx => by
    simp only [indices]
    constructor
    · intro h
      have := List.getElem?_eq_some_iff.1 h
      obtain ⟨h1, h2⟩ := this
      simp at h1
      subst h1
      simp at h2
      subst h2
      exact ⟨.nil, rfl⟩
    · rintro ⟨h1, h2⟩
      cases h1
      simp [pos] at h2
      subst h2
      rfl
  | n :: s, k, idx => by
    simp only [indices]
    rw [block _ s.prod (fun i => by simp [indices_length])]
    constructor
    · rintro ⟨i, hi, r, hr, rfl, h⟩
      rw [List.getElem?_map, Option.map_eq_some_iff] at h
      obtain ⟨is, h1, rfl⟩ := h
      obtain ⟨h2, h3⟩ := (indices_spec s r is).1 h1
      exact ⟨.cons hi h2, by simp [pos, h3]⟩
    · rintro ⟨h1, h2⟩
      cases h1 with
      | cons hi ht =>
        rename_i i is
        refine ⟨i, hi, pos s is, pos_lt ht, h2.symm, ?_⟩
        rw [List.getElem?_map, (indices_spec s _ is).2 ⟨ht, rfl⟩]
        rfl

/-! ## Rectangular lists -/

mutual
theorem regular_length : ∀ (x : J) (s : List Nat) (a : List Leaf), regular x = some (s, a) → a.length = s.prod ∧ s = shape x
  | .leaf l, s, a, h => by simp [regular] at h; obtain ⟨rfl, rfl⟩ := h; simp [shape]
  | .list [], s, a, h => by simp [regular] at h; obtain ⟨rfl, rfl⟩ := h; simp [shape, shapeHead]
  | .list (x :: xs), s, a, h => by
    simp only [regular] at h
    split at h
    · simp at h
    · rename_i s1 a1 hx
      split at h
      · simp at h
      · rename_i n b hxs
        simp only [Option.some.injEq, Prod.mk.injEq] at h
        obtain ⟨rfl, rfl⟩ := h
        have h1 := regular_length x s1 a1 hx
        have h2 := regularList_length s1 xs n b hxs
        refine ⟨?_, ?_⟩
        · rw [List.length_append, h1.1, h2.1, List.prod_cons]; ring
        · simp [shape, shapeHead, h1.2, h2.2]

theorem regularList_length : ∀ (s : List Nat) (xs : List J) (n : Nat) (b : List Leaf), regularList s xs = some (n, b) →
    b.length = n * s.prod ∧ n = xs.length
  | s, [], n, b, h => by simp [regularList] at h; obtain ⟨rfl, rfl⟩ := h; simp
  | s, x :: xs, n, b, h => by
    simp only [regularList] at h
    split at h
    · simp at h
    · rename_i s1 a1 hx
      split at h
      · rename_i hs
        subst hs
        split at h
        · simp at h
        · rename_i n1 b1 hxs
          simp only [Option.some.injEq, Prod.mk.injEq] at h
          obtain ⟨rfl, rfl⟩ := h
          have h1 := regular_length x s1 a1 hx
          have h2 := regularList_length s1 xs n1 b1 hxs
          exact ⟨by rw [List.length_append, h1.1, h2.1]; ring, by simp [h2.2]⟩
      · simp at h
end

theorem regularList_get : ∀ (s : List Nat) (xs : List J) (n : Nat) (b : List Leaf), regularList s xs = some (n, b) →
    ∀ i y, xs[i]? = some y → regular y = some (s, (b.drop (i * s.prod)).take s.prod)
  | s, [], n, b, h, i, y, hy => by simp at hy
  | s, x :: xs, n, b, h, i, y, hy => by
    simp only [regularList] at h
    split at h
    · simp at h
    · rename_i s1 a1 hx
      split at h
      · rename_i hs
        subst hs
        split at h
        · simp at h
        · rename_i n1 b1 hxs
          simp only [Option.some.injEq, Prod.mk.injEq] at h
          obtain ⟨rfl, rfl⟩ := h
          have h1 := (regular_length x s1 a1 hx).1
          cases i with
          | zero =>
            simp at hy
            subst hy
            rw [hx]
            simp [← h1]
          | succ i =>
            simp at hy
            rw [regularList_get s1 xs n1 b1 hxs i y hy]
            have : (i + 1) * s1.prod = a1.length + i * s1.prod := by rw [h1]; ring
            rw [this, ← List.drop_drop, List.drop_left]
      · simp at h

theorem regular_list {xs : List J} {sh : List Nat} {a : List Leaf} (h : regular (.list xs) = some (sh, a)) :
    ∃ s, sh = xs.length :: s ∧ ∀ i y, xs[i]? = some y → regular y = some (s, (a.drop (i * s.prod)).take s.prod) := by
  cases xs with
  | nil => simp [regular] at h; obtain ⟨rfl, rfl⟩ := h; exact ⟨[], by simp, by simp⟩
  | cons x xs =>
    simp only [regular] at h
    split at h
    · simp at h
    · rename_i s1 a1 hx
      split at h
      · simp at h
      · rename_i n b hxs
        simp only [Option.some.injEq, Prod.mk.injEq] at h
        obtain ⟨rfl, rfl⟩ := h
        refine ⟨s1, by simp [(regularList_length s1 xs n b hxs).2], ?_⟩
        have : regularList s1 (x :: xs) = some (n + 1, a1 ++ b) := by simp [regularList, hx, hxs]
        exact regularList_get s1 (x :: xs) _ _ this

/-- The elements of a rectangular list, by index. -/
theorem regular_at : ∀ (idx : List Nat) (x : J) (s : List Nat) (a : List Leaf) (l : Leaf), regular x = some (s, a) →
    (at? x idx = some (.leaf l) ↔ Valid s idx ∧ a[pos s idx]? = some l)
  | [], .leaf l', s, a, l, h => by
    simp [regular] at h
    obtain ⟨rfl, rfl⟩ := h
    simp [at?, pos]
  | [], .list xs, s, a, l, h => by
    obtain ⟨s', rfl, -⟩ := regular_list h
    simp [at?]
  | i :: is, .leaf l', s, a, l, h => by
    simp [regular] at h
    obtain ⟨rfl, rfl⟩ := h
    simp [at?]
  | i :: is, .list xs, s, a, l, h => by
    obtain ⟨s', rfl, hg⟩ := regular_list h
    simp only [at?, List.forall₂_cons, pos]
    cases hy : xs[i]? with
    | none =>
      have := List.getElem?_eq_none_iff.1 hy
      simp only [Option.bind_none, reduceCtorEq, false_iff]
      rintro ⟨⟨h1, -⟩, -⟩
      omega
    | some y =>
      have hi : i < xs.length := (List.getElem?_eq_some_iff.1 hy).1
      simp only [Option.bind_some]
      rw [regular_at is y s' _ l (hg i y hy)]
      constructor
      · rintro ⟨h1, h2⟩
        have hp := pos_lt h1
        rw [List.getElem?_take_of_lt hp, List.getElem?_drop] at h2
        exact ⟨⟨hi, h1⟩, h2⟩
      · rintro ⟨⟨-, h1⟩, h2⟩
        have hp := pos_lt h1
        rw [List.getElem?_take_of_lt hp, List.getElem?_drop]
        exact ⟨h1, h2⟩

/-! ## Keys of elements are unique -/

theorem sep_inj (c : Char) : ∀ {x y a b : Key}, c ∉ x → c ∉ y → x ++ c :: a = y ++ c :: b → x = y ∧ a = b
  | [], [], _, _, _, _, h => by simpa using h
  | [], d :: y, _, _, _, hy, h => by simp at h; exact absurd h.1 (by simp at hy; exact hy.1)
  | d :: x, [], _, _, hx, _, h => by simp at h; exact absurd h.1.symm (by simp at hx; exact hx.1)
  | d :: x, e :: y, a, b, hx, hy, h => by
    simp only [List.cons_append, List.cons.injEq] at h
    obtain ⟨rfl, h⟩ := h
    simp only [List.mem_cons, not_or] at hx hy
    obtain ⟨rfl, rfl⟩ := sep_inj c hx.2 hy.2 h
    exact ⟨rfl, rfl⟩

theorem sep_last_inj (c : Char) {x y a b : Key} (ha : c ∉ a) (hb : c ∉ b) (h : x ++ c :: a = y ++ c :: b) : x = y ∧ a = b := by
  have h' := congrArg List.reverse h
  simp only [List.reverse_append, List.reverse_cons, List.append_assoc, List.singleton_append] at h'
  obtain ⟨h1, h2⟩ := sep_inj c (by simpa using ha) (by simpa using hb) h'
  exact ⟨List.reverse_injective h2, List.reverse_injective h1⟩

theorem decimal_no (c : Char) (hc : c ∉ ['0', '1', '2', '3', '4', '5', '6', '7', '8', '9']) (n : Nat) : c ∉ decimal n := by
  obtain ⟨ds, h1, h2, _⟩ := decimal_digits n
  rw [h1]
  intro h
  obtain ⟨d, hd, hcd⟩ := List.mem_map.mp h
  have := h2 d (List.mem_reverse.mp hd)
  simp only [List.mem_cons, not_or] at hc
  obtain ⟨c0, c1, c2, c3, c4, c5, c6, c7, c8, c9, -⟩ := hc
  revert hcd
  interval_cases d <;> simp [Nat.digitChar] <;> intro hh <;> exact absurd hh.symm (by assumption)

theorem decimal_ne_nil (n : Nat) : decimal n ≠ [] := by
  unfold decimal
  split
  · simp
  · rename_i h
    simp [Nat.digits_ne_nil_iff_ne_zero, h]

theorem join_no_hash : ∀ is : List Nat, '#' ∉ join is
  | [] => by simp [join]
  | [i] => by simp only [join]; exact decimal_no '#' (by decide) i
  | i :: j :: is => by
    simp only [join, List.mem_append, List.mem_cons, not_or]
    exact ⟨decimal_no '#' (by decide) i, by decide, join_no_hash (j :: is)⟩

theorem join_inj : ∀ is js : List Nat, join is = join js → is = js
  | [], [], _ => rfl
  | [], [j], h => absurd h.symm (decimal_ne_nil j)
  | [], j :: k :: js, h => by simp [join] at h
  | [i], [], h => absurd h (decimal_ne_nil i)
  | i :: k :: is, [], h => by simp [join] at h
  | [i], [j], h => by rw [decimal_inj i j h]
  | [i], j :: k :: js, h => by
    simp only [join] at h
    exact absurd (h ▸ List.mem_append_right _ (List.mem_cons_self ..)) (decimal_no '_' (by decide) i)
  | i :: k :: is, [j], h => by
    simp only [join] at h
    exact absurd (h.symm ▸ List.mem_append_right _ (List.mem_cons_self ..)) (decimal_no '_' (by decide) j)
  | i :: k :: is, j :: m :: js, h => by
    simp only [join] at h
    obtain ⟨h1, h2⟩ := sep_inj '_' (decimal_no '_' (by decide) i) (decimal_no '_' (by decide) j) h
    rw [decimal_inj i j h1, join_inj (k :: is) (m :: js) h2]

/-- C107: "each element is given a unique id": lists and indices can be read off the keys. -/
theorem flatKey_inj {k k' : Key} {i i' : List Nat} (h : flatKey k i = flatKey k' i') : k = k' ∧ i = i' := by
  obtain ⟨h1, h2⟩ := sep_last_inj '#' (join_no_hash i) (join_no_hash i') h
  exact ⟨h1, join_inj i i' h2⟩

/-! ## Flattening a line -/

/-- `line[key][i0][i1]...` is `l`, and comes among the first `max` elements of its list. -/
def Shown (line : Line) (max : Nat) (key : Key) (idx : List Nat) (l : Leaf) : Prop :=
  ∃ x, dictGet line key = some x ∧ at? x idx = some (.leaf l) ∧ pos (shape x) idx < max

theorem dictUpdate_get {V : Type} (k : Key) (v : V) : ∀ (new out : List (Key × V)), (new.map (·.1)).Nodup →
    (dictGet (dictUpdate out new) k = some v ↔ (k, v) ∈ new ∨ (k ∉ new.map (·.1) ∧ dictGet out k = some v))
  | [], out, _ => by simp [dictUpdate]
  | e :: new, out, h => by
    have h' := h
    simp only [List.map_cons, List.nodup_cons] at h'
    have ih := dictUpdate_get k v new (dictSet e.1 e.2 out) h'.2
    have : dictUpdate out (e :: new) = dictUpdate (dictSet e.1 e.2 out) new := rfl
    rw [this, ih, dictGet_set]
    simp only [List.mem_cons, List.map_cons, not_or]
    by_cases hk : k = e.1
    · subst hk
      have hn : ∀ w, (e.1, w) ∉ new := fun w hw => h'.1 (List.mem_map.2 ⟨_, hw, rfl⟩)
      simp only [hn, h'.1, if_true, not_false_eq_true, true_and, false_or, or_false, not_true_eq_false, false_and]
      constructor
      · intro h1; rw [← Option.some.inj h1]
      · intro h1; rw [← h1]
    · simp only [hk, if_false, not_false_eq_true, true_and]
      constructor
      · rintro (h1 | h1)
        · exact .inl (.inr h1)
        · exact .inr h1
      · rintro ((h1 | h1) | h1)
        · exact absurd (congrArg (·.1) h1) hk
        · exact .inl h1
        · exact .inr h1

theorem zip_take_mem {x : J} {s : List Nat} {a : List Leaf} (h : regular x = some (s, a)) (max : Nat) (idx : List Nat) (l : Leaf) :
    (idx, l) ∈ ((indices s).zip a).take max ↔ at? x idx = some (.leaf l) ∧ pos (shape x) idx < max := by
  rw [regular_at idx x s a l h, ← (regular_length x s a h).2, List.mem_iff_getElem?]
  constructor
  · rintro ⟨k, hk⟩
    rw [List.getElem?_take] at hk
    split at hk
    · rename_i hlt
      rw [List.getElem?_zip_eq_some] at hk
      obtain ⟨h1, h2⟩ := (indices_spec s k idx).1 hk.1
      subst h2
      exact ⟨⟨h1, hk.2⟩, hlt⟩
    · simp at hk
  · rintro ⟨⟨h1, h2⟩, h3⟩
    refine ⟨pos s idx, ?_⟩
    rw [List.getElem?_take_of_lt h3, List.getElem?_zip_eq_some]
    exact ⟨(indices_spec s _ idx).2 ⟨h1, rfl⟩, h2⟩

theorem zip_take_keys {s : List Nat} {a : List Leaf} (key : Key) (max : Nat) :
    (((((indices s).zip a).take max).map (fun e => (flatKey key e.1, e.2))).map (·.1)).Nodup := by
  rw [List.map_map, List.nodup_iff_getElem?_ne_getElem?]
  intro i j hij hj
  simp only [List.length_map] at hj
  rw [List.getElem?_map, List.getElem?_map]
  have hi : i < (((indices s).zip a).take max).length := by omega
  rw [List.getElem?_eq_getElem hi, List.getElem?_eq_getElem hj]
  intro hc
  simp only [Option.map_some, Function.comp, Option.some.injEq] at hc
  have h1 := (flatKey_inj hc).2
  have e1 : (((indices s).zip a).take max)[i]? = some (((indices s).zip a).take max)[i] := List.getElem?_eq_getElem hi
  have e2 : (((indices s).zip a).take max)[j]? = some (((indices s).zip a).take max)[j] := List.getElem?_eq_getElem hj
  rw [List.getElem?_take_of_lt (by simp at hi; omega), List.getElem?_zip_eq_some] at e1
  rw [List.getElem?_take_of_lt (by simp at hj; omega), List.getElem?_zip_eq_some] at e2
  have p1 := ((indices_spec s _ _).1 e1.1).2
  have p2 := ((indices_spec s _ _).1 e2.1).2
  rw [h1] at p1
  omega

theorem addLists_get (line : Line) (max : Nat) (k : Key) (l : Leaf) : ∀ (ks : List Key) (out r : List (Key × Leaf)), ks.Nodup →
    addLists line max ks out = some r →
    (dictGet r k = some l ↔ (∃ key ∈ ks, ∃ idx, Shown line max key idx l ∧ k = flatKey key idx) ∨
      ((¬ ∃ key ∈ ks, ∃ idx l', Shown line max key idx l' ∧ k = flatKey key idx) ∧ dictGet out k = some l))
  | [], out, r, _, h => by
    simp only [addLists, Option.some.injEq] at h
    subst h
    simp
  | key :: ks, out, r, hn, h => by
    simp only [addLists] at h
    split at h
    · simp at h
    · rename_i s a hx
      rw [Option.bind_eq_some_iff] at hx
      obtain ⟨x, hx1, hx2⟩ := hx
      have hn' := List.nodup_cons.1 hn
      rw [addLists_get line max k l ks _ r hn'.2 h, dictUpdate_get _ _ _ _ (zip_take_keys key max)]
      have hmem : ∀ l', (k, l') ∈ (((indices s).zip a).take max).map (fun e => (flatKey key e.1, e.2)) ↔
          ∃ idx, Shown line max key idx l' ∧ k = flatKey key idx := by
        intro l'
        rw [List.mem_map]
        constructor
        · rintro ⟨⟨idx, l1⟩, h1, h2⟩
          simp only [Prod.mk.injEq] at h2
          obtain ⟨rfl, rfl⟩ := h2
          exact ⟨idx, ⟨x, hx1, (zip_take_mem hx2 max idx l1).1 h1⟩, rfl⟩
        · rintro ⟨idx, ⟨x', h1, h2⟩, rfl⟩
          rw [hx1] at h1
          obtain rfl := Option.some.inj h1
          exact ⟨(idx, l'), (zip_take_mem hx2 max idx l').2 h2, rfl⟩
      have hkeys : k ∈ ((((indices s).zip a).take max).map (fun e => (flatKey key e.1, e.2))).map (·.1) ↔
          ∃ idx l', Shown line max key idx l' ∧ k = flatKey key idx := by
        rw [List.mem_map]
        constructor
        · rintro ⟨⟨k', l'⟩, h1, h2⟩
          simp only at h2
          subst h2
          obtain ⟨idx, h3⟩ := (hmem l').1 h1
          exact ⟨idx, l', h3⟩
        · rintro ⟨idx, l', h3⟩
          exact ⟨(k, l'), (hmem l').2 ⟨idx, h3⟩, rfl⟩
      rw [hmem l, hkeys]
      have hdis : (∃ idx, Shown line max key idx l ∧ k = flatKey key idx) →
          ¬ ∃ key ∈ ks, ∃ idx l', Shown line max key idx l' ∧ k = flatKey key idx := by
        rintro ⟨idx, -, e⟩ ⟨key', hk', idx', l', -, e'⟩
        rw [e] at e'
        exact hn'.1 ((flatKey_inj e').1 ▸ hk')
      constructor
      · rintro (⟨key', h1, h2⟩ | ⟨h1, h2 | h2⟩)
        · exact .inl ⟨key', List.mem_cons_of_mem _ h1, h2⟩
        · exact .inl ⟨key, List.mem_cons_self .., h2⟩
        · refine .inr ⟨?_, h2.2⟩
          rintro ⟨key', h3, h4⟩
          rcases List.mem_cons.1 h3 with rfl | h3
          · exact h2.1 h4
          · exact h1 ⟨key', h3, h4⟩
      · rintro (⟨key', h1, h2⟩ | ⟨h1, h2⟩)
        · rcases List.mem_cons.1 h1 with rfl | h1
          · exact .inr ⟨hdis h2, .inl h2⟩
          · exact .inl ⟨key', h1, h2⟩
        · refine .inr ⟨?_, .inr ⟨?_, h2⟩⟩
          · rintro ⟨key', h3, h4⟩
            exact h1 ⟨key', List.mem_cons_of_mem _ h3, h4⟩
          · intro h4
            exact h1 ⟨key, List.mem_cons_self .., h4⟩

/-- Keys of the lists of a line. -/
def IsList (line : Line) (key : Key) : Prop := ∃ xs, dictGet line key = some (.list xs)

/-- The order in which Python goes through the set of keys of lists: any order, each key once. -/
def SetOrder (listKeys : Line → List Key) : Prop := ∀ line, (listKeys line).Nodup ∧ ∀ key, key ∈ listKeys line ↔ IsList line key

theorem scalars_get : ∀ (line : Line) (k : Key) (l : Leaf), (line.map (·.1)).Nodup →
    (dictGet (scalars line) k = some l ↔ dictGet line k = some (.leaf l))
  | [], k, l, _ => by simp [scalars, dictGet]
  | (k', .leaf l') :: d, k, l, h => by
    simp only [List.map_cons, List.nodup_cons] at h
    have ih := scalars_get d k l h.2
    simp only [scalars, dictGet, List.find?_cons] at ih ⊢
    by_cases hk : k' = k
    · simp [hk]
    · simpa [hk] using ih
  | (k', .list xs) :: d, k, l, h => by
    simp only [List.map_cons, List.nodup_cons] at h
    have ih := scalars_get d k l h.2
    simp only [scalars, dictGet, List.find?_cons] at ih ⊢
    by_cases hk : k' = k
    · simp only [hk, decide_true, Option.map_some, Option.some.injEq, reduceCtorEq, iff_false]
      intro hc
      have hc' : dictGet d k = some (.leaf l) := ih.1 hc
      simp only [dictGet, Option.map_eq_some_iff] at hc'
      obtain ⟨e, he, -⟩ := hc'
      have h1 := List.find?_some he
      have h2 := List.mem_of_find?_eq_some he
      simp only [decide_eq_true_eq] at h1
      exact h.1 (List.mem_map.2 ⟨e, h2, h1.trans hk.symm⟩)
    · simpa [hk] using ih

/-- C107: in the flattened dictionary of a line, `name#i0_i1...` is the element of the list `name` at this index, if it is one of the first
`max_list_elements`; the other keys are those of the line which do not hold a list. -/
theorem flattenLine_get {max : Nat} {listKeys : Line → List Key} (ho : SetOrder listKeys) {line : Line} (hl : (line.map (·.1)).Nodup)
    {r : List (Key × Leaf)} (h : flattenLine max listKeys line = some r) (k : Key) (l : Leaf) :
    dictGet r k = some l ↔ (∃ key idx, Shown line max key idx l ∧ idx ≠ [] ∧ k = flatKey key idx) ∨
      ((¬ ∃ key idx l', Shown line max key idx l' ∧ idx ≠ [] ∧ k = flatKey key idx) ∧ dictGet line k = some (.leaf l)) := by
  rw [addLists_get line max k l _ _ r (ho line).1 h, scalars_get line k l hl]
  have key1 : ∀ key idx l', Shown line max key idx l' → (IsList line key ↔ idx ≠ []) := by
    rintro key idx l' ⟨x, h1, h2, -⟩
    cases x with
    | leaf l0 =>
      cases idx with
      | nil => simp [IsList, h1]
      | cons i is => simp [at?] at h2
    | list xs =>
      cases idx with
      | nil => simp [at?] at h2
      | cons i is => simp [IsList, h1]
  have e1 : ∀ l', (∃ key ∈ listKeys line, ∃ idx, Shown line max key idx l' ∧ k = flatKey key idx) ↔
      ∃ key idx, Shown line max key idx l' ∧ idx ≠ [] ∧ k = flatKey key idx := by
    intro l'
    constructor
    · rintro ⟨key, h1, idx, h2, h3⟩
      exact ⟨key, idx, h2, (key1 key idx l' h2).1 (((ho line).2 key).1 h1), h3⟩
    · rintro ⟨key, idx, h2, h1, h3⟩
      exact ⟨key, ((ho line).2 key).2 ((key1 key idx l' h2).2 h1), idx, h2, h3⟩
  have e2 : (∃ key ∈ listKeys line, ∃ idx l', Shown line max key idx l' ∧ k = flatKey key idx) ↔
      ∃ key idx l', Shown line max key idx l' ∧ idx ≠ [] ∧ k = flatKey key idx := by
    constructor
    · rintro ⟨key, h1, idx, l', h2, h3⟩
      exact ⟨key, idx, l', h2, (key1 key idx l' h2).1 (((ho line).2 key).1 h1), h3⟩
    · rintro ⟨key, idx, l', h2, h1, h3⟩
      exact ⟨key, ((ho line).2 key).2 ((key1 key idx l' h2).2 h1), idx, l', h2, h3⟩
  rw [e1 l, e2]

/-- C107: the content does not depend on the order of the set. -/
theorem flattenLine_order {max : Nat} {o1 o2 : Line → List Key} (h1 : SetOrder o1) (h2 : SetOrder o2) {line : Line}
    (hl : (line.map (·.1)).Nodup) {r1 r2 : List (Key × Leaf)} (e1 : flattenLine max o1 line = some r1) (e2 : flattenLine max o2 line = some r2)
    (k : Key) : dictGet r1 k = dictGet r2 k := by
  apply Option.ext
  intro l
  rw [flattenLine_get h1 hl e1, flattenLine_get h2 hl e2]

/-! ## Arrays -/

theorem toJList_map (f : Nat → PV) (g : Nat → J) : ∀ is : List Nat, (∀ i ∈ is, toJ (f i) = some (g i)) → toJList (is.map f) = some (is.map g)
  | [], _ => rfl
  | i :: is, h => by
    simp only [List.map_cons, toJList, h i (by simp), toJList_map f g is (fun j hj => h j (by simp [hj]))]

theorem regularList_map (s : List Nat) (g : Nat → J) (c : Nat → List Leaf) : ∀ is : List Nat, (∀ i ∈ is, regular (g i) = some (s, c i)) →
    regularList s (is.map g) = some (is.length, is.flatMap c)
  | [], _ => rfl
  | i :: is, h => by
    simp only [List.map_cons, regularList, h i (by simp), if_true, regularList_map s g c is (fun j hj => h j (by simp [hj])), List.length_cons,
      List.flatMap_cons]

theorem chunks (P : Nat) : ∀ (n : Nat) (data : List Leaf), data.length = n * P →
    (List.range n).flatMap (fun i => (data.drop (i * P)).take P) = data := by
  intro n
  induction n with
  | zero => intro data h; simp at h; simp [h]
  | succ n ih =>
    intro data h
    have h' : data.length = n * P + P := by rw [h]; ring
    rw [List.range_succ, List.flatMap_append]
    have e1 : (List.range n).flatMap (fun i => (data.drop (i * P)).take P) = data.take (n * P) := by
      rw [← ih (data.take (n * P)) (by simp; omega)]
      refine List.flatMap_congr (fun i hi => ?_)
      have hi' : i < n := List.mem_range.1 hi
      have : (i + 1) * P ≤ n * P := Nat.mul_le_mul_right _ hi'
      rw [List.drop_take, List.take_take, Nat.min_eq_left]
      rw [Nat.add_mul, Nat.one_mul] at this
      omega
    rw [e1]
    simp only [List.flatMap_singleton]
    rw [List.take_of_length_le (l := data.drop (n * P)) (by rw [List.length_drop]; omega), List.take_append_drop]

/-- An array of positive dimensions read back is rectangular, with the same shape and content. -/
theorem tolist_spec : ∀ (s : List Nat) (data : List Leaf), (∀ n ∈ s, 0 < n) → data.length = s.prod →
    ∃ x, toJ (tolist s data) = some x ∧ regular x = some (s, data)
  | [], data, _, h => by
    simp only [List.prod_nil] at h
    obtain ⟨l, rfl⟩ := List.length_eq_one_iff.1 h
    exact ⟨.leaf l, by simp [tolist, toJ], by simp [regular]⟩
  | n :: s, data, hp, h => by
    have hps : ∀ m ∈ s, 0 < m := fun m hm => hp m (by simp [hm])
    have hn : 0 < n := hp n (by simp)
    have hc : ∀ i < n, ((data.drop (i * s.prod)).take s.prod).length = s.prod := by
      intro i hi
      have : (i + 1) * s.prod ≤ n * s.prod := Nat.mul_le_mul_right _ hi
      rw [Nat.add_mul, Nat.one_mul] at this
      simp only [List.length_take, List.length_drop, h, List.prod_cons]
      omega
    have ih : ∀ i, i < n → ∃ x, toJ (tolist s ((data.drop (i * s.prod)).take s.prod)) = some x ∧
        regular x = some (s, (data.drop (i * s.prod)).take s.prod) := fun i hi => tolist_spec s _ hps (hc i hi)
    have : Nonempty J := ⟨.list []⟩
    choose! g hg using ih
    have h1 : toJList ((List.range n).map (fun i => tolist s ((data.drop (i * s.prod)).take s.prod))) = some ((List.range n).map g) :=
      toJList_map _ g _ (fun i hi => (hg i (List.mem_range.1 hi)).1)
    refine ⟨.list ((List.range n).map g), by simp only [tolist, toJ, h1, Option.map_some], ?_⟩
    have h2 : regularList s ((List.range n).map g) = some (n, data) := by
      rw [regularList_map s g (fun i => (data.drop (i * s.prod)).take s.prod) _ (fun i hi => (hg i (List.mem_range.1 hi)).2),
        List.length_range, chunks _ _ _ (by rw [h, List.prod_cons])]
    obtain ⟨m, rfl⟩ : ∃ m, n = m + 1 := ⟨n - 1, by omega⟩
    rw [List.range_succ_eq_map, List.map_cons] at h2 ⊢
    simp only [regularList, (hg 0 hn).2, if_true] at h2
    simp only [regular, (hg 0 hn).2]
    split at h2
    · simp at h2
    · rename_i k b hb
      simp only [Option.some.injEq, Prod.mk.injEq] at h2
      simp only [h2.1, h2.2]

/-! ## What is written -/

theorem dumps_keys : ∀ {d : List (Key × PV)} {line : Line}, dumps d = some line → line.map (·.1) = d.map (·.1)
  | [], line, h => by simp [dumps] at h; simp [← h]
  | (k, v) :: d, line, h => by
    simp only [dumps] at h
    split at h
    · rename_i j l h1 h2
      simp only [Option.some.injEq] at h
      subst h
      simp [dumps_keys h2]
    · simp at h

theorem dumps_get : ∀ {d : List (Key × PV)} {line : Line}, dumps d = some line → ∀ k, dictGet line k = (dictGet d k).bind toJ
  | [], line, h, k => by simp [dumps] at h; subst h; simp [dictGet]
  | (k', v) :: d, line, h, k => by
    simp only [dumps] at h
    split at h
    · rename_i j l h1 h2
      simp only [Option.some.injEq] at h
      subst h
      have ih := dumps_get h2 k
      simp only [dictGet, List.find?_cons] at ih ⊢
      by_cases hk : k' = k
      · simp [hk, h1]
      · simpa [hk] using ih
    · simp at h

/-- C107: a call writes nothing only if the disk fails or some value is refused by JSON. -/
theorem dumps_none : ∀ {d : List (Key × PV)}, dumps d = none ↔ ∃ e ∈ d, toJ e.2 = none
  | [] => by simp [dumps]
  | (k, v) :: d => by
    have ih := dumps_none (d := d)
    simp only [dumps, List.mem_cons, exists_eq_or_imp]
    rw [← ih]
    cases toJ v <;> cases dumps d <;> simp

/-- The calls made with a log file. -/
def calls (lg : Logger) (cs : List (Info × Bool)) (file : Option (List Line)) : Option (List Line) :=
  cs.foldl (fun f c => call lg c.1 c.2 f) file

/-- C107: reading gives what the file contained, then one dictionary per call which could write, in the order of the calls. -/
theorem load_calls (lg : Logger) : ∀ (cs : List (Info × Bool)) (file : Option (List Line)),
    load (calls lg cs file) = load file ++ cs.filterMap (fun c => if c.2 then dumps (entry lg c.1) else none)
  | [], file => by simp [calls]
  | (i, w) :: cs, file => by
    have ih := load_calls lg cs (call lg i w file)
    simp only [calls, List.foldl_cons] at ih ⊢
    rw [ih]
    cases w with
    | false => simp [call]
    | true =>
      simp only [call, if_true, List.filterMap_cons]
      cases dumps (entry lg i) <;> simp [load]

/-- C107: with `append=False` the previous content is removed, with `append=True` it is kept. -/
theorem load_create (file : Option (List Line)) : load (create false file) = [] ∧ load (create true file) = load file := ⟨rfl, rfl⟩

/-- What should be recorded for a parameter: its value under its name, or "0" if it is alone, and its sigma. -/
def assigned (it : Item) : List (Key × PV) :=
  ((if it.name = [] then "0".toList else it.name), convert it.value) :: (match it.sigma with
    | some s => [((if it.name = [] then "0".toList else it.name) ++ "#sigma".toList, convertSigma s)]
    | none => [])

/-- C107: numbers and texts are recorded as they are, numpy integers and Booleans as Python ones, methods by their object. Arrays: `array_flattened`. -/
theorem convert_scalar (l : Leaf) (t : Key) : toJ (convert (.leaf l)) = some (.leaf l) ∧ toJ (convert (.npInt l)) = some (.leaf l) ∧
    toJ (convert (.method t)) = some (.leaf (.text t)) ∧ toJ (convertSigma (.leaf l)) = some (.leaf l) ∧
    ∀ s d, convertSigma (.array s d) = convert (.array s d) := ⟨rfl, rfl, rfl, rfl, fun _ _ => rfl⟩

theorem addItem_eq (d : List (Key × PV)) (it : Item) : addItem d it = dictUpdate d (assigned it) := by
  unfold addItem assigned
  cases it.sigma <;> rfl

theorem addItems_eq : ∀ (items : List Item) (d : List (Key × PV)), items.foldl addItem d = dictUpdate d (items.flatMap assigned)
  | [], d => rfl
  | it :: items, d => by
    rw [List.foldl_cons, addItems_eq items, addItem_eq, List.flatMap_cons]
    simp [dictUpdate, List.foldl_append]

theorem dictUpdate_other {V : Type} (k : Key) : ∀ (new out : List (Key × V)), (∀ e ∈ new, e.1 ≠ k) → dictGet (dictUpdate out new) k = dictGet out k
  | [], _, _ => rfl
  | e :: new, out, h => by
    have : dictUpdate out (e :: new) = dictUpdate (dictSet e.1 e.2 out) new := rfl
    rw [this, dictUpdate_other k new _ (fun x hx => h x (by simp [hx])), dictGet_set, if_neg (Ne.symm (h e (by simp)))]

theorem dictUpdate_agree {V : Type} (k : Key) (v : V) : ∀ (new out : List (Key × V)), (∀ e ∈ new, e.1 = k → e.2 = v) → (∃ e ∈ new, e.1 = k) →
    dictGet (dictUpdate out new) k = some v
  | [], _, _, h => by simp at h
  | e :: new, out, h, hex => by
    have heq : dictUpdate out (e :: new) = dictUpdate (dictSet e.1 e.2 out) new := rfl
    by_cases hk : ∃ e ∈ new, e.1 = k
    · rw [heq]
      exact dictUpdate_agree k v new _ (fun x hx => h x (by simp [hx])) hk
    · rw [heq, dictUpdate_other k new _ (fun x hx hc => hk ⟨x, hx, hc⟩), dictGet_set]
      have he : e.1 = k := by
        obtain ⟨x, hx, hxk⟩ := hex
        rcases List.mem_cons.1 hx with rfl | hx
        · exact hxk
        · exact absurd ⟨x, hx, hxk⟩ hk
      rw [if_pos he.symm, h e (by simp) he]

/-- C107: the dictionary holds the value of every parameter under its name (`"0"` for a lone parameter) and its sigma under `name#sigma`, provided
that parameters with the same key agree. -/
theorem entry_item_partial (lg : Logger) (i : Info) {k : Key} {v : PV} (hex : (k, v) ∈ (i.flat 1).flatMap assigned)
    (hag : ∀ e ∈ (i.flat 1).flatMap assigned, e.1 = k → e.2 = v) : dictGet (entry lg i) k = some v := by
  unfold entry
  rw [addItems_eq]
  exact dictUpdate_agree k v _ _ hag ⟨_, hex, rfl⟩

theorem ne_of_prefix {p k r : Key} (h : p.isPrefixOf k = false) : p ++ r ≠ k := by
  rintro rfl
  rw [Bool.eq_false_iff] at h
  exact h (List.isPrefixOf_iff_prefix.2 (List.prefix_append p r))

/-- The header, apart from the keys which come with several objectives or a configured optimizer. -/
theorem header_other (lg : Logger) (i : Info) {k : Key} (h1 : k ≠ "#pareto-length".toList) (h2 : "#losses#".toList.isPrefixOf k = false)
    (h3 : "#optimizer#".toList.isPrefixOf k = false) (h4 : k ≠ "#meta-sigma".toList) :
    dictGet (header lg i) k = if 1 < i.generation ∧ k = "#parents_uids".toList then some (.seq (i.parents.map .leaf)) else dictGet (base lg i) k := by
  have e1 : ∀ d, dictGet (withLosses i d) k = dictGet d k := by
    intro d
    unfold withLosses
    split
    · rw [dictGet_set, if_neg h1, dictUpdate_other]
      intro e he
      obtain ⟨x, -, rfl⟩ := List.mem_map.1 he
      exact ne_of_prefix h2
    · rfl
  have e2 : ∀ d, dictGet (withConfig i d) k = dictGet d k := by
    intro d
    unfold withConfig
    split
    · apply dictUpdate_other
      intro e he
      obtain ⟨x, -, rfl⟩ := List.mem_map.1 he
      exact ne_of_prefix h3
    · rfl
  have e3 : ∀ d, dictGet (withSigma i d) k = dictGet d k := by
    intro d
    unfold withSigma
    split
    · rw [dictGet_set, if_neg h4]
    · rfl
  unfold header withParents
  by_cases hg : 1 < i.generation
  · simp only [hg, if_true, true_and]
    rw [dictGet_set, e3, e2, e1]
  · simp only [hg, if_false, false_and]
    rw [e3, e2, e1]

/-- C107: whatever the configuration, a line tells the loss, the identifier, the lineage, the generation and the parents of the candidate, the counts of
the optimizer and the names, unless a parameter has one of these keys as its name. -/
theorem entry_header_partial (lg : Logger) (i : Info) (hk : ∀ e ∈ (i.flat 1).flatMap assigned, e.1 ∉ (base lg i).map (·.1)) :
    dictGet (entry lg i) "#loss".toList = some (.leaf i.loss) ∧ dictGet (entry lg i) "#uid".toList = some (.leaf i.uid) ∧
    dictGet (entry lg i) "#lineage".toList = some (.leaf i.lineage) ∧ dictGet (entry lg i) "#generation".toList = some (natLeaf i.generation) ∧
    dictGet (entry lg i) "#num-ask".toList = some (natLeaf i.numAsk) ∧ dictGet (entry lg i) "#num-tell".toList = some (natLeaf i.numTell) ∧
    dictGet (entry lg i) "#num-tell-not-asked".toList = some (natLeaf i.numNotAsked) ∧
    dictGet (entry lg i) "#optimizer".toList = some (.leaf i.optimizer) ∧
    dictGet (entry lg i) "#parametrization".toList = some (.leaf i.parametrization) ∧
    dictGet (entry lg i) "#session".toList = some (.leaf lg.session) ∧
    dictGet (entry lg i) "#parents_uids".toList = some (.seq (if 1 < i.generation then i.parents.map .leaf else [])) := by
  have key : ∀ k ∈ (base lg i).map (·.1), k ≠ "#pareto-length".toList → "#losses#".toList.isPrefixOf k = false →
      "#optimizer#".toList.isPrefixOf k = false → k ≠ "#meta-sigma".toList → dictGet (entry lg i) k =
        if 1 < i.generation ∧ k = "#parents_uids".toList then some (.seq (i.parents.map .leaf)) else dictGet (base lg i) k := by
    intro k hb h1 h2 h3 h4
    unfold entry
    rw [addItems_eq, dictUpdate_other k _ _ (fun e he hc => hk e he (hc ▸ hb)), header_other lg i h1 h2 h3 h4]
  refine ⟨?_, ?_, ?_, ?_, ?_, ?_, ?_, ?_, ?_, ?_, ?_⟩
  all_goals rw [key _ (by simp [base]) (by decide) (by decide) (by decide) (by decide)]
  all_goals first
    | (rw [if_neg (by rintro ⟨-, h⟩; exact absurd h (by decide))]; rfl)
    | (by_cases hg : 1 < i.generation
       · simp only [hg, if_true, and_self]
       · simp only [hg, if_false, false_and]; rfl)

/-- C107: with several objectives, each loss is written under its number, with the size of the Pareto front. -/
theorem header_losses (lg : Logger) (i : Info) (ho : 1 < i.numObjectives) :
    (∀ k l, i.losses[k]? = some l → dictGet (header lg i) ("#losses#".toList ++ decimal k) = some (.leaf l)) ∧
    dictGet (header lg i) "#pareto-length".toList = some (natLeaf i.paretoLength) := by
  have later : ∀ {k : Key} (d : List (Key × PV)), "#optimizer#".toList.isPrefixOf k = false → k ≠ "#meta-sigma".toList →
      k ≠ "#parents_uids".toList → dictGet (withParents i (withSigma i (withConfig i d))) k = dictGet d k := by
    intro k d h1 h2 h3
    have e2 : dictGet (withConfig i d) k = dictGet d k := by
      unfold withConfig
      split
      · apply dictUpdate_other
        intro e he
        obtain ⟨x, -, rfl⟩ := List.mem_map.1 he
        exact ne_of_prefix h1
      · rfl
    have e3 : dictGet (withSigma i (withConfig i d)) k = dictGet (withConfig i d) k := by
      unfold withSigma
      split
      · rw [dictGet_set, if_neg h2]
      · rfl
    unfold withParents
    split
    · rw [dictGet_set, if_neg h3, e3, e2]
    · rw [e3, e2]
  constructor
  · intro k l hl
    unfold header
    rw [later _ rfl (by simp) (by simp)]
    unfold withLosses
    rw [if_pos ho, dictGet_set, if_neg (by simp)]
    apply dictUpdate_agree
    · intro e he hk
      obtain ⟨⟨l', k'⟩, hx, rfl⟩ := List.mem_map.1 he
      have hkk : k' = k := decimal_inj _ _ (List.append_cancel_left hk)
      subst hkk
      rw [List.mk_mem_zipIdx_iff_getElem?, hl] at hx
      rw [Option.some.inj hx]
    · exact ⟨_, List.mem_map.2 ⟨(l, k), List.mk_mem_zipIdx_iff_getElem?.2 hl, rfl⟩, rfl⟩
  · unfold header
    rw [later _ (by decide) (by decide) (by decide)]
    unfold withLosses
    rw [if_pos ho, dictGet_set, if_pos rfl]

theorem nodup_dictUpdate {V : Type} : ∀ (new out : List (Key × V)), (out.map (·.1)).Nodup → ((dictUpdate out new).map (·.1)).Nodup
  | [], _, h => h
  | e :: new, out, h => nodup_dictUpdate new (dictSet e.1 e.2 out) (Pop.nodup_set e.1 e.2 out h)

theorem entry_nodup (lg : Logger) (i : Info) : ((entry lg i).map (·.1)).Nodup := by
  unfold entry
  rw [addItems_eq]
  apply nodup_dictUpdate
  have h0 : ((base lg i).map (·.1)).Nodup := by
    show List.Nodup ["#parametrization".toList, "#optimizer".toList, "#session".toList, "#num-ask".toList, "#num-tell".toList,
      "#num-tell-not-asked".toList, "#uid".toList, "#lineage".toList, "#generation".toList, "#parents_uids".toList, "#loss".toList]
    decide
  have h1 : ((withLosses i (base lg i)).map (·.1)).Nodup := by
    unfold withLosses
    split
    · exact Pop.nodup_set _ _ _ (nodup_dictUpdate _ _ h0)
    · exact h0
  have h2 : ((withConfig i (withLosses i (base lg i))).map (·.1)).Nodup := by
    unfold withConfig
    split
    · exact nodup_dictUpdate _ _ h1
    · exact h1
  have h3 : ((withSigma i (withConfig i (withLosses i (base lg i)))).map (·.1)).Nodup := by
    unfold withSigma
    split
    · exact Pop.nodup_set _ _ _ h2
    · exact h2
  unfold header withParents
  split
  · exact Pop.nodup_set _ _ _ h3
  · exact h3

/-- C107, from the candidate to `load_flattened`: an array of the candidate appears in the flattened line with every one of its elements among the
first `max_list_elements` (in row-major order), under `name#i0_i1...`. -/
theorem array_flattened {lg : Logger} {i : Info} {max : Nat} {listKeys : Line → List Key} (ho : SetOrder listKeys) {line : Line}
    (hw : dumps (entry lg i) = some line) {r : List (Key × Leaf)} (hr : flattenLine max listKeys line = some r)
    {k : Key} {s : List Nat} {data : List Leaf} (hp : ∀ n ∈ s, 0 < n) (hs : s ≠ []) (hd : data.length = s.prod)
    (hex : (k, convert (.array s data)) ∈ (i.flat 1).flatMap assigned)
    (hag : ∀ e ∈ (i.flat 1).flatMap assigned, e.1 = k → e.2 = convert (.array s data))
    {idx : List Nat} (hv : Valid s idx) (hm : pos s idx < max) : dictGet r (flatKey k idx) = data[pos s idx]? := by
  have hl : (line.map (·.1)).Nodup := by rw [dumps_keys hw]; exact entry_nodup lg i
  obtain ⟨x, hx1, hx2⟩ := tolist_spec s data hp hd
  have hx : dictGet line k = some x := by
    rw [dumps_get hw k, entry_item_partial lg i hex hag]
    exact hx1
  have hlt : pos s idx < data.length := by rw [hd]; exact pos_lt hv
  rw [List.getElem?_eq_getElem hlt, flattenLine_get ho hl hr]
  left
  refine ⟨k, idx, ⟨x, hx, (regular_at idx x s data _ hx2).2 ⟨hv, List.getElem?_eq_getElem hlt⟩, ?_⟩, ?_, rfl⟩
  · rw [← (regular_length x s data hx2).2]; exact hm
  · rintro rfl
    cases hv
    exact hs rfl

/-- C107: flattening a file only fails on lists which are not rectangular. -/
theorem flatten_ok_partial {max : Nat} {listKeys : Line → List Key} (ho : SetOrder listKeys) (file : Option (List Line))
    (h : ∀ line ∈ load file, ∀ key xs, dictGet line key = some (.list xs) → regular (.list xs) ≠ none) :
    ∃ r, loadFlattened max listKeys file = some r ∧ r.length = (load file).length := by
  unfold loadFlattened
  have one : ∀ line ∈ load file, ∃ r, flattenLine max listKeys line = some r := by
    intro line hl
    have : ∀ (ks : List Key) (out : List (Key × Leaf)), (∀ key ∈ ks, IsList line key) → ∃ r, addLists line max ks out = some r := by
      intro ks
      induction ks with
      | nil => intro out _; exact ⟨out, rfl⟩
      | cons key ks ih =>
        intro out hk
        obtain ⟨xs, hx⟩ := hk key (by simp)
        cases hr : regular (.list xs) with
        | none => exact absurd hr (h line hl key xs hx)
        | some p =>
          obtain ⟨s, a⟩ := p
          simp only [addLists, hx, Option.bind_some, hr]
          exact ih _ (fun k hk' => hk k (by simp [hk']))
    exact this _ _ (fun key hk => ((ho line).2 key).1 hk)
  generalize load file = ls at one ⊢
  clear h
  induction ls with
  | nil => exact ⟨[], by simp, rfl⟩
  | cons l ls ih =>
    obtain ⟨r, hr⟩ := one l (by simp)
    obtain ⟨rs, hrs, hlen⟩ := ih (fun x hx => one x (by simp [hx]))
    exact ⟨r :: rs, by simp [hr, hrs], by simp [hlen]⟩

/-! ## Disagreements -/

/-- The documentation announces "order of the internal/model parameters to extract": the argument has no effect. -/
theorem order_ignored (s : Leaf) (o1 o2 : Nat) (cs : List (Info × Bool)) (file : Option (List Line)) :
    calls ⟨s, o1⟩ cs file = calls ⟨s, o2⟩ cs file := rfl

/-- A plain line, with the parameters listed by `flatten`. -/
def plain (items : List Item) : Info :=
  { parametrization := .text [], optimizer := .text [], numAsk := 1, numTell := 0, numNotAsked := 0, uid := .text ['u'], lineage := .text ['u'],
    generation := 1, parents := [], loss := .num 3, numObjectives := 1, losses := [], paretoLength := 0, config := none, metaSigma := none,
    flat := fun _ => items }

/-- With a parameter named `#loss` (`ng.p.Dict(**{"#loss": ...})`), the loss is not recorded. -/
theorem name_hides_loss : ∃ i : Info, i.loss = .num 3 ∧ dictGet (entry ⟨.text [], 1⟩ i) "#loss".toList = some (.leaf (.num 7)) :=
  ⟨plain [⟨"#loss".toList, .leaf (.num 7), none⟩], rfl, rfl⟩

/-- A choice among objects which JSON cannot write (functions, for instance) prevents the whole line from being recorded, with a warning only. -/
theorem object_loses_line : ∃ i : Info, (∃ it ∈ i.flat 1, it.name = "weights".toList) ∧ load (calls ⟨.text [], 1⟩ [(i, true)] none) = [] :=
  ⟨plain [⟨"weights".toList, .array [1] [.num 1], none⟩, ⟨"f".toList, .opaque, none⟩], ⟨_, List.mem_cons_self .., rfl⟩, rfl⟩

theorem addLists_none (line : Line) (max : Nat) {key : Key} (h : (dictGet line key).bind regular = none) : ∀ (ks : List Key)
    (out : List (Key × Leaf)), key ∈ ks → addLists line max ks out = none
  | [], _, hk => by simp at hk
  | k :: ks, out, hk => by
    simp only [addLists]
    rcases List.mem_cons.1 hk with rfl | hk
    · rw [h]
    · split
      · rfl
      · exact addLists_none line max h ks _ hk

/-- A value such as `[1, [2]]` (an option of a choice) is recorded, but the file can then not be flattened. -/
theorem ragged_raises : ∃ i : Info, (load (calls ⟨.text [], 1⟩ [(i, true)] none)).length = 1 ∧
    ∀ listKeys max, SetOrder listKeys → loadFlattened max listKeys (calls ⟨.text [], 1⟩ [(i, true)] none) = none := by
  refine ⟨plain [⟨['c'], .seq [.leaf (.num 1), .seq [.leaf (.num 2)]], none⟩], rfl, fun listKeys max ho => ?_⟩
  obtain ⟨line, hl, hc⟩ : ∃ line, load (calls ⟨.text [], 1⟩ [(plain [⟨['c'], .seq [.leaf (.num 1), .seq [.leaf (.num 2)]], none⟩], true)] none) = [line] ∧
      dictGet line ['c'] = some (.list [.leaf (.num 1), .list [.leaf (.num 2)]]) := ⟨_, rfl, rfl⟩
  have : flattenLine max listKeys line = none :=
    addLists_none line max (key := ['c']) (by rw [hc]; rfl) _ _ (((ho line).2 _).2 ⟨_, hc⟩)
  unfold loadFlattened
  rw [hl]
  simp [this]

/-! ## Examples -/

/-- The array `[[1, 2, 3], [4, 5, 6]]` named `x`, and a lone parameter. -/
example : (flattenLine 4 (fun _ => [['x']]) [(['0'], .leaf (.num 9)), (['x'], .list [.list [.leaf (.num 1), .leaf (.num 2), .leaf (.num 3)],
    .list [.leaf (.num 4), .leaf (.num 5), .leaf (.num 6)]])]) =
    some [(['0'], .num 9), ("x#0_0".toList, .num 1), ("x#0_1".toList, .num 2), ("x#0_2".toList, .num 3), ("x#1_0".toList, .num 4)] := by
  decide +kernel

example : label [] = ['0'] ∧ pos [2, 3] [1, 0] = 3 ∧ Valid [2, 3] [1, 0] := ⟨rfl, rfl, by simp⟩

example : (load (calls ⟨.text [], 1⟩ [(plain [], true), (plain [], false), (plain [], true)] none)).length = 2 := rfl

end ParamLog
end NG
