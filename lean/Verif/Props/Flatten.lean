import Verif.Props.Tools

/-! # C54: flattening nested containers -/

namespace NG
namespace Tools

/-! ## Specification: the leaves with their paths, and the condition on keys -/

variable {V : Type}

mutual
/-- The leaves in order, each with the list of keys leading to it. -/
def leaves : Obj V → List (List Key × V)
  | .leaf v => [([], v)]
  | .list xs => leavesList 0 xs
  | .dict es => leavesDict es

/-- The leaves of list elements numbered from `i`. -/
def leavesList (i : Nat) : List (Obj V) → List (List Key × V)
  | [] => []
  | x :: xs => (leaves x).map (fun e => (decimal i :: e.1, e.2)) ++ leavesList (i + 1) xs

/-- The leaves of dict entries. -/
def leavesDict : List (Key × Obj V) → List (List Key × V)
  | [] => []
  | (k, x) :: es => (leaves x).map (fun e => (k :: e.1, e.2)) ++ leavesDict es
end

mutual
/-- Every dict has distinct keys (as strings), without dot. -/
def Plain : Obj V → Prop
  | .leaf _ => True
  | .list xs => PlainList xs
  | .dict es => (es.map (·.1)).Nodup ∧ PlainDict es

/-- Same for all elements of a list. -/
def PlainList : List (Obj V) → Prop
  | [] => True
  | x :: xs => Plain x ∧ PlainList xs

/-- Same for all entries of a dict. -/
def PlainDict : List (Key × Obj V) → Prop
  | [] => True
  | (k, x) :: es => '.' ∉ k ∧ Plain x ∧ PlainDict es
end

/-- A path written with dots. -/
def dotted : List Key → Key
  | [] => []
  | [k] => k
  | k :: p => k ++ '.' :: dotted p

/-! ## Decimal numbers -/

theorem digitChar_inj : ∀ a b : Nat, a < 10 → b < 10 → Nat.digitChar a = Nat.digitChar b → a = b := by
  intro a b ha hb
  interval_cases a <;> interval_cases b <;> simp [Nat.digitChar]

/-- The digits used by `decimal`, least significant first. -/
theorem decimal_digits (n : Nat) : ∃ ds : List Nat, decimal n = ds.reverse.map Nat.digitChar ∧ (∀ d ∈ ds, d < 10) ∧
    Nat.ofDigits 10 ds = n := by
  unfold decimal
  by_cases h : n = 0
  · exact ⟨[0], by simp [h, Nat.digitChar], by simp, by simp [h]⟩
  · exact ⟨Nat.digits 10 n, by simp [h], fun d hd => Nat.digits_lt_base (by omega) hd, Nat.ofDigits_digits 10 n⟩

theorem map_digitChar_inj : ∀ ds es : List Nat, (∀ d ∈ ds, d < 10) → (∀ d ∈ es, d < 10) →
    ds.map Nat.digitChar = es.map Nat.digitChar → ds = es
  | [], [], _, _, _ => rfl
  | [], _ :: _, _, _, h => by simp at h
  | _ :: _, [], _, _, h => by simp at h
  | d :: ds, e :: es, hd, he, h => by
    simp only [List.map_cons, List.cons.injEq] at h
    rw [digitChar_inj d e (hd d (by simp)) (he e (by simp)) h.1,
      map_digitChar_inj ds es (fun x hx => hd x (by simp [hx])) (fun x hx => he x (by simp [hx])) h.2]

theorem decimal_inj (m n : Nat) (h : decimal m = decimal n) : m = n := by
  obtain ⟨ds, h1, h2, h3⟩ := decimal_digits m
  obtain ⟨es, g1, g2, g3⟩ := decimal_digits n
  rw [h1, g1] at h
  have := map_digitChar_inj _ _ (fun d hd => h2 d (List.mem_reverse.mp hd)) (fun d hd => g2 d (List.mem_reverse.mp hd)) h
  rw [List.reverse_inj] at this
  rw [← h3, ← g3, this]

theorem decimal_no_dot (n : Nat) : '.' ∉ decimal n := by
  obtain ⟨ds, h1, h2, _⟩ := decimal_digits n
  rw [h1]
  intro h
  obtain ⟨d, hd, hc⟩ := List.mem_map.mp h
  have := h2 d (List.mem_reverse.mp hd)
  revert hc
  interval_cases d <;> simp [Nat.digitChar]

/-! ## Heads of dotted keys -/

/-- The part before the first dot. -/
def headKey (k : Key) : Key := k.takeWhile (fun c => c != '.')

theorem headKey_plain (k : Key) (h : '.' ∉ k) : headKey k = k := by
  unfold headKey
  induction k with
  | nil => rfl
  | cons c k ih =>
    simp only [List.mem_cons, not_or] at h
    simp [Ne.symm h.1, ih h.2]

theorem headKey_dot (k r : Key) (h : '.' ∉ k) : headKey (k ++ '.' :: r) = k := by
  have h1 : headKey k = k := headKey_plain k h
  unfold headKey at h1 ⊢
  rw [List.takeWhile_append, h1]
  simp

theorem dictSet_new (k : Key) (v : V) : ∀ d : List (Key × V), k ∉ d.map (·.1) → dictSet k v d = d ++ [(k, v)]
  | [], _ => rfl
  | e :: d, h => by
    simp only [List.map_cons, List.mem_cons, not_or] at h
    simp [dictSet, Ne.symm h.1, dictSet_new k v d h.2]

theorem dictUpdate_new : ∀ (new out : List (Key × V)), (out.map (·.1) ++ new.map (·.1)).Nodup → dictUpdate out new = out ++ new
  | [], out, _ => by simp [dictUpdate]
  | e :: new, out, h => by
    have hk : e.1 ∉ out.map (·.1) := by
      rw [List.nodup_append] at h
      exact fun hc => h.2.2 _ hc e.1 (by simp) rfl
    have := dictUpdate_new new (out ++ [e]) (by simpa [List.append_assoc] using h)
    simp only [dictUpdate, List.foldl_cons, dictSet_new e.1 e.2 out hk] at this ⊢
    rw [this]
    simp

/-- Dotted leaves. -/
def named (ls : List (List Key × V)) : List (Key × V) := ls.map (fun e => (dotted e.1, e.2))

/-- One step of the loop: the entries added under a key `k`. -/
def part (k : Key) (x : Obj V) : List (Key × V) := named ((leaves x).map (fun e => (k :: e.1, e.2)))

/-- What `flatten` gives on one object. -/
def Good (x : Obj V) : Prop :=
  match x with
  | .leaf v => flatten x = .inr v
  | x => flatten x = .inl (named (leaves x)) ∧ ((named (leaves x)).map (·.1)).Nodup ∧ ∀ e ∈ leaves x, e.1 ≠ []

theorem part_leaf (k : Key) (v : V) : part k (.leaf v) = [(k, v)] := by simp [part, leaves, named, dotted]

theorem part_inner (k : Key) (x : Obj V) (h : ∀ e ∈ leaves x, e.1 ≠ []) :
    part k x = (named (leaves x)).map (fun e => (k ++ '.' :: e.1, e.2)) := by
  simp only [part, named, List.map_map]
  apply List.map_congr_left
  intro e he
  obtain ⟨p, v⟩ := e
  cases p with
  | nil => exact absurd rfl (h _ he)
  | cons a p => simp [dotted]

theorem part_heads (k : Key) (hk : '.' ∉ k) (x : Obj V) (h : Good x) :
    (∀ e ∈ part k x, headKey e.1 = k) ∧ ((part k x).map (·.1)).Nodup := by
  have inner : ∀ x : Obj V, ((named (leaves x)).map (·.1)).Nodup → (∀ e ∈ leaves x, e.1 ≠ []) →
      (∀ e ∈ part k x, headKey e.1 = k) ∧ ((part k x).map (·.1)).Nodup := by
    intro x hn hne
    rw [part_inner k x hne]
    constructor
    · intro e he
      obtain ⟨e', _, rfl⟩ := List.mem_map.mp he
      exact headKey_dot k e'.1 hk
    · rw [List.map_map]
      have : ((fun e : Key × V => e.1) ∘ fun e : Key × V => (k ++ '.' :: e.1, e.2)) = (fun r => k ++ '.' :: r) ∘ (·.1) := rfl
      rw [this, ← List.map_map]
      exact hn.map (fun a b hab => by simpa using hab)
  cases x with
  | leaf v => rw [part_leaf]; simp [headKey_plain k hk]
  | list xs => exact inner _ h.2.1 h.2.2
  | dict es => exact inner _ h.2.1 h.2.2

theorem flattenList_step (i : Nat) (x : Obj V) (xs : List (Obj V)) (out : List (Key × V)) (h : Good x)
    (hout : ∀ e ∈ out, headKey e.1 ≠ decimal i) (hnd : (out.map (·.1)).Nodup) :
    flattenList i (x :: xs) out = flattenList (i + 1) xs (out ++ part (decimal i) x) := by
  obtain ⟨p1, p2⟩ := part_heads (decimal i) (decimal_no_dot i) x h
  have hnod : (out.map (·.1) ++ (part (decimal i) x).map (·.1)).Nodup := by
    rw [List.nodup_append]
    refine ⟨hnd, p2, ?_⟩
    intro a ha b hb hab
    obtain ⟨e, he, rfl⟩ := List.mem_map.mp ha
    obtain ⟨e', he', rfl⟩ := List.mem_map.mp hb
    exact hout e he (by rw [hab]; exact p1 e' he')
  cases x with
  | leaf v =>
    have h' : flatten (Obj.leaf v) = .inr v := h
    simp only [flattenList, h']
    rw [part_leaf] at hnod ⊢
    rw [dictSet_new]
    intro hc
    rw [List.nodup_append] at hnod
    exact hnod.2.2 _ hc (decimal i) (by simp) rfl
  | list ys =>
    simp only [flattenList, h.1]
    rw [part_inner _ _ h.2.2] at hnod ⊢
    rw [dictUpdate_new _ _ hnod]
  | dict ys =>
    simp only [flattenList, h.1]
    rw [part_inner _ _ h.2.2] at hnod ⊢
    rw [dictUpdate_new _ _ hnod]

theorem flattenDict_step (k : Key) (hk : '.' ∉ k) (x : Obj V) (es : List (Key × Obj V)) (out : List (Key × V)) (h : Good x)
    (hout : ∀ e ∈ out, headKey e.1 ≠ k) (hnd : (out.map (·.1)).Nodup) :
    flattenDict ((k, x) :: es) out = flattenDict es (out ++ part k x) := by
  obtain ⟨p1, p2⟩ := part_heads k hk x h
  have hnod : (out.map (·.1) ++ (part k x).map (·.1)).Nodup := by
    rw [List.nodup_append]
    refine ⟨hnd, p2, ?_⟩
    intro a ha b hb hab
    obtain ⟨e, he, rfl⟩ := List.mem_map.mp ha
    obtain ⟨e', he', rfl⟩ := List.mem_map.mp hb
    exact hout e he (by rw [hab]; exact p1 e' he')
  cases x with
  | leaf v =>
    have h' : flatten (Obj.leaf v) = .inr v := h
    simp only [flattenDict, h']
    rw [part_leaf] at hnod ⊢
    rw [dictSet_new]
    intro hc
    rw [List.nodup_append] at hnod
    exact hnod.2.2 _ hc k (by simp) rfl
  | list ys =>
    simp only [flattenDict, h.1]
    rw [part_inner _ _ h.2.2] at hnod ⊢
    rw [dictUpdate_new _ _ hnod]
  | dict ys =>
    simp only [flattenDict, h.1]
    rw [part_inner _ _ h.2.2] at hnod ⊢
    rw [dictUpdate_new _ _ hnod]

theorem append_part (out : List (Key × V)) (k : Key) (x : Obj V) (hk : '.' ∉ k) (h : Good x)
    (hout : ∀ e ∈ out, headKey e.1 ≠ k) (hnd : (out.map (·.1)).Nodup) : ((out ++ part k x).map (·.1)).Nodup := by
  obtain ⟨p1, p2⟩ := part_heads k hk x h
  rw [List.map_append, List.nodup_append]
  refine ⟨hnd, p2, ?_⟩
  intro a ha b hb hab
  obtain ⟨e, he, rfl⟩ := List.mem_map.mp ha
  obtain ⟨e', he', rfl⟩ := List.mem_map.mp hb
  exact hout e he (by rw [hab]; exact p1 e' he')

mutual
theorem good : ∀ x : Obj V, Plain x → Good x
  | .leaf v, _ => by simp [Good, flatten]
  | .list xs, h => by
    have := goodList xs 0 [] (by simpa [Plain] using h) (by simp) (by simp)
    obtain ⟨g1, g2, g3⟩ := this
    simp only [List.nil_append] at g1 g2
    refine ⟨?_, ?_, ?_⟩
    · simp only [flatten, leaves, g1]
    · simpa [leaves] using g2
    · simpa [leaves] using g3
  | .dict es, h => by
    have h' : (es.map (·.1)).Nodup ∧ PlainDict es := by simpa [Plain] using h
    have := goodDict es [] h'.2 h'.1 (by simp) (by simp)
    obtain ⟨g1, g2, g3⟩ := this
    simp only [List.nil_append] at g1 g2
    refine ⟨?_, ?_, ?_⟩
    · simp only [flatten, leaves, g1]
    · simpa [leaves] using g2
    · simpa [leaves] using g3

theorem goodList : ∀ (xs : List (Obj V)) (i : Nat) (out : List (Key × V)), PlainList xs →
    (∀ e ∈ out, ∀ j ≥ i, headKey e.1 ≠ decimal j) → (out.map (·.1)).Nodup →
    flattenList i xs out = out ++ named (leavesList i xs) ∧ ((out ++ named (leavesList i xs)).map (·.1)).Nodup ∧
      ∀ e ∈ leavesList i xs, e.1 ≠ []
  | [], i, out, _, _, hn => by simp [flattenList, leavesList, named, hn]
  | x :: xs, i, out, h, ho, hn => by
    have h' : Plain x ∧ PlainList xs := by simpa [PlainList] using h
    have hx := good x h'.1
    have hoi : ∀ e ∈ out, headKey e.1 ≠ decimal i := fun e he => ho e he i (le_refl _)
    have hp := part_heads (decimal i) (decimal_no_dot i) x hx
    obtain ⟨g1, g2, g3⟩ := goodList xs (i + 1) (out ++ part (decimal i) x) h'.2
      (by
        intro e he j hj
        rcases List.mem_append.mp he with he | he
        · exact ho e he j (by omega)
        · rw [hp.1 e he]
          intro hc
          have := decimal_inj i j hc
          omega)
      (append_part out (decimal i) x (decimal_no_dot i) hx hoi hn)
    have hl : named (leavesList i (x :: xs)) = part (decimal i) x ++ named (leavesList (i + 1) xs) := by
      simp [leavesList, named, part]
    refine ⟨?_, ?_, ?_⟩
    · rw [flattenList_step i x xs out hx hoi hn, g1, hl, List.append_assoc]
    · rw [hl, ← List.append_assoc]
      exact g2
    · intro e he
      simp only [leavesList, List.mem_append, List.mem_map] at he
      rcases he with ⟨e', _, rfl⟩ | he
      · simp
      · exact g3 e he

theorem goodDict : ∀ (es : List (Key × Obj V)) (out : List (Key × V)), PlainDict es → (es.map (·.1)).Nodup →
    (∀ e ∈ out, ∀ k ∈ es.map (·.1), headKey e.1 ≠ k) → (out.map (·.1)).Nodup →
    flattenDict es out = out ++ named (leavesDict es) ∧ ((out ++ named (leavesDict es)).map (·.1)).Nodup ∧
      ∀ e ∈ leavesDict es, e.1 ≠ []
  | [], out, _, _, _, hn => by simp [flattenDict, leavesDict, named, hn]
  | (k, x) :: es, out, h, hd, ho, hn => by
    have h' : '.' ∉ k ∧ Plain x ∧ PlainDict es := by simpa [PlainDict] using h
    have hx := good x h'.2.1
    have hoi : ∀ e ∈ out, headKey e.1 ≠ k := fun e he => ho e he k (by simp)
    have hp := part_heads k h'.1 x hx
    simp only [List.map_cons, List.nodup_cons] at hd
    obtain ⟨g1, g2, g3⟩ := goodDict es (out ++ part k x) h'.2.2 hd.2
      (by
        intro e he j hj
        rcases List.mem_append.mp he with he | he
        · exact ho e he j (by simp only [List.map_cons, List.mem_cons]; exact Or.inr hj)
        · rw [hp.1 e he]
          exact fun hc => hd.1 (hc ▸ hj))
      (append_part out k x h'.1 hx hoi hn)
    have hl : named (leavesDict ((k, x) :: es)) = part k x ++ named (leavesDict es) := by
      simp [leavesDict, named, part]
    refine ⟨?_, ?_, ?_⟩
    · rw [flattenDict_step k h'.1 x es out hx hoi hn, g1, hl, List.append_assoc]
    · rw [hl, ← List.append_assoc]
      exact g2
    · intro e he
      simp only [leavesDict, List.mem_append, List.mem_map] at he
      rcases he with ⟨e', _, rfl⟩ | he
      · simp
      · exact g3 e he
end

/-- C54: if the keys of every dict are distinct and dot-free, flattening a container gives exactly its leaves, in order, each
under its dotted path, and these paths are distinct. A leaf is returned as it is. -/
theorem flatten_spec_partial (x : Obj V) (h : Plain x) :
    (∀ v, x = .leaf v → flatten x = .inr v) ∧
      ((∀ v, x ≠ .leaf v) → flatten x = .inl ((leaves x).map (fun e => (dotted e.1, e.2))) ∧
        ((leaves x).map (fun e => dotted e.1)).Nodup) := by
  constructor
  · rintro v rfl
    simp [flatten]
  · intro hx
    have hg := good x h
    cases x with
    | leaf v => exact absurd rfl (hx v)
    | list xs => exact ⟨hg.1, by have := hg.2.1; rw [named, List.map_map] at this; exact this⟩
    | dict es => exact ⟨hg.1, by have := hg.2.1; rw [named, List.map_map] at this; exact this⟩

/-- The example of the documentation: `["a", {"truc": [4, 5]}]`, with 7 for "a". -/
example : flatten (.list [.leaf 7, .dict [("truc".toList, .list [.leaf 4, .leaf 5])]]) =
    .inl [("0".toList, 7), ("1.truc.0".toList, 4), ("1.truc.1".toList, 5)] := by
  refine ((flatten_spec_partial _ ?_).2 (by simp)).1.trans ?_
  · simp [Plain, PlainList, PlainDict]
  · decide +kernel

/-- C54 fails with dots in keys: `{"a.b": 1, "a": {"b": 2}}` has two leaves, its flattening has one entry. -/
theorem flatten_collision :
    let x : Obj Nat := .dict [("a.b".toList, .leaf 1), ("a".toList, .dict [("b".toList, .leaf 2)])]
    (leaves x).length = 2 ∧ flatten x = .inl [("a.b".toList, 2)] := by
  constructor
  · simp [leaves, leavesDict]
  · simp [flatten, flattenDict, dictSet, dictUpdate]

/-- C54 fails with keys of different types, equal as strings: `{1: 10, "1": 11}` loses a leaf. -/
theorem flatten_same_string :
    let x : Obj Nat := .dict [("1".toList, .leaf 10), ("1".toList, .leaf 11)]
    (leaves x).length = 2 ∧ flatten x = .inl [("1".toList, 11)] := by
  constructor
  · simp [leaves, leavesDict]
  · simp [flatten, flattenDict, dictSet]

end Tools
end NG
