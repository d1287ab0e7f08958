import Verif.Model.Values
import Mathlib.Data.List.Forall2
import Mathlib.Data.List.Nodup
import Mathlib.Tactic.Common

/-!
# C109: values and hashes of containers
-/

namespace NG
namespace Values
variable {K : Type} [LinearOrder K]
set_option linter.unusedSectionVars false

/-! ## Specifications -/

/-- The value read back, against the value given: the same atoms and arrays, tuples given to arrays come back as arrays, dictionaries in any order. -/
inductive Same : Val K → Val K → Prop
  | atom (a : Atom) : Same (.atom a) (.atom a)
  | arr (l : List Atom) : Same (.arr l) (.arr l)
  | cast (l : List Atom) : Same (.arr l) (.tup (l.map .atom))
  | tup (a b : List (Val K)) (len : a.length = b.length) (each : ∀ i (ha : i < a.length) (hb : i < b.length), Same a[i] b[i]) : Same (.tup a) (.tup b)
  | dict (a b : List (K × Val K)) (len : a.length = b.length) (keys : ∀ k, k ∈ a.map (·.1) ↔ k ∈ b.map (·.1))
      (each : ∀ k x y, (k, x) ∈ a → (k, y) ∈ b → Same x y) : Same (.dict a) (.dict b)

/-- The keys of all the dictionaries of a value are distinct. -/
inductive ValOK : Val K → Prop
  | atom (a : Atom) : ValOK (.atom a)
  | arr (l : List Atom) : ValOK (.arr l)
  | tup (l : List (Val K)) (each : ∀ v ∈ l, ValOK v) : ValOK (.tup l)
  | dict (l : List (K × Val K)) (nodup : (l.map (·.1)).Nodup) (each : ∀ k v, (k, v) ∈ l → ValOK v) : ValOK (.dict l)

/-- The keys of all the dictionaries of a parameter are distinct. -/
inductive POK : P K → Prop
  | const (v : Val K) (h : ValOK v) : POK (.const v)
  | array (l : List Atom) : POK (.array l)
  | scalar (x : Rat) : POK (.scalar x)
  | dict (c : List (K × P K)) (nodup : (c.map (·.1)).Nodup) (each : ∀ k p, (k, p) ∈ c → POK p) : POK (.dict c)
  | tup (c : List (P K)) (each : ∀ p ∈ c, POK p) : POK (.tup c)

/-- The values a parameter is documented to take: dictionaries with the keys of the parameter, tuples of its size, numbers for scalars, as many entries as the array has. -/
inductive Fits : Val K → P K → Prop
  | const (v c : Val K) (h : constAccepts c v = true) : Fits v (.const c)
  | array (ys cells : List Atom) (h : ys.length = cells.length) : Fits (.arr ys) (.array cells)
  | cast (ys cells : List Atom) (h : ys.length = cells.length) : Fits (.tup (ys.map .atom)) (.array cells)
  | scalar (q x : Rat) : Fits (.atom (.num q)) (.scalar x)
  | dict (items : List (K × Val K)) (c : List (K × P K)) (keys : ∀ k, k ∈ items.map (·.1) ↔ k ∈ c.map (·.1))
      (each : ∀ k v p, (k, v) ∈ items → (k, p) ∈ c → Fits v p) : Fits (.dict items) (.dict c)
  | tup (vals : List (Val K)) (c : List (P K)) (len : vals.length = c.length)
      (each : ∀ i (hv : i < vals.length) (hc : i < c.length), Fits vals[i] c[i]) : Fits (.tup vals) (.tup c)

/-- No array meets a constant, and no text is given to an array in a tuple. -/
inductive Clean : Val K → P K → Prop
  | const (v c : Val K) (hv : ∀ l, v ≠ .arr l) (hc : ∀ l, c ≠ .arr l) : Clean v (.const c)
  | array (v : Val K) (cells : List Atom) (h : ∀ l, v = .tup l → ∀ s, Val.atom (.str s) ∉ l) : Clean v (.array cells)
  | scalar (v : Val K) (x : Rat) : Clean v (.scalar x)
  | dict (v : Val K) (c : List (K × P K)) (each : ∀ items, v = .dict items → ∀ k x p, (k, x) ∈ items → (k, p) ∈ c → Clean x p) : Clean v (.dict c)
  | tup (v : Val K) (c : List (P K)) (each : ∀ vals, v = .tup vals → ∀ i (hv : i < vals.length) (hc : i < c.length), Clean vals[i] c[i]) : Clean v (.tup c)

/-- Parameters with the same structure and the same constants, such as a parameter and its children. -/
inductive Sibling : P K → P K → Prop
  | const (v : Val K) : Sibling (.const v) (.const v)
  | array (a b : List Atom) (h : a.length = b.length) : Sibling (.array a) (.array b)
  | scalar (x y : Rat) : Sibling (.scalar x) (.scalar y)
  | dict (a b : List (K × P K)) (keys : a.map (·.1) = b.map (·.1)) (each : ∀ i (ha : i < a.length) (hb : i < b.length), Sibling a[i].2 b[i].2) :
      Sibling (.dict a) (.dict b)
  | tup (a b : List (P K)) (len : a.length = b.length) (each : ∀ i (ha : i < a.length) (hb : i < b.length), Sibling a[i] b[i]) : Sibling (.tup a) (.tup b)

/-- `q` is `p` where some of the entries hold what `v` assigns to them and the others what they held. -/
inductive Mixed (text : Rat → List Char) : Val K → P K → P K → Prop
  | keep (v : Val K) (p : P K) : Mixed text v p p
  | array (ys cells : List Atom) : Mixed text (.arr ys) (.array cells) (.array ys)
  | cast (ys cells : List Atom) : Mixed text (.tup (ys.map .atom)) (.array cells) (.array (asarray text ys))
  | scalar (q x : Rat) : Mixed text (.atom (.num q)) (.scalar x) (.scalar q)
  | dict (items : List (K × Val K)) (c d : List (K × P K)) (keys : c.map (·.1) = d.map (·.1)) (given : ∀ k, k ∈ items.map (·.1) ↔ k ∈ c.map (·.1))
      (each : ∀ i (hc : i < c.length) (hd : i < d.length) v, (c[i].1, v) ∈ items → Mixed text v c[i].2 d[i].2) : Mixed text (.dict items) (.dict c) (.dict d)
  | tup (vals : List (Val K)) (c d : List (P K)) (len : c.length = d.length) (given : vals.length = c.length)
      (each : ∀ i (hv : i < vals.length) (hc : i < c.length) (hd : i < d.length), Mixed text vals[i] c[i] d[i]) : Mixed text (.tup vals) (.tup c) (.tup d)

/-! ## Induction principles -/

theorem Val.ind {m : Val K → Prop} (atom : ∀ a, m (.atom a)) (arr : ∀ l, m (.arr l)) (tup : ∀ l, (∀ v ∈ l, m v) → m (.tup l))
    (dict : ∀ l, (∀ e ∈ l, m e.2) → m (.dict l)) : ∀ v, m v
  | .atom a => atom a
  | .arr l => arr l
  | .tup l => tup l (fun v _ => Val.ind atom arr tup dict v)
  | .dict l => dict l (fun e he => by
      have := List.sizeOf_lt_of_mem he
      have : sizeOf e.2 < sizeOf e := by cases e; simp
      exact Val.ind atom arr tup dict e.2)
termination_by v => sizeOf v

theorem P.ind {m : P K → Prop} (const : ∀ v, m (.const v)) (array : ∀ l, m (.array l)) (scalar : ∀ x, m (.scalar x))
    (dict : ∀ c, (∀ e ∈ c, m e.2) → m (.dict c)) (tup : ∀ c, (∀ p ∈ c, m p) → m (.tup c)) : ∀ p, m p
  | .const v => const v
  | .array l => array l
  | .scalar x => scalar x
  | .tup l => tup l (fun v _ => P.ind const array scalar dict tup v)
  | .dict l => dict l (fun e he => by
      have := List.sizeOf_lt_of_mem he
      have : sizeOf e.2 < sizeOf e := by cases e; simp
      exact P.ind const array scalar dict tup e.2)
termination_by v => sizeOf v

/-! ## Dictionaries and loops -/

theorem getD_eq (c : List (K × P K)) : getD c = c.map (fun e => (e.1, get e.2)) := by
  induction c with
  | nil => rfl
  | cons e rest ih => obtain ⟨k, p⟩ := e; simp [getD, ih]

theorem getT_eq (c : List (P K)) : getT c = c.map get := by
  induction c with
  | nil => rfl
  | cons e rest ih => simp [getT, ih]

theorem atoms_eq {l : List (Val K)} {ys : List Atom} : atoms l = some ys ↔ l = ys.map .atom := by
  induction l generalizing ys with
  | nil => cases ys <;> simp [atoms]
  | cons v rest ih =>
    cases v with
    | atom a =>
      cases ys with
      | nil => simp [atoms]
      | cons y ys =>
        simp only [atoms, Option.map_eq_some_iff, List.cons.injEq, List.map_cons, Val.atom.injEq]
        constructor
        · rintro ⟨z, hz, rfl, rfl⟩; exact ⟨rfl, ih.1 hz⟩
        · rintro ⟨rfl, h⟩; exact ⟨ys, ih.2 h, rfl, rfl⟩
    | arr _ => cases ys <;> simp [atoms]
    | tup _ => cases ys <;> simp [atoms]
    | dict _ => cases ys <;> simp [atoms]

theorem put_keys (c : List (K × P K)) (k : K) (p : P K) : (put c k p).map (·.1) = c.map (·.1) := by
  simp only [put, List.map_map]
  refine List.map_congr_left fun e _ => ?_
  simp only [Function.comp]; split <;> simp_all

theorem find_mem {c : List (K × P K)} (h : (c.map (·.1)).Nodup) {k : K} {p : P K} : find c k = some p ↔ (k, p) ∈ c := by
  induction c with
  | nil => simp [find]
  | cons e rest ih =>
    obtain ⟨k', p'⟩ := e
    simp only [List.map_cons, List.nodup_cons] at h
    by_cases hk : k' = k
    · subst hk
      simp only [find, List.find?_cons, decide_true, Option.map_some, Option.some.injEq, List.mem_cons, Prod.mk.injEq, true_and]
      constructor
      · intro h; exact Or.inl h.symm
      · rintro (h' | h')
        · exact h'.symm
        · exact absurd (List.mem_map.2 ⟨_, h', rfl⟩) h.1
    · have : find ((k', p') :: rest) k = find rest k := by simp [find, hk]
      rw [this, ih h.2]; simp [Ne.symm hk]

theorem find_isSome (c : List (K × P K)) (k : K) : k ∈ c.map (·.1) → ∃ p, find c k = some p := by
  intro h
  obtain ⟨e, he, rfl⟩ := List.mem_map.1 h
  cases hf : c.find? (fun x => x.1 = e.1) with
  | none => have := List.find?_eq_none.1 hf e he; simp at this
  | some x => exact ⟨x.2, by simp [find, hf]⟩

theorem setD_keys (text : Rat → List Char) (items : List (K × Val K)) (c : List (K × P K)) : (setD text items c).1.map (·.1) = c.map (·.1) := by
  induction items generalizing c with
  | nil => rfl
  | cons e rest ih =>
    obtain ⟨k, v⟩ := e
    simp only [setD]
    split
    · rfl
    · split
      · exact put_keys _ _ _
      · rw [ih, put_keys]

theorem put_get (c : List (K × P K)) (k : K) (p : P K) (i : Nat) (h : i < c.length) (h' : i < (put c k p).length) :
    (put c k p)[i] = if c[i].1 = k then (k, p) else c[i] := by
  simp [put]

theorem setD_length (text : Rat → List Char) (items : List (K × Val K)) (c : List (K × P K)) : (setD text items c).1.length = c.length := by
  have := congrArg List.length (setD_keys text items c); simpa using this

theorem nodup_get {c : List (K × P K)} (h : (c.map (·.1)).Nodup) (i : Nat) (hi : i < c.length) : find c c[i].1 = some c[i].2 :=
  (find_mem h).2 (List.getElem_mem hi)

/-- What the loop over the given dictionary does to an entry. -/
theorem setD_entry (text : Rat → List Char) (items : List (K × Val K)) (c : List (K × P K)) (hc : (c.map (·.1)).Nodup) (hi : (items.map (·.1)).Nodup)
    (i : Nat) (h : i < c.length) (h' : i < (setD text items c).1.length) :
    ((setD text items c).1[i].2 = c[i].2 ∧ ((setD text items c).2 = none → c[i].1 ∉ items.map (·.1)))
      ∨ ∃ v, (c[i].1, v) ∈ items ∧ (setD text items c).1[i].2 = (set text v c[i].2).1 ∧ ((setD text items c).2 = none → (set text v c[i].2).2 = none) := by
  induction items generalizing c with
  | nil => left; simp [setD]
  | cons e rest ih =>
    obtain ⟨k, v⟩ := e
    simp only [List.map_cons, List.nodup_cons] at hi
    cases hf : find c k with
    | none =>
      left
      have : setD text ((k, v) :: rest) c = (c, some .valueError) := by simp [setD, hf]
      simp [this]
    | some p =>
      by_cases hs : (set text v p).2.isSome = true
      · have e1 : setD text ((k, v) :: rest) c = (put c k (set text v p).1, (set text v p).2) := by simp only [setD, hf]; rw [if_pos hs]
        have hne : (set text v p).2 ≠ none := by intro h0; simp [h0] at hs
        simp only [e1, put_get c k _ i h]
        by_cases hk : c[i].1 = k
        · right
          have : c[i].2 = p := by have := nodup_get hc i h; rw [hk, hf] at this; exact (Option.some.inj this).symm
          refine ⟨v, by simp [hk], by simp [hk, this], by simp [hne]⟩
        · left; simp [hk, hne]
      · have e1 : setD text ((k, v) :: rest) c = setD text rest (put c k (set text v p).1) := by simp only [setD, hf]; rw [if_neg hs]
        have hnone : (set text v p).2 = none := by simpa using hs
        have hl : i < (put c k (set text v p).1).length := by simpa [put] using h
        simp only [e1] at h' ⊢
        have hp := put_get c k (set text v p).1 i h hl
        have key := ih (put c k (set text v p).1) (by rw [put_keys]; exact hc) hi.2 hl h'
        by_cases hk : c[i].1 = k
        · rw [if_pos hk] at hp
          rw [hp] at key
          right
          have hcp : c[i].2 = p := by have := nodup_get hc i h; rw [hk, hf] at this; exact (Option.some.inj this).symm
          refine ⟨v, by simp [hk], ?_, fun _ => by rw [hcp]; exact hnone⟩
          rcases key with ⟨h1, _⟩ | ⟨w, hw, _⟩
          · rw [h1, hcp]
          · exact absurd (List.mem_map.2 ⟨_, hw, rfl⟩) hi.1
        · rw [if_neg hk] at hp
          rw [hp] at key
          rcases key with ⟨h1, h2⟩ | ⟨w, hw, h1, h2⟩
          · left; exact ⟨h1, fun h0 => by simp only [List.map_cons, List.mem_cons, not_or]; exact ⟨hk, h2 h0⟩⟩
          · right; exact ⟨w, by simp [hw], h1, h2⟩

/-- The loop over the given dictionary raises nothing iff no assignment does. -/
theorem setD_none (text : Rat → List Char) (items : List (K × Val K)) (c : List (K × P K)) (hc : (c.map (·.1)).Nodup) (hi : (items.map (·.1)).Nodup) :
    (setD text items c).2 = none ↔ ∀ k v, (k, v) ∈ items → ∃ p, find c k = some p ∧ (set text v p).2 = none := by
  induction items generalizing c with
  | nil => simp [setD]
  | cons e rest ih =>
    obtain ⟨k, v⟩ := e
    simp only [List.map_cons, List.nodup_cons] at hi
    cases hf : find c k with
    | none =>
      have : setD text ((k, v) :: rest) c = (c, some .valueError) := by simp [setD, hf]
      simp only [this]
      constructor
      · intro h; cases h
      · intro h; obtain ⟨p, hp, _⟩ := h k v (by simp); simp [hf] at hp
    | some p =>
      by_cases hs : (set text v p).2.isSome = true
      · have e1 : setD text ((k, v) :: rest) c = (put c k (set text v p).1, (set text v p).2) := by simp only [setD, hf]; rw [if_pos hs]
        have hne : (set text v p).2 ≠ none := by intro h0; simp [h0] at hs
        simp only [e1]
        constructor
        · intro h; exact absurd h hne
        · intro h; obtain ⟨p', hp, h0⟩ := h k v (by simp); rw [hf] at hp; cases hp; exact h0
      · have e1 : setD text ((k, v) :: rest) c = setD text rest (put c k (set text v p).1) := by simp only [setD, hf]; rw [if_neg hs]
        have hnone : (set text v p).2 = none := by simpa using hs
        rw [e1, ih _ (by rw [put_keys]; exact hc) hi.2]
        have other : ∀ k', k' ≠ k → ∀ p', find (put c k (set text v p).1) k' = some p' ↔ find c k' = some p' := by
          intro k' hk' p'
          rw [find_mem (by rw [put_keys]; exact hc), find_mem hc]
          simp only [put, List.mem_map]
          constructor
          · rintro ⟨⟨a, b⟩, h1, h2⟩
            by_cases ha : a = k
            · simp [ha] at h2; exact absurd h2.1.symm hk'
            · simp [ha] at h2; rw [← h2.1, ← h2.2]; exact h1
          · intro h1; exact ⟨_, h1, by simp [hk']⟩
        constructor
        · intro h k' v' hm
          rcases List.mem_cons.1 hm with h1 | h1
          · cases h1; exact ⟨p, hf, hnone⟩
          · have hk' : k' ≠ k := by rintro rfl; exact hi.1 (List.mem_map.2 ⟨_, h1, rfl⟩)
            obtain ⟨p', hp', h0⟩ := h k' v' h1
            exact ⟨p', (other k' hk' p').1 hp', h0⟩
        · intro h k' v' h1
          have hk' : k' ≠ k := by rintro rfl; exact hi.1 (List.mem_map.2 ⟨_, h1, rfl⟩)
          obtain ⟨p', hp', h0⟩ := h k' v' (by simp [h1])
          exact ⟨p', (other k' hk' p').2 hp', h0⟩

theorem setT_length (text : Rat → List Char) (vals : List (Val K)) (c : List (P K)) : (setT text vals c).1.length = c.length := by
  induction vals generalizing c with
  | nil => rfl
  | cons v rest ih =>
    cases c with
    | nil => rfl
    | cons p ps =>
      simp only [setT]
      split
      · simp
      · simp [ih]

theorem setT_entry (text : Rat → List Char) (vals : List (Val K)) (c : List (P K)) (i : Nat) (h : i < c.length) (h' : i < (setT text vals c).1.length) :
    ((setT text vals c).1[i] = c[i] ∧ ((setT text vals c).2 = none → vals.length ≤ i))
      ∨ ∃ hv : i < vals.length, (setT text vals c).1[i] = (set text vals[i] c[i]).1 ∧ ((setT text vals c).2 = none → (set text vals[i] c[i]).2 = none) := by
  induction vals generalizing c i with
  | nil => left; simp [setT]
  | cons v rest ih =>
    cases c with
    | nil => simp at h
    | cons p ps =>
      by_cases hs : (set text v p).2.isSome = true
      · have e1 : setT text (v :: rest) (p :: ps) = ((set text v p).1 :: ps, (set text v p).2) := by simp only [setT]; rw [if_pos hs]
        have hne : (set text v p).2 ≠ none := by intro h0; simp [h0] at hs
        simp only [e1]
        cases i with
        | zero => right; exact ⟨by simp, by simp, by simp [hne]⟩
        | succ j => left; simp [hne]
      · have e1 : setT text (v :: rest) (p :: ps) = ((set text v p).1 :: (setT text rest ps).1, (setT text rest ps).2) := by simp only [setT]; rw [if_neg hs]
        have hnone : (set text v p).2 = none := by simpa using hs
        simp only [e1] at h' ⊢
        cases i with
        | zero => right; exact ⟨by simp, by simp, by simp [hnone]⟩
        | succ j =>
          have := ih ps j (by simpa using h) (by simpa using h')
          rcases this with ⟨h1, h2⟩ | ⟨hv, h1, h2⟩
          · left; simpa using ⟨h1, h2⟩
          · right; exact ⟨by simpa using hv, by simpa using h1, by simpa using h2⟩

theorem setT_none (text : Rat → List Char) (vals : List (Val K)) (c : List (P K)) (hl : vals.length = c.length) :
    (setT text vals c).2 = none ↔ ∀ i (hv : i < vals.length) (hc : i < c.length), (set text vals[i] c[i]).2 = none := by
  induction vals generalizing c with
  | nil => simp [setT]
  | cons v rest ih =>
    cases c with
    | nil => simp at hl
    | cons p ps =>
      simp only [List.length_cons, Nat.add_right_cancel_iff] at hl
      by_cases hs : (set text v p).2.isSome = true
      · have e1 : setT text (v :: rest) (p :: ps) = ((set text v p).1 :: ps, (set text v p).2) := by simp only [setT]; rw [if_pos hs]
        have hne : (set text v p).2 ≠ none := by intro h0; simp [h0] at hs
        simp only [e1]
        constructor
        · intro h; exact absurd h hne
        · intro h; exact h 0 (by simp) (by simp)
      · have e1 : setT text (v :: rest) (p :: ps) = ((set text v p).1 :: (setT text rest ps).1, (setT text rest ps).2) := by simp only [setT]; rw [if_neg hs]
        have hnone : (set text v p).2 = none := by simpa using hs
        simp only [e1]
        rw [ih ps hl]
        constructor
        · intro h i hv hc
          cases i with
          | zero => exact hnone
          | succ j => exact h j (by simpa using hv) (by simpa using hc)
        · intro h i hv hc
          exact h (i + 1) (by simpa using hv) (by simpa using hc)

theorem sameKeys_iff (a b : List K) : sameKeys a b = true ↔ ∀ k, k ∈ a ↔ k ∈ b := by
  simp only [sameKeys, Bool.and_eq_true, List.all_eq_true, decide_eq_true_eq]
  constructor
  · rintro ⟨h1, h2⟩ k; exact ⟨h1 k, h2 k⟩
  · intro h; exact ⟨fun k => (h k).1, fun k => (h k).2⟩

/-! ## Assignment -/

/-- An assignment raises nothing iff the value fits. -/
theorem accepts_iff (text : Rat → List Char) (v : Val K) : ∀ p : P K, ValOK v → POK p → ((set text v p).2 = none ↔ Fits v p) := by
  induction v using Val.ind with
  | atom a =>
    intro p _ _
    cases p with
    | const c => simp only [set]; constructor
                 · intro h; exact .const _ _ (by by_contra h'; simp [h'] at h)
                 · rintro ⟨⟩; simp_all
    | array cells => simp only [set, setArray]; constructor
                     · intro h; cases h
                     · rintro ⟨⟩
    | scalar x =>
      cases a with
      | num q => simp only [set, setScalar, true_iff]; exact .scalar _ _
      | str _ => simp only [set, setScalar]; constructor <;> rintro ⟨⟩
      | nothing => simp only [set, setScalar]; constructor <;> rintro ⟨⟩
    | dict c => simp only [set]; constructor <;> rintro ⟨⟩
    | tup c => simp only [set]; constructor <;> rintro ⟨⟩
  | arr l =>
    intro p _ _
    cases p with
    | const c => simp only [set]; constructor
                 · intro h; exact .const _ _ (by by_contra h'; simp [h'] at h)
                 · rintro ⟨⟩; simp_all
    | array cells => simp only [set, setArray]; constructor
                     · intro h; split at h
                       · exact .array _ _ (by assumption)
                       · cases h
                     · rintro ⟨⟩; simp_all
    | scalar x => simp only [set, setScalar]; constructor <;> rintro ⟨⟩
    | dict c => simp only [set]; constructor <;> rintro ⟨⟩
    | tup c => simp only [set]; constructor <;> rintro ⟨⟩
  | tup l ih =>
    intro p hv hp
    cases p with
    | const c => simp only [set]; constructor
                 · intro h; exact .const _ _ (by by_contra h'; simp [h'] at h)
                 · rintro ⟨⟩; simp_all
    | array cells =>
      simp only [set, setArray]; constructor
      · intro h
        split at h
        · rename_i ys hy
          rw [atoms_eq] at hy; subst hy
          split at h
          · exact .cast _ _ (by assumption)
          · cases h
        · cases h
      · intro h
        generalize hl : Val.tup l = w at h
        cases h with
        | cast ys _ hlen =>
          injection hl with hl
          rw [atoms_eq.2 hl]; simp [hlen]
        | array => cases hl
    | scalar x => simp only [set, setScalar]; constructor <;> rintro ⟨⟩
    | dict c => simp only [set]; constructor <;> rintro ⟨⟩
    | tup c =>
      simp only [set]
      cases hv with | tup _ hv =>
      cases hp with | tup _ hp =>
      split
      · rename_i hlen
        simp only []
        rw [setT_none text l c hlen]
        constructor
        · intro h
          exact .tup _ _ hlen fun i a b => (ih _ (List.getElem_mem a) _ (hv _ (List.getElem_mem a)) (hp _ (List.getElem_mem b))).1 (h i a b)
        · rintro ⟨⟩
          rename_i h1 h2
          intro i a b
          exact (ih _ (List.getElem_mem a) _ (hv _ (List.getElem_mem a)) (hp _ (List.getElem_mem b))).2 (h2 i a b)
      · rename_i hlen
        constructor
        · intro h; cases h
        · rintro ⟨⟩; contradiction
  | dict l ih =>
    intro p hv hp
    cases p with
    | const c => simp only [set]; constructor
                 · intro h; exact .const _ _ (by by_contra h'; simp [h'] at h)
                 · rintro ⟨⟩; simp_all
    | array cells => simp only [set, setArray]; constructor <;> rintro ⟨⟩
    | scalar x => simp only [set, setScalar]; constructor <;> rintro ⟨⟩
    | tup c => simp only [set]; constructor <;> rintro ⟨⟩
    | dict c =>
      simp only [set]
      cases hv with | dict _ nv hv =>
      cases hp with | dict _ np hp =>
      split
      · rename_i hk
        rw [sameKeys_iff] at hk
        simp only []
        rw [setD_none text l c np nv]
        constructor
        · intro h
          refine .dict _ _ hk fun k v p h1 h2 => ?_
          obtain ⟨p', hp', h0⟩ := h k v h1
          rw [find_mem np] at hp'
          have : p = p' := by
            have a := (find_mem np).2 h2; have b := (find_mem np).2 hp'
            rw [a] at b; exact Option.some.inj b
          subst this
          exact (ih _ h1 _ (hv _ _ h1) (hp _ _ h2)).1 h0
        · rintro ⟨⟩
          rename_i h1 h2
          intro k v hm
          obtain ⟨p, hf⟩ := find_isSome c k ((hk k).1 (List.mem_map.2 ⟨_, hm, rfl⟩))
          have hmem := (find_mem np).1 hf
          exact ⟨p, hf, (ih _ hm _ (hv _ _ hm) (hp _ _ hmem)).2 (h2 _ _ _ hm hmem)⟩
      · rename_i hk
        rw [sameKeys_iff] at hk
        constructor
        · intro h; cases h
        · rintro ⟨⟩; contradiction

theorem pyEqT_iff (a b : List (Val K)) : pyEqT a b = true ↔ a.length = b.length ∧ ∀ i (ha : i < a.length) (hb : i < b.length), pyEq a[i] b[i] = true := by
  induction a generalizing b with
  | nil => cases b <;> simp [pyEqT]
  | cons x xs ih =>
    cases b with
    | nil => simp [pyEqT]
    | cons y ys =>
      simp only [pyEqT, Bool.and_eq_true, ih, List.length_cons, Nat.add_right_cancel_iff]
      constructor
      · rintro ⟨h1, h2, h3⟩
        refine ⟨h2, fun i ha hb => ?_⟩
        cases i with
        | zero => exact h1
        | succ j => exact h3 j (by simpa using ha) (by simpa using hb)
      · rintro ⟨h1, h2⟩
        exact ⟨h2 0 (by simp) (by simp), h1, fun i ha hb => h2 (i + 1) (by simpa using ha) (by simpa using hb)⟩

theorem pyEqD_iff (a b : List (K × Val K)) : pyEqD a b = true ↔ ∀ k v, (k, v) ∈ a → ∃ w, (k, w) ∈ b ∧ pyEq v w = true := by
  induction a with
  | nil => simp [pyEqD]
  | cons e rest ih =>
    obtain ⟨k, v⟩ := e
    simp only [pyEqD, Bool.and_eq_true, ih, List.any_eq_true, decide_eq_true_eq]
    constructor
    · rintro ⟨⟨⟨k', w⟩, h1, rfl, h2⟩, h3⟩ k'' v' hm
      rcases List.mem_cons.1 hm with h | h
      · cases h; exact ⟨w, h1, h2⟩
      · exact h3 _ _ h
    · intro h
      obtain ⟨w, h1, h2⟩ := h k v (by simp)
      exact ⟨⟨_, h1, rfl, h2⟩, fun k' v' hm => h k' v' (by simp [hm])⟩

theorem pyEq_refl (v : Val K) : pyEq v v = true := by
  induction v using Val.ind with
  | atom a => simp [pyEq]
  | arr l => simp [pyEq]
  | tup l ih => rw [pyEq, pyEqT_iff]; exact ⟨rfl, fun i ha _ => ih _ (List.getElem_mem ha)⟩
  | dict l ih =>
    simp only [pyEq, decide_true, Bool.true_and, pyEqD_iff]
    exact fun k v h => ⟨v, h, ih _ h⟩

theorem key_unique {B : Type} {l : List (K × B)} (h : (l.map (·.1)).Nodup) {k : K} {x y : B} (hx : (k, x) ∈ l) (hy : (k, y) ∈ l) : x = y := by
  have := List.inj_on_of_nodup_map h hx hy rfl
  exact congrArg Prod.snd this

/-- Python's equality only holds between values that are the same up to the order of dictionaries. -/
theorem pyEq_same (v : Val K) : ∀ c, ValOK v → ValOK c → pyEq v c = true → Same c v := by
  induction v using Val.ind with
  | atom a => intro c _ _ h; cases c <;> simp [pyEq] at h; subst h; exact .atom _
  | arr l => intro c _ _ h; cases c <;> simp [pyEq] at h; subst h; exact .arr _
  | tup l ih =>
    intro c hv hc h
    cases c with
    | tup m =>
      simp only [pyEq, pyEqT_iff] at h
      cases hv with | tup _ hv =>
      cases hc with | tup _ hc =>
      exact .tup _ _ h.1.symm fun i a b => ih _ (List.getElem_mem b) _ (hv _ (List.getElem_mem b)) (hc _ (List.getElem_mem a)) (h.2 i b a)
    | _ => simp [pyEq] at h
  | dict l ih =>
    intro c hv hc h
    cases c with
    | dict m =>
      simp only [pyEq, Bool.and_eq_true, decide_eq_true_eq, pyEqD_iff] at h
      cases hv with | dict _ nv hv =>
      cases hc with | dict _ nc hc =>
      have hsub : l.map (·.1) ⊆ m.map (·.1) := by
        intro k hk
        obtain ⟨⟨k', v⟩, hm, rfl⟩ := List.mem_map.1 hk
        obtain ⟨w, hw, _⟩ := h.2 _ _ hm
        exact List.mem_map.2 ⟨_, hw, rfl⟩
      have hperm : (l.map (·.1)).Perm (m.map (·.1)) := (List.subperm_of_subset nv hsub).perm_of_length_le (by simp [h.1])
      refine .dict _ _ h.1.symm (fun k => (hperm.mem_iff).symm) fun k x y hx hy => ?_
      obtain ⟨w, hw, he⟩ := h.2 _ _ hy
      obtain rfl := key_unique nc hx hw
      exact ih _ hy _ (hv _ _ hy) (hc _ _ hx) he
    | _ => simp [pyEq] at h

theorem const_clean {c v : Val K} (hv : ∀ l, v ≠ .arr l) (hc : ∀ l, c ≠ .arr l) : constAccepts c v = pyEq v c := by
  unfold constAccepts
  split <;> first | (exact absurd rfl (hv _)) | (exact absurd rfl (hc _)) | rfl

theorem asarray_nums (text : Rat → List Char) {l : List Atom} (h : ∀ s, Atom.str s ∉ l) : asarray text l = l := by
  unfold asarray
  have : l.any isStr = false := by
    rw [List.any_eq_false]
    intro a ha
    cases a with
    | str s => exact absurd ha (h s)
    | _ => simp [isStr]
  simp [this]

/-- Entries of the content after an accepted assignment of a dictionary. -/
theorem setD_ok (text : Rat → List Char) (items : List (K × Val K)) (c : List (K × P K)) (hc : (c.map (·.1)).Nodup) (hi : (items.map (·.1)).Nodup)
    (hok : (setD text items c).2 = none) {k : K} {q : P K} {y : Val K} (hq : (k, q) ∈ (setD text items c).1) (hy : (k, y) ∈ items) :
    ∃ p, (k, p) ∈ c ∧ q = (set text y p).1 ∧ (set text y p).2 = none := by
  obtain ⟨i, hl, he⟩ := List.mem_iff_getElem.1 hq
  have hl' : i < c.length := by rw [setD_length] at hl; exact hl
  have hkey : c[i].1 = k := by
    have := setD_keys text items c
    have h2 : ((setD text items c).1.map (·.1))[i]'(by simpa using hl) = (c.map (·.1))[i]'(by simpa using hl') := by simp only [this]
    simpa [he] using h2.symm
  have hmem : (k, c[i].2) ∈ c := by rw [← hkey]; exact List.getElem_mem hl'
  rcases setD_entry text items c hc hi i hl' hl with ⟨_, h2⟩ | ⟨w, hw, h1, h2⟩
  · exact absurd (List.mem_map.2 ⟨_, hy, hkey.symm⟩) (h2 hok)
  · rw [hkey] at hw
    obtain rfl := key_unique hi hw hy
    rw [he] at h1
    exact ⟨_, hmem, h1, h2 hok⟩

/-- What is assigned without exception is read back, where no array meets a constant and no text is in a tuple given to an array. -/
theorem read_back_partial (text : Rat → List Char) (v : Val K) :
    ∀ p : P K, ValOK v → POK p → Clean v p → (set text v p).2 = none → Same (get (set text v p).1) v := by
  induction v using Val.ind with
  | atom a =>
    intro p hv hp hcl h
    cases hcl with
    | const _ c h1 h2 =>
      simp only [set] at h
      have : constAccepts c (.atom a) = true := by by_contra h'; simp [h'] at h
      rw [const_clean h1 h2] at this
      cases hp with | const _ hp =>
      exact pyEq_same _ _ hv hp this
    | array => simp [set, setArray] at h
    | scalar => cases a <;> simp [set, setScalar] at h; simp only [set, setScalar, get]; exact .atom _
    | dict => simp [set] at h
    | tup => simp [set] at h
  | arr l =>
    intro p hv hp hcl h
    cases hcl with
    | const _ c h1 h2 => exact absurd rfl (h1 l)
    | array _ cells =>
      simp only [set, setArray] at h ⊢
      split at h
      · rename_i hlen
        rw [if_pos hlen]; exact .arr _
      · cases h
    | scalar => simp [set, setScalar] at h
    | dict => simp [set] at h
    | tup => simp [set] at h
  | tup l ih =>
    intro p hv hp hcl h
    cases hcl with
    | const _ c h1 h2 =>
      simp only [set] at h
      have : constAccepts c (.tup l) = true := by by_contra h'; simp [h'] at h
      rw [const_clean h1 h2] at this
      cases hp with | const _ hp =>
      exact pyEq_same _ _ hv hp this
    | array _ cells hstr =>
      have hstr := hstr l rfl
      cases ha : atoms l with
      | none => simp [set, setArray, ha] at h
      | some ys =>
        rw [atoms_eq] at ha; subst ha
        simp only [set, setArray, atoms_eq.2 rfl] at h ⊢
        split at h
        · rename_i hlen
          rw [if_pos hlen]
          rw [asarray_nums text (fun s hs => hstr s (List.mem_map.2 ⟨_, hs, rfl⟩))]
          exact .cast _
        · cases h
    | scalar => simp [set, setScalar] at h
    | dict => simp [set] at h
    | tup _ c hcl =>
      cases hv with | tup _ hv =>
      cases hp with | tup _ hp =>
      simp only [set] at h ⊢
      split at h
      · rename_i hlen
        rw [if_pos hlen]
        simp only [get, getT_eq] at h ⊢
        refine .tup _ _ (by simp [setT_length, hlen]) fun i a b => ?_
        have hic : i < c.length := by omega
        rcases setT_entry text l c i hic (by simpa using a) with ⟨_, h2⟩ | ⟨_, h1, h2⟩
        · exact absurd (h2 h) (by omega)
        · rw [List.getElem_map, h1]
          exact ih _ (List.getElem_mem b) _ (hv _ (List.getElem_mem b)) (hp _ (List.getElem_mem hic)) (hcl l rfl i b hic) (h2 h)
      · cases h
  | dict l ih =>
    intro p hv hp hcl h
    cases hcl with
    | const _ c h1 h2 =>
      simp only [set] at h
      have : constAccepts c (.dict l) = true := by by_contra h'; simp [h'] at h
      rw [const_clean h1 h2] at this
      cases hp with | const _ hp =>
      exact pyEq_same _ _ hv hp this
    | array => simp [set, setArray] at h
    | scalar => simp [set, setScalar] at h
    | tup => simp [set] at h
    | dict _ c hcl =>
      cases hv with | dict _ nv hv =>
      cases hp with | dict _ np hp =>
      simp only [set] at h ⊢
      split at h
      · rename_i hk
        rw [if_pos hk]
        rw [sameKeys_iff] at hk
        simp only [get, getD_eq] at h ⊢
        have hkeys : ((setD text l c).1.map (fun e => (e.1, get e.2))).map (·.1) = c.map (·.1) := by
          rw [List.map_map]; exact setD_keys text l c
        have hperm : (c.map (·.1)).Perm (l.map (·.1)) := by
          rw [List.perm_ext_iff_of_nodup np nv]; exact fun k => (hk k).symm
        refine .dict _ _ (by have := hperm.length_eq; simpa [setD_length] using this) (fun k => by rw [hkeys]; exact (hk k).symm) fun k x y hx hy => ?_
        obtain ⟨⟨k', q⟩, hq, he⟩ := List.mem_map.1 hx
        simp only [Prod.mk.injEq] at he
        obtain ⟨rfl, rfl⟩ := he
        obtain ⟨p, hpm, rfl, hok⟩ := setD_ok text l c np nv h hq hy
        exact ih _ hy _ (hv _ _ hy) (hp _ _ hpm) (hcl l rfl _ _ _ hy hpm) hok
      · cases h

/-- The content after the loop, entry by entry. -/
theorem setD_ext (text : Rat → List Char) (items : List (K × Val K)) (c d : List (K × P K)) (hk : c.map (·.1) = d.map (·.1))
    (h : ∀ i (hc : i < (setD text items c).1.length) (hd : i < d.length), (setD text items c).1[i].2 = d[i].2) : (setD text items c).1 = d := by
  have hlen : (setD text items c).1.length = d.length := by rw [setD_length]; simpa using congrArg List.length hk
  refine List.ext_getElem hlen fun i h1 h2 => Prod.ext ?_ (h i h1 h2)
  have := (setD_keys text items c).trans hk
  have h3 : ((setD text items c).1.map (·.1))[i]'(by simpa using h1) = (d.map (·.1))[i]'(by simpa using h2) := by simp only [this]
  simpa using h3

theorem const_refl (v : Val K) : constAccepts v v = true := by
  cases v with
  | arr l => simp [constAccepts, npEqual]
  | atom a => simp [constAccepts, pyEq]
  | tup l => simp only [constAccepts]; exact pyEq_refl _
  | dict l => simp only [constAccepts]; exact pyEq_refl _

/-- Assigning the current value raises nothing and changes nothing. -/
theorem set_own (text : Rat → List Char) (p : P K) : POK p → set text (get p) p = (p, none) := by
  induction p using P.ind with
  | const v => intro _; simp only [get, set, const_refl, if_true]
  | array l => intro _; simp [get, set, setArray]
  | scalar x => intro _; simp [get, set, setScalar]
  | tup c ih =>
    intro h; cases h with | tup _ h =>
    simp only [get, set, getT_eq, List.length_map, if_true]
    have hnone : (setT text (c.map get) c).2 = none := by
      rw [setT_none _ _ _ (by simp)]
      intro i a b
      simp [ih _ (List.getElem_mem b) (h _ (List.getElem_mem b))]
    have heq : (setT text (c.map get) c).1 = c := by
      refine List.ext_getElem (setT_length _ _ _) fun i h1 h2 => ?_
      rcases setT_entry text (c.map get) c i h2 h1 with ⟨h3, _⟩ | ⟨_, h3, _⟩
      · exact h3
      · rw [h3]; simp [ih _ (List.getElem_mem h2) (h _ (List.getElem_mem h2))]
    rw [heq, hnone]
  | dict c ih =>
    intro h; cases h with | dict _ hn h =>
    have hkeys : (getD c).map (·.1) = c.map (·.1) := by rw [getD_eq, List.map_map]; rfl
    simp only [get, set, hkeys]
    rw [if_pos (by simp [sameKeys_iff])]
    have val : ∀ (i : Nat) (hi : i < c.length) v, (c[i].1, v) ∈ getD c → v = get c[i].2 := by
      intro i hi v hv
      have hn' : ((getD c).map (·.1)).Nodup := by rw [hkeys]; exact hn
      refine key_unique hn' hv ?_
      rw [getD_eq]; exact List.mem_map.2 ⟨_, List.getElem_mem hi, rfl⟩
    have hnone : (setD text (getD c) c).2 = none := by
      rw [setD_none _ _ _ hn (by rw [hkeys]; exact hn)]
      intro k v hm
      rw [getD_eq] at hm
      obtain ⟨⟨k', p⟩, hp, he⟩ := List.mem_map.1 hm
      simp only [Prod.mk.injEq] at he
      obtain ⟨rfl, rfl⟩ := he
      exact ⟨p, (find_mem hn).2 hp, by rw [ih _ hp (h _ _ hp)]⟩
    have heq : (setD text (getD c) c).1 = c := by
      refine setD_ext _ _ _ _ rfl fun i h1 h2 => ?_
      rcases setD_entry text (getD c) c hn (by rw [hkeys]; exact hn) i h2 h1 with ⟨h3, _⟩ | ⟨v, hv, h3, _⟩
      · exact h3
      · rw [h3, val i h2 v hv, ih _ (List.getElem_mem h2) (h _ _ (List.getElem_mem h2))]
    rw [heq, hnone]

theorem asarray_length (text : Rat → List Char) (l : List Atom) : (asarray text l).length = l.length := by
  unfold asarray; split <;> simp

theorem sibling_refl (p : P K) : Sibling p p := by
  induction p using P.ind with
  | const v => exact .const _
  | array l => exact .array _ _ rfl
  | scalar x => exact .scalar _ _
  | dict c ih => exact .dict _ _ rfl fun i a _ => ih _ (List.getElem_mem a)
  | tup c ih => exact .tup _ _ rfl fun i a _ => ih _ (List.getElem_mem a)

/-- Whether or not an assignment raises, every entry holds what it held or what the value assigns to it. -/
theorem rejected_mixture_partial (text : Rat → List Char) (v : Val K) : ∀ p : P K, ValOK v → POK p → Mixed text v p (set text v p).1 := by
  induction v using Val.ind with
  | atom a =>
    intro p _ _
    cases p with
    | scalar x => cases a <;> simp only [set, setScalar] <;> first | exact .scalar _ _ | exact .keep _ _
    | _ => simp only [set, setArray]; exact .keep _ _
  | arr l =>
    intro p _ _
    cases p with
    | array cells => simp only [set, setArray]; split
                     · exact .array _ _
                     · exact .keep _ _
    | _ => simp only [set, setScalar]; exact .keep _ _
  | tup l ih =>
    intro p hv hp
    cases p with
    | array cells =>
      simp only [set, setArray]; split
      · rename_i ys hy
        rw [atoms_eq] at hy; subst hy
        split
        · exact .cast _ _
        · exact .keep _ _
      · exact .keep _ _
    | tup c =>
      cases hv with | tup _ hv =>
      cases hp with | tup _ hp =>
      simp only [set]; split
      · rename_i hlen
        refine .tup _ _ _ (setT_length _ _ _).symm hlen fun i a b d => ?_
        rcases setT_entry text l c i b d with ⟨h1, _⟩ | ⟨_, h1, _⟩
        · simp only [h1]; exact .keep _ _
        · simp only [h1]; exact ih _ (List.getElem_mem a) _ (hv _ (List.getElem_mem a)) (hp _ (List.getElem_mem b))
      · exact .keep _ _
    | _ => simp only [set, setScalar]; exact .keep _ _
  | dict l ih =>
    intro p hv hp
    cases p with
    | dict c =>
      cases hv with | dict _ nv hv =>
      cases hp with | dict _ np hp =>
      simp only [set]; split
      · rename_i hk
        rw [sameKeys_iff] at hk
        refine .dict _ _ _ (setD_keys _ _ _).symm hk fun i b d v hm => ?_
        rcases setD_entry text l c np nv i b d with ⟨h1, _⟩ | ⟨w, hw, h1, _⟩
        · simp only [h1]; exact .keep _ _
        · obtain rfl := key_unique nv hw hm
          simp only [h1]; exact ih _ hm _ (hv _ _ hm) (hp _ _ (List.getElem_mem b))
      · exact .keep _ _
    | _ => simp only [set, setArray, setScalar]; exact .keep _ _

/-- Whether or not an assignment raises, the structure, the keys, the sizes and the constants stay. -/
theorem set_sibling (text : Rat → List Char) (v : Val K) : ∀ p : P K, ValOK v → POK p → Sibling p (set text v p).1 := by
  induction v using Val.ind with
  | atom a =>
    intro p _ _
    cases p with
    | scalar x => simp only [set]; exact .scalar _ _
    | _ => simp only [set, setArray]; exact sibling_refl _
  | arr l =>
    intro p _ _
    cases p with
    | array cells => simp only [set, setArray]; split
                     · rename_i h; exact .array _ _ h.symm
                     · exact sibling_refl _
    | _ => simp only [set, setScalar]; exact sibling_refl _
  | tup l ih =>
    intro p hv hp
    cases p with
    | array cells =>
      simp only [set, setArray]; split
      · split
        · rename_i h; exact .array _ _ (by rw [asarray_length]; exact h.symm)
        · exact sibling_refl _
      · exact sibling_refl _
    | tup c =>
      cases hv with | tup _ hv =>
      cases hp with | tup _ hp =>
      simp only [set]; split
      · refine .tup _ _ (setT_length _ _ _).symm fun i b d => ?_
        rcases setT_entry text l c i b d with ⟨h1, _⟩ | ⟨a, h1, _⟩
        · simp only [h1]; exact sibling_refl _
        · simp only [h1]; exact ih _ (List.getElem_mem a) _ (hv _ (List.getElem_mem a)) (hp _ (List.getElem_mem b))
      · exact sibling_refl _
    | _ => simp only [set, setScalar]; exact sibling_refl _
  | dict l ih =>
    intro p hv hp
    cases p with
    | dict c =>
      cases hv with | dict _ nv hv =>
      cases hp with | dict _ np hp =>
      simp only [set]; split
      · refine .dict _ _ (setD_keys _ _ _).symm fun i b d => ?_
        rcases setD_entry text l c np nv i b d with ⟨h1, _⟩ | ⟨w, hw, h1, _⟩
        · simp only [h1]; exact sibling_refl _
        · simp only [h1]; exact ih _ hw _ (hv _ _ hw) (hp _ _ (List.getElem_mem b))
      · exact sibling_refl _
    | _ => simp only [set, setArray, setScalar]; exact sibling_refl _

/-- A dictionary with other keys, or something else than a dictionary, is refused by a `Dict` before anything is assigned. -/
theorem dict_refused (text : Rat → List Char) (v : Val K) (c : List (K × P K)) :
    ((∀ l, v ≠ .dict l) → set text v (.dict c) = (.dict c, some .typeError)) ∧
    (∀ l, v = .dict l → ¬ (∀ k, k ∈ l.map (·.1) ↔ k ∈ c.map (·.1)) → set text v (.dict c) = (.dict c, some .valueError)) := by
  constructor
  · intro h
    cases v with
    | dict l => exact absurd rfl (h l)
    | _ => simp [set]
  · rintro l rfl h
    rw [← sameKeys_iff] at h
    simp [set, h]

/-- A tuple of another size, or something else than a tuple, is refused by a `Tuple` before anything is assigned. -/
theorem tuple_refused (text : Rat → List Char) (v : Val K) (c : List (P K)) (h : ∀ l, v = .tup l → l.length ≠ c.length) :
    set text v (.tup c) = (.tup c, some .valueError) := by
  cases v with
  | tup l => simp [set, h l rfl]
  | _ => simp [set]

/-- Constants, arrays and scalars are left as they were by a refused assignment. -/
theorem leaf_refused (text : Rat → List Char) (v : Val K) (p : P K) (hp : (∀ c, p ≠ .dict c) ∧ ∀ c, p ≠ .tup c) (h : (set text v p).2 ≠ none) :
    (set text v p).1 = p := by
  cases p with
  | const c => simp [set]
  | array cells =>
    simp only [set, setArray] at h ⊢
    cases v with
    | arr ys => simp only at h ⊢; split <;> simp_all
    | tup l => simp only at h ⊢; split <;> (try split) <;> simp_all
    | _ => rfl
  | scalar x =>
    simp only [set, setScalar] at h ⊢
    split <;> simp_all
  | dict c => exact absurd rfl (hp.1 c)
  | tup c => exact absurd rfl (hp.2 c)

/-! ## Arguments -/

/-- The function is called with the values of the parameters given to `Instrumentation`, under the same positions and names. -/
theorem instrumentation_args (a : List (P K)) (kw : List (K × P K)) :
    args true (instrumentation a kw) = a.map get ∧ kwargs true (instrumentation a kw) = kw.map (fun e => (e.1, get e.2)) := by
  simp [args, kwargs, instrumentation, get, getT, getT_eq, getD_eq]

/-- The function is called with the value of another parameter as its only argument. -/
theorem plain_args (p : P K) : args false p = [get p] ∧ kwargs false p = [] := by simp [args, kwargs]

/-- After an accepted assignment to an instrumentation, the function is called with what was assigned. -/
theorem instrumentation_assigned_partial (text : Rat → List Char) (a : List (P K)) (kw : List (K × P K)) (va : List (Val K)) (vk : List (K × Val K))
    (hv : ValOK (.tup [.tup va, .dict vk])) (hp : POK (instrumentation a kw)) (hc : Clean (.tup [.tup va, .dict vk]) (instrumentation a kw))
    (h : (set text (.tup [.tup va, .dict vk]) (instrumentation a kw)).2 = none) :
    Same (.tup (args true (set text (.tup [.tup va, .dict vk]) (instrumentation a kw)).1)) (.tup va) ∧
    Same (.dict (kwargs true (set text (.tup [.tup va, .dict vk]) (instrumentation a kw)).1)) (.dict vk) := by
  have hs := set_sibling text _ _ hv hp
  have hr := read_back_partial text _ _ hv hp hc h
  generalize (set text (.tup [.tup va, .dict vk]) (instrumentation a kw)).1 = q at hs hr
  unfold instrumentation at hs
  generalize hx : ([.tup a, .dict kw] : List (P K)) = x at hs
  cases hs with
  | tup _ b len each =>
    subst hx
    match b, len with
    | [b0, b1], _ =>
      have e0 := each 0 (by simp) (by simp)
      have e1 := each 1 (by simp) (by simp)
      simp only [List.getElem_cons_zero] at e0
      simp only [List.getElem_cons_succ, List.getElem_cons_zero] at e1
      cases e0 with
      | tup _ b0 =>
        cases e1 with
        | dict _ b1 =>
          simp only [get, getT] at hr
          simp only [args, kwargs, get, getT, if_true]
          cases hr with
          | tup _ _ _ hr =>
            exact ⟨hr 0 (by simp) (by simp), hr 1 (by simp) (by simp)⟩

/-! ## Hashes -/

theorem sort_inj {L B : Type} [LinearOrder L] (l m : List (L × B)) (hk : l.map (·.1) = m.map (·.1)) (hn : (l.map (·.1)).Nodup) (h : sortD l = sortD m) : l = m := by
  have hp : l.Perm m := ((List.perm_insertionSort _ l).symm.trans (by unfold sortD at h; rw [h])).trans (List.perm_insertionSort _ m)
  have hlen : l.length = m.length := by simpa using congrArg List.length hk
  have hn' : (m.map (·.1)).Nodup := hk ▸ hn
  refine List.ext_getElem hlen fun i h1 h2 => ?_
  have hm : l[i] ∈ m := hp.mem_iff.1 (List.getElem_mem h1)
  have key : l[i].1 = m[i].1 := by
    have h3 : (l.map (·.1))[i]'(by simpa using h1) = (m.map (·.1))[i]'(by simpa using h2) := by simp only [hk]
    simpa using h3
  exact List.inj_on_of_nodup_map hn' hm (List.getElem_mem h2) key

theorem hashD_eq (c : List (K × P K)) : hashD c = c.map (fun e => (e.1, hash e.2)) := by
  induction c with
  | nil => rfl
  | cons e rest ih => obtain ⟨k, p⟩ := e; simp [hashD, ih]

theorem hashT_eq (n : Nat) (c : List (P K)) : hashT n c = (c.zipIdx n).map (fun e => (e.2, hash e.1)) := by
  induction c generalizing n with
  | nil => rfl
  | cons e rest ih => simp [hashT, ih]

/-- Two parameters of one family (the same structure and constants) have the same hash iff they have the same value. -/
theorem hash_iff (p q : P K) (h : Sibling p q) : POK p → (hash p = hash q ↔ get p = get q) := by
  induction h with
  | const v => intro _; simp
  | array a b h => intro _; simp [hash, get]
  | scalar x y => intro _; simp [hash, get]
  | dict a b keys each ih =>
    intro hp; cases hp with | dict _ hn hp =>
    have hlen : a.length = b.length := by simpa using congrArg List.length keys
    have key : ∀ i (ha : i < a.length) (hb : i < b.length), a[i].1 = b[i].1 := by
      intro i ha hb
      have h3 : (a.map (·.1))[i]'(by simpa using ha) = (b.map (·.1))[i]'(by simpa using hb) := by simp only [keys]
      simpa using h3
    simp only [hash, get, Hash.items.injEq, Val.dict.injEq, getD_eq, hashD_eq]
    constructor
    · intro h
      have := sort_inj _ _ (by simpa [Function.comp_def] using keys) (by simpa [Function.comp_def] using hn) h
      refine List.ext_getElem (by simpa using hlen) fun i h1 h2 => ?_
      have ha : i < a.length := by simpa using h1
      have hb : i < b.length := by simpa using h2
      have h3 : (a.map (fun e => (e.1, hash e.2)))[i]'(by simpa using ha) = (b.map (fun e => (e.1, hash e.2)))[i]'(by simpa using hb) := by simp only [this]
      simp only [List.getElem_map, Prod.mk.injEq] at h3 ⊢
      exact ⟨h3.1, (ih i ha hb (hp _ _ (List.getElem_mem ha))).1 h3.2⟩
    · intro h
      have : a.map (fun e => (e.1, hash e.2)) = b.map (fun e => (e.1, hash e.2)) := by
        refine List.ext_getElem (by simpa using hlen) fun i h1 h2 => ?_
        have ha : i < a.length := by simpa using h1
        have hb : i < b.length := by simpa using h2
        have h3 : (a.map (fun e => (e.1, get e.2)))[i]'(by simpa using ha) = (b.map (fun e => (e.1, get e.2)))[i]'(by simpa using hb) := by simp only [h]
        simp only [List.getElem_map, Prod.mk.injEq] at h3 ⊢
        exact ⟨h3.1, (ih i ha hb (hp _ _ (List.getElem_mem ha))).2 h3.2⟩
      rw [this]
  | tup a b hlen each ih =>
    intro hp; cases hp with | tup _ hp =>
    simp only [hash, get, Hash.entries.injEq, Val.tup.injEq, getT_eq, hashT_eq]
    have idx : ∀ c : List (P K), (c.zipIdx.map (fun e => (e.2, hash e.1))).map (·.1) = List.range c.length := by
      intro c
      rw [List.map_map]
      simp [Function.comp_def, List.range_eq_range']
    constructor
    · intro h
      have := sort_inj _ _ (by rw [idx, idx, hlen]) (by rw [idx]; exact List.nodup_range) h
      refine List.ext_getElem (by simpa using hlen) fun i h1 h2 => ?_
      have ha : i < a.length := by simpa using h1
      have hb : i < b.length := by simpa using h2
      have h3 : (a.zipIdx.map (fun e => (e.2, hash e.1)))[i]'(by simpa using ha) = (b.zipIdx.map (fun e => (e.2, hash e.1)))[i]'(by simpa using hb) := by simp only [this]
      simp only [List.getElem_map, List.getElem_zipIdx, Prod.mk.injEq] at h3 ⊢
      exact (ih i ha hb (hp _ (List.getElem_mem ha))).1 h3.2
    · intro h
      have : a.map hash = b.map hash := by
        refine List.ext_getElem (by simpa using hlen) fun i h1 h2 => ?_
        have ha : i < a.length := by simpa using h1
        have hb : i < b.length := by simpa using h2
        have h3 : (a.map get)[i]'(by simpa using ha) = (b.map get)[i]'(by simpa using hb) := by simp only [h]
        simp only [List.getElem_map] at h3 ⊢
        exact (ih i ha hb (hp _ (List.getElem_mem ha))).2 h3
      have h2 : a.zipIdx.map (fun e => (e.2, hash e.1)) = b.zipIdx.map (fun e => (e.2, hash e.1)) := by
        refine List.ext_getElem (by simpa using hlen) fun i h1 h2 => ?_
        have ha : i < a.length := by simpa using h1
        have hb : i < b.length := by simpa using h2
        have h3 : (a.map hash)[i]'(by simpa using ha) = (b.map hash)[i]'(by simpa using hb) := by simp only [this]
        simp only [List.getElem_map, List.getElem_zipIdx, Prod.mk.injEq] at h3 ⊢
        exact ⟨trivial, h3⟩
      rw [h2]

/-- Assigning to copies of a parameter: equal hashes exactly when the values read are equal, also when an assignment was refused. -/
theorem hash_assigned (text : Rat → List Char) (p : P K) (v : Val K) (hp : POK p) (hv : ValOK v) :
    hash (set text v p).1 = hash p ↔ get (set text v p).1 = get p := by
  have := hash_iff p (set text v p).1 (set_sibling text v p hv hp) hp
  rw [eq_comm, this, eq_comm]

/-! ## What the code does not ensure -/

/-- A refused assignment to a tuple may have changed its first entries. -/
theorem refused_alters (text : Rat → List Char) :
    ∃ (p q : P Nat) (v : Val Nat), set text v p = (q, some .valueError) ∧ get p ≠ get q :=
  ⟨.tup [.scalar 0, .const (.atom (.str ['a']))], .tup [.scalar 1, .const (.atom (.str ['a']))], .tup [.atom (.num 1), .atom (.str ['b'])],
    by simp [set, setT, setScalar, constAccepts, pyEq], by simp [get, getT]⟩

/-- Every constant which is no array or tuple accepts the empty array, and keeps its value. -/
theorem constant_accepts_empty (text : Rat → List Char) (a : Atom) : set text (.arr []) (.const (.atom a) : P K) = (.const (.atom a), none) := by
  simp [set, constAccepts]

/-- A constant accepts an array repeating it. -/
theorem constant_accepts_repeated (text : Rat → List Char) (a : Atom) (n : Nat) :
    set text (.arr (List.replicate n a)) (.const (.atom a) : P K) = (.const (.atom a), none) := by
  simp [set, constAccepts]

/-- Arrays accept texts. -/
theorem array_accepts_text (text : Rat → List Char) (s : List Char) (x : Atom) :
    set text (.arr [.str s]) (.array [x] : P K) = (.array [.str s], none) := by
  simp [set, setArray]

/-- A number given with a text in a tuple comes back as a text. -/
theorem array_mixed (text : Rat → List Char) (q : Rat) (s : List Char) (x y : Atom) :
    get (set text (.tup [.atom (.num q), .atom (.str s)]) (.array [x, y] : P K)).1 = .arr [.str (text q), .str s] := by
  simp [set, setArray, atoms, asarray, isStr, get]

/-! ## Examples -/

/-- `Dict(x=Scalar(), y=Tuple(Array(shape=(2,)), "a"))` -/
def exP : P Nat := .dict [(0, .scalar 1), (1, .tup [.array [.num 2, .num 3], .const (.atom (.str ['a']))])]

/-- The entries given in another order, the array as a tuple. -/
def exV : Val Nat := .dict [(1, .tup [.tup [.atom (.num 5), .atom (.num 6)], .atom (.str ['a'])]), (0, .atom (.num 4))]

example : POK exP := by
  refine .dict _ (by decide) ?_
  intro k p h
  simp at h
  rcases h with ⟨_, rfl⟩ | ⟨_, rfl⟩
  · exact .scalar _
  · refine .tup _ ?_
    intro p h; simp at h
    rcases h with rfl | rfl
    · exact .array _
    · exact .const _ (.atom _)

example : set (fun _ => []) exV exP = (.dict [(0, .scalar 4), (1, .tup [.array [.num 5, .num 6], .const (.atom (.str ['a']))])], none) := by
  simp [exV, exP, set, setD, setT, setScalar, setArray, atoms, find, put, sameKeys, asarray, isStr, constAccepts, pyEq]

example : get exP = .dict [(0, .atom (.num 1)), (1, .tup [.arr [.num 2, .num 3], .atom (.str ['a'])])] := by simp [exP, get, getD, getT]

example : ¬ Fits (.dict [(0, .atom (.num 1))]) exP := by
  intro h; cases h with | dict _ _ keys _ => exact absurd (keys 1) (by simp)

example : hash (.dict [(1, .scalar 2), (0, .array [.num 3])] : P Nat) = .items [(0, .bytes [.num 3]), (1, .atom (.num 2))] := by
  simp [hash, hashD, sortD, List.insertionSort]

example : args true (instrumentation [.scalar 1, .scalar 2] [(7, .const (.atom .nothing))] : P Nat) = [.atom (.num 1), .atom (.num 2)] := by
  simp [args, instrumentation, get, getT]

end Values
end NG
