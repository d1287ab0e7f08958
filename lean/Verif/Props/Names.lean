import Verif.Model.Names
import Mathlib.Data.Nat.Digits.Lemmas

/-!
# C145: the names of parametrizations tell how they are made
-/

namespace NG
namespace Names

/-! ### Texts with brackets -/

/-- An opening bracket. -/
def opens (c : Char) : Bool := c == '(' || c == '[' || c == '{'

/-- A closing bracket. -/
def closes (c : Char) : Bool := c == ')' || c == ']' || c == '}'

/-- A character with a meaning in names. -/
def special (c : Char) : Bool := opens c || closes c || c == ','

/-- The depth of brackets after a text; `none` if a bracket is closed that was not opened or, if they are not allowed, if there is a comma outside of brackets. -/
def depth (commas : Bool) : Nat → Str → Option Nat
  | d, [] => some d
  | d, c :: s =>
    if opens c then depth commas (d + 1) s
    else if closes c then (if d = 0 then none else depth commas (d - 1) s)
    else if c = ',' ∧ d = 0 ∧ commas = false then none
    else depth commas d s

/-- Brackets are closed, and no comma is outside of them. -/
def Flat (s : Str) : Prop := depth false 0 s = some 0

instance (s : Str) : Decidable (Flat s) := inferInstanceAs (Decidable (depth false 0 s = some 0))

theorem depth_append (k : Bool) (a b : Str) : ∀ d, depth k d (a ++ b) = (depth k d a).bind fun e => depth k e b := by
  induction a with
  | nil => intro d; simp [depth]
  | cons c a ih =>
    intro d
    simp only [List.cons_append, depth]
    split
    · exact ih _
    · split
      · split
        · rfl
        · exact ih _
      · split
        · rfl
        · exact ih _

theorem depth_shift (k : Bool) (m : Nat) (hm : 0 < m) (s : Str) : ∀ d e, depth true d s = some e → depth k (d + m) s = some (e + m) := by
  induction s with
  | nil => intro d e h; simp only [depth, Option.some.injEq] at h ⊢; omega
  | cons c s ih =>
    intro d e h
    simp only [depth] at h ⊢
    split
    · rename_i ho
      rw [if_pos ho] at h
      have := ih _ _ h
      rw [show d + m + 1 = d + 1 + m by omega]
      exact this
    · rename_i ho
      rw [if_neg ho] at h
      split
      · rename_i hc
        rw [if_pos hc] at h
        split at h
        · cases h
        · rw [if_neg (by omega), show d + m - 1 = d - 1 + m by omega]
          exact ih _ _ h
      · rename_i hc
        rw [if_neg hc] at h
        rw [if_neg (by rintro ⟨-, h0, -⟩; omega)]
        rw [if_neg (by rintro ⟨-, -, h0⟩; cases h0)] at h
        exact ih _ _ h

theorem depth_commas (s : Str) : ∀ d e, depth false d s = some e → depth true d s = some e := by
  induction s with
  | nil => intro d e h; exact h
  | cons c s ih =>
    intro d e h
    simp only [depth] at h ⊢
    split
    · rename_i ho
      rw [if_pos ho] at h
      exact ih _ _ h
    · rename_i ho
      rw [if_neg ho] at h
      split
      · rename_i hc
        rw [if_pos hc] at h
        split at h
        · cases h
        · rename_i hd
          rw [if_neg hd]
          exact ih _ _ h
      · rename_i hc
        rw [if_neg hc] at h
        rw [if_neg (by rintro ⟨-, -, h0⟩; cases h0)]
        split at h
        · cases h
        · exact ih _ _ h

theorem depth_plain (k : Bool) (s : Str) (h : ∀ c ∈ s, special c = false) : ∀ d, depth k d s = some d := by
  induction s with
  | nil => intro d; rfl
  | cons c s ih =>
    intro d
    have hc := h c (by simp)
    simp only [special, Bool.or_eq_false_iff, beq_eq_false_iff_ne] at hc
    simp only [depth]
    rw [if_neg (by simp [hc.1.1]), if_neg (by simp [hc.1.2]), if_neg (by rintro ⟨h0, -⟩; exact hc.2 h0)]
    exact ih (fun c hc => h c (by simp [hc])) d

theorem flat_plain (s : Str) (h : ∀ c ∈ s, special c = false) : Flat s := depth_plain false s h 0

theorem flat_append (a b : Str) (ha : Flat a) (hb : Flat b) : Flat (a ++ b) := by
  unfold Flat at *
  rw [depth_append, ha]
  exact hb

/-- A text in brackets. -/
theorem flat_bracket (o c : Char) (ho : opens o = true) (hc : closes c = true) (s : Str) (h : depth true 0 s = some 0) : Flat (o :: s ++ [c]) := by
  have hco : opens c = false := by
    simp only [closes, Bool.or_eq_true, beq_iff_eq] at hc
    rcases hc with (rfl | rfl) | rfl <;> rfl
  have := depth_shift false 1 (by omega) s 0 0 h
  unfold Flat
  rw [depth_append]
  simp only [depth, ho, if_true]
  rw [this]
  simp [depth, hco, hc]

/-- The end of a text in brackets is found. -/
theorem close_unique (a b s t : Str) (x y : Char) (hx : closes x = true) (hy : closes y = true) (ha : depth true 0 a = some 0) (hb : depth true 0 b = some 0)
    (h : a ++ x :: s = b ++ y :: t) : a = b ∧ x :: s = y :: t := by
  have bad : ∀ (a b s : Str) (x : Char), closes x = true → depth true 0 a = some 0 → depth true 0 b = some 0 → b = a ++ x :: s → False := by
    intro a b s x hx ha hb h
    have hxo : opens x = false := by
      simp only [closes, Bool.or_eq_true, beq_iff_eq] at hx
      rcases hx with (rfl | rfl) | rfl <;> rfl
    rw [h, depth_append, ha] at hb
    simp [depth, hx, hxo] at hb
  rw [List.append_eq_append_iff] at h
  rcases h with ⟨u, h1, h2⟩ | ⟨u, h1, h2⟩
  · cases u with
    | nil => simp only [List.append_nil] at h1; exact ⟨h1.symm, by simpa using h2⟩
    | cons z u =>
      simp only [List.cons_append, List.cons.injEq] at h2
      rw [← h2.1] at h1
      exact (bad a b u x hx ha hb h1).elim
  · cases u with
    | nil => simp only [List.append_nil] at h1; exact ⟨h1, by simpa using h2.symm⟩
    | cons z u =>
      simp only [List.cons_append, List.cons.injEq] at h2
      rw [← h2.1] at h1
      exact (bad b a u y hy hb ha h1).elim

theorem comma_bad (a b s : Str) (ha : Flat a) (hb : Flat b) (h : b = a ++ ',' :: s) : False := by
  unfold Flat at *
  rw [h, depth_append, ha] at hb
  simp [depth, opens, closes] at hb

theorem comma_unique (a b s t : Str) (ha : Flat a) (hb : Flat b) (h : a ++ ',' :: s = b ++ ',' :: t) : a = b ∧ s = t := by
  rw [List.append_eq_append_iff] at h
  rcases h with ⟨u, h1, h2⟩ | ⟨u, h1, h2⟩
  · cases u with
    | nil => simp only [List.append_nil] at h1; exact ⟨h1.symm, by simpa using h2⟩
    | cons z u =>
      simp only [List.cons_append, List.cons.injEq] at h2
      rw [← h2.1] at h1
      exact (comma_bad a b u ha hb h1).elim
  · cases u with
    | nil => simp only [List.append_nil] at h1; exact ⟨h1, by simpa using h2.symm⟩
    | cons z u =>
      simp only [List.cons_append, List.cons.injEq] at h2
      rw [← h2.1] at h1
      exact (comma_bad b a u hb ha h1).elim

/-- A text up to the first character of some kind is found. -/
theorem first_unique (P : Char → Bool) (a b s t : Str) (x y : Char) (ha : ∀ c ∈ a, P c = false) (hb : ∀ c ∈ b, P c = false) (hx : P x = true) (hy : P y = true)
    (h : a ++ x :: s = b ++ y :: t) : a = b ∧ x :: s = y :: t := by
  rw [List.append_eq_append_iff] at h
  rcases h with ⟨u, h1, h2⟩ | ⟨u, h1, h2⟩
  · cases u with
    | nil => simp only [List.append_nil] at h1; exact ⟨h1.symm, by simpa using h2⟩
    | cons z u =>
      simp only [List.cons_append, List.cons.injEq] at h2
      have := hb x (by rw [h1, h2.1]; simp)
      rw [hx] at this; cases this
  · cases u with
    | nil => simp only [List.append_nil] at h1; exact ⟨h1, by simpa using h2.symm⟩
    | cons z u =>
      simp only [List.cons_append, List.cons.injEq] at h2
      have := ha y (by rw [h1, h2.1]; simp)
      rw [hy] at this; cases this

theorem join_cons (a : Str) (l : List Str) (hl : l ≠ []) : join (a :: l) = a ++ ',' :: join l := by
  cases l with
  | nil => exact absurd rfl hl
  | cons b l => rfl

theorem join_ne (l : List Str) (hl : l ≠ []) (h : ∀ a ∈ l, a ≠ []) : join l ≠ [] := by
  cases l with
  | nil => exact absurd rfl hl
  | cons a l =>
    cases l with
    | nil => exact h a (by simp)
    | cons b l => rw [join_cons _ _ (by simp)]; simp

theorem join_depth (l : List Str) (h : ∀ a ∈ l, Flat a) : depth true 0 (join l) = some 0 := by
  induction l with
  | nil => rfl
  | cons a l ih =>
    have ha := depth_commas a 0 0 (h a (by simp))
    cases l with
    | nil => exact ha
    | cons b l =>
      rw [join_cons _ _ (by simp), depth_append, ha]
      simp only [Option.bind_some, depth]
      simpa [opens, closes] using ih (fun a ha => h a (by simp [ha]))

/-- Texts without commas outside of brackets are found in the joined text. -/
theorem join_inj (l : List Str) : ∀ m : List Str, (∀ a ∈ l, Flat a ∧ a ≠ []) → (∀ a ∈ m, Flat a ∧ a ≠ []) → join l = join m → l = m := by
  induction l with
  | nil =>
    intro m _ hm h
    cases m with
    | nil => rfl
    | cons b m => exact absurd h.symm (join_ne _ (by simp) fun a ha => (hm a ha).2)
  | cons a l ih =>
    intro m hl hm h
    cases m with
    | nil => exact absurd h (join_ne _ (by simp) fun a ha => (hl a ha).2)
    | cons b m =>
      have fa := (hl a (by simp)).1
      have fb := (hm b (by simp)).1
      cases l with
      | nil =>
        cases m with
        | nil => simpa [join] using h
        | cons c m =>
          rw [join_cons b _ (by simp)] at h
          exact (comma_bad b a _ fb fa h).elim
      | cons d l =>
        rw [join_cons a _ (by simp)] at h
        cases m with
        | nil => exact (comma_bad a b _ fa fb h.symm).elim
        | cons c m =>
          rw [join_cons b _ (by simp)] at h
          obtain ⟨h1, h2⟩ := comma_unique a b _ _ fa fb h
          rw [h1, ih (c :: m) (fun a ha => hl a (by simp [ha])) (fun a ha => hm a (by simp [ha])) h2]

/-! ### Shapes -/

theorem dec_plain (n : Nat) : (∀ c ∈ dec n, special c = false) ∧ dec n ≠ [] := by
  have hd : ∀ k < 10, special (Nat.digitChar k) = false := by decide
  unfold dec
  split
  · exact ⟨by simp; rfl, by simp⟩
  · rename_i h
    constructor
    · intro c hc
      rw [List.mem_map] at hc
      obtain ⟨k, hk, rfl⟩ := hc
      exact hd k (Nat.digits_lt_base (by omega) (List.mem_reverse.1 hk))
    · simp [Nat.digits_ne_nil_iff_ne_zero, h]

theorem dec_inj (n m : Nat) (h : dec n = dec m) : n = m := by
  have hinj : ∀ a < 10, ∀ b < 10, Nat.digitChar a = Nat.digitChar b → a = b := by decide
  have h0 : ∀ n, n ≠ 0 → dec n ≠ dec 0 := by
    intro n hn e
    have : (Nat.digits 10 n).reverse.map Nat.digitChar = ['0'] := by
      have e' := e
      unfold dec at e'
      rw [if_neg hn, if_pos rfl] at e'
      exact e'
    rw [List.map_eq_singleton_iff] at this
    obtain ⟨a, ha, hc⟩ := this
    have hr : Nat.digits 10 n = [a] := by
      have := congrArg List.reverse ha
      simpa using this
    have ha0 : a = 0 := hinj a (Nat.digits_lt_base (by omega) (by rw [hr]; simp)) 0 (by omega) hc
    have := Nat.ofDigits_digits 10 n
    rw [hr, ha0] at this
    simp [Nat.ofDigits] at this
    exact hn this.symm
  by_cases hn : n = 0
  · by_cases hm : m = 0
    · rw [hn, hm]
    · rw [hn] at h
      exact absurd h.symm (h0 m hm)
  · by_cases hm : m = 0
    · rw [hm] at h
      exact absurd h (h0 n hn)
    · unfold dec at h
      rw [if_neg hn, if_neg hm] at h
      have hmap : ∀ l l' : List Nat, (∀ x ∈ l, x < 10) → (∀ x ∈ l', x < 10) → l.map Nat.digitChar = l'.map Nat.digitChar → l = l' := by
        intro l
        induction l with
        | nil => intro l' _ _ h; cases l' <;> simp_all
        | cons x l ih =>
          intro l' hl hl' h
          cases l' with
          | nil => simp at h
          | cons y l' =>
            simp only [List.map_cons, List.cons.injEq] at h
            rw [hinj x (hl x (by simp)) y (hl' y (by simp)) h.1, ih l' (fun z hz => hl z (by simp [hz])) (fun z hz => hl' z (by simp [hz])) h.2]
      have := hmap _ _ (fun x hx => Nat.digits_lt_base (by omega) (List.mem_reverse.1 hx)) (fun x hx => Nat.digits_lt_base (by omega) (List.mem_reverse.1 hx)) h
      exact Nat.digits_inj_iff.1 (List.reverse_injective this)

/-- The text of a shape between its brackets. -/
def shapeInner : List Nat → Str
  | [n] => dec n ++ [',']
  | l => join (l.map dec)

theorem shapeText_eq (l : List Nat) : shapeText l = '(' :: shapeInner l ++ [')'] := by
  match l with
  | [] => rfl
  | [n] => simp [shapeText, shapeInner]
  | a :: b :: l => rfl

theorem shapeInner_depth (l : List Nat) : depth true 0 (shapeInner l) = some 0 := by
  have h : ∀ l : List Nat, depth true 0 (join (l.map dec)) = some 0 := by
    intro l
    apply join_depth
    intro a ha
    rw [List.mem_map] at ha
    obtain ⟨n, -, rfl⟩ := ha
    exact flat_plain _ (dec_plain n).1
  match l with
  | [] => exact h []
  | [n] =>
    show depth true 0 (dec n ++ [',']) = some 0
    rw [depth_append, depth_plain true _ (dec_plain n).1]
    simp [depth, opens, closes]
  | a :: b :: l => exact h (a :: b :: l)

theorem shapeInner_inj (l m : List Nat) (h : shapeInner l = shapeInner m) : l = m := by
  have hf : ∀ l : List Nat, ∀ a ∈ l.map dec, Flat a ∧ a ≠ [] := by
    intro l a ha
    rw [List.mem_map] at ha
    obtain ⟨n, -, rfl⟩ := ha
    exact ⟨flat_plain _ (dec_plain n).1, (dec_plain n).2⟩
  have hinj : ∀ l m : List Nat, join (l.map dec) = join (m.map dec) → l = m := by
    intro l m h
    have := join_inj _ _ (hf l) (hf m) h
    exact List.map_injective_iff.2 dec_inj this
  have hone : ∀ (n : Nat) (m : List Nat), m.length ≠ 1 → dec n ++ [','] = join (m.map dec) → False := by
    intro n m hm h
    match m, hm with
    | [], _ => simp [join] at h
    | [k], hm => exact hm rfl
    | a :: b :: m, _ =>
      rw [List.map_cons, join_cons _ _ (by simp)] at h
      obtain ⟨-, h2⟩ := comma_unique (dec n) (dec a) [] _ (flat_plain _ (dec_plain n).1) (flat_plain _ (dec_plain a).1) h
      exact join_ne ((b :: m).map dec) (by simp) (fun x hx => (hf _ x hx).2) h2.symm
  match l, m, h with
  | [], [], _ => rfl
  | [], [k], h => exact (hone k [] (by simp) h.symm).elim
  | [], a :: b :: m, h => exact hinj _ _ h
  | [n], [], h => exact (hone n [] (by simp) h).elim
  | [n], [k], h =>
    have := List.append_cancel_right h
    rw [dec_inj n k this]
  | [n], a :: b :: m, h => exact (hone n _ (by simp) h).elim
  | a :: b :: l, [], h => exact hinj _ _ h
  | a :: b :: l, [k], h => exact (hone k _ (by simp) h.symm).elim
  | a :: b :: l, c :: d :: m, h => exact hinj _ _ h

theorem shapeText_inj (l m : List Nat) (h : shapeText l = shapeText m) : l = m := by
  rw [shapeText_eq, shapeText_eq] at h
  simp only [List.cons_append, List.cons.injEq, true_and] at h
  exact shapeInner_inj l m (List.append_cancel_right h)

theorem shapeText_flat (l : List Nat) : Flat (shapeText l) ∧ shapeText l ≠ [] := by
  rw [shapeText_eq]
  exact ⟨flat_bracket '(' ')' rfl rfl _ (shapeInner_depth l), by simp⟩

/-! ### The structure of a parametrization -/

/-- What a name is to tell: the text of a constant; the class, the shape, the names of the layers and the internal parameters of a `Data`; the class and the sorted items of a `Dict` or a choice; the class and the content
of a `Tuple`. -/
inductive Structure
  | const (text : Str)
  | data (cls : Str) (shape : List Nat) (layers : List Str) (params : List (Str × Structure))
  | dict (cls : Str) (content : List (Str × Structure))
  | tuple (cls : Str) (content : List Structure)

/-- The structure of a parametrization. A standard deviation of "1.0" is the default and is left out. -/
def Par.structure : Par → Structure
  | .const v => .const v.text
  | .data cls shape layers params =>
    .data cls shape (layers.filterMap Lay.name) (byKey ((params.attach.filter fun x => decide ¬(x.1.1 = "sigma".toList ∧ x.1.2.name = "1.0".toList)).map fun x => (x.1.1, x.1.2.structure)))
  | .dict cls content => .dict cls (byKey (content.attach.map fun x => (x.1.1, x.1.2.structure)))
  | .tuple cls content => .tuple cls (content.attach.map fun x => x.1.structure)
  | .named _ p => p.structure
termination_by p => sizeOf p
decreasing_by
  · have := List.sizeOf_lt_of_mem x.2
    have h2 : sizeOf x.1.2 < sizeOf x.1 := by cases x.1; simp
    simp only [Par.data.sizeOf_spec]; omega
  · have := List.sizeOf_lt_of_mem x.2
    have h2 : sizeOf x.1.2 < sizeOf x.1 := by cases x.1; simp
    simp only [Par.dict.sizeOf_spec]; omega
  · have := List.sizeOf_lt_of_mem x.2
    simp only [Par.tuple.sizeOf_spec]; omega
  · simp

theorem name_data (cls : Str) (shape : List Nat) (layers : List Lay) (params : List (Str × Par)) : (Par.data cls shape layers params).name =
    cls ++ description (descriptors shape layers) ++ paramString (items sigmaOne (params.map fun x => (x.1, x.2.name))) := by
  rw [Par.name, List.attach_map_val (f := (fun x : Str × Par => (x.1, x.2.name)))]
theorem name_dict (cls : Str) (content : List (Str × Par)) : (Par.dict cls content).name =
    cls ++ '(' :: items (fun _ _ => false) (content.map fun x => (x.1, x.2.name)) ++ [')'] := by
  rw [Par.name, List.attach_map_val (f := (fun x : Str × Par => (x.1, x.2.name)))]
theorem name_tuple (cls : Str) (content : List Par) : (Par.tuple cls content).name = cls ++ '(' :: join (content.map Par.name) ++ [')'] := by
  rw [Par.name, List.attach_map_val (f := Par.name)]
theorem structure_data (cls : Str) (shape : List Nat) (layers : List Lay) (params : List (Str × Par)) : (Par.data cls shape layers params).structure =
    .data cls shape (layers.filterMap Lay.name) (byKey ((params.filter fun x => !sigmaOne x.1 x.2.name).map fun x => (x.1, x.2.structure))) := by
  rw [Par.structure]
  have hs : ∀ k n : Str, (decide ¬(k = "sigma".toList ∧ n = "1.0".toList)) = !sigmaOne k n := by
    intro k n
    rw [Bool.eq_iff_iff]
    simp only [decide_eq_true_eq, sigmaOne, Bool.not_eq_true', Bool.and_eq_false_iff, beq_eq_false_iff_ne, not_and_or, ne_eq]
  simp only [hs]
  congr 2
  have : ∀ (l : List (Str × Par)) (p : Str × Par → Bool) (f : Str × Par → Str × Structure), (l.attach.filter fun x => p x.1).map (fun x => f x.1) = (l.filter p).map f := by
    intro l p f
    have h1 : (l.attach.filter fun x => p x.1).map (fun x => f x.1) = ((l.attach.filter (p ∘ Subtype.val)).map Subtype.val).map f := by
      rw [List.map_map]; rfl
    rw [h1, ← List.filter_map, List.attach_map_subtype_val]
  exact this params (fun x => !sigmaOne x.1 x.2.name) (fun x => (x.1, x.2.structure))
theorem structure_dict (cls : Str) (content : List (Str × Par)) : (Par.dict cls content).structure = .dict cls (byKey (content.map fun x => (x.1, x.2.structure))) := by
  rw [Par.structure, List.attach_map_val (f := (fun x : Str × Par => (x.1, x.2.structure)))]
theorem structure_tuple (cls : Str) (content : List Par) : (Par.tuple cls content).structure = .tuple cls (content.map Par.structure) := by
  rw [Par.structure, List.attach_map_val (f := Par.structure)]

/-- The kinds of classes. -/
inductive Kind | data | dict | tuple

/-- A word. -/
def Word (s : Str) : Prop := s ≠ [] ∧ ∀ c ∈ s, special c = false ∧ c ≠ '='

/-- Names which are kept apart. `kind` tells the kind of each class. Classes and keys are words; names of layers do not begin with a bracket and have their commas in brackets; the text of a constant is a word
which is not a class, or begins with a bracket, and has its commas in brackets; no name was set. -/
inductive Clean (kind : Str → Option Kind) : Par → Prop
  | const (v : Val) (h : Flat v.text) (hne : v.text ≠ []) (hw : ((∀ c ∈ v.text, special c = false) ∧ kind v.text = none) ∨ ∃ c t, v.text = c :: t ∧ opens c = true) : Clean kind (.const v)
  | data (cls : Str) (shape : List Nat) (layers : List Lay) (params : List (Str × Par)) (hw : Word cls) (hk : kind cls = some .data)
      (hl : ∀ t ∈ layers.filterMap Lay.name, Flat t ∧ ∃ c u, t = c :: u ∧ opens c = false) (hkeys : ∀ x ∈ params, Word x.1) (hp : ∀ x ∈ params, Clean kind x.2) : Clean kind (.data cls shape layers params)
  | dict (cls : Str) (content : List (Str × Par)) (hw : Word cls) (hk : kind cls = some .dict) (hkeys : ∀ x ∈ content, Word x.1) (hp : ∀ x ∈ content, Clean kind x.2) : Clean kind (.dict cls content)
  | tuple (cls : Str) (content : List Par) (hw : Word cls) (hk : kind cls = some .tuple) (hp : ∀ x ∈ content, Clean kind x) : Clean kind (.tuple cls content)

theorem Word.plain {s : Str} (h : Word s) : ∀ c ∈ s, special c = false := fun c hc => (h.2 c hc).1

/-- The items of a dictionary as texts. -/
def itemTexts (ignored : Str → Str → Bool) (l : List (Str × Str)) : List Str := (byKey (l.filter fun x => !ignored x.1 x.2)).map fun x => x.1 ++ '=' :: x.2

theorem itemTexts_flat (ignored : Str → Str → Bool) (l : List (Str × Str)) (hk : ∀ x ∈ l, Word x.1) (h : ∀ x ∈ l, Flat x.2) : ∀ a ∈ itemTexts ignored l, Flat a ∧ a ≠ [] := by
  intro a ha
  unfold itemTexts at ha
  rw [List.mem_map] at ha
  obtain ⟨x, hx, rfl⟩ := ha
  have hx' : x ∈ l := (List.mem_filter.1 ((List.mem_insertionSort _).1 hx)).1
  refine ⟨flat_append _ _ (flat_plain _ (hk x hx').plain) ?_, by simp⟩
  have := h x hx'
  unfold Flat at *
  simpa [depth, opens, closes] using this

theorem itemTexts_inj (ignored : Str → Str → Bool) (l m : List (Str × Str)) (hl : ∀ x ∈ l, Word x.1) (hm : ∀ x ∈ m, Word x.1) (h : itemTexts ignored l = itemTexts ignored m) :
    byKey (l.filter fun x => !ignored x.1 x.2) = byKey (m.filter fun x => !ignored x.1 x.2) := by
  unfold itemTexts at h
  have key : ∀ l m : List (Str × Str), (∀ x ∈ l, Word x.1) → (∀ x ∈ m, Word x.1) → l.map (fun x => x.1 ++ '=' :: x.2) = m.map (fun x => x.1 ++ '=' :: x.2) → l = m := by
    intro l
    induction l with
    | nil => intro m _ _ h; cases m <;> simp_all
    | cons x l ih =>
      intro m hl hm h
      cases m with
      | nil => simp at h
      | cons y m =>
        simp only [List.map_cons, List.cons.injEq] at h
        obtain ⟨h1, h2⟩ := first_unique (fun c => c == '=') x.1 y.1 x.2 y.2 '=' '=' (fun c hc => by simp [((hl x (by simp)).2 c hc).2])
          (fun c hc => by simp [((hm y (by simp)).2 c hc).2]) rfl rfl h.1
        injection h2 with _ h2
        rw [ih m (fun z hz => hl z (by simp [hz])) (fun z hz => hm z (by simp [hz])) h.2, Prod.ext h1 h2]
  exact key _ _ (fun x hx => hl x (List.mem_filter.1 ((List.mem_insertionSort _).1 hx)).1) (fun x hx => hm x (List.mem_filter.1 ((List.mem_insertionSort _).1 hx)).1) h

theorem byKey_map {β γ : Type} (f : β → γ) (l : List (Str × β)) : byKey (l.map fun x => (x.1, f x.2)) = (byKey l).map fun x => (x.1, f x.2) := by
  unfold byKey
  exact (List.map_insertionSort (r := fun a b : Str × β => a.1 ≤ b.1) (s := fun a b : Str × γ => a.1 ≤ b.1) (fun x => (x.1, f x.2)) l (fun a _ b _ => Iff.rfl)).symm

theorem map_transfer {α β γ : Type} (f : α → β) (g : α → γ) (l : List α) : ∀ m : List α, l.map f = m.map f → (∀ x ∈ l, ∀ y ∈ m, f x = f y → g x = g y) → l.map g = m.map g := by
  induction l with
  | nil => intro m h _; cases m <;> simp_all
  | cons x l ih =>
    intro m h hx
    cases m with
    | nil => simp at h
    | cons y m =>
      simp only [List.map_cons, List.cons.injEq] at h ⊢
      exact ⟨hx x (by simp) y (by simp) h.1, ih m h.2 fun a ha b hb => hx a (by simp [ha]) b (by simp [hb])⟩

theorem descriptors_flat (shape : List Nat) (layers : List Lay) (hl : ∀ t ∈ layers.filterMap Lay.name, Flat t ∧ ∃ c u, t = c :: u ∧ opens c = false) :
    ∀ a ∈ descriptors shape layers, Flat a ∧ a ≠ [] := by
  intro a ha
  unfold descriptors at ha
  rw [List.mem_append] at ha
  rcases ha with ha | ha
  · split at ha
    · cases ha
    · rw [List.mem_singleton] at ha
      rw [ha]; exact shapeText_flat shape
  · obtain ⟨h1, c, u, h2, -⟩ := hl a ha
    exact ⟨h1, by rw [h2]; simp⟩

theorem descriptors_inj (shape shape' : List Nat) (layers layers' : List Lay) (hl : ∀ t ∈ layers.filterMap Lay.name, Flat t ∧ ∃ c u, t = c :: u ∧ opens c = false)
    (hl' : ∀ t ∈ layers'.filterMap Lay.name, Flat t ∧ ∃ c u, t = c :: u ∧ opens c = false) (h : descriptors shape layers = descriptors shape' layers') :
    shape = shape' ∧ layers.filterMap Lay.name = layers'.filterMap Lay.name := by
  have bad : ∀ (shape : List Nat) (a b : List Str), (∀ t ∈ b, Flat t ∧ ∃ c u, t = c :: u ∧ opens c = false) → shapeText shape :: a = b → False := by
    intro shape a b hb h
    obtain ⟨-, c, u, h2, h3⟩ := hb (shapeText shape) (by rw [← h]; simp)
    rw [shapeText_eq] at h2
    simp only [List.cons_append, List.cons.injEq] at h2
    rw [← h2.1] at h3
    cases h3
  unfold descriptors at h
  by_cases h1 : shape = [1]
  · by_cases h2 : shape' = [1]
    · rw [if_pos h1, if_pos h2] at h
      exact ⟨by rw [h1, h2], by simpa using h⟩
    · rw [if_pos h1, if_neg h2] at h
      exact (bad shape' _ _ hl (by simpa using h.symm)).elim
  · by_cases h2 : shape' = [1]
    · rw [if_neg h1, if_pos h2] at h
      exact (bad shape _ _ hl' (by simpa using h)).elim
    · rw [if_neg h1, if_neg h2] at h
      simp only [List.cons_append, List.nil_append, List.cons.injEq] at h
      exact ⟨shapeText_inj _ _ h.1, h.2⟩

theorem description_flat (d : List Str) (h : ∀ a ∈ d, Flat a ∧ a ≠ []) : Flat (description d) := by
  unfold description
  split
  · rfl
  · exact flat_bracket '{' '}' rfl rfl _ (join_depth d fun a ha => (h a ha).1)

theorem paramString_flat (l : List Str) (h : ∀ a ∈ l, Flat a ∧ a ≠ []) : Flat (paramString (join l)) := by
  unfold paramString
  split
  · rfl
  · exact flat_bracket '[' ']' rfl rfl _ (join_depth l fun a ha => (h a ha).1)

/-- What follows the class of a `Data` determines its two parts. -/
theorem tail_inj (d d' l l' : List Str) (hd : ∀ a ∈ d, Flat a ∧ a ≠ []) (hd' : ∀ a ∈ d', Flat a ∧ a ≠ []) (hl : ∀ a ∈ l, Flat a ∧ a ≠ []) (hl' : ∀ a ∈ l', Flat a ∧ a ≠ [])
    (h : description d ++ paramString (join l) = description d' ++ paramString (join l')) : d = d' ∧ l = l' := by
  have hps : ∀ l l' : List Str, (∀ a ∈ l, Flat a ∧ a ≠ []) → (∀ a ∈ l', Flat a ∧ a ≠ []) → paramString (join l) = paramString (join l') → l = l' := by
    intro l l' hl hl' h
    apply join_inj l l' hl hl'
    unfold paramString at h
    split at h
    · rename_i h1
      split at h
      · rename_i h2; rw [h1, h2]
      · simp at h
    · split at h
      · simp at h
      · simp only [List.cons_append, List.cons.injEq, true_and] at h
        exact List.append_cancel_right h
  have hbad : ∀ (l : List Str) (s t : Str), '{' :: s ++ t = paramString (join l) → False := by
    intro l s t h
    unfold paramString at h
    split at h
    · simp at h
    · simp at h
  unfold description at h
  by_cases h1 : d = []
  · by_cases h2 : d' = []
    · rw [if_pos h1, if_pos h2] at h
      exact ⟨by rw [h1, h2], hps l l' hl hl' (by simpa using h)⟩
    · rw [if_pos h1, if_neg h2] at h
      exact (hbad l (join d') (['}'] ++ paramString (join l')) (by simpa using h.symm)).elim
  · by_cases h2 : d' = []
    · rw [if_neg h1, if_pos h2] at h
      exact (hbad l' (join d) (['}'] ++ paramString (join l)) (by simpa using h)).elim
    · rw [if_neg h1, if_neg h2] at h
      simp only [List.cons_append, List.append_assoc, List.nil_append, List.cons.injEq, true_and] at h
      obtain ⟨e1, e2⟩ := close_unique (join d) (join d') _ _ '}' '}' rfl rfl (join_depth d fun a ha => (hd a ha).1) (join_depth d' fun a ha => (hd' a ha).1) h
      injection e2 with _ e2
      exact ⟨join_inj d d' hd hd' e1, hps l l' hl hl' e2⟩

/-- Clean names have their commas in brackets and are not empty. -/
theorem name_flat (kind : Str → Option Kind) (p : Par) (h : Clean kind p) : Flat p.name ∧ p.name ≠ [] := by
  induction h with
  | const v h hne hw => rw [Par.name]; exact ⟨h, hne⟩
  | data cls shape layers params hw hk hl hkeys hp ih =>
    rw [name_data]
    refine ⟨flat_append _ _ (flat_append _ _ (flat_plain _ hw.plain) (description_flat _ (descriptors_flat shape layers hl))) ?_, ?_⟩
    · apply paramString_flat
      apply itemTexts_flat
      · intro x hx; rw [List.mem_map] at hx; obtain ⟨y, hy, rfl⟩ := hx; exact hkeys y hy
      · intro x hx; rw [List.mem_map] at hx; obtain ⟨y, hy, rfl⟩ := hx; exact (ih y hy).1
    · intro e; simp only [List.append_eq_nil_iff] at e; exact hw.1 e.1.1
  | dict cls content hw hk hkeys hp ih =>
    rw [name_dict]
    refine ⟨?_, by simp⟩
    rw [List.append_assoc]
    apply flat_append _ _ (flat_plain _ hw.plain)
    apply flat_bracket '(' ')' rfl rfl
    apply join_depth
    intro a ha
    apply (itemTexts_flat (fun _ _ => false) (content.map fun x : Str × Par => (x.1, x.2.name)) ?_ ?_ a ha).1
    · intro x hx; rw [List.mem_map] at hx; obtain ⟨y, hy, rfl⟩ := hx; exact hkeys y hy
    · intro x hx; rw [List.mem_map] at hx; obtain ⟨y, hy, rfl⟩ := hx; exact (ih y hy).1
  | tuple cls content hw hk hp ih =>
    rw [name_tuple]
    refine ⟨?_, by simp⟩
    rw [List.append_assoc]
    apply flat_append _ _ (flat_plain _ hw.plain)
    apply flat_bracket '(' ')' rfl rfl
    apply join_depth
    intro a ha
    rw [List.mem_map] at ha
    obtain ⟨y, hy, rfl⟩ := ha
    exact (ih y hy).1

/-- The class and what follows it, for parameters which are not constants. -/
inductive Tail (kind : Str → Option Kind) : Par → Str → Str → Kind → Prop
  | data (cls : Str) (shape : List Nat) (layers : List Lay) (params : List (Str × Par)) : Tail kind (.data cls shape layers params) cls
      (description (descriptors shape layers) ++ paramString (items sigmaOne (params.map fun x => (x.1, x.2.name)))) .data
  | dict (cls : Str) (content : List (Str × Par)) : Tail kind (.dict cls content) cls ('(' :: items (fun _ _ => false) (content.map fun x => (x.1, x.2.name)) ++ [')']) .dict
  | tuple (cls : Str) (content : List Par) : Tail kind (.tuple cls content) cls ('(' :: join (content.map Par.name) ++ [')']) .tuple

theorem tail_name (kind : Str → Option Kind) (p : Par) (cls t : Str) (k : Kind) (h : Tail kind p cls t k) : p.name = cls ++ t := by
  cases h with
  | data => rw [name_data, List.append_assoc]
  | dict => rw [name_dict, List.append_assoc]
  | tuple => rw [name_tuple, List.append_assoc]

theorem tail_head (kind : Str → Option Kind) (p : Par) (cls t : Str) (k : Kind) (h : Tail kind p cls t k) : t = [] ∨ ∃ c u, t = c :: u ∧ opens c = true := by
  cases h with
  | data shape layers params =>
    unfold description paramString
    split
    · split
      · left; rfl
      · right; exact ⟨'[', _, rfl, rfl⟩
    · right; exact ⟨'{', _, rfl, rfl⟩
  | dict => right; exact ⟨'(', _, rfl, rfl⟩
  | tuple => right; exact ⟨'(', _, rfl, rfl⟩

theorem special_of_opens (c : Char) (h : opens c = true) : special c = true := by simp [special, h]

theorem clean_tail (kind : Str → Option Kind) (p : Par) (h : Clean kind p) : (∃ v, p = .const v) ∨ ∃ cls t k, Tail kind p cls t k ∧ Word cls ∧ kind cls = some k := by
  cases h with
  | const v => left; exact ⟨v, rfl⟩
  | data cls shape layers params hw hk => right; exact ⟨_, _, _, .data cls shape layers params, hw, hk⟩
  | dict cls content hw hk => right; exact ⟨_, _, _, .dict cls content, hw, hk⟩
  | tuple cls content hw hk => right; exact ⟨_, _, _, .tuple cls content, hw, hk⟩

/-- Equal names have equal classes and tails. -/
theorem class_unique (a b s t : Str) (ha : Word a) (hb : Word b) (hs : s = [] ∨ ∃ c u, s = c :: u ∧ opens c = true) (ht : t = [] ∨ ∃ c u, t = c :: u ∧ opens c = true) (h : a ++ s = b ++ t) :
    a = b ∧ s = t := by
  rcases hs with rfl | ⟨c, u, rfl, hc⟩
  · rcases ht with rfl | ⟨d, v, rfl, hd⟩
    · exact ⟨by simpa using h, rfl⟩
    · rw [List.append_nil] at h
      have := (ha.2 d (by rw [h]; simp)).1
      rw [special_of_opens d hd] at this; cases this
  · rcases ht with rfl | ⟨d, v, rfl, hd⟩
    · rw [List.append_nil] at h
      have := (hb.2 c (by rw [← h]; simp)).1
      rw [special_of_opens c hc] at this; cases this
    · exact first_unique special a b u v c d ha.plain hb.plain (special_of_opens c hc) (special_of_opens d hd) h

theorem const_tail (kind : Str → Option Kind) (v : Val) (hv : Clean kind (.const v)) (q : Par) (cls t : Str) (k : Kind) (hq : Tail kind q cls t k) (hw : Word cls) (hk : kind cls = some k)
    (h : v.text = q.name) : False := by
  rw [tail_name kind q cls t k hq] at h
  cases hv with
  | const _ hf hne hh =>
    rcases hh with ⟨hp, hn⟩ | ⟨c, u, hc, ho⟩
    · rcases tail_head kind q cls t k hq with rfl | ⟨c, u, rfl, ho⟩
      · rw [List.append_nil] at h
        rw [h, hk] at hn
        cases hn
      · have := hp c (by rw [h]; simp)
        rw [special_of_opens c ho] at this; cases this
    · obtain ⟨hne', hpl⟩ := hw
      cases cls with
      | nil => exact hne' rfl
      | cons d cls =>
        rw [hc, List.cons_append] at h
        injection h with h1 _
        have := (hpl d (by simp)).1
        rw [← h1, special_of_opens c ho] at this; cases this

/-- **C145 (partly).** Two parametrizations whose names are kept apart and are the same have the same structure: classes, shapes, names of layers, keys, texts of constants, for all trees. -/
theorem same_name_partial (kind : Str → Option Kind) : ∀ (n : Nat) (p q : Par), sizeOf p ≤ n → Clean kind p → Clean kind q → p.name = q.name → p.structure = q.structure := by
  intro n
  induction n with
  | zero =>
    intro p q hn
    cases p <;> simp at hn
  | succ n ih =>
    intro p q hn hp hq h
    rcases clean_tail kind p hp with ⟨v, rfl⟩ | ⟨cls, t, k, tp, wp, kp⟩
    · rcases clean_tail kind q hq with ⟨w, rfl⟩ | ⟨cls', t', k', tq, wq, kq⟩
      · simp only [Par.name] at h
        simp only [Par.structure, h]
      · exact (const_tail kind v hp q cls' t' k' tq wq kq (by simpa only [Par.name] using h)).elim
    · rcases clean_tail kind q hq with ⟨w, rfl⟩ | ⟨cls', t', k', tq, wq, kq⟩
      · exact (const_tail kind w hq p cls t k tp wp kp (by simpa only [Par.name] using h.symm)).elim
      · rw [tail_name kind p cls t k tp, tail_name kind q cls' t' k' tq] at h
        obtain ⟨hc, ht⟩ := class_unique cls cls' t t' wp wq (tail_head kind p cls t k tp) (tail_head kind q cls' t' k' tq) h
        subst hc
        rw [kp] at kq
        injection kq with kq
        subst kq
        have htr : ∀ (l m : List (Str × Par)), (∀ x ∈ l, sizeOf x.2 ≤ n) → (∀ x ∈ l, Clean kind x.2) → (∀ x ∈ m, Clean kind x.2) →
            byKey (l.map fun x => (x.1, x.2.name)) = byKey (m.map fun x => (x.1, x.2.name)) →
            byKey (l.map fun x => (x.1, x.2.structure)) = byKey (m.map fun x => (x.1, x.2.structure)) := by
          intro l m hs hl hm e
          rw [byKey_map Par.name, byKey_map Par.name] at e
          rw [byKey_map Par.structure, byKey_map Par.structure]
          apply map_transfer _ _ _ _ e
          intro x hx y hy hxy
          rw [Prod.mk.injEq] at hxy ⊢
          have hx' := (List.mem_insertionSort _).1 hx
          have hy' := (List.mem_insertionSort _).1 hy
          exact ⟨hxy.1, ih x.2 y.2 (hs x hx') (hl x hx') (hm y hy') hxy.2⟩
        cases tp with
        | data _ shape layers params =>
          cases tq with
          | data _ shape' layers' params' =>
            cases hp with
            | data _ _ _ _ _ _ hl hkeys hcl =>
              cases hq with
              | data _ _ _ _ _ _ hl' hkeys' hcl' =>
                have f1 : ∀ (ps : List (Str × Par)), (∀ x ∈ ps, Word x.1) → (∀ x ∈ ps, Clean kind x.2) → ∀ a ∈ itemTexts sigmaOne (ps.map fun x => (x.1, x.2.name)), Flat a ∧ a ≠ [] := by
                  intro ps hk1 hc1
                  apply itemTexts_flat
                  · intro x hx; rw [List.mem_map] at hx; obtain ⟨y, hy, rfl⟩ := hx; exact hk1 y hy
                  · intro x hx; rw [List.mem_map] at hx; obtain ⟨y, hy, rfl⟩ := hx; exact (name_flat kind _ (hc1 y hy)).1
                obtain ⟨e1, e2⟩ := tail_inj _ _ _ _ (descriptors_flat shape layers hl) (descriptors_flat shape' layers' hl') (f1 params hkeys hcl) (f1 params' hkeys' hcl') ht
                obtain ⟨e3, e4⟩ := descriptors_inj shape shape' layers layers' hl hl' e1
                have e5 := itemTexts_inj sigmaOne _ _ (by intro x hx; rw [List.mem_map] at hx; obtain ⟨y, hy, rfl⟩ := hx; exact hkeys y hy)
                  (by intro x hx; rw [List.mem_map] at hx; obtain ⟨y, hy, rfl⟩ := hx; exact hkeys' y hy) e2
                rw [List.filter_map, List.filter_map] at e5
                rw [structure_data, structure_data, e3, e4]
                congr 1
                apply htr _ _ _ _ _ e5
                · intro x hx
                  have := List.sizeOf_lt_of_mem (List.mem_filter.1 hx).1
                  have h2 : sizeOf x.2 < sizeOf x := by cases x; simp
                  simp only [Par.data.sizeOf_spec] at hn; omega
                · exact fun x hx => hcl x (List.mem_filter.1 hx).1
                · exact fun x hx => hcl' x (List.mem_filter.1 hx).1
        | dict _ content =>
          cases tq with
          | dict _ content' =>
            cases hp with
            | dict _ _ _ _ hkeys hcl =>
              cases hq with
              | dict _ _ _ _ hkeys' hcl' =>
                have f1 : ∀ (ps : List (Str × Par)), (∀ x ∈ ps, Word x.1) → (∀ x ∈ ps, Clean kind x.2) → ∀ a ∈ itemTexts (fun _ _ => false) (ps.map fun x => (x.1, x.2.name)), Flat a ∧ a ≠ [] := by
                  intro ps hk1 hc1
                  apply itemTexts_flat
                  · intro x hx; rw [List.mem_map] at hx; obtain ⟨y, hy, rfl⟩ := hx; exact hk1 y hy
                  · intro x hx; rw [List.mem_map] at hx; obtain ⟨y, hy, rfl⟩ := hx; exact (name_flat kind _ (hc1 y hy)).1
                simp only [List.cons_append, List.cons.injEq, true_and] at ht
                have e2 := join_inj _ _ (f1 content hkeys hcl) (f1 content' hkeys' hcl') (List.append_cancel_right ht)
                have e5 := itemTexts_inj (fun _ _ => false) _ _ (by intro x hx; rw [List.mem_map] at hx; obtain ⟨y, hy, rfl⟩ := hx; exact hkeys y hy)
                  (by intro x hx; rw [List.mem_map] at hx; obtain ⟨y, hy, rfl⟩ := hx; exact hkeys' y hy) e2
                simp only [Bool.not_false, List.filter_true] at e5
                rw [structure_dict, structure_dict]
                congr 1
                apply htr _ _ _ hcl hcl' e5
                intro x hx
                have := List.sizeOf_lt_of_mem hx
                have h2 : sizeOf x.2 < sizeOf x := by cases x; simp
                simp only [Par.dict.sizeOf_spec] at hn; omega
        | tuple _ content =>
          cases tq with
          | tuple _ content' =>
            cases hp with
            | tuple _ _ _ _ hcl =>
              cases hq with
              | tuple _ _ _ _ hcl' =>
                simp only [List.cons_append, List.cons.injEq, true_and] at ht
                have f1 : ∀ ps : List Par, (∀ x ∈ ps, Clean kind x) → ∀ a ∈ ps.map Par.name, Flat a ∧ a ≠ [] := by
                  intro ps hc1 a ha
                  rw [List.mem_map] at ha
                  obtain ⟨y, hy, rfl⟩ := ha
                  exact name_flat kind y (hc1 y hy)
                have e2 := join_inj _ _ (f1 content hcl) (f1 content' hcl') (List.append_cancel_right ht)
                rw [structure_tuple, structure_tuple]
                congr 1
                apply map_transfer _ _ _ _ e2
                intro x hx y hy hxy
                apply ih x y _ (hcl x hx) (hcl' y hy) hxy
                have := List.sizeOf_lt_of_mem hx
                simp only [Par.tuple.sizeOf_spec] at hn; omega

/-- **C145.** The order in which the items of a dictionary or the internal parameters are given does not change the name. -/
theorem dict_order (cls : Str) (l m : List (Str × Par)) (hp : l.Perm m) (hn : (l.map (·.1)).Nodup) (shape : List Nat) (layers : List Lay) :
    (Par.dict cls l).name = (Par.dict cls m).name ∧ (Par.data cls shape layers l).name = (Par.data cls shape layers m).name := by
  have key : ∀ ignored : Str → Str → Bool, items ignored (l.map fun x => (x.1, x.2.name)) = items ignored (m.map fun x => (x.1, x.2.name)) := by
    intro ignored
    unfold items
    congr 2
    have hp' := ((hp.map fun x : Str × Par => (x.1, x.2.name)).filter fun x => !ignored x.1 x.2)
    have hn' : ((l.map fun x => (x.1, x.2.name)).map (·.1)).Nodup := by rw [List.map_map]; exact hn
    apply List.Perm.eq_of_pairwise (le := fun a b : Str × Str => a.1 ≤ b.1)
    · intro a b ha hb h1 h2
      have ha' := (List.mem_filter.1 ((List.mem_insertionSort _).1 ha)).1
      have hb' := (List.mem_filter.1 (hp'.mem_iff.2 ((List.mem_insertionSort _).1 hb))).1
      exact List.inj_on_of_nodup_map hn' ha' hb' (List.le_antisymm h1 h2)
    · exact List.pairwise_insertionSort _ _
    · exact List.pairwise_insertionSort _ _
    · exact (List.perm_insertionSort _ _).trans (hp'.trans (List.perm_insertionSort _ _).symm)
  rw [name_dict, name_dict, name_data, name_data, key, key]
  exact ⟨rfl, rfl⟩

/-- **C145.** A copy of a function has a parametrization with the name of the current one. -/
theorem copy_name (initial current : Par) : (copyParam initial current).name = current.name := by
  unfold copyParam
  split
  · rfl
  · rename_i h
    simpa using h

/-- **C145 (partly).** If their names are kept apart, the parametrization of the copy has the structure of the current one. -/
theorem copy_structure_partial (kind : Str → Option Kind) (initial current : Par) (h1 : Clean kind initial) (h2 : Clean kind current) : (copyParam initial current).structure = current.structure := by
  unfold copyParam
  split
  · rfl
  · rename_i h
    exact same_name_partial kind _ _ _ le_rfl h1 h2 (by simpa using h)

/-! ### Disagreements -/

/-- **C145, disagreement.** Offsets, powers and moduli are not in the names. -/
theorem offset_lost (cls : Str) (shape : List Nat) (pre post : List Lay) (ps : List (Str × Par)) (a b : ℚ) :
    (Par.data cls shape (pre ++ .add a :: post) ps).name = (Par.data cls shape (pre ++ .add b :: post) ps).name ∧
    (Par.data cls shape (pre ++ .power a :: post) ps).name = (Par.data cls shape (pre ++ .power b :: post) ps).name ∧
    (Par.data cls shape (pre ++ .modulo a :: post) ps).name = (Par.data cls shape (pre ++ .modulo b :: post) ps).name := by
  simp [name_data, descriptors, Lay.name]

/-- **C145, disagreement.** The parametrization of a function was replaced by another one; its copy has the first one. -/
theorem copy_keeps : ∃ initial current : Par, copyParam initial current = initial ∧ initial ≠ current ∧
    initial = .data "Scalar".toList [1] [.add 1] [] ∧ current = .data "Scalar".toList [1] [.add 2] [] := by
  refine ⟨_, _, ?_, ?_, rfl, rfl⟩
  · unfold copyParam
    rw [if_neg]
    simp only [ne_eq, not_not]
    exact (offset_lost "Scalar".toList [1] [] [] [] 1 2).1
  · intro h
    injection h with _ _ h _
    simp at h

/-- **C145, disagreement.** The base of an exponent is rounded to two decimals. -/
theorem base_rounded (cls : Str) (shape : List Nat) (ps : List (Str × Par)) :
    (Par.data cls shape [.expo (2031 / 1000)] ps).name = (Par.data cls shape [.expo (2032 / 1000)] ps).name := by
  have : fmt2 (2031 / 1000) = fmt2 (2032 / 1000) := by
    have h : round (100 * (2031 / 1000 : ℚ)) = round (100 * (2032 / 1000 : ℚ)) := by
      rw [round_eq, round_eq]
      have h1 : ⌊(100 * (2031 / 1000) + 1 / 2 : ℚ)⌋ = 203 := by rw [Int.floor_eq_iff]; norm_num
      have h2 : ⌊(100 * (2032 / 1000) + 1 / 2 : ℚ)⌋ = 203 := by rw [Int.floor_eq_iff]; norm_num
      rw [h1, h2]
    unfold fmt2
    rw [h]
  simp [name_data, descriptors, Lay.name, this]

/-- **C145, disagreement.** A number and a string, one constant with a comma and two constants, a constant and a class, and an empty name and nothing have the same names. -/
theorem texts_collide :
    (Par.const (.number ['1'])).name = (Par.const (.string ['1'])).name ∧
    (Par.tuple "Tuple".toList [.const (.string ['a', ',', 'b'])]).name = (Par.tuple "Tuple".toList [.const (.string ['a']), .const (.string ['b'])]).name ∧
    (Par.const (.string "Scalar".toList)).name = (Par.data "Scalar".toList [1] [] []).name ∧
    ∀ p : Par, (Par.tuple "Tuple".toList [.named [] p]).name = (Par.tuple "Tuple".toList []).name := by
  refine ⟨by simp [Par.name, Val.text], by simp [name_tuple, Par.name, Val.text, join], ?_, fun p => by simp [name_tuple, Par.name, join]⟩
  rw [name_data]
  simp [Par.name, Val.text, descriptors, description, items, byKey, join, paramString]

/-- The kinds of some classes of the library. -/
def kinds (s : Str) : Option Kind :=
  if s = "Scalar".toList ∨ s = "Array".toList then some .data else if s = "Dict".toList then some .dict else if s = "Tuple".toList then some .tuple else none

/-- A concrete case: the dictionary `Dict(lr=Scalar{Cl(0,1,b)}[sigma=0.5],opt=sgd)`. -/
def exampleDict : Par := .dict "Dict".toList [("opt".toList, .const (.string "sgd".toList)),
  ("lr".toList, .data "Scalar".toList [1] [.casting, .bound "Cl(0,1,b)".toList] [("sigma".toList, .const (.number "0.5".toList))])]

example : exampleDict.name = "Dict(lr=Scalar{Cl(0,1,b)}[sigma=0.5],opt=sgd)".toList := by
  simp only [exampleDict, name_dict, name_data, List.map_cons, List.map_nil, Par.name, Val.text]
  decide +kernel

example : Clean kinds exampleDict := by
  refine .dict _ _ ⟨by decide, by decide⟩ rfl (by intro x hx; simp at hx; rcases hx with rfl | rfl <;> exact ⟨by decide, by decide⟩) ?_
  intro x hx
  simp at hx
  rcases hx with rfl | rfl
  · exact .const _ (by decide +kernel) (by decide) (.inl ⟨by decide, rfl⟩)
  · refine .data _ _ _ _ ⟨by decide, by decide⟩ rfl ?_ ?_ ?_
    · intro t ht
      simp [Lay.name] at ht
      subst ht
      exact ⟨by decide +kernel, 'C', _, rfl, rfl⟩
    · intro x hx; simp at hx; subst hx; exact ⟨by decide, by decide⟩
    · intro x hx; simp at hx; subst hx; exact .const _ (by decide +kernel) (by decide) (.inl ⟨by decide, rfl⟩)

end Names
end NG
