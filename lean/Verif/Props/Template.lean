import Verif.Model.Template

/-!
# C83: code templates

Placeholders are exactly the occurrences of the documented form, a text is changed nowhere else, instantiation neither fails nor touches the
instrumented folder.
-/

namespace NG
namespace Tpl

/-! ## Specification -/

/-- The text of a comment. -/
def remark : Option Text → Text
  | none => []
  | some c => '|' :: c

/-- The text of a placeholder, as documented: `NG_ARG{name}` or `NG_ARG{name|comment}`. -/
def Ph.text (p : Ph) : Text := opening ++ p.name ++ remark p.comment ++ ['}']

/-- A well-formed placeholder: a name made of word characters, a comment on one line whose only closing brace, if any, is its first character. -/
def Ph.Valid (word : Char → Bool) (p : Ph) : Prop :=
  p.name ≠ [] ∧ (∀ c ∈ p.name, word c = true) ∧
  ∀ k, p.comment = some k → ∃ d t, k = d :: t ∧ d ≠ '\n' ∧ '\n' ∉ t ∧ '}' ∉ t

/-- The text of a piece. -/
def Seg.text : Seg → Text
  | .lit c => [c]
  | .ph p => p.text

/-- A piece with its value. -/
def Seg.fill (value : Text → Text) : Seg → Text
  | .lit c => [c]
  | .ph p => value p.name

/-! ## Matching -/

theorem strip_iff (p s r : Text) : strip p s = some r ↔ s = p ++ r := by
  induction p generalizing s with
  | nil => simp [strip, eq_comm]
  | cons c p ih =>
    cases s with
    | nil => simp [strip]
    | cons d s =>
      simp only [strip]
      split
      · next h => subst h; rw [ih]; simp
      · next h => simp; intro e; exact absurd e.symm h

theorem closing_iff (s k r : Text) : closing s = some (k, r) ↔ s = k ++ '}' :: r ∧ '}' ∉ k ∧ '\n' ∉ k := by
  induction s generalizing k r with
  | nil => simp [closing]
  | cons c t ih =>
    simp only [closing]
    by_cases h : c = '}'
    · subst h
      simp only [if_true, Option.some.injEq, Prod.mk.injEq]
      constructor
      · rintro ⟨rfl, rfl⟩; simp
      · rintro ⟨h1, h2, _⟩
        cases k with
        | nil => simp at h1; exact ⟨rfl, h1⟩
        | cons a k => simp at h1 h2; exact absurd h1.1 h2.1
    · rw [if_neg h]
      by_cases h' : c = '\n'
      · rw [if_pos h']
        simp only [reduceCtorEq, false_iff, not_and]
        intro h1 h2 h3
        cases k with
        | nil => simp at h1; exact h h1.1
        | cons a k => simp at h1 h3; exact h3.1 (h'.symm.trans h1.1)
      · rw [if_neg h']
        cases hc : closing t with
        | none =>
          simp only [reduceCtorEq, false_iff, not_and]
          intro h1 h2 h3
          cases k with
          | nil => simp at h1; exact h h1.1
          | cons a k =>
            simp at h1 h2 h3
            have := (ih k r).2 ⟨h1.2, h2.2, h3.2⟩
            rw [hc] at this; simp at this
        | some q =>
          obtain ⟨k', r'⟩ := q
          have := (ih k' r').1 hc
          simp only [Option.some.injEq, Prod.mk.injEq]
          constructor
          · rintro ⟨rfl, rfl⟩
            refine ⟨by rw [this.1]; rfl, ?_, ?_⟩
            · simp; exact ⟨fun e => h e.symm, this.2.1⟩
            · simp; exact ⟨fun e => h' e.symm, this.2.2⟩
          · rintro ⟨h1, h2, h3⟩
            cases k with
            | nil => simp at h1; exact absurd h1.1 h
            | cons a k =>
              simp at h1 h2 h3
              have h4 := (ih k r).2 ⟨h1.2, h2.2, h3.2⟩
              rw [hc] at h4
              simp at h4
              exact ⟨by rw [h1.1, h4.1], h4.2⟩

theorem takeWhile_spec {β : Type} (f : β → Bool) (l : List β) : l = l.takeWhile f ++ l.dropWhile f ∧ (∀ x ∈ l.takeWhile f, f x = true) ∧
    (∀ x, (l.dropWhile f).head? = some x → f x = false) := by
  refine ⟨List.takeWhile_append_dropWhile.symm, fun x hx => List.all_eq_true.1 (List.all_takeWhile (p := f) (l := l)) x hx, ?_⟩
  intro x hx
  induction l with
  | nil => simp at hx
  | cons a l ih =>
    by_cases h : f a = true
    · rw [List.dropWhile_cons_of_pos h] at hx; exact ih hx
    · rw [List.dropWhile_cons_of_neg h] at hx
      simp at hx; subst hx; simpa using h

theorem after_sound (word : Char → Bool) (n s : Text) (p : Ph) (r : Text) (hn : n ≠ []) (hw : ∀ c ∈ n, word c = true)
    (h : after n s = some (p, r)) : opening ++ n ++ s = p.text ++ r ∧ p.Valid word := by
  cases s with
  | nil => simp [after] at h
  | cons c t =>
    simp only [after] at h
    by_cases h1 : c = '}'
    · rw [if_pos h1] at h
      simp at h
      obtain ⟨rfl, rfl⟩ := h
      subst h1
      exact ⟨by simp [Ph.text, remark], hn, hw, by simp⟩
    · rw [if_neg h1] at h
      by_cases h2 : c = '|'
      · rw [if_pos h2] at h
        cases t with
        | nil => simp at h
        | cons d t =>
          simp only at h
          by_cases h3 : d = '\n'
          · rw [if_pos h3] at h; simp at h
          · rw [if_neg h3] at h
            cases hc : closing t with
            | none => rw [hc] at h; simp at h
            | some q =>
              obtain ⟨k, r'⟩ := q
              rw [hc] at h
              simp at h
              obtain ⟨rfl, rfl⟩ := h
              have := (closing_iff _ _ _).1 hc
              subst h2
              refine ⟨by rw [this.1]; simp [Ph.text, remark], hn, hw, ?_⟩
              intro k' hk'
              simp at hk'
              exact ⟨d, k, hk'.symm, h3, this.2.2, this.2.1⟩
      · rw [if_neg h2] at h; simp at h

/-- A match is a well-formed placeholder at the beginning of the text. -/
theorem matchAt_sound (word : Char → Bool) (s : Text) (p : Ph) (r : Text) (h : matchAt word s = some (p, r)) :
    s = p.text ++ r ∧ p.Valid word := by
  unfold matchAt at h
  cases hs : strip opening s with
  | none => rw [hs] at h; simp at h
  | some q =>
    rw [hs] at h
    simp only at h
    split at h
    · simp at h
    · next hne =>
      have hq := (strip_iff _ _ _).1 hs
      have ht := takeWhile_spec word q
      have := after_sound word _ _ p r (by simpa using hne) ht.2.1 h
      refine ⟨?_, this.2⟩
      rw [hq, ← this.1, List.append_assoc, ← ht.1]

theorem takeWhile_name (word : Char → Bool) (n r : Text) (hw : ∀ c ∈ n, word c = true) (hr : ∀ x, r.head? = some x → word x = false) :
    (n ++ r).takeWhile word = n ∧ (n ++ r).dropWhile word = r := by
  induction n with
  | nil =>
    cases r with
    | nil => simp
    | cons a r => have := hr a (by simp); simp [this]
  | cons a n ih =>
    have h1 := hw a (by simp)
    have := ih (fun c hc => hw c (by simp [hc]))
    simp [h1, this.1, this.2]

/-- Every well-formed placeholder at the beginning of a text is matched. -/
theorem matchAt_complete (word : Char → Bool) (hb : word '}' = false) (hp : word '|' = false) (p : Ph) (r : Text) (hv : p.Valid word) :
    matchAt word (p.text ++ r) = some (p, r) := by
  obtain ⟨hn, hw, hc⟩ := hv
  obtain ⟨n, co⟩ := p
  have hs : strip opening (Ph.text ⟨n, co⟩ ++ r) =
      some (n ++ (remark co ++ ['}'] ++ r)) := by
    rw [strip_iff]; simp [Ph.text]
  unfold matchAt
  rw [hs]
  simp only
  have ht := takeWhile_name word n (remark co ++ ['}'] ++ r) hw (by
    intro x hx
    cases co with
    | none => simp [remark] at hx; rw [← hx]; exact hb
    | some c => simp [remark] at hx; rw [← hx]; exact hp)
  rw [ht.1, ht.2, if_neg (by simpa using hn)]
  cases co with
  | none => simp [remark, after]
  | some k =>
    obtain ⟨d, t, hk, h1, h2, h3⟩ := hc k rfl
    subst hk
    have h4 : closing (t ++ '}' :: r) = some (t, r) := (closing_iff _ _ _).2 ⟨rfl, h3, h2⟩
    simp only [remark, List.cons_append, List.append_assoc, List.nil_append, after]
    rw [if_neg (by decide), if_pos trivial]
    simp only [if_neg h1, h4]

theorem text_pos (p : Ph) : 0 < p.text.length := by simp [Ph.text, opening]

theorem matchAt_shorter (word : Char → Bool) (s : Text) (p : Ph) (r : Text) (h : matchAt word s = some (p, r)) : r.length < s.length := by
  have := (matchAt_sound word s p r h).1
  rw [this, List.length_append]
  have := text_pos p
  omega

theorem scanN_lossless (word : Char → Bool) (n : Nat) (s : Text) (h : s.length < n) : (scanN word n s).flatMap Seg.text = s := by
  induction n generalizing s with
  | zero => omega
  | succ n ih =>
    simp only [scanN]
    cases hm : matchAt word s with
    | some q =>
      obtain ⟨p, r⟩ := q
      have h1 := matchAt_shorter word s p r hm
      simp only [List.flatMap_cons, Seg.text]
      rw [ih r (by omega), ← (matchAt_sound word s p r hm).1]
    | none =>
      cases s with
      | nil => simp
      | cons c t =>
        simp only [List.flatMap_cons, Seg.text]
        rw [ih t (by simpa using h)]; rfl

/-- Nothing is lost or moved: the pieces put end to end are the text. -/
theorem scan_lossless (word : Char → Bool) (s : Text) : (scan word s).flatMap Seg.text = s := scanN_lossless word _ s (by omega)

theorem scanN_valid (word : Char → Bool) (n : Nat) (s : Text) (p : Ph) (h : Seg.ph p ∈ scanN word n s) : p.Valid word := by
  induction n generalizing s with
  | zero => simp [scanN] at h
  | succ n ih =>
    simp only [scanN] at h
    cases hm : matchAt word s with
    | some q =>
      obtain ⟨p', r⟩ := q
      rw [hm] at h
      simp at h
      rcases h with h | h
      · subst h; exact (matchAt_sound word s _ _ hm).2
      · exact ih r h
    | none =>
      rw [hm] at h
      cases s with
      | nil => simp at h
      | cons c t => simp at h; exact ih t h

/-- Every placeholder found has the documented form. -/
theorem scan_valid (word : Char → Bool) (s : Text) (p : Ph) (h : Seg.ph p ∈ scan word s) : p.Valid word := scanN_valid word _ s p h

theorem scanN_no_missed (word : Char → Bool) (hb : word '}' = false) (hp : word '|' = false) (n : Nat) (s : Text) (hl : s.length < n)
    (a b : List Seg) (c : Char) (h : scanN word n s = a ++ .lit c :: b) (p : Ph) (hv : p.Valid word) (r : Text) :
    (Seg.lit c :: b).flatMap Seg.text ≠ p.text ++ r := by
  induction n generalizing s a with
  | zero => omega
  | succ n ih =>
    intro he
    have hs := scanN_lossless word (n + 1) s hl
    simp only [scanN] at h
    cases hm : matchAt word s with
    | some q =>
      obtain ⟨p', r'⟩ := q
      rw [hm] at h
      have := matchAt_shorter word s p' r' hm
      cases a with
      | nil => simp at h
      | cons x a => simp at h; exact ih r' (by omega) a h.2 he
    | none =>
      rw [hm] at h
      cases s with
      | nil => simp at h
      | cons d t =>
        simp only at h
        cases a with
        | nil =>
          simp at h
          have h1 : (Seg.lit c :: b).flatMap Seg.text = d :: t := by
            have := scanN_lossless word n t (by simpa using hl)
            rw [h.2] at this
            simp [Seg.text, this, h.1]
          rw [he] at h1
          rw [← h1, matchAt_complete word hb hp p r hv] at hm
          simp at hm
        | cons x a => simp at h; exact ih t (by simpa using hl) a h.2 he

/-- No placeholder is missed: where the scan keeps a character as it is, no well-formed placeholder begins. -/
theorem scan_no_missed (word : Char → Bool) (hb : word '}' = false) (hp : word '|' = false) (s : Text) (a b : List Seg) (c : Char)
    (h : scan word s = a ++ .lit c :: b) (p : Ph) (hv : p.Valid word) (r : Text) : (Seg.lit c :: b).flatMap Seg.text ≠ p.text ++ r :=
  scanN_no_missed word hb hp _ s (by omega) a b c h p hv r

/-! ## Replacement -/

/-- The names of the placeholders among pieces. -/
def namesOf : List Seg → List Text
  | [] => []
  | .lit _ :: l => namesOf l
  | .ph p :: l => p.name :: namesOf l

theorem placeholders_names (word : Char → Bool) (s : Text) : (placeholders word s).map (·.name) = namesOf (scan word s) := by
  unfold placeholders
  generalize scan word s = l
  induction l with
  | nil => rfl
  | cons g l ih => cases g <;> simp [namesOf, ih]

/-- The text for a name. -/
def valueOf (cl : Bool) (kw : List (Text × Val)) (name : Text) : Text :=
  match get kw name with
  | none => []
  | some v => convert cl v

theorem get_isSome (kw : List (Text × Val)) (n : Text) : (get kw n).isSome ↔ n ∈ kw.map (·.1) := by
  simp [get]

theorem replace_spec (cl : Bool) (kw : List (Text × Val)) (l : List Seg) (found : List Text) (t : Text) (f : List Text) :
    replace cl kw found l = .ok (t, f) ↔
      (namesOf l).Nodup ∧ (∀ n ∈ namesOf l, n ∉ found) ∧ (∀ n ∈ namesOf l, n ∈ kw.map (·.1)) ∧
      t = l.flatMap (Seg.fill (valueOf cl kw)) ∧ f = (namesOf l).reverse ++ found := by
  induction l generalizing found t f with
  | nil => simp [replace, namesOf, eq_comm]
  | cons g l ih =>
    cases g with
    | lit c =>
      simp only [replace, namesOf, List.flatMap_cons, Seg.fill]
      cases hr : replace cl kw found l with
      | ok q =>
        obtain ⟨t', f'⟩ := q
        have := (ih found t' f').1 hr
        simp only [Except.ok.injEq, Prod.mk.injEq]
        constructor
        · rintro ⟨rfl, rfl⟩
          exact ⟨this.1, this.2.1, this.2.2.1, by rw [this.2.2.2.1]; rfl, this.2.2.2.2⟩
        · rintro ⟨_, _, _, h4, h5⟩
          exact ⟨by rw [h4, this.2.2.2.1]; rfl, by rw [h5, this.2.2.2.2]⟩
      | error e =>
        simp only [reduceCtorEq, false_iff]
        rintro ⟨h1, h2, h3, h4, h5⟩
        have := (ih found _ _).2 ⟨h1, h2, h3, rfl, rfl⟩
        rw [hr] at this; simp at this
    | ph p =>
      simp only [replace, namesOf, List.flatMap_cons, Seg.fill, List.nodup_cons, List.mem_cons, List.reverse_cons, List.append_assoc,
        List.cons_append, List.nil_append]
      by_cases hf : p.name ∈ found
      · rw [if_pos hf]
        simp only [reduceCtorEq, false_iff]
        rintro ⟨_, h2, _⟩
        exact h2 _ (Or.inl rfl) hf
      · rw [if_neg hf]
        cases hg : get kw p.name with
        | none =>
          simp only [reduceCtorEq, false_iff]
          rintro ⟨_, _, h3, _⟩
          have := (get_isSome kw p.name).2 (h3 _ (Or.inl rfl))
          rw [hg] at this; simp at this
        | some v =>
          have hv : valueOf cl kw p.name = convert cl v := by simp [valueOf, hg]
          have hk : p.name ∈ kw.map (·.1) := (get_isSome kw p.name).1 (by rw [hg]; rfl)
          simp only
          cases hr : replace cl kw (p.name :: found) l with
          | ok q =>
            obtain ⟨t', f'⟩ := q
            obtain ⟨i1, i2, i3, i4, i5⟩ := (ih _ t' f').1 hr
            simp only [Except.ok.injEq, Prod.mk.injEq]
            constructor
            · rintro ⟨rfl, rfl⟩
              refine ⟨⟨fun hm => i2 _ hm (by simp), i1⟩, ?_, ?_, by rw [i4, hv], by rw [i5]⟩
              · rintro n (rfl | hn)
                · exact hf
                · intro h; exact i2 n hn (by simp [h])
              · rintro n (rfl | hn)
                · exact hk
                · exact i3 n hn
            · rintro ⟨_, _, _, h4, h5⟩
              exact ⟨by rw [h4, i4, hv], by rw [h5, i5]⟩
          | error e =>
            simp only [reduceCtorEq, false_iff]
            rintro ⟨⟨h0, h1⟩, h2, h3, h4, h5⟩
            have := (ih (p.name :: found) _ _).2 ⟨h1, fun n hn => by
              simp only [List.mem_cons, not_or]
              exact ⟨fun e => h0 (e ▸ hn), h2 n (Or.inr hn)⟩, fun n hn => h3 n (Or.inr hn), rfl, rfl⟩
            rw [hr] at this; simp at this

/-- The substitution succeeds exactly when no name comes twice and the values are exactly those of the names; every placeholder is then replaced by its
value and every other character is kept. The values themselves are not searched for placeholders. -/
theorem sub_spec (word : Char → Bool) (cl : Bool) (kw : List (Text × Val)) (s t : Text) :
    sub word cl kw s = .ok t ↔
      ((placeholders word s).map (·.name)).Nodup ∧ (∀ n, n ∈ (placeholders word s).map (·.name) ↔ n ∈ kw.map (·.1)) ∧
      t = (scan word s).flatMap (Seg.fill (valueOf cl kw)) := by
  rw [placeholders_names]
  unfold sub
  cases hr : replace cl kw [] (scan word s) with
  | error e =>
    simp only [reduceCtorEq, false_iff]
    rintro ⟨h1, h2, h3⟩
    have := (replace_spec cl kw (scan word s) [] _ _).2 ⟨h1, by simp, fun n hn => (h2 n).1 hn, rfl, rfl⟩
    rw [hr] at this; simp at this
  | ok q =>
    obtain ⟨t', f⟩ := q
    obtain ⟨i1, i2, i3, i4, i5⟩ := (replace_spec cl kw (scan word s) [] t' f).1 hr
    simp only
    by_cases ha : kw.all (fun p => decide (p.1 ∈ f)) = true
    · rw [if_pos ha]
      simp only [Except.ok.injEq]
      constructor
      · rintro rfl
        refine ⟨i1, fun n => ⟨i3 n, fun hn => ?_⟩, i4⟩
        rw [List.mem_map] at hn
        obtain ⟨x, hx, rfl⟩ := hn
        have := List.all_eq_true.1 ha x hx
        simp [i5] at this
        exact this
      · rintro ⟨_, _, h⟩; rw [h, i4]
    · rw [if_neg ha]
      simp only [reduceCtorEq, false_iff]
      rintro ⟨_, h2, _⟩
      apply ha
      rw [List.all_eq_true]
      intro x hx
      have := (h2 x.1).2 (List.mem_map_of_mem hx)
      simp [i5, this]

/-- Arrays are written with braces for C, everything else as it is. -/
theorem convert_spec (cl : Bool) (v : Val) :
    ((cl && v.array) = false → convert cl v = v.repr) ∧
    ((cl && v.array) = true → (convert cl v).length = v.repr.length ∧ '[' ∉ convert cl v ∧ ']' ∉ convert cl v ∧
      ∀ i : Nat, v.repr[i]? ≠ some '[' → v.repr[i]? ≠ some ']' → (convert cl v)[i]? = v.repr[i]?) := by
  constructor
  · intro h; simp [convert, h]
  · intro h
    simp only [convert, h, if_true]
    refine ⟨by simp, ?_, ?_, ?_⟩
    · simp only [List.mem_map, not_exists, not_and]
      intro c _
      split
      · decide
      · split
        · decide
        · assumption
    · simp only [List.mem_map, not_exists, not_and]
      intro c _
      split
      · decide
      · split
        · decide
        · assumption
    · intro i h1 h2
      rw [List.getElem?_map]
      cases hc : v.repr[i]? with
      | none => rfl
      | some c =>
        rw [hc] at h1 h2
        simp at h1 h2
        simp [h1, h2]

/-! ## Lines -/

theorem contains_iff (x s : Text) : contains x s = true ↔ ∃ a b, s = a ++ x ++ b := by
  induction s with
  | nil =>
    simp only [contains, List.isEmpty_iff]
    constructor
    · rintro rfl; exact ⟨[], [], rfl⟩
    · rintro ⟨a, b, h⟩; simp at h; exact h.2.1
  | cons c t ih =>
    simp only [contains, Bool.or_eq_true, ih, Option.isSome_iff_exists]
    constructor
    · rintro (⟨r, h⟩ | ⟨a, b, h⟩)
      · exact ⟨[], r, by simpa using (strip_iff _ _ _).1 h⟩
      · exact ⟨c :: a, b, by rw [h]; rfl⟩
    · rintro ⟨a, b, h⟩
      cases a with
      | nil => exact Or.inl ⟨b, (strip_iff _ _ _).2 (by simpa using h)⟩
      | cons d a => simp at h; exact Or.inr ⟨a, b, by simpa using h.2⟩

/-- The commented form of a line: indent, comment characters, tag, command. -/
def Tagged (cc line indent command : Text) : Prop :=
  (∀ c ∈ indent, c = ' ') ∧ command.head? ≠ some ' ' ∧
  ∃ i k : Nat, line = indent ++ cc ++ List.replicate i ' ' ++ token ++ List.replicate k ' ' ++ command

theorem spaces_replicate (l : Text) (h : ∀ x ∈ l, (x == ' ') = true) : l = List.replicate l.length ' ' :=
  List.eq_replicate_of_mem (fun b hb => by simpa using h b hb)

theorem drop_spaces (i : Nat) (s : Text) (h : s.head? ≠ some ' ') : (List.replicate i ' ' ++ s).dropWhile (· == ' ') = s := by
  have := takeWhile_name (· == ' ') (List.replicate i ' ') s (by simp) (by
    intro x hx
    simp only [beq_eq_false_iff_ne]
    intro e; subst e; exact h hx)
  exact this.2

/-- The line after the search for the commented form. -/
def searched (cc line : Text) : Text :=
  match strip cc (line.dropWhile (· == ' ')) with
  | none => line
  | some r =>
    match strip token (r.dropWhile (· == ' ')) with
    | none => line
    | some r => line.takeWhile (· == ' ') ++ r.dropWhile (· == ' ')

theorem uncomment_eq (cc line : Text) : uncomment (some cc) line =
    if contains token (searched cc line) then .error .tagRemains else .ok (searched cc line) := rfl

theorem searched_tagged (cc line indent command : Text) (hcc : ∃ c r, cc = c :: r ∧ c ≠ ' ')
    (h : Tagged cc line indent command) : searched cc line = indent ++ command := by
  obtain ⟨h1, h2, i, k, h3⟩ := h
  obtain ⟨c, r, hc, hne⟩ := hcc
  have ht := takeWhile_name (· == ' ') indent (cc ++ (List.replicate i ' ' ++ (token ++ (List.replicate k ' ' ++ command))))
    (by intro x hx; simpa using h1 x hx) (by
      intro x hx
      rw [hc] at hx
      simp at hx
      simp only [beq_eq_false_iff_ne]
      rw [← hx]; exact hne)
  have hl : line = indent ++ (cc ++ (List.replicate i ' ' ++ (token ++ (List.replicate k ' ' ++ command)))) := by
    rw [h3]; simp [List.append_assoc]
  rw [← hl] at ht
  unfold searched
  rw [ht.1, ht.2, (strip_iff cc _ _).2 rfl]
  simp only
  rw [drop_spaces i _ (by simp [token]), (strip_iff token _ _).2 rfl]
  simp only
  rw [drop_spaces k _ h2]

theorem searched_other (cc line : Text) (h : ¬ ∃ indent command, Tagged cc line indent command) : searched cc line = line := by
  unfold searched
  cases hs : strip cc (line.dropWhile (· == ' ')) with
  | none => rfl
  | some r =>
    simp only
    cases ht : strip token (r.dropWhile (· == ' ')) with
    | none => rfl
    | some q =>
      exfalso
      apply h
      have a1 := takeWhile_spec (· == ' ') line
      have a2 := takeWhile_spec (· == ' ') r
      have a3 := takeWhile_spec (· == ' ') q
      have b1 := (strip_iff _ _ _).1 hs
      have b2 := (strip_iff _ _ _).1 ht
      refine ⟨line.takeWhile (· == ' '), q.dropWhile (· == ' '), fun c hc => by simpa using a1.2.1 c hc, ?_,
        (r.takeWhile (· == ' ')).length, (q.takeWhile (· == ' ')).length, ?_⟩
      · intro e; have := a3.2.2 _ e; simp at this
      · rw [← spaces_replicate _ a2.2.1, ← spaces_replicate _ a3.2.1]
        conv_lhs => rw [a1.1, b1, a2.1, b2, a3.1]
        simp [List.append_assoc]

/-- A line is uncommented exactly when it has the form indent, comment characters, tag, command and no second tag; its indent and its command are kept,
the rest disappears. Any other line with a tag is an error. -/
theorem uncomment_spec (cc line out : Text) (hcc : ∃ c r, cc = c :: r ∧ c ≠ ' ') (ht : contains token line = true) :
    uncomment (some cc) line = .ok out ↔
      ∃ indent command, Tagged cc line indent command ∧ out = indent ++ command ∧ contains token out = false := by
  rw [uncomment_eq]
  by_cases h : ∃ indent command, Tagged cc line indent command
  · obtain ⟨i, c, h⟩ := h
    rw [searched_tagged cc line i c hcc h]
    constructor
    · intro e
      split at e
      · simp at e
      · next hn => simp at e; exact ⟨i, c, h, e.symm, by rw [← e]; simpa using hn⟩
    · rintro ⟨i', c', h', e, hn⟩
      have := searched_tagged cc line i' c' hcc h'
      rw [searched_tagged cc line i c hcc h] at this
      rw [this, ← e, hn]; rfl
  · rw [searched_other cc line h, ht]
    simp only [if_true, reduceCtorEq, false_iff]
    rintro ⟨i, c, h', _⟩
    exact h ⟨i, c, h'⟩

/-- A tag in a file of an unknown type is an error. -/
theorem uncomment_unknown (line : Text) : uncomment none line = .error .unknownType := rfl

theorem uncommentAll_ok (comment : Option Text) (ls out : List Text) (h : uncommentAll comment ls = .ok out) :
    List.Forall₂ (fun l o => (contains token l = false ∧ o = l) ∨ (contains token l = true ∧ uncomment comment l = .ok o)) ls out ∧
    ∀ o ∈ out, contains token o = false := by
  induction ls generalizing out with
  | nil => simp [uncommentAll] at h; subst h; simp
  | cons l r ih =>
    simp only [uncommentAll] at h
    cases hl : (if contains token l then uncomment comment l else .ok l) with
    | error e => rw [hl] at h; simp at h
    | ok l' =>
      rw [hl] at h
      simp only at h
      cases hr : uncommentAll comment r with
      | error e => rw [hr] at h; simp at h
      | ok r' =>
        rw [hr] at h
        simp at h
        subst h
        have := ih r' hr
        by_cases hc : contains token l = true
        · rw [if_pos hc] at hl
          refine ⟨List.Forall₂.cons (Or.inr ⟨hc, hl⟩) this.1, ?_⟩
          intro o ho
          simp at ho
          rcases ho with rfl | ho
          · cases comment with
            | none => simp [uncomment] at hl
            | some cc =>
              rw [uncomment_eq] at hl
              split at hl
              · simp at hl
              · next hn => simp at hl; rw [← hl]; simpa using hn
          · exact this.2 o ho
        · rw [if_neg hc] at hl
          simp at hl
          refine ⟨List.Forall₂.cons (Or.inl ⟨by simpa using hc, hl.symm⟩) this.1, ?_⟩
          intro o ho
          simp at ho
          rcases ho with rfl | ho
          · rw [← hl]; simpa using hc
          · exact this.2 o ho

theorem contains_newline (a b : Text) (h : contains token (a ++ '\n' :: b) = true) : contains token a = true ∨ contains token b = true := by
  rw [contains_iff] at h
  obtain ⟨u, v, h⟩ := h
  rw [List.append_assoc] at h
  rcases List.append_eq_append_iff.1 h with ⟨w, h1, h2⟩ | ⟨w, h1, h2⟩
  · -- u = a ++ w, '\n' :: b = w ++ (token ++ v)
    cases w with
    | nil =>
      simp [token] at h2
    | cons c w =>
      simp at h2
      right
      rw [contains_iff]
      exact ⟨w, v, by rw [h2.2]; simp⟩
  · -- a = u ++ w, token ++ v = w ++ '\n' :: b
    rcases List.append_eq_append_iff.1 h2 with ⟨z, h3, h4⟩ | ⟨z, h3, h4⟩
    · left
      rw [contains_iff]
      exact ⟨u, z, by rw [h1, h3]; simp⟩
    · cases z with
      | nil =>
        left
        rw [contains_iff]
        exact ⟨u, [], by rw [h1, h3]; simp⟩
      | cons c z =>
        exfalso
        simp at h4
        have : '\n' ∈ token := by rw [h3, ← h4.1]; simp
        revert this; decide

theorem join_no_tag (ls : List Text) (h : ∀ l ∈ ls, contains token l = false) : contains token (join ls) = false := by
  induction ls with
  | nil => rfl
  | cons l r ih =>
    cases r with
    | nil => exact h l (by simp)
    | cons l' r =>
      have h1 := ih (fun x hx => h x (by simp [hx]))
      simp only [join]
      by_contra hc
      rcases contains_newline l _ (by simpa using hc) with h2 | h2
      · rw [h l (by simp)] at h2; simp at h2
      · rw [h1] at h2; simp at h2

/-- Once prepared, a text holds no tag any more. -/
theorem prepared_no_tag (types : Text → Option Text) (f : File) (t : Text) (h : prepared types f = .ok t) : contains token t = false := by
  unfold prepared at h
  split at h
  · cases hu : uncommentAll (f.comment types) (splitlines f.text) with
    | error e => rw [hu] at h; simp at h
    | ok ls =>
      rw [hu] at h
      simp at h
      rw [← h]
      exact join_no_tag ls (uncommentAll_ok _ _ _ hu).2
  · next hn => simp at h; rw [← h]; simpa using hn

/-- Only the lines with a tag are changed, and a text without tags is not changed at all. -/
theorem prepared_lines (types : Text → Option Text) (f : File) (t : Text) (h : prepared types f = .ok t) :
    (contains token f.text = false ∧ t = f.text) ∨
    (contains token f.text = true ∧ ∃ ls, t = join ls ∧
      List.Forall₂ (fun l o => (contains token l = false ∧ o = l) ∨
        (contains token l = true ∧ uncomment (f.comment types) l = .ok o)) (splitlines f.text) ls) := by
  unfold prepared at h
  by_cases hc : contains token f.text = true
  · rw [if_pos hc] at h
    cases hu : uncommentAll (f.comment types) (splitlines f.text) with
    | error e => rw [hu] at h; simp at h
    | ok ls =>
      rw [hu] at h
      simp at h
      exact Or.inr ⟨hc, ls, h.symm, (uncommentAll_ok _ _ _ hu).1⟩
  · rw [if_neg hc] at h
    simp at h
    exact Or.inl ⟨by simpa using hc, h.symm⟩

theorem splitlines_nil (s : Text) : splitlines s = [] ↔ s = [] := by
  cases s with
  | nil => simp [splitlines]
  | cons c t =>
    simp only [splitlines, reduceCtorEq, iff_false]
    split
    · simp
    · split <;> simp

/-- Splitting and joining lines keeps the text, except that the last line break is lost. -/
theorem join_splitlines (s : Text) : join (splitlines s) = if s.getLast? = some '\n' then s.dropLast else s := by
  induction s with
  | nil => rfl
  | cons c t ih =>
    simp only [splitlines]
    by_cases hc : c = '\n'
    · rw [if_pos hc]
      cases t with
      | nil => subst hc; rfl
      | cons d t =>
        have hne : splitlines (d :: t) ≠ [] := by rw [Ne, splitlines_nil]; simp
        obtain ⟨l, r, hlr⟩ := List.exists_cons_of_ne_nil hne
        rw [hlr] at ih
        rw [hlr]
        simp only [join, List.nil_append, List.getLast?_cons_cons]
        rw [ih]
        split
        · subst hc; simp [List.dropLast]
        · subst hc; rfl
    · rw [if_neg hc]
      cases hs : splitlines t with
      | nil =>
        rw [splitlines_nil] at hs
        subst hs
        simp [join, hc]
      | cons l r =>
        have ht : t ≠ [] := by intro e; subst e; simp [splitlines] at hs
        obtain ⟨d, t', rfl⟩ := List.exists_cons_of_ne_nil ht
        rw [hs] at ih
        have h1 : join ((c :: l) :: r) = c :: join (l :: r) := by cases r <;> simp [join]
        simp only [h1, ih, List.getLast?_cons_cons]
        split <;> simp [List.dropLast]

/-! ## Files and folders -/

theorem twice_none (l seen : List Text) : twice seen l = none ↔ l.Nodup ∧ ∀ n ∈ l, n ∉ seen := by
  induction l generalizing seen with
  | nil => simp [twice]
  | cons a l ih =>
    simp only [twice]
    split
    · next h => simp [h]
    · next h =>
      rw [ih]
      simp only [List.nodup_cons, List.mem_cons, not_or, forall_eq_or_imp]
      constructor
      · rintro ⟨h1, h2⟩
        exact ⟨⟨fun hm => (h2 a hm).1 rfl, h1⟩, h, fun n hn => (h2 n hn).2⟩
      · rintro ⟨⟨h1, h2⟩, h3, h4⟩
        exact ⟨h2, fun n hn => ⟨fun e => h1 (e ▸ hn), h4 n hn⟩⟩

/-- The deprecated placeholders are exactly the three named by the documentation, anywhere in the text. -/
theorem isDeprecated_iff (s : Text) : isDeprecated s = true ↔
    ∃ x ∈ ["NG_G{".toList, "NG_OD{".toList, "NG_SC{".toList], ∃ a b, s = a ++ x ++ b := by
  have e1 : "NG_G{".toList = ['N', 'G', '_', 'G', '{'] := by decide +kernel
  have e2 : "NG_OD{".toList = ['N', 'G', '_', 'O', 'D', '{'] := by decide +kernel
  have e3 : "NG_SC{".toList = ['N', 'G', '_', 'S', 'C', '{'] := by decide +kernel
  rw [e1, e2, e3]
  simp only [isDeprecated, Bool.or_eq_true, contains_iff, List.mem_cons, List.not_mem_nil, or_false, exists_eq_or_imp, exists_eq_left, or_assoc]

/-- Arrays are written with braces exactly in the four types of C files, in lower case. -/
theorem cLike_iff (ext : Text) : cLike ext = true ↔ ext ∈ [".h".toList, ".hpp".toList, ".cpp".toList, ".c".toList] := by
  have e1 : ".h".toList = ['.', 'h'] := by decide +kernel
  have e2 : ".hpp".toList = ['.', 'h', 'p', 'p'] := by decide +kernel
  have e3 : ".cpp".toList = ['.', 'c', 'p', 'p'] := by decide +kernel
  have e4 : ".c".toList = ['.', 'c'] := by decide +kernel
  rw [e1, e2, e3, e4]
  simp [cLike, or_assoc]

/-- A file is accepted exactly when it has no deprecated placeholder, its tags can be removed and its names are unique. -/
theorem make_spec (word : Char → Bool) (types : Text → Option Text) (f : File) (g : FileFn) :
    FileFn.make word types f = .ok g ↔
      isDeprecated f.text = false ∧ prepared types f = .ok g.text ∧ g.file = f ∧
      g.names = (placeholders word g.text).map (·.name) ∧ g.names.Nodup := by
  unfold FileFn.make
  by_cases hd : isDeprecated f.text = true
  · simp [hd]
  · rw [if_neg hd]
    have hd' : isDeprecated f.text = false := by simpa using hd
    cases hp : prepared types f with
    | error e => simp
    | ok t =>
      simp only
      cases ht : twice [] ((placeholders word t).map (·.name)) with
      | some n =>
        simp only [reduceCtorEq, Except.ok.injEq, false_iff]
        rintro ⟨_, h2, _, h4, h5⟩
        rw [← h2] at h4
        rw [h4] at h5
        have := (twice_none _ []).2 ⟨h5, by simp⟩
        rw [ht] at this; simp at this
      | none =>
        have := ((twice_none _ []).1 ht).1
        simp only [Except.ok.injEq]
        constructor
        · rintro rfl; exact ⟨hd', rfl, rfl, rfl, this⟩
        · rintro ⟨_, h2, h3, h4, _⟩
          cases g
          simp at h2 h3 h4
          subst h2 h3
          rw [h4]

theorem sameSet_iff (a b : List Text) : sameSet a b = true ↔ ∀ n, n ∈ a ↔ n ∈ b := by
  simp only [sameSet, Bool.and_eq_true, List.all_eq_true, decide_eq_true_eq]
  constructor
  · rintro ⟨h1, h2⟩ n; exact ⟨h1 n, h2 n⟩
  · intro h; exact ⟨fun n hn => (h n).1 hn, fun n hn => (h n).2 hn⟩

/-- Calling an accepted file with a value for each of its names, and no other, always succeeds. -/
theorem call_ok (word : Char → Bool) (types : Text → Option Text) (f : File) (g : FileFn) (hg : FileFn.make word types f = .ok g)
    (kw : List (Text × Val)) (hk : ∀ n, n ∈ kw.map (·.1) ↔ n ∈ g.names) :
    g.call word kw = .ok ((scan word g.text).flatMap (Seg.fill (valueOf (cLike f.ext) kw))) := by
  obtain ⟨_, _, h3, h4, h5⟩ := (make_spec word types f g).1 hg
  unfold FileFn.call
  rw [if_pos ((sameSet_iff _ _).2 hk), sub_spec, ← h4, h3]
  exact ⟨h5, fun n => (hk n).symm, rfl⟩

/-- A call with other names is refused. -/
theorem call_refuses (word : Char → Bool) (g : FileFn) (kw : List (Text × Val)) (n : Text) (h : ¬ (n ∈ kw.map (·.1) ↔ n ∈ g.names)) :
    g.call word kw = .error .wrongInput := by
  unfold FileFn.call
  rw [if_neg]
  intro hs
  exact h ((sameSet_iff _ _).1 hs n)

/-- Files of a folder which count: a registered type and at least one placeholder. -/
theorem collect_spec (word : Char → Bool) (types : Text → Option Text) (files : List File) (gs : List FileFn)
    (h : collect word types [] files = .ok gs) :
    (gs.map (·.file)).Sublist files ∧
    (∀ g ∈ gs, FileFn.make word types g.file = .ok g ∧ g.names ≠ []) ∧
    ∀ f ∈ files, (f.comment types).isSome → ∃ g, FileFn.make word types f = .ok g ∧ (g.names ≠ [] → g ∈ gs) := by
  induction files generalizing gs with
  | nil => simp [collect] at h; subst h; simp
  | cons f r ih =>
    simp only [collect] at h
    by_cases hc : (f.comment types).isNone = true
    · rw [if_pos hc] at h
      obtain ⟨i1, i2, i3⟩ := ih gs h
      refine ⟨i1.cons _, i2, ?_⟩
      intro x hx hs
      simp at hx
      rcases hx with rfl | hx
      · simp at hc; rw [hc] at hs; simp at hs
      · exact i3 x hx hs
    · rw [if_neg hc] at h
      cases hm : FileFn.make word types f with
      | error e => rw [hm] at h; simp at h
      | ok g =>
        rw [hm] at h
        simp only at h
        have hf : g.file = f := ((make_spec word types f g).1 hm).2.2.1
        by_cases hn : g.names.isEmpty = true
        · rw [if_pos hn] at h
          obtain ⟨i1, i2, i3⟩ := ih gs h
          refine ⟨i1.cons _, i2, ?_⟩
          intro x hx hs
          simp at hx
          rcases hx with rfl | hx
          · exact ⟨g, hm, fun hh => absurd (by simpa using hn) hh⟩
          · exact i3 x hx hs
        · rw [if_neg hn] at h
          rw [if_neg (by simp)] at h
          cases hr : collect word types [] r with
          | error e => rw [hr] at h; simp at h
          | ok l =>
            rw [hr] at h
            simp at h
            subst h
            obtain ⟨i1, i2, i3⟩ := ih l hr
            refine ⟨by simpa [hf] using i1, ?_, ?_⟩
            · intro x hx
              simp at hx
              rcases hx with rfl | hx
              · exact ⟨by rw [hf]; exact hm, by simpa using hn⟩
              · exact i2 x hx
            · intro x hx hs
              simp at hx
              rcases hx with rfl | hx
              · exact ⟨g, hm, fun _ => by simp⟩
              · obtain ⟨g', h1, h2⟩ := i3 x hx hs
                exact ⟨g', h1, fun hh => by simp [h2 hh]⟩

/-- Disagreement: the names of the files are never compared, the error announced for a name found in two files is never raised. -/
theorem never_otherFile (word : Char → Bool) (types : Text → Option Text) (files : List File) :
    collect word types [] files ≠ .error .otherFile := by
  induction files with
  | nil => simp [collect]
  | cons f r ih =>
    simp only [collect]
    split
    · exact ih
    · cases hm : FileFn.make word types f with
      | error e =>
        simp only [ne_eq, Except.error.injEq]
        intro he
        subst he
        unfold FileFn.make at hm
        split at hm
        · simp at hm
        · cases hp : prepared types f with
          | error e =>
            rw [hp] at hm
            simp at hm
            subst hm
            unfold prepared at hp
            split at hp
            · generalize splitlines f.text = ls at hp
              have : uncommentAll (f.comment types) ls ≠ .error .otherFile := by
                clear hp
                induction ls with
                | nil => simp [uncommentAll]
                | cons l ls ih2 =>
                  simp only [uncommentAll]
                  have h1 : uncomment (f.comment types) l ≠ .error .otherFile := by
                    cases f.comment types with
                    | none => simp [uncomment]
                    | some cc => rw [uncomment_eq]; split <;> simp
                  split
                  · next he =>
                    split at he
                    · rw [he] at h1; simpa using h1
                    · simp at he
                  · split
                    · next he => rw [he] at ih2; simpa using ih2
                    · simp
              split at hp
              · next he => rw [he] at this; simp at hp; exact this (by rw [hp])
              · simp at hp
            · simp at hp
          | ok t =>
            rw [hp] at hm
            simp only at hm
            split at hm <;> simp at hm
      | ok g =>
        simp only
        split
        · exact ih
        · rw [if_neg (by simp)]
          cases hr : collect word types [] r with
          | error e => rw [hr] at ih; simpa using ih
          | ok l => simp

/-! ## Instantiation -/

theorem get_filter (kw : List (Text × Val)) (names : List Text) (n : Text) (h : n ∈ names) :
    get (kw.filter (fun p => decide (p.1 ∈ names))) n = get kw n := by
  unfold get
  congr 1
  induction kw with
  | nil => rfl
  | cons a kw ih =>
    by_cases ha : a.1 ∈ names
    · rw [List.filter_cons_of_pos (by simpa using ha), List.find?_cons, List.find?_cons, ih]
    · rw [List.filter_cons_of_neg (by simpa using ha), ih, List.find?_cons]
      have : (a.1 == n) = false := by
        rw [beq_eq_false_iff_ne]; intro e; exact ha (e ▸ h)
      rw [this]

/-- The text of a file once filled. -/
def filled (word : Char → Bool) (kw : List (Text × Val)) (g : FileFn) : Text :=
  (scan word g.text).flatMap (Seg.fill (valueOf (cLike g.file.ext) kw))

theorem fill_congr (l : List Seg) (v w : Text → Text) (h : ∀ n ∈ namesOf l, v n = w n) : l.flatMap (Seg.fill v) = l.flatMap (Seg.fill w) := by
  induction l with
  | nil => rfl
  | cons g l ih =>
    cases g with
    | lit c => simp only [namesOf] at h; simp [Seg.fill, ih h]
    | ph p =>
      simp only [namesOf, List.mem_cons, forall_eq_or_imp] at h
      simp [Seg.fill, ih h.2, h.1]

theorem call_filtered (word : Char → Bool) (types : Text → Option Text) (g : FileFn) (hg : FileFn.make word types g.file = .ok g)
    (kw : List (Text × Val)) (hk : ∀ n ∈ g.names, n ∈ kw.map (·.1)) :
    g.call word (kw.filter (fun p => decide (p.1 ∈ g.names))) = .ok (filled word kw g) := by
  rw [call_ok word types g.file g hg]
  · congr 1
    apply fill_congr
    intro n hn
    rw [← placeholders_names, ← ((make_spec word types _ g).1 hg).2.2.2.1] at hn
    unfold valueOf
    rw [get_filter kw g.names n hn]
  · intro n
    constructor
    · intro h
      rw [List.mem_map] at h
      obtain ⟨x, hx, rfl⟩ := h
      simpa using (List.mem_filter.1 hx).2
    · intro h
      have := hk n h
      rw [List.mem_map] at this ⊢
      obtain ⟨x, hx, rfl⟩ := this
      exact ⟨x, List.mem_filter.2 ⟨hx, by simpa using h⟩, rfl⟩

theorem write_removed (d : Disk) (p : Nat) (t : Text) : ((d.remove p).write p t).src = d.src ∧
    ((d.remove p).write p t).out = fun i => if i = p then some (.file t) else d.out i := by
  have h : (d.remove p).out p = none := by simp [Disk.remove]
  unfold Disk.write
  rw [h]
  refine ⟨rfl, ?_⟩
  funext i
  by_cases h : i = p <;> simp [Disk.remove, h]

theorem writeAll_ok (word : Char → Bool) (types : Text → Option Text) (kw : List (Text × Val)) (gs : List FileFn) (d : Disk)
    (hg : ∀ g ∈ gs, FileFn.make word types g.file = .ok g ∧ ∀ n ∈ g.names, n ∈ kw.map (·.1)) (hp : (gs.map (·.file.path)).Nodup) :
    ∃ d', writeAll word kw gs d = .ok d' ∧ d'.src = d.src ∧
      (∀ g ∈ gs, d'.out g.file.path = some (.file (filled word kw g))) ∧
      ∀ p, p ∉ gs.map (·.file.path) → d'.out p = d.out p := by
  induction gs generalizing d with
  | nil => exact ⟨d, rfl, rfl, by simp, by simp⟩
  | cons g l ih =>
    have h1 := hg g (by simp)
    simp only [List.map_cons, List.nodup_cons] at hp
    simp only [writeAll]
    rw [call_filtered word types g h1.1 kw h1.2]
    have hw := write_removed d g.file.path (filled word kw g)
    obtain ⟨d', i1, i2, i3, i4⟩ := ih ((d.remove g.file.path).write g.file.path (filled word kw g))
      (fun x hx => hg x (by simp [hx])) hp.2
    refine ⟨d', i1, by rw [i2, hw.1], ?_, ?_⟩
    · intro x hx
      simp at hx
      rcases hx with rfl | hx
      · rw [i4 _ hp.1, hw.2]; simp
      · exact i3 x hx
    · intro p hnp
      simp only [List.map_cons, List.mem_cons, not_or] at hnp
      rw [i4 p hnp.2, hw.2]
      simp [hnp.1]

/-- Instantiating an accepted folder with exactly its names always succeeds. The instrumented folder is left as it is, even though the output folder is
made of links to it; files with placeholders are filled; the other files read as in the instrumented folder, unless the output folder already had
them. -/
theorem instantiate_spec_partial (word : Char → Bool) (types : Text → Option Text) (files : List File) (gs : List FileFn)
    (hgs : folder word types files = .ok gs) (hp : (files.map (·.path)).Nodup) (kw : List (Text × Val))
    (hk : ∀ n, n ∈ kw.map (·.1) ↔ ∃ g ∈ gs, n ∈ g.names) (d : Disk) :
    ∃ d', instantiate word false gs kw d = .ok d' ∧ d'.src = d.src ∧
      (∀ g ∈ gs, d'.read g.file.path = some (filled word kw g)) ∧
      (∀ p, p ∉ gs.map (·.file.path) → d.read p = none → d'.read p = d.src p) ∧
      ∀ p, p ∉ gs.map (·.file.path) → d.read p ≠ none → d'.read p = d.read p := by
  have hc : collect word types [] files = .ok gs := by
    unfold folder at hgs
    cases hl : collect word types [] files with
    | error e => rw [hl] at hgs; simp at hgs
    | ok l =>
      rw [hl] at hgs
      simp only at hgs
      split at hgs
      · simp at hgs
      · exact hgs
  obtain ⟨c1, c2, _⟩ := collect_spec word types files gs hc
  have hn : (gs.map (·.file.path)).Nodup := by
    have := (c1.map (·.path)).nodup hp
    simpa [List.map_map, Function.comp_def] using this
  obtain ⟨d', w1, w2, w3, w4⟩ := writeAll_ok word types kw gs d.shadow
    (fun g hg => ⟨(c2 g hg).1, fun n hnm => (hk n).2 ⟨g, hg, hnm⟩⟩) hn
  refine ⟨d', ?_, w2, ?_, ?_, ?_⟩
  · unfold instantiate
    have : sameSet (kw.map (·.1)) (gs.flatMap (·.names)) = true := by
      rw [sameSet_iff]; intro n; rw [hk n]; simp
    rw [this]; simpa using w1
  · intro g hg
    simp [Disk.read, w3 g hg]
  · intro p hpn hr
    have hs : d.shadow.out p = if (d.src p).isSome then some (.link p) else d.out p := by simp [Disk.shadow, hr]
    have h4 := w4 p hpn
    rw [hs] at h4
    have hsrc : d'.src = d.src := w2
    by_cases hsome : (d.src p).isSome = true
    · rw [if_pos hsome] at h4
      simp [Disk.read, h4, hsrc]
    · rw [if_neg hsome] at h4
      have : d'.read p = d.read p := by simp only [Disk.read, h4, hsrc]
      rw [this, hr]
      cases h : d.src p with
      | none => rfl
      | some x => rw [h] at hsome; simp at hsome
  · intro p hpn hr
    have hs : d.shadow.out p = d.out p := by
      have : (d.read p).isSome = true := by
        cases h : d.read p with
        | none => exact absurd h hr
        | some x => rfl
      simp [Disk.shadow, this]
    have h4 := w4 p hpn
    rw [hs] at h4
    have hsrc : d'.src = d.src := w2
    simp only [Disk.read, h4, hsrc]

/-- Instantiation is refused for other names, and on the folder itself. -/
theorem instantiate_refuses (word : Char → Bool) (gs : List FileFn) (kw : List (Text × Val)) (d : Disk) (n : Text)
    (h : ¬ (n ∈ kw.map (·.1) ↔ ∃ g ∈ gs, n ∈ g.names)) (same : Bool) : instantiate word same gs kw d = .error .wrongInput := by
  unfold instantiate
  rw [if_pos]
  simp only [Bool.not_eq_true']
  by_contra hs
  apply h
  have := (sameSet_iff _ _).1 (by simpa using hs) n
  simpa using this

theorem instantiate_same (word : Char → Bool) (gs : List FileFn) (kw : List (Text × Val)) (d d' : Disk) :
    instantiate word true gs kw d ≠ .ok d' := by
  unfold instantiate
  split <;> simp

/-! ## Output -/

theorem splitlines_one (l : Text) (hl : l ≠ []) (hn : '\n' ∉ l) : splitlines l = [l] := by
  induction l with
  | nil => exact absurd rfl hl
  | cons c t ih =>
    simp only [List.mem_cons, not_or] at hn
    simp only [splitlines]
    rw [if_neg (fun e => hn.1 e.symm)]
    cases t with
    | nil => rfl
    | cons d t => rw [ih (by simp) hn.2]

theorem splitlines_last (x l : Text) (hl : l ≠ []) (hn : '\n' ∉ l) : ∃ ls, ls ≠ [] ∧ splitlines (x ++ '\n' :: l) = ls ++ [l] := by
  induction x with
  | nil => exact ⟨[[]], by simp, by simp [splitlines, splitlines_one l hl hn]⟩
  | cons c x ih =>
    obtain ⟨ls, h1, h2⟩ := ih
    simp only [List.cons_append, splitlines]
    by_cases hc : c = '\n'
    · rw [if_pos hc, h2]; exact ⟨[] :: ls, by simp, rfl⟩
    · rw [if_neg hc, h2]
      obtain ⟨a, r, rfl⟩ := List.exists_cons_of_ne_nil h1
      exact ⟨(c :: a) :: r, by simp, rfl⟩

theorem drop_all (space : Char → Bool) (a b : Text) (ha : ∀ c ∈ a, space c = true) (hb : ∀ c, b.head? = some c → space c = false) :
    (a ++ b).dropWhile space = b := (takeWhile_name space a b ha hb).2

theorem drop_left (space : Char → Bool) (a b : Text) (c : Char) (hc : space c = true) (hb : ∀ c, b.head? = some c → space c = false) :
    (a ++ c :: b).dropWhile space = b ∨ ∃ x, (a ++ c :: b).dropWhile space = x ++ c :: b := by
  induction a with
  | nil => left; rw [List.nil_append, List.dropWhile_cons_of_pos hc]; simpa using drop_all space [] b (by simp) hb
  | cons d a ih =>
    by_cases hd : space d = true
    · rw [List.cons_append, List.dropWhile_cons_of_pos hd]; exact ih
    · right; rw [List.cons_append, List.dropWhile_cons_of_neg hd]; exact ⟨d :: a, rfl⟩

/-- The last line is taken without the spaces around it. -/
theorem lastLine_spec (space : Char → Bool) (hs : space '\n' = true) (before line blank : Text) (hb : ∀ c ∈ blank, space c = true)
    (hl : line ≠ []) (hn : '\n' ∉ line) (hlast : ∀ c, line.getLast? = some c → space c = false)
    (hfirst : ∀ c, line.head? = some c → space c = false) :
    lastLine space (before ++ '\n' :: line ++ blank) = some line := by
  have hh : ∀ c, (line ++ blank).head? = some c → space c = false := by
    intro c hc
    apply hfirst
    cases line with
    | nil => exact absurd rfl hl
    | cons d t => simpa using hc
  have hr : ∀ x : Text, (((x ++ (line ++ blank)).reverse).dropWhile space).reverse = x ++ line := by
    intro x
    have : (x ++ (line ++ blank)).reverse = blank.reverse ++ (x ++ line).reverse := by simp
    rw [this, drop_all space _ _ (by simpa using hb), List.reverse_reverse]
    intro c hc
    apply hlast
    rw [List.head?_reverse, List.getLast?_append] at hc
    cases h : line.getLast? with
    | none => simp at h; exact absurd h hl
    | some v => rw [h] at hc; simpa using hc
  unfold lastLine
  rw [List.append_assoc, List.cons_append]
  rcases drop_left space before (line ++ blank) '\n' hs hh with h | ⟨x, h⟩
  · rw [h]
    have := hr []
    simp only [List.nil_append] at this
    rw [this, splitlines_one line hl hn]; rfl
  · rw [h]
    have := hr (x ++ ['\n'])
    simp only [List.append_assoc, List.cons_append, List.nil_append] at this
    rw [this]
    obtain ⟨ls, _, h2⟩ := splitlines_last x line hl hn
    rw [h2]; simp

/-- Disagreement: an output made of blanks is not reported as "No output", there is no last line to convert. -/
theorem lastLine_blank (space : Char → Bool) (s : Text) (h : ∀ c ∈ s, space c = true) : lastLine space s = none := by
  have : s.dropWhile space = [] := by simpa using drop_all space s [] h (by simp)
  simp [lastLine, this, splitlines]

/-! ## Concrete cases and disagreements -/

section Examples

def w (c : Char) : Bool := c.isAlphanum || c == '_'

/-- `x = NG_ARG{a|b}`, then `;NG_ARG{}`. -/
def demo : Text := ['x', '='] ++ opening ++ ['a', '|', 'b', '}', ';'] ++ opening ++ ['}']

example : placeholders w demo = [⟨['a'], some ['b']⟩] := by decide +kernel
example : sub w true [(['a'], ⟨true, ['[', '1', ']']⟩)] demo = .ok (['x', '=', '{', '1', '}', ';'] ++ opening ++ ['}']) := by decide +kernel
example : sub w false [] demo = .error (.noValue ['a']) := by decide +kernel
example : sub w false [(['a'], ⟨false, ['1']⟩), (['b'], ⟨false, ['1']⟩)] demo = .error .unused := by decide +kernel
/-- Values are not searched. -/
example : sub w false [(['a'], ⟨false, opening ++ ['b', '}']⟩)] (opening ++ ['a', '}']) = .ok (opening ++ ['b', '}']) := by decide +kernel

def types (e : Text) : Option Text := if e = ['.', 'p', 'y'] then some ['#'] else if e = ['.', 'c'] then some ['/', '/'] else none

example : uncomment (some ['#']) ([' ', '#', ' '] ++ token ++ [' ', 'f']) = .ok [' ', 'f'] := by decide +kernel
example : uncomment (some ['#']) (['\t', '#'] ++ token ++ ['f']) = .error .tagRemains := by decide +kernel
example : uncomment (some ['#']) (['#'] ++ token ++ token) = .error .tagRemains := by decide +kernel

/-- Two files with the same placeholder. -/
def twin (i : Nat) : File := ⟨i, ['.', 'p', 'y'], opening ++ ['a', '}']⟩

/-- Disagreement: "names must be unique" between files, yet a folder where two files share a name is accepted. -/
theorem duplicate_accepted : ∃ g h, folder w types [twin 0, twin 1] = .ok [g, h] ∧ g.file ≠ h.file ∧ ∃ n, n ∈ g.names ∧ n ∈ h.names :=
  ⟨⟨twin 0, opening ++ ['a', '}'], [['a']]⟩, ⟨twin 1, opening ++ ['a', '}'], [['a']]⟩, by decide +kernel, by decide +kernel,
    ['a'], by decide, by decide⟩

/-- A file with a tag and no placeholder. -/
def tagged : File := ⟨2, ['.', 'p', 'y'], ['#'] ++ token ++ ['f', '\n']⟩

/-- Disagreement: tags are removed only in files with placeholders. The tag of a file without any is still there after instantiation. -/
theorem tag_stays : ∃ gs, folder w types [twin 0, tagged] = .ok gs ∧
    ∀ d : Disk, d.out = (fun _ => none) → d.src tagged.path = some tagged.text →
      ∃ d' t, instantiate w false gs [(['a'], ⟨false, ['1']⟩)] d = .ok d' ∧ d'.read tagged.path = some t ∧ contains token t = true := by
  refine ⟨[⟨twin 0, opening ++ ['a', '}'], [['a']]⟩], by decide +kernel, ?_⟩
  intro d hd hs
  obtain ⟨d', h1, _, _, h4, _⟩ := instantiate_spec_partial w types [twin 0, tagged] [⟨twin 0, opening ++ ['a', '}'], [['a']]⟩] (by decide +kernel)
    (by decide) [(['a'], ⟨false, ['1']⟩)] (by intro n; simp) d
  refine ⟨d', tagged.text, h1, ?_, by decide +kernel⟩
  rw [h4 tagged.path (by decide) (by simp [Disk.read, hd]), hs]

/-- Disagreement: an output folder which already has a file keeps it, whatever the instrumented folder holds. -/
theorem stale_file : ∃ (gs : List FileFn) (d d' : Disk), instantiate w false gs [(['a'], ⟨false, ['1']⟩)] d = .ok d' ∧
    d'.read 5 = some ['o', 'l', 'd'] ∧ d'.src 5 = some ['n', 'e', 'w'] := by
  let d : Disk := ⟨fun i => if i = 5 then some ['n', 'e', 'w'] else none, fun i => if i = 5 then some (.file ['o', 'l', 'd']) else none⟩
  obtain ⟨d', h1, h2, _, _, h5⟩ := instantiate_spec_partial w types [twin 0] [⟨twin 0, opening ++ ['a', '}'], [['a']]⟩] (by decide +kernel)
    (by decide) [(['a'], ⟨false, ['1']⟩)] (by intro n; simp) d
  refine ⟨_, d, d', h1, ?_, ?_⟩
  · rw [h5 5 (by decide) (by simp [Disk.read, d])]; simp [Disk.read, d]
  · rw [h2]; simp [d]

/-- Disagreement: the type of a file is looked up in lower case, but C arrays are recognised by the extension as written: in a file `.C` an array is
written with brackets. -/
theorem upper_case_array : ∃ g, FileFn.make w types ⟨0, ['.', 'C'], opening ++ ['a', '}']⟩ = .ok g ∧
    ((File.comment types ⟨0, ['.', 'C'], []⟩) = some ['/', '/']) ∧
    g.call w [(['a'], ⟨true, ['[', '1', ']']⟩)] = .ok ['[', '1', ']'] :=
  ⟨⟨⟨0, ['.', 'C'], opening ++ ['a', '}']⟩, opening ++ ['a', '}'], [['a']]⟩, by decide +kernel, by decide +kernel, by decide +kernel⟩

/-- Disagreement: the last line break of a file is lost when the file holds a tag. -/
theorem newline_lost : prepared types ⟨0, ['.', 'p', 'y'], ['#'] ++ token ++ ['f', '\n', 'g', '\n']⟩ = .ok ['f', '\n', 'g'] := by decide +kernel

example : lastLine (fun c => c == ' ' || c == '\n') ['a', '\n', '3', '.', '5', ' ', '\n'] = some ['3', '.', '5'] := by decide +kernel

end Examples

end Tpl
end NG
