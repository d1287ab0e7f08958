import Verif.Model.TypeNorm
import Mathlib.Data.List.Enum
import Mathlib.Data.List.Induction
import Mathlib.Tactic.Common

/-!
# C161: the types of the columns that are plotted
-/

namespace NG.TypeNorm

variable {ρ : Type}

/-- Rows whose labels are their places, as after `reset_index`. -/
def Fresh (rows : List (Row ρ)) : Prop := ∀ (i : Nat) (r : Row ρ), rows[i]? = some r → r.label = i

theorem dropAt_sublist (rows : List (Row ρ)) (ps : List Nat) : (dropAt rows ps).Sublist rows := by
  unfold dropAt
  have h := (List.filter_sublist (p := fun p : Row ρ × Nat => !ps.contains p.2) (l := rows.zipIdx)).map Prod.fst
  rwa [List.zipIdx_map_fst] at h

/-- No row is made up: what remains are rows of the table, in their order. -/
theorem columns_sublist (cs : List (ρ → Cell)) : ∀ (rows out : List (Row ρ)), columns cs rows = some out → out.Sublist rows := by
  have ht : ∀ (c : ρ → Cell) (rows out : List (Row ρ)), turn c rows = some out → out.Sublist rows := by
    intro c rows out h
    unfold turn at h
    split at h
    · simp only [Option.some.injEq] at h; subst h; exact List.Sublist.refl _
    · split at h
      · simp only [Option.some.injEq] at h; subst h; exact dropAt_sublist _ _
      · simp at h
  induction cs with
  | nil => intro rows out h; simp only [columns, Option.some.injEq] at h; subst h; exact List.Sublist.refl _
  | cons c cs ih =>
    intro rows out h
    simp only [columns, column] at h
    obtain ⟨r1, h1, h2⟩ := Option.bind_eq_some_iff.1 h
    obtain ⟨r0, h3, h4⟩ := Option.bind_eq_some_iff.1 h1
    exact (ih r1 out h2).trans ((ht c r0 r1 h4).trans (ht c rows r0 h3))

/-- Columns of numbers only lose no row, whatever the labels. -/
theorem columns_numbers (cs : List (ρ → Cell)) (rows : List (Row ρ)) (h : ∀ c ∈ cs, ∀ r ∈ rows, ∃ z, c r.data = .num z) :
    columns cs rows = some rows := by
  induction cs with
  | nil => rfl
  | cons c cs ih =>
    have hc : converts c rows = true := by
      unfold converts
      rw [List.all_eq_true]
      intro r hr
      obtain ⟨z, hz⟩ := h c (by simp) r hr
      simp [hz]
    simp only [columns, column, turn, hc, if_true, Option.bind_some]
    exact ih fun c' hc' => h c' (by simp [hc'])

private theorem lookup_fresh (rows : List (Row ρ)) (hf : Fresh rows) (i : Nat) (r : Row ρ) (h : rows[i]? = some r) : lookup rows i = some r := by
  unfold lookup
  cases hl : rows.find? fun r => r.label == i with
  | none =>
    have := List.find?_eq_none.1 hl r (List.mem_of_getElem? h)
    simp [hf i r h] at this
  | some r' =>
    have e := List.find?_some hl
    simp only [beq_iff_eq] at e
    obtain ⟨j, hj⟩ := List.getElem?_of_mem (List.mem_of_find?_eq_some hl)
    have := hf j r' hj
    have : j = i := by omega
    subst this
    rw [h] at hj
    exact hj.symm

/-- On fresh labels the places that fail are those of the texts that are not numbers. -/
theorem raises_fresh (cell : ρ → Cell) (rows : List (Row ρ)) (hf : Fresh rows) (i : Nat) (r : Row ρ) (h : rows[i]? = some r) :
    raises cell rows i = decide (cell r.data = .bad) := by
  unfold raises
  rw [lookup_fresh rows hf i r h]

private theorem filter_zipIdx (rows : List (Row ρ)) (p : Nat → Bool) (q : Row ρ → Bool) : ∀ k, (∀ (i : Nat) (r : Row ρ), rows[i]? = some r → p (k + i) = q r) →
    ((rows.zipIdx k).filter fun x => p x.2).map (·.1) = rows.filter q := by
  induction rows with
  | nil => intro k _; rfl
  | cons r rows ih =>
    intro k h
    have h0 := h 0 r (by simp)
    have := ih (k + 1) fun i r' hr' => by
      have := h (i + 1) r' (by simpa using hr')
      rw [← this]; congr 1; omega
    simp only [Nat.add_zero] at h0
    simp only [List.zipIdx_cons, List.filter_cons, h0]
    cases q r <;> simp [this]

theorem drop_fresh (cell : ρ → Cell) (rows : List (Row ρ)) (hf : Fresh rows) :
    dropAt rows (failed cell rows) = rows.filter fun r => !decide (cell r.data = .bad) := by
  unfold dropAt
  refine filter_zipIdx rows (fun n => !(failed cell rows).contains n) _ 0 ?_
  intro i r h
  have hi : i < rows.length := (List.getElem?_eq_some_iff.1 h).1
  have e : (failed cell rows).contains i = raises cell rows i := by
    unfold failed
    cases hr : raises cell rows i <;> simp [hr, hi]
  simp only [Nat.zero_add, e, raises_fresh cell rows hf i r h]

private theorem failed_length (cell : ρ → Cell) (rows : List (Row ρ)) (hf : Fresh rows) :
    (failed cell rows).length = rows.countP fun r => decide (cell r.data = .bad) := by
  have key : ∀ (p : Nat → Bool) (q : Row ρ → Bool) (l : List (Row ρ)), (∀ (i : Nat) (r : Row ρ), l[i]? = some r → p i = q r) →
      ((List.range l.length).filter p).length = l.countP q := by
    intro p q l
    induction l using List.reverseRecOn with
    | nil => intro _; rfl
    | append_singleton l r ih =>
      intro h
      have h1 := ih fun i r' hr' => h i r' (by rw [List.getElem?_append_left (List.getElem?_eq_some_iff.1 hr').1]; exact hr')
      have h2 := h l.length r (by simp)
      rw [List.length_append, List.length_singleton, List.range_succ, List.filter_append, List.length_append, h1, List.countP_append]
      congr 1
      cases hq : q r <;> simp [h2, hq]
  exact key _ _ rows fun i r h => raises_fresh cell rows hf i r h

/-- Part of the claim: the first column with texts that are not numbers loses exactly the rows of these texts, and if there is no NaN it is then converted. -/
theorem first_column_partial (cell : ρ → Cell) (rows : List (Row ρ)) (hf : Fresh rows)
    (hn : ∀ r ∈ rows, cell r.data ≠ .nan) (hc : (rows.countP fun r => decide (cell r.data = .bad)) < 100) :
    column cell rows = some (rows.filter fun r => !decide (cell r.data = .bad)) ∧ converted cell rows = true := by
  have hconv : converts cell (rows.filter fun r => !decide (cell r.data = .bad)) = true := by
    unfold converts
    rw [List.all_eq_true]
    intro r hr
    obtain ⟨hr1, hr2⟩ := List.mem_filter.1 hr
    have := hn r hr1
    cases h : cell r.data with
    | num z => rfl
    | nan => exact absurd h this
    | bad => simp [h] at hr2
  have ht : turn cell rows = some (rows.filter fun r => !decide (cell r.data = .bad)) := by
    unfold turn
    by_cases h : converts cell rows = true
    · rw [if_pos h]
      congr 1
      symm
      rw [List.filter_eq_self]
      intro r hr
      have := List.all_eq_true.1 h r hr
      cases h' : cell r.data <;> simp [h'] at this ⊢
    · rw [if_neg h, if_pos (by rw [failed_length cell rows hf]; exact hc), drop_fresh cell rows hf]
  refine ⟨?_, ?_⟩
  · unfold column
    rw [ht, Option.bind_some]
    unfold turn
    rw [if_pos hconv]
  · unfold converted
    rw [ht]
    exact hconv

/-- From a hundred texts that are not numbers the plots are given up. -/
theorem too_many (cell : ρ → Cell) (rows : List (Row ρ)) (hf : Fresh rows) (hc : 100 ≤ rows.countP fun r => decide (cell r.data = .bad)) :
    column cell rows = none := by
  have h : converts cell rows = false := by
    by_contra h
    rw [Bool.not_eq_false] at h
    have : (rows.countP fun r => decide (cell r.data = .bad)) = 0 := by
      rw [List.countP_eq_zero]
      intro r hr
      have := List.all_eq_true.1 h r hr
      cases h' : cell r.data <;> simp [h'] at this ⊢
    omega
  unfold column turn
  rw [h, failed_length cell rows hf]
  simp only [Bool.false_eq_true, if_false]
  rw [if_neg (by omega)]
  rfl

/-- A column that holds a NaN and only numbers otherwise keeps all its rows, on fresh labels, and is not converted. -/
theorem nan_kept (cell : ρ → Cell) (rows : List (Row ρ)) (hf : Fresh rows) (hn : ∃ r ∈ rows, cell r.data = .nan) (hb : ∀ r ∈ rows, cell r.data ≠ .bad) :
    column cell rows = some rows ∧ converted cell rows = false := by
  have hc : converts cell rows = false := by
    obtain ⟨r, hr, h⟩ := hn
    by_contra hc
    rw [Bool.not_eq_false] at hc
    have := List.all_eq_true.1 hc r hr
    simp [h] at this
  have hz : (rows.countP fun r => decide (cell r.data = .bad)) = 0 := by
    rw [List.countP_eq_zero]
    intro r hr
    simpa using hb r hr
  have hd : dropAt rows (failed cell rows) = rows := by
    rw [drop_fresh cell rows hf, List.filter_eq_self]
    intro r hr
    simpa using hb r hr
  have ht : turn cell rows = some rows := by
    unfold turn
    rw [hc, failed_length cell rows hf, hz, hd]
    rfl
  refine ⟨by unfold column; rw [ht, Option.bind_some, ht], by unfold converted; rw [ht]; exact hc⟩

/-- The claim is false for the next columns: the labels have holes once a row is gone, rows are then looked up by label and dropped by place.  Here the
second column has one text that is not a number, in the last row; the third row, with two numbers, is lost as well. -/
theorem good_row_lost : ∃ (rows : List (Row (Cell × Cell))) (r : Row (Cell × Cell)), Fresh rows ∧ r ∈ rows ∧ r.data = (.num 1, .num 2) ∧
    ∃ out, columns [Prod.fst, Prod.snd] rows = some out ∧ r.label ∉ out.map Row.label := by
  refine ⟨[⟨0, (.num 1, .num 2)⟩, ⟨1, (.bad, .num 2)⟩, ⟨2, (.num 1, .num 2)⟩, ⟨3, (.num 1, .bad)⟩], ⟨2, (.num 1, .num 2)⟩, ?_, by simp, rfl,
    [⟨0, (.num 1, .num 2)⟩], by rfl, by decide⟩
  intro i r h
  match i with
  | 0 => simp at h; subst h; rfl
  | 1 => simp at h; subst h; rfl
  | 2 => simp at h; subst h; rfl
  | 3 => simp at h; subst h; rfl
  | n + 4 => simp at h

/-! ## Texts of the other columns -/

private theorem stripEnd_spec (s t : List Char) :
    stripEnd s = t ↔ (∃ k, s = List.replicate k '0' ++ '.' :: t) ∨ ((¬ ∃ k u, s = List.replicate k '0' ++ '.' :: u) ∧ t = s) := by
  have dw : ∀ (k : Nat) (u : List Char), (List.replicate k '0' ++ '.' :: u).dropWhile (· == '0') = '.' :: u := by
    intro k u
    induction k with
    | zero => simp
    | succ k ih => simp [List.replicate_succ, ih]
  have form : ∀ k u, stripEnd (List.replicate k '0' ++ '.' :: u) = u := by
    intro k u
    unfold stripEnd
    rw [dw]
    rfl
  have back : ∀ u, s.dropWhile (· == '0') = '.' :: u → ∃ k, s = List.replicate k '0' ++ '.' :: u := by
    intro u h
    refine ⟨(s.takeWhile (· == '0')).length, ?_⟩
    have e := List.takeWhile_append_dropWhile (p := (· == '0')) (l := s)
    have hr : s.takeWhile (· == '0') = List.replicate (s.takeWhile (· == '0')).length '0' := by
      rw [List.eq_replicate_iff]
      refine ⟨rfl, fun c hc => ?_⟩
      have := List.all_eq_true.1 (List.all_takeWhile (p := (· == '0')) (l := s)) c hc
      simpa using this
    rw [h] at e
    rw [← hr]
    exact e.symm
  constructor
  · intro h
    by_cases hx : ∃ k u, s = List.replicate k '0' ++ '.' :: u
    · obtain ⟨k, u, rfl⟩ := hx
      rw [form] at h
      exact Or.inl ⟨k, by rw [h]⟩
    · refine Or.inr ⟨hx, ?_⟩
      rw [← h]
      unfold stripEnd
      split
      · next u hu => exact absurd ⟨_, u, (back u hu).choose_spec⟩ hx
      · rfl
  · rintro (⟨k, rfl⟩ | ⟨hx, rfl⟩)
    · exact form k t
    · unfold stripEnd
      split
      · next u hu => exact absurd ⟨_, u, (back u hu).choose_spec⟩ hx
      · rfl

/-- A point and zeros at the end are removed, and nothing else is. -/
theorem strip_spec (s t : List Char) :
    strip s = t ↔ (∃ k, s = t ++ '.' :: List.replicate k '0') ∨ ((¬ ∃ k u, s = u ++ '.' :: List.replicate k '0') ∧ t = s) := by
  have rv : ∀ (s u : List Char) (k : Nat), s.reverse = List.replicate k '0' ++ '.' :: u.reverse ↔ s = u ++ '.' :: List.replicate k '0' := by
    intro s u k
    rw [← List.reverse_inj]
    simp
  unfold strip
  have h1 : (stripEnd s.reverse).reverse = t ↔ stripEnd s.reverse = t.reverse := by
    rw [List.reverse_eq_iff]
  rw [h1, stripEnd_spec]
  have h2 : (∃ k u, s.reverse = List.replicate k '0' ++ '.' :: u) ↔ ∃ k u, s = u ++ '.' :: List.replicate k '0' := by
    constructor
    · rintro ⟨k, u, h⟩; exact ⟨k, u.reverse, (rv s u.reverse k).1 (by simpa using h)⟩
    · rintro ⟨k, u, h⟩; exact ⟨k, u.reverse, (rv s u k).2 h⟩
  rw [h2]
  simp only [rv, List.reverse_inj]

/-- An integer written with a point and zeros is the same text as without them; texts without a point do not change. -/
theorem strip_integer (s : List Char) (hs : '.' ∉ s) (k : Nat) : strip s = s ∧ strip (s ++ '.' :: List.replicate k '0') = s := by
  refine ⟨(strip_spec s s).2 (Or.inr ⟨?_, rfl⟩), (strip_spec _ s).2 (Or.inl ⟨k, rfl⟩)⟩
  rintro ⟨k, u, rfl⟩
  simp at hs

/-! ## Cases -/

example : column id [⟨0, .num 3⟩, ⟨1, .bad⟩, ⟨2, .num 5⟩] = some [⟨0, .num 3⟩, ⟨2, .num 5⟩] := by rfl
example : column id [⟨0, .num 3⟩, ⟨1, .nan⟩] = some [⟨0, .num 3⟩, ⟨1, .nan⟩] := by rfl
example : strip "12.00".toList = "12".toList ∧ strip "1.50".toList = "1.50".toList ∧ strip "1.0.0".toList = "1.0".toList
    ∧ strip "120".toList = "120".toList := by decide

end NG.TypeNorm
