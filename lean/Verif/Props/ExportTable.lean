/-
C152: the tables of competence maps in LaTeX: what a reader of the table finds in each cell.
-/
import Verif.Model.ExportTable
import Mathlib.Data.List.TakeWhile
import Mathlib.Tactic.Common

namespace NG.ExportTable

/-- Specification: what LaTeX reads as the cells of a line, by separation at each `&`. -/
def cells : List Char → List (List Char)
  | [] => [[]]
  | c :: l =>
    if c = '&' then [] :: cells l
    else match cells l with
      | [] => [[c]]
      | a :: r => (c :: a) :: r

theorem cells_ne (l : List Char) : cells l ≠ [] := by
  cases l with
  | nil => simp [cells]
  | cons c l =>
    unfold cells
    split
    · simp
    · split <;> simp

theorem cells_plain (a : List Char) (h : '&' ∉ a) : cells a = [a] := by
  induction a with
  | nil => rfl
  | cons c a ih =>
    have hc : c ≠ '&' := by rintro rfl; simp at h
    have ha : '&' ∉ a := fun hm => h (List.mem_cons_of_mem _ hm)
    simp [cells, hc, ih ha]

theorem cells_append (a l : List Char) (h : '&' ∉ a) : cells (a ++ '&' :: l) = a :: cells l := by
  induction a with
  | nil => simp [cells]
  | cons c a ih =>
    have hc : c ≠ '&' := by rintro rfl; simp at h
    have ha : '&' ∉ a := fun hm => h (List.mem_cons_of_mem _ hm)
    simp [cells, hc, ih ha]

theorem cells_join (l : List (List Char)) (hl : l ≠ []) (h : ∀ a ∈ l, '&' ∉ a) : cells (join l) = l := by
  induction l with
  | nil => exact absurd rfl hl
  | cons a l ih =>
    cases l with
    | nil => exact cells_plain a (h a (by simp))
    | cons b l =>
      rw [join, cells_append a _ (h a (by simp)), ih (by simp) fun x hx => h x (List.mem_cons_of_mem _ hx)]

theorem mem_escape (d : List Char) (c : Char) : c ∈ escape d ↔ c ≠ '_' ∧ (c ∈ d ∨ (c = '\\' ∧ '%' ∈ d)) := by
  simp only [escape, List.mem_filter, List.mem_flatMap, decide_eq_true_eq]
  constructor
  · rintro ⟨⟨x, hx, hc⟩, hn⟩
    refine ⟨hn, ?_⟩
    split at hc
    · rename_i e
      subst e
      simp only [List.mem_cons, List.not_mem_nil, or_false] at hc
      rcases hc with rfl | rfl
      · exact Or.inr ⟨rfl, hx⟩
      · exact Or.inl hx
    · simp only [List.mem_singleton] at hc
      exact Or.inl (hc ▸ hx)
  · rintro ⟨hn, h⟩
    refine ⟨?_, hn⟩
    rcases h with h | ⟨rfl, h⟩
    · refine ⟨c, h, ?_⟩
      split
      · rename_i e; subst e; simp
      · simp
    · exact ⟨'%', h, by simp⟩

theorem mem_cell (d : List Char) (c : Char) (h : c ∈ cell d) : c ≠ '(' ∧ c ∈ escape d := by
  constructor
  · have := List.mem_takeWhile_imp h
    simpa using this
  · exact (List.takeWhile_prefix _).subset h

/-- **C152.** No cell of the data has a parenthesis or an underscore, and a cell is what precedes the first parenthesis. -/
theorem cell_clean (d : List Char) : '(' ∉ cell d ∧ '_' ∉ cell d ∧ ('&' ∉ d → '&' ∉ cell d) := by
  refine ⟨fun h => (mem_cell d _ h).1 rfl, fun h => ((mem_escape d _).1 (mem_cell d _ h).2).1 rfl, fun hd h => ?_⟩
  rcases ((mem_escape d _).1 (mem_cell d _ h).2).2 with h' | h'
  · exact hd h'
  · exact absurd h'.1 (by decide)

/-- **C152.** A text without percent sign, underscore and parenthesis is written as it is; what follows a parenthesis is not written. -/
theorem cell_plain (d e : List Char) (h1 : '%' ∉ d) (h2 : '_' ∉ d) (h3 : '(' ∉ d) : cell d = d ∧ cell (d ++ '(' :: e) = d := by
  have key : escape d = d := by
    unfold escape
    have : (d.flatMap fun c => if c = '%' then ['\\', '%'] else [c]) = d := by
      induction d with
      | nil => rfl
      | cons c d ih =>
        have hc : c ≠ '%' := by rintro rfl; simp at h1
        rw [List.flatMap_cons, if_neg hc, ih (fun h => h1 (List.mem_cons_of_mem _ h)) (fun h => h2 (List.mem_cons_of_mem _ h))
          fun h => h3 (List.mem_cons_of_mem _ h)]
        rfl
    rw [this, List.filter_eq_self]
    intro a ha
    exact decide_eq_true (fun he => h2 (he ▸ ha))
  have hp : ∀ x ∈ d, (decide (x ≠ '(')) = true := by
    intro a ha
    exact decide_eq_true (fun he => h3 (he ▸ ha))
  constructor
  · rw [cell, key, beforeParen, List.takeWhile_eq_self_iff.2 hp]
  · have : escape (d ++ '(' :: e) = d ++ '(' :: escape e := by
      have h := key
      unfold escape at h ⊢
      rw [List.flatMap_append, List.filter_append, h, List.flatMap_cons]
      simp
    rw [cell, this, beforeParen, List.takeWhile_append_of_pos hp]
    simp

/-- **C152.** The percent signs are escaped one by one, in order, wherever they are. -/
theorem cell_percent (d e : List Char) (h1 : '%' ∉ d) (h2 : '_' ∉ d) (h3 : '(' ∉ d) : cell (d ++ '%' :: e) = d ++ '\\' :: '%' :: cell e := by
  have hd := (cell_plain d [] h1 h2 h3).1
  have hp : ∀ x ∈ d, (decide (x ≠ '(')) = true := by
    intro a ha
    exact decide_eq_true (fun he => h3 (he ▸ ha))
  have key : escape d = d := by
    have h4 : '(' ∉ escape d := fun hm => by
      rcases ((mem_escape d _).1 hm).2 with h | h
      · exact h3 h
      · exact absurd h.1 (by decide)
    have : cell d = escape d := by
      rw [cell, beforeParen, List.takeWhile_eq_self_iff.2]
      intro a ha
      exact decide_eq_true (fun he => h4 (he ▸ ha))
    rw [← this, hd]
  have : escape (d ++ '%' :: e) = d ++ '\\' :: '%' :: escape e := by
    have h := key
    unfold escape at h ⊢
    rw [List.flatMap_append, List.filter_append, h, List.flatMap_cons]
    simp
  rw [cell, this, beforeParen, List.takeWhile_append_of_pos hp]
  simp [cell, beforeParen]

/-- **C152.** A text with an underscore is written without it. -/
theorem cell_underscore (d e : List Char) : cell (d ++ '_' :: e) = cell (d ++ e) := by
  simp [cell, escape]

/-- **C152, partial.** The line of a row has the name of the row and then its data, in the columns of the table. Missing: texts with an ampersand
(`ampersand_shifts`), rows whose data has another length than the columns (`line_width`). -/
theorem line_cells_partial (row : List Char) (data : List (List Char)) (hr : '&' ∉ row) (hd : data ≠ []) (h : ∀ d ∈ data, '&' ∉ d) :
    ∃ t, line row data = t ++ lineEnd ∧ cells t = row :: data.map cell := by
  refine ⟨row ++ '&' :: join (data.map cell), by simp [line], ?_⟩
  rw [cells_append row _ hr, cells_join]
  · simpa using hd
  · intro a ha
    obtain ⟨d, hm, rfl⟩ := List.mem_map.1 ha
    exact (cell_clean d).2.2 (h d hm)

/-- **C152.** The line of the names has an empty cell, then each column: as many as the columns that are declared. -/
theorem header_cells (cols : List (List Char)) (hc : cols ≠ []) (h : ∀ d ∈ cols, '&' ∉ d) :
    ∃ t, header cols = t ++ lineEnd ∧ (cells t).length = columns cols ∧
      ∃ first rest, cells t = [' '] :: (' ' :: first) :: rest ∧ cols = first :: rest := by
  refine ⟨" & ".toList ++ join cols, rfl, ?_⟩
  obtain ⟨a, l, rfl⟩ := List.exists_cons_of_ne_nil hc
  have e : cells (" & ".toList ++ join (a :: l)) = [' '] :: (' ' :: a) :: l := by
    have h1 : " & ".toList ++ join (a :: l) = [' '] ++ '&' :: (' ' :: join (a :: l)) := by
      have : " & ".toList = [' ', '&', ' '] := by decide
      rw [this]; rfl
    rw [h1, cells_append _ _ (by decide), cells]
    rw [if_neg (by decide), cells_join (a :: l) (by simp) h]
  rw [e]
  exact ⟨by simp [columns, Nat.add_comm], a, l, rfl, rfl⟩

/-- **C152.** One line for each row, in order, when there is data for each; the data of further rows is ignored. -/
theorem body_spec (rows : List (List Char)) (data : List (List (List Char))) :
    (body rows data).1 = List.zipWith line rows data ∧ ((body rows data).2 = true ↔ rows.length ≤ data.length) := by
  induction rows generalizing data with
  | nil => simp [body]
  | cons r rows ih =>
    cases data with
    | nil => simp [body]
    | cons d data => simp [body, ih data]

/-- **C152, negative.** An ampersand in the name of a row moves its data by one column. -/
theorem ampersand_shifts (a b : List Char) (data : List (List Char)) (ha : '&' ∉ a) (hb : '&' ∉ b) (hd : data ≠ []) (h : ∀ d ∈ data, '&' ∉ d) :
    ∃ t, line (a ++ '&' :: b) data = t ++ lineEnd ∧ cells t = a :: b :: data.map cell := by
  obtain ⟨t, h1, h2⟩ := line_cells_partial b data hb hd h
  refine ⟨a ++ '&' :: t, ?_, by rw [cells_append a _ ha, h2]⟩
  simp only [line, List.append_assoc, List.cons_append] at h1 ⊢
  rw [h1]

/-- **C152, negative.** The length of the data is not compared to the number of columns. -/
theorem line_width (row : List Char) (data : List (List Char)) (hr : '&' ∉ row) (hd : data ≠ []) (h : ∀ d ∈ data, '&' ∉ d) (cols : List (List Char)) :
    ∃ t, line row data = t ++ lineEnd ∧ ((cells t).length = columns cols ↔ data.length = cols.length) := by
  obtain ⟨t, h1, h2⟩ := line_cells_partial row data hr hd h
  refine ⟨t, h1, ?_⟩
  rw [h2]
  simp [columns, Nat.add_comm]

/-- **C152, negative.** The names of rows and columns are not escaped: a percent sign in the name of a row is written as it is, and the rest of the line is a comment. -/
theorem row_not_escaped (a b : List Char) (data : List (List Char)) : ∃ t, line (a ++ '%' :: b) data = a ++ '%' :: t ∧
    ∃ u, t = u ++ lineEnd := ⟨_, by simp only [line, List.append_assoc, List.cons_append]; rfl, b ++ '&' :: join (data.map cell), by simp⟩

/-- **C152, negative.** Optimizers that differ by their parameters only cannot be told apart in the table. -/
theorem parameters_lost (d e f : List Char) (h1 : '%' ∉ d) (h2 : '_' ∉ d) (h3 : '(' ∉ d) : cell (d ++ '(' :: e) = cell (d ++ '(' :: f) :=
  (cell_plain d e h1 h2 h3).2.trans (cell_plain d f h1 h2 h3).2.symm

example : cell "CMA_50%(popsize=3)".toList = "CMA50\\%".toList := by decide

example : line "20".toList ["DE".toList, "PSO(4)".toList] = "20&DE&PSO\\\\\n".toList := by decide

end NG.ExportTable
