import Verif.Model.Hiplot
import Verif.Props.ParamLog

/-!
# C167: the export of logs to HiPlot
-/

namespace NG
namespace Hiplot

open Tools ParamLog

/-- A key of the log which is not a parameter, and mentions identifiers or asks. -/
def Internal (k : Key) : Prop := "#".toList <+: k ∧ ("uid".toList <:+: k ∨ "ask".toList <:+: k)

theorem contains_iff (t : Key) : ∀ k : Key, contains t k = true ↔ t <:+: k
  | [] => by simp [contains, List.isEmpty_iff]
  | c :: k => by
    have ih := contains_iff t k
    simp only [contains, Bool.or_eq_true, List.isPrefixOf_iff_prefix, ih, List.infix_cons_iff]

theorem hidden_iff (k : Key) : hidden k = true ↔ Internal k := by
  simp only [hidden, Internal, Bool.and_eq_true, Bool.or_eq_true, contains_iff, List.isPrefixOf_iff_prefix]

theorem dictGet_filter (p : Key → Bool) (k : Key) : ∀ d : List (Key × Leaf), dictGet (d.filter (fun e => p e.1)) k = if p k then dictGet d k else none
  | [] => by simp [dictGet]
  | e :: d => by
    have ih := dictGet_filter p k d
    unfold dictGet at ih ⊢
    by_cases hk : e.1 = k
    · by_cases hp : p k = true
      · simp [hk, hp]
      · simp only [hp, Bool.false_eq_true, if_false] at ih ⊢
        rw [List.filter_cons, if_neg (by rw [hk]; exact hp)]
        exact ih
    · by_cases hp : p e.1 = true
      · rw [List.filter_cons, if_pos hp, List.find?_cons, List.find?_cons]
        simp only [hk, decide_false]
        exact ih
      · rw [List.filter_cons, if_neg hp, List.find?_cons]
        simp only [hk, decide_false]
        exact ih

open Classical in
/-- **C167**: a point shows every value of its line except the internal ones. -/
theorem point_values (xp : List (Key × Leaf)) (p : Point) (h : point xp = some p) (k : Key) :
    dictGet p.values k = if Internal k then none else dictGet xp k := by
  unfold point at h
  obtain ⟨u, _, rfl⟩ := Option.map_eq_some_iff.1 h
  simp only
  rw [dictGet_filter (fun k => !hidden k)]
  by_cases hk : Internal k
  · rw [if_pos hk, if_neg (by simp [(hidden_iff k).2 hk])]
  · rw [if_neg hk, if_pos (by
      cases hh : hidden k with
      | false => rfl
      | true => exact absurd ((hidden_iff k).1 hh) hk)]

/-- Parameters are always shown: their names do not start with `#`. -/
theorem parameter_shown (xp : List (Key × Leaf)) (p : Point) (h : point xp = some p) (k : Key) (hk : k.head? ≠ some '#') :
    dictGet p.values k = dictGet xp k := by
  rw [point_values xp p h k, if_neg]
  rintro ⟨⟨t, ht⟩, -⟩
  rw [← ht] at hk
  exact hk rfl

theorem mapM_forall2 {α β : Type} (f : α → Option β) : ∀ (l : List α) (r : List β), l.mapM f = some r ↔ List.Forall₂ (fun a b => f a = some b) l r
  | [], r => by
    simp only [List.mapM_nil, Option.pure_def, Option.some.injEq, List.forall₂_nil_left_iff]
    exact eq_comm
  | a :: l, r => by
    simp only [List.mapM_cons, Option.pure_def, Option.bind_eq_bind, Option.bind_eq_some_iff, Option.some.injEq, List.forall₂_cons_left_iff]
    constructor
    · rintro ⟨b, hb, r', hr, rfl⟩
      exact ⟨b, r', hb, (mapM_forall2 f l r').1 hr, rfl⟩
    · rintro ⟨b, r', hb, hr, rfl⟩
      exact ⟨b, hb, r', (mapM_forall2 f l r').2 hr, rfl⟩

/-- **C167**: one point for each line of the log, in the order of the log. -/
theorem one_point_per_line (max : Nat) (listKeys : Line → List Key) (file : Option (List Line)) (ps : List Point) :
    experiment max listKeys file = some ps ↔
      List.Forall₂ (fun line p => ∃ r, flattenLine max listKeys line = some r ∧ point r = some p) (load file) ps := by
  unfold experiment loadFlattened
  rw [Option.bind_eq_some_iff]
  constructor
  · rintro ⟨l, h1, h2⟩
    rw [mapM_forall2] at h1 h2
    generalize load file = ls at h1
    revert ps
    induction h1 with
    | nil => intro ps h2; cases h2; exact List.Forall₂.nil
    | cons h _ ih =>
      intro ps h2
      cases h2 with
      | cons h' h2' => exact List.Forall₂.cons ⟨_, h, h'⟩ (ih _ h2')
  · intro h
    have : ∃ l, List.Forall₂ (fun a b => flattenLine max listKeys a = some b) (load file) l ∧ List.Forall₂ (fun a b => point a = some b) l ps := by
      generalize load file = ls at h
      induction h with
      | nil => exact ⟨[], List.Forall₂.nil, List.Forall₂.nil⟩
      | cons h _ ih =>
        obtain ⟨r, h1, h2⟩ := h
        obtain ⟨l, h3, h4⟩ := ih
        exact ⟨r :: l, List.Forall₂.cons h1 h3, List.Forall₂.cons h2 h4⟩
    obtain ⟨l, h1, h2⟩ := this
    exact ⟨l, (mapM_forall2 _ _ _).2 h1, (mapM_forall2 _ _ _).2 h2⟩

theorem join_no (c : Char) (hc : c ∉ ['0', '1', '2', '3', '4', '5', '6', '7', '8', '9']) (hu : c ≠ '_') : ∀ is : List Nat, c ∉ join is
  | [] => by simp [join]
  | [i] => by simp only [join]; exact decimal_no c hc i
  | i :: j :: is => by
    simp only [join, List.mem_append, List.mem_cons, not_or]
    exact ⟨decimal_no c hc i, hu, join_no c hc hu (j :: is)⟩

/-- The keys made for the elements of lists end with digits. -/
theorem flatKey_ne (c : Char) (hc : c ∉ ['0', '1', '2', '3', '4', '5', '6', '7', '8', '9']) (hu : c ≠ '_') (w key : Key) (idx : List Nat)
    (hw : '#' ∉ w) (hm : c ∈ w) : flatKey key idx ≠ '#' :: w := by
  intro h
  have h2 : key ++ '#' :: join idx = [] ++ '#' :: w := h
  have h3 := (sep_last_inj '#' (join_no_hash idx) hw h2).2
  exact join_no c hc hu idx (h3 ▸ hm)

section
variable {lg : Logger} {i : Info} {max : Nat} {listKeys : Line → List Key} {line : Line} {r : List (Key × Leaf)}

/-- A scalar of the header is found in the flattened line. -/
theorem header_flattened (ho : SetOrder listKeys) (hw : dumps (entry lg i) = some line) (hr : flattenLine max listKeys line = some r)
    (c : Char) (hc : c ∉ ['0', '1', '2', '3', '4', '5', '6', '7', '8', '9']) (hu : c ≠ '_') (w : Key) (hh : '#' ∉ w) (hm : c ∈ w) (l : Leaf)
    (he : dictGet (entry lg i) ('#' :: w) = some (.leaf l)) : dictGet r ('#' :: w) = some l := by
  have hl : (line.map (·.1)).Nodup := by rw [dumps_keys hw]; exact entry_nodup lg i
  rw [flattenLine_get ho hl hr]
  right
  refine ⟨?_, ?_⟩
  · rintro ⟨key, idx, l', -, -, h⟩
    exact flatKey_ne c hc hu w key idx hh hm h.symm
  · rw [dumps_get hw, he]; rfl

theorem parents_key_free (hw : dumps (entry lg i) = some line) (hn : ∀ e ∈ (i.flat 1).flatMap assigned, e.1.head? ≠ some '#') :
    dictGet line "#parents_uids#0".toList = none := by
  rw [dumps_get hw]
  unfold entry
  rw [addItems_eq, dictUpdate_other _ _ _ (fun e he hc => hn e he (by rw [hc]; rfl)),
    header_other lg i (by decide) (by decide) (by decide) (by decide), if_neg (by rintro ⟨-, h⟩; exact absurd h (by decide))]
  rfl

/-- With `max_list_elements=0` no point is linked to its parents. -/
theorem no_links (ho : SetOrder listKeys) (hw : dumps (entry lg i) = some line) (hr : flattenLine 0 listKeys line = some r)
    (hn : ∀ e ∈ (i.flat 1).flatMap assigned, e.1.head? ≠ some '#') (p : Point) (h : point r = some p) : p.fromUid = none := by
  have hl : (line.map (·.1)).Nodup := by rw [dumps_keys hw]; exact entry_nodup lg i
  unfold point at h
  obtain ⟨u, _, rfl⟩ := Option.map_eq_some_iff.1 h
  simp only
  rw [Option.eq_none_iff_forall_ne_some]
  intro l hl'
  rw [flattenLine_get ho hl hr, parents_key_free hw hn] at hl'
  rcases hl' with ⟨key, idx, ⟨x, -, -, h3⟩, -⟩ | ⟨-, h⟩
  · exact absurd h3 (Nat.not_lt_zero _)
  · cases h

theorem toJList_leaves : ∀ ls : List Leaf, toJList (ls.map .leaf) = some (ls.map .leaf)
  | [] => rfl
  | l :: ls => by simp only [List.map_cons, toJList, toJ, toJList_leaves ls]

/-- **C167**: a logged candidate whose parameters have names that do not start with `#` becomes a point with its uid, linked to its first parent from the second generation on, and the
two axes of the display are values of the point: its loss and the number of tells. -/
theorem point_of_candidate (ho : SetOrder listKeys) (hw : dumps (entry lg i) = some line) (hr : flattenLine max listKeys line = some r)
    (hmax : 0 < max) (hn : ∀ e ∈ (i.flat 1).flatMap assigned, e.1.head? ≠ some '#') :
    ∃ p, point r = some p ∧ p.uid = i.uid ∧ p.fromUid = (if 1 < i.generation then i.parents.head? else none)
      ∧ dictGet p.values axes.1 = some (.num i.numTell) ∧ dictGet p.values axes.2 = some i.loss := by
  have hb : ∀ e ∈ (i.flat 1).flatMap assigned, e.1 ∉ (base lg i).map (·.1) := by
    intro e he hmem
    have := hn e he
    simp only [base, List.map_cons, List.map_nil, List.mem_cons, List.not_mem_nil, or_false] at hmem
    rcases hmem with h | h | h | h | h | h | h | h | h | h | h <;> rw [h] at this <;> exact this rfl
  obtain ⟨e1, e2, -, -, -, e6, -, -, -, -, e11⟩ := entry_header_partial lg i hb
  have hl : (line.map (·.1)).Nodup := by rw [dumps_keys hw]; exact entry_nodup lg i
  have u : dictGet r "#uid".toList = some i.uid := header_flattened ho hw hr 'u' (by decide) (by decide) "uid".toList (by decide) (by decide) _ e2
  have t : dictGet r "#num-tell".toList = some (.num i.numTell) :=
    header_flattened ho hw hr 'n' (by decide) (by decide) "num-tell".toList (by decide) (by decide) _ e6
  have lo : dictGet r "#loss".toList = some i.loss := header_flattened ho hw hr 'l' (by decide) (by decide) "loss".toList (by decide) (by decide) _ e1
  have hp : ∃ p, point r = some p ∧ p.uid = i.uid ∧ p.fromUid = dictGet r "#parents_uids#0".toList := by
    unfold point; rw [u]; exact ⟨_, rfl, rfl, rfl⟩
  obtain ⟨p, hp, hu, hf⟩ := hp
  have nt : ¬ Internal "#num-tell".toList := by rw [← hidden_iff]; decide
  have nl : ¬ Internal "#loss".toList := by rw [← hidden_iff]; decide
  refine ⟨p, hp, hu, ?_, ?_, ?_⟩
  · rw [hf]
    have hx : dictGet line "#parents_uids".toList = some (.list ((if 1 < i.generation then i.parents else []).map .leaf)) := by
      rw [dumps_get hw, e11]
      have : (if 1 < i.generation then i.parents.map PV.leaf else []) = (if 1 < i.generation then i.parents else []).map PV.leaf := by
        split <;> rfl
      rw [this]
      simp only [Option.bind_some, toJ, toJList_leaves, Option.map_some]
    have hk : "#parents_uids#0".toList = flatKey "#parents_uids".toList [0] := by decide
    have hne := parents_key_free hw hn
    have goal : (if 1 < i.generation then i.parents.head? else none) = (if 1 < i.generation then i.parents else []).head? := by
      split <;> rfl
    rw [goal]
    generalize (if 1 < i.generation then i.parents else []) = ps at hx
    apply Option.ext
    intro l
    rw [flattenLine_get ho hl hr, hne]
    simp only [reduceCtorEq, and_false, or_false]
    constructor
    · rintro ⟨key, idx, ⟨x, h1, h2, -⟩, -, h3⟩
      rw [hk] at h3
      obtain ⟨rfl, rfl⟩ := flatKey_inj h3
      rw [hx] at h1
      simp only [Option.some.injEq] at h1
      subst h1
      cases ps with
      | nil => simp [at?] at h2
      | cons a ps => simpa [at?] using h2
    · intro h
      cases ps with
      | nil => simp at h
      | cons a ps =>
        simp only [List.head?_cons, Option.some.injEq] at h
        subst h
        exact ⟨_, [0], ⟨_, hx, by simp [at?], by simpa [pos, shape] using hmax⟩, by simp, hk⟩
  · rw [point_values r p hp]
    exact (if_neg nt).trans t
  · rw [point_values r p hp]
    exact (if_neg nl).trans lo
end

/-- The keys of the log which the display should leave out: identifiers and the number of asks. -/
def leftOut : List Key := ["#uid".toList, "#num-ask".toList]

/-- The part which holds: among the fixed keys of a line, those left out are the two of `leftOut` (the parents are a list, shown as links) and the number of points told without having been asked. -/
theorem left_out_partial (lg : Logger) (i : Info) :
    ((base lg i).map (·.1)).filter hidden = ["#num-ask".toList, "#num-tell-not-asked".toList, "#uid".toList, "#parents_uids".toList] := by
  have : (base lg i).map (·.1) = (base ⟨.other 0, 0⟩ (plain [])).map (·.1) := rfl
  rw [this]; decide

/-- **Against the code**: the number of points told without having been asked is never shown, as its key contains "ask". -/
theorem not_asked_hidden (xp : List (Key × Leaf)) (p : Point) (h : point xp = some p) :
    "#num-tell-not-asked".toList ∉ leftOut ∧ dictGet p.values "#num-tell-not-asked".toList = none := by
  refine ⟨by decide, ?_⟩
  rw [point_values xp p h, if_pos ((hidden_iff _).1 (by decide))]

/-- A line without uid makes the whole export fail. -/
theorem no_uid_raises (max : Nat) (listKeys : Line → List Key) (file : Option (List Line)) (line : Line) (hl : line ∈ load file)
    (h : ∀ r, flattenLine max listKeys line = some r → dictGet r "#uid".toList = none) : experiment max listKeys file = none := by
  cases he : experiment max listKeys file with
  | none => rfl
  | some ps =>
    rw [one_point_per_line] at he
    obtain ⟨n, hn⟩ := List.mem_iff_getElem?.1 hl
    have : ∃ p, ∃ r, flattenLine max listKeys line = some r ∧ point r = some p := by
      clear h
      generalize load file = ls at *
      clear hn
      induction he with
      | nil => simp at hl
      | cons h _ ih =>
        rcases List.mem_cons.1 hl with rfl | hl
        · exact ⟨_, h⟩
        · exact ih hl
    obtain ⟨p, r, h1, h2⟩ := this
    unfold point at h2
    rw [h r h1] at h2
    simp at h2

example : point [("#uid".toList, .text ['u']), ("#parents_uids#0".toList, .text ['p']), ("#loss".toList, .num 2), ("task".toList, .num 5), ("#num-ask".toList, .num 7)]
    = some ⟨some (.text ['p']), .text ['u'], [("#loss".toList, .num 2), ("task".toList, .num 5)]⟩ := by decide

end Hiplot
end NG
