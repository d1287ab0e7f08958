import Verif.Model.PlotCases
import Mathlib.Data.List.Nodup
import Mathlib.Tactic.Ring

/-!
# C157: the cases of the plots, the competence maps and the names of files
-/

namespace NG.PlotCases

variable {C V : Type} [DecidableEq V]

/-! ## Specification -/

/-- Two rows agree on some columns. -/
def Agree (cs : List C) (r s : C → V) : Prop := ∀ c ∈ cs, r c = s c

/-! ## Rows of a case -/

theorem mem_select (cs : List C) : ∀ (vs : List V) (rows : List (C → V)) (r : C → V),
    vs.length = cs.length → (r ∈ select rows cs vs ↔ r ∈ rows ∧ cs.map r = vs) := by
  induction cs with
  | nil =>
    intro vs rows r h
    cases vs with
    | nil => simp [select]
    | cons v vs => simp at h
  | cons c cs ih =>
    intro vs rows r h
    cases vs with
    | nil => simp at h
    | cons v vs =>
      have h' : vs.length = cs.length := by simpa using h
      rw [select, ih vs _ r h']
      simp [List.mem_filter, and_assoc]

theorem mem_cases (rows : List (C → V)) (hne : rows ≠ []) (cs : List C) (vs : List V) :
    vs ∈ cases rows cs ↔ ∃ r ∈ rows, cs.map r = vs := by
  unfold cases unique
  by_cases h : cs = []
  · subst h
    obtain ⟨r, hr⟩ := List.exists_mem_of_ne_nil rows hne
    simp only [if_true, List.mem_singleton, List.map_nil]
    constructor
    · intro e; exact ⟨r, hr, e.symm⟩
    · rintro ⟨_, _, e⟩; exact e.symm
  · simp [h]

theorem case_length (rows : List (C → V)) (hne : rows ≠ []) (cs : List C) (vs : List V)
    (h : vs ∈ cases rows cs) : vs.length = cs.length := by
  obtain ⟨r, _, e⟩ := (mem_cases rows hne cs vs).1 h
  rw [← e, List.length_map]

/-- The cases of some columns are all different, none of them is empty, and two rows of the table are in the same
case exactly when they agree on these columns. -/
theorem cases_partition (rows : List (C → V)) (hne : rows ≠ []) (cs : List C) :
    (cases rows cs).Nodup ∧
    (∀ vs ∈ cases rows cs, select rows cs vs ≠ []) ∧
    (∀ r ∈ rows, ∃ vs ∈ cases rows cs, r ∈ select rows cs vs ∧
      (∀ ws ∈ cases rows cs, r ∈ select rows cs ws → ws = vs) ∧
      ∀ s, s ∈ select rows cs vs ↔ s ∈ rows ∧ Agree cs r s) := by
  refine ⟨?_, ?_, ?_⟩
  · unfold cases unique
    by_cases h : cs = []
    · simp [h]
    · simp only [h, if_false]; exact List.nodup_dedup _
  · intro vs hv
    obtain ⟨r, hr, e⟩ := (mem_cases rows hne cs vs).1 hv
    have : r ∈ select rows cs vs :=
      (mem_select cs vs rows r (case_length rows hne cs vs hv)).2 ⟨hr, e⟩
    exact List.ne_nil_of_mem this
  · intro r hr
    have hv : cs.map r ∈ cases rows cs := (mem_cases rows hne cs _).2 ⟨r, hr, rfl⟩
    refine ⟨cs.map r, hv, (mem_select cs _ rows r (by simp)).2 ⟨hr, rfl⟩, ?_, ?_⟩
    · intro ws hw h
      exact ((mem_select cs ws rows r (case_length rows hne cs ws hw)).1 h).2.symm
    · intro s
      rw [mem_select cs _ rows s (by simp)]
      refine and_congr_right fun _ => ?_
      unfold Agree
      rw [List.map_inj_left]
      exact ⟨fun h c hc => (h c hc).symm, fun h c hc => (h c hc).symm⟩

/-! ## Descriptors -/

theorem mem_values (rows : List (C → V)) (c : C) (v : V) : v ∈ values rows c ↔ ∃ r ∈ rows, r c = v := by
  simp [values]

theorem values_small (rows : List (C → V)) (c : C) :
    (values rows c).length ≤ 1 ↔ ∀ r ∈ rows, ∀ s ∈ rows, r c = s c := by
  constructor
  · intro h r hr s hs
    have h1 := (mem_values rows c (r c)).2 ⟨r, hr, rfl⟩
    have h2 := (mem_values rows c (s c)).2 ⟨s, hs, rfl⟩
    cases hv : values rows c with
    | nil => rw [hv] at h1; simp at h1
    | cons a l =>
      cases l with
      | nil => rw [hv] at h1 h2; simp at h1 h2; rw [h1, h2]
      | cons b l => rw [hv] at h; simp at h
  · intro h
    have hn : (values rows c).Nodup := List.nodup_dedup _
    cases hv : values rows c with
    | nil => simp
    | cons a l =>
      cases l with
      | nil => simp
      | cons b l =>
        exfalso
        have ha : a ∈ values rows c := by rw [hv]; simp
        have hb : b ∈ values rows c := by rw [hv]; simp
        obtain ⟨r, hr, er⟩ := (mem_values rows c a).1 ha
        obtain ⟨s, hs, es⟩ := (mem_values rows c b).1 hb
        have : a = b := by rw [← er, ← es]; exact h r hr s hs
        rw [hv] at hn
        simp [this] at hn

/-- For a table with rows, a column is a descriptor exactly when two rows differ on it. -/
theorem mem_allDescriptors (rows : List (C → V)) (hne : rows ≠ []) (cols : List C) (c : C) :
    c ∈ allDescriptors rows cols ↔ c ∈ cols ∧ ∃ r ∈ rows, ∃ s ∈ rows, r c ≠ s c := by
  obtain ⟨r, hr⟩ := List.exists_mem_of_ne_nil rows hne
  have hpos : 0 < (values rows c).length :=
    List.length_pos_of_mem ((mem_values rows c (r c)).2 ⟨r, hr, rfl⟩)
  unfold allDescriptors
  rw [List.mem_filter]
  refine and_congr_right fun _ => ?_
  rw [decide_eq_true_iff]
  have key := values_small rows c
  constructor
  · intro h
    by_contra hc
    push Not at hc
    have := key.2 hc
    omega
  · rintro ⟨a, ha, b, hb, hab⟩ h
    exact hab (key.1 (by omega) a ha b hb)

/-- The columns that may be fixed in a fight plot: the descriptors and the budget, if they vary. -/
theorem mem_combinable (rows : List (C → V)) (hne : rows ≠ []) (cols : List C) (budget c : C) :
    c ∈ combinable rows cols budget ↔
      (c ∈ cols ∨ c = budget) ∧ ∃ r ∈ rows, ∃ s ∈ rows, r c ≠ s c := by
  unfold combinable
  rw [List.mem_filter, List.mem_append, mem_allDescriptors rows hne, List.mem_singleton, decide_eq_true_iff]
  have key := values_small rows c
  have hiff : 1 < (values rows c).length ↔ ∃ r ∈ rows, ∃ s ∈ rows, r c ≠ s c := by
    constructor
    · intro h
      by_contra hc
      push Not at hc
      have := key.2 hc
      omega
    · rintro ⟨a, ha, b, hb, hab⟩
      by_contra hc
      exact hab (key.1 (by omega) a ha b hb)
  rw [hiff]
  generalize (∃ r ∈ rows, ∃ s ∈ rows, r c ≠ s c) = p
  tauto

theorem acceptable_iff (rows : List (C → V)) (budget d : C) :
    acceptable rows budget d = true ↔ ∃ r ∈ rows, ∃ s ∈ rows, r budget = s budget ∧ r d ≠ s d := by
  unfold acceptable
  rw [List.any_eq_true]
  constructor
  · rintro ⟨b, _, hb⟩
    have hb : 1 < (values (atBudget rows budget b) d).length := of_decide_eq_true hb
    by_contra hc
    push Not at hc
    have : (values (atBudget rows budget b) d).length ≤ 1 := by
      rw [values_small]
      intro r hr s hs
      simp only [atBudget, List.mem_filter, decide_eq_true_iff] at hr hs
      exact hc r hr.1 s hs.1 (hr.2.trans hs.2.symm)
    omega
  · rintro ⟨r, hr, s, hs, hb, hd⟩
    refine ⟨r budget, (mem_values rows budget _).2 ⟨r, hr, rfl⟩, decide_eq_true ?_⟩
    by_contra hc
    have h := (values_small (atBudget rows budget (r budget)) d).1 (by omega)
    refine hd (h r ?_ s ?_)
    · simp [atBudget, hr]
    · simp [atBudget, hs, hb]

/-- A column distinguishes the xp plots exactly when two rows of one budget differ on it. -/
theorem mem_xpDescriptors (rows : List (C → V)) (cols : List C) (budget d : C) :
    d ∈ xpDescriptors rows cols budget ↔
      d ∈ cols ∧ ∃ r ∈ rows, ∃ s ∈ rows, r budget = s budget ∧ r d ≠ s d := by
  unfold xpDescriptors
  rw [List.mem_filter, acceptable_iff]
  constructor
  · rintro ⟨h, h'⟩
    exact ⟨(List.mem_filter.1 h).1, h'⟩
  · rintro ⟨hc, r, hr, s, hs, hb, hd⟩
    refine ⟨?_, r, hr, s, hs, hb, hd⟩
    exact (mem_allDescriptors rows (List.ne_nil_of_mem hr) cols d).2 ⟨hc, r, hr, s, hs, hd⟩

/-- In one xp plot, the runs of one budget are all of one setting: they agree on every column, including
those that do not appear in the description of the plot. -/
theorem xp_same_setting (rows : List (C → V)) (hne : rows ≠ []) (cols : List C) (budget : C)
    (case : List V) (hcase : case ∈ cases rows (xpDescriptors rows cols budget))
    (r s : C → V) (hr : r ∈ select rows (xpDescriptors rows cols budget) case)
    (hs : s ∈ select rows (xpDescriptors rows cols budget) case) (hb : r budget = s budget) :
    Agree cols r s := by
  intro c hc
  have hl := case_length rows hne _ _ hcase
  obtain ⟨hr, er⟩ := (mem_select _ _ rows r hl).1 hr
  obtain ⟨hs, es⟩ := (mem_select _ _ rows s hl).1 hs
  by_contra hd
  have hm : c ∈ xpDescriptors rows cols budget :=
    (mem_xpDescriptors rows cols budget c).2 ⟨hc, r, hr, s, hs, hb, hd⟩
  exact hd (List.map_inj_left.1 (er.trans es.symm) c hm)

/-! ## Fixed columns of the fight plots -/

/-- The sets of fixed columns are the sublists of the columns that vary with at most `max_combsize` elements, each once;
for competence maps all the pairs are among them. -/
theorem fixedSets_spec (comb : List C) (maxComb : Nat) (competence : Bool) (hn : comb.Nodup) :
    (fixedSets comb maxComb competence).Nodup ∧
    ∀ l, l ∈ fixedSets comb maxComb competence ↔
      l.Sublist comb ∧ (l.length ≤ maxComb ∨ (competence = true ∧ l.length ≤ 2)) := by
  have hm : ∀ l, l ∈ fixedSets comb maxComb competence ↔
      l.Sublist comb ∧ l.length ≤ (if competence then max maxComb 2 else maxComb) := by
    intro l
    unfold fixedSets
    simp only [List.mem_flatMap, List.mem_range, List.mem_sublistsLen]
    constructor
    · rintro ⟨k, hk, hl, e⟩; exact ⟨hl, by omega⟩
    · rintro ⟨hl, h⟩; exact ⟨l.length, by omega, hl, rfl⟩
  constructor
  · unfold fixedSets
    rw [List.nodup_flatMap]
    refine ⟨fun k _ => List.nodup_sublistsLen k hn, ?_⟩
    refine List.Pairwise.imp ?_ (List.nodup_range (n := _))
    intro a b hab l ha hb
    rw [List.mem_sublistsLen] at ha hb
    exact hab (ha.2.symm.trans hb.2)
  · intro l
    rw [hm]
    refine and_congr_right fun _ => ?_
    cases competence
    · simp
    · simp

/-! ## Competence maps -/

private theorem fold_spec (rows : List (C → V)) (c d : C) (best : List (C → V) → String) (x y : V) :
    ∀ (l : List (List V)) (t : V → V → String), (∀ v ∈ l, v.length = 2) →
    (l.foldl (mapStep rows c d best) t) x y
    = if [x, y] ∈ l then best (select rows [c, d] [x, y]) else t x y := by
  intro l
  induction l with
  | nil => intro t _; simp
  | cons v l ih =>
    intro t hl
    have hv := hl v (by simp)
    match v, hv with
    | [a, b], _ =>
      rw [List.foldl_cons, ih _ (fun w hw => hl w (by simp [hw]))]
      by_cases h : [x, y] ∈ l
      · simp [h]
      · simp only [h, if_false, List.mem_cons, or_false, mapStep, put]
        by_cases hab : x = a ∧ y = b
        · obtain ⟨rfl, rfl⟩ := hab; simp
        · rw [if_neg hab, if_neg]
          intro e
          simp at e
          exact hab e

/-- The competence map of two columns has at `(x, y)` the best algorithm of the rows with these two values,
and "none" exactly where the table has no such row (unless an algorithm has that name). -/
theorem bestAlgo_spec (rows : List (C → V)) (hne : rows ≠ []) (c d : C)
    (best : List (C → V) → String) (x y : V) :
    bestAlgo rows c d best x y =
      if ∃ r ∈ rows, r c = x ∧ r d = y
      then best (rows.filter fun r => decide (r c = x ∧ r d = y)) else "none" := by
  unfold bestAlgo
  rw [fold_spec rows c d best x y _ _ (fun v hv => case_length rows hne [c, d] v hv)]
  have h1 : ([x, y] ∈ cases rows [c, d]) ↔ ∃ r ∈ rows, r c = x ∧ r d = y := by
    rw [mem_cases rows hne]; simp
  have h2 : select rows [c, d] [x, y] = rows.filter fun r => decide (r c = x ∧ r d = y) := by
    simp only [select, List.filter_filter]
    congr 1
    funext r
    rw [Bool.and_comm]
    simp
  simp only [h1, h2]

/-! ## Names of files -/

/-- The name of a file is not changed below 70 characters, and has at most 102 characters. -/
theorem compactize_spec (md5 : List Char → List Char) (hmd5 : ∀ l, (md5 l).length = 32) (name : List Char) :
    (name.length < 70 → compactize md5 name = name) ∧ (compactize md5 name).length ≤ 102 := by
  unfold compactize
  constructor
  · intro h; rw [if_pos h]
  · split
    · omega
    · simp only [squeeze, List.length_append, List.length_take, List.length_drop, hmd5]; omega

/-- Two long names with different digests remain different, if at least 35 characters are left without the groups
in parentheses. -/
theorem compactize_injective (md5 : List Char → List Char) (hmd5 : ∀ l, (md5 l).length = 32)
    (a b : List Char) (ha : 70 ≤ a.length) (hb : 70 ≤ b.length)
    (ha' : 35 ≤ (strip a.length a).length) (hb' : 35 ≤ (strip b.length b).length)
    (h : compactize md5 a = compactize md5 b) : md5 a = md5 b := by
  unfold compactize at h
  rw [if_neg (by omega), if_neg (by omega)] at h
  unfold squeeze at h
  have h1 : ((strip a.length a).take 35 ++ md5 a).length = ((strip b.length b).take 35 ++ md5 b).length := by
    simp only [List.length_append, List.length_take, hmd5]; omega
  have h2 := (List.append_inj h h1).1
  exact (List.append_inj h2 (by simp only [List.length_take]; omega)).2

/-- The two later shortenings, above 240 and 280 characters, never change a name. -/
theorem shorten_dead (md5 : List Char → List Char) (hmd5 : ∀ l, (md5 l).length = 32) (name : List Char) :
    shorten md5 (compactize md5 name) = compactize md5 name ∧
    shortenXp md5 (compactize md5 name) = compactize md5 name := by
  have h := (compactize_spec md5 hmd5 name).2
  unfold shorten shortenXp
  exact ⟨if_neg (by omega), if_neg (by omega)⟩

/-- A long name ends as the stripped name does, so that the extension is kept. -/
theorem compactize_suffix (md5 : List Char → List Char) (name ext : List Char) (hl : 70 ≤ name.length)
    (he : ext.length ≤ 35) (h : ext <:+ strip name.length name) : ext <:+ compactize md5 name := by
  unfold compactize
  rw [if_neg (by omega)]
  unfold squeeze
  refine List.IsSuffix.trans ?_ (List.suffix_append _ _)
  obtain ⟨p, hp⟩ := h
  rw [← hp, List.length_append, List.drop_append_of_le_length (by omega)]
  exact List.suffix_append _ _

private theorem body_suffix (l e : List Char) (he : '(' ∉ e ∧ ')' ∉ e) (p rest : List Char) (hl : l = p ++ e)
    (hb : body l = ')' :: rest) : ∃ q, rest = q ++ e := by
  induction p generalizing l with
  | nil =>
    exfalso
    have : ∀ l : List Char, '(' ∉ l → ')' ∉ l → body l = [] := by
      intro l
      induction l with
      | nil => intros; rfl
      | cons c l ih =>
        intro h1 h2
        simp only [List.mem_cons, not_or] at h1 h2
        unfold body
        rw [if_neg (by rintro (h | h); exacts [h1.1 h.symm, h2.1 h.symm])]
        exact ih h1.2 h2.2
    rw [hl, List.nil_append, this e he.1 he.2] at hb
    cases hb
  | cons c p ih =>
    subst hl
    rw [List.cons_append, body] at hb
    by_cases hc : c = '(' ∨ c = ')'
    · rw [if_pos hc] at hb
      injection hb with _ h2
      exact ⟨p, h2.symm⟩
    · rw [if_neg hc] at hb
      exact ih _ rfl hb

/-- Removing the groups in parentheses keeps an end of the name without parentheses. -/
theorem strip_suffix (e : List Char) (he : '(' ∉ e ∧ ')' ∉ e) :
    ∀ (n : Nat) (p : List Char), e <:+ strip n (p ++ e) := by
  intro n
  induction n with
  | zero => intro p; exact List.suffix_append _ _
  | succ n ih =>
    intro p
    cases p with
    | nil =>
      rw [List.nil_append]
      cases e with
      | nil => exact List.nil_suffix
      | cons c e' =>
        have hs : ∀ (m : Nat) (l : List Char), '(' ∉ l → strip m l = l := by
          intro m
          induction m with
          | zero => intros; rfl
          | succ m ihm =>
            intro l hl
            cases l with
            | nil => rfl
            | cons a l =>
              simp only [List.mem_cons, not_or] at hl
              rw [strip, if_neg (fun h => hl.1 h.symm), ihm l hl.2]
        rw [hs _ _ he.1]
        exact List.suffix_refl _
    | cons c p =>
      rw [List.cons_append, strip]
      by_cases hc : c = '('
      · rw [if_pos hc]
        split
        · rename_i rest hrest
          obtain ⟨q, hq⟩ := body_suffix (p ++ e) e he p rest rfl hrest
          rw [hq]
          exact ih q
        · exact (ih p).trans (List.suffix_cons _ _)
      · rw [if_neg hc]
        exact (ih p).trans (List.suffix_cons _ _)

/-- The file of a fight plot always has the extension of an image. -/
theorem fightName_png (md5 : List Char → List Char) (hmd5 : ∀ l, (md5 l).length = 32)
    (fixed : List (List Char × List Char)) : ".png".toList <:+ fightName md5 fixed := by
  unfold fightName
  simp only
  rw [(shorten_dead md5 hmd5 _).1]
  split
  · rw [(compactize_spec md5 hmd5 _).1 (by decide)]
    exact ⟨"fight_all".toList, by decide⟩
  · by_cases hl : ("fight_".toList ++ joined fixed ++ ".png".toList).length < 70
    · rw [(compactize_spec md5 hmd5 _).1 hl]
      exact List.suffix_append _ _
    · exact compactize_suffix md5 _ _ (by omega) (by decide) (strip_suffix _ (by decide) _ _)

/-- Two different cases may have the same file: one column `d` with value `12` and one column `d1` with
value `2`. The second plot overwrites the first. -/
theorem fightName_collides :
    ∃ f g : List (List Char × List Char), f ≠ g ∧ f.map Prod.fst ≠ g.map Prod.fst ∧
      ∀ md5 : List Char → List Char, (∀ l, (md5 l).length = 32) → fightName md5 f = fightName md5 g := by
  refine ⟨[("d".toList, "12".toList)], [("d1".toList, "2".toList)], by decide, by decide, ?_⟩
  intro md5 hmd5
  rfl

theorem joined_inj (fixed : List (List Char)) : ∀ (a b : List (List Char)), a.length = fixed.length → b.length = fixed.length →
    (∀ v ∈ a, ',' ∉ v) → (∀ v ∈ b, ',' ∉ v) →
    joined (fixed.zip a) = joined (fixed.zip b) → a = b := by
  have cut : ∀ (u v s t : List Char), ',' ∉ u → ',' ∉ v → u ++ ',' :: s = v ++ ',' :: t → u = v ∧ s = t := by
    intro u
    induction u with
    | nil =>
      intro v s t _ hv h
      cases v with
      | nil => simpa using h
      | cons c v => simp at h; exact absurd (List.mem_cons.2 (Or.inl h.1)) hv
    | cons c u ih =>
      intro v s t hu hv h
      cases v with
      | nil => simp at h; exact absurd (List.mem_cons.2 (Or.inl h.1.symm)) hu
      | cons c' v =>
        simp only [List.cons_append, List.cons.injEq] at h
        simp only [List.mem_cons, not_or] at hu hv
        obtain ⟨e1, e2⟩ := ih v s t hu.2 hv.2 h.2
        exact ⟨by rw [h.1, e1], e2⟩
  induction fixed with
  | nil =>
    intro a b ha hb _ _ _
    rw [List.length_eq_zero_iff.1 ha, List.length_eq_zero_iff.1 hb]
  | cons f fixed ih =>
    intro a b ha hb hca hcb h
    match a, b with
    | x :: a, y :: b =>
      have hx := hca x (by simp)
      have hy := hcb y (by simp)
      cases fixed with
      | nil =>
        have ha0 : a = [] := List.length_eq_zero_iff.1 (by simpa using ha)
        have hb0 : b = [] := List.length_eq_zero_iff.1 (by simpa using hb)
        subst ha0; subst hb0
        simp [joined] at h
        rw [h]
      | cons g fixed =>
        match a, b with
        | x' :: a, y' :: b =>
          simp only [List.zip_cons_cons, joined, List.append_assoc] at h
          have h := List.append_cancel_left h
          obtain ⟨e1, e2⟩ := cut x y _ _ hx hy h
          rw [e1, ih (x' :: a) (y' :: b) (by simpa using ha) (by simpa using hb)
            (fun v hv => hca v (by simp [hv])) (fun v hv => hcb v (by simp [hv])) e2]

/-- For one choice of fixed columns, two different cases with values without commas have different files,
as long as the names are below 70 characters. The general claim fails: see `fightName_collides`. -/
theorem fightName_injective_partial (md5 : List Char → List Char) (fixed : List (List Char)) (a b : List (List Char))
    (hf : fixed ≠ []) (ha : a.length = fixed.length) (hb : b.length = fixed.length)
    (hca : ∀ v ∈ a, ',' ∉ v) (hcb : ∀ v ∈ b, ',' ∉ v)
    (hna : ∀ f ∈ fixed, f ≠ [])
    (hla : (joined (fixed.zip a)).length < 60) (hlb : (joined (fixed.zip b)).length < 60)
    (h : fightName md5 (fixed.zip a) = fightName md5 (fixed.zip b)) : a = b := by
  refine joined_inj fixed a b ha hb hca hcb ?_
  have pos : ∀ v : List (List Char), v.length = fixed.length → joined (fixed.zip v) ≠ [] := by
    intro v hv
    match fixed, hf, v, hv, hna with
    | f :: fs, _, x :: v, _, hna =>
      have := hna f (by simp)
      cases hz : fs.zip v with
      | nil => simp [joined, hz, this]
      | cons p l => simp [joined, hz]
  have name : ∀ v : List (List Char), v.length = fixed.length → (joined (fixed.zip v)).length < 60 →
      fightName md5 (fixed.zip v) = "fight_".toList ++ joined (fixed.zip v) ++ ".png".toList := by
    intro v hv hl
    have hlen : ("fight_".toList ++ joined (fixed.zip v) ++ ".png".toList).length < 70 := by
      have h6 : "fight_".toList.length = 6 := by decide
      have h4 : ".png".toList.length = 4 := by decide
      simp only [List.length_append, h6, h4]; omega
    have hne : "fight_".toList ++ joined (fixed.zip v) ++ ".png".toList ≠ "fight_.png".toList := by
      intro e
      have := congrArg List.length e
      have h6 : "fight_".toList.length = 6 := by decide
      have h4 : ".png".toList.length = 4 := by decide
      have h10 : "fight_.png".toList.length = 10 := by decide
      simp only [List.length_append, h6, h4, h10] at this
      exact pos v hv (List.length_eq_zero_iff.1 (by omega))
    unfold fightName
    simp only
    rw [if_neg hne]
    unfold compactize shorten
    rw [if_pos hlen, if_neg (by omega)]
  rw [name a ha hla, name b hb hlb] at h
  exact List.append_cancel_left (List.append_cancel_right h)

/-! ## Cases -/

/-- Three columns: the budget (0), the dimension (1) and a column that follows the budget (2). -/
def exRows : List (Fin 3 → Nat) :=
  [[10, 2, 1], [10, 3, 1], [20, 2, 5], [20, 3, 5]].map fun (l : List Nat) (i : Fin 3) => l.getD i 0

example : allDescriptors exRows [1, 2] = [1, 2] := by decide
/-- The column that follows the budget does not split the curves. -/
example : xpDescriptors exRows [1, 2] 0 = [1] := by decide
example : cases exRows [1] = [[2], [3]] := by decide
example : (select exRows [1] [2]).length = 2 := by decide
example : fixedSets (combinable exRows [1, 2] 0) 1 false = [[], [0], [2], [1]] := by decide
example : bestAlgo exRows 0 2 (fun l => if l.length = 2 then "two" else "?") 10 1 = "two" ∧
    bestAlgo exRows 0 2 (fun l => if l.length = 2 then "two" else "?") 10 5 = "none" := by decide
example : strip 9 "a(b(c)d)e".toList = "a(bd)e".toList := by decide
example : fightName (fun _ => List.replicate 32 '0') [("dim".toList, "2".toList), ("b".toList, "7".toList)]
    = "fight_dim2,b7.png".toList := by decide
example : fightName (fun _ => List.replicate 32 '0') [] = "fight_all.png".toList := by decide
example : (compactize (fun _ => List.replicate 32 '0') (List.replicate 300 'x')).length = 102 := by
  decide +kernel

end NG.PlotCases
