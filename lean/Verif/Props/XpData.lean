import Verif.Model.XpData
import Verif.Props.Legend
import Mathlib.Order.Bounds.Basic
import Mathlib.Data.List.GetD
import Mathlib.Tactic.Linarith
import Mathlib.Tactic.FieldSimp
import Mathlib.Tactic.NormNum

/-!
# C93: data of experiment plots
-/

set_option linter.unusedSectionVars false
set_option linter.unusedDecidableInType false
set_option linter.unusedVariables false
set_option linter.unusedSimpArgs false

namespace NG
namespace Xp

variable {O B C K : Type} [DecidableEq O] [LinearOrder B] [DecidableEq C] [Field K] [LinearOrder K] [IsStrictOrderedRing K]

/-! ## Lines removed and limits -/

/-- C93: with a column of errors, the lines with a loss are kept in their order, the others are removed. -/
theorem errors_removed (rows : List (Row O B C (Option K))) :
    (removeErrors true rows).Sublist rows ∧ ∀ r, r ∈ removeErrors true rows ↔ r ∈ rows ∧ r.loss ≠ none := by
  refine ⟨by simp [removeErrors], fun r => ?_⟩
  simp [removeErrors, Option.isSome_iff_ne_none]

/-- Each line with a loss is kept as many times as it is there. -/
theorem errors_count [DecidableEq K] (rows : List (Row O B C (Option K))) (r : Row O B C (Option K)) (h : r.loss ≠ none) : (removeErrors true rows).count r = rows.count r := by
  simp only [removeErrors, if_true]
  exact List.count_filter (by simpa [Option.isSome_iff_ne_none] using h)

/-- Without this column, lines with NaN losses stay. -/
theorem errors_kept (rows : List (Row O B C (Option K))) : removeErrors false rows = rows := rfl

theorem maxOf_spec (l : List K) (M : K) : maxOf l = some M ↔ IsGreatest {x | x ∈ l} M := by
  have key : ∀ (l : List K) (a : K), IsGreatest {x | x ∈ a :: l} (l.foldl max a) := by
    intro l
    induction l with
    | nil => intro a; constructor <;> simp [upperBounds]
    | cons b l ih =>
      intro a
      obtain ⟨h1, h2⟩ := ih (max a b)
      have hle : max a b ≤ l.foldl max (max a b) := h2 (by simp)
      constructor
      · simp only [List.foldl_cons, Set.mem_setOf_eq, List.mem_cons] at h1 ⊢
        rcases h1 with h1 | h1
        · rw [h1]
          rcases max_choice a b with h | h <;> simp [h]
        · exact Or.inr (Or.inr h1)
      · intro x hx
        simp only [List.foldl_cons]
        simp only [Set.mem_setOf_eq, List.mem_cons] at hx
        rcases hx with rfl | rfl | hx
        · exact (le_max_left _ _).trans hle
        · exact (le_max_right _ _).trans hle
        · exact h2 (by simp [hx])
  cases l with
  | nil => simp [maxOf, IsGreatest]
  | cons a l =>
    simp only [maxOf, Option.some.injEq]
    constructor
    · rintro rfl; exact key l a
    · exact fun h => (key l a).unique h

theorem minOf_spec (l : List K) (M : K) : minOf l = some M ↔ IsLeast {x | x ∈ l} M := by
  have key : ∀ (l : List K) (a : K), IsLeast {x | x ∈ a :: l} (l.foldl min a) := by
    intro l
    induction l with
    | nil => intro a; constructor <;> simp [lowerBounds]
    | cons b l ih =>
      intro a
      obtain ⟨h1, h2⟩ := ih (min a b)
      have hle : l.foldl min (min a b) ≤ min a b := h2 (by simp)
      constructor
      · simp only [List.foldl_cons, Set.mem_setOf_eq, List.mem_cons] at h1 ⊢
        rcases h1 with h1 | h1
        · rw [h1]
          rcases min_choice a b with h | h <;> simp [h]
        · exact Or.inr (Or.inr h1)
      · intro x hx
        simp only [List.foldl_cons]
        simp only [Set.mem_setOf_eq, List.mem_cons] at hx
        rcases hx with rfl | rfl | hx
        · exact hle.trans (min_le_left _ _)
        · exact hle.trans (min_le_right _ _)
        · exact h2 (by simp [hx])
  cases l with
  | nil => simp [minOf, IsLeast]
  | cons a l =>
    simp only [minOf, Option.some.injEq]
    constructor
    · rintro rfl; exact key l a
    · exact fun h => (key l a).unique h

/-- C93: after the limits, all losses are below the limit, those within the limits are unchanged, and the order of losses is kept. -/
theorem limit_spec (limit : K) (hl : 0 < limit) (rows out : List (Row O B C K)) (h : limitLosses limit rows = some out) :
    ∃ g : K → K, Monotone g ∧ (∀ x, g x < limit) ∧ (∀ r ∈ rows, -limit ≤ r.loss → r.loss < limit → g r.loss = r.loss) ∧ out = rows.map (fun r => { r with loss := g r.loss }) := by
  unfold limitLosses at h
  cases hM : maxOf ((rows.map Row.loss).filter (· < limit)) with
  | none => rw [hM] at h; simp at h
  | some M =>
    rw [hM] at h
    simp only [Option.map_some, Option.some.injEq] at h
    obtain ⟨h1, h2⟩ := (maxOf_spec _ _).1 hM
    simp only [Set.mem_setOf_eq, List.mem_filter, decide_eq_true_eq] at h1
    refine ⟨clip (-limit) M, ?_, ?_, ?_, h.symm⟩
    · intro a b hab
      exact min_le_min (max_le_max hab (le_refl _)) (le_refl _)
    · intro x
      exact lt_of_le_of_lt (min_le_right _ _) (max_lt (by linarith) h1.2)
    · intro r hr hlo hhi
      have hle : r.loss ≤ M := h2 (by simp only [Set.mem_setOf_eq, List.mem_filter, decide_eq_true_eq]; exact ⟨List.mem_map.2 ⟨r, hr, rfl⟩, hhi⟩)
      unfold clip
      rw [max_eq_left ((min_le_left _ _).trans hlo), min_eq_left (hle.trans (le_max_right _ _))]

/-- The limits fail exactly if no loss is below the limit. -/
theorem limit_none (limit : K) (rows : List (Row O B C K)) : limitLosses limit rows = none ↔ ∀ r ∈ rows, limit ≤ r.loss := by
  unfold limitLosses
  rw [Option.map_eq_none_iff]
  constructor
  · intro h r hr
    by_contra hc
    push Not at hc
    cases hl : (rows.map Row.loss).filter (· < limit) with
    | nil =>
      have : r.loss ∈ (rows.map Row.loss).filter (· < limit) := by simp only [List.mem_filter, decide_eq_true_eq]; exact ⟨List.mem_map.2 ⟨r, hr, rfl⟩, hc⟩
      rw [hl] at this; simp at this
    | cons a l => rw [hl] at h; simp [maxOf] at h
  · intro h
    have : (rows.map Row.loss).filter (· < limit) = [] := by
      rw [List.filter_eq_nil_iff]
      intro a ha
      obtain ⟨r, hr, rfl⟩ := List.mem_map.1 ha
      simpa using h r hr
    rw [this]; rfl

example : limitLosses (100 : ℚ) [⟨'a', 1, (), 3⟩, ⟨'b', 1, (), 1000⟩, ⟨'c', 1, (), -1000⟩] = some [⟨'a', 1, (), 3⟩, ⟨'b', 1, (), 3⟩, ⟨'c', 1, (), -100⟩] := by decide +kernel

/-! ## Normalization -/

/-- The losses of a setting. -/
def At (rows : List (Row O B C K)) (c : C) : Set K := {x | ∃ r ∈ rows, r.setting = c ∧ r.loss = x}

/-- The normalized loss of a line whose setting has the least loss `m` and the greatest loss `M`. -/
noncomputable def scaled (m M x : K) : K := if M = m then 1 else (x - m) / (M - m)

theorem case_spec (limit : K) (c : C) (rows : List (Row O B C K)) (m M : K) (hm : IsLeast (At rows c) m) (hM : IsGreatest (At rows c ∩ Set.Iio limit) M) :
    normalizeCase limit c rows = some (rows.map (fun r => if r.setting = c then { r with loss := scaled m M r.loss } else r)) := by
  have e1 : {x | x ∈ (rows.filter (fun r => r.setting = c)).map Row.loss} = At rows c := by
    ext x
    simp [At, and_assoc]
  have e2 : {x | x ∈ ((rows.filter (fun r => r.setting = c)).map Row.loss).filter (· < limit)} = At rows c ∩ Set.Iio limit := by
    rw [← e1]
    ext x
    simp [List.mem_filter]
  have h1 := (minOf_spec _ m).2 (e1 ▸ hm)
  have h2 := (maxOf_spec _ M).2 (e2 ▸ hM)
  unfold normalizeCase
  simp only [h1, h2, Option.bind_some, Option.map_some, Option.some.injEq]
  apply List.map_congr_left
  intro r _
  by_cases hs : r.setting = c
  · simp only [hs, if_true, scaled]
    by_cases hMm : M = m <;> simp [hMm]
  · simp [hs]

theorem normalize_map (limit : K) (m M : C → K) (cases : List C) (hnd : cases.Nodup) (rows : List (Row O B C K))
    (hm : ∀ c ∈ cases, IsLeast (At rows c) (m c)) (hM : ∀ c ∈ cases, IsGreatest (At rows c ∩ Set.Iio limit) (M c)) :
    normalize limit cases rows = some (rows.map (fun r => if r.setting ∈ cases then { r with loss := scaled (m r.setting) (M r.setting) r.loss } else r)) := by
  induction cases generalizing rows with
  | nil => simp [normalize]
  | cons c cs ih =>
    rw [List.nodup_cons] at hnd
    simp only [normalize]
    rw [case_spec limit c rows (m c) (M c) (hm c (by simp)) (hM c (by simp)), Option.bind_some]
    have hat : ∀ c' ∈ cs, At (rows.map (fun r => if r.setting = c then { r with loss := scaled (m c) (M c) r.loss } else r)) c' = At rows c' := by
      intro c' hc'
      have hne : c' ≠ c := fun e => hnd.1 (e ▸ hc')
      ext x
      simp only [At, Set.mem_setOf_eq, List.mem_map]
      constructor
      · rintro ⟨r, ⟨r', hr', rfl⟩, hs, hx⟩
        by_cases h : r'.setting = c
        · simp only [h, if_true] at hs
          exact absurd hs.symm hne
        · simp only [h, if_false] at hs hx
          exact ⟨r', hr', hs, hx⟩
      · rintro ⟨r', hr', hs, hx⟩
        refine ⟨r', ⟨r', hr', ?_⟩, hs, hx⟩
        rw [if_neg (by rw [hs]; exact hne)]
    rw [ih hnd.2 _ (fun c' h => by rw [hat c' h]; exact hm c' (by simp [h])) (fun c' h => by rw [hat c' h]; exact hM c' (by simp [h]))]
    rw [List.map_map]
    congr 1
    apply List.map_congr_left
    intro r _
    by_cases h : r.setting = c
    · have h' : r.setting ∉ cs := by rw [h]; exact hnd.1
      simp [h, hnd.1]
    · simp [h]

/-- C93: if all losses are below the limit, each line gets its loss rescaled by the least and the greatest loss of its setting; nothing else changes. -/
theorem normalize_spec (limit : K) (cases : List C) (hnd : cases.Nodup) (rows : List (Row O B C K)) (hc : ∀ c, c ∈ cases ↔ ∃ r ∈ rows, r.setting = c)
    (hlim : ∀ r ∈ rows, r.loss < limit) :
    ∃ f : Row O B C K → K, normalize limit cases rows = some (rows.map (fun r => { r with loss := f r })) ∧
      ∀ r ∈ rows, ∃ m M, IsLeast (At rows r.setting) m ∧ IsGreatest (At rows r.setting) M ∧ ((m = M ∧ f r = 1) ∨ (m < M ∧ f r = (r.loss - m) / (M - m))) := by
  have hlist : ∀ c, {x | x ∈ (rows.filter (fun r => r.setting = c)).map Row.loss} = At rows c := by
    intro c
    ext x
    simp [At, and_assoc]
  have hex : ∀ c, ∃ m M, c ∈ cases → IsLeast (At rows c) m ∧ IsGreatest (At rows c) M := by
    intro c
    by_cases h : c ∈ cases
    · obtain ⟨r, hr, hrc⟩ := (hc c).1 h
      cases hl : (rows.filter (fun r => r.setting = c)).map Row.loss with
      | nil =>
        have : r.loss ∈ (rows.filter (fun r => r.setting = c)).map Row.loss := by simp; exact ⟨r, ⟨hr, hrc⟩, rfl⟩
        rw [hl] at this; simp at this
      | cons a l =>
        refine ⟨l.foldl min a, l.foldl max a, fun _ => ⟨?_, ?_⟩⟩
        · rw [← hlist, hl]; exact (minOf_spec _ _).1 rfl
        · rw [← hlist, hl]; exact (maxOf_spec _ _).1 rfl
    · exact ⟨0, 0, fun h' => absurd h' h⟩
  choose m M hmM using hex
  have hinter : ∀ c, At rows c ∩ Set.Iio limit = At rows c := by
    intro c
    rw [Set.inter_eq_left]
    rintro x ⟨r, hr, _, rfl⟩
    exact hlim r hr
  refine ⟨fun r => scaled (m r.setting) (M r.setting) r.loss, ?_, ?_⟩
  · rw [normalize_map limit m M cases hnd rows (fun c h => (hmM c h).1) (fun c h => by rw [hinter]; exact (hmM c h).2)]
    congr 1
    apply List.map_congr_left
    intro r hr
    rw [if_pos ((hc _).2 ⟨r, hr, rfl⟩)]
  · intro r hr
    obtain ⟨h1, h2⟩ := hmM r.setting ((hc _).2 ⟨r, hr, rfl⟩)
    refine ⟨m r.setting, M r.setting, h1, h2, ?_⟩
    have hle : m r.setting ≤ M r.setting := h1.2 h2.1
    rcases hle.eq_or_lt with h | h
    · exact Or.inl ⟨h, by simp [scaled, h]⟩
    · exact Or.inr ⟨h, by simp [scaled, h.ne']⟩

/-- C93: normalized losses are between 0 and 1, keep the order of the losses of a setting, and are 0 for the best and 1 for the worst unless all are equal. -/
theorem normalize_range_partial (limit : K) (cases : List C) (hnd : cases.Nodup) (rows : List (Row O B C K)) (hc : ∀ c, c ∈ cases ↔ ∃ r ∈ rows, r.setting = c)
    (hlim : ∀ r ∈ rows, r.loss < limit) :
    ∃ f : Row O B C K → K, normalize limit cases rows = some (rows.map (fun r => { r with loss := f r })) ∧ (∀ r ∈ rows, 0 ≤ f r ∧ f r ≤ 1) ∧
      (∀ r ∈ rows, ∀ s ∈ rows, r.setting = s.setting → ((r.loss ≤ s.loss → f r ≤ f s) ∧ (r.loss < s.loss → f r < f s))) ∧
      (∀ r ∈ rows, ∀ s ∈ rows, r.setting = s.setting → r.loss < s.loss → (∀ t ∈ rows, t.setting = r.setting → r.loss ≤ t.loss) → f r = 0) ∧
      (∀ r ∈ rows, (∀ t ∈ rows, t.setting = r.setting → t.loss ≤ r.loss) → f r = 1) := by
  obtain ⟨f, hf, hs⟩ := normalize_spec limit cases hnd rows hc hlim
  have hmem : ∀ r ∈ rows, r.loss ∈ At rows r.setting := fun r hr => ⟨r, hr, rfl, rfl⟩
  refine ⟨f, hf, ?_, ?_, ?_, ?_⟩
  · intro r hr
    obtain ⟨m, M, h1, h2, h3⟩ := hs r hr
    rcases h3 with ⟨_, h⟩ | ⟨h, h'⟩
    · rw [h]; exact ⟨zero_le_one, le_refl _⟩
    · have ha := h1.2 (hmem r hr)
      have hb := h2.2 (hmem r hr)
      rw [h']
      exact ⟨div_nonneg (by linarith) (by linarith), (div_le_one (by linarith)).2 (by linarith)⟩
  · intro r hr s hs' hrs
    obtain ⟨m, M, h1, h2, h3⟩ := hs r hr
    obtain ⟨m', M', h1', h2', h3'⟩ := hs s hs'
    rw [← hrs] at h1' h2'
    obtain rfl := h1.unique h1'
    obtain rfl := h2.unique h2'
    have ha := h1.2 (hmem r hr)
    have hb := h2.2 (hrs ▸ hmem s hs')
    rcases h3 with ⟨h, h'⟩ | ⟨h, h'⟩
    · rcases h3' with ⟨_, h''⟩ | ⟨hlt, _⟩
      · exact ⟨fun _ => by rw [h', h''], fun hlt => by linarith⟩
      · exact absurd h hlt.ne
    · rcases h3' with ⟨he, _⟩ | ⟨_, h''⟩
      · exact absurd he h.ne
      · rw [h', h'']
        have hd : 0 < M - m := by linarith
        exact ⟨fun hle => (div_le_div_iff_of_pos_right hd).2 (by linarith), fun hlt => (div_lt_div_iff_of_pos_right hd).2 (by linarith)⟩
  · intro r hr s hs' hrs hlt hbest
    obtain ⟨m, M, h1, h2, h3⟩ := hs r hr
    have hm : m = r.loss := by
      apply le_antisymm (h1.2 (hmem r hr))
      obtain ⟨t, ht, hts, htl⟩ := h1.1
      rw [← htl]; exact hbest t ht hts
    have hM : s.loss ≤ M := h2.2 (hrs ▸ hmem s hs')
    rcases h3 with ⟨h, _⟩ | ⟨_, h'⟩
    · linarith
    · rw [h', hm]; simp
  · intro r hr hworst
    obtain ⟨m, M, h1, h2, h3⟩ := hs r hr
    have hM : M = r.loss := by
      apply le_antisymm _ (h2.2 (hmem r hr))
      obtain ⟨t, ht, hts, htl⟩ := h2.1
      rw [← htl]; exact hworst t ht hts
    rcases h3 with ⟨_, h⟩ | ⟨h, h'⟩
    · exact h
    · rw [h', hM]
      rw [hM] at h
      exact div_self (by linarith)

/-- C93, against its documentation: losses are not normalized for each budget. A budget without the best loss of the setting has no loss 0. -/
theorem normalize_budgets (limit : K) (cases : List C) (hnd : cases.Nodup) (rows : List (Row O B C K)) (hc : ∀ c, c ∈ cases ↔ ∃ r ∈ rows, r.setting = c)
    (hlim : ∀ r ∈ rows, r.loss < limit) (b : B) (s : Row O B C K) (hs : s ∈ rows) (hb : ∀ r ∈ rows, r.setting = s.setting → r.budget = b → s.loss < r.loss) :
    ∃ out, normalize limit cases rows = some out ∧ ∀ r ∈ out, r.setting = s.setting → r.budget = b → 0 < r.loss := by
  obtain ⟨f, hf, h0, h1, _, _⟩ := normalize_range_partial limit cases hnd rows hc hlim
  refine ⟨_, hf, ?_⟩
  intro r hr hrs hrb
  obtain ⟨t, ht, rfl⟩ := List.mem_map.1 hr
  exact lt_of_le_of_lt (h0 s hs).1 ((h1 s hs t ht hrs.symm).2 (hb t ht hrs hrb))

/-- The normalization raises if all losses of a setting reach the limit. -/
theorem normalize_raises (limit : K) (c : C) (cases : List C) (rows : List (Row O B C K)) (h : ∀ r ∈ rows, r.setting = c → limit ≤ r.loss) :
    normalize limit (c :: cases) rows = none := by
  have : ((rows.filter (fun r => r.setting = c)).map Row.loss).filter (· < limit) = [] := by
    rw [List.filter_eq_nil_iff]
    intro a ha
    obtain ⟨r, hr, rfl⟩ := List.mem_map.1 ha
    rw [List.mem_filter] at hr
    simpa using h r hr.1 (by simpa using hr.2)
  simp only [normalize, normalizeCase, this, maxOf, Option.map_none]
  cases minOf ((rows.filter (fun r => r.setting = c)).map Row.loss) <;> simp

/-- A loss beyond the limit is normalized to more than 1, or to 1 like all others if the others are equal. -/
theorem normalize_beyond (limit : K) (c : C) (rows : List (Row O B C K)) (m M : K) (hm : IsLeast (At rows c) m) (hM : IsGreatest (At rows c ∩ Set.Iio limit) M) (r : Row O B C K) (hr : r ∈ rows)
    (hc : r.setting = c) (hl : limit ≤ r.loss) :
    ∃ out, normalize limit [c] rows = some out ∧ { r with loss := scaled m M r.loss } ∈ out ∧ (m < M → 1 < scaled m M r.loss) ∧ (m = M → scaled m M r.loss = 1) := by
  refine ⟨rows.map (fun r => if r.setting = c then { r with loss := scaled m M r.loss } else r), ?_, ?_, ?_, ?_⟩
  · simp only [normalize]
    rw [case_spec limit c rows m M hm hM]
    rfl
  · rw [List.mem_map]
    exact ⟨r, hr, by rw [if_pos hc]⟩
  · intro h
    have : M < limit := hM.1.2
    simp only [scaled, h.ne', if_false]
    rw [one_lt_div (by linarith)]
    linarith
  · intro h
    simp [scaled, h]

example : normalize (100 : ℚ) [false, true] [⟨'a', 1, true, 3⟩, ⟨'b', 1, true, 5⟩, ⟨'a', 2, true, 4⟩, ⟨'a', 1, false, 7⟩] =
    some [⟨'a', 1, true, 0⟩, ⟨'b', 1, true, 1⟩, ⟨'a', 2, true, 1 / 2⟩, ⟨'a', 1, false, 1⟩] := by decide +kernel

/-- C93: the pipeline of `create_plots`: after the limits the normalization cannot raise and gives losses between 0 and 1. -/
theorem limited_normalized (limit : K) (hl : 0 < limit) (rows out : List (Row O B C K)) (h : limitLosses limit rows = some out) (cases : List C) (hnd : cases.Nodup)
    (hc : ∀ c, c ∈ cases ↔ ∃ r ∈ rows, r.setting = c) :
    ∃ fin, normalize limit cases out = some fin ∧ fin.length = rows.length ∧ ∀ r ∈ fin, 0 ≤ r.loss ∧ r.loss ≤ 1 := by
  obtain ⟨g, _, hg, _, rfl⟩ := limit_spec limit hl rows out h
  have hc' : ∀ c, c ∈ cases ↔ ∃ r ∈ rows.map (fun r => { r with loss := g r.loss }), r.setting = c := by
    intro c
    rw [hc]
    simp
  obtain ⟨f, hf, h0, _⟩ := normalize_range_partial limit cases hnd _ hc' (by simp [hg])
  refine ⟨_, hf, by simp, ?_⟩
  intro r hr
  obtain ⟨t, ht, rfl⟩ := List.mem_map.1 hr
  exact h0 t ht

/-! ## Medians -/

theorem sorted_counts (s : List K) (hs : s.Pairwise (· ≤ ·)) (k : Nat) (hk : k < s.length) (x : K) :
    (s[k] ≤ x → k + 1 ≤ s.countP (· ≤ x)) ∧ (x ≤ s[k] → s.length - k ≤ s.countP (x ≤ ·)) := by
  rw [List.pairwise_iff_getElem] at hs
  constructor
  · intro hx
    have h : (s.take (k + 1)).countP (· ≤ x) = (s.take (k + 1)).length := by
      rw [List.countP_eq_length]
      intro a ha
      obtain ⟨i, hi, rfl⟩ := List.mem_iff_getElem.1 ha
      simp only [List.length_take] at hi
      rw [List.getElem_take]
      simp only [decide_eq_true_eq]
      rcases Nat.lt_or_ge i k with h | h
      · exact (hs i k _ hk h).trans hx
      · have : i = k := by omega
        subst this; exact hx
    have h2 : s.countP (· ≤ x) = (s.take (k + 1)).countP (· ≤ x) + (s.drop (k + 1)).countP (· ≤ x) := by
      rw [← List.countP_append, List.take_append_drop]
    rw [h2, h, List.length_take]
    omega
  · intro hx
    have h : (s.drop k).countP (x ≤ ·) = (s.drop k).length := by
      rw [List.countP_eq_length]
      intro a ha
      obtain ⟨i, hi, rfl⟩ := List.mem_iff_getElem.1 ha
      rw [List.getElem_drop]
      simp only [decide_eq_true_eq]
      simp only [List.length_drop] at hi
      rcases Nat.eq_zero_or_pos i with h | h
      · subst h; exact hx
      · exact hx.trans (hs k (k + i) hk (by omega) (by omega))
    have h2 : s.countP (x ≤ ·) = (s.take k).countP (x ≤ ·) + (s.drop k).countP (x ≤ ·) := by
      rw [← List.countP_append, List.take_append_drop]
    rw [h2, h, List.length_drop]
    omega

/-- Half of the values are at most the median and half are at least the median. -/
theorem median_counts (l : List K) (hne : l ≠ []) : l.length ≤ 2 * l.countP (· ≤ median l) ∧ l.length ≤ 2 * l.countP (median l ≤ ·) := by
  have hp : (l.insertionSort (· ≤ ·)).Perm l := List.perm_insertionSort _ _
  have hs : (l.insertionSort (· ≤ ·)).Pairwise (· ≤ ·) := List.pairwise_insertionSort _ _
  rw [← hp.countP_eq, ← hp.countP_eq, ← hp.length_eq]
  have hpos : 0 < (l.insertionSort (· ≤ ·)).length := by rw [hp.length_eq]; exact List.length_pos_iff.2 hne
  unfold median
  simp only
  generalize l.insertionSort (· ≤ ·) = s at *
  split
  · rename_i hodd
    have hk : s.length / 2 < s.length := by omega
    rw [List.getD_eq_getElem _ _ hk]
    have h := sorted_counts s hs _ hk s[s.length / 2]
    have h1 := h.1 (le_refl _)
    have h2 := h.2 (le_refl _)
    omega
  · rename_i heven
    have hk : s.length / 2 < s.length := by omega
    have hk' : s.length / 2 - 1 < s.length := by omega
    rw [List.getD_eq_getElem _ _ hk, List.getD_eq_getElem _ _ hk']
    have hle : s[s.length / 2 - 1] ≤ s[s.length / 2] := (List.pairwise_iff_getElem.1 hs) _ _ hk' hk (by omega)
    have h1 := (sorted_counts s hs _ hk' ((s[s.length / 2 - 1] + s[s.length / 2]) / 2)).1 (by linarith)
    have h2 := (sorted_counts s hs _ hk ((s[s.length / 2 - 1] + s[s.length / 2]) / 2)).2 (by linarith)
    omega

/-- The median does not depend on the order of the values. -/
theorem median_perm (l l' : List K) (h : l.Perm l') : median l = median l' := by
  have : l.insertionSort (· ≤ ·) = l'.insertionSort (· ≤ ·) :=
    List.Perm.eq_of_pairwise (fun a b _ _ h1 h2 => le_antisymm h1 h2) (List.pairwise_insertionSort _ _) (List.pairwise_insertionSort _ _)
      (((List.perm_insertionSort _ _).trans h).trans (List.perm_insertionSort _ _).symm)
  unfold median
  rw [this]

/-- The median is symmetric. -/
theorem median_neg (l : List K) : median (l.map (fun x => -x)) = - median l := by
  have hsort : (l.map (fun x => -x)).insertionSort (· ≤ ·) = ((l.insertionSort (· ≤ ·)).map (fun x => -x)).reverse := by
    refine List.Perm.eq_of_pairwise (fun a b _ _ h1 h2 => le_antisymm h1 h2) (List.pairwise_insertionSort _ _) ?_ ?_
    · rw [List.pairwise_reverse, List.pairwise_map]
      exact (List.pairwise_insertionSort (· ≤ ·) l).imp (fun h => neg_le_neg h)
    · refine (List.perm_insertionSort _ _).trans (List.Perm.trans ?_ (List.reverse_perm _).symm)
      exact (List.perm_insertionSort _ _).symm.map _
  unfold median
  rw [hsort]
  generalize l.insertionSort (· ≤ ·) = s
  simp only [List.length_reverse, List.length_map]
  have hget : ∀ k, k < s.length → ((s.map (fun x => -x)).reverse).getD k 0 = - s.getD (s.length - 1 - k) 0 := by
    intro k hk
    rw [List.getD_eq_getElem _ _ (by simpa using hk), List.getElem_reverse, List.getElem_map, List.getD_eq_getElem _ _ (by omega)]
    simp
  rcases Nat.eq_zero_or_pos s.length with h0 | hpos
  · have : s = [] := List.length_eq_zero_iff.1 h0
    subst this
    simp
  split
  · rename_i hodd
    rw [hget _ (by omega)]
    congr 2
    omega
  · rename_i heven
    rw [hget _ (by omega), hget _ (by omega)]
    have e1 : s.length - 1 - (s.length / 2 - 1) = s.length / 2 := by omega
    have e2 : s.length - 1 - s.length / 2 = s.length / 2 - 1 := by omega
    rw [e1, e2]
    ring

example : median [(5 : ℚ), 1, 3] = 3 ∧ median [(5 : ℚ), 1, 3, 100] = 4 := by decide +kernel

/-! ## Data of the plots -/

/-- C93: each optimizer of the table appears once, with its budgets in increasing order; the loss is a median of the losses of its runs with this budget, `num` the number of runs. -/
theorem data_spec (rows : List (Row O B C K)) :
    ((makeData rows).map Prod.fst).Nodup ∧ (∀ o, o ∈ (makeData rows).map Prod.fst ↔ ∃ r ∈ rows, r.opt = o) ∧
      ∀ o pts, (o, pts) ∈ makeData rows → (pts.map Point.budget).Pairwise (· < ·) ∧ (∀ b, b ∈ pts.map Point.budget ↔ ∃ r ∈ rows, r.opt = o ∧ r.budget = b) ∧
        ∀ p ∈ pts, p.num = rows.countP (fun r => r.opt = o ∧ r.budget = p.budget) ∧ 0 < p.num ∧ p.loss = median (group rows o p.budget) ∧
          p.num ≤ 2 * rows.countP (fun r => (r.opt = o ∧ r.budget = p.budget) ∧ r.loss ≤ p.loss) ∧ p.num ≤ 2 * rows.countP (fun r => (r.opt = o ∧ r.budget = p.budget) ∧ p.loss ≤ r.loss) := by
  have hfst : (makeData rows).map Prod.fst = (rows.map Row.opt).dedup := by
    simp [makeData, Function.comp_def]
  refine ⟨?_, ?_, ?_⟩
  · rw [hfst]; exact List.nodup_dedup _
  · intro o; rw [hfst]; simp
  · intro o pts h
    unfold makeData at h
    obtain ⟨o', ho', he⟩ := List.mem_map.1 h
    simp only [Prod.mk.injEq] at he
    obtain ⟨rfl, rfl⟩ := he
    have hb : (((budgets rows o').map (fun b => (⟨b, median (group rows o' b), (group rows o' b).length⟩ : Point B K))).map Point.budget) = budgets rows o' := by
      simp [Function.comp_def]
    have hmem : ∀ b, b ∈ budgets rows o' ↔ ∃ r ∈ rows, r.opt = o' ∧ r.budget = b := by
      intro b
      simp [budgets, List.mem_insertionSort, and_assoc]
    refine ⟨?_, ?_, ?_⟩
    · rw [hb]
      have h1 : (budgets rows o').Pairwise (· ≤ ·) := List.pairwise_insertionSort _ _
      have h2 : (budgets rows o').Nodup := (List.perm_insertionSort _ _).nodup_iff.2 (List.nodup_dedup _)
      exact (h1.and h2).imp (fun h => lt_of_le_of_ne h.1 h.2)
    · intro b; rw [hb]; exact hmem b
    · intro p hp
      obtain ⟨b, hb', rfl⟩ := List.mem_map.1 hp
      have hlen : (group rows o' b).length = rows.countP (fun r => r.opt = o' ∧ r.budget = b) := by
        simp [group, List.countP_eq_length_filter]
      have hne : group rows o' b ≠ [] := by
        obtain ⟨r, hr, h1, h2⟩ := (hmem b).1 hb'
        intro hnil
        have : r.loss ∈ group rows o' b := by
          unfold group
          exact List.mem_map.2 ⟨r, List.mem_filter.2 ⟨hr, by simp [h1, h2]⟩, rfl⟩
        rw [hnil] at this
        simp at this
      have hcount : ∀ q : K → Bool, (group rows o' b).countP q = rows.countP (fun r => decide (r.opt = o' ∧ r.budget = b) && q r.loss) := by
        intro q
        simp only [group, List.countP_map, List.countP_filter]
        apply List.countP_congr
        intro r _
        simp [Bool.and_comm, and_comm]
      obtain ⟨h1, h2⟩ := median_counts (group rows o' b) hne
      rw [hcount] at h1 h2
      refine ⟨hlen, List.length_pos_iff.2 hne, rfl, ?_, ?_⟩
      · simpa using h1
      · simpa using h2

example : makeData [⟨'a', 2, (), (5 : ℚ)⟩, ⟨'b', 1, (), 1⟩, ⟨'a', 1, (), 7⟩, ⟨'a', 2, (), 1⟩, ⟨'a', 2, (), 3⟩] = [('b', [⟨1, 1, 1⟩]), ('a', [⟨1, 7, 1⟩, ⟨2, 3, 3⟩])] := by decide +kernel

/-! ## The leaderboard -/

/-- What is listed for a budget. -/
def Board.get (d : Board O B K) (b : B) : Option (WithTop K × Option O) := (d.find? (fun e => e.1 = b)).map Prod.snd

theorem get_record (o : O) (b : B) (l : WithTop K) (d : Board O B K) (b' : B) :
    Board.get (record o b l d) b' = if b' = b then some (match Board.get d b with
      | none => if l < ⊤ then (l, some o) else (⊤, none)
      | some e => if l < e.1 then (l, some o) else e) else Board.get d b' := by
  induction d with
  | nil =>
    by_cases h : b' = b
    · subst h; simp [record, Board.get]
    · have h' : ¬ b = b' := fun e => h e.symm
      simp [record, Board.get, h, h']
  | cons e es ih =>
    by_cases he : e.1 = b
    · by_cases h : b' = b
      · subst h
        by_cases hl : l < e.2.1 <;> simp [record, he, Board.get, List.find?_cons, hl]
      · have h' : ¬ b = b' := fun e => h e.symm
        by_cases hl : l < e.2.1 <;> simp [record, he, Board.get, List.find?_cons, h, h', hl]
    · by_cases h : b' = b
      · subst h
        have hr : record o b' l (e :: es) = e :: record o b' l es := by simp [record, he]
        have hg : ∀ t : Board O B K, Board.get (e :: t) b' = Board.get t b' := by intro t; simp [Board.get, List.find?_cons, he]
        rw [hr, hg, hg, ih]
      · have hr : record o b l (e :: es) = e :: record o b l es := by simp [record, he]
        rw [hr, if_neg h]
        rw [if_neg h] at ih
        by_cases h2 : e.1 = b'
        · simp [Board.get, List.find?_cons, h2]
        · have hg : ∀ t : Board O B K, Board.get (e :: t) b' = Board.get t b' := by intro t; simp [Board.get, List.find?_cons, h2]
          rw [hg, hg, ih]

theorem keys_record (o : O) (b : B) (l : WithTop K) (d : Board O B K) :
    (record o b l d).map Prod.fst = if b ∈ d.map Prod.fst then d.map Prod.fst else d.map Prod.fst ++ [b] := by
  induction d with
  | nil => simp [record]
  | cons e es ih =>
    by_cases he : e.1 = b
    · by_cases hl : l < e.2.1 <;> simp [record, he, hl]
    · have he' : ¬ b = e.1 := fun h => he h.symm
      simp only [record, he, if_false, List.map_cons, ih, List.mem_cons, he', false_or]
      split <;> simp

/-- The runs of the leaderboard in the order they are read. -/
def flat (data : List (O × List (B × WithTop K))) : List (O × B × WithTop K) := data.flatMap (fun p => p.2.map (fun q => (p.1, q.1, q.2)))

theorem leaderboard_flat (data : List (O × List (B × WithTop K))) : leaderboard data = (flat data).foldl (fun d t => record t.1 t.2.1 t.2.2 d) [] := by
  unfold leaderboard flat
  rw [List.foldl_flatMap]
  simp only [List.foldl_map]

/-- What is said about one budget. -/
def Listed (runs : List (O × B × WithTop K)) (b : B) : Option (WithTop K × Option O) → Prop
  | none => ∀ t ∈ runs, t.2.1 ≠ b
  | some (l, none) => l = ⊤ ∧ (∃ t ∈ runs, t.2.1 = b) ∧ ∀ t ∈ runs, t.2.1 = b → t.2.2 = ⊤
  | some (l, some o) => l < ⊤ ∧ (∃ pre post, runs = pre ++ (o, b, l) :: post ∧ (∀ t ∈ pre, t.2.1 = b → l < t.2.2) ∧ ∀ t ∈ post, t.2.1 = b → l ≤ t.2.2)

theorem listed_fold (runs : List (O × B × WithTop K)) :
    (((runs.foldl (fun d t => record t.1 t.2.1 t.2.2 d) []) : Board O B K).map Prod.fst).Nodup ∧
      ∀ b, Listed runs b (Board.get (runs.foldl (fun d t => record t.1 t.2.1 t.2.2 d) []) b) := by
  induction runs using List.reverseRecOn with
  | nil => simp [Board.get, Listed]
  | append_singleton runs t ih =>
    obtain ⟨ih1, ih2⟩ := ih
    rw [List.foldl_append, List.foldl_cons, List.foldl_nil]
    generalize (runs.foldl (fun d t => record t.1 t.2.1 t.2.2 d) [] : Board O B K) = d at ih1 ih2
    obtain ⟨o, b, l⟩ := t
    constructor
    · rw [keys_record]
      split
      · exact ih1
      · rename_i hn
        rw [List.nodup_append]
        refine ⟨ih1, by simp, ?_⟩
        intro a ha c hc
        simp only [List.mem_singleton] at hc
        subst hc
        intro e; subst e; exact hn ha
    · intro b'
      rw [get_record]
      by_cases h : b' = b
      · subst h
        rw [if_pos rfl]
        have := ih2 b'
        cases hg : Board.get d b' with
        | none =>
          rw [hg] at this
          simp only [Listed] at this
          by_cases hl : l < ⊤
          · simp only [hl, if_true, Listed]
            exact ⟨trivial, runs, [], rfl, fun t ht hb => absurd hb (this t ht), by simp⟩
          · have hl' : l = ⊤ := not_lt_top_iff.1 hl
            simp only [hl, if_false, Listed]
            refine ⟨trivial, ⟨(o, b', l), by simp, rfl⟩, ?_⟩
            intro t ht hb
            rw [List.mem_append, List.mem_singleton] at ht
            rcases ht with ht | rfl
            · exact absurd hb (this t ht)
            · exact hl'
        | some e =>
          obtain ⟨le, oe⟩ := e
          rw [hg] at this
          cases oe with
          | none =>
            simp only [Listed] at this
            obtain ⟨rfl, ⟨t0, ht0, hb0⟩, hall⟩ := this
            by_cases hl : l < ⊤
            · simp only [hl, if_true, Listed]
              exact ⟨trivial, runs, [], rfl, fun t ht hb => by rw [hall t ht hb]; exact hl, by simp⟩
            · have hl' : l = ⊤ := not_lt_top_iff.1 hl
              simp only [hl, if_false, Listed]
              refine ⟨trivial, ⟨t0, by simp [ht0], hb0⟩, ?_⟩
              intro t ht hb
              rw [List.mem_append, List.mem_singleton] at ht
              rcases ht with ht | rfl
              · exact hall t ht hb
              · exact hl'
          | some oe =>
            simp only [Listed] at this
            obtain ⟨htop, pre, post, rfl, h1, h2⟩ := this
            by_cases hl : l < le
            · simp only [hl, if_true, Listed]
              refine ⟨hl.trans htop, _, [], rfl, ?_, by simp⟩
              intro t ht hb
              rw [List.mem_append, List.mem_cons] at ht
              rcases ht with ht | rfl | ht
              · exact hl.trans (h1 t ht hb)
              · exact hl
              · exact lt_of_lt_of_le hl (h2 t ht hb)
            · simp only [hl, if_false, Listed]
              refine ⟨htop, pre, post ++ [(o, b', l)], by simp, h1, ?_⟩
              intro t ht hb
              rw [List.mem_append, List.mem_singleton] at ht
              rcases ht with ht | rfl
              · exact h2 t ht hb
              · exact not_lt.1 hl
      · rw [if_neg h]
        have := ih2 b'
        have hne : ¬ b = b' := fun e => h e.symm
        cases hg : Board.get d b' with
        | none =>
          rw [hg] at this
          simp only [Listed] at this ⊢
          intro t ht
          rw [List.mem_append, List.mem_singleton] at ht
          rcases ht with ht | rfl
          · exact this t ht
          · exact hne
        | some e =>
          obtain ⟨le, oe⟩ := e
          rw [hg] at this
          cases oe with
          | none =>
            simp only [Listed] at this ⊢
            obtain ⟨h1, ⟨t0, ht0, hb0⟩, hall⟩ := this
            refine ⟨h1, ⟨t0, by simp [ht0], hb0⟩, ?_⟩
            intro t ht hb
            rw [List.mem_append, List.mem_singleton] at ht
            rcases ht with ht | rfl
            · exact hall t ht hb
            · exact absurd hb hne
          | some oe =>
            simp only [Listed] at this ⊢
            obtain ⟨htop, pre, post, rfl, h1, h2⟩ := this
            refine ⟨htop, pre, post ++ [(o, b, l)], by simp, h1, ?_⟩
            intro t ht hb
            rw [List.mem_append, List.mem_singleton] at ht
            rcases ht with ht | rfl
            · exact h2 t ht hb
            · exact absurd hb hne

/-- C93: the leaderboard lists each budget once, with the smallest loss of this budget and the first optimizer which obtained it; "none" only if all losses of the budget are infinite. -/
theorem leaderboard_spec (data : List (O × List (B × WithTop K))) :
    ((leaderboard data).map Prod.fst).Nodup ∧ ∀ b, Listed (flat data) b (Board.get (leaderboard data) b) := by
  rw [leaderboard_flat]
  exact listed_fold _

example : leaderboard [('a', [(1, (5 : WithTop ℚ)), (2, ⊤)]), ('b', [(1, 3), (2, ⊤), (3, 7)]), ('c', [(1, 3)])] = [(1, 3, some 'b'), (2, ⊤, none), (3, 7, some 'b')] := by decide +kernel

/-! ## Curves and legends -/

theorem ordered_spec (data : List (O × K)) : (ordered data).Perm data ∧ (ordered data).Pairwise (fun a b => b.2 ≤ a.2) := by
  haveI : Std.Total (fun a b : O × K => b.2 ≤ a.2) := ⟨fun a b => le_total _ _⟩
  haveI : IsTrans (O × K) (fun a b : O × K => b.2 ≤ a.2) := ⟨fun a b c h1 h2 => le_trans h2 h1⟩
  exact ⟨List.perm_insertionSort _ _, List.pairwise_insertionSort _ _⟩

/-- C93: the curves shown are those of at most 36 optimizers: the 35 best by their last loss and the worst, from the worst to the best; the others are between them. -/
theorem shown_spec (data : List (O × K)) :
    (shown (ordered data)).Sublist (ordered data) ∧ (shown (ordered data)).length = min 36 data.length ∧
      (ordered data).Perm (shown (ordered data) ++ ((ordered data).drop 1).take (data.length - 36)) ∧
      ∀ x ∈ ((ordered data).drop 1).take (data.length - 36), (∀ y ∈ (shown (ordered data)).drop 1, y.2 ≤ x.2) ∧ ∀ y ∈ (shown (ordered data)).head?, x.2 ≤ y.2 := by
  obtain ⟨hp, hs⟩ := ordered_spec data
  have hlen := hp.length_eq
  generalize ordered data = s at *
  unfold shown
  by_cases h : 35 < s.length
  · rw [if_pos h]
    cases s with
    | nil => simp at h
    | cons a t =>
      simp only [List.length_cons] at h hlen
      have hd : (a :: t).drop ((a :: t).length - 35) = t.drop (t.length - 35) := by
        have : (a :: t).length - 35 = (t.length - 35) + 1 := by simp only [List.length_cons]; omega
        rw [this, List.drop_succ_cons]
      have hk : data.length - 36 = t.length - 35 := by omega
      rw [hd, hk]
      simp only [List.take_succ_cons, List.take_zero, List.cons_append, List.nil_append, List.drop_succ_cons, List.drop_zero, List.head?_cons]
      refine ⟨(List.drop_sublist _ _).cons_cons _, ?_, ?_, ?_⟩
      · simp only [List.length_cons, List.length_drop]; omega
      · refine List.Perm.cons a ?_
        have := (List.perm_append_comm (l₁ := t.take (t.length - 35)) (l₂ := t.drop (t.length - 35)))
        rw [List.take_append_drop] at this
        exact this
      · intro x hx
        rw [List.pairwise_cons] at hs
        constructor
        · intro y hy
          have h2 := hs.2
          rw [← List.take_append_drop (t.length - 35) t, List.pairwise_append] at h2
          exact h2.2.2 x hx y hy
        · intro y hy
          simp only [Option.mem_def, Option.some.injEq] at hy
          subst hy
          exact hs.1 x (List.mem_of_mem_take hx)
  · rw [if_neg h]
    have hk : data.length - 36 = 0 := by omega
    rw [hk]
    refine ⟨List.Sublist.refl _, by omega, by simp, by simp⟩

/-- The best optimizer is drawn last. -/
theorem shown_best (data : List (O × K)) (hne : data ≠ []) : ∃ z, (shown (ordered data)).getLast? = some z ∧ z ∈ data ∧ ∀ y ∈ data, z.2 ≤ y.2 := by
  obtain ⟨hp, hs⟩ := ordered_spec data
  have hne' : ordered data ≠ [] := fun h => hne (by rw [h] at hp; exact hp.symm.eq_nil)
  have hlast : (shown (ordered data)).getLast? = (ordered data).getLast? := by
    unfold shown
    split
    · rename_i h
      rw [List.getLast?_append_of_ne_nil _ (by intro hc; have := congrArg List.length hc; simp only [List.length_drop, List.length_nil] at this; omega)]
      rw [List.getLast?_drop, if_neg (by omega)]
    · rfl
  refine ⟨(ordered data).getLast hne', ?_, hp.mem_iff.1 (List.getLast_mem hne'), ?_⟩
  · rw [hlast, List.getLast?_eq_getLast_of_ne_nil hne']
  · intro y hy
    have hy' := hp.mem_iff.2 hy
    have := hs
    rw [← List.dropLast_append_getLast hne', List.pairwise_append] at this
    rw [← List.dropLast_append_getLast hne', List.mem_append, List.mem_singleton] at hy'
    rcases hy' with h | h
    · exact this.2.2 y h _ (by simp)
    · rw [h]

/-- C93: the legends are given to `compute_best_placements` in increasing order, so that it does not fail; `g` is the position of a loss in the figure. -/
theorem legends_placed (data : List (O × K)) (g : K → K) (hg : Monotone g) (d : K) :
    ∃ out, Legend.placements ((shown (ordered data)).reverse.map (fun p => g p.2)) d = some out ∧ out.length = (shown (ordered data)).length := by
  have hs : (shown (ordered data)).Pairwise (fun a b => b.2 ≤ a.2) := (ordered_spec data).2.sublist (shown_spec data).1
  have hr : Legend.Rising ((shown (ordered data)).reverse.map (fun p => g p.2)) := by
    have : ((shown (ordered data)).reverse.map (fun p => g p.2)).Pairwise (· ≤ ·) := by
      rw [List.pairwise_map, List.pairwise_reverse]
      exact hs.imp (fun h => hg h)
    intro i a b ha hb
    obtain ⟨hi, rfl⟩ := List.getElem?_eq_some_iff.1 ha
    obtain ⟨hj, rfl⟩ := List.getElem?_eq_some_iff.1 hb
    exact (List.pairwise_iff_getElem.1 this) _ _ hi hj (by omega)
  obtain ⟨out, h1, h2, _⟩ := Legend.placements_optimal d _ hr
  exact ⟨out, h1, by rw [h2]; simp⟩

/-- C93: for names without spaces, `pure_only` keeps the optimizers of the fight plot of complete runs. -/
theorem pure_spec (names : List (List Char × List Char)) (hsp : ∀ n ∈ names, ' ' ∉ n.1) (o : List Char) (ho : ' ' ∉ o) :
    pureTest (names.map (fun n => label n.1 n.2)) o = true ↔ ∃ n ∈ names, n.1 = o := by
  have key : ∀ (o n c : List Char), ' ' ∉ o → ' ' ∉ n → ((n ++ ' ' :: c).take (o.length + 1) = o ++ [' '] ↔ n = o) := by
    intro o
    induction o with
    | nil =>
      intro n c _ hn
      cases n with
      | nil => simp
      | cons a n =>
        simp only [List.mem_cons, not_or] at hn
        simp [Ne.symm hn.1]
    | cons a o ih =>
      intro n c ho hn
      simp only [List.mem_cons, not_or] at ho
      cases n with
      | nil => simp [ho.1]
      | cons b n =>
        simp only [List.mem_cons, not_or] at hn
        have := ih n c ho.2 hn.2
        simp only [List.cons_append, List.length_cons, List.take_succ_cons, List.cons.injEq]
        rw [this]
  unfold pureTest
  rw [List.any_eq_true]
  constructor
  · rintro ⟨p, hp, h⟩
    obtain ⟨n, hn, rfl⟩ := List.mem_map.1 hp
    refine ⟨n, hn, ?_⟩
    have h' := beq_iff_eq.1 h
    have e : label n.1 n.2 = n.1 ++ ' ' :: ('(' :: n.2 ++ [')']) := by simp [label]
    rw [e] at h'
    exact (key o n.1 _ ho (hsp n hn)).1 h'
  · rintro ⟨n, hn, rfl⟩
    refine ⟨_, List.mem_map.2 ⟨n, hn, rfl⟩, ?_⟩
    rw [beq_iff_eq]
    have e : label n.1 n.2 = n.1 ++ ' ' :: ('(' :: n.2 ++ [')']) := by simp [label]
    rw [e]
    exact (key n.1 n.1 _ ho ho).2 rfl

/-- With spaces, an optimizer is also kept if its name begins another one. -/
theorem pure_spaces : pureTest [label "A B".toList "1/1".toList] "A".toList = true := by decide +kernel

/-! ## Merged names -/

/-- C93: without a pattern nothing happens; in particular suffixes stay, although their removal was asked for. -/
theorem suffix_ignored {P : Type} [DecidableEq P] (strip : O → O) (rows : List (O × P)) : mergeNames none true strip rows = rows.map Prod.fst := rfl

/-- C93: with a pattern which tells apart the descriptions of an optimizer, the lines of an optimizer have the same name exactly if they have the same description, and the name is
unchanged if the optimizer has one description. -/
theorem merge_spec_partial {P : Type} [DecidableEq P] (f : O → P → O) (hf : ∀ o p q, f o p = f o q → p = q) (strip : O → O) (rows : List (O × P)) :
    ∃ g : O → P → O, mergeNames (some f) false strip rows = rows.map (fun r => g r.1 r.2) ∧ (∀ r ∈ rows, ∀ s ∈ rows, r.1 = s.1 → (g r.1 r.2 = g s.1 s.2 ↔ r.2 = s.2)) ∧
      ∀ r ∈ rows, ((∀ s ∈ rows, s.1 = r.1 → s.2 = r.2) → g r.1 r.2 = r.1) ∧ (∀ s ∈ rows, s.1 = r.1 → s.2 ≠ r.2 → g r.1 r.2 = f r.1 r.2) := by
  have hone : ∀ l : List P, (1 < l.dedup.length ↔ ∃ a ∈ l, ∃ b ∈ l, a ≠ b) := by
    intro l
    constructor
    · intro h
      match hd : l.dedup, h with
      | a :: b :: t, _ =>
        have hn : (a :: b :: t).Nodup := hd ▸ List.nodup_dedup l
        refine ⟨a, List.mem_dedup.1 (by rw [hd]; simp), b, List.mem_dedup.1 (by rw [hd]; simp), ?_⟩
        rintro rfl
        simp at hn
    · rintro ⟨a, ha, b, hb, hab⟩
      by_contra hc
      push Not at hc
      have ha' := List.mem_dedup.2 ha
      have hb' := List.mem_dedup.2 hb
      match hd : l.dedup, hc with
      | [], _ => rw [hd] at ha'; simp at ha'
      | [c], _ =>
        rw [hd, List.mem_singleton] at ha' hb'
        exact hab (ha'.trans hb'.symm)
  have hsub : ∀ o, ((rows.filter (fun s => s.1 = o)).map Prod.snd).Sublist (rows.map Prod.snd) := fun o => List.filter_sublist.map _
  let g : O → P → O := fun o p => if 1 < (((rows.filter (fun s => s.1 = o)).map Prod.snd).dedup).length then f o p else o
  have hmany : ∀ r ∈ rows, ∀ s ∈ rows, s.1 = r.1 → s.2 ≠ r.2 → 1 < (((rows.filter (fun s => s.1 = r.1)).map Prod.snd).dedup).length := by
    intro r hr s hs hrs hne
    rw [hone]
    refine ⟨s.2, ?_, r.2, ?_, hne⟩
    · exact List.mem_map.2 ⟨s, List.mem_filter.2 ⟨hs, by simp [hrs]⟩, rfl⟩
    · exact List.mem_map.2 ⟨r, List.mem_filter.2 ⟨hr, by simp⟩, rfl⟩
  refine ⟨g, ?_, ?_, ?_⟩
  · simp only [mergeNames]
    simp only [Bool.false_eq_true, if_false]
    split
    · rfl
    · rename_i h
      apply List.map_congr_left
      intro r hr
      show r.1 = if _ then _ else _
      rw [if_neg]
      intro h'
      apply h
      rw [hone] at h' ⊢
      obtain ⟨a, ha, b, hb, hab⟩ := h'
      exact ⟨a, (hsub _).subset ha, b, (hsub _).subset hb, hab⟩
  · intro r hr s hs hrs
    constructor
    · intro h
      by_contra hne
      have h1 := hmany r hr s hs hrs.symm (Ne.symm hne)
      have e1 : g r.1 r.2 = f r.1 r.2 := if_pos h1
      have e2 : g s.1 s.2 = f r.1 s.2 := by rw [← hrs]; exact if_pos h1
      rw [e1, e2] at h
      exact hne (hf _ _ _ h)
    · intro h; rw [hrs, h]
  · intro r hr
    constructor
    · intro h
      show (if _ then _ else _) = _
      rw [if_neg]
      rw [hone]
      rintro ⟨a, ha, b, hb, hab⟩
      obtain ⟨s, hs, rfl⟩ := List.mem_map.1 ha
      obtain ⟨t, ht, rfl⟩ := List.mem_map.1 hb
      rw [List.mem_filter] at hs ht
      exact hab ((h s hs.1 (by simpa using hs.2)).trans (h t ht.1 (by simpa using ht.2)).symm)
    · intro s hs hrs hne
      exact if_pos (hmany r hr s hs hrs hne)

/-- The pattern of `merge_parametrization`. -/
def paramPattern (o p : List Char) : List Char := o ++ [','] ++ p

theorem paramPattern_injective (o p q : List Char) (h : paramPattern o p = paramPattern o q) : p = q := by simpa [paramPattern] using h

/-- Merged names of different optimizers can be equal. -/
theorem merge_collision : ∃ rows : List (List Char × List Char), rows.Nodup ∧ ∃ i j : Nat, i ≠ j ∧ (rows[i]?.map Prod.fst) ≠ (rows[j]?.map Prod.fst) ∧
    (mergeNames (some paramPattern) false id rows)[i]? = (mergeNames (some paramPattern) false id rows)[j]? ∧ i < rows.length := by
  refine ⟨[("A".toList, "b".toList), ("A".toList, "c".toList), ("A,b".toList, "c".toList)], by decide +kernel, 0, 2, by decide, by decide +kernel, by decide +kernel, by decide⟩

example : mergeNames (some paramPattern) false id [("A".toList, "b".toList), ("A".toList, "c".toList), ("B".toList, "c".toList)] = ["A,b".toList, "A,c".toList, "B".toList] := by decide +kernel

end Xp
end NG
