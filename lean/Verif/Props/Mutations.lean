import Verif.Model.Mutations
import Verif.Props.Discrete
import Verif.Props.Crossover

/-! # C50: discrete mutations, and C63: discrete crossovers -/

namespace NG
namespace Mut
variable {β α : Type}

theorem significantly_spec (cat : Nat → β → Int) (arity : Nat) (v w : β) (ws rest : List β) (ha : arity ≤ 499)
    (h : significantly cat arity v ws = some (w, rest)) : cat arity w ≠ cat arity v := by
  induction ws with
  | nil => simp [significantly] at h
  | cons x ws ih =>
    simp only [significantly, show ¬ 499 < arity by omega, if_false] at h
    split at h
    · cases h
    · split at h
      · exact ih h
      · rename_i hne
        simp only [Option.some.injEq, Prod.mk.injEq] at h
        rw [← h.1]; exact hne

/-- Coordinates kept are unchanged, the others are in a different category. -/
def Changes (cat : Nat → β → Int) (arity : Nat) (keep : List Bool) (parent out : List β) : Prop :=
  out.length = parent.length ∧ keep.length = parent.length ∧
  ∀ (i : Nat) (b : Bool) (x y : β), keep[i]? = some b → parent[i]? = some x → out[i]? = some y →
    (b = true → y = x) ∧ (b = false → cat arity y ≠ cat arity x)

theorem masked_spec (cat : Nat → β → Int) (arity : Nat) (ha : arity ≤ 499) (keep : List Bool) (parent ws out : List β)
    (hl : keep.length = parent.length) (h : masked cat arity keep parent ws = some out) : Changes cat arity keep parent out := by
  induction keep generalizing parent ws out with
  | nil =>
    cases parent with
    | nil => simp [masked] at h; subst h; exact ⟨rfl, rfl, by simp⟩
    | cons _ _ => simp at hl
  | cons b bs ih =>
    cases parent with
    | nil => simp at hl
    | cons s ss =>
      simp only [List.length_cons, Nat.add_right_cancel_iff] at hl
      have fin : ∀ (x : β) (out' : List β), out = x :: out' → (b = true → x = s) → (b = false → cat arity x ≠ cat arity s) →
          Changes cat arity bs ss out' → Changes cat arity (b :: bs) (s :: ss) out := by
        rintro x out' rfl hx1 hx2 ⟨h1, h2, h3⟩
        refine ⟨by simp [h1], by simp [h2], ?_⟩
        intro i b' p q hb hp hq
        cases i with
        | zero =>
          simp only [List.getElem?_cons_zero, Option.some.injEq] at hb hp hq
          subst hb hp hq
          exact ⟨hx1, hx2⟩
        | succ i => exact h3 i b' p q (by simpa using hb) (by simpa using hp) (by simpa using hq)
      simp only [masked] at h
      split at h
      · rename_i hb
        obtain ⟨out', ho, rfl⟩ := Option.map_eq_some_iff.mp h
        exact fin s out' rfl (fun _ => rfl) (by simp [hb]) (ih ss ws out' hl ho)
      · rename_i hb
        split at h
        · cases h
        · rename_i w ws' hw
          obtain ⟨out', ho, rfl⟩ := Option.map_eq_some_iff.mp h
          exact fin w out' rfl (fun hc => absurd hc hb) (fun _ => significantly_spec cat arity s w ws ws' ha hw)
            (ih ss ws' out' hl ho)

theorem mask_spec [LinearOrder α] (rate : α) (n : Nat) (us : List (List α)) (hu : ∀ u ∈ us, u.length = n) (keep : List Bool)
    (h : mask rate us = some keep) : keep.length = n ∧ ∃ i : Nat, keep[i]? = Option.some false := by
  unfold mask at h
  have h1 := List.find?_some h
  have h2 := List.mem_of_find?_eq_some h
  obtain ⟨u, hu', rfl⟩ := List.mem_map.mp h2
  refine ⟨by simpa using hu u hu', ?_⟩
  simp only [Bool.not_eq_true', List.all_eq_false, id] at h1
  obtain ⟨b, hb, hbf⟩ := h1
  obtain ⟨i, hi, he⟩ := List.mem_iff_getElem.mp hb
  refine ⟨i, ?_⟩
  rw [List.getElem?_eq_getElem hi, he]
  cases b
  · rfl
  · simp at hbf

/-- Some coordinate changes. -/
theorem Changes.moved {cat : Nat → β → Int} {arity : Nat} {keep : List Bool} {parent out : List β}
    (h : Changes cat arity keep parent out) (i : Nat) (hi : keep[i]? = some false) :
    ∃ x y, parent[i]? = some x ∧ out[i]? = some y ∧ cat arity y ≠ cat arity x := by
  obtain ⟨hlt, _⟩ := List.getElem?_eq_some_iff.mp hi
  have h1 : i < parent.length := by rw [← h.2.1]; exact hlt
  have h2 : i < out.length := by rw [h.1]; exact h1
  refine ⟨parent[i], out[i], List.getElem?_eq_getElem h1, List.getElem?_eq_getElem h2, ?_⟩
  exact (h.2.2 i false _ _ hi (List.getElem?_eq_getElem h1) (List.getElem?_eq_getElem h2)).2 rfl

/-- What is claimed of the discrete mutations, for the categories of some arity: some coordinates, at least one, go to a different
category, the others are unchanged. -/
def Mutates (cat : Nat → β → Int) (arity : Nat) (parent out : List β) : Prop :=
  out.length = parent.length ∧ ∃ S : Nat → Prop, (∃ i, i < parent.length ∧ S i) ∧
    ∀ i x y, parent[i]? = some x → out[i]? = some y → (S i → cat arity y ≠ cat arity x) ∧ (¬ S i → y = x)

theorem Changes.mutates {cat : Nat → β → Int} {arity : Nat} {keep : List Bool} {parent out : List β}
    (h : Changes cat arity keep parent out) (hk : ∃ i : Nat, keep[i]? = Option.some false) : Mutates cat arity parent out := by
  refine ⟨h.1, fun i => keep[i]? = Option.some false, ?_, ?_⟩
  · obtain ⟨i, hi⟩ := hk
    refine ⟨i, ?_, hi⟩
    obtain ⟨hlt, _⟩ := List.getElem?_eq_some_iff.mp hi
    rw [← h.2.1]; exact hlt
  · intro i x y hx hy
    obtain ⟨hlt, _⟩ := List.getElem?_eq_some_iff.mp hx
    have hlt' : i < keep.length := by rw [h.2.1]; exact hlt
    have := h.2.2 i keep[i] x y (List.getElem?_eq_getElem hlt') hx hy
    beta_reduce
    rw [List.getElem?_eq_getElem hlt']
    simp only [Option.some.injEq]
    refine ⟨this.2, ?_⟩
    intro hne
    apply this.1
    cases hb : keep[i]
    · exact absurd hb hne
    · rfl

section
variable [Field α] [LinearOrder α]

/-- C50: the discrete mutation, for all parents, arities below 500 and draws for which it ends. -/
theorem discrete_mutates (cat : Nat → β → Int) (arity : Nat) (ha : arity ≤ 499) (us : List (List α)) (ws parent out : List β)
    (hu : ∀ u ∈ us, u.length = parent.length) (h : discrete cat arity us ws parent = some out) : Mutates cat arity parent out := by
  unfold discrete at h
  obtain ⟨keep, hk, hm⟩ := Option.bind_eq_some_iff.mp h
  obtain ⟨h1, h2⟩ := mask_spec _ _ us hu keep hk
  exact (masked_spec cat arity ha keep parent ws out h1 hm).mutates h2

/-- C50: the portfolio mutation, in dimension at least two (or zero). -/
theorem portfolio_mutates (cat : Nat → β → Int) (arity : Nat) (ha : arity ≤ 499) (intensity : Option α) (r : Nat) (us : List (List α))
    (ws parent out : List β) (hd : parent.length ≠ 1) (hu : ∀ u ∈ us, u.length = parent.length)
    (h : portfolio cat arity intensity r us ws parent = some out) : Mutates cat arity parent out := by
  unfold portfolio at h
  simp only [hd, if_false] at h
  obtain ⟨keep, hk, hm⟩ := Option.bind_eq_some_iff.mp h
  obtain ⟨h1, h2⟩ := mask_spec _ _ us hu keep hk
  exact (masked_spec cat arity ha keep parent ws out h1 hm).mutates h2

/-- C50: the mutation of Doerr et al., from dimension five. -/
theorem doerr_mutates_partial (cat : Nat → β → Int) (arity : Nat) (ha : arity ≤ 499) (u : Nat) (us : List (List α))
    (ws parent out : List β) (hd : 5 ≤ parent.length) (hu : ∀ u ∈ us, u.length = parent.length)
    (h : doerr cat arity u us ws parent = some out) : Mutates cat arity parent out := by
  unfold doerr at h
  rw [if_neg (by omega)] at h
  exact portfolio_mutates cat arity ha _ 0 us ws parent out (by omega) hu h

end

/-- C50: the single-variable mutation, in dimension at least two: exactly one coordinate goes to another category, all others are
unchanged. -/
theorem rls_mutates (cat : Nat → β → Int) (arity ind : Nat) (ha : arity ≤ 499) (ws parent out : List β) (hd : parent.length ≠ 1)
    (h : rls cat arity ind ws parent = some out) :
    out.length = parent.length ∧ ∃ x y, parent[ind]? = some x ∧ out[ind]? = some y ∧ cat arity y ≠ cat arity x ∧
      ∀ i, i ≠ ind → out[i]? = parent[i]? := by
  unfold rls at h
  rw [if_neg hd] at h
  split at h
  · cases h
  · rename_i v hv
    obtain ⟨r, hr, rfl⟩ := Option.map_eq_some_iff.mp h
    obtain ⟨hlt, _⟩ := List.getElem?_eq_some_iff.mp hv
    refine ⟨by simp, v, r.1, hv, ?_, significantly_spec cat arity v r.1 ws r.2 ha hr, ?_⟩
    · rw [List.getElem?_set_self hlt]
    · intro i hi
      rw [List.getElem?_set_ne (Ne.symm hi)]

/-- The mutations end as soon as suitable draws come: for any parent there are draws for which the discrete mutation is done,
whenever each value has another category to go to. -/
theorem discrete_ends (cat : Nat → β → Int) (arity : Nat) (ha : 2 ≤ arity) (ha' : arity ≤ 499) (parent : List β) (hp : parent ≠ [])
    (hcat : ∀ x, ∃ y, cat arity y ≠ cat arity x) : ∃ (us : List (List ℚ)) (ws : List β), (discrete cat arity us ws parent).isSome := by
  have key : ∀ parent : List β, ∃ ws, (masked cat arity (parent.map (fun _ => false)) parent ws).isSome := by
    intro parent
    induction parent with
    | nil => exact ⟨[], rfl⟩
    | cons x xs ih =>
      obtain ⟨ws, hws⟩ := ih
      obtain ⟨y, hy⟩ := hcat x
      refine ⟨y :: ws, ?_⟩
      simp only [List.map_cons, masked, Bool.false_eq_true, if_false, significantly, show ¬ 499 < arity by omega,
        show ¬ arity ≤ 1 by omega, hy]
      simpa using hws
  obtain ⟨ws, hws⟩ := key parent
  refine ⟨[parent.map (fun _ => 0)], ws, ?_⟩
  unfold discrete mask
  have h0 : ¬ (1 / (parent.length : ℚ) < 0) := by
    have : (0 : ℚ) ≤ 1 / (parent.length : ℚ) := by positivity
    linarith
  have : (List.map (fun u : List ℚ => u.map fun x => decide (1 / (parent.length : ℚ) < x)) [parent.map (fun _ => (0 : ℚ))]).find?
      (fun b => !(b.all id)) = some (parent.map (fun _ => false)) := by
    simp only [List.map_cons, List.map_nil, List.map_map, Function.comp_def, h0, decide_false]
    rw [List.find?_cons_of_pos]
    cases parent with
    | nil => exact absurd rfl hp
    | cons => simp
  rw [this]
  exact hws

/-! ## failures -/

/-- Categories of the code: quantiles of the normal distribution. -/
noncomputable def cats (arity : Nat) (x : ℝ) : Int := Disc.threshold Tr.normCdf arity (.fin x)

theorem cats_zero : cats 3 0 = 1 := by
  have := (Disc.threshold_fin Disc.normal_cdf (arity := 3) (by norm_num) 0 1 (by norm_num)).mpr (by
    rw [Disc.normCdf_zero]; norm_num)
  exact_mod_cast this

theorem cats_other : cats 3 (Tr.normPpf (3 / 5)) = 1 ∧ cats 2 (Tr.normPpf (3 / 5)) = 1 ∧ cats 2 0 = 0 := by
  have hc : Tr.normCdf (Tr.normPpf (3 / 5)) = 3 / 5 := Disc.normal_cdf.right_inv _ (by norm_num) (by norm_num)
  refine ⟨?_, ?_, ?_⟩
  · have := (Disc.threshold_fin Disc.normal_cdf (arity := 3) (by norm_num) (Tr.normPpf (3 / 5)) 1 (by norm_num)).mpr (by
      rw [hc]; norm_num)
    exact_mod_cast this
  · have := (Disc.threshold_fin Disc.normal_cdf (arity := 2) (by norm_num) (Tr.normPpf (3 / 5)) 1 (by norm_num)).mpr (by
      rw [hc]; norm_num)
    exact_mod_cast this
  · simp [cats, Disc.threshold, Disc.W.clean]

/-- FastGA mutation with three categories in dimension below five: it uses two categories, and can leave all coordinates in their
category. -/
theorem doerr_no_change : ∃ (us : List (List ℚ)) (ws out : List ℝ), doerr cats 3 1 us ws [0, 0] = some out ∧
    out.map (cats 3) = ([0, 0] : List ℝ).map (cats 3) := by
  obtain ⟨h1, h2, h3⟩ := cats_other
  refine ⟨[[0, 1]], [Tr.normPpf (3 / 5)], [Tr.normPpf (3 / 5), 0], ?_, ?_⟩
  · have hm : mask (1 / ((([0, 0] : List ℝ).length : ℕ) : ℚ)) [[0, 1]] = some [false, true] := by
      rw [show ([0, 0] : List ℝ).length = 2 from rfl]
      decide +kernel
    unfold doerr
    rw [if_pos (by simp)]
    unfold discrete
    rw [hm]
    simp [masked, significantly, h2, h3]
  · simp [h1, cats_zero]

/-- With 500 categories or more (the default of the optimizers without ordered choices) the new value can be the same. -/
theorem many_categories_no_change (x y : ℝ) : rls cats 500 0 [x] [x, y] = some [x, y] := by
  simp [rls, significantly]

/-- In dimension one the value is simply drawn again and can be in the same category. -/
theorem one_dimension_no_change (x : ℝ) : rls cats 2 0 [x] [x] = some [x] := by
  simp [rls]

/-- Coordinate-wise mutation with three categories: a coordinate which is not selected, in the middle category, goes to the last
category, because the data is converted back with two categories. -/
theorem coordinatewise_changes_unselected : cats 3 0 = 1 ∧ cats 3 (coordinatewise Tr.normCdf Tr.normPpf 3 none 0) = 2 := by
  refine ⟨cats_zero, ?_⟩
  have hk : Disc.threshold Tr.normCdf 3 (.fin 0) = 1 := cats_zero
  have : coordinatewise Tr.normCdf Tr.normPpf 3 none 0 = Tr.normPpf (3 / 4) := by
    unfold coordinatewise
    rw [hk]
    norm_num
  rw [this]
  have hc : Tr.normCdf (Tr.normPpf (3 / 4)) = 3 / 4 := Disc.normal_cdf.right_inv _ (by norm_num) (by norm_num)
  have := (Disc.threshold_fin Disc.normal_cdf (arity := 3) (by norm_num) (Tr.normPpf (3 / 4)) 2 (by norm_num)).mpr (by
    rw [hc]; norm_num)
  exact_mod_cast this

/-! ## cases -/

/-- Categories of integers by parity: the second value is redrawn until the parity changes. -/
example : rls (fun _ x => x % 2) 2 1 [4, 6, 7, 8] [10, 20, 30] = some [10, (7 : Int), 30] := by decide
example : discrete (fun _ x => x % 2) 2 ([[3, 3], [0, 3]] : List (List ℚ)) [4, 6, 7, 8] [10, 20] = some [(7 : Int), 20] := by
  decide +kernel

/-! ## C63: crossovers -/

variable [LinearOrder β]

/-- C63: the vector mixed by a crossover without rotation takes each coordinate from the parent or the donor, at the same position;
with one or two cut points, in sufficient dimension, some coordinate comes from each. -/
theorem mix_spec (kind : Kind) (hk : ∀ k, kind ≠ .rotation k) (pick : Nat → Bool) (parent donor : List β)
    (h : donor.length = parent.length) :
    ∃ S : Nat → Bool, Cross.Mix S parent donor (mix kind pick parent donor) ∧
      ((∃ idx neg, kind = .onepoint idx neg ∧ 4 < parent.length ∧ idx < parent.length - 1) ∨
       (∃ idx idx2 neg, kind = .twopoint idx idx2 neg ∧ 6 < parent.length ∧ idx < parent.length - 1 ∧ idx2 < parent.length - 1 ∧ idx ≠ idx2) →
        (∃ i < parent.length, S i = true) ∧ ∃ i < parent.length, S i = false) := by
  have dflt : Cross.Mix pick parent donor ((parent.zip donor).mapIdx (fun i p => if pick i then p.2 else p.1)) :=
    Cross.mapIdx_mix pick parent donor h
  have byValue : ∀ f : β → β → Bool, ∃ S, Cross.Mix S parent donor ((parent.zip donor).map (fun p => if f p.1 p.2 then p.2 else p.1)) := by
    intro f
    refine ⟨fun i => match parent[i]?, donor[i]? with | some p, some d => f p d | _, _ => false, by simp [h], ?_⟩
    intro i hi
    have hi' : i < donor.length := by omega
    have hz : i < (parent.zip donor).length := by simp [h, hi]
    rw [List.getElem?_map, List.getElem?_eq_getElem hz]
    simp only [Option.map_some, List.getElem_zip, List.getElem?_eq_getElem hi, List.getElem?_eq_getElem hi']
    cases f parent[i] donor[i] <;> rfl
  cases kind with
  | rotation k => exact absurd rfl (hk k)
  | max =>
    obtain ⟨S, hS⟩ := byValue (fun p d => decide (d ≤ p))
    refine ⟨S, ?_, by simp⟩
    have : mix .max pick parent donor = (parent.zip donor).map (fun p => if decide (p.2 ≤ p.1) = true then p.2 else p.1) := by
      simp only [mix, decide_eq_true_eq]
      apply List.map_congr_left
      intro p _
      rw [min_def]
    rw [this]
    exact hS
  | min =>
    obtain ⟨S, hS⟩ := byValue (fun p d => decide (p < d))
    refine ⟨S, ?_, by simp⟩
    have : mix .min pick parent donor = (parent.zip donor).map (fun p => if decide (p.1 < p.2) = true then p.2 else p.1) := by
      simp only [mix, decide_eq_true_eq]
      apply List.map_congr_left
      intro p _
      rw [max_def]
      by_cases hp : p.2 ≤ p.1
      · rw [if_pos hp, if_neg (not_lt.mpr hp)]
      · rw [if_neg hp, if_pos (not_le.mp hp)]
    rw [this]
    exact hS
  | other => exact ⟨pick, dflt, by simp⟩
  | onepoint idx neg =>
    by_cases h4 : 4 < parent.length
    · refine ⟨fun i => decide ((2 * (i : Int) - (2 * idx + 1)) * (if neg then (-1 : Int) else 1) < 0), ?_, ?_⟩
      · have := Cross.mapIdx_mix (fun i => decide ((2 * (i : Int) - (2 * idx + 1)) * (if neg then (-1 : Int) else 1) < 0)) parent donor h
        simpa only [mix, h4, if_true, decide_eq_true_eq] using this
      · rintro (⟨idx', neg', he, _, hi⟩ | ⟨_, _, _, he, _⟩)
        · cases he
          cases neg
          · exact ⟨⟨0, by omega, by simp; omega⟩, ⟨parent.length - 1, by omega, by simp; omega⟩⟩
          · exact ⟨⟨parent.length - 1, by omega, by simp; omega⟩, ⟨0, by omega, by simp; omega⟩⟩
        · cases he
    · refine ⟨pick, by simpa only [mix, h4, if_false] using dflt, ?_⟩
      rintro (⟨_, _, _, hc, _⟩ | ⟨_, _, _, he, _⟩)
      · exact absurd hc h4
      · cases he
  | twopoint idx idx2 neg =>
    by_cases h6 : 6 < parent.length
    · refine ⟨fun i => decide ((2 * (i : Int) - (2 * idx + 1)) * (2 * (i : Int) - (2 * idx2 + 1)) * (if neg then (-1 : Int) else 1) < 0), ?_, ?_⟩
      · have := Cross.mapIdx_mix (fun i => decide ((2 * (i : Int) - (2 * idx + 1)) * (2 * (i : Int) - (2 * idx2 + 1)) * (if neg then (-1 : Int) else 1) < 0)) parent donor h
        simpa only [mix, h6, if_true, decide_eq_true_eq] using this
      · rintro (⟨_, _, he, _⟩ | ⟨a, b, c, he, _, hi, hi2, hne⟩)
        · cases he
        · cases he
          -- a position between the two cuts, and one outside
          have hin : (2 * ((min idx idx2 + 1 : ℕ) : Int) - (2 * idx + 1)) * (2 * ((min idx idx2 + 1 : ℕ) : Int) - (2 * idx2 + 1)) < 0 := by
            rcases Nat.lt_or_gt_of_ne hne with hlt | hlt
            · rw [Nat.min_eq_left hlt.le]
              apply mul_neg_of_pos_of_neg <;> push_cast <;> omega
            · rw [Nat.min_eq_right hlt.le]
              apply mul_neg_of_neg_of_pos <;> push_cast <;> omega
          have hout : 0 < (2 * ((0 : ℕ) : Int) - (2 * idx + 1)) * (2 * ((0 : ℕ) : Int) - (2 * idx2 + 1)) := by
            apply mul_pos_of_neg_of_neg <;> push_cast <;> omega
          cases neg
          · refine ⟨⟨min idx idx2 + 1, by omega, ?_⟩, ⟨0, by omega, ?_⟩⟩
            · simp only [Bool.false_eq_true, if_false, mul_one, decide_eq_true_eq]; exact hin
            · simp only [Bool.false_eq_true, if_false, mul_one, decide_eq_false_iff_not, not_lt]; exact hout.le
          · refine ⟨⟨0, by omega, ?_⟩, ⟨min idx idx2 + 1, by omega, ?_⟩⟩
            · simp only [if_true, mul_neg_one, decide_eq_true_eq]; exact neg_neg_of_pos hout
            · simp only [if_true, mul_neg_one, decide_eq_false_iff_not, not_lt]; exact (neg_pos.mpr hin).le
    · refine ⟨pick, by simpa only [mix, h6, if_false] using dflt, ?_⟩
      rintro (⟨_, _, he, _⟩ | ⟨_, _, _, _, hc, _⟩)
      · cases he
      · exact absurd hc h6

/-- C63 (rotation): each coordinate is that of the parent, or that of the donor at the position shifted circularly. -/
theorem mix_rotation (k : Nat) (pick : Nat → Bool) (parent donor : List β) (h : donor.length = parent.length) :
    (mix (.rotation k) pick parent donor).length = parent.length ∧
    ∀ i, i < parent.length → (mix (.rotation k) pick parent donor)[i]? =
      if pick i then donor[(i + k) % parent.length]? else parent[i]? := by
  refine ⟨by simp [mix], ?_⟩
  intro i hi
  have hm : (i + k) % parent.length < donor.length := by rw [h]; exact Nat.mod_lt _ (by omega)
  simp only [mix]
  rw [List.getElem?_mapIdx, List.getElem?_eq_getElem hi]
  simp only [Option.map_some]
  cases pick i
  · simp
  · simp [List.getElem?_eq_getElem hm]

example : mix (.onepoint 1 false) (fun _ => false) [1, 2, 3, 4, 5] [6, 7, 8, 9, 10] = [6, 7, 3, 4, 5] := by decide
example : mix (.twopoint 1 3 false) (fun _ => false) [1, 2, 3, 4, 5, 6, 7] [11, 12, 13, 14, 15, 16, 17] = [1, 2, 13, 14, 5, 6, 7] := by
  decide
example : mix .max (fun _ => false) [1, 9, 3] [6, 7, 8] = [1, 7, 3] := by decide
example : mix (.rotation 1) (fun i => i == 2) [1, 9, 3] [6, 7, 8] = [1, 9, 6] := by decide

end Mut
end NG
