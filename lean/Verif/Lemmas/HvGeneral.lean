import Verif.Lemmas.Hypervolume

/-!
# The hypervolume code for any number of objectives

The cached areas and volumes of the nodes below the bounds are right, and the nodes flagged as dominated come after a node which dominates
them. This needs that no two points have the same value of an objective between the third and the last but one.
-/

set_option linter.unusedSectionVars false
namespace NG
namespace Hv
open MeasureTheory

variable (c : Nat → Nat → ℝ)

theorem F_congr (k : Nat) (S T : List Nat) (t : ℝ) (h : ∀ n, n ∈ S ↔ n ∈ T) : F c k S t = F c k T t := by
  unfold F cut; simp only [h]

/-- A positive distance to finitely many positive numbers. -/
theorem exists_eps (l : List ℝ) (h : ∀ x ∈ l, 0 < x) : ∃ ε : ℝ, 0 < ε ∧ ∀ x ∈ l, ε ≤ x := by
  induction l with
  | nil => exact ⟨1, one_pos, by simp⟩
  | cons a l ih =>
    obtain ⟨ε, h1, h2⟩ := ih (fun x hx => h x (List.mem_cons_of_mem _ hx))
    refine ⟨min ε a, lt_min h1 (h a (by simp)), ?_⟩
    intro x hx
    rcases List.mem_cons.1 hx with rfl | hx
    · exact min_le_right _ _
    · exact (min_le_left _ _).trans (h2 x hx)

/-- A node which adds no volume is dominated by one of the others. -/
theorem dominator_of_H_le (k : Nat) (S : List Nat) (n : Nat) (hneg : ∀ i < k, c n i < 0) (h : H c k (S ++ [n]) ≤ H c k S) :
    ∃ m ∈ S, ∀ i < k, c m i ≤ c n i := by
  by_contra hc
  push Not at hc
  have h1 : ∀ m ∈ S, ∃ i : Nat, i < k ∧ c n i < c m i := hc
  choose! f hf1 hf2 using h1
  obtain ⟨ε, he, hle⟩ := exists_eps (S.map (fun m => c m (f m) - c n (f m)) ++ (List.range k).map (fun i => - c n i)) (by
    intro x hx
    rcases List.mem_append.1 hx with hx | hx
    · obtain ⟨m, hm, rfl⟩ := List.mem_map.1 hx
      have := hf2 m hm; linarith
    · obtain ⟨i, hi, rfl⟩ := List.mem_map.1 hx
      have := hneg i (List.mem_range.1 hi); linarith)
  set Q : Set (Fin k → ℝ) := Set.pi Set.univ (fun i : Fin k => Set.Ico (c n i) (c n i + ε)) with hQ
  have hQv : volume Q = ENNReal.ofReal (ε ^ k) := by
    rw [hQ, volume_pi_pi]
    simp only [Real.volume_Ico, add_sub_cancel_left, Finset.prod_const, Finset.card_univ, Fintype.card_fin]
    rw [ENNReal.ofReal_pow he.le]
  have hQm : MeasurableSet Q := MeasurableSet.univ_pi (fun i => measurableSet_Ico)
  have hdisj : Disjoint (region c k S) Q := by
    rw [Set.disjoint_left]
    rintro y ⟨⟨m, hm, hy⟩, _⟩ hyQ
    have h2 := (hyQ ⟨f m, hf1 m hm⟩ (Set.mem_univ _)).2
    have h3 := hy ⟨f m, hf1 m hm⟩
    have h4 := hle (c m (f m) - c n (f m)) (List.mem_append_left _ (List.mem_map.2 ⟨m, hm, rfl⟩))
    simp only at h2 h3
    linarith
  have hsub : region c k S ∪ Q ⊆ region c k (S ++ [n]) := by
    rintro y (⟨⟨m, hm, hy⟩, hy2⟩ | hy)
    · exact ⟨⟨m, List.mem_append_left _ hm, hy⟩, hy2⟩
    · refine ⟨⟨n, by simp, fun i => (hy i (Set.mem_univ _)).1⟩, fun i => ?_⟩
      have h2 := (hy i (Set.mem_univ _)).2
      have h4 := hle (- c n i) (List.mem_append_right _ (List.mem_map.2 ⟨i, List.mem_range.2 i.2, rfl⟩))
      linarith
  have h5 := measure_mono (μ := volume) hsub
  rw [measure_union hdisj hQm, hQv] at h5
  have h6 := ENNReal.toReal_mono (volume_region_lt_top c k (S ++ [n])).ne h5
  rw [ENNReal.toReal_add (volume_region_lt_top c k S).ne ENNReal.ofReal_ne_top, ENNReal.toReal_ofReal (by positivity)] at h6
  have : (0 : ℝ) < ε ^ k := by positivity
  unfold H at h
  linarith

/-! ## The invariant -/

variable (ord : Nat → List Nat)

/-- The cached area and volume of the present nodes below the bound are right. -/
def V (j : Nat) (P : Nat → Bool) (area volume : Nat → Nat → ℝ) (b : Option ℝ) : Prop :=
  ∀ A1 x A2, ord j = A1 ++ x :: A2 → P x = true → (∃ v, b = some v ∧ c x j < v) →
    area x j = H c j (A1.filter P ++ [x]) ∧ volume x j = F c j (A1.filter P ++ [x]) (c x j)

/-- Flagged nodes come after a present node which dominates them. -/
def G (j : Nat) (P : Nat → Bool) (flag : Nat → Nat) : Prop :=
  ∀ A1 x A2, ord j = A1 ++ x :: A2 → P x = true → j ≤ flag x → ∃ m ∈ A1, P m = true ∧ ∀ i < j, c m i ≤ c x i

/-- Two nodes are present. -/
def Multi (P : Nat → Bool) : Prop := ∃ a b, a ≠ b ∧ P a = true ∧ P b = true

/-- Before a call with one node, caches need not be right (`configure_area` overwrites them). -/
def Pre (k : Nat) (P : Nat → Bool) (m : Mem ℝ) : Prop :=
  ∀ j, 2 ≤ j → j ≤ k → G c ord j P m.flag ∧ (Multi P → V c ord j P m.area m.volume (m.bounds j))

def Inv (k : Nat) (P : Nat → Bool) (m : Mem ℝ) : Prop :=
  ∀ j, 2 ≤ j → j ≤ k → G c ord j P m.flag ∧ V c ord j P m.area m.volume (m.bounds j)

/-- What a call at level `k` leaves unchanged. -/
structure Frame (k : Nat) (P : Nat → Bool) (m m' : Mem ℝ) : Prop where
  area : ∀ n j, k < j → m'.area n j = m.area n j
  volume : ∀ n j, k < j → m'.volume n j = m.volume n j
  bounds : ∀ j, k < j → m'.bounds j = m.bounds j
  out : ∀ n, P n = false → m'.flag n = m.flag n
  high : ∀ n, k < m.flag n → m'.flag n = m.flag n
  low : ∀ n, m.flag n ≤ k → m'.flag n ≤ k

/-- Nodes and their coordinates: `D + 1` objectives, points below the reference, no ties between the third and the last but one. -/
structure Ok (D : Nat) : Prop where
  nodup : ∀ j, (ord j).Nodup
  mem : ∀ i j x, x ∈ ord i → x ∈ ord j
  sorted : ∀ j, (ord j).Pairwise (fun a b => c a j ≤ c b j)
  neg : ∀ j x, x ∈ ord j → ∀ i ≤ D, c x i < 0
  tie : ∀ j m n, m ∈ ord j → n ∈ ord j → m ≠ n → ∀ i, 2 ≤ i → i < D → c m i ≠ c n i

variable {c ord} {D : Nat} (ok : Ok c ord D)
include ok

/-- Smaller coordinates come first. -/
theorem before_of_lt {j x m : Nat} {A1 A2 : List Nat} (h : ord j = A1 ++ x :: A2) (hm : m ∈ ord j) (hlt : c m j < c x j) : m ∈ A1 := by
  rw [h] at hm
  rcases List.mem_append.1 hm with hm | hm
  · exact hm
  · exfalso
    rcases List.mem_cons.1 hm with rfl | hm
    · exact lt_irrefl _ hlt
    · have hs := ok.sorted j
      rw [h] at hs
      have := (List.pairwise_cons.1 (List.pairwise_append.1 hs).2.1).1 m hm
      linarith

theorem le_of_before {j x m : Nat} {A1 A2 : List Nat} (h : ord j = A1 ++ x :: A2) (hm : m ∈ A1) : c m j ≤ c x j := by
  have hs := ok.sorted j
  rw [h] at hs
  exact (List.pairwise_append.1 hs).2.2 m hm x (by simp)

theorem ne_of_before {j x m : Nat} {A1 A2 : List Nat} (h : ord j = A1 ++ x :: A2) (hm : m ∈ A1) : m ≠ x := by
  have hs := ok.nodup j
  rw [h] at hs
  exact (List.nodup_append.1 hs).2.2 m hm x (by simp)

/-- Adding or removing a node, with the bound lowered to its coordinate. -/
theorem V_change {j : Nat} {P P' : Nat → Bool} {area volume : Nat → Nat → ℝ} {b : Nat → Option ℝ} {y K : Nat} (hj : j < K)
    (h : V c ord j P area volume (b j)) (hP : ∀ z, z ≠ y → P' z = P z) : V c ord j P' area volume (updBounds c b y K j) := by
  intro A1 x A2 hord hx hb
  have hb' : ∃ v, b j = some v ∧ c x j < v ∧ c x j < c y j := by
    obtain ⟨v, hv, hlt⟩ := hb
    simp only [updBounds, if_pos hj] at hv
    cases hbj : b j with
    | none => rw [hbj] at hv; simp at hv
    | some w =>
      rw [hbj] at hv
      simp only [Option.map_some, Option.some.injEq] at hv
      refine ⟨w, rfl, ?_⟩
      split at hv
      · constructor <;> linarith
      · rename_i hnl
        push Not at hnl
        constructor <;> linarith
  obtain ⟨v, hv, hlt, hxy⟩ := hb'
  have hne : x ≠ y := by rintro rfl; exact lt_irrefl _ hxy
  have := h A1 x A2 hord (by rw [← hP x hne]; exact hx) ⟨v, hv, hlt⟩
  have e : A1.filter P' = A1.filter P := by
    apply List.filter_congr
    intro z hz
    apply hP
    rintro rfl
    have := le_of_before ok hord hz
    linarith
  rw [e]
  exact this

/-- A dominator at level `K` is a dominator at all levels below. -/
theorem G_of_dominator {j K x m : Nat} {A1 A2 : List Nat} (hj2 : 2 ≤ j) (hjK : j < K) (hK : K ≤ D) (h : ord j = A1 ++ x :: A2) (hm : m ∈ ord j)
    (hne : m ≠ x) (hdom : ∀ i < K, c m i ≤ c x i) : m ∈ A1 := by
  apply before_of_lt ok h hm
  exact lt_of_le_of_ne (hdom j hjK) (ok.tie j m x hm (by rw [h]; simp) hne j hj2 (by omega))

omit ok in
/-- A split of the present nodes is a split of all nodes. -/
theorem split_filter {j x : Nat} {P : Nat → Bool} {B1 B2 : List Nat} (h : (ord j).filter P = B1 ++ x :: B2) :
    ∃ A1 A2, ord j = A1 ++ x :: A2 ∧ A1.filter P = B1 ∧ A2.filter P = B2 ∧ P x = true := by
  rw [List.filter_eq_append_iff] at h
  obtain ⟨l1, l2, h1, h2, h3⟩ := h
  rw [List.filter_eq_cons_iff] at h3
  obtain ⟨l3, l4, h4, h5, h6, h7⟩ := h3
  refine ⟨l1 ++ l3, l4, by rw [h1, h4]; simp, ?_, h7, h6⟩
  rw [List.filter_append, h2]
  have : l3.filter P = [] := by rw [List.filter_eq_nil_iff]; exact h5
  rw [this, List.append_nil]

/-- Flags of a prefix of the list of level `K`, when each is 0 or at least `K`. -/
theorem G_prefix {K : Nat} (hK : K ≤ D) {L B rest : List Nat} (hL : L = B ++ rest) (hLo : ∀ x ∈ L, x ∈ ord 0) {flag : Nat → Nat} {P : Nat → Bool}
    (hP : ∀ n, P n = true ↔ n ∈ B)
    (hGK : ∀ B1 x B2, L = B1 ++ x :: B2 → K ≤ flag x → ∃ m ∈ B1, ∀ i < K, c m i ≤ c x i) (hnd : L.Nodup)
    (hfl : ∀ x ∈ B, flag x = 0 ∨ K ≤ flag x) {j : Nat} (hj2 : 2 ≤ j) (hj : j < K) : G c ord j P flag := by
  intro A1 x A2 hord hx hf
  rw [hP] at hx
  have hfK : K ≤ flag x := by
    rcases hfl x hx with h | h
    · omega
    · exact h
  obtain ⟨B1, B2, rfl⟩ := List.append_of_mem hx
  obtain ⟨m, hm, hdom⟩ := hGK B1 x (B2 ++ rest) (by rw [hL]; simp) hfK
  have hmL : m ∈ L := by rw [hL]; simp [hm]
  have hne : m ≠ x := by
    rintro rfl
    rw [hL, List.append_assoc] at hnd
    exact (List.nodup_append.1 hnd).2.2 m hm m (by simp) rfl
  refine ⟨m, G_of_dominator ok hj2 hj hK hord (ok.mem _ _ _ (hLo m hmL)) hne hdom, ?_, fun i hi => hdom i (by omega)⟩
  rw [hP]; simp [hm]

/-! ## Popping -/

theorem popLoop_spec {K : Nat} {area volume : Nat → Nat → ℝ} : ∀ (R popped : List Nat) (b : Nat → Option ℝ), R ≠ [] →  R.Nodup →
    (∀ j, 2 ≤ j → j < K → V c ord j (fun n => R.contains n) area volume (b j)) →
    let r := popLoop c K R popped b
    r.1 ≠ [] ∧ r.1.reverse ++ r.2.1 = R.reverse ++ popped ∧ (∀ i, K ≤ i → r.2.2 i = b i) ∧
    (∀ j, 2 ≤ j → j < K → V c ord j (fun n => r.1.contains n) area volume (r.2.2 j)) ∧
    ∀ x y l, r.1 = x :: y :: l → ∃ v, b K = some v ∧ c y K < v
  | [], _, _, h, _, _ => absurd rfl h
  | [x], popped, b, _, _, hV => by
    simp only [popLoop]
    exact ⟨by simp, trivial, fun _ _ => trivial, hV, by intro a y l h; simp at h⟩
  | x :: y :: l, popped, b, _, hnd, hV => by
    simp only
    by_cases hc : (gtBound (c x K) (b K) || geBound (c y K) (b K)) = true
    · have e : popLoop c K (x :: y :: l) popped b = popLoop c K (y :: l) (x :: popped) (updBounds c b x K) := by rw [popLoop, if_pos hc]
      rw [e]
      have hb : ∀ i, K ≤ i → updBounds c b x K i = b i := by
        intro i hi; simp only [updBounds]; rw [if_neg (by omega)]
      obtain ⟨h1, h2, h3, h4, h5⟩ := popLoop_spec (K := K) (area := area) (volume := volume) (y :: l) (x :: popped) (updBounds c b x K) (by simp)
        (List.nodup_cons.1 hnd).2 (by
          intro j hj2 hj
          refine V_change ok hj (hV j hj2 hj) ?_
          intro z hz
          rw [List.contains_cons (a := x)]
          simp [hz])
      refine ⟨h1, by rw [h2]; simp, fun i hi => by rw [h3 i hi, hb i hi], h4, ?_⟩
      intro a b' l' hr
      obtain ⟨v, hv, hlt⟩ := h5 a b' l' hr
      rw [hb K le_rfl] at hv
      exact ⟨v, hv, hlt⟩
    · have e : popLoop c K (x :: y :: l) popped b = (x :: y :: l, popped, b) := by rw [popLoop, if_neg hc]
      rw [e]
      refine ⟨by simp, rfl, fun _ _ => rfl, hV, ?_⟩
      intro a b' l' hr
      simp only [List.cons.injEq] at hr
      obtain ⟨rfl, rfl, rfl⟩ := hr
      cases hbK : b K with
      | none => rw [hbK] at hc; simp [gtBound] at hc
      | some v =>
        rw [hbK] at hc
        simp only [gtBound, geBound, Bool.or_eq_true, decide_eq_true_eq, not_or, not_lt, not_le] at hc
        exact ⟨v, rfl, hc.2⟩

/-! ## One step of the loop of reinsertions -/

omit ok in
theorem upd_same {β : Type} (f : Nat → Nat → β) (n k : Nat) (v : β) : upd f n k v n k = v := by simp [upd]

omit ok in
theorem upd_node {β : Type} (f : Nat → Nat → β) {n n' : Nat} (k k' : Nat) (v : β) (h : n' ≠ n) : upd f n k v n' k' = f n' k' := by simp [upd, h]

omit ok in
theorem upd_index {β : Type} (f : Nat → Nat → β) (n n' : Nat) {k k' : Nat} (v : β) (h : k' ≠ k) : upd f n k v n' k' = f n' k' := by simp [upd, h]

/-- The areas and volumes of level `K` of the nodes done are right. -/
def Done (c : Nat → Nat → ℝ) (K : Nat) (B : List Nat) (area volume : Nat → Nat → ℝ) : Prop :=
  ∀ B1 x B2, B = B1 ++ x :: B2 → area x K = H c K (B1 ++ [x]) ∧ volume x K = F c K (B1 ++ [x]) (c x K)

omit ok in
theorem Done_append {K : Nat} {B : List Nat} {n : Nat} {area volume : Nat → Nat → ℝ} (h : Done c K B area volume)
    (hn : area n K = H c K (B ++ [n]) ∧ volume n K = F c K (B ++ [n]) (c n K)) : Done c K (B ++ [n]) area volume := by
  intro B1 x B2 e
  rcases List.eq_nil_or_concat B2 with rfl | ⟨B2', z, rfl⟩
  · have := List.append_inj' e rfl
    obtain ⟨rfl, h2⟩ := this
    simp only [List.cons.injEq, and_true] at h2
    subst h2
    exact hn
  · have e' : B ++ [n] = (B1 ++ x :: B2') ++ [z] := by rw [e]; simp
    have := List.append_inj' e' rfl
    exact h B1 x B2' this.1

omit ok in
theorem Done_congr {K : Nat} {B : List Nat} {area volume area' volume' : Nat → Nat → ℝ} (h : Done c K B area volume)
    (ha : ∀ x ∈ B, area' x K = area x K) (hv : ∀ x ∈ B, volume' x K = volume x K) : Done c K B area' volume' := by
  intro B1 x B2 e
  have hx : x ∈ B := by rw [e]; simp
  rw [ha x hx, hv x hx]
  exact h B1 x B2 e

/-- Area of the last node done. -/
theorem Done_last {K : Nat} {B : List Nat} {m : Mem ℝ} (h : Done c K B m.area m.volume) : areaOf m B.getLast? K = H c K B := by
  rcases List.eq_nil_or_concat B with rfl | ⟨B', z, rfl⟩
  · simp [areaOf, H_nil]
  · have := (h B' z [] (by simp)).1
    simpa [areaOf] using this

/-- The specification of a call of level `k`. -/
def Spec (c : Nat → Nat → ℝ) (ord : Nat → List Nat) (k : Nat) (sub : (Nat → Bool) → Mem ℝ → ℝ × Mem ℝ) : Prop :=
  ∀ P m, (∀ n, P n = true → n ∈ ord 0) → Pre c ord k P m →
    (sub P m).1 = H c (k + 1) ((ord k).filter P) ∧ Inv c ord k P (sub P m).2 ∧ Frame k P m (sub P m).2

theorem skip_spec {k : Nat} (hK : k + 1 ≤ D) (hk : 1 ≤ k) {sub : (Nat → Bool) → Mem ℝ → ℝ × Mem ℝ} (hsub : Spec c ord k sub) {B : List Nat} {n : Nat}
    {P : Nat → Bool} {m : Mem ℝ} (hP : ∀ x, P x = true ↔ x ∈ B ++ [n]) (hB : ∀ x ∈ B ++ [n], x ∈ ord 0) (hnd : (B ++ [n]).Nodup)
    (hpre : Pre c ord k P m) (hdone : Done c (k + 1) B m.area m.volume) (hvol : m.volume n (k + 1) = F c (k + 1) (B ++ [n]) (c n (k + 1)))
    (hflag : k + 1 ≤ m.flag n → ∃ x ∈ B, ∀ i < k + 1, c x i ≤ c n i) :
    let m' := skipDominated sub (k + 1) P B.getLast? n m
    Inv c ord k P m' ∧ Done c (k + 1) (B ++ [n]) m'.area m'.volume ∧ (k + 1 ≤ m'.flag n → ∃ x ∈ B, ∀ i < k + 1, c x i ≤ c n i) ∧
    (∀ x, x ≠ n → k + 1 ≤ m.flag x ∨ P x = false → m'.flag x = m.flag x) ∧ (∀ x, x ≠ n → m.flag x ≤ k → m'.flag x ≤ k) ∧
    Frame (k + 1) P m m' ∧ m'.bounds (k + 1) = m.bounds (k + 1) := by
  have hnB : n ∉ B := fun h => (List.nodup_append.1 hnd).2.2 n h n (by simp) rfl
  have hneB : ∀ x ∈ B, x ≠ n := by rintro x hx rfl; exact hnB hx
  have hlastne : ∀ p, B.getLast? = some p → p ≠ n := fun p hp => hneB p (List.mem_of_getLast? hp)
  intro m'
  by_cases hf : k + 1 ≤ m.flag n
  · have e : m' = { m with area := upd m.area n (k + 1) (areaOf m B.getLast? (k + 1)) } := by
      show skipDominated sub (k + 1) P B.getLast? n m = _
      simp only [skipDominated, if_pos hf]
    obtain ⟨x, hx, hdom⟩ := hflag hf
    have hmulti : Multi P := ⟨x, n, hneB x hx, (hP x).2 (by simp [hx]), (hP n).2 (by simp)⟩
    have hH : areaOf m B.getLast? (k + 1) = H c (k + 1) (B ++ [n]) := by
      rw [Done_last ok hdone]
      apply le_antisymm
      · exact H_mono c _ _ _ (fun y hy => ⟨y, by simp [hy], fun _ _ => le_rfl⟩)
      · apply H_mono
        intro y hy
        rcases List.mem_append.1 hy with hy | hy
        · exact ⟨y, hy, fun _ _ => le_rfl⟩
        · simp only [List.mem_singleton] at hy
          subst hy
          exact ⟨x, hx, hdom⟩
    rw [e]
    refine ⟨?_, ?_, fun _ => ⟨x, hx, hdom⟩, fun _ _ _ => rfl, fun _ _ h => h, ?_, rfl⟩
    · intro j hj2 hj
      obtain ⟨h1, h2⟩ := hpre j hj2 hj
      refine ⟨h1, ?_⟩
      intro A1 y A2 ho hy hb
      obtain ⟨h3, h4⟩ := h2 hmulti A1 y A2 ho hy hb
      exact ⟨by simp only; rw [upd_index _ _ _ _ (by omega)]; exact h3, h4⟩
    · apply Done_append (Done_congr hdone ?_ (fun _ _ => rfl))
      · exact ⟨by simp only; rw [upd_same, hH], hvol⟩
      · intro y hy
        exact upd_node _ _ _ _ (hneB y hy)
    · exact ⟨fun y j hj => upd_index _ _ _ _ (by omega), fun _ _ _ => rfl, fun _ _ => rfl, fun _ _ => rfl, fun _ _ => rfl, fun _ h => h⟩
  · obtain ⟨hr1, hr2, hr3⟩ := hsub P m (fun x hx => hB x ((hP x).1 hx)) hpre
    have hr1' : (sub P m).1 = H c (k + 1) (B ++ [n]) := by
      rw [hr1]
      apply H_congr
      intro x
      rw [List.mem_filter, hP]
      exact ⟨fun h => h.2, fun h => ⟨ok.mem _ _ _ (hB x h), h⟩⟩
    set m1 : Mem ℝ := { (sub P m).2 with area := upd (sub P m).2.area n (k + 1) (sub P m).1 } with hm1
    have hdone1 : Done c (k + 1) B m1.area m1.volume := by
      refine Done_congr hdone ?_ ?_
      · intro y hy
        simp only [hm1]
        rw [upd_node _ _ _ _ (hneB y hy), hr3.area y _ (by omega)]
      · intro y _
        exact hr3.volume y _ (by omega)
    have hdone2 : Done c (k + 1) (B ++ [n]) m1.area m1.volume := by
      refine Done_append hdone1 ⟨?_, ?_⟩
      · simp only [hm1]; rw [upd_same, hr1']
      · simp only [hm1]; rw [hr3.volume n _ (by omega), hvol]
    have hinv1 : Inv c ord k P m1 := by
      intro j hj2 hj
      obtain ⟨h1, h2⟩ := hr2 j hj2 hj
      refine ⟨h1, ?_⟩
      intro A1 y A2 ho hy hb
      obtain ⟨h3, h4⟩ := h2 A1 y A2 ho hy hb
      exact ⟨by simp only [hm1]; rw [upd_index _ _ _ _ (by omega)]; exact h3, h4⟩
    have hframe1 : Frame (k + 1) P m m1 := by
      refine ⟨fun y j hj => ?_, fun y j hj => hr3.volume y j (by omega), fun j hj => hr3.bounds j (by omega), hr3.out,
        fun y hy => hr3.high y (by omega), fun y hy => ?_⟩
      · simp only [hm1]; rw [upd_index _ _ _ _ (by omega), hr3.area y j (by omega)]
      · rcases Nat.lt_or_ge k (m.flag y) with h | h
        · simp only [hm1]; rw [hr3.high y h]; exact hy
        · have := hr3.low y h; simp only [hm1]; omega
    have hflag1 : ∀ x, x ≠ n → k + 1 ≤ m.flag x ∨ P x = false → m1.flag x = m.flag x := by
      rintro x _ (h | h)
      · exact hr3.high x (by omega)
      · exact hr3.out x h
    have hbK : m1.bounds (k + 1) = m.bounds (k + 1) := hr3.bounds _ (by omega)
    have hfn : m1.flag n ≤ k := hr3.low n (by omega)
    by_cases hle : (sub P m).1 ≤ areaOf m1 B.getLast? (k + 1)
    · have e : m' = { m1 with flag := fun n' => if n' = n then k + 1 else m1.flag n' } := by
        show skipDominated sub (k + 1) P B.getLast? n m = _
        simp only [skipDominated, if_neg hf]
        exact if_pos hle
      rw [Done_last ok hdone1, hr1'] at hle
      obtain ⟨x, hx, hdom⟩ := dominator_of_H_le c (k + 1) B n (fun i hi => ok.neg 0 n (hB n (by simp)) i (by omega)) hle
      rw [e]
      refine ⟨?_, hdone2, fun _ => ⟨x, hx, hdom⟩, ?_, ?_, ?_, hbK⟩
      · intro j hj2 hj
        obtain ⟨h1, h2⟩ := hinv1 j hj2 hj
        refine ⟨?_, h2⟩
        intro A1 y A2 ho hy hfy
        by_cases hyn : y = n
        · subst hyn
          refine ⟨x, G_of_dominator ok hj2 (by omega : j < k + 1) hK ho (ok.mem _ _ _ (hB x (by simp [hx]))) (hneB x hx) hdom,
            (hP x).2 (by simp [hx]), fun i hi => hdom i (by omega)⟩
        · simp only [if_neg hyn] at hfy
          exact h1 A1 y A2 ho hy hfy
      · intro y hy h
        simp only [if_neg hy]
        exact hflag1 y hy h
      · intro y hy h
        simp only [if_neg hy]
        exact hr3.low y h
      · refine ⟨hframe1.area, hframe1.volume, hframe1.bounds, ?_, ?_, ?_⟩
        · intro y hy
          have : y ≠ n := by rintro rfl; rw [(hP y).2 (by simp)] at hy; simp at hy
          simp only [if_neg this]
          exact hframe1.out y hy
        · intro y hy
          have : y ≠ n := by rintro rfl; omega
          simp only [if_neg this]
          exact hframe1.high y hy
        · intro y hy
          simp only
          split
          · exact le_rfl
          · exact hframe1.low y hy
    · have e : m' = m1 := by
        show skipDominated sub (k + 1) P B.getLast? n m = _
        simp only [skipDominated, if_neg hf]
        exact if_neg hle
      rw [e]
      exact ⟨hinv1, hdone2, fun h => by omega, hflag1, fun y hy h => hr3.low y h, hframe1, hbK⟩

omit ok in
theorem Frame.trans {k : Nat} {P P' : Nat → Bool} {m m' m'' : Mem ℝ} (h : Frame k P m m') (h' : Frame k P' m' m'') (hP : ∀ n, P' n = false → P n = false) :
    Frame k P' m m'' where
  area n j hj := by rw [h'.area n j hj, h.area n j hj]
  volume n j hj := by rw [h'.volume n j hj, h.volume n j hj]
  bounds j hj := by rw [h'.bounds j hj, h.bounds j hj]
  out n hn := by rw [h'.out n hn, h.out n (hP n hn)]
  high n hn := by rw [h'.high n (by rw [h.high n hn]; exact hn), h.high n hn]
  low n hn := h'.low n (h.low n hn)

/-! ## The loop of reinsertions -/

theorem insert_spec {k : Nat} (hK : k + 1 ≤ D) (hk : 1 ≤ k) {sub : (Nat → Bool) → Mem ℝ → ℝ × Mem ℝ} (hsub : Spec c ord k sub) :
    ∀ (l B : List Nat) (prev : Nat) (P : Nat → Bool) (hv : ℝ) (m : Mem ℝ), (∀ x, P x = true ↔ x ∈ B ++ [prev]) →
    (∀ x ∈ B ++ prev :: l, x ∈ ord 0) → (B ++ prev :: l).Nodup → (B ++ prev :: l).Pairwise (fun a b => c a (k + 1) ≤ c b (k + 1)) →
    Inv c ord k P m → Done c (k + 1) (B ++ [prev]) m.area m.volume → hv = F c (k + 1) (B ++ [prev]) (c prev (k + 1)) →
    (∀ B1 x B2, B ++ prev :: l = B1 ++ x :: B2 → k + 1 ≤ m.flag x → ∃ y ∈ B1, ∀ i < k + 1, c y i ≤ c x i) →
    (∀ x ∈ l, m.flag x = 0 ∨ k + 1 ≤ m.flag x) →
    let r := insertLoop c sub (k + 1) l P prev hv m
    r.1 - r.2.2.area r.2.1 (k + 1) * c r.2.1 (k + 1) = H c (k + 2) (B ++ prev :: l) ∧
    Inv c ord k (fun x => (B ++ prev :: l).contains x) r.2.2 ∧ Done c (k + 1) (B ++ prev :: l) r.2.2.area r.2.2.volume ∧
    (∀ B1 x B2, B ++ prev :: l = B1 ++ x :: B2 → k + 1 ≤ r.2.2.flag x → ∃ y ∈ B1, ∀ i < k + 1, c y i ≤ c x i) ∧
    Frame (k + 1) (fun x => (B ++ prev :: l).contains x) m r.2.2
  | [], B, prev, P, hv, m, hP, hB, hnd, hsort, hinv, hdone, hhv, hGK, hfl => by
    simp only [insertLoop]
    have hPe : (fun x => (B ++ [prev]).contains x) = P := by
      funext x
      rw [Bool.eq_iff_iff, List.contains_iff_mem, hP]
    refine ⟨?_, by rw [hPe]; exact hinv, hdone, hGK, ?_⟩
    · rw [(hdone B prev [] rfl).1, hhv, H_succ c (k + 1) (B ++ [prev]), F_add c (k + 1) (B ++ [prev]) (c prev (k + 1)) 0 ?_ (ok.neg 0 prev (hB prev (by simp)) _ hK).le]
      · ring
      · intro n hn
        rcases List.mem_append.1 hn with hn | hn
        · exact (List.pairwise_append.1 hsort).2.2 n hn prev (by simp)
        · simp only [List.mem_singleton] at hn; rw [hn]
    · exact ⟨fun _ _ _ => rfl, fun _ _ _ => rfl, fun _ _ => rfl, fun _ _ => rfl, fun _ _ => rfl, fun _ h => h⟩
  | n :: l, B, prev, P, hv, m, hP, hB, hnd, hsort, hinv, hdone, hhv, hGK, hfl => by
    have eL : B ++ prev :: n :: l = (B ++ [prev]) ++ n :: l := by simp
    rw [eL] at hB hnd hsort hGK ⊢
    have hpn : ∀ x ∈ B ++ [prev], c x (k + 1) ≤ c n (k + 1) := fun x hx => (List.pairwise_append.1 hsort).2.2 x hx n (by simp)
    have hlast : ∀ x ∈ B ++ [prev], c x (k + 1) ≤ c prev (k + 1) := by
      intro x hx
      rcases List.mem_append.1 hx with hx | hx
      · exact (List.pairwise_append.1 (List.pairwise_append.1 hsort).1).2.2 x hx prev (by simp)
      · simp only [List.mem_singleton] at hx; rw [hx]
    have hnB : n ∉ B ++ [prev] := fun h => (List.nodup_append.1 hnd).2.2 n h n (by simp) rfl
    have hP' : ∀ x, (P x || x == n) = true ↔ x ∈ (B ++ [prev]) ++ [n] := by
      intro x
      rw [Bool.or_eq_true, hP, beq_iff_eq, List.mem_append (s := B ++ [prev]), List.mem_singleton]
    have hnd' : ((B ++ [prev]) ++ [n]).Nodup := by
      have : ((B ++ [prev]) ++ [n] ++ l).Nodup := by simpa using hnd
      exact (List.nodup_append.1 this).1
    have hB' : ∀ x ∈ (B ++ [prev]) ++ [n], x ∈ ord 0 := by
      intro x hx
      apply hB
      rcases List.mem_append.1 hx with hx | hx
      · exact List.mem_append_left _ hx
      · simp only [List.mem_singleton] at hx; subst hx; simp
    have hvn : hv + m.area prev (k + 1) * (c n (k + 1) - c prev (k + 1)) = F c (k + 1) ((B ++ [prev]) ++ [n]) (c n (k + 1)) := by
      rw [(hdone B prev [] rfl).1, hhv, F_append c (k + 1) (B ++ [prev]) n _ le_rfl,
        F_add c (k + 1) (B ++ [prev]) (c prev (k + 1)) (c n (k + 1)) hlast (hpn prev (by simp))]
      ring
    rw [insertLoop]
    simp only
    generalize hhv' : hv + m.area prev (k + 1) * (c n (k + 1) - c prev (k + 1)) = hv' at *
    set m0 : Mem ℝ := { m with bounds := updBounds c (fun i => if i = k + 1 then some (c n (k + 1)) else m.bounds i) n (k + 1),
                               volume := upd m.volume n (k + 1) hv' } with hm0
    have hpre : Pre c ord k (fun x => P x || x == n) m0 := by
      intro j hj2 hj
      obtain ⟨h1, h2⟩ := hinv j hj2 hj
      constructor
      · intro A1 x A2 ho hx hf
        have hx' := (hP' x).1 hx
        rcases List.mem_append.1 hx' with hx' | hx'
        · obtain ⟨y, hy1, hy2, hy3⟩ := h1 A1 x A2 ho ((hP x).2 hx') hf
          exact ⟨y, hy1, by simp [hy2], hy3⟩
        · simp only [List.mem_singleton] at hx'
          subst hx'
          have hf' : k + 1 ≤ m.flag x := by
            have hf0 : j ≤ m.flag x := hf
            rcases hfl x (by simp) with h | h <;> omega
          obtain ⟨y, hy1, hy2⟩ := hGK (B ++ [prev]) x l rfl hf'
          refine ⟨y, G_of_dominator ok hj2 (by omega : j < k + 1) hK ho (ok.mem _ _ _ (hB y (List.mem_append_left _ hy1))) ?_ hy2, ?_,
            fun i hi => hy2 i (by omega)⟩
          · rintro rfl; exact hnB hy1
          · rw [hP']; exact List.mem_append_left _ hy1
      · intro _
        have h3 : V c ord j P m.area (upd m.volume n (k + 1) hv') ((fun i => if i = k + 1 then some (c n (k + 1)) else m.bounds i) j) := by
          simp only [if_neg (by omega : j ≠ k + 1)]
          intro A1 x A2 ho hx hb
          obtain ⟨h4, h5⟩ := h2 A1 x A2 ho hx hb
          exact ⟨h4, by rw [upd_index _ _ _ _ (by omega)]; exact h5⟩
        exact V_change ok (b := fun i => if i = k + 1 then some (c n (k + 1)) else m.bounds i) (y := n) (by omega : j < k + 1) h3 (fun z hz => by simp [hz])
    have hdone0 : Done c (k + 1) (B ++ [prev]) m0.area m0.volume :=
      Done_congr hdone (fun _ _ => rfl) (fun x hx => upd_node _ _ _ _ (by rintro rfl; exact hnB hx))
    have hskip := skip_spec ok hK hk hsub (B := B ++ [prev]) (n := n) (P := fun x => P x || x == n) (m := m0) hP' hB' hnd' hpre hdone0
      (by simp only [hm0]; rw [upd_same]; exact hvn) (fun h => hGK (B ++ [prev]) n l rfl h)
    have hgl : (B ++ [prev]).getLast? = some prev := by simp
    rw [hgl] at hskip
    simp only at hskip
    generalize skipDominated sub (k + 1) (fun x => P x || x == n) (some prev) n m0 = m1 at *
    obtain ⟨s1, s2, s3, s4, s5, s6, _⟩ := hskip
    have hf0 : m0.flag = m.flag := rfl
    have ih := insert_spec hK hk hsub l (B ++ [prev]) n (fun x => P x || x == n) hv' m1 hP' hB hnd hsort s1 s2 hvn (by
        intro B1 x B2 e hf
        by_cases hxn : x = n
        · subst hxn
          obtain ⟨y, hy1, hy2⟩ := s3 hf
          have hB1 : B1 = B ++ [prev] := by
            rcases List.append_eq_append_iff.1 e with ⟨as, h1, h2⟩ | ⟨bs, h1, h2⟩
            · cases as with
              | nil => simpa using h1
              | cons a as =>
                exfalso
                simp only [List.cons_append, List.cons.injEq] at h2
                obtain ⟨rfl, h2⟩ := h2
                rw [e, h1] at hnd
                exact (List.nodup_append.1 hnd).2.2 x (by simp) x (by simp) rfl
            · cases bs with
              | nil => simpa using h1.symm
              | cons a bs =>
                exfalso
                simp only [List.cons_append, List.cons.injEq] at h2
                obtain ⟨rfl, h2⟩ := h2
                exact hnB (by rw [h1]; simp)
          rw [hB1]
          exact ⟨y, hy1, hy2⟩
        · have : k + 1 ≤ m.flag x := by
            by_contra hlt
            have := s5 x hxn (by rw [hf0]; omega)
            omega
          exact hGK B1 x B2 e this) (by
        intro x hx
        have hxn : x ≠ n := by
          rintro rfl
          exact (List.nodup_cons.1 (List.nodup_append.1 hnd).2.1).1 hx
        rw [s4 x hxn (Or.inr ?_)]
        · exact hfl x (List.mem_cons_of_mem _ hx)
        · rw [← Bool.not_eq_true, hP']
          intro hc
          rcases List.mem_append.1 hc with hc | hc
          · exact (List.nodup_append.1 hnd).2.2 x hc x (by simp [hx]) rfl
          · simp only [List.mem_singleton] at hc; exact hxn hc)
    simp only at ih
    refine ⟨ih.1, ih.2.1, ih.2.2.1, ih.2.2.2.1, ?_⟩
    have hfr0 : Frame (k + 1) (fun x => P x || x == n) m m0 := by
      refine ⟨fun _ _ _ => rfl, fun y j hj => upd_index _ _ _ _ (by omega), fun j hj => ?_, fun _ _ => rfl, fun _ _ => rfl, fun _ h => h⟩
      simp only [hm0, updBounds]
      rw [if_neg (by omega), if_neg (by omega)]
    refine (hfr0.trans s6 (fun _ h => h)).trans ih.2.2.2.2 ?_
    intro x hx
    rw [← Bool.not_eq_true, hP']
    rw [← Bool.not_eq_true, List.contains_iff_mem] at hx
    intro hc
    apply hx
    rcases List.mem_append.1 hc with hc | hc
    · exact List.mem_append_left _ hc
    · simp only [List.mem_singleton] at hc; subst hc; simp

/-! ## One level -/

omit ok in
theorem split_unique {L A1 B1 A2 B2 : List Nat} {x : Nat} (hnd : L.Nodup) (h1 : L = A1 ++ x :: A2) (h2 : L = B1 ++ x :: B2) : B1 = A1 := by
  rcases List.append_eq_append_iff.1 (h1.symm.trans h2) with ⟨as, h3, h4⟩ | ⟨bs, h3, h4⟩
  · cases as with
    | nil => simpa using h3
    | cons a as =>
      exfalso
      simp only [List.cons_append, List.cons.injEq] at h4
      obtain ⟨rfl, h4⟩ := h4
      rw [h2, h3] at hnd
      exact (List.nodup_append.1 hnd).2.2 x (by simp) x (by simp) rfl
  · cases bs with
    | nil => simpa using h3.symm
    | cons a bs =>
      exfalso
      simp only [List.cons_append, List.cons.injEq] at h4
      obtain ⟨rfl, h4⟩ := h4
      rw [h1, h3] at hnd
      exact (List.nodup_append.1 hnd).2.2 x (by simp) x (by simp) rfl

/-- From the current node on. -/
theorem finish_spec {k : Nat} (hK : k + 1 ≤ D) (hk : 1 ≤ k) {sub : (Nat → Bool) → Mem ℝ → ℝ × Mem ℝ} (hsub : Spec c ord k sub)
    (B : List Nat) (cur : Nat) (l : List Nat) (P : Nat → Bool) (hv : ℝ) (m : Mem ℝ) (hP : ∀ x, P x = true ↔ x ∈ B ++ [cur])
    (hB : ∀ x ∈ B ++ cur :: l, x ∈ ord 0) (hnd : (B ++ cur :: l).Nodup) (hsort : (B ++ cur :: l).Pairwise (fun a b => c a (k + 1) ≤ c b (k + 1)))
    (hpre : Pre c ord k P m) (hdone : Done c (k + 1) B m.area m.volume) (hhv : hv = F c (k + 1) (B ++ [cur]) (c cur (k + 1)))
    (hvol : m.volume cur (k + 1) = hv)
    (hGK : ∀ B1 x B2, B ++ cur :: l = B1 ++ x :: B2 → k + 1 ≤ m.flag x → ∃ y ∈ B1, ∀ i < k + 1, c y i ≤ c x i)
    (hfl : ∀ x ∈ l, m.flag x = 0 ∨ k + 1 ≤ m.flag x) :
    let r := insertLoop c sub (k + 1) l P cur hv (skipDominated sub (k + 1) P B.getLast? cur m)
    r.1 - r.2.2.area r.2.1 (k + 1) * c r.2.1 (k + 1) = H c (k + 2) (B ++ cur :: l) ∧
    Inv c ord k (fun x => (B ++ cur :: l).contains x) r.2.2 ∧ Done c (k + 1) (B ++ cur :: l) r.2.2.area r.2.2.volume ∧
    (∀ B1 x B2, B ++ cur :: l = B1 ++ x :: B2 → k + 1 ≤ r.2.2.flag x → ∃ y ∈ B1, ∀ i < k + 1, c y i ≤ c x i) ∧
    Frame (k + 1) (fun x => (B ++ cur :: l).contains x) m r.2.2 := by
  have e : B ++ cur :: l = (B ++ [cur]) ++ l := by simp
  have hnd' : (B ++ [cur]).Nodup := by rw [e] at hnd; exact (List.nodup_append.1 hnd).1
  have hB' : ∀ x ∈ B ++ [cur], x ∈ ord 0 := fun x hx => hB x (by rw [e]; exact List.mem_append_left _ hx)
  have hskip := skip_spec ok hK hk hsub hP hB' hnd' hpre hdone (by rw [hvol, hhv]) (fun h => hGK B cur l rfl h)
  simp only at hskip
  generalize skipDominated sub (k + 1) P B.getLast? cur m = m1 at *
  obtain ⟨s1, s2, s3, s4, s5, s6, _⟩ := hskip
  have ih := insert_spec ok hK hk hsub l B cur P hv m1 hP hB hnd hsort s1 s2 hhv (by
      intro B1 x B2 he hf
      by_cases hxn : x = cur
      · subst hxn
        rw [split_unique hnd rfl he]
        exact s3 hf
      · refine hGK B1 x B2 he ?_
        by_contra hlt
        have := s5 x hxn (by omega)
        omega) (by
      intro x hx
      have hxn : x ∉ B ++ [cur] := by
        intro hc
        rw [e] at hnd
        exact (List.nodup_append.1 hnd).2.2 x hc x hx rfl
      rw [s4 x (by rintro rfl; exact hxn (by simp)) (Or.inr (by rw [← Bool.not_eq_true, hP]; exact hxn))]
      exact hfl x hx)
  simp only at ih ⊢
  refine ⟨ih.1, ih.2.1, ih.2.2.1, ih.2.2.2.1, s6.trans ih.2.2.2.2 ?_⟩
  intro x hx
  rw [← Bool.not_eq_true, hP]
  rw [← Bool.not_eq_true, List.contains_iff_mem, e] at hx
  exact fun hc => hx (List.mem_append_left _ hc)

theorem level_inv {k : Nat} (hK : k + 1 ≤ D) (hk : 1 ≤ k) {sub : (Nat → Bool) → Mem ℝ → ℝ × Mem ℝ} (hsub : Spec c ord k sub) :
    Spec c ord (k + 1) (fun P m => level c sub (k + 1) ((ord (k + 1)).filter P) m) := by
  intro P m hPo hpre
  simp only
  generalize hL : (ord (k + 1)).filter P = L
  have hPL : ∀ x, P x = true ↔ x ∈ L := by
    intro x
    rw [← hL, List.mem_filter]
    exact ⟨fun h => ⟨ok.mem _ _ _ (hPo x h), h⟩, fun h => h.2⟩
  have hPe : P = (fun x => L.contains x) := by
    funext x
    rw [Bool.eq_iff_iff, hPL, List.contains_iff_mem]
  have hLo : ∀ x ∈ L, x ∈ ord 0 := fun x hx => hPo x ((hPL x).2 hx)
  have hnd : L.Nodup := by rw [← hL]; exact (ok.nodup _).filter _
  have hsort : L.Pairwise (fun a b => c a (k + 1) ≤ c b (k + 1)) := by rw [← hL]; exact (ok.sorted _).filter _
  -- flags and caches of this level in terms of `L`
  have hGL : ∀ (flag : Nat → Nat), (∀ B1 x B2, L = B1 ++ x :: B2 → k + 1 ≤ flag x → ∃ y ∈ B1, ∀ i < k + 1, c y i ≤ c x i) ↔ G c ord (k + 1) P flag := by
    intro flag
    constructor
    · intro h A1 x A2 ho hx hf
      obtain ⟨y, hy1, hy2⟩ := h (A1.filter P) x (A2.filter P) (by rw [← hL, ho, List.filter_append, List.filter_cons_of_pos hx]) hf
      rw [List.mem_filter] at hy1
      exact ⟨y, hy1.1, hy1.2, hy2⟩
    · intro h B1 x B2 e hf
      rw [← hL] at e
      obtain ⟨A1, A2, ho, h1, h2, hx⟩ := split_filter e
      obtain ⟨y, hy1, hy2, hy3⟩ := h A1 x A2 ho hx hf
      exact ⟨y, by rw [← h1, List.mem_filter]; exact ⟨hy1, hy2⟩, hy3⟩
  have hGK0 := (hGL m.flag).2 (hpre (k + 1) (by omega) le_rfl).1
  cases hLe : L with
  | nil =>
    simp only [level, List.isEmpty_nil, if_true, H_nil]
    refine ⟨trivial, ?_, ⟨fun _ _ _ => rfl, fun _ _ _ => rfl, fun _ _ => rfl, fun _ _ => rfl, fun _ _ => rfl, fun _ h => h⟩⟩
    intro j hj2 hj
    refine ⟨(hpre j hj2 hj).1, ?_⟩
    intro A1 x A2 ho hx
    rw [hPL, hLe] at hx
    simp at hx
  | cons x0 L0 =>
    have hne : L ≠ [] := by rw [hLe]; simp
    rw [← hLe]
    have hisE : L.isEmpty = false := by rw [hLe]; rfl
    simp only [level, hisE, Bool.false_eq_true, if_false]
    clear hLe
    -- flags are reset
    set flag0 : Nat → Nat := fun n => if n ∈ L ∧ m.flag n < k + 1 then 0 else m.flag n with hflag0
    have hfl0 : ∀ x ∈ L, flag0 x = 0 ∨ k + 1 ≤ flag0 x := by
      intro x hx
      simp only [hflag0]
      by_cases h : m.flag x < k + 1
      · left; rw [if_pos ⟨hx, h⟩]
      · right; rw [if_neg (fun hc => h hc.2)]; omega
    have hfl0le : ∀ x, k + 1 ≤ flag0 x → flag0 x = m.flag x := by
      intro x hx
      simp only [hflag0] at hx ⊢
      split at hx
      · omega
      · rename_i h; rw [if_neg h]
    have hGK : ∀ B1 x B2, L = B1 ++ x :: B2 → k + 1 ≤ flag0 x → ∃ y ∈ B1, ∀ i < k + 1, c y i ≤ c x i :=
      fun B1 x B2 e hf => hGK0 B1 x B2 e (by rw [← hfl0le x hf]; exact hf)
    -- the nodes which remain
    have hrev : (fun x => L.reverse.contains x) = P := by
      rw [hPe]; funext x; rw [Bool.eq_iff_iff, List.contains_iff_mem, List.contains_iff_mem, List.mem_reverse]
    have hpop : ∃ cur before popped b', popLoop c (k + 1) L.reverse [] m.bounds = (cur :: before, popped, b') ∧
        before.reverse ++ cur :: popped = L ∧ (∀ i, k + 1 ≤ i → b' i = m.bounds i) ∧
        (before ≠ [] → ∀ j, 2 ≤ j → j < k + 1 → V c ord j (fun n => (cur :: before).contains n) m.area m.volume (b' j)) ∧
        (∀ y l, before = y :: l → Multi P ∧ ∃ v, m.bounds (k + 1) = some v ∧ c y (k + 1) < v) := by
      by_cases hmulti : Multi P
      · have := popLoop_spec ok (K := k + 1) (area := m.area) (volume := m.volume) L.reverse [] m.bounds (by simpa using hne)
          (List.nodup_reverse.2 hnd) (by
            intro j hj2 hj
            rw [hrev]
            exact (hpre j hj2 (by omega)).2 hmulti)
        simp only at this
        generalize popLoop c (k + 1) L.reverse [] m.bounds = r at *
        obtain ⟨h1, h2, h3, h4, h5⟩ := this
        obtain ⟨r1, popped, b'⟩ := r
        simp only at *
        cases r1 with
        | nil => exact absurd rfl h1
        | cons cur before =>
          refine ⟨cur, before, popped, b', rfl, by simpa using h2, h3, fun _ => h4, ?_⟩
          intro y l hb
          exact ⟨hmulti, h5 cur y l (by rw [hb])⟩
      · cases hL' : L with
        | nil => exact absurd hL' hne
        | cons x l =>
          have hl : l = [] := by
            cases l with
            | nil => rfl
            | cons y l =>
              exfalso
              refine hmulti ⟨x, y, ?_, (hPL x).2 (by simp [hL']), (hPL y).2 (by simp [hL'])⟩
              rintro rfl
              rw [hL'] at hnd
              simp at hnd
          subst hl
          exact ⟨x, [], [], m.bounds, by simp [popLoop], by simp, fun _ _ => rfl, fun h => absurd rfl h, by simp⟩
    obtain ⟨cur, before, popped, b', hr, hsplit, hb', hV', hstop⟩ := hpop
    rw [hr]
    simp only
    have hP' : ∀ x, (fun n => (cur :: before).contains n) x = true ↔ x ∈ before.reverse ++ [cur] := by
      intro x
      simp only [List.contains_iff_mem, List.mem_cons, List.mem_append, List.mem_reverse, List.mem_singleton, List.not_mem_nil, or_false]
      tauto
    have hfl1 : ∀ x ∈ before.reverse ++ [cur], flag0 x = 0 ∨ k + 1 ≤ flag0 x := by
      intro x hx
      apply hfl0
      rw [← hsplit]
      rcases List.mem_append.1 hx with hx | hx
      · exact List.mem_append_left _ hx
      · simp only [List.mem_singleton] at hx; subst hx; simp
    have hGj : ∀ j, 2 ≤ j → j < k + 1 → G c ord j (fun n => (cur :: before).contains n) flag0 := fun j hj2 hj =>
      G_prefix ok hK (L := L) (B := before.reverse ++ [cur]) (rest := popped) (by rw [← hsplit]; simp) hLo hP' hGK hnd hfl1 hj2 hj
    have hhead : before.head? = before.reverse.getLast? := by simp
    have concl : ∀ (hv : ℝ) (m4 : Mem ℝ), m4.flag = flag0 → Pre c ord k (fun n => (cur :: before).contains n) m4 →
        Done c (k + 1) before.reverse m4.area m4.volume → hv = F c (k + 1) (before.reverse ++ [cur]) (c cur (k + 1)) →
        m4.volume cur (k + 1) = hv → Frame (k + 1) P m m4 →
        let r := insertLoop c sub (k + 1) popped (fun n => (cur :: before).contains n) cur hv
          (skipDominated sub (k + 1) (fun n => (cur :: before).contains n) before.head? cur m4)
        r.1 - r.2.2.area r.2.1 (k + 1) * c r.2.1 (k + 1) = H c (k + 1 + 1) L ∧ Inv c ord (k + 1) P r.2.2 ∧ Frame (k + 1) P m r.2.2 := by
      intro hv m4 hfl4 hpre4 hdone4 hhv4 hvol4 hfr4
      rw [hhead]
      have hfin := finish_spec ok hK hk hsub before.reverse cur popped (fun n => (cur :: before).contains n) hv m4 hP'
        (by rw [hsplit]; exact hLo) (by rw [hsplit]; exact hnd) (by rw [hsplit]; exact hsort) hpre4 hdone4 hhv4 hvol4
        (by rw [hsplit, hfl4]; exact hGK) (by
          intro x hx
          rw [hfl4]
          apply hfl0
          rw [← hsplit]
          simp [hx])
      rw [hsplit, ← hPe] at hfin
      simp only at hfin ⊢
      generalize insertLoop c sub (k + 1) popped (fun n => (cur :: before).contains n) cur hv
          (skipDominated sub (k + 1) (fun n => (cur :: before).contains n) before.reverse.getLast? cur m4) = r at *
      obtain ⟨f1, f2, f3, f4, f5⟩ := hfin
      refine ⟨f1, ?_, hfr4.trans f5 (fun _ h => h)⟩
      intro j hj2 hj
      rcases Nat.lt_or_ge j (k + 1) with hlt | hge
      · exact f2 j hj2 (by omega)
      · have : j = k + 1 := by omega
        subst this
        refine ⟨(hGL _).1 f4, ?_⟩
        intro A1 x A2 ho hx _
        exact f3 (A1.filter P) x (A2.filter P) (by rw [← hL, ho, List.filter_append, List.filter_cons_of_pos hx])
    have hflagF : ∀ n, P n = false → flag0 n = m.flag n := by
      intro n hn
      simp only [hflag0]
      rw [if_neg]
      rintro ⟨h, _⟩
      rw [(hPL n).2 h] at hn
      simp at hn
    have hflagH : ∀ n, k + 1 < m.flag n → flag0 n = m.flag n := by
      intro n hn
      simp only [hflag0]
      rw [if_neg (by omega)]
    have hflagLo : ∀ n, m.flag n ≤ k + 1 → flag0 n ≤ k + 1 := by
      intro n hn
      simp only [hflag0]
      split <;> omega
    cases hbe : before with
    | nil =>
      subst hbe
      simp only
      refine concl 0 _ rfl ?_ ?_ ?_ ?_ ?_
      · intro j hj2 hj
        refine ⟨hGj j hj2 (by omega), ?_⟩
        rintro ⟨a, b, hab, ha, hb⟩
        rw [hP'] at ha hb
        simp only [List.reverse_nil, List.nil_append, List.mem_singleton] at ha hb
        exact absurd (ha.trans hb.symm) hab
      · intro B1 x B2 e
        simp at e
      · simp only [List.reverse_nil]
        rw [F_append c (k + 1) [] cur _ le_rfl, F_nil]
      · simp only; rw [upd_same]
      · refine ⟨?_, ?_, ?_, hflagF, hflagH, hflagLo⟩
        · intro n j hj
          simp only [configure]
          split
          · rename_i hn
            subst hn
            cases j with
            | zero => omega
            | succ i => simp only; rw [if_neg (by omega)]
          · rfl
        · intro n j hj
          exact upd_index _ _ _ _ (by omega)
        · intro j hj
          exact hb' j (by omega)
    | cons p bl =>
      subst hbe
      obtain ⟨hmulti, v, hv, hpv⟩ := hstop p bl rfl
      have hVK := (hpre (k + 1) (by omega) le_rfl).2 hmulti
      have hlast : ∀ x ∈ (p :: bl).reverse, c x (k + 1) ≤ c p (k + 1) := by
        intro x hx
        simp only [List.reverse_cons] at hx
        rcases List.mem_append.1 hx with hx | hx
        · rw [← hsplit, List.reverse_cons] at hsort
          exact (List.pairwise_append.1 (List.pairwise_append.1 hsort).1).2.2 x hx p (by simp)
        · simp only [List.mem_singleton] at hx; rw [hx]
      have hpc : c p (k + 1) ≤ c cur (k + 1) := by
        rw [← hsplit] at hsort
        exact (List.pairwise_append.1 hsort).2.2 p (by simp) cur (by simp)
      have hdone : Done c (k + 1) (p :: bl).reverse m.area m.volume := by
        intro B1 x B2 e
        have eL : (ord (k + 1)).filter P = B1 ++ x :: (B2 ++ cur :: popped) := by rw [hL, ← hsplit, e]; simp
        obtain ⟨A1, A2, ho, h1, h2, hx⟩ := split_filter eL
        rw [← h1]
        refine hVK A1 x A2 ho hx ⟨v, hv, lt_of_le_of_lt (hlast x ?_) hpv⟩
        rw [e]; simp
      have hcurB : ∀ x ∈ (p :: bl).reverse, x ≠ cur := by
        rintro x hx rfl
        rw [← hsplit] at hnd
        exact (List.nodup_append.1 hnd).2.2 x hx x (by simp) rfl
      simp only
      refine concl _ _ rfl ?_ ?_ ?_ ?_ ?_
      · intro j hj2 hj
        refine ⟨hGj j hj2 (by omega), fun _ => ?_⟩
        have h1 := hV' (by simp) j hj2 (by omega)
        intro A1 x A2 ho hx hb
        obtain ⟨h2, h3⟩ := h1 A1 x A2 ho hx hb
        exact ⟨h2, by simp only; rw [upd_index _ _ _ _ (by omega)]; exact h3⟩
      · exact Done_congr hdone (fun _ _ => rfl) (fun x hx => upd_node _ _ _ _ (hcurB x hx))
      · have hp := hdone bl.reverse p [] (by simp)
        rw [F_append c (k + 1) _ cur _ le_rfl, F_add c (k + 1) _ (c p (k + 1)) (c cur (k + 1)) hlast hpc, List.reverse_cons, hp.1, hp.2]
        ring
      · simp only; rw [upd_same]
      · exact ⟨fun _ _ _ => rfl, fun n j hj => upd_index _ _ _ _ (by omega), fun j hj => hb' j (by omega), hflagF, hflagH, hflagLo⟩

/-! ## All levels -/

theorem recursive_spec : ∀ k, k ≤ D → Spec c ord k (recursive c ord k)
  | 0, _ => by
    intro P m hPo hpre
    have hfr : Frame 0 P m m := ⟨fun _ _ _ => rfl, fun _ _ _ => rfl, fun _ _ => rfl, fun _ _ => rfl, fun _ _ => rfl, fun _ h => h⟩
    rw [recursive]
    cases hL : (ord 0).filter P with
    | nil => exact ⟨by simp [H_nil], fun j h1 h2 => by omega, hfr⟩
    | cons x l =>
      refine ⟨?_, fun j h1 h2 => by omega, hfr⟩
      simp only
      have hs := (ok.sorted 0).filter P
      rw [hL] at hs
      rw [H_one c (x :: l) x (by simp) ?_ ?_]
      · intro n hn
        rcases List.mem_cons.1 hn with rfl | hn
        · exact le_rfl
        · exact (List.pairwise_cons.1 hs).1 n hn
      · have : x ∈ (ord 0).filter P := by rw [hL]; simp
        exact (ok.neg 0 x (List.mem_filter.1 this).1 0 (by omega)).le
  | 1, h => by
    intro P m hPo hpre
    refine ⟨?_, fun j h1 h2 => by omega, ⟨fun _ _ _ => rfl, fun _ _ _ => rfl, fun _ _ => rfl, fun _ _ => rfl, fun _ _ => rfl, fun _ h => h⟩⟩
    rw [recursive]
    refine plane_spec c _ ?_ ((ok.sorted 1).filter P)
    intro n hn
    have := (List.mem_filter.1 hn).1
    exact ⟨(ok.neg 1 n this 0 (by omega)).le, (ok.neg 1 n this 1 (by omega)).le⟩
  | k + 2, h => by
    have := level_inv ok (k := k + 1) h (by omega) (recursive_spec (k + 1) (by omega))
    intro P m hPo hpre
    rw [recursive]
    exact this P m hPo hpre

end Hv
end NG
