import Verif.Model.Sampling
import Verif.Props.Sequences
import Verif.Props.Gaussian

/-!
# C144: the points of the sampling searches
-/

namespace NG
namespace Sampling
open Seq Tr

/-- The `t`-th point of a new sampler with budget `B`. -/
noncomputable def sample (c : Conf) (D : Draws) (dim : Nat) (B : Option Nat) (t : Nat) : List ℝ := point c D dim ⟨B, t, t⟩

/-- The number of middle points: 0 or 1. -/
def mid (c : Conf) : Nat := if c.middle then 1 else 0

theorem calls_spec (c : Conf) (D : Draws) (dim n : Nat) (s : Smp) (h : ∀ b, s.budget = some b → s.index + n ≤ b) :
    calls c D dim n s = some ((List.range n).map (fun t => point c D dim { s with index := s.index + t, drawn := s.drawn + t }),
      { s with index := s.index + n, drawn := s.drawn + n }) := by
  induction n generalizing s with
  | zero => simp [calls]
  | succ n ih =>
    have hc : call c D dim s = some (point c D dim s, { s with index := s.index + 1, drawn := s.drawn + 1 }) := by
      unfold call
      split
      · rfl
      · rename_i b hb
        rw [if_pos (by have := h b hb; omega)]
    rw [calls, hc]
    simp only
    rw [ih _ (by intro b hb; have := h b hb; simp only; omega)]
    simp only [Option.some.injEq, Prod.mk.injEq, Smp.mk.injEq, true_and]
    refine ⟨?_, by omega, by omega⟩
    rw [List.range_succ_eq_map, List.map_cons, List.map_map]
    congr 1
    apply List.map_congr_left
    intro t _
    simp only [Function.comp]
    congr 2 <;> omega

/-- A point through the rescaler, if there is one. -/
noncomputable def after : Option (Rescaler ℝ) → List ℝ → List (Option ℝ)
  | none, x => x.map some
  | some r, x => r.apply x

/-- The asks of a state whose sampler was made. -/
theorem asks_spec (c : Conf) (D : Draws) (ppf : ℝ → ℝ) (dim : Nat) (budget : Option Nat) (scale : Option ℝ) (hs : scaleOf c dim budget = some scale)
    (r : Option (Rescaler ℝ)) (y : List ℝ → List (Option ℝ)) (hy : y = after r) (n : Nat) :
    ∀ (s : Smp) (k : Nat), (c.middle = true → k ≠ 0) → (∀ b, s.budget = some b → s.index + n ≤ b) →
    (∀ t < n, ∀ v ∈ y (point c D dim { s with index := s.index + t, drawn := s.drawn + t }), outside v = false) →
    asks c D ppf dim budget n ⟨k, some (s, r)⟩ =
      some ((List.range n).map (fun t => (y (point c D dim { s with index := s.index + t, drawn := s.drawn + t })).map (coordinate ppf scale)),
        ⟨k + n, some ({ s with index := s.index + n, drawn := s.drawn + n }, r)⟩) := by
  induction n with
  | zero => intro s k _ _ _; simp [asks]
  | succ n ih =>
    intro s k hk h hin
    have hc : call c D dim s = some (point c D dim s, { s with index := s.index + 1, drawn := s.drawn + 1 }) := by
      unfold call
      split
      · rfl
      · rename_i b hb
        rw [if_pos (by have := h b hb; omega)]
    have ha : ask c D ppf dim budget ⟨k, some (s, r)⟩ = some ((y (point c D dim s)).map (coordinate ppf scale),
        ⟨k + 1, some ({ s with index := s.index + 1, drawn := s.drawn + 1 }, r)⟩) := by
      unfold ask
      rw [if_neg (by
        intro hc'
        simp only [Bool.and_eq_true, beq_iff_eq] at hc'
        exact hk hc'.1 hc'.2)]
      simp only [hc, hs]
      have h0 := hin 0 (by omega)
      simp only [Nat.add_zero] at h0
      have hb : backward ppf scale (y (point c D dim s)) = some ((y (point c D dim s)).map (coordinate ppf scale)) := by
        unfold backward
        rw [if_neg]
        intro hc'
        rw [List.any_eq_true] at hc'
        obtain ⟨v, hv, hv'⟩ := hc'
        rw [h0 v hv] at hv'
        cases hv'
      have hyy : after r (point c D dim s) = y (point c D dim s) := by rw [hy]
      cases r <;> simp only [after] at hyy ⊢ <;> rw [hyy, hb] <;> rfl
    rw [asks, ha]
    simp only
    rw [ih _ (k + 1) (by omega) (by intro b hb; have := h b hb; simp only; omega) (by
      intro t ht
      have := hin (t + 1) (by omega)
      simpa only [Nat.add_assoc, Nat.add_comm 1] using this)]
    simp only [Option.some.injEq, Prod.mk.injEq, St.mk.injEq, Smp.mk.injEq, true_and, and_true]
    refine ⟨?_, by omega, by omega, by omega⟩
    rw [List.range_succ_eq_map, List.map_cons, List.map_map]
    congr 1
    apply List.map_congr_left
    intro t _
    simp only [Function.comp]
    congr 4 <;> omega

/-- A sampler that is made at the first ask or before gives the same points. -/
theorem asks_lazy (c : Conf) (D : Draws) (ppf : ℝ → ℝ) (dim : Nat) (budget : Option Nat) (x : Smp × Option (Rescaler ℝ))
    (hx : sampler c D dim budget = some x) (k : Nat) (hk : c.middle = true → k ≠ 0) :
    ask c D ppf dim budget ⟨k, none⟩ = ask c D ppf dim budget ⟨k, some x⟩ := by
  unfold ask
  rw [if_neg (by
    intro hc'
    simp only [Bool.and_eq_true, beq_iff_eq] at hc'
    exact hk hc'.1 hc'.2), if_neg (by
    intro hc'
    simp only [Bool.and_eq_true, beq_iff_eq] at hc'
    exact hk hc'.1 hc'.2)]
  simp only [hx]

/-- All asks of a new optimizer: the middle point if it is wanted, then the transformed points of the sampler. -/
theorem asks_all (c : Conf) (D : Draws) (ppf : ℝ → ℝ) (dim : Nat) (budget : Option Nat) (scale : Option ℝ) (hs : scaleOf c dim budget = some scale)
    (s : Smp) (r : Option (Rescaler ℝ)) (hx : sampler c D dim budget = some (s, r))
    (y : List ℝ → List (Option ℝ)) (hy : y = after r) (n : Nat)
    (h : ∀ b, s.budget = some b → s.index + n ≤ b)
    (hin : ∀ t < n, ∀ v ∈ y (point c D dim { s with index := s.index + t, drawn := s.drawn + t }), outside v = false) (hn : 0 < n) :
    asks c D ppf dim budget (mid c + n) St.init =
      some (List.replicate (mid c) (List.replicate dim (some 0)) ++
        (List.range n).map (fun t => (y (point c D dim { s with index := s.index + t, drawn := s.drawn + t })).map (coordinate ppf scale)),
        ⟨mid c + n, some ({ s with index := s.index + n, drawn := s.drawn + n }, r)⟩) := by
  have key : ∀ k, (c.middle = true → k ≠ 0) → asks c D ppf dim budget n ⟨k, none⟩ =
      some ((List.range n).map (fun t => (y (point c D dim { s with index := s.index + t, drawn := s.drawn + t })).map (coordinate ppf scale)),
        ⟨k + n, some ({ s with index := s.index + n, drawn := s.drawn + n }, r)⟩) := by
    intro k hk
    have := asks_spec c D ppf dim budget scale hs r y hy n s k hk h hin
    obtain ⟨m, rfl⟩ : ∃ m, n = m + 1 := ⟨n - 1, by omega⟩
    rw [asks] at this ⊢
    rw [asks_lazy c D ppf dim budget _ hx k hk]
    exact this
  unfold mid
  cases hm : c.middle with
  | false =>
    simp only [Bool.false_eq_true, if_false, Nat.zero_add, List.replicate_zero, List.nil_append]
    have := key 0 (by simp [hm])
    rw [Nat.zero_add] at this
    exact this
  | true =>
    simp only [if_true]
    rw [Nat.add_comm 1 n, asks]
    have h0 : ask c D ppf dim budget St.init = some (List.replicate dim (some 0), ⟨1, none⟩) := by
      unfold ask
      rw [if_pos (by simp [hm, St.init])]
      rfl
    rw [h0]
    simp only
    rw [key 1 (by simp)]
    simp [Nat.add_comm]

/-- No more asks than the budget. -/
theorem ask_over (c : Conf) (D : Draws) (ppf : ℝ → ℝ) (dim : Nat) (budget : Option Nat) (k : Nat) (hk : c.middle = true → k ≠ 0) (s : Smp) (r : Option (Rescaler ℝ)) (b : Nat)
    (hb : s.budget = some b) (hi : b ≤ s.index) : ask c D ppf dim budget ⟨k, some (s, r)⟩ = none := by
  unfold ask
  rw [if_neg (by
    intro hc'
    simp only [Bool.and_eq_true, beq_iff_eq] at hc'
    exact hk hc'.1 hc'.2)]
  have : call c D dim s = none := by
    unfold call
    rw [hb]
    simp only
    rw [if_neg (by omega)]
  simp only [this]

/-! ### Where the points are -/

/-- What is known of the draws: primes, permutations, numbers of the unit interval. -/
structure Good (c : Conf) (D : Draws) (dim B : Nat) : Prop where
  prime : ∀ p ∈ D.primes, p.Prime
  choice : ∀ p ∈ D.primes, (D.choice p).Perm ((List.range p).drop 1)
  perms : ∀ p ∈ D.perms, p.Perm (List.range B)
  seeded : ∀ t k, 0 < D.seeded t k ∧ D.seeded t k < 1
  uniform : ∀ t k, 0 < D.uniform t k ∧ D.uniform t k < 1
  /-- the number of coordinates -/
  dims : (c.kind = .halton → D.primes.length = dim) ∧ (c.kind = .hammersley → D.primes.length + 1 = dim) ∧ (c.kind = .lhs → D.perms.length = dim)

theorem sample_range (c : Conf) (D : Draws) (dim B : Nat) (h : Good c D dim B) (t : Nat) (ht : t < B) (d : Nat) :
    (∀ x ∈ point c D dim ⟨some B, t, d⟩, 0 < x ∧ x < 1) ∧ (point c D dim ⟨some B, t, d⟩).length = dim := by
  have hB : (0 : ℝ) < B := by exact_mod_cast (by omega : 0 < B)
  have hH := halton_points (α := ℝ) c.scrambled D.choice D.primes h.prime h.choice t t
  unfold point
  cases hk : c.kind with
  | halton => exact ⟨hH.1, hH.2.1.trans (h.dims.1 hk)⟩
  | hammersley =>
    simp only [Option.getD_some]
    unfold hammersley
    constructor
    · intro x hx
      rcases List.mem_cons.1 hx with rfl | hx
      · have h1 : (t : ℝ) + 1 ≤ B := by exact_mod_cast ht
        have h2 : (0 : ℝ) ≤ t := Nat.cast_nonneg t
        exact ⟨by positivity, by rw [div_lt_one hB]; linarith⟩
      · exact hH.1 x hx
    · rw [List.length_cons, hH.2.1]; exact h.dims.2.1 hk
  | lhs =>
    simp only [Option.getD_some]
    constructor
    · intro x hx
      rw [List.mem_mapIdx] at hx
      obtain ⟨k, hk', rfl⟩ := hx
      have hp := h.perms _ (List.getElem_mem hk')
      have hlt : D.perms[k].getD t 0 < B := by
        have hlen : D.perms[k].length = B := by simpa using hp.length_eq
        rw [List.getD_eq_getElem _ _ (by omega)]
        have := hp.subset (List.getElem_mem (by omega : t < D.perms[k].length))
        simpa using this
      have h1 : ((D.perms[k].getD t 0 : ℕ) : ℝ) + 1 ≤ B := by exact_mod_cast hlt
      have h2 : (0 : ℝ) ≤ ((D.perms[k].getD t 0 : ℕ) : ℝ) := Nat.cast_nonneg _
      obtain ⟨r0, r1⟩ := h.seeded d k
      exact ⟨by positivity, by rw [div_lt_one hB]; linarith⟩
    · rw [List.length_mapIdx]; exact h.dims.2.2 hk
  | random =>
    constructor
    · intro x hx
      rw [List.mem_map] at hx
      obtain ⟨k, -, rfl⟩ := hx
      exact h.uniform d k
    · simp

theorem clip_range (y : ℝ) : 1 / 10 ^ 9 ≤ clip y ∧ clip y ≤ 1 - 1 / 10 ^ 9 := by
  unfold clip
  exact ⟨le_min (le_max_right _ _) (by norm_num), min_le_right _ _⟩

theorem clip_id (y : ℝ) (h0 : 1 / 10 ^ 9 ≤ y) (h1 : y ≤ 1 - 1 / 10 ^ 9) : clip y = y := by
  unfold clip
  rw [max_eq_left h0, min_eq_left h1]

theorem clip_low (y : ℝ) (h : y ≤ 1 / 10 ^ 9) : clip y = 1 / 10 ^ 9 := by
  unfold clip
  rw [max_eq_right h]
  norm_num

theorem clip_high (y : ℝ) (h : 1 - 1 / 10 ^ 9 ≤ y) : clip y = 1 - 1 / 10 ^ 9 := by
  unfold clip
  rw [max_eq_left (le_trans (by norm_num) h), min_eq_right h]

theorem cdf_clip {cdf ppf : ℝ → ℝ} (h : CdfSpec cdf ppf) (s : ℝ) (hs : s ≠ 0) (y : ℝ) : cdf (s * ppf (clip y) / s) = clip y := by
  rw [mul_div_cancel_left₀ _ hs]
  obtain ⟨h0, h1⟩ := clip_range y
  exact h.right_inv _ (lt_of_lt_of_le (by norm_num) h0) (lt_of_le_of_lt h1 (by norm_num))

/-- Clipping keeps the interval of a number when there are less than 10^9 intervals. -/
theorem clip_stratum (B m : Nat) (hm : m < B) (hB : B < 10 ^ 9) (y : ℝ) (h0 : 0 ≤ y) (h1 : y < 1) :
    ((m : ℝ) / B ≤ clip y ∧ clip y < ((m : ℝ) + 1) / B) ↔ ((m : ℝ) / B ≤ y ∧ y < ((m : ℝ) + 1) / B) := by
  have hb : (0 : ℝ) < B := by exact_mod_cast (by omega : 0 < B)
  have hB' : (B : ℝ) < 10 ^ 9 := by exact_mod_cast hB
  have he : (1 : ℝ) / 10 ^ 9 * B < 1 := by linarith
  have hmB : (m : ℝ) + 1 ≤ B := by exact_mod_cast hm
  have hm0 : (0 : ℝ) ≤ m := Nat.cast_nonneg m
  rw [div_le_iff₀ hb, lt_div_iff₀ hb, div_le_iff₀ hb, lt_div_iff₀ hb]
  rcases le_total y (1 / 10 ^ 9) with hl | hl
  · rw [clip_low y hl]
    have hyB : y * B < 1 := lt_of_le_of_lt (mul_le_mul_of_nonneg_right hl hb.le) he
    have hy0 : 0 ≤ y * B := by positivity
    constructor
    · rintro ⟨a, -⟩
      have : (m : ℝ) < 1 := by linarith
      have hm1 : m = 0 := by have : m < 1 := by exact_mod_cast this
                             omega
      subst hm1
      exact ⟨by simpa using hy0, by simpa using hyB⟩
    · rintro ⟨a, -⟩
      have : (m : ℝ) < 1 := by linarith
      have hm1 : m = 0 := by have : m < 1 := by exact_mod_cast this
                             omega
      subst hm1
      exact ⟨by simp, by simpa using he⟩
  · rcases le_total (1 - 1 / 10 ^ 9) y with hh | hh
    · rw [clip_high y hh]
      have hyB : (B : ℝ) - 1 < y * B := by nlinarith
      have hyB' : y * B < B := by nlinarith
      constructor
      · rintro ⟨-, a⟩
        have : (B : ℝ) - 1 < (m : ℝ) + 1 := by nlinarith
        have hm1 : B = m + 1 := by have : B < m + 2 := by have h : (B : ℝ) < (m : ℝ) + 2 := by linarith
                                                          exact_mod_cast h
                                   omega
        have hBm : (B : ℝ) = m + 1 := by rw [hm1]; push_cast; ring
        exact ⟨by linarith, by linarith⟩
      · rintro ⟨-, a⟩
        have : (B : ℝ) - 1 < (m : ℝ) + 1 := by nlinarith
        have hm1 : B = m + 1 := by have : B < m + 2 := by have h : (B : ℝ) < (m : ℝ) + 2 := by linarith
                                                          exact_mod_cast h
                                   omega
        have hBm : (B : ℝ) = m + 1 := by rw [hm1]; push_cast; ring
        constructor <;> nlinarith
    · rw [clip_id y hl hh]

theorem outside_of (x : ℝ) (h : 0 ≤ x ∧ x ≤ 1) : outside (some x) = false := by
  unfold outside
  rw [decide_eq_false_iff_not]
  rintro (a | a)
  · linarith [h.2]
  · linarith [h.1]

theorem sampler_plain (c : Conf) (D : Draws) (dim B : Nat) (hr : c.rescaled = false) (hsc : c.scrambled = false ∨ c.kind = .halton ∨ c.kind = .hammersley) :
    sampler c D dim (some (mid c + B)) = some (⟨some B, 0, 0⟩, none) := by
  have hb : mid c + B - (if c.middle then 1 else 0) = B := by unfold mid; omega
  unfold sampler
  simp only [Option.map_some, hb, hr]
  rw [if_neg (by simp), if_neg (by rcases hsc with h | h | h <;> simp [h])]
  simp

/-- **C144.** Without rescaling, the searches give as many points as the budget says: first the middle if it is wanted, then the points of the sampler, each coordinate through the inverse of the distribution function
times the scale; and no more. -/
theorem plain_asks (c : Conf) (D : Draws) (ppf : ℝ → ℝ) (dim B : Nat) (hB : 0 < B) (h : Good c D dim B) (hr : c.rescaled = false)
    (hsc : c.scrambled = false ∨ c.kind = .halton ∨ c.kind = .hammersley) (s : ℝ) (hs : scaleOf c dim (some (mid c + B)) = some (some s)) :
    ∃ st, asks c D ppf dim (some (mid c + B)) (mid c + B) St.init =
      some (List.replicate (mid c) (List.replicate dim (some 0)) ++
        (List.range B).map (fun t => (sample c D dim (some B) t).map fun y => some (s * ppf (clip y))), st) ∧
      ask c D ppf dim (some (mid c + B)) st = none := by
  have := asks_all c D ppf dim (some (mid c + B)) (some s) hs ⟨some B, 0, 0⟩ none (sampler_plain c D dim B hr hsc) (fun x => x.map some) rfl B
    (by intro b hb; injection hb with hb; simp only; omega) (by
      intro t ht v hv
      rw [List.mem_map] at hv
      obtain ⟨x, hx, rfl⟩ := hv
      simp only [Nat.zero_add] at hx
      have := (sample_range c D dim B h t ht t).1 x hx
      exact outside_of x ⟨this.1.le, this.2.le⟩) hB
  refine ⟨⟨mid c + B, some (⟨some B, 0 + B, 0 + B⟩, none)⟩, ?_, ?_⟩
  · rw [this]
    simp only [Nat.zero_add, List.map_map, Function.comp_def]
    rfl
  · exact ask_over c D ppf dim _ _ (by intro _; omega) _ _ B rfl (by simp)

/-- **C144.** Latin hypercubes: at each coordinate exactly one asked point is in each of the `B` parts of equal probability of the distribution. -/
theorem lhs_quantiles {cdf ppf : ℝ → ℝ} (hc : CdfSpec cdf ppf) (c : Conf) (D : Draws) (dim B : Nat) (hB : 0 < B) (hB9 : B < 10 ^ 9) (h : Good c D dim B) (hk : c.kind = .lhs)
    (hr : c.rescaled = false) (hsc : c.scrambled = false) (s : ℝ) (hs0 : s ≠ 0) (hs : scaleOf c dim (some (mid c + B)) = some (some s)) :
    ∃ xs st, asks c D ppf dim (some (mid c + B)) (mid c + B) St.init = some (xs, st) ∧ xs.length = mid c + B ∧
      ∀ k < dim, ∀ m < B, ∃! t : ℕ, mid c ≤ t ∧ ∃ (x : List (Option ℝ)) (v : ℝ), xs[t]? = some x ∧ x[k]? = some (some v) ∧
        (m : ℝ) / B ≤ cdf (v / s) ∧ cdf (v / s) < ((m : ℝ) + 1) / B := by
  obtain ⟨st, ha, -⟩ := plain_asks c D ppf dim B hB h hr (Or.inl hsc) s hs
  refine ⟨_, st, ha, by simp, ?_⟩
  intro k hkd m hm
  obtain ⟨xs, s', hcalls, -, -, hstr⟩ := lhs_stratified (α := ℝ) B D.perms h.perms D.seeded (fun t k => ⟨(h.seeded t k).1.le, (h.seeded t k).2⟩)
  obtain ⟨s'', hcalls', -⟩ := Seq.calls_spec (α := ℝ) D.seeded B { budget := B, perms := D.perms, index := 0, drawn := 0 } (by simp)
  rw [hcalls'] at hcalls
  injection hcalls with hcalls
  injection hcalls with hxs _
  obtain ⟨t, ⟨x, y, hx, hy, hlo, hhi⟩, huniq⟩ := hstr k (by rw [h.dims.2.2 hk]; exact hkd) m hm
  have hsample : ∀ t < B, xs[t]? = some (sample c D dim (some B) t) := by
    intro t ht
    rw [← hxs, List.getElem?_map, List.getElem?_range ht]
    simp [sample, point, hk]
  have hval : ∀ t < B, ∀ x, xs[t]? = some x → x = sample c D dim (some B) t := by
    intro t ht x hx
    rw [hsample t ht] at hx
    injection hx with hx
    exact hx.symm
  have htB : t < B := by
    have := (List.getElem?_eq_some_iff.1 hx).1
    rw [← hxs] at this
    simpa using this
  have hget : ∀ t < B, (List.replicate (mid c) (List.replicate dim (some (0 : ℝ))) ++
      (List.range B).map (fun t => (sample c D dim (some B) t).map fun y => some (s * ppf (clip y))))[mid c + t]? =
      some ((sample c D dim (some B) t).map fun y => some (s * ppf (clip y))) := by
    intro t ht
    rw [List.getElem?_append_right (by simp)]
    simp [ht]
  have hyr : ∀ t < B, ∀ y, (sample c D dim (some B) t)[k]? = some y → 0 ≤ y ∧ y < 1 := by
    intro t ht y hy
    have := (sample_range c D dim B h t ht t).1 y (List.mem_of_getElem? hy)
    exact ⟨this.1.le, this.2⟩
  refine ⟨mid c + t, ⟨by omega, _, s * ppf (clip y), hget t htB, ?_, ?_⟩, ?_⟩
  · rw [List.getElem?_map, ← hval t htB x hx, hy]
    rfl
  · rw [cdf_clip hc s hs0]
    rw [hval t htB x hx] at hy
    obtain ⟨y0, y1⟩ := hyr t htB y hy
    exact (clip_stratum B m hm hB9 y y0 y1).2 ⟨hlo, hhi⟩
  · rintro u ⟨hu, x', v, hx', hv, hc1, hc2⟩
    obtain ⟨w, rfl⟩ : ∃ w, u = mid c + w := ⟨u - mid c, by omega⟩
    have hwB : w < B := by
      have := (List.getElem?_eq_some_iff.1 hx').1
      simp at this
      omega
    rw [hget w hwB] at hx'
    injection hx' with hx'
    rw [← hx', List.getElem?_map, Option.map_eq_some_iff] at hv
    obtain ⟨y', hy', hv'⟩ := hv
    injection hv' with hv'
    rw [← hv', cdf_clip hc s hs0] at hc1 hc2
    obtain ⟨y0, y1⟩ := hyr w hwB y' hy'
    have := (clip_stratum B m hm hB9 y' y0 y1).1 ⟨hc1, hc2⟩
    rw [huniq w ⟨_, y', hsample w hwB, hy', this.1, this.2⟩]

/-- **C144.** Halton: at the coordinate of the prime `b`, the first `b ^ k - 1` points of the search are at the quantiles `m / b ^ k`, each of them. -/
theorem halton_quantiles {cdf ppf : ℝ → ℝ} (hc : CdfSpec cdf ppf) (c : Conf) (D : Draws) (dim B : Nat) (h : Good c D dim B) (hk : c.kind = .halton)
    (hr : c.rescaled = false) (s : ℝ) (hs0 : s ≠ 0) (hs : scaleOf c dim (some (mid c + B)) = some (some s)) (i b k : Nat) (hb : D.primes[i]? = some b)
    (hB : b ^ k - 1 ≤ B) (hk0 : 0 < k) (h9 : b ^ k ≤ 10 ^ 9) :
    ∃ xs st, asks c D ppf dim (some (mid c + B)) (mid c + B) St.init = some (xs, st) ∧
      ∀ q : ℝ, (∃ t, t < b ^ k - 1 ∧ ∃ x v, xs[mid c + t]? = some x ∧ x[i]? = some (some v) ∧ cdf (v / s) = q) ↔
        ∃ m : ℕ, 0 < m ∧ m < b ^ k ∧ q = (m : ℝ) / (b : ℝ) ^ k := by
  have hi : i < D.primes.length := (List.getElem?_eq_some_iff.1 hb).1
  have hbp : b.Prime := h.prime b (List.mem_of_getElem? hb)
  have h2 : 2 ≤ b ^ k := le_trans hbp.two_le (Nat.le_self_pow (by omega) b)
  obtain ⟨st, ha, -⟩ := plain_asks c D ppf dim B (by omega) h hr (Or.inr (Or.inl hk)) s hs
  refine ⟨_, st, ha, ?_⟩
  intro q
  have hf := permutations_digit c.scrambled D.choice D.primes h.prime h.choice
  have hl := hf.length_eq
  have hd : DigitPerm b ((permutations c.scrambled D.choice D.primes)[i]'(by omega)) := by
    have := hf.get hi (by omega)
    rw [List.getElem?_eq_getElem hi] at hb
    injection hb with hb
    simpa [hb] using this
  generalize hsig : (permutations c.scrambled D.choice D.primes)[i]'(by omega) = sigma at hd
  have hget : ∀ t < B, (List.replicate (mid c) (List.replicate dim (some (0 : ℝ))) ++
      (List.range B).map (fun t => (sample c D dim (some B) t).map fun y => some (s * ppf (clip y))))[mid c + t]? =
      some ((sample c D dim (some B) t).map fun y => some (s * ppf (clip y))) := by
    intro t ht
    rw [List.getElem?_append_right (by simp)]
    simp [ht]
  have hcoord : ∀ t, (sample c D dim (some B) t)[i]? = some (vdc t sigma) := by
    intro t
    simp only [sample, point, hk, halton]
    rw [List.getElem?_map, List.getElem?_eq_getElem (by omega), hsig]
    rfl
  have hbk : (0 : ℝ) < (b : ℝ) ^ k := by have := hbp.pos; positivity
  have h9' : (b : ℝ) ^ k ≤ 10 ^ 9 := by exact_mod_cast h9
  have hclip : ∀ m : ℕ, 0 < m → m < b ^ k → clip ((m : ℝ) / (b : ℝ) ^ k) = (m : ℝ) / (b : ℝ) ^ k := by
    intro m hm0 hm
    have a1 : (1 : ℝ) ≤ m := by exact_mod_cast hm0
    have a2 : (m : ℝ) + 1 ≤ (b : ℝ) ^ k := by exact_mod_cast hm
    apply clip_id
    · rw [div_le_div_iff₀ (by norm_num) hbk]; nlinarith
    · rw [div_le_iff₀ hbk]; nlinarith
  have hfirst := vdc_first (α := ℝ) hd k
  constructor
  · rintro ⟨t, ht, x, v, hx, hv, rfl⟩
    rw [hget t (by omega)] at hx
    injection hx with hx
    rw [← hx, List.getElem?_map, hcoord t] at hv
    injection hv with hv
    injection hv with hv
    rw [← hv, cdf_clip hc s hs0]
    obtain ⟨m, m0, m1, me⟩ := (hfirst (vdc t sigma)).1 ⟨t, by omega, rfl⟩
    exact ⟨m, m0, m1, by rw [me, hclip m m0 m1]⟩
  · rintro ⟨m, m0, m1, rfl⟩
    obtain ⟨t, ht, hv⟩ := (hfirst ((m : ℝ) / (b : ℝ) ^ k)).2 ⟨m, m0, m1, rfl⟩
    refine ⟨t, by omega, _, s * ppf (clip (vdc t sigma)), hget t (by omega), ?_, ?_⟩
    · rw [List.getElem?_map, hcoord t]; rfl
    · rw [cdf_clip hc s hs0, hv, hclip m m0 m1]

/-- **C144.** Hammersley: the first coordinate goes through the quantiles `(t + 1/2) / B`, in this order. -/
theorem hammersley_quantiles {cdf ppf : ℝ → ℝ} (hc : CdfSpec cdf ppf) (c : Conf) (D : Draws) (dim B : Nat) (hB : 0 < B) (hB9 : 2 * B ≤ 10 ^ 9) (h : Good c D dim B) (hk : c.kind = .hammersley)
    (hr : c.rescaled = false) (s : ℝ) (hs0 : s ≠ 0) (hs : scaleOf c dim (some (mid c + B)) = some (some s)) :
    ∃ xs st, asks c D ppf dim (some (mid c + B)) (mid c + B) St.init = some (xs, st) ∧
      ∀ t < B, ∃ x v, xs[mid c + t]? = some x ∧ x[0]? = some (some v) ∧ cdf (v / s) = ((t : ℝ) + 1 / 2) / B := by
  obtain ⟨st, ha, -⟩ := plain_asks c D ppf dim B hB h hr (Or.inr (Or.inr hk)) s hs
  refine ⟨_, st, ha, ?_⟩
  intro t ht
  refine ⟨_, s * ppf (clip (((t : ℝ) + 1 / 2) / B)), by rw [List.getElem?_append_right (by simp)]; simp [ht]; rfl, ?_, ?_⟩
  · simp [sample, point, hk, hammersley]
  · rw [cdf_clip hc s hs0]
    have hb : (0 : ℝ) < B := by exact_mod_cast hB
    have h9 : 2 * (B : ℝ) ≤ 10 ^ 9 := by exact_mod_cast hB9
    have h1 : (t : ℝ) + 1 ≤ B := by exact_mod_cast ht
    have h0 : (0 : ℝ) ≤ t := Nat.cast_nonneg t
    apply clip_id
    · rw [div_le_div_iff₀ (by norm_num) hb]; nlinarith
    · rw [div_le_iff₀ hb]; nlinarith

/-! ### Rescaling -/

theorem point_drawn (c : Conf) (D : Draws) (dim : Nat) (b : Option Nat) (t d d' : Nat) (hk : c.kind ≠ .random) (hl : c.kind = .lhs → d = d') :
    point c D dim ⟨b, t, d⟩ = point c D dim ⟨b, t, d'⟩ := by
  unfold point
  cases hkk : c.kind with
  | random => exact absurd hkk hk
  | halton => rfl
  | hammersley => rfl
  | lhs => rw [hl hkk]

theorem make_exists (points : List (List ℝ)) (hne : points ≠ []) (d : Nat) (hlen : ∀ q ∈ points, q.length = d) (h : ∀ q ∈ points, ∀ x ∈ q, 0 < x ∧ x < 1) :
    ∃ r, Rescaler.make points = some r := by
  cases points with
  | nil => exact absurd rfl hne
  | cons p ps =>
    unfold Rescaler.make
    simp only
    have hp := hlen p (by simp)
    have hps : ∀ q ∈ ps, q.length = p.length := fun q hq => by rw [hp]; exact hlen q (by simp [hq])
    have hf : ∀ (f : ℝ → ℝ → ℝ), (∀ a b, 0 < a ∧ a < 1 → 0 < b ∧ b < 1 → 0 < f a b ∧ f a b < 1) → ∀ (l : List (List ℝ)) (m : List ℝ), (∀ q ∈ l, ∀ x ∈ q, 0 < x ∧ x < 1) →
        (∀ x ∈ m, 0 < x ∧ x < 1) → ∀ x ∈ l.foldl (fun m q => List.zipWith f m q) m, 0 < x ∧ x < 1 := by
      intro f hf l
      induction l with
      | nil => intro m _ hm; simpa using hm
      | cons q l ih =>
        intro m hl hm
        rw [List.foldl_cons]
        apply ih _ (fun q' hq' => hl q' (by simp [hq']))
        intro x hx
        rw [List.mem_iff_getElem] at hx
        obtain ⟨i, hi, rfl⟩ := hx
        rw [List.getElem_zipWith]
        exact hf _ _ (hm _ (List.getElem_mem _)) (hl q (by simp) _ (List.getElem_mem _))
    have hmin := hf min (fun a b ha hb => ⟨lt_min ha.1 hb.1, lt_of_le_of_lt (min_le_left _ _) ha.2⟩) ps p (fun q hq => h q (by simp [hq])) (h p (by simp))
    have hmax := hf max (fun a b ha hb => ⟨lt_of_lt_of_le ha.1 (le_max_left _ _), max_lt ha.2 hb.2⟩) ps p (fun q hq => h q (by simp [hq])) (h p (by simp))
    have hpos : ∀ l : List ℝ, (∀ x ∈ l, 0 < x) → 0 < l.foldr min (1 / 1000000000000000) := by
      intro l
      induction l with
      | nil => intro _; norm_num
      | cons x l ih => intro hl; rw [List.foldr_cons]; exact lt_min (hl x (by simp)) (ih fun y hy => hl y (by simp [hy]))
    rw [if_pos]
    · exact ⟨_, rfl⟩
    · apply hpos
      intro x hx
      rcases List.mem_append.1 hx with hx | hx
      · exact (hmin x hx).1
      · rw [List.mem_map] at hx
        obtain ⟨y, hy, rfl⟩ := hx
        have := (hmax y hy).2
        linarith

theorem apply_length (r : Rescaler ℝ) (p : List ℝ) : (r.apply p).length ≤ p.length := by
  unfold Rescaler.apply
  rw [List.length_zipWith]
  omega

/-- What the rescaled searches do, apart from the random ones. -/
theorem rescaled_asks (c : Conf) (D : Draws) (ppf : ℝ → ℝ) (dim B : Nat) (hB : 0 < B) (h : Good c D dim B) (hr : c.rescaled = true) (hk : c.kind ≠ .random)
    (hsc : c.scrambled = false ∨ c.kind = .halton ∨ c.kind = .hammersley) (scale : Option ℝ) (hs : scaleOf c dim (some (mid c + B)) = some scale) :
    ∃ st r, Rescaler.make ((List.range B).map (sample c D dim (some B))) = some r ∧ asks c D ppf dim (some (mid c + B)) (mid c + B) St.init =
      some (List.replicate (mid c) (List.replicate dim (some 0)) ++
        (List.range B).map (fun t => (r.apply (sample c D dim (some B) t)).map (coordinate ppf scale)), st) := by
  have hmem : ∀ q ∈ (List.range B).map (sample c D dim (some B)), q.length = dim ∧ ∀ x ∈ q, 0 < x ∧ x < 1 := by
    intro q hq
    rw [List.mem_map] at hq
    obtain ⟨t, ht, rfl⟩ := hq
    have := sample_range c D dim B h t (List.mem_range.1 ht) t
    exact ⟨this.2, this.1⟩
  obtain ⟨r, hmake⟩ := make_exists ((List.range B).map (sample c D dim (some B))) (by simp; omega) dim (fun q hq => (hmem q hq).1) (fun q hq => (hmem q hq).2)
  have hcalls := calls_spec c D dim B ⟨some B, 0, 0⟩ (by intro b hb; injection hb with hb; simp only; omega)
  simp only [Nat.zero_add] at hcalls
  obtain ⟨d, hd, hx⟩ : ∃ d, (c.kind = .lhs → d = 0) ∧ sampler c D dim (some (mid c + B)) = some (⟨some B, 0, d⟩, some r) := by
    have hb : mid c + B - (if c.middle then 1 else 0) = B := by unfold mid; omega
    refine ⟨if c.kind = .lhs then 0 else B, by intro hl; rw [if_pos hl], ?_⟩
    unfold sampler
    simp only [Option.map_some, hb, hr]
    rw [if_neg (by simp), if_neg (by rcases hsc with h | h | h <;> simp [h])]
    simp only [if_true, hcalls]
    have : (List.map (fun t => point c D dim { budget := some B, index := t, drawn := t }) (List.range B)) = (List.range B).map (sample c D dim (some B)) := rfl
    rw [this, hmake]
    simp only [reinitialize]
    cases hkk : c.kind <;> simp
  have hpt : ∀ t, point c D dim ⟨some B, 0 + t, d + t⟩ = sample c D dim (some B) t := by
    intro t
    rw [Nat.zero_add]
    exact point_drawn c D dim _ _ _ _ hk (fun hl => by rw [hd hl]; omega)
  have := asks_all c D ppf dim (some (mid c + B)) scale hs ⟨some B, 0, d⟩ (some r) hx (fun x => r.apply x) rfl B
    (by intro b hb; injection hb with hb; simp only; omega) (by
      intro t ht v hv
      simp only [hpt] at hv
      have hq : sample c D dim (some B) t ∈ (List.range B).map (sample c D dim (some B)) := List.mem_map.2 ⟨t, List.mem_range.2 ht, rfl⟩
      rw [List.mem_iff_getElem?] at hv
      obtain ⟨k, hv⟩ := hv
      have hkd : k < dim := by
        have h1 := (List.getElem?_eq_some_iff.1 hv).1
        have h2 := apply_length r (sample c D dim (some B) t)
        have h3 := (hmem _ hq).1
        omega
      obtain ⟨he, he', hc1, hc2⟩ := rescaler_spec_partial _ dim (fun q hq => (hmem q hq).1) r hmake k hkd
      by_cases hall : ∀ q ∈ (List.range B).map (sample c D dim (some B)), ∀ q' ∈ (List.range B).map (sample c D dim (some B)), q[k]? = q'[k]?
      · have := hc1 hall _ hq
        rw [hv] at this
        injection this with this
        rw [this]; rfl
      · push Not at hall
        obtain ⟨f, -, hf, -, -⟩ := hc2 hall
        obtain ⟨x, -, hx, h1, h2⟩ := hf _ hq
        rw [hv] at hx
        injection hx with hx
        rw [hx]
        exact outside_of _ ⟨by linarith, by linarith⟩) hB
  simp only [hpt] at this
  exact ⟨_, r, hmake, this⟩

/-- **C144 (partly).** With rescaling, in every coordinate where two points differ, all points are numbers and both ends of the clipped distribution are reached: the quantiles 1e-9 and 1 - 1e-9.
The random search is left out: see `random_rescaled_raises`. -/
theorem rescaled_extremes_partial {cdf ppf : ℝ → ℝ} (hc : CdfSpec cdf ppf) (c : Conf) (D : Draws) (dim B : Nat) (hB : 0 < B) (h : Good c D dim B) (hr : c.rescaled = true) (hk : c.kind ≠ .random)
    (hsc : c.scrambled = false ∨ c.kind = .halton ∨ c.kind = .hammersley) (s : ℝ) (hs0 : s ≠ 0) (hs : scaleOf c dim (some (mid c + B)) = some (some s)) :
    ∃ xs st, asks c D ppf dim (some (mid c + B)) (mid c + B) St.init = some (xs, st) ∧
      ∀ k < dim, (∃ t < B, ∃ t' < B, (sample c D dim (some B) t)[k]? ≠ (sample c D dim (some B) t')[k]?) →
        (∀ t < B, ∃ x v, xs[mid c + t]? = some x ∧ x[k]? = some (some v)) ∧
        (∃ t < B, ∃ x v, xs[mid c + t]? = some x ∧ x[k]? = some (some v) ∧ cdf (v / s) = 1 / 10 ^ 9) ∧
        (∃ t < B, ∃ x v, xs[mid c + t]? = some x ∧ x[k]? = some (some v) ∧ cdf (v / s) = 1 - 1 / 10 ^ 9) := by
  obtain ⟨st, r, hmake, ha⟩ := rescaled_asks c D ppf dim B hB h hr hk hsc (some s) hs
  refine ⟨_, st, ha, ?_⟩
  intro k hkd hne
  have hlen : ∀ q ∈ (List.range B).map (sample c D dim (some B)), q.length = dim := by
    intro q hq
    rw [List.mem_map] at hq
    obtain ⟨t, ht, rfl⟩ := hq
    exact (sample_range c D dim B h t (List.mem_range.1 ht) t).2
  have hin : ∀ t < B, sample c D dim (some B) t ∈ (List.range B).map (sample c D dim (some B)) := fun t ht => List.mem_map.2 ⟨t, List.mem_range.2 ht, rfl⟩
  obtain ⟨he, he', -, hc2⟩ := rescaler_spec_partial _ dim hlen r hmake k hkd
  obtain ⟨f, -, hf, ⟨q1, hq1, x1, hx1, e1⟩, ⟨q2, hq2, x2, hx2, e2⟩⟩ := hc2 (by
    obtain ⟨t, ht, t', ht', hh⟩ := hne
    exact ⟨_, hin t ht, _, hin t' ht', hh⟩)
  have hget : ∀ t < B, ∀ x, (r.apply (sample c D dim (some B) t))[k]? = some (some x) →
      ∃ y, (List.replicate (mid c) (List.replicate dim (some (0 : ℝ))) ++
        (List.range B).map (fun t => (r.apply (sample c D dim (some B) t)).map (coordinate ppf (some s))))[mid c + t]? = some y ∧ y[k]? = some (some (s * ppf (clip x))) := by
    intro t ht x hx
    refine ⟨(r.apply (sample c D dim (some B) t)).map (coordinate ppf (some s)), by rw [List.getElem?_append_right (by simp)]; simp [ht], ?_⟩
    rw [List.getElem?_map, hx]
    rfl
  refine ⟨?_, ?_, ?_⟩
  · intro t ht
    obtain ⟨x, -, hx, -, -⟩ := hf _ (hin t ht)
    obtain ⟨y, h1, h2⟩ := hget t ht _ hx
    exact ⟨y, _, h1, h2⟩
  · rw [List.mem_map] at hq1
    obtain ⟨t, ht, rfl⟩ := hq1
    rw [List.mem_range] at ht
    obtain ⟨x, hx', hx, -, -⟩ := hf _ (hin t ht)
    rw [hx1] at hx'
    injection hx' with hx'
    rw [← hx', e1] at hx
    obtain ⟨y, h1, h2⟩ := hget t ht _ hx
    refine ⟨t, ht, y, _, h1, h2, ?_⟩
    rw [cdf_clip hc s hs0, clip_low _ (le_trans he' (by norm_num))]
  · rw [List.mem_map] at hq2
    obtain ⟨t, ht, rfl⟩ := hq2
    rw [List.mem_range] at ht
    obtain ⟨x, hx', hx, -, -⟩ := hf _ (hin t ht)
    rw [hx2] at hx'
    injection hx' with hx'
    rw [← hx', e2] at hx
    obtain ⟨y, h1, h2⟩ := hget t ht _ hx
    refine ⟨t, ht, y, _, h1, h2, ?_⟩
    rw [cdf_clip hc s hs0, clip_high]
    have : (1 : ℝ) / 1000000000000000 ≤ 1 / 10 ^ 9 := by norm_num
    linarith

/-- **C144, disagreement.** With rescaling and only one point from the sampler, no coordinate is a number. -/
theorem rescaled_single (c : Conf) (D : Draws) (ppf : ℝ → ℝ) (dim : Nat) (h : Good c D dim 1) (hr : c.rescaled = true) (hk : c.kind ≠ .random)
    (hsc : c.scrambled = false ∨ c.kind = .halton ∨ c.kind = .hammersley) (scale : Option ℝ) (hs : scaleOf c dim (some (mid c + 1)) = some scale) :
    ∃ x st, asks c D ppf dim (some (mid c + 1)) (mid c + 1) St.init = some (List.replicate (mid c) (List.replicate dim (some 0)) ++ [x], st) ∧ ∀ v ∈ x, v = none := by
  obtain ⟨st, r, hmake, ha⟩ := rescaled_asks c D ppf dim 1 (by omega) h hr hk hsc scale hs
  have hl : (sample c D dim (some 1) 0).length = dim := (sample_range c D dim 1 h 0 (by omega) 0).2
  refine ⟨_, st, ha, ?_⟩
  intro v hv
  simp only [List.range_one, List.map_cons, List.map_nil] at hmake
  rw [List.mem_map] at hv
  obtain ⟨w, hw, rfl⟩ := hv
  rw [List.mem_iff_getElem?] at hw
  obtain ⟨k, hw⟩ := hw
  have hkd : k < dim := by
    have h1 := (List.getElem?_eq_some_iff.1 hw).1
    have h2 := apply_length r (sample c D dim (some 1) 0)
    rw [hl] at h2
    exact lt_of_lt_of_le h1 h2
  obtain ⟨-, -, hc1, -⟩ := rescaler_spec_partial [sample c D dim (some 1) 0] dim (by intro q hq; rw [List.mem_singleton] at hq; rw [hq]; exact hl) r hmake k hkd
  have := hc1 (by intro q hq q' hq'; simp only [List.mem_singleton] at hq hq'; rw [hq, hq']) (sample c D dim (some 1) 0) (by simp)
  rw [hw] at this
  injection this with this
  rw [this]
  rfl

/-- **C144, disagreement.** Rescaling without a budget is an error at the first point of the sampler, though the documentation only asks for a budget for the Hammersley and Latin hypercube searches. -/
theorem rescaled_no_budget (c : Conf) (D : Draws) (ppf : ℝ → ℝ) (dim : Nat) (hr : c.rescaled = true) (k : Nat) (hk : c.middle = true → k ≠ 0) :
    ask c D ppf dim none ⟨k, none⟩ = none := by
  have : sampler c D dim none = none := by
    unfold sampler
    simp only [Option.map_none, hr]
    split
    · rfl
    · split <;> rfl
  unfold ask
  rw [if_neg (by
    intro hc'
    simp only [Bool.and_eq_true, beq_iff_eq] at hc'
    exact hk hc'.1 hc'.2)]
  simp only [this]

/-- The draws of the next theorem: 0.3 and 0.6 for the rescaler, then 0.1 for the first point. -/
noncomputable def badDraws : Draws where
  primes := []
  choice := fun _ => []
  perms := []
  seeded := fun _ _ => 1 / 2
  uniform := fun t _ => if t = 0 then 3 / 10 else if t = 1 then 6 / 10 else 1 / 10

/-- **C144, disagreement.** The rescaled random search draws new points after its rescaler was made from others, so that its points may be outside of the unit interval, where the transform raises an error. -/
theorem random_rescaled_raises (ppf : ℝ → ℝ) (c : Conf) (hk : c.kind = .random) (hr : c.rescaled = true) (hsc : c.scrambled = false) (hm : c.middle = false) (ha : c.auto = .off) :
    Good c badDraws 1 2 ∧ ask c badDraws ppf 1 (some 2) St.init = none := by
  constructor
  · refine ⟨by simp [badDraws], by simp [badDraws], by simp [badDraws], by intro t k; simp only [badDraws]; norm_num, ?_, by simp [hk]⟩
    intro t k
    simp only [badDraws]
    split
    · norm_num
    · split <;> norm_num
  · have hcalls := calls_spec c badDraws 1 2 ⟨some 2, 0, 0⟩ (by intro b hb; injection hb with hb; simp only; omega)
    simp only [Nat.zero_add] at hcalls
    have h0 : point c badDraws 1 ⟨some 2, 0, 0⟩ = [3 / 10] := by simp [point, hk, badDraws]
    have h1 : point c badDraws 1 ⟨some 2, 1, 1⟩ = [6 / 10] := by simp [point, hk, badDraws]
    have h2 : point c badDraws 1 ⟨some 2, 0, 2⟩ = [1 / 10] := by simp [point, hk, badDraws]
    have hmake : Rescaler.make [[(3 / 10 : ℝ)], [6 / 10]] = some ⟨[3 / 10], [6 / 10], 1 / 1000000000000000⟩ := by
      unfold Rescaler.make
      have e : min (3 / 10 : ℝ) (min (1 - 6 / 10) (1 / 1000000000000000)) = 1 / 1000000000000000 := by
        rw [min_eq_right (by norm_num : (1 / 1000000000000000 : ℝ) ≤ 1 - 6 / 10), min_eq_right (by norm_num)]
      have m1 : min (3 / 10 : ℝ) (6 / 10) = 3 / 10 := min_eq_left (by norm_num)
      have m2 : max (3 / 10 : ℝ) (6 / 10) = 6 / 10 := max_eq_right (by norm_num)
      simp only [List.foldl_cons, List.foldl_nil, List.zipWith_cons_cons, List.zipWith_nil_left, List.map_cons, List.map_nil, List.cons_append, List.nil_append, List.foldr_cons, List.foldr_nil, m1, m2, e]
      rw [if_pos (by norm_num)]
    have hx : sampler c badDraws 1 (some 2) = some (⟨some 2, 0, 2⟩, some ⟨[3 / 10], [6 / 10], 1 / 1000000000000000⟩) := by
      unfold sampler
      simp only [Option.map_some, hr, hm, Bool.false_eq_true, if_false, Nat.sub_zero]
      rw [if_neg (by simp), if_neg (by simp [hsc])]
      simp only [if_true, hcalls, List.range_succ, List.range_zero, List.nil_append, List.map_append, List.map_cons, List.map_nil, h0, h1, List.cons_append, hmake]
      simp [reinitialize, hk]
    unfold ask
    simp only [hm, Bool.false_and, Bool.false_eq_true, if_false, St.init, hx]
    have hcall : call c badDraws 1 ⟨some 2, 0, 2⟩ = some ([1 / 10], ⟨some 2, 1, 3⟩) := by
      unfold call
      simp [h2]
    rw [hcall]
    simp only [scaleOf, ha]
    have : backward ppf (some c.scale) ((⟨[3 / 10], [6 / 10], 1 / 1000000000000000⟩ : Rescaler ℝ).apply [1 / 10]) = none := by
      unfold backward
      rw [if_pos]
      simp only [Rescaler.apply, List.zip_cons_cons, List.zip_nil_right, List.zipWith_cons_cons, List.zipWith_nil_left, List.any_cons, List.any_nil, Bool.or_false]
      unfold rescale
      rw [if_neg (by norm_num)]
      unfold outside
      rw [decide_eq_true_iff]
      right
      norm_num
    rw [this]
    rfl

/-! ### The scale -/

theorem backward_none (ppf : ℝ → ℝ) (y out : List (Option ℝ)) (h : backward ppf none y = some out) : ∀ v ∈ out, v = none := by
  unfold backward at h
  split at h
  · cases h
  · injection h with h
    subst h
    intro v hv
    rw [List.mem_map] at hv
    obtain ⟨w, -, rfl⟩ := hv
    cases w <;> rfl

/-- **C144, disagreement.** With `autorescale=True` in dimension one the scale is infinite and, whatever the sampler, no coordinate of its points is a number. -/
theorem auto_one (c : Conf) (D : Draws) (ppf : ℝ → ℝ) (ha : c.auto = .auto) (b k : Nat) (hk : c.middle = true → k ≠ 0) (smp : Option (Smp × Option (Rescaler ℝ)))
    (x : List (Option ℝ)) (st : St) (hask : ask c D ppf 1 (some b) ⟨k, smp⟩ = some (x, st)) : ∀ v ∈ x, v = none := by
  have hs : scaleOf c 1 (some b) = some none := by simp [scaleOf, ha]
  unfold ask at hask
  rw [if_neg (by
    intro hc'
    simp only [Bool.and_eq_true, beq_iff_eq] at hc'
    exact hk hc'.1 hc'.2)] at hask
  split at hask
  · cases hask
  · split at hask
    · cases hask
    · simp only [hs] at hask
      rw [Option.map_eq_some_iff] at hask
      obtain ⟨out, ho, he⟩ := hask
      injection he with he _
      subst he
      exact backward_none ppf _ out ho

/-- **C144.** The scale is positive in the other cases: a positive scale, `autorescale=True` from dimension two on, `"autotune"` from budget two on. With budget one `"autotune"` gives a scale of zero. -/
theorem scale_pos (c : Conf) (dim b : Nat) (hd : 0 < dim) (hb : 0 < b) :
    (c.auto = .off → 0 < c.scale → ∃ s, scaleOf c dim (some b) = some (some s) ∧ 0 < s) ∧
    (c.auto = .auto → 2 ≤ dim → ∃ s, scaleOf c dim (some b) = some (some s) ∧ 0 < s) ∧
    (c.auto = .autotune → 2 ≤ b → ∃ s, scaleOf c dim (some b) = some (some s) ∧ 0 < s) ∧
    (c.auto = .autotune → scaleOf c dim (some 1) = some (some 0)) := by
  refine ⟨fun h hs => ⟨c.scale, by simp [scaleOf, h], hs⟩, fun h h2 => ⟨_, by simp only [scaleOf, h, Option.map_some]; rw [if_neg (by omega)], ?_⟩,
    fun h h2 => ⟨Real.sqrt (Real.log b / dim), by simp only [scaleOf, h, Option.map_some], ?_⟩, fun h => by simp [scaleOf, h]⟩
  · have h1 : 0 ≤ Real.log (b : ℝ) := Real.log_nonneg (by exact_mod_cast hb)
    have h3 : 0 < Real.log (dim : ℝ) := Real.log_pos (by exact_mod_cast h2)
    positivity
  · have h1 : 0 < Real.log (b : ℝ) := Real.log_pos (by exact_mod_cast h2)
    have h3 : (0 : ℝ) < dim := by exact_mod_cast hd
    positivity

/-- A concrete case: Latin hypercubes of two points in one dimension with the standard normal distribution. -/
example : ∃ xs st, asks ⟨.lhs, false, true, .off, 3, false⟩ ⟨[], fun _ => [], [[1, 0]], fun _ _ => 1 / 2, fun _ _ => 1 / 2⟩ normPpf 1 (some 3) 3 St.init = some (xs, st) ∧ xs.length = 3 := by
  have h : Good ⟨.lhs, false, true, .off, 3, false⟩ ⟨[], fun _ => [], [[1, 0]], fun _ _ => 1 / 2, fun _ _ => 1 / 2⟩ 1 2 :=
    ⟨by simp, by simp, by intro p hp; rw [List.mem_singleton] at hp; subst hp; decide, by intro t k; norm_num, by intro t k; norm_num, by simp⟩
  obtain ⟨xs, st, h1, h2, -⟩ := lhs_quantiles normal_spec _ _ 1 2 (by omega) (by norm_num) h rfl rfl rfl 3 (by norm_num) rfl
  exact ⟨xs, st, h1, h2⟩

end Sampling
end NG
