import Verif.Model.Sequences
import Mathlib.Data.Nat.Prime.Nth
import Mathlib.Data.Nat.Prime.Basic
import Mathlib.Tactic.Linarith
import Mathlib.Analysis.Complex.ExponentialBounds

/-!
# C34: the bases of the Halton sequence are the first primes
-/

namespace NG
namespace Seq

theorem strike_length (a : List Bool) (i : ℕ) : (strike a i).length = a.length := by simp [strike]

theorem sieveStep_length (a : List Bool) (i : ℕ) : (sieveStep a i).length = a.length := by
  unfold sieveStep; split <;> simp [strike_length]

/-- Invariant of the sieve after the indices below `i`: a cell is still set when its index is at least 2 and has no
proper divisor from 2 to `i - 1`. -/
def SieveInv (size i : ℕ) (a : List Bool) : Prop :=
  a.length = size ∧ ∀ m < size, a.getD m false = true ↔ 2 ≤ m ∧ ∀ d, 2 ≤ d → d < i → d ∣ m → d = m

theorem getD_mapIdx (a : List Bool) (f : ℕ → Bool → Bool) (m : ℕ) (hm : m < a.length) :
    (a.mapIdx f).getD m false = f m (a.getD m false) := by
  rw [List.getD_eq_getElem _ _ (by simpa using hm), List.getD_eq_getElem _ _ hm]; simp

theorem sieve_step (size i : ℕ) (hi : i < size) (a : List Bool) (h : SieveInv size i a) : SieveInv size (i + 1) (sieveStep a i) := by
  obtain ⟨hl, ha⟩ := h
  refine ⟨by rw [sieveStep_length, hl], fun m hm => ?_⟩
  unfold sieveStep
  by_cases hai : a.getD i false = true
  · rw [if_pos hai]
    obtain ⟨hi2, hip⟩ := (ha i hi).mp hai
    unfold strike
    rw [getD_mapIdx _ _ _ (by omega)]
    have hmul : (i + i ≤ m ∧ (m - (i + i)) % i = 0) ↔ i ∣ m ∧ i + i ≤ m := by
      constructor
      · rintro ⟨h1, h2⟩
        refine ⟨?_, h1⟩
        have h3 := Nat.dvd_of_mod_eq_zero h2
        have h4 : i ∣ i + i := ⟨2, by ring⟩
        have := Nat.dvd_add h3 h4
        rwa [Nat.sub_add_cancel h1] at this
      · rintro ⟨h1, h2⟩
        exact ⟨h2, Nat.mod_eq_zero_of_dvd (Nat.dvd_sub h1 ⟨2, by ring⟩)⟩
    by_cases hc : i + i ≤ m ∧ (m - (i + i)) % i = 0
    · rw [if_pos hc]
      obtain ⟨h1, h2⟩ := hmul.mp hc
      simp only [Bool.false_eq_true, false_iff, not_and]
      intro _ hall
      have := hall i hi2 (by omega) h1
      omega
    · rw [if_neg hc, ha m hm]
      constructor
      · rintro ⟨h1, h2⟩
        refine ⟨h1, fun d hd hdi hdm => ?_⟩
        rcases Nat.lt_succ_iff_lt_or_eq.mp hdi with h3 | rfl
        · exact h2 d hd h3 hdm
        · by_contra hne
          apply hc
          apply hmul.mpr
          refine ⟨hdm, ?_⟩
          obtain ⟨c, rfl⟩ := hdm
          have : c ≠ 0 := by rintro rfl; omega
          have : c ≠ 1 := by rintro rfl; simp at hne
          have : 2 ≤ c := by omega
          nlinarith
      · rintro ⟨h1, h2⟩
        exact ⟨h1, fun d hd hdi hdm => h2 d hd (by omega) hdm⟩
  · rw [if_neg hai, ha m hm]
    constructor
    · rintro ⟨h1, h2⟩
      refine ⟨h1, fun d hd hdi hdm => ?_⟩
      rcases Nat.lt_succ_iff_lt_or_eq.mp hdi with h3 | rfl
      · exact h2 d hd h3 hdm
      · -- `d` is not prime: one of its divisors divides `m`
        have hnot : ¬ (2 ≤ d ∧ ∀ e, 2 ≤ e → e < d → e ∣ d → e = d) := fun hc => hai ((ha d hi).mpr hc)
        have : ∃ e, 2 ≤ e ∧ e < d ∧ e ∣ d := by
          by_contra hc
          push Not at hc
          exact hnot ⟨hd, fun e he hed hdv => absurd hdv (hc e he hed)⟩
        obtain ⟨e, he, hed, hdv⟩ := this
        have := h2 e he hed (dvd_trans hdv hdm)
        have := Nat.le_of_dvd (by omega) hdm
        omega
    · rintro ⟨h1, h2⟩
      exact ⟨h1, fun d hd hdi hdm => h2 d hd (by omega) hdm⟩

theorem sieve_loop (size k : ℕ) (hk : k ≤ size) (a : List Bool) (h : SieveInv size 0 a) :
    SieveInv size k ((List.range k).foldl sieveStep a) := by
  induction k with
  | zero => exact h
  | succ k ih =>
    rw [List.range_succ, List.foldl_append]
    exact sieve_step size k (by omega) _ (ih (by omega))

/-- The sieve marks exactly the primes. -/
theorem sieve_prime (size : ℕ) (hs : 3 ≤ size) :
    (sieve size).length = size ∧ ∀ m < size, (sieve size).getD m false = true ↔ m.Prime := by
  have hsq : 1 + Nat.sqrt size ≤ size := by
    have h1 := Nat.sqrt_lt_self (show 1 < size by omega)
    omega
  have h0 : SieveInv size 0 ((List.replicate size true).mapIdx (fun m b => if m = 0 ∨ m = 1 then false else b)) := by
    refine ⟨by simp, fun m hm => ?_⟩
    rw [getD_mapIdx _ _ _ (by simpa using hm)]
    by_cases h : m = 0 ∨ m = 1
    · rw [if_pos h]; simp; omega
    · rw [if_neg h]
      rw [List.getD_eq_getElem _ _ (by simpa using hm)]
      simp; omega
  obtain ⟨hl, h⟩ := sieve_loop size _ hsq _ h0
  refine ⟨hl, fun m hm => ?_⟩
  have : (sieve size).getD m false = true ↔ _ := h m hm
  rw [this]
  constructor
  · rintro ⟨h2, hd⟩
    rw [Nat.prime_def_le_sqrt]
    refine ⟨h2, fun d hd2 hdsq hdm => ?_⟩
    have hle : Nat.sqrt m ≤ Nat.sqrt size := Nat.sqrt_le_sqrt hm.le
    have := hd d hd2 (by omega) hdm
    subst this
    have := Nat.sqrt_lt_self (show 1 < d by omega)
    omega
  · intro hp
    refine ⟨hp.two_le, fun d hd _ hdm => ?_⟩
    rcases (Nat.dvd_prime hp).mp hdm with h1 | h1
    · omega
    · exact h1

theorem whereTrue_sieve (size : ℕ) (hs : 3 ≤ size) : whereTrue (sieve size) = (List.range size).filter (fun m => decide m.Prime) := by
  obtain ⟨hl, h⟩ := sieve_prime size hs
  unfold whereTrue
  rw [hl]
  apply List.filter_congr
  intro m hm
  have := h m (by simpa using hm)
  by_cases hp : m.Prime
  · rw [this.mpr hp, decide_eq_true hp]
  · have : (sieve size).getD m false = false := by
      rw [← Bool.not_eq_true]; exact fun hc => hp (this.mp hc)
    rw [this, decide_eq_false hp]

theorem filter_range_nth (size : ℕ) :
    (List.range size).filter (fun m => decide m.Prime) = (List.range (Nat.count Nat.Prime size)).map (Nat.nth Nat.Prime) := by
  induction size with
  | zero => simp
  | succ n ih =>
    rw [List.range_succ, List.filter_append, ih, Nat.count_succ]
    by_cases hp : n.Prime
    · rw [if_pos hp, List.range_succ, List.map_append]
      simp [hp, Nat.nth_count hp]
    · simp [hp]

theorem small_primes (num : ℕ) (h : num < 6) : [2, 3, 5, 7, 11].take num = (List.range num).map (Nat.nth Nat.Prime) := by
  have e : [2, 3, 5, 7, 11] = (List.range 5).map (Nat.nth Nat.Prime) := by
    have := filter_range_nth 12
    have hc : Nat.count Nat.Prime 12 = 5 := by decide +kernel
    rw [hc] at this
    rw [← this]
    decide +kernel
  rw [e, ← List.map_take, List.take_range, min_eq_left (by omega)]

theorem primeBound_ge (num : ℕ) (h : 6 ≤ num) : 7 ≤ primeBound num := by
  unfold primeBound
  apply Nat.le_floor
  have hn : (6 : ℝ) ≤ num := by exact_mod_cast h
  have h1 : 1 ≤ Real.log num := by
    rw [Real.le_log_iff_exp_le (by linarith)]
    have := Real.exp_one_lt_d9
    linarith
  have h2 : 0 ≤ Real.log (Real.log num) := Real.log_nonneg h1
  have h3 : (6 : ℝ) * 1 ≤ num * (Real.log (Real.log num) + Real.log num) := by
    apply mul_le_mul hn _ (by norm_num) (by linarith)
    linarith
  push_cast; linarith

theorem firstPrimesOf_spec (size num : ℕ) (hs : 3 ≤ size) :
    firstPrimesOf size num =
      if 6 ≤ num ∧ size ≤ Nat.nth Nat.Prime (num - 1) then none else some ((List.range num).map (Nat.nth Nat.Prime)) := by
  unfold firstPrimesOf
  by_cases h6 : num < 6
  · rw [if_pos h6, if_neg (by omega), small_primes num h6]
  · rw [if_neg h6, whereTrue_sieve size hs, filter_range_nth]
    simp only [List.length_map, List.length_range]
    have hiff : Nat.count Nat.Prime size < num ↔ size ≤ Nat.nth Nat.Prime (num - 1) := by
      have h2 : Nat.count Nat.Prime (Nat.nth Nat.Prime (num - 1) + 1) = num - 1 + 1 := (Nat.count_nth_succ_of_infinite Nat.infinite_setOfPred_prime (num - 1))
      constructor
      · intro h
        by_contra hc
        push Not at hc
        have := Nat.count_monotone Nat.Prime (show Nat.nth Nat.Prime (num - 1) + 1 ≤ size from hc)
        omega
      · intro h
        have := Nat.count_monotone Nat.Prime h
        rw [Nat.count_nth_of_infinite Nat.infinite_setOfPred_prime] at this
        omega
    by_cases hc : Nat.count Nat.Prime size < num
    · rw [if_pos hc, if_pos ⟨by omega, hiff.mp hc⟩]
    · rw [if_neg hc, if_neg (fun h => hc (hiff.mpr h.2)), ← List.map_take, List.take_range, min_eq_left (by omega)]

/-- **C34**, partial: when the function returns, it returns the first primes in order, one per dimension; it raises
exactly when the `num`-th prime does not fit in the array. Missing: that it always fits, which is Rosser's bound
`p_n ≤ n (log n + log log n)` on the primes. -/
theorem firstPrimes_partial (num : ℕ) :
    (∀ l, firstPrimes num = some l → l = (List.range num).map (Nat.nth Nat.Prime)) ∧
    (firstPrimes num = none ↔ 6 ≤ num ∧ primeBound num ≤ Nat.nth Nat.Prime (num - 1)) := by
  unfold firstPrimes
  by_cases h6 : num < 6
  · have : firstPrimesOf (primeBound num) num = some ((List.range num).map (Nat.nth Nat.Prime)) := by
      unfold firstPrimesOf; rw [if_pos h6, small_primes num h6]
    rw [this]
    exact ⟨fun l h => by simpa using h.symm, by simp; omega⟩
  · rw [firstPrimesOf_spec _ _ (le_trans (by norm_num) (primeBound_ge num (by omega)))]
    split
    · rename_i h; simp [h]
    · rename_i h
      refine ⟨fun l h => by simpa using h.symm, by simp at h ⊢; exact h⟩

/-- The numbers returned are prime, increasing, and none is skipped. -/
theorem firstPrimes_listed (num : ℕ) (l : List ℕ) (h : firstPrimes num = some l) :
    l.length = num ∧ l.Pairwise (· < ·) ∧ (∀ p ∈ l, p.Prime) ∧ ∀ p ∈ l, ∀ q, q.Prime → q < p → q ∈ l := by
  rw [(firstPrimes_partial num).1 l h]
  have hmono := Nat.nth_strictMono Nat.infinite_setOfPred_prime
  refine ⟨by simp, ?_, ?_, ?_⟩
  · rw [List.pairwise_map]
    exact List.pairwise_lt_range.imp (fun hab => hmono hab)
  · intro p hp
    obtain ⟨i, _, rfl⟩ := List.mem_map.mp hp
    exact Nat.nth_mem_of_infinite Nat.infinite_setOfPred_prime i
  · intro p hp q hq hqp
    obtain ⟨i, hi, rfl⟩ := List.mem_map.mp hp
    have hi : i < num := by simpa using hi
    refine List.mem_map.mpr ⟨Nat.count Nat.Prime q, ?_, Nat.nth_count hq⟩
    have : Nat.count Nat.Prime q < i + 1 := by
      have := Nat.count_strict_mono hq hqp
      rw [Nat.count_nth_of_infinite Nat.infinite_setOfPred_prime] at this
      omega
    simp; omega

/-- Seven primes from an array of size 20. -/
example : firstPrimesOf 20 7 = some [2, 3, 5, 7, 11, 13, 17] := by decide +kernel

end Seq
end NG
