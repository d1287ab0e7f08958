import Verif.Model.Oneshot
import Mathlib.Tactic.Linarith
import Mathlib.Tactic.Positivity
import Mathlib.Tactic.FieldSimp
import Mathlib.Data.Rat.Floor
import Mathlib.Algebra.Order.BigOperators.Group.List
import Mathlib.Algebra.Order.Floor.Ring

/-! # C53: opposition-based sampling, C64: average of the best points -/

namespace NG
namespace Oneshot
variable {α ι : Type} [Field α]

/-- One point out of two is the opposite of the previous one, scaled by a factor satisfying `F`. -/
def Paired (F : α → Prop) : List (ι → α) → Prop
  | a :: b :: l => (∃ f, F f ∧ b = fun k => -(f * a k)) ∧ Paired F l
  | _ => True

/-- Factors of a mode: those of its draws. -/
def Factor (mode : Mode) (is : List (In α ι)) (f : α) : Prop := ∃ i ∈ is, f = factor mode i

theorem Paired.mono {F G : α → Prop} (h : ∀ f, F f → G f) : ∀ (l : List (ι → α)), Paired F l → Paired G l
  | [], _ => trivial
  | [_], _ => trivial
  | _ :: _ :: l, ⟨⟨f, hf, hb⟩, hl⟩ => ⟨⟨f, h f hf, hb⟩, Paired.mono h l hl⟩

theorem randomAsk_opp (mode : Mode) (hm : mode ≠ .off) (middle : Bool) (s : St α ι) (i : In α ι) (d : ι → α) (h : s.opposable = some d) :
    randomAsk mode middle s i = ({ s with opposable := none }, fun k => d k * -(factor mode i)) := by
  unfold randomAsk
  rw [h]
  cases mode
  · exact absurd rfl hm
  all_goals rfl

theorem randomAsk_fresh (mode : Mode) (middle : Bool) (s : St α ι) (i : In α ι) (h : s.opposable = none) :
    (randomAsk mode middle s i).1.opposable = some (randomAsk mode middle s i).2 := by
  unfold randomAsk
  rw [h]
  simp only
  split <;> rfl

theorem samplingAsk_opp (mode : Mode) (hm : mode ≠ .off) (middle : Bool) (s : St α ι) (i : In α ι) (hi : i.first = false) (d : ι → α)
    (h : s.opposable = some d) :
    samplingAsk mode middle s i = ({ s with opposable := none }, fun k => d k * -(factor mode i)) := by
  unfold samplingAsk
  rw [hi, h, Bool.and_false]
  cases mode
  · exact absurd rfl hm
  all_goals rfl

theorem samplingAsk_fresh (mode : Mode) (middle : Bool) (s : St α ι) (i : In α ι) (hi : i.first = false) (h : s.opposable = none) :
    samplingAsk mode middle s i = ({ opposable := some i.point, samples := s.samples + 1 }, i.point) := by
  unfold samplingAsk
  rw [hi, h, Bool.and_false]
  rfl

/-- **C53** (random search): for all draws and any number of calls, with or without middle point, the points come in pairs. -/
theorem random_paired (mode : Mode) (hm : mode ≠ .off) (middle : Bool) (s : St α ι) (hs : s.opposable = none) (is : List (In α ι)) :
    Paired (Factor mode is) (outputs (randomAsk mode middle) s is) := by
  match is with
  | [] => trivial
  | [_] => trivial
  | i :: j :: is =>
    have h1 := randomAsk_fresh mode middle s i hs
    have h2 := randomAsk_opp mode hm middle _ j _ h1
    simp only [outputs, h2, Paired]
    refine ⟨⟨factor mode j, ⟨j, by simp, rfl⟩, ?_⟩, ?_⟩
    · funext k; ring
    · apply Paired.mono _ _ (random_paired mode hm middle _ rfl is)
      rintro f ⟨x, hx, rfl⟩
      exact ⟨x, by simp [hx], rfl⟩

/-- **C53** (sampling search): the same for the calls after the first one, the first point being the middle when it is asked for. -/
theorem sampling_paired_partial (mode : Mode) (hm : mode ≠ .off) (middle : Bool) (s : St α ι) (hs : s.opposable = none) (is : List (In α ι))
    (hf : ∀ i ∈ is, i.first = false) : Paired (Factor mode is) (outputs (samplingAsk mode middle) s is) := by
  match is with
  | [] => trivial
  | [_] => trivial
  | i :: j :: is =>
    have h1 := samplingAsk_fresh mode middle s i (hf i (by simp)) hs
    have h2 := samplingAsk_opp mode hm middle { opposable := some i.point, samples := s.samples + 1 } j (hf j (by simp)) i.point rfl
    simp only [outputs, h1, h2, Paired]
    refine ⟨⟨factor mode j, ⟨j, by simp, rfl⟩, ?_⟩, ?_⟩
    · funext k; ring
    · apply Paired.mono _ _ (sampling_paired_partial mode hm middle _ rfl is (fun x hx => hf x (by simp [hx])))
      rintro f ⟨x, hx, rfl⟩
      exact ⟨x, by simp [hx], rfl⟩

/-- The middle point of a sampling search: the first ask returns it and leaves the rest unchanged. -/
theorem sampling_middle (mode : Mode) (s : St α ι) (i : In α ι) (hi : i.first = true) :
    samplingAsk mode true s i = (s, fun _ => 0) := by
  simp [samplingAsk, hi]

/-- Range of the factors: all modes shrink towards the center (not at all with "opposite"). -/
theorem factor_range [LinearOrder α] [IsStrictOrderedRing α] (mode : Mode) (i : In α ι) (hu : 0 ≤ i.u ∧ i.u ≤ 1) (he : 0 ≤ i.e ∧ i.e ≤ 1) :
    0 ≤ factor mode i ∧ factor mode i ≤ 1 ∧ (mode = .opposite → factor mode i = 1) := by
  cases mode
  · simp [factor]
  · exact ⟨hu.1, hu.2, by simp⟩
  · exact ⟨he.1, he.2, by simp⟩
  · simp [factor]

/-- C53: the number of points drawn from the sampler after `n` calls past the middle point: half of them, rounded up. -/
theorem sampling_used (mode : Mode) (hm : mode ≠ .off) (middle : Bool) (s : St α ι) (hs : s.opposable = none) (is : List (In α ι))
    (hf : ∀ i ∈ is, i.first = false) : (final (samplingAsk mode middle) s is).samples = s.samples + (is.length + 1) / 2 := by
  match is with
  | [] => simp [final]
  | [i] =>
    simp [final, samplingAsk_fresh mode middle s i (hf i (by simp)) hs]
  | i :: j :: is =>
    have h1 := samplingAsk_fresh mode middle s i (hf i (by simp)) hs
    have h2 := samplingAsk_opp mode hm middle { opposable := some i.point, samples := s.samples + 1 } j (hf j (by simp)) i.point rfl
    have := sampling_used mode hm middle { opposable := none, samples := s.samples + 1 } rfl is (fun x hx => hf x (by simp [hx]))
    simp only [final, List.foldl_cons, h1, h2, List.length_cons] at this ⊢
    rw [this]
    omega

theorem sampling_used_off (middle : Bool) (s : St α ι) (is : List (In α ι))
    (hf : ∀ i ∈ is, i.first = false) : (final (samplingAsk .off middle) s is).samples = s.samples + is.length := by
  induction is generalizing s with
  | nil => simp [final]
  | cons i is ih =>
    have h1 : samplingAsk .off middle s i = ({ opposable := some i.point, samples := s.samples + 1 }, i.point) := by
      unfold samplingAsk
      rw [hf i (by simp), Bool.and_false]
      cases s.opposable <;> rfl
    have := ih { opposable := some i.point, samples := s.samples + 1 } (fun x hx => hf x (by simp [hx]))
    simp only [final, List.foldl_cons, h1, List.length_cons] at this ⊢
    rw [this]
    omega

/-- **C53**: within the budget of the optimizer the sampler is not exhausted: as many calls as the budget draw at most as many
points as the sampler was created for, and exactly as many. -/
theorem sampling_within_budget (mode : Mode) (middle : Bool) (s : St α ι) (hs : s.opposable = none ∧ s.samples = 0)
    (first : In α ι) (h1 : first.first = true) (is : List (In α ι)) (hf : ∀ i ∈ is, i.first = false) (budget : Nat)
    (hb : is.length + 1 = budget) (hfm : middle = true) :
    (final (samplingAsk mode middle) s (first :: is)).samples = internalBudget mode middle budget := by
  subst hfm
  have : final (samplingAsk mode true) s (first :: is) = final (samplingAsk mode true) s is := by
    simp [final, sampling_middle mode s first h1]
  rw [this]
  unfold internalBudget
  by_cases hm : mode = .off
  · subst hm
    rw [sampling_used_off true s is hf, hs.2]
    simp
    omega
  · rw [sampling_used mode hm true s hs.1 is hf, hs.2]
    simp only [if_true, ne_eq, hm, not_false_eq_true, and_true]
    split <;> omega

/-- The same without middle point (the flag `first` has no effect). -/
theorem sampling_within_budget' (mode : Mode) (s : St α ι) (hs : s.opposable = none ∧ s.samples = 0)
    (is : List (In α ι)) (budget : Nat) (hb : is.length = budget) :
    (final (samplingAsk mode false) s is).samples = internalBudget mode false budget := by
  have nofirst : ∀ (s : St α ι) (i : In α ι), samplingAsk mode false s i = samplingAsk mode false s { i with first := false } := by
    intro s i
    simp [samplingAsk, factor]
  have hfin : ∀ (is : List (In α ι)) (s : St α ι), final (samplingAsk mode false) s is =
      final (samplingAsk mode false) s (is.map (fun i => { i with first := false })) := by
    intro is
    induction is with
    | nil => intro s; rfl
    | cons i is ih =>
      intro s
      have := ih (samplingAsk mode false s i).1
      simp only [final, List.foldl_cons, List.map_cons] at this ⊢
      rw [← nofirst s i, this]
  rw [hfin]
  unfold internalBudget
  by_cases hm : mode = .off
  · subst hm
    rw [sampling_used_off false s _ (by simp), hs.2]
    simp [hb]
  · rw [sampling_used mode hm false s hs.1 _ (by simp), hs.2]
    simp only [List.length_map, hb]
    simp [hm]
    intro h0; subst h0; rfl

/-! ## limits: pairs are pairs of internal points, not of the candidates received -/

/-- What the user receives: the points accepted by the constraints (`acc`). -/
def received (acc : (ι → α) → Bool) (l : List (ι → α)) : List (ι → α) := l.filter acc

/-- With a cheap constraint, the points received do not come in pairs: the opposite of a rejected point is sent, then a new point. -/
theorem constrained_not_paired : ∃ (is : List (In ℚ Unit)),
    ¬ Paired (fun _ => True) (received (fun x => decide (x () ≤ 2)) (outputs (randomAsk .opposite false) ⟨none, 0⟩ is)) := by
  refine ⟨[⟨false, fun _ => 3, 1, 1⟩, ⟨false, fun _ => 0, 1, 1⟩, ⟨false, fun _ => 0, 1, 1⟩, ⟨false, fun _ => 5, 1, 1⟩,
    ⟨false, fun _ => 1, 1, 1⟩], ?_⟩
  intro h
  have e : received (fun x => decide (x () ≤ 2)) (outputs (randomAsk .opposite false) ⟨none, 0⟩
      ([⟨false, fun _ => 3, 1, 1⟩, ⟨false, fun _ => 0, 1, 1⟩, ⟨false, fun _ => 0, 1, 1⟩, ⟨false, fun _ => 5, 1, 1⟩,
        ⟨false, fun _ => 1, 1, 1⟩] : List (In ℚ Unit))) = [fun _ => -3, fun _ => 0, fun _ => 0 * -1, fun _ => 1] := by
    norm_num [received, outputs, randomAsk, factor, List.filter_cons]
  rw [e] at h
  obtain ⟨_, ⟨f, _, hb⟩, _⟩ := h
  have := congrFun hb ()
  simp at this

/-- With `stupid`, a recommendation (187) takes the opposite point: the next ask is not the opposite of the previous one. -/
theorem stupid_recommendation_breaks : ∃ is : List (In ℚ Unit), ∃ a r b : Unit → ℚ,
    outputs (randomAsk .opposite false) ⟨none, 0⟩ is = [a, r, b] ∧ ¬ Paired (fun _ => True) [a, b] := by
  refine ⟨[⟨false, fun _ => 0, 1, 1⟩, ⟨false, fun _ => 0, 1, 1⟩, ⟨false, fun _ => 5, 1, 1⟩], fun _ => 0, fun _ => 0, fun _ => 5, ?_, ?_⟩
  · simp [outputs, randomAsk, factor]
  · rintro ⟨⟨f, _, hb⟩, _⟩
    have := congrFun hb ()
    simp at this

example : outputs (randomAsk .quasi true) ⟨none, 0⟩
    ([⟨true, fun _ => 9, 1, 1⟩, ⟨false, fun _ => 9, 1 / 2, 1⟩, ⟨false, fun _ => 4, 1, 1⟩, ⟨false, fun _ => 9, 1 / 2, 1⟩] : List (In ℚ Unit))
    = [fun _ => 0, fun _ => 0, fun _ => 4, fun _ => -2] := by
  simp [outputs, randomAsk, factor]
  norm_num

/-! ## C64 -/

section Avg
variable [LinearOrder α] [IsStrictOrderedRing α]

/-- At least one and at most all points of the archive are averaged. -/
theorem kBest_range [FloorRing α] (exp : Bool) (len dim : Nat) (h : 1 ≤ len) : 1 ≤ kBest (α := α) exp len dim ∧ kBest (α := α) exp len dim ≤ len := by
  unfold kBest
  simp only
  have hp : (1 : α) ≤ (11 / 10) ^ dim := one_le_pow₀ (by norm_num)
  have hfl : ⌊(len : α) / (11 / 10) ^ dim⌋ ≤ (len : Int) := by
    have h1 : (len : α) / (11 / 10) ^ dim ≤ len := div_le_self (by positivity) hp
    have := Int.floor_le ((len : α) / (11 / 10) ^ dim)
    have h2 : ((⌊(len : α) / (11 / 10) ^ dim⌋ : Int) : α) ≤ ((len : Int) : α) := by push_cast; linarith
    exact_mod_cast h2
  have hk : (if exp then max 1 ⌊(len : α) / (11 / 10) ^ dim⌋ else ((min (len / 4) dim : Nat) : Int)) ≤ len := by
    cases exp
    · simp only [Bool.false_eq_true, if_false]; omega
    · simp only [if_true]; exact max_le (by exact_mod_cast h) hfl
  generalize (if exp then max 1 ⌊(len : α) / (11 / 10) ^ dim⌋ else ((min (len / 4) dim : Nat) : Int)) = k at hk ⊢
  by_cases hlt : k < 1
  · rw [if_pos hlt]; exact ⟨le_refl _, h⟩
  · rw [if_neg hlt]; omega

omit [IsStrictOrderedRing α] in
/-- The default rule never averages more points than the dimension, except the one point of dimension 0. -/
theorem kBest_dim [FloorRing α] (len dim : Nat) (hd : 1 ≤ dim) : kBest (α := α) false len dim ≤ dim ∧ (4 ≤ len → 4 * kBest (α := α) false len dim ≤ len) := by
  unfold kBest
  simp only [Bool.false_eq_true, if_false]
  split <;> omega

omit [IsStrictOrderedRing α] in
theorem avg_members (k : Nat) (archive : List ((ι → α) × α)) (out : ι → α) (h : avgOfBest k archive = some out) :
    ∃ best rest : List ((ι → α) × α), (best ++ rest).Perm archive ∧ best.length = k ∧ (∀ a ∈ best, ∀ b ∈ rest, a.2 ≤ b.2) ∧
      out = fun i => (best.map (fun p => p.1 i)).sum / k := by
  unfold avgOfBest at h
  simp only at h
  split at h
  · rename_i hc
    set l := archive.mergeSort (fun a b => decide (a.2 ≤ b.2)) with hl
    refine ⟨l.take k, l.drop k, ?_, hc.1, ?_, (Option.some.inj h).symm⟩
    · rw [List.take_append_drop]; exact List.mergeSort_perm _ _
    · have hs : l.Pairwise (fun a b => decide (a.2 ≤ b.2) = true) :=
        List.pairwise_mergeSort (fun a b c h1 h2 => by simp only [decide_eq_true_eq] at *; exact le_trans h1 h2)
          (fun a b => by simp only [Bool.or_eq_true, decide_eq_true_eq]; exact le_total _ _) _
      rw [← List.take_append_drop k l, List.pairwise_append] at hs
      intro a ha b hb
      simpa using hs.2.2 a ha b hb
  · cases h

theorem sum_between {l : List α} {lo hi : α} (h : ∀ x ∈ l, lo ≤ x ∧ x ≤ hi) : l.length * lo ≤ l.sum ∧ l.sum ≤ l.length * hi := by
  induction l with
  | nil => simp
  | cons x l ih =>
    obtain ⟨h1, h2⟩ := ih (fun y hy => h y (List.mem_cons_of_mem _ hy))
    obtain ⟨h3, h4⟩ := h x List.mem_cons_self
    simp only [List.length_cons, List.sum_cons]
    push_cast
    constructor <;> linarith

/-- **C64.** The recommendation by averaging is the mean of `k` points of the archive which are no worse than all other ones, hence
it stays within any box (in particular the bounds of the data) containing these points. -/
theorem avg_spec (k : Nat) (hk : 1 ≤ k) (archive : List ((ι → α) × α)) (hlen : k ≤ archive.length) :
    ∃ (out : ι → α) (best rest : List ((ι → α) × α)), avgOfBest k archive = some out ∧ (best ++ rest).Perm archive ∧ best.length = k ∧
      (∀ a ∈ best, ∀ b ∈ rest, a.2 ≤ b.2) ∧ (∀ i, k * out i = (best.map (fun p => p.1 i)).sum) ∧
      ∀ i lo hi, (∀ p ∈ best, lo ≤ p.1 i ∧ p.1 i ≤ hi) → lo ≤ out i ∧ out i ≤ hi := by
  have hs : ∃ out, avgOfBest k archive = some out := by
    unfold avgOfBest
    have h1 : ((archive.mergeSort (fun a b => decide (a.2 ≤ b.2))).take k).length = k := by
      simp [hlen]
    have h2 : archive ≠ [] := by rintro rfl; simp at hlen; omega
    simp only
    rw [if_pos ⟨h1, h2⟩]
    exact ⟨_, rfl⟩
  obtain ⟨out, ho⟩ := hs
  obtain ⟨best, rest, hp, hl, hle, rfl⟩ := avg_members k archive out ho
  have hkp : (0 : α) < k := by exact_mod_cast hk
  refine ⟨_, best, rest, ho, hp, hl, hle, ?_, ?_⟩
  · intro i; field_simp
  · intro i lo hi hb
    have := sum_between (l := best.map (fun p => p.1 i)) (lo := lo) (hi := hi) (by
      intro x hx
      obtain ⟨p, hp, rfl⟩ := List.mem_map.mp hx
      exact hb p hp)
    rw [List.length_map, hl] at this
    constructor
    · rw [le_div_iff₀ hkp]; linarith [this.1]
    · rw [div_le_iff₀ hkp]; linarith [this.2]

/-- Two best of three points. -/
example : avgOfBest 2 [((fun _ => 5 : Unit → ℚ), (3 : ℚ)), (fun _ => 2, 1), (fun _ => 1, 2)] = some (fun _ => 3 / 2) := by
  have : ([((fun _ => 5 : Unit → ℚ), (3 : ℚ)), (fun _ => 2, 1), (fun _ => 1, 2)].mergeSort (fun a b => decide (a.2 ≤ b.2)))
      = [(fun _ => 2, 1), (fun _ => 1, 2), (fun _ => 5, 3)] := by
    simp [List.mergeSort, List.MergeSort.Internal.splitInTwo, List.merge]
    norm_num
  simp only [avgOfBest, this]
  simp
  norm_num
end Avg

end Oneshot
end NG
