import Verif.Model.ExtBo
import Mathlib.Data.Nat.Digits.Lemmas
import Mathlib.Tactic.Linarith
import Mathlib.Tactic.NormNum
import Mathlib.Tactic.Ring
import Mathlib.Algebra.Order.Group.Defs
import Mathlib.Algebra.Order.Group.Unbundled.Basic

/-!
# C95: what the Bayesian optimizers of other packages are told
-/

set_option linter.unusedSectionVars false

namespace NG
namespace ExtBo

/-! ## Names of variables are in the order of the variables -/

/-- The order of Python strings: code points, then length. -/
def Before : List Char → List Char → Prop
  | [], [] => False
  | [], _ :: _ => True
  | _ :: _, [] => False
  | a :: l, b :: m => a.toNat < b.toNat ∨ a = b ∧ Before l m

/-- The value of a text of digits. -/
def value : List Char → Nat
  | [] => 0
  | c :: l => (c.toNat - 48) * 10 ^ l.length + value l

theorem digit_toNat (d : Nat) (h : d < 10) : (digit d).toNat = 48 + d := by
  have : d = 0 ∨ d = 1 ∨ d = 2 ∨ d = 3 ∨ d = 4 ∨ d = 5 ∨ d = 6 ∨ d = 7 ∨ d = 8 ∨ d = 9 := by omega
  rcases this with h | h | h | h | h | h | h | h | h | h <;> subst h <;> decide

/-- Texts of digits. -/
def Digits (l : List Char) : Prop := ∀ c ∈ l, 48 ≤ c.toNat ∧ c.toNat ≤ 57

theorem value_lt (l : List Char) (h : Digits l) : value l < 10 ^ l.length := by
  induction l with
  | nil => simp [value]
  | cons c l ih =>
    have h1 := h c (by simp)
    have h2 := ih (fun c hc => h c (by simp [hc]))
    simp only [value, List.length_cons, pow_succ]
    have : (c.toNat - 48) * 10 ^ l.length ≤ 9 * 10 ^ l.length := Nat.mul_le_mul_right _ (by omega)
    omega

theorem before_of_value (l m : List Char) (hlen : l.length = m.length) (hl : Digits l) (hm : Digits m) (h : value l < value m) :
    Before l m := by
  induction l generalizing m with
  | nil =>
    cases m with
    | nil => simp [value] at h
    | cons b m => simp at hlen
  | cons a l ih =>
    cases m with
    | nil => simp at hlen
    | cons b m =>
      have hlen' : l.length = m.length := by simpa using hlen
      have ha := hl a (by simp)
      have hb := hm b (by simp)
      have hl' : Digits l := fun c hc => hl c (by simp [hc])
      have hm' : Digits m := fun c hc => hm c (by simp [hc])
      simp only [value, hlen'] at h
      have v1 := value_lt l hl'
      have v2 := value_lt m hm'
      rw [hlen'] at v1
      rcases Nat.lt_trichotomy a.toNat b.toNat with hab | hab | hab
      · exact Or.inl hab
      · refine Or.inr ⟨Char.toNat_inj.mp hab, ih m hlen' hl' hm' ?_⟩
        rw [hab] at h
        omega
      · exfalso
        have : (b.toNat - 48 + 1) * 10 ^ m.length ≤ (a.toNat - 48) * 10 ^ m.length := Nat.mul_le_mul_right _ (by omega)
        rw [Nat.add_mul] at this
        omega

theorem value_append (l m : List Char) : value (l ++ m) = value l * 10 ^ m.length + value m := by
  induction l with
  | nil => simp [value]
  | cons c l ih => simp only [List.cons_append, value, ih, List.length_append, pow_add]; ring

theorem value_str (n : Nat) : value (str n) = n ∧ Digits (str n) := by
  unfold str
  split
  · rename_i h; subst h; exact ⟨by decide, by intro c hc; simp at hc; subst hc; decide⟩
  · have key : ∀ l : List Nat, (∀ d ∈ l, d < 10) → value (l.reverse.map digit) = Nat.ofDigits 10 l := by
      intro l hl
      induction l with
      | nil => rfl
      | cons d l ih =>
        rw [List.reverse_cons, List.map_append, value_append, ih (fun d hd => hl d (by simp [hd])), Nat.ofDigits_cons]
        simp [value, digit_toNat d (hl d (by simp))]
        ring
    have hd : ∀ d ∈ Nat.digits 10 n, d < 10 := fun d hd => Nat.digits_lt_base (by decide) hd
    refine ⟨by rw [key _ hd, Nat.ofDigits_digits], ?_⟩
    intro c hc
    obtain ⟨d, hd', rfl⟩ := List.mem_map.mp hc
    have := hd d (by simpa using hd')
    rw [digit_toNat d this]
    omega

theorem value_replicate (k : Nat) : value (List.replicate k '0') = 0 := by
  induction k with
  | zero => rfl
  | succ k ih => simp [List.replicate_succ, value, ih]

theorem str_length (i n : Nat) (h : i ≤ n) : (str i).length ≤ (str n).length := by
  have h1 : 0 < (str n).length := by
    rw [List.length_pos_iff]
    unfold str
    split
    · simp
    · rename_i hn; simpa using Nat.digits_ne_nil_iff_ne_zero.mpr hn
  by_cases hi : i = 0
  · subst hi; exact h1
  · have hn : n ≠ 0 := by omega
    simp only [str, if_neg hi, if_neg hn, List.length_map, List.length_reverse]
    exact Nat.le_length_digits_le 10 i n h

/-- **C95.** The names of the variables are different and in the order of the variables, for any dimension. -/
theorem keys_ordered (dim i j : Nat) (hij : i < j) (hj : j < dim) : Before (key dim i) (key dim j) := by
  refine Or.inr ⟨rfl, ?_⟩
  have hi := value_str i
  have hj' := value_str j
  have li := str_length i dim (by omega)
  have lj := str_length j dim (by omega)
  have hz : ∀ k, Digits (List.replicate k '0') := by
    intro k c hc
    rw [List.eq_of_mem_replicate hc]
    decide
  apply before_of_value
  · simp [zfill]; omega
  · intro c hc
    rcases List.mem_append.mp hc with h | h
    · exact hz _ c h
    · exact hi.2 c h
  · intro c hc
    rcases List.mem_append.mp hc with h | h
    · exact hz _ c h
    · exact hj'.2 c h
  · unfold zfill
    rw [value_append, value_append, value_replicate, value_replicate, hi.1, hj'.1]
    omega

theorem before_irrefl (l : List Char) : ¬ Before l l := by
  induction l with
  | nil => simp [Before]
  | cons a l ih => simp [Before, ih]

theorem key_injective (dim i j : Nat) (hi : i < dim) (hj : j < dim) (h : key dim i = key dim j) : i = j := by
  rcases Nat.lt_trichotomy i j with hij | hij | hij
  · exact absurd (h ▸ keys_ordered dim i j hij hj) (before_irrefl _)
  · exact hij
  · exact absurd (h ▸ keys_ordered dim j i hij hi) (before_irrefl _)

example : (key 12 3, key 12 11) = ("x03".toList, "x11".toList) := by decide +kernel

/-- Without zero-filling the order would be wrong. -/
example : ¬ Before ('x' :: str 9) ('x' :: str 10) := by
  rw [show str 9 = ['9'] by decide +kernel, show str 10 = ['1', '0'] by decide +kernel]
  simp [Before]

/-! ## Values given to bayes_opt -/

section
variable {X L : Type} [DecidableEq X] [Neg L]

/-- Many tells; the point of each is the one which was probed. -/
def Bo.tells (s : Bo X L) (ts : List (X × L)) : Except Err (Bo X L) := ts.foldlM (fun s t => s.tell (some t.1) t.1 t.2) s

/-- The first loss told for a point. -/
def firstLoss (ts : List (X × L)) (x : X) : Option L := (ts.find? (fun t => decide (t.1 = x))).map Prod.snd

theorem tell_spec (s : Bo X L) (hs : s.reg = none) (x : X) (l : L) :
    s.tell (some x) x l = .ok { cache := if (s.cache.map Prod.fst).contains x then s.cache else s.cache ++ [(x, -l)], reg := none } := by
  unfold Bo.tell Bo.probe register call
  rw [hs]
  simp only [Option.getD_some]
  by_cases h : (s.cache.map Prod.fst).contains x
  · simp only [h, if_true]
  · simp only [h, if_false, Bool.false_eq_true, if_true]

/-- **C95.** Telling never fails, and bayes_opt has exactly the told points, each with the opposite of a loss which was told for it. (Disagreement: it is
the loss of the first evaluation of the point; later evaluations of the same point are lost.) -/
theorem bo_values (ts : List (X × L)) :
    ∃ s, Bo.tells ({} : Bo X L) ts = .ok s ∧ s.reg = none ∧ (s.cache.map Prod.fst).Nodup ∧
      ∀ x v, (x, v) ∈ s.cache ↔ ∃ l, firstLoss ts x = some l ∧ v = -l := by
  induction ts using List.reverseRecOn with
  | nil => exact ⟨{}, rfl, rfl, by simp, by simp [firstLoss]⟩
  | append_singleton ts t ih =>
    obtain ⟨s, hs, hr, hnd, hv⟩ := ih
    have hstep : Bo.tells ({} : Bo X L) (ts ++ [t]) = s.tell (some t.1) t.1 t.2 := by
      unfold Bo.tells at hs ⊢
      rw [List.foldlM_append, hs]
      simp [bind, Except.bind]
      cases s.tell (some t.1) t.1 t.2 <;> rfl
    rw [hstep, tell_spec s hr]
    have hmem : ∀ x, x ∈ s.cache.map Prod.fst ↔ (firstLoss ts x).isSome := by
      intro x
      constructor
      · intro h
        obtain ⟨⟨y, v⟩, h1, rfl⟩ := List.mem_map.mp h
        obtain ⟨l, hl, -⟩ := (hv y v).mp h1
        rw [hl]; rfl
      · intro h
        obtain ⟨l, hl⟩ := Option.isSome_iff_exists.mp h
        exact List.mem_map.mpr ⟨(x, -l), (hv x (-l)).mpr ⟨l, hl, rfl⟩, rfl⟩
    have hfl : ∀ x, firstLoss (ts ++ [t]) x = (firstLoss ts x).or (if t.1 = x then some t.2 else none) := by
      intro x
      unfold firstLoss
      rw [List.find?_append]
      cases ts.find? (fun t => decide (t.1 = x)) with
      | some y => rfl
      | none => by_cases h : t.1 = x <;> simp [h]
    refine ⟨_, rfl, rfl, ?_, ?_⟩
    · show (List.map Prod.fst (if _ then _ else _)).Nodup
      split
      · exact hnd
      · rename_i h
        rw [List.map_append, List.nodup_append]
        refine ⟨hnd, by simp, ?_⟩
        intro a ha b hb
        simp at hb
        subst hb
        rintro rfl
        exact h (by simpa using ha)
    · intro x v
      show (x, v) ∈ (if (List.map Prod.fst s.cache).contains t.1 = true then s.cache else s.cache ++ [(t.1, -t.2)]) ↔ _
      rw [hfl]
      split
      · rename_i h
        have h' : t.1 ∈ s.cache.map Prod.fst := by simpa using h
        rw [hv]
        by_cases hx : t.1 = x
        · subst hx
          obtain ⟨l, hl⟩ := Option.isSome_iff_exists.mp ((hmem t.1).mp h')
          rw [hl]
          rfl
        · simp [hx]
      · rename_i h
        have h' : t.1 ∉ s.cache.map Prod.fst := by simpa using h
        have hnone : firstLoss ts t.1 = none := by
          rw [← Option.not_isSome_iff_eq_none, ← hmem]
          exact h'
        rw [List.mem_append, hv]
        by_cases hx : t.1 = x
        · subst hx
          simp [hnone]
        · have : x ≠ t.1 := fun h => hx h.symm
          simp [hx, this]

/-- **C95 (disagreement).** A second evaluation of a point changes nothing. -/
theorem bo_second_lost (ts : List (X × L)) (x : X) (l l' : L) (h : (x, l) ∈ ts) :
    (Bo.tells ({} : Bo X L) (ts ++ [(x, l')])).toOption.map Bo.cache = (Bo.tells ({} : Bo X L) ts).toOption.map Bo.cache := by
  obtain ⟨s, hs, hr, hnd, hv⟩ := bo_values ts
  have hstep : Bo.tells ({} : Bo X L) (ts ++ [(x, l')]) = s.tell (some x) x l' := by
    unfold Bo.tells at hs ⊢
    rw [List.foldlM_append, hs]
    simp [bind, Except.bind]
    cases s.tell (some x) x l' <;> rfl
  have hf : (firstLoss ts x).isSome := by
    unfold firstLoss
    rw [Option.isSome_map, List.find?_isSome]
    exact ⟨_, h, by simp⟩
  obtain ⟨l₀, hl₀⟩ := Option.isSome_iff_exists.mp hf
  have hm : (s.cache.map Prod.fst).contains x = true := by
    simp only [List.contains_iff_mem, List.mem_map]
    exact ⟨(x, -l₀), (hv x (-l₀)).mpr ⟨l₀, hl₀, rfl⟩, rfl⟩
  rw [hstep, hs, tell_spec s hr, hm]
  rfl

/-- **C95.** An asked candidate is told at the point which the package proposed, another one at its normalized data. -/
theorem tell_point (s : Bo X L) (probe : Option X) (forward : X) (l : L) :
    (∀ x, probe = some x → s.tell probe forward l = s.tell (some x) x l) ∧
    (probe = none → s.tell probe forward l = s.tell (some forward) forward l) := by
  constructor
  · rintro x rfl; rfl
  · rintro rfl; rfl

/-- **C95.** A call which was not registered, a call at another point, and two registrations in a row are refused. -/
theorem fake_refuses (x y : X) (l l' : L) (h : x ≠ y) :
    call (none : Option (X × L)) x = .error .notRegistered ∧ call (some (x, l)) y = .error .mismatch ∧
    call (some (x, l)) x = .ok (l, none) ∧ register (some (x, l)) y l' = .error .registered := by
  refine ⟨rfl, ?_, ?_, rfl⟩
  · simp [call, Ne.symm h]
  · simp [call]

end

/-- **C95.** The point with the largest value of bayes_opt (the recommendation) is one whose first loss is the smallest. -/
theorem bo_recommends {X L : Type} [DecidableEq X] [AddCommGroup L] [LinearOrder L] [IsOrderedAddMonoid L] (ts : List (X × L)) (s : Bo X L)
    (hs : Bo.tells ({} : Bo X L) ts = .ok s) (x : X) (v : L) (hx : (x, v) ∈ s.cache) (hmax : ∀ y w, (y, w) ∈ s.cache → w ≤ v) :
    ∃ l, firstLoss ts x = some l ∧ ∀ y l', firstLoss ts y = some l' → l ≤ l' := by
  obtain ⟨s', hs', -, -, hv⟩ := bo_values ts
  have : s = s' := by rw [hs] at hs'; injection hs'
  subst this
  obtain ⟨l, hl, rfl⟩ := (hv x v).mp hx
  refine ⟨l, hl, fun y l' hy => ?_⟩
  exact neg_le_neg_iff.mp (hmax y (-l') ((hv y (-l')).mpr ⟨l', hy, rfl⟩))

example : (Bo.tells ({} : Bo Nat Int) [(3, 5), (4, 2), (3, 1)]).toOption.map Bo.cache = some [(3, -5), (4, -2)] := by decide +kernel

/-! ## Initial points -/

/-- **C95.** The number of initial points is the one asked for, or the square root of the budget, and at least two, with or without the middle
point, which comes first; without budget and number there is an error. -/
theorem design_spec {X : Type} (budget initBudget : Option Nat) (mid : Bool) (m : X) (init : Nat → Nat → X) :
    (initBudget = none → budget = none → design budget initBudget mid m init = .error .assertion) ∧
    (∀ k, initBudget = some k ∨ initBudget = none ∧ (∃ b, budget = some b ∧ k = Nat.sqrt b) →
      ∃ l, design budget initBudget mid m init = .ok l ∧ l.length = max 2 k ∧ (mid = true → l.head? = some m) ∧
        (mid = false → l = (List.range (max 2 k)).map (init (max 2 k)))) := by
  constructor
  · rintro rfl rfl; rfl
  · intro k hk
    have hd : design budget initBudget mid m init = .ok ((if mid then [m] else []) ++
        (List.range (if mid then max 2 k - 1 else max 2 k)).map (init (if mid then max 2 k - 1 else max 2 k))) := by
      rcases hk with rfl | ⟨rfl, b, rfl, rfl⟩ <;> rfl
    refine ⟨_, hd, ?_, ?_, ?_⟩
    · cases mid <;> simp
    · rintro rfl; rfl
    · rintro rfl; rfl

example : design (X := Nat) (some 30) none true 100 (fun n k => 10 * n + k) = .ok [100, 40, 41, 42, 43] := by decide +kernel

/-! ## Batches -/

section
variable {X L : Type} [DecidableEq X]

/-- The tells, in order. -/
def told : List (BOp X L) → List (X × L)
  | [] => []
  | .ask _ :: ops => told ops
  | .tell x l :: ops => (x, l) :: told ops

theorem told_append (ops : List (BOp X L)) (op : BOp X L) :
    told (ops ++ [op]) = told ops ++ (match op with | .ask _ => [] | .tell x l => [(x, l)]) := by
  induction ops with
  | nil => cases op <;> rfl
  | cons o ops ih => cases o <;> simp [told, ih]

/-- **C95.** Every told point is passed on to the package exactly once, in the order of the tells and with its loss, or is waiting; nothing is waiting
after a tell with an empty buffer. -/
theorem batch_spec (ops : List (BOp X L)) :
    let s := ops.foldl Batch.step ({} : Batch X L)
    s.passed.flatten ++ s.new = told ops ∧ (∀ x l, s.buffer = [] → (s.step (.tell x l)).new = []) := by
  refine ⟨?_, ?_⟩
  · induction ops using List.reverseRecOn with
    | nil => rfl
    | append_singleton ops op ih =>
      rw [List.foldl_append, told_append]
      simp only [List.foldl_cons, List.foldl_nil]
      generalize ops.foldl Batch.step ({} : Batch X L) = s at *
      cases op with
      | ask fresh =>
        simp only [Batch.step, Batch.ask, List.append_nil]
        rw [← ih]
        cases (if s.buffer = [] then fresh else s.buffer).getLast? <;> rfl
      | tell x l =>
        simp only [Batch.step, Batch.tell]
        by_cases h : s.buffer = []
        · simp [h, Except.toOption, ← ih]
        · simp [h, Except.toOption, ← ih]
  · intro x l h
    simp [Batch.step, Batch.tell, h, Except.toOption]

/-- The points of some asks in a row. -/
def Batch.asks (s : Batch X L) (fresh : List X) : Nat → List X × Batch X L
  | 0 => ([], s)
  | n + 1 => match s.ask fresh with
    | none => ([], s)
    | some (x, s') => (x :: (s'.asks fresh n).1, (s'.asks fresh n).2)

theorem asks_buffer (fresh b : List X) (s : Batch X L) (hs : s.buffer = b) :
    s.asks fresh b.length = (b.reverse, { s with buffer := [] }) := by
  induction b using List.reverseRecOn generalizing s with
  | nil => cases s; simp_all [Batch.asks]
  | append_singleton b x ih =>
    have h : s.ask fresh = some (x, { s with buffer := b }) := by
      simp [Batch.ask, hs]
    rw [List.length_append, List.length_singleton, Batch.asks, h]
    simp only
    rw [ih { s with buffer := b } rfl]
    simp

/-- **C95.** A batch of the package is proposed completely, each point once, from its last point to its first; then another batch is requested. -/
theorem batch_order (s : Batch X L) (fresh : List X) (hs : s.buffer = []) :
    s.asks fresh fresh.length = (fresh.reverse, { s with buffer := [] }) := by
  rcases List.eq_nil_or_concat' fresh with rfl | ⟨b, x, rfl⟩
  · cases s; simp_all [Batch.asks]
  · have h : s.ask (b ++ [x]) = some (x, { s with buffer := b }) := by
      simp [Batch.ask, hs]
    rw [List.length_append, List.length_singleton, Batch.asks, h]
    simp only
    rw [asks_buffer (b ++ [x]) b { s with buffer := b } rfl]
    simp

/-- **C95 (disagreement).** The last told points are never passed on when the run stops inside of a batch: with a batch of at least two points, telling
all but the last asked leaves everything waiting. -/
theorem batch_waits (x y : X) (b : List X) (l : L) :
    let s := [BOp.ask (b ++ [y, x]), .tell x l].foldl Batch.step ({} : Batch X L)
    s.passed = [] ∧ s.new = [(x, l)] := by
  have e : b ++ [y, x] = (b ++ [y]) ++ [x] := by simp
  rw [e]
  have h : ({} : Batch X L).ask ((b ++ [y]) ++ [x]) = some (x, { buffer := b ++ [y] }) := by simp [Batch.ask]
  simp only [List.foldl_cons, List.foldl_nil, Batch.step, h, Option.elim]
  simp [Batch.tell, Except.toOption]

/-- **C95 (disagreement).** A candidate without `x_probe` is not accepted: the branch for it cannot be reached. -/
theorem batch_not_asked (s : Batch X L) (l : L) : s.tell none l = .error .key := rfl

end

example : ([BOp.ask [1, 2, 3], .tell 3 30, .ask [], .tell 2 20, .ask [], .tell 1 10, .ask [7, 8], .tell 8 80].foldl Batch.step ({} : Batch Nat Nat)).passed =
    [[(3, 30), (2, 20), (1, 10)]] := by decide +kernel

/-- **C95.** The size of the design: the given one (5 by default), unless there are a proportion and a budget: the rounded product, 5 for budgets
below 10. -/
theorem doe_spec (factor : Bool) (round : Nat → Nat) (initBudget budget : Option Nat) :
    (factor = false ∨ budget = none → doe factor round initBudget budget = initBudget.getD 5) ∧
    (∀ b, factor = true → budget = some b → doe factor round initBudget budget = if b < 10 then 5 else round b) := by
  constructor
  · rintro (rfl | rfl)
    · rfl
    · cases factor <;> rfl
  · rintro b rfl rfl
    by_cases h : b < 10
    · simp [doe, h]
    · simp [doe, h]

/-! ## Trials of ax -/

/-- Suggested points among some asks. -/
def suggestions (ops : List AOp) : Nat := ops.count .suggested

/-- Candidates rejected during some asks. -/
def rejections : List AOp → Nat
  | [] => 0
  | .ask r :: ops => r + rejections ops
  | .suggested :: ops => rejections ops

theorem rejections_append (ops : List AOp) (op : AOp) : rejections (ops ++ [op]) = rejections ops + rejections [op] := by
  induction ops with
  | nil => simp [rejections]
  | cons o ops ih => cases o <;> simp [rejections, ih]; omega

theorem tries_spec (r n t : Nat) : tries r n t = (t + r, n + r) := by
  induction r generalizing n t with
  | zero => rfl
  | succ r ih => rw [tries, ih]; simp; omega

theorem ax_counts (ops : List AOp) :
    (Ax.run ops).numAsk = ops.length ∧ (Ax.run ops).trials + suggestions ops = ops.length + rejections ops := by
  induction ops using List.reverseRecOn with
  | nil => exact ⟨rfl, rfl⟩
  | append_singleton ops op ih =>
    have h : Ax.run (ops ++ [op]) = (Ax.run ops).step op := by simp [Ax.run]
    rw [h, rejections_append]
    obtain ⟨h1, h2⟩ := ih
    cases op with
    | ask r =>
      simp only [Ax.step, tries_spec, suggestions, rejections] at *
      simp
      omega
    | suggested =>
      simp only [Ax.step, suggestions, rejections] at *
      simp
      omega

/-- **C95.** The index told to ax for an asked candidate differs from its trial by the difference between rejected candidates and suggestions
before. -/
theorem ax_shift (ops : List AOp) (r : Nat) :
    ∃ t i, (Ax.run (ops ++ [.ask r])).given = (Ax.run ops).given ++ [(t, i)] ∧ i = ops.length + r ∧
      t + suggestions ops = i + rejections ops := by
  obtain ⟨h1, h2⟩ := ax_counts ops
  refine ⟨(Ax.run ops).trials + r, _, ?_, rfl, ?_⟩
  · have h : Ax.run (ops ++ [.ask r]) = (Ax.run ops).step (.ask r) := by simp [Ax.run]
    rw [h, Ax.step, tries_spec, h1]
  · omega

/-- **C95 (partial).** Without constraints and suggestions, every loss goes to the trial of the candidate, and every ask has a new trial. -/
theorem ax_trials_partial (n : Nat) : (Ax.run (List.replicate n (.ask 0))).given = (List.range n).map (fun k : Nat => (k, k)) := by
  induction n with
  | zero => rfl
  | succ n ih =>
    rw [List.replicate_succ']
    obtain ⟨t, i, h1, h2, h3⟩ := ax_shift (List.replicate n (.ask 0)) 0
    have hr : ∀ m, rejections (List.replicate m (.ask 0)) = 0 := by
      intro m
      induction m with
      | zero => rfl
      | succ m ih => simp [List.replicate_succ, rejections, ih]
    have hs : suggestions (List.replicate n (.ask 0)) = 0 := by
      simp [suggestions, List.count_replicate]
    rw [h1, ih, List.range_succ, List.map_append]
    rw [hr, hs] at h3
    simp at h2 h3
    simp
    omega

/-- **C95 (disagreement).** After any suggestion not balanced by rejected candidates, the loss of a candidate goes to a trial which does not exist yet; with
a rejected candidate, two different trials are told with the same index. -/
theorem ax_wrong_trial :
    (∀ ops t i, (Ax.run (ops ++ [.ask 0])).given = (Ax.run ops).given ++ [(t, i)] → rejections ops < suggestions ops → t < i) ∧
    ∀ ops : List AOp, ∃ t i t', (Ax.run (ops ++ [.ask 1] ++ [.ask 0])).given = (Ax.run ops).given ++ [(t, i), (t', i)] ∧ t ≠ t' := by
  constructor
  · intro ops t i h hlt
    obtain ⟨t', i', h1, h2, h3⟩ := ax_shift ops 0
    have : (t, i) = (t', i') := by simpa using h.symm.trans h1
    simp only [Prod.mk.injEq] at this
    omega
  · intro ops
    obtain ⟨t, i, h1, h2, h3⟩ := ax_shift ops 1
    obtain ⟨t', i', h1', h2', h3'⟩ := ax_shift (ops ++ [.ask 1]) 0
    refine ⟨t, i, t', ?_, ?_⟩
    · rw [h1', h1]
      have : i' = i := by simp at h2'; omega
      simp [this]
    · rw [rejections_append] at h3'
      simp [suggestions, rejections] at h2' h3 h3'
      omega

example : (Ax.run [.ask 0, .suggested, .ask 0, .ask 1, .ask 0]).given = [(0, 0), (1, 2), (3, 4), (4, 4)] := by decide +kernel

end ExtBo
end NG
