import Verif.Model.Bounds
import Verif.Props.IntModulo
import Mathlib.Tactic.Linarith
import Mathlib.Tactic.Ring
import Mathlib.Tactic.FieldSimp
import Mathlib.Tactic.NormNum

/-!
# C88: bounds and scales of data parameters
-/

namespace NG
namespace Bnd

noncomputable section
open Classical

/-! ## Bounds hold for the value -/

/-- The formula written with operators on a parameter, the last operation first. -/
def formula : List Op → Num → Num
  | [], x => x
  | o :: os, x => (formula os x).bind o.fwd

theorem clip_inside (lo hi : Option ℝ) (h : ∀ l u, lo = some l → hi = some u → l ≤ u) (x : ℝ) : Inside lo hi (clip lo hi x) := by
  constructor
  · rintro l rfl
    cases hi with
    | none => exact le_max_right _ _
    | some u => exact le_min (le_max_right _ _) (h l u rfl rfl)
  · rintro u rfl
    exact min_le_right _ _

theorem clip_of_inside (lo hi : Option ℝ) (x : ℝ) (h : Inside lo hi x) : clip lo hi x = x := by
  cases lo with
  | none => cases hi with
    | none => rfl
    | some u => exact min_eq_left (h.2 u rfl)
  | some l =>
    have h1 := h.1 l rfl
    cases hi with
    | none => exact max_eq_left h1
    | some u =>
      have h2 := h.2 u rfl
      simp only [clip, max_eq_left h1, min_eq_left h2]

theorem bound_inside (lo hi : Option ℝ) (h : ∀ l u, lo = some l → hi = some u → l ≤ u) (m : Method) (hm : m ≠ .constraint) (u l : Bool) (x : Num) (y : ℝ)
    (e : (Lay.bound lo hi m u l).fwd x = some y) : Inside lo hi y := by
  cases x with
  | none => simp [Lay.fwd] at e
  | some x =>
    cases m with
    | constraint => exact absurd rfl hm
    | clip =>
      simp only [Lay.fwd] at e
      split_ifs at e with hi'
      · cases e; exact hi'
      · cases e; exact clip_inside lo hi h x
    | bounce =>
      simp only [Lay.fwd] at e
      split_ifs at e with hi'
      · cases e; exact hi'
      · cases e; exact clip_inside lo hi h _

/-- Operations on top act on the value read below. -/
theorem get_ops (ops : List (Op × Bool)) (ls : List Lay) (r : Num) :
    get (ops.map (fun o => Lay.op o.1 o.2) ++ ls) r = (get ls r).map (fun p => (formula (ops.map Prod.fst) p.1, p.2)) := by
  induction ops with
  | nil => simp [formula]
  | cons o os ih =>
    simp only [List.map_cons, List.cons_append, get, ih, Lay.refresh, Bool.false_eq_true, false_and, if_false]
    cases get ls r with
    | none => rfl
    | some p =>
      simp only [Option.map_some, Option.bind_some, formula]
      cases formula (os.map Prod.fst) p.1 <;> rfl

/-- The property `bounds` is the formula at the bounds of the last layer with bounds. -/
theorem bounds_ops (ops : List (Op × Bool)) (lo hi : Option ℝ) (m : Method) (u l : Bool) (ls : List Lay) :
    bounds (ops.map (fun o => Lay.op o.1 o.2) ++ .bound lo hi m u l :: ls) =
      (lo.map (fun x => formula (ops.map Prod.fst) (some x)), hi.map (fun x => formula (ops.map Prod.fst) (some x))) := by
  induction ops with
  | nil => simp [bounds, formula]
  | cons o os ih =>
    simp only [List.map_cons, List.cons_append, bounds, ih]
    have : ∀ x : ℝ, (Lay.op o.1 o.2).fwd (formula (os.map Prod.fst) (some x)) = formula (o.1 :: os.map Prod.fst) (some x) := by
      intro x
      simp only [formula]
      cases formula (os.map Prod.fst) (some x) <;> rfl
    cases lo <;> cases hi <;> simp [this]

/-- No bounds are announced without a layer with bounds. -/
theorem bounds_none (ops : List (Op × Bool)) : bounds (ops.map (fun o => Lay.op o.1 o.2)) = (none, none) := by
  induction ops with
  | nil => rfl
  | cons o os ih => simp only [List.map_cons, bounds, ih, Option.map_none]

/-- Every value is the formula at a number within the bounds of the layer. -/
theorem value_spec (ops : List (Op × Bool)) (lo hi : Option ℝ) (h : ∀ l u, lo = some l → hi = some u → l ≤ u) (m : Method) (hm : m ≠ .constraint) (u l : Bool) (ls : List Lay) (p : P)
    (hl : p.layers = ops.map (fun o => Lay.op o.1 o.2) ++ .bound lo hi m u l :: ls) (v : ℝ) (p' : P) (hr : p.read = some (some v, p')) :
    ∃ w, Inside lo hi w ∧ formula (ops.map Prod.fst) (some w) = some v := by
  simp only [P.read, hl, get_ops, Option.map_map, Option.map_eq_some_iff, Function.comp] at hr
  obtain ⟨⟨a, b⟩, h1, h2⟩ := hr
  simp only [Prod.mk.injEq] at h2
  cases a with
  | none =>
    exfalso
    have : ∀ os : List Op, formula os none = none := by intro os; induction os with
      | nil => rfl
      | cons o os ih => simp [formula, ih]
    rw [this] at h2
    exact absurd h2.1 (by simp)
  | some w =>
    refine ⟨w, ?_, h2.1⟩
    simp only [get, Option.bind_eq_some_iff] at h1
    obtain ⟨q, _, h1⟩ := h1
    have : (Lay.bound lo hi m u l).fwd q.1 = some w := by
      split_ifs at h1 with hc
      · simp only [Option.map_eq_some_iff] at h1
        obtain ⟨_, _, h1⟩ := h1
        exact congrArg Prod.fst h1
      · simp only [Option.some.injEq] at h1
        exact congrArg Prod.fst h1
    exact bound_inside lo hi h m hm u l q.1 w this

/-- A formula which does not decrease (`x ≤ y` gives results in the same order) within bounds. -/
def Rises (f : Num → Num) (lo hi : Option ℝ) : Prop :=
  ∀ x y a b, Inside lo hi x → Inside lo hi y → x ≤ y → f (some x) = some a → f (some y) = some b → a ≤ b

/-- C88, partial: if the formula does not decrease, the value lies between the numbers returned by `bounds`. -/
theorem value_within_partial (ops : List (Op × Bool)) (lo hi : Option ℝ) (h : ∀ l u, lo = some l → hi = some u → l ≤ u) (m : Method) (hm : m ≠ .constraint) (u l : Bool) (ls : List Lay) (p : P)
    (hl : p.layers = ops.map (fun o => Lay.op o.1 o.2) ++ .bound lo hi m u l :: ls) (hf : Rises (formula (ops.map Prod.fst)) lo hi)
    (v : ℝ) (p' : P) (hr : p.read = some (some v, p')) :
    (∀ a, (bounds p.layers).1 = some (some a) → a ≤ v) ∧ (∀ b, (bounds p.layers).2 = some (some b) → v ≤ b) := by
  obtain ⟨w, hw, he⟩ := value_spec ops lo hi h m hm u l ls p hl v p' hr
  rw [hl, bounds_ops]
  constructor
  · intro a ha
    cases lo with
    | none => simp at ha
    | some x =>
      simp only [Option.map_some, Option.some.injEq] at ha
      exact hf x w a v ⟨fun l hl' => by cases hl'; exact le_refl _, fun u' hu' => h x u' rfl hu'⟩ hw (hw.1 x rfl) ha he
  · intro b hb
    cases hi with
    | none => simp at hb
    | some y =>
      simp only [Option.map_some, Option.some.injEq] at hb
      exact hf w y v b hw ⟨fun l' hl' => h l' y hl' rfl, fun u hu => by cases hu; exact le_refl _⟩ (hw.2 y rfl) he hb

/-- A formula which does not increase gives the bounds in the wrong order. -/
theorem value_reversed (ops : List (Op × Bool)) (lo hi : Option ℝ) (h : ∀ l u, lo = some l → hi = some u → l ≤ u) (m : Method) (hm : m ≠ .constraint) (u l : Bool) (ls : List Lay) (p : P)
    (hl : p.layers = ops.map (fun o => Lay.op o.1 o.2) ++ .bound lo hi m u l :: ls) (hf : Rises (fun x => (formula (ops.map Prod.fst) x).map Neg.neg) lo hi)
    (v : ℝ) (p' : P) (hr : p.read = some (some v, p')) :
    (∀ a, (bounds p.layers).1 = some (some a) → v ≤ a) ∧ (∀ b, (bounds p.layers).2 = some (some b) → b ≤ v) := by
  obtain ⟨w, hw, he⟩ := value_spec ops lo hi h m hm u l ls p hl v p' hr
  rw [hl, bounds_ops]
  constructor
  · intro a ha
    cases lo with
    | none => simp at ha
    | some x =>
      simp only [Option.map_some, Option.some.injEq] at ha
      have := hf x w (-a) (-v) ⟨fun l hl' => by cases hl'; exact le_refl _, fun u' hu' => h x u' rfl hu'⟩ hw (hw.1 x rfl) (by simp [ha]) (by simp [he])
      linarith
  · intro b hb
    cases hi with
    | none => simp at hb
    | some y =>
      simp only [Option.map_some, Option.some.injEq] at hb
      have := hf w y (-v) (-b) hw ⟨fun l' hl' => h l' y hl' rfl, fun u hu => by cases hu; exact le_refl _⟩ (hw.2 y rfl) (by simp [he]) (by simp [hb])
      linarith

/-- Operations which never decrease: additions, products with numbers which are not negative, exponentials of a base which is at least 1. -/
def Rising : Op → Prop
  | .add _ => True
  | .mul c => 0 ≤ c
  | .exp b => 1 ≤ b
  | .pow _ => False

theorem rising_op (o : Op) (ho : Rising o) (x y a b : ℝ) (hxy : x ≤ y) (hx : o.fwd x = some a) (hy : o.fwd y = some b) : a ≤ b := by
  cases o with
  | add c => simp only [Op.fwd, Option.some.injEq] at hx hy; linarith
  | mul c =>
    simp only [Op.fwd, Option.some.injEq] at hx hy
    rw [← hx, ← hy]
    exact mul_le_mul_of_nonneg_left hxy ho
  | exp c =>
    simp only [Op.fwd, Option.some.injEq] at hx hy
    rw [← hx, ← hy]
    exact Real.rpow_le_rpow_of_exponent_le ho hxy
  | pow p => exact absurd ho (by simp [Rising])

theorem rises_ops (os : List Op) (h : ∀ o ∈ os, Rising o) (lo hi : Option ℝ) : Rises (formula os) lo hi := by
  have : ∀ x y a b : ℝ, x ≤ y → formula os (some x) = some a → formula os (some y) = some b → a ≤ b := by
    induction os with
    | nil => intro x y a b hxy hx hy; simp only [formula, Option.some.injEq] at hx hy; linarith
    | cons o os ih =>
      intro x y a b hxy hx hy
      simp only [formula, Option.bind_eq_some_iff] at hx hy
      obtain ⟨a', ha', hx⟩ := hx
      obtain ⟨b', hb', hy⟩ := hy
      exact rising_op o (h o (by simp)) a' b' a b (ih (fun o ho => h o (by simp [ho])) x y a' b' hxy ha' hb') hx hy
  exact fun x y a b _ _ => this x y a b

theorem power_nonneg (x p a : ℝ) (hx : 0 ≤ x) (h : power x p = some a) : a = x ^ p ∧ (x = 0 → 0 ≤ p) := by
  unfold power at h
  split_ifs at h with h1 h2 h3 h4
  · cases h; exact ⟨rfl, fun e => absurd e h1.ne'⟩
  · cases h; exact ⟨rfl, fun _ => not_lt.1 h3⟩
  · exact absurd (lt_of_le_of_ne hx (Ne.symm h2)) h1

/-- Positive powers do not decrease for variables with a lower bound which is not negative. -/
theorem rises_pow (p : ℝ) (hp : 0 ≤ p) (l : ℝ) (hl : 0 ≤ l) (hi : Option ℝ) : Rises (formula [.pow p]) (some l) hi := by
  intro x y a b hx hy hxy h1 h2
  have hx0 : 0 ≤ x := le_trans hl (hx.1 l rfl)
  simp only [formula, Option.bind_some] at h1 h2
  rw [(power_nonneg x p a hx0 h1).1, (power_nonneg y p b (le_trans hx0 hxy) h2).1]
  exact Real.rpow_le_rpow hx0 hxy hp

/-- Inverses, written `c / parameter`, do not increase for positive variables: their bounds are reversed. -/
theorem falls_inverse (l : ℝ) (hl : 0 < l) (hi : Option ℝ) : Rises (fun x => (formula [.pow (-1)] x).map Neg.neg) (some l) hi := by
  intro x y a b hx hy hxy h1 h2
  have hx0 : 0 < x := lt_of_lt_of_le hl (hx.1 l rfl)
  have hy0 : 0 < y := lt_of_lt_of_le hx0 hxy
  simp only [formula, Option.bind_some, Op.fwd, power, hx0, hy0, if_true, Option.map_some, Option.some.injEq] at h1 h2
  rw [← h1, ← h2, Real.rpow_neg_one, Real.rpow_neg_one]
  exact neg_le_neg (inv_anti₀ hx0 hxy)

/-- `2 * x + 1` rises, so its value is between the numbers announced. -/
example (lo hi : Option ℝ) : Rises (formula [.add 1, .mul 2]) lo hi := rises_ops _ (by simp [Rising]) lo hi

/-- `2 ** (3 * x)` at 1. -/
example : formula [.exp 2, .mul 3] (some 1) = some 8 := by
  have : (2 : ℝ) ^ ((3 : ℝ) * 1) = 8 := by rw [show (3 : ℝ) * 1 = ((3 : ℕ) : ℝ) by norm_num, Real.rpow_natCast]; norm_num
  simp [formula, Op.fwd] at this ⊢
  exact this

/-! ## What the constructors build -/

@[simp] theorem legacy_op (o : Op) (l : Bool) : (Lay.op o l).legacy = l := rfl
@[simp] theorem legacy_bound (lo hi : Option ℝ) (m : Method) (u l : Bool) : (Lay.bound lo hi m u l).legacy = l := rfl

theorem inside_iff (l h x : ℝ) : Inside (some l) (some h) x ↔ l ≤ x ∧ x ≤ h :=
  ⟨fun H => ⟨H.1 l rfl, H.2 h rfl⟩, fun H => ⟨fun y hy => by cases hy; exact H.1, fun y hy => by cases hy; exact H.2⟩⟩

theorem mk_both (l h : ℝ) (hlt : l < h) (full : Option Bool) : mkBound (some l) (some h) full = some (full.getD true) := by
  simp only [mkBound]
  rw [if_neg (by simp), if_neg (by rintro ⟨a, b, ⟨rfl⟩, ⟨rfl⟩, hc⟩; linarith)]
  simp

theorem mk_reversed (l h : ℝ) (hle : h ≤ l) (full : Option Bool) : mkBound (some l) (some h) full = none := by
  simp only [mkBound]
  rw [if_neg (by simp), if_pos ⟨l, h, rfl, rfl, hle⟩]

/-- Bounds set on a plain parameter with a value within them. -/
theorem setBounds_first (l h v s : ℝ) (hlt : l < h) (hv : l ≤ v ∧ v ≤ h) (full : Option Bool) :
    setBounds ⟨some v, s, []⟩ (some l) (some h) .bounce full = (⟨some v, s, [.bound (some l) (some h) .bounce (full.getD true) true]⟩, none) := by
  simp [setBounds, P.read, get, mk_both l h hlt, callBound, P.assign, set, Lay.bwd, inside_iff, hv, hlt.le, fixLegacy, List.filter]

theorem scalar_bounded (l h : ℝ) (hlt : l < h) :
    scalar none (some l) (some h) = (⟨some ((l + h) / 2), (h - l) / 6, [.bound (some l) (some h) .bounce true true]⟩, none) := by
  have := setBounds_first l h ((l + h) / 2) ((h - l) / 6) hlt ⟨by linarith, by linarith⟩ (some true)
  simpa [scalar] using this

/-- A scalar given with an initial value within the bounds does not sample over the full range. -/
theorem scalar_init (x l h : ℝ) (hlt : l < h) (hx : l ≤ x ∧ x ≤ h) :
    scalar (some x) (some l) (some h) = (⟨some x, (h - l) / 6, [.bound (some l) (some h) .bounce false true]⟩, none) := by
  have := setBounds_first l h x ((h - l) / 6) hlt hx (some false)
  simpa [scalar] using this

/-- Without bounds. -/
theorem scalar_free (init : Option ℝ) : scalar init none none = (⟨some (init.getD 0), 1, []⟩, none) := by
  cases init <;> simp [scalar]

theorem read_one (lo hi : Option ℝ) (u l : Bool) (x s : ℝ) (hx : Inside lo hi x) :
    P.read ⟨some x, s, [.bound lo hi .bounce u l]⟩ = some (some x, ⟨some x, s, [.bound lo hi .bounce u l]⟩) := by
  simp [P.read, get, Lay.fwd, hx]

/-- C88: the bounds of a scalar or of an entry of an array lie three standard deviations below and above the middle, and steps up to three are not modified by the bounds. -/
theorem scalar_scale (l h : ℝ) (hlt : l < h) (x : ℝ) (hx : |x| ≤ 3) :
    ∃ p', (scalar none (some l) (some h)).1.setStd x = some (some ((l + h) / 2 + (h - l) / 6 * x), p') := by
  have hs : (h - l) / 6 ≠ 0 := by intro e; apply hlt.ne; linarith
  have e : (h - l) / 6 * (x + (l + h) / 2 / ((h - l) / 6)) = (l + h) / 2 + (h - l) / 6 * x := by rw [mul_add, mul_div_cancel₀ _ hs]; ring
  have hx' := abs_le.1 hx
  rw [scalar_bounded l h hlt]
  simp only [P.setStd, Option.map_some, e]
  refine ⟨_, read_one _ _ _ _ _ _ ⟨fun y hy => ?_, fun y hy => ?_⟩⟩
  · cases hy; nlinarith [hx'.1]
  · cases hy; nlinarith [hx'.2]

/-- In particular the bounds themselves are reached. -/
theorem scalar_ends (l h : ℝ) (hlt : l < h) :
    (∃ p', (scalar none (some l) (some h)).1.setStd (-3) = some (some l, p')) ∧ (∃ p', (scalar none (some l) (some h)).1.setStd 3 = some (some h, p')) := by
  obtain ⟨p1, h1⟩ := scalar_scale l h hlt (-3) (by norm_num)
  obtain ⟨p2, h2⟩ := scalar_scale l h hlt 3 (by norm_num)
  refine ⟨⟨p1, ?_⟩, ⟨p2, ?_⟩⟩
  · rw [h1]; congr 3; ring
  · rw [h2]; congr 3; ring

/-- `bounds` returns the bounds given to the constructor. -/
theorem scalar_bounds (init : Option ℝ) (l h : ℝ) (hlt : l < h) (hx : ∀ x, init = some x → l ≤ x ∧ x ≤ h) :
    bounds (scalar init (some l) (some h)).1.layers = (some (some l), some (some h)) := by
  cases init with
  | none => rw [scalar_bounded l h hlt]; rfl
  | some x => rw [scalar_init x l h hlt (hx x rfl)]; rfl

/-- An array with both bounds has the same scale as a scalar, but it never samples over the full range, even without an initial value. -/
theorem array_never_full (init : Option ℝ) (l h : ℝ) (hlt : l < h) (hx : ∀ x, init = some x → l ≤ x ∧ x ≤ h) :
    array init (some l) (some h) = (⟨some (init.getD ((l + h) / 2)), (h - l) / 6, [.bound (some l) (some h) .bounce false false]⟩, none) := by
  have hm : l ≤ (l + h) / 2 ∧ (l + h) / 2 ≤ h := ⟨by linarith, by linarith⟩
  cases init with
  | none => simp [array, P.read, get, mk_both l h hlt, hlt.le, callBound, P.assign, set, Lay.bwd, inside_iff, hm]
  | some x => simp [array, P.read, get, mk_both l h hlt, hlt.le, callBound, P.assign, set, Lay.bwd, inside_iff, hx x rfl]

/-- Lower bounds which are not smaller than upper bounds are refused, and so are initial values beyond the bounds. -/
theorem scalar_refused (init : Option ℝ) (l h : ℝ) (hb : h ≤ l ∨ ∃ x, init = some x ∧ (x < l ∨ h < x)) : (scalar init (some l) (some h)).2 = some .value := by
  by_cases hle : h ≤ l
  · simp [scalar, setBounds, P.read, get, mk_reversed l h hle]
  · obtain ⟨x, rfl, hx⟩ := hb.resolve_left hle
    have : ¬ (l ≤ x ∧ x ≤ h) := by
      rintro ⟨h1, h2⟩
      rcases hx with hx | hx <;> linarith
    simp [scalar, setBounds, P.read, get, mk_both l h (not_le.1 hle), callBound, P.assign, set, Lay.bwd, inside_iff, this]

/-- One standard deviation above the middle of [0, 12]. -/
example : ∃ p', (scalar none (some 0) (some 12)).1.setStd 1 = some (some 8, p') := by
  obtain ⟨p', h⟩ := scalar_scale 0 12 (by norm_num) 1 (by norm_num)
  exact ⟨p', by rw [h]; norm_num⟩

/-! ## Logarithmic scale -/

theorem log_bounded (l h : ℝ) (hl : 0 < l) (hlt : l < h) :
    ∃ base : ℝ, 1 < base ∧ Real.log base = (Real.log h - Real.log l) / 6 ∧
      log none none (some l) (some h) =
        (⟨some (Real.log (Real.sqrt (l * h)) / Real.log base), 1, [.op (.exp base) false, .bound (some (Real.log l / Real.log base)) (some (Real.log h / Real.log base)) .bounce true false]⟩, none) := by
  have hh : 0 < h := hl.trans hlt
  have hd : 0 < (Real.log h - Real.log l) / 6 := by have := Real.log_lt_log hl hlt; linarith
  refine ⟨Real.exp ((Real.log h - Real.log l) / 6), Real.one_lt_exp_iff.2 hd, Real.log_exp _, ?_⟩
  have hmid : Real.log (Real.sqrt (l * h)) = (Real.log l + Real.log h) / 2 := by
    rw [Real.log_sqrt (mul_pos hl hh).le, Real.log_mul hl.ne' hh.ne']
  have hin : ∀ x, Real.log l ≤ x → x ≤ Real.log h → Inside (some (Real.log l / ((Real.log h - Real.log l) / 6))) (some (Real.log h / ((Real.log h - Real.log l) / 6))) (x / ((Real.log h - Real.log l) / 6)) :=
    fun x h1 h2 => ⟨fun y hy => by cases hy; exact div_le_div_of_nonneg_right h1 hd.le, fun y hy => by cases hy; exact div_le_div_of_nonneg_right h2 hd.le⟩
  have hll := Real.log_lt_log hl hlt
  have hm := hin (Real.log (Real.sqrt (l * h))) (by rw [hmid]; linarith) (by rw [hmid]; linarith)
  have h1 := hin (Real.log l) (le_refl _) hll.le
  have h2 := hin (Real.log h) hll.le (le_refl _)
  have hsq : 0 < Real.sqrt (l * h) := Real.sqrt_pos.2 (mul_pos hl hh)
  have hnot : ¬ (Real.log h / ((Real.log h - Real.log l) / 6) ≤ Real.log l / ((Real.log h - Real.log l) / 6)) := not_le.2 (div_lt_div_of_pos_right hll hd)
  have hpos : ¬ Real.exp ((Real.log h - Real.log l) / 6) ≤ 0 := not_le.2 (Real.exp_pos _)
  have hmk := mk_both _ _ (not_le.1 hnot) (some true)
  rw [Option.getD_some] at hmk
  show logWith (Real.sqrt (l * h)) (Real.exp ((Real.log h - Real.log l) / 6)) (some l) (some h) true = _
  rw [logWith, if_neg hpos]
  simp only [Option.map_some, Real.log_exp, Op.bwd, hsq, if_true, Option.isSome_some, Bool.or_self, hmk, callBound, P.read, get, P.assign, set, Lay.bwd, hm, Option.bind_some, h1, h2, and_self]

/-- C88: a logarithmic variable starts at the geometric mean of its bounds, a standardized step multiplies it by the sixth root of their ratio, so that they are three
standard deviations away; steps up to three are not modified by the bounds. -/
theorem log_scale (l h : ℝ) (hl : 0 < l) (hlt : l < h) (x : ℝ) (hx : |x| ≤ 3) :
    ∃ p', (log none none (some l) (some h)).1.setStd x = some (some (Real.sqrt (l * h) * (h / l) ^ (x / 6)), p') := by
  obtain ⟨base, hb, hlog, he⟩ := log_bounded l h hl hlt
  have hh : 0 < h := hl.trans hlt
  have hd : 0 < Real.log base := Real.log_pos hb
  have hmid : Real.log (Real.sqrt (l * h)) = (Real.log l + Real.log h) / 2 := by
    rw [Real.log_sqrt (mul_pos hl hh).le, Real.log_mul hl.ne' hh.ne']
  have hx' := abs_le.1 hx
  have hin : Inside (some (Real.log l / Real.log base)) (some (Real.log h / Real.log base)) (x + Real.log (Real.sqrt (l * h)) / Real.log base) := by
    have e1 : x + Real.log (Real.sqrt (l * h)) / Real.log base - Real.log l / Real.log base = x + 3 := by
      rw [hmid]; field_simp; linarith
    have e2 : Real.log h / Real.log base - (x + Real.log (Real.sqrt (l * h)) / Real.log base) = 3 - x := by
      rw [hmid]; field_simp; linarith
    exact ⟨fun y hy => by cases hy; linarith, fun y hy => by cases hy; linarith⟩
  have hval : base ^ (x + Real.log (Real.sqrt (l * h)) / Real.log base) = Real.sqrt (l * h) * (h / l) ^ (x / 6) := by
    have hb0 : 0 < base := by linarith
    rw [Real.rpow_def_of_pos hb0, Real.rpow_def_of_pos (div_pos hh hl), Real.log_div hh.ne' hl.ne']
    have : Real.log base * (x + Real.log (Real.sqrt (l * h)) / Real.log base) = Real.log (Real.sqrt (l * h)) + (Real.log h - Real.log l) * (x / 6) := by
      field_simp; rw [hlog]; ring
    rw [this, Real.exp_add, Real.exp_log (Real.sqrt_pos.2 (mul_pos hl hh))]
  rw [he]
  simp only [P.setStd, P.read, Option.map_some, div_one, one_mul, get, Option.bind_some, Lay.fwd, hin, if_true, ne_eq, not_true, and_false, if_false, Lay.refresh, Bool.false_eq_true, false_and, Op.fwd, hval]
  exact ⟨_, rfl⟩

/-- In particular the bounds themselves are reached. -/
theorem log_ends (l h : ℝ) (hl : 0 < l) (hlt : l < h) :
    (∃ p', (log none none (some l) (some h)).1.setStd (-3) = some (some l, p')) ∧ (∃ p', (log none none (some l) (some h)).1.setStd 3 = some (some h, p')) := by
  have hh : 0 < h := hl.trans hlt
  obtain ⟨p1, h1⟩ := log_scale l h hl hlt (-3) (by norm_num)
  obtain ⟨p2, h2⟩ := log_scale l h hl hlt 3 (by norm_num)
  have e2 : Real.sqrt (l * h) * (h / l) ^ ((3 : ℝ) / 6) = h := by
    have : (3 : ℝ) / 6 = 1 / 2 := by norm_num
    rw [this, ← Real.sqrt_eq_rpow, ← Real.sqrt_mul (mul_pos hl hh).le, show l * h * (h / l) = h ^ 2 by field_simp, Real.sqrt_sq hh.le]
  have e1 : Real.sqrt (l * h) * (h / l) ^ ((-3 : ℝ) / 6) = l := by
    have : (-3 : ℝ) / 6 = -(1 / 2) := by norm_num
    rw [this, Real.rpow_neg (div_pos hh hl).le, ← Real.inv_rpow (div_pos hh hl).le, inv_div, ← Real.sqrt_eq_rpow, ← Real.sqrt_mul (mul_pos hl hh).le, show l * h * (l / h) = l ^ 2 by field_simp, Real.sqrt_sq hl.le]
  exact ⟨⟨p1, by rw [h1, e1]⟩, ⟨p2, by rw [h2, e2]⟩⟩

theorem exp_log_base (base v : ℝ) (hb : 0 < base) (hb1 : base ≠ 1) (hv : 0 < v) : base ^ (Real.log v / Real.log base) = v := by
  have : Real.log base ≠ 0 := by
    intro e
    rcases Real.log_eq_zero.1 e with e | e | e
    · linarith
    · exact hb1 e
    · linarith
  rw [Real.rpow_def_of_pos hb, mul_div_cancel₀ _ this, Real.exp_log hv]

/-- `bounds` returns the bounds given to the constructor of a logarithmic variable. -/
theorem log_bounds (l h : ℝ) (hl : 0 < l) (hlt : l < h) : bounds (log none none (some l) (some h)).1.layers = (some (some l), some (some h)) := by
  obtain ⟨base, hb, _, he⟩ := log_bounded l h hl hlt
  rw [he]
  simp only [bounds, Option.map_some, Lay.fwd, Op.fwd]
  rw [exp_log_base base l (by linarith) hb.ne' hl, exp_log_base base h (by linarith) hb.ne' (hl.trans hlt)]

/-- Between 1 and 10^6 a step of one multiplies by ten, starting from 1000. -/
example : ∃ p', (log none none (some 1) (some 1000000)).1.setStd 1 = some (some 10000, p') := by
  obtain ⟨p', h⟩ := log_scale 1 1000000 (by norm_num) (by norm_num) 1 (by norm_num)
  refine ⟨p', ?_⟩
  rw [h]
  have e1 : Real.sqrt (1 * 1000000) = 1000 := by rw [show (1 * 1000000 : ℝ) = 1000 ^ 2 by norm_num]; exact Real.sqrt_sq (by norm_num)
  have e2 : ((1000000 : ℝ) / 1) ^ ((1 : ℝ) / 6) = 10 := by
    rw [show (1000000 : ℝ) / 1 = 10 ^ (6 : ℕ) by norm_num, show (1 : ℝ) / 6 = ((6 : ℕ) : ℝ)⁻¹ by norm_num]
    exact Real.pow_rpow_inv_natCast (by norm_num) (by norm_num)
  rw [e1, e2]
  norm_num

/-! ## Sampling over the full range -/

/-- C88: with full range sampling, the draw `t` of [0, 1) gives the value at that fraction of the bounds: uniform for scalars. -/
theorem scalar_sample (l h : ℝ) (hlt : l < h) (t : ℝ) (h0 : 0 ≤ t) (h1 : t ≤ 1) (mutated : Num) :
    ∃ p', (scalar none (some l) (some h)).1.sample t mutated = some (some (l + t * (h - l)), p') := by
  rw [scalar_bounded l h hlt]
  have e : (h - l) * t + l = l + t * (h - l) := by ring
  have hin : Inside (some l) (some h) (l + t * (h - l)) := ⟨fun y hy => by cases hy; nlinarith, fun y hy => by cases hy; nlinarith⟩
  simp only [P.sample, sample, set, e, Lay.bwd, hin, if_true, Option.bind_some]
  exact ⟨_, read_one _ _ _ _ _ _ hin⟩

/-- C88: and log-uniform for logarithmic variables. -/
theorem log_sample (l h : ℝ) (hl : 0 < l) (hlt : l < h) (t : ℝ) (h0 : 0 ≤ t) (h1 : t ≤ 1) (mutated : Num) :
    ∃ p', (log none none (some l) (some h)).1.sample t mutated = some (some (l ^ (1 - t) * h ^ t), p') := by
  obtain ⟨base, hb, hlog, he⟩ := log_bounded l h hl hlt
  have hh : 0 < h := hl.trans hlt
  have hd : 0 < Real.log base := Real.log_pos hb
  have hb0 : 0 < base := by linarith
  rw [he]
  set a := Real.log l / Real.log base with ha
  set b := Real.log h / Real.log base with hb'
  have hab : a ≤ b := div_le_div_of_nonneg_right (Real.log_le_log hl hlt.le) hd.le
  have hin : Inside (some a) (some b) ((b - a) * t + a) := ⟨fun y hy => by cases hy; nlinarith, fun y hy => by cases hy; nlinarith⟩
  have hval : base ^ ((b - a) * t + a) = l ^ (1 - t) * h ^ t := by
    rw [Real.rpow_def_of_pos hb0, Real.rpow_def_of_pos hl, Real.rpow_def_of_pos hh, ← Real.exp_add]
    congr 1
    rw [ha, hb']
    field_simp
    ring
  simp only [P.sample, sample, set, Lay.bwd, hin, if_true, Option.bind_some, P.read, get, Lay.fwd, ne_eq, not_true, and_false, if_false, Lay.refresh, Bool.false_eq_true, false_and, Op.fwd, hval, Option.map_some]
  exact ⟨_, rfl⟩

/-- An array with both bounds is sampled by a mutation, whatever the draw. -/
theorem array_sample (init : Option ℝ) (l h : ℝ) (hlt : l < h) (hx : ∀ x, init = some x → l ≤ x ∧ x ≤ h) (t t' : ℝ) (mutated : Num) :
    (array init (some l) (some h)).1.sample t mutated = (array init (some l) (some h)).1.sample t' mutated := by
  rw [array_never_full init l h hlt hx]
  rfl

/-- The middle draw between 1 and 100 gives 10 in logarithmic scale. -/
example : ∃ p', (log none none (some 1) (some 100)).1.sample (1 / 2) none = some (some 10, p') := by
  obtain ⟨p', h⟩ := log_sample 1 100 (by norm_num) (by norm_num) (1 / 2) (by norm_num) (by norm_num) none
  refine ⟨p', ?_⟩
  rw [h, Real.one_rpow, ← Real.sqrt_eq_rpow, show (100 : ℝ) = 10 ^ 2 by norm_num, Real.sqrt_sq (by norm_num)]
  norm_num

/-! ## Bounds and exponents set afterwards -/

theorem legacy_both (e l h v s : ℝ) (he : 1 < e) (hl : 0 < l) (hlt : l < h) (hv : l ≤ v ∧ v ≤ h) (full : Option Bool) :
    let q : P := ⟨some (Real.log v / Real.log e), s, [.op (.exp e) true, .bound (some (Real.log l / Real.log e)) (some (Real.log h / Real.log e)) .bounce (full.getD true) false]⟩
    setExponent (setBounds ⟨some v, s, []⟩ (some l) (some h) .bounce full).1 e = (q, none) ∧
      setBounds (setExponent ⟨some v, s, []⟩ e).1 (some l) (some h) .bounce full = (q, none) := by
  have hd : 0 < Real.log e := Real.log_pos he
  have he0 : 0 < e := by linarith
  have hh : 0 < h := hl.trans hlt
  have hv0 : 0 < v := lt_of_lt_of_le hl hv.1
  have hin : ∀ x, l ≤ x → x ≤ h → Inside (some l) (some h) x := fun x h1 h2 => ⟨fun y hy => by cases hy; exact h1, fun y hy => by cases hy; exact h2⟩
  have hin' : ∀ x, l ≤ x → x ≤ h → Inside (some (Real.log l / Real.log e)) (some (Real.log h / Real.log e)) (Real.log x / Real.log e) := fun x h1 h2 =>
    ⟨fun y hy => by cases hy; exact div_le_div_of_nonneg_right (Real.log_le_log hl h1) hd.le, fun y hy => by cases hy; exact div_le_div_of_nonneg_right (Real.log_le_log (lt_of_lt_of_le hl h1) h2) hd.le⟩
  have hv1 := hin v hv.1 hv.2
  have hl1 := hin l (le_refl _) hlt.le
  have hh1 := hin h hlt.le (le_refl _)
  have hv2 := hin' v hv.1 hv.2
  have hmk1 := mk_both l h hlt full
  have hmk2 := mk_both (Real.log l / Real.log e) (Real.log h / Real.log e) (div_lt_div_of_pos_right (Real.log_lt_log hl hlt) hd) (some (full.getD true))
  rw [Option.getD_some] at hmk2
  have hee := exp_log_base e v he0 he.ne' hv0
  have hfirst := setBounds_first l h v s hlt hv full
  have hsecond : setExponent ⟨some v, s, []⟩ e = (⟨some (Real.log v / Real.log e), s, [.op (.exp e) true]⟩, none) := by
    simp [setExponent, not_le.2 he0, P.read, get, P.assign, set, Lay.bwd, Op.bwd, hv0, fixLegacy, List.filter]
  refine ⟨?_, ?_⟩
  · rw [hfirst]
    simp [setExponent, not_le.2 he0, P.read, get, P.assign, set, Lay.fwd, Lay.bwd, Op.bwd, hv0, hv1, hv2, fixLegacy, List.filter, List.dropWhile, backBounds, rebuild, hmk2, Lay.refresh]
  · rw [hsecond]
    have hl2 := hl
    simp [setBounds, hmk1, callBound, P.read, get, P.assign, set, Lay.fwd, Lay.bwd, Op.bwd, Op.fwd, hv0, hv1, hv2, hl1, hh1, hl, hh, hee, fixLegacy, List.filter, List.dropWhile, backBounds, rebuild, hmk2, Lay.refresh]

/-- C88: bounds and an exponent above 1 can be set in any order: the parameter is the same, its value is kept, and `bounds` returns the bounds. -/
theorem legacy_order (e l h v s : ℝ) (he : 1 < e) (hl : 0 < l) (hlt : l < h) (hv : l ≤ v ∧ v ≤ h) (full : Option Bool) :
    setExponent (setBounds ⟨some v, s, []⟩ (some l) (some h) .bounce full).1 e = setBounds (setExponent ⟨some v, s, []⟩ e).1 (some l) (some h) .bounce full ∧
      (setExponent (setBounds ⟨some v, s, []⟩ (some l) (some h) .bounce full).1 e).2 = none ∧
      (∃ p', (setExponent (setBounds ⟨some v, s, []⟩ (some l) (some h) .bounce full).1 e).1.read = some (some v, p')) ∧
      bounds (setExponent (setBounds ⟨some v, s, []⟩ (some l) (some h) .bounce full).1 e).1.layers = (some (some l), some (some h)) := by
  obtain ⟨h1, h2⟩ := legacy_both e l h v s he hl hlt hv full
  have he0 : 0 < e := by linarith
  have hd : 0 < Real.log e := Real.log_pos he
  have hv0 : 0 < v := lt_of_lt_of_le hl hv.1
  have hin : Inside (some (Real.log l / Real.log e)) (some (Real.log h / Real.log e)) (Real.log v / Real.log e) :=
    ⟨fun y hy => by cases hy; exact div_le_div_of_nonneg_right (Real.log_le_log hl hv.1) hd.le, fun y hy => by cases hy; exact div_le_div_of_nonneg_right (Real.log_le_log hv0 hv.2) hd.le⟩
  rw [h2, h1]
  refine ⟨rfl, rfl, ?_, ?_⟩
  · simp only [P.read, get, Option.bind_some, Lay.fwd, hin, if_true, ne_eq, not_true, and_false, if_false, Lay.refresh, Bool.false_eq_true, false_and, Op.fwd, Option.map_some, exp_log_base e v he0 he.ne' hv0]
    exact ⟨_, rfl⟩
  · simp only [bounds, Option.map_some, Lay.fwd, Op.fwd]
    rw [exp_log_base e l he0 he.ne' hl, exp_log_base e h he0 he.ne' (hl.trans hlt)]

/-- Not so for the exponents below 1, which are allowed: with both bounds an exception is raised and the parameter has lost its bounds. -/
theorem small_exponent (e l h v s : ℝ) (he : 0 < e) (he1 : e < 1) (hl : 0 < l) (hlt : l < h) (hv : l ≤ v ∧ v ≤ h) (full : Option Bool) :
    (setExponent (setBounds ⟨some v, s, []⟩ (some l) (some h) .bounce full).1 e).2 = some .value ∧
      (setExponent (setBounds ⟨some v, s, []⟩ (some l) (some h) .bounce full).1 e).1.layers = [] := by
  have hd : Real.log e < 0 := Real.log_neg he he1
  have hin : ∀ x, l ≤ x → x ≤ h → Inside (some l) (some h) x := fun x h1 h2 => ⟨fun y hy => by cases hy; exact h1, fun y hy => by cases hy; exact h2⟩
  have hv1 := hin v hv.1 hv.2
  have hl1 := hin l (le_refl _) hlt.le
  have hh1 := hin h hlt.le (le_refl _)
  have hmk1 := mk_both l h hlt full
  have hmk2 := mk_reversed (Real.log l / Real.log e) (Real.log h / Real.log e) ((div_lt_div_right_of_neg hd).2 (Real.log_lt_log hl hlt)).le (some (full.getD true))
  have hfirst := setBounds_first l h v s hlt hv full
  rw [hfirst]
  simp [setExponent, not_le.2 he, P.read, get, P.assign, set, Lay.fwd, hv1, fixLegacy, List.filter, List.dropWhile, backBounds, rebuild, hmk2, Lay.refresh]

/-- Bounds cannot be set twice: the second call raises an `AttributeError`, and the parameter has lost all bounds. -/
theorem bounds_twice (l h l' h' v s : ℝ) (hlt : l < h) (hlt' : l' < h') (hl : l ≤ l') (hh : h' ≤ h) (hv : l' ≤ v ∧ v ≤ h') (full full' : Option Bool) :
    setBounds (setBounds ⟨some v, s, []⟩ (some l) (some h) .bounce full).1 (some l') (some h') .bounce full' = (⟨some v, s, []⟩, some .attribute) := by
  have hin : ∀ x, l ≤ x → x ≤ h → Inside (some l) (some h) x := fun x h1 h2 => ⟨fun y hy => by cases hy; exact h1, fun y hy => by cases hy; exact h2⟩
  have hin' : ∀ x, l' ≤ x → x ≤ h' → Inside (some l') (some h') x := fun x h1 h2 => ⟨fun y hy => by cases hy; exact h1, fun y hy => by cases hy; exact h2⟩
  have hv1 := hin v (by linarith [hv.1]) (by linarith [hv.2])
  have hl1 := hin l (le_refl _) hlt.le
  have hh1 := hin h hlt.le (le_refl _)
  have hl3 := hin l' hl (by linarith)
  have hh3 := hin h' (by linarith) hh
  have hv2 := hin' v hv.1 hv.2
  have hl2 := hin' l' (le_refl _) hlt'.le
  have hh2 := hin' h' hlt'.le (le_refl _)
  have hmk1 := mk_both l h hlt full
  have hmk2 := mk_both l' h' hlt' full'
  have hfirst := setBounds_first l h v s hlt ⟨by linarith [hv.1], by linarith [hv.2]⟩ full
  rw [hfirst]
  simp [setBounds, hmk2, callBound, P.read, get, P.assign, set, Lay.fwd, Lay.bwd, hv1, hv2, hl2, hh2, hl3, hh3, fixLegacy, List.filter, List.dropWhile, backBounds, Lay.refresh]

/-- Bounds refused because of the current value stay in place all the same: the value read next is another one, within the bounds. -/
theorem refused_kept (l h v s : ℝ) (hlt : l < h) (hv : v < l ∨ h < v) (full : Option Bool) :
    (setBounds ⟨some v, s, []⟩ (some l) (some h) .bounce full).2 = some .value ∧
      ∃ w p', (setBounds ⟨some v, s, []⟩ (some l) (some h) .bounce full).1.read = some (some w, p') ∧ w ≠ v ∧ l ≤ w ∧ w ≤ h := by
  have hnot : ¬ Inside (some l) (some h) v := by
    rintro ⟨h1, h2⟩
    have h1 := h1 l rfl
    have h2 := h2 h rfl
    rcases hv with hv | hv <;> linarith
  have hmk1 := mk_both l h hlt full
  have e : setBounds ⟨some v, s, []⟩ (some l) (some h) .bounce full = (⟨some v, s, [.bound (some l) (some h) .bounce (full.getD true) true]⟩, some .value) := by
    simp [setBounds, P.read, get, hmk1, callBound, P.assign, set, Lay.bwd, hnot]
  rw [e]
  refine ⟨rfl, clip (some l) (some h) (2 * clip (some l) (some h) v - v), ?_⟩
  have hc := clip_inside (some l) (some h) (fun a b ha hb => by cases ha; cases hb; exact hlt.le) (2 * clip (some l) (some h) v - v)
  have hne : clip (some l) (some h) (2 * clip (some l) (some h) v - v) ≠ v := fun e => hnot (e ▸ hc)
  refine ⟨⟨some (clip (some l) (some h) (2 * clip (some l) (some h) v - v)), s, [.bound (some l) (some h) .bounce (full.getD true) true]⟩, ?_, hne, hc.1 l rfl, hc.2 h rfl⟩
  simp [P.read, get, Lay.fwd, hnot, Lay.refresh, hne, set]

/-- C88: full range sampling needs both bounds; otherwise the call is refused and the parameter unchanged. -/
theorem one_bound_refused (l v s : ℝ) (m : Method) :
    setBounds ⟨some v, s, []⟩ (some l) none m (some true) = (⟨some v, s, []⟩, some .value) ∧ setBounds ⟨some v, s, []⟩ none (some l) m (some true) = (⟨some v, s, []⟩, some .value) ∧
      setBounds ⟨some v, s, []⟩ none none m (some true) = (⟨some v, s, []⟩, some .value) := by
  simp [setBounds, P.read, get, mkBound]

/-- C88: bounds of an array which reach beyond those it already has are refused. -/
theorem wider_refused (l h l' h' v s : ℝ) (hlt : l < h) (hlt' : l' < h') (hw : l' < l ∨ h < h') (hv : l ≤ v ∧ v ≤ h) (hv' : l' ≤ v ∧ v ≤ h') (full full' : Option Bool) :
    (setBounds (setBounds ⟨some v, s, []⟩ (some l) (some h) .bounce full).1 (some l') (some h') .bounce full').2 = some .value := by
  rw [setBounds_first l h v s hlt hv full]
  have hv1 : Inside (some l) (some h) v := (inside_iff _ _ _).2 hv
  have hv2 : Inside (some l') (some h') v := (inside_iff _ _ _).2 hv'
  have hl2 : Inside (some l') (some h') l' := (inside_iff _ _ _).2 ⟨le_refl _, hlt'.le⟩
  have hh2 : Inside (some l') (some h') h' := (inside_iff _ _ _).2 ⟨hlt'.le, le_refl _⟩
  have hnot : ¬ (Inside (some l) (some h) l' ∧ Inside (some l) (some h) h') := by
    rw [inside_iff, inside_iff]
    rintro ⟨⟨h1, _⟩, ⟨_, h2⟩⟩
    rcases hw with hw | hw <;> linarith
  have hset : ∀ x, Inside (some l') (some h') x → ((set [Lay.bound (some l') (some h') .bounce (full'.getD true) true, .bound (some l) (some h) .bounce (full.getD true) true] (some x)).isSome = true ↔ Inside (some l) (some h) x) := by
    intro x hx
    by_cases hx' : Inside (some l) (some h) x <;> simp [set, Lay.bwd, hx, hx']
  have hcall : callBound ⟨some v, s, [.bound (some l) (some h) .bounce (full.getD true) true]⟩ (.bound (some l') (some h') .bounce (full'.getD true) true) (some l') (some h') =
      (⟨some v, s, [.bound (some l') (some h') .bounce (full'.getD true) true, .bound (some l) (some h) .bounce (full.getD true) true]⟩, some .value) := by
    have hr : P.read ⟨some v, s, [.bound (some l) (some h) .bounce (full.getD true) true]⟩ = some (some v, ⟨some v, s, [.bound (some l) (some h) .bounce (full.getD true) true]⟩) := by
      simp [P.read, get, Lay.fwd, hv1]
    have ha : P.assign ⟨some v, s, [.bound (some l') (some h') .bounce (full'.getD true) true, .bound (some l) (some h) .bounce (full.getD true) true]⟩ (some v) =
        some ⟨some v, s, [.bound (some l') (some h') .bounce (full'.getD true) true, .bound (some l) (some h) .bounce (full.getD true) true]⟩ := by
      simp [P.assign, set, Lay.bwd, hv1, hv2]
    unfold callBound
    rw [hr]
    simp only
    rw [ha]
    simp only
    rw [if_neg]
    rw [hset l' hl2, hset h' hh2]
    exact hnot
  have hr : P.read ⟨some v, s, [.bound (some l) (some h) .bounce (full.getD true) true]⟩ = some (some v, ⟨some v, s, [.bound (some l) (some h) .bounce (full.getD true) true]⟩) := by
    simp [P.read, get, Lay.fwd, hv1]
  unfold setBounds
  rw [hr]
  simp only
  rw [mk_both l' h' hlt' full']
  simp only
  rw [hcall]

/-- C88: bounds can be set after a call which set none, and keep the value. -/
theorem empty_bounds (l h v s : ℝ) (hlt : l < h) (hv : l ≤ v ∧ v ≤ h) (full : Option Bool) :
    ∃ p', setBounds (setBounds ⟨some v, s, []⟩ none none .bounce none).1 (some l) (some h) .bounce full = (p', none) ∧ p'.read = some (some v, p') ∧
      bounds p'.layers = (some (some l), some (some h)) := by
  have hv1 : Inside (some l) (some h) v := (inside_iff _ _ _).2 hv
  have hl1 : Inside (some l) (some h) l := (inside_iff _ _ _).2 ⟨le_refl _, hlt.le⟩
  have hh1 : Inside (some l) (some h) h := (inside_iff _ _ _).2 ⟨hlt.le, le_refl _⟩
  have h0 : ∀ x, Inside none none x := fun x => ⟨by simp, by simp⟩
  have hfirst : setBounds ⟨some v, s, []⟩ none none .bounce none = (⟨some v, s, [.bound none none .bounce false true]⟩, none) := by
    simp [setBounds, P.read, get, mkBound, callBound, P.assign, set, Lay.bwd, h0, fixLegacy, List.filter]
  refine ⟨⟨some v, s, [.bound (some l) (some h) .bounce (full.getD true) true, .bound none none .bounce false false]⟩, ?_, ?_, rfl⟩
  · rw [hfirst]
    have hmk := mk_both l h hlt full
    have hreb : rebuild (.bound none none .bounce false true) = some (.bound none none .bounce false false) := by simp [rebuild, mkBound]
    simp [setBounds, P.read, get, hmk, callBound, P.assign, set, Lay.bwd, Lay.fwd, h0, hv1, hl1, hh1, fixLegacy, List.filter, List.dropWhile, backBounds, hreb]
  · simp [P.read, get, Lay.fwd, h0, hv1]

/-- An operation between the bounds and new ones makes the call fail. -/
theorem between_refused (l h c l' h' v s : ℝ) (hlt' : l' < h') (hv : l ≤ v ∧ v ≤ h) (hl : l ≤ l' - c) (hh : h' - c ≤ h)
    (hv' : l' ≤ c + v ∧ c + v ≤ h') (u : Bool) (full : Option Bool) :
    (setBounds (P.withOp ⟨some v, s, [.bound (some l) (some h) .bounce u true]⟩ (.add c)) (some l') (some h') .bounce full).2 = some .runtime := by
  have hv1 : Inside (some l) (some h) v := (inside_iff _ _ _).2 hv
  have hl1 : Inside (some l) (some h) (l' - c) := (inside_iff _ _ _).2 ⟨hl, by linarith⟩
  have hh1 : Inside (some l) (some h) (h' - c) := (inside_iff _ _ _).2 ⟨by linarith, hh⟩
  have hv2 : Inside (some l') (some h') (c + v) := (inside_iff _ _ _).2 hv'
  have hl2 : Inside (some l') (some h') l' := (inside_iff _ _ _).2 ⟨le_refl _, hlt'.le⟩
  have hh2 : Inside (some l') (some h') h' := (inside_iff _ _ _).2 ⟨hlt'.le, le_refl _⟩
  have hmk := mk_both l' h' hlt' full
  simp [setBounds, P.withOp, P.read, get, hmk, callBound, P.assign, set, Lay.bwd, Lay.fwd, Op.fwd, Op.bwd, Lay.refresh, hv1, hl1, hh1, hv2, hl2, hh2, fixLegacy, List.filter, List.dropWhile]

/-- A third call fails if two layers are still marked, as with the method "constraint". -/
theorem third_refused (l h l' h' v s e : ℝ) (hlt' : l' < h') (he : 0 < e) (hv : l' ≤ e ^ v ∧ e ^ v ≤ h') (hl : 0 < l') (u : Bool) (full : Option Bool) :
    (setBounds ⟨some v, s, [.op (.exp e) true, .bound (some l) (some h) .constraint u true]⟩ (some l') (some h') .constraint full).2 = some .runtime := by
  have hpos : 0 < e ^ v := Real.rpow_pos_of_pos he v
  have hh' : 0 < h' := by linarith
  have hmk := mk_both l' h' hlt' full
  simp [setBounds, P.read, get, hmk, callBound, P.assign, set, Lay.bwd, Lay.fwd, Op.fwd, Op.bwd, Lay.refresh, hpos, hl, hh', fixLegacy, List.filter]

/-- C88: roots of negative numbers are NaN, integer powers of them are numbers. -/
theorem negative_powers (x : ℝ) (hx : x < 0) (n : Nat) : formula [.pow (1 / 2)] (some x) = none ∧ formula [.pow n] (some x) = some (x ^ n) := by
  have h1 : ¬ (0 < x) := not_lt.2 hx.le
  have h2 : x ≠ 0 := hx.ne
  have h3 : ¬ ∃ k : ℤ, (1 / 2 : ℝ) = k := by
    rintro ⟨k, hk⟩
    have : ((2 * k : ℤ) : ℝ) = ((1 : ℤ) : ℝ) := by push_cast; linarith
    have := Int.cast_injective this
    omega
  have h4 : ∃ k : ℤ, (n : ℝ) = k := ⟨n, by simp⟩
  constructor
  · have hp : power x (1 / 2) = none := by
      unfold power
      simp only [h1, h2, h3, if_false, not_false_eq_true]
    simpa [formula, Op.fwd] using hp
  · simp [formula, Op.fwd, power, h1, h2, h4]

/-- The exponent is accepted for negative values although an error is documented: the value becomes NaN. -/
theorem negative_exponent (e v s : ℝ) (he : 0 < e) (hv : v < 0) :
    (setExponent ⟨some v, s, []⟩ e).2 = none ∧ ∃ p', (setExponent ⟨some v, s, []⟩ e).1.read = some (none, p') := by
  simp [setExponent, not_le.2 he, P.read, get, P.assign, set, Lay.bwd, Op.bwd, not_lt.2 hv.le, fixLegacy, List.filter, Lay.fwd, Lay.refresh]

/-- A value 4 in [1, 16] with the exponent 2. -/
example (s : ℝ) : ∃ p', (setExponent (setBounds ⟨some 4, s, []⟩ (some 1) (some 16) .bounce none).1 2).1.read = some (some 4, p') :=
  (legacy_order 2 1 16 4 s (by norm_num) (by norm_num) (by norm_num) (by norm_num) none).2.2.1

/-- Bounds narrowed from [0, 10] to [2, 8]. -/
example (s : ℝ) : (setBounds (setBounds ⟨some 5, s, []⟩ (some 0) (some 10) .bounce none).1 (some 2) (some 8) .bounce none).1.layers = [] := by
  rw [bounds_twice 0 10 2 8 5 s (by norm_num) (by norm_num) (by norm_num) (by norm_num) (by norm_num)]

/-! ## Where `bounds` is wrong -/

/-- The bounds of the opposite of a parameter are reversed: all values which are not at a bound are outside. -/
theorem opposite_outside (l h x : ℝ) (hlt : l < h) (hx : |x| < 3) :
    let p := (scalar none (some l) (some h)).1.withOp (.mul (-1))
    bounds p.layers = (some (some (-l)), some (some (-h))) ∧ ∃ v p', p.setStd x = some (some v, p') ∧ v < -l ∧ -h < v := by
  have hx' := abs_lt.1 hx
  obtain ⟨p', hp⟩ := scalar_scale l h hlt x hx.le
  have hs : (h - l) / 6 ≠ 0 := by intro e; apply hlt.ne; linarith
  have e : (h - l) / 6 * (x + (l + h) / 2 / ((h - l) / 6)) = (l + h) / 2 + (h - l) / 6 * x := by rw [mul_add, mul_div_cancel₀ _ hs]; ring
  have hin : Inside (some l) (some h) ((l + h) / 2 + (h - l) / 6 * x) := ⟨fun y hy => by cases hy; nlinarith [hx'.1], fun y hy => by cases hy; nlinarith [hx'.2]⟩
  rw [scalar_bounded l h hlt]
  refine ⟨by simp [P.withOp, bounds, Lay.fwd, Op.fwd], -1 * ((l + h) / 2 + (h - l) / 6 * x), ?_⟩
  simp only [P.withOp, P.setStd, P.read, Option.map_some, e, get, Option.bind_some, Lay.fwd, hin, if_true, ne_eq, not_true, and_false, if_false, Lay.refresh, Bool.false_eq_true, false_and, Op.fwd]
  refine ⟨_, rfl, ?_, ?_⟩ <;> nlinarith [hx'.1, hx'.2]

/-- Reversed bounds make integer castings constant. -/
theorem int_reversed (lo hi x : ℝ) (h : hi ≤ lo) (hlo : Tr.GoodLower lo) (hhi : Tr.GoodLower (-hi)) : Tr.intGet none (some lo) (some hi) x = ⌊hi⌋ := by
  simp only [Tr.intGet, Tr.lower_clip lo hlo, Tr.upper_clip hi hhi]
  apply min_eq_left
  apply le_max_of_le_left
  exact (Int.floor_mono h).trans (Int.floor_le_ceil lo)

/-- `-Scalar(lower=0, upper=10)` cast to integers is always -10. -/
theorem opposite_int (x : ℝ) (hx : |x| ≤ 3) (p' : P) (v : Num) (hp : (((scalar none (some 0) (some 10)).1.withOp (.mul (-1))).setStd x) = some (v, p')) : castInt p' = some (-10) := by
  have hx' := abs_le.1 hx
  rw [scalar_bounded 0 10 (by norm_num)] at hp
  have e : ((10 : ℝ) - 0) / 6 * (x + (0 + 10) / 2 / ((10 - 0) / 6)) = 5 + 5 / 3 * x := by ring
  have hin : Inside (some 0) (some 10) (5 + 5 / 3 * x) := ⟨fun y hy => by cases hy; linarith [hx'.1], fun y hy => by cases hy; linarith [hx'.2]⟩
  simp only [P.withOp, P.setStd, P.read, Option.map_some, e, get, Option.bind_some, Lay.fwd, hin, if_true, ne_eq, not_true, and_false, if_false, Lay.refresh, Bool.false_eq_true, false_and, Op.fwd,
    Option.some.injEq, Prod.mk.injEq] at hp
  rw [← hp.2]
  simp only [castInt, P.read, Option.map_some, get, Option.bind_some, Lay.fwd, hin, if_true, ne_eq, not_true, and_false, if_false, Lay.refresh, Bool.false_eq_true, false_and, Op.fwd, bounds, id]
  rw [int_reversed]
  · congr 1
    have : (-1 : ℝ) * 10 = ((-10 : ℤ) : ℝ) := by norm_num
    rw [this, Int.floor_intCast]
  · norm_num
  · left; norm_num
  · left
    have : (-(-1 * 10) : ℝ) = ((10 : ℤ) : ℝ) := by norm_num
    rw [this, Int.fract_intCast]

/-- The square of a variable in [-2, 1] is announced between 4 and 1, and can be 0. -/
theorem square_outside : let p := (scalar none (some (-2)) (some 1)).1.withOp (.pow 2)
    bounds p.layers = (some (some 4), some (some 1)) ∧ ∃ p', p.setStd 1 = some (some 0, p') := by
  rw [scalar_bounded (-2) 1 (by norm_num)]
  have hin : Inside (some (-2)) (some 1) 0 := ⟨fun y hy => by cases hy; norm_num, fun y hy => by cases hy; norm_num⟩
  have h4 : ((-2 : ℝ)) ^ (2 : ℝ) = 4 := by rw [Real.rpow_two]; norm_num
  have h2 : ∃ k : ℤ, (2 : ℝ) = k := ⟨2, by norm_num⟩
  refine ⟨by simp [P.withOp, bounds, Lay.fwd, Op.fwd, power, h2, h4], ?_⟩
  have e : (((1 : ℝ) - -2) / 6 * (1 + (-2 + 1) / 2 / ((1 - -2) / 6))) = 0 := by norm_num
  simp only [P.withOp, P.setStd, P.read, Option.map_some, e, get, Option.bind_some, Lay.fwd, hin, if_true, ne_eq, not_true, and_false, if_false, Lay.refresh, Bool.false_eq_true, false_and, Op.fwd, power]
  norm_num

end

end Bnd
end NG
