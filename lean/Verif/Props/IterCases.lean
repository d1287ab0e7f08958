import Verif.Model.IterCases
import Verif.Props.InitRecord
import Mathlib.Data.List.Nodup
import Mathlib.Data.List.Forall2

/-!
# The cases of benchmarks (C175)
-/

namespace NG
namespace IterCases

open InitRec

/-! ## All combinations -/

/-- The cases are exactly the dictionaries with the keys of the options, each with one of its values. -/
theorem mem_product (opts : List (String × List Val)) (c : Dict) :
    c ∈ product opts ↔ List.Forall₂ (fun (p : String × Val) (o : String × List Val) => p.1 = o.1 ∧ p.2 ∈ o.2) c opts := by
  induction opts generalizing c with
  | nil => simp [product]
  | cons o opts ih =>
    obtain ⟨k, vs⟩ := o
    simp only [product, List.mem_flatMap, List.mem_map]
    constructor
    · rintro ⟨v, hv, d, hd, rfl⟩
      exact .cons ⟨rfl, hv⟩ ((ih d).1 hd)
    · intro h
      cases h with
      | cons h1 h2 =>
        rename_i p d
        obtain ⟨k', v⟩ := p
        obtain ⟨h3, h4⟩ := h1
        simp only at h3 h4
        subst h3
        exact ⟨v, h4, d, (ih d).2 h2, rfl⟩

/-- Their number is the product of the numbers of values. -/
theorem product_length (opts : List (String × List Val)) : (product opts).length = (opts.map fun o => o.2.length).prod := by
  induction opts with
  | nil => rfl
  | cons o opts ih =>
    simp [product, List.length_flatMap, ih]

/-- No case occurs twice. -/
theorem product_nodup (opts : List (String × List Val)) (h : ∀ o ∈ opts, o.2.Nodup) : (product opts).Nodup := by
  induction opts with
  | nil => simp [product]
  | cons o opts ih =>
    obtain ⟨k, vs⟩ := o
    simp only [product]
    rw [List.nodup_flatMap]
    refine ⟨fun v _ => (ih fun o ho => h o (by simp [ho])).map fun a b hab => by simpa using hab, ?_⟩
    refine (h (k, vs) (by simp)).imp ?_
    intro v w hvw
    simp only [Function.onFun, List.disjoint_left, List.mem_map, not_exists, not_and]
    rintro c ⟨d, -, rfl⟩ e - he
    simp only [List.cons.injEq, Prod.mk.injEq, true_and] at he
    exact hvw he.1.symm

/-- The first case has the first value of each option. -/
theorem product_head (opts : List (String × List Val)) (h : ∀ o ∈ opts, o.2 ≠ []) :
    (product opts).head? = some (opts.map fun o => (o.1, o.2.headD (.num 0))) := by
  induction opts with
  | nil => rfl
  | cons o opts ih =>
    obtain ⟨k, vs⟩ := o
    cases vs with
    | nil => exact absurd rfl (h (k, []) (by simp))
    | cons v vs =>
      have := ih fun o ho => h o (by simp [ho])
      simp [product, this]

/-! ## Test cases told apart -/

theorem superInit_equivalent (o o' : Option (List ℚ)) (cls : String) (a b : Dict) (x y : Bool) (ha : (a.map Prod.fst).Nodup) (hb : (b.map Prod.fst).Nodup) :
    equivalent (superInit o cls a x).inst (superInit o' cls b y).inst = true ↔
      ∀ k, k ≠ "function_class" → (a.lookup k).filter Val.recorded = (b.lookup k).filter Val.recorded := by
  rw [equivalent_iff]
  simp only [superInit]
  constructor
  · rintro ⟨-, -, h⟩ k hk
    have := h k
    rw [create_descriptors _ _ ha, create_descriptors _ _ hb] at this
    simpa [hk] using this
  · intro h
    refine ⟨rfl, rfl, fun k => ?_⟩
    rw [create_descriptors _ _ ha, create_descriptors _ _ hb]
    by_cases hk : k = "function_class"
    · simp [hk]
    · simpa [hk] using h k hk

/-- The arguments of a `FarOptimumFunction` in the benchmark. -/
def farKw (i mu mo : Bool) (r : String) (o : List Item) : Dict :=
  [("independent_sigma", flag i), ("multiobjective", flag mo), ("mutable_sigma", flag mu), ("optimum", .tup o), ("recombination", .str r)]

theorem callargs_far (i mu mo : Bool) (r : String) (o : List Item) : callargs farSig [] (farKw i mu mo r o) =
    some [("independent_sigma", flag i), ("mutable_sigma", flag mu), ("multiobjective", flag mo), ("recombination", .str r), ("optimum", .tup o)] := by
  simp [callargs, farSig, farKw, InitRec.bind, List.lookup]

theorem far_some (i mu mo : Bool) (r : String) (o : List Item) (f : Func) (h : far (farKw i mu mo r o) = some f) :
    f = superInit none "FarOptimumFunction"
      [("independent_sigma", flag i), ("mutable_sigma", flag mu), ("multiobjective", flag mo), ("recombination", .str r), ("optimum", .tup o)] mo := by
  unfold far at h
  rw [callargs_far] at h
  simp only [Option.bind_eq_bind, Option.bind_some, List.lookup] at h
  cases hn : numbers (.tup o) with
  | none => simp [hn] at h
  | some q =>
    simp only [beq_self_eq_true, String.reduceBEq, hn, Option.bind_some] at h
    split at h
    · have hm : decide (flag mo = flag true) = mo := by cases mo <;> decide +kernel
      simp only [superInit, hm, Option.some.injEq] at h ⊢
      exact h.symm
    · simp at h

/-- Cases of `FarOptimumFunction` are equivalent only if all arguments are the same. -/
theorem far_cases (i mu mo i' mu' mo' : Bool) (r r' : String) (o o' : List Item) (f g : Func)
    (hf : far (farKw i mu mo r o) = some f) (hg : far (farKw i' mu' mo' r' o') = some g) :
    equivalent f.inst g.inst = true ↔ i = i' ∧ mu = mu' ∧ mo = mo' ∧ r = r' ∧ o = o' := by
  rw [far_some _ _ _ _ _ f hf, far_some _ _ _ _ _ g hg, superInit_equivalent _ _ _ _ _ _ _ (by simp) (by simp)]
  have hflag : ∀ b b' : Bool, flag b = flag b' → b = b' := by decide +kernel
  constructor
  · intro h
    have h1 := h "independent_sigma" (by simp)
    have h2 := h "mutable_sigma" (by simp)
    have h3 := h "multiobjective" (by simp)
    have h4 := h "recombination" (by simp)
    have h5 := h "optimum" (by simp)
    have hr : ∀ b, (flag b).recorded = true := fun b => rfl
    simp [List.lookup, Option.filter, hr] at h1 h2 h3
    simp [List.lookup, Option.filter, Val.recorded] at h4 h5
    exact ⟨hflag _ _ h1, hflag _ _ h2, hflag _ _ h3, h4, h5⟩
  · rintro ⟨rfl, rfl, rfl, rfl, rfl⟩ k -
    rfl

/-- The arguments of `PBT`. -/
def pbtKw (dims names : Val) : Dict := [("dimensions", dims), ("names", names)]

theorem callargs_pbt (d n : Val) : callargs pbtSig [] (pbtKw d n) = some [("names", n), ("dimensions", d), ("num_workers", .num 10)] := by
  simp [callargs, pbtSig, pbtKw, InitRec.bind, List.lookup]

theorem pbt_some (known : Item → Bool) (d n : Val) (f : Func) (h : pbt known (pbtKw d n) = some f) :
    f = superInit none "PBT" [("names", n), ("dimensions", d), ("num_workers", .num 10)] false := by
  unfold pbt at h
  rw [callargs_pbt] at h
  simp only [Option.bind_eq_bind, Option.bind_some, List.lookup, beq_self_eq_true, String.reduceBEq] at h
  cases hn : items n with
  | none => simp [hn] at h
  | some ns =>
    cases hd : items d with
    | none => simp [hn, hd] at h
    | some ds =>
      simp only [hn, hd, Option.bind_some] at h
      split at h
      · exact (Option.some.inj h).symm
      · simp at h

/-- `PBT` with tuples: cases are equivalent only if names and dimensions are the same. -/
theorem pbt_tuples_partial (known : Item → Bool) (d n d' n' : List Item) (f g : Func) (hf : pbt known (pbtKw (.tup d) (.tup n)) = some f)
    (hg : pbt known (pbtKw (.tup d') (.tup n')) = some g) : equivalent f.inst g.inst = true ↔ d = d' ∧ n = n' := by
  rw [pbt_some _ _ _ f hf, pbt_some _ _ _ g hg, superInit_equivalent _ _ _ _ _ _ _ (by simp) (by simp)]
  constructor
  · intro h
    have h1 := h "dimensions" (by simp)
    have h2 := h "names" (by simp)
    simp [List.lookup, Option.filter, Val.recorded] at h1 h2
    exact ⟨h1, h2⟩
  · rintro ⟨rfl, rfl⟩ k -
    rfl

/-- `PBT` with lists, as in `itercases`: all cases are equivalent and have the same descriptors. -/
theorem pbt_lists_lost (known : Item → Bool) (d n d' n' : List Item) (f g : Func) (hf : pbt known (pbtKw (.lst d) (.lst n)) = some f)
    (hg : pbt known (pbtKw (.lst d') (.lst n')) = some g) : equivalent f.inst g.inst = true ∧ f.inst.descriptors = g.inst.descriptors := by
  have he : f.inst.descriptors = g.inst.descriptors := by
    rw [pbt_some _ _ _ f hf, pbt_some _ _ _ g hg]
    simp [superInit, create, named, record, Val.recorded]
  refine ⟨(equivalent_iff _ _).2 ⟨?_, ?_, fun k => by rw [he]⟩, he⟩
  · rw [pbt_some _ _ _ f hf, pbt_some _ _ _ g hg]; rfl
  · rw [pbt_some _ _ _ f hf, pbt_some _ _ _ g hg]; rfl

/-- The cases of `PBT.itercases` are accepted, and they are different cases with equal descriptors. -/
theorem pbt_itercases_lost : (product pbtOptions).length = 6 ∧ (product pbtOptions).Nodup ∧
    ∀ c ∈ product pbtOptions, ∀ c' ∈ product pbtOptions, ∃ f g, pbt (fun _ => true) c = some f ∧ pbt (fun _ => true) c' = some g ∧ equivalent f.inst g.inst = true := by
  refine ⟨by decide +kernel, by decide +kernel, ?_⟩
  have hall : ∀ c ∈ product pbtOptions, ∃ d n : List Item, c = pbtKw (.lst d) (.lst n) ∧ (pbt (fun _ => true) c).isSome = true := by
    intro c hc
    simp only [product, pbtOptions, List.flatMap_cons, List.flatMap_nil, List.map_cons, List.map_nil, List.append_nil, List.cons_append, List.nil_append,
      List.mem_cons, List.not_mem_nil, or_false] at hc
    rcases hc with rfl | rfl | rfl | rfl | rfl | rfl <;> exact ⟨_, _, rfl, by decide +kernel⟩
  intro c hc c' hc'
  obtain ⟨d, n, rfl, h1⟩ := hall c hc
  obtain ⟨d', n', rfl, h2⟩ := hall c' hc'
  obtain ⟨f, hf⟩ := Option.isSome_iff_exists.1 h1
  obtain ⟨g, hg⟩ := Option.isSome_iff_exists.1 h2
  exact ⟨f, g, hf, hg, (pbt_lists_lost _ d n d' n' f g hf hg).1⟩

/-! ## Upper bounds -/

/-- The upper bounds of `FarOptimumFunction` are lost: they are set before the initialization of the base class, which resets them. -/
theorem far_bounds_lost (kw : Dict) (f : Func) (h : far kw = some f) : f.upper = none := by
  unfold far at h
  simp only [Option.bind_eq_bind, Option.bind_eq_some_iff] at h
  obtain ⟨a, -, r, -, o, -, m, -, h⟩ := h
  split at h
  · rw [← Option.some.inj h]; rfl
  · simp at h

/-- The first tell of an experiment with the version with two objectives raises, though the arguments are accepted; with one objective it does not. -/
theorem far_multi_raises (i mu mo : Bool) (r : String) (hr : r = "crossover" ∨ r = "average") (x y : ℚ) (l : List ℚ) (q : ℚ) :
    ∃ f, far (farKw i mu mo r [.inr x, .inr y]) = some f ∧ f.array = mo ∧ firstTellRaises f (if f.array then .array l else .number q) = mo := by
  have hs : ∃ f, far (farKw i mu mo r [.inr x, .inr y]) = some f := by
    unfold far
    rw [callargs_far]
    rcases hr with rfl | rfl <;> simp [List.lookup, numbers]
  obtain ⟨f, hf⟩ := hs
  refine ⟨f, hf, ?_⟩
  rw [far_some _ _ _ _ _ f hf]
  cases mo <;> simp [superInit, firstTellRaises, assertSingle]

/-- With upper bounds, and for numbers, nothing is raised; the check is about the first two tells. -/
theorem assertSingle_iff (n : Nat) (loss : Loss) : assertSingle n loss = true ↔ n ≤ 1 ∧ ∃ l, loss = .array l := by
  cases loss <;> simp [assertSingle]

theorem firstTell_bounds (f : Func) (loss : Loss) (h : f.upper ≠ none) : firstTellRaises f loss = false := by
  unfold firstTellRaises
  cases hu : f.upper with
  | none => exact absurd hu h
  | some u => rfl

/-! ## Cases -/

example : (product farOptions).length = 48 := by rw [product_length]; decide

example : ((product farOptions).map fun c => (far c).isSome) = List.replicate 48 true := by decide +kernel

example : product [("a", [.num 1, .num 2]), ("b", [.str "x", .str "y"])] =
    [[("a", .num 1), ("b", .str "x")], [("a", .num 1), ("b", .str "y")], [("a", .num 2), ("b", .str "x")], [("a", .num 2), ("b", .str "y")]] := by decide +kernel

example : (far (farKw true true true "average" [.inr 80, .inr 100])).map (fun f => (f.upper, f.array)) = some (none, true) := by decide +kernel

example : far (farKw true true true "mean" [.inr 80, .inr 100]) = none := by decide +kernel

example : pbt (fun _ => true) (pbtKw (.lst [.inr 2]) (.lst [.inl "sphere", .inl "cigar"])) = none := by decide +kernel

end IterCases
end NG
