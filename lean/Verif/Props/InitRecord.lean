import Verif.Model.InitRecord
import Mathlib.Data.List.Basic
import Mathlib.Tactic.Tauto

/-!
# What experiment functions record about their arguments (C174)
-/

namespace NG
namespace InitRec

/-! ## Dictionaries -/

theorem lookup_set (d : Dict) (k j : String) (v : Val) : (set d k v).lookup j = if j = k then some v else d.lookup j := by
  unfold set
  rw [List.lookup_cons]
  by_cases h : j = k
  · subst h; simp
  · have hb : (j == k) = false := by simp [h]
    simp only [hb, h, if_false]
    induction d with
    | nil => rfl
    | cons p d ih =>
      by_cases hp : p.1 = k
      · have hj : (j == p.1) = false := by simp [hp, h]
        rw [List.filter_cons_of_neg (by simp [hp]), ih, List.lookup_cons, hj]
      · rw [List.filter_cons_of_pos (by simp [hp]), List.lookup_cons, List.lookup_cons, ih]

/-- Two dictionaries compare equal if and only if they have the same value, or no value, for each key. -/
theorem same_iff (d e : Dict) : same d e = true ↔ ∀ k, d.lookup k = e.lookup k := by
  unfold same
  rw [Bool.and_eq_true, List.all_eq_true, List.all_eq_true]
  constructor
  · rintro ⟨h1, h2⟩ k
    by_cases hd : ∃ p ∈ d, p.1 = k
    · obtain ⟨p, hp, rfl⟩ := hd
      exact (beq_iff_eq.1 (h1 p hp)).symm
    · by_cases he : ∃ p ∈ e, p.1 = k
      · obtain ⟨p, hp, rfl⟩ := he
        simpa using h2 p hp
      · have a1 : d.lookup k = none := List.lookup_eq_none_iff.2 (fun p hp => by
          simp only [bne_iff_ne, ne_eq]; exact fun h => hd ⟨p, hp, h.symm⟩)
        have a2 : e.lookup k = none := List.lookup_eq_none_iff.2 (fun p hp => by
          simp only [bne_iff_ne, ne_eq]; exact fun h => he ⟨p, hp, h.symm⟩)
        rw [a1, a2]
  · intro h
    exact ⟨fun p _ => by simp [h], fun p _ => by simp [h]⟩

/-- Equivalent instances have the same class, the same name of the parametrization and the same value of each descriptor. -/
theorem equivalent_iff (f g : Inst) :
    equivalent f g = true ↔ f.cls = g.cls ∧ f.paramName = g.paramName ∧ ∀ k, f.descriptors.lookup k = g.descriptors.lookup k := by
  unfold equivalent
  rw [Bool.and_eq_true, Bool.and_eq_true, same_iff, beq_iff_eq, beq_iff_eq]
  tauto

/-! ## Binding of arguments -/

theorem bind_spec (sig : List (String × Option Val)) (pos : List Val) (kw a : Dict) (h : bind sig pos kw = some a) :
    a.map Prod.fst = sig.map Prod.fst ∧ pos.length ≤ sig.length ∧
      ∀ i (hi : i < sig.length), (a[i]?).map Prod.snd = if i < pos.length then pos[i]? else (kw.lookup sig[i].1).or sig[i].2 := by
  induction sig generalizing pos a with
  | nil =>
    cases pos with
    | nil => simp only [bind, Option.some.injEq] at h; subst h; simp
    | cons v pos => simp [bind] at h
  | cons p sig ih =>
    obtain ⟨n, d⟩ := p
    cases pos with
    | nil =>
      simp only [bind] at h
      cases hv : (kw.lookup n).or d with
      | none => rw [hv] at h; simp at h
      | some v =>
        rw [hv] at h
        simp only [Option.map_eq_some_iff] at h
        obtain ⟨b, hb, rfl⟩ := h
        obtain ⟨h1, h2, h3⟩ := ih [] b hb
        refine ⟨by simp [h1], by simp, fun i hi => ?_⟩
        cases i with
        | zero => simp [hv]
        | succ i => simpa using h3 i (by simpa using hi)
    | cons v pos =>
      simp only [bind] at h
      split at h
      · simp at h
      · simp only [Option.map_eq_some_iff] at h
        obtain ⟨b, hb, rfl⟩ := h
        obtain ⟨h1, h2, h3⟩ := ih pos b hb
        refine ⟨by simp [h1], by simpa using h2, fun i hi => ?_⟩
        cases i with
        | zero => simp
        | succ i => simpa using h3 i (by simpa using hi)

/-- The recorded arguments are the ones of the signature, in its order; each has the value given by position, else by keyword, else the default. -/
theorem callargs_spec (sig : List (String × Option Val)) (pos : List Val) (kw a : Dict) (h : callargs sig pos kw = some a) :
    a.map Prod.fst = sig.map Prod.fst ∧ (∀ p ∈ kw, p.1 ∈ sig.map Prod.fst) ∧
      ∀ i (hi : i < sig.length), (a[i]?).map Prod.snd = if i < pos.length then pos[i]? else (kw.lookup sig[i].1).or sig[i].2 := by
  unfold callargs at h
  split at h
  · rename_i hk
    obtain ⟨h1, -, h3⟩ := bind_spec sig pos kw a h
    refine ⟨h1, fun p hp => ?_, h3⟩
    have := List.all_eq_true.1 hk p hp
    simpa using this
  · simp at h

/-- Too many positional arguments are refused. -/
theorem callargs_many (sig : List (String × Option Val)) (pos : List Val) (kw : Dict) (h : sig.length < pos.length) : callargs sig pos kw = none := by
  cases hc : callargs sig pos kw with
  | none => rfl
  | some a =>
    unfold callargs at hc
    split at hc
    · have := (bind_spec sig pos kw a hc).2.1
      omega
    · simp at hc

/-- An argument given twice is refused. -/
theorem callargs_twice (n : String) (d : Option Val) (sig : List (String × Option Val)) (v w : Val) (pos : List Val) (kw : Dict) :
    callargs ((n, d) :: sig) (v :: pos) ((n, w) :: kw) = none := by
  unfold callargs
  split <;> simp [bind]

theorem bind_keywords (sig : List (String × Option Val)) (a kw : Dict) (hn : a.map Prod.fst = sig.map Prod.fst)
    (hk : ∀ p ∈ a, kw.lookup p.1 = some p.2) : bind sig [] kw = some a := by
  induction sig generalizing a with
  | nil =>
    have : a = [] := by simpa using hn
    subst this; rfl
  | cons p sig ih =>
    obtain ⟨n, d⟩ := p
    cases a with
    | nil => simp at hn
    | cons q a =>
      obtain ⟨m, v⟩ := q
      simp only [List.map_cons, List.cons.injEq] at hn
      obtain ⟨h1, h2⟩ := hn
      have h1' : m = n := h1
      subst h1'
      have hv : kw.lookup m = some v := hk (m, v) (by simp)
      simp only [bind, hv, Option.some_or]
      rw [ih a h2 (fun p hp => hk p (by simp [hp]))]
      rfl

theorem lookup_mem {a : Dict} (hnd : (a.map Prod.fst).Nodup) {p : String × Val} (hp : p ∈ a) : a.lookup p.1 = some p.2 := by
  induction a with
  | nil => simp at hp
  | cons q a ih =>
    rw [List.map_cons, List.nodup_cons] at hnd
    rw [List.lookup_cons]
    rcases List.mem_cons.1 hp with rfl | hp
    · simp
    · have hne : (p.1 == q.1) = false := by
        simp only [beq_eq_false_iff_ne, ne_eq]
        intro h
        exact hnd.1 (h ▸ List.mem_map_of_mem hp)
      rw [hne]
      exact ih hnd.2 hp

/-- `_internal_copy` calls the class with the recorded arguments as keywords: this call is accepted and records the same arguments, whatever the way in which the arguments were given first. -/
theorem copy_args (sig : List (String × Option Val)) (hs : (sig.map Prod.fst).Nodup) (pos : List Val) (kw a : Dict)
    (h : callargs sig pos kw = some a) : callargs sig [] a = some a := by
  obtain ⟨h1, -, -⟩ := callargs_spec sig pos kw a h
  unfold callargs
  rw [if_pos, bind_keywords sig a a h1 (fun p hp => lookup_mem (h1 ▸ hs) hp)]
  refine List.all_eq_true.2 fun p hp => ?_
  rw [← h1]
  simpa using ⟨p.2, hp⟩

/-! ## Descriptors -/

theorem lookup_filter (a : Dict) (hnd : (a.map Prod.fst).Nodup) (k : String) :
    (a.filter fun p => p.2.recorded).lookup k = (a.lookup k).filter Val.recorded := by
  induction a with
  | nil => rfl
  | cons p a ih =>
    rw [List.map_cons, List.nodup_cons] at hnd
    by_cases hp : p.2.recorded = true
    · rw [List.filter_cons_of_pos (by simpa using hp), List.lookup_cons, List.lookup_cons]
      cases hk : k == p.1 with
      | true => simp [Option.filter, hp]
      | false => simpa using ih hnd.2
    · rw [List.filter_cons_of_neg (by simpa using hp), List.lookup_cons, ih hnd.2]
      cases hk : k == p.1 with
      | true =>
        have hn : a.lookup k = none := List.lookup_eq_none_iff.2 (fun q hq => by
          simp only [bne_iff_ne, ne_eq]
          intro h
          exact hnd.1 ((beq_iff_eq.1 hk) ▸ h ▸ List.mem_map_of_mem hq))
        simp [hn, Option.filter, hp]
      | false => rfl

/-- The descriptors of a new instance: its class, the name of the function unless it is a method of the instance, and otherwise exactly the arguments which are texts, tuples or numbers. -/
theorem create_descriptors (cls : String) (args : Dict) (hnd : (args.map Prod.fst).Nodup) (fn : Fn) (pn k : String) :
    (create cls args fn pn).descriptors.lookup k =
      if k = "name" ∧ fn ≠ .own then (match fn with | .own => none | .named n => some (.str n) | .object c => some (.str c))
      else if k = "function_class" then some (.str cls) else (args.lookup k).filter Val.recorded := by
  cases fn with
  | own => simp [create, named, record, lookup_set, lookup_filter args hnd]
  | named n => simp [create, named, record, lookup_set, lookup_filter args hnd]
  | object n => simp [create, named, record, lookup_set, lookup_filter args hnd]

/-- Instances which differ in a text, tuple or number of their arguments are not equivalent, except for arguments called `name` (replaced by the name of the function) or `function_class`. -/
theorem distinguishes_partial (cls cls' : String) (a b : Dict) (ha : (a.map Prod.fst).Nodup) (hb : (b.map Prod.fst).Nodup) (fn fn' : Fn) (pn pn' k : String)
    (hk : k ≠ "name") (hk' : k ≠ "function_class") (h : (a.lookup k).filter Val.recorded ≠ (b.lookup k).filter Val.recorded) :
    equivalent (create cls a fn pn) (create cls' b fn' pn') = false := by
  rw [Bool.eq_false_iff]
  intro he
  unfold equivalent at he
  simp only [Bool.and_eq_true] at he
  have := (same_iff _ _).1 he.2.1 k
  rw [create_descriptors _ _ ha, create_descriptors _ _ hb] at this
  simp only [hk, hk', false_and, if_false] at this
  exact h this

/-- The copy of an instance, made from the recorded arguments, is equivalent to it if its function and the name of the parametrization are the same functions of the arguments. -/
theorem copy_equivalent (sig : List (String × Option Val)) (hs : (sig.map Prod.fst).Nodup) (cls : String) (fn : Dict → Fn) (pn : Dict → String)
    (pos : List Val) (kw a b : Dict) (h : callargs sig pos kw = some a) (h' : callargs sig [] (create cls a (fn a) (pn a)).args = some b) :
    equivalent (create cls a (fn a) (pn a)) (create cls b (fn b) (pn b)) = true := by
  have : some b = some a := h'.symm.trans (copy_args sig hs pos kw a h)
  cases this
  unfold equivalent
  simp [(same_iff _ _).2]

/-! ## Images -/

/-- `Image(loss=loss, with_pgan=...)` as in the benchmarks (benchmark/experiments.py 2988). -/
def imageOf (loss : String) (pgan : Bool) (n : ℚ) : Option Inst :=
  image [] [("loss", .cls loss "type"), ("with_pgan", .num (if pgan then 1 else 0)), ("num_images", .num n)]

theorem imageOf_plain (loss : String) (n : ℚ) : (imageOf loss false n).isSome = true ↔ n = 1 := by
  by_cases h : n = 1
  · subst h
    simp [imageOf, image, callargs, imageSig, bind, List.lookup, Val.instantiate]
  · simp [imageOf, image, callargs, imageSig, bind, List.lookup, Val.instantiate, h]

/-- Without the network, images with different losses are not equivalent: the name of the function tells. -/
theorem image_losses_partial (l l' : String) (h : l ≠ l') (f g : Inst) (hf : imageOf l false 1 = some f) (hg : imageOf l' false 1 = some g) :
    equivalent f g = false := by
  simp [imageOf, image, callargs, imageSig, bind, List.lookup, Val.instantiate] at hf hg
  subst hf hg
  rw [Bool.eq_false_iff]
  intro he
  unfold equivalent at he
  simp only [Bool.and_eq_true] at he
  have := (same_iff _ _).1 he.2.1 "name"
  simp [addDescriptor, create, named, lookup_set] at this
  exact h this

/-- With the network all losses give equivalent functions with the same descriptors: the descriptor `loss` is the name of the class of the class. -/
theorem pgan_losses_lost (l l' : String) (n : ℚ) : ∃ f g, imageOf l true n = some f ∧ imageOf l' true n = some g ∧
    f.args.lookup "loss" = some (.cls l "type") ∧ g.args.lookup "loss" = some (.cls l' "type") ∧
    f.descriptors = g.descriptors ∧ f.descriptors.lookup "loss" = some (.str "type") ∧ equivalent f g = true := by
  refine ⟨_, _, by simp [imageOf, image, callargs, imageSig, bind, List.lookup, Val.instantiate]; rfl,
    by simp [imageOf, image, callargs, imageSig, bind, List.lookup, Val.instantiate]; rfl, ?_, ?_, ?_, ?_, ?_⟩
  · simp [addDescriptor, create, List.lookup]
  · simp [addDescriptor, create, List.lookup]
  · simp [addDescriptor, create, named, record, set, Val.recorded, Val.className]
  · simp [addDescriptor, lookup_set, Val.className]
  · unfold equivalent
    rw [(same_iff _ _).2]
    · simp [addDescriptor, create]
    · intro k
      simp [addDescriptor, create, named, record, set, Val.recorded, Val.className]

/-- `ImageFromPGAN` gets an object, so that the losses are told apart; without a loss it is the one of `Koncept512()`. -/
theorem fromPgan_losses (args : Dict) (l l' : Option String) :
    equivalent (fromPgan args l) (fromPgan args l') = true ↔ l.getD "Koncept512" = l'.getD "Koncept512" := by
  constructor
  · intro he
    unfold equivalent at he
    simp only [Bool.and_eq_true] at he
    have := (same_iff _ _).1 he.2.1 "loss"
    simpa [fromPgan, addDescriptor, lookup_set, Val.className] using this
  · intro h
    unfold equivalent fromPgan
    rw [h]
    simp [(same_iff _ _).2]

/-- The use of a graphics processor is not a descriptor. -/
theorem fromPgan_gpu (args : Dict) (l : Option String) : (fromPgan args l).descriptors.lookup "use_gpu" = none := by
  have h : ∀ d : Dict, (d.filter fun p => p.1 != "use_gpu").lookup "use_gpu" = none := fun d =>
    List.lookup_eq_none_iff.2 (fun p hp => by
      have := (List.mem_filter.1 hp).2
      simp only [bne_iff_ne, ne_eq] at this ⊢
      exact fun h => this h.symm)
  simp [fromPgan, addDescriptor, lookup_set, h]

/-! ## Cases -/

example : callargs imageSig [.str "recovering", .num 0] [("with_pgan", .num 1)] =
    some [("problem_name", .str "recovering"), ("index", .num 0), ("loss", .cls "SumAbsoluteDifferences" "type"), ("with_pgan", .num 1), ("num_images", .num 1)] := by
  decide +kernel

example : callargs imageSig [.str "recovering"] [("problem_name", .str "recovering")] = none := by decide +kernel

example : callargs imageSig [] [("losses", .num 1)] = none := by decide +kernel

example : (image [] []).map (fun f => (f.descriptors.lookup "name", f.descriptors.lookup "loss", f.descriptors.lookup "index")) =
    some (some (.str "SumAbsoluteDifferences"), some (.str "type"), some (.num 0)) := by decide +kernel

example : (do let f ← imageOf "Blur" true 1; let g ← imageOf "Koncept512" true 1; pure (equivalent f g)) = some true := by decide +kernel

example : (do let f ← imageOf "Blur" false 1; let g ← imageOf "Koncept512" false 1; pure (equivalent f g)) = some false := by decide +kernel

example : (do let f ← imageOf "Blur" true 1; let g ← imageOf "Blur" true 2; pure (equivalent f g)) = some false := by decide +kernel

end InitRec
end NG
