import Verif.Model.Tools
import Mathlib.Data.List.Basic
import Mathlib.Data.List.Flatten
import Mathlib.Data.List.Perm.Basic
import Mathlib.Data.Nat.Digits.Lemmas
import Mathlib.Tactic.Common
import Mathlib.Tactic.IntervalCases

/-! # C41, C42, C54: registry, environment and container tools -/

namespace NG
namespace Tools

/-! ## Dicts -/

section Dict
variable {K V : Type} [DecidableEq K]

theorem dictGet_set (k k' : K) (v : V) : ∀ d : List (K × V),
    dictGet (dictSet k v d) k' = if k' = k then some v else dictGet d k'
  | [] => by
    by_cases h : k' = k
    · simp [dictGet, dictSet, h]
    · simp [dictGet, dictSet, h, Ne.symm h]
  | e :: d => by
    have ih := dictGet_set k k' v d
    unfold dictSet
    by_cases he : e.1 = k
    · simp only [he, if_true]
      by_cases h : k' = k
      · simp [dictGet, h]
      · simp [dictGet, h, Ne.symm h, he]
    · simp only [he, if_false]
      by_cases h : e.1 = k'
      · have hk : k' ≠ k := fun hc => he (h.trans hc)
        simp [dictGet, h, hk]
      · simp only [dictGet, List.find?_cons, h, decide_false] at ih ⊢
        exact ih

theorem dictGet_del (k k' : K) (d : List (K × V)) : dictGet (dictDel k d) k' = if k' = k then none else dictGet d k' := by
  induction d with
  | nil => simp [dictGet, dictDel]
  | cons e d ih =>
    simp only [dictGet, dictDel, List.filter_cons] at ih ⊢
    by_cases he : e.1 = k
    · simp only [he, ne_eq, not_true_eq_false, decide_false, Bool.false_eq_true, if_false]
      rw [ih]
      by_cases h : k' = k
      · simp [h]
      · simp [h, List.find?_cons, he, Ne.symm h]
    · simp only [he, ne_eq, not_false_eq_true, decide_true, if_true, List.find?_cons]
      by_cases h : e.1 = k'
      · have hk : k' ≠ k := fun hc => he (h.trans hc)
        simp [h, hk]
      · simp only [h, decide_false]
        exact ih

end Dict

/-! ## C41: registry -/

variable {X I : Type}

/-- The object a name stands for after a history without direct assignment, read from the end: the last accepted registration
not followed by an unregistration. A registration is accepted if the name stood for nothing. -/
def registered (name : String) : List (RegOp X I) → Option X
  | [] => none
  | op :: before =>
    match op with
    | .register n x _ => if n = name then (match registered name before with | some y => some y | none => some x)
        else registered name before
    | .unregister n => if n = name then none else registered name before
    | .set n x => if n = name then some x else registered name before

/-- C41: for every history (most recent operation first), every name stands for exactly the object of the history. -/
theorem registry_history_partial (name : String) : ∀ ops : List (RegOp X I),
    dictGet (ops.foldr Reg.step { data := [], info := [] }).data name = registered name ops
  | [] => by simp [dictGet, registered]
  | op :: ops => by
    have ih := registry_history_partial name ops
    simp only [List.foldr_cons]
    generalize ops.foldr Reg.step ({ data := [], info := [] } : Reg X I) = r at ih
    cases op with
    | register n x i =>
      simp only [Reg.step, Reg.register, registered]
      by_cases hn : n = name
      · subst hn
        cases hr : dictGet r.data n with
        | some y => rw [hr] at ih; simp [hr, ← ih]
        | none => rw [hr] at ih; simp [← ih, dictGet_set]
      · cases hr : dictGet r.data n with
        | some y => simp [hn, ih]
        | none => simp [hn, Ne.symm hn, dictGet_set, ih]
    | unregister n =>
      simp only [Reg.step, Reg.unregister, registered]
      by_cases hn : n = name
      · subst hn
        cases hr : dictGet r.data n with
        | some y => simp [dictGet_del]
        | none => simp [hr]
      · cases hr : dictGet r.data n with
        | some y => simp [hn, Ne.symm hn, dictGet_del, ih]
        | none => simp [hn, ih]
    | set n x =>
      simp only [Reg.step, registered, dictGet_set]
      by_cases hn : n = name
      · simp [hn]
      · simp [hn, Ne.symm hn, ih]

/-- C41: registering a name already present raises, whatever the object; otherwise it is accepted and changes this name only. -/
theorem register_spec (name : String) (x : X) (i : Option I) (r : Reg X I) :
    (r.register name x i = none ↔ (dictGet r.data name).isSome) ∧
      ∀ r', r.register name x i = some r' → dictGet r'.data name = some x ∧
        ∀ n, n ≠ name → dictGet r'.data n = dictGet r.data n ∧ dictGet r'.info n = dictGet r.info n := by
  constructor
  · cases h : dictGet r.data name <;> simp [Reg.register, h]
  · intro r' hr
    cases h : dictGet r.data name with
    | some y => simp [Reg.register, h] at hr
    | none =>
      simp only [Reg.register, h, Option.some.injEq] at hr
      subst hr
      refine ⟨by simp [dictGet_set], fun n hn => ⟨by simp [dictGet_set, hn], ?_⟩⟩
      cases i with
      | none => rfl
      | some i => simp [dictGet_set, hn]

example : (([.register "a" 2 none, .unregister "a", .register "b" 5 none, .register "a" 3 none, .register "a" 1 none] :
    List (RegOp Nat Nat)).foldr Reg.step { data := [], info := [] }).data = [("b", 5), ("a", 2)] := by
  decide +kernel

/-- C41 fails for the information attached to a name: unregistering keeps it, so a new object registered without information
under this name gets the one of the old object. -/
theorem stale_info :
    let r0 : Reg Nat String := { data := [], info := [] }
    let r := ((r0.register "a" 1 (some "old")).map (Reg.unregister "a")).bind (fun r => r.register "a" 2 none)
    (r.map (fun r => (dictGet r.data "a", r.getInfo "" "a"))) = some (some 2, some "old") := by decide +kernel

/-- C41 fails for item assignment, which overwrites silently. -/
theorem assignment_overwrites :
    let r0 : Reg Nat String := { data := [], info := [] }
    (r0.register "a" 1 none).map (fun r => dictGet (r.step (.set "a" 2)).data "a") = some (some 2) := by decide +kernel

/-! ## C42: environment -/

theorem update_other (valid : String → Bool) (x : String) : ∀ (kvs : List (String × String)) (e : Env),
    x ∉ kvs.map (·.1) → (Env.update valid kvs e).2 x = e x
  | [], e, _ => rfl
  | (k, v) :: kvs, e, h => by
    simp only [List.map_cons, List.mem_cons, not_or] at h
    unfold Env.update
    split
    · rw [update_other valid x kvs _ h.2]
      simp [Env.set, h.1]
    · rfl

theorem update_set (valid : String → Bool) (x v : String) : ∀ (kvs : List (String × String)) (e e' : Env),
    (kvs.map (·.1)).Nodup → Env.update valid kvs e = (true, e') → (x, v) ∈ kvs → e' x = some v
  | [], e, e', _, _, h => by cases h
  | (k, w) :: kvs, e, e', hn, hu, h => by
    simp only [List.map_cons, List.nodup_cons] at hn
    unfold Env.update at hu
    split at hu
    · rcases List.mem_cons.mp h with h | h
      · simp only [Prod.mk.injEq] at h
        obtain ⟨rfl, rfl⟩ := h
        have := update_other valid x kvs (e.set x v) hn.1
        rw [hu] at this
        simpa [Env.set] using this
      · exact update_set valid x v kvs _ e' hn.2 hu h
    · simp at hu

theorem restore_spec : ∀ (old : List (String × Option String)) (e : Env), (old.map (·.1)).Nodup →
    (∀ k ∈ old.map (·.1), (e k).isSome) →
    (Env.restore old e).1 = true ∧ (∀ k v, (k, v) ∈ old → (Env.restore old e).2 k = v) ∧
      ∀ k, k ∉ old.map (·.1) → (Env.restore old e).2 k = e k
  | [], e, _, _ => ⟨rfl, by simp, by simp [Env.restore]⟩
  | (k, v) :: old, e, hn, hs => by
    simp only [List.map_cons, List.nodup_cons] at hn
    obtain ⟨w, hw⟩ := Option.isSome_iff_exists.mp (hs k (by simp))
    have hs' : ∀ k' ∈ old.map (·.1), ((fun x => if x = k then v else e x) k').isSome := by
      intro k' hk'
      have hne : k' ≠ k := fun hc => hn.1 (hc ▸ hk')
      simp only [hne, if_false]
      exact hs k' (by simp only [List.map_cons, List.mem_cons]; exact Or.inr hk')
    obtain ⟨g1, g2, g3⟩ := restore_spec old (fun x => if x = k then v else e x) hn.2 hs'
    simp only [Env.restore, hw]
    refine ⟨g1, ?_, ?_⟩
    · intro k' v' hm
      rcases List.mem_cons.mp hm with hm | hm
      · simp only [Prod.mk.injEq] at hm
        obtain ⟨rfl, rfl⟩ := hm
        rw [g3 k' hn.1]
        simp
      · exact g2 k' v' hm
    · intro k' hk'
      simp only [List.map_cons, List.mem_cons, not_or] at hk'
      rw [g3 k' hk'.2]
      simp [hk'.1]

/-- C42: if the names are capitalized, the values accepted, and the body leaves the variables present, then: the body sees the
given values and otherwise the environment as it was; afterwards the given variables are exactly as before (present or not)
and the others as the body left them. -/
theorem setEnv_restores_partial (upper valid : String → Bool) (environ : List (String × String)) (body : Env → Env) (e : Env)
    (hn : (environ.map (·.1)).Nodup) (hu : ∀ kv ∈ environ, upper kv.1 = true) (hv : ∀ kv ∈ environ, valid kv.2 = true)
    (hb : ∀ e' : Env, (∀ k v, (k, v) ∈ environ → e' k = some v) → (∀ k, k ∉ environ.map (·.1) → e' k = e k) →
      ∀ k ∈ environ.map (·.1), (body e' k).isSome) :
    ∃ e', (∀ k v, (k, v) ∈ environ → e' k = some v) ∧ (∀ k, k ∉ environ.map (·.1) → e' k = e k) ∧
      (setEnv upper valid environ body e).1 = true ∧
      (∀ k ∈ environ.map (·.1), (setEnv upper valid environ body e).2 k = e k) ∧
      ∀ k, k ∉ environ.map (·.1) → (setEnv upper valid environ body e).2 k = body e' k := by
  have hok : ∀ (kvs : List (String × String)) (e : Env), (∀ kv ∈ kvs, valid kv.2 = true) → (Env.update valid kvs e).1 = true := by
    intro kvs
    induction kvs with
    | nil => intro e _; rfl
    | cons kv kvs ih =>
      intro e h
      simp only [Env.update, h kv (by simp), if_true]
      exact ih _ (fun kv hkv => h kv (by simp [hkv]))
  cases hupd : Env.update valid environ e with
  | mk ok e' =>
    have h1 := hok environ e hv
    rw [hupd] at h1
    simp only at h1
    subst h1
    have hset : ∀ k v, (k, v) ∈ environ → e' k = some v := fun k v h => update_set valid k v environ e e' hn hupd h
    have hoth : ∀ k, k ∉ environ.map (·.1) → e' k = e k := by
      intro k hk
      have := update_other valid k environ e hk
      rw [hupd] at this
      exact this
    have hall : environ.all (fun kv => upper kv.1) = true := List.all_eq_true.mpr hu
    have hmap : (environ.map (fun kv => (kv.1, e kv.1))).map (·.1) = environ.map (·.1) := by simp
    obtain ⟨g1, g2, g3⟩ := restore_spec (environ.map (fun kv => (kv.1, e kv.1))) (body e') (by rw [hmap]; exact hn)
      (by rw [hmap]; exact hb e' hset hoth)
    refine ⟨e', hset, hoth, ?_, ?_, ?_⟩
    · simp only [setEnv, hall, if_true, hupd]
      exact g1
    · intro k hk
      simp only [setEnv, hall, if_true, hupd]
      obtain ⟨kv, hkv, rfl⟩ := List.mem_map.mp hk
      exact g2 kv.1 (e kv.1) (List.mem_map.mpr ⟨kv, hkv, rfl⟩)
    · intro k hk
      simp only [setEnv, hall, if_true, hupd]
      exact g3 k (by rw [hmap]; exact hk)

/-- C42: a name that is not capitalized is rejected, and nothing is changed. -/
theorem setEnv_rejects (upper valid : String → Bool) (environ : List (String × String)) (body : Env → Env) (e : Env)
    (kv : String × String) (hm : kv ∈ environ) (hu : upper kv.1 = false) : setEnv upper valid environ body e = (false, e) := by
  have : environ.all (fun kv => upper kv.1) = false := by
    rw [List.all_eq_false]
    exact ⟨kv, hm, by simp [hu]⟩
  simp [setEnv, this]

/-- C42 fails when the body removes a variable: leaving raises KeyError and the following variables are not restored. -/
theorem setEnv_removed :
    let e : Env := fun x => if x = "B" then some "old" else none
    let body : Env → Env := fun e x => if x = "A" then none else e x
    let r := setEnv (fun _ => true) (fun _ => true) [("A", "1"), ("B", "2")] body e
    r.1 = false ∧ r.2 "B" = some "2" := by decide +kernel

/-- C42 fails when the system refuses a value: the variables set before it are never restored. -/
theorem setEnv_refused :
    let e : Env := fun _ => none
    let r := setEnv (fun _ => true) (fun v => v != "\x00") [("A", "1"), ("B", "\x00")] id e
    r.1 = false ∧ r.2 "A" = some "1" ∧ e "A" = none := by decide +kernel

example : let e : Env := fun x => if x = "B" then some "old" else none
    let body : Env → Env := fun e x => if x = "C" then e "A" else e x
    let r := setEnv (fun _ => true) (fun _ => true) [("A", "1"), ("B", "2")] body e
    r.1 = true ∧ r.2 "A" = none ∧ r.2 "B" = some "old" ∧ r.2 "C" = some "1" := by decide +kernel

/-! ## C54: iteration tools -/

variable {α : Type}

/-- C54: `pairwise` yields the consecutive pairs. -/
theorem pairwise_spec (xs : List α) : (pairwise xs).length = xs.length - 1 ∧
    ∀ (i : Nat) (p : α × α), (pairwise xs)[i]? = some p ↔ xs[i]? = some p.1 ∧ xs[i + 1]? = some p.2 := by
  constructor
  · simp [pairwise]
  · intro i p
    simp only [pairwise, List.getElem?_zip_eq_some, List.getElem?_drop]
    rw [Nat.add_comm]

theorem zipRow_full (fill : α) : ∀ (n : Nat) (xs : List α) (m : Nat), n ≤ xs.length →
    zipRow fill (List.replicate n true) xs m = some (xs.take n, List.replicate n true, xs.drop n, m)
  | 0, xs, m, _ => by simp [zipRow]
  | n + 1, [], m, h => by simp at h
  | n + 1, x :: xs, m, h => by
    simp only [List.length_cons, Nat.add_le_add_iff_right] at h
    simp [List.replicate_succ, zipRow, zipRow_full fill n xs m h]

theorem zipRow_empty (fill : α) : ∀ (n m : Nat), n < m → zipRow fill (List.replicate n true) [] m =
    some (List.replicate n fill, List.replicate n false, [], m - n)
  | 0, m, _ => by simp [zipRow]
  | n + 1, m, h => by
    simp only [List.replicate_succ, zipRow]
    rw [if_neg (by omega), zipRow_empty fill n (m - 1) (by omega)]
    simp
    omega

theorem zipRow_part (fill : α) : ∀ (xs : List α) (n m : Nat), xs.length ≤ n → n - xs.length < m →
    zipRow fill (List.replicate n true) xs m =
      some (xs ++ List.replicate (n - xs.length) fill,
        List.replicate xs.length true ++ List.replicate (n - xs.length) false, [], m - (n - xs.length))
  | [], n, m, _, h => by
    simp only [List.length_nil, Nat.sub_zero] at h ⊢
    rw [zipRow_empty fill n m h]
    simp
  | x :: xs, 0, m, h, _ => by simp at h
  | x :: xs, n + 1, m, h, hm => by
    simp only [List.length_cons, Nat.add_le_add_iff_right] at h
    simp only [List.length_cons, Nat.add_sub_add_right] at hm ⊢
    simp [List.replicate_succ, zipRow, zipRow_part fill xs n m h hm]

theorem zipRow_stop (fill : α) : ∀ (k : Nat) (fs : List Bool), zipRow fill (List.replicate (k + 1) true ++ fs) [] (k + 1) = none
  | 0, fs => by simp [zipRow]
  | k + 1, fs => by
    rw [List.replicate_succ, List.cons_append]
    simp only [zipRow]
    rw [if_neg (by omega)]
    have := zipRow_stop fill k fs
    simp only [Nat.add_sub_cancel]
    rw [this]
    rfl

/-- The groups: cut every `n` elements, the last group being filled up. -/
def chunks (n : Nat) (fill : α) : Nat → List α → List (List α)
  | 0, _ => []
  | _ + 1, [] => []
  | k + 1, x :: xs =>
    ((x :: xs).take n ++ List.replicate (n - (x :: xs).length) fill) :: chunks n fill k ((x :: xs).drop n)

theorem zipLongest_chunks (fill : α) (n : Nat) (hn : 0 < n) : ∀ (fuel : Nat) (xs : List α), xs.length < fuel →
    zipLongest fill fuel (List.replicate n true) xs n = chunks n fill fuel xs
  | 0, xs, h => by omega
  | fuel + 1, [], h => by
    obtain ⟨k, rfl⟩ : ∃ k, n = k + 1 := ⟨n - 1, by omega⟩
    have := zipRow_stop fill k []
    rw [List.append_nil] at this
    simp [zipLongest, this, chunks]
  | fuel + 1, x :: xs, h => by
    have hne : ¬ (List.replicate n true = [] ∨ n = 0) := by simp; omega
    simp only [zipLongest, if_neg hne, chunks]
    by_cases hle : n ≤ (x :: xs).length
    · rw [zipRow_full fill n _ n hle]
      simp only
      rw [zipLongest_chunks fill n hn fuel _ (by rw [List.length_drop]; simp at h ⊢; omega)]
      rw [Nat.sub_eq_zero_of_le hle]
      simp
    · have hle' : (x :: xs).length ≤ n := by omega
      rw [zipRow_part fill (x :: xs) n n hle' (by simp; omega)]
      simp only
      have hdrop : (x :: xs).drop n = [] := List.drop_eq_nil_of_le hle'
      rw [hdrop, List.take_of_length_le hle']
      have h2 : zipLongest fill fuel (List.replicate (x :: xs).length true ++ List.replicate (n - (x :: xs).length) false) []
          (n - (n - (x :: xs).length)) = [] := by
        have h3 : n - (n - (x :: xs).length) = xs.length + 1 := by simp at hle' ⊢; omega
        rw [h3]
        cases fuel with
        | zero => rfl
        | succ fuel =>
          simp only [zipLongest]
          split
          · rfl
          · rw [show (x :: xs).length = xs.length + 1 from rfl, zipRow_stop]
      rw [h2]
      cases fuel <;> rfl

/-- C54: `grouper` cuts into groups of exactly `n` elements, in order: their concatenation is the input followed by fewer than
`n` fill values. -/
theorem grouper_spec (xs : List α) (n : Nat) (hn : 0 < n) (fill : α) :
    (∀ g ∈ grouper xs n fill, g.length = n) ∧
      ∃ k < n, (grouper xs n fill).flatten = xs ++ List.replicate k fill := by
  unfold grouper
  rw [zipLongest_chunks fill n hn _ xs (by omega)]
  have gen : ∀ (fuel : Nat) (xs : List α), xs.length < fuel → (∀ g ∈ chunks n fill fuel xs, g.length = n) ∧
      ∃ k < n, (chunks n fill fuel xs).flatten = xs ++ List.replicate k fill := by
    intro fuel
    induction fuel with
    | zero => intro xs h; omega
    | succ fuel ih =>
      intro xs h
      cases xs with
      | nil => exact ⟨by simp [chunks], 0, hn, by simp [chunks]⟩
      | cons x xs =>
        obtain ⟨h1, k, hk, h2⟩ := ih ((x :: xs).drop n) (by rw [List.length_drop]; simp at h ⊢; omega)
        constructor
        · intro g hg
          simp only [chunks, List.mem_cons] at hg
          rcases hg with rfl | hg
          · simp; omega
          · exact h1 g hg
        · simp only [chunks, List.flatten_cons, h2]
          by_cases hle : n ≤ (x :: xs).length
          · refine ⟨k, hk, ?_⟩
            rw [Nat.sub_eq_zero_of_le hle]
            simp only [List.replicate_zero, List.append_nil]
            rw [← List.append_assoc, List.take_append_drop]
          · have hdrop : (x :: xs).drop n = [] := List.drop_eq_nil_of_le (by omega)
            have hk0 : k = 0 := by
              rw [hdrop] at h2
              have hf : (chunks n fill fuel ([] : List α)).flatten = [] := by cases fuel <;> simp [chunks]
              rw [hf] at h2
              have := congrArg List.length h2
              simp at this
              omega
            refine ⟨n - (x :: xs).length, by simp; omega, ?_⟩
            rw [hdrop, hk0, List.take_of_length_le (by omega)]
            simp
  exact gen _ xs (by omega)

example : grouper [1, 2, 3, 4, 5, 6, 7] 3 0 = [[1, 2, 3], [4, 5, 6], [7, 0, 0]] := by decide +kernel

/-- Groups of size 0 lose everything. -/
theorem grouper_zero (xs : List α) (fill : α) : grouper xs 0 fill = [] := by simp [grouper, zipLongest]

/-- The tails of the non-empty lists. -/
def tails (ls : List (List α)) : List (List α) := ls.filterMap (fun l => match l with | [] => none | _ :: t => some t)

theorem roundrobin_round (A B : List (List α)) :
    roundrobin (A ++ B) = A.filterMap List.head? ++ roundrobin (B ++ tails A) := by
  induction A generalizing B with
  | nil => simp [tails]
  | cons a A ih =>
    cases a with
    | nil =>
      simp only [List.cons_append, roundrobin, List.filterMap_cons, List.head?_nil, tails]
      exact ih B
    | cons x xs =>
      simp only [List.cons_append, roundrobin, List.filterMap_cons, List.head?_cons, tails]
      have := ih (B ++ [xs])
      rw [List.append_assoc] at this ⊢
      rw [this]
      simp [tails]

theorem tails_getElem (ls : List (List α)) (k : Nat) : (tails ls).filterMap (·[k]?) = ls.filterMap (·[k + 1]?) := by
  unfold tails
  rw [List.filterMap_filterMap]
  congr 1
  funext l
  cases l <;> simp

/-- C54: `roundrobin` yields the first elements of all iterables in order, then the second ones of those that have one, and
so on: every element exactly once. -/
theorem roundrobin_spec (ls : List (List α)) (m : Nat) (hm : ∀ l ∈ ls, l.length ≤ m) :
    roundrobin ls = (List.range m).flatMap (fun k => ls.filterMap (·[k]?)) := by
  induction m generalizing ls with
  | zero =>
    have hall : ∀ l ∈ ls, l = [] := fun l hl => List.eq_nil_of_length_eq_zero (Nat.le_zero.mp (hm l hl))
    clear hm
    induction ls with
    | nil => simp [roundrobin]
    | cons l ls ih =>
      rw [hall l (by simp)]
      simp only [roundrobin]
      exact ih (fun l hl => hall l (by simp [hl]))
  | succ m ih =>
    have h1 := roundrobin_round ls []
    rw [List.append_nil, List.nil_append] at h1
    have hlen : ∀ t ∈ tails ls, t.length ≤ m := by
      intro t ht
      simp only [tails, List.mem_filterMap] at ht
      obtain ⟨l, hl, hlt⟩ := ht
      cases l with
      | nil => simp at hlt
      | cons x xs =>
        simp only [Option.some.injEq] at hlt
        subst hlt
        have := hm _ hl
        simp at this
        exact this
    rw [h1, ih _ hlen, List.range_succ_eq_map, List.flatMap_cons]
    congr 1
    · congr 1
      funext l
      cases l <;> simp
    · rw [List.flatMap_map]
      congr 1
      funext k
      exact tails_getElem ls k

/-- C54: so it is a rearrangement of all the elements. -/
theorem roundrobin_perm : ∀ ls : List (List α), (roundrobin ls).Perm ls.flatten
  | [] => by simp [roundrobin]
  | [] :: q => by
    simp only [roundrobin, List.flatten_cons, List.nil_append]
    exact roundrobin_perm q
  | (x :: xs) :: q => by
    simp only [roundrobin, List.flatten_cons, List.cons_append, List.perm_cons]
    refine (roundrobin_perm (q ++ [xs])).trans ?_
    simp only [List.flatten_append, List.flatten_cons, List.flatten_nil, List.append_nil]
    exact List.perm_append_comm
termination_by q => (q.map List.length).sum + q.length
decreasing_by
  · simp
  · simp; omega

example : roundrobin ["ABC".toList, "D".toList, "EF".toList] = "ADEBFC".toList := by
  rw [roundrobin_spec _ 3 (by decide)]; decide

/-! ## Ordered sets -/

/-- C54: adding keeps the elements distinct and puts the key last; the others keep their order. -/
theorem osAdd_spec [DecidableEq α] (k : α) (s : List α) (h : s.Nodup) :
    (osAdd k s).Nodup ∧ (osAdd k s).getLast? = some k ∧ (∀ x, x ∈ osAdd k s ↔ x = k ∨ x ∈ s) ∧
      (osAdd k s).dropLast.Sublist s := by
  refine ⟨?_, by simp [osAdd], ?_, ?_⟩
  · rw [osAdd, List.nodup_append]
    refine ⟨h.filter _, by simp, ?_⟩
    intro a ha b hb hab
    simp only [List.mem_singleton] at hb
    subst hb hab
    simp at ha
  · intro x
    by_cases hx : x = k <;> simp [osAdd, hx]
  · simp [osAdd]

/-- C54: `popright` removes the last element. -/
theorem osPopright_spec [DecidableEq α] (k : α) (s : List α) (h : (s ++ [k]).Nodup) : osPopright (s ++ [k]) = some (k, s) := by
  rw [List.nodup_append] at h
  have hk : ∀ x ∈ s, x ≠ k := fun x hx hc => h.2.2 x hx k (by simp) hc
  have hf : s.filter (fun x => !decide (x = k)) = s := List.filter_eq_self.mpr (fun x hx => by simp [hk x hx])
  simp [osPopright, osDiscard, hf]

/-! ## Sleeping -/

/-- The advised duration is always between the given limits. -/
theorem advisedSleep_range {β : Type} [LinearOrder β] [Div β] (lo hi waits : β) (elapsed mean : Option β) (h : lo ≤ hi) :
    lo ≤ advisedSleep lo hi waits elapsed mean ∧ advisedSleep lo hi waits elapsed mean ≤ hi := by
  unfold advisedSleep
  split
  · exact ⟨le_min (le_max_right _ _) h, min_le_right _ _⟩
  · split
    · exact ⟨le_refl _, h⟩
    · exact ⟨le_min (le_max_right _ _) h, min_le_right _ _⟩

end Tools
end NG
