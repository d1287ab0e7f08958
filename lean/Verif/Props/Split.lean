import Verif.Model.Split
import Mathlib.Algebra.Order.BigOperators.Group.List
import Mathlib.Data.Rat.Cast.Order
import Mathlib.Tactic.Linarith
import Mathlib.Tactic.FieldSimp

/-! # C67: splitting and rescaling -/

namespace NG
namespace Split

/-! ## The split of the variables -/

theorem sum_indicator (n r : Nat) (h : r ≤ n) : ((List.range n).map (fun i => if i < r then 1 else 0)).sum = r := by
  induction n with
  | zero => simp; omega
  | succ n ih =>
    rw [List.range_succ, List.map_append, List.sum_append]
    rcases Nat.lt_or_ge n r with hr | hr
    · have : r = n + 1 := by omega
      subst this
      have hall : (List.range n).map (fun i => if i < n + 1 then 1 else 0) = (List.range n).map (fun i => if i < n then 1 else 0) := by
        apply List.map_congr_left
        intro i hi
        rw [List.mem_range] at hi
        simp [hi, Nat.lt_succ_of_lt hi]
      rw [hall, ih_full n]
      simp
    · rw [ih hr]; simp; omega
where
  ih_full (n : Nat) : ((List.range n).map (fun i => if i < n then 1 else 0)).sum = n := by
    have : (List.range n).map (fun i => if i < n then 1 else 0) = List.replicate n 1 := by
      rw [List.eq_replicate_iff]
      refine ⟨by simp, ?_⟩
      intro b hb
      rw [List.mem_map] at hb
      obtain ⟨i, hi, rfl⟩ := hb
      rw [List.mem_range] at hi
      simp [hi]
    rw [this]; simp

theorem sum_equal (dim n : Nat) (hn : 0 < n) : ((List.range n).map (size dim n [])).sum = dim := by
  have h1 : (List.range n).map (size dim n []) = (List.range n).map (fun i => dim / n + if i < dim % n then 1 else 0) := by
    apply List.map_congr_left; intro i _; simp [size]
  rw [h1]
  have h2 : ∀ (l : List Nat) (f : Nat → Nat) (c : Nat), (l.map (fun i => c + f i)).sum = l.length * c + (l.map f).sum := by
    intro l f c
    induction l with
    | nil => simp
    | cons a l ih => simp [ih, Nat.add_mul]; omega
  rw [h2, sum_indicator n (dim % n) (Nat.le_of_lt (Nat.mod_lt _ hn)), List.length_range]
  exact Nat.div_add_mod dim n

theorem sizes_given (dim : Nat) (vs : List Nat) : (List.range vs.length).map (size dim vs.length vs) = vs := by
  apply List.ext_getElem?
  intro i
  by_cases h : i < vs.length
  · rw [List.getElem?_map, List.getElem?_range h]
    simp [size, List.getElem?_eq_getElem h]
  · rw [List.getElem?_eq_none (by simp; omega), List.getElem?_eq_none (by omega)]

theorem length_le_sum (l : List Nat) (h : ∀ x ∈ l, 1 ≤ x) : l.length ≤ l.sum := by
  induction l with
  | nil => simp
  | cons a l ih =>
    have := ih (fun x hx => h x (List.mem_cons_of_mem _ hx))
    have := h a (by simp)
    simp; omega

/-- `finish` without numbers of variables: always possible, equal shares. -/
theorem finish_equal (dim : Nat) (num : Num) (hd : 0 < dim) (hn : num ≠ .fin 0) :
    ∃ ds, finish dim num [] = some ds ∧ ds.sum = dim ∧ ds.length = capped dim num ∧ (∀ d ∈ ds, 1 ≤ d) ∧
      ∀ d ∈ ds, ∀ d' ∈ ds, d ≤ d' + 1 := by
  have hc : 0 < capped dim num ∧ capped dim num ≤ dim := by
    cases num with
    | fin n =>
      rcases Nat.eq_zero_or_pos n with h | h
      · subst h; exact (hn rfl).elim
      · simp only [capped]; omega
    | inf => exact ⟨hd, Nat.le_refl _⟩
  generalize hN : capped dim num = n at hc
  have hall : ∀ d ∈ (List.range n).map (size dim n []), dim / n ≤ d ∧ d ≤ dim / n + 1 := by
    intro d hd
    rw [List.mem_map] at hd
    obtain ⟨i, -, rfl⟩ := hd
    simp only [size, List.getElem?_nil, Option.getD_none]
    split <;> omega
  have hpos : 1 ≤ dim / n := (Nat.one_le_div_iff hc.1).mpr hc.2
  have hs : sizes dim n [] = some ((List.range n).map (size dim n [])) := by
    unfold sizes
    rw [if_pos]
    rw [List.all_eq_true]
    intro d hd
    have := (hall d hd).1
    simp; omega
  refine ⟨(List.range n).map (size dim n []), ?_, sum_equal dim n hc.1, by simp, ?_, ?_⟩
  · unfold finish
    rw [hN, hs, Option.bind_some, if_pos (sum_equal dim n hc.1)]
  · intro d hd; have := (hall d hd).1; omega
  · intro d hd d' hd'
    have := (hall d hd).2
    have := (hall d' hd').1
    omega

theorem given_eq (dim : Nat) (vs : List Nat) (num : Option Num) (ds : List Nat) (h : given dim num vs = some ds) :
    ds.sum = dim ∧ (∀ d ∈ ds, 1 ≤ d) ∧ ((∀ v ∈ vs, 1 ≤ v) → ds = vs) := by
  have key : ∀ n, finish dim (.fin n) vs = some ds → n = vs.length →
      ds.sum = dim ∧ (∀ d ∈ ds, 1 ≤ d) ∧ ((∀ v ∈ vs, 1 ≤ v) → vs.sum = dim → ds = vs) := by
    intro n hf hn
    unfold finish at hf
    rw [Option.bind_eq_some_iff] at hf
    obtain ⟨ds', h1, h2⟩ := hf
    split at h2
    · next h3 =>
      injection h2 with h2
      subst h2
      unfold sizes at h1
      split at h1
      · next h4 =>
        injection h1 with h1
        rw [h1] at h4
        refine ⟨h3, ?_, ?_⟩
        · intro d hd
          rw [List.all_eq_true] at h4
          simpa using h4 d hd
        · intro hv hs
          have hlen : vs.length ≤ dim := by rw [← hs]; exact length_le_sum vs hv
          have : capped dim (.fin n) = vs.length := by simp [capped]; omega
          rw [this, sizes_given] at h1
          exact h1.symm
      · simp at h1
    · simp at h2
  unfold given at h
  split at h
  · simp at h
  · next hs =>
    have hs' : vs.sum = dim := by simpa using hs
    split at h
    · obtain ⟨a, b, c⟩ := key _ h rfl
      exact ⟨a, b, fun hv => c hv hs'⟩
    · split at h
      · next hn =>
        obtain ⟨a, b, c⟩ := key _ h hn
        exact ⟨a, b, fun hv => c hv hs'⟩
      · simp at h
    · simp at h

theorem given_ok (dim : Nat) (vs : List Nat) (hs : vs.sum = dim) (hv : ∀ v ∈ vs, 1 ≤ v) : given dim none vs = some vs := by
  unfold given
  rw [if_neg (by simpa using hs)]
  have hlen : vs.length ≤ dim := by rw [← hs]; exact length_le_sum vs hv
  have hc : capped dim (.fin vs.length) = vs.length := by simp [capped]; omega
  simp only [finish, hc]
  unfold sizes
  rw [sizes_given, if_pos (by rw [List.all_eq_true]; intro v h; simpa using hv v h), Option.bind_some, if_pos hs]

theorem blocks_spec (dim m : Nat) (hm : 0 < m) :
    (blocks dim m).sum = dim ∧ (∀ b ∈ blocks dim m, 1 ≤ b ∧ b ≤ m) ∧ (blocks dim m).length = dim / m + if dim % m = 0 then 0 else 1 := by
  have hs : (List.replicate (dim / m) m).sum = dim / m * m := by simp
  have hdm := Nat.div_add_mod dim m
  have hml := Nat.mod_lt dim hm
  have hcomm := Nat.mul_comm m (dim / m)
  unfold blocks
  rw [hs]
  split
  · next h =>
    refine ⟨?_, ?_, ?_⟩
    · rw [List.sum_append, hs]; simp; omega
    · intro b hb
      rw [List.mem_append] at hb
      rcases hb with hb | hb
      · rw [List.eq_of_mem_replicate hb]; omega
      · simp at hb; omega
    · rw [if_neg (by omega)]; simp
  · next h =>
    refine ⟨?_, ?_, ?_⟩
    · rw [List.append_nil, hs]; omega
    · intro b hb
      rw [List.append_nil] at hb
      rw [List.eq_of_mem_replicate hb]; omega
    · rw [if_pos (by omega)]; simp

/-- **C67.** Whenever the constructor accepts, the variables are partitioned: the dimensions of the optimizers add up to the dimension and
each has at least one variable. -/
theorem make_partition (dim : Nat) (guess : List Nat) (num : Option Num) (vars : Option (List Nat)) (maxVars : Option Nat) (ds : List Nat)
    (hd : 0 < dim) (hg : ∀ g ∈ guess, 1 ≤ g) (h : make dim guess num vars maxVars = some ds) : ds.sum = dim ∧ ∀ d ∈ ds, 1 ≤ d := by
  have fin' : ∀ n, finish dim n [] = some ds → ds.sum = dim ∧ ∀ d ∈ ds, 1 ≤ d := by
    intro n hf
    by_cases hn : n = .fin 0
    · subst hn
      have h0 : finish dim (.fin 0) [] = none := by
        simp only [finish, capped, Nat.zero_min, sizes, List.range_zero, List.map_nil, List.all_nil, if_true, Option.bind_some]
        exact if_neg (by simp; omega)
      rw [h0] at hf
      simp at hf
    · obtain ⟨ds', h1, h2, -, h3, -⟩ := finish_equal dim n hd hn
      rw [hf] at h1
      injection h1 with h1
      subst h1
      exact ⟨h2, h3⟩
  unfold make at h
  split at h
  · simp at h
  · split at h
    · simp at h
    · obtain ⟨a, b, -⟩ := given_eq dim _ num ds h
      exact ⟨a, b⟩
  · obtain ⟨a, b, -⟩ := given_eq dim _ num ds h
    exact ⟨a, b⟩
  · split at h
    · exact fin' _ h
    · split at h
      · split at h
        · next hs => injection h with h; subst h; exact ⟨hs, hg⟩
        · simp at h
      · exact fin' _ h

/-- **C67.** `max_num_vars = m`: accepted for any positive `m`, with as few optimizers as possible and none above `m` variables. -/
theorem make_max (dim m : Nat) (guess : List Nat) (hm : 0 < m) :
    ∃ ds, make dim guess none none (some m) = some ds ∧ ds.sum = dim ∧ (∀ d ∈ ds, 1 ≤ d ∧ d ≤ m) ∧
      ds.length = dim / m + if dim % m = 0 then 0 else 1 := by
  obtain ⟨h1, h2, h3⟩ := blocks_spec dim m hm
  refine ⟨blocks dim m, ?_, h1, h2, h3⟩
  simp only [make]
  rw [if_neg (by omega), given_ok dim _ h1 (fun v hv => (h2 v hv).1)]

/-- **C67.** `num_optims = n`: `min n dimension` optimizers whose numbers of variables differ by at most one. -/
theorem make_num (dim : Nat) (num : Num) (guess : List Nat) (hd : 0 < dim) (hn : num ≠ .fin 0) :
    ∃ ds, make dim guess (some num) none none = some ds ∧ ds.sum = dim ∧ ds.length = capped dim num ∧ (∀ d ∈ ds, 1 ≤ d) ∧
      ∀ d ∈ ds, ∀ d' ∈ ds, d ≤ d' + 1 := by
  simp only [make]
  exact finish_equal dim num hd hn

/-- **C67.** `num_vars`: taken as it is when it is a partition, rejected when the sum is wrong. -/
theorem make_vars (dim : Nat) (vs : List Nat) (guess : List Nat) :
    ((vs.sum = dim ∧ ∀ v ∈ vs, 1 ≤ v) → make dim guess none (some vs) none = some vs) ∧
    (vs.sum ≠ dim → make dim guess none (some vs) none = none) := by
  refine ⟨fun ⟨h1, h2⟩ => given_ok dim vs h1 h2, fun h => ?_⟩
  simp [make, given, h]

example : make 7 [] none none (some 3) = some [3, 3, 1] ∧ make 7 [] (some (.fin 3)) none none = some [3, 2, 2] ∧
    make 3 [] (some .inf) none none = some [1, 1, 1] ∧ make 7 [] none (some [3, 3]) none = none ∧
    make 7 [3, 4] none none none = some [3, 4] ∧ make 7 [7] none none none = some [4, 3] := by decide +kernel

/-! ## Slices -/

variable {α β : Type}

theorem slices_flatten (dims : List Nat) (l : List α) (h : l.length = dims.sum) : (slices dims l).flatten = l := by
  induction dims generalizing l with
  | nil => simp at h; subst h; rfl
  | cons d ds ih =>
    simp only [slices, List.flatten_cons]
    rw [ih (l.drop d) (by simp at h ⊢; omega), List.take_append_drop]

theorem slices_lengths (dims : List Nat) (l : List α) (h : l.length = dims.sum) : (slices dims l).map List.length = dims := by
  induction dims generalizing l with
  | nil => rfl
  | cons d ds ih =>
    simp only [slices, List.map_cons]
    rw [ih (l.drop d) (by simp at h ⊢; omega)]
    simp at h ⊢; omega

theorem slices_of_flatten (ls : List (List α)) : slices (ls.map List.length) ls.flatten = ls := by
  induction ls with
  | nil => rfl
  | cons l ls ih => simp [slices, ih]

/-- The points proposed have the dimensions of the optimizers. -/
def Fits (dims : List Nat) (pts : List (List α)) : Prop := pts.map List.length = dims

theorem subsOf_data (zero : α) (pr : Option Nat) (dims : List Nat) (pts : List (List α)) (n : Nat) (h : Fits dims pts) :
    (subsOf zero pr dims pts n).map (fun c => c.data.length) = dims := by
  unfold Fits at h
  apply List.ext_getElem?
  intro i
  simp only [subsOf, List.getElem?_map, List.getElem?_mapIdx]
  by_cases hi : i < dims.length
  · have hlen : dims.length = pts.length := by rw [← h]; simp
    have hp : i < pts.length := by omega
    have hz : (dims.zip pts)[i]? = some (dims[i], pts[i]) := by
      rw [List.getElem?_eq_getElem (by simp; omega)]; simp
    rw [hz, List.getElem?_eq_getElem hi]
    simp only [Option.map_some, Option.some.injEq]
    split
    · simp [Sub.data]
    · simp only [Sub.data]
      have : (pts.map List.length)[i]? = dims[i]? := by rw [h]
      rw [List.getElem?_map, List.getElem?_eq_getElem hp, List.getElem?_eq_getElem hi] at this
      simpa using this
  · rw [List.getElem?_eq_none (l := dims.zip pts) (by simp; omega), List.getElem?_eq_none (l := dims) (by omega)]
    rfl

/-! ## Sessions -/

/-- Uids in use are below the counter. -/
structure Fresh (s : St α β) : Prop where
  asked : ∀ u ∈ s.asked, u < s.uids
  subs : ∀ e ∈ s.subcands, e.1 < s.uids

theorem fresh_step (zero : α) (pr : Option Nat) (dims : List Nat) (s : St α β) (h : Fresh s) (op : Op α β) :
    Fresh (step zero pr dims s op) := by
  cases op with
  | ask pts =>
    refine ⟨?_, ?_⟩
    · intro u hu
      simp only [step, ask, List.mem_append, List.mem_singleton] at hu ⊢
      rcases hu with hu | hu
      · have := h.asked u hu; omega
      · omega
    · intro e he
      simp only [step, ask, List.mem_append, List.mem_singleton] at he ⊢
      rcases he with he | he
      · have := h.subs e he; omega
      · rw [he]; simp
  | askSolver pts sol =>
    refine ⟨?_, ?_⟩
    · intro u hu
      simp only [step, askSolver, List.mem_append, List.mem_singleton] at hu ⊢
      rcases hu with hu | hu
      · have := h.asked u hu; omega
      · omega
    · intro e he
      simp only [step, askSolver, List.mem_append, List.mem_singleton] at he ⊢
      rcases he with he | he
      · have := h.subs e he; omega
      · rw [he]; simp
  | tell c loss =>
    simp only [step]
    unfold tell
    split
    · split
      · exact h
      · exact ⟨fun u hu => h.asked u (List.mem_filter.mp hu).1, fun e he => h.subs e (List.mem_filter.mp he).1⟩
    · exact ⟨h.asked, h.subs⟩

theorem fresh_foldl (zero : α) (pr : Option Nat) (dims : List Nat) (ops : List (Op α β)) (s : St α β) (h : Fresh s) :
    Fresh (ops.foldl (step zero pr dims) s) := by
  induction ops generalizing s with
  | nil => exact h
  | cons op ops ih => exact ih _ (fresh_step zero pr dims s h op)

theorem fresh_run (zero : α) (pr : Option Nat) (dims : List Nat) (ops : List (Op α β)) : Fresh (run zero pr dims ops) :=
  fresh_foldl zero pr dims ops _ ⟨by simp, by simp⟩

/-- The session `ops` does not tell candidate `u`. -/
def NotTold (u : Nat) (ops : List (Op α β)) : Prop := ∀ c l, Op.tell c l ∈ ops → c.uid ≠ u

/-- Candidate `u` waits for its loss, with the given sub-candidates (`none`: no entry). -/
structure Waiting (u : Nat) (subs : Option (List (Sub α))) (s : St α β) : Prop where
  asked : u ∈ s.asked
  lt : u < s.uids
  entry : s.subcands.find? (fun e => e.1 == u) = subs.map (fun x => (u, x))

theorem find_filter (u v : Nat) (h : v ≠ u) (l : List (Nat × List (Sub α))) :
    (l.filter (fun e => e.1 != v)).find? (fun e => e.1 == u) = l.find? (fun e => e.1 == u) := by
  induction l with
  | nil => rfl
  | cons e l ih =>
    by_cases he : e.1 = v
    · rw [List.filter_cons_of_neg (by simp [he]), ih, List.find?_cons_of_neg (by simp [he, h])]
    · rw [List.filter_cons_of_pos (by simp [he])]
      by_cases heu : e.1 = u
      · rw [List.find?_cons_of_pos (by simp [heu]), List.find?_cons_of_pos (by simp [heu])]
      · rw [List.find?_cons_of_neg (by simp [heu]), List.find?_cons_of_neg (by simp [heu]), ih]

theorem waiting_step (zero : α) (pr : Option Nat) (dims : List Nat) (u : Nat) (subs : Option (List (Sub α))) (s : St α β)
    (hw : Waiting u subs s) (op : Op α β) (hop : ∀ c l, op = .tell c l → c.uid ≠ u) : Waiting u subs (step zero pr dims s op) := by
  have happ : ∀ (v : Nat) (x : List (Sub α)), v ≠ u →
      (s.subcands ++ [(v, x)]).find? (fun e => e.1 == u) = subs.map (fun x => (u, x)) := by
    intro v x hv
    rw [List.find?_append, hw.entry]
    cases subs with
    | none => simp [hv]
    | some y => simp
  cases op with
  | ask pts =>
    refine ⟨?_, ?_, ?_⟩
    · simp [step, ask, hw.asked]
    · have := hw.lt; simp [step, ask]; omega
    · simp only [step, ask]; exact happ _ _ (by have := hw.lt; omega)
  | askSolver pts sol =>
    refine ⟨?_, ?_, ?_⟩
    · simp [step, askSolver, hw.asked]
    · have := hw.lt; simp [step, askSolver]; omega
    · simp only [step, askSolver]; exact happ _ _ (by have := hw.lt; omega)
  | tell c loss =>
    have hne := hop c loss rfl
    simp only [step]
    unfold tell
    split
    · split
      · exact hw
      · refine ⟨?_, hw.lt, ?_⟩
        · simp only [Option.getD_some, List.mem_filter, bne_iff_ne]
          exact ⟨hw.asked, fun e => hne e.symm⟩
        · simp only [Option.getD_some]
          rw [find_filter u c.uid hne]
          exact hw.entry
    · exact ⟨hw.asked, hw.lt, hw.entry⟩

theorem waiting_foldl (zero : α) (pr : Option Nat) (dims : List Nat) (u : Nat) (subs : Option (List (Sub α))) (ops : List (Op α β)) (s : St α β)
    (hw : Waiting u subs s) (hops : NotTold u ops) : Waiting u subs (ops.foldl (step zero pr dims) s) := by
  induction ops generalizing s with
  | nil => exact hw
  | cons op ops ih =>
    refine ih _ (waiting_step zero pr dims u subs s hw op (fun c l e => hops c l (by simp [e]))) (fun c l h => hops c l (by simp [h]))

/-- **C67.** An asked point is the concatenation of the points of the optimizers: slice `k` of its data is what optimizer `k` proposed at
this ask (or its unchanged parameter when the optimizer is not active yet), in the dimension of the parametrization. -/
theorem ask_slices (zero : α) (pr : Option Nat) (dims : List Nat) (pts : List (List α)) (hp : Fits dims pts) (s : St α β) :
    (ask zero pr dims pts s).1.data.length = dims.sum ∧
    ∀ (k : Nat) (p : List α), pts[k]? = some p → ∃ d, dims[k]? = some d ∧
      (slices dims (ask zero pr dims pts s).1.data)[k]? =
        some (if frozen pr s.numAsk dims.length k then List.replicate d zero else p) := by
  have h := subsOf_data zero pr dims pts s.numAsk hp
  have hmap : ((subsOf zero pr dims pts s.numAsk).map Sub.data).map List.length = dims := by rw [List.map_map]; exact h
  refine ⟨?_, ?_⟩
  · simp only [ask]
    rw [List.length_flatten, hmap]
  · intro k p hk
    have hs : slices dims (ask zero pr dims pts s).1.data = (subsOf zero pr dims pts s.numAsk).map Sub.data := by
      simp only [ask]
      have := slices_of_flatten ((subsOf zero pr dims pts s.numAsk).map Sub.data)
      rw [hmap] at this
      exact this
    have hkl : k < pts.length := (List.getElem?_eq_some_iff.mp hk).1
    have hlen : dims.length = pts.length := by rw [← hp]; simp
    refine ⟨dims[k], List.getElem?_eq_getElem (by omega), ?_⟩
    rw [hs, List.getElem?_map]
    simp only [subsOf, List.getElem?_mapIdx]
    have hz : (dims.zip pts)[k]? = some (dims[k], p) := by
      rw [List.getElem?_zip_eq_some]
      exact ⟨List.getElem?_eq_getElem (by omega), hk⟩
    rw [hz]
    simp only [Option.map_some, Option.some.injEq]
    split <;> rfl

/-- **C67.** Telling an asked point, at any later time and whatever happens in between: each optimizer is told, with the loss given, exactly
the candidate it contributed to this point. -/
theorem tell_own_partial (zero : α) (pr : Option Nat) (dims : List Nat) (ops ops' : List (Op α β)) (pts : List (List α)) (loss : β)
    (hn : NotTold (run zero pr dims ops).uids ops') :
    ∃ s', tell dims (ask zero pr dims pts (run zero pr dims ops)).1 loss (run zero pr dims (ops ++ .ask pts :: ops')) = some s' ∧
      ∀ (k : Nat), s'.told k = (run zero pr dims (ops ++ .ask pts :: ops')).told k ++
        (match (subsOf zero pr dims pts (run zero pr dims ops).numAsk)[k]? with
          | some c => [(c, loss)]
          | none => []) := by
  have hf := fresh_run zero pr dims ops
  have hrun : run zero pr dims (ops ++ .ask pts :: ops') =
      ops'.foldl (step zero pr dims) (ask zero pr dims pts (run zero pr dims ops)).2 := by
    simp [run, List.foldl_append, step]
  have hu : (ask zero pr dims pts (run zero pr dims ops)).1.uid = (run zero pr dims ops).uids := rfl
  have hw0 : Waiting (run zero pr dims ops).uids (some (subsOf zero pr dims pts (run zero pr dims ops).numAsk))
      (ask zero pr dims pts (run zero pr dims ops)).2 := by
    refine ⟨by simp [ask], by simp [ask], ?_⟩
    simp only [ask]
    rw [List.find?_append]
    have : (run zero pr dims ops).subcands.find? (fun e => e.1 == (run zero pr dims ops).uids) = none := by
      rw [List.find?_eq_none]
      intro e he
      have := hf.subs e he
      simp; omega
    rw [this]
    simp
  have hw := waiting_foldl zero pr dims _ _ ops' _ hw0 hn
  rw [← hrun] at hw
  unfold tell
  rw [hu, if_pos (by simpa using hw.asked), hw.entry]
  refine ⟨_, rfl, ?_⟩
  intro k
  simp only [forward]
  cases (subsOf zero pr dims pts (run zero pr dims ops).numAsk)[k]? <;> simp

/-- **C67.** Telling a point which was not asked: each optimizer is told its slice; the slices have the dimensions of the optimizers and
make up the whole point. -/
theorem tell_not_asked (dims : List Nat) (c : Cand α) (loss : β) (s : St α β) (hc : c.uid ∉ s.asked) (hd : c.data.length = dims.sum) :
    ∃ (s' : St α β) (parts : List (List α)), tell dims c loss s = some s' ∧ parts.flatten = c.data ∧ parts.map List.length = dims ∧
      ∀ (k : Nat), s'.told k = s.told k ++ (match parts[k]? with
        | some d => [(.made d, loss)]
        | none => []) := by
  unfold tell
  rw [if_neg (by simpa using hc)]
  refine ⟨_, slices dims c.data, rfl, slices_flatten dims c.data hd, slices_lengths dims c.data hd, ?_⟩
  intro k
  simp only [forward, List.getElem?_map]
  cases (slices dims c.data)[k]? <;> simp

/-- **C67 (disagreement).** A candidate provided by the constraint solver (the parametrization has cheap constraints and no candidate of
the optimizers satisfied them) can be asked but not told: `KeyError`, at any time. -/
theorem solver_key_error (zero : α) (pr : Option Nat) (dims : List Nat) (ops ops' : List (Op α β)) (pts : List (List α)) (sol : List α)
    (loss : β) (hn : NotTold ((run zero pr dims ops).uids + 1) ops') :
    tell dims (askSolver zero pr dims pts sol (run zero pr dims ops)).1 loss
      (run zero pr dims (ops ++ .askSolver pts sol :: ops')) = none := by
  have hf := fresh_run zero pr dims ops
  have hrun : run zero pr dims (ops ++ .askSolver pts sol :: ops') =
      ops'.foldl (step zero pr dims) (askSolver zero pr dims pts sol (run zero pr dims ops)).2 := by
    simp [run, List.foldl_append, step]
  have hw0 : Waiting ((run zero pr dims ops).uids + 1) (none : Option (List (Sub α)))
      (askSolver zero pr dims pts sol (run zero pr dims ops)).2 := by
    refine ⟨by simp [askSolver], by simp [askSolver], ?_⟩
    simp only [askSolver, Option.map_none, List.find?_eq_none]
    intro e he
    rw [List.mem_append] at he
    rcases he with he | he
    · have := hf.subs e he
      simp; omega
    · simp only [List.mem_singleton] at he
      rw [he]
      simp
  have hw := waiting_foldl zero pr dims _ _ ops' _ hw0 hn
  rw [← hrun] at hw
  have hu : (askSolver zero pr dims pts sol (run zero pr dims ops)).1.uid = (run zero pr dims ops).uids + 1 := rfl
  unfold tell
  rw [hu, if_pos (by simpa using hw.asked), hw.entry]
  rfl

/-! ## Progressive splits -/

/-- The test of the code, with its square root. -/
theorem frozen_iff (budget numAsk len i : Nat) (hb : 0 < budget) (hl : 0 < len) :
    frozen (some budget) numAsk len i = true ↔ 0 < i ∧ Real.sqrt (2 * numAsk / budget) < (i : ℝ) / len := by
  have hb' : (0 : ℝ) < budget := by exact_mod_cast hb
  have hl' : (0 : ℝ) < len := by exact_mod_cast hl
  simp only [frozen, Bool.and_eq_true, decide_eq_true_eq]
  refine and_congr_right (fun hi => ?_)
  have hi' : (0 : ℝ) < (i : ℝ) / len := div_pos (by exact_mod_cast hi) hl'
  rw [Real.sqrt_lt' hi', div_pow, div_lt_div_iff₀ hb' (by positivity)]
  rw [← Nat.cast_lt (α := ℝ)]
  push_cast
  rw [show (2 : ℝ) * numAsk * (len : ℝ) ^ 2 = 2 * numAsk * (len * len) by ring, show (i : ℝ) ^ 2 * budget = i * i * budget by ring]

/-- **C67.** Progressive split: the first optimizer is always active, an active optimizer stays active, the optimizers before it are active
too, and all are active once half of the budget was asked. -/
theorem frozen_progress (pr : Option Nat) (numAsk len : Nat) :
    frozen pr numAsk len 0 = false ∧
    (∀ i numAsk', numAsk ≤ numAsk' → frozen pr numAsk len i = false → frozen pr numAsk' len i = false) ∧
    (∀ i j, j ≤ i → frozen pr numAsk len i = false → frozen pr numAsk len j = false) ∧
    (∀ budget, pr = some budget → budget ≤ 2 * numAsk → ∀ i, i < len → frozen pr numAsk len i = false) := by
  cases pr with
  | none => simp [frozen]
  | some b =>
    refine ⟨by simp [frozen], ?_, ?_, ?_⟩
    · intro i n' hn h
      simp only [frozen, Bool.and_eq_false_iff, decide_eq_false_iff_not, not_lt] at h ⊢
      rcases h with h | h
      · left; exact h
      · right
        refine le_trans h ?_
        exact Nat.mul_le_mul_right _ (by omega)
    · intro i j hj h
      simp only [frozen, Bool.and_eq_false_iff, decide_eq_false_iff_not, not_lt] at h ⊢
      rcases h with h | h
      · left; omega
      · right
        refine le_trans ?_ h
        exact Nat.mul_le_mul_right _ (Nat.mul_le_mul hj hj)
    · rintro budget hb hle i hi
      injection hb with hb
      subst hb
      simp only [frozen, Bool.and_eq_false_iff, decide_eq_false_iff_not, not_lt]
      right
      rw [Nat.mul_comm (i * i)]
      exact Nat.mul_le_mul hle (Nat.mul_le_mul (by omega) (by omega))

example : (ask (0 : Int) (some 100) [2, 1, 1] [[1, 2], [3], [4]] ({ numAsk := 8 } : St Int Int)).1.data = [1, 2, 3, 0] ∧
    (run (0 : Int) none [2, 1] [.ask [[1, 2], [3]], .ask [[4, 5], [6]], .tell ⟨1, [4, 5, 6]⟩ (7 : Int), .tell ⟨9, [0, 1, 2]⟩ 8]).told 0 =
      [(.own 1 [4, 5], 7), (.made [0, 1], 8)] := by decide +kernel

/-! ## Rescaling -/

section
variable [Field α]

/-- **C67.** Rescaling back gives the point of the optimizer (no shift). -/
theorem rescale_inverse_partial (scale : α) (hs : scale ≠ 0) (data : List α) :
    rescale scale none true (rescale scale none false data) = data := by
  simp only [rescale, Option.elim_none, Bool.false_eq_true, if_false, if_true, List.map_map]
  conv_rhs => rw [← List.map_id data]
  apply List.map_congr_left
  intro x _
  simp only [Function.comp, id]
  rw [← mul_assoc, one_div, inv_mul_cancel₀ hs, one_mul]

/-- **C67.** The point sent to the user is the one of the optimizer times the scale, and telling it back (first) tells the optimizer its own
candidate. -/
theorem rescaled_tell (scale : α) (noise : Option (List α)) (point : List α) (loss : β) (s : RSt α β)
    (hf : (∀ u ∈ s.asked, u < s.uids) ∧ ∀ e ∈ s.subcands, e.1 < s.uids) :
    (rask scale none point s).1.data = point.map (scale * ·) ∧
    ∃ s', rtell scale noise (rask scale none point s).1 loss (rask scale none point s).2 = some s' ∧
      s'.told = s.told ++ [(some s.uids, point, loss)] := by
  refine ⟨by simp [rask, rescale], ?_⟩
  have hnone : s.subcands.find? (fun e => e.1 == s.uids) = none := by
    rw [List.find?_eq_none]
    intro e he
    have := hf.2 e he
    simp; omega
  have h1 : ((rask scale none point s).2.asked.contains (rask scale none point s).1.uid) = true := by simp [rask]
  have h2 : (rask scale none point s).2.subcands.find? (fun e => e.1 == (rask scale none point s).1.uid) = some (s.uids, point) := by
    simp only [rask]
    rw [List.find?_append, hnone]
    simp
  unfold rtell
  rw [if_pos h1, h2]
  exact ⟨_, rfl, rfl⟩

/-- **C67.** A point which was not asked is told to the optimizer at its own scale: recreating the point of the optimizer from the data sent
to the user gives back the same data. -/
theorem rescaled_not_asked (scale : α) (hs : scale ≠ 0) (point : List α) (loss : β) (s : RSt α β) (u : Nat) (hu : u ∉ s.asked) :
    ∃ s', rtell scale none ⟨u, rescale scale none false point⟩ loss s = some s' ∧ s'.told = s.told ++ [(none, point, loss)] := by
  unfold rtell
  rw [if_neg (by simpa using hu)]
  refine ⟨_, rfl, ?_⟩
  simp only
  rw [rescale_inverse_partial scale hs]

end

/-- **C67 (disagreement).** The shift is added again, not removed, when a point is told without having been asked. -/
theorem shift_not_inverted :
    rescale (2 : ℚ) (some [1]) true (rescale (2 : ℚ) (some [1]) false [3]) = [9 / 2] := by
  norm_num [rescale]

/-- **C67.** The default scale is usable for budgets of at least 2; for a budget of 1 it is zero and the constructor fails its
assertion. -/
theorem defaultScale_pos (budget dim : Nat) (hb : 2 ≤ budget) (hd : 0 < dim) : 0 < defaultScale budget dim := by
  have h1 : (1 : ℝ) < budget := by exact_mod_cast hb
  have h2 : (0 : ℝ) < dim := by exact_mod_cast hd
  exact Real.sqrt_pos.mpr (div_pos (Real.log_pos h1) h2)

theorem defaultScale_one (dim : Nat) : defaultScale 1 dim = 0 := by simp [defaultScale]

end Split
end NG
