import Verif.Model.MutChoice

/-!
# The choice between mutations does not choose
-/

namespace NG.MutChoice

/-! ## The layers -/

theorem takeWhile_all {α : Type} (p : α → Bool) : ∀ l : List α, (∀ x ∈ l, p x = true) →
    l.takeWhile p = l := by
  intro l
  induction l with
  | nil => intro _; rfl
  | cons x l ih =>
    intro h
    rw [List.takeWhile_cons, if_pos (h x List.mem_cons_self),
      ih fun y hy => h y (List.mem_cons_of_mem _ hy)]

/-- A layer is put after those of its level or below and before those above. -/
theorem addLayer_split (low high : List Layer) (o : Layer) (hl : ∀ l ∈ low, l.level ≤ o.level)
    (hh : ∀ l ∈ high, o.level < l.level) :
    addLayer (low ++ high) o = low ++ o :: high := by
  have tw : (low ++ high).takeWhile (fun l => decide (l.level ≤ o.level)) = low := by
    rw [List.takeWhile_append]
    have e := takeWhile_all (fun l : Layer => decide (l.level ≤ o.level)) low
      (fun l h => by simpa using hl l h)
    rw [e, if_pos rfl]
    cases high with
    | nil => simp
    | cons h t =>
      have : ¬ h.level ≤ o.level := Nat.not_le.2 (hh h List.mem_cons_self)
      rw [List.takeWhile_cons, if_neg (by simpa using this), List.append_nil]
  unfold addLayer
  cases hlast : (low ++ high).getLast? with
  | none =>
    have := List.getLast?_eq_none_iff.1 hlast
    obtain ⟨h1, h2⟩ := List.append_eq_nil_iff.1 this
    subst h1 h2
    rfl
  | some l =>
    simp only
    split
    · rename_i hle
      cases high with
      | nil => simp
      | cons h t =>
        exfalso
        rw [List.getLast?_append, List.getLast?_cons, Option.some_or] at hlast
        have hm : l ∈ h :: t := List.mem_of_getLast? (by rw [List.getLast?_cons]; exact hlast)
        exact absurd hle (Nat.not_le.2 (hh l hm))
    · unfold bisectRight
      rw [tw, List.take_left, List.drop_left]

/-- Copying a parameter keeps its layers in their order. -/
theorem copyLayers_eq (r : Layer) (l : List Layer) (hs : (r :: l).Pairwise fun a b => a.level ≤ b.level) :
    copyLayers (r :: l) = r :: l := by
  have key : ∀ (l pre : List Layer), (pre ++ l).Pairwise (fun a b => a.level ≤ b.level) →
      l.foldl addLayer pre = pre ++ l := by
    intro l
    induction l with
    | nil => intro pre _; simp
    | cons x l ih =>
      intro pre hp
      rw [List.foldl_cons]
      have h1 : addLayer pre x = pre ++ [x] := by
        have := addLayer_split pre [] x (fun y hy => by
          rw [List.pairwise_append] at hp
          exact hp.2.2 y hy x List.mem_cons_self) (fun y hy => by cases hy)
        simpa using this
      rw [h1, ih (pre ++ [x]) (by simpa using hp)]
      simp
  exact key l [r] hs

/-- The parameter before the choice: its root first, then layers of the levels up to the operations
(`low`) and above (`high`). -/
structure Ready (low high : List Layer) : Prop where
  root : ∃ r l, low = r :: l ∧ r.kind = Kind.root ∧ r.mutates = true ∧ r.recombines = true
  sorted : (low ++ high).Pairwise fun a b => a.level ≤ b.level
  below : ∀ l ∈ low, l.level ≤ operation
  above : ∀ l ∈ high, operation < l.level

theorem addMutations_eq : ∀ (muts : List Layer) (attached : List Nat) (low high : List Layer),
    (∀ m ∈ muts, m.level = operation ∧ m.uid ∉ attached) → (muts.map Layer.uid).Nodup →
    (∀ l ∈ low, l.level ≤ operation) → (∀ l ∈ high, operation < l.level) →
    addMutations attached (low ++ high) muts =
      some ((muts.map Layer.uid).reverse ++ attached, low ++ muts ++ high) := by
  intro muts
  induction muts with
  | nil => intro attached low high _ _ _ _; simp [addMutations]
  | cons m l ih =>
    intro attached low high hm hn hl hh
    obtain ⟨hlev, hatt⟩ := hm m List.mem_cons_self
    rw [List.map_cons, List.nodup_cons] at hn
    rw [addMutations, if_neg hatt, addLayer_split low high m (fun x hx => by rw [hlev]; exact hl x hx)
      (fun x hx => by rw [hlev]; exact hh x hx)]
    have e : low ++ m :: high = (low ++ [m]) ++ high := by simp
    rw [e, ih (m.uid :: attached) (low ++ [m]) high ?_ hn.2 ?_ hh]
    · simp
    · intro x hx
      refine ⟨(hm x (List.mem_cons_of_mem _ hx)).1, ?_⟩
      rw [List.mem_cons]
      rintro (h | h)
      · exact hn.1 (h ▸ List.mem_map_of_mem hx)
      · exact (hm x (List.mem_cons_of_mem _ hx)).2 h
    · intro x hx
      rcases List.mem_append.1 hx with h | h
      · exact hl x h
      · rw [List.mem_singleton] at h
        rw [h, hlev]
        exact Nat.le_refl _

/-- **Where the choice is**: below its mutations. -/
theorem apply_eq (attached : List Nat) (low high : List Layer) (hr : Ready low high) (c : Layer)
    (hc : c.level = operation) (muts : List Layer)
    (hm : ∀ m ∈ muts, m.level = operation ∧ m.uid ∉ attached) (hn : (muts.map Layer.uid).Nodup) :
    apply attached (low ++ high) c muts =
      some ((muts.map Layer.uid).reverse ++ attached, low ++ c :: muts ++ high) := by
  obtain ⟨r, l, hlow, _⟩ := hr.root
  have hcopy : copyLayers (low ++ high) = low ++ high := by
    have := hr.sorted
    rw [hlow] at this ⊢
    exact copyLayers_eq r (l ++ high) this
  unfold apply
  rw [hcopy, addLayer_split low high c (fun x hx => by rw [hc]; exact hr.below x hx)
    (fun x hx => by rw [hc]; exact hr.above x hx)]
  have e : low ++ c :: high = (low ++ [c]) ++ high := by simp
  rw [e, addMutations_eq muts attached (low ++ [c]) high hm hn ?_ hr.above]
  · simp
  · intro x hx
    rcases List.mem_append.1 hx with h | h
    · exact hr.below x h
    · rw [List.mem_singleton] at h
      rw [h, hc]
      exact Nat.le_refl _

/-- **A choice can be applied once only**: the second parameter is refused since the mutations of the list
already belong to the first. -/
theorem apply_twice (attached : List Nat) (low high low' high' : List Layer) (hr : Ready low high)
    (c : Layer) (hc : c.level = operation) (m : Layer) (muts : List Layer)
    (hm : ∀ x ∈ m :: muts, x.level = operation ∧ x.uid ∉ attached)
    (hn : ((m :: muts).map Layer.uid).Nodup) :
    ∃ attached' layers, apply attached (low ++ high) c (m :: muts) = some (attached', layers) ∧
      apply attached' (low' ++ high') c (m :: muts) = none := by
  refine ⟨_, _, apply_eq attached low high hr c hc (m :: muts) hm hn, ?_⟩
  unfold apply
  rw [addMutations, if_pos (by simp)]

/-! ## The calls -/

/-- Going down through layers that do not have the method. -/
theorem exec_down (has : Layer → Bool) (layers : List Layer) (chosen : Option Nat) (i : Nat) :
    ∀ k steps, (∀ j, i < j → j ≤ i + k → ∃ l, layers[j]? = some l ∧ has l = false) →
      exec has layers chosen (steps + k) (i + k) = exec has layers chosen steps i := by
  intro k
  induction k with
  | zero => intro steps _; rfl
  | succ k ih =>
    intro steps h
    obtain ⟨l, hl, hf⟩ := h (i + (k + 1)) (by omega) (Nat.le_refl _)
    rw [show steps + (k + 1) = (steps + k) + 1 by omega, exec, hl]
    simp only [hf, Bool.false_eq_true, if_false]
    rw [if_neg (by omega), show i + (k + 1) - 1 = i + k by omega]
    exact ih steps fun j h1 h2 => h j h1 (by omega)

/-- More steps do not change a result. -/
theorem exec_mono (has : Layer → Bool) (layers : List Layer) (chosen : Option Nat) :
    ∀ steps i r, exec has layers chosen steps i = some r →
      exec has layers chosen (steps + 1) i = some r := by
  intro steps
  induction steps with
  | zero => intro i r h; cases h
  | succ n ih =>
    intro i r h
    rw [exec] at h ⊢
    cases hl : layers[i]? with
    | none => rw [hl] at h; exact h
    | some l =>
      rw [hl] at h
      simp only at h ⊢
      by_cases hh : has l = true
      · rw [if_pos hh] at h ⊢
        by_cases hk : l.kind = Kind.choice
        · rw [if_pos hk] at h ⊢
          cases hs : select layers chosen with
          | none => rw [hs] at h; exact h
          | some j => rw [hs] at h; exact ih j r h
        · rw [if_neg hk] at h ⊢; exact h
      · rw [if_neg hh] at h ⊢
        by_cases h0 : i = 0
        · rw [if_pos h0] at h; cases h
        · rw [if_neg h0] at h ⊢; exact ih _ r h

/-- The layer at a position is plain and has the method: it does the work. -/
theorem exec_here (has : Layer → Bool) (layers : List Layer) (chosen : Option Nat) (i : Nat) (l : Layer)
    (hl : layers[i]? = some l) (hh : has l = true) (hk : l.kind ≠ Kind.choice) (steps : Nat) :
    exec has layers chosen (steps + 1) i = some i := by
  rw [exec, hl]
  simp only [hh, if_true, if_neg hk]

/-- **The last mutation of the list that has the method always does the work**, whatever was chosen. -/
theorem last_wins (has : Layer → Bool) (low high : List Layer) (c : Layer)
    (before after : List Layer) (m : Layer) (hm : has m = true) (hk : m.kind = Kind.plain)
    (ha : ∀ x ∈ after, has x = false) (hh : ∀ x ∈ high, has x = false) (chosen : Option Nat)
    (steps : Nat) (hs : after.length + high.length < steps) :
    call has (low ++ c :: (before ++ m :: after) ++ high) chosen steps =
      some (low.length + 1 + before.length) := by
  have e : low ++ c :: (before ++ m :: after) ++ high =
      (low ++ c :: before) ++ m :: (after ++ high) := by simp
  rw [e]
  unfold call
  have hlen : ((low ++ c :: before) ++ m :: (after ++ high)).length - 1 =
      (low.length + 1 + before.length) + (after.length + high.length) := by
    simp; omega
  rw [hlen]
  have hpos : (low ++ c :: before).length = low.length + 1 + before.length := by simp; omega
  obtain ⟨t, rfl⟩ : ∃ t, steps = (t + 1) + (after.length + high.length) :=
    ⟨steps - 1 - (after.length + high.length), by omega⟩
  rw [exec_down]
  · refine exec_here _ _ _ _ m ?_ hm (by rw [hk]; decide) t
    rw [← hpos, List.getElem?_append_right (Nat.le_refl _), Nat.sub_self]
    rfl
  · intro j h1 h2
    have hj : (low ++ c :: before).length ≤ j := by omega
    rw [List.getElem?_append_right hj]
    obtain ⟨d, hd⟩ : ∃ d, j - (low ++ c :: before).length = d + 1 := ⟨j - (low ++ c :: before).length - 1, by omega⟩
    rw [hd, List.getElem?_cons_succ]
    have hdl : d < (after ++ high).length := by rw [List.length_append]; omega
    refine ⟨_, List.getElem?_eq_getElem hdl, ?_⟩
    have hmem := List.getElem_mem hdl
    rcases List.mem_append.1 hmem with h | h
    · exact ha _ h
    · exact hh _ h

/-- The claim of the class: the selected mutation, or the parameter itself, does the work. -/
def Chooses (has : Layer → Bool) (layers : List Layer) : Prop :=
  ∀ chosen i, select layers chosen = some i → (∃ l, layers[i]? = some l ∧ has l = true) →
    ∃ steps, call has layers chosen steps = some i

def theRoot : Layer := ⟨0, 0, .root, true, true⟩
def theChoice : Layer := ⟨1, 10, .choice, true, true⟩
def cauchy : Layer := ⟨2, 10, .plain, true, false⟩
def translation : Layer := ⟨3, 10, .plain, true, false⟩

/-- **The choice does not choose.** For the two mutations of the photonics problems with `rolling`: when the
Cauchy mutation is selected the translation is done, and likewise when the parameter itself is. -/
theorem not_chooses : ∃ attached layers,
    apply [] [theRoot] theChoice [cauchy, translation] = some (attached, layers) ∧
    select layers (some cauchy.uid) = some 2 ∧ select layers none = some 0 ∧
    (∀ chosen steps, 1 ≤ steps → call Layer.mutates layers chosen steps = some 3) ∧
    layers[3]? = some translation ∧ ¬ Chooses Layer.mutates layers := by
  refine ⟨[3, 2], [theRoot, theChoice, cauchy, translation], by decide, by decide, by decide, ?_,
    by decide, ?_⟩
  · intro chosen steps hs
    obtain ⟨t, rfl⟩ : ∃ t, steps = t + 1 := ⟨steps - 1, by omega⟩
    exact exec_here _ _ _ 3 translation rfl rfl (by decide) t
  · intro h
    obtain ⟨steps, hs⟩ := h (some cauchy.uid) 2 (by decide) ⟨cauchy, rfl, rfl⟩
    cases steps with
    | zero => cases hs
    | succ t =>
      have : call Layer.mutates [theRoot, theChoice, cauchy, translation] (some cauchy.uid) (t + 1) = some 3 :=
        exec_here _ _ _ 3 translation rfl rfl (by decide) t
      rw [this] at hs
      cases hs

/-- The layers above the choice without the method, down to the choice. -/
theorem exec_to_choice (has : Layer → Bool) (low high : List Layer) (c : Layer) (muts : List Layer)
    (hc : has c = true) (hk : c.kind = Kind.choice) (hm : ∀ x ∈ muts ++ high, has x = false)
    (chosen : Option Nat) (k : Nat) (hk' : k ≤ (muts ++ high).length) (steps : Nat) :
    exec has (low ++ c :: (muts ++ high)) chosen (steps + 1 + k) (low.length + k) =
      match select (low ++ c :: (muts ++ high)) chosen with
      | some j => exec has (low ++ c :: (muts ++ high)) chosen steps j
      | none => none := by
  rw [exec_down]
  · rw [exec, List.getElem?_append_right (Nat.le_refl _), Nat.sub_self]
    simp only [List.getElem?_cons_zero, hc, hk, if_true]
    cases select (low ++ c :: (muts ++ high)) chosen <;> rfl
  · intro j h1 h2
    have hj : low.length ≤ j := by omega
    rw [List.getElem?_append_right hj]
    obtain ⟨d, hd⟩ : ∃ d, j - low.length = d + 1 := ⟨j - low.length - 1, by omega⟩
    rw [hd, List.getElem?_cons_succ]
    have hdl : d < (muts ++ high).length := by omega
    exact ⟨_, List.getElem?_eq_getElem hdl, hm _ (List.getElem_mem hdl)⟩

/-- **Endless recombination**: when no mutation of the list has the method and one of them is selected, the
call goes from the mutation down to the choice and from the choice to the mutation, for ever. -/
theorem endless (has : Layer → Bool) (low high : List Layer) (c : Layer) (muts : List Layer)
    (hc : has c = true) (hk : c.kind = Kind.choice) (hm : ∀ x ∈ muts ++ high, has x = false)
    (chosen : Option Nat) (d : Nat) (hd : d < muts.length)
    (hsel : select (low ++ c :: (muts ++ high)) chosen = some (low.length + (d + 1))) :
    ∀ steps, call has (low ++ c :: (muts ++ high)) chosen steps = none := by
  have loop : ∀ steps k, k ≤ (muts ++ high).length →
      exec has (low ++ c :: (muts ++ high)) chosen steps (low.length + k) = none := by
    intro steps
    refine Nat.strongRecOn steps ?_
    intro steps ih k hk'
    by_cases hlt : steps < k + 1
    · have : ∀ k steps, steps < k + 1 → k ≤ (muts ++ high).length →
          exec has (low ++ c :: (muts ++ high)) chosen steps (low.length + k) = none := by
        intro k
        induction k with
        | zero => intro steps h _; have : steps = 0 := by omega
                  subst this; rfl
        | succ k ihk =>
          intro steps h hle
          cases steps with
          | zero => rfl
          | succ t =>
            have hdl : k < (muts ++ high).length := by omega
            rw [exec, List.getElem?_append_right (by omega)]
            rw [show low.length + (k + 1) - low.length = k + 1 by omega, List.getElem?_cons_succ,
              List.getElem?_eq_getElem hdl]
            simp only [hm _ (List.getElem_mem hdl), Bool.false_eq_true, if_false]
            rw [if_neg (by omega), show low.length + (k + 1) - 1 = low.length + k by omega]
            exact ihk t (by omega) (by omega)
      exact this k steps hlt hk'
    · obtain ⟨t, rfl⟩ : ∃ t, steps = t + 1 + k := ⟨steps - 1 - k, by omega⟩
      rw [exec_to_choice has low high c muts hc hk hm chosen k hk' t, hsel]
      exact ih t (by omega) (d + 1) (by rw [List.length_append]; omega)
  intro steps
  unfold call
  have hlen : (low ++ c :: (muts ++ high)).length - 1 = low.length + (muts ++ high).length := by
    simp only [List.length_append, List.length_cons]; omega
  rw [hlen]
  exact loop steps _ (Nat.le_refl _)

/-- The same for the two mutations of the photonics problems before a crossover is added: recombining
never ends when one of them is selected. -/
theorem endless_photonics (steps : Nat) :
    call Layer.recombines [theRoot, theChoice, cauchy, translation] (some cauchy.uid) steps = none :=
  endless Layer.recombines [theRoot] [] theChoice [cauchy, translation] rfl rfl (by decide)
    (some cauchy.uid) 0 (by decide) (by decide) steps

/-- **What holds**: the selected layer does the work when it is the last mutation that has the method, or
when it is the parameter itself and no mutation has it. -/
theorem chooses_partial (has : Layer → Bool) (low high : List Layer) (hr : Ready low high)
    (hroot : ∀ r : Layer, r.mutates = true → r.recombines = true → has r = true) (c : Layer)
    (hc : has c = true) (hk : c.kind = Kind.choice) (muts : List Layer)
    (hp : ∀ m ∈ muts, m.kind = Kind.plain) (hh : ∀ x ∈ high, has x = false) :
    (∀ before m after, muts = before ++ m :: after → has m = true → (∀ x ∈ after, has x = false) →
      ∀ chosen, select (low ++ c :: muts ++ high) chosen = some (low.length + 1 + before.length) →
        ∃ steps, call has (low ++ c :: muts ++ high) chosen steps =
          select (low ++ c :: muts ++ high) chosen) ∧
    ((∀ x ∈ muts, has x = false) →
      ∃ steps, call has (low ++ c :: muts ++ high) none steps = some 0) := by
  constructor
  · intro before m after he hm ha chosen hsel
    refine ⟨after.length + high.length + 1, ?_⟩
    rw [hsel]
    have hkm := hp m (by rw [he]; simp)
    rw [he]
    exact last_wins has low high c before after m hm hkm ha hh chosen _ (Nat.lt_succ_self _)
  · intro hnone
    refine ⟨1 + 1 + (muts ++ high).length, ?_⟩
    have hlen : (low ++ c :: (muts ++ high)).length - 1 = low.length + (muts ++ high).length := by
      simp only [List.length_append, List.length_cons]; omega
    have e : low ++ c :: muts ++ high = low ++ c :: (muts ++ high) := by simp
    rw [e]
    unfold call
    rw [hlen, exec_to_choice has low high c muts hc hk ?_ none _ (Nat.le_refl _) 1]
    · obtain ⟨r, l, hlow, hrk, h1, h2⟩ := hr.root
      simp only [select]
      refine exec_here has _ none 0 r ?_ (hroot r h1 h2) (by rw [hrk]; decide) 0
      rw [hlow]; rfl
    · intro x hx
      rcases List.mem_append.1 hx with h | h
      · exact hnone x h
      · exact hh x h

/-- `_select` finds a mutation of the list by its uid. -/
theorem select_finds (layers : List Layer) (before after : List Layer) (m : Layer)
    (he : layers = before ++ m :: after) (ha : ∀ x ∈ after, x.uid ≠ m.uid) :
    select layers (some m.uid) = some before.length := by
  subst he
  show find m.uid (before ++ m :: after) = _
  have h0 : find m.uid after = none := by
    induction after with
    | nil => rfl
    | cons x l ih =>
      rw [find, ih fun y hy => ha y (List.mem_cons_of_mem _ hy)]
      simp only [if_neg (ha x List.mem_cons_self)]
  induction before with
  | nil => simp [find, h0]
  | cons x l ih => simp [find, ih]

/-! ## The sub-parameters -/

theorem lookup_append (params : List (String × Given)) (n k : String) (g : Given)
    (h : params.any (fun p => p.1 = k) = false) :
    lookup (params ++ [(k, g)]) n = if k = n then some g else lookup params n := by
  unfold lookup
  rw [List.find?_append]
  by_cases hk : k = n
  · subst hk
    have : params.find? (fun p => decide (p.1 = k)) = none := by
      rw [List.find?_eq_none]
      intro x hx hx'
      rw [List.any_eq_false] at h
      exact h x hx hx'
    rw [this]
    simp
  · cases hf : params.find? (fun p => decide (p.1 = n)) with
    | none => simp [hk]
    | some x => simp [hk]

theorem lookup_isSome (params : List (String × Given)) (n : String) :
    (lookup params n).isSome = params.any (fun p => p.1 = n) := by
  unfold lookup
  rw [Option.isSome_map, Bool.eq_iff_iff, List.find?_isSome, List.any_eq_true]

/-- A name that is already used keeps its parameter: the first mutation wins. -/
theorem register_first : ∀ (own params : List (String × Given)) (n : String) (g : Given),
    lookup params n = some g → lookup (register params own) n = some g := by
  intro own
  induction own with
  | nil => intro params n g h; exact h
  | cons p l ih =>
    intro params n g h
    obtain ⟨k, v⟩ := p
    rw [register]
    apply ih
    by_cases ha : params.any (fun p => p.1 = k) = true
    · rw [if_pos ha]; exact h
    · rw [if_neg ha, lookup_append _ _ _ _ (Bool.eq_false_iff.2 ha)]
      have : k ≠ n := by
        rintro rfl
        rw [← lookup_isSome, h] at ha
        exact ha rfl
      rw [if_neg this, h]

/-- A new name gets what the mutation was given, the object itself. -/
theorem register_new : ∀ (own params : List (String × Given)) (n : String),
    lookup params n = none → lookup (register params own) n = lookup own n := by
  intro own
  induction own with
  | nil => intro params n h; exact h
  | cons p l ih =>
    intro params n h
    obtain ⟨k, v⟩ := p
    rw [register]
    by_cases hk : k = n
    · subst hk
      have ha : params.any (fun p => p.1 = k) = false := by
        rw [← lookup_isSome, h]; rfl
      rw [if_neg (by rw [ha]; decide)]
      have : lookup (params ++ [(k, v)]) k = some v := by
        rw [lookup_append _ _ _ _ ha, if_pos rfl]
      rw [register_first l _ k v this]
      simp [lookup]
    · have : lookup ((k, v) :: l) n = lookup l n := by simp [lookup, hk]
      rw [this]
      apply ih
      by_cases ha : params.any (fun p => p.1 = k) = true
      · rw [if_pos ha]; exact h
      · rw [if_neg ha, lookup_append _ _ _ _ (Bool.eq_false_iff.2 ha), if_neg hk, h]

/-- **Two parameters with the same mutation share its sub-parameters**: the object given to the mutation is
found in both. -/
theorem shared (own params params' : List (String × Given)) (n : String) (a : Nat)
    (h : lookup params n = none) (h' : lookup params' n = none) (ho : lookup own n = some (.obj a)) :
    lookup (register params own) n = some (.obj a) ∧ lookup (register params' own) n = some (.obj a) := by
  rw [register_new own params n h, register_new own params' n h', ho]
  exact ⟨rfl, rfl⟩

/-- The sizes of a local Gaussian and of a jump collide: the jump gets the size of the Gaussian. -/
example : lookup (register (register [("sigma", .obj 7)] [("axes", .val 1), ("size", .val 2)])
    [("axis", .val 0), ("size", .val 5)]) "size" = some (.val 2) := by decide

example : (apply [] [theRoot, ⟨9, 900, .plain, false, false⟩] theChoice [cauchy, translation]).map
    (fun p => p.2.map Layer.uid) = some [0, 1, 2, 3, 9] := by decide

end NG.MutChoice
