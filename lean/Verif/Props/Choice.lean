import Verif.Props.Encoder

/-!
# C29: choices read back what was set
-/

namespace NG
namespace Disc

variable {O V : Type}

/-- `k` is the first option accepting `v`. -/
def FirstAccepting (trySet : O → V → O × Bool) (v : V) (os : List O) (k : ℕ) : Prop :=
  ∃ o, os[k]? = some o ∧ (trySet o v).2 = true ∧ ∀ j < k, ∀ o', os[j]? = some o' → (trySet o' v).2 = false

/-- No option accepts `v`. -/
def NoneAccepts (trySet : O → V → O × Bool) (v : V) (os : List O) : Prop := ∀ o ∈ os, (trySet o v).2 = false

theorem tryOptions_some (trySet : O → V → O × Bool) (v : V) (os : List O) (s k : ℕ)
    (h : (tryOptions trySet v os s).2 = some k) :
    ∃ i, k = s + i ∧ FirstAccepting trySet v os i ∧
      (tryOptions trySet v os s).1 = os.mapIdx (fun j o => if j ≤ i then (trySet o v).1 else o) := by
  induction os generalizing s k with
  | nil => simp [tryOptions] at h
  | cons o os ih =>
    unfold tryOptions at h ⊢
    by_cases hb : (trySet o v).2 = true
    · simp only [hb, if_true] at h ⊢
      refine ⟨0, by simpa using h.symm, ⟨o, rfl, hb, fun j hj => absurd hj (by omega)⟩, ?_⟩
      rw [List.mapIdx_cons]
      congr 1
      apply List.ext_getElem <;> simp
    · simp only [hb] at h ⊢
      simp only [Bool.false_eq_true, if_false] at h ⊢
      obtain ⟨i, hi, ⟨o', ho', ha, hf⟩, hl⟩ := ih (s + 1) k h
      refine ⟨i + 1, by omega, ⟨o', by simpa using ho', ha, ?_⟩, ?_⟩
      · intro j hj o'' ho''
        cases j with
        | zero =>
          simp only [List.getElem?_cons_zero, Option.some.injEq] at ho''
          subst ho''; simpa using hb
        | succ j => exact hf j (by omega) o'' (by simpa using ho'')
      · rw [hl, List.mapIdx_cons]; simp

theorem tryOptions_none (trySet : O → V → O × Bool) (v : V) (os : List O) (s : ℕ) :
    (tryOptions trySet v os s).2 = none ↔ NoneAccepts trySet v os := by
  induction os generalizing s with
  | nil => simp [tryOptions, NoneAccepts]
  | cons o os ih =>
    unfold tryOptions
    by_cases hb : (trySet o v).2 = true
    · simp [hb, NoneAccepts]
    · simp only [hb, Bool.false_eq_true, if_false, ih]
      simp [NoneAccepts, hb]

theorem tryOptions_length (trySet : O → V → O × Bool) (v : V) (os : List O) (s : ℕ) :
    (tryOptions trySet v os s).1.length = os.length := by
  induction os generalizing s with
  | nil => rfl
  | cons o os ih =>
    unfold tryOptions
    by_cases hb : (trySet o v).2 = true
    · simp [hb]
    · simp [hb, ih]

theorem setAll_length (trySet : O → V → O × Bool) (vs : List V) (os : List O) :
    (setAll trySet vs os).1.length = os.length := by
  induction vs generalizing os with
  | nil => rfl
  | cons v vs ih =>
    unfold setAll
    cases h : (tryOptions trySet v os 0).2 with
    | none => simp only [h, tryOptions_length]
    | some k => simp only [h, ih, tryOptions_length]

theorem setAll_lt (trySet : O → V → O × Bool) (vs : List V) (os : List O) (ks : List ℕ)
    (h : (setAll trySet vs os).2 = some ks) : ks.length = vs.length ∧ ∀ k ∈ ks, k < os.length := by
  induction vs generalizing os ks with
  | nil => simp [setAll] at h; subst h; simp
  | cons v vs ih =>
    unfold setAll at h
    cases ht : (tryOptions trySet v os 0).2 with
    | none => simp [ht] at h
    | some k =>
      simp only [ht] at h
      obtain ⟨l, hl, rfl⟩ := Option.map_eq_some_iff.mp h
      obtain ⟨h1, h2⟩ := ih _ _ hl
      rw [tryOptions_length] at h2
      obtain ⟨i, hi, ⟨o, ho, _⟩, _⟩ := tryOptions_some _ _ _ _ _ ht
      refine ⟨by simp [h1], ?_⟩
      intro q hq
      rcases List.mem_cons.mp hq with rfl | hq
      · have := (List.getElem?_eq_some_iff.mp ho).1; omega
      · exact h2 q hq

theorem readAll_single (get : O → V) (os : List O) (k : ℕ) (o : O) (h : os[k]? = some o) : readAll get os [k] = some [get o] := by
  simp [readAll, h]

section
variable {α : Type} [Field α] [LinearOrder α] [IsStrictOrderedRing α]

/-- What is assumed of an option: once it has accepted a value it reads this value. -/
def ReadsBack (get : O → V) (trySet : O → V → O × Bool) : Prop := ∀ o v, (trySet o v).2 = true → get (trySet o v).1 = v

/-- **C29**: a value accepted by some option is set on the first such option and then reads back, whatever the sampling
mode and the draws, as long as nothing else is written. -/
theorem choice_set_read (get : O → V) (trySet : O → V → O × Bool) (hr : ReadsBack get trySet) (w : W α) (c : Choice O α)
    (v : V) (ha : ∃ o ∈ c.options, (trySet o v).2 = true) (ex : α → α) (det : Bool) (draws : ℕ → α) :
    (c.set trySet w [v]).2 = true ∧ (c.set trySet w [v]).1.read get ex det draws = some [v] ∧
    ∃ k, FirstAccepting trySet v c.options k ∧ ((c.set trySet w [v]).1.indices.read ex det draws).1 = [k] := by
  cases ht : (tryOptions trySet v c.options 0).2 with
  | none =>
    have := (tryOptions_none _ _ _ _).mp ht
    obtain ⟨o, ho, h⟩ := ha
    rw [this o ho] at h; simp at h
  | some k =>
    obtain ⟨i, hi, hf, hl⟩ := tryOptions_some _ _ _ _ _ ht
    have hki : k = i := by omega
    subst hki
    have hs : c.set trySet w [v] = ({ options := (tryOptions trySet v c.options 0).1,
                                      indices := Softmax.set c.options.length w [k] }, true) := by
      unfold Choice.set
      simp [setAll, ht]
    rw [hs]
    refine ⟨rfl, ?_, k, hf, rfl⟩
    obtain ⟨o, ho, hacc, _⟩ := hf
    have : (tryOptions trySet v c.options 0).1[k]? = some (trySet o v).1 := by
      rw [hl, List.getElem?_mapIdx, ho]; simp
    show readAll get _ [k] = _
    rw [readAll_single _ _ _ _ this, hr o v hacc]

/-- **C29**: a value is rejected exactly when no option accepts it; the indices are then as before. -/
theorem choice_rejects (trySet : O → V → O × Bool) (w : W α) (c : Choice O α) (v : V) :
    ((c.set trySet w [v]).2 = false ↔ NoneAccepts trySet v c.options) ∧
    ((c.set trySet w [v]).2 = false → (c.set trySet w [v]).1.indices = c.indices) := by
  rw [← tryOptions_none trySet v c.options 0]
  unfold Choice.set
  cases ht : (tryOptions trySet v c.options 0).2 <;> simp [setAll, ht]

/-- Options which are constants. -/
def constSet [DecidableEq V] (o v : V) : V × Bool := (o, decide (o = v))

theorem tryOptions_const [DecidableEq V] (v : V) (os : List V) (s : ℕ) : (tryOptions constSet v os s).1 = os := by
  induction os generalizing s with
  | nil => rfl
  | cons o os ih => unfold tryOptions; simp only [constSet, ih]; split <;> rfl

theorem setAll_const [DecidableEq V] (vs : List V) (os : List V) (hv : ∀ v ∈ vs, v ∈ os) :
    (setAll constSet vs os).1 = os ∧ ∃ ks, (setAll constSet vs os).2 = some ks ∧ readAll id os ks = some vs := by
  induction vs with
  | nil => exact ⟨rfl, [], rfl, rfl⟩
  | cons v vs ih =>
    unfold setAll
    cases ht : (tryOptions constSet v os 0).2 with
    | none =>
      have := (tryOptions_none _ _ _ _).mp ht v (hv v (by simp))
      simp [constSet] at this
    | some k =>
      simp only [tryOptions_const, ht]
      obtain ⟨h1, ks, h2, h3⟩ := ih (fun u hu => hv u (by simp [hu]))
      refine ⟨h1, k :: ks, by rw [h2]; rfl, ?_⟩
      obtain ⟨i, hi, ⟨o, ho, hacc, _⟩, _⟩ := tryOptions_some _ _ _ _ _ ht
      have : k = i := by omega
      subst this
      have hov : o = v := by simpa [constSet] using hacc
      unfold readAll at h3 ⊢
      rw [List.mapM_cons, h3, ho, hov]; rfl

/-- **C29** with repetitions: when the options are constants, every list of options' values reads back. -/
theorem choice_repetitions [DecidableEq V] (w : W α) (c : Choice V α) (vs : List V) (hv : ∀ v ∈ vs, v ∈ c.options)
    (ex : α → α) (det : Bool) (draws : ℕ → α) :
    (c.set constSet w vs).2 = true ∧ (c.set constSet w vs).1.read id ex det draws = some vs := by
  obtain ⟨h1, ks, h2, h3⟩ := setAll_const vs c.options hv
  have hs : c.set constSet w vs = ({ options := c.options, indices := Softmax.set c.options.length w ks }, true) := by
    unfold Choice.set; simp [h2, h1]
  rw [hs]
  exact ⟨rfl, h3⟩

/-! ### Repetitions with parameters as options -/

/-- A refused value leaves the option as it was. -/
def Atomic (trySet : O → V → O × Bool) : Prop := ∀ o v, (trySet o v).2 = false → (trySet o v).1 = o

/-- The value read at a position when several values went to the same option: the last of them. -/
def lastAt : List (ℕ × V) → ℕ → Option V
  | [], _ => none
  | (k, v) :: l, q => (lastAt l q).or (if k = q then some v else none)

theorem tryOptions_atomic (trySet : O → V → O × Bool) (hat : Atomic trySet) (v : V) (os : List O) (k : ℕ)
    (h : (tryOptions trySet v os 0).2 = some k) :
    ∃ o, os[k]? = some o ∧ (trySet o v).2 = true ∧ (tryOptions trySet v os 0).1 = os.set k (trySet o v).1 := by
  obtain ⟨i, hi, ⟨o, ho, hacc, hfirst⟩, hl⟩ := tryOptions_some _ _ _ _ _ h
  have : k = i := by omega
  subst this
  refine ⟨o, ho, hacc, ?_⟩
  rw [hl]
  apply List.ext_getElem?
  intro j
  rw [List.getElem?_mapIdx, List.getElem?_set]
  have hlen := (List.getElem?_eq_some_iff.mp ho).1
  rcases lt_trichotomy j k with hj | hj | hj
  · rw [if_neg (by omega)]
    cases hoj : os[j]? with
    | none => rfl
    | some o' => simp [if_pos hj.le, hat o' v (hfirst j hj o' hoj)]
  · subst hj
    rw [ho]; simp [hlen]
  · rw [if_neg (by omega)]
    cases hoj : os[j]? with
    | none => rfl
    | some o' => simp [show ¬ j ≤ k by omega]

theorem setAll_last (get : O → V) (trySet : O → V → O × Bool) (hr : ReadsBack get trySet) (hat : Atomic trySet)
    (vs : List V) (os : List O) (ks : List ℕ) (h : (setAll trySet vs os).2 = some ks) (q : ℕ) :
    ((setAll trySet vs os).1[q]?).map get = (os[q]?).map (fun o => (lastAt (ks.zip vs) q).getD (get o)) := by
  induction vs generalizing os ks with
  | nil =>
    simp [setAll] at h; subst h
    simp [setAll, lastAt]
  | cons v vs ih =>
    unfold setAll at h ⊢
    cases ht : (tryOptions trySet v os 0).2 with
    | none => simp [ht] at h
    | some k =>
      simp only [ht] at h ⊢
      obtain ⟨l, hl, rfl⟩ := Option.map_eq_some_iff.mp h
      rw [ih _ _ hl]
      obtain ⟨o, ho, hacc, he⟩ := tryOptions_atomic trySet hat v os k ht
      rw [he, List.getElem?_set]
      by_cases hkq : k = q
      · subst hkq
        have hlen := (List.getElem?_eq_some_iff.mp ho).1
        simp only [if_true, hlen, ho, Option.map_some, hr o v hacc, List.zip_cons_cons, lastAt]
        cases lastAt (l.zip vs) k <;> simp
      · simp only [if_neg hkq, List.zip_cons_cons, lastAt]
        cases lastAt (l.zip vs) q <;> simp

theorem setAll_read (get : O → V) (trySet : O → V → O × Bool) (hr : ReadsBack get trySet) (hat : Atomic trySet)
    (vs : List V) (os : List O) (ks : List ℕ) (h : (setAll trySet vs os).2 = some ks) :
    readAll get (setAll trySet vs os).1 ks = ks.mapM (lastAt (ks.zip vs)) := by
  obtain ⟨hlen, hlt⟩ := setAll_lt trySet vs os ks h
  unfold readAll
  have key : ∀ l : List ℕ, (∀ k ∈ l, k ∈ ks) →
      l.mapM (fun k => ((setAll trySet vs os).1[k]?).map get) = l.mapM (lastAt (ks.zip vs)) := by
    intro l
    induction l with
    | nil => intro _; rfl
    | cons k l ih =>
      intro hl
      have hk := hl k (by simp)
      have hsome : ∀ (us : List ℕ) (ws : List V), us.length = ws.length → k ∈ us → (lastAt (us.zip ws) k).isSome := by
        intro us
        induction us with
        | nil => intro ws _ hm; simp at hm
        | cons u us ihu =>
          intro ws hlw hm
          cases ws with
          | nil => simp at hlw
          | cons x ws =>
            simp only [List.zip_cons_cons, lastAt]
            rcases List.mem_cons.mp hm with rfl | hm
            · simp
            · simp [ihu ws (by simpa using hlw) hm]
      obtain ⟨x, hx⟩ := Option.isSome_iff_exists.mp (hsome ks vs hlen hk)
      rw [List.mapM_cons, List.mapM_cons, ih (fun q hq => hl q (by simp [hq])), setAll_last get trySet hr hat vs os ks h k, hx,
        List.getElem?_eq_getElem (hlt k hk)]
      rfl
  exact key ks (fun _ h => h)

/-- **C29** with repetitions and arbitrary options, partial: what is read at each position is the last of the values that
went to the same option. Missing for the full statement: the values read back only if no option receives two different
values, see `choice_repetitions_distinct` and `choice_repetitions_overwrite`. -/
theorem choice_repetitions_partial (get : O → V) (trySet : O → V → O × Bool) (hr : ReadsBack get trySet)
    (hat : Atomic trySet) (w : W α) (c : Choice O α) (vs : List V) (ks : List ℕ)
    (h : (setAll trySet vs c.options).2 = some ks) (ex : α → α) (det : Bool) (draws : ℕ → α) :
    (c.set trySet w vs).2 = true ∧ (c.set trySet w vs).1.read get ex det draws = ks.mapM (lastAt (ks.zip vs)) := by
  have hs : c.set trySet w vs = ({ options := (setAll trySet vs c.options).1,
                                   indices := Softmax.set c.options.length w ks }, true) := by
    unfold Choice.set; simp [h]
  rw [hs]
  exact ⟨rfl, setAll_read get trySet hr hat vs c.options ks h⟩

theorem lastAt_none (l : List (ℕ × V)) (q : ℕ) (h : q ∉ l.map Prod.fst) : lastAt l q = none := by
  induction l with
  | nil => rfl
  | cons a l ih =>
    obtain ⟨k, v⟩ := a
    simp only [List.map_cons, List.mem_cons, not_or] at h
    simp [lastAt, ih h.2, Ne.symm h.1]

theorem lastAt_nodup (ks : List ℕ) (vs : List V) (hl : ks.length = vs.length) (hn : ks.Nodup) :
    ks.mapM (lastAt (ks.zip vs)) = some vs := by
  induction ks generalizing vs with
  | nil => cases vs with
    | nil => rfl
    | cons _ _ => simp at hl
  | cons k ks ih =>
    cases vs with
    | nil => simp at hl
    | cons v vs =>
      obtain ⟨hk, hn⟩ := List.nodup_cons.mp hn
      have hl' : ks.length = vs.length := by simpa using hl
      have h1 : lastAt ((k, v) :: ks.zip vs) k = some v := by
        have : lastAt (ks.zip vs) k = none := lastAt_none _ _ (by rw [List.map_fst_zip hl'.le]; exact hk)
        simp [lastAt, this]
      have h2 : ∀ l : List ℕ, (∀ q ∈ l, q ≠ k) → l.mapM (lastAt ((k, v) :: ks.zip vs)) = l.mapM (lastAt (ks.zip vs)) := by
        intro l
        induction l with
        | nil => intro _; rfl
        | cons q l ihl =>
          intro hq
          rw [List.mapM_cons, List.mapM_cons, ihl (fun x hx => hq x (by simp [hx]))]
          have : lastAt ((k, v) :: ks.zip vs) q = lastAt (ks.zip vs) q := by
            simp [lastAt, Ne.symm (hq q (by simp))]
          rw [this]
      rw [List.zip_cons_cons, List.mapM_cons, h1, h2 ks (fun q hq hc => hk (hc ▸ hq)), ih vs hl' hn]
      rfl

/-- **C29** with repetitions: values going to different options all read back. -/
theorem choice_repetitions_distinct (get : O → V) (trySet : O → V → O × Bool) (hr : ReadsBack get trySet)
    (hat : Atomic trySet) (w : W α) (c : Choice O α) (vs : List V) (ks : List ℕ)
    (h : (setAll trySet vs c.options).2 = some ks) (hn : ks.Nodup) (ex : α → α) (det : Bool) (draws : ℕ → α) :
    (c.set trySet w vs).1.read get ex det draws = some vs := by
  rw [(choice_repetitions_partial get trySet hr hat w c vs ks h ex det draws).2]
  exact lastAt_nodup ks vs (setAll_lt _ _ _ _ h).1 hn

/-! ### Valid indices -/

/-- The rows have one weight per option and cached indices are valid. -/
def SoftmaxOk (n : ℕ) (s : Softmax α) : Prop :=
  (∀ row ∈ s.rows, row.length = n) ∧ ∀ ks, s.cache = some ks → ∀ k ∈ ks, k < n

/-- **C29**: whatever the weights, the mode and the draws, the indices read are valid; and they stay so under every
operation. -/
theorem softmax_valid (n : ℕ) (hn : 1 ≤ n) (s : Softmax α) (hs : SoftmaxOk n s) (ex : α → α) (det : Bool) (draws : ℕ → α) :
    (∀ k ∈ (s.read ex det draws).1, k < n) ∧ SoftmaxOk n (s.read ex det draws).2 ∧ SoftmaxOk n s.clear ∧
    ∀ w ks, (∀ k ∈ ks, k < n) → SoftmaxOk n (Softmax.set n w ks : Softmax α) := by
  have hr : ∀ k ∈ (s.read ex det draws).1, k < n := by
    unfold Softmax.read
    cases hc : s.cache with
    | some ks => exact hs.2 ks hc
    | none =>
      intro k hk
      simp only [List.mem_mapIdx] at hk
      obtain ⟨i, hi, rfl⟩ := hk
      have hlen := hs.1 _ (List.getElem_mem hi)
      rw [← hlen]
      exact encode_lt ex det _ _ (by intro h; rw [h] at hlen; simp at hlen; omega)
  refine ⟨hr, ⟨?_, ?_⟩, ⟨hs.1, fun ks h => by simp [Softmax.clear] at h⟩, ?_⟩
  · unfold Softmax.read
    cases s.cache <;> exact hs.1
  · intro ks hks
    have : ks = (s.read ex det draws).1 := by
      unfold Softmax.read at hks ⊢
      cases hc : s.cache with
      | some ks' => rw [hc] at hks; simp only [] at hks ⊢; rw [hc] at hks; simpa using hks.symm
      | none => rw [hc] at hks; simpa using hks.symm
    rw [this]; exact hr
  · intro w ks hks
    refine ⟨?_, ?_⟩
    · intro row hrow
      obtain ⟨k, _, rfl⟩ := List.mem_map.mp hrow
      simp [resetRow]
    · intro ks' h
      have : ks = ks' := by simpa [Softmax.set] using h
      rw [← this]; exact hks

/-- Reading a choice never meets an index out of range. -/
theorem choice_read_some (get : O → V) (c : Choice O α) (hn : 1 ≤ c.options.length) (hs : SoftmaxOk c.options.length c.indices)
    (ex : α → α) (det : Bool) (draws : ℕ → α) : ∃ vs, c.read get ex det draws = some vs := by
  have h := (softmax_valid _ hn c.indices hs ex det draws).1
  unfold Choice.read readAll
  generalize (c.indices.read ex det draws).1 = ks at h
  induction ks with
  | nil => exact ⟨[], rfl⟩
  | cons k ks ih =>
    obtain ⟨vs, hvs⟩ := ih (fun q hq => h q (by simp [hq]))
    exact ⟨get (c.options[k]'(h k (by simp))) :: vs, by
      rw [List.mapM_cons, hvs, List.getElem?_eq_getElem (h k (by simp))]; rfl⟩

/-- A reading is repeated until something is written. -/
theorem softmax_stable (s : Softmax α) (ex : α → α) (det det' : Bool) (draws draws' : ℕ → α) :
    ((s.read ex det draws).2.read ex det' draws').1 = (s.read ex det draws).1 := by
  unfold Softmax.read
  cases hc : s.cache <;> simp [hc]

theorem resetRow_clean (n : ℕ) (w : W α) (hw : w ≠ .nan) (k : ℕ) : (resetRow n w k).map W.clean = resetRow n w k := by
  unfold resetRow
  rw [List.map_map]
  apply List.map_congr_left
  intro i _
  simp only [Function.comp]
  split
  · cases w <;> simp_all [W.clean]
  · rfl

/-- The most likely index of the weights written for `k` is `k`, if the weight written is positive. -/
theorem encode_reset (ex : α → α) (n : ℕ) (x : α) (hx : 0 < x) (k : ℕ) (hk : k < n) (r : α) :
    encode ex true (resetRow n (.fin x) k) r = k := by
  unfold encode
  simp only [if_true, resetRow_clean n (.fin x) (by simp) k]
  have hne : resetRow n (.fin x) k ≠ [] := by
    intro h; have := congrArg List.length h; simp [resetRow] at this; omega
  obtain ⟨w, hw, hmax, _⟩ := argmaxW_first _ hne
  have hk' : (resetRow n (.fin x) k)[k]? = some (.fin x) := by
    simp [resetRow, hk]
  have h1 := hmax _ (List.mem_of_getElem? hk')
  generalize argmaxW (resetRow n (W.fin x) k) = j at hw
  by_contra hne
  have hjn : j < n := by
    have := (List.getElem?_eq_some_iff.mp hw).1; simpa [resetRow] using this
  have : w = .fin 0 := by
    simp [resetRow, hjn, hne] at hw; exact hw.symm
  rw [this] at h1
  simp [W.le] at h1
  exact absurd hx (not_lt.mpr h1)

/-- **C29**: in the deterministic mode the indices set are still read after the cache has been dropped, as in children,
in copies and after a round trip in standardized space. -/
theorem softmax_set_clear (ex : α → α) (n : ℕ) (x : α) (hx : 0 < x) (ks : List ℕ) (hk : ∀ k ∈ ks, k < n) (draws : ℕ → α) :
    ((Softmax.set n (.fin x) ks).clear.read ex true draws).1 = ks := by
  unfold Softmax.read Softmax.clear Softmax.set
  apply List.ext_getElem
  · simp
  · intro i h1 h2
    simp only [List.getElem_mapIdx, List.getElem_map]
    exact encode_reset ex n x hx _ (hk _ (List.getElem_mem h2)) _
end

/-! ### The weight written -/

theorem weight_fin (n : ℕ) (hn : 2 ≤ n) :
    weightForReset n = .fin (Real.log (3 * (n - 1) / (2 * n - 3))) ∧ 0 < Real.log (3 * ((n : ℝ) - 1) / (2 * n - 3)) := by
  have hn' : (2 : ℝ) ≤ n := by exact_mod_cast hn
  have hd : (0 : ℝ) < 2 * n - 3 := by linarith
  have e : (1 / (n : ℝ) * (3 / 2)) * ((n : ℝ) - 1) / (1 - 1 / (n : ℝ) * (3 / 2)) = 3 * (n - 1) / (2 * n - 3) := by
    have h1 : (n : ℝ) ≠ 0 := by linarith
    have h2 : (2 * (n : ℝ) - 3) ≠ 0 := hd.ne'
    have h3 : (1 - 1 / (n : ℝ) * (3 / 2)) = (2 * n - 3) / (2 * n) := by field_simp
    rw [h3]
    field_simp
  have hpos : 1 < 3 * ((n : ℝ) - 1) / (2 * n - 3) := by rw [one_lt_div hd]; linarith
  refine ⟨?_, Real.log_pos hpos⟩
  unfold weightForReset
  simp only [e]
  rw [if_neg (by linarith)]

theorem resetRow_sum (f : W ℝ → ℝ) (n k : ℕ) (w : W ℝ) (hk : k < n) :
    ((resetRow n w k).map f).sum = f w + (n - 1) * f (.fin 0) := by
  have h : ∀ m : ℕ, (((List.range m).map (fun i => if i = k then w else W.fin 0)).map f).sum =
      if k < m then f w + ((m : ℝ) - 1) * f (.fin 0) else m * f (.fin 0) := by
    intro m
    induction m with
    | zero => simp
    | succ m ih =>
      rw [List.range_succ, List.map_append, List.map_append, List.sum_append, ih]
      rcases lt_trichotomy k m with h | h | h
      · rw [if_pos h, if_pos (by omega)]
        simp [show m ≠ k by omega]; ring
      · subst h; simp; ring
      · rw [if_neg (by omega), if_neg (by omega)]
        simp [show m ≠ k by omega]; ring
  unfold resetRow
  rw [h n, if_pos hk]

/-- With the weight of the code, the index set has probability `1.5 / arity` to be drawn again. -/
theorem weight_probability (n : ℕ) (hn : 2 ≤ n) (k : ℕ) (hk : k < n) :
    (probRow Real.exp (resetRow n (weightForReset n) k))[k]? = some ((3 : ℝ) / 2 / n) := by
  obtain ⟨hw, hpos⟩ := weight_fin n hn
  rw [hw]
  have hn' : (2 : ℝ) ≤ n := by exact_mod_cast hn
  have hd : (0 : ℝ) < 2 * n - 3 := by linarith
  set x := Real.log (3 * ((n : ℝ) - 1) / (2 * n - 3)) with hx
  have hne : resetRow n (.fin x) k ≠ [] := by
    intro h; have := congrArg List.length h; simp [resetRow] at this; omega
  have hpos' : W.pos ∉ resetRow n (.fin x) k := by
    intro h
    obtain ⟨i, _, h⟩ := List.mem_map.mp h
    split at h <;> simp at h
  have hnan : W.nan ∉ resetRow n (.fin x) k := by
    intro h
    obtain ⟨i, _, h⟩ := List.mem_map.mp h
    split at h <;> simp at h
  have hkx : (resetRow n (.fin x) k)[k]? = some (.fin x) := by simp [resetRow, hk]
  obtain ⟨Z, hZ, hp⟩ := (prob_spec real_expo _ hnan hne).2.1 hpos' ⟨x, List.mem_of_getElem? hkx⟩
  have hs := (prob_distribution real_expo _ hnan hne).2
  rw [hp, resetRow_sum _ n k _ hk] at hs
  rw [hp, List.getElem?_map, hkx]
  simp only [Option.map_some, Option.some.injEq]
  simp only [Real.exp_zero] at hs
  have hex : Real.exp x = 3 * ((n : ℝ) - 1) / (2 * n - 3) := Real.exp_log (by apply div_pos <;> linarith)
  have hZe : Z = Real.exp x + (n - 1) := by
    field_simp at hs; linarith
  rw [hZe, hex]
  have h1 : (n : ℝ) ≠ 0 := by linarith
  have h4 : (0 : ℝ) < (n : ℝ) - 1 := by linarith
  have h6 : (0 : ℝ) < n := by linarith
  have h5 : 3 * ((n : ℝ) - 1) / (2 * n - 3) + (n - 1) = 2 * n * (n - 1) / (2 * n - 3) := by
    rw [div_add' _ _ _ hd.ne']; ring
  rw [h5, div_div_div_cancel_right₀ hd.ne', div_div, div_eq_div_iff (by positivity) (by positivity)]
  ring

/-- **Against the code**: with a single option the weight written is minus infinity, and the standardized data of the
choice relative to itself is not a number. -/
theorem single_option_nan :
    resetRow 1 (weightForReset 1) 0 = [.neg] ∧ W.sub (weightForReset 1) (weightForReset 1) = .nan := by
  have : weightForReset 1 = .neg := by unfold weightForReset; simp
  rw [this]
  exact ⟨by simp [resetRow], rfl⟩

/-! ### Disagreements with repetitions -/

/-- An option which is either a constant (`none`, holding its number) or a scalar parameter accepting any non-negative
number. -/
def numSet (o : Bool × ℤ) (v : ℤ) : (Bool × ℤ) × Bool :=
  if o.1 then (if 0 ≤ v then ((true, v), true) else (o, false)) else (o, decide (o.2 = v))

theorem numSet_ok : ReadsBack Prod.snd numSet ∧ Atomic numSet := by
  refine ⟨?_, ?_⟩
  · rintro ⟨b, o⟩ v h
    unfold numSet at h ⊢
    cases b
    · simpa using h
    · simp at h ⊢; split <;> simp_all
  · rintro ⟨b, o⟩ v h
    unfold numSet at h ⊢
    cases b
    · rfl
    · simp at h ⊢; split <;> simp_all

/-- **Against the code**: two repetitions of a choice with a parameter among its options. Setting `(3, 5)` is accepted and
reads `(5, 5)`. -/
theorem choice_repetitions_overwrite :
    let c : Choice (Bool × ℤ) ℚ := { options := [(true, 0), (false, -1)], indices := Softmax.set 2 (.fin 1) [0, 0] }
    (c.set numSet (.fin 1) [3, 5]).2 = true ∧ (c.set numSet (.fin 1) [3, 5]).1.read Prod.snd id true (fun _ => 0) = some [5, 5] := by
  decide +kernel

/-- **Against the code**: a rejected assignment is not without effect. Setting `(3, -7)` raises, as no option takes `-7`,
but the first option now holds 3. -/
theorem choice_rejected_alters :
    let c : Choice (Bool × ℤ) ℚ := { options := [(true, 0), (false, -1)], indices := Softmax.set 2 (.fin 1) [0, 0] }
    (c.set numSet (.fin 1) [3, -7]).2 = false ∧ c.read Prod.snd id true (fun _ => 0) = some [0, 0] ∧
    (c.set numSet (.fin 1) [3, -7]).1.read Prod.snd id true (fun _ => 0) = some [3, 3] := by
  decide +kernel

/-- Values of two different options, read after the assignment. -/
example : let c : Choice (Bool × ℤ) ℚ := { options := [(true, 0), (false, -1)], indices := Softmax.set 2 (.fin 1) [0, 0] }
    (c.set numSet (.fin 1) [-1, 4]).1.read Prod.snd id true (fun _ => 0) = some [-1, 4] := by
  decide +kernel

/-! ### `TransitionChoice` -/

theorem trans_good_lower (n : ℕ) : Tr.GoodLower (-(1 / 2) : ℝ) ∧ Tr.GoodLower (-((n : ℝ) - 1 / 2)) := by
  have h1 : Int.fract (-(1 / 2) : ℝ) = 1 / 2 := by
    rw [Int.fract_eq_iff]; exact ⟨by norm_num, by norm_num, -1, by norm_num⟩
  have h2 : Int.fract (-((n : ℝ) - 1 / 2)) = 1 / 2 := by
    rw [Int.fract_eq_iff]; exact ⟨by norm_num, by norm_num, -n, by push_cast; ring⟩
  exact ⟨Or.inr (by rw [h1]; exact Tr.intEps_small), Or.inr (by rw [h2]; exact Tr.intEps_small)⟩

theorem trans_int (lo hi x : ℝ) (hlo : Tr.GoodLower lo) (hhi : Tr.GoodLower (-hi)) :
    Tr.intGet none (some lo) (some hi) x = min ⌊hi⌋ (max ⌈lo⌉ (Tr.roundEven x)) := by
  unfold Tr.intGet
  simp only [Tr.lower_clip lo hlo, Tr.upper_clip hi hhi]

theorem half_ceil : ⌈(-(1 / 2) : ℝ)⌉ = 0 := by rw [Int.ceil_eq_iff]; norm_num

theorem half_floor (n : ℕ) : ⌊(n : ℝ) - 1 / 2⌋ = (n : ℤ) - 1 := by
  rw [Int.floor_eq_iff]; push_cast; constructor <;> linarith

/-- The index of a transition choice is valid whatever its array holds, even for a cdf reaching 0 or 1 by rounding. -/
theorem trans_valid (cdf : ℝ → ℝ) (n : ℕ) (hn : 1 ≤ n) (scale x : ℝ) :
    0 ≤ transGet cdf n scale x ∧ transGet cdf n scale x < n := by
  obtain ⟨h1, h2⟩ := trans_good_lower n
  have := trans_int (-(1 / 2) : ℝ) ((n : ℝ) - 1 / 2) (Tr.cdfForward cdf 0 n scale (fun _ : Unit => x) () - 1 / 2) h1 h2
  unfold transGet
  rw [this, half_ceil, half_floor]
  omega

/-- **C29** for transition choices: the index set is the index read, as long as there are fewer options than half the
inverse of the tolerance `eps` (1e-9 in the code). -/
theorem trans_set_get {cdf ppf : ℝ → ℝ} (h : Tr.CdfSpec cdf ppf) (n : ℕ) (eps scale : ℝ) (hs : scale ≠ 0)
    (he : eps * n ≤ 1 / 2) (k : ℤ) (h0 : 0 ≤ k) (hk : k < n) :
    ∃ x, transSet ppf n eps scale k = .ok x ∧ transGet cdf n scale (x ()) = k := by
  have hn1 : (1 : ℤ) ≤ n := by omega
  have hn : (1 : ℝ) ≤ n := by exact_mod_cast hn1
  have hk0 : (0 : ℝ) ≤ k := by exact_mod_cast h0
  have hk1 : (k : ℝ) + 1 ≤ n := by exact_mod_cast hk
  have hnp : (0 : ℝ) < n := by linarith
  set q := ((k : ℝ) + 1 / 2) / n with hq
  have hq0 : 0 < q := by positivity
  have hq1 : q < 1 := by rw [hq, div_lt_one hnp]; linarith
  have hqe : eps ≤ q := by rw [hq, le_div_iff₀ hnp]; linarith
  have hqe' : q ≤ 1 - eps := by rw [hq, div_le_iff₀ hnp]; nlinarith
  have hset : transSet ppf n eps scale k = .ok (fun _ => scale * ppf q) := by
    unfold transSet Tr.cdfBackward
    rw [if_neg (by
      rintro (⟨_, h⟩ | ⟨_, h⟩) <;> linarith)]
    congr 1
    funext _
    have : ((k : ℝ) + 1 / 2 - 0) / (n - 0) = q := by rw [sub_zero, sub_zero]
    rw [this, max_eq_left hqe, min_eq_left hqe']
  refine ⟨_, hset, ?_⟩
  obtain ⟨h1, h2⟩ := trans_good_lower n
  unfold transGet Tr.cdfForward
  rw [mul_div_cancel_left₀ _ hs, h.right_inv q hq0 hq1]
  have e : ((n : ℝ) - 0) * q + 0 - 1 / 2 = ((k : ℤ) : ℝ) := by rw [hq]; field_simp; ring
  rw [e, trans_int _ _ _ h1 h2, half_ceil, half_floor, Tr.roundEven_int]
  omega

/-- Mutation of a transition choice gives a valid index, which is then the one read. -/
theorem trans_mutate {cdf ppf : ℝ → ℝ} (h : Tr.CdfSpec cdf ppf) (n : ℕ) (hn : 1 ≤ n) (eps scale : ℝ) (hs : scale ≠ 0)
    (he : eps * n ≤ 1 / 2) (i sign move : ℤ) :
    ∃ x, transSet ppf n eps scale (moveIndex n i sign move) = .ok x ∧
      transGet cdf n scale (x ()) = moveIndex n i sign move ∧ 0 ≤ moveIndex n i sign move ∧ moveIndex n i sign move < n ∧
      (0 ≤ i + sign * move → i + sign * move < n → moveIndex n i sign move = i + sign * move) := by
  have h0 : 0 ≤ moveIndex n i sign move := by unfold moveIndex; omega
  have h1 : moveIndex n i sign move < n := by unfold moveIndex; omega
  obtain ⟨x, hx, hg⟩ := trans_set_get h n eps scale hs he _ h0 h1
  exact ⟨x, hx, hg, h0, h1, fun a b => by unfold moveIndex; omega⟩

section
open MeasureTheory ProbabilityTheory Set

/-- The index read from an array holding a standard normal number is uniformly distributed, as the documentation of
`TransitionChoice` says. -/
theorem trans_uniform (n : ℕ) (k : ℤ) (h0 : 0 ≤ k) (hk : k < n) :
    (gaussianReal 0 1) {x | transGet Tr.normCdf n 1 x = k} = ENNReal.ofReal (1 / n) := by
  have hn1 : (1 : ℤ) ≤ n := by omega
  have hn : (1 : ℝ) ≤ n := by exact_mod_cast hn1
  have hk0 : (0 : ℝ) ≤ k := by exact_mod_cast h0
  have hk1 : (k : ℝ) + 1 ≤ n := by exact_mod_cast hk
  have hnp : (0 : ℝ) < n := by linarith
  have e : (1 : ℝ) / n = (k + 1) / n - k / n := by ring
  obtain ⟨h1, h2⟩ := trans_good_lower n
  have hval : ∀ x, transGet Tr.normCdf n 1 x = Tr.roundEven ((n : ℝ) * Tr.normCdf x - 1 / 2) := by
    intro x
    have hp := Tr.normal_spec.pos x
    have hl := Tr.normal_spec.lt_one x
    have hx : Tr.cdfForward Tr.normCdf 0 n 1 (fun _ : Unit => x) () = n * Tr.normCdf x := by
      unfold Tr.cdfForward; simp
    unfold transGet
    rw [hx, trans_int _ _ _ h1 h2, half_ceil, half_floor]
    have hr := (Tr.roundEven_nearest ((n : ℝ) * Tr.normCdf x - 1 / 2)).1
    rw [abs_le] at hr
    have a1 : (-1 : ℝ) < Tr.roundEven ((n : ℝ) * Tr.normCdf x - 1 / 2) := by nlinarith
    have a2 : (Tr.roundEven ((n : ℝ) * Tr.normCdf x - 1 / 2) : ℝ) < n := by nlinarith
    have b1 : -1 < Tr.roundEven ((n : ℝ) * Tr.normCdf x - 1 / 2) := by exact_mod_cast a1
    have b2 : Tr.roundEven ((n : ℝ) * Tr.normCdf x - 1 / 2) < n := by exact_mod_cast a2
    omega
  rw [e]
  apply normal_interval
  · positivity
  · exact (div_lt_div_iff_of_pos_right hnp).mpr (by linarith)
  · rw [div_le_one hnp]; linarith
  · intro x hx
    have hx : transGet Tr.normCdf n 1 x = k := hx
    rw [hval] at hx
    have hr := (Tr.roundEven_nearest ((n : ℝ) * Tr.normCdf x - 1 / 2)).1
    rw [hx, abs_le] at hr
    rw [div_le_iff₀ hnp, le_div_iff₀ hnp]
    constructor <;> linarith
  · intro x a b
    rw [div_lt_iff₀ hnp] at a
    rw [lt_div_iff₀ hnp] at b
    show transGet Tr.normCdf n 1 x = k
    rw [hval]
    apply Tr.roundEven_of_lt
    rw [abs_lt]
    constructor <;> linarith
end

/-- Three options, index 2 set and read. -/
example : ∃ x, transSet Tr.normPpf 3 (1 / 1000000000) 1 2 = .ok x ∧ transGet Tr.normCdf 3 1 (x ()) = 2 :=
  trans_set_get Tr.normal_spec 3 _ 1 (by norm_num) (by norm_num) 2 (by norm_num) (by norm_num)

end Disc
end NG
