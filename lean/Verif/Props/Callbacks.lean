import Verif.Model.Callbacks
import Mathlib.Tactic.Linarith

/-!
C140: callbacks, and optimizers which are saved by a callback and continued.
-/

namespace NG.Callbacks

/-! ### One event -/

/-- The numbers of callbacks that only look. -/
def ids : List Cb → List Nat
  | [] => []
  | .note id :: l => id :: ids l
  | _ :: l => ids l

/-- Callbacks that only look. -/
def Quiet (l : List Cb) : Prop := ∀ c ∈ l, ∃ id, c = .note id

theorem fire_quiet (e : Event) (l : List Cb) : ∀ (fuel : Nat) (live : Bool) (t : Table), Quiet l → l.length < fuel →
    fire e fuel l live t = some (ids l, t, false) := by
  induction l with
  | nil =>
    intro fuel live t _ h
    obtain ⟨k, rfl⟩ : ∃ k, fuel = k + 1 := ⟨fuel - 1, by simp at h; omega⟩
    rfl
  | cons c l ih =>
    intro fuel live t q h
    obtain ⟨k, rfl⟩ : ∃ k, fuel = k + 1 := ⟨fuel - 1, by simp at h; omega⟩
    obtain ⟨id, rfl⟩ := q c List.mem_cons_self
    rw [fire, ih k live t (fun c hc => q c (List.mem_cons_of_mem _ hc)) (by simp at h; omega)]
    rfl

/-- Callbacks that only look are all called, once each and in the order of their registration, and remain. -/
theorem fireAll_quiet (e : Event) (t : Table) (q : Quiet (t.get e)) :
    fireAll e ((t.get e).length + 1) t = some (ids (t.get e), t, false) :=
  fire_quiet e _ _ _ _ q (by omega)

/-- A callback registered for a name is called last for this name, and not for the other one. -/
theorem register_get (t : Table) (e e' : Event) (c : Cb) :
    (t.register e c).get e' = if e' = e then t.get e' ++ [c] else t.get e' := by
  cases e <;> cases e' <;> rfl

theorem registerNamed_eq (t : Table) (name : String) (c : Cb) :
    (registerNamed t name c).isSome ↔ name = "ask" ∨ name = "tell" := by
  unfold registerNamed
  by_cases h : name = "ask"
  · simp [h]
  · by_cases h' : name = "tell" <;> simp [h, h']

/-- An exception ends the event: the callbacks before it were called, those after it are not. -/
theorem fire_fail (e : Event) (l m : List Cb) (q : Quiet l) (t : Table) (live : Bool) :
    ∀ fuel, l.length < fuel → fire e fuel (l ++ .fail :: m) live t = some (ids l, t, true) := by
  induction l with
  | nil =>
    intro fuel h
    obtain ⟨k, rfl⟩ : ∃ k, fuel = k + 1 := ⟨fuel - 1, by simp at h; omega⟩
    rfl
  | cons c l ih =>
    intro fuel h
    obtain ⟨k, rfl⟩ : ∃ k, fuel = k + 1 := ⟨fuel - 1, by simp at h; omega⟩
    obtain ⟨id, rfl⟩ := q c List.mem_cons_self
    rw [List.cons_append, fire, ih (fun c hc => q c (List.mem_cons_of_mem _ hc)) k (by simp at h; omega)]
    rfl

/-- A callback that registers another one for the same name: the new one is called in the same event, after the others. -/
theorem fire_add (e : Event) (id : Nat) (l m : List Cb) (ql : Quiet l) (qm : Quiet m) (t : Table)
    (h : t.get e = l ++ .add e id :: m) :
    fireAll e ((t.get e).length + 2) t = some (ids l ++ ids m ++ [id], t.register e (.note id), false) := by
  unfold fireAll
  rw [h]
  have key : ∀ l : List Cb, Quiet l → ∀ fuel, l.length + m.length + 2 < fuel →
      fire e fuel (l ++ .add e id :: m) true t = some (ids l ++ ids m ++ [id], t.register e (.note id), false) := by
    intro l
    induction l with
    | nil =>
      intro _ fuel hf
      obtain ⟨k, rfl⟩ : ∃ k, fuel = k + 1 := ⟨fuel - 1, by simp at hf; omega⟩
      have q : Quiet (m ++ [Cb.note id]) := by
        intro c hc
        rcases List.mem_append.1 hc with hc | hc
        · exact qm c hc
        · exact ⟨id, by simpa using hc⟩
      have e2 : ids (m ++ [Cb.note id]) = ids m ++ [id] := by
        clear q hf h
        induction m with
        | nil => rfl
        | cons c m ih =>
          obtain ⟨i, rfl⟩ := qm c List.mem_cons_self
          simp only [List.cons_append, ids]
          rw [ih (fun c hc => qm c (List.mem_cons_of_mem _ hc))]
      rw [List.nil_append, fire]
      simp only [Bool.true_and, beq_self_eq_true, if_true]
      rw [fire_quiet e _ _ _ _ q (by simp at hf ⊢; omega), e2]
      rfl
    | cons c l ih =>
      intro q fuel hf
      obtain ⟨k, rfl⟩ : ∃ k, fuel = k + 1 := ⟨fuel - 1, by simp at hf; omega⟩
      obtain ⟨i, rfl⟩ := q c List.mem_cons_self
      rw [List.cons_append, fire, ih (fun c hc => q c (List.mem_cons_of_mem _ hc)) k (by simp at hf; omega)]
      rfl
  exact key l ql _ (by simp)

/-- A callback that removes all of them: those after it are still called in this event, and none afterwards. -/
theorem fire_clear (e : Event) (l m : List Cb) (ql : Quiet l) (qm : Quiet m) (t : Table)
    (h : t.get e = l ++ .clear :: m) :
    fireAll e ((t.get e).length + 1) t = some (ids l ++ ids m, ⟨[], []⟩, false) := by
  unfold fireAll
  rw [h]
  have key : ∀ l : List Cb, Quiet l → ∀ fuel, l.length + m.length + 1 < fuel →
      fire e fuel (l ++ .clear :: m) true t = some (ids l ++ ids m, ⟨[], []⟩, false) := by
    intro l
    induction l with
    | nil =>
      intro _ fuel hf
      obtain ⟨k, rfl⟩ : ∃ k, fuel = k + 1 := ⟨fuel - 1, by simp at hf; omega⟩
      rw [List.nil_append, fire, fire_quiet e _ _ _ _ qm (by simp at hf; omega)]
      rfl
    | cons c l ih =>
      intro q fuel hf
      obtain ⟨k, rfl⟩ : ∃ k, fuel = k + 1 := ⟨fuel - 1, by simp at hf; omega⟩
      obtain ⟨i, rfl⟩ := q c List.mem_cons_self
      rw [List.cons_append, fire, ih (fun c hc => q c (List.mem_cons_of_mem _ hc)) k (by simp at hf; omega)]
      rfl
  exact key l ql _ (by simp)

example : fireAll .tell 10 ⟨[.note 7], [.note 1, .add .tell 4, .note 2, .add .ask 5]⟩ =
    some ([1, 2, 4], ⟨[.note 7, .note 5], [.note 1, .add .tell 4, .note 2, .add .ask 5, .note 4]⟩, false) := by
  decide

/-! ### Saving and continuing -/

section Saving

variable {σ X L : Type} (a : Alg σ X L) (f : X → L) (c budget workers : Nat)

/-- The same optimizer, with `δ` more calls counted by the callbacks. -/
def more' (δ : Nat → Nat) (o : Opt σ X L) : Opt σ X L := { o with counts := fun i => o.counts i + δ i }

/-- One more call for the callbacks registered before the one which saves. -/
def before : Option Nat → Nat → Nat
  | some d, i => if i < d then 1 else 0
  | none, _ => 0

theorem tellAll_more (δ : Nat → Nat) (l : List X) : ∀ o : Opt σ X L,
    tellAll a f c l (more' δ o) = more' δ (tellAll a f c l o) := by
  induction l with
  | nil => intro o; rfl
  | cons x l ih =>
    intro o
    rw [tellAll, tellAll, ← ih]
    congr 1
    simp only [tellEnd, callFirst, tellStart, more', Opt.mk.injEq, true_and]
    funext i
    omega

theorem askN_more (δ : Nat → Nat) (k : Nat) : ∀ o : Opt σ X L, askN a k (more' δ o) = more' δ (askN a k o) := by
  induction k with
  | zero => intro o; rfl
  | succ k ih => intro o; rw [askN, askN, ← ih]; rfl

theorem turn_more (δ : Nat → Nat) (o : Opt σ X L) :
    turn a f c budget workers (more' δ o) = more' δ (turn a f c budget workers o) := by
  unfold turn
  have h : (more' δ o).finished = o.finished := rfl
  rw [h, tellAll_more, askN_more]
  rfl

theorem loop_more (δ : Nat → Nat) (n : Nat) : ∀ o : Opt σ X L,
    loop a f c budget workers n (more' δ o) = more' δ (loop a f c budget workers n o) := by
  induction n with
  | zero => intro o; rfl
  | succ n ih =>
    intro o
    have h : more budget (more' δ o) = more budget o := rfl
    rw [loop, loop, h, turn_more]
    split
    · rw [ih]
    · rfl

/-- Telling again from the state seen by the callbacks does not add a second point to the curve. -/
theorem curve_twice (n : Nat) (l : L) (cv : List (Nat × L)) :
    curveUpdate n l (curveUpdate n l cv) = curveUpdate n l cv := by
  have h : ∀ c : List (Nat × L), curveUpdate n l ((n, l) :: c) = (n, l) :: c := by
    intro c
    have : ¬ n * 11 < n * 10 := by omega
    simp [curveUpdate, this]
  cases cv with
  | nil => exact h []
  | cons p cv =>
    by_cases c : p.1 * 11 < n * 10
    · have : curveUpdate n l (p :: cv) = (n, l) :: p :: cv := by simp [curveUpdate, c]
      rw [this, h]
    · have : curveUpdate n l (p :: cv) = p :: cv := by simp [curveUpdate, c]
      rw [this, this]

theorem tellSnaps_spec (d : Nat) (l : List X) : ∀ o s : Opt σ X L, s ∈ tellSnaps a f c d l o →
    s.finished ≠ [] ∧ tellAll a f c s.finished s = more' (before (some d)) (tellAll a f c l o) := by
  induction l with
  | nil => intro o s h; simp [tellSnaps] at h
  | cons x l ih =>
    intro o s h
    rw [tellSnaps, List.mem_cons] at h
    rcases h with rfl | h
    · refine ⟨by simp [callFirst, tellStart], ?_⟩
      have e : (callFirst d (tellStart (f x) { o with finished := x :: l })).finished = x :: l := rfl
      rw [e, tellAll, tellAll, ← tellAll_more]
      congr 1
      simp only [tellEnd, callFirst, tellStart, more', before, curve_twice, Opt.mk.injEq, true_and]
      funext i
      omega
    · obtain ⟨h1, h2⟩ := ih _ _ h
      exact ⟨h1, by rw [h2, tellAll]⟩

theorem askN_add (k m : Nat) : ∀ o : Opt σ X L, askN a (k + m) o = askN a m (askN a k o) := by
  induction k with
  | zero => intro o; rw [Nat.zero_add]; rfl
  | succ k ih => intro o; rw [Nat.succ_add, askN, askN, ih]

theorem askN_fields (k : Nat) : ∀ o : Opt σ X L, (askN a k o).numAsk = o.numAsk + k ∧
    (askN a k o).running.length = o.running.length + k ∧ (askN a k o).finished = o.finished := by
  induction k with
  | zero => intro o; exact ⟨rfl, rfl, rfl⟩
  | succ k ih =>
    intro o
    obtain ⟨h1, h2, h3⟩ := ih (askOne a o)
    refine ⟨?_, ?_, ?_⟩
    · rw [askN, h1]; simp [askOne]; omega
    · rw [askN, h2]; simp [askOne]; omega
    · rw [askN, h3]; rfl

theorem askSnaps_spec (k : Nat) : ∀ o s : Opt σ X L, s ∈ askSnaps a k o → ∃ j, j < k ∧ s = askN a j o := by
  induction k with
  | zero => intro o s h; simp [askSnaps] at h
  | succ k ih =>
    intro o s h
    rw [askSnaps, List.mem_cons] at h
    rcases h with rfl | h
    · exact ⟨0, by omega, rfl⟩
    · obtain ⟨j, hj, e⟩ := ih _ _ h
      exact ⟨j + 1, by omega, e⟩

theorem tellAll_finished (l : List X) : ∀ o : Opt σ X L, (tellAll a f c l o).finished = [] := by
  induction l with
  | nil => intro o; rfl
  | cons x l ih => intro o; rw [tellAll]; exact ih _

/-- A turn from a saved state ends as the turn during which it was saved. -/
theorem turn_saved (d : Option Nat) (o s : Opt σ X L) (h : s ∈ turnSnaps a f c budget workers d o) :
    more budget s = true ∧
      turn a f c budget workers s = more' (before d) (turn a f c budget workers o) := by
  cases d with
  | some d =>
    obtain ⟨h1, h2⟩ := tellSnaps_spec a f c d _ _ _ h
    refine ⟨by simp [more, h1], ?_⟩
    have e : newSugg budget workers (more' (before (some d)) (tellAll a f c o.finished o)) =
        newSugg budget workers (tellAll a f c o.finished o) := rfl
    unfold turn
    rw [h2, e, askN_more]
    rfl
  | none =>
    obtain ⟨j, hj, e⟩ := askSnaps_spec a _ _ _ h
    obtain ⟨f1, f2, f3⟩ := askN_fields a j (tellAll a f c o.finished o)
    rw [← e] at f1 f2 f3
    rw [tellAll_finished] at f3
    have t : tellAll a f c s.finished s = s := by
      rw [f3]
      show { s with finished := [] } = s
      rw [← f3]
    refine ⟨?_, ?_⟩
    · unfold newSugg at hj
      have : budget - s.numAsk ≠ 0 := by omega
      simp [more, this]
    · unfold turn
      rw [t]
      have n : newSugg budget workers (tellAll a f c o.finished o) = j + newSugg budget workers s := by
        unfold newSugg at hj ⊢
        omega
      rw [n, askN_add, ← e]
      rfl

/-- The claim, up to the counters of the callbacks: `minimize` called on the saved optimizer, with the same objective and the same executor, ends in the state in which the run would have ended without interruption; nothing is evaluated or told twice, nothing is lost, whatever the budget, the number of workers, and the call of the callback which saved it. The counters of the callbacks registered before the one which saves have one more call. -/
theorem resume (d : Option Nat) (n : Nat) : ∀ o s : Opt σ X L, s ∈ snaps a f c budget workers d n o →
    ∃ m, m ≤ n ∧ loop a f c budget workers m s = more' (before d) (loop a f c budget workers n o) := by
  induction n with
  | zero => intro o s h; simp [snaps] at h
  | succ n ih =>
    intro o s h
    rw [snaps] at h
    split at h
    · rename_i hm
      rcases List.mem_append.1 h with h | h
      · obtain ⟨h1, h2⟩ := turn_saved a f c budget workers d o s h
        refine ⟨n + 1, le_refl _, ?_⟩
        rw [loop, loop, if_pos h1, if_pos hm, h2, loop_more]
      · obtain ⟨m, h1, h2⟩ := ih _ _ h
        refine ⟨m, by omega, ?_⟩
        rw [h2, loop, if_pos hm]
    · simp at h

/-- In particular the evaluations told, the counters and the state of the algorithm are the same. -/
theorem resume_same (d : Option Nat) (n : Nat) (o s : Opt σ X L) (h : s ∈ snaps a f c budget workers d n o) :
    ∃ m, (loop a f c budget workers m s).archive = (loop a f c budget workers n o).archive ∧
      (loop a f c budget workers m s).numAsk = (loop a f c budget workers n o).numAsk ∧
      (loop a f c budget workers m s).numTell = (loop a f c budget workers n o).numTell ∧
      (loop a f c budget workers m s).alg = (loop a f c budget workers n o).alg ∧
      (loop a f c budget workers m s).curve = (loop a f c budget workers n o).curve := by
  obtain ⟨m, _, e⟩ := resume a f c budget workers d n o s h
  exact ⟨m, by rw [e]; exact ⟨rfl, rfl, rfl, rfl, rfl⟩⟩

/-- The callbacks of `tell` count the tells as long as nothing is saved: each is called once for each tell. -/
theorem counts_tellAll (l : List X) : ∀ o : Opt σ X L, ∀ i, i < c →
    (tellAll a f c l o).counts i = o.counts i + l.length ∧ (tellAll a f c l o).numTell = o.numTell + l.length := by
  induction l with
  | nil => intro o i h; exact ⟨rfl, rfl⟩
  | cons x l ih =>
    intro o i h
    rw [tellAll]
    obtain ⟨h1, h2⟩ := ih (tellEnd a x (f x) l (callFirst c (tellStart (f x) { o with finished := x :: l }))) i h
    rw [h1, h2]
    simp only [tellEnd, callFirst, tellStart, h, if_true, List.length_cons]
    omega

/-- The saved state is the one before the evaluation is counted: its tell is not in the archive yet, and its job is still the first of the finished ones. -/
theorem tellSnaps_seen (d : Nat) (l : List X) : ∀ o s : Opt σ X L, s ∈ tellSnaps a f c d l o →
    ∃ l₁ x l₂, l = l₁ ++ x :: l₂ ∧ s.finished = x :: l₂ ∧ s.numTell = o.numTell + l₁.length ∧
      s.archive = o.archive ++ l₁.map fun y => (y, f y) := by
  induction l with
  | nil => intro o s h; simp [tellSnaps] at h
  | cons x l ih =>
    intro o s h
    rw [tellSnaps, List.mem_cons] at h
    rcases h with rfl | h
    · exact ⟨[], x, l, rfl, rfl, rfl, by simp [callFirst, tellStart]⟩
    · obtain ⟨l₁, y, l₂, h1, h2, h3, h4⟩ := ih _ _ h
      refine ⟨x :: l₁, y, l₂, by rw [h1]; rfl, h2, ?_, ?_⟩
      · rw [h3]; simp [tellEnd, callFirst, tellStart]; omega
      · rw [h4]; simp [tellEnd, callFirst, tellStart]

end Saving

/-! The example: an algorithm which proposes its state and adds the loss to it, three workers, a budget of five. -/

def toy : Alg ℕ ℕ ℕ := ⟨fun s => (s, s + 1), fun s _ l => s + l⟩

def toy0 : Opt ℕ ℕ ℕ := ⟨0, 0, 0, [], [], [], [], fun _ => 0⟩

def square (x : ℕ) : ℕ := x * x

example : (loop toy square 2 5 3 10 toy0).archive = [(0, 0), (1, 1), (2, 4), (8, 64), (9, 81)] := by decide

example : ((snaps toy square 2 5 3 (some 1) 10 toy0).map fun s => (s.numTell, s.finished, s.counts 0, s.counts 1)) =
    [(0, [0, 1, 2], 1, 0), (1, [1, 2], 2, 1), (2, [2], 3, 2), (3, [8, 9], 4, 3), (4, [9], 5, 4)] := by decide

example : ((snaps toy square 2 5 3 (some 1) 10 toy0).map fun s => (loop toy square 2 5 3 10 s).archive) =
    List.replicate 5 [(0, 0), (1, 1), (2, 4), (8, 64), (9, 81)] := by decide

/-- A saved and continued run shows in each callback the number of tells. -/
def CountsTells : Prop :=
  ∀ (c d budget workers n m : Nat) (s : Opt ℕ ℕ ℕ), s ∈ snaps toy square c budget workers (some d) n toy0 →
    more budget (loop toy square c budget workers m s) = false →
    ∀ i, i < c → (loop toy square c budget workers m s).counts i = (loop toy square c budget workers m s).numTell

/-- A progress bar registered before the callback that saves ends above the number of tells. -/
theorem not_countsTells : ¬ CountsTells := by
  intro h
  have h2 := h 2 1 1 1 5 5 { callFirst 1 (tellStart 0 (split (askOne toy toy0))) with finished := [0] } (by
    simp only [snaps, turnSnaps]
    rw [if_pos (by decide)]
    apply List.mem_append_right
    rw [if_pos (by decide)]
    apply List.mem_append_left
    exact List.mem_cons_self) (by decide) 0 (by decide)
  revert h2
  decide

/-- Registered after it, it shows the number of tells. -/
theorem counts_after {σ X L : Type} (a : Alg σ X L) (f : X → L) (c budget workers d n : Nat) (o s : Opt σ X L)
    (h : s ∈ snaps a f c budget workers (some d) n o) (i : Nat) (hi : d ≤ i) :
    ∃ m, (loop a f c budget workers m s).counts i = (loop a f c budget workers n o).counts i := by
  obtain ⟨m, _, e⟩ := resume a f c budget workers (some d) n o s h
  refine ⟨m, ?_⟩
  rw [e]
  have : ¬ i < d := by omega
  simp [more', before, this]

/-! ### Several objectives -/

theorem max_twice (l : List ℚ) : ∀ b : List ℚ,
    (((b.zip l).map fun p => max p.1 p.2).zip l).map (fun p => max p.1 p.2) = (b.zip l).map fun p => max p.1 p.2 := by
  induction l with
  | nil => intro b; simp
  | cons y l ih =>
    intro b
    cases b with
    | nil => rfl
    | cons x b => simp [ih b]

theorem not_above (l b : List ℚ) (hb : b.length = l.length) (hl : l ≠ []) :
    ((((b.zip l).map fun p => max p.1 p.2).zip l).all fun p => decide (p.1 < p.2)) = false := by
  cases l with
  | nil => exact absurd rfl hl
  | cons y l =>
    cases b with
    | nil => simp at hb
    | cons x b => simp

theorem zip_self (l : List ℚ) : (l.zip l).map (fun p => max p.1 p.2) = l := by
  induction l with
  | nil => rfl
  | cons y l ih => simp [ih]

/-- A point told again while the bounds are set, as when an optimizer saved during its tell is continued, is kept twice, and two of the points that set the bounds are used up. -/
theorem twice_kept (h : Hv) (l : List ℚ) (ha : (h.add l).1 = some 0) (hb : ∀ b, h.bounds = some b → b.length = l.length)
    (hl : l ≠ []) :
    ((h.add l).2.add l).2.kept = h.kept ++ [l, l] ∧ ((h.add l).2.add l).2.auto = h.auto - 2 ∧
      ((h.add l).2.add l).2.bounds = (h.add l).2.bounds := by
  have e : (h.add l).2 = ⟨h.auto - 1, some ((h.bounds.map fun b => (b.zip l).map fun p => max p.1 p.2).getD l), h.kept ++ [l]⟩ := by
    unfold Hv.add at ha ⊢
    split at ha
    · simp at ha
    · rename_i c; rw [if_neg c]
  rw [e]
  cases hc : h.bounds with
  | none =>
    have n : ((l.zip l).all fun p => decide (p.1 < p.2)) = false := by
      cases l with
      | nil => exact absurd rfl hl
      | cons y l => simp
    simp only [Hv.add, Option.map_none, Option.getD_none, Option.map_some, Option.getD_some, n, zip_self]
    simp
    omega
  | some b =>
    have n := not_above l b (hb b hc) hl
    have t := max_twice l b
    simp only [Hv.add, Option.map_some, Option.getD_some, n, t]
    simp
    omega

/-- A continued run has each evaluation once. -/
def OnceKept : Prop := ∀ (h : Hv) (l : List ℚ), l ∉ h.kept → ((h.add l).2.add l).2.kept.count l ≤ 1

theorem not_onceKept : ¬ OnceKept := by
  intro h
  have := h ⟨15, none, []⟩ [1, 2] (by decide)
  revert this
  decide +kernel

/-! ### Showing the state -/

/-- With one objective that is known both show the recommendation when they are due, and nothing otherwise. -/
theorem shown_partial (b hasFront : Bool) :
    printer b 1 = (if b then .recommendation else .nothing) ∧ logger b 1 hasFront = (if b then .recommendation else .nothing) := by
  cases b <;> cases hasFront <;> decide

/-- After a tell of several losses the logger shows them. -/
theorem logger_losses (k : Nat) (hk : 1 < k) : logger true k true = .losses := by
  have : k ≠ 1 := by omega
  simp [logger, this]

/-- Both are due at the first call, whatever the interval. -/
theorem due_first (time nextTime interval : Nat) : due time nextTime interval 0 = true := by
  simp [due]

/-- A logger registered on `ask` fails at the first ask, before the number of objectives is known. -/
theorem logger_first_ask (time nextTime interval : Nat) :
    logger (due time nextTime interval 0) 0 false = .raised := by
  rw [due_first]; rfl

/-- A printer fails with several objectives. -/
theorem printer_several (k : Nat) (hk : 1 < k) : printer true k = .raised := by
  simp [printer, hk]

end NG.Callbacks
