import Verif.Model.PlotCommand

/-!
# C166: the options of the command that makes the plots
-/

namespace NG
namespace PlotCommand

/-- One argument as a user thinks of it: the file, an option with its value, a flag, or `--pseudotime` with or without a value. -/
inductive Group where
  | file (f : String)
  | set (o : Opt) (v : String)
  | flag (f : Flag)
  | pseudo (v : Option String)
deriving DecidableEq

/-- The words of an argument. -/
def Group.words : Group → List Tok
  | .file f => [.val f]
  | .set o v => [.opt o, .val v]
  | .flag f => [.flag f]
  | .pseudo none => [.pseudotime]
  | .pseudo (some v) => [.pseudotime, .val v]

def words (gs : List Group) : List Tok := gs.flatMap Group.words

def Group.file? : Group → Option String
  | .file f => some f
  | _ => none

def Group.value? (o : Opt) : Group → Option String
  | .set o' v => if o' = o then some v else none
  | _ => none

def Group.pseudo? : Group → Option (Option String)
  | .pseudo v => some v
  | _ => none

/-- The value given last. -/
def lastOf {β : Type} (f : Group → Option β) (gs : List Group) : Option β := (gs.filterMap f).getLast?

/-- Arguments which can be told apart: `--pseudotime` without value is not followed by the file. -/
def Apart : List Group → Prop
  | .pseudo none :: .file _ :: _ => False
  | _ :: gs => Apart gs
  | [] => True

/-- The integers can be converted. -/
def Numbers (toInt : String → Option Int) (gs : List Group) : Prop := ∀ v, .set .combsize v ∈ gs → (toInt v).isSome

/-- What one argument stores. -/
def put (toInt : String → Option Int) (a : Args) : Group → Args
  | .file f => { a with filepath := some f }
  | .set o v => (store toInt a v o).getD a
  | .flag f => setFlag a f
  | .pseudo none => { a with pseudotime := true }
  | .pseudo (some v) => { a with pseudotime := toBool v }

theorem store_filepath (toInt : String → Option Int) (a a' : Args) (v : String) (o : Opt) (h : store toInt a v o = some a') :
    a'.filepath = a.filepath := by
  cases o <;> simp only [store, Option.some.injEq, Option.map_eq_some_iff] at h
  · rw [← h]
  · obtain ⟨n, _, h⟩ := h; rw [← h]
  · rw [← h]
  · rw [← h]
  · rw [← h]

theorem setFlag_filepath (a : Args) (f : Flag) : (setFlag a f).filepath = a.filepath := by cases f <;> rfl

theorem store_some (toInt : String → Option Int) (a : Args) (v : String) (o : Opt) (h : o = .combsize → (toInt v).isSome) :
    ∃ a', store toInt a v o = some a' := by
  cases o
  · exact ⟨_, rfl⟩
  · obtain ⟨n, hn⟩ := Option.isSome_iff_exists.1 (h rfl)
    exact ⟨{ a with combsize := n }, by simp only [store, hn, Option.map_some]⟩
  · exact ⟨_, rfl⟩
  · exact ⟨_, rfl⟩
  · exact ⟨_, rfl⟩

/-- Arguments which can be told apart are read one after the other, with one file. -/
theorem parse_words (toInt : String → Option Int) (gs : List Group) (a : Args) (h1 : Apart gs) (h2 : Numbers toInt gs)
    (h3 : (gs.filterMap Group.file?).length + (if a.filepath.isSome then 1 else 0) = 1) :
    parse toInt (words gs) a = some (gs.foldl (put toInt) a) := by
  induction gs generalizing a with
  | nil =>
    simp only [words, List.flatMap_nil, parse, List.foldl_nil]
    simp only [List.filterMap_nil, List.length_nil] at h3
    split
    · rfl
    · rename_i h; simp [h] at h3
  | cons g gs ih =>
    have h2' : Numbers toInt gs := fun v hv => h2 v (List.mem_cons_of_mem _ hv)
    have e : words (g :: gs) = g.words ++ words gs := rfl
    rw [e]
    cases g with
    | file f =>
      have h1' : Apart gs := h1
      simp only [List.filterMap_cons, Group.file?, List.length_cons] at h3
      have hf : a.filepath.isSome = false := by
        cases h : a.filepath.isSome with
        | false => rfl
        | true => simp [h] at h3
      simp only [Group.words, List.cons_append, List.nil_append, parse, hf, Bool.false_eq_true, if_false, List.foldl_cons]
      rw [ih _ h1' h2' (by simp [hf] at h3 ⊢; exact h3)]
      rfl
    | set o v =>
      have h1' : Apart gs := h1
      obtain ⟨a', ha⟩ := store_some toInt a v o (by intro ho; rw [ho] at h2; exact h2 v (by simp))
      simp only [Group.words, List.cons_append, List.nil_append, parse, ha, List.foldl_cons, put, Option.getD_some]
      refine ih _ h1' h2' ?_
      rw [store_filepath toInt a a' v o ha]
      simpa only [List.filterMap_cons, Group.file?] using h3
    | flag f =>
      have h1' : Apart gs := h1
      simp only [Group.words, List.cons_append, List.nil_append, parse, List.foldl_cons, put]
      refine ih _ h1' h2' ?_
      rw [setFlag_filepath]
      simpa only [List.filterMap_cons, Group.file?] using h3
    | pseudo v =>
      cases v with
      | some v =>
        have h1' : Apart gs := h1
        simp only [Group.words, List.cons_append, List.nil_append, parse, List.foldl_cons, put]
        refine ih _ h1' h2' ?_
        simpa only [List.filterMap_cons, Group.file?] using h3
      | none =>
        have h1' : Apart gs := by
          cases gs with
          | nil => trivial
          | cons g' gs' => cases g' <;> first | exact h1 | exact h1.elim
        have hp : parse toInt (Tok.pseudotime :: words gs) a = parse toInt (words gs) { a with pseudotime := true } := by
          cases gs with
          | nil => rfl
          | cons g' gs' =>
            cases g' with
            | file f => exact absurd h1 (by simp [Apart])
            | set o v => rfl
            | flag f => rfl
            | pseudo w => cases w <;> rfl
        simp only [Group.words, List.cons_append, List.nil_append, List.foldl_cons, put]
        rw [hp]
        refine ih _ h1' h2' ?_
        simpa only [List.filterMap_cons, Group.file?] using h3

theorem lastOf_cons {β : Type} (f : Group → Option β) (g : Group) (gs : List Group) :
    lastOf f (g :: gs) = (lastOf f gs).or (f g) := by
  unfold lastOf
  cases h : f g with
  | none => simp [h]
  | some b =>
    simp only [List.filterMap_cons, h, List.getLast?_cons]
    cases (gs.filterMap f).getLast? <;> rfl

/-- The truth of `--pseudotime`: without value it is true, else as python's `bool`. -/
def truth : Option String → Bool
  | none => true
  | some v => toBool v

/-- Every field holds the value given last, or the default. -/
theorem foldl_fields (toInt : String → Option Int) (gs : List Group) (a : Args) :
    (Numbers toInt gs → (gs.foldl (put toInt) a).combsize = ((lastOf (Group.value? .combsize) gs).bind toInt).getD a.combsize)
      ∧ (gs.foldl (put toInt) a).filepath = (lastOf Group.file? gs).or a.filepath
      ∧ (gs.foldl (put toInt) a).output = (lastOf (Group.value? .output) gs).or a.output
      ∧ (gs.foldl (put toInt) a).pseudotime = ((lastOf Group.pseudo? gs).map truth).getD a.pseudotime
      ∧ (gs.foldl (put toInt) a).competencemaps = ((lastOf (Group.value? .competencemaps) gs).map toBool).getD a.competencemaps
      ∧ (gs.foldl (put toInt) a).nomanyxp = ((lastOf (Group.value? .nomanyxp) gs).map toBool).getD a.nomanyxp
      ∧ (gs.foldl (put toInt) a).mergeParam = (a.mergeParam || decide (.flag .mergeParam ∈ gs))
      ∧ (gs.foldl (put toInt) a).removeSuffix = (a.removeSuffix || decide (.flag .removeSuffix ∈ gs))
      ∧ (gs.foldl (put toInt) a).mergePattern = (lastOf (Group.value? .mergePattern) gs).getD a.mergePattern := by
  induction gs generalizing a with
  | nil => simp [lastOf]
  | cons g gs ih =>
    have h := ih (put toInt a g)
    have hn : Numbers toInt (g :: gs) → Numbers toInt gs := fun h v hv => h v (List.mem_cons_of_mem _ hv)
    simp only [List.foldl_cons, lastOf_cons]
    obtain ⟨c0, c1, c2, c3, c4, c5, c6, c7, c8⟩ := h
    rw [c1, c2, c3, c4, c5, c6, c7, c8]
    refine ⟨fun hN => (c0 (hn hN)).trans ?_, ?_⟩
    · cases hl : lastOf (Group.value? .combsize) gs with
      | some v =>
        have hv : Group.set .combsize v ∈ gs := by
          have := List.mem_of_getLast? hl
          obtain ⟨g', hg', e⟩ := List.mem_filterMap.1 this
          cases g' <;> simp [Group.value?] at e
          rw [← e.1, ← e.2]; exact hg'
        obtain ⟨n, hn⟩ := Option.isSome_iff_exists.1 (hN v (List.mem_cons_of_mem _ hv))
        simp [hn]
      | none =>
        cases g with
        | set o v =>
          cases o <;> simp [Group.value?, put, store]
        | file f => rfl
        | flag f => cases f <;> rfl
        | pseudo w => cases w <;> rfl
    · cases g with
      | file f => simp [Group.value?, Group.pseudo?, Group.file?, put]
      | set o v =>
        cases o <;> simp only [Group.value?, Group.pseudo?, Group.file?, put, store, Option.getD_some, reduceCtorEq, if_false, if_true, Option.or_none]
        · simp
        · cases toInt v <;> simp
        · cases lastOf (Group.value? .competencemaps) gs <;> simp
        · cases lastOf (Group.value? .nomanyxp) gs <;> simp
        · cases lastOf (Group.value? .mergePattern) gs <;> simp
      | flag f => cases f <;> simp [Group.value?, Group.pseudo?, Group.file?, put, setFlag]
      | pseudo w =>
        cases w <;> simp [Group.value?, Group.pseudo?, Group.file?, put] <;>
          cases lastOf Group.pseudo? gs <;> simp [truth]

/-- Arguments which the command accepts: they can be told apart, the integers are integers, and there is one file. -/
def Accepted (toInt : String → Option Int) (gs : List Group) (f : String) : Prop :=
  Apart gs ∧ Numbers toInt gs ∧ gs.filterMap Group.file? = [f]

theorem parse_accepted (toInt : String → Option Int) (gs : List Group) (f : String) (h : Accepted toInt gs f) :
    parse toInt (words gs) {} = some (gs.foldl (put toInt) {}) :=
  parse_words toInt gs {} h.1 h.2.1 (by rw [h.2.2]; rfl)

/-- Is the first argument the file? -/
def headFile : List Group → Bool
  | .file _ :: _ => true
  | _ => false

theorem apart_cons (g : Group) (gs : List Group) (h : Apart gs) (hg : g = .pseudo none → headFile gs = false) : Apart (g :: gs) := by
  cases g with
  | file f => exact h
  | set o v => exact h
  | flag f => exact h
  | pseudo v =>
    cases v with
    | some v => exact h
    | none =>
      cases gs with
      | nil => trivial
      | cons g' gs' =>
        cases g' with
        | file f => exact absurd (hg rfl) (by simp [headFile])
        | set o v => exact h
        | flag f => exact h
        | pseudo w => exact h

theorem parse_complete_of (toInt : String → Option Int) (l : List Tok) (a b : Args) (h : parse toInt l a = some b) :
    ∃ gs, l = words gs ∧ Apart gs ∧ Numbers toInt gs ∧ (gs.filterMap Group.file?).length + (if a.filepath.isSome then 1 else 0) = 1 := by
  induction l, a using parse.induct (toInt := toInt) with
  | case1 a hs => exact ⟨[], rfl, trivial, by intro v hv; simp at hv, by simp [hs]⟩
  | case2 a hs => simp [parse, hs] at h
  | case3 f r a hs => simp [parse, hs] at h
  | case4 f r a hs ih =>
    simp only [parse, hs] at h
    obtain ⟨gs, e, h1, h2, h3⟩ := ih h
    refine ⟨.file f :: gs, by rw [e]; rfl, h1, ?_, ?_⟩
    · intro v hv; exact h2 v (by simpa using hv)
    · simp only [List.filterMap_cons, Group.file?, List.length_cons]
      simp at h3 hs ⊢
      simpa [hs] using h3
  | case5 f r a ih =>
    simp only [parse] at h
    obtain ⟨gs, e, h1, h2, h3⟩ := ih h
    refine ⟨.flag f :: gs, by rw [e]; rfl, h1, ?_, ?_⟩
    · intro v hv; exact h2 v (by simpa using hv)
    · rw [setFlag_filepath] at h3; exact h3
  | case6 v r a ih =>
    simp only [parse] at h
    obtain ⟨gs, e, h1, h2, h3⟩ := ih h
    refine ⟨.pseudo (some v) :: gs, by rw [e]; rfl, h1, ?_, h3⟩
    intro v hv; exact h2 v (by simpa using hv)
  | case7 r a hr ih =>
    have e0 : parse toInt (.pseudotime :: r) a = parse toInt r { a with pseudotime := true } := by
      cases r with
      | nil => rfl
      | cons t r =>
        cases t with
        | val v => exact absurd rfl (hr v r)
        | _ => rfl
    rw [e0] at h
    obtain ⟨gs, e, h1, h2, h3⟩ := ih h
    refine ⟨.pseudo none :: gs, by rw [e]; rfl, ?_, ?_, h3⟩
    · refine apart_cons _ _ h1 (fun _ => ?_)
      cases gs with
      | nil => rfl
      | cons g gs =>
        cases g with
        | file f => exact absurd e (hr f (words gs))
        | _ => rfl
    · intro v hv; exact h2 v (by simpa using hv)
  | case8 o v r a ha => simp [parse, ha] at h
  | case9 o v r a a' ha ih =>
    simp only [parse, ha] at h
    obtain ⟨gs, e, h1, h2, h3⟩ := ih h
    refine ⟨.set o v :: gs, by rw [e]; rfl, h1, ?_, ?_⟩
    · intro w hw
      rcases List.mem_cons.1 hw with hw | hw
      · simp only [Group.set.injEq] at hw
        rw [← hw.1] at ha; rw [hw.2]
        simp only [store, Option.map_eq_some_iff] at ha
        obtain ⟨n, hn, _⟩ := ha
        rw [hn]; rfl
      · exact h2 w hw
    · rw [store_filepath toInt a a' v o ha] at h3; exact h3
  | case10 o r a hr =>
    exfalso
    cases r with
    | nil => simp [parse] at h
    | cons t r =>
      cases t with
      | val v => exact hr v r rfl
      | _ => simp [parse] at h

/-- **C166**: the command lines which are read without an error are exactly the arguments which can be told apart, with one file, in any order. -/
theorem parse_iff (toInt : String → Option Int) (l : List Tok) :
    (parse toInt l {}).isSome ↔ ∃ gs f, l = words gs ∧ Accepted toInt gs f := by
  constructor
  · intro h
    obtain ⟨b, hb⟩ := Option.isSome_iff_exists.1 h
    obtain ⟨gs, e, h1, h2, h3⟩ := parse_complete_of toInt l {} b hb
    obtain ⟨f, hf⟩ := List.length_eq_one_iff.1 (by simpa using h3)
    exact ⟨gs, f, e, h1, h2, hf⟩
  · rintro ⟨gs, f, rfl, h⟩
    rw [parse_accepted toInt gs f h]; rfl

/-- The pattern given. -/
def patternOf (gs : List Group) : String := (lastOf (Group.value? .mergePattern) gs).getD ""

/-- **C166**: what the command does with accepted arguments. It raises exactly for both ways of merging names. Else every setting is the value given last, or the default, with these
exceptions: the size of combinations is two with competence maps, whatever was asked for, and numbers are removed from names only if names are merged. -/
theorem main_spec (toInt : String → Option Int) (noSuffix : String → String) (gs : List Group) (f : String) (h : Accepted toInt gs f) :
    (main toInt noSuffix (words gs) = none ↔ .flag .mergeParam ∈ gs ∧ patternOf gs ≠ "")
      ∧ ∀ c, main toInt noSuffix (words gs) = some c →
        c.filepath = f
          ∧ c.pattern = (if .flag .mergeParam ∈ gs then paramPattern else patternOf gs)
          ∧ (c.stripped = true ↔ .flag .removeSuffix ∈ gs ∧ (.flag .mergeParam ∈ gs ∨ patternOf gs ≠ ""))
          ∧ c.outputFolder = (lastOf (Group.value? .output) gs).getD (noSuffix f ++ "_plots")
          ∧ (c.competencemaps = true ↔ ∃ v, lastOf (Group.value? .competencemaps) gs = some v ∧ v ≠ "")
          ∧ (c.nomanyxp = true ↔ ∃ v, lastOf (Group.value? .nomanyxp) gs = some v ∧ v ≠ "")
          ∧ (c.pseudotime = true ↔ ∃ w, lastOf Group.pseudo? gs = some w ∧ w ≠ some "")
          ∧ c.maxCombsize = (if c.competencemaps = true then 2 else ((lastOf (Group.value? .combsize) gs).bind toInt).getD 0) := by
  obtain ⟨c0, c1, c2, c3, c4, c5, c6, c7, c8⟩ := foldl_fields toInt gs {}
  have c0 := c0 h.2.1
  have hf : lastOf Group.file? gs = some f := by unfold lastOf; rw [h.2.2]; rfl
  rw [hf] at c1
  unfold main
  rw [parse_accepted toInt gs f h]
  generalize gs.foldl (put toInt) {} = a at c0 c1 c2 c3 c4 c5 c6 c7 c8
  have c8 : a.mergePattern = patternOf gs := c8
  simp only [Bool.false_or] at c6 c7
  simp only [Option.bind_some, call, c1, Option.some_or]
  rw [c8, c6]
  have hp : paramPattern ≠ "" := by decide
  by_cases hm : Group.flag .mergeParam ∈ gs
  · by_cases hq : patternOf gs = ""
    · simp only [hm, decide_true, hq, ne_eq, not_true_eq_false, and_false, if_false, if_true, reduceCtorEq, not_false_eq_true, true_and, Option.some.injEq,
        forall_eq', true_or, and_true, hp, Bool.true_and, c7, c2, c3, c4, c5, c0, decide_eq_true_eq]
      refine ⟨?_, ?_, ?_, ?_⟩
      · cases lastOf (Group.value? .output) gs <;> rfl
      · cases lastOf (Group.value? .competencemaps) gs <;> simp [toBool]
      · cases lastOf (Group.value? .nomanyxp) gs <;> simp [toBool]
      · cases lastOf Group.pseudo? gs with
        | none => simp
        | some w => cases w <;> simp [truth, toBool]
    · simp [hm, hq]
  · simp only [hm, decide_false, Bool.false_eq_true, false_and, if_false, reduceCtorEq, Option.some.injEq, forall_eq', true_and, false_or, c7, c2, c3, c4, c5, c0]
    refine ⟨?_, ?_, ?_, ?_, ?_⟩
    · simp [and_comm]
    · cases lastOf (Group.value? .output) gs <;> rfl
    · cases lastOf (Group.value? .competencemaps) gs <;> simp [toBool]
    · cases lastOf (Group.value? .nomanyxp) gs <;> simp [toBool]
    · cases lastOf Group.pseudo? gs with
      | none => simp
      | some w => cases w <;> simp [truth, toBool]

/-- The part of the meaning of the options which holds: the yes/no options mean what they say if they are given as a text for true, or not given at all. -/
theorem plain_partial (toInt : String → Option Int) (noSuffix : String → String) (gs : List Group) (f : String) (h : Accepted toInt gs f) (c : Call)
    (hc : main toInt noSuffix (words gs) = some c)
    (hv : ∀ o v, o = .competencemaps ∨ o = .nomanyxp → .set o v ∈ gs → v = "True") (hp : ∀ v, .pseudo (some v) ∈ gs → v = "True") :
    (c.competencemaps = true ↔ .set .competencemaps "True" ∈ gs) ∧ (c.nomanyxp = true ↔ .set .nomanyxp "True" ∈ gs)
      ∧ (c.pseudotime = true ↔ .pseudo none ∈ gs ∨ .pseudo (some "True") ∈ gs) := by
  obtain ⟨-, -, -, -, h4, h5, h6, -⟩ := (main_spec toInt noSuffix gs f h).2 c hc
  have key : ∀ o, o = .competencemaps ∨ o = .nomanyxp →
      ((∃ v, lastOf (Group.value? o) gs = some v ∧ v ≠ "") ↔ .set o "True" ∈ gs) := by
    intro o ho
    constructor
    · rintro ⟨v, hl, _⟩
      obtain ⟨g, hg, e⟩ := List.mem_filterMap.1 (List.mem_of_getLast? hl)
      cases g <;> simp [Group.value?] at e
      rename_i o' v'
      rw [e.1, e.2] at hg
      rw [← hv o v ho hg]; exact hg
    · intro hm
      cases hl : lastOf (Group.value? o) gs with
      | none =>
        have := List.getLast?_eq_none_iff.1 hl
        have h2 : "True" ∈ gs.filterMap (Group.value? o) := List.mem_filterMap.2 ⟨_, hm, by simp [Group.value?]⟩
        rw [this] at h2; simp at h2
      | some v =>
        obtain ⟨g, hg, e⟩ := List.mem_filterMap.1 (List.mem_of_getLast? hl)
        cases g <;> simp [Group.value?] at e
        rename_i o' v'
        rw [e.1, e.2] at hg
        exact ⟨v, rfl, by rw [hv o v ho hg]; decide⟩
  refine ⟨h4.trans (key _ (Or.inl rfl)), h5.trans (key _ (Or.inr rfl)), h6.trans ?_⟩
  constructor
  · rintro ⟨w, hl, _⟩
    obtain ⟨g, hg, e⟩ := List.mem_filterMap.1 (List.mem_of_getLast? hl)
    cases g <;> simp [Group.pseudo?] at e
    rw [e] at hg
    cases w with
    | none => exact Or.inl hg
    | some v => right; rw [← hp v hg]; exact hg
  · intro hm
    cases hl : lastOf Group.pseudo? gs with
    | none =>
      have := List.getLast?_eq_none_iff.1 hl
      have h2 : ∃ w, w ∈ gs.filterMap Group.pseudo? := by
        rcases hm with hm | hm
        · exact ⟨none, List.mem_filterMap.2 ⟨_, hm, rfl⟩⟩
        · exact ⟨some "True", List.mem_filterMap.2 ⟨_, hm, rfl⟩⟩
      obtain ⟨w, h2⟩ := h2
      rw [this] at h2; simp at h2
    | some w =>
      refine ⟨w, rfl, ?_⟩
      obtain ⟨g, hg, e⟩ := List.mem_filterMap.1 (List.mem_of_getLast? hl)
      cases g <;> simp [Group.pseudo?] at e
      rw [e] at hg
      intro hw
      rw [hw] at hg
      exact absurd (hp "" hg) (by decide)

/-- **Against the code**: `--competencemaps False` makes competence maps (and sets the size of combinations to two), `--nomanyxp False` leaves out the detailed curves, and
`--pseudotime False` uses pseudotime. -/
theorem false_is_true (toInt : String → Option Int) (noSuffix : String → String) (f : String) :
    ∃ c, main toInt noSuffix (words [.file f, .set .competencemaps "False", .set .nomanyxp "False", .pseudo (some "False")]) = some c
      ∧ c.competencemaps = true ∧ c.nomanyxp = true ∧ c.pseudotime = true ∧ c.maxCombsize = 2 := by
  exact ⟨_, rfl, rfl, rfl, rfl, rfl⟩

theorem parse_no_file (toInt : String → Option Int) (l : List Tok) (h : ∀ t ∈ l, ∀ v, t ≠ .val v) (a : Args) (ha : a.filepath = none) : parse toInt l a = none := by
  cases hp : parse toInt l a with
  | none => rfl
  | some b =>
    obtain ⟨gs, e, _, _, h3⟩ := parse_complete_of toInt l a b hp
    rw [ha] at h3
    simp only [Option.isSome_none, Bool.false_eq_true, if_false, Nat.add_zero] at h3
    obtain ⟨f, hf⟩ := List.length_eq_one_iff.1 h3
    have : f ∈ gs.filterMap Group.file? := by rw [hf]; simp
    obtain ⟨g, hg, e2⟩ := List.mem_filterMap.1 this
    cases g <;> simp [Group.file?] at e2
    have hm : Tok.val f ∈ l := by
      rw [e, words, List.mem_flatMap]
      exact ⟨_, hg, by simp [Group.words, e2]⟩
    exact absurd rfl (h _ hm f)

/-- **Against the code**: `--pseudotime` written just before the file takes the file as its value, and the command fails for want of a file, whatever flags come before and after. -/
theorem pseudotime_takes_file (toInt : String → Option Int) (noSuffix : String → String) (pre post : List Flag) (f : String) :
    main toInt noSuffix (pre.map .flag ++ [.pseudotime, .val f] ++ post.map .flag) = none := by
  have h : ∀ (pre : List Flag) (a : Args), a.filepath = none → parse toInt (pre.map .flag ++ ([.pseudotime, .val f] ++ post.map .flag)) a = none := by
    intro pre
    induction pre with
    | nil =>
      intro a ha
      simp only [List.map_nil, List.nil_append, List.cons_append, parse]
      refine parse_no_file toInt _ ?_ _ ha
      intro t ht v e
      obtain ⟨x, _, hx⟩ := List.mem_map.1 ht
      rw [e] at hx; simp at hx
    | cons x pre ih =>
      intro a ha
      simp only [List.map_cons, List.cons_append, parse]
      exact ih _ (by rw [setFlag_filepath]; exact ha)
  unfold main
  rw [List.append_assoc, h pre {} rfl]; rfl

/-- **Against the code**: without a merge of names, `--remove-suffix` does nothing. -/
theorem suffix_ignored (toInt : String → Option Int) (noSuffix : String → String) (f : String) :
    main toInt noSuffix (words [.file f, .flag .removeSuffix]) = main toInt noSuffix (words [.file f]) := by
  rfl

example : (main (fun _ => some 3) (fun s => s) (words [.set .combsize "3", .pseudo none, .flag .removeSuffix, .file "a", .flag .mergeParam])).map
    (fun c => (c.maxCombsize, c.stripped, c.pseudotime)) = some (3, true, true) := by decide
example : main (fun _ => some 3) (fun s => s) (words [.file "a", .flag .mergeParam, .set .mergePattern "{optimizer_name}"]) = none := by decide

end PlotCommand
end NG
