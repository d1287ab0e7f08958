/-
C154: the cache of the datasets: when something is downloaded, what is kept, and for how long.
-/
import Verif.Model.Datasets
import Mathlib.Tactic.Linarith
import Mathlib.Tactic.NormNum
import Mathlib.Tactic.Ring

namespace NG.Datasets

/-- Specification: a file with something else than white space. -/
def Filled (fs : Files) (p : String) : Prop := ∃ b, fs p = some b ∧ ∃ x ∈ b, x ∉ [9, 10, 11, 12, 13, 32]

theorem blank_iff (b : List Nat) : blank b = false ↔ ∃ x ∈ b, x ∉ [9, 10, 11, 12, 13, 32] := by
  simp [blank]

theorem cleaned_filled (fs : Files) (p : String) (h : Filled fs p) : cleaned fs p = fs := by
  obtain ⟨b, hb, hx⟩ := h
  simp [cleaned, hb, (blank_iff b).2 hx]

theorem cleaned_empty (fs : Files) (p : String) (h : ¬ Filled fs p) : cleaned fs p p = none := by
  unfold cleaned
  cases hb : fs p with
  | none => simpa using hb
  | some b =>
    have : blank b = true := by
      by_contra hc
      exact h ⟨b, hb, (blank_iff b).1 (by simpa using hc)⟩
    simp [this, Files.set]

theorem cleaned_other (fs : Files) (p q : String) (h : q ≠ p) : cleaned fs p q = fs q := by
  unfold cleaned
  cases hb : fs p with
  | none => rfl
  | some b =>
    dsimp only
    by_cases hk : blank b = true
    · rw [if_pos hk]; simp [Files.set, h]
    · rw [if_neg hk]

/-- **C154.** A file that is not empty is used without any request, and no file changes. -/
theorem cached (fs : Files) (name p : String) (v u : Response) (hp : cachePath name = some p) (h : Filled fs p) :
    getPath fs name v u = (some p, fs, 0) := by
  have hc := cleaned_filled fs p h
  obtain ⟨b, hb, hx⟩ := h
  simp [getPath, hp, hc, hb]

/-- **C154.** A missing or empty file is downloaded: afterwards it has what was received. -/
theorem downloaded (fs : Files) (name p : String) (s : Nat) (b : List Nat) (u : Response) (hp : cachePath name = some p) (h : ¬ Filled fs p) :
    ∃ fs', getPath fs name (.content s b) u = (some p, fs', 1) ∧ fs' p = some b ∧ ∀ q, q ≠ p → fs' q = fs q := by
  have hc := cleaned_empty fs p h
  refine ⟨(cleaned fs p).set p (some b), by simp [getPath, hp, hc, download], by simp [Files.set], fun q hq => ?_⟩
  simp [Files.set, hq, cleaned_other fs p q hq]

/-- **C154.** If the verification fails there is a second request, without verification. -/
theorem unverified (fs : Files) (name p : String) (s : Nat) (b : List Nat) (hp : cachePath name = some p) (h : ¬ Filled fs p) :
    ∃ fs', getPath fs name .ssl (.content s b) = (some p, fs', 2) ∧ fs' p = some b := by
  have hc := cleaned_empty fs p h
  exact ⟨(cleaned fs p).set p (some b), by simp [getPath, hp, hc, download], by simp [Files.set]⟩

/-- **C154.** A download that fails raises and leaves no file. -/
theorem failed (fs : Files) (name p : String) (v u : Response) (hp : cachePath name = some p) (h : ¬ Filled fs p)
    (hv : v = .fail ∨ (v = .ssl ∧ ∀ s b, u ≠ .content s b)) : (getPath fs name v u).1 = none ∧ (getPath fs name v u).2.1 p = none := by
  have hc := cleaned_empty fs p h
  rcases hv with rfl | ⟨rfl, hu⟩
  · simp [getPath, hp, hc, download]
  · cases u with
    | content s b => exact absurd rfl (hu s b)
    | ssl => simp [getPath, hp, hc, download]
    | fail => simp [getPath, hp, hc, download]

/-- **C154.** A name that is not in the list raises, without request and without change. -/
theorem unknown (fs : Files) (name : String) (v u : Response) (h : ∀ x, (name, x) ∉ urlNames) : getPath fs name v u = (none, fs, 0) := by
  have : urlNames.lookup name = none := by
    rw [List.lookup_eq_none_iff]
    rintro ⟨a, b⟩ hm
    have : name ≠ a := by rintro rfl; exact h b hm
    simpa using this
  simp [getPath, cachePath, this]

/-- **C154.** The path that is returned is that of a file; no other file changes. -/
theorem returned_exists (fs : Files) (name : String) (v u : Response) :
    (∀ p, (getPath fs name v u).1 = some p → cachePath name = some p ∧ ((getPath fs name v u).2.1 p).isSome) ∧
      ∀ q, cachePath name ≠ some q → (getPath fs name v u).2.1 q = fs q := by
  unfold getPath
  cases hp : cachePath name with
  | none => simp
  | some p =>
    have hne : ∀ q, some p ≠ some q → q ≠ p := fun q h e => h (by rw [e])
    dsimp only
    cases hc : cleaned fs p p with
    | some b =>
      refine ⟨fun q hq => ?_, fun q hq => cleaned_other fs p q (hne q hq)⟩
      simp only [Option.some.injEq] at hq
      subst hq
      exact ⟨rfl, by simp [hc]⟩
    | none =>
      dsimp only
      cases hd : download v u with
      | mk o n =>
        cases o with
        | some b =>
          refine ⟨fun q hq => ?_, fun q hq => ?_⟩
          · simp only [Option.some.injEq] at hq
            subst hq
            exact ⟨rfl, by simp [Files.set]⟩
          · simp [Files.set, hne q hq, cleaned_other fs p q (hne q hq)]
        | none => exact ⟨fun q hq => by simp at hq, fun q hq => cleaned_other fs p q (hne q hq)⟩

theorem filled_step (fs : Files) (name p : String) (v u : Response) (h : Filled fs p) : (getPath fs name v u).2.1 p = fs p := by
  by_cases hp : cachePath name = some p
  · rw [cached fs name p v u hp h]
  · exact (returned_exists fs name v u).2 p hp

/-- **C154.** A file that is not empty stays as it is, whatever is called and whatever the network gives: a dataset is downloaded once. -/
theorem once (fs : Files) (p : String) (h : Filled fs p) (calls : List Call) : run fs calls p = fs p := by
  unfold run
  induction calls generalizing fs with
  | nil => rfl
  | cons c calls ih =>
    have e := filled_step fs c.name p c.verified c.unverified h
    rw [List.foldl_cons, ih _ (by obtain ⟨b, hb, hx⟩ := h; exact ⟨b, e.trans hb, hx⟩), e]

/-- **C154, negative.** The status of the response is not looked at: the page of an error is kept as the dataset, for all later calls. -/
theorem error_page (fs : Files) (name p : String) (page : List Nat) (u : Response) (hp : cachePath name = some p) (h : ¬ Filled fs p)
    (hx : ∃ x ∈ page, x ∉ [9, 10, 11, 12, 13, 32]) (calls : List Call) :
    run (getPath fs name (.content 404 page) u).2.1 calls p = some page := by
  obtain ⟨fs', e, hb, -⟩ := downloaded fs name p 404 page u hp h
  rw [e]
  exact (once fs' p ⟨page, hb, hx⟩ calls).trans hb

/-- **C154, negative.** Something blank that is received is returned as if it were a dataset, without an error. -/
theorem blank_returned (fs : Files) (name p : String) (u : Response) (hp : cachePath name = some p) (h : ¬ Filled fs p) :
    ∃ fs', getPath fs name (.content 200 []) u = (some p, fs', 1) ∧ ¬ Filled fs' p := by
  obtain ⟨fs', e, hb, -⟩ := downloaded fs name p 200 [] u hp h
  refine ⟨fs', e, ?_⟩
  rintro ⟨b, hb', x, hx, -⟩
  rw [hb] at hb'
  cases hb'
  simp at hx

/-- **C154.** All the datasets, and only they, have a path, a format and mocked data; two datasets have different paths. -/
theorem names (name : String) : ((cachePath name).isSome ↔ (format name).isSome) ∧ ((cachePath name).isSome ↔ (mockedSize name).isSome) := by
  by_cases h1 : name = "German towns"
  · subst h1; decide
  by_cases h2 : name = "Ruspini"
  · subst h2; decide
  by_cases h3 : name = "Virus"
  · subst h3; decide
  by_cases h4 : name = "Employees"
  · subst h4; decide
  by_cases h5 : name = "Landscape"
  · subst h5; decide
  have e1 : cachePath name = none := by
    have : urlNames.lookup name = none := by
      rw [List.lookup_eq_none_iff]
      intro x hx
      simp only [urlNames, List.mem_cons, List.not_mem_nil, or_false] at hx
      rcases hx with rfl | rfl | rfl | rfl | rfl <;> simp_all
    simp [cachePath, this]
  have e2 : format name = none := by simp [format, h1, h2, h3, h4, h5]
  have e3 : mockedSize name = none := by
    unfold mockedSize
    split <;> simp_all
  simp [e1, e2, e3]

theorem paths_differ (m n p : String) (hm : cachePath m = some p) (hn : cachePath n = some p) : m = n := by
  have key : ∀ k q, cachePath k = some q → (k, q) ∈ urlNames.map fun x => (x.1, x.1 ++ " - " ++ x.2) := by
    intro k q h
    unfold cachePath at h
    rw [Option.map_eq_some_iff] at h
    obtain ⟨u, hu, rfl⟩ := h
    rw [List.lookup_eq_some_iff] at hu
    obtain ⟨l1, l2, e, -⟩ := hu
    rw [List.mem_map]
    exact ⟨(k, u), by rw [e]; simp, rfl⟩
  have hp := key m p hm
  have hq := key n p hn
  have inj : ∀ x ∈ urlNames.map (fun x => (x.1, x.1 ++ " - " ++ x.2)), ∀ y ∈ urlNames.map (fun x => (x.1, x.1 ++ " - " ++ x.2)), x.2 = y.2 → x.1 = y.1 := by decide
  exact inj _ hp _ hq rfl

/-- **C154, partial.** The height of a pixel is not negative and grows with each color. Missing: an average of the colors (`height_not_average`). -/
theorem height_partial (r g b r' g' b' : ℚ) (hr : r ≤ r') (hg : g ≤ g') (hb : b ≤ b') :
    height r g b ≤ height r' g' b' ∧ (0 ≤ r → 0 ≤ g → 0 ≤ b → 0 ≤ height r g b) := by
  unfold height
  constructor
  · linarith
  · intros; linarith

/-- **C154, negative.** The weights are not those of a luminance, 0.2126 being written 1.216: a gray pixel is about twice as high as its level. -/
theorem height_not_average (x : ℚ) : height x x x = x * (20034 / 10000) ∧ (0 < x → x < height x x x) := by
  unfold height
  constructor
  · ring
  · intro hx; linarith

/-- Witness: a cache with one dataset, which is used while another one is downloaded. -/
example : (getPath (fun q => if q = "Virus - virus3.dat" then some [49] else none) "Virus" .fail .fail).1 = some "Virus - virus3.dat" ∧
    (getPath (fun q => if q = "Virus - virus3.dat" then some [49] else none) "Ruspini" .ssl (.content 200 [50])).2.2 = 2 := by decide

end NG.Datasets
