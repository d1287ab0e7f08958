/-
C134: launching benchmarks and reading their results.
-/
import Verif.Model.Launch
import Verif.Props.Bench
import Mathlib.Data.List.Lex
import Mathlib.Data.List.Perm.Basic
import Mathlib.Data.List.Perm.Lattice
import Mathlib.Data.List.Dedup

namespace NG.Launch

set_option linter.unusedSectionVars false

section
variable {C α : Type} [DecidableEq C]

/-! ### Specification -/

/-- The rows of a file: the text in each column, the empty text elsewhere. -/
def fileRows (f : File C) : List (C → String) := f.lines.map fun l c => ((f.header.zip l).lookup c).getD ""

/-- Files with columns, each once, and lines of that length. -/
structure File.Ok (f : File C) : Prop where
  nonempty : f.header ≠ []
  nodup : f.header.Nodup
  lines : ∀ l ∈ f.lines, l.length = f.header.length

/-- Frames with each column once, and rows with no value elsewhere. -/
structure Frame.Ok (f : Frame C α) : Prop where
  nodup : f.cols.Nodup
  rows : ∀ r ∈ f.rows, ∀ c, c ∉ f.cols → r c = .nan

/-- No cell of these rows is a text that stands for NaN, but the empty one. -/
def Clean (na : String → Bool) (rows : List (C → String)) : Prop := ∀ r ∈ rows, ∀ c, na (r c) = true → r c = ""

/-- The row of a summary. -/
def rowOf (d : Dict C String) : C → String := fun c => ((d.lookup c).getD .nan).text

/-! ### Frames -/

theorem mem_addNew {cs : List C} {c d : C} : d ∈ addNew cs c ↔ d ∈ cs ∨ d = c := by
  rw [addNew]
  split
  · rename_i h
    constructor
    · exact Or.inl
    · rintro (h' | rfl)
      · exact h'
      · exact h
  · simp

theorem nodup_addNew {cs : List C} (c : C) (h : cs.Nodup) : (addNew cs c).Nodup := by
  rw [addNew]
  split
  · exact h
  · rename_i hc
    exact List.nodup_append.mpr ⟨h, by simp, by intro a ha b hb; simp at hb; rintro rfl; exact hc (hb ▸ ha)⟩

theorem mem_cols {l cs : List C} {d : C} : d ∈ l.foldl addNew cs ↔ d ∈ cs ∨ d ∈ l := by
  induction l generalizing cs with
  | nil => simp
  | cons c l ih => rw [List.foldl_cons, ih, mem_addNew, List.mem_cons, or_assoc]

theorem nodup_cols {l cs : List C} (h : cs.Nodup) : (l.foldl addNew cs).Nodup := by
  induction l generalizing cs with
  | nil => exact h
  | cons c l ih => exact ih (nodup_addNew c h)

theorem cols_prefix {l cs : List C} : cs <+: l.foldl addNew cs := by
  induction l generalizing cs with
  | nil => exact List.prefix_refl _
  | cons c l ih =>
    refine List.IsPrefix.trans ?_ ih
    rw [addNew]
    split
    · exact List.prefix_refl _
    · exact List.prefix_append _ _

theorem cols_self {l cs : List C} (h : (cs ++ l).Nodup) : l.foldl addNew cs = cs ++ l := by
  induction l generalizing cs with
  | nil => simp
  | cons c l ih =>
    have hc : c ∉ cs := by
      intro hm
      exact (List.nodup_append.mp h).2.2 c hm c (by simp) rfl
    rw [List.foldl_cons, addNew, if_neg hc, ih (by simpa using h)]
    simp

theorem lookup_map (l : List C) (f : C → α) (c : C) : (l.zip (l.map f)).lookup c = if c ∈ l then some (f c) else none := by
  induction l with
  | nil => rfl
  | cons a l ih =>
    simp only [List.map_cons, List.zip_cons_cons, List.lookup_cons, ih, List.mem_cons]
    by_cases h : c = a
    · subst h; simp
    · rw [beq_eq_false_iff_ne.mpr h]; simp [h]

theorem lookup_none {d : Dict C α} {c : C} (h : c ∉ d.map Prod.fst) : d.lookup c = none := by
  induction d with
  | nil => rfl
  | cons a d ih =>
    simp only [List.map_cons, List.mem_cons, not_or] at h
    obtain ⟨x, y⟩ := a
    rw [List.lookup_cons, beq_eq_false_iff_ne.mpr h.1]
    exact ih h.2

theorem ofDicts_ok (ds : List (Dict C α)) : (ofDicts ds).Ok := by
  refine ⟨nodup_cols (by simp), ?_⟩
  intro r hr c hc
  simp only [ofDicts, List.mem_map, mem_cols, List.not_mem_nil, false_or, List.mem_flatMap, not_exists, not_and] at hr hc
  obtain ⟨d, hd, rfl⟩ := hr
  have : d.lookup c = none := lookup_none (fun h => by
    obtain ⟨q, hq, rfl⟩ := List.mem_map.mp h
    exact hc d hd q hq rfl)
  simp [this]

theorem concat_ok {fs : List (Frame C α)} (hne : fs ≠ []) (h : ∀ f ∈ fs, f.Ok) :
    ∃ g, concat fs = some g ∧ g.Ok ∧ g.rows = fs.flatMap (fun f => f.rows) ∧ ∀ c, c ∈ g.cols ↔ ∃ f ∈ fs, c ∈ f.cols := by
  refine ⟨_, if_neg (by simpa using hne), ⟨nodup_cols (by simp), ?_⟩, rfl, fun c => by simp [mem_cols]⟩
  intro r hr c hc
  obtain ⟨f, hf, hr⟩ := List.mem_flatMap.mp hr
  simp only [mem_cols, List.not_mem_nil, false_or, List.mem_flatMap, not_exists, not_and] at hc
  exact (h f hf).rows r hr c (hc f hf)

/-! ### Files -/

theorem write_rows {f : Frame C String} (h : f.Ok) : fileRows (write f) = f.rows.map fun r c => (r c).text := by
  rw [fileRows, write, List.map_map]
  refine List.map_congr_left fun r hr => ?_
  funext c
  simp only [Function.comp, lookup_map]
  split
  · rfl
  · rename_i hc
    rw [h.rows r hr c hc]; rfl

theorem write_ok {f : Frame C String} (h : f.Ok) (hne : f.cols ≠ []) : (write f).Ok := by
  refine ⟨hne, h.nodup, ?_⟩
  intro l hl
  obtain ⟨r, -, rfl⟩ := List.mem_map.mp hl
  simp [write]

theorem zip_lookup_none {h : List C} {l : List String} {c : C} (hc : c ∉ h) : (h.zip l).lookup c = none := by
  induction h generalizing l with
  | nil => rfl
  | cons a h ih =>
    cases l with
    | nil => rfl
    | cons s l =>
      simp only [List.mem_cons, not_or] at hc
      rw [List.zip_cons_cons, List.lookup_cons, beq_eq_false_iff_ne.mpr hc.1]
      exact ih hc.2

theorem read_spec (na : String → Bool) {f : File C} (h : f.Ok) :
    ∃ g, read na f = some g ∧ g.Ok ∧ g.cols = f.header ∧ g.rows.map (fun r c => (r c).text) = (fileRows f).map fun r c => if na (r c) then "" else r c := by
  refine ⟨_, by rw [read, if_neg h.nonempty], ⟨h.nodup, ?_⟩, rfl, ?_⟩
  · intro r hr c hc
    obtain ⟨l, -, rfl⟩ := List.mem_map.mp hr
    simp only [zip_lookup_none hc]
  · rw [fileRows, List.map_map, List.map_map]
    refine List.map_congr_left fun l _ => ?_
    funext c
    simp only [Function.comp]
    cases (f.header.zip l).lookup c with
    | none => simp [Cell.text]
    | some s =>
      simp only [Option.getD_some]
      split <;> rfl

/-- A result that is saved to a file: the rows of the file stay, except for the texts that stand for NaN, and the new rows come after them; no column is lost, and the columns of the file keep
their order. -/
theorem append_spec (na : String → Bool) {f : File C} (hf : f.Ok) {df : Frame C String} (hd : df.Ok) :
    ∃ g, saveOrAppend na df (some f) = some g ∧ g.Ok ∧ f.header <+: g.header ∧ (∀ c, c ∈ g.header ↔ c ∈ f.header ∨ c ∈ df.cols) ∧
      fileRows g = ((fileRows f).map fun r c => if na (r c) then "" else r c) ++ df.rows.map fun r c => (r c).text := by
  obtain ⟨p, hp, hpo, hpc, hpr⟩ := read_spec na hf
  obtain ⟨d, hdd, hdo, hdr, hdc⟩ := concat_ok (fs := [p, df]) (by simp) (by simp [hpo, hd])
  have hpre : f.header <+: d.cols := by
    rw [concat, if_neg (by simp)] at hdd
    cases hdd
    simp only [List.flatMap_cons, List.flatMap_nil, List.append_nil, List.foldl_append, hpc]
    rw [cols_self (cs := []) (l := f.header) (by simpa using hf.nodup)]
    exact cols_prefix
  refine ⟨write d, by simp [saveOrAppend, hp, hdd], write_ok hdo ?_, hpre, fun c => by simp [write, hdc, hpc], ?_⟩
  · intro h
    rw [h] at hpre
    exact hf.nonempty (List.prefix_nil.mp hpre)
  · rw [write_rows hdo, hdr, ← hpr]
    simp

/-- Partial: without other texts that stand for NaN than the empty one, the rows of the file stay as they are. -/
theorem append_partial (na : String → Bool) {f : File C} (hf : f.Ok) (hc : Clean na (fileRows f)) {df : Frame C String} (hd : df.Ok) :
    ∃ g, saveOrAppend na df (some f) = some g ∧ g.Ok ∧ fileRows g = fileRows f ++ df.rows.map fun r c => (r c).text := by
  obtain ⟨g, hg, hgo, -, -, hr⟩ := append_spec na hf hd
  refine ⟨g, hg, hgo, ?_⟩
  rw [hr]
  congr 1
  conv_rhs => rw [← List.map_id (fileRows f)]
  refine List.map_congr_left fun r hr => ?_
  funext c
  simp only [id]
  split
  · rename_i h; exact (hc r hr c h).symm
  · rfl

/-! ### Runs -/

theorem run_all {X S : Type} (eq : X → X → Bool) (describe : X → S) : ∀ (xs : List X) (ind : Nat) (l : List S), l.length ≤ ind →
    (Bench.compute eq describe (fun _ => true) ind xs ⟨l, none⟩).2.summaries = l ++ xs.map describe
  | [], ind, l, _ => by simp [Bench.compute]
  | x :: xs, ind, l, h => by
    rw [Bench.compute]
    simp only [show ¬ ind < l.length by omega, if_false, if_true]
    rw [run_all eq describe xs (ind + 1) (l ++ [describe x]) (by simp; omega)]
    simp

/-- The experiments of the chunks of all workers are those of the plan, each once. -/
theorem chunks_perm {X : Type} (plan : List X) (total : Nat) {workers : Nat} (hw : 0 < workers) :
    (((⟨1, 0, total⟩ : Bench.Moduler).split workers).flatMap fun m => (Bench.iter plan m).map fun e => e.2).Perm plan := by
  classical
  set ms := (⟨1, 0, total⟩ : Bench.Moduler).split workers
  set base := plan.zipIdx.map fun e => (e.2, e.1)
  have h : (ms.flatMap fun m => Bench.iter plan m).Perm base := by
    rw [List.perm_iff_count]
    intro a
    have h1 : Bench.accepting ms a.1 = 1 := by
      have := Bench.split_accepting ⟨1, 0, total⟩ (by simp) workers hw a.1
      simpa [Bench.Moduler.call, Nat.mod_one] using this
    have key : ∀ ms : List Bench.Moduler, (ms.flatMap fun m => Bench.iter plan m).count a = Bench.accepting ms a.1 * base.count a := by
      intro ms
      induction ms with
      | nil => simp [Bench.accepting]
      | cons m ms ih =>
        rw [List.flatMap_cons, List.count_append, ih]
        have : (Bench.iter plan m).count a = if m.call a.1 then base.count a else 0 := by
          rw [Bench.iter]
          split
          · rename_i hm
            exact List.count_filter (by simpa using hm)
          · rename_i hm
            rw [List.count_eq_zero]
            intro hmem
            exact hm (by simpa using (List.mem_filter.mp hmem).2)
        rw [this]
        simp only [Bench.accepting, List.filter_cons]
        split <;> simp [Nat.add_mul, Nat.add_comm]
    rw [key, h1, Nat.one_mul]
  have h2 := h.map fun e => e.2
  rw [List.map_flatMap] at h2
  refine h2.trans ?_
  have : base.map (fun e => e.2) = plan := by
    simp [base, List.map_map, Function.comp_def]
  rw [this]

/-- With any number of workers the rows are those of the experiments of the plan, each once. -/
theorem compute_spec {X : Type} (maker : Option Nat → List X) (eq : X → X → Bool) (describe : X → Dict C α) {workers : Nat} (hw : 0 < workers) (executor : Bool)
    (he : workers = 1 ∨ executor = true) (seed cap : Option Nat) (hm : maker none ≠ []) :
    ∃ f, compute maker eq describe workers executor seed cap = some f ∧ f.Ok ∧
      f.rows.Perm ((Bench.capped cap (maker seed)).map fun x c => ((describe x).lookup c).getD .nan) ∧
      ∀ c, c ∈ f.cols ↔ ∃ x ∈ Bench.capped cap (maker seed), c ∈ (describe x).map Prod.fst := by
  have hplan : (⟨maker, 1, seed, cap⟩ : Bench.Chunk X).plan = Bench.capped cap (maker seed) := by
    simp [Bench.Chunk.plan, List.range_succ]
  set plan := Bench.capped cap (maker seed)
  set total := (Bench.capped cap (maker none)).length * 1
  have hchunk : ∀ m, runChunk eq describe plan m = ofDicts (((Bench.iter plan m).map fun e => e.2).map describe) := by
    intro m
    rw [runChunk, run_all eq describe _ 0 [] (by simp)]
    simp
  have hperm := chunks_perm plan total hw
  obtain ⟨f, hf, hfo, hfr, hfc⟩ := concat_ok (fs := ((⟨1, 0, total⟩ : Bench.Moduler).split workers).map fun m => runChunk eq describe plan m)
    (by simp [Bench.Moduler.split]; omega) (by
      intro g hg
      obtain ⟨m, -, rfl⟩ := List.mem_map.mp hg
      rw [hchunk]
      exact ofDicts_ok _)
  refine ⟨f, ?_, hfo, ?_, ?_⟩
  · rw [compute, if_neg (by rcases he with rfl | rfl <;> simp), if_neg hm]
    simp only [hplan]
    exact hf
  · rw [hfr, List.flatMap_map]
    have := hperm.map fun x c => ((describe x).lookup c).getD .nan
    rw [List.map_flatMap] at this
    refine (List.Perm.of_eq ?_).trans this
    congr 1
    funext m
    rw [hchunk]
    simp only [ofDicts, List.map_map]
    rfl
  · intro c
    rw [hfc]
    constructor
    · rintro ⟨g, hg, hc⟩
      obtain ⟨m, hm, rfl⟩ := List.mem_map.mp hg
      rw [hchunk, ofDicts, mem_cols] at hc
      simp only [List.not_mem_nil, false_or, List.mem_flatMap] at hc
      obtain ⟨d, hd, hc⟩ := hc
      obtain ⟨x, hx, rfl⟩ := List.mem_map.mp hd
      exact ⟨x, hperm.mem_iff.mp (List.mem_flatMap.mpr ⟨m, hm, hx⟩), hc⟩
    · rintro ⟨x, hx, hc⟩
      obtain ⟨m, hm, hx⟩ := List.mem_flatMap.mp (hperm.mem_iff.mpr hx)
      refine ⟨_, List.mem_map.mpr ⟨m, hm, rfl⟩, ?_⟩
      rw [hchunk, ofDicts, mem_cols]
      exact Or.inr (List.mem_flatMap.mpr ⟨_, List.mem_map.mpr ⟨x, hx, rfl⟩, hc⟩)

/-- Several workers without an executor, or no worker, are refused. -/
theorem compute_refused {X : Type} (maker : Option Nat → List X) (eq : X → X → Bool) (describe : X → Dict C α) (seed cap : Option Nat) :
    (∀ workers, 1 < workers → compute maker eq describe workers false seed cap = none) ∧ ∀ executor, compute maker eq describe 0 executor seed cap = none := by
  refine ⟨fun w hw => by rw [compute, if_pos ⟨rfl, hw⟩], fun e => ?_⟩
  rw [compute, if_neg (by omega)]
  split
  · rfl
  · simp [Bench.Moduler.split, concat]

/-- A cap on the number of experiments; at least one is run. -/
theorem cap_spec {X : Type} (c : Nat) (l : List X) : (Bench.capped (some c) l).length = min (max 1 c) l.length ∧ Bench.capped (some c) l <+: l :=
  ⟨List.length_take, List.take_prefix _ _⟩

/-! ### Launches -/

/-- The rows of the file at a path. -/
def rowsAt (fs : Fs C) (p : String) : List (C → String) := ((fs p).map fileRows).getD []

/-- The texts of the summaries of a plan. -/
def planRows {X : Type} (maker : Option Nat → List X) (describe : X → Dict C String) (seed cap : Option Nat) : List (C → String) :=
  (Bench.capped cap (maker seed)).map fun x => rowOf (describe x)

theorem save_spec (na ok : String → Bool) {df : Frame C String} (hd : df.Ok) (hne : df.cols ≠ []) {p : String} (hp : ok p = true) {fs : Fs C} (hf : ∀ f, fs p = some f → f.Ok)
    (hc : Clean na (rowsAt fs p)) :
    ∃ fs', save na ok df p fs = some fs' ∧ (∃ f, fs' p = some f ∧ f.Ok) ∧ (∀ q, q ≠ p → fs' q = fs q) ∧ rowsAt fs' p = rowsAt fs p ++ df.rows.map fun r c => (r c).text := by
  cases h : fs p with
  | none =>
    refine ⟨_, by rw [save, if_pos hp, h]; rfl, ⟨write df, by simp, write_ok hd hne⟩, fun q hq => by simp [hq], ?_⟩
    simp [rowsAt, h, write_rows hd]
  | some f =>
    have hc' : Clean na (fileRows f) := by simpa [rowsAt, h] using hc
    obtain ⟨g, hg, hgo, hgr⟩ := append_partial na (hf f h) hc' hd
    refine ⟨_, by rw [save, if_pos hp, h, hg]; rfl, ⟨g, by simp, hgo⟩, fun q hq => by simp [hq], ?_⟩
    simp [rowsAt, h, hgr]

variable {X : Type} {na ok : String → Bool} {maker : Option Nat → List X} {eq : X → X → Bool} {describe : X → Dict C String}

theorem launch_spec (experiment : String) {workers : Nat} (hw : 0 < workers) (seed cap : Option Nat) (output : Option String) (hm : ∀ s, maker s ≠ []) (hdn : ∀ x, describe x ≠ [])
    {p : String} (hpath : output.getD (experiment ++ ".csv") = p) (hp : ok p = true) {fs : Fs C} (hf : ∀ f, fs p = some f → f.Ok) (hc : Clean na (rowsAt fs p)) :
    ∃ fs', launch na ok maker eq describe experiment workers seed cap output fs = some (p, fs') ∧ (∃ f, fs' p = some f ∧ f.Ok) ∧ (∀ q, q ≠ p → fs' q = fs q) ∧
      ∃ l, rowsAt fs' p = rowsAt fs p ++ l ∧ l.Perm (planRows maker describe seed cap) := by
  obtain ⟨df, hdf, hdo, hdr, hdc⟩ := compute_spec maker eq describe hw (decide (workers ≠ 1)) (by by_cases h : workers = 1 <;> simp [h]) seed cap (hm none)
  have hne : df.cols ≠ [] := by
    have hpl : Bench.capped cap (maker seed) ≠ [] := by
      cases cap with
      | none => exact hm seed
      | some c =>
        intro h
        have := (cap_spec c (maker seed)).1
        rw [h] at this
        have h0 : (maker seed).length ≠ 0 := by simpa using hm seed
        simp at this
        omega
    obtain ⟨x, hx⟩ := List.exists_mem_of_ne_nil _ hpl
    obtain ⟨q, hq⟩ := List.exists_mem_of_ne_nil _ (hdn x)
    exact List.ne_nil_of_mem ((hdc q.1).mpr ⟨x, hx, List.mem_map.mpr ⟨q, hq, rfl⟩⟩)
  obtain ⟨fs', h1, h2, h3, h4⟩ := save_spec na ok hdo hne hp hf hc
  refine ⟨fs', ?_, h2, h3, _, h4, ?_⟩
  · simp only [launch, hdf, hpath, h1, Option.bind_eq_bind, Option.bind_some]
  · have := hdr.map fun (r : C → Cell String) c => (r c).text
    rw [List.map_map] at this
    exact this

/-- Repeated launches to a path: the file has its old rows and then, for each repetition, one row for each experiment of the plan with the seed of the repetition. No other file is changed. Partial:
no text of the results stands for NaN, except the empty one. -/
theorem repeated_partial (experiment : String) {workers : Nat} (hw : 0 < workers) (seed cap : Option Nat) (output : Option String) (hm : ∀ s, maker s ≠ []) (hdn : ∀ x, describe x ≠ [])
    {p : String} (hpath : output.getD (experiment ++ ".csv") = p) (hp : ok p = true) (hcl : ∀ x, Clean na [rowOf (describe x)]) :
    ∀ (n k : Nat) (s : String × Fs C), (∀ f, s.2 p = some f → f.Ok) → Clean na (rowsAt s.2 p) →
      ∃ s', repeated na ok maker eq describe experiment workers seed cap output n k s = some s' ∧ (0 < n → s'.1 = p) ∧ (∀ q, q ≠ p → s'.2 q = s.2 q) ∧
        ∃ l, rowsAt s'.2 p = rowsAt s.2 p ++ l ∧ l.Perm ((List.range n).flatMap fun i => planRows maker describe (seed.map (· + (k + i))) cap) := by
  intro n
  induction n with
  | zero => intro k s _ _; exact ⟨s, rfl, by simp, fun _ _ => rfl, [], by simp, by simp⟩
  | succ n ih =>
    intro k s hf hc
    obtain ⟨fs1, h1, ⟨f1, hf1, hf1o⟩, h3, l1, h4, h5⟩ := launch_spec (na := na) (ok := ok) (eq := eq) experiment hw (seed.map (· + k)) cap output hm hdn hpath hp hf hc
    have hc1 : Clean na (rowsAt fs1 p) := by
      intro r hr c hna
      rw [h4, List.mem_append] at hr
      rcases hr with hr | hr
      · exact hc r hr c hna
      · obtain ⟨x, -, rfl⟩ := List.mem_map.mp (h5.mem_iff.mp hr)
        exact hcl x _ (by simp) c hna
    obtain ⟨s', g1, g2, g3, l2, g4, g5⟩ := ih (k + 1) (p, fs1) (fun f hf' => by rw [show (p, fs1).2 p = some f1 from hf1] at hf'; cases hf'; exact hf1o) hc1
    refine ⟨s', by rw [repeated, h1]; exact g1, ?_, fun q hq => (g3 q hq).trans (h3 q hq), l1 ++ l2, by rw [g4]; simp [h4], ?_⟩
    · intro _
      cases n with
      | zero => rw [repeated] at g1; cases g1; rfl
      | succ n => exact g2 (by omega)
    · rw [List.range_succ_eq_map, List.flatMap_cons, List.flatMap_map]
      refine List.Perm.append (by simpa using h5) (g5.trans (List.Perm.of_eq ?_))
      congr 1
      funext i
      have : (fun x : Nat => x + (k + 1 + i)) = fun x : Nat => x + (k + (i + 1)) := by funext x; omega
      simp only [Function.comp, Nat.succ_eq_add_one, this]

/-- The repetitions of launches are the plan of one chunk with repetitions. -/
theorem repeated_plan (n : Nat) (seed cap : Option Nat) :
    ((List.range n).flatMap fun i => planRows maker describe (seed.map (· + i)) cap) = (⟨maker, n, seed, cap⟩ : Bench.Chunk X).plan.map fun x => rowOf (describe x) := by
  simp only [planRows, Bench.Chunk.plan, List.flatMap, List.map_flatten, List.map_map]
  rfl

/-- When a path cannot be written, the results go to the file named after the experiment and the path is left as it is. -/
theorem fallback (experiment : String) {workers : Nat} (hw : 0 < workers) (seed cap : Option Nat) {out : String} (hm : ∀ s, maker s ≠ []) (hdn : ∀ x, describe x ≠ [])
    (ho : ok out = false) (hp : ok (experiment ++ ".csv") = true) {fs : Fs C} (hf : ∀ f, fs (experiment ++ ".csv") = some f → f.Ok) (hc : Clean na (rowsAt fs (experiment ++ ".csv"))) :
    ∃ fs', launch na ok maker eq describe experiment workers seed cap (some out) fs = some (experiment ++ ".csv", fs') ∧ fs' out = fs out ∧
      ∃ l, rowsAt fs' (experiment ++ ".csv") = rowsAt fs (experiment ++ ".csv") ++ l ∧ l.Perm (planRows maker describe seed cap) := by
  obtain ⟨fs', h1, -, h3, h4⟩ := launch_spec (na := na) (ok := ok) (eq := eq) experiment hw seed cap none hm hdn (p := experiment ++ ".csv") rfl hp hf hc
  refine ⟨fs', ?_, h3 out (by rintro rfl; rw [hp] at ho; cases ho), h4⟩
  rw [← h1]
  simp only [launch, Option.getD_some, Option.getD_none, Option.bind_eq_bind]
  cases hdf : compute maker eq describe workers (decide (workers ≠ 1)) seed cap with
  | none => rfl
  | some df =>
    simp only [Option.bind_some]
    have : save na ok df out fs = none := by rw [save, ho]; simp
    rw [this]
    cases save na ok df (experiment ++ ".csv") fs <;> rfl

/-! ### Selections -/

/-- The selected rows are those that satisfy all criteria, in their order. -/
theorem select_spec [DecidableEq α] (kw : List (C × Crit α)) (f : Frame C α) :
    select kw f = if ∀ q ∈ kw, q.1 ∈ f.cols then some ⟨f.cols, f.rows.filter fun r => kw.all fun q => q.2.holds (r q.1)⟩ else none := by
  induction kw generalizing f with
  | nil => simp [select]
  | cons q kw ih =>
    obtain ⟨c, k⟩ := q
    rw [select]
    by_cases hc : c ∈ f.cols
    · rw [if_pos hc, ih]
      simp only [List.mem_cons, forall_eq_or_imp, hc, true_and, List.filter_filter, List.all_cons]
      congr 3
      refine List.filter_congr fun r _ => ?_
      rw [Bool.and_comm]
    · rw [if_neg hc, if_neg (by simp [hc])]

/-- The order of the criteria does not matter. -/
theorem select_perm [DecidableEq α] {kw kw' : List (C × Crit α)} (h : kw.Perm kw') (f : Frame C α) : select kw f = select kw' f := by
  rw [select_spec, select_spec]
  have e1 : (∀ q ∈ kw, q.1 ∈ f.cols) = ∀ q ∈ kw', q.1 ∈ f.cols := by simp only [h.mem_iff]
  have e2 : ∀ r : C → Cell α, (kw.all fun q => q.2.holds (r q.1)) = kw'.all fun q => q.2.holds (r q.1) := by
    intro r
    rw [Bool.eq_iff_iff]
    simp only [List.all_eq_true, h.mem_iff]
  simp only [e1, e2]

/-- Values, and sets of them. -/
theorem holds_spec [DecidableEq α] (v : Cell α) : (∀ vs, (Crit.isin vs).holds v = true ↔ v ∈ vs) ∧ ∀ p, (Crit.pred p).holds v = p v :=
  ⟨fun vs => by simp [Crit.holds], fun p => rfl⟩

/-- The columns of the selection are dropped, and the others stay as they are. -/
theorem drop_spec [DecidableEq α] {kw : List (C × Crit α)} {f g h : Frame C α} (hs : select kw f = some g) (hd : selectAndDrop kw f = some h) :
    (∀ c, c ∈ h.cols ↔ c ∈ f.cols ∧ c ∉ kw.map Prod.fst) ∧ h.cols.Sublist f.cols ∧ h.rows.length = g.rows.length ∧
    ∀ c ∈ h.cols, h.rows.map (fun r => r c) = g.rows.map fun r => r c := by
  have hgc : g.cols = f.cols := by
    rw [select_spec] at hs
    split at hs
    · cases hs; rfl
    · cases hs
  rw [selectAndDrop, hs, Option.map_some, Option.some.injEq] at hd
  subst hd
  refine ⟨fun c => by simp [hgc], by simp [← hgc], by simp, ?_⟩
  intro c hc
  rw [List.map_map]
  refine List.map_congr_left fun r _ => ?_
  exact if_pos hc

/-- `unique` gives the set of the values of the rows, for columns that exist and have no NaN. -/
theorem unique_spec [DecidableEq α] (cs : List C) (f : Frame C α) :
    (unique cs f = none ↔ (∃ c ∈ cs, c ∉ f.cols) ∨ ∃ r ∈ f.rows, ∃ c ∈ cs, r c = .nan) ∧
    ∀ l, unique cs f = some l → l.Nodup ∧ ∀ v, v ∈ l ↔ ∃ r ∈ f.rows, cs.map r = v := by
  constructor
  · rw [unique]
    split
    · rename_i h1
      split
      · rename_i h2
        simp only [reduceCtorEq, false_iff, not_or, not_exists, not_and, not_not]
        exact ⟨h1, h2⟩
      · rename_i h2
        simp only [true_iff]
        push Not at h2
        exact Or.inr h2
    · rename_i h1
      simp only [true_iff]
      push Not at h1
      exact Or.inl h1
  · intro l h
    rw [unique] at h
    split at h
    · split at h
      · cases h
        exact ⟨List.nodup_dedup _, fun v => by simp⟩
      · cases h
    · cases h

/-- For one column, with NaN among the values. -/
theorem unique1_spec [DecidableEq α] (c : C) (f : Frame C α) :
    (unique1 c f = none ↔ c ∉ f.cols) ∧ ∀ l, unique1 c f = some l → l.Nodup ∧ ∀ v, v ∈ l ↔ ∃ r ∈ f.rows, r c = v := by
  constructor
  · rw [unique1]; split <;> simp_all
  · intro l h
    rw [unique1] at h
    split at h
    · cases h
      exact ⟨List.nodup_dedup _, fun v => by simp⟩
    · cases h

/-! ### Comparisons -/

theorem rowLt_val [LinearOrder α] : ∀ a b : List α, rowLt (a.map Cell.val) (b.map Cell.val) = decide (a < b)
  | [], [] => by simp [rowLt]
  | [], b :: bs => by simp [rowLt]
  | a :: as, [] => by simp [rowLt]
  | a :: as, b :: bs => by
    simp only [List.map_cons, rowLt, Cell.val.injEq, ne_eq, reduceCtorEq, not_false_eq_true, and_true, rowLt_val as bs, Cell.lt, List.cons_lt_cons_iff]
    by_cases h : a = b
    · subst h; simp
    · rw [if_neg h]; simp [h]

/-- Rows without NaN have the same sorted lists exactly if one is a rearrangement of the other. -/
theorem sort_perm [LinearOrder α] {l l' : List (List (Cell α))} (h : ∀ r ∈ l, .nan ∉ r) (h' : ∀ r ∈ l', .nan ∉ r) :
    (l.insertionSort fun a b => rowLt b a = false) = (l'.insertionSort fun a b => rowLt b a = false) ↔ l.Perm l' := by
  have lift : ∀ l : List (List (Cell α)), (∀ r ∈ l, .nan ∉ r) → ∃ m : List (List α), l = m.map fun r => r.map Cell.val := by
    intro l hl
    refine ⟨l.map fun r => r.filterMap fun v => match v with | .nan => none | .val a => some a, ?_⟩
    rw [List.map_map]
    conv_lhs => rw [← List.map_id l]
    refine List.map_congr_left fun r hr => ?_
    have := hl r hr
    clear hr
    induction r with
    | nil => rfl
    | cons v r ih =>
      simp only [List.mem_cons, not_or] at this
      cases v with
      | nan => exact absurd rfl this.1
      | val a =>
        have e := ih this.2
        simp only [id, Function.comp] at e ⊢
        simp only [List.filterMap_cons, List.map_cons]
        rw [← e]
  obtain ⟨m, rfl⟩ := lift l h
  obtain ⟨m', rfl⟩ := lift l' h'
  have hs : ∀ m : List (List α), (m.insertionSort (· ≤ ·)).map (fun r => r.map Cell.val) = (m.map fun r => r.map Cell.val).insertionSort fun a b => rowLt b a = false := by
    intro m
    refine List.map_insertionSort _ _ _ _ ?_
    intro a _ b _
    rw [rowLt_val, decide_eq_false_iff_not, not_lt]
  constructor
  · intro he
    exact (List.perm_insertionSort _ _).symm.trans ((List.Perm.of_eq he).trans (List.perm_insertionSort _ _))
  · intro hp
    rw [← hs, ← hs]
    have inj : Function.Injective fun r : List α => r.map Cell.val := List.map_injective_iff.mpr (fun a b hab => by cases hab; rfl)
    have hp' : m.Perm m' := (List.map_perm_map_iff inj).mp hp
    congr 1
    refine List.Perm.eq_of_pairwise' (r := (· ≤ ·)) (List.pairwise_insertionSort _ _) (List.pairwise_insertionSort _ _) ?_
    exact (List.perm_insertionSort _ _).trans (hp'.trans (List.perm_insertionSort _ _).symm)

/-- `assert_equivalent` passes exactly if the frames have the same columns and the same rows, each as often, in any order. Partial: for frames without NaN. -/
theorem equivalent_partial [LinearOrder α] {f g : Frame C α} (hf : f.Ok) (hg : g.Ok) (nf : ∀ r ∈ f.rows, ∀ c ∈ f.cols, r c ≠ .nan) (ng : ∀ r ∈ g.rows, ∀ c ∈ g.cols, r c ≠ .nan) :
    equivalent f g = true ↔ (∀ c, c ∈ f.cols ↔ c ∈ g.cols) ∧ f.rows.Perm g.rows := by
  simp only [equivalent, Bool.and_eq_true, decide_eq_true_eq]
  constructor
  · rintro ⟨⟨⟨h1, h2⟩, -⟩, h4⟩
    have hcols : ∀ c, c ∈ f.cols ↔ c ∈ g.cols := fun c => ⟨h2 c, h1 c⟩
    refine ⟨hcols, ?_⟩
    have hp := (sort_perm (by
      intro r hr hm
      obtain ⟨s, hs, rfl⟩ := List.mem_map.mp hr
      obtain ⟨c, hc, hn⟩ := List.mem_map.mp hm
      exact nf s hs c hc hn) (by
      intro r hr hm
      obtain ⟨s, hs, rfl⟩ := List.mem_map.mp hr
      obtain ⟨c, hc, hn⟩ := List.mem_map.mp hm
      exact ng s hs c ((hcols c).mp hc) hn)).mp h4
    have back : ∀ rows : List (C → Cell α), (∀ r ∈ rows, ∀ c, c ∉ f.cols → r c = .nan) →
        (rows.map fun r => f.cols.map r).map (fun l c => ((f.cols.zip l).lookup c).getD .nan) = rows := by
      intro rows hrows
      rw [List.map_map]
      conv_rhs => rw [← List.map_id rows]
      refine List.map_congr_left fun r hr => ?_
      funext c
      simp only [Function.comp, id, lookup_map]
      split
      · rfl
      · rename_i hc; exact (hrows r hr c hc).symm
    have := hp.map fun l c => ((f.cols.zip l).lookup c).getD .nan
    rwa [back _ hf.rows, back _ (fun r hr c hc => hg.rows r hr c (fun h => hc ((hcols c).mpr h)))] at this
  · rintro ⟨hcols, hp⟩
    refine ⟨⟨⟨fun c h => (hcols c).mpr h, fun c h => (hcols c).mp h⟩, hp.length_eq.symm⟩, ?_⟩
    refine (sort_perm ?_ ?_).mpr (hp.map _)
    · intro r hr hm
      obtain ⟨s, hs, rfl⟩ := List.mem_map.mp hr
      obtain ⟨c, hc, hn⟩ := List.mem_map.mp hm
      exact nf s hs c hc hn
    · intro r hr hm
      obtain ⟨s, hs, rfl⟩ := List.mem_map.mp hr
      obtain ⟨c, hc, hn⟩ := List.mem_map.mp hm
      exact ng s hs c ((hcols c).mp hc) hn

end

/-! ### Cases -/

/-- With a NaN two rearrangements of the same rows are not accepted. -/
theorem nan_wrong : ∃ f g : Frame Nat Nat, f.Ok ∧ g.Ok ∧ f.cols = g.cols ∧ f.rows.Perm g.rows ∧ equivalent f g = false := by
  refine ⟨⟨[0], [fun c => if c = 0 then .val 1 else .nan, fun _ => .nan]⟩, ⟨[0], [fun _ => .nan, fun c => if c = 0 then .val 1 else .nan]⟩, ⟨by decide, ?_⟩, ⟨by decide, ?_⟩, rfl,
    List.Perm.swap _ _ _, by decide⟩
  · intro r hr c hc
    simp only [List.mem_cons, List.not_mem_nil, or_false] at hr hc
    rcases hr with rfl | rfl <;> simp [hc]
  · intro r hr c hc
    simp only [List.mem_cons, List.not_mem_nil, or_false] at hr hc
    rcases hr with rfl | rfl <;> simp [hc]

/-- A text that pandas reads as NaN is lost from the old rows when a new result is appended. -/
theorem na_lost : ∃ (na : String → Bool) (f g : File Nat) (df : Frame Nat String), f.Ok ∧ saveOrAppend na df (some f) = some g ∧ (fileRows f).map (fun r => r 0) = ["None"] ∧
    (fileRows g).map (fun r => r 0) = ["", "DE"] :=
  ⟨fun s => decide (s = "" ∨ s = "None"), ⟨[0], [["None"]]⟩, ⟨[0], [[""], ["DE"]]⟩, ⟨[0], [fun c => if c = 0 then .val "DE" else .nan]⟩, ⟨by decide, by decide, by decide⟩, by decide, by decide, by decide⟩

/-- Five experiments and two workers: the rows in the order of the chunks. -/
example : (compute (fun _ => [10, 11, 12, 13, 14]) (fun a b => decide (a = b)) (fun (x : Nat) => [((0 : Nat), Cell.val x)]) 2 true none none).map (fun f => f.rows.map fun r => r 0) =
    some [.val 10, .val 12, .val 14, .val 11, .val 13] := by decide

/-- Columns that only some results have. -/
example : saveOrAppend (fun s => decide (s = "")) (ofDicts [[((1 : Nat), .val "c"), (2, .val "d")]]) (some ⟨[0, 1], [["a", "b"]]⟩) = some ⟨[0, 1, 2], [["a", "b", ""], ["", "c", "d"]]⟩ := by decide

/-- Two rearranged frames are equivalent. -/
example : equivalent (⟨[0, 1], [fun c => .val c, fun c => .val (c + 5)]⟩ : Frame Nat Nat) ⟨[1, 0], [fun c => .val (c + 5), fun c => .val c]⟩ = true := by decide

end NG.Launch
