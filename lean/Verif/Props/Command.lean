/-
C135: commands as functions.
-/
import Verif.Model.Command
import Verif.Props.Template

namespace NG.Command

open Tpl (Text)
open Relation (ReflTransGen)

/-! ### Specification -/

/-- The characters that a process writes to a stream. -/
def written (s : Stream) (prog : List (Stream × Char)) : Text := (prog.filter fun q => decide (q.1 = s)).map Prod.snd

/-- What a call can come to. -/
def Reach (cap : Nat) (prog : List (Stream × Char)) (s : State) : Prop := ReflTransGen (Step cap) (start prog) s

/-! ### Termination -/

structure Inv (cap : Nat) (prog : List (Stream × Char)) (s : State) : Prop where
  out : s.got ++ s.out ++ written .out s.todo = written .out prog
  err : s.gotErr ++ s.err ++ written .err s.todo = written .err prog
  errCap : s.err.length ≤ cap
  dead : s.alive = false → s.todo = []
  reading : s.phase = .reading → s.gotErr = []
  rest : s.phase ≠ .reading → s.out = [] ∧ s.alive = false
  done : s.phase = .done → s.err = []

theorem inv_step {cap : Nat} {prog : List (Stream × Char)} {s t : State} (h : Inv cap prog s) (hst : Step cap s t) : Inv cap prog t := by
  cases hst with
  | writeOut c todo _ h1 h2 =>
    refine ⟨?_, ?_, h.errCap, fun ha => ?_, h.reading, fun hp => ?_, h.done⟩
    · rw [← h.out, h1]; simp [written]
    · rw [← h.err, h1]; simp [written]
    · exact absurd (h.dead ha) (by simp [h1])
    · exact absurd (h.dead (h.rest hp).2) (by simp [h1])
  | writeErr c todo _ h1 h2 =>
    refine ⟨?_, ?_, by simp; omega, fun ha => ?_, h.reading, fun hp => ?_, fun hd => ?_⟩
    · rw [← h.out, h1]; simp [written]
    · rw [← h.err, h1]; simp [written]
    · exact absurd (h.dead ha) (by simp [h1])
    · exact absurd (h.dead (h.rest hp).2) (by simp [h1])
    · exact absurd (h.dead (h.rest (by simp only at hd; simp [hd])).2) (by simp [h1])
  | exit _ h1 h2 => exact ⟨h.out, h.err, h.errCap, fun _ => h1, h.reading, fun hp => ⟨(h.rest hp).1, rfl⟩, h.done⟩
  | readOut c out _ h1 h2 =>
    refine ⟨by rw [← h.out, h2]; simp, h.err, h.errCap, h.dead, h.reading, fun hp => absurd h1 hp, h.done⟩
  | eof _ h1 h2 h3 => exact ⟨h.out, h.err, h.errCap, h.dead, fun hp => absurd hp (by simp), fun _ => ⟨h2, h3⟩, fun hp => absurd hp (by simp)⟩
  | readErr c err _ h1 h2 =>
    refine ⟨h.out, by rw [← h.err, h2]; simp, ?_, h.dead, fun hp => absurd (h1.symm.trans hp) (by simp), h.rest, fun hp => absurd (h1.symm.trans hp) (by simp)⟩
    have := h.errCap
    rw [h2] at this
    simp at this ⊢
    omega
  | finish _ h1 h2 h3 => exact ⟨h.out, h.err, h.errCap, h.dead, fun hp => absurd hp (by simp), fun _ => h.rest (by simp [h1]), fun _ => h2⟩

theorem inv_reach {cap : Nat} {prog : List (Stream × Char)} {s : State} (h : Reach cap prog s) : Inv cap prog s := by
  induction h with
  | refl => exact ⟨by simp [start], by simp [start], by simp [start], fun h => absurd h (by simp [start]), fun _ => rfl, fun h => absurd rfl h, fun _ => rfl⟩
  | tail _ hst ih => exact inv_step ih hst

/-- The number of steps that remain. -/
def left (s : State) : Nat :=
  2 * s.todo.length + s.out.length + s.err.length + (if s.alive then 1 else 0) + (match s.phase with | .reading => 2 | .rest => 1 | .done => 0)

/-- Each step is one of finitely many. -/
theorem left_step {cap : Nat} {s t : State} (h : Step cap s t) : left s = left t + 1 := by
  cases h with
  | writeOut c todo _ h1 h2 => simp [left, h1]; omega
  | writeErr c todo _ h1 h2 => simp [left, h1]; omega
  | exit _ h1 h2 => simp [left, h2]; omega
  | readOut c out _ h1 h2 => simp [left, h2]; omega
  | eof _ h1 h2 h3 => simp [left, h1]
  | readErr c err _ h1 h2 => simp [left, h2]; omega
  | finish _ h1 h2 h3 => simp [left, h1]

/-- No call makes more steps than twice the number of written characters, and 3. -/
theorem runs_finite {cap : Nat} {prog : List (Stream × Char)} (run : Nat → State) (h0 : run 0 = start prog) (n : Nat) (h : ∀ i, i < n → Step cap (run i) (run (i + 1))) : n ≤ 2 * prog.length + 3 := by
  have : ∀ i, i ≤ n → left (run i) + i = left (run 0) := by
    intro i
    induction i with
    | zero => intro _; rfl
    | succ i ih =>
      intro hi
      have h1 := left_step (h i (by omega))
      have h2 := ih (by omega)
      omega
  have h1 := this n (Nat.le_refl n)
  rw [h0] at h1
  have h2 : left (start prog) = 2 * prog.length + 3 := by simp [left, start]
  omega

theorem progress {cap : Nat} (hcap : 0 < cap) {prog : List (Stream × Char)} (he : (written .err prog).length ≤ cap) {s : State} (h : Inv cap prog s) (hd : s.phase ≠ .done) : ∃ t, Step cap s t := by
  cases hp : s.phase with
  | reading =>
    cases ho : s.out with
    | cons c out => exact ⟨_, .readOut c out s hp ho⟩
    | nil =>
      cases ha : s.alive with
      | false => exact ⟨_, .eof s hp ho ha⟩
      | true =>
        cases ht : s.todo with
        | nil => exact ⟨_, .exit s ht ha⟩
        | cons q todo =>
          obtain ⟨st, c⟩ := q
          cases st with
          | out => exact ⟨_, .writeOut c todo s ht (by rw [ho]; exact hcap)⟩
          | err =>
            refine ⟨_, .writeErr c todo s ht ?_⟩
            have h1 := congrArg List.length h.err
            rw [h.reading hp, ht] at h1
            simp [written] at h1 he
            omega
  | rest =>
    obtain ⟨-, ha⟩ := h.rest (by simp [hp])
    cases hq : s.err with
    | nil => exact ⟨_, .finish s hp hq ha⟩
    | cons c err => exact ⟨_, .readErr c err s hp hq⟩
  | done => exact absurd hp hd

theorem to_end (cap : Nat) : ∀ (n : Nat) (s : State), left s = n → ∃ t, ReflTransGen (Step cap) s t ∧ ∀ u, ¬ Step cap t u := by
  intro n
  induction n using Nat.strongRecOn with
  | _ n ih =>
    intro s hs
    by_cases h : ∃ u, Step cap s u
    · obtain ⟨u, hu⟩ := h
      have := left_step hu
      obtain ⟨t, ht, hn⟩ := ih (left u) (by omega) u rfl
      exact ⟨t, .head hu ht, hn⟩
    · exact ⟨s, .refl, fun u hu => h ⟨u, hu⟩⟩

/-- A call ends with all that was written to both streams, in its order, whatever the order of the steps. Partial: when all that is written to stderr fits into the pipe. -/
theorem ends_partial {cap : Nat} (hcap : 0 < cap) {prog : List (Stream × Char)} (he : (written .err prog).length ≤ cap) {s : State} (hs : Reach cap prog s) :
    (s.phase ≠ .done → ∃ t, Step cap s t) ∧ (s.phase = .done → s.got = written .out prog ∧ s.gotErr = written .err prog ∧ s.alive = false) ∧
    ∃ t, ReflTransGen (Step cap) s t ∧ t.phase = .done := by
  have hi := inv_reach hs
  refine ⟨progress hcap he hi, fun hd => ?_, ?_⟩
  · obtain ⟨h1, h2⟩ := hi.rest (by simp [hd])
    have h3 := hi.dead h2
    have h4 := hi.out
    have h5 := hi.err
    rw [h1, h3] at h4
    rw [hi.done hd, h3] at h5
    simp [written] at h4 h5
    exact ⟨by simpa [written] using h4, by simpa [written] using h5, h2⟩
  · obtain ⟨t, ht, hn⟩ := to_end cap (left s) s rfl
    refine ⟨t, ht, ?_⟩
    by_contra hd
    obtain ⟨u, hu⟩ := progress hcap he (inv_reach (hs.trans ht)) hd
    exact hn u hu

/-- When more is written to stderr than the pipe holds, no call ever ends: each comes to a state where the process and the call wait for each other. -/
theorem deadlock {cap : Nat} {prog : List (Stream × Char)} (he : cap < (written .err prog).length) {s : State} (hs : Reach cap prog s) :
    s.phase = .reading ∧ s.alive = true ∧ ∃ t, ReflTransGen (Step cap) s t ∧ t.phase = .reading ∧ t.alive = true ∧ ∀ u, ¬ Step cap t u := by
  have key : ∀ {s : State}, Reach cap prog s → s.phase = .reading ∧ s.alive = true := by
    intro s hs
    induction hs with
    | refl => exact ⟨rfl, rfl⟩
    | tail hr hst ih =>
      have hi := inv_reach hr
      obtain ⟨h1, h2⟩ := ih
      cases hst with
      | writeOut => exact ⟨h1, h2⟩
      | writeErr => exact ⟨h1, h2⟩
      | exit _ h3 h4 =>
        exfalso
        have h5 := hi.err
        rw [hi.reading h1, h3] at h5
        have h6 := congrArg List.length h5
        have h7 := hi.errCap
        simp [written] at h6 he
        omega
      | readOut => exact ⟨h1, h2⟩
      | eof _ _ _ h3 => rw [h2] at h3; cases h3
      | readErr _ _ _ h3 => rw [h1] at h3; cases h3
      | finish _ h3 => rw [h1] at h3; cases h3
  refine ⟨(key hs).1, (key hs).2, ?_⟩
  obtain ⟨t, ht, hn⟩ := to_end cap (left s) s rfl
  exact ⟨t, ht, (key (hs.trans ht)).1, (key (hs.trans ht)).2, hn⟩

/-! ### The output -/

/-- A text of lines that end with a line break. -/
def lines (ls : List Text) : Text := ls.flatMap fun l => l ++ ['\n']

theorem splitlines_append (l t : Text) (hn : '\n' ∉ l) : Tpl.splitlines (l ++ '\n' :: t) = l :: Tpl.splitlines t := by
  induction l with
  | nil => simp [Tpl.splitlines]
  | cons c l ih =>
    simp only [List.mem_cons, not_or] at hn
    rw [List.cons_append, Tpl.splitlines, if_neg (Ne.symm hn.1), ih hn.2]

theorem splitlines_lines (ls : List Text) (hn : ∀ l ∈ ls, '\n' ∉ l) (l : Text) (hl : '\n' ∉ l) : Tpl.splitlines (lines ls ++ l) = ls ++ (if l = [] then [] else [l]) := by
  induction ls with
  | nil =>
    by_cases h : l = []
    · subst h; simp [lines, Tpl.splitlines]
    · simp [lines, h, Tpl.splitlines_one l h hl]
  | cons a ls ih =>
    have : lines (a :: ls) ++ l = a ++ '\n' :: (lines ls ++ l) := by simp [lines]
    rw [this, splitlines_append _ _ (hn a (by simp)), ih (fun b hb => hn b (by simp [hb]))]
    rfl

/-- A command that succeeds gives its lines, without the spaces at both ends of each line; a last line may be without a line break. A command that fails gives an error with its stderr. -/
theorem output_spec (space : Char → Bool) (code : Nat) (ls : List Text) (hn : ∀ l ∈ ls, '\n' ∉ l) (l : Text) (hl : '\n' ∉ l) (gotErr : Text) :
    outcome space code (lines ls ++ l) gotErr = if code = 0 then .ok (Tpl.join ((ls ++ if l = [] then [] else [l]).map (strip space))) else .error gotErr := by
  rw [outcome, splitlines_lines ls hn l hl]
  by_cases h : code = 0 <;> simp [h]

theorem strip_id (space : Char → Bool) (l : Text) (h1 : ∀ c, l.head? = some c → space c = false) (h2 : ∀ c, l.getLast? = some c → space c = false) : strip space l = l := by
  have d : ∀ l : Text, (∀ c, l.head? = some c → space c = false) → l.dropWhile space = l := by
    intro l h
    cases l with
    | nil => rfl
    | cons c l => rw [List.dropWhile_cons, h c rfl]; rfl
  rw [strip, d l h1, d _ (by intro c hc; rw [List.head?_reverse] at hc; exact h2 c hc), List.reverse_reverse]

/-- The output is all that was written to stdout but the last line break. Partial: when no line begins or ends with a space. -/
theorem output_partial (space : Char → Bool) (ls : List Text) (hne : ls ≠ []) (hn : ∀ l ∈ ls, '\n' ∉ l) (h1 : ∀ l ∈ ls, ∀ c, l.head? = some c → space c = false)
    (h2 : ∀ l ∈ ls, ∀ c, l.getLast? = some c → space c = false) (gotErr : Text) : ∃ o, outcome space 0 (lines ls) gotErr = .ok o ∧ o ++ ['\n'] = lines ls := by
  have h := output_spec space 0 ls hn [] (by simp) gotErr
  simp only [List.append_nil, if_true] at h
  refine ⟨_, h, ?_⟩
  have e : ls.map (strip space) = ls := by
    conv_rhs => rw [← List.map_id ls]
    exact List.map_congr_left fun l hl => strip_id space l (h1 l hl) (h2 l hl)
  rw [e]
  clear h e hn h1 h2
  induction ls with
  | nil => exact absurd rfl hne
  | cons a ls ih =>
    cases ls with
    | nil => simp [Tpl.join, lines]
    | cons b ls =>
      have := ih (by simp)
      rw [Tpl.join, List.append_assoc, List.cons_append, this]
      · simp [lines]
      · intro h; cases h

/-! ### The command -/

/-- The arguments can be read back from the command: the first ones are those of the command and of the call, each keyword is before the first equality sign of its own part. -/
theorem command_inj {command args args' : List Text} {kw kw' : List (Text × Text)} (hlen : args.length = args'.length) (hk : ∀ q ∈ kw, '=' ∉ q.1) (hk' : ∀ q ∈ kw', '=' ∉ q.1)
    (h : fullCommand command args kw = fullCommand command args' kw') : args = args' ∧ kw = kw' := by
  rw [fullCommand, fullCommand, List.append_assoc, List.append_assoc, List.append_cancel_left_eq] at h
  obtain ⟨h1, h2⟩ := List.append_inj h hlen
  refine ⟨h1, ?_⟩
  have key : ∀ a b c d : Text, '=' ∉ a → '=' ∉ c → a ++ '=' :: b = c ++ '=' :: d → a = c ∧ b = d := by
    intro a
    induction a with
    | nil =>
      intro b c d _ hc he
      cases c with
      | nil => simpa using he
      | cons x c => simp only [List.nil_append, List.cons_append, List.cons.injEq] at he; exact absurd he.1 (fun h => hc (by simp [← h]))
    | cons y a ih =>
      intro b c d ha hc he
      cases c with
      | nil => simp only [List.nil_append, List.cons_append, List.cons.injEq] at he; exact absurd he.1 (fun h => ha (by simp [h]))
      | cons x c =>
        simp only [List.cons_append, List.cons.injEq] at he
        simp only [List.mem_cons, not_or] at ha hc
        obtain ⟨e1, e2⟩ := ih b c d ha.2 hc.2 he.2
        exact ⟨by rw [he.1, e1], e2⟩
  clear h h1
  induction kw generalizing kw' with
  | nil =>
    cases kw' with
    | nil => rfl
    | cons q kw' => simp at h2
  | cons q kw ih =>
    cases kw' with
    | nil => simp at h2
    | cons q' kw' =>
      simp only [List.map_cons, List.cons.injEq, option] at h2
      have h3 : q.1 ++ '=' :: q.2 = q'.1 ++ '=' :: q'.2 := by simpa using h2.1
      obtain ⟨e1, e2⟩ := key _ _ _ _ (hk q (by simp)) (hk' q' (by simp)) h3
      rw [ih (fun r hr => hk r (by simp [hr])) (fun r hr => hk' r (by simp [hr])) h2.2, Prod.ext e1 e2]

/-- The length of the command. -/
theorem command_length (command args : List Text) (kw : List (Text × Text)) : (fullCommand command args kw).length = command.length + args.length + kw.length ∧ command <+: fullCommand command args kw := by
  refine ⟨by simp [fullCommand]; omega, ?_⟩
  rw [fullCommand, List.append_assoc]
  exact List.prefix_append _ _

/-! ### The function of a folder -/

theorem join_cons (x : Text) (t : List Text) (ht : t ≠ []) : Tpl.join (x :: t) = x ++ '\n' :: Tpl.join t := by
  obtain ⟨y, t, rfl⟩ := List.exists_cons_of_ne_nil ht
  exact Tpl.join.eq_3 x (y :: t) (by intro h; cases h)

theorem join_append (ls ms : List Text) (h1 : ls ≠ []) (h2 : ms ≠ []) : Tpl.join (ls ++ ms) = Tpl.join ls ++ '\n' :: Tpl.join ms := by
  induction ls with
  | nil => exact absurd rfl h1
  | cons a ls ih =>
    cases ls with
    | nil => rw [List.singleton_append, join_cons _ _ h2]; rfl
    | cons b ls =>
      rw [List.cons_append, join_cons _ _ (by simp), ih (by simp), join_cons a (b :: ls) (by simp)]
      simp

theorem strip_blank (space : Char → Bool) (l : Text) (h : ∀ c ∈ l, space c = true) : strip space l = [] := by
  have : l.dropWhile space = [] := by
    induction l with
    | nil => rfl
    | cons c l ih => rw [List.dropWhile_cons, h c (by simp), if_pos rfl]; exact ih fun d hd => h d (by simp [hd])
  rw [strip, this]; rfl

theorem join_blank (space : Char → Bool) (hs : space '\n' = true) (ls : List Text) (h : ∀ l ∈ ls, ∀ c ∈ l, space c = true) (c : Char) (hc : c ∈ Tpl.join (ls.map (strip space))) : space c = true := by
  induction ls with
  | nil => simp [Tpl.join] at hc
  | cons a ls ih =>
    rw [List.map_cons, strip_blank space a (h a (by simp))] at hc
    cases ls with
    | nil => simp [Tpl.join] at hc
    | cons b ls =>
      rw [join_cons _ _ (by simp)] at hc
      simp only [List.nil_append, List.mem_cons] at hc
      rcases hc with rfl | hc
      · exact hs
      · exact ih (fun l hl => h l (by simp [hl])) hc

theorem lastLine_only (space : Char → Bool) (line blank : Text) (hb : ∀ c ∈ blank, space c = true) (hl : line ≠ []) (hn : '\n' ∉ line)
    (h1 : ∀ c, line.head? = some c → space c = false) (h2 : ∀ c, line.getLast? = some c → space c = false) : Tpl.lastLine space (line ++ blank) = some line := by
  have e1 : (line ++ blank).dropWhile space = line ++ blank := by
    obtain ⟨c, t, rfl⟩ := List.exists_cons_of_ne_nil hl
    rw [List.cons_append, List.dropWhile_cons, h1 c rfl]; rfl
  have e2 : (line ++ blank).reverse.dropWhile space = line.reverse := by
    rw [List.reverse_append]
    exact Tpl.drop_all space _ _ (by simpa using hb) (by intro c hc; rw [List.head?_reverse] at hc; exact h2 c hc)
  rw [Tpl.lastLine, e1, e2, List.reverse_reverse, Tpl.splitlines_one line hl hn]; rfl

/-- The value of a folder function is the number of the last line of the output which is not blank, when the command succeeds; lines before it can be anything. -/
theorem folder_value {V : Type} (space : Char → Bool) (hs : space '\n' = true) (parse : Text → Option V) (last : Option Text) (before after : List Text) (hb : ∀ l ∈ before, '\n' ∉ l)
    (ha : ∀ l ∈ after, '\n' ∉ l ∧ ∀ c ∈ l, space c = true)
    (line : Text) (hl : line ≠ []) (hn : '\n' ∉ line) (h1 : ∀ c, line.head? = some c → space c = false) (h2 : ∀ c, line.getLast? = some c → space c = false) {v : V} (hv : parse line = some v)
    (gotErr : Text) : (folderCall space parse last (outcome space 0 (lines (before ++ line :: after)) gotErr)).1 = .ok v := by
  have h := output_spec space 0 (before ++ line :: after) (by
    simp only [List.mem_append, List.mem_cons]
    rintro l (h | rfl | h)
    exacts [hb l h, hn, (ha l h).1]) [] (by simp) gotErr
  simp only [List.append_nil, if_true] at h
  rw [h]
  have e1 : ∃ blank, (∀ c ∈ blank, space c = true) ∧ Tpl.join ((line :: after).map (strip space)) = line ++ blank := by
    rw [List.map_cons, strip_id space line h1 h2]
    cases after with
    | nil => exact ⟨[], by simp, by simp [Tpl.join]⟩
    | cons a after =>
      refine ⟨'\n' :: Tpl.join ((a :: after).map (strip space)), ?_, join_cons _ _ (by simp)⟩
      intro c hc
      simp only [List.mem_cons] at hc
      rcases hc with rfl | hc
      · exact hs
      · exact join_blank space hs (a :: after) (fun l hl => (ha l hl).2) c hc
  obtain ⟨blank, hbl, e1⟩ := e1
  have e2 : Tpl.lastLine space (Tpl.join ((before ++ line :: after).map (strip space))) = some line := by
    rw [List.map_append]
    by_cases hne : before = []
    · subst hne
      rw [List.map_nil, List.nil_append, e1]
      exact lastLine_only space line blank hbl hl hn h1 h2
    · rw [join_append _ _ (by simpa using hne) (by simp), e1]
      have := Tpl.lastLine_spec space hs (Tpl.join (before.map (strip space))) line blank hbl hl hn h2 h1
      simpa using this
  have e3 : Tpl.join ((before ++ line :: after).map (strip space)) ≠ [] := by
    intro h0
    rw [h0] at e2
    simp [Tpl.lastLine, Tpl.splitlines] at e2
  simp only [folderCall, e2, hv]
  rw [if_neg e3]

/-- After a success `last_full_output` is the output without the spaces around it. -/
theorem folder_last {V : Type} (space : Char → Bool) (parse : Text → Option V) (last : Option Text) (output : Text) :
    ∃ a t b, (folderCall space parse last (.ok output)).2 = some t ∧ output = a ++ t ++ b ∧ (∀ c ∈ a, space c = true) ∧ (∀ c ∈ b, space c = true) ∧
      (∀ c, t.head? = some c → space c = false) ∧ (∀ c, t.getLast? = some c → space c = false) := by
  have d : ∀ l : Text, ∃ a, l = a ++ l.dropWhile space ∧ (∀ c ∈ a, space c = true) ∧ ∀ c, (l.dropWhile space).head? = some c → space c = false := by
    intro l
    refine ⟨l.takeWhile space, (List.takeWhile_append_dropWhile).symm, fun c hc => ?_, fun c hc => ?_⟩
    · exact List.all_eq_true.1 (List.all_takeWhile (p := space) (l := l)) c hc
    · have := List.head?_dropWhile_not space l
      rw [hc] at this
      exact this
  obtain ⟨a, e1, h1, h2⟩ := d output
  obtain ⟨b, e2, h3, h4⟩ := d (output.dropWhile space).reverse
  have e3 : output.dropWhile space = strip space output ++ b.reverse := by
    have := congrArg List.reverse e2
    rw [List.reverse_reverse, List.reverse_append] at this
    exact this
  refine ⟨a, strip space output, b.reverse, rfl, ?_, h1, by simpa using h3, ?_, ?_⟩
  · rw [List.append_assoc, ← e3]; exact e1
  · intro c hc
    apply h2
    rw [e3]
    cases h : strip space output with
    | nil => rw [h] at hc; cases hc
    | cons x t => rw [h] at hc; simpa using hc
  · intro c hc
    apply h4
    rw [strip, List.getLast?_reverse] at hc
    exact hc

/-- A failed command is an error and leaves the last output as it was; a command without output is an error too. -/
theorem folder_fails {V : Type} (space : Char → Bool) (parse : Text → Option V) (last : Option Text) (code : Nat) (hc : code ≠ 0) (got gotErr : Text) :
    folderCall space parse last (outcome space code got gotErr) = (.error (.failed gotErr), last) ∧ (folderCall space parse last (outcome space 0 [] gotErr)).1 = .error .noOutput := by
  simp [folderCall, outcome, hc, Tpl.splitlines, Tpl.join]

/-! ### Cases -/

/-- The class of spaces of the examples. -/
def isSpace (c : Char) : Bool := c = ' ' || c = '\n' || c = '\t'

/-- The output is not all that was written: the spaces at the beginning of a line are lost. -/
theorem indent_lost : outcome isSpace 0 (lines [[' ', 'a'], ['b']]) [] = .ok ['a', '\n', 'b'] := by
  simp [outcome, lines, Tpl.splitlines, Tpl.join, strip, isSpace]

/-- Blank lines: one gives no output, two give an output without a line. -/
example : (folderCall isSpace (fun l => some l.length) none (outcome isSpace 0 ['\n'] [])).1 = .error .noOutput ∧
    (folderCall isSpace (fun l => some l.length) none (outcome isSpace 0 ['\n', '\n'] [])).1 = .error .noLine := by
  constructor <;> simp [folderCall, outcome, Tpl.splitlines, Tpl.join, strip, Tpl.lastLine, isSpace]

/-- The number of a line after a text and before a blank line. -/
example (last : Option Text) (e : Text) : (folderCall isSpace (fun l => some l.length) last (outcome isSpace 0 (lines ([[' ', 'x']] ++ ['1', '.', '5'] :: [[' ']])) e)).1 = .ok 3 :=
  folder_value isSpace (by decide) (fun l => some l.length) last [[' ', 'x']] [[' ']] (by decide) (by decide) ['1', '.', '5'] (by decide) (by decide) (by decide) (by decide) rfl e

/-- A process that writes to both streams, with a pipe for two characters. -/
example : ∀ s, Reach 2 [(.err, 'a'), (.out, 'b'), (.err, 'c')] s → ∃ t, ReflTransGen (Step 2) s t ∧ t.phase = .done := fun _ h => (ends_partial (by decide) (by decide) h).2.2

/-- With one more character it never ends. -/
example : ∀ s, Reach 2 [(.err, 'a'), (.out, 'b'), (.err, 'c'), (.err, 'd')] s → s.phase = .reading := fun _ h => (deadlock (by decide) h).1

/-- Without the assumption on the keywords two calls give the same command. -/
example : fullCommand [['r', 'm']] [] [(['a'], ['b', '=', 'c'])] = fullCommand [['r', 'm']] [] [(['a', '=', 'b'], ['c'])] := by decide

end NG.Command
