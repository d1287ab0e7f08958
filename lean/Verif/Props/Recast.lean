import Verif.Lemmas.Recast
import Mathlib.Tactic.Ring
import Mathlib.Data.Int.Order.Basic

/-!
# C35, C36, C61: optimizers recast from a library calling its objective

The theorems quantify over every interleaving of the thread and its caller.
-/

namespace NG
namespace Recast

variable {P L S : Type}

/-! ## What the algorithm receives -/

/-- C61: for every interleaving, the `i`-th loss the algorithm receives is the `i`-th loss put by the caller, and it is
received for the `i`-th point the algorithm asked for; the `i`-th point got by the caller is that one too. -/
theorem fifo (alg : S → Act P L S) (s0 : S) (ops : List (Op L)) (y : Sys P L S) (h : exec alg ops (.start s0) = some y)
    (i : Nat) (x : P) (l : L) (he : y.eaten[i]? = some (x, l)) :
    y.puts[i]? = some (some l) ∧ ∀ x', y.got[i]? = some x' → x' = x := by
  have inv := (Inv.start alg s0).exec ops h
  obtain ⟨stop, told, _⟩ := inv.told
  constructor
  · have hlt := (List.getElem?_eq_some_iff.mp he).1
    rw [told, List.append_assoc, List.getElem?_append_left (by simpa using hlt), List.getElem?_map, he]
    rfl
  · intro x' hx'
    have h1 : y.posted[i]? = some x' := by
      rw [← inv.hist, List.getElem?_append_left (List.getElem?_eq_some_iff.mp hx').1]; exact hx'
    obtain ⟨r, hr⟩ := inv.pair
    have hlt := (List.getElem?_eq_some_iff.mp he).1
    rw [← hr, List.getElem?_append_left (by simpa using hlt), List.getElem?_map, he] at h1
    simpa using h1.symm

/-- C61: hence a caller who puts a loss only after getting the corresponding point, in order, has every loss received for the
point it belongs to: if the `i`-th loss put is `f` of the `i`-th point got, all the algorithm ever sees is `f`. -/
theorem caller_partial (alg : S → Act P L S) (s0 : S) (f : P → L) (ops : List (Op L)) (y : Sys P L S)
    (h : exec alg ops (.start s0) = some y) (hlen : y.puts.length ≤ y.got.length)
    (hf : ∀ i x, i < y.puts.length → y.got[i]? = some x → y.puts[i]? = some (some (f x))) :
    ∀ e ∈ y.eaten, e.2 = f e.1 := by
  intro e he
  obtain ⟨i, hi, rfl⟩ := List.mem_iff_getElem.mp he
  have h1 : y.eaten[i]? = some (y.eaten[i].1, y.eaten[i].2) := List.getElem?_eq_getElem hi
  obtain ⟨h2, h3⟩ := fifo alg s0 ops y h i _ _ h1
  have hp := (List.getElem?_eq_some_iff.mp h2).1
  have hg : i < y.got.length := by omega
  have h4 := h3 _ (List.getElem?_eq_getElem hg)
  have h5 := hf i _ hp (List.getElem?_eq_getElem hg)
  rw [h2, h4] at h5
  simpa using h5

/-- C61: for every interleaving, the points got are those the algorithm would ask when run as an ordinary function: the
`i`-th one depends only on the first `i` losses. -/
theorem trajectory (alg : S → Act P L S) (s0 : S) (ops : List (Op L)) (y : Sys P L S)
    (h : exec alg ops (.start s0) = some y) (i : Nat) (x : P) (hx : y.got[i]? = some x) :
    ∃ ls : List L, y.puts.take i = ls.map some ∧ ls.length = i ∧ nextPt alg s0 ls = some x := by
  have inv := (Inv.start alg s0).exec ops h
  obtain ⟨stop, told, _⟩ := inv.told
  have h1 : y.posted[i]? = some x := by
    rw [← inv.hist, List.getElem?_append_left (List.getElem?_eq_some_iff.mp hx).1]; exact hx
  obtain ⟨h2, h3⟩ := inv.traj i x h1
  refine ⟨_, ?_, ?_, h3⟩
  · rw [told, List.append_assoc, List.take_append_of_le_length (by simpa using h2)]
    simp [← List.map_take]
  · simp [h2]

/-- C61: the caller never waits forever for a point it is entitled to: when it waits, has no loss to give back and the last
message of the thread was not taken already, the thread can work or has a message ready. -/
theorem progress_partial (alg : S → Act P L S) (s0 : S) (ops : List (Op L)) (y : Sys P L S)
    (h : exec alg ops (.start s0) = some y) (hb : y.blocked = true) (hlen : y.got.length ≤ y.puts.length)
    (hc : y.closed = false) : (step alg .take y).isSome ∨ (step alg .work y).isSome := by
  have inv := (Inv.start alg s0).exec ops h
  obtain ⟨stop, told, hstop⟩ := inv.told
  have hist := inv.hist
  have wk := inv.wk
  have htake : y.qAsk ≠ [] → (step alg .take y).isSome := by
    intro hne
    cases hq : y.qAsk with
    | nil => exact absurd hq hne
    | cons m q => cases m <;> simp [step, hb, hq]
  cases hy : y.wk with
  | run s =>
    right
    cases hs : alg s <;> simp [step, work, hy, hs]
  | wait x k =>
    rw [hy] at wk hstop
    obtain ⟨_, hl, _⟩ := wk
    have hst := hstop rfl
    subst hst
    by_cases hq : y.qAsk = []
    · right
      rw [hq] at hist
      simp only [pts, List.filterMap_nil, List.append_nil] at hist
      rw [hist, hl] at hlen
      cases ht : y.qTell with
      | nil =>
        exfalso
        rw [told, ht] at hlen
        simp at hlen
      | cons v q => cases v <;> simp [step, work, hy, ht]
    · exact Or.inl (htake hq)
  | failing | ended =>
    right; simp [step, work, hy]
  | dead =>
    left
    apply htake
    rw [hy] at wk
    rcases wk with ⟨hc', _⟩ | ⟨_, q, m, hq, _⟩
    · rw [hc] at hc'; cases hc'
    · rw [hq]; simp

/-! ## Failures -/

/-- The algorithm, run as an ordinary function, raises once it has received these losses. -/
def Fails (alg : S → Act P L S) (s0 : S) (losses : List L) : Prop := ∃ t, after alg s0 losses = some t ∧ alg t = .fail

/-- The error flag against the history. -/
def ErrOk (alg : S → Act P L S) (s0 : S) (y : Sys P L S) : Prop :=
  match y.wk with
  | .run _ | .wait _ _ => y.error = false
  | .failing => y.error = false ∧ Fails alg s0 (y.eaten.map (·.2))
  | .ended | .dead => y.error = true ↔ Fails alg s0 (y.eaten.map (·.2))

theorem ErrOk.step {alg : S → Act P L S} {s0 : S} {y y' : Sys P L S} (h : ErrOk alg s0 y) (inv : Inv alg s0 y) (op : Op L)
    (hs : step alg op y = some y') : ErrOk alg s0 y' := by
  unfold ErrOk at *
  have wk := inv.wk
  cases op with
  | work =>
    simp only [Recast.step, work] at hs
    cases hy : y.wk with
    | run t =>
      rw [hy] at h hs wk
      have haf := wk.1
      cases ha : alg t with
      | call x k =>
        simp only [ha, Option.some.injEq] at hs
        subst hs
        exact h
      | finish =>
        simp only [ha, Option.some.injEq] at hs
        subst hs
        have h' : y.error = false := h
        simp only [h', Bool.false_eq_true, false_iff]
        rintro ⟨t', h1, h2⟩
        rw [haf, Option.some.injEq] at h1
        subst h1
        rw [ha] at h2
        cases h2
      | fail =>
        simp only [ha, Option.some.injEq] at hs
        subst hs
        exact ⟨h, t, haf, ha⟩
    | wait x k =>
      rw [hy] at h hs wk
      obtain ⟨⟨t, haf, ha⟩, -⟩ := wk
      cases hq : y.qTell with
      | nil => simp [hq] at hs
      | cons v q =>
        cases v with
        | none =>
          simp only [hq, Option.some.injEq] at hs
          subst hs
          have h' : y.error = false := h
          simp only [h', Bool.false_eq_true, false_iff]
          rintro ⟨t', h1, h2⟩
          rw [haf, Option.some.injEq] at h1
          subst h1
          rw [ha] at h2
          cases h2
        | some l =>
          simp only [hq, Option.some.injEq] at hs
          subst hs
          exact h
    | failing =>
      rw [hy] at h
      simp only [hy, Option.some.injEq] at hs
      subst hs
      simpa using h.2
    | ended =>
      rw [hy] at h
      simp only [hy, Option.some.injEq] at hs
      subst hs
      exact h
    | dead => simp [hy] at hs
  | enter =>
    simp only [Recast.step] at hs
    split at hs
    · simp only [Option.some.injEq] at hs
      subst hs
      exact h
    · cases hs
  | take =>
    simp only [Recast.step] at hs
    split at hs
    · cases hq : y.qAsk with
      | nil => simp [hq] at hs
      | cons m q =>
        cases m <;> (simp only [hq, Option.some.injEq] at hs; subst hs; exact h)
    · cases hs
  | put v =>
    simp only [Recast.step] at hs
    split at hs
    · simp only [Option.some.injEq] at hs
      subst hs
      exact h
    · cases hs

theorem ErrOk.exec {alg : S → Act P L S} {s0 : S} : ∀ (ops : List (Op L)) {y y' : Sys P L S}, ErrOk alg s0 y → Inv alg s0 y →
    exec alg ops y = some y' → ErrOk alg s0 y'
  | [], y, y', h, _, he => by
    simp only [Recast.exec, Option.some.injEq] at he
    subst he
    exact h
  | op :: ops, y, y', h, inv, he => by
    simp only [Recast.exec] at he
    cases hs : Recast.step alg op y with
    | none => simp [hs] at he
    | some y1 =>
      simp only [hs] at he
      have inv1 : Inv alg s0 y1 := inv.exec [op] (by simp only [Recast.exec, hs])
      exact ErrOk.exec ops (h.step inv op hs) inv1 he

/-- C61: once the thread is over, for every interleaving before: if the algorithm raised, all the following asks raise; if it returned or was stopped,
they all give random points. Nothing is hidden and nothing blocks. -/
theorem failure_raised (alg : S → Act P L S) (s0 : S) (ops : List (Op L)) (y : Sys P L S) (h : exec alg ops (.start s0) = some y)
    (hd : y.wk = .dead) (fuel : Nat) :
    (ask alg fuel y).2 = y ∧
    ((∃ t, after alg s0 (y.eaten.map (·.2)) = some t ∧ alg t = .fail) → (ask alg fuel y).1 = .raised) ∧
    ((¬ ∃ t, after alg s0 (y.eaten.map (·.2)) = some t ∧ alg t = .fail) → (ask alg fuel y).1 = .random) := by
  have e := ErrOk.exec ops (y := .start s0) (by simp [ErrOk, Sys.start]) (Inv.start alg s0) h
  unfold ErrOk at e
  rw [hd] at e
  have henter : Recast.step alg .enter y = none := by simp [Recast.step, hd, Wk.alive]
  have hask : ask alg fuel y = (if y.error then .raised else .random, y) := by simp only [ask, henter]
  rw [hask]
  refine ⟨rfl, fun hf => ?_, fun hf => ?_⟩
  · have := e.mpr hf
    simp [this]
  · have : y.error = false := by
      cases he : y.error with
      | false => rfl
      | true => exact absurd (e.mp he) hf
    simp [this]

example : ∃ y : Sys Nat Nat Nat, exec (fun s => if s = 0 then .call 7 (fun l => l) else .fail) [.work, .enter, .take, .put (some 3), .work, .work, .work, .work]
    (.start 0) = some y ∧ y.wk = .dead ∧ (ask (fun s => if s = 0 then .call 7 (fun l => l) else .fail) 10 y).1 = .raised := by
  refine ⟨_, rfl, rfl, by decide⟩

/-! ## Resuming -/

/-- C36: for every deterministic algorithm and every interleaving of both optimizers: as long as the same losses are put, the
same points are got. So the check of the replay never fails, and the resumed optimizer goes on with the same points as the
original one. -/
theorem resume_partial (alg : S → Act P L S) (s0 : S) (ops ops' : List (Op L)) (y z : Sys P L S)
    (hy : exec alg ops (.start s0) = some y) (hz : exec alg ops' (.start s0) = some z) (i : Nat) (x x' : P)
    (hp : y.puts.take i = z.puts.take i) (hx : y.got[i]? = some x) (hx' : z.got[i]? = some x') : x = x' := by
  obtain ⟨ls, h1, _, h3⟩ := trajectory alg s0 ops y hy i x hx
  obtain ⟨ms, h4, _, h6⟩ := trajectory alg s0 ops' z hz i x' hx'
  have hlm : ls = ms := by
    have : ls.map some = ms.map (some : L → Option L) := by rw [← h1, ← h4, hp]
    exact List.map_injective_iff.mpr (Option.some_injective L) this
  subst hlm
  rw [h3] at h6
  simpa using h6

/-- A session without constraints, penalties or suggestions: ask, then tell the given loss, and so on; `none` if some ask
does not return a point of the algorithm. -/
def session (alg : S → Act P L S) (fuel : Nat) (inf : L) : List L → Opt P L S → Option (Opt P L S)
  | [], o => some o
  | l :: ls, o =>
    match o.ask alg fuel inf (fun _ => true) id 1 with
    | (.point _, o') => session alg fuel inf ls (o'.tell alg l l)
    | _ => none

/-- States between two steps of such a session. -/
def Plain (y : Sys P L S) : Prop :=
  y.qAsk = [] ∧ y.blocked = false ∧
    ((∃ s, y.wk = .run s ∧ y.qTell = []) ∨ ∃ x k l, y.wk = .wait x k ∧ y.qTell = [some l])

theorem ask_plain (alg : S → Act P L S) (n : Nat) (y : Sys P L S) (h : Plain y) (x : P) (y' : Sys P L S)
    (ha : ask alg (n + 2) y = (.point x, y')) :
    ∃ k, y'.wk = .wait x k ∧ y'.qTell = [] ∧ y'.qAsk = [] ∧ y'.blocked = false := by
  obtain ⟨hq, hb, h⟩ := h
  have key : ∀ (m : Nat) (s : S) (y1 : Sys P L S), y1.wk = .run s → y1.qTell = [] → y1.qAsk = [] → y1.blocked = true →
      (match step alg .take (drain alg (m + 1) y1) with
        | none => ((.stuck, drain alg (m + 1) y1) : Asked P × Sys P L S)
        | some y3 =>
          match (drain alg (m + 1) y1).qAsk with
          | .pt x :: _ => (.point x, y3)
          | .none :: _ => (if y3.error then .raised else .random, y3)
          | _ => (.raised, y3)) = (.point x, y') →
      ∃ k, y'.wk = .wait x k ∧ y'.qTell = [] ∧ y'.qAsk = [] ∧ y'.blocked = false := by
    intro m s y1 h1 h2 h3 h4 hh
    cases hs : alg s with
    | call z k =>
      have hd : drain alg (m + 1) y1 = { y1 with wk := .wait z k, qAsk := y1.qAsk ++ [.pt z], posted := y1.posted ++ [z] } := by
        simp only [drain, work, h1, hs]
        cases m with
        | zero => rfl
        | succ m => simp only [drain, work, h2]
      rw [hd] at hh
      simp only [step, h4, h3, List.nil_append, if_true, Prod.mk.injEq, Asked.point.injEq] at hh
      obtain ⟨rfl, rfl⟩ := hh
      exact ⟨k, rfl, h2, rfl, rfl⟩
    | finish =>
      exfalso
      have hd : (drain alg (m + 1) y1).qAsk = [.none] ∧ (drain alg (m + 1) y1).blocked = true := by
        cases m with
        | zero => simp [drain, work, h1, hs, h3, h4]
        | succ m => cases m <;> simp [drain, work, h1, hs, h3, h4]
      simp only [step, hd.1, hd.2, if_true] at hh
      split at hh <;> cases hh
    | fail =>
      exfalso
      have hd : (drain alg (m + 1) y1).qAsk = [.exc] ∧ (drain alg (m + 1) y1).blocked = true := by
        cases m with
        | zero => simp [drain, work, h1, hs, h3, h4]
        | succ m =>
          cases m with
          | zero => simp [drain, work, h1, hs, h3, h4]
          | succ m => cases m <;> simp [drain, work, h1, hs, h3, h4]
      simp only [step, hd.1, hd.2, if_true] at hh
      cases hh
  rcases h with ⟨s, hw, ht⟩ | ⟨z, k, l, hw, ht⟩
  · have he : step alg .enter y = some { y with blocked := true } := by simp [step, hw, Wk.alive, hb]
    simp only [ask, he] at ha
    exact key (n + 1) s { y with blocked := true } hw ht hq rfl ha
  · have he : step alg .enter y = some { y with blocked := true } := by simp [step, hw, Wk.alive, hb]
    simp only [ask, he] at ha
    have hd : drain alg (n + 2) { y with blocked := true } =
        drain alg (n + 1) { y with blocked := true, wk := .run (k l), qTell := [], eaten := y.eaten ++ [(z, l)] } := by
      conv => lhs; unfold drain
      simp only [work, hw, ht]
    rw [hd] at ha
    exact key n (k l) { y with blocked := true, wk := .run (k l), qTell := [], eaten := y.eaten ++ [(z, l)] } rfl rfl hq rfl ha

theorem session_replay [DecidableEq P] (alg : S → Act P L S) (n : Nat) (inf : L) : ∀ (ls : List L) (o o' : Opt P L S),
    Plain o.sys → session alg (n + 2) inf ls o = some o' →
    Plain o'.sys ∧ o'.numAsk = o.numAsk + ls.length ∧ o'.numTell = o.numTell + ls.length ∧
      ∃ arch, o'.archive = o.archive ++ arch ∧ replay alg (n + 2) arch o.sys = some o'.sys
  | [], o, o', hpl, hs => by
    simp only [session, Option.some.injEq] at hs
    subst hs
    exact ⟨hpl, by simp, by simp, [], by simp, by simp [replay]⟩
  | l :: ls, o, o', hpl, hs => by
    simp only [session, Opt.ask, Opt.trials] at hs
    cases ha : ask alg (n + 2) o.sys with
    | mk r y =>
      cases r with
      | point x =>
        simp only [ha, if_true, Opt.tell] at hs
        obtain ⟨k, h1, h2, h3, h4⟩ := ask_plain alg n o.sys hpl x y ha
        have ht : tell alg (some l) y = { y with qTell := y.qTell ++ [some l], puts := y.puts ++ [some l] } := by
          simp [tell, step, h1, h4, Wk.alive]
        have hal : y.wk.alive = true := by rw [h1]; rfl
        have hp' : Plain (tell alg (some l) y) := by
          rw [ht]
          exact ⟨h3, h4, Or.inr ⟨x, k, l, h1, by simp [h2]⟩⟩
        obtain ⟨g1, g2, g3, arch, g4, g5⟩ := session_replay alg n inf ls _ o' hp' hs
        refine ⟨g1, by rw [g2]; simp; omega, by rw [g3]; simp; omega, (x, some l) :: arch, by rw [g4, if_pos hal]; simp, ?_⟩
        simp only [replay, ha, if_true]
        exact g5
      | random => simp only [ha] at hs; cases hs
      | raised => simp only [ha] at hs; cases hs
      | stuck => simp only [ha] at hs; cases hs

/-- C36: after a session of any length without constraints, penalties or suggestions, unpickling rebuilds exactly the state of
the thread and of its queues, so that everything afterwards is the same. -/
theorem unpickle_partial [DecidableEq P] (alg : S → Act P L S) (n : Nat) (inf : L) (s0 : S) (ls : List L) (o : Opt P L S)
    (h : session alg (n + 2) inf ls (.init s0) = some o) : unpickle alg (n + 2) s0 o = some o.sys := by
  obtain ⟨_, h2, h3, arch, h4, h5⟩ := session_replay alg n inf ls (.init s0) o
    ⟨rfl, rfl, Or.inl ⟨s0, rfl, rfl⟩⟩ h
  simp only [Opt.init, List.nil_append] at h4 h5 h2 h3
  simp [unpickle, h4, h5, h2, h3]

/-- C36: the same when a point is being evaluated when the optimizer is pickled. -/
theorem unpickle_pending_partial [DecidableEq P] (alg : S → Act P L S) (n : Nat) (inf : L) (s0 : S) (ls : List L)
    (o o' : Opt P L S) (x : P) (h : session alg (n + 2) inf ls (.init s0) = some o)
    (ha : o.ask alg (n + 2) inf (fun _ => true) id 1 = (.point x, o')) : unpickle alg (n + 2) s0 o' = some o'.sys := by
  obtain ⟨_, h2, h3, arch, h4, h5⟩ := session_replay alg n inf ls (.init s0) o
    ⟨rfl, rfl, Or.inl ⟨s0, rfl, rfl⟩⟩ h
  simp only [Opt.init, List.nil_append] at h4 h5 h2 h3
  simp only [Opt.ask, Opt.trials] at ha
  cases hk : ask alg (n + 2) o.sys with
  | mk r y =>
    cases r with
    | point z =>
      simp only [hk, if_true, Prod.mk.injEq, Asked.point.injEq] at ha
      obtain ⟨rfl, rfl⟩ := ha
      simp [unpickle, h4, h5, h2, h3, hk]
    | random => simp only [hk] at ha; simp at ha
    | raised => simp only [hk] at ha; simp at ha
    | stuck => simp only [hk] at ha; simp at ha

/-! ## Where it goes wrong -/

/-- A small algorithm: it asks for the sum of all losses received so far. -/
def summing : Int → Act Int Int Int := fun s => .call s (fun l => s + l)

/-- Its session with losses 3, 4 and 5 asks 0, 3, 7, and resumes with 12. -/
example : (session summing 5 100 [3, 4, 5] (.init 0)).map (fun o => (o.sys.got, o.archive, (ask summing 5 o.sys).1)) =
    some ([0, 3, 7], [(0, some 3), (3, some 4), (7, some 5)], .point 12) := by decide +kernel

example : ((session summing 5 100 [3, 4, 5] (.init 0)).bind (unpickle summing 5 0)).map (fun y => (ask summing 5 y).1) =
    some (.point 12) := by decide +kernel

/-- C36 fails with penalties: the thread received `l + penalty`, the replay uses `candidate.loss = l`, and here fails with a
mismatch. -/
theorem penalty_breaks_replay :
    let o := ((Opt.init 0 : Opt Int Int Int).ask summing 5 100 (fun _ => true) id 1).2.tell summing 3 13
    let o' := (o.ask summing 5 100 (fun _ => true) id 1).2.tell summing 4 4
    o'.sys.got = [0, 13] ∧ o'.archive = [(0, some 3), (13, some 4)] ∧ (unpickle summing 5 0 o').isNone := by decide +kernel

/-- With a single penalised tell no mismatch is noticed, but the resumed algorithm goes on with another point. -/
theorem penalty_changes_resumed :
    let o := ((Opt.init 0 : Opt Int Int Int).ask summing 5 100 (fun _ => true) id 1).2.tell summing 3 13
    (ask summing 5 o.sys).1 = .point 13 ∧
      (unpickle summing 5 0 o).map (fun y => (ask summing 5 y).1) = some (.point 3) := by decide +kernel

/-- C36 fails with cheap constraints: a rejected candidate is archived with no loss, so the replay tells the thread to stop,
and unpickling raises instead of going on with 101. Here 0 is rejected and 100 accepted. -/
theorem rejected_stops_resumed :
    let o := ((Opt.init 0 : Opt Int Int Int).ask summing 5 100 (fun x => x ≠ 0) id 5).2
    o.sys.got = [0, 100] ∧ o.archive = [(0, none)] ∧
      ((unpickle summing 5 0 (o.tell summing 1 1)).isNone) ∧
      (ask summing 5 (o.tell summing 1 1).sys).1 = .point 101 := by decide +kernel

/-- C36 fails after a suggestion, whose tell was refused: `num_ask > num_tell` for good, so the replay takes a point too
many, and the next ask waits for ever. -/
theorem suggestion_blocks_resumed :
    let o := (((Opt.init 0 : Opt Int Int Int).ask summing 5 100 (fun _ => true) id 1).2.tell summing 3 3).suggestion
    (ask summing 5 o.sys).1 = .point 3 ∧
      (unpickle summing 5 0 o).map (fun y => (ask summing 5 y).1) = some .stuck := by decide +kernel

/-- C61 fails when the constraint solver is used: every trial is told `inf`, then the loss of the solver's candidate is told
too, and the algorithm takes it for the loss of its next point, which nobody evaluated. From then on each loss is received
for the following point: here the objective is the square, infeasible points are those below 5, the solver returns 6, and
the algorithm receives 36 for the point 100 and 10000 for the point 136. -/
theorem solver_shifts_losses :
    let ok : Int → Bool := fun x => 5 ≤ x
    let o := ((Opt.init 0 : Opt Int Int Int).ask summing 5 100 ok (fun _ => 6) 1).2
    let o1 := (o.tell summing 36 36).ask summing 5 100 ok (fun _ => 6) 1
    let o2 := (o1.2.tell summing 10000 10000).ask summing 5 100 ok (fun _ => 6) 1
    o.held = some 6 ∧ o1.1 = .point 100 ∧ o2.1 = .point 136 ∧
      (drain summing 5 o2.2.sys).eaten = [(0, 100), (100, 36), (136, 10000)] := by decide +kernel

/-- An algorithm stopping at once. -/
def stopping : Unit → Act Int Int Unit := fun _ => .finish

/-- C61 fails in a race: the caller takes the last message while the thread is still alive, asks again while it is still
alive, and then waits forever: no step is possible any more. -/
theorem race_blocks :
    ∃ y, exec stopping [.enter, .work, .take, .enter, .work] (.start () : Sys Int Int Unit) = some y ∧
      y.blocked = true ∧ y.got.length ≤ y.puts.length ∧ ∀ op, step stopping op y = none := by
  refine ⟨_, rfl, rfl, by decide, ?_⟩
  intro op
  cases op <;> rfl

end Recast
end NG
