import Verif.Model.Recast
import Mathlib.Data.List.Basic
import Mathlib.Tactic.Common

/-! # Invariants of the thread of recast optimizers -/

namespace NG
namespace Recast

variable {P L S : Type}

/-- The algorithm run as an ordinary function: its state once its successive calls returned the given losses. -/
def after (alg : S → Act P L S) : S → List L → Option S
  | s, [] => some s
  | s, l :: ls =>
    match alg s with
    | .call _ k => after alg (k l) ls
    | _ => none

/-- The point of its next call. -/
def nextPt (alg : S → Act P L S) (s : S) (ls : List L) : Option P :=
  match after alg s ls with
  | none => none
  | some t =>
    match alg t with
    | .call x _ => some x
    | _ => none

theorem after_append (alg : S → Act P L S) (ls ms : List L) : ∀ (s t : S), after alg s ls = some t →
    after alg s (ls ++ ms) = after alg t ms := by
  induction ls with
  | nil => intro s t h; simp only [after, Option.some.injEq] at h; subst h; rfl
  | cons l ls ih =>
    intro s t h
    simp only [after, List.cons_append] at h ⊢
    cases hs : alg s with
    | call x k => simp only [hs] at h ⊢; exact ih _ _ h
    | finish => simp only [hs] at h; cases h
    | fail => simp only [hs] at h; cases h

/-- The points in a queue. -/
def pts (q : List (Msg P)) : List P :=
  q.filterMap (fun m => match m with | .pt x => some x | _ => none)

theorem pts_append (q r : List (Msg P)) : pts (q ++ r) = pts q ++ pts r := by simp [pts]

/-- The thread has posted its last message. -/
def Wk.over : Wk P L S → Bool
  | .run _ => false
  | .wait _ _ => false
  | _ => true

/-- The state of the thread against the history. -/
def WkOk (alg : S → Act P L S) (s0 : S) (posted : List P) (losses : List L) (qAsk : List (Msg P)) (closed : Bool) :
    Wk P L S → Prop
  | .run t => after alg s0 losses = some t ∧ posted.length = losses.length ∧ (∀ m ∈ qAsk, ∃ x, m = Msg.pt x) ∧ closed = false
  | .wait x k => (∃ t, after alg s0 losses = some t ∧ alg t = .call x k) ∧ posted.length = losses.length + 1 ∧
      posted[losses.length]? = some x ∧ (∀ m ∈ qAsk, ∃ x, m = Msg.pt x) ∧ closed = false
  | _ => (closed = true ∧ qAsk = [] ∨
      closed = false ∧ ∃ q m, qAsk = q ++ [m] ∧ (∀ m ∈ q, ∃ x, m = Msg.pt x) ∧ ∀ x, m ≠ Msg.pt x)

/-- The invariant. -/
structure Inv (alg : S → Act P L S) (s0 : S) (y : Sys P L S) : Prop where
  hist : y.got ++ pts y.qAsk = y.posted
  told : ∃ stop, y.puts = y.eaten.map (fun e => some e.2) ++ stop ++ y.qTell ∧ (y.wk.over = false → stop = [])
  pair : y.eaten.map (·.1) <+: y.posted
  traj : ∀ i x, y.posted[i]? = some x → i ≤ y.eaten.length ∧ nextPt alg s0 ((y.eaten.map (·.2)).take i) = some x
  wk : WkOk alg s0 y.posted (y.eaten.map (·.2)) y.qAsk y.closed y.wk

theorem Inv.start (alg : S → Act P L S) (s0 : S) : Inv alg s0 (.start s0 : Sys P L S) where
  hist := by simp [Sys.start, pts]
  told := ⟨[], by simp [Sys.start], by simp⟩
  pair := by simp [Sys.start]
  traj := by simp [Sys.start]
  wk := by simp [Sys.start, WkOk, after]

theorem Inv.work {alg : S → Act P L S} {s0 : S} {y y' : Sys P L S} (h : Inv alg s0 y) (hw : work alg y = some y') :
    Inv alg s0 y' := by
  obtain ⟨hist, ⟨stop, told, hstop⟩, pair, traj, wk⟩ := h
  unfold Recast.work at hw
  cases hy : y.wk with
  | run s =>
    rw [hy] at wk hstop
    simp only [WkOk] at wk
    obtain ⟨haf, hlen, hq, hcl⟩ := wk
    simp only [Wk.over, true_implies] at hstop
    subst hstop
    cases hs : alg s with
    | call x k =>
      simp only [hy, hs, Option.some.injEq] at hw
      subst hw
      refine ⟨by simp [pts_append, ← hist, pts], ⟨[], by simpa using told, by simp⟩, pair.trans (List.prefix_append _ _), ?_, ?_⟩
      · intro i z hz
        by_cases hi : i < y.posted.length
        · rw [List.getElem?_append_left hi] at hz; exact traj i z hz
        · have hi' : i = y.posted.length := by
            have := (List.getElem?_eq_some_iff.mp hz).1
            simp at this; omega
          subst hi'
          simp only [List.getElem?_concat_length, Option.some.injEq] at hz
          subst hz
          simp only [List.length_map] at hlen
          refine ⟨by simp [hlen], ?_⟩
          rw [List.take_of_length_le (by simp [hlen])]
          simp [nextPt, haf, hs]
      · simp only [WkOk]
        refine ⟨⟨s, haf, hs⟩, by simp [hlen], by rw [← hlen]; simp, ?_, hcl⟩
        intro m hm
        rcases List.mem_append.mp hm with hm | hm
        · exact hq m hm
        · exact ⟨x, by simpa using hm⟩
    | finish =>
      simp only [hy, hs, Option.some.injEq] at hw
      subst hw
      refine ⟨by simp [pts_append, ← hist, pts], ⟨[], by simpa using told, by simp⟩, pair, traj, ?_⟩
      exact Or.inr ⟨hcl, _, _, rfl, hq, by simp⟩
    | fail =>
      simp only [hy, hs, Option.some.injEq] at hw
      subst hw
      refine ⟨by simp [pts_append, ← hist, pts], ⟨[], by simpa using told, by simp⟩, pair, traj, ?_⟩
      exact Or.inr ⟨hcl, _, _, rfl, hq, by simp⟩
  | wait x k =>
    rw [hy] at wk hstop
    simp only [WkOk] at wk
    obtain ⟨⟨t, haf, hcall⟩, hlen, hx, hq, hcl⟩ := wk
    simp only [Wk.over, true_implies] at hstop
    subst hstop
    cases hqt : y.qTell with
    | nil => simp only [hy, hqt] at hw; cases hw
    | cons v q =>
      cases v with
      | some l =>
        simp only [hy, hqt, Option.some.injEq] at hw
        subst hw
        refine ⟨hist, ⟨[], by simp [told, hqt], by simp⟩, ?_, ?_, ?_⟩
        · obtain ⟨r, hr⟩ := pair
          simp only [List.length_map] at hlen hx
          have hr1 : r.length = 1 := by
            have := congrArg List.length hr
            simp only [List.length_append, List.length_map] at this; omega
          obtain ⟨z, rfl⟩ := List.length_eq_one_iff.mp hr1
          rw [← hr] at hx
          rw [List.getElem?_append_right (by simp)] at hx
          simp at hx
          subst hx
          simp [← hr]
        · intro i z hz
          obtain ⟨h1, h2⟩ := traj i z hz
          refine ⟨by simp; omega, ?_⟩
          rw [List.map_append, List.take_append_of_le_length (by simpa using h1)]
          exact h2
        · simp only [WkOk]
          refine ⟨?_, by simpa using hlen, hq, hcl⟩
          rw [List.map_append, after_append _ _ _ _ _ haf]
          simp [after, hcall]
      | none =>
        simp only [hy, hqt, Option.some.injEq] at hw
        subst hw
        refine ⟨by simp [pts_append, ← hist, pts], ⟨[none], by simp [told, hqt], by simp [Wk.over]⟩, pair, traj, ?_⟩
        exact Or.inr ⟨hcl, _, _, rfl, hq, by simp⟩
  | failing =>
    simp only [hy, Option.some.injEq] at hw
    subst hw
    rw [hy] at wk
    exact ⟨hist, ⟨stop, told, by simp [Wk.over]⟩, pair, traj, wk⟩
  | ended =>
    simp only [hy, Option.some.injEq] at hw
    subst hw
    rw [hy] at wk
    exact ⟨hist, ⟨stop, told, by simp [Wk.over]⟩, pair, traj, wk⟩
  | dead => simp only [hy] at hw; cases hw

theorem Inv.step {alg : S → Act P L S} {s0 : S} {y y' : Sys P L S} {op : Op L} (h : Inv alg s0 y)
    (hw : step alg op y = some y') : Inv alg s0 y' := by
  cases op with
  | work => exact h.work hw
  | enter =>
    simp only [Recast.step] at hw
    split at hw
    · simp only [Option.some.injEq] at hw
      subst hw
      exact ⟨h.hist, h.told, h.pair, h.traj, h.wk⟩
    · cases hw
  | put v =>
    simp only [Recast.step] at hw
    split at hw
    · simp only [Option.some.injEq] at hw
      subst hw
      obtain ⟨stop, told, hstop⟩ := h.told
      exact ⟨h.hist, ⟨stop, by simp [told], hstop⟩, h.pair, h.traj, h.wk⟩
    · cases hw
  | take =>
    obtain ⟨hist, told, pair, traj, wk⟩ := h
    simp only [Recast.step] at hw
    split at hw
    case isFalse => cases hw
    case isTrue =>
    cases hq : y.qAsk with
    | nil => simp only [hq] at hw; cases hw
    | cons m q =>
      have hno : ∀ q' : List (Msg P), (∀ m' ∈ m :: q', ∃ x, m' = Msg.pt x) → ∃ x, m = Msg.pt x := fun q' h => h m (by simp)
      cases m with
      | pt x =>
        simp only [hq, Option.some.injEq] at hw
        subst hw
        refine ⟨by simp [← hist, hq, pts], told, pair, traj, ?_⟩
        simp only
        rw [hq] at wk
        cases hy : y.wk with
        | run s => rw [hy] at wk; exact ⟨wk.1, wk.2.1, fun m hm => wk.2.2.1 m (by simp [hm]), wk.2.2.2⟩
        | wait z k => rw [hy] at wk; exact ⟨wk.1, wk.2.1, wk.2.2.1, fun m hm => wk.2.2.2.1 m (by simp [hm]), wk.2.2.2.2⟩
        | failing | ended | dead =>
          rw [hy] at wk
          rcases wk with ⟨_, h⟩ | ⟨hc, q', m', he, hall, hm'⟩
          · cases h
          · refine Or.inr ⟨hc, ?_⟩
            cases q' with
            | nil => simp at he; exact absurd he.1.symm (hm' x)
            | cons a q' =>
              simp at he
              exact ⟨q', m', he.2, fun m hm => hall m (by simp [hm]), hm'⟩
      | none | exc =>
        simp only [hq, Option.some.injEq] at hw
        subst hw
        refine ⟨by simp [← hist, hq, pts], told, pair, traj, ?_⟩
        simp only
        rw [hq] at wk
        cases hy : y.wk with
        | run s => rw [hy] at wk; obtain ⟨x, hx⟩ := hno _ wk.2.2.1; cases hx
        | wait z k => rw [hy] at wk; obtain ⟨x, hx⟩ := hno _ wk.2.2.2.1; cases hx
        | failing | ended | dead =>
          rw [hy] at wk
          rcases wk with ⟨_, h⟩ | ⟨hc, q', m', he, hall, hm'⟩
          · cases h
          · refine Or.inl ⟨rfl, ?_⟩
            cases q' with
            | nil => simp at he; exact he.2
            | cons a q' =>
              simp at he
              obtain ⟨x, hx⟩ := hall a (by simp)
              rw [hx] at he
              cases he.1

theorem Inv.exec {alg : S → Act P L S} {s0 : S} : ∀ (ops : List (Op L)) {y y' : Sys P L S}, Inv alg s0 y →
    exec alg ops y = some y' → Inv alg s0 y'
  | [], y, y', h, he => by
    simp only [Recast.exec, Option.some.injEq] at he
    exact he ▸ h
  | op :: ops, y, y', h, he => by
    simp only [Recast.exec] at he
    cases hs : Recast.step alg op y with
    | none => simp only [hs] at he; cases he
    | some y1 =>
      simp only [hs] at he
      exact Inv.exec ops (h.step hs) he

end Recast
end NG
