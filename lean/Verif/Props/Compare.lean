import Verif.Model.Compare
import Verif.Props.Archive
import Mathlib.Tactic.Linarith

/-! # C52: comparison-based telling orders the candidates -/

namespace NG
namespace ArchiveSt
variable {α : Type} [Field α] [LinearOrder α] {U K : Type} [DecidableEq K] [DecidableEq U]

/-- The value recorded for a point. -/
def recorded (s : ArchiveSt α U K) (k : K) : Option (MV α U) := (s.lookup k).map s.heap

theorem lookup_of_mem {s : ArchiveSt α U K} (h : Shape s) {k : K} {i : Nat} (hm : (k, i) ∈ s.archive) : s.lookup k = some i := by
  cases hl : s.lookup k with
  | none => exact absurd (List.mem_map.mpr ⟨_, hm, rfl⟩) (lookup_none s k hl)
  | some j =>
    have := List.inj_on_of_nodup_map h.keysND (lookup_some s k j hl) hm rfl
    simp only [Prod.mk.injEq, true_and] at this
    rw [this]

theorem lookup_iff {s : ArchiveSt α U K} (h : Shape s) (k : K) (i : Nat) : s.lookup k = some i ↔ (k, i) ∈ s.archive :=
  ⟨lookup_some s k i, lookup_of_mem h⟩

/-- Telling a candidate changes the record of no other point, except that pruning may remove it. -/
theorem tell_recorded (cfg : ArchiveCfg α U K) (hpr : PruneRemoves cfg) (s : ArchiveSt α U K) (h : Shape s) (u : U) (loss : α) :
    Shape (s.tell cfg u loss) ∧ ∀ k, k ≠ cfg.key u →
      (s.tell cfg u loss).recorded k = s.recorded k ∨ (s.tell cfg u loss).recorded k = none := by
  set s1 : ArchiveSt α U K := { s with candLoss := fun v => if v = u then some loss else s.candLoss v } with hs1
  have h1 : Shape s1 := ⟨h.keysND, h.idsND, h.idlt⟩
  obtain ⟨rb, _, rn, rlt, rk, ri, rid, rmem, rold, rheap, rlt2, rnew, rex⟩ := record_spec cfg s1 u loss h1
  set r := s1.record cfg u loss with hr
  have hsub := hpr r.1.heap r.1.archive
  have ht : (s.tell cfg u loss).archive = cfg.prune r.1.heap r.1.archive := rfl
  have hh : (s.tell cfg u loss).heap = r.1.heap := rfl
  have hn : (s.tell cfg u loss).next = r.1.next := rfl
  have hshape : Shape (s.tell cfg u loss) := by
    refine ⟨?_, ?_, ?_⟩
    · rw [ht]; exact rk.sublist (hsub.map _)
    · rw [ht]; exact ri.sublist (hsub.map _)
    · intro e he; rw [ht] at he; rw [hn]; exact rid e (hsub.subset he)
  refine ⟨hshape, ?_⟩
  intro k hk
  unfold recorded
  cases hl : (s.tell cfg u loss).lookup k with
  | none => right; rfl
  | some i =>
    left
    have hm := (lookup_iff hshape k i).mp hl
    rw [ht] at hm
    have hm' := hsub.subset hm
    have hi : i ≠ r.2.1 := by
      intro hc
      have := List.inj_on_of_nodup_map ri hm' rmem hc
      simp only [Prod.mk.injEq] at this
      exact hk this.1
    have hold := rold _ hm' hi
    have : s.lookup k = some i := lookup_of_mem h hold
    rw [this]
    simp only [Option.map_some]
    rw [hh, rheap i hi]

theorem setEntry_recorded (s : ArchiveSt α U K) (h : Shape s) (k : K) (v : MV α U) :
    Shape (s.setEntry k v) ∧ ∀ k', (s.setEntry k v).recorded k' = if k' = k then some v else s.recorded k' := by
  have hmem : ∀ e, e ∈ (s.setEntry k v).archive ↔ e = (k, s.next) ∨ (e ∈ s.archive ∧ e.1 ≠ k) := by
    intro e
    unfold setEntry
    cases hl : s.lookup k with
    | none =>
      have hx := lookup_none s k hl
      simp only [List.mem_append, List.mem_singleton]
      constructor
      · rintro (he | he)
        · exact Or.inr ⟨he, fun hc => hx (hc ▸ List.mem_map.mpr ⟨e, he, rfl⟩)⟩
        · exact Or.inl he
      · rintro (he | ⟨he, _⟩)
        · exact Or.inr he
        · exact Or.inl he
    | some i =>
      have hx := lookup_some s k i hl
      simp only [List.mem_map]
      constructor
      · rintro ⟨e', he', rfl⟩
        by_cases hc : e'.1 = k
        · rw [if_pos hc]; exact Or.inl rfl
        · rw [if_neg hc]; exact Or.inr ⟨he', hc⟩
      · rintro (rfl | ⟨he, hc⟩)
        · exact ⟨(k, i), hx, by simp⟩
        · exact ⟨e, he, by rw [if_neg hc]⟩
  have hshape : Shape (s.setEntry k v) := by
    refine ⟨?_, ?_, ?_⟩
    · unfold setEntry
      cases hl : s.lookup k with
      | none =>
        have hx := lookup_none s k hl
        simp only [List.map_append, List.map_cons, List.map_nil]
        rw [List.nodup_append]
        refine ⟨h.keysND, by simp, ?_⟩
        intro a ha b hb hab
        simp only [List.mem_singleton] at hb
        subst hb hab
        exact hx ha
      | some i =>
        simp only [List.map_map]
        have : (fun e : K × Nat => e.1) ∘ (fun e : K × Nat => if e.1 = k then (k, s.next) else e) = (fun e => e.1) := by
          funext e
          simp only [Function.comp]
          split
          · rename_i hc; exact hc.symm
          · rfl
        rw [this]
        exact h.keysND
    · unfold setEntry
      cases hl : s.lookup k with
      | none =>
        simp only [List.map_append, List.map_cons, List.map_nil]
        rw [List.nodup_append]
        refine ⟨h.idsND, by simp, ?_⟩
        intro a ha b hb hab
        simp only [List.mem_singleton] at hb
        subst hb hab
        obtain ⟨e, he, he'⟩ := List.mem_map.mp ha
        have := h.idlt e he
        omega
      | some i =>
        have hx := lookup_some s k i hl
        simp only
        refine List.Nodup.map_on ?_ (List.Nodup.map_on ?_ (List.Nodup.of_map _ h.keysND))
        · intro a ha b hb hab
          obtain ⟨a', ha', rfl⟩ := List.mem_map.mp ha
          obtain ⟨b', hb', rfl⟩ := List.mem_map.mp hb
          by_cases hca : a'.1 = k <;> by_cases hcb : b'.1 = k
          · simp only [hca, hcb, if_true]
          · simp only [hca, if_true, if_neg hcb] at hab
            have := h.idlt b' hb'; omega
          · simp only [hcb, if_true, if_neg hca] at hab
            have := h.idlt a' ha'; omega
          · simp only [if_neg hca, if_neg hcb] at hab ⊢
            exact snd_inj _ h.idsND _ _ ha' hb' hab
        · intro a ha b hb hab
          by_cases hca : a.1 = k <;> by_cases hcb : b.1 = k
          · exact List.inj_on_of_nodup_map h.keysND ha hb (hca.trans hcb.symm)
          · rw [if_pos hca, if_neg hcb] at hab; exact absurd (congrArg Prod.fst hab).symm hcb
          · rw [if_neg hca, if_pos hcb] at hab; exact absurd (congrArg Prod.fst hab) hca
          · rwa [if_neg hca, if_neg hcb] at hab
    · intro e he
      have hn : (s.setEntry k v).next = s.next + 1 := rfl
      rw [hn]
      rcases (hmem e).mp he with rfl | ⟨he, _⟩
      · simp
      · have := h.idlt e he; omega
  refine ⟨hshape, ?_⟩
  intro k'
  have hheap : (s.setEntry k v).heap = fun j => if j = s.next then v else s.heap j := rfl
  unfold recorded
  by_cases hk : k' = k
  · subst hk
    rw [if_pos rfl, lookup_of_mem hshape ((hmem (k', s.next)).mpr (Or.inl rfl)), hheap]
    simp
  · rw [if_neg hk]
    cases hl : s.lookup k' with
    | none =>
      cases hl' : (s.setEntry k v).lookup k' with
      | none => rfl
      | some i =>
        have := (hmem _).mp (lookup_some _ _ _ hl')
        rcases this with hc | ⟨hc, _⟩
        · exact absurd (congrArg Prod.fst hc) hk
        · exact absurd (List.mem_map.mpr ⟨_, hc, rfl⟩) (lookup_none s k' hl)
    | some i =>
      have hm := lookup_some s k' i hl
      rw [lookup_of_mem hshape ((hmem (k', i)).mpr (Or.inr ⟨hm, hk⟩)), hheap]
      have := h.idlt _ hm
      simp only [Option.map_some]
      rw [if_neg (by simp only at this; omega)]

theorem tellWinners_recorded (cfg : ArchiveCfg α U K) (hpr : PruneRemoves cfg) (best : α) (n : Nat) (i : Nat) (us : List U)
    (s : ArchiveSt α U K) (h : Shape s) (hnd : (us.map cfg.key).Nodup) :
    Shape (tellWinners cfg best n i us s) ∧
    (∀ k, k ∉ us.map cfg.key → (tellWinners cfg best n i us s).recorded k = s.recorded k ∨ (tellWinners cfg best n i us s).recorded k = none) ∧
    (∀ j (u : U), us[j]? = some u → (tellWinners cfg best n i us s).recorded (cfg.key u) = some (MV.init u (best - n + ((i + j : Nat) : α))) ∨
      (j + 1 < us.length ∧ (tellWinners cfg best n i us s).recorded (cfg.key u) = none)) := by
  induction us generalizing i s with
  | nil => exact ⟨h, fun _ _ => Or.inl rfl, by simp⟩
  | cons u us ih =>
    simp only [List.map_cons, List.nodup_cons] at hnd
    obtain ⟨t1, t2⟩ := tell_recorded cfg hpr s h u (best - n + i)
    obtain ⟨e1, e2⟩ := setEntry_recorded (s.tell cfg u (best - n + i)) t1 (cfg.key u) (MV.init u (best - n + i))
    obtain ⟨i1, i2, i3⟩ := ih (i + 1) _ e1 hnd.2
    simp only [tellWinners]
    refine ⟨i1, ?_, ?_⟩
    · intro k hk
      simp only [List.map_cons, List.mem_cons, not_or] at hk
      rcases i2 k hk.2 with hc | hc
      · rw [hc, e2, if_neg hk.1]
        exact t2 k hk.1
      · exact Or.inr hc
    · intro j w hj
      cases j with
      | zero =>
        simp only [List.getElem?_cons_zero, Option.some.injEq] at hj
        subst hj
        cases us with
        | nil =>
          left
          simp only [tellWinners, e2, if_true, Nat.add_zero]
        | cons w' us' =>
          rcases i2 (cfg.key u) hnd.1 with hc | hc
          · left
            rw [hc, e2, if_pos rfl, Nat.add_zero]
          · right
            exact ⟨by simp, hc⟩
      | succ j =>
        simp only [List.getElem?_cons_succ] at hj
        rcases i3 j w hj with hc | ⟨hc1, hc2⟩
        · left; rw [hc]; congr 3; congr 1; omega
        · right; exact ⟨by simpa using hc1, hc2⟩

variable [IsStrictOrderedRing α]

omit [IsStrictOrderedRing α] in
theorem bestLoser_le (cfg : ArchiveCfg α U K) (s : ArchiveSt α U K) (losers : List U) :
    s.bestLoser cfg losers ≤ 0 ∧ ∀ l ∈ losers, ∀ v, s.recorded (cfg.key l) = some v → s.bestLoser cfg losers ≤ v.mean := by
  unfold bestLoser
  have key : ∀ (b : α) (ls : List U),
      let r := ls.foldl (fun b u => match s.lookup (cfg.key u) with | none => b | some i => min b (s.heap i).mean) b
      r ≤ b ∧ ∀ l ∈ ls, ∀ v, s.recorded (cfg.key l) = some v → r ≤ v.mean := by
    intro b ls
    induction ls generalizing b with
    | nil => simp
    | cons l ls ih =>
      simp only [List.foldl_cons]
      cases hl : s.lookup (cfg.key l) with
      | none =>
        obtain ⟨h1, h2⟩ := ih b
        refine ⟨h1, ?_⟩
        intro l' hl' v hv
        rcases List.mem_cons.mp hl' with rfl | hl'
        · simp [recorded, hl] at hv
        · exact h2 l' hl' v hv
      | some i =>
        obtain ⟨h1, h2⟩ := ih (min b (s.heap i).mean)
        refine ⟨le_trans h1 (min_le_left _ _), ?_⟩
        intro l' hl' v hv
        rcases List.mem_cons.mp hl' with rfl | hl'
        · simp only [recorded, hl, Option.map_some, Option.some.injEq] at hv
          subst hv
          exact le_trans h1 (min_le_right _ _)
        · exact h2 l' hl' v hv
  exact key 0 losers

/-- **C52.** In any state of the archive, for any winners that are distinct points and any losers: after `compare(winners, losers)`
- a winner still in the archive is recorded with one evaluation, its value (average and minimum) being strictly below those of the
  next winners;
- it is strictly below the average of each loser known to the archive (which is not a winner as well);
- the last winner is in the archive, and so are all of them if nothing is pruned. -/
theorem compare_orders_partial (cfg : ArchiveCfg α U K) (hpr : PruneRemoves cfg) (s : ArchiveSt α U K) (h : Shape s) (winners losers : List U)
    (hnd : (winners.map cfg.key).Nodup) :
    Shape (s.compare cfg winners losers) ∧
    (∀ (i j : Nat) (u w : U) (v v' : MV α U), i < j → winners[i]? = some u → winners[j]? = some w →
      (s.compare cfg winners losers).recorded (cfg.key u) = some v → (s.compare cfg winners losers).recorded (cfg.key w) = some v' →
      v.param = u ∧ v.count = 1 ∧ v.mean < v'.mean ∧ v.minimum < v'.minimum) ∧
    (∀ u ∈ winners, ∀ l ∈ losers, cfg.key l ∉ winners.map cfg.key → ∀ v v',
      (s.compare cfg winners losers).recorded (cfg.key u) = some v → (s.compare cfg winners losers).recorded (cfg.key l) = some v' →
      v.mean < v'.mean ∧ v.mean < 0) ∧
    (∀ u, winners.getLast? = some u → ((s.compare cfg winners losers).recorded (cfg.key u)).isSome) := by
  obtain ⟨t1, t2, t3⟩ := tellWinners_recorded cfg hpr (s.bestLoser cfg losers) winners.length 0 winners s h hnd
  obtain ⟨b1, b2⟩ := bestLoser_le cfg s losers
  have val : ∀ (i : Nat) (u : U) (v : MV α U), winners[i]? = some u → (s.compare cfg winners losers).recorded (cfg.key u) = some v →
      v = MV.init u (s.bestLoser cfg losers - winners.length + (i : α)) := by
    intro i u v hu hv
    unfold compare at hv
    rcases t3 i u hu with hc | ⟨_, hc⟩
    · rw [hc, Nat.zero_add] at hv; exact (Option.some.inj hv).symm
    · rw [hc] at hv; cases hv
  refine ⟨t1, ?_, ?_, ?_⟩
  · intro i j u w v v' hij hu hw hv hv'
    rw [val i u v hu hv, val j w v' hw hv']
    have : (i : α) < (j : α) := by exact_mod_cast hij
    refine ⟨rfl, rfl, ?_, ?_⟩ <;> simp only [MV.init] <;> linarith
  · intro u hu l hl hnl v v' hv hv'
    obtain ⟨i, hi, he⟩ := List.mem_iff_getElem.mp hu
    rw [val i u v (by rw [List.getElem?_eq_getElem hi, he]) hv]
    have h0 : s.recorded (cfg.key l) = some v' := by
      unfold compare at hv'
      rcases t2 _ hnl with hc | hc
      · rw [← hc]; exact hv'
      · rw [hc] at hv'; cases hv'
    have := b2 l hl v' h0
    have hlt : (i : α) < (winners.length : α) := by exact_mod_cast hi
    simp only [MV.init]
    constructor <;> linarith
  · intro u hu
    rw [List.getLast?_eq_getElem?] at hu
    unfold compare
    rcases t3 _ u hu with hc | ⟨hc, _⟩
    · rw [hc]; rfl
    · omega

/-- Everything is kept when nothing is pruned. -/
theorem compare_keeps (cfg : ArchiveCfg α U K) (s : ArchiveSt α U K) (h : Shape s) (winners losers : List U)
    (hpr : ∀ hp a, cfg.prune hp a = a) (hnd : (winners.map cfg.key).Nodup) (u : U) (hu : u ∈ winners) :
    ∃ i : Nat, winners[i]? = some u ∧ (s.compare cfg winners losers).recorded (cfg.key u) =
      some (MV.init u (s.bestLoser cfg losers - winners.length + (i : α))) := by
  have hpr' : PruneRemoves cfg := fun hp a => by rw [hpr]
  have mono : ∀ (s : ArchiveSt α U K), Shape s → ∀ (u : U) (loss : α) (k : K), (s.recorded k).isSome → ((s.tell cfg u loss).recorded k).isSome := by
    intro s h u loss k hk
    set s1 : ArchiveSt α U K := { s with candLoss := fun v => if v = u then some loss else s.candLoss v } with hs1
    have h1 : Shape s1 := ⟨h.keysND, h.idsND, h.idlt⟩
    obtain ⟨_, _, _, _, _, _, _, _, _, _, _, rnew, rex⟩ := record_spec cfg s1 u loss h1
    have ht : (s.tell cfg u loss).archive = (s1.record cfg u loss).1.archive := hpr _ _
    simp only [recorded, Option.isSome_map] at hk ⊢
    obtain ⟨i, hi⟩ := Option.isSome_iff_exists.mp hk
    have hm := lookup_some s k i hi
    have : (k, i) ∈ (s.tell cfg u loss).archive := by
      rw [ht]
      cases hb : (s1.record cfg u loss).2.2 with
      | false => rw [(rnew hb).2.2.2]; exact List.mem_append_left _ hm
      | true => rw [(rex hb).2.1]; exact hm
    rw [lookup_of_mem (tell_recorded cfg hpr' s h u loss).1 this]
    rfl
  have key : ∀ (us : List U) (best : α) (n i : Nat) (s : ArchiveSt α U K), Shape s → (us.map cfg.key).Nodup →
      ∀ k, (s.recorded k).isSome ∨ k ∈ us.map cfg.key → ((tellWinners cfg best n i us s).recorded k).isSome := by
    intro us
    induction us with
    | nil =>
      intro best n i s _ _ k hk
      rcases hk with hk | hk
      · exact hk
      · simp at hk
    | cons w us ih =>
      intro best n i s hs hnd k hk
      simp only [List.map_cons, List.nodup_cons] at hnd
      obtain ⟨e1, e2⟩ := setEntry_recorded (s.tell cfg w (best - n + i)) (tell_recorded cfg hpr' s hs w _).1 (cfg.key w) (MV.init w (best - n + i))
      simp only [tellWinners]
      apply ih best n (i + 1) _ e1 hnd.2 k
      by_cases hkw : k = cfg.key w
      · left; rw [e2, if_pos hkw]; rfl
      · rcases hk with hk | hk
        · left; rw [e2, if_neg hkw]; exact mono s hs w _ k hk
        · right
          rcases List.mem_cons.mp hk with hk | hk
          · exact absurd hk hkw
          · exact hk
  obtain ⟨i, hi, he⟩ := List.mem_iff_getElem.mp hu
  have hget : winners[i]? = some u := by rw [List.getElem?_eq_getElem hi, he]
  refine ⟨i, hget, ?_⟩
  have hs := key winners (s.bestLoser cfg losers) winners.length 0 s h hnd (cfg.key u) (Or.inr (List.mem_map.mpr ⟨u, hu, rfl⟩))
  obtain ⟨_, _, t3⟩ := tellWinners_recorded cfg hpr' (s.bestLoser cfg losers) winners.length 0 winners s h hnd
  unfold compare
  rcases t3 i u hget with hc | ⟨_, hc⟩
  · rw [hc, Nat.zero_add]
  · rw [hc] at hs; simp at hs

/-- States reached by any history of tells and comparisons. -/
inductive Reach (cfg : ArchiveCfg α U K) (root : U) : ArchiveSt α U K → Prop
  | start : Reach cfg root (init root)
  | tell (s : ArchiveSt α U K) (u : U) (loss : α) : Reach cfg root s → Reach cfg root (s.tell cfg u loss)
  | compare (s : ArchiveSt α U K) (winners losers : List U) : Reach cfg root s → (winners.map cfg.key).Nodup →
      Reach cfg root (s.compare cfg winners losers)

/-- C52 holds in all of them. -/
theorem reach_shape (cfg : ArchiveCfg α U K) (hpr : PruneRemoves cfg) (root : U) (s : ArchiveSt α U K) (h : Reach cfg root s) : Shape s := by
  induction h with
  | start => exact (init_inv cfg root).shape
  | tell s u loss _ ih => exact (tell_recorded cfg hpr s ih u loss).1
  | compare s winners losers _ hnd ih => exact (compare_orders_partial cfg hpr s ih winners losers hnd).1

/-! ## cases and limits -/

/-- Two winners against a loser known with value -3, and an unknown one. -/
example :
    let s := ((init (α := ℚ) (0, 0)).tells demoCfg [((1, 0), -3), ((2, 0), 7)]).compare demoCfg [(2, 0), (3, 0)] [(1, 0), (4, 0)]
    (s.recorded 2).map (·.mean) = some (-5) ∧ (s.recorded 3).map (·.mean) = some (-4) ∧ (s.recorded 1).map (·.mean) = some (-3) := by
  decide +kernel

/-- The recommendation does not follow: the value told for the winner is merged with its former losses in the object kept as current
best. With a stochastic function, the loser (told 1 three times) is recommended against the winner (told 5 before). -/
theorem compare_recommends_loser :
    ((((init (α := ℚ) (0, 0)).tells demoCfg [((1, 0), 5), ((2, 0), 1), ((2, 1), 1), ((2, 2), 1)]).compare demoCfg [(1, 0)] [(2, 0)]).recommend
      (0, 0) false).1 = 2 := by
  decide +kernel

/-- A point given both as first and last winner keeps the value of the last one: the order claimed by the first is lost. -/
theorem compare_repeated_winner :
    let s := (init (α := ℚ) (0, 0)).compare demoCfg [(1, 0), (2, 0), (1, 1)] []
    (s.recorded 2).map (·.mean) = some (-2) ∧ (s.recorded 1).map (·.mean) = some (-1) := by
  decide +kernel

end ArchiveSt
end NG
