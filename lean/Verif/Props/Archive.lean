import Verif.Lemmas.Archive
import Verif.Props.Pruning

/-!
# C01 / C02: what `recommend` returns, tracked bests

A history `h` is the chronological list of (candidate, loss) told, `cfg.key` the standardized data of a
candidate ("the point"). The pruning callable is arbitrary as long as it only removes entries.
-/

set_option linter.unusedSectionVars false

namespace NG
namespace ArchiveSt
variable {α : Type} [Field α] [LinearOrder α] [IsStrictOrderedRing α]
variable {U K : Type} [DecidableEq K] [DecidableEq U]

/-- Pruning only removes archive entries. -/
def PruneRemoves (cfg : ArchiveCfg α U K) : Prop := ∀ hp a, (cfg.prune hp a).Sublist a

/-- A re-evaluation (a loss told for a point told before) lies in `[-1e10, 1e10]`. First evaluations are
unrestricted. -/
def ReevaluationsInRange (key : U → K) (h : List (U × α)) : Prop :=
  h.Pairwise (fun e e' => key e.1 = key e'.1 → |e'.2| ≤ 10 ^ 10)

/-- **C02.** After any history, for each of the four criteria, the tracked best has an estimation at most
that of every archived point, and there is one as soon as something was told. -/
theorem bests_minimal (cfg : ArchiveCfg α U K) (hpr : PruneRemoves cfg) (root : U) (h : List (U × α)) (c : Crit) :
    let s := (init root).tells cfg h
    (h = [] ∧ s.bests c = none ∧ s.archive = []) ∨
    ∃ i, s.bests c = some i ∧
      ∀ e ∈ s.archive, (s.heap i).estimation cfg.sqrt c ≤ (s.heap e.2).estimation cfg.sqrt c := by
  rcases List.eq_nil_or_concat h with rfl | ⟨h', e, rfl⟩
  · exact Or.inl ⟨rfl, rfl, rfl⟩
  · rw [List.concat_eq_append]
    have hinv := tells_inv cfg hpr root (h' ++ [e])
    have ht := (tell_spec cfg hpr _ e.1 e.2 (tells_inv cfg hpr root h')).2 c
    rw [← tells_snoc] at ht
    obtain ⟨i, hi⟩ := ht
    refine Or.inr ⟨i, hi, ?_⟩
    intro a ha
    have := hinv.best c a ha
    simp only [bestEst, hi] at this
    exact WithTop.coe_le_coe.1 this

/-- History invariant behind C01. -/
structure HInv (cfg : ArchiveCfg α U K) (h : List (U × α)) (s : ArchiveSt α U K) : Prop where
  told : ∀ i, i < s.next → (s.heap i).param ∈ h.map (·.1)
  keyp : ∀ e ∈ s.archive, cfg.key (s.heap e.2).param = e.1
  minw : ∀ i, i < s.next → ∃ e ∈ h, cfg.key e.1 = cfg.key (s.heap i).param ∧ e.2 = (s.heap i).minimum
  glob : ∀ e ∈ h, s.bestEst cfg .minimum ≤ ((e.2 : α) : WithTop α)
  loss : (h.map (·.1)).Nodup → ∀ i, i < s.next →
    ((s.heap i).param, (s.heap i).minimum) ∈ h ∧ s.candLoss (s.heap i).param = some (s.heap i).minimum

theorem clip_id (y : α) (h : |y| ≤ 10 ^ 10) : MV.clip y = y := by
  have := abs_le.1 h
  rw [MV.clip_eq, min_eq_right this.2, max_eq_right this.1]

theorem tell_hinv (cfg : ArchiveCfg α U K) (hpr : PruneRemoves cfg) (h : List (U × α)) (s : ArchiveSt α U K)
    (u : U) (loss : α) (hi : Inv cfg s) (hh : HInv cfg h s)
    (hr : ReevaluationsInRange cfg.key (h ++ [(u, loss)])) :
    HInv cfg (h ++ [(u, loss)]) (s.tell cfg u loss) := by
  set s1 : ArchiveSt α U K := { s with candLoss := fun v => if v = u then some loss else s.candLoss v }
    with hs1
  have h1 : Inv cfg s1 := ⟨hi.keysND, hi.idsND, hi.idlt, hi.bestlt, hi.best⟩
  obtain ⟨rb, rcl, rn, rlt, rk, ri, rid, rmem, rold, rheap, rlt2, rnew, rex⟩ := record_spec cfg s1 u loss h1.shape
  obtain ⟨j, hj, hjlt, hjmin, hjbest⟩ := record_best cfg s1 u loss h1 .minimum
  set r := s1.record cfg u loss with hrdef
  have ht : s.tell cfg u loss = { r.1 with
      bests := fun c => r.1.updateBest cfg r.2.1 r.2.2 c
      archive := cfg.prune r.1.heap r.1.archive } := rfl
  rw [ht]
  have hsub := hpr r.1.heap r.1.archive
  -- the recorded value of the told point
  have hclip : r.2.2 = true → MV.clip loss = loss := by
    intro hex
    obtain ⟨hmem, -⟩ := rex hex
    have hk := hh.keyp _ hmem
    have ht := hh.told r.2.1 (hi.idlt _ hmem)
    obtain ⟨e, he, hep⟩ := List.mem_map.1 ht
    unfold ReevaluationsInRange at hr
    rw [List.pairwise_append] at hr
    apply clip_id
    refine hr.2.2 e he (u, loss) (by simp) ?_
    simp only at hk
    rw [hep, hk]
  have hval : cfg.key (r.1.heap r.2.1).param = cfg.key u ∧ (r.1.heap r.2.1).minimum ≤ loss ∧
      (r.1.heap r.2.1).param ∈ (h ++ [(u, loss)]).map (·.1) ∧
      (∃ e ∈ h ++ [(u, loss)], cfg.key e.1 = cfg.key u ∧ e.2 = (r.1.heap r.2.1).minimum) ∧
      (r.2.2 = true → (r.1.heap r.2.1).minimum ≤ (s.heap r.2.1).minimum) ∧
      (((h ++ [(u, loss)]).map (·.1)).Nodup →
        ((r.1.heap r.2.1).param, (r.1.heap r.2.1).minimum) ∈ h ++ [(u, loss)] ∧
        r.1.candLoss (r.1.heap r.2.1).param = some (r.1.heap r.2.1).minimum) := by
    cases hx : r.2.2 with
    | false =>
      obtain ⟨-, -, hv, -⟩ := rnew hx
      rw [hv]
      refine ⟨rfl, le_refl _, by simp [MV.init], ⟨(u, loss), by simp, rfl, rfl⟩, by simp, ?_⟩
      intro _
      refine ⟨by simp [MV.init], ?_⟩
      rw [rcl]; simp [hs1, MV.init]
    | true =>
      obtain ⟨hmem, -, hv⟩ := rex hx
      have hkp : cfg.key (s.heap r.2.1).param = cfg.key u := hh.keyp _ hmem
      have hlt : r.2.1 < s.next := hi.idlt _ hmem
      have hmin : (r.1.heap r.2.1).minimum = min (s.heap r.2.1).minimum loss := by
        rw [hv]
        show min (s.heap r.2.1).minimum (MV.clip loss) = _
        rw [hclip hx]
      have hpar : (r.1.heap r.2.1).param =
          if lossGt (s1.candLoss (s.heap r.2.1).param) (s1.candLoss u) then u else (s.heap r.2.1).param := by
        rw [hv]
      have hpor : (r.1.heap r.2.1).param = u ∨ (r.1.heap r.2.1).param = (s.heap r.2.1).param := by
        rw [hpar]; split <;> simp
      refine ⟨?_, ?_, ?_, ?_, ?_, ?_⟩
      · rcases hpor with hp | hp <;> rw [hp]; exact hkp
      · rw [hmin]; exact min_le_right _ _
      · rw [List.map_append]
        rcases hpor with hp | hp <;> rw [hp]
        · simp
        · exact List.mem_append_left _ (hh.told _ hlt)
      · rw [hmin]
        rcases min_choice (s.heap r.2.1).minimum loss with hm | hm <;> rw [hm]
        · obtain ⟨e, he, hek, hel⟩ := hh.minw _ hlt
          exact ⟨e, List.mem_append_left _ he, by rw [hek, hkp], hel⟩
        · exact ⟨(u, loss), by simp, rfl, rfl⟩
      · intro _; rw [hmin]; exact min_le_left _ _
      · intro hnd
        rw [List.map_append, List.nodup_append] at hnd
        obtain ⟨hnd1, -, hnd2⟩ := hnd
        obtain ⟨l1, l2⟩ := hh.loss hnd1 _ hlt
        have hne : (s.heap r.2.1).param ≠ u :=
          hnd2 _ (List.mem_map.2 ⟨_, l1, rfl⟩) u (by simp)
        have hc1 : s1.candLoss (s.heap r.2.1).param = some (s.heap r.2.1).minimum := by
          simp only [hs1, if_neg hne]; exact l2
        have hc2 : s1.candLoss u = some loss := by simp [hs1]
        rw [hc1, hc2] at hpar
        simp only [lossGt, decide_eq_true_eq, gt_iff_lt] at hpar
        rw [rcl]
        by_cases hlt' : loss < (s.heap r.2.1).minimum
        · rw [if_pos hlt'] at hpar
          rw [hpar, hmin, min_eq_right hlt'.le]
          exact ⟨by simp, hc2⟩
        · rw [if_neg hlt'] at hpar
          rw [hpar, hmin, min_eq_left (not_lt.1 hlt')]
          exact ⟨List.mem_append_left _ l1, hc1⟩
  obtain ⟨hv1, hv2, hv3, hv4, hv5, hv6⟩ := hval
  refine ⟨?_, ?_, ?_, ?_, ?_⟩
  · intro i hilt
    by_cases hi' : i = r.2.1
    · rw [hi']; exact hv3
    · show (r.1.heap i).param ∈ _
      rw [rheap i hi', List.map_append]
      exact List.mem_append_left _ (hh.told i (rlt2 i hilt hi'))
  · intro e he
    have he' := hsub.subset he
    show cfg.key (r.1.heap e.2).param = e.1
    by_cases hi' : e.2 = r.2.1
    · have : e = (cfg.key u, r.2.1) := snd_inj _ ri _ _ he' rmem hi'
      rw [this]; exact hv1
    · rw [rheap _ hi']; exact hh.keyp e (rold e he' hi')
  · intro i hilt
    by_cases hi' : i = r.2.1
    · rw [hi']
      obtain ⟨e, he, hek, hel⟩ := hv4
      exact ⟨e, he, by rw [hek]; exact hv1.symm, hel⟩
    · show ∃ e ∈ h ++ [(u, loss)], cfg.key e.1 = cfg.key (r.1.heap i).param ∧ e.2 = (r.1.heap i).minimum
      rw [rheap i hi']
      obtain ⟨e, he, hek, hel⟩ := hh.minw i (rlt2 i hilt hi')
      exact ⟨e, List.mem_append_left _ he, hek, hel⟩
  · intro e he
    simp only [bestEst]
    rw [hj]
    have hnew : (r.1.heap j).minimum ≤ (r.1.heap r.2.1).minimum := hjmin _ rmem
    rcases List.mem_append.1 he with he | he
    · by_cases hb : s1.bests .minimum = some r.2.1
      · have hex : r.2.2 = true := by
          cases hx : r.2.2 with
          | true => rfl
          | false => exact absurd (rnew hx).1 (ne_of_lt (h1.bestlt _ _ hb))
        have hg := hh.glob e he
        have hb' : s.bests .minimum = some r.2.1 := hb
        simp only [bestEst, hb'] at hg
        have hg' : (s.heap r.2.1).minimum ≤ e.2 := WithTop.coe_le_coe.1 hg
        exact WithTop.coe_le_coe.2 (le_trans hnew (le_trans (hv5 hex) hg'))
      · exact le_trans (hjbest hb) (hh.glob e he)
    · rw [List.mem_singleton] at he
      subst he
      exact WithTop.coe_le_coe.2 (le_trans hnew hv2)
  · intro hnd i hilt
    by_cases hi' : i = r.2.1
    · rw [hi']; exact hv6 hnd
    · show ((r.1.heap i).param, (r.1.heap i).minimum) ∈ _ ∧ r.1.candLoss (r.1.heap i).param = _
      rw [rheap i hi']
      rw [List.map_append, List.nodup_append] at hnd
      obtain ⟨hnd1, -, hnd2⟩ := hnd
      obtain ⟨l1, l2⟩ := hh.loss hnd1 i (rlt2 i hilt hi')
      have hne : (s.heap i).param ≠ u := hnd2 _ (List.mem_map.2 ⟨_, l1, rfl⟩) u (by simp)
      refine ⟨List.mem_append_left _ l1, ?_⟩
      rw [rcl]
      show (if (s.heap i).param = u then some loss else s.candLoss (s.heap i).param) = some (s.heap i).minimum
      rw [if_neg hne]; exact l2

theorem tells_hinv (cfg : ArchiveCfg α U K) (hpr : PruneRemoves cfg) (root : U) (h : List (U × α))
    (hr : ReevaluationsInRange cfg.key h) : HInv cfg h ((init root).tells cfg h) := by
  induction h using List.reverseRecOn with
  | nil => exact ⟨by simp [tells, init], by simp [tells, init], by simp [tells, init], by simp, by simp [tells, init]⟩
  | append_singleton h e ih =>
    rw [tells_snoc]
    have hr' : ReevaluationsInRange cfg.key h := by
      unfold ReevaluationsInRange at *
      rw [List.pairwise_append] at hr; exact hr.1
    exact tell_hinv cfg hpr h _ e.1 e.2 (tells_inv cfg hpr root h) (ih hr') hr

/-- **C01.** For a deterministic function, after any non-empty history whose re-evaluations are within
±1e10, the recommendation is a told candidate standing for a point at which the smallest of all told
losses was observed — whatever the pruning removed. -/
theorem recommend_best (cfg : ArchiveCfg α U K) (hpr : PruneRemoves cfg) (root : U) (h : List (U × α))
    (hne : h ≠ []) (hr : ReevaluationsInRange cfg.key h) :
    let rec_ := ((init root).tells cfg h).recommend root true
    rec_ ∈ h.map (·.1) ∧
    ∃ e ∈ h, cfg.key e.1 = cfg.key rec_ ∧ ∀ e' ∈ h, e.2 ≤ e'.2 := by
  have hh := tells_hinv cfg hpr root h hr
  rcases bests_minimal cfg hpr root h .minimum with ⟨h0, -⟩ | ⟨i, hi, -⟩
  · exact absurd h0 hne
  · have hinv := tells_inv cfg hpr root h
    have hlt := hinv.bestlt _ _ hi
    simp only [recommend, if_true, hi]
    refine ⟨hh.told i hlt, ?_⟩
    obtain ⟨e, he, hek, hel⟩ := hh.minw i hlt
    refine ⟨e, he, hek, ?_⟩
    intro e' he'
    have := hh.glob e' he'
    simp only [bestEst, hi] at this
    have h2 : ((((init root).tells cfg h).heap i).minimum) ≤ e'.2 := WithTop.coe_le_coe.1 this
    rw [hel]; exact h2

/-- **C01.** When every told candidate is told once (the ask/tell usage), the recommended candidate itself
was told with the smallest of all told losses, and carries it as its `loss`. -/
theorem recommend_best_candidate (cfg : ArchiveCfg α U K) (hpr : PruneRemoves cfg) (root : U) (h : List (U × α))
    (hne : h ≠ []) (hr : ReevaluationsInRange cfg.key h) (hnd : (h.map (·.1)).Nodup) :
    let s := (init root).tells cfg h
    ∃ l, (s.recommend root true, l) ∈ h ∧ s.candLoss (s.recommend root true) = some l ∧ ∀ e' ∈ h, l ≤ e'.2 := by
  have hh := tells_hinv cfg hpr root h hr
  rcases bests_minimal cfg hpr root h .minimum with ⟨h0, -⟩ | ⟨i, hi, -⟩
  · exact absurd h0 hne
  · have hinv := tells_inv cfg hpr root h
    have hlt := hinv.bestlt _ _ hi
    simp only [recommend, if_true, hi]
    obtain ⟨l1, l2⟩ := hh.loss hnd i hlt
    refine ⟨_, l1, l2, ?_⟩
    intro e' he'
    have := hh.glob e' he'
    simp only [bestEst, hi] at this
    exact WithTop.coe_le_coe.1 this

/-- **C01.** Before anything is told, the recommendation is the parametrization itself. -/
theorem recommend_initial (cfg : ArchiveCfg α U K) (root : U) (d : Bool) :
    ((init root).tells cfg []).recommend root d = root := by
  simp [tells, init, recommend]

/-- **C01.** For a non-deterministic function the recommendation is a told candidate standing for a value
whose pessimistic bound is at most that of every archived point. -/
theorem recommend_noisy (cfg : ArchiveCfg α U K) (hpr : PruneRemoves cfg) (root : U) (h : List (U × α))
    (hne : h ≠ []) (hr : ReevaluationsInRange cfg.key h) :
    let s := (init root).tells cfg h
    s.recommend root false ∈ h.map (·.1) ∧
    ∃ i, (s.heap i).param = s.recommend root false ∧
      ∀ e ∈ s.archive, (s.heap i).pessimisticBound cfg.sqrt ≤ (s.heap e.2).pessimisticBound cfg.sqrt := by
  have hh := tells_hinv cfg hpr root h hr
  rcases bests_minimal cfg hpr root h .pessimistic with ⟨h0, -⟩ | ⟨i, hi, hmin⟩
  · exact absurd h0 hne
  · have hinv := tells_inv cfg hpr root h
    have hlt := hinv.bestlt _ _ hi
    simp only [recommend, Bool.false_eq_true, if_false, hi]
    exact ⟨hh.told i hlt, i, rfl, hmin⟩

/-- The pruning of the code is covered by `PruneRemoves`, with or without pruning error. -/
theorem ofPruning_removes (key : U → K) (sqrt : α → α) (p : Pruning) :
    PruneRemoves (ArchiveCfg.ofPruning key sqrt p) := by
  intro hp a
  simp only [ArchiveCfg.ofPruning]
  cases hc : p.call (fun (e : K × Nat) c => (hp e.2).estimation sqrt c) a with
  | none => exact List.Sublist.refl _
  | some k =>
    simp only [Option.getD_some]
    unfold Pruning.call at hc
    split at hc
    · simp only [Option.some.injEq] at hc; subst hc; exact List.Sublist.refl _
    · unfold Pruning.prune at hc
      simp only [Option.bind_eq_bind, Option.bind_eq_some_iff, Option.pure_def, Option.some.injEq] at hc
      obtain ⟨_, -, _, -, _, -, rfl⟩ := hc
      exact List.filter_sublist

/-- The values of the archived points, in a history `h`, for one point. -/
def lossesAt (key : U → K) (h : List (U × α)) (x : K) : List α :=
  (h.filter (fun e => decide (key e.1 = x))).map (·.2)

/-- Statistics of a value, without its candidate. -/
def stats (v : MV α U) : Nat × α × α × α × α := (v.count, v.mean, v.minimum, v.square, v.variance)

theorem stats_addEvaluation (sqrt : α → α) (v w : MV α U) (h : stats v = stats w) (y : α) :
    stats (v.addEvaluation sqrt y) = stats (w.addEvaluation sqrt y) := by
  simp only [stats, Prod.mk.injEq] at h
  obtain ⟨h1, h2, h3, h4, h5⟩ := h
  simp only [stats, MV.addEvaluation, h1, h2, h3, h4]

/-- **C02.** While nothing is pruned, the archive holds exactly the told points, once each, and the value of
a point has the statistics of all the losses told for it, in order. -/
theorem archive_holds_history (cfg : ArchiveCfg α U K) (hpr : ∀ hp a, cfg.prune hp a = a) (root : U)
    (h : List (U × α)) :
    let s := (init root).tells cfg h
    (s.archive.map (·.1)).Nodup ∧ (∀ x, x ∈ s.archive.map (·.1) ↔ ∃ e ∈ h, cfg.key e.1 = x) ∧
    ∀ e ∈ s.archive, ∃ y ys, lossesAt cfg.key h e.1 = y :: ys ∧
      stats (s.heap e.2) = stats (MV.afterEvaluations cfg.sqrt root y ys) := by
  have hpr' : PruneRemoves cfg := fun hp a => by rw [hpr]
  refine ⟨(tells_inv cfg hpr' root h).keysND, ?_⟩
  induction h using List.reverseRecOn with
  | nil => simp [tells, init]
  | append_singleton h e ih =>
    obtain ⟨ih1, ih2⟩ := ih
    rw [tells_snoc]
    have hi := tells_inv cfg hpr' root h
    set s := (init root).tells cfg h with hs
    set s1 : ArchiveSt α U K := { s with candLoss := fun v => if v = e.1 then some e.2 else s.candLoss v }
      with hs1
    have h1 : Inv cfg s1 := ⟨hi.keysND, hi.idsND, hi.idlt, hi.bestlt, hi.best⟩
    obtain ⟨rb, rcl, rn, rlt, rk, ri, rid, rmem, rold, rheap, rlt2, rnew, rex⟩ := record_spec cfg s1 e.1 e.2 h1.shape
    set r := s1.record cfg e.1 e.2 with hrdef
    have ht : s.tell cfg e.1 e.2 = { r.1 with
        bests := fun c => r.1.updateBest cfg r.2.1 r.2.2 c
        archive := cfg.prune r.1.heap r.1.archive } := rfl
    rw [ht]
    simp only [hpr]
    constructor
    · intro x
      have hkeys : x ∈ r.1.archive.map (·.1) ↔ x ∈ s.archive.map (·.1) ∨ cfg.key e.1 = x := by
        cases hx : r.2.2 with
        | false =>
          rw [(rnew hx).2.2.2]
          simp only [List.map_append, List.map_cons, List.map_nil, List.mem_append, List.mem_singleton]
          exact or_congr_right ⟨fun h => h.symm, fun h => h.symm⟩
        | true =>
          obtain ⟨hm, ha, -⟩ := rex hx
          rw [ha]
          refine ⟨Or.inl, ?_⟩
          rintro (h | h)
          · exact h
          · exact List.mem_map.2 ⟨_, hm, h⟩
      rw [hkeys, ih1]
      simp only [List.mem_append, List.mem_singleton]
      constructor
      · rintro (⟨e', he', hk⟩ | hk)
        · exact ⟨e', Or.inl he', hk⟩
        · exact ⟨e, Or.inr rfl, hk⟩
      · rintro ⟨e', he' | he', hk⟩
        · exact Or.inl ⟨e', he', hk⟩
        · subst he'; exact Or.inr hk
    · intro a ha
      by_cases hai : a.2 = r.2.1
      · have haeq : a = (cfg.key e.1, r.2.1) := snd_inj _ ri _ _ ha rmem hai
        rw [haeq]
        have hl : lossesAt cfg.key (h ++ [e]) (cfg.key e.1) = lossesAt cfg.key h (cfg.key e.1) ++ [e.2] := by
          simp [lossesAt, List.filter_append]
        simp only [hl]
        cases hx : r.2.2 with
        | false =>
          obtain ⟨-, hnot, hv, -⟩ := rnew hx
          have : lossesAt cfg.key h (cfg.key e.1) = [] := by
            simp only [lossesAt, List.map_eq_nil_iff, List.filter_eq_nil_iff, decide_eq_true_eq]
            intro e' he' hk
            exact hnot ((ih1 _).2 ⟨e', he', hk⟩)
          refine ⟨e.2, [], by rw [this]; rfl, ?_⟩
          rw [hv]; rfl
        | true =>
          obtain ⟨hm, -, hv⟩ := rex hx
          obtain ⟨y, ys, hy, hst⟩ := ih2 _ hm
          refine ⟨y, ys ++ [e.2], by simp only at hy; rw [hy]; rfl, ?_⟩
          rw [MV.afterEvaluations_snoc, ← stats_addEvaluation _ _ _ hst, hv]
          rfl
      · have hold : a ∈ s.archive := rold a ha hai
        obtain ⟨y, ys, hy, hst⟩ := ih2 a hold
        have hne : cfg.key e.1 ≠ a.1 := by
          intro hk
          have hk2 : a.1 = (cfg.key e.1, r.2.1).1 := hk.symm
          have := List.inj_on_of_nodup_map rk ha rmem hk2
          exact hai (by rw [this])
        refine ⟨y, ys, ?_, ?_⟩
        · rw [← hy]; simp [lossesAt, List.filter_append, hne]
        · show stats (r.1.heap a.2) = _
          rw [rheap _ hai]; exact hst

/-! Concrete cases over ℚ: points are natural numbers, candidates are (point, copy number). -/

/-- A configuration without pruning whose point is the first component of the candidate. -/
def demoCfg : ArchiveCfg ℚ (Nat × Nat) Nat := { key := (·.1), sqrt := id, prune := fun _ a => a }

/-- A history with a re-evaluated point. -/
def demoHist : List ((Nat × Nat) × ℚ) := [((1, 0), 3), ((2, 0), 1), ((1, 1), 1/2), ((2, 1), 5)]

example : demoHist ≠ [] ∧ ReevaluationsInRange demoCfg.key demoHist ∧ (demoHist.map (·.1)).Nodup ∧
    PruneRemoves demoCfg := by
  refine ⟨by simp [demoHist], ?_, by decide, fun _ a => List.Sublist.refl a⟩
  simp [ReevaluationsInRange, demoHist, demoCfg]
  norm_num [abs_of_pos]

example : ((init (0, 0)).tells demoCfg demoHist).recommend (0, 0) true = (1, 1) := by decide +kernel

/-- **C01, limit.** The same candidate object told twice carries the last loss: the recommended candidate's
`loss` attribute is then not the smallest told loss. -/
theorem recommend_retold_loss :
    let s := (init (α := ℚ) (0, 0)).tells demoCfg [((1, 0), 3), ((1, 0), 7)]
    s.recommend (0, 0) true = (1, 0) ∧ s.candLoss (1, 0) = some 7 := by decide +kernel

/-- **C01, disagreement.** Without the range hypothesis on re-evaluations the claim fails: a point told twice
with `10^15` is preferred to a point told with `10^11`. -/
theorem recommend_out_of_range :
    ((init (α := ℚ) (0, 0)).tells demoCfg [((1, 0), 10^15), ((1, 1), 10^15), ((2, 0), 10^11)]).recommend (0, 0) true
      = (1, 0) := by decide +kernel

end ArchiveSt
end NG
