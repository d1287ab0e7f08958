import Verif.Props.Recast

/-!
# C35: batches of recast optimizers

For every interleaving of the thread and its caller, and every order of the tells.
-/

namespace NG
namespace Recast

variable {P L S : Type}

/-- `ls` answers the batch `b`: one loss per point, the one told for the candidate made of this point. -/
def Answers (tells : List (Nat × L)) (b : List (Nat × P)) (ls : List (Option L)) : Prop :=
  ls.length = b.length ∧ ∀ (i u : Nat) (x : P), b[i]? = some (u, x) → ∃ l, ls[i]? = some (some l) ∧ (u, l) ∈ tells

theorem Answers.mono {tells tells' : List (Nat × L)} {b : List (Nat × P)} {ls : List (Option L)} (h : Answers tells b ls)
    (hs : ∀ e ∈ tells, e ∈ tells') : Answers tells' b ls :=
  ⟨h.1, fun i u x hb => let ⟨l, h1, h2⟩ := h.2 i u x hb; ⟨l, h1, hs _ h2⟩⟩

/-- The pending batch: `indices` holds the candidates not told yet, `losses` the losses told. -/
structure Pending (tells : List (Nat × L)) (b : List (Nat × P)) (y : Batch P L) : Prop where
  size : y.size = b.length
  len : y.losses.length = b.length
  count : y.counter + y.indices.length = b.length
  left : y.indices ≠ []
  idx : ∀ u i, (u, i) ∈ y.indices → ∃ x, b[i]? = some (u, x)
  nodup : (y.indices.map (·.1)).Nodup
  told : ∀ (i u : Nat) (x : P), b[i]? = some (u, x) →
    (u, i) ∈ y.indices ∨ ∃ l, y.losses[i]? = some (some l) ∧ (u, l) ∈ tells

/-- The invariant of a batch optimizer. -/
structure BInv (alg : S → Act (List P) (List (Option L)) S) (s0 : S) (y : BSys P L S) : Prop where
  reach : ∃ ops, exec alg ops (.start s0) = some y.sys
  got : y.sys.got = y.log.map (·.map (·.2))
  fresh : ∀ b ∈ y.log, ∀ e ∈ b, e.1 < y.batch.next
  distinct : (y.log.flatten.map (·.1)).Nodup
  sent : ∀ (k : Nat) (v : Option (List (Option L))), y.sys.puts[k]? = some v → ∃ b ls, y.log[k]? = some b ∧ v = some ls ∧ Answers y.tells b ls
  once : (y.tells.map (·.1)).Nodup
  known : ∀ e ∈ y.tells, e.1 ∈ y.log.flatten.map (·.1) ∧ e.1 ∉ y.batch.indices.map (·.1)
  phase : (y.batch.indices = [] ∧ y.batch.counter = 0 ∧ y.sys.puts.length = y.log.length) ∨
    (∃ log' b, y.log = log' ++ [b] ∧ y.sys.puts.length = log'.length ∧ Pending y.tells b y.batch)

theorem exec_append (alg : S → Act P L S) : ∀ (ops : List (Op L)) (op : Op L) (y y1 y2 : Sys P L S),
    exec alg ops y = some y1 → step alg op y1 = some y2 → exec alg (ops ++ [op]) y = some y2
  | [], op, y, y1, y2, h, hs => by
    simp only [exec, Option.some.injEq] at h
    subst h
    simp [exec, hs]
  | o :: ops, op, y, y1, y2, h, hs => by
    simp only [exec, List.cons_append] at h ⊢
    cases ho : step alg o y with
    | none => simp only [ho] at h; cases h
    | some z => simp only [ho] at h ⊢; exact exec_append alg ops op z y1 y2 h hs

theorem nextPt_call (alg : S → Act P L S) (s : S) (ls : List L) (x : P) (h : nextPt alg s ls = some x) :
    ∃ t k, alg t = .call x k := by
  unfold nextPt at h
  split at h
  · cases h
  · split at h
    · rename_i t _ z k hk
      simp only [Option.some.injEq] at h
      exact ⟨_, k, h ▸ hk⟩
    · cases h

theorem work_same (alg : S → Act P L S) (y y' : Sys P L S) (h : work alg y = some y') :
    y'.got = y.got ∧ y'.puts = y.puts := by
  unfold work at h
  split at h
  · split at h <;> (simp only [Option.some.injEq] at h; subst h; exact ⟨rfl, rfl⟩)
  · split at h
    · cases h
    · simp only [Option.some.injEq] at h; subst h; exact ⟨rfl, rfl⟩
    · simp only [Option.some.injEq] at h; subst h; exact ⟨rfl, rfl⟩
  · simp only [Option.some.injEq] at h; subst h; exact ⟨rfl, rfl⟩
  · simp only [Option.some.injEq] at h; subst h; exact ⟨rfl, rfl⟩
  · cases h

theorem BInv.start (alg : S → Act (List P) (List (Option L)) S) (s0 : S) : BInv alg s0 (.start s0) where
  reach := ⟨[], rfl⟩
  got := rfl
  fresh := by simp [BSys.start]
  distinct := by simp [BSys.start]
  sent := by simp [BSys.start, Sys.start]
  once := by simp [BSys.start]
  known := by simp [BSys.start]
  phase := Or.inl (by simp [BSys.start, Batch.init, Sys.start])

theorem pop_same (b b' : Batch P L) (c : Nat × P) (h : b.pop = some (c, b')) :
    b'.indices = b.indices ∧ b'.counter = b.counter ∧ b'.next = b.next ∧ b'.losses = b.losses ∧ b'.size = b.size := by
  unfold Batch.pop at h
  split at h
  · cases h
  · simp only [Option.some.injEq, Prod.mk.injEq] at h
    obtain ⟨_, rfl⟩ := h
    exact ⟨rfl, rfl, rfl, rfl, rfl⟩

theorem Pending.congr {tells : List (Nat × L)} {b : List (Nat × P)} {y y' : Batch P L} (h : Pending tells b y)
    (h1 : y'.indices = y.indices) (h2 : y'.counter = y.counter) (h3 : y'.losses = y.losses) (h4 : y'.size = y.size) :
    Pending tells b y' :=
  ⟨by rw [h4]; exact h.size, by rw [h3]; exact h.len, by rw [h1, h2]; exact h.count, by rw [h1]; exact h.left,
    by rw [h1]; exact h.idx, by rw [h1]; exact h.nodup, by rw [h1, h3]; exact h.told⟩

/-- Changing the current batch only. -/
theorem BInv.batch {alg : S → Act (List P) (List (Option L)) S} {s0 : S} {y : BSys P L S} (h : BInv alg s0 y)
    (b : Batch P L) (hb : b.indices = y.batch.indices ∧ b.counter = y.batch.counter ∧ b.next = y.batch.next ∧
      b.losses = y.batch.losses ∧ b.size = y.batch.size) : BInv alg s0 { y with batch := b } where
  reach := h.reach
  got := h.got
  fresh := by simpa [hb.2.2.1] using h.fresh
  distinct := h.distinct
  sent := h.sent
  once := h.once
  known := by simpa [hb.1] using h.known
  phase := by
    rcases h.phase with ⟨h1, h2, h3⟩ | ⟨log', b', h1, h2, h3⟩
    · exact Or.inl ⟨by rw [hb.1]; exact h1, by rw [hb.2.1]; exact h2, h3⟩
    · exact Or.inr ⟨log', b', h1, h2, h3.congr hb.1 hb.2.1 hb.2.2.2.1 hb.2.2.2.2⟩

/-- A step of the thread or of the caller that neither gets a point nor puts a loss. -/
theorem BInv.sys {alg : S → Act (List P) (List (Option L)) S} {s0 : S} {y : BSys P L S} (h : BInv alg s0 y)
    (op : Op (List (Option L))) (s : Sys (List P) (List (Option L)) S) (hs : step alg op y.sys = some s)
    (hg : s.got = y.sys.got) (hp : s.puts = y.sys.puts) : BInv alg s0 { y with sys := s } where
  reach := let ⟨ops, ho⟩ := h.reach; ⟨ops ++ [op], exec_append alg ops op _ _ _ ho hs⟩
  got := by simp only [hg]; exact h.got
  fresh := h.fresh
  distinct := h.distinct
  sent := by simp only [hp]; exact h.sent
  once := h.once
  known := h.known
  phase := by simp only [hp]; exact h.phase

theorem nodup_append_iff {β : Type} {l m : List β} : (l ++ m).Nodup ↔ l.Nodup ∧ m.Nodup ∧ ∀ a ∈ l, a ∉ m := by
  rw [List.nodup_append]
  constructor
  · rintro ⟨h1, h2, h3⟩
    exact ⟨h1, h2, fun a ha hb => h3 a ha a hb rfl⟩
  · rintro ⟨h1, h2, h3⟩
    exact ⟨h1, h2, fun a ha b hb hab => h3 a ha (hab ▸ hb)⟩

/-- Receiving a batch. -/
theorem BInv.receive {alg : S → Act (List P) (List (Option L)) S} {s0 : S} {y : BSys P L S} (h : BInv alg s0 y)
    (hi : y.batch.indices = []) (points : List P) (hne : points ≠ []) (s : Sys (List P) (List (Option L)) S)
    (hs : step alg .take y.sys = some s) (hg : s.got = y.sys.got ++ [points]) (hp : s.puts = y.sys.puts) :
    BInv alg s0 { y with sys := s, batch := y.batch.receive points, log := y.log ++ [(y.batch.receive points).current] } := by
  have hph : y.batch.counter = 0 ∧ y.sys.puts.length = y.log.length := by
    rcases h.phase with ⟨_, h2, h3⟩ | ⟨log', b', _, _, h3⟩
    · exact ⟨h2, h3⟩
    · exact absurd hi h3.left
  have hcur : (y.batch.receive points).current.map (·.1) = List.range' y.batch.next points.length := by
    apply List.ext_getElem <;> simp [Batch.receive]
  have hget : ∀ (i u : Nat) (x : P), (y.batch.receive points).current[i]? = some (u, x) →
      i < points.length ∧ u = y.batch.next + i := by
    intro i u x hu
    simp only [Batch.receive, List.getElem?_mapIdx, Option.map_eq_some_iff, Prod.mk.injEq] at hu
    obtain ⟨a, h1, h2, _⟩ := hu
    exact ⟨(List.getElem?_eq_some_iff.mp h1).1, h2.symm⟩
  refine ⟨?_, ?_, ?_, ?_, ?_, h.once, ?_, Or.inr ⟨y.log, _, rfl, ?_, ?_⟩⟩
  · obtain ⟨ops, ho⟩ := h.reach
    exact ⟨ops ++ [.take], exec_append alg ops _ _ _ _ ho hs⟩
  · simp only [hg, h.got, List.map_append, List.map_cons, List.map_nil, List.append_cancel_left_eq, List.cons.injEq, and_true]
    apply List.ext_getElem <;> simp [Batch.receive]
  · intro b hb e he
    simp only [Batch.receive]
    rcases List.mem_append.mp hb with hb | hb
    · exact Nat.lt_of_lt_of_le (h.fresh b hb e he) (Nat.le_add_right _ _)
    · simp only [List.mem_singleton] at hb
      subst hb
      have : e.1 ∈ (y.batch.receive points).current.map (·.1) := List.mem_map_of_mem he
      rw [hcur, List.mem_range'_1] at this
      exact this.2
  · simp only [List.flatten_append, List.map_append, List.flatten_cons, List.flatten_nil, List.append_nil]
    rw [nodup_append_iff]
    refine ⟨h.distinct, by rw [hcur]; exact List.nodup_range', ?_⟩
    rw [hcur]
    intro u hu hu'
    rw [List.mem_range'_1] at hu'
    simp only [List.mem_map, List.mem_flatten] at hu
    obtain ⟨e, ⟨b, hb, he⟩, rfl⟩ := hu
    have := h.fresh b hb e he
    omega
  · intro k v hv
    rw [hp] at hv
    obtain ⟨b, ls, h1, h2⟩ := h.sent k v hv
    exact ⟨b, ls, by rw [List.getElem?_append_left (List.getElem?_eq_some_iff.mp h1).1]; exact h1, h2⟩
  · intro e he
    obtain ⟨h1, _⟩ := h.known e he
    refine ⟨by simp only [List.flatten_append, List.map_append, List.mem_append]; exact Or.inl h1, ?_⟩
    intro hm
    simp only [List.mem_map, List.mem_flatten] at h1
    obtain ⟨e', ⟨b, hb, he'⟩, hee⟩ := h1
    have := h.fresh b hb e' he'
    simp only [Batch.receive, List.mem_map, List.mem_mapIdx] at hm
    obtain ⟨a, ⟨i, hi', rfl⟩, ha⟩ := hm
    simp only at ha
    omega
  · simp only [hp]; exact hph.2
  · refine ⟨by simp [Batch.receive], by simp [Batch.receive], by simp [Batch.receive, hph.1], ?_, ?_, ?_, ?_⟩
    · simp only [Batch.receive, ne_eq, List.mapIdx_eq_nil_iff]; exact hne
    · intro u i hu
      simp only [Batch.receive, List.mem_mapIdx, Prod.mk.injEq] at hu
      obtain ⟨j, hj, h1, rfl⟩ := hu
      exact ⟨points[j], by simp [Batch.receive, h1, hj]⟩
    · have : (y.batch.receive points).indices.map (·.1) = List.range' y.batch.next points.length := by
        apply List.ext_getElem <;> simp [Batch.receive]
      rw [this]; exact List.nodup_range'
    · intro i u x hu
      obtain ⟨h1, h2⟩ := hget i u x hu
      left
      simp only [Batch.receive, List.mem_mapIdx, Prod.mk.injEq]
      exact ⟨i, h1, h2.symm, rfl⟩

theorem filter_length_of_nodup {β : Type} (idx : List (Nat × β)) (u : Nat) (i : β) (hn : (idx.map (·.1)).Nodup)
    (hm : (u, i) ∈ idx) : (idx.filter (fun e => e.1 != u)).length + 1 = idx.length := by
  induction idx with
  | nil => cases hm
  | cons a idx ih =>
    simp only [List.map_cons, List.nodup_cons] at hn
    by_cases ha : a.1 = u
    · have hrest : idx.filter (fun e => e.1 != u) = idx := by
        apply List.filter_eq_self.mpr
        intro e he
        have : e.1 ≠ u := fun hc => hn.1 (by rw [ha, ← hc]; exact List.mem_map_of_mem he)
        simpa using this
      simp [ha, hrest]
    · rcases List.mem_cons.mp hm with hm | hm
      · exact absurd (by rw [← hm]) ha
      · have := ih hn.2 hm
        simp [ha]
        exact this

/-- Telling one candidate of the pending batch. -/
theorem BInv.tell {alg : S → Act (List P) (List (Option L)) S} {s0 : S} {y y' : BSys P L S} (h : BInv alg s0 y)
    (uid : Nat) (l : L) (ht : bstep alg (.tell uid l) y = some y') : BInv alg s0 y' := by
  simp only [bstep] at ht
  split at ht
  case isFalse => cases ht
  case isTrue hal =>
  unfold Batch.tell at ht
  cases hf : y.batch.indices.find? (fun e => e.1 == uid) with
  | none => simp only [hf] at ht; cases ht
  | some e =>
    obtain ⟨u, i⟩ := e
    have hu : u = uid := by simpa using List.find?_some hf
    subst hu
    have hmem : (u, i) ∈ y.batch.indices := List.mem_of_find?_eq_some hf
    rcases h.phase with ⟨h1, _⟩ | ⟨log', b, hlog, hputs, pend⟩
    · rw [h1] at hmem; cases hmem
    obtain ⟨xi, hbi⟩ := pend.idx u i hmem
    have hbmem : b ∈ y.log := by rw [hlog]; simp
    have hcount := pend.count
    have hlen := filter_length_of_nodup y.batch.indices u i pend.nodup hmem
    have hdb : (b.map (·.1)).Nodup := by
      have := h.distinct
      rw [hlog] at this
      simp only [List.flatten_append, List.map_append, List.flatten_cons, List.flatten_nil, List.append_nil] at this
      exact (nodup_append_iff.mp this).2.1
    have huniq : ∀ (j : Nat) (x : P), b[j]? = some (u, x) → j = i := by
      intro j x hj
      have g1 : (b.map (·.1))[j]? = some u := by rw [List.getElem?_map, hj]; rfl
      have g2 : (b.map (·.1))[i]? = some u := by rw [List.getElem?_map, hbi]; rfl
      exact (List.getElem?_inj (List.getElem?_eq_some_iff.mp g1).1 hdb).mp (g1.trans g2.symm)
    have hnot : u ∉ y.tells.map (·.1) := by
      intro hm
      obtain ⟨e, he, hee⟩ := List.mem_map.mp hm
      exact (h.known e he).2 (by rw [hee]; exact List.mem_map_of_mem hmem)
    have honce : ((y.tells ++ [(u, l)]).map (·.1)).Nodup := by
      rw [List.map_append, nodup_append_iff]
      refine ⟨h.once, by simp, ?_⟩
      intro a ha ha'
      simp at ha'
      subst ha'
      exact hnot ha
    have hknown : ∀ e ∈ y.tells ++ [(u, l)], e.1 ∈ y.log.flatten.map (·.1) ∧
        e.1 ∉ (y.batch.indices.filter (fun e => e.1 != u)).map (·.1) := by
      intro e he
      rcases List.mem_append.mp he with he | he
      · obtain ⟨g1, g2⟩ := h.known e he
        refine ⟨g1, fun hc => g2 ?_⟩
        obtain ⟨e', he', hee⟩ := List.mem_map.mp hc
        exact List.mem_map.mpr ⟨e', (List.mem_filter.mp he').1, hee⟩
      · simp only [List.mem_singleton] at he
        subst he
        refine ⟨List.mem_map.mpr ⟨(u, xi), List.mem_flatten.mpr ⟨b, hbmem, List.mem_of_getElem? hbi⟩, rfl⟩, ?_⟩
        intro hc
        obtain ⟨e', he', hee⟩ := List.mem_map.mp hc
        have := (List.mem_filter.mp he').2
        simp [hee] at this
    have hsub : ∀ e ∈ y.tells, e ∈ y.tells ++ [(u, l)] := fun e he => List.mem_append_left _ he
    have hilt : i < y.batch.losses.length := by rw [pend.len]; exact (List.getElem?_eq_some_iff.mp hbi).1
    have htold : ∀ (j v : Nat) (x : P), b[j]? = some (v, x) →
        (v, j) ∈ y.batch.indices.filter (fun e => e.1 != u) ∨
          ∃ l', (y.batch.losses.set i (some l))[j]? = some (some l') ∧ (v, l') ∈ y.tells ++ [(u, l)] := by
      intro j v x hj
      by_cases hv : v = u
      · subst hv
        have := huniq j x hj
        subst this
        exact Or.inr ⟨l, by simp [hilt], by simp⟩
      · have hji : i ≠ j := by
          intro hc; subst hc
          rw [hbi] at hj
          simp at hj
          exact hv hj.1.symm
        rcases pend.told j v x hj with g | ⟨l', g1, g2⟩
        · exact Or.inl (List.mem_filter.mpr ⟨g, by simpa using hv⟩)
        · exact Or.inr ⟨l', by rw [List.getElem?_set_ne hji]; exact g1, hsub _ g2⟩
    simp only [hf] at ht
    split at ht
    case h_1 heq => split at heq <;> cases heq
    case h_2 b' heq =>
      split at heq
      case isTrue => cases heq
      case isFalse hne =>
      simp only [Option.some.injEq, Prod.mk.injEq, and_true] at heq ht
      subst heq
      subst ht
      refine ⟨h.reach, h.got, h.fresh, h.distinct, ?_, honce, hknown, Or.inr ⟨log', b, hlog, hputs, ?_⟩⟩
      · intro k v hk
        obtain ⟨b1, ls, g1, g2, g3⟩ := h.sent k v hk
        exact ⟨b1, ls, g1, g2, g3.mono hsub⟩
      · refine ⟨pend.size, by simp [pend.len], by simp only; omega, ?_, ?_, ?_, htold⟩
        · intro hc
          simp only at hc
          rw [hc] at hlen
          have := pend.size
          simp at hlen
          omega
        · intro v j hv
          exact pend.idx v j (List.mem_filter.mp hv).1
        · exact (List.Sublist.map _ List.filter_sublist).nodup pend.nodup
    case h_3 b' v heq =>
      split at heq
      case isFalse => simp at heq
      case isTrue hsz =>
      simp only [Option.some.injEq, Prod.mk.injEq] at heq
      obtain ⟨rfl, rfl⟩ := heq
      have hst : step alg (.put (some (y.batch.losses.set i (some l)))) y.sys =
          some { y.sys with qTell := y.sys.qTell ++ [some (y.batch.losses.set i (some l))],
                            puts := y.sys.puts ++ [some (y.batch.losses.set i (some l))] } := by
        simp only [step, hal, and_self, if_true]
      rw [hst] at ht
      simp only [Option.map_some, Option.some.injEq] at ht
      subst ht
      have hempty : y.batch.indices.filter (fun e => e.1 != u) = [] := by
        apply List.eq_nil_of_length_eq_zero
        have := pend.size
        omega
      refine ⟨?_, h.got, h.fresh, h.distinct, ?_, honce, hknown, Or.inl ⟨hempty, rfl, ?_⟩⟩
      · obtain ⟨ops, ho⟩ := h.reach
        exact ⟨ops ++ [_], exec_append alg ops _ _ _ _ ho hst⟩
      · intro k v hk
        simp only at hk
        by_cases hk' : k < y.sys.puts.length
        · rw [List.getElem?_append_left hk'] at hk
          obtain ⟨b1, ls, g1, g2, g3⟩ := h.sent k v hk
          exact ⟨b1, ls, g1, g2, g3.mono hsub⟩
        · have hk2 : k = y.sys.puts.length := by
            have := (List.getElem?_eq_some_iff.mp hk).1
            simp at this; omega
          subst hk2
          simp only [List.getElem?_concat_length, Option.some.injEq] at hk
          refine ⟨b, _, by rw [hlog, hputs]; simp, hk.symm, by simp [pend.len], ?_⟩
          intro j v' x hj
          rcases htold j v' x hj with g | g
          · rw [hempty] at g; cases g
          · exact g
      · simp [hputs, hlog]

theorem BInv.step {alg : S → Act (List P) (List (Option L)) S} {s0 : S}
    (hne : ∀ s x k, alg s = .call x k → x ≠ []) {y y' : BSys P L S} {op : BOp L}
    (h : BInv alg s0 y ∧ (y.sys.blocked = true → y.batch.indices = [])) (hs : bstep alg op y = some y') :
    BInv alg s0 y' ∧ (y'.sys.blocked = true → y'.batch.indices = []) := by
  obtain ⟨h, hbl⟩ := h
  cases op with
  | work =>
    simp only [bstep, Option.map_eq_some_iff] at hs
    obtain ⟨s, hs, rfl⟩ := hs
    obtain ⟨h1, h2⟩ := work_same alg _ _ hs
    refine ⟨h.sys .work s hs h1 h2, ?_⟩
    have : s.blocked = y.sys.blocked := by
      simp only [Recast.step] at hs
      unfold Recast.work at hs
      split at hs
      · split at hs <;> (simp only [Option.some.injEq] at hs; subst hs; rfl)
      · split at hs
        · cases hs
        · simp only [Option.some.injEq] at hs; subst hs; rfl
        · simp only [Option.some.injEq] at hs; subst hs; rfl
      · simp only [Option.some.injEq] at hs; subst hs; rfl
      · simp only [Option.some.injEq] at hs; subst hs; rfl
      · cases hs
    simp only [this]
    exact hbl
  | pop =>
    simp only [bstep] at hs
    split at hs
    · cases hs
    · split at hs
      · cases hs
      · rename_i hb _ c b hp
        simp only [Option.some.injEq] at hs
        subst hs
        exact ⟨h.batch b (pop_same _ _ _ hp), fun hc => absurd hc hb⟩
  | enter =>
    simp only [bstep] at hs
    split at hs
    case isFalse => cases hs
    case isTrue hc =>
    simp only [Option.map_eq_some_iff] at hs
    obtain ⟨s, hs, rfl⟩ := hs
    have hs' := hs
    simp only [Recast.step] at hs'
    split at hs'
    case isFalse => cases hs'
    case isTrue =>
    simp only [Option.some.injEq] at hs'
    refine ⟨h.sys .enter s hs (by rw [← hs']) (by rw [← hs']), fun _ => ?_⟩
    have := hc.2
    simp only [Batch.canAsk, hc.1, List.length_nil, Nat.lt_irrefl, decide_false, Bool.or_false, beq_iff_eq] at this
    exact List.eq_nil_of_length_eq_zero this
  | take =>
    simp only [bstep] at hs
    cases ht : Recast.step alg .take y.sys with
    | none => simp only [ht] at hs; cases hs
    | some s =>
      simp only [ht] at hs
      have ht' := ht
      simp only [Recast.step] at ht'
      split at ht'
      case isFalse => cases ht'
      case isTrue hblk =>
      have hi := hbl hblk
      cases hq : y.sys.qAsk with
      | nil => simp only [hq] at ht'; cases ht'
      | cons m q =>
        cases m with
        | pt points =>
          simp only [hq, Option.some.injEq] at ht'
          have hmem : points ∈ y.sys.posted := by
            obtain ⟨ops, ho⟩ := h.reach
            rw [← ((Inv.start alg s0).exec ops ho).hist, hq]
            simp [pts]
          have hpne : points ≠ [] := by
            obtain ⟨ops, ho⟩ := h.reach
            obtain ⟨i, hi', hx⟩ := List.mem_iff_getElem.mp hmem
            obtain ⟨_, h2⟩ := ((Inv.start alg s0).exec ops ho).traj i points (by rw [List.getElem?_eq_getElem hi', hx])
            obtain ⟨t, k, hk⟩ := nextPt_call alg s0 _ _ h2
            exact hne t points k hk
          have hrec := h.receive hi points hpne s ht (by rw [← ht']) (by rw [← ht'])
          have hb0 : s.blocked = false := by rw [← ht']
          simp only [hq] at hs
          split at hs
          · simp only [Option.some.injEq] at hs
            subst hs
            exact ⟨hrec, fun hc => by simp [hb0] at hc⟩
          · rename_i c b' hp
            simp only [Option.some.injEq] at hs
            subst hs
            exact ⟨hrec.batch b' (pop_same _ _ _ hp), fun hc => by simp [hb0] at hc⟩
        | none | exc =>
          simp only [hq, Option.some.injEq] at ht' hs
          subst hs
          exact ⟨h.sys .take s ht (by rw [← ht']) (by rw [← ht']), fun _ => hi⟩
  | tell uid l =>
    refine ⟨h.tell uid l hs, ?_⟩
    simp only [bstep] at hs
    split at hs
    case isFalse => cases hs
    case isTrue hal =>
    split at hs
    · cases hs
    · simp only [Option.some.injEq] at hs
      subst hs
      intro hc; rw [hal.2] at hc; cases hc
    · simp only [Option.map_eq_some_iff] at hs
      obtain ⟨s, hs, rfl⟩ := hs
      simp only [Recast.step, hal, and_self, if_true, Option.some.injEq] at hs
      subst hs
      intro hc
      cases hc

theorem BInv.exec {alg : S → Act (List P) (List (Option L)) S} {s0 : S}
    (hne : ∀ s x k, alg s = .call x k → x ≠ []) : ∀ (ops : List (BOp L)) {y y' : BSys P L S},
    BInv alg s0 y ∧ (y.sys.blocked = true → y.batch.indices = []) → bexec alg ops y = some y' →
    BInv alg s0 y' ∧ (y'.sys.blocked = true → y'.batch.indices = [])
  | [], y, y', h, he => by
    simp only [bexec, Option.some.injEq] at he
    exact he ▸ h
  | op :: ops, y, y', h, he => by
    simp only [bexec] at he
    cases hs : bstep alg op y with
    | none => simp only [hs] at he; cases he
    | some y1 =>
      simp only [hs] at he
      exact BInv.exec hne ops (BInv.step hne h hs) he

theorem reached {alg : S → Act (List P) (List (Option L)) S} {s0 : S} (hne : ∀ s x k, alg s = .call x k → x ≠ [])
    {ops : List (BOp L)} {y : BSys P L S} (h : bexec alg ops (.start s0) = some y) : BInv alg s0 y :=
  (BInv.exec hne ops ⟨BInv.start alg s0, by simp [BSys.start, Sys.start]⟩ h).1

/-- C35: for every algorithm calling its objective on non-empty batches, every interleaving and every order of the tells: the
`k`-th array of losses the algorithm receives is received for its `k`-th batch, has exactly one loss per point, and its
`i`-th entry is the loss that was told for the candidate made of the `i`-th point. -/
theorem batch_losses (alg : S → Act (List P) (List (Option L)) S) (s0 : S) (hne : ∀ s x k, alg s = .call x k → x ≠ [])
    (ops : List (BOp L)) (y : BSys P L S) (h : bexec alg ops (.start s0) = some y) (k : Nat) (points : List P)
    (ls : List (Option L)) (he : y.sys.eaten[k]? = some (points, ls)) :
    ∃ b : List (Nat × P), y.log[k]? = some b ∧ b.map (·.2) = points ∧ ls.length = points.length ∧
      ∀ (i u : Nat) (x : P), b[i]? = some (u, x) → ∃ l, ls[i]? = some (some l) ∧ (u, l) ∈ y.tells := by
  have inv := reached hne h
  obtain ⟨ops', ho⟩ := inv.reach
  obtain ⟨h1, h2⟩ := fifo alg s0 ops' y.sys ho k points ls he
  obtain ⟨b, ls', g1, g2, g3⟩ := inv.sent k _ h1
  simp only [Option.some.injEq] at g2
  subst g2
  have hb : b.map (·.2) = points := h2 _ (by rw [inv.got, List.getElem?_map, g1]; rfl)
  refine ⟨b, g1, hb, by rw [g3.1, ← hb]; simp, g3.2⟩

/-- C35: every candidate is told at most once, and only candidates of received batches are told (otherwise `KeyError`). With
the uids of all candidates distinct, the loss of a point is the only one told for it. -/
theorem batch_tells (alg : S → Act (List P) (List (Option L)) S) (s0 : S) (hne : ∀ s x k, alg s = .call x k → x ≠ [])
    (ops : List (BOp L)) (y : BSys P L S) (h : bexec alg ops (.start s0) = some y) :
    (y.tells.map (·.1)).Nodup ∧ (y.log.flatten.map (·.1)).Nodup ∧
      ∀ e ∈ y.tells, e.1 ∈ y.log.flatten.map (·.1) :=
  let inv := reached hne h
  ⟨inv.once, inv.distinct, fun e he => (inv.known e he).1⟩

/-- C35: while some candidate of the last batch is not told, asking for a new batch is refused. -/
theorem batch_refused (alg : S → Act (List P) (List (Option L)) S) (s0 : S) (hne : ∀ s x k, alg s = .call x k → x ≠ [])
    (ops : List (BOp L)) (y : BSys P L S) (h : bexec alg ops (.start s0) = some y) (b : List (Nat × P)) (hb : b ∈ y.log)
    (e : Nat × P) (he : e ∈ b) (hnt : e.1 ∉ y.tells.map (·.1)) : bstep alg .enter y = none := by
  have inv := reached hne h
  have : y.batch.indices ≠ [] := by
    rcases inv.phase with ⟨h1, h2, h3⟩ | ⟨log', b', h1, h2, h3⟩
    · exfalso
      obtain ⟨k, hk, rfl⟩ := List.mem_iff_getElem.mp hb
      have hk' : k < y.sys.puts.length := by omega
      obtain ⟨b, ls, g1, g2, g3⟩ := inv.sent k _ (List.getElem?_eq_getElem hk')
      rw [List.getElem?_eq_getElem hk] at g1
      simp only [Option.some.injEq] at g1
      subst g1
      obtain ⟨i, hi, rfl⟩ := List.mem_iff_getElem.mp he
      obtain ⟨l, _, hl⟩ := g3.2 i _ _ (List.getElem?_eq_getElem hi)
      exact hnt (List.mem_map.mpr ⟨_, hl, rfl⟩)
    · exact h3.left
  simp only [bstep]
  rw [if_neg]
  rintro ⟨hc, hca⟩
  simp only [Batch.canAsk, hc, List.length_nil, Nat.lt_irrefl, decide_false, Bool.or_false, beq_iff_eq] at hca
  exact this (List.eq_nil_of_length_eq_zero hca)

/-- C35: and once every candidate of every batch is told, nothing is pending: all losses were sent and `can_ask` holds. -/
theorem batch_complete (alg : S → Act (List P) (List (Option L)) S) (s0 : S) (hne : ∀ s x k, alg s = .call x k → x ≠ [])
    (ops : List (BOp L)) (y : BSys P L S) (h : bexec alg ops (.start s0) = some y)
    (hall : ∀ b ∈ y.log, ∀ e ∈ b, e.1 ∈ y.tells.map (·.1)) :
    y.batch.canAsk = true ∧ y.sys.puts.length = y.sys.got.length := by
  have inv := reached hne h
  rcases inv.phase with ⟨h1, h2, h3⟩ | ⟨log', b, h1, h2, h3⟩
  · exact ⟨by simp [Batch.canAsk, h1], by rw [inv.got]; simpa using h3⟩
  · exfalso
    obtain ⟨e, es, he⟩ := List.exists_cons_of_ne_nil h3.left
    obtain ⟨x, hx⟩ := h3.idx e.1 e.2 (by rw [he]; simp)
    have hm := hall b (by rw [h1]; simp) _ (List.mem_of_getElem? hx)
    obtain ⟨e', he', hee⟩ := List.mem_map.mp hm
    exact (inv.known e' he').2 (by rw [hee, he]; simp)

/-- Batches of three points; the algorithm stops after the first. -/
def three : Option (List (Option Int)) → Act (List Int) (List (Option Int)) (Option (List (Option Int))) := fun s =>
  match s with
  | none => .call [10, 20, 30] some
  | some _ => .finish

/-- Told in the order 1, 2, 0, the losses arrive in the order of the batch. -/
example : (bexec three [.work, .enter, .take, .pop, .pop, .tell 1 21, .tell 2 31, .tell 0 11, .work] (.start none)).map
    (fun y => y.sys.eaten) = some [([10, 20, 30], [some 11, some 21, some 31])] := by decide +kernel

/-- An algorithm asking for an empty batch: the ask raises IndexError, and the next one waits forever for a second batch,
while the thread waits for the losses of none. -/
def emptyBatch : Unit → Act (List Int) (List (Option Int)) Unit := fun _ => .call [] (fun _ => ())

theorem empty_batch_blocks :
    ∃ y, bexec emptyBatch [.work, .enter, .take, .enter] (.start () : BSys Int Int Unit) = some y ∧
      ∀ op, bstep emptyBatch op y = none := by
  refine ⟨_, rfl, ?_⟩
  intro op
  cases op <;> rfl

/-- C35 fails with cheap constraints: base.py 524-533 drops a rejected candidate without telling it (`no_parallelization` is
false), so its batch is never complete: here candidate 2 is dropped, the others are told, and every further ask is refused
while the thread waits. -/
theorem dropped_blocks :
    ∃ y, bexec three [.work, .enter, .take, .pop, .tell 1 21, .pop, .tell 0 11] (.start none : BSys Int Int _) = some y ∧
      bstep three .enter y = none ∧ bstep three .pop y = none ∧ bstep three .work y = none := ⟨_, rfl, rfl, rfl, rfl⟩

/-- An algorithm stopping at once. -/
def stopping' : Unit → Act (List Int) (List (Option Int)) Unit := fun _ => .finish

/-- C35 fails in a race: a random candidate returned because the algorithm has finished, told before the thread is dead,
raises KeyError (recaster.py 401). Here the thread is alive, and no candidate is known. -/
theorem random_tell_raises (uid : Nat) (l : Int) :
    ∃ y, bexec stopping' [.work, .enter, .take] (.start () : BSys Int Int Unit) = some y ∧ y.sys.wk.alive = true ∧
      y.batch.tell uid l = none := ⟨_, rfl, rfl, rfl⟩

end Recast
end NG
