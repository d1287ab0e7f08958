import Verif.Props.Nsga

/-!
# C19: NSGA-II selection and crowding distance
-/

set_option linter.unusedSectionVars false
namespace NG
namespace Nsga
variable {α : Type} [LinearOrder α] [Field α] [IsStrictOrderedRing α] {d : Nat}

theorem perm_sortKey {β : Type} [LinearOrder β] (key : Nat → β) (l : List Nat) : (sortKey key l).Perm l :=
  List.perm_insertionSort _ _

theorem sorted_sortKey {β : Type} [LinearOrder β] (key : Nat → β) (l : List Nat) :
    (sortKey key l).Pairwise (fun a b => key a ≤ key b) := by
  unfold sortKey
  haveI : Std.Total (fun a b => key a ≤ key b) := ⟨fun a b => le_total _ _⟩
  haveI : IsTrans Nat (fun a b => key a ≤ key b) := ⟨fun a b c h h' => le_trans h h'⟩
  exact List.pairwise_insertionSort _ l

theorem perm_sortDesc (dist : Nat → Dist α) (l : List Nat) : (sortDesc dist l).Perm l := List.perm_insertionSort _ _

theorem sorted_sortDesc (dist : Nat → Dist α) (l : List Nat) : (sortDesc dist l).Pairwise (fun a b => dist b ≤ dist a) := by
  unfold sortDesc
  haveI : Std.Total (fun a b => dist b ≤ dist a) := ⟨fun a b => le_total _ _⟩
  haveI : IsTrans Nat (fun a b => dist b ≤ dist a) := ⟨fun a b c h h' => le_trans h' h⟩
  exact List.pairwise_insertionSort _ l

/-! ### Crowding distance -/

theorem accInner_not_inner (key : Nat → α) (lo hi : α) (s : List Nat) (dist : Nat → Dist α) (x : Nat) (hx : x ∉ s.tail.dropLast) :
    accInner key lo hi dist s x = dist x := by
  induction s generalizing dist with
  | nil => rfl
  | cons a s ih =>
    match s with
    | [] => rfl
    | [b] => rfl
    | b :: c :: l =>
      unfold accInner
      simp only
      have hx' : x ≠ b ∧ x ∉ (c :: l).dropLast := by
        simp only [List.tail_cons, List.dropLast_cons₂, List.mem_cons, not_or] at hx; exact hx
      have := ih (dist := fun i => if i = b then dist b + ((if hi - lo = 0 then key c - key a else (key c - key a) / (hi - lo) : α) : Dist α) else dist i)
        (by simpa using hx'.2)
      rw [this, if_neg hx'.1]

theorem accInner_inner (key : Nat → α) (lo hi : α) (pre post : List Nat) (a x c : Nat) (dist : Nat → Dist α)
    (hnd : (pre ++ a :: x :: c :: post).Nodup) :
    accInner key lo hi dist (pre ++ a :: x :: c :: post) x =
      dist x + ((if hi - lo = 0 then key c - key a else (key c - key a) / (hi - lo) : α) : Dist α) := by
  induction pre generalizing dist with
  | nil =>
    rw [List.nil_append]
    unfold accInner
    simp only
    rw [accInner_not_inner]
    · simp
    · rw [List.nil_append, List.nodup_cons, List.nodup_cons] at hnd
      intro h
      exact hnd.2.1 (List.dropLast_subset _ h)
  | cons p pre ih =>
    have hnd' := hnd
    rw [List.cons_append, List.nodup_cons] at hnd
    cases pre with
    | nil =>
      simp only [List.cons_append, List.nil_append] at ih hnd hnd' ⊢
      rw [accInner]
      rw [ih _ hnd.2]
      have : x ≠ a := by
        intro h; subst h; simp at hnd
      simp [this]
    | cons q pre =>
      have hex : ∃ r t, pre ++ a :: x :: c :: post = r :: t := by
        cases pre with
        | nil => exact ⟨_, _, rfl⟩
        | cons u v => exact ⟨_, _, rfl⟩
      obtain ⟨r, t, ht⟩ := hex
      simp only [List.cons_append] at ih hnd hnd' ⊢
      rw [ht] at ih hnd hnd' ⊢
      rw [accInner]
      rw [ih _ hnd.2]
      have : x ≠ q := by
        intro h; subst h
        have hx : x ∈ r :: t := by rw [← ht]; simp
        exact (List.nodup_cons.1 hnd.2).1 hx
      simp [this]

/-- Specification: smallest and largest values of an objective on the front, and neighbouring values. -/
structure Neighbours (key : Nat → α) (front : List Nat) (x : Nat) where
  lo : α
  hi : α
  below : α
  above : α
  isLo : IsLeast {v | ∃ y ∈ front, key y = v} lo
  isHi : IsGreatest {v | ∃ y ∈ front, key y = v} hi
  isBelow : IsGreatest {v | ∃ y ∈ front, key y = v ∧ v < key x} below
  isAbove : IsLeast {v | ∃ y ∈ front, key y = v ∧ key x < v} above

/-- One objective: what lines 18-78 add. -/
theorem accObjective_spec (key : Nat → α) (front : List Nat) (dist : Nat → Dist α) (x : Nat) (hx : x ∈ front)
    (hnd : front.Nodup) (hinj : ∀ y ∈ front, ∀ z ∈ front, key y = key z → y = z) :
    ((∀ y ∈ front, key x ≤ key y) ∨ (∀ y ∈ front, key y ≤ key x) → accObjective key front dist x = ⊤) ∧
    (∀ N : Neighbours key front x, accObjective key front dist x = dist x + (((N.above - N.below) / (N.hi - N.lo) : α) : Dist α)) := by
  have hperm := perm_sortKey key front
  have hsort := sorted_sortKey key front
  have hnds : (sortKey key front).Nodup := hperm.nodup_iff.2 hnd
  have hmem : ∀ y, y ∈ sortKey key front ↔ y ∈ front := fun y => hperm.mem_iff
  unfold accObjective
  generalize sortKey key front = s at hperm hsort hnds hmem
  have hxs : x ∈ s := (hmem x).2 hx
  have hne : s ≠ [] := List.ne_nil_of_mem hxs
  obtain ⟨f, s', rfl⟩ := List.exists_cons_of_ne_nil hne
  have hlast : ∃ l, (f :: s').getLast? = some l ∧ l ∈ f :: s' ∧ (∀ y ∈ f :: s', key y ≤ key l) := by
    refine ⟨(f :: s').getLast (by simp), List.getLast?_eq_some_getLast (by simp), List.getLast_mem _, ?_⟩
    intro y hy
    have h := List.dropLast_append_getLast (l := f :: s') (by simp)
    rw [← h] at hy hsort
    rcases List.mem_append.1 hy with hy | hy
    · exact (List.pairwise_append.1 hsort).2.2 y hy _ (by simp)
    · simp at hy; rw [hy]
  obtain ⟨l, hl, hlm, hlmax⟩ := hlast
  have hfmin : ∀ y ∈ f :: s', key f ≤ key y := by
    intro y hy
    rcases List.mem_cons.1 hy with rfl | hy
    · exact le_rfl
    · exact (List.pairwise_cons.1 hsort).1 y hy
  simp only [List.head?_cons, hl]
  constructor
  · intro hext
    have hxfl : x = f ∨ x = l := by
      rcases hext with h | h
      · left
        exact hinj x hx f ((hmem f).1 (by simp)) (le_antisymm (h f ((hmem f).1 (by simp))) (hfmin x hxs))
      · right
        exact hinj x hx l ((hmem l).1 hlm) (le_antisymm (hlmax x hxs) (h l ((hmem l).1 hlm)))
    have hnot : x ∉ (f :: s').tail.dropLast := by
      intro hin
      rcases hxfl with rfl | rfl
      · exact (List.nodup_cons.1 hnds).1 (List.dropLast_subset _ hin)
      · rw [List.tail_cons] at hin
        have hs' : s' ≠ [] := by rintro rfl; simp at hin
        have hg : s'.getLast hs' = x := by
          have := List.getLast?_eq_some_getLast (l := f :: s') (by simp)
          rw [hl] at this
          rw [List.getLast_cons hs'] at this
          exact (Option.some.inj this).symm
        have h := List.dropLast_append_getLast hs'
        have hn := (List.nodup_cons.1 hnds).2
        rw [← h, List.nodup_append] at hn
        exact hn.2.2 x hin x (by rw [hg]; simp) rfl
    rw [accInner_not_inner _ _ _ _ _ _ hnot, if_pos hxfl]
  · intro N
    obtain ⟨pre, post, hsplit⟩ := List.append_of_mem hxs
    -- neither first nor last
    obtain ⟨y1, hy1, hky1, hlt1⟩ := N.isBelow.1
    obtain ⟨y2, hy2, hky2, hlt2⟩ := N.isAbove.1
    rw [hsplit] at hsort hnds
    have hp1 := List.pairwise_append.1 hsort
    have hpost := List.pairwise_cons.1 hp1.2.1
    have hpre : ∀ y ∈ pre, key y ≤ key x := fun y hy => hp1.2.2 y hy x (by simp)
    have hy1pre : y1 ∈ pre := by
      have : y1 ∈ pre ++ x :: post := by rw [← hsplit]; exact (hmem y1).2 hy1
      rcases List.mem_append.1 this with h | h
      · exact h
      · rcases List.mem_cons.1 h with rfl | h
        · rw [hky1] at hlt1; exact absurd hlt1 (lt_irrefl _)
        · have := hpost.1 y1 h
          rw [hky1] at this
          exact absurd hlt1 (not_lt.2 this)
    have hy2post : y2 ∈ post := by
      have : y2 ∈ pre ++ x :: post := by rw [← hsplit]; exact (hmem y2).2 hy2
      rcases List.mem_append.1 this with h | h
      · have := hpre y2 h
        rw [hky2] at this
        exact absurd hlt2 (not_lt.2 this)
      · rcases List.mem_cons.1 h with rfl | h
        · rw [hky2] at hlt2; exact absurd hlt2 (lt_irrefl _)
        · exact h
    obtain ⟨pre', a, rfl⟩ : ∃ pre' a, pre = pre' ++ [a] := by
      have : pre ≠ [] := List.ne_nil_of_mem hy1pre
      exact ⟨pre.dropLast, pre.getLast this, (List.dropLast_append_getLast this).symm⟩
    obtain ⟨c, post', rfl⟩ : ∃ c post', post = c :: post' := List.exists_cons_of_ne_nil (List.ne_nil_of_mem hy2post)
    have hmem' : ∀ y, y ∈ front ↔ y ∈ (pre' ++ [a]) ++ x :: c :: post' := fun y => by rw [← hsplit]; exact (hmem y).symm
    have ha : a ∈ front := (hmem' a).2 (by simp)
    have hc : c ∈ front := (hmem' c).2 (by simp)
    have hax : key a < key x := lt_of_le_of_ne (hpre a (by simp)) (fun h => by
      have := hinj a ha x hx h
      subst this
      rw [List.nodup_append] at hnds
      exact hnds.2.2 a (by simp) a (by simp) rfl)
    have hxc : key x < key c := lt_of_le_of_ne (hpost.1 c (by simp)) (fun h => by
      have := hinj x hx c hc h
      subst this
      rw [List.nodup_append] at hnds
      have := (List.nodup_cons.1 hnds.2.1).1
      simp at this)
    have hbelow : N.below = key a := by
      apply le_antisymm
      · rw [← hky1]
        have h1 := (List.pairwise_append.1 hp1.1).2.2
        rcases List.mem_append.1 hy1pre with h | h
        · exact h1 y1 h a (by simp)
        · simp at h; rw [h]
      · exact N.isBelow.2 ⟨a, ha, rfl, hax⟩
    have habove : N.above = key c := by
      apply le_antisymm
      · exact N.isAbove.2 ⟨c, hc, rfl, hxc⟩
      · rw [← hky2]
        have h1 := (List.pairwise_cons.1 hpost.2).1
        rcases List.mem_cons.1 hy2post with rfl | h
        · exact le_rfl
        · exact h1 y2 h
    have hlo : N.lo = key f := by
      apply le_antisymm
      · exact N.isLo.2 ⟨f, (hmem f).1 (by simp), rfl⟩
      · obtain ⟨y, hy, he⟩ := N.isLo.1
        rw [← he]; exact hfmin y ((hmem y).2 hy)
    have hhi : N.hi = key l := by
      apply le_antisymm
      · obtain ⟨y, hy, he⟩ := N.isHi.1
        rw [← he]; exact hlmax y ((hmem y).2 hy)
      · exact N.isHi.2 ⟨l, (hmem l).1 hlm, rfl⟩
    have hxf : x ≠ f := by
      rintro rfl
      exact absurd (hfmin a ((hmem a).2 ha)) (not_le.2 hax)
    have hxl : x ≠ l := by
      rintro rfl
      exact absurd (hlmax c ((hmem c).2 hc)) (not_le.2 hxc)
    have hs : (pre' ++ [a]) ++ x :: c :: post' = pre' ++ a :: x :: c :: post' := by simp
    rw [hsplit, hs]
    rw [hs] at hnds
    rw [accInner_inner _ _ _ _ _ _ _ _ _ hnds, if_neg (by rintro (h | h); exacts [hxf h, hxl h])]
    have hne0 : ¬ key l - key f = 0 := by
      intro h
      have h1 := hfmin a ((hmem a).2 ha)
      have h2 := hlmax c ((hmem c).2 hc)
      have : key f < key l := lt_of_le_of_lt h1 (lt_of_lt_of_le (hax.trans hxc) h2)
      exact absurd (sub_pos.2 this) (by rw [h]; exact lt_irrefl _)
    rw [if_neg hne0, hbelow, habove, hlo, hhi]

theorem accObjective_top (key : Nat → α) (front : List Nat) (dist : Nat → Dist α) (x : Nat) (h : dist x = ⊤) :
    accObjective key front dist x = ⊤ := by
  have hin : ∀ (s : List Nat) (lo hi : α) (dist : Nat → Dist α), dist x = ⊤ → accInner key lo hi dist s x = ⊤ := by
    intro s
    induction s with
    | nil => intro lo hi dist h; exact h
    | cons a s ih =>
      intro lo hi dist h
      match s, ih with
      | [], _ => exact h
      | [b], _ => exact h
      | b :: c :: l, ih =>
        unfold accInner
        simp only
        apply ih
        by_cases hb : x = b
        · subst hb
          simp only [if_true, h]
          exact WithTop.top_add _
        · simp only [hb, if_false]; exact h
  unfold accObjective
  generalize sortKey key front = s
  cases s with
  | nil => exact h
  | cons f s' =>
    have := List.getLast?_eq_some_getLast (l := f :: s') (by simp)
    simp only [List.head?_cons, this]
    apply hin
    split
    · rfl
    · exact h

/-- C19: the crowding distance. On a front of at least three distinct candidates on which no objective takes a value
twice, the extreme candidates of each objective get an infinite distance, and the others the sum over the objectives of
the gap between the neighbouring values divided by the range. -/
theorem crowding_exact (losses : Nat → Fin d → α) (front : List Nat) (dist : Nat → Dist α) (x : Nat) (hx : x ∈ front)
    (hnd : front.Nodup) (hinj : ∀ i, ∀ y ∈ front, ∀ z ∈ front, losses y i = losses z i → y = z) (hlen : 3 ≤ front.length) :
    ((∃ i, (∀ y ∈ front, losses x i ≤ losses y i) ∨ (∀ y ∈ front, losses y i ≤ losses x i)) →
      crowding losses front dist x = ⊤) ∧
    (∀ N : ∀ i, Neighbours (fun c => losses c i) front x,
      crowding losses front dist x = ((∑ i, ((N i).above - (N i).below) / ((N i).hi - (N i).lo) : α) : Dist α)) := by
  have e : crowding losses front dist = (List.finRange d).foldl (fun dist i => accObjective (fun c => losses c i) front dist)
      (fun i => if i ∈ front then 0 else dist i) := by
    unfold crowding
    rw [if_neg (by omega), if_neg (by omega)]
  rw [e]
  constructor
  · rintro ⟨i, hi⟩
    have hmem : i ∈ List.finRange d := List.mem_finRange i
    have key : ∀ (is : List (Fin d)) (dist : Nat → Dist α), (dist x = ⊤ ∨ i ∈ is) →
        is.foldl (fun dist i => accObjective (fun c => losses c i) front dist) dist x = ⊤ := by
      intro is
      induction is with
      | nil => rintro dist (h | h); exact h; simp at h
      | cons k is ih =>
        intro dist h
        rw [List.foldl_cons]
        apply ih
        rcases h with h | h
        · left; exact accObjective_top _ _ _ _ h
        · rcases List.mem_cons.1 h with rfl | h
          · left
            exact (accObjective_spec (fun c => losses c i) front dist x hx hnd (hinj i)).1 hi
          · right; exact h
    exact key _ _ (Or.inr hmem)
  · intro N
    have key : ∀ (is : List (Fin d)) (dist : Nat → Dist α) (v : α), dist x = (v : Dist α) →
        is.foldl (fun dist i => accObjective (fun c => losses c i) front dist) dist x =
          ((v + (is.map (fun i => ((N i).above - (N i).below) / ((N i).hi - (N i).lo))).sum : α) : Dist α) := by
      intro is
      induction is with
      | nil => intro dist v h; simp [h]
      | cons k is ih =>
        intro dist v h
        rw [List.foldl_cons]
        have h1 := (accObjective_spec (fun c => losses c k) front dist x hx hnd (hinj k)).2 (N k)
        rw [h, ← WithTop.coe_add] at h1
        rw [ih _ _ h1, List.map_cons, List.sum_cons, add_assoc]
    rw [key (List.finRange d) _ 0 (by simp [hx]), zero_add, Fin.sum_univ_def]

/-! ### Selection -/

/-- Selected candidates of a result. -/
def picked (out : List (Entry α)) : List Nat := out.map Entry.cand

/-- The candidates `rank(population, n_selected=k)` returns: whole fronts as long as they fit, then the first ones of
the next front by decreasing crowding distance. -/
theorem rankLoop_some (losses : Nat → Fin d → α) (k : Nat) (fs : List (List Nat)) (fi next : Nat) (dist : Nat → Dist α)
    (out : List (Entry α)) (hk : out.length ≤ k) :
    (∃ m dist', m < fs.length ∧ (∃ e, rankLoop losses (some k) fs fi out.length next dist out = out ++ e ∧
        picked e = (fs.take m).flatten ++ (sortDesc (crowding losses (fs.getD m []) dist') (fs.getD m [])).take (k - out.length - (fs.take m).flatten.length) ∧
        out.length + (fs.take m).flatten.length ≤ k ∧ k < out.length + (fs.take (m + 1)).flatten.length ∧
        (∀ x ∈ e, x.cand ∈ fs.getD (x.front - fi) [] ∧ fi ≤ x.front ∧ x.front ≤ fi + m ∧ next ≤ x.rank) ∧
        e.Pairwise (fun x y => x.front ≤ y.front ∧ (x.front < y.front → x.rank < y.rank)))) ∨
    (∃ e, rankLoop losses (some k) fs fi out.length next dist out = out ++ e ∧ picked e = fs.flatten ∧
        out.length + fs.flatten.length ≤ k ∧
        (∀ x ∈ e, x.cand ∈ fs.getD (x.front - fi) [] ∧ fi ≤ x.front ∧ next ≤ x.rank) ∧
        e.Pairwise (fun x y => x.front ≤ y.front ∧ (x.front < y.front → x.rank < y.rank))) := by
  induction fs generalizing fi next dist out with
  | nil =>
    right
    exact ⟨[], by simp [rankLoop], by simp [picked], by simpa using hk, by simp, by simp⟩
  | cons f fs ih =>
    unfold rankLoop
    simp only
    by_cases hlt : k < out.length + f.length
    · left
      rw [if_pos hlt]
      refine ⟨0, dist, by simp, _, rfl, ?_, by simpa using hk, by simpa using hlt, ?_, ?_⟩
      · simp only [picked, List.map_map, List.getD_cons_zero, List.take_zero, List.flatten_nil, List.nil_append,
          List.length_nil, Nat.sub_zero, Function.comp_def]
        exact List.zipIdx_map_fst 0 _
      · intro x hx
        obtain ⟨e, he, rfl⟩ := List.mem_map.1 hx
        simp only [Nat.sub_self, List.getD_cons_zero, Nat.le_refl, Nat.add_zero, true_and, and_true]
        refine ⟨?_, by omega⟩
        have h1 : e.1 ∈ (sortDesc (crowding losses f dist) f).take (k - out.length) := by
          have := List.mem_map_of_mem (f := Prod.fst) he
          rwa [List.zipIdx_map_fst] at this
        exact (perm_sortDesc _ f).mem_iff.1 (List.mem_of_mem_take h1)
      · rw [List.pairwise_map]
        exact List.pairwise_of_forall (fun _ _ => ⟨le_rfl, fun h => absurd h (lt_irrefl _)⟩)
    · rw [if_neg hlt]
      have hlen : (out ++ f.map (fun c => (⟨c, next, fi, ⊤⟩ : Entry α))).length = out.length + f.length := by simp
      have h := ih (fi + 1) (next + 1) dist (out ++ f.map (fun c => ⟨c, next, fi, ⊤⟩)) (by rw [hlen]; omega)
      rw [hlen] at h
      have hnew : ∀ x ∈ f.map (fun c => (⟨c, next, fi, ⊤⟩ : Entry α)), x.front = fi ∧ x.rank = next ∧ x.cand ∈ f := by
        intro x hx
        obtain ⟨c, hc, rfl⟩ := List.mem_map.1 hx
        exact ⟨rfl, rfl, hc⟩
      have hp : picked (f.map (fun c => (⟨c, next, fi, ⊤⟩ : Entry α))) = f := by
        simp [picked, Function.comp_def]
      have hgd : ∀ (x : Entry α), fi + 1 ≤ x.front → (f :: fs).getD (x.front - fi) [] = fs.getD (x.front - (fi + 1)) [] := by
        intro x hx
        have : x.front - fi = (x.front - (fi + 1)) + 1 := by omega
        rw [this, List.getD_cons_succ]
      have hpw : ∀ e : List (Entry α), (∀ x ∈ e, fi + 1 ≤ x.front ∧ next + 1 ≤ x.rank) →
          e.Pairwise (fun x y => x.front ≤ y.front ∧ (x.front < y.front → x.rank < y.rank)) →
          (f.map (fun c => (⟨c, next, fi, ⊤⟩ : Entry α)) ++ e).Pairwise (fun x y => x.front ≤ y.front ∧ (x.front < y.front → x.rank < y.rank)) := by
        intro e he hpe
        rw [List.pairwise_append]
        refine ⟨?_, hpe, ?_⟩
        · rw [List.pairwise_map]
          exact List.pairwise_of_forall (fun _ _ => ⟨le_rfl, fun h => absurd h (lt_irrefl _)⟩)
        · intro x hx y hy
          obtain ⟨h1, h2, _⟩ := hnew x hx
          obtain ⟨h3, h4⟩ := he y hy
          omega
      rcases h with ⟨m, dist', hm, e, he, h1, h2, h3, h4, h5⟩ | ⟨e, he, h1, h2, h4, h5⟩
      · left
        refine ⟨m + 1, dist', by simpa using hm, f.map (fun c => ⟨c, next, fi, ⊤⟩) ++ e, ?_, ?_, ?_, ?_, ?_, ?_⟩
        · rw [he, List.append_assoc]
        · have : picked (f.map (fun c => (⟨c, next, fi, ⊤⟩ : Entry α)) ++ e) = f ++ picked e := by
            rw [← hp]; simp [picked]
          rw [this, h1, List.take_succ_cons, List.flatten_cons, List.getD_cons_succ, List.append_assoc, List.length_append]
          congr 3
          omega
        · rw [List.take_succ_cons, List.flatten_cons, List.length_append]; omega
        · rw [List.take_succ_cons, List.flatten_cons, List.length_append]; omega
        · intro x hx
          rcases List.mem_append.1 hx with hx | hx
          · obtain ⟨g1, g2, g3⟩ := hnew x hx
            rw [g1, Nat.sub_self, List.getD_cons_zero]
            exact ⟨g3, le_rfl, by omega, by omega⟩
          · obtain ⟨g1, g2, g3, g4⟩ := h4 x hx
            exact ⟨by rw [hgd x g2]; exact g1, by omega, by omega, by omega⟩
        · exact hpw e (fun x hx => ⟨(h4 x hx).2.1, (h4 x hx).2.2.2⟩) h5
      · right
        refine ⟨f.map (fun c => ⟨c, next, fi, ⊤⟩) ++ e, ?_, ?_, ?_, ?_, ?_⟩
        · rw [he, List.append_assoc]
        · have : picked (f.map (fun c => (⟨c, next, fi, ⊤⟩ : Entry α)) ++ e) = f ++ picked e := by
            rw [← hp]; simp [picked]
          rw [this, h1, List.flatten_cons]
        · rw [List.flatten_cons, List.length_append]; omega
        · intro x hx
          rcases List.mem_append.1 hx with hx | hx
          · obtain ⟨g1, g2, g3⟩ := hnew x hx
            rw [g1, Nat.sub_self, List.getD_cons_zero]
            exact ⟨g3, le_rfl, by omega⟩
          · obtain ⟨g1, g2, g3⟩ := h4 x hx
            exact ⟨by rw [hgd x g2]; exact g1, by omega, by omega⟩
        · exact hpw e (fun x hx => ⟨(h4 x hx).2.1, (h4 x hx).2.2⟩) h5


/-- On the members of the front the crowding distance does not depend on earlier distances. -/
theorem crowding_indep (losses : Nat → Fin d → α) (front : List Nat) (dist dist' : Nat → Dist α) (x : Nat) (hx : x ∈ front) :
    crowding losses front dist x = crowding losses front dist' x := by
  have hin : ∀ (key : Nat → α) (s : List Nat) (lo hi : α) (d1 d2 : Nat → Dist α), d1 x = d2 x →
      accInner key lo hi d1 s x = accInner key lo hi d2 s x := by
    intro key s
    induction s with
    | nil => intro lo hi d1 d2 h; exact h
    | cons a s ih =>
      intro lo hi d1 d2 h
      match s, ih with
      | [], _ => exact h
      | [b], _ => exact h
      | b :: c :: l, ih =>
        unfold accInner
        simp only
        apply ih
        by_cases hb : x = b
        · subst hb; simp only [if_true, h]
        · simp only [hb, if_false]; exact h
  have hobj : ∀ (key : Nat → α) (d1 d2 : Nat → Dist α), d1 x = d2 x → accObjective key front d1 x = accObjective key front d2 x := by
    intro key d1 d2 h
    unfold accObjective
    generalize sortKey key front = s
    cases s with
    | nil => exact h
    | cons f s' =>
      have := List.getLast?_eq_some_getLast (l := f :: s') (by simp)
      simp only [List.head?_cons, this]
      apply hin
      simp only [h]
  unfold crowding
  split
  · rename_i h
    rw [List.length_eq_zero_iff] at h
    subst h; simp at hx
  · split
    · simp [hx]
    · have : ∀ (is : List (Fin d)) (d1 d2 : Nat → Dist α), d1 x = d2 x →
          is.foldl (fun dist i => accObjective (fun c => losses c i) front dist) d1 x =
          is.foldl (fun dist i => accObjective (fun c => losses c i) front dist) d2 x := by
        intro is
        induction is with
        | nil => intro d1 d2 h; exact h
        | cons i is ih => intro d1 d2 h; exact ih _ _ (hobj _ _ _ h)
      apply this
      simp [hx]

/-- Position of a front in a list of disjoint fronts. -/
theorem front_unique (fs : List (List Nat)) (hnd : fs.flatten.Nodup) (i j : Nat) (hi : i < fs.length) (hj : j < fs.length)
    (c : Nat) (h1 : c ∈ fs[i]) (h2 : c ∈ fs[j]) : i = j := by
  induction fs generalizing i j with
  | nil => simp at hi
  | cons f fs ih =>
    rw [List.flatten_cons, List.nodup_append] at hnd
    cases i with
    | zero =>
      cases j with
      | zero => rfl
      | succ j =>
        exact absurd rfl (hnd.2.2 c h1 c (List.mem_flatten.2 ⟨_, List.getElem_mem (by simpa using hj), h2⟩))
    | succ i =>
      cases j with
      | zero => exact absurd rfl (hnd.2.2 c h2 c (List.mem_flatten.2 ⟨_, List.getElem_mem (by simpa using hi), h1⟩))
      | succ j => rw [ih hnd.2.1 i j (by simpa using hi) (by simpa using hj) h1 h2]

theorem mem_take_flatten (fs : List (List Nat)) (m i : Nat) (hi : i < fs.length) (him : i < m) (c : Nat) (h : c ∈ fs[i]) :
    c ∈ (fs.take m).flatten := by
  rw [List.mem_flatten]
  refine ⟨fs[i], ?_, h⟩
  rw [List.mem_take_iff_getElem]
  exact ⟨i, by omega, rfl⟩

theorem take_flatten_mem (fs : List (List Nat)) (m : Nat) (c : Nat) (h : c ∈ (fs.take m).flatten) :
    ∃ i, ∃ hi : i < fs.length, i < m ∧ c ∈ fs[i] := by
  obtain ⟨f, hf, hc⟩ := List.mem_flatten.1 h
  obtain ⟨i, hi, rfl⟩ := List.mem_take_iff_getElem.1 hf
  exact ⟨i, by omega, by omega, hc⟩

/-- C19: `rank(population, n_selected=k)` returns `min k (number of ranked candidates)` distinct candidates; a candidate
left out is never in an earlier front than a selected one, and within the same front never has a larger crowding
distance; every entry carries the number of its front, and ranks grow with the fronts. -/
theorem rank_selects (losses : Nat → Fin d → α) (n k : Nat) :
    let fs := computeRanking losses n none
    let out := rank losses n (some k)
    out.length = min k fs.flatten.length ∧ (picked out).Nodup ∧
    (∀ e ∈ out, ∃ h : e.front < fs.length, e.cand ∈ fs[e.front]) ∧
    (∀ i (hi : i < fs.length) j (hj : j < fs.length), ∀ x ∈ fs[i], ∀ y ∈ fs[j], x ∈ picked out → y ∉ picked out →
      i ≤ j ∧ (i = j → crowding losses fs[j] (fun _ => 0) y ≤ crowding losses fs[j] (fun _ => 0) x)) ∧
    out.Pairwise (fun x y => x.front ≤ y.front ∧ (x.front < y.front → x.rank < y.rank)) := by
  intro fs out
  obtain ⟨_, _, _, hnd, _⟩ := fronts_majority losses n
  have hmem : ∀ (x : Entry α), x.cand ∈ fs.getD x.front [] → ∃ h : x.front < fs.length, x.cand ∈ fs[x.front] := by
    intro x hx
    by_cases h : x.front < fs.length
    · refine ⟨h, ?_⟩
      simpa [List.getD, h] using hx
    · simp [List.getD, h] at hx
  rcases rankLoop_some losses k fs 0 0 (fun _ => 0) [] (by simp) with ⟨m, dist', hm, e, he, h1, h2, h3, h4, h5⟩ | ⟨e, he, h1, h2, h4, h5⟩
  · have hout : out = e := by rw [List.nil_append] at he; exact he
    have hgd : fs.getD m [] = fs[m] := by simp [List.getD, hm]
    rw [hgd] at h1
    simp only [List.length_nil, Nat.zero_add, Nat.sub_zero] at h1 h2 h3
    have hsplit : fs.flatten = (fs.take m).flatten ++ fs[m] ++ (fs.drop (m + 1)).flatten := by
      conv_lhs => rw [← List.take_append_drop m fs, List.flatten_append, List.drop_eq_getElem_cons hm, List.flatten_cons]
      rw [List.append_assoc]
    have htake : (fs.take (m + 1)).flatten = (fs.take m).flatten ++ fs[m] := by
      rw [List.take_succ_eq_append_getElem hm, List.flatten_append]; simp
    rw [htake, List.length_append] at h3
    have hnd' := hnd
    change fs.flatten.Nodup at hnd'
    rw [hsplit] at hnd'
    have hnd2 := (List.nodup_append.1 hnd').1
    have hsl : (sortDesc (crowding losses fs[m] dist') fs[m]).length = fs[m].length := (perm_sortDesc _ _).length_eq
    have hlen : e.length = k := by
      have := congrArg List.length h1
      simp only [picked, List.length_map, List.length_append, List.length_take, hsl] at this
      omega
    rw [hout]
    refine ⟨?_, ?_, ?_, ?_, h5⟩
    · rw [hlen, hsplit, List.length_append, List.length_append]; omega
    · rw [h1]
      rw [List.nodup_append] at hnd2 ⊢
      refine ⟨hnd2.1, ?_, ?_⟩
      · exact ((perm_sortDesc _ _).nodup_iff.2 hnd2.2.1).sublist (List.take_sublist _ _)
      · intro a ha b hb
        exact hnd2.2.2 a ha b ((perm_sortDesc _ _).mem_iff.1 (List.mem_of_mem_take hb))
    · intro x hx
      have := (h4 x hx).1
      rw [Nat.sub_zero] at this
      exact hmem x this
    · intro i hi j hj x hx y hy hxo hyo
      rw [h1] at hxo hyo
      have hym : m ≤ j := by
        by_contra hlt
        exact hyo (List.mem_append_left _ (mem_take_flatten fs m j hj (by omega) y hy))
      rcases List.mem_append.1 hxo with hx1 | hx1
      · obtain ⟨i', hi', him, hx2⟩ := take_flatten_mem fs m x hx1
        have := front_unique fs hnd i i' hi hi' x hx hx2
        exact ⟨by omega, fun h => by omega⟩
      · have hxm : x ∈ fs[m] := (perm_sortDesc _ _).mem_iff.1 (List.mem_of_mem_take hx1)
        have him := front_unique fs hnd i m hi hm x hx hxm
        subst him
        refine ⟨hym, ?_⟩
        intro hij
        subst hij
        rw [crowding_indep losses fs[i] (fun _ => 0) dist' y hy, crowding_indep losses fs[i] (fun _ => 0) dist' x hx]
        have hs := sorted_sortDesc (crowding losses fs[i] dist') fs[i]
        have hym' : y ∈ sortDesc (crowding losses fs[i] dist') fs[i] := (perm_sortDesc _ _).mem_iff.2 hy
        rw [← List.take_append_drop (k - (fs.take i).flatten.length) (sortDesc (crowding losses fs[i] dist') fs[i])] at hs hym'
        rcases List.mem_append.1 hym' with h | h
        · exact absurd (List.mem_append_right _ h) hyo
        · exact (List.pairwise_append.1 hs).2.2 x hx1 y h
  · have hout : out = e := by rw [List.nil_append] at he; exact he
    rw [hout]
    simp only [List.length_nil, Nat.zero_add] at h2
    have hlen : e.length = fs.flatten.length := by
      have := congrArg List.length h1
      simpa [picked] using this
    refine ⟨by omega, by rw [h1]; exact hnd, ?_, ?_, h5⟩
    · intro x hx
      have := (h4 x hx).1
      rw [Nat.sub_zero] at this
      exact hmem x this
    · intro i hi j hj x hx y hy hxo hyo
      rw [h1] at hyo
      exact absurd (List.mem_flatten.2 ⟨_, List.getElem_mem hj, hy⟩) hyo

/-- With at most two objectives exactly `min k n` candidates are selected (`_partial` for C19: with three objectives
candidates of a cycle are never ranked, `rank_cycle`). -/
theorem rank_count_partial (hd : d ≤ 2) (losses : Nat → Fin d → α) (n k : Nat) : (rank losses n (some k)).length = min k n := by
  have h := (rank_selects losses n k).1
  have h2 := (fronts_exact_partial hd losses n).2.2.length_eq
  rw [List.length_range] at h2
  rw [h, h2]

/-- Ranking without a number: entries of the fronts one after the other, by decreasing crowding distance, numbered from 0. -/
theorem rankLoop_none (losses : Nat → Fin d → α) (fs : List (List Nat)) (fi count next : Nat) (dist : Nat → Dist α)
    (out : List (Entry α)) :
    ∃ e, rankLoop losses none fs fi count next dist out = out ++ e ∧ (picked e).Perm fs.flatten ∧
      e.map Entry.rank = List.range' next fs.flatten.length ∧
      (∀ x ∈ e, fi ≤ x.front ∧ ∃ h : x.front - fi < fs.length, x.cand ∈ fs[x.front - fi] ∧
        x.dist = crowding losses fs[x.front - fi] (fun _ => 0) x.cand) ∧
      e.Pairwise (fun x y => x.front < y.front ∨ (x.front = y.front ∧ y.dist ≤ x.dist)) := by
  induction fs generalizing fi count next dist out with
  | nil => exact ⟨[], by simp [rankLoop], by simp [picked], by simp, by simp, by simp⟩
  | cons f fs ih =>
    unfold rankLoop
    simp only
    set new : List (Entry α) := (sortDesc (crowding losses f dist) f).zipIdx.map
      (fun e => ⟨e.1, next + e.2, fi, crowding losses f dist e.1⟩) with hnew
    obtain ⟨e, he, h1, h2, h3, h4⟩ := ih (fi + 1) (count + f.length) (next + f.length) (crowding losses f dist) (out ++ new)
    have hsl : (sortDesc (crowding losses f dist) f).length = f.length := (perm_sortDesc _ _).length_eq
    have hp : picked new = sortDesc (crowding losses f dist) f := by
      rw [hnew]
      simp only [picked, List.map_map, Function.comp_def]
      exact List.zipIdx_map_fst 0 _
    have hr : new.map Entry.rank = List.range' next f.length := by
      rw [hnew]
      simp only [List.map_map, Function.comp_def]
      have : ((sortDesc (crowding losses f dist) f).zipIdx.map (fun x => next + x.2)) =
          (((sortDesc (crowding losses f dist) f).zipIdx.map Prod.snd).map (fun i => next + i)) := by rw [List.map_map]; rfl
      rw [this, List.zipIdx_map_snd, hsl, List.map_add_range']
      simp
    have hm : ∀ x ∈ new, x.front = fi ∧ x.cand ∈ f ∧ x.dist = crowding losses f dist x.cand := by
      intro x hx
      have h0 : x.cand ∈ picked new := List.mem_map_of_mem hx
      rw [hp] at h0
      rw [hnew] at hx
      obtain ⟨y, hy, rfl⟩ := List.mem_map.1 hx
      exact ⟨rfl, (perm_sortDesc _ _).mem_iff.1 h0, rfl⟩
    refine ⟨new ++ e, by rw [he, List.append_assoc], ?_, ?_, ?_, ?_⟩
    · have : picked (new ++ e) = picked new ++ picked e := by simp [picked]
      rw [this, hp, List.flatten_cons]
      exact (perm_sortDesc _ _).append h1
    · rw [List.map_append, hr, h2, List.flatten_cons, List.length_append, List.range'_append_1]
    · intro x hx
      rcases List.mem_append.1 hx with hx | hx
      · obtain ⟨g1, g2, g3⟩ := hm x hx
        refine ⟨g1.ge, ?_⟩
        have h0 : x.front - fi = 0 := by omega
        refine ⟨by rw [h0]; simp, ?_⟩
        simp only [h0, List.getElem_cons_zero]
        exact ⟨g2, by rw [g3]; exact crowding_indep _ _ _ _ _ g2⟩
      · obtain ⟨g1, g2, g3, g4⟩ := h3 x hx
        refine ⟨by omega, ?_⟩
        have h0 : x.front - fi = (x.front - (fi + 1)) + 1 := by omega
        refine ⟨by rw [h0]; simpa using g2, ?_⟩
        simp only [h0, List.getElem_cons_succ]
        exact ⟨g3, g4⟩
    · rw [List.pairwise_append]
      refine ⟨?_, h4, ?_⟩
      · have hs := sorted_sortDesc (crowding losses f dist) f
        rw [← hp] at hs
        unfold picked at hs
        rw [List.pairwise_map] at hs
        refine List.Pairwise.imp_of_mem ?_ hs
        intro a b ha hb hab
        right
        obtain ⟨a1, _, a3⟩ := hm a ha
        obtain ⟨b1, _, b3⟩ := hm b hb
        exact ⟨by omega, by rw [a3, b3]; exact hab⟩
      · intro x hx y hy
        left
        have := (hm x hx).1
        have := (h3 y hy).1
        omega

/-- C19: `rank(population)` ranks every candidate of every front once; ranks are `0, 1, 2, …`; the order is by front,
then by decreasing crowding distance. -/
theorem rank_all (losses : Nat → Fin d → α) (n : Nat) :
    let fs := computeRanking losses n none
    let out := rank losses n none
    (picked out).Perm fs.flatten ∧ out.map Entry.rank = List.range out.length ∧
    (∀ e ∈ out, ∃ h : e.front < fs.length, e.cand ∈ fs[e.front] ∧ e.dist = crowding losses fs[e.front] (fun _ => 0) e.cand) ∧
    out.Pairwise (fun x y => x.front < y.front ∨ (x.front = y.front ∧ y.dist ≤ x.dist)) := by
  intro fs out
  obtain ⟨e, he, h1, h2, h3, h4⟩ := rankLoop_none losses fs 0 0 0 (fun _ => 0) []
  have hout : out = e := by rw [List.nil_append] at he; exact he
  rw [hout]
  refine ⟨h1, ?_, ?_, h4⟩
  · have : e.length = fs.flatten.length := by
      have := h1.length_eq
      simpa [picked] using this
    rw [h2, this, List.range_eq_range']
  · intro x hx
    obtain ⟨_, g2, g3, g4⟩ := h3 x hx
    exact ⟨by simpa using g2, by simpa using g3, by simpa using g4⟩

/-- Losses of `cycleLosses` as rationals. -/
def cycleQ (i : Nat) (j : Fin 3) : ℚ := cycleLosses i j

/-- Selecting from a population whose members form a cycle returns nobody. -/
theorem rank_cycle : rank cycleQ 3 (some 2) = [] := by
  have h : computeRanking cycleQ 3 none = [] := by decide +kernel
  unfold rank
  rw [h]; rfl

/-- Concrete: five candidates on two fronts, four selected. -/
def sampleLosses (i : Nat) : Fin 2 → ℚ :=
  match i with
  | 0 => ![0, 4]
  | 1 => ![1, 2]
  | 2 => ![2, 1]
  | 3 => ![4, 0]
  | _ => ![5, 5]

/-- The two inner points have crowding distances 1/2 + 3/4 and 3/4 + 1/2; ties keep the population order. -/
example : picked (rank sampleLosses 5 (some 3)) = [0, 3, 1] := by decide +kernel
example : crowding sampleLosses [0, 1, 2, 3] (fun _ => 0) 1 = ((5 / 4 : ℚ) : Dist ℚ) := by decide +kernel
example : crowding sampleLosses [0, 1, 2, 3] (fun _ => 0) 0 = ⊤ := by decide +kernel

end Nsga
end NG
