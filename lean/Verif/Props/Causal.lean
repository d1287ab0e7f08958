import Verif.Model.Causal
import Mathlib.Tactic.Ring
import Mathlib.Tactic.Linarith
import Mathlib.Data.List.Nodup
import Mathlib.Data.List.Range
import Mathlib.Algebra.BigOperators.Intervals

/-! # C123: the search for causal graphs -/

namespace NG.Causal

section
variable {α : Type} [DecidableEq α]

theorem mem_pairs (n i j : Nat) : (i, j) ∈ pairs n ↔ 1 ≤ i ∧ i < j ∧ j < n := by
  simp only [pairs, List.mem_flatMap, List.mem_map, List.mem_range'_1, Prod.mk.injEq]
  constructor
  · rintro ⟨a, ha, b, hb, rfl, rfl⟩
    omega
  · intro h
    exact ⟨i, by omega, j, by omega, rfl, rfl⟩

theorem nodup_pairs (n : Nat) : (pairs n).Nodup := by
  rw [pairs, List.nodup_flatMap]
  refine ⟨fun i _ => ?_, ?_⟩
  · exact (List.nodup_range' (step := 1)).map fun a b h => by simpa using h
  · refine List.Pairwise.imp ?_ (List.nodup_range' (s := 1) (n := n - 1) (step := 1))
    intro a b hab
    simp only [Function.onFun, List.disjoint_left, List.mem_map]
    rintro x ⟨c, -, rfl⟩ ⟨d, -, h⟩
    simp only [Prod.mk.injEq] at h
    exact hab h.1.symm

theorem length_pairs (n : Nat) : (pairs n).length = (n - 1) * (n - 2) / 2 := by
  have h : ∀ m : Nat, (pairs (m + 1)).length * 2 = m * (m - 1) := by
    intro m
    have e : (pairs (m + 1)).length = ((List.range' 1 m).map fun i => m - i).sum := by
      simp only [pairs, List.length_flatMap, List.length_map, List.length_range', Nat.add_sub_cancel]
      congr 2
      funext i
      omega
    have e2 : ∀ a k : Nat, ((List.range' a k).map fun i => a + k - 1 - i).sum * 2 = k * (k - 1) := by
      intro a k
      induction k generalizing a with
      | zero => simp
      | succ k ih =>
        rw [List.range'_succ, List.map_cons, List.sum_cons, Nat.add_mul]
        have hcongr : ((List.range' (a + 1) k).map fun i => a + (k + 1) - 1 - i) = ((List.range' (a + 1) k).map fun i => (a + 1) + k - 1 - i) := by
          congr 1; funext i; omega
        rw [hcongr, ih (a + 1)]
        cases k with
        | zero => simp
        | succ k =>
          simp only [Nat.add_sub_cancel]
          have : a + (k + 1 + 1) - 1 - a = k + 1 := by omega
          rw [this]; ring
    rw [e]
    have := e2 1 m
    have hc : ((List.range' 1 m).map fun i => 1 + m - 1 - i) = ((List.range' 1 m).map fun i => m - i) := by
      congr 1; funext i; omega
    rw [hc] at this
    exact this
  cases n with
  | zero => decide
  | succ m =>
    have := h m
    have e : m + 1 - 1 = m := by omega
    have e' : m + 1 - 2 = m - 1 := by omega
    rw [e, e', ← this]
    omega

theorem addNode_edges (g : Graph α) (n : α) : (g.addNode n).edges = g.edges := by unfold Graph.addNode; split <;> rfl

theorem mem_addNode (g : Graph α) (n m : α) : m ∈ (g.addNode n).nodes ↔ m ∈ g.nodes ∨ m = n := by
  unfold Graph.addNode
  split
  next h => exact ⟨Or.inl, fun hm => hm.elim id fun e => e ▸ h⟩
  next h => simp

theorem mem_addEdge (g : Graph α) (u v : α) (e : α × α) : e ∈ (g.addEdge u v).edges ↔ e ∈ g.edges ∨ e = (u, v) := by
  simp only [Graph.addEdge]
  split
  next h =>
    simp only [addNode_edges] at h ⊢
    exact ⟨Or.inl, fun hm => hm.elim id fun he => he ▸ h⟩
  next h => simp [addNode_edges]

theorem nodes_addEdge (g : Graph α) (u v m : α) : m ∈ (g.addEdge u v).nodes ↔ m ∈ g.nodes ∨ m = u ∨ m = v := by
  simp only [Graph.addEdge]
  split <;> simp [mem_addNode, or_assoc]

theorem addMissing_spec (names : List α) (g : Graph α) : (addMissing names g).edges = g.edges ∧ ∀ m, m ∈ (addMissing names g).nodes ↔ m ∈ g.nodes ∨ m ∈ names := by
  have key : ∀ (l : List α) (g : Graph α), (l.foldl Graph.addNode g).edges = g.edges ∧ ∀ m, m ∈ (l.foldl Graph.addNode g).nodes ↔ m ∈ g.nodes ∨ m ∈ l := by
    intro l
    induction l with
    | nil => intro g; simp
    | cons a l ih =>
      intro g
      obtain ⟨h1, h2⟩ := ih (g.addNode a)
      refine ⟨by rw [List.foldl_cons, h1, addNode_edges], fun m => ?_⟩
      rw [List.foldl_cons, h2, mem_addNode, List.mem_cons, or_assoc]
  obtain ⟨h1, h2⟩ := key (names.filter fun n => decide (n ∉ g.nodes)) g
  refine ⟨h1, fun m => ?_⟩
  show m ∈ (List.foldl Graph.addNode g _).nodes ↔ _
  rw [h2]
  simp only [List.mem_filter, decide_eq_true_eq]
  tauto

/-- The names of two nodes are joined by the link of a pair. -/
def Joined (names : List α) (l : Int) (p : Nat × Nat) (e : α × α) : Prop :=
  (l = 1 ∧ names[p.1]? = some e.1 ∧ names[p.2]? = some e.2) ∨ (l = -1 ∧ names[p.2]? = some e.1 ∧ names[p.1]? = some e.2)

theorem addLinks_spec (names : List α) : ∀ (ps : List (Nat × Nat)) (ls : List Int) (g : Graph α), ps.length ≤ ls.length → (∀ p ∈ ps, p.1 < names.length ∧ p.2 < names.length) →
    ∃ g', addLinks names ps ls g = some g' ∧ (∀ m ∈ g'.nodes, m ∈ g.nodes ∨ m ∈ names) ∧
      ∀ e, e ∈ g'.edges ↔ e ∈ g.edges ∨ ∃ q ∈ ps.zip ls, Joined names q.2 q.1 e
  | [], ls, g, _, _ => ⟨g, by simp [addLinks], fun m h => Or.inl h, fun e => by simp⟩
  | p :: ps, [], g, h, _ => by simp at h
  | (i, j) :: ps, l :: ls, g, h, hb => by
    rw [List.forall_mem_cons] at hb
    have hi : names[i]? = some names[i] := List.getElem?_eq_getElem hb.1.1
    have hj : names[j]? = some names[j] := List.getElem?_eq_getElem hb.1.2
    have hlen : ps.length ≤ ls.length := by simpa using h
    have hmi : names[i] ∈ names := List.getElem_mem _
    have hmj : names[j] ∈ names := List.getElem_mem _
    by_cases h1 : l = -1
    · obtain ⟨g', e1, e2, e3⟩ := addLinks_spec names ps ls (g.addEdge names[j] names[i]) hlen hb.2
      refine ⟨g', by simp [addLinks, h1, hi, hj, e1], fun m hm => ?_, fun e => ?_⟩
      · rcases e2 m hm with h | h
        · rw [nodes_addEdge] at h
          rcases h with h | h | h
          · exact Or.inl h
          · exact Or.inr (h ▸ hmj)
          · exact Or.inr (h ▸ hmi)
        · exact Or.inr h
      · rw [e3, mem_addEdge, List.zip_cons_cons]
        simp only [List.mem_cons, exists_eq_or_imp]
        have : Joined names l (i, j) e ↔ e = (names[j], names[i]) := by
          simp only [Joined, h1, hi, hj]
          constructor
          · rintro (⟨h, -⟩ | ⟨-, ha, hb⟩)
            · omega
            · simp only [Option.some.injEq] at ha hb
              rw [ha, hb]
          · rintro rfl
            exact Or.inr ⟨trivial, rfl, rfl⟩
        rw [this]
        tauto
    · by_cases h2 : l = 1
      · obtain ⟨g', e1, e2, e3⟩ := addLinks_spec names ps ls (g.addEdge names[i] names[j]) hlen hb.2
        refine ⟨g', by simp [addLinks, h2, hi, hj, e1], fun m hm => ?_, fun e => ?_⟩
        · rcases e2 m hm with h | h
          · rw [nodes_addEdge] at h
            rcases h with h | h | h
            · exact Or.inl h
            · exact Or.inr (h ▸ hmi)
            · exact Or.inr (h ▸ hmj)
          · exact Or.inr h
        · rw [e3, mem_addEdge, List.zip_cons_cons]
          simp only [List.mem_cons, exists_eq_or_imp]
          have : Joined names l (i, j) e ↔ e = (names[i], names[j]) := by
            simp only [Joined, h2, hi, hj]
            constructor
            · rintro (⟨-, ha, hb⟩ | ⟨h, -⟩)
              · simp only [Option.some.injEq] at ha hb
                rw [ha, hb]
              · omega
            · rintro rfl
              exact Or.inl ⟨trivial, rfl, rfl⟩
          rw [this]
          tauto
      · obtain ⟨g', e1, e2, e3⟩ := addLinks_spec names ps ls g hlen hb.2
        refine ⟨g', by simp [addLinks, h1, h2, e1], e2, fun e => ?_⟩
        rw [e3, List.zip_cons_cons]
        simp only [List.mem_cons, exists_eq_or_imp]
        have : ¬ Joined names l (i, j) e := by
          rintro (⟨h, -⟩ | ⟨h, -⟩)
          · exact h2 h
          · exact h1 h
        tauto

/-- The place of a pair among the choices. -/
def place (n : Nat) (p : Nat × Nat) : Nat := (pairs n).idxOf p

/-- C123: the graph of every choice has all nodes; there is an edge from one node to another exactly if the choice of their pair says so. -/
theorem graph_spec (names : List α) (hn : names.Nodup) (links : List Int) (hl : links.length = choices names.length) :
    ∃ g, toGraph names names.length links = some g ∧ (∀ m, m ∈ g.nodes ↔ m ∈ names) ∧
      ∀ (i j : Nat) (hi : i < names.length) (hj : j < names.length), (names[i], names[j]) ∈ g.edges ↔
        (1 ≤ i ∧ i < j ∧ links[place names.length (i, j)]? = some 1) ∨ (1 ≤ j ∧ j < i ∧ links[place names.length (j, i)]? = some (-1)) := by
  set n := names.length with hnl
  have hle : (pairs n).length ≤ links.length := by
    rw [length_pairs, hl, choices]
    refine Nat.div_le_div_right ?_
    calc (n - 1) * (n - 2) ≤ (n - 1) * n := Nat.mul_le_mul_left _ (by omega)
      _ = n * (n - 1) := Nat.mul_comm _ _
  obtain ⟨g, e1, e2, e3⟩ := addLinks_spec names (pairs n) links ⟨[], []⟩ hle (fun p hp => by
    have := (mem_pairs n p.1 p.2).1 hp
    omega)
  refine ⟨addMissing names g, by rw [toGraph, e1]; rfl, fun m => ?_, fun i j hi hj => ?_⟩
  · rw [(addMissing_spec names g).2]
    constructor
    · rintro (h | h)
      · rcases e2 m h with h | h
        · simp at h
        · exact h
      · exact h
    · exact Or.inr
  · rw [(addMissing_spec names g).1, e3]
    have hinj : ∀ (a b : Nat) (hb : b < names.length), names[a]? = some names[b] → a = b := by
      intro a b hb h
      obtain ⟨ha, hab⟩ := List.getElem?_eq_some_iff.1 h
      exact (hn.getElem_inj_iff).1 hab
    have hzip : ∀ (p : Nat × Nat) (l : Int), (p, l) ∈ (pairs n).zip links ↔ p ∈ pairs n ∧ links[place n p]? = some l := by
      intro p l
      constructor
      · intro h
        obtain ⟨k, hk⟩ := List.getElem?_of_mem h
        rw [List.getElem?_zip_eq_some] at hk
        have hp := List.mem_of_getElem? hk.1
        obtain ⟨hk1, hk2⟩ := List.getElem?_eq_some_iff.1 hk.1
        have : place n p = k := by
          have hk2' : (pairs n)[k] = p := hk2
          rw [place, ← hk2']
          exact (nodup_pairs n).idxOf_getElem k hk1
        exact ⟨hp, by rw [this]; exact hk.2⟩
      · rintro ⟨hp, h⟩
        refine List.mem_of_getElem? (i := place n p) ?_
        rw [List.getElem?_zip_eq_some]
        exact ⟨List.getElem?_idxOf hp, h⟩
    constructor
    · rintro (h | ⟨⟨⟨a, b⟩, l⟩, hq, h⟩)
      · simp at h
      · obtain ⟨hp, hlk⟩ := (hzip _ _).1 hq
        have hm := (mem_pairs n a b).1 hp
        rcases h with ⟨h1, h2, h3⟩ | ⟨h1, h2, h3⟩
        · simp only at h1 h2 h3
          have ha := hinj a i hi h2
          have hb := hinj b j hj h3
          subst ha hb h1
          exact Or.inl ⟨hm.1, hm.2.1, hlk⟩
        · simp only at h1 h2 h3
          have hb := hinj b i hi h2
          have ha := hinj a j hj h3
          subst ha hb h1
          exact Or.inr ⟨hm.1, hm.2.1, hlk⟩
    · rintro (⟨h1, h2, h3⟩ | ⟨h1, h2, h3⟩)
      · exact Or.inr ⟨((i, j), 1), (hzip _ _).2 ⟨(mem_pairs n i j).2 ⟨h1, h2, hj⟩, h3⟩, Or.inl ⟨rfl, List.getElem?_eq_getElem hi, List.getElem?_eq_getElem hj⟩⟩
      · exact Or.inr ⟨((j, i), -1), (hzip _ _).2 ⟨(mem_pairs n j i).2 ⟨h1, h2, hi⟩, h3⟩, Or.inr ⟨rfl, List.getElem?_eq_getElem hi, List.getElem?_eq_getElem hj⟩⟩

/-- C123: no node is joined to itself, and no two nodes in both directions. -/
theorem graph_antisymm (names : List α) (hn : names.Nodup) (links : List Int) (hl : links.length = choices names.length) (g : Graph α)
    (hg : toGraph names names.length links = some g) (i j : Nat) (hi : i < names.length) (hj : j < names.length) (h : (names[i], names[j]) ∈ g.edges) : (names[j], names[i]) ∉ g.edges := by
  obtain ⟨g', e1, -, e3⟩ := graph_spec names hn links hl
  rw [hg] at e1
  cases e1
  intro h'
  rw [e3 i j hi hj] at h
  rw [e3 j i hj hi] at h'
  rcases h with ⟨h1, h2, h3⟩ | ⟨h1, h2, h3⟩ <;> rcases h' with ⟨h4, h5, h6⟩ | ⟨h4, h5, h6⟩
  · omega
  · rw [h3] at h6; simp at h6
  · rw [h3] at h6; simp at h6
  · omega

/-- C123, as far as it holds: every way of joining pairs of nodes by at most one edge, that leaves out the first node, is the graph of a choice. The first node is missing. -/
theorem graph_reached_partial (names : List α) (hn : names.Nodup) (E : Nat → Nat → Prop) (hE : ∀ i j, E i j → ¬ E j i) (h0 : ∀ i, ¬ E 0 i ∧ ¬ E i 0) :
    ∃ links : List Int, links.length = choices names.length ∧ (∀ l ∈ links, l = -1 ∨ l = 0 ∨ l = 1) ∧ ∃ g, toGraph names names.length links = some g ∧
      ∀ (i j : Nat) (hi : i < names.length) (hj : j < names.length), (names[i], names[j]) ∈ g.edges ↔ E i j := by
  classical
  set n := names.length with hnl
  let f : Nat × Nat → Int := fun p => if E p.1 p.2 then 1 else if E p.2 p.1 then -1 else 0
  let links : List Int := (pairs n).map f ++ List.replicate (choices n - (pairs n).length) 0
  have hle : (pairs n).length ≤ choices n := by
    rw [length_pairs, choices]
    refine Nat.div_le_div_right ?_
    calc (n - 1) * (n - 2) ≤ (n - 1) * n := Nat.mul_le_mul_left _ (by omega)
      _ = n * (n - 1) := Nat.mul_comm _ _
  have hlen : links.length = choices n := by simp only [links, List.length_append, List.length_map, List.length_replicate]; omega
  have hvals : ∀ l ∈ links, l = -1 ∨ l = 0 ∨ l = 1 := by
    intro l hl
    rcases List.mem_append.1 hl with h | h
    · obtain ⟨p, -, rfl⟩ := List.mem_map.1 h
      simp only [f]
      split
      · exact Or.inr (Or.inr rfl)
      · split
        · exact Or.inl rfl
        · exact Or.inr (Or.inl rfl)
    · exact Or.inr (Or.inl (List.eq_of_mem_replicate h))
  obtain ⟨g, e1, -, e3⟩ := graph_spec names hn links hlen
  refine ⟨links, hlen, hvals, g, e1, fun i j hi hj => ?_⟩
  have hget : ∀ p ∈ pairs n, links[place n p]? = some (f p) := by
    intro p hp
    have hlt : place n p < (pairs n).length := List.idxOf_lt_length_of_mem hp
    rw [List.getElem?_append_left (by simpa using hlt), List.getElem?_map, place, List.getElem?_idxOf hp]
    rfl
  rw [e3 i j hi hj]
  constructor
  · rintro (⟨h1, h2, h3⟩ | ⟨h1, h2, h3⟩)
    · rw [hget _ ((mem_pairs n i j).2 ⟨h1, h2, hj⟩)] at h3
      simp only [f, Option.some.injEq] at h3
      split at h3
      · assumption
      · split at h3 <;> simp at h3
    · rw [hget _ ((mem_pairs n j i).2 ⟨h1, h2, hi⟩)] at h3
      simp only [f, Option.some.injEq] at h3
      split at h3
      · simp at h3
      · split at h3
        · assumption
        · simp at h3
  · intro h
    have hi0 : i ≠ 0 := by rintro rfl; exact (h0 j).1 h
    have hj0 : j ≠ 0 := by rintro rfl; exact (h0 i).2 h
    have hij : i ≠ j := by rintro rfl; exact hE i i h h
    rcases Nat.lt_or_gt_of_ne hij with hlt | hlt
    · refine Or.inl ⟨by omega, hlt, ?_⟩
      rw [hget _ ((mem_pairs n i j).2 ⟨by omega, hlt, hj⟩)]
      simp [f, h]
    · refine Or.inr ⟨by omega, hlt, ?_⟩
      rw [hget _ ((mem_pairs n j i).2 ⟨by omega, hlt, hi⟩)]
      simp [f, h, hE i j h]

/-- C123 fails for the first node: no choice joins it to another one, so that a true graph in which it is joined is never found. -/
theorem first_alone (names : List α) (hn : names.Nodup) (links : List Int) (hl : links.length = choices names.length) (g : Graph α)
    (hg : toGraph names names.length links = some g) (i : Nat) (hi : i < names.length) : (names[0], names[i]) ∉ g.edges ∧ (names[i], names[0]) ∉ g.edges := by
  obtain ⟨g', e1, -, e3⟩ := graph_spec names hn links hl
  rw [hg] at e1
  cases e1
  rw [e3 0 i (by omega) hi, e3 i 0 hi (by omega)]
  constructor
  · rintro (⟨h1, -⟩ | ⟨h1, h2, -⟩) <;> omega
  · rintro (⟨h1, h2, -⟩ | ⟨h1, -⟩) <;> omega

/-- C123 fails for the last choices: as many of them as there are nodes but one have no effect. -/
theorem unused (names : List α) (links links' : List Int) (h : links.take ((names.length - 1) * (names.length - 2) / 2) = links'.take ((names.length - 1) * (names.length - 2) / 2))
    (hl : links.length = choices names.length) (hl' : links'.length = choices names.length) : toGraph names names.length links = toGraph names names.length links' := by
  have key : ∀ (ps : List (Nat × Nat)) (a b : List Int) (g : Graph α), a.take ps.length = b.take ps.length → ps.length ≤ a.length → ps.length ≤ b.length →
      addLinks names ps a g = addLinks names ps b g := by
    intro ps
    induction ps with
    | nil => intro a b g _ _ _; simp [addLinks]
    | cons p ps ih =>
      intro a b g hab ha hb
      cases a with
      | nil => simp at ha
      | cons x a =>
        cases b with
        | nil => simp at hb
        | cons y b =>
          simp only [List.length_cons, List.take_succ_cons, List.cons.injEq] at hab ha hb
          obtain ⟨rfl, hab⟩ := hab
          simp only [addLinks]
          have := fun g => ih a b g hab (by omega) (by omega)
          simp only [this]
  have hle : (pairs names.length).length ≤ choices names.length := by
    rw [length_pairs, choices]
    refine Nat.div_le_div_right ?_
    calc (names.length - 1) * (names.length - 2) ≤ (names.length - 1) * names.length := Nat.mul_le_mul_left _ (by omega)
      _ = names.length * (names.length - 1) := Nat.mul_comm _ _
  unfold toGraph
  rw [key (pairs names.length) links links' _ (by rw [length_pairs]; exact h) (by rw [hl]; exact hle) (by rw [hl']; exact hle)]

theorem unused_count (n : Nat) (hn : 1 ≤ n) : choices n = (n - 1) * (n - 2) / 2 + (n - 1) := by
  obtain ⟨m, rfl⟩ : ∃ m, n = m + 1 := ⟨n - 1, by omega⟩
  simp only [choices, Nat.add_sub_cancel]
  have e : m + 1 - 2 = m - 1 := by omega
  rw [e, show (m + 1) * m = m * (m - 1) + m * 2 from by
    cases m with
    | zero => rfl
    | succ k => simp only [Nat.add_sub_cancel]; ring]
  rw [Nat.add_mul_div_right _ _ (by norm_num : 0 < 2)]

/-- C123: the value is minus the difference of the two scores of the graph. -/
theorem objective_spec {R : Type} [Neg R] [Sub R] (precision shd : Graph α → R) (names : List α) (hn : names.Nodup) (links : List Int) (hl : links.length = choices names.length) :
    ∃ g, toGraph names names.length links = some g ∧ objective precision shd names names.length links = some (-(precision g - shd g)) := by
  obtain ⟨g, e1, -⟩ := graph_spec names hn links hl
  exact ⟨g, e1, by simp [objective, e1]⟩

end

/-- Three edges around: the graphs are not always acyclic. -/
example : (toGraph ["a", "b", "c", "d"] 4 [1, -1, 1, 0, 1, -1]).map (fun g => (g.nodes, g.edges)) = some (["b", "c", "d", "a"], [("b", "c"), ("d", "b"), ("c", "d")]) := by decide
example : pairs 4 = [(1, 2), (1, 3), (2, 3)] ∧ choices 4 = 6 ∧ place 4 (2, 3) = 2 := by decide
example : toGraph ["a", "b", "c"] 3 [] = none := rfl

end NG.Causal
