import Verif.Model.Artificial
import Verif.Props.Tools
import Mathlib.LinearAlgebra.Matrix.NonsingularInverse
import Mathlib.Tactic.Ring
import Mathlib.Tactic.Linarith
import Mathlib.Tactic.NormNum
import Mathlib.Tactic.Positivity
import Mathlib.Tactic.FieldSimp

/-!
# Artificial functions (C80)
-/

namespace NG
namespace Artificial

variable {bd : Nat}

/-! ## Blocks -/

theorem sum_const_len {α : Type} (n : Nat) : ∀ ls : List (List α), (∀ g ∈ ls, g.length = n) → ls.flatten.length = n * ls.length
  | [], _ => by simp
  | g :: ls, h => by
    have h1 := h g (by simp)
    have h2 := sum_const_len n ls (fun g' hg => h g' (by simp [hg]))
    rw [List.flatten_cons, List.length_append, h1, h2, List.length_cons]
    ring

/-- There are `num_blocks` blocks of `block_dimension` coordinates; concatenated they are the drawn indices in increasing order. -/
theorem groups_spec (nb : Nat) (drawn : List Nat) (hbd : 0 < bd) (hlen : drawn.length = bd * nb) (hnd : drawn.Nodup) :
    (groups bd drawn).length = nb ∧ (∀ g ∈ groups bd drawn, g.length = bd) ∧ (groups bd drawn).flatten.Perm drawn
      ∧ (groups bd drawn).flatten.Pairwise (· < ·) := by
  obtain ⟨h1, k, hk, h2⟩ := Tools.grouper_spec (drawn.insertionSort (· ≤ ·)) bd hbd 0
  have h3 := sum_const_len bd _ h1
  have h4 : (drawn.insertionSort (· ≤ ·) ++ List.replicate k 0).length = bd * nb + k := by
    rw [List.length_append, List.length_insertionSort, hlen, List.length_replicate]
  rw [h2, h4] at h3
  have hk0 : k = 0 := by
    by_contra hne
    have : (bd * nb + k) % bd = k := by rw [Nat.mul_add_mod, Nat.mod_eq_of_lt hk]
    rw [h3, Nat.mul_mod_right] at this
    omega
  subst hk0
  rw [List.replicate_zero, List.append_nil] at h2
  have hs : (drawn.insertionSort (· ≤ ·)).Pairwise (· ≤ ·) :=
    haveI : Std.Total (fun a b : Nat => a ≤ b) := ⟨fun a b => le_total a b⟩
    haveI : IsTrans Nat (fun a b => a ≤ b) := ⟨fun a b c => le_trans⟩
    List.pairwise_insertionSort _ drawn
  have hp := List.perm_insertionSort (fun a b : Nat => a ≤ b) drawn
  refine ⟨?_, h1, ?_, ?_⟩
  · have : bd * nb = bd * (groups bd drawn).length := h3
    exact (Nat.eq_of_mul_eq_mul_left hbd this).symm
  · unfold groups; rw [h2]; exact hp
  · unfold groups; rw [h2]
    have hnd' : (drawn.insertionSort (· ≤ ·)).Nodup := hp.nodup_iff.2 hnd
    exact (hs.and hnd').imp (fun h => lt_of_le_of_ne h.1 h.2)

/-- All indices of a list of transforms, block after block. -/
def used (ts : List (Transform bd)) : List Nat := ts.flatMap (fun t => List.ofFn t.indices)

theorem ofFn_getD (g : List Nat) (h : g.length = bd) : List.ofFn (fun k : Fin bd => g.getD k 0) = g := by
  subst h
  refine List.ext_getElem (by simp) (fun i h1 h2 => ?_)
  simp

theorem mapIdx_used (tr : Nat → Fin bd → ℝ) (ro : Nat → Option (Matrix (Fin bd) (Fin bd) ℝ)) :
    ∀ (gs : List (List Nat)) (off : Nat), (∀ g ∈ gs, g.length = bd) →
      used (gs.mapIdx (fun j g =>
        ({ indices := fun k => g.getD k 0, translation := tr (j + off), rotation := ro (j + off) } : Transform bd))) = gs.flatten
  | [], _, _ => rfl
  | g :: gs, off, h => by
    have ih := mapIdx_used tr ro gs (off + 1) (fun g' hg => h g' (by simp [hg]))
    have e : ∀ j, j + 1 + off = j + (off + 1) := by intro j; omega
    rw [List.mapIdx_cons]
    unfold used at ih ⊢
    rw [List.flatMap_cons, List.flatten_cons]
    simp only [e]
    rw [ih, ofFn_getD g (h g (by simp))]

theorem build_used (nb : Nat) (drawn : List Nat) (hbd : 0 < bd) (hlen : drawn.length = bd * nb) (hnd : drawn.Nodup)
    (tr : Nat → Fin bd → ℝ) (ro : Nat → Option (Matrix (Fin bd) (Fin bd) ℝ)) :
    used (build bd drawn tr ro) = (groups bd drawn).flatten :=
  mapIdx_used tr ro _ 0 (groups_spec nb drawn hbd hlen hnd).2.1

theorem build_length (nb : Nat) (drawn : List Nat) (hbd : 0 < bd) (hlen : drawn.length = bd * nb) (hnd : drawn.Nodup)
    (tr : Nat → Fin bd → ℝ) (ro : Nat → Option (Matrix (Fin bd) (Fin bd) ℝ)) : (build bd drawn tr ro).length = nb := by
  unfold build
  rw [List.length_mapIdx]
  exact (groups_spec nb drawn hbd hlen hnd).1

/-- Each useful variable belongs to one block, at one position: the used indices are the drawn ones, without repetition, in increasing order. -/
theorem build_disjoint (nb : Nat) (drawn : List Nat) (hbd : 0 < bd) (hlen : drawn.length = bd * nb) (hnd : drawn.Nodup)
    (tr : Nat → Fin bd → ℝ) (ro : Nat → Option (Matrix (Fin bd) (Fin bd) ℝ)) :
    (used (build bd drawn tr ro)).Pairwise (· < ·) ∧ ∀ i, i ∈ used (build bd drawn tr ro) ↔ i ∈ drawn := by
  rw [build_used nb drawn hbd hlen hnd]
  obtain ⟨_, _, h3, h4⟩ := groups_spec nb drawn hbd hlen hnd
  exact ⟨h4, fun i => h3.mem_iff⟩

theorem sorted_range (n : Nat) (l : List Nat) (hs : l.Pairwise (· < ·)) (hl : l.length = n) (hr : ∀ i ∈ l, i < n) : l = List.range n := by
  have hnd : l.Nodup := hs.imp (fun h => Nat.ne_of_lt h)
  have hsub : l ⊆ List.range n := fun i hi => List.mem_range.2 (hr i hi)
  have hp : l.Perm (List.range n) := (hnd.subperm hsub).perm_of_length_le (by simp [hl])
  exact hp.eq_of_pairwise (fun a b _ _ h1 h2 => absurd h1 (by omega)) hs List.pairwise_lt_range

theorem chunk_flatten {α : Type} (n : Nat) (hn : 0 < n) : ∀ (a b : List (List α)), (∀ g ∈ a, g.length = n) → (∀ g ∈ b, g.length = n) →
    a.flatten = b.flatten → a = b
  | [], [], _, _, _ => rfl
  | [], g :: b, _, hb, h => by
    have := hb g (by simp)
    have h' := congrArg List.length h
    simp only [List.flatten_nil, List.length_nil, List.flatten_cons, List.length_append] at h'
    omega
  | g :: a, [], ha, _, h => by
    have := ha g (by simp)
    have h' := congrArg List.length h
    simp only [List.flatten_nil, List.length_nil, List.flatten_cons, List.length_append] at h'
    omega
  | g :: a, g' :: b, ha, hb, h => by
    rw [List.flatten_cons, List.flatten_cons] at h
    obtain ⟨h1, h2⟩ := List.append_inj h (by rw [ha g (by simp), hb g' (by simp)])
    rw [h1, chunk_flatten n hn a b (fun g hg => ha g (by simp [hg])) (fun g hg => hb g (by simp [hg])) h2]

/-- `split`: without useless variables, the blocks of the concatenation of `num_blocks` arrays are these arrays, in order, whatever the draw. -/
theorem split_blocks (drawn : List Nat) (hbd : 0 < bd) (arrays : List (List ℝ)) (ha : ∀ a ∈ arrays, a.length = bd)
    (hlen : drawn.length = bd * arrays.length) (hnd : drawn.Nodup) (hr : ∀ i ∈ drawn, i < bd * arrays.length) :
    (groups bd drawn).map (fun g => g.map (fun i => arrays.flatten.getD i 0)) = arrays := by
  obtain ⟨h1, h2, h3, h4⟩ := groups_spec arrays.length drawn hbd hlen hnd
  have hf : (groups bd drawn).flatten = List.range (bd * arrays.length) :=
    sorted_range _ _ h4 (by rw [h3.length_eq, hlen]) (fun i hi => hr i (h3.mem_iff.1 hi))
  refine chunk_flatten bd hbd _ _ ?_ ha ?_
  · intro g hg
    obtain ⟨g', hg', rfl⟩ := List.mem_map.1 hg
    simpa using h2 g' hg'
  · rw [← List.map_flatten, hf, ← sum_const_len bd arrays ha]
    refine List.ext_getElem (by simp) (fun i h1 h2 => ?_)
    simp [List.getElem?_eq_getElem h2]

/-! ## Useless variables -/

theorem apply_congr (oi : Bool) (t : Transform bd) (x y : List ℝ) (hl : x.length = y.length) (h : ∀ k, x.getD (t.indices k) 0 = y.getD (t.indices k) 0) :
    t.apply oi x = t.apply oi y := by
  unfold Transform.apply select
  simp only [hl, h]

theorem mapM_congr {α β : Type} {f g : α → Option β} : ∀ {l : List α}, (∀ a ∈ l, f a = g a) → l.mapM f = l.mapM g
  | [], _ => rfl
  | a :: l, h => by
    have h1 := h a (by simp)
    have h2 := mapM_congr (l := l) (fun b hb => h b (by simp [hb]))
    rw [List.mapM_cons, List.mapM_cons, h1, h2]

theorem blocks_congr (oi : Bool) (ts : List (Transform bd)) (x y : List ℝ) (hl : x.length = y.length) (h : ∀ i ∈ used ts, x.getD i 0 = y.getD i 0) :
    blocks oi ts x = blocks oi ts y := by
  unfold blocks
  refine mapM_congr ?_
  intro t ht
  refine apply_congr oi t x y hl (fun k => h _ ?_)
  exact List.mem_flatMap.2 ⟨t, ht, by simp [List.mem_ofFn]⟩

/-- Variables which were not drawn have no effect, neither on the value without noise nor, for the same draws, on the noisy one. -/
theorem useless (f : (Fin bd → ℝ) → ℝ) (agg : Agg) (pen : Option ℝ) (oi : Bool) (nb : Nat) (drawn : List Nat) (hbd : 0 < bd)
    (hlen : drawn.length = bd * nb) (hnd : drawn.Nodup) (tr : Nat → Fin bd → ℝ) (ro : Nat → Option (Matrix (Fin bd) (Fin bd) ℝ))
    (x y : List ℝ) (hl : x.length = y.length) (h : ∀ i ∈ drawn, x.getD i 0 = y.getD i 0) :
    oracle f agg pen oi (build bd drawn tr ro) x = oracle f agg pen oi (build bd drawn tr ro) y
    ∧ ∀ (level : ℝ) (dissym : Bool) (side : List ℝ) (g : ℝ), side.length = x.length →
      noisy f agg pen oi (build bd drawn tr ro) level dissym side g x = noisy f agg pen oi (build bd drawn tr ro) level dissym side g y := by
  have hu := (build_disjoint nb drawn hbd hlen hnd tr ro).2
  have h1 : blocks oi (build bd drawn tr ro) x = blocks oi (build bd drawn tr ro) y :=
    blocks_congr oi _ x y hl (fun i hi => h i ((hu i).1 hi))
  refine ⟨by unfold oracle; rw [h1], fun level dissym side g hs => ?_⟩
  have h2 : blocks oi (build bd drawn tr ro) (List.zipWith (· + ·) x side) = blocks oi (build bd drawn tr ro) (List.zipWith (· + ·) y side) := by
    refine blocks_congr oi _ _ _ (by simp [hl]) (fun i hi => ?_)
    have h3 := h i ((hu i).1 hi)
    simp only [List.getD_eq_getElem?_getD, List.getElem?_zipWith] at h3 ⊢
    by_cases hi' : i < x.length
    · have hy : i < y.length := by omega
      have hd : i < side.length := by omega
      simp only [List.getElem?_eq_getElem hi', List.getElem?_eq_getElem hy, List.getElem?_eq_getElem hd, Option.getD_some] at h3 ⊢
      rw [h3]
    · have hy : ¬ i < y.length := by omega
      rw [List.getElem?_eq_none (by omega : x.length ≤ i), List.getElem?_eq_none (by omega : y.length ≤ i)]
  unfold noisy
  rw [h1, h2]

/-! ## Isometry and optimum -/

/-- Coordinates of a block. -/
def coords (t : Transform bd) (x : List ℝ) : Fin bd → ℝ := fun k => x.getD (t.indices k) 0

theorem blocks_some (oi : Bool) : ∀ (ts : List (Transform bd)) (x : List ℝ), (∀ i ∈ used ts, i < x.length) →
    blocks oi ts x = some (ts.map (fun t => if oi then coords t x else t.move (coords t x)))
  | [], _, _ => rfl
  | t :: ts, x, h => by
    have ih := blocks_some oi ts x (fun i hi => h i (by unfold used at hi ⊢; rw [List.flatMap_cons]; exact List.mem_append_right _ hi))
    have h1 : ∀ k, t.indices k < x.length := fun k => h _ (by
      unfold used; rw [List.flatMap_cons]; exact List.mem_append_left _ (by simp [List.mem_ofFn]))
    unfold blocks at ih ⊢
    rw [List.mapM_cons, ih]
    unfold Transform.apply select
    rw [if_pos h1]
    rfl

/-- The rotation, if any, is an orthogonal matrix. -/
def Orthogonal (t : Transform bd) : Prop := ∀ q, t.rotation = some q → q.transpose * q = 1

theorem mulVec_sq (q : Matrix (Fin bd) (Fin bd) ℝ) (h : q.transpose * q = 1) (v : Fin bd → ℝ) :
    Finset.univ.sum (fun k => q.mulVec v k ^ 2) = Finset.univ.sum (fun k => v k ^ 2) := by
  have h1 : Finset.univ.sum (fun k => q.mulVec v k ^ 2) = dotProduct (q.mulVec v) (q.mulVec v) := by
    unfold dotProduct; exact Finset.sum_congr rfl (fun k _ => by ring)
  have h2 : Finset.univ.sum (fun k => v k ^ 2) = dotProduct v v := by
    unfold dotProduct; exact Finset.sum_congr rfl (fun k _ => by ring)
  rw [h1, h2, Matrix.dotProduct_mulVec, Matrix.vecMul_mulVec, h, Matrix.vecMul_one]

/-- Translation and rotation preserve the distances between the points of a block. -/
theorem move_isometry (t : Transform bd) (ht : Orthogonal t) (v w : Fin bd → ℝ) :
    Finset.univ.sum (fun k => (t.move v k - t.move w k) ^ 2) = Finset.univ.sum (fun k => (v k - w k) ^ 2) := by
  unfold Transform.move
  cases hr : t.rotation with
  | none => exact Finset.sum_congr rfl (fun k _ => by ring)
  | some q =>
    have h := mulVec_sq q (ht q hr) (fun k => v k - w k)
    rw [← h]
    refine Finset.sum_congr rfl (fun k _ => ?_)
    have : (fun k => v k - w k) = (fun k => v k - t.translation k) - (fun k => w k - t.translation k) := by
      funext k; simp
    rw [this, Matrix.mulVec_sub]
    rfl

/-- The norm of a transformed block is the distance to the translation. -/
theorem move_norm (t : Transform bd) (ht : Orthogonal t) (v : Fin bd → ℝ) :
    Finset.univ.sum (fun k => t.move v k ^ 2) = Finset.univ.sum (fun k => (v k - t.translation k) ^ 2) := by
  unfold Transform.move
  cases hr : t.rotation with
  | none => rfl
  | some q => exact mulVec_sq q (ht q hr) _

/-- The point which a transform sends to `z`. -/
def preimage (t : Transform bd) (z : Fin bd → ℝ) : Fin bd → ℝ :=
  match t.rotation with
  | none => fun k => t.translation k + z k
  | some q => fun k => t.translation k + q.transpose.mulVec z k

theorem move_eq_iff (t : Transform bd) (ht : Orthogonal t) (v z : Fin bd → ℝ) : t.move v = z ↔ v = preimage t z := by
  unfold Transform.move preimage
  cases hr : t.rotation with
  | none =>
    dsimp only
    constructor
    · intro h; funext k; have := congrFun h k; linarith
    · intro h; funext k; have := congrFun h k; linarith
  | some q =>
    dsimp only
    have h1 := ht q hr
    have h2 : q * q.transpose = 1 := mul_eq_one_comm.1 h1
    constructor
    · intro h
      have h3 : q.transpose.mulVec z = fun k => v k - t.translation k := by
        rw [← h, Matrix.mulVec_mulVec, h1, Matrix.one_mulVec]
      funext k
      rw [h3]; ring
    · intro h
      have h3 : (fun k => v k - t.translation k) = q.transpose.mulVec z := by
        funext k; rw [h]; ring
      rw [h3, Matrix.mulVec_mulVec, h2, Matrix.one_mulVec]

/-- Value of an aggregator on `n` equal results. -/
def Agg.const (a : Agg) (n : Nat) (m : ℝ) : ℝ :=
  match a with
  | .max => m
  | .mean => m
  | .sum => n * m

theorem foldl_max (l : List ℝ) : ∀ a : ℝ, (a ≤ l.foldl Max.max a ∧ ∀ b ∈ l, b ≤ l.foldl Max.max a) ∧ (l.foldl Max.max a = a ∨ l.foldl Max.max a ∈ l) := by
  induction l with
  | nil => intro a; simp
  | cons b l ih =>
    intro a
    obtain ⟨⟨h1, h2⟩, h3⟩ := ih (Max.max a b)
    rw [List.foldl_cons]
    refine ⟨⟨le_trans (le_max_left _ _) h1, ?_⟩, ?_⟩
    · intro c hc
      rcases List.mem_cons.1 hc with rfl | hc
      · exact le_trans (le_max_right _ _) h1
      · exact h2 c hc
    · rcases h3 with h3 | h3
      · rcases max_choice a b with h | h
        · left; rw [h3, h]
        · right; rw [h3, h]; simp
      · right; simp [h3]

theorem sum_lower (m : ℝ) : ∀ l : List ℝ, (∀ a ∈ l, m ≤ a) → (l.length : ℝ) * m ≤ l.sum ∧ (l.sum = l.length * m ↔ ∀ a ∈ l, a = m)
  | [], _ => by simp
  | a :: l, h => by
    obtain ⟨h1, h2⟩ := sum_lower m l (fun b hb => h b (by simp [hb]))
    have h3 := h a (by simp)
    rw [List.sum_cons, List.length_cons]
    push_cast
    refine ⟨by linarith, ?_⟩
    constructor
    · intro he b hb
      have e1 : a = m := by linarith
      have e2 : l.sum = l.length * m := by linarith
      rcases List.mem_cons.1 hb with rfl | hb
      · exact e1
      · exact h2.1 e2 b hb
    · intro he
      have e1 := he a (by simp)
      have e2 := h2.2 (fun b hb => he b (by simp [hb]))
      rw [e1, e2]; ring

/-- Each aggregator is smallest exactly when all results are. -/
theorem agg_lower (agg : Agg) (m : ℝ) (l : List ℝ) (hne : l ≠ []) (h : ∀ a ∈ l, m ≤ a) :
    agg.const l.length m ≤ agg.eval l ∧ (agg.eval l = agg.const l.length m ↔ ∀ a ∈ l, a = m) := by
  obtain ⟨h1, h2⟩ := sum_lower m l h
  have hl : (0 : ℝ) < l.length := by
    have := List.length_pos_of_ne_nil hne
    exact_mod_cast this
  cases agg with
  | sum => exact ⟨h1, h2⟩
  | mean =>
    unfold Agg.const Agg.eval
    dsimp only
    rw [le_div_iff₀ hl, div_eq_iff hl.ne', mul_comm m]
    exact ⟨h1, h2⟩
  | max =>
    unfold Agg.const Agg.eval
    dsimp only
    cases l with
    | nil => exact absurd rfl hne
    | cons a l =>
      rw [List.tail_cons, List.headD_cons]
      obtain ⟨⟨h3, h4⟩, h5⟩ := foldl_max l a
      have ha := h a (by simp)
      refine ⟨le_trans ha h3, ?_⟩
      constructor
      · intro he b hb
        refine le_antisymm ?_ (h b hb)
        rw [← he]
        rcases List.mem_cons.1 hb with rfl | hb
        · exact h3
        · exact h4 b hb
      · intro he
        rcases h5 with h5 | h5
        · rw [h5]; exact he a (by simp)
        · exact he _ (by simp [h5])

theorem assign : ∀ (ps : List (Nat × ℝ)), (ps.map Prod.fst).Nodup → ∃ v : Nat → ℝ, ∀ p ∈ ps, v p.1 = p.2
  | [], _ => ⟨fun _ => 0, by simp⟩
  | p :: ps, h => by
    rw [List.map_cons, List.nodup_cons] at h
    obtain ⟨v, hv⟩ := assign ps h.2
    refine ⟨fun i => if i = p.1 then p.2 else v i, ?_⟩
    intro q hq
    rcases List.mem_cons.1 hq with rfl | hq
    · simp
    · have : q.1 ≠ p.1 := fun he => h.1 (he ▸ List.mem_map_of_mem hq)
      simp [this, hv q hq]

/-- A core function with one minimum, of value `m` at `z`, gives an artificial function whose minimum is the aggregation of `m` over the blocks. It
is reached exactly at the points whose useful coordinates are the preimages of `z`, and there are such points, whatever the translations and
rotations. -/
theorem optimum (f : (Fin bd → ℝ) → ℝ) (m : ℝ) (z : Fin bd → ℝ) (hmin : ∀ y, m ≤ f y) (huniq : ∀ y, f y = m ↔ y = z) (agg : Agg)
    (ts : List (Transform bd)) (dim : Nat) (hne : ts ≠ []) (hnd : (used ts).Nodup) (hr : ∀ i ∈ used ts, i < dim) (ho : ∀ t ∈ ts, Orthogonal t) :
    (∀ x : List ℝ, x.length = dim → ∃ v, oracle f agg none false ts x = some v ∧ agg.const ts.length m ≤ v
      ∧ (v = agg.const ts.length m ↔ ∀ t ∈ ts, coords t x = preimage t z))
    ∧ ∃ x : List ℝ, x.length = dim ∧ oracle f agg none false ts x = some (agg.const ts.length m) := by
  have key : ∀ x : List ℝ, x.length = dim → ∃ v, oracle f agg none false ts x = some v ∧ agg.const ts.length m ≤ v
      ∧ (v = agg.const ts.length m ↔ ∀ t ∈ ts, coords t x = preimage t z) := by
    intro x hx
    have hb := blocks_some false ts x (fun i hi => hx ▸ hr i hi)
    refine ⟨agg.eval (ts.map (fun t => f (t.move (coords t x)))), ?_, ?_⟩
    · unfold oracle
      rw [hb]
      simp [fromTransform, Function.comp_def]
    · obtain ⟨h1, h2⟩ := agg_lower agg m (ts.map (fun t => f (t.move (coords t x)))) (by simpa using hne) (by
        intro a ha
        obtain ⟨t, _, rfl⟩ := List.mem_map.1 ha
        exact hmin _)
      rw [List.length_map] at h1 h2
      refine ⟨h1, ?_⟩
      rw [h2]
      constructor
      · intro h t ht
        exact (move_eq_iff t (ho t ht) _ _).1 ((huniq _).1 (h _ (List.mem_map_of_mem ht)))
      · intro h a ha
        obtain ⟨t, ht, rfl⟩ := List.mem_map.1 ha
        exact (huniq _).2 ((move_eq_iff t (ho t ht) _ _).2 (h t ht))
  refine ⟨key, ?_⟩
  obtain ⟨v, hv⟩ := assign (ts.flatMap (fun t => List.ofFn (fun k => (t.indices k, preimage t z k)))) (by
    have : (ts.flatMap (fun t => List.ofFn (fun k => (t.indices k, preimage t z k)))).map Prod.fst = used ts := by
      unfold used
      rw [List.map_flatMap]
      congr 1
      funext t
      rw [List.map_ofFn]
      rfl
    rw [this]; exact hnd)
  refine ⟨(List.range dim).map v, by simp, ?_⟩
  obtain ⟨w, h1, _, h3⟩ := key ((List.range dim).map v) (by simp)
  rw [h1, h3.2]
  intro t ht
  funext k
  have hi : t.indices k < dim := hr _ (List.mem_flatMap.2 ⟨t, ht, by simp [List.mem_ofFn]⟩)
  have := hv (t.indices k, preimage t z k) (List.mem_flatMap.2 ⟨t, ht, by rw [List.mem_ofFn]; exact ⟨k, rfl⟩⟩)
  unfold coords
  simp [List.getElem?_range hi]
  exact this

/-- The same for the transforms which are built from a draw of distinct indices. -/
theorem build_optimum (f : (Fin bd → ℝ) → ℝ) (m : ℝ) (z : Fin bd → ℝ) (hmin : ∀ y, m ≤ f y) (huniq : ∀ y, f y = m ↔ y = z) (agg : Agg)
    (nb : Nat) (hnb : 0 < nb) (dim : Nat) (drawn : List Nat) (hbd : 0 < bd) (hlen : drawn.length = bd * nb) (hnd : drawn.Nodup)
    (hr : ∀ i ∈ drawn, i < dim) (tr : Nat → Fin bd → ℝ) (ro : Nat → Option (Matrix (Fin bd) (Fin bd) ℝ))
    (ho : ∀ j q, ro j = some q → q.transpose * q = 1) :
    (∀ x : List ℝ, x.length = dim → ∃ v, oracle f agg none false (build bd drawn tr ro) x = some v ∧ agg.const nb m ≤ v
      ∧ (v = agg.const nb m ↔ ∀ t ∈ build bd drawn tr ro, coords t x = preimage t z))
    ∧ ∃ x : List ℝ, x.length = dim ∧ oracle f agg none false (build bd drawn tr ro) x = some (agg.const nb m) := by
  have hl := build_length nb drawn hbd hlen hnd tr ro
  obtain ⟨h1, h2⟩ := build_disjoint nb drawn hbd hlen hnd tr ro
  have := optimum f m z hmin huniq agg (build bd drawn tr ro) dim (by intro h; rw [h] at hl; simp at hl; omega)
    (h1.imp (fun h => Nat.ne_of_lt h)) (fun i hi => hr i ((h2 i).1 hi)) (by
      intro t ht q hq
      unfold build at ht
      obtain ⟨j, hj, rfl⟩ := List.mem_mapIdx.1 ht
      exact ho j q hq)
  rw [hl] at this
  exact this

/-! ## Noise -/

/-- Without noise level the value is the one of the oracle; so it is on the noiseless side when the noise is dissymmetric. -/
theorem noiseless (f : (Fin bd → ℝ) → ℝ) (agg : Agg) (pen : Option ℝ) (oi : Bool) (ts : List (Transform bd)) (level : ℝ) (dissym : Bool)
    (side : List ℝ) (g : ℝ) (x : List ℝ) (h : level = 0 ∨ (dissym = true ∧ ∀ xt, blocks oi ts x = some xt → 0 < first xt)) :
    noisy f agg pen oi ts level dissym side g x = oracle f agg pen oi ts x := by
  unfold noisy oracle
  cases hb : blocks oi ts x with
  | none => rfl
  | some xt =>
    dsimp only
    rw [if_pos]
    · rfl
    · rcases h with h | ⟨h1, h2⟩
      · exact Or.inl h
      · exact Or.inr ⟨h1, not_le.2 (h2 xt hb)⟩

/-- With symmetric noise, what is added is `level * g * (f(x + side) - f(x))`. -/
theorem noise_formula (f : (Fin bd → ℝ) → ℝ) (agg : Agg) (pen : Option ℝ) (oi : Bool) (ts : List (Transform bd)) (level : ℝ)
    (side : List ℝ) (g : ℝ) (x : List ℝ) (u v : ℝ) (hu : oracle f agg pen oi ts x = some u)
    (hv : oracle f agg pen oi ts (List.zipWith (· + ·) x side) = some v) :
    noisy f agg pen oi ts level false side g x = some (u + level * g * (v - u)) := by
  unfold oracle at hu hv
  unfold noisy
  cases hb : blocks oi ts x with
  | none => rw [hb] at hu; simp at hu
  | some xt =>
    cases hs : blocks oi ts (List.zipWith (· + ·) x side) with
    | none => rw [hs] at hv; simp at hv
    | some st =>
      rw [hb] at hu
      rw [hs] at hv
      simp only [Option.map_some, Option.some.injEq] at hu hv
      dsimp only
      rw [hu, hv]
      by_cases hl : level = 0
      · rw [if_pos (Or.inl hl), hl]; simp
      · rw [if_neg (by simp [hl])]; simp

/-- The documented formula is false with dissymmetric noise: the level is multiplied by `1 + 100 * (first transformed coordinate)`, which is 0 for
-0.01 and is unbounded on the noisy side. -/
theorem dissymmetric_formula (f : (Fin bd → ℝ) → ℝ) (agg : Agg) (pen : Option ℝ) (oi : Bool) (ts : List (Transform bd)) (level : ℝ)
    (side : List ℝ) (g : ℝ) (x : List ℝ) (u v : ℝ) (xt : List (Fin bd → ℝ)) (hx : blocks oi ts x = some xt) (hfirst : first xt ≤ 0)
    (hu : oracle f agg pen oi ts x = some u) (hv : oracle f agg pen oi ts (List.zipWith (· + ·) x side) = some v) :
    noisy f agg pen oi ts level true side g x = some (u + level * (1 + first xt * 100) * g * (v - u)) := by
  unfold oracle at hu hv
  unfold noisy
  cases hs : blocks oi ts (List.zipWith (· + ·) x side) with
  | none => rw [hs] at hv; simp at hv
  | some st =>
    rw [hx] at hu
    rw [hs] at hv
    simp only [Option.map_some, Option.some.injEq] at hu hv
    rw [hx]
    dsimp only
    rw [hu, hv]
    by_cases hl : level = 0
    · rw [if_pos (Or.inl hl), hl]; simp
    · rw [if_neg (by simp [hl, hfirst])]; simp

/-! ## Penalty of `zero_pen` -/

/-- The penalty is positive exactly on the ball of radius `tf / 3` (less `1e-7`) around the point sent to zero. -/
theorem zeroPen_pos (tf : ℝ) (htf : 0 < tf) (x : List (Fin bd → ℝ)) :
    0 ≤ zeroPen tf x ∧ (0 < zeroPen tf x ↔ Real.sqrt (x.map (fun b => Finset.univ.sum (fun k => b k ^ 2))).sum < tf / 3 - 1 / 10 ^ 7) := by
  unfold zeroPen
  have hn := Real.sqrt_nonneg (x.map (fun b => Finset.univ.sum (fun k => b k ^ 2))).sum
  generalize Real.sqrt (x.map (fun b => Finset.univ.sum (fun k => b k ^ 2))).sum = d at hn ⊢
  have hpos : 0 < 1 / 10 ^ 7 + tf + d := by positivity
  refine ⟨mul_nonneg (by norm_num) (le_max_right _ _), ?_⟩
  rw [mul_pos_iff_of_pos_left (by norm_num), lt_max_iff]
  simp only [lt_self_iff_false, or_false, sub_pos]
  rw [lt_div_iff₀ hpos]
  constructor <;> intro h <;> linarith

/-- The claim "the optimum of the core function is the optimum of the artificial function" is false with `zero_pen`: the penalty is applied to the
transformed point, so that it is largest at the optimum. For the translated sphere with the default factor, the point sent to zero is worse than
all points sent at distance 1/2. -/
theorem zeroPen_optimum_lost (ts : List (Transform 1)) (t : Transform 1) (hts : ts = [t]) (ht : t.rotation = none) (h0 : t.indices 0 = 0)
    (x y : ℝ) (hx : x = t.translation 0) (hy : y = t.translation 0 + 1 / 2) :
    ∃ u v, oracle (fun b => b 0 ^ 2) .max (some 1) false ts [x] = some u ∧ oracle (fun b => b 0 ^ 2) .max (some 1) false ts [y] = some v ∧ v < u := by
  subst hts
  have hb : ∀ w : ℝ, oracle (fun b => b 0 ^ 2) .max (some 1) false [t] [w]
      = some ((w - t.translation 0) ^ 2 + zeroPen 1 [fun _ : Fin 1 => w - t.translation 0]) := by
    intro w
    unfold oracle
    rw [blocks_some false [t] [w] (by
      intro i hi
      unfold used at hi
      simp only [List.flatMap_cons, List.flatMap_nil, List.append_nil, List.mem_ofFn] at hi
      obtain ⟨k, rfl⟩ := hi
      have : k = 0 := Subsingleton.elim _ _
      rw [this, h0]; simp)]
    have hm : t.move (coords t [w]) = fun _ => w - t.translation 0 := by
      unfold Transform.move coords
      rw [ht]
      funext k
      have : k = 0 := Subsingleton.elim _ _
      subst this
      simp [h0]
    simp [fromTransform, hm, Agg.eval]
  refine ⟨_, _, hb x, hb y, ?_⟩
  rw [hx, hy]
  have e1 : zeroPen 1 [fun _ : Fin 1 => t.translation 0 - t.translation 0] = 1000 * (1 / (1 / 10 ^ 7 + 1) - 3 / 4) := by
    unfold zeroPen
    simp
    norm_num
  have e2 : zeroPen 1 [fun _ : Fin 1 => t.translation 0 + 1 / 2 - t.translation 0] = 0 := by
    have h := zeroPen_pos 1 one_pos [fun _ : Fin 1 => t.translation 0 + 1 / 2 - t.translation 0]
    refine le_antisymm (not_lt.1 (fun hc => ?_)) h.1
    have hlt := h.2.1 hc
    have : Real.sqrt (([fun _ : Fin 1 => t.translation 0 + 1 / 2 - t.translation 0] : List (Fin 1 → ℝ)).map
        (fun b => Finset.univ.sum (fun k => b k ^ 2))).sum = 1 / 2 := by
      simp
    rw [this] at hlt
    norm_num at hlt
  rw [e1, e2]
  norm_num

/-! ## Exponent of the translation -/

/-- With an odd integer exponent, as in the benchmarks, the translation is always defined and keeps the sign of the draw. -/
theorem power_odd (x : ℝ) (k : Nat) : power x (2 * k + 1 : Nat) = some (x ^ (2 * k + 1)) ∧ (0 < x ^ (2 * k + 1) ↔ 0 < x) := by
  constructor
  · unfold power
    rw [if_neg, if_neg]
    · rw [Real.rpow_natCast]
    · push_cast
      intro h
      have : (0 : ℝ) ≤ 2 * k + 1 := by positivity
      linarith [h.2]
    · intro h
      exact h.2 ⟨(2 * k + 1 : Nat), by push_cast; rfl⟩
  · exact (Odd.pow_pos_iff ⟨k, rfl⟩)

/-- With another exponent the translation is not defined for half of the draws: the function then is NaN everywhere. -/
theorem power_nan (x expo : ℝ) (hx : x < 0) (he : ∀ k : ℤ, expo ≠ k) : power x expo = none := by
  unfold power
  rw [if_pos ⟨hx, fun ⟨k, hk⟩ => he k hk⟩]

/-! ## One function per object -/

theorem step_ts {σ : Type} (r : Rng σ bd) (s : St σ bd) (op : Op) (l : List (Transform bd)) (h : s.ts = some l) : (step r s op).ts = some l := by
  cases op with
  | draw => exact h
  | eval x => unfold step ready; rw [h]; exact h

/-- Once called, an artificial function never changes, whatever the optimizer draws and whatever is evaluated. -/
theorem run_fixed {σ : Type} (r : Rng σ bd) : ∀ (ops : List Op) (s : St σ bd) (l : List (Transform bd)), s.ts = some l → (run r ops s).ts = some l
  | [], _, _, h => h
  | op :: ops, s, l, h => by
    unfold run
    rw [List.foldl_cons]
    exact run_fixed r ops _ l (step_ts r s op l h)

/-- Number of draws made before the first call. -/
def drawsBefore : List Op → Nat
  | .draw :: ops => drawsBefore ops + 1
  | _ => 0

/-- The function is determined by the seed and the number of draws before its first call. -/
theorem run_first {σ : Type} (r : Rng σ bd) : ∀ (ops : List Op) (s : St σ bd), s.ts = none → (∃ x, .eval x ∈ ops) →
    (run r ops s).ts = some (r.init (r.draw^[drawsBefore ops] s.rng)).1
  | [], _, _, h => by simp at h
  | .draw :: ops, s, hs, h => by
    obtain ⟨x, hx⟩ := h
    have hx' : Op.eval x ∈ ops := by simpa using hx
    unfold run
    rw [List.foldl_cons]
    have := run_first r ops (step r s .draw) hs ⟨x, hx'⟩
    unfold run at this
    rw [this]
    rfl
  | .eval x :: ops, s, hs, _ => by
    unfold run
    rw [List.foldl_cons]
    refine run_fixed r ops (step r s (.eval x)) _ ?_
    unfold step ready
    rw [hs]
    rfl

/-- The claim "with the same seed, two optimizers are compared on the same function" holds if both draw as many numbers before the first
evaluation. -/
theorem same_seed_partial {σ : Type} (r : Rng σ bd) (ops ops' : List Op) (s : St σ bd) (hs : s.ts = none) (h : ∃ x, .eval x ∈ ops)
    (h' : ∃ x, .eval x ∈ ops') (hd : drawsBefore ops = drawsBefore ops') : (run r ops s).ts = (run r ops' s).ts := by
  rw [run_first r ops s hs h, run_first r ops' s hs h', hd]

/-- It is false in general: the transforms are drawn at the first call, from the random state of the optimizer. -/
theorem same_seed_false : ∃ (r : Rng Nat 1) (ops ops' : List Op) (s : St Nat 1) (t t' : Transform 1), s.ts = none ∧ (run r ops s).ts = some [t]
    ∧ (run r ops' s).ts = some [t'] ∧ t.translation ≠ t'.translation := by
  refine ⟨{ draw := fun n => n + 1, init := fun n => ([{ indices := fun _ => 0, translation := fun _ => n, rotation := none }], n + 1) },
    [.eval [0]], [.draw, .eval [0]], { rng := 0, ts := none }, _, _, rfl, rfl, rfl, ?_⟩
  intro h
  have := congrFun h 0
  simp [step] at this

/-! ## Hashing -/

/-- With hashing the array has one element (functionlib.py 184-187): with two or more useful variables every call raises IndexError. -/
theorem hashing_raises {σ : Type} (seeded : ℝ → ℝ × σ) (f : (Fin bd → ℝ) → ℝ) (agg : Agg) (pen : Option ℝ) (oi : Bool) (nb : Nat) (drawn : List Nat)
    (hbd : 0 < bd) (hlen : drawn.length = bd * nb) (hnd : drawn.Nodup) (h2 : 2 ≤ bd * nb) (tr : Nat → Fin bd → ℝ)
    (ro : Nat → Option (Matrix (Fin bd) (Fin bd) ℝ)) (x : ℝ) (s : σ) :
    oracle f agg pen oi (build bd drawn tr ro) (hashed seeded [x] s).1 = none := by
  obtain ⟨_, hu⟩ := build_disjoint nb drawn hbd hlen hnd tr ro
  have hex : ∃ i ∈ drawn, 1 ≤ i := by
    by_contra hcon
    rw [← hlen] at h2
    match drawn, hnd, h2, hcon with
    | a :: b :: l, hnd, _, hcon =>
      have ha : a = 0 := by by_contra h; exact hcon ⟨a, by simp, by omega⟩
      have hb : b = 0 := by by_contra h; exact hcon ⟨b, by simp, by omega⟩
      rw [ha, hb] at hnd
      simp at hnd
  obtain ⟨i, hi, h1⟩ := hex
  obtain ⟨t, ht, hit⟩ := List.mem_flatMap.1 ((hu i).2 hi)
  obtain ⟨k, hk⟩ := List.mem_ofFn.1 hit
  have happ : t.apply oi (hashed seeded [x] s).1 = none := by
    unfold Transform.apply select
    rw [if_neg]
    · rfl
    · intro h
      have := h k
      rw [hk] at this
      simp [hashed] at this
      omega
  have hnone : ∀ l : List (Transform bd), t ∈ l → blocks oi l (hashed seeded [x] s).1 = none := by
    intro l
    induction l with
    | nil => intro h; simp at h
    | cons a l ih =>
      intro h
      unfold blocks at ih ⊢
      rw [List.mapM_cons]
      rcases List.mem_cons.1 h with rfl | h
      · rw [happ]; rfl
      · rw [ih h]
        cases a.apply oi (hashed seeded [x] s).1 <;> rfl
  unfold oracle
  rw [hnone _ ht]
  rfl

/-- The claim "the function is noisy" is false with hashing: the shared random state is seeded from the point, so that the noise is a function of the
point, and every call puts the generator, which the optimizer also uses, in a state which only depends on the point. -/
theorem hashing_noise {σ : Type} (seeded : ℝ → ℝ × σ) (normals : Nat → σ → List ℝ × σ) (f : (Fin bd → ℝ) → ℝ) (agg : Agg) (ts : List (Transform bd))
    (level : ℝ) (x : List ℝ) (hx : x ≠ []) (s s' : σ) :
    hashNoisy seeded normals f agg ts level x s = hashNoisy seeded normals f agg ts level x s' := by
  have h : hashed seeded x s = hashed seeded x s' := by
    unfold hashed
    cases hl : x.getLast? with
    | none => exact absurd (List.getLast?_eq_none_iff.1 hl) hx
    | some y => rfl
  unfold hashNoisy
  rw [h]

/-! ## Concrete cases -/

example : groups 2 [5, 0, 3, 1] = [[0, 1], [3, 5]] := by decide +kernel

example : used (build 2 [5, 0, 3, 1] (fun _ _ => 1) (fun _ => none)) = [0, 1, 3, 5] := by decide +kernel

example : oracle (fun b : Fin 1 → ℝ => b 0 ^ 2) .sum none false
    [⟨fun _ => 0, fun _ => 1, none⟩, ⟨fun _ => 2, fun _ => -1, none⟩] [3, 7, 1] = some 8 := by
  rw [oracle, blocks_some _ _ _ (by intro i hi; simp [used] at hi; rcases hi with rfl | rfl <;> simp)]
  norm_num [fromTransform, Agg.eval, Transform.move, coords]

end Artificial
end NG
