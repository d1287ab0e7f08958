import Verif.Model.Bench
import Mathlib.Data.Int.CardIntervalMod
import Mathlib.Data.List.Basic
import Mathlib.Tactic.Ring

/-! # C49: benchmark chunks -/

namespace NG
namespace Bench

/-- Modulers obtained from the initial one by splitting one of them, again and again, in at least one part. -/
inductive Splits (total : Nat) : List Moduler → Prop
  | whole : Splits total [⟨1, 0, total⟩]
  | split (before after : List Moduler) (m : Moduler) (number : Nat) : 0 < number → Splits total (before ++ m :: after) →
      Splits total (before ++ m.split number ++ after)

/-- Number of modulers accepting an index. -/
def accepting (ms : List Moduler) (i : Nat) : Nat := (ms.filter (fun m => m.call i)).length

theorem accepting_append (l l' : List Moduler) (i : Nat) : accepting (l ++ l') i = accepting l i + accepting l' i := by
  simp [accepting]

/-- Splitting a moduler in `number` parts: exactly one part accepts each index the moduler accepts, none the others. -/
theorem split_accepting (m : Moduler) (hm : m.index < m.modulo) (number : Nat) (hn : 0 < number) (i : Nat) :
    accepting (m.split number) i = if m.call i then 1 else 0 := by
  have hmod : 0 < m.modulo := by omega
  have hk : ∀ k, k < number → ((⟨m.modulo * number, m.index + k * m.modulo, m.total⟩ : Moduler).call i = true ↔
      m.call i = true ∧ k = i / m.modulo % number) := by
    intro k hk
    simp only [Moduler.call, beq_iff_eq]
    rw [Nat.mod_mul]
    constructor
    · intro h
      have h1 : (i % m.modulo + m.modulo * (i / m.modulo % number)) % m.modulo = (m.index + k * m.modulo) % m.modulo := by rw [h]
      rw [Nat.add_mul_mod_self_left, Nat.add_mul_mod_self_right, Nat.mod_mod, Nat.mod_eq_of_lt hm] at h1
      refine ⟨h1, ?_⟩
      rw [h1, Nat.mul_comm] at h
      have : (i / m.modulo % number) * m.modulo = k * m.modulo := by omega
      exact (Nat.eq_of_mul_eq_mul_right hmod this).symm
    · rintro ⟨h1, h2⟩
      rw [h1, h2, Nat.mul_comm]
  unfold accepting Moduler.split
  rw [List.filter_map, List.length_map]
  have : (List.range number).filter ((fun m : Moduler => m.call i) ∘ fun k => ⟨m.modulo * number, m.index + k * m.modulo, m.total⟩) =
      (List.range number).filter (fun k => m.call i && decide (k = i / m.modulo % number)) := by
    apply List.filter_congr
    intro k hkm
    rw [Bool.eq_iff_iff]
    simp only [Function.comp, Bool.and_eq_true, decide_eq_true_eq]
    exact hk k (List.mem_range.mp hkm)
  rw [this]
  cases hc : m.call i with
  | false => simp
  | true =>
    simp only [Bool.true_and, if_true]
    rw [← List.countP_eq_length_filter]
    have h2 : i / m.modulo % number < number := Nat.mod_lt _ hn
    have h3 := List.count_eq_one_of_mem (List.nodup_range (n := number)) (List.mem_range.mpr h2)
    rw [← h3, List.count]
    congr

theorem Splits.valid {total : Nat} {ms : List Moduler} (h : Splits total ms) : ∀ m ∈ ms, m.index < m.modulo ∧ m.total = total := by
  induction h with
  | whole => simp
  | split before after m number hn _ ih =>
    intro m' hm'
    simp only [List.mem_append, or_assoc] at hm'
    rcases hm' with h1 | h1 | h1
    · exact ih m' (by simp [h1])
    · simp only [Moduler.split, List.mem_map, List.mem_range] at h1
      obtain ⟨k, hk, rfl⟩ := h1
      obtain ⟨g1, g2⟩ := ih m (by simp)
      refine ⟨?_, g2⟩
      simp only
      calc m.index + k * m.modulo < m.modulo + k * m.modulo := by omega
        _ = m.modulo * (k + 1) := by ring
        _ ≤ m.modulo * number := Nat.mul_le_mul_left _ hk
    · exact ih m' (by simp [h1])

/-- C49 (partition): after any nested splitting, each experiment belongs to exactly one chunk. -/
theorem chunks_partition (total : Nat) (ms : List Moduler) (h : Splits total ms) (i : Nat) : accepting ms i = 1 := by
  induction h with
  | whole => simp [accepting, Moduler.call, Nat.mod_one]
  | split before after m number hn hs ih =>
    have hv := hs.valid m (by simp)
    rw [accepting_append, accepting_append, split_accepting m hv.1 number hn]
    have : accepting (before ++ m :: after) i = accepting before i + ((if m.call i then 1 else 0) + accepting after i) := by
      rw [accepting_append]
      congr 1
      unfold accepting
      rw [List.filter_cons]
      split <;> simp [Nat.add_comm]
    omega

/-- C49 (length): the announced length is the number of experiments the chunk iterates on, when the plan has the announced total
length. -/
theorem chunk_length_partial {X : Type} (plan : List X) (m : Moduler) (hm : m.index < m.modulo) (ht : m.total = plan.length) :
    (iter plan m).length = m.len := by
  unfold iter Moduler.len
  rw [List.filter_map, List.length_map, ← List.countP_eq_length_filter]
  have h1 : ∀ (l : List X) (n : Nat), (l.zipIdx n).countP ((fun e : Nat × X => m.call e.1) ∘ fun e => (e.2, e.1)) =
      (List.range' n l.length).countP m.call := by
    intro l
    induction l with
    | nil => intro n; rfl
    | cons x l ih =>
      intro n
      rw [List.zipIdx_cons, List.countP_cons, ih (n + 1), List.length_cons, List.range'_succ, List.countP_cons]
      rfl
  rw [h1, ← List.range_eq_range', ht]
  have h2 := Nat.count_modEq_card plan.length (r := m.modulo) (by omega) m.index
  rw [Nat.mod_eq_of_lt hm] at h2
  rw [← h2, Nat.count]
  apply List.countP_congr
  intro i _
  simp only [Moduler.call, beq_iff_eq, decide_eq_true_eq, Nat.ModEq, Nat.mod_eq_of_lt hm]

/-- The experiments iterated by a chunk are those of the plan at the indices it accepts, in order. -/
theorem iter_spec {X : Type} (plan : List X) (m : Moduler) :
    ((iter plan m).map (·.1)).Pairwise (· < ·) ∧ ∀ i x, (i, x) ∈ iter plan m ↔ plan[i]? = some x ∧ i % m.modulo = m.index := by
  constructor
  · unfold iter
    rw [List.pairwise_map]
    apply List.Pairwise.filter
    rw [List.pairwise_map]
    have : (plan.zipIdx.map (·.2)).Pairwise (· < ·) := by
      rw [List.zipIdx_map_snd]
      exact List.pairwise_lt_range' _
    rw [List.pairwise_map] at this
    exact this
  · intro i x
    unfold iter
    simp only [List.mem_filter, List.mem_map, Prod.exists, Prod.mk.injEq, Moduler.call, beq_iff_eq]
    constructor
    · rintro ⟨⟨a, b, h, rfl, rfl⟩, h2⟩
      exact ⟨by simpa [List.mem_zipIdx_iff_getElem?] using h, h2⟩
    · rintro ⟨h1, h2⟩
      exact ⟨⟨x, i, by simpa [List.mem_zipIdx_iff_getElem?] using h1, rfl, rfl⟩, h2⟩

/-- The announced total is the length of the plan, if that does not depend on the seed. -/
theorem plan_length {X : Type} (c : Chunk X) (h : ∀ s, (c.maker s).length = (c.maker none).length) :
    c.plan.length = c.moduler.total := by
  have hc : ∀ s, (capped c.cap (c.maker s)).length = (capped c.cap (c.maker none)).length := by
    intro s
    unfold capped
    cases c.cap <;> simp [h s]
  unfold Chunk.plan Chunk.moduler
  rw [List.length_flatten, List.map_map]
  have : (List.length ∘ fun k => capped c.cap (c.maker (c.seed.map (· + k)))) = fun _ => (capped c.cap (c.maker none)).length := by
    funext k
    exact hc _
  rw [this, List.map_const', List.sum_replicate]
  simp [Nat.mul_comm]

/-! ## interruptions -/

/-- The invariant: the summaries are those of experiments at their own index; the interrupted experiment is at the next index. -/
def Sound {X S : Type} (describe : X → S) (seen : Nat → X → Prop) (s : Memory X S) : Prop :=
  (∀ k v, s.summaries[k]? = some v → ∃ x, seen k x ∧ v = describe x) ∧ ∀ c, s.current = some c → seen s.summaries.length c

theorem compute_sound {X S : Type} (eq : X → X → Bool) (describe : X → S) (fin : Nat → Bool) (seen : Nat → X → Prop) :
    ∀ (xs : List X) (ind : Nat) (s : Memory X S), ind ≤ s.summaries.length → s.summaries.length ≤ ind + xs.length →
      Sound describe seen s → (∀ i x, xs[i]? = some x → seen (ind + i) x) →
      Sound describe seen (compute eq describe fin ind xs s).2 ∧
      s.summaries <+: (compute eq describe fin ind xs s).2.summaries ∧
      (compute eq describe fin ind xs s).2.summaries.length ≤ ind + xs.length ∧
      ((compute eq describe fin ind xs s).1 = true → (compute eq describe fin ind xs s).2.summaries.length = ind + xs.length) ∧
      ((compute eq describe fin ind xs s).1 = false →
        fin (compute eq describe fin ind xs s).2.summaries.length = false) := by
  intro xs
  induction xs with
  | nil =>
    intro ind s h1 h2 h3 _
    exact ⟨h3, List.prefix_refl _, h2, fun _ => by simp at h2 ⊢; simp only [compute]; omega, by simp [compute]⟩
  | cons x xs ih =>
    intro ind s h1 h2 h3 h4
    have h4' : ∀ i y, xs[i]? = some y → seen (ind + 1 + i) y := by
      intro i y hy
      have := h4 (i + 1) y (by simpa using hy)
      rwa [show ind + (i + 1) = ind + 1 + i by omega] at this
    simp only [List.length_cons] at h2
    simp only [compute]
    split
    · have := ih (ind + 1) s (by omega) (by omega) h3 h4'
      rw [show ind + 1 + xs.length = ind + (xs.length + 1) by omega] at this
      exact this
    · have hlen : s.summaries.length = ind := by omega
      set cur := (match s.current with
        | none => x
        | some c => if !(eq x c) then x else c) with hcur
      have hx := h4 0 x (by simp)
      have hc : seen ind cur := by
        rw [hcur]
        cases hsc : s.current with
        | none => exact hx
        | some c =>
          simp only
          split
          · exact hx
          · have := h3.2 c hsc
            rwa [hlen] at this
      split
      · have hs' : Sound describe seen ⟨s.summaries ++ [describe cur], none⟩ := by
          refine ⟨?_, by simp⟩
          intro k v hv
          rw [List.getElem?_append] at hv
          split at hv
          · exact h3.1 k v hv
          · rename_i hk
            have : k - s.summaries.length = 0 := by
              by_contra hne
              rw [List.getElem?_eq_none (by simp; omega)] at hv
              cases hv
            have hkk : k = ind := by omega
            subst hkk
            simp [hlen] at hv
            exact ⟨cur, hc, hv.symm⟩
        have := ih (ind + 1) ⟨s.summaries ++ [describe cur], none⟩ (by simp [hlen]) (by simp [hlen]) hs' h4'
        rw [show ind + 1 + xs.length = ind + (xs.length + 1) by omega] at this
        exact ⟨this.1, (List.prefix_append _ _).trans this.2.1, this.2.2⟩
      · rename_i hf
        refine ⟨⟨h3.1, ?_⟩, List.prefix_refl _, ?_, by simp, ?_⟩
        · intro c hcc
          simp only [Option.some.injEq] at hcc
          have : seen s.summaries.length cur := by rw [hlen]; exact hc
          exact hcc ▸ this
        · simp only [List.length_cons]; omega
        · intro _
          simpa [hlen] using hf

/-- Computations of a chunk, each interrupted or not, on the experiments generated by each of them. -/
def attempts {X S : Type} (eq : X → X → Bool) (describe : X → S) : List ((Nat → Bool) × List X) → Memory X S → Memory X S
  | [], s => s
  | a :: as, s => attempts eq describe as (compute eq describe a.1 0 a.2 s).2

/-- C49 (resuming): whatever the interruptions, and even if the generated experiments differ from one computation to the next
as long as their number does not, the summaries are one per index, in order, each of an experiment generated for that index;
those already made are never changed, and they are complete when the last computation was not interrupted. -/
theorem resume_spec {X S : Type} (eq : X → X → Bool) (describe : X → S) (n : Nat) (as : List ((Nat → Bool) × List X))
    (hn : ∀ a ∈ as, a.2.length = n) :
    (attempts eq describe as ⟨[], none⟩).summaries.length ≤ n ∧
    (∀ (k : Nat) (v : S), (attempts eq describe as ⟨[], none⟩).summaries[k]? = some v → ∃ a ∈ as, ∃ x, a.2[k]? = some x ∧ v = describe x) ∧
    (∀ bs, as <+: bs → (∀ a ∈ bs, a.2.length = n) →
      (attempts eq describe as ⟨[], none⟩).summaries <+: (attempts eq describe bs ⟨[], none⟩).summaries) ∧
    (∀ fin xs, xs.length = n → (compute eq describe fin 0 xs (attempts eq describe as ⟨[], none⟩)).1 = true →
      (attempts eq describe (as ++ [(fin, xs)]) ⟨[], none⟩).summaries.length = n) := by
  have gen : ∀ (as all : List ((Nat → Bool) × List X)) (s : Memory X S), (∀ a ∈ as, a ∈ all) → (∀ a ∈ as, a.2.length = n) →
      Sound describe (fun k x => ∃ a ∈ all, a.2[k]? = some x) s → s.summaries.length ≤ n →
      Sound describe (fun k x => ∃ a ∈ all, a.2[k]? = some x) (attempts eq describe as s) ∧
      (attempts eq describe as s).summaries.length ≤ n ∧ s.summaries <+: (attempts eq describe as s).summaries := by
    intro as
    induction as with
    | nil => intro all s _ _ h1 h2; exact ⟨h1, h2, List.prefix_refl _⟩
    | cons a as ih =>
      intro all s hall hlen h1 h2
      have ha := hlen a (by simp)
      obtain ⟨g1, g2, g3, _⟩ := compute_sound eq describe a.1 (fun k x => ∃ a ∈ all, a.2[k]? = some x) a.2 0 s (Nat.zero_le _)
        (by omega) h1 (fun i x hx => ⟨a, hall a (by simp), by simpa using hx⟩)
      obtain ⟨k1, k2, k3⟩ := ih all _ (fun b hb => hall b (by simp [hb])) (fun b hb => hlen b (by simp [hb])) g1 (by omega)
      exact ⟨k1, k2, g2.trans k3⟩
  have app : ∀ (as bs : List ((Nat → Bool) × List X)) (s : Memory X S),
      attempts eq describe (as ++ bs) s = attempts eq describe bs (attempts eq describe as s) := by
    intro as
    induction as with
    | nil => intro bs s; rfl
    | cons a as ih => intro bs s; exact ih bs _
  have h0 : ∀ all : List ((Nat → Bool) × List X), Sound describe (fun k x => ∃ a ∈ all, a.2[k]? = some x) ⟨[], none⟩ := by
    intro all
    exact ⟨by simp, by simp⟩
  obtain ⟨h1, h2, _⟩ := gen as as ⟨[], none⟩ (fun a ha => ha) hn (h0 as) (Nat.zero_le _)
  refine ⟨h2, ?_, ?_, ?_⟩
  · intro k v hv
    obtain ⟨x, ⟨a, ha, hx⟩, hvx⟩ := h1.1 k v hv
    exact ⟨a, ha, x, hx, hvx⟩
  · rintro bs ⟨cs, rfl⟩ hb
    rw [app]
    obtain ⟨g1, g2, _⟩ := gen as (as ++ cs) ⟨[], none⟩ (fun a ha => by simp [ha]) hn (h0 _) (Nat.zero_le _)
    exact (gen cs (as ++ cs) _ (fun a ha => by simp [ha]) (fun a ha => hb a (by simp [ha])) g1 g2).2.2
  · intro fin xs hxs hfin
    rw [app]
    have := (compute_sound eq describe fin (fun _ _ => True) xs 0 (attempts eq describe as ⟨[], none⟩) (Nat.zero_le _) (by omega)
      ⟨fun k v hv => by obtain ⟨x, _, hvx⟩ := h1.1 k v hv; exact ⟨x, trivial, hvx⟩, fun _ _ => trivial⟩ (fun _ _ _ => trivial)).2.2.2.1 hfin
    simpa [attempts, hxs] using this

/-! ## cases and failures -/

example : ((⟨1, 0, 7⟩ : Moduler).split 3).map (fun m => (iter "abcdefg".toList m).map (·.1)) = [[0, 3, 6], [1, 4], [2, 5]] := by decide
example : ((⟨1, 0, 7⟩ : Moduler).split 3).map Moduler.len = [3, 2, 2] := by decide
example : (((⟨3, 1, 7⟩ : Moduler).split 2).map Moduler.len, ((⟨3, 1, 7⟩ : Moduler).split 2).map Moduler.index) = ([1, 1], [1, 4]) := by decide

/-- Interrupted at the second experiment, then resumed: one summary each. -/
example : (attempts (fun a b => a == b) id [(fun i => i != 1, [10, 20, 30]), (fun _ => true, [10, 20, 30])] ⟨[], none⟩).summaries
    = [10, 20, 30] := by decide

/-- When the number of experiments depends on the seed, the announced length is wrong: it is computed without the seed. -/
theorem seeded_length_differs : ∃ c : Chunk Nat, c.plan.length = 3 ∧ c.moduler.total = 1 :=
  ⟨⟨fun s => match s with | none => [0] | some _ => [1, 2, 3], 1, some 12, none⟩, by decide, by decide⟩

/-- Splitting in 0 parts loses all experiments, without an error. -/
theorem split_zero (m : Moduler) (i : Nat) : accepting (m.split 0) i = 0 := rfl

end Bench
end NG
