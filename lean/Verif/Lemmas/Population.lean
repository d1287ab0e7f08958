import Verif.Model.Population
import Verif.Props.Queue
import Verif.Props.Tools
import Mathlib.Data.List.Nodup
import Mathlib.Data.List.Perm.Subperm

/-! # Lemmas on population dicts and queues -/

namespace NG
namespace Pop
open Tools

section Dict
variable {K V : Type} [DecidableEq K]

/-- The keys of a dict. -/
def keys (d : List (K × V)) : List K := d.map (·.1)

theorem mem_keys_iff (d : List (K × V)) (k : K) : k ∈ keys d ↔ ∃ v, dictGet d k = some v := by
  induction d with
  | nil => simp [keys, dictGet]
  | cons e d ih =>
    simp only [keys, dictGet, List.map_cons, List.mem_cons, List.find?_cons] at ih ⊢
    by_cases h : e.1 = k
    · simp [h]
    · simp only [h, decide_false]
      rw [ih]
      simp [Ne.symm h]

omit [DecidableEq K] in
theorem keys_cons (e : K × V) (d : List (K × V)) : keys (e :: d) = e.1 :: keys d := rfl

theorem keys_set (k : K) (v : V) (d : List (K × V)) : keys (dictSet k v d) = if k ∈ keys d then keys d else keys d ++ [k] := by
  induction d with
  | nil => simp [keys, dictSet]
  | cons e d ih =>
    by_cases h : e.1 = k
    · simp [dictSet, h, keys_cons]
    · by_cases hk : k ∈ keys d
      · simp [dictSet, h, keys_cons, ih, hk]
      · simp [dictSet, h, keys_cons, ih, hk, Ne.symm h]

theorem keys_del (k : K) (d : List (K × V)) : keys (dictDel k d) = (keys d).filter (fun x => x ≠ k) := by
  induction d with
  | nil => rfl
  | cons e d ih =>
    simp only [keys, dictDel, List.map_cons, List.filter_cons] at ih ⊢
    by_cases h : e.1 = k
    · simpa [h] using ih
    · simpa [h] using ih

omit [DecidableEq K] in
theorem length_keys (d : List (K × V)) : (keys d).length = d.length := by simp [keys]

theorem mem_set (k : K) (v : V) (d : List (K × V)) (hn : (keys d).Nodup) (e : K × V) :
    e ∈ dictSet k v d ↔ e = (k, v) ∨ (e ∈ d ∧ e.1 ≠ k) := by
  induction d with
  | nil => simp [dictSet]
  | cons f d ih =>
    simp only [keys, List.map_cons, List.nodup_cons] at hn
    have ih := ih hn.2
    simp only [dictSet]
    by_cases h : f.1 = k
    · simp only [h, if_true, List.mem_cons]
      have : ∀ e ∈ d, e.1 ≠ k := fun e he hc => hn.1 (List.mem_map.mpr ⟨e, he, hc.trans h.symm⟩)
      constructor
      · rintro (h1 | h1)
        · exact Or.inl h1
        · exact Or.inr ⟨Or.inr h1, this e h1⟩
      · rintro (h1 | ⟨h1 | h1, h2⟩)
        · exact Or.inl h1
        · exact absurd (h1 ▸ h) h2
        · exact Or.inr h1
    · simp only [h, if_false, List.mem_cons, ih]
      constructor
      · rintro (h1 | h1 | h1)
        · exact Or.inr ⟨Or.inl h1, h1 ▸ h⟩
        · exact Or.inl h1
        · exact Or.inr ⟨Or.inr h1.1, h1.2⟩
      · rintro (h1 | ⟨h1 | h1, h2⟩)
        · exact Or.inr (Or.inl h1)
        · exact Or.inl h1
        · exact Or.inr (Or.inr ⟨h1, h2⟩)

theorem mem_del (k : K) (d : List (K × V)) (e : K × V) : e ∈ dictDel k d ↔ e ∈ d ∧ e.1 ≠ k := by
  simp [dictDel]

theorem get_mem (d : List (K × V)) (k : K) (v : V) (h : dictGet d k = some v) : (k, v) ∈ d := by
  simp only [dictGet, Option.map_eq_some_iff] at h
  obtain ⟨e, he, rfl⟩ := h
  have h1 := List.mem_of_find?_eq_some he
  have h2 := List.find?_some he
  simp only [decide_eq_true_eq] at h2
  rw [← h2]
  exact h1

theorem mem_get (d : List (K × V)) (hn : (keys d).Nodup) (k : K) (v : V) (h : (k, v) ∈ d) : dictGet d k = some v := by
  obtain ⟨w, hw⟩ := (mem_keys_iff d k).mp (List.mem_map.mpr ⟨_, h, rfl⟩)
  have := get_mem d k w hw
  rw [hw]
  congr 1
  by_contra hne
  induction d with
  | nil => cases h
  | cons e d ih =>
    simp only [keys, List.map_cons, List.nodup_cons] at hn
    rcases List.mem_cons.mp h with h1 | h1 <;> rcases List.mem_cons.mp this with h2 | h2
    · rw [← h2] at h1; exact hne (Prod.ext_iff.mp h1).2.symm
    · exact hn.1 (List.mem_map.mpr ⟨_, h2, by rw [← h1]⟩)
    · exact hn.1 (List.mem_map.mpr ⟨_, h1, by rw [← h2]⟩)
    · have hk : e.1 ≠ k := fun hc => hn.1 (List.mem_map.mpr ⟨_, h1, hc.symm⟩)
      refine ih hn.2 h1 ?_ h2
      simpa [dictGet, List.find?_cons, hk] using hw

theorem nodup_set (k : K) (v : V) (d : List (K × V)) (h : (keys d).Nodup) : (keys (dictSet k v d)).Nodup := by
  rw [keys_set]
  split
  · exact h
  · rename_i hk
    rw [List.nodup_append]
    exact ⟨h, by simp, by intro a ha b hb hab; simp only [List.mem_singleton] at hb; subst hb hab; exact hk ha⟩

theorem nodup_del (k : K) (d : List (K × V)) (h : (keys d).Nodup) : (keys (dictDel k d)).Nodup := by
  rw [keys_del]; exact h.filter _

theorem length_set (k : K) (v : V) (d : List (K × V)) :
    (dictSet k v d).length = if k ∈ keys d then d.length else d.length + 1 := by
  rw [← length_keys, keys_set]
  split <;> simp [length_keys]

theorem length_del (k : K) (d : List (K × V)) (h : k ∈ keys d) : (dictDel k d).length < d.length := by
  rw [← length_keys, ← length_keys d, keys_del]
  refine List.length_filter_lt_length_iff_exists.mpr ⟨k, h, by simp⟩

end Dict

section Queue
variable {U : Type} [DecidableEq U]
open UidQueue

theorem holds_register (q : UidQueue U) (u v : U) : (q.register u).Holds v ↔ q.Holds v ∨ v = u := by
  simp only [Holds, register, OrderedSet.mem_add]
  tauto

theorem discard_some_of_holds (q : UidQueue U) (u : U) (h : q.Holds u) : ∃ q', q.discard u = some q' := by
  unfold UidQueue.discard
  by_cases hu : u ∈ q.asked.iter
  · rw [OrderedSet.discard_some _ _ hu]; exact ⟨_, rfl⟩
  · rw [OrderedSet.discard_none _ _ hu]
    rcases h with h | h
    · simp [h]
    · exact absurd h hu

theorem discard_holds_other (q q' : UidQueue U) (u v : U) (hd : q.discard u = some q') (hv : q.Holds v) (hne : v ≠ u) :
    q'.Holds v := by
  unfold UidQueue.discard at hd
  by_cases hu : u ∈ q.asked.iter
  · rw [OrderedSet.discard_some _ _ hu] at hd
    simp only [Option.some.injEq] at hd
    subst hd
    unfold Holds at hv ⊢
    simp only
    rw [OrderedSet.iter_remove, OrderedSet.mem_filter_ne]
    tauto
  · rw [OrderedSet.discard_none _ _ hu] at hd
    by_cases ht : u ∈ q.told
    · simp only [ht, if_true, Option.some.injEq] at hd
      subst hd
      unfold Holds at hv ⊢
      simp only
      rcases hv with hv | hv
      · exact Or.inl ((List.mem_erase_of_ne hne).mpr hv)
      · exact Or.inr hv
    · simp [ht] at hd

theorem discard_asked (q q' : UidQueue U) (u v : U) (hd : q.discard u = some q') :
    v ∈ q'.asked.iter ↔ v ∈ q.asked.iter ∧ v ≠ u := by
  unfold UidQueue.discard at hd
  by_cases hu : u ∈ q.asked.iter
  · rw [OrderedSet.discard_some _ _ hu] at hd
    simp only [Option.some.injEq] at hd
    subst hd
    simp only
    rw [OrderedSet.iter_remove, OrderedSet.mem_filter_ne]
  · rw [OrderedSet.discard_none _ _ hu] at hd
    by_cases ht : u ∈ q.told
    · simp only [ht, if_true, Option.some.injEq] at hd
      subst hd
      simp only
      constructor
      · intro hv; exact ⟨hv, fun hc => hu (hc ▸ hv)⟩
      · exact fun hv => hv.1
    · simp [ht] at hd

theorem ask_holds (q q' : UidQueue U) (k v : U) (h : q.ask = some (k, q')) : (q'.Holds v ↔ q.Holds v) ∧ q.Holds k := by
  have h1 := holds_step_ask q v
  simp only [UidQueue.step, h] at h1
  refine ⟨h1, ?_⟩
  unfold UidQueue.ask at h
  unfold Holds
  cases ht : q.told with
  | nil =>
    rw [ht] at h
    cases hi : q.asked.iter with
    | nil => simp [hi] at h
    | cons a l => simp [hi] at h; right; rw [← h.1]; simp
  | cons a l => rw [ht] at h; simp at h; left; rw [← h.1]; simp

theorem ask_unique (q q' : UidQueue U) (k : U) (h : q.ask = some (k, q')) (hu : q.Unique) : q'.Unique := by
  have := unique_step q .ask hu trivial
  simpa [UidQueue.step, h] using this

end Queue

end Pop
end NG
