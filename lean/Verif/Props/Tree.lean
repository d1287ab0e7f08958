import Verif.Lemmas.Tree
import Mathlib.Tactic.FieldSimp
import Mathlib.Tactic.Ring
import Mathlib.Data.Rat.Defs
import Mathlib.Algebra.Order.Ring.Rat

/-!
# C24, C25: standardized data of nested parametrizations
-/

namespace NG
namespace Tree
variable {K α : Type} [LinearOrder K]

section spec
variable [Field α]

/-- Specification: a usable parametrization. Sigmas are non-zero and as many as the entries, keys are distinct, and size
caches, when present, tell the true sizes (in sorted key order). -/
inductive WF : Tree K α → Prop
  | const : WF .const
  | leaf (v s : List α) (hl : s.length = v.length) (h0 : ∀ x ∈ s, x ≠ 0) : WF (.leaf v s)
  | node (sizes : Option (List (K × Nat))) (c : List (K × Tree K α)) (hk : (c.map (·.1)).Nodup) (hc : ∀ e ∈ c, WF e.2)
      (hs : ∀ sz, sizes = some sz → sz = sortKeys (c.map (fun e => (e.1, dim e.2)))) : WF (.node sizes c)

/-- Specification: same structure, as a parameter and its reference have. -/
inductive Same : Tree K α → Tree K α → Prop
  | const : Same .const .const
  | leaf (v s v' s' : List α) (h : v.length = v'.length) : Same (.leaf v s) (.leaf v' s')
  | node (sz sz' : Option (List (K × Nat))) (c c' : List (K × Tree K α)) (hk : (c.map (·.1)).Perm (c'.map (·.1)))
      (hc : ∀ k t t', (k, t) ∈ c → (k, t') ∈ c' → Same t t') : Same (.node sz c) (.node sz' c')

end spec

theorem same_refl [Field α] : ∀ t : Tree K α, WF t → Same t t := by
  intro t
  induction t using ind with
  | hc => intro _; exact .const
  | hl v s => intro _; exact .leaf _ _ _ _ rfl
  | hn s c ih =>
    intro h
    cases h with
    | node _ _ hk hc hs =>
      refine .node _ _ _ _ (List.Perm.refl _) ?_
      intro k t t' h1 h2
      have e1 := (lookup_mem (l := c) hk k t).2 h1
      have e2 := (lookup_mem (l := c) hk k t').2 h2
      rw [e1] at e2
      cases e2
      exact ih (k, t) h1 (hc _ h1)

theorem same_dim [Field α] : ∀ t : Tree K α, WF t → ∀ t', WF t' → Same t t' → dim t = dim t' := by
  intro t
  induction t using ind with
  | hc => intro _ t' _ h; cases h; rfl
  | hl v s => intro _ t' _ h; cases h with | leaf _ _ _ _ h => simpa [dim] using h
  | hn s c ih =>
    intro h t' h' hsame
    cases hsame with
    | node _ sz' _ c' hk hc =>
      cases h with
      | node _ _ hkc hcc _ =>
        cases h' with
        | node _ _ hkc' hcc' _ =>
          simp only [dim]
          rw [dimL_eq, dimL_eq]
          have e1 : keys (sortKeys (c.map (fun e => (e.1, dim e.2)))) = keys (sortKeys (c'.map (fun e => (e.1, dim e.2)))) := by
            apply keys_sortKeys_eq
            simpa [keys, Function.comp_def] using hk
          have p1 : (c.map (fun e => (e.1, dim e.2))).Perm (c'.map (fun e => (e.1, dim e.2))) := by
            refine (List.perm_ext_iff_of_nodup ?_ ?_).2 ?_
            · apply List.Nodup.of_map (·.1); simpa [Function.comp_def] using hkc
            · apply List.Nodup.of_map (·.1); simpa [Function.comp_def] using hkc'
            · rintro ⟨k, n⟩
              constructor
              · intro hm0
                obtain ⟨⟨k', t⟩, hm, he⟩ := List.mem_map.1 hm0
                simp only [Prod.mk.injEq] at he
                obtain ⟨rfl, rfl⟩ := he
                obtain ⟨⟨k'', t'⟩, hm', he⟩ := List.mem_map.1 (hk.mem_iff.1 (List.mem_map.2 ⟨_, hm, rfl⟩))
                simp only at he
                subst he
                refine List.mem_map.2 ⟨_, hm', ?_⟩
                simp only [Prod.mk.injEq, true_and]
                exact (ih _ hm (hcc _ hm) t' (hcc' _ hm') (hc _ _ _ hm hm')).symm
              · intro hm0
                obtain ⟨⟨k', t'⟩, hm', he⟩ := List.mem_map.1 hm0
                simp only [Prod.mk.injEq] at he
                obtain ⟨rfl, rfl⟩ := he
                obtain ⟨⟨k'', t⟩, hm, he⟩ := List.mem_map.1 (hk.mem_iff.2 (List.mem_map.2 ⟨_, hm', rfl⟩))
                simp only at he
                subst he
                refine List.mem_map.2 ⟨_, hm, ?_⟩
                simp only [Prod.mk.injEq, true_and]
                exact (ih _ hm (hcc _ hm) t' (hcc' _ hm') (hc _ _ _ hm hm'))
          have := (p1.map (·.2)).sum_eq
          simpa [Function.comp_def] using this

variable [Field α]

theorem reduced_length (v s : List α) (h : s.length = v.length) : (reduced v s).length = v.length := by
  simp [reduced, h]

/-- What a container computes, entry by entry. -/
theorem get_node (sz sz' : Option (List (K × Nat))) (rc c : List (K × Tree K α)) (g : K → List α)
    (hkr : (keys rc).Nodup) (hk : (keys c).Perm (keys rc))
    (hg : ∀ k r t, (k, r) ∈ rc → (k, t) ∈ c → get r t = some (g k))
    (hs : ∀ z, sz = some z → keys z = keys (sortKeys rc)) :
    get (.node sz' rc) (.node sz c) = some ((keys (sortKeys rc)).map g).flatten := by
  have hkc : (keys c).Nodup := hk.nodup_iff.2 hkr
  have h1 : getL rc c = some (rc.map (fun e => (e.1, g e.1))) := by
    rw [getL_iff, List.forall₂_map_right_iff, List.forall₂_same]
    rintro ⟨k, r⟩ hm
    refine ⟨rfl, ?_⟩
    have : k ∈ keys c := hk.mem_iff.2 (List.mem_map.2 ⟨_, hm, rfl⟩)
    obtain ⟨⟨k', t⟩, hm', he⟩ := List.mem_map.1 this
    simp only at he
    subst he
    exact ⟨t, (lookup_mem hkc _ _).2 hm', hg _ _ _ hm hm'⟩
  rw [get]
  simp only [h1]
  have hz : keys (sz.getD (sortKeys ((rc.map (fun e => (e.1, g e.1))).map (fun e => (e.1, e.2.length))))) = keys (sortKeys rc) := by
    cases sz with
    | none =>
      simp only [Option.getD_none]
      apply keys_sortKeys_eq
      simp [keys, Function.comp_def]
    | some z => exact hs z rfl
  generalize sz.getD (sortKeys ((rc.map (fun e => (e.1, g e.1))).map (fun e => (e.1, e.2.length)))) = z at hz
  have hl : ∀ e ∈ z, lookup (rc.map (fun e => (e.1, g e.1))) e.1 = some (g e.1) := by
    intro e he
    have hm : e.1 ∈ keys rc := by
      rw [← (keys_sortKeys_perm rc).mem_iff, ← hz]
      exact List.mem_map.2 ⟨_, he, rfl⟩
    obtain ⟨x, hx, hxe⟩ := List.mem_map.1 hm
    rw [lookup_mem (by simpa [keys, Function.comp_def] using hkr)]
    exact List.mem_map.2 ⟨x, hx, by rw [← hxe]⟩
  have hmap : z.mapM (fun e => lookup (rc.map (fun e => (e.1, g e.1))) e.1) = some (z.map (fun e => g e.1)) := by
    clear hz h1
    induction z with
    | nil => rfl
    | cons e z ih =>
      rw [List.mapM_cons, hl e List.mem_cons_self, ih (fun x hx => hl x (List.mem_cons_of_mem _ hx))]
      rfl
  rw [hmap, ← hz]
  simp [keys, Function.comp_def]

/-- The data of a parameter relative to a reference of the same structure exists and has the dimension. -/
theorem get_some : ∀ t : Tree K α, WF t → ∀ r, WF r → Same t r → ∃ d, get r t = some d ∧ d.length = dim t := by
  intro t
  induction t using ind with
  | hc => intro _ r _ h; cases h; exact ⟨[], rfl, rfl⟩
  | hl v s =>
    intro h r hr hs
    cases hs with
    | leaf _ _ rv rs hl =>
      cases hr with
      | leaf _ _ hrl _ =>
        refine ⟨_, by simp only [get, leafGet]; rw [if_pos hl], ?_⟩
        rw [reduced_length _ _ (by simp [hl, hrl])]
        simp [dim, hl]
  | hn s c ih =>
    intro h r hr hs
    cases hs with
    | node _ sz' _ rc hk hc =>
      cases h with
      | node _ _ hkc hcc hsz =>
        have hwf := hr
        cases hr with
        | node _ _ hkr hcr _ =>
          have hex : ∀ k, ∃ d, ∀ r t, (k, r) ∈ rc → (k, t) ∈ c → get r t = some d ∧ d.length = dim t := by
            intro k
            by_cases hm : k ∈ keys c
            · obtain ⟨⟨k', t⟩, hm', he⟩ := List.mem_map.1 hm
              simp only at he; subst he
              obtain ⟨⟨k'', r⟩, hr', he⟩ := List.mem_map.1 (hk.mem_iff.1 (List.mem_map.2 ⟨_, hm', rfl⟩))
              simp only at he; subst he
              obtain ⟨d, hd, hdl⟩ := ih _ hm' (hcc _ hm') r (hcr _ hr') (hc _ _ _ hm' hr')
              refine ⟨d, fun r2 t2 h1 h2 => ?_⟩
              have e1 := (lookup_mem (l := rc) hkr _ _).2 h1
              rw [(lookup_mem (l := rc) hkr _ _).2 hr'] at e1
              have e2 := (lookup_mem (l := c) hkc _ _).2 h2
              rw [(lookup_mem (l := c) hkc _ _).2 hm'] at e2
              cases e1; cases e2
              exact ⟨hd, hdl⟩
            · exact ⟨[], fun r t _ h2 => (hm (List.mem_map.2 ⟨_, h2, rfl⟩)).elim⟩
          choose g hg using hex
          have hsk : keys (sortKeys (c.map (fun e => (e.1, dim e.2)))) = keys (sortKeys rc) := by
            apply keys_sortKeys_eq
            simpa [keys, Function.comp_def] using hk
          refine ⟨_, get_node s sz' rc c g hkr hk (fun k r t h1 h2 => (hg k r t h1 h2).1) (fun z hz => by rw [hsz z hz, hsk]), ?_⟩
          rw [List.length_flatten]
          have h2 : (keys (sortKeys rc)).Perm (keys c) := (keys_sortKeys_perm rc).trans hk.symm
          rw [List.map_map]
          rw [(h2.map _).sum_eq]
          simp only [dim]
          rw [dimL_eq, keys, List.map_map]
          congr 1
          apply List.map_congr_left
          intro e he
          obtain ⟨⟨k'', r⟩, hr', he'⟩ := List.mem_map.1 (hk.mem_iff.1 (List.mem_map.2 ⟨_, he, rfl⟩))
          simp only at he'
          exact (hg e.1 r e.2 (by rw [← he']; exact hr') he).2

/-- The sizes a usable container works with. -/
theorem sizesOf_eq (sizes : Option (List (K × Nat))) (c : List (K × Tree K α)) (h : WF (.node sizes c)) :
    sizesOf sizes c = some (sortKeys (c.map (fun e => (e.1, dim e.2)))) := by
  cases h with
  | node _ _ hk hc hs =>
    cases sizes with
    | some z => simp only [sizesOf]; rw [hs z rfl]
    | none =>
      have hex : ∀ k, ∃ d : List α, ∀ t, (k, t) ∈ c → get t t = some d ∧ d.length = dim t := by
        intro k
        by_cases hm : k ∈ keys c
        · obtain ⟨⟨k', t⟩, hm', he⟩ := List.mem_map.1 hm
          simp only at he; subst he
          obtain ⟨d, hd⟩ := get_some t (hc _ hm') t (hc _ hm') (same_refl t (hc _ hm'))
          refine ⟨d, fun t2 h2 => ?_⟩
          have e2 := (lookup_mem (l := c) hk _ _).2 h2
          rw [(lookup_mem (l := c) hk _ _).2 hm'] at e2
          cases e2
          exact hd
        · exact ⟨[], fun t h2 => (hm (List.mem_map.2 ⟨_, h2, rfl⟩)).elim⟩
      choose g hg using hex
      have h1 : getL c c = some (c.map (fun e => (e.1, g e.1))) := by
        rw [getL_iff, List.forall₂_map_right_iff, List.forall₂_same]
        rintro ⟨k, t⟩ hm
        exact ⟨rfl, t, (lookup_mem (l := c) hk _ _).2 hm, (hg _ _ hm).1⟩
      simp only [sizesOf, h1, Option.map_some, Option.some.injEq, List.map_map]
      congr 1
      apply List.map_congr_left
      rintro ⟨k, t⟩ hm
      simp only [Function.comp_def, Prod.mk.injEq, true_and]
      exact (hg _ _ hm).2

theorem leaf_roundtrip (rv rs d : List α) (h1 : rs.length = rv.length) (h2 : d.length = rv.length) (h0 : ∀ x ∈ rs, x ≠ 0) :
    reduced (List.zipWith (· - ·) (List.zipWith (· * ·) rs (List.zipWith (· + ·) d (reduced rv rs))) rv) rs = d := by
  unfold reduced
  induction rv generalizing rs d with
  | nil =>
    have : d = [] := List.length_eq_zero_iff.1 h2
    simp [this]
  | cons a rv ih =>
    cases rs with
    | nil => simp at h1
    | cons s rs =>
      cases d with
      | nil => simp at h2
      | cons x d =>
        simp only [List.zipWith_cons_cons, List.cons.injEq]
        have hs : s ≠ 0 := h0 s List.mem_cons_self
        refine ⟨by field_simp; ring, ?_⟩
        exact ih rs d (by simpa using h1) (by simpa using h2) (fun x hx => h0 x (List.mem_cons_of_mem _ hx))

/-- C24: data of the right size is accepted, and is what is read back relative to the same reference. The new parameter
has the same structure, so the property can be used again. -/
theorem set_get : ∀ t : Tree K α, WF t → ∀ r, WF r → Same t r → ∀ d : List α, d.length = dim t →
    ∃ t', set t r d = some t' ∧ get r t' = some d ∧ WF t' ∧ Same t' r ∧ dim t' = dim t := by
  intro t
  induction t using ind with
  | hc =>
    intro _ r _ h d hd
    cases h
    have : d = [] := List.length_eq_zero_iff.1 hd
    subst this
    exact ⟨.const, rfl, rfl, .const, .const, rfl⟩
  | hl v s =>
    intro h r hr hs d hd
    cases hs with
    | leaf _ _ rv rs hl =>
      cases hr with
      | leaf _ _ hrl h0 =>
        cases h with
        | leaf _ _ hsl hs0 =>
          have hd' : d.length = rv.length := by rw [← hl]; exact hd
          have hb : broadcast d rv.length = some d := by unfold broadcast; rw [if_pos hd']
          have hlen : (List.zipWith (· * ·) rs (List.zipWith (· + ·) d (reduced rv rs))).length = rv.length := by
            simp [reduced, hd', hrl]
          refine ⟨_, by simp only [set, leafSet, hb, Option.map_some], ?_, .leaf _ _ (by rw [hlen, ← hl, hsl]) hs0, .leaf _ _ _ _ hlen,
            by simp only [dim]; rw [hlen, hl]⟩
          simp only [get, leafGet]
          rw [if_pos hlen, leaf_roundtrip rv rs d hrl hd' h0]
  | hn s c ih =>
    intro h r hr hs d hd
    have hsz := sizesOf_eq s c h
    cases hs with
    | node _ sz' _ rc hk hc =>
      cases h with
      | node _ _ hkc hcc hszs =>
        cases hr with
        | node _ _ hkr hcr _ =>
          set sz := sortKeys (c.map (fun e => (e.1, dim e.2))) with hszdef
          have hszk : (keys sz).Nodup := sortKeys_nodup (by simpa [keys, Function.comp_def] using hkc)
          have hsum : (sz.map (·.2)).sum = dim (.node s c) := by
            have := ((sortKeys_perm (c.map (fun e => (e.1, dim e.2)))).map (·.2)).sum_eq
            rw [← hszdef] at this
            rw [this]
            simp only [dim]
            rw [dimL_eq, List.map_map]
            rfl
          have hdl : d.length = (sz.map (·.2)).sum := by rw [hsum]; exact hd
          have hmem : ∀ e ∈ c, (e.1, dim e.2) ∈ sz := fun e he =>
            (sortKeys_perm _).mem_iff.2 (List.mem_map.2 ⟨e, he, rfl⟩)
          have hsl : ∀ e ∈ c, ∃ x, slice sz d e.1 = some x ∧ x.length = dim e.2 := fun e he =>
            slice_mem sz hszk d hdl _ (hmem e he)
          have href : ∀ e ∈ c, ∃ r, (e.1, r) ∈ rc := by
            intro e he
            obtain ⟨⟨k, r⟩, hr', he'⟩ := List.mem_map.1 (hk.mem_iff.1 (List.mem_map.2 ⟨e, he, rfl⟩))
            simp only at he'
            subst he'
            exact ⟨r, hr'⟩
          have hch : ∀ e ∈ c, ∃ x r t', slice sz d e.1 = some x ∧ (e.1, r) ∈ rc ∧ lookup rc e.1 = some r ∧ set e.2 r x = some t' ∧
              get r t' = some x ∧ WF t' ∧ Same t' r ∧ dim t' = dim e.2 := by
            intro e he
            obtain ⟨x, hx, hxl⟩ := hsl e he
            obtain ⟨r, hr'⟩ := href e he
            obtain ⟨t', q1, q2, q3, q4, q5⟩ := ih e he (hcc e he) r (hcr _ hr') (hc _ _ _ he hr') x hxl
            exact ⟨x, r, t', hx, hr', (lookup_mem (l := rc) hkr _ _).2 hr', q1, q2, q3, q4, q5⟩
          have hall : sz.all (fun e => (lookup c e.1).isSome && (lookup rc e.1).isSome) = true := by
            rw [List.all_eq_true]
            intro e he
            obtain ⟨x, hx, hxe⟩ := List.mem_map.1 ((sortKeys_perm _).mem_iff.1 he)
            have hk1 : e.1 ∈ keys c := List.mem_map.2 ⟨x, hx, by rw [← hxe]⟩
            have hk2 : e.1 ∈ keys rc := hk.mem_iff.1 hk1
            rw [(lookup_isSome c e.1).2 hk1, (lookup_isSome rc e.1).2 hk2]
            rfl
          -- the new content
          have hc' : ∃ c', List.Forall₂ (fun (e f : K × Tree K α) => f.1 = e.1 ∧ ∃ x r, slice sz d e.1 = some x ∧ (e.1, r) ∈ rc ∧
              lookup rc e.1 = some r ∧ set e.2 r x = some f.2 ∧ get r f.2 = some x ∧ WF f.2 ∧ Same f.2 r ∧ dim f.2 = dim e.2) c c' := by
            apply forall₂_exists
            intro e he
            obtain ⟨x, r, t', q⟩ := hch e he
            exact ⟨(e.1, t'), rfl, x, r, q⟩
          obtain ⟨c', hc'⟩ := hc'
          have hkeys : keys c' = keys c := forall₂_map hc' _ _ (fun e f h => h.1)
          have hdims : c'.map (fun e => (e.1, dim e.2)) = c.map (fun e => (e.1, dim e.2)) :=
            forall₂_map hc' _ _ (fun e f h => by
              obtain ⟨hk1, x, r, _, _, _, _, _, _, _, hdim⟩ := h
              rw [hk1, hdim])
          have hmem' : ∀ k t', (k, t') ∈ c' → ∃ x r, slice sz d k = some x ∧ (k, r) ∈ rc ∧ get r t' = some x ∧ WF t' ∧ Same t' r := by
            intro k t' hm
            obtain ⟨e, he, h1, x, r, q1, q2, _, _, q5, q6, q7, _⟩ := forall₂_mem hc' hm
            simp only at h1
            subst h1
            exact ⟨x, r, q1, q2, q5, q6, q7⟩
          have hset : set (.node s c) (.node sz' rc) d = some (.node (some sz) c') := by
            rw [set]
            simp only [hsz]
            rw [if_neg (by simpa using hdl), if_pos hall]
            have : setL c rc sz d = some c' := by
              rw [setL_iff _ _ _ _ _ (fun e he => by obtain ⟨x, hx, _⟩ := hsl e he; rw [hx]; rfl)]
              exact hc'.imp (fun e f h => by
                obtain ⟨h1, x, r, q1, _, q3, q4, _⟩ := h
                exact ⟨h1, x, r, q1, q3, q4⟩)
            simp only [this]
          have hk' : (keys c').Perm (keys rc) := by rw [hkeys]; exact hk
          have hwf' : WF (.node (some sz) c') := by
            refine .node _ _ ?_ ?_ ?_
            · show (keys c').Nodup
              rw [hkeys]; exact hkc
            · rintro ⟨k, t'⟩ hm
              obtain ⟨x, r, _, _, _, q, _⟩ := hmem' k t' hm
              exact q
            · intro z hz
              cases hz
              rw [hdims]
          refine ⟨_, hset, ?_, hwf', ?_, ?_⟩
          · -- reading back
            obtain ⟨parts, hp1, hp2, hp3⟩ := slices_flatten sz hszk d hdl
            have hgd : ∀ k r t, (k, r) ∈ rc → (k, t) ∈ c' → get r t = some ((slice sz d k).getD []) := by
              intro k r t h1 h2
              obtain ⟨x, r', q1, q2, q3, _, _⟩ := hmem' k t h2
              have e1 := (lookup_mem (l := rc) hkr _ _).2 h1
              rw [(lookup_mem (l := rc) hkr _ _).2 q2] at e1
              cases e1
              rw [q1, q3]; rfl
            have hsk : keys sz = keys (sortKeys rc) := by
              rw [hszdef]
              apply keys_sortKeys_eq
              simpa [keys, Function.comp_def] using hk
            rw [get_node (some sz) sz' rc c' (fun k => (slice sz d k).getD []) hkr hk' hgd (fun z hz => by cases hz; exact hsk)]
            rw [← hsk]
            have : (keys sz).map (fun k => (slice sz d k).getD []) = (sz.map (fun e => slice sz d e.1)).map (fun o => o.getD []) := by
              simp [keys, Function.comp_def]
            rw [this, hp1, List.map_map]
            have : (parts.map ((fun o : Option (List α) => o.getD []) ∘ some)) = parts := by simp [Function.comp_def]
            rw [this, hp2]
          · refine .node _ _ _ _ hk' ?_
            intro k t t' h1 h2
            obtain ⟨x, r', q1, q2, q3, _, q5⟩ := hmem' k t h1
            have e1 := (lookup_mem (l := rc) hkr _ _).2 h2
            rw [(lookup_mem (l := rc) hkr _ _).2 q2] at e1
            cases e1
            exact q5
          · simp only [dim]
            rw [dimL_eq, dimL_eq]
            have := congrArg (List.map (·.2)) hdims
            rw [List.map_map, List.map_map] at this
            exact congrArg List.sum this


/-- C24: a parameter relative to itself is the zero vector. -/
theorem get_self_zero : ∀ t : Tree K α, WF t → get t t = some (List.replicate (dim t) 0) := by
  intro t
  induction t using ind with
  | hc => intro _; rfl
  | hl v s =>
    intro h
    cases h with
    | leaf _ _ hl h0 =>
      simp only [get, leafGet, if_true, dim, Option.some.injEq]
      unfold reduced
      clear h0
      induction v generalizing s with
      | nil => rfl
      | cons a v ih =>
        cases s with
        | nil => simp at hl
        | cons x s =>
          simp only [List.zipWith_cons_cons, sub_self, zero_div, List.length_cons, List.replicate_succ, List.cons.injEq, true_and]
          exact ih s (by simpa using hl)
  | hn s c ih =>
    intro h
    cases h with
    | node _ _ hkc hcc hsz =>
      have hg : ∀ k r t, (k, r) ∈ c → (k, t) ∈ c → get r t = some (List.replicate (((lookup c k).map dim).getD 0) (0 : α)) := by
        intro k r t h1 h2
        have e1 := (lookup_mem (l := c) hkc _ _).2 h1
        have e2 := (lookup_mem (l := c) hkc _ _).2 h2
        rw [e1] at e2
        cases e2
        rw [e1, ih _ h1 (hcc _ h1)]
        rfl
      have hsk : keys (sortKeys (c.map (fun e => (e.1, dim e.2)))) = keys (sortKeys c) := by
        apply keys_sortKeys_eq
        simp [keys, Function.comp_def]
      rw [get_node s s c c _ hkc (List.Perm.refl _) hg (fun z hz => by rw [hsz z hz, hsk])]
      congr 1
      apply List.eq_replicate_iff.2
      constructor
      · rw [List.length_flatten, List.map_map, ((keys_sortKeys_perm c).map _).sum_eq]
        simp only [dim]
        rw [dimL_eq, keys, List.map_map]
        congr 1
        apply List.map_congr_left
        intro e he
        simp only [Function.comp_apply, List.length_replicate]
        rw [(lookup_mem (l := c) hkc _ _).2 he]
        rfl
      · intro b hb
        obtain ⟨l, hl, hbl⟩ := List.mem_flatten.1 hb
        obtain ⟨k, _, rfl⟩ := List.mem_map.1 hl
        exact List.eq_of_mem_replicate hbl

/-- C24 (partial): containers and constants refuse data of a wrong size, arrays refuse every wrong size but 1. -/
theorem set_wrong_size_partial (t r : Tree K α) (h : WF t) (d : List α) (hd : d.length ≠ dim r) (hs : Same t r) (hr : WF r)
    (h1 : d.length ≠ 1 ∨ ∀ v s, t ≠ .leaf v s) : set t r d = none := by
  have hd' : d.length ≠ dim t := by rw [same_dim t h r hr hs]; exact hd
  cases hs with
  | const =>
    simp only [set]
    rw [if_neg]
    intro he
    apply hd
    rw [List.isEmpty_iff] at he
    rw [he]; rfl
  | leaf v s rv rs hl =>
    rcases h1 with h1 | h1
    · simp only [set, leafSet]
      have : broadcast d rv.length = none := by
        unfold broadcast
        rw [if_neg (show ¬ d.length = rv.length from hd)]
        match d, h1 with
        | [], _ => rfl
        | [x], h1 => exact (h1 rfl).elim
        | _ :: _ :: _, _ => rfl
      rw [this]; rfl
    · exact (h1 v s rfl).elim
  | node sz sz' c rc hk hc =>
    rw [set]
    simp only [sizesOf_eq sz c h]
    rw [if_pos]
    have hsum : ((sortKeys (c.map (fun e => (e.1, dim e.2)))).map (·.2)).sum = dim (.node sz c) := by
      have := ((sortKeys_perm (c.map (fun e => (e.1, dim e.2)))).map (·.2)).sum_eq
      rw [this]
      simp only [dim]
      rw [dimL_eq, List.map_map]
      rfl
    rw [hsum]
    exact hd'

/-- C24, negative: an array of three entries accepts data of size 1, which numpy broadcasts. -/
theorem set_broadcast_accepted :
    (set (.leaf [0, 0, 0] [1, 1, 1] : Tree Nat ℚ) (.leaf [0, 0, 0] [1, 1, 1]) [5]).map leaves = some [([5, 5, 5], [1, 1, 1])] := by
  decide +kernel

/-- C24, negative: adding an entry to a nested container after the outer one was used leaves a stale size in the outer
one: `get_standardized_data` gives 3 values, `set_standardized_data` refuses 3 values (and 2 values as well). -/
theorem stale_sizes :
    let inner : Tree Nat ℚ := .node none [(0, .leaf [0, 0] [1, 1])]
    let outer : Tree Nat ℚ := .node none [(7, inner)]
    let used := warm outer outer
    let later : Tree Nat ℚ := match used with
      | .node sz [(k, t)] => .node sz [(k, setItem t 1 (.leaf [0] [1]))]
      | t => t
    get later later = some [0, 0, 0] ∧ (set later later [1, 2, 3]).isNone ∧ (set later later [1, 2]).isNone := by
  decide +kernel

/-! ### C25 -/

theorem leavesL_eq (c : List (K × Tree K α)) : leavesL c = c.map (fun e => (e.1, leaves e.2)) := by
  induction c with
  | nil => rfl
  | cons e c ih => simp [leavesL, ih]

/-- Contribution of one array to the standardized data, relative to its reference array. -/
def leafData (r t : List α × List α) : List α := List.zipWith (· / ·) (List.zipWith (· - ·) t.1 r.1) r.2

theorem leaves_node (s : Option (List (K × Nat))) (c : List (K × Tree K α)) (hk : (keys c).Nodup) (f : K → List (List α × List α))
    (hf : ∀ k t, (k, t) ∈ c → leaves t = f k) : leaves (.node s c) = ((keys (sortKeys c)).map f).flatten := by
  simp only [leaves]
  rw [leavesL_eq, sortKeys_map (fun e : K × Tree K α => leaves e.2)]
  rw [List.map_map, keys, List.map_map]
  congr 1
  apply List.map_congr_left
  rintro ⟨k, t⟩ he
  exact hf k t ((sortKeys_perm c).mem_iff.1 he)

theorem zip_flatten {A B C : Type} (ks : List K) (f : K → List A) (g : K → List B) (h : ∀ k ∈ ks, (f k).length = (g k).length)
    (F : A → B → C) : List.zipWith F (ks.map f).flatten (ks.map g).flatten = (ks.map (fun k => List.zipWith F (f k) (g k))).flatten := by
  induction ks with
  | nil => rfl
  | cons k ks ih =>
    simp only [List.map_cons, List.flatten_cons]
    rw [List.zipWith_append (h k List.mem_cons_self), ih (fun x hx => h x (List.mem_cons_of_mem _ hx))]

/-- C25: the standardized data is the concatenation of the data of the arrays in the order of `list_data`; a parameter and
its reference list as many arrays. -/
theorem get_leaves : ∀ t : Tree K α, WF t → ∀ r, WF r → Same t r →
    get r t = some (List.zipWith leafData (leaves r) (leaves t)).flatten ∧ (leaves r).length = (leaves t).length := by
  intro t
  induction t using ind with
  | hc => intro _ r _ h; cases h; exact ⟨rfl, rfl⟩
  | hl v s =>
    intro h r hr hs
    cases hs with
    | leaf _ _ rv rs hl =>
      refine ⟨?_, rfl⟩
      simp only [get, leafGet, leaves]
      rw [if_pos hl]
      simp [leafData, reduced]
  | hn s c ih =>
    intro h r hr hs
    cases hs with
    | node _ sz' _ rc hk hc =>
      cases h with
      | node _ _ hkc hcc hsz =>
        cases hr with
        | node _ _ hkr hcr _ =>
          have hsk : keys (sortKeys (c.map (fun e => (e.1, dim e.2)))) = keys (sortKeys rc) := by
            apply keys_sortKeys_eq
            simpa [keys, Function.comp_def] using hk
          have hskc : keys (sortKeys c) = keys (sortKeys rc) := keys_sortKeys_eq hk
          have lc := leaves_node s c hkc (fun k => ((lookup c k).map leaves).getD [])
            (fun k t hm => by rw [(lookup_mem (l := c) hkc _ _).2 hm]; rfl)
          have lr := leaves_node sz' rc hkr (fun k => ((lookup rc k).map leaves).getD [])
            (fun k t hm => by rw [(lookup_mem (l := rc) hkr _ _).2 hm]; rfl)
          have hkey : ∀ k ∈ keys (sortKeys rc), ∃ t r, (k, t) ∈ c ∧ (k, r) ∈ rc := by
            intro k hm
            have h1 := (keys_sortKeys_perm rc).mem_iff.1 hm
            obtain ⟨⟨k', r⟩, hr', he⟩ := List.mem_map.1 h1
            simp only at he; subst he
            obtain ⟨⟨k'', t⟩, ht', he⟩ := List.mem_map.1 (hk.mem_iff.2 h1)
            simp only at he; subst he
            exact ⟨t, r, ht', hr'⟩
          have hlen : ∀ k ∈ keys (sortKeys rc), (((lookup rc k).map leaves).getD []).length = (((lookup c k).map leaves).getD []).length := by
            intro k hm
            obtain ⟨t, r, h1, h2⟩ := hkey k hm
            rw [(lookup_mem (l := c) hkc _ _).2 h1, (lookup_mem (l := rc) hkr _ _).2 h2]
            exact (ih _ h1 (hcc _ h1) r (hcr _ h2) (hc _ _ _ h1 h2)).2
          constructor
          · have hg : ∀ k r t, (k, r) ∈ rc → (k, t) ∈ c → get r t =
                some (List.zipWith leafData (((lookup rc k).map leaves).getD []) (((lookup c k).map leaves).getD [])).flatten := by
              intro k r t h1 h2
              rw [(lookup_mem (l := c) hkc _ _).2 h2, (lookup_mem (l := rc) hkr _ _).2 h1]
              exact (ih _ h2 (hcc _ h2) r (hcr _ h1) (hc _ _ _ h2 h1)).1
            rw [get_node s sz' rc c _ hkr hk hg (fun z hz => by rw [hsz z hz, hsk]), lc, lr, hskc]
            rw [zip_flatten _ _ _ hlen]
            rw [List.flatten_flatten, List.map_map]
            rfl
          · rw [lc, lr, hskc, List.length_flatten, List.length_flatten, List.map_map, List.map_map]
            congr 1
            apply List.map_congr_left
            intro k hm
            exact hlen k hm

/-- Specification: the array `b` can be expressed relative to the array `a`. -/
def Fits (a b : List α × List α) : Prop := b.1.length = a.1.length ∧ a.2.length = a.1.length ∧ ∀ x ∈ a.2, x ≠ 0

omit [LinearOrder K] in
theorem forall₂_flatten {A B : Type} {R : A → B → Prop} (ks : List K) (f : K → List A) (g : K → List B)
    (h : ∀ k ∈ ks, List.Forall₂ R (f k) (g k)) : List.Forall₂ R (ks.map f).flatten (ks.map g).flatten := by
  induction ks with
  | nil => exact .nil
  | cons k ks ih =>
    simp only [List.map_cons, List.flatten_cons]
    exact List.rel_append (h k List.mem_cons_self) (ih (fun x hx => h x (List.mem_cons_of_mem _ hx)))

theorem leaves_fit : ∀ t : Tree K α, WF t → ∀ r, WF r → Same t r → List.Forall₂ Fits (leaves r) (leaves t) := by
  intro t
  induction t using ind with
  | hc => intro _ r _ h; cases h; exact .nil
  | hl v s =>
    intro h r hr hs
    cases hs with
    | leaf _ _ rv rs hl =>
      cases hr with
      | leaf _ _ h1 h2 => exact .cons ⟨hl, h1, h2⟩ .nil
  | hn s c ih =>
    intro h r hr hs
    cases hs with
    | node _ sz' _ rc hk hc =>
      cases h with
      | node _ _ hkc hcc hsz =>
        cases hr with
        | node _ _ hkr hcr _ =>
          have hskc : keys (sortKeys c) = keys (sortKeys rc) := keys_sortKeys_eq hk
          rw [leaves_node s c hkc (fun k => ((lookup c k).map leaves).getD [])
              (fun k t hm => by rw [(lookup_mem (l := c) hkc _ _).2 hm]; rfl),
            leaves_node sz' rc hkr (fun k => ((lookup rc k).map leaves).getD [])
              (fun k t hm => by rw [(lookup_mem (l := rc) hkr _ _).2 hm]; rfl), hskc]
          apply forall₂_flatten
          intro k hm
          have h1 := (keys_sortKeys_perm rc).mem_iff.1 hm
          obtain ⟨⟨k', r⟩, hr', he⟩ := List.mem_map.1 h1
          simp only at he; subst he
          obtain ⟨⟨k'', t⟩, ht', he⟩ := List.mem_map.1 (hk.mem_iff.2 h1)
          simp only at he; subst he
          rw [(lookup_mem (l := c) hkc _ _).2 ht', (lookup_mem (l := rc) hkr _ _).2 hr']
          exact ih _ ht' (hcc _ ht') r (hcr _ hr') (hc _ _ _ ht' hr')

theorem leafData_length (a b : List α × List α) (h : Fits a b) : (leafData a b).length = a.1.length := by
  obtain ⟨h1, h2, _⟩ := h
  simp [leafData, h1, h2]

theorem leafData_inj (rv rs v v' : List α) (h1 : v.length = rv.length) (h1' : v'.length = rv.length) (h2 : rs.length = rv.length)
    (h0 : ∀ x ∈ rs, x ≠ 0)
    (h : List.zipWith (· / ·) (List.zipWith (· - ·) v rv) rs = List.zipWith (· / ·) (List.zipWith (· - ·) v' rv) rs) : v = v' := by
  induction rv generalizing rs v v' with
  | nil => rw [List.length_eq_zero_iff.1 h1, List.length_eq_zero_iff.1 h1']
  | cons a rv ih =>
    match rs, v, v', h1, h1', h2 with
    | x :: rs, y :: v, y' :: v', h1, h1', h2 =>
      simp only [List.zipWith_cons_cons, List.cons.injEq] at h
      have hx := h0 x List.mem_cons_self
      have e1 : y = y' := by
        have := (div_left_inj' hx).1 h.1
        exact sub_left_inj.1 this
      rw [e1, ih rs v v' (by simpa using h1) (by simpa using h1') (by simpa using h2)
        (fun z hz => h0 z (List.mem_cons_of_mem _ hz)) h.2]

theorem data_inj (r t t' : List (List α × List α)) (h : List.Forall₂ Fits r t) (h' : List.Forall₂ Fits r t')
    (he : (List.zipWith leafData r t).flatten = (List.zipWith leafData r t').flatten) : t.map (·.1) = t'.map (·.1) := by
  induction h generalizing t' with
  | nil => cases h'; rfl
  | @cons a b r t hab hrt ih =>
    cases h' with
    | @cons _ b' _ t' hab' hrt' =>
      simp only [List.zipWith_cons_cons, List.flatten_cons] at he
      obtain ⟨e1, e2⟩ := List.append_inj he (by rw [leafData_length _ _ hab, leafData_length _ _ hab'])
      simp only [List.map_cons, List.cons.injEq]
      refine ⟨?_, ih t' hrt' e2⟩
      exact leafData_inj a.1 a.2 b.1 b'.1 hab.1 hab'.1 hab.2.1 hab.2.2 e1

/-- C24: two parameters with the same standardized data (with respect to the same reference) have equal arrays. -/
theorem get_injective (t t' r : Tree K α) (ht : WF t) (ht' : WF t') (hr : WF r) (hs : Same t r) (hs' : Same t' r)
    (h : get r t = get r t') : (leaves t).map (·.1) = (leaves t').map (·.1) := by
  rw [(get_leaves t ht r hr hs).1, (get_leaves t' ht' r hr hs').1] at h
  exact data_inj _ _ _ (leaves_fit t ht r hr hs) (leaves_fit t' ht' r hr hs') (Option.some.inj h)

/-- C24: `set_standardized_data(get_standardized_data)` on any parameter of the same structure copies all the arrays. -/
theorem transfer (t u r : Tree K α) (ht : WF t) (hu : WF u) (hr : WF r) (hs : Same t r) (hs' : Same u r) (d : List α)
    (hd : get r t = some d) : ∃ u', set u r d = some u' ∧ (leaves u').map (·.1) = (leaves t).map (·.1) := by
  obtain ⟨d', h1, h2⟩ := get_some t ht r hr hs
  rw [hd] at h1
  cases h1
  obtain ⟨u', h3, h4, h5, h6, _⟩ := set_get u hu r hr hs' d (by rw [h2, same_dim t ht r hr hs, same_dim u hu r hr hs'])
  exact ⟨u', h3, get_injective u' t r h5 ht hr h6 hs (by rw [h4, hd])⟩

/-- C24: changing the content of a container at the root keeps it usable. -/
theorem setItem_wf (s : Option (List (K × Nat))) (c : List (K × Tree K α)) (h : WF (.node s c)) (k : K) (v : Tree K α) (hv : WF v) :
    WF (setItem (.node s c) k v) := by
  cases h with
  | node _ _ hk hc hs =>
    simp only [setItem]
    refine .node _ _ ?_ ?_ (fun sz h => by cases h)
    · by_cases hm : c.any (fun e => e.1 == k)
      · rw [if_pos hm]
        have : (c.map (fun e => if e.1 = k then (k, v) else e)).map (·.1) = c.map (·.1) := by
          rw [List.map_map]
          apply List.map_congr_left
          intro e _
          simp only [Function.comp_apply]
          split <;> simp_all
        rw [this]; exact hk
      · rw [if_neg hm]
        rw [List.map_append]
        apply List.Nodup.append hk (by simp)
        intro x hx hx'
        simp only [List.map_cons, List.map_nil, List.mem_singleton] at hx'
        subst hx'
        obtain ⟨e, he, rfl⟩ := List.mem_map.1 hx
        exact hm (List.any_eq_true.2 ⟨e, he, by simp⟩)
    · intro e he
      by_cases hm : c.any (fun e => e.1 == k)
      · rw [if_pos hm] at he
        obtain ⟨x, hx, rfl⟩ := List.mem_map.1 he
        split
        · exact hv
        · exact hc x hx
      · rw [if_neg hm] at he
        rcases List.mem_append.1 he with he | he
        · exact hc e he
        · rw [List.mem_singleton.1 he]; exact hv

/-- Concrete: keys are visited in sorted order whatever the order of insertion. -/
example : get (.node none [(2, .leaf [1] [2]), (1, .node none [(5, .leaf [0, 0] [1, 1]), (3, .const)])] : Tree Nat ℚ)
    (.node none [(1, .node none [(3, .const), (5, .leaf [3, 4] [1, 1])]), (2, .leaf [5] [2])]) = some [3, 4, 2] := by decide +kernel

example : (set (.node none [(2, .leaf [1] [2]), (1, .leaf [0, 0] [1, 1])] : Tree Nat ℚ)
    (.node none [(2, .leaf [1] [2]), (1, .leaf [0, 0] [1, 1])]) [7, 8, 9]).map leaves = some [([7, 8], [1, 1]), ([19], [2])] := by decide +kernel

end Tree
end NG
