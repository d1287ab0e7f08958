import Verif.Model.IohChain
import Verif.Model.Chain
import Verif.Props.Csec
import Mathlib.Algebra.BigOperators.Group.List.Basic

/-!
# Restarts of NgIoh12 to NgIoh18
-/

namespace NG
namespace IohChain

open NGOpt Csec

variable {α : Type}

/-! ## The object is left as it was -/

theorem ioh11_snd (v : Problem) (s : Nat) : (ioh11 v (some s)).2 = { v with budget := some s } := rfl

theorem copies_snd (mk : Cls → Nat → Member α) (s b : Nat) : ∀ (n k : Nat) (v : Problem), v.budget = some b →
    ({ (copies mk (some s) n k v).2 with budget := some b } : Problem) = v := by
  intro n
  induction n with
  | zero => intro k v h; simp only [copies]; rw [← h]
  | succ n ih =>
    intro k v h
    have h2 : ∀ (m j : Nat) (u : Problem), u.budget = some s → (copies mk (some s) m j u).2 = u := by
      intro m
      induction m with
      | zero => intro j u _; rfl
      | succ m ihm =>
        intro j u hu
        simp only [copies]
        have : (ioh11 u (some s)).2 = u := by rw [ioh11_snd, ← hu]
        rw [this]; exact ihm _ u hu
    simp only [copies]
    rw [h2 n (k + 1) _ (by rw [ioh11_snd]), ioh11_snd, ← h]

/-- The selection does not change the budget of the optimizer (nor anything else), although `NgIoh11` writes it for each copy. -/
theorem self_kept (ver : Version) (scale shift : Nat → α) (v : Problem) : (select ver scale shift v).2 = v := by
  unfold select
  cases h : restarts ver scale shift v with
  | none => rfl
  | some r =>
    dsimp only
    simp only [restarts] at h
    split at h
    · simp at h
    split at h
    · cases hb : v.budget with
      | none => rw [hb] at h; simp at h
      | some b =>
        rw [hb] at h
        dsimp only at h
        split at h
        · simp only [Option.some.injEq] at h; subst h; rfl
        split at h
        · cases ver <;> simp only [Option.some.injEq] at h <;> subst h <;> first | rfl | exact copies_snd _ _ _ _ _ _ hb
        · simp at h
    · simp at h

/-! ## The sub-budget -/

theorem subBudget_spec {b n : Nat} (hn : 0 < n) : b ≤ n * subBudget b n ∧ n * subBudget b n < b + n := by
  unfold subBudget
  have h1 := Nat.div_add_mod b n
  have h2 := Nat.mod_lt b hn
  rw [Nat.mul_add]
  split
  · constructor <;> omega
  · constructor <;> omega

/-- The number of restarts and their budget. -/
structure Split (v : Problem) (b n s : Nat) : Prop where
  budget : v.budget = some b
  smooth : v.continuous = true ∧ v.noise = false
  least : 2 ≤ n
  workers : v.workers ≤ n
  /-- as many restarts as there are blocks of `1000 d` evaluations -/
  count : n * (1000 * v.dim) ≤ b ∧ b < (n + 1) * (1000 * v.dim)
  /-- the sub-budget is the smallest which covers the budget -/
  covers : b ≤ n * s ∧ n * s < b + n
  /-- between 1000 and 1500 evaluations per dimension -/
  size : 1000 * v.dim ≤ s ∧ s ≤ 1500 * v.dim

theorem split_of {v : Problem} {b : Nat} (hb : v.budget = some b) (hs : v.continuous = true ∧ v.noise = false) (hd : 0 < v.dim)
    (h1 : 2000 * v.dim < b) (h2 : v.workers ≤ b / (1000 * v.dim)) : Split v b (b / (1000 * v.dim)) (subBudget b (b / (1000 * v.dim))) := by
  have hpos : 0 < 1000 * v.dim := by omega
  have hn : 2 ≤ b / (1000 * v.dim) := by rw [Nat.le_div_iff_mul_le hpos]; omega
  have c1 : b / (1000 * v.dim) * (1000 * v.dim) ≤ b := Nat.div_mul_le_self _ _
  have c2 : b < (b / (1000 * v.dim) + 1) * (1000 * v.dim) := by
    have := Nat.lt_succ_iff.2 (le_refl (b / (1000 * v.dim)))
    rwa [Nat.div_lt_iff_lt_mul hpos] at this
  obtain ⟨s1, s2⟩ := subBudget_spec (b := b) (n := b / (1000 * v.dim)) (by omega)
  set n := b / (1000 * v.dim)
  set s := subBudget b n
  refine ⟨hb, hs, hn, h2, ⟨c1, c2⟩, ⟨s1, s2⟩, ?_, ?_⟩
  · by_contra hc
    have : n * s < n * (1000 * v.dim) := Nat.mul_lt_mul_of_pos_left (by omega) (by omega)
    omega
  · by_contra hc
    have k1 : n * (1500 * v.dim + 1) ≤ n * s := Nat.mul_le_mul_left _ (by omega)
    have k2 : 2 * (500 * v.dim) ≤ n * (500 * v.dim) := Nat.mul_le_mul_right _ hn
    have k3 : n * (1500 * v.dim + 1) = n * (1000 * v.dim) + n * (500 * v.dim) + n := by ring
    have k4 : (n + 1) * (1000 * v.dim) = n * (1000 * v.dim) + 1000 * v.dim := by ring
    omega

/-! ## The copies -/

/-- What one worker uses between 300 and 3000 evaluations per dimension. -/
def byDimAll (d : Nat) : Csec.Alg :=
  if d = 2 then .carola14 else if d < 4 then .carola4 else if d < 8 then .carola5 else if d < 15 then .carola9
  else if d < 30 then .carola8 else if d < 60 then .carola9 else .carola6

theorem ioh21Seq_byDimAll {d s : Nat} (hd : 0 < d) (h1 : 1000 * d ≤ s) (h2 : s ≤ 1500 * d) : ioh21Seq d s = some (byDimAll d) := by
  have h3 : 300 * d < s := by omega
  have h4 : s < 3000 * d := by omega
  unfold ioh21Seq byDimAll
  by_cases c0 : d = 2
  · rw [if_pos ⟨h3, h4, c0⟩, if_pos c0]
  rw [if_neg (by omega), if_neg c0]
  by_cases c1 : d < 4
  · rw [if_pos ⟨h3, h4, c1⟩, if_pos c1]
  rw [if_neg (by omega), if_neg c1]
  by_cases c2 : d < 8
  · rw [if_pos ⟨h3, h4, c2⟩, if_pos c2]
  rw [if_neg (by omega), if_neg c2]
  by_cases c3 : d < 15
  · rw [if_pos ⟨h3, h4, c3⟩, if_pos c3]
  rw [if_neg (by omega), if_neg c3]
  by_cases c4 : d < 30
  · rw [if_pos ⟨h3, h4, c4⟩, if_pos c4]
  rw [if_neg (by omega), if_neg c4]
  by_cases c5 : d < 60
  · rw [if_pos ⟨h3, h4, c5⟩, if_pos c5]
  rw [if_neg (by omega), if_neg c5, if_neg (by omega), if_pos ⟨h3, h4⟩]

/-- What a copy is, in a chain: by dimension with one worker, the choice of `NGOptBase` with several. -/
def copyOf (v : Problem) : Cls := if v.workers = 1 then .alg (byDimAll v.dim) else .ngoptBase

theorem ioh11_copy {v : Problem} {s : Nat} (hs : v.continuous = true ∧ v.noise = false) (hd : 0 < v.dim) (h1 : 1000 * v.dim ≤ s)
    (h2 : s ≤ 1500 * v.dim) : (ioh11 v (some s)).1 = copyOf v := by
  have e1 : ({ v with budget := some s } : Problem).continuous = true := hs.1
  have e2 : ({ v with budget := some s } : Problem).noise = false := hs.2
  unfold ioh11 copyOf
  simp only [e1, e2, Env.known, Bool.not_true, Bool.and_false, Bool.false_and, Bool.false_eq_true, if_false, Bool.not_false, Bool.and_true, Bool.true_and,
    decide_eq_true_eq, Option.bind_some]
  by_cases c : v.workers = 1
  · simp only [c, if_true, ioh21Seq_byDimAll hd h1 h2]
  · simp [c]

theorem copies_fst (mk : Cls → Nat → Member α) (s : Nat) (c : Cls) : ∀ (n k : Nat) (v : Problem),
    (∀ b, (ioh11 { v with budget := b } (some s)).1 = c) → (copies mk (some s) n k v).1 = (List.range' k n).map (mk c) := by
  intro n
  induction n with
  | zero => intro k v _; rfl
  | succ n ih =>
    intro k v h
    simp only [copies, List.range'_succ, List.map_cons]
    rw [ih (k + 1) _ (by rw [ioh11_snd]; exact h)]
    rw [show (ioh11 v (some s)).1 = c from h v.budget]

/-- NgIoh17 and NgIoh18 with restarts: the budget is split as described, all the copies are the same algorithm, which only depends on the dimension and
on whether there are several workers; they are rescaled as the version says. -/
theorem chain_spec {ver : Version} (hv : ver = .v17 ∨ ver = .v18) {scale shift : Nat → α} {v : Problem} {ms : List (Member α)} {bs : List Nat}
    (h : (select ver scale shift v).1 = .chain ms bs) :
    ∃ b n s, Split v b n s ∧ bs = List.replicate (n - 1) s ∧ ms.length = n ∧
      ms = (List.range n).map (fun k => if ver = .v17 then { cls := copyOf v, scale := some (scale k) } else member18 scale shift (copyOf v) k) := by
  unfold select at h
  cases hr : restarts ver scale shift v with
  | none => rw [hr] at h; simp at h
  | some r =>
    rw [hr] at h
    dsimp only at h
    simp only [restarts] at hr
    split at hr
    · simp at hr
    split at hr
    · rename_i hc
      simp only [Bool.and_eq_true, Bool.not_eq_true'] at hc
      cases hb : v.budget with
      | none => rw [hb] at hr; simp at hr
      | some b =>
        rw [hb] at hr
        dsimp only at hr
        split at hr
        · simp only [Option.some.injEq] at hr; subst hr; simp at h
        rename_i hd
        split at hr
        · rename_i hq
          have hsp := split_of hb hc (by omega) hq.1 hq.2
          have hcopy : ∀ bb, (ioh11 { v with budget := bb } (some (subBudget b (b / (1000 * v.dim))))).1 = copyOf v := by
            intro bb
            have := ioh11_copy (v := { v with budget := bb }) (s := subBudget b (b / (1000 * v.dim))) hc (by show 0 < v.dim; omega) hsp.size.1 hsp.size.2
            exact this
          refine ⟨b, _, _, hsp, ?_⟩
          rcases hv with rfl | rfl
          all_goals
            simp only [Option.some.injEq] at hr
            subst hr
            simp only [Out.chain.injEq] at h
            rw [copies_fst _ _ _ _ _ _ hcopy] at h
            obtain ⟨h1, h2⟩ := h
            subst h1
            simp only [List.length_map, List.length_range'] at h2 ⊢
            refine ⟨h2.symm, trivial, ?_⟩
            simp [List.range_eq_range']
        · simp at hr
    · simp at hr

/-- The last restart starts before the end of the budget, up to a million evaluations per squared dimension. -/
theorem last_starts_partial {v : Problem} {b n s : Nat} (h : Split v b n s) (hd : 0 < v.dim) (hb : b ≤ 1000000 * v.dim ^ 2) : (n - 1) * s < b := by
  obtain ⟨-, -, h2, -, ⟨c1, -⟩, ⟨-, s2⟩, -⟩ := h
  obtain ⟨m, rfl⟩ : ∃ m, n = m + 1 := ⟨n - 1, by omega⟩
  simp only [Nat.add_sub_cancel]
  have hm : (m + 1) * (1000 * v.dim) ≤ (1000 * v.dim) * (1000 * v.dim) := le_trans c1 (by nlinarith)
  have hm' : m + 1 ≤ 1000 * v.dim := Nat.le_of_mul_le_mul_right hm (by omega)
  by_contra hc
  have k1 : (m + 1) * b ≤ (m + 1) * (m * s) := Nat.mul_le_mul_left _ (by omega)
  have k2 : (m + 1) * (m * s) = m * ((m + 1) * s) := by ring
  have k3 : m * ((m + 1) * s) ≤ m * (b + m) := Nat.mul_le_mul_left _ (by omega)
  have k4 : m * m < b := by
    have : m * m < (m + 1) * (1000 * v.dim) := by
      calc m * m < (m + 1) * (m + 1) := by nlinarith
        _ ≤ (m + 1) * (1000 * v.dim) := Nat.mul_le_mul_left _ hm'
    omega
  nlinarith

/-- Beyond, it may never start: in dimension 1 with 5000999 evaluations, 5000 restarts are prepared and the first 4996 use the budget. -/
theorem last_never_starts : ∃ v : Problem, v.dim = 1 ∧ v.workers = 1 ∧ Split v 5000999 5000 1001 ∧ 5000999 ≤ 4997 * 1001 := by
  refine ⟨{ layers := [], funcDet := true, metrizable := true, bounded := false, dim := 1, logTerm := 0, budget := some 5000999, workers := 1 },
    rfl, rfl, ⟨rfl, by decide, by decide, by decide, by decide, by decide, by decide⟩, by decide⟩

/-- The budgets given to the members of the chain add up to the budget, when at least 4 evaluations remain for the last. -/
theorem chain_budgets {v : Problem} {b n s : Nat} (h : Split v b n s) (hl : (n - 1) * s + 4 ≤ b) (hs : 0 < v.dim) :
    ∃ last, Chain.make (some b) v.workers v.dim n (List.replicate (n - 1) (.num s))
      = some (List.replicate (n - 1) (some s) ++ [some last]) ∧ (n - 1) * s + last = b := by
  have h2 := h.least
  have hpos : 0 < s := by have := h.size.1; omega
  refine ⟨b - (n - 1) * s, ?_, by omega⟩
  unfold Chain.make
  have e1 : ¬ (n ≠ (List.replicate (n - 1) (Chain.Spec.num s)).length + 1) := by simp; omega
  rw [if_neg e1]
  have e2 : (List.replicate (n - 1) (Chain.Spec.num s)).map (Chain.convert (some b) v.workers v.dim (List.replicate (n - 1) (Chain.Spec.num s)).length)
      = List.replicate (n - 1) s := by simp [Chain.convert]
  rw [e2]
  have e3 : ¬ ((List.replicate (n - 1) s).any (· == 0)) = true := by simp; omega
  rw [if_neg e3]
  simp only [Chain.lastBudget, List.sum_replicate, Option.map_some, List.map_replicate, nsmul_eq_mul, Nat.cast_id]
  rw [Nat.max_eq_right (by omega)]

/-! ## Portfolios -/

theorem mixed_length (scale : Nat → α) (v : Problem) {n : Nat} (hn : 0 < n) : (mixed scale v n).length = n := by
  unfold mixed
  dsimp only
  by_cases h1 : 1 < n <;> by_cases h2 : 2 < n <;> by_cases h3 : 3 < n <;>
    simp [h1, h2, h3] <;> omega

/-- The portfolios have as many members as there are blocks of `1000 d` evaluations, at least two and at least one per worker. -/
theorem portfolio_spec {ver : Version} {scale shift : Nat → α} {v : Problem} {ms : List (Member α)} {wr : Nat}
    (h : (select ver scale shift v).1 = .portfolio ms wr) :
    ∃ b, v.budget = some b ∧ v.continuous = true ∧ v.noise = false ∧ 2000 * v.dim < b ∧ ms.length = b / (1000 * v.dim) ∧ 2 ≤ ms.length
      ∧ v.workers ≤ ms.length ∧ wr = (if ver = .v14 ∨ ver = .v15 then 70 else 100) ∧ ver ≠ .v17 ∧ ver ≠ .v18 := by
  unfold select at h
  cases hr : restarts ver scale shift v with
  | none => rw [hr] at h; simp at h
  | some r =>
    rw [hr] at h
    dsimp only at h
    simp only [restarts] at hr
    split at hr
    · simp at hr
    split at hr
    · rename_i hc
      simp only [Bool.and_eq_true, Bool.not_eq_true'] at hc
      cases hb : v.budget with
      | none => rw [hb] at hr; simp at hr
      | some b =>
        rw [hb] at hr
        dsimp only at hr
        split at hr
        · simp only [Option.some.injEq] at hr; subst hr; simp at h
        rename_i hd
        split at hr
        · rename_i hq
          have hsp := split_of hb hc (by omega) hq.1 hq.2
          have hl : ms.length = b / (1000 * v.dim) ∧ wr = (if ver = .v14 ∨ ver = .v15 then 70 else 100) ∧ ver ≠ .v17 ∧ ver ≠ .v18 := by
            cases ver <;> simp only [Option.some.injEq] at hr <;> subst hr <;> simp only [Out.portfolio.injEq, reduceCtorEq] at h <;>
              obtain ⟨h1, h2⟩ := h <;> subst h1 <;> subst h2 <;>
              first
              | exact ⟨mixed_length _ _ (by have := hsp.least; omega), by simp [warmup], by simp, by simp⟩
              | exact ⟨by simp, by simp [warmup], by simp, by simp⟩
          refine ⟨b, rfl, hc.1, hc.2, hq.1, hl.1, ?_, ?_, hl.2⟩
          · rw [hl.1]; exact hsp.least
          · rw [hl.1]; exact hsp.workers
        · simp at hr
    · simp at hr

/-- NgIoh13 and NgIoh14 with at least four blocks: one copy, the three other algorithms, then copies only. -/
theorem mixed_members (scale : Nat → α) (v : Problem) (n : Nat) : ∃ c : Cls, c = (ioh11 v none).1 ∧
    mixed scale v (n + 4) = { cls := c, scale := some (scale 0) } :: { cls := .alg .fcarola6 } :: { cls := .alg .chainMetaModelSQP }
      :: { cls := .alg .metaModelFmin2 } :: (List.range n).map (fun k => { cls := c, scale := some (scale (k + 1)) }) := by
  refine ⟨_, rfl, ?_⟩
  unfold mixed
  simp

/-- The copies made by NgIoh18: the first is left as it is, then in turn shifted, shifted and scaled, scaled; each with a draw of its own. -/
theorem member18_kinds (scale shift : Nat → α) (c : Cls) (k : Nat) :
    member18 scale shift c 0 = ⟨c, none, none⟩ ∧
    member18 scale shift c (3 * k + 1) = ⟨c, none, some (shift (3 * k))⟩ ∧
    member18 scale shift c (3 * k + 2) = ⟨c, some (scale (3 * k + 1)), some (shift (3 * k + 1))⟩ ∧
    member18 scale shift c (3 * k + 3) = ⟨c, some (scale (3 * k + 2)), none⟩ := by
  refine ⟨rfl, ?_, ?_, ?_⟩ <;> simp only [member18]
  · rw [if_neg (by omega), if_pos (by omega)]
  · rw [if_neg (by omega), if_neg (by omega)]
  · rw [if_pos (by omega)]

/-- Restarts are made exactly on smooth problems with more than 2000 evaluations per dimension and at least one block of 1000 per worker. -/
theorem restarts_iff (ver : Version) (scale shift : Nat → α) (v : Problem) (hd : 0 < v.dim) :
    (restarts ver scale shift v).isSome = true ↔
      ∃ b, v.budget = some b ∧ v.continuous = true ∧ v.noise = false ∧ 2000 * v.dim < b ∧ v.workers * (1000 * v.dim) ≤ b := by
  have hpos : 0 < 1000 * v.dim := by omega
  have hd' : ¬ v.dim = 0 := by omega
  simp only [restarts]
  cases hb : v.budget with
  | none => cases v.isArray <;> cases v.continuous <;> cases v.noise <;> simp
  | some b =>
    by_cases hc : v.continuous = true ∧ v.noise = false
    · simp only [hc.1, hc.2, hd', if_false, Bool.not_true, Bool.and_false, Bool.false_eq_true, Bool.not_false, Bool.and_true, if_true,
        ← Nat.le_div_iff_mul_le hpos]
      by_cases hq : 2000 * v.dim < b ∧ v.workers ≤ b / (1000 * v.dim)
      · simp only [hq.1, hq.2]
        cases ver <;> simp <;> exact hq
      · rw [if_neg hq]
        simp only [Option.isSome_none, Bool.false_eq_true, false_iff]
        rintro ⟨b', h1, -, -, h2, h3⟩
        exact hq (by cases h1; exact ⟨h2, h3⟩)
    · have : (v.continuous && !v.noise) = false := by
        cases e1 : v.continuous <;> cases e2 : v.noise <;> simp_all
      rw [if_neg (by simp [this] : ¬ (v.continuous && !v.noise) = true)]
      simp only [ite_self, Option.isSome_none, Bool.false_eq_true, false_iff]
      rintro ⟨b', -, h1, h2, -⟩
      exact hc ⟨h1, h2⟩

/-! ## Concrete cases -/

def p5 : Problem := smoothProblem 5 17000 1

example : (select .v17 id id p5).1 = .chain [⟨.alg .carola5, some 0, none⟩, ⟨.alg .carola5, some 1, none⟩, ⟨.alg .carola5, some 2, none⟩] [5667, 5667] := by
  decide +kernel
example : (select .v18 id id p5).1 = .chain [⟨.alg .carola5, none, none⟩, ⟨.alg .carola5, none, some 0⟩, ⟨.alg .carola5, some 1, some 1⟩] [5667, 5667] := by
  decide +kernel
example : (select .v14 id id p5).1 = .portfolio [⟨.alg .metaModelFmin2, some 0, none⟩, ⟨.alg .fcarola6, none, none⟩, ⟨.alg .chainMetaModelSQP, none, none⟩] 70 := by
  decide +kernel
example : (select .v12 id id { p5 with workers := 4 }).1 = .one .ngoptBase := by decide +kernel
example : (select .v17 id id { p5 with dim := 0 }).1 = .zeroDivision := by decide +kernel

end IohChain
end NG
