import Verif.Model.Ready
import Verif.Props.Portfolio
import Mathlib.Tactic.Linarith
import Mathlib.Tactic.NormNum
import Mathlib.Tactic.Ring

/-!
# C94: the ready-made portfolios

The portfolios named after several local searches never contain any of them: their constructors call `Portfolio.__init__` once more after
having installed their optimizers, which replaces them by the default portfolio.
-/

set_option linter.unusedSectionVars false

namespace NG
namespace Ready

/-! ## The constructor of `Portfolio` -/

/-- The default portfolio as documented (1940), with the exceptions of small budgets and of no budget. -/
def Default (budget : Option Nat) (n : Nat) : List Alg :=
  match budget with
  | none => [.metaCMA, .twoPointsDE]
  | some b => if 12 * n ≤ b then [.metaCMA, .twoPointsDE, .scrHammersley] else [.scrHammersley]

theorem optimizers_default (budget : Option Nat) (n : Nat) :
    optimizers none budget n = Default budget n := by
  cases budget with
  | none => rfl
  | some b => by_cases h : 12 * n ≤ b <;> simp [optimizers, Default, h]

/-- **C94.** `Portfolio` itself is "CMA, 2-pt DE and Scr-Hammersley" when there are at least twelve evaluations per worker, CMA and DE without
a budget, and Scr-Hammersley alone for smaller budgets; it forgets everything about the object it is applied to. -/
theorem portfolio_spec (self : Obj) (budget : Option Nat) (n : Nat) :
    ∃ o, init self none budget n = .ok o ∧ o.workers = n ∧ o.budget = budget ∧ o.warmup = none ∧
      o.optims.map Sub.alg = Default budget n ∧
      ∀ self', init self' none budget n = .ok o := by
  have hc : (cfgOf none budget n).check = none := by
    have hd := optimizers_default budget n
    refine Portfolio.check_ok _ ?_ (Or.inr ?_) (Or.inl rfl)
    · show 0 < ((optimizers none budget n).map Alg.nonPara).length
      rw [hd]
      cases budget with
      | none => simp [Default]
      | some b => by_cases h : 12 * n ≤ b <;> simp [Default, h]
    · show false ∈ (optimizers none budget n).map Alg.nonPara
      rw [hd]
      cases budget with
      | none => simp [Default, Alg.nonPara]
      | some b => by_cases h : 12 * n ≤ b <;> simp [Default, h, Alg.nonPara]
  refine ⟨_, by unfold init; rw [hc], rfl, rfl, ?_, ?_, fun self' => by unfold init; rw [hc]⟩
  · simp [Portfolio.Cfg.warmup, cfgOf]
  · simp only [List.map_map]
    rw [← optimizers_default]
    conv => rhs; rw [← List.map_id (optimizers none budget n)]
    rfl

/-! ## The portfolios of local searches -/

/-- **C94.** Each of these classes is the default portfolio, with its own number of workers. -/
theorem construct_default (lg : Nat → Nat) (c : Cls) (budget : Option Nat) (n n' : Nat) (hn : 0 < n)
    (hw : c.rule.workers lg budget n = .ok n') (self : Obj) : c.construct lg budget n = init self none budget n' := by
  obtain ⟨o, ho, -⟩ := portfolio_spec {} budget n
  have hn' : 0 < n' := by
    unfold Rule.workers at hw
    split at hw <;> first | (injection hw with hw; omega) | (exact absurd hw (by simp))
  obtain ⟨o', ho', -, -, -, -, hall⟩ := portfolio_spec {} budget n'
  have hall := fun s => hall s
  unfold Cls.construct
  rw [ho]
  simp only [bind, Except.bind, hw]
  rw [hall, hall]

/-- **C94.** Its number of workers: the given one, or raised with the budget. -/
theorem workers_spec (lg : Nat → Nat) (c : Cls) (budget : Option Nat) (n : Nat) (hn : 0 < n) (o : Obj)
    (h : c.construct lg budget n = .ok o) :
    (c.rule = .same ∨ c.rule = .force ∨ budget = none → o.workers = n) ∧
    (∀ b, budget = some b → c.rule = .log → o.workers = max n (1 + lg b)) ∧
    (∀ b, budget = some b → c.rule = .sqrt → o.workers = max n (1 + Nat.sqrt b)) ∧
    (∀ b, budget = some b → c.rule = .fsqrt → o.workers = max n (Nat.sqrt b)) ∧
    (∀ b, budget = some b → c.rule = .flog → o.workers = max n (lg b)) := by
  cases hw : c.rule.workers lg budget n with
  | error e =>
    exfalso
    obtain ⟨o', ho', -⟩ := portfolio_spec {} budget n
    unfold Cls.construct at h
    rw [ho'] at h
    simp [bind, Except.bind, hw] at h
  | ok n' =>
    have hn' : 0 < n' := by
      unfold Rule.workers at hw
      split at hw <;> first | (injection hw with hw; omega) | (exact absurd hw (by simp))
    rw [construct_default lg c budget n n' hn hw {}] at h
    obtain ⟨o', ho', hwk, -⟩ := portfolio_spec {} budget n'
    rw [ho'] at h
    injection h with h
    subst h
    rw [hwk]
    refine ⟨?_, ?_, ?_, ?_, ?_⟩
    · rintro (hr | hr | hr)
      · rw [hr] at hw; simp [Rule.workers] at hw; exact hw.symm
      · rw [hr] at hw; simp [Rule.workers] at hw; exact hw.symm
      · subst hr
        cases hr' : c.rule <;> rw [hr'] at hw <;> simp [Rule.workers] at hw <;> exact hw.symm
    all_goals
      intro b hb hr
      subst hb
      rw [hr] at hw
      simp [Rule.workers] at hw
      omega

/-- **C94.** The optimizers of each of these classes are those of the default portfolio for its number of workers. -/
theorem content_partial (lg : Nat → Nat) (c : Cls) (budget : Option Nat) (n : Nat) (hn : 0 < n) (o : Obj)
    (h : c.construct lg budget n = .ok o) :
    n ≤ o.workers ∧ o.optims.map Sub.alg = Default budget o.workers := by
  cases hw : c.rule.workers lg budget n with
  | error e =>
    exfalso
    obtain ⟨o', ho', -⟩ := portfolio_spec {} budget n
    unfold Cls.construct at h
    rw [ho'] at h
    simp [bind, Except.bind, hw] at h
  | ok n' =>
    have hn' : n ≤ n' := by
      unfold Rule.workers at hw
      split at hw <;> first | (injection hw with hw; omega) | (exact absurd hw (by simp))
    rw [construct_default lg c budget n n' hn hw {}] at h
    obtain ⟨o', ho', hwk, -, -, hopt, -⟩ := portfolio_spec {} budget n'
    rw [ho'] at h
    injection h with h
    subst h
    rw [hwk]
    exact ⟨hn', hopt⟩

/-- **C94 (disagreement).** None of these portfolios contains the algorithm it is a portfolio of, for any budget and number of workers. -/
theorem announced_absent (lg : Nat → Nat) (c : Cls) (budget : Option Nat) (n : Nat) (hn : 0 < n) (o : Obj)
    (h : c.construct lg budget n = .ok o) : ∀ s ∈ o.optims, s.alg ≠ c.alg := by
  intro s hs
  have hm : s.alg ∈ o.optims.map Sub.alg := List.mem_map_of_mem hs
  rw [(content_partial lg c budget n hn o h).2] at hm
  have h3 : s.alg = .metaCMA ∨ s.alg = .twoPointsDE ∨ s.alg = .scrHammersley := by
    cases budget with
    | none => simp [Default] at hm; tauto
    | some b =>
      by_cases hb : 12 * o.workers ≤ b
      · simp [Default, hb] at hm; tauto
      · simp [Default, hb] at hm; tauto
  rcases h3 with h3 | h3 | h3 <;> rw [h3] <;> cases c <;> decide

/-- The family of a class, read from its name: the local search, and whether the name contains `CMA`. -/
def Family (c : Cls) : Alg × Bool :=
  if c ∈ [.multiBFGSPlus, .logMultiBFGSPlus, .sqrtMultiBFGSPlus, .multiBFGS, .logMultiBFGS, .sqrtMultiBFGS] then (.bfgs, false)
  else if c ∈ [.multiCobylaPlus, .multiCobyla, .forceMultiCobyla] then (.cobyla, false)
  else if c ∈ [.multiSQPPlus, .multiSQP] then (.sqp, false)
  else if c ∈ [.bfgsCMAPlus, .logBFGSCMAPlus, .sqrtBFGSCMAPlus, .bfgsCMA, .logBFGSCMA, .sqrtBFGSCMA] then (.bfgs, true)
  else (.sqp, true)

/-- The local search behind a rescaling or a random initial point. -/
def core : Alg → Alg
  | .rescaled a => core a
  | .rbfgs => .bfgs
  | a => a

/-- **C94.** The local search of a class, and whether it has a `MetaCMA`, are those of its name. -/
theorem cls_family (c : Cls) : core c.alg = (Family c).1 ∧ c.cma = (Family c).2 := by
  cases c <;> decide

/-- **C94.** The list which is thrown away does contain them: it uses all the workers, one for each local search. -/
theorem own_spec (c : Cls) (budget : Option Nat) (n : Nat) (hn : 0 < n) :
    (∀ s ∈ c.own budget n, s = ⟨c.alg, none, 1⟩ ∨ s = ⟨.metaCMA, budget, max 1 (n / 2)⟩) ∧
    (c.rule ≠ .force → ((c.own budget n).map Sub.workers).sum = n) ∧
    (c.cma = false → n ≤ (c.own budget n).countP (fun s => decide (s.alg = c.alg))) ∧
    (c.cma = true → n / 2 ≤ (c.own budget n).countP (fun s => decide (s.alg = c.alg))) := by
  refine ⟨?_, ?_, ?_, ?_⟩
  · intro s hs
    unfold Cls.own at hs
    split at hs
    · rcases List.mem_cons.mp hs with h | h
      · exact Or.inr h
      · exact Or.inl (List.eq_of_mem_replicate h)
    · exact Or.inl (List.eq_of_mem_replicate hs)
  · intro hr
    have hb : c.rule.built budget n = n := by
      unfold Rule.built
      split
      · rename_i h1 _ _ ; exact absurd (by assumption) hr
      · rfl
    unfold Cls.own
    split
    · simp
      omega
    · simp [hb]
  · intro hc
    have hb : n ≤ c.rule.built budget n := by
      unfold Rule.built
      split <;> omega
    simp [Cls.own, hc, List.countP_replicate]
    exact hb
  · intro hc
    simp only [Cls.own, hc, if_true]
    rw [List.countP_cons, List.countP_replicate]
    simp
    omega

/-- **C94 (disagreement).** Three of the classes cannot be created without a budget; all the others can. -/
theorem needs_budget (lg : Nat → Nat) (c : Cls) (budget : Option Nat) (n : Nat) (hn : 0 < n) :
    (c.construct lg budget n = .error .type ↔ budget = none ∧ (c = .fSQPCMA ∨ c = .f2SQPCMA ∨ c = .f3SQPCMA)) ∧
    (c.construct lg budget n ≠ .error .type → ∃ o, c.construct lg budget n = .ok o) := by
  cases hw : c.rule.workers lg budget n with
  | error e =>
    obtain ⟨o', ho', -⟩ := portfolio_spec {} budget n
    have he : c.construct lg budget n = .error e := by
      unfold Cls.construct
      rw [ho']
      simp [bind, Except.bind, hw]
    have hb : budget = none ∧ e = .type ∧ (c = .fSQPCMA ∨ c = .f2SQPCMA ∨ c = .f3SQPCMA) := by
      cases budget with
      | none => cases c <;> simp [Cls.rule, Rule.workers] at hw ⊢ <;> exact hw.symm
      | some b => cases c <;> simp [Cls.rule, Rule.workers] at hw
    rw [he, hb.2.1]
    exact ⟨⟨fun _ => ⟨hb.1, hb.2.2⟩, fun _ => rfl⟩, fun h => absurd rfl h⟩
  | ok n' =>
    have hn' : 0 < n' := by
      unfold Rule.workers at hw
      split at hw <;> first | (injection hw with hw; omega) | (exact absurd hw (by simp))
    rw [construct_default lg c budget n n' hn hw {}]
    obtain ⟨o', ho', -⟩ := portfolio_spec {} budget n'
    rw [ho']
    refine ⟨⟨fun h => by simp at h, ?_⟩, fun _ => ⟨o', rfl⟩⟩
    rintro ⟨rfl, rfl | rfl | rfl⟩ <;> simp [Cls.rule, Rule.workers] at hw

/-- **C94 (disagreement).** With one worker and a budget below 156 the "at least sqrt of budget" portfolios are Scr-Hammersley alone, and they
are the three default optimizers from 156 on. -/
theorem sqrt_alone (lg : Nat → Nat) (c : Cls) (hr : c.rule = .sqrt) (b : Nat) (hb : 0 < b) (o : Obj)
    (h : c.construct lg (some b) 1 = .ok o) :
    2 ≤ o.workers ∧ (o.optims.map Sub.alg = [.scrHammersley] ↔ b < 156) ∧
      (o.optims.map Sub.alg = [.metaCMA, .twoPointsDE, .scrHammersley] ↔ 156 ≤ b) := by
  have hw := (workers_spec lg c (some b) 1 (by decide) o h).2.2.1 b rfl hr
  have hc := (content_partial lg c (some b) 1 (by decide) o h).2
  have h1 : 0 < Nat.sqrt b := Nat.sqrt_pos.mpr hb
  have h2 := Nat.sqrt_le b
  have h3 := Nat.lt_succ_sqrt b
  have hw' : o.workers = 1 + Nat.sqrt b := by omega
  have key : 12 * o.workers ≤ b ↔ 156 ≤ b := by
    rw [hw']
    generalize Nat.sqrt b = s at *
    simp only [Nat.succ_eq_add_one] at h3
    constructor
    · intro hk
      by_contra hlt
      have : s ≤ 11 ∨ s = 12 ∨ 13 ≤ s := by omega
      rcases this with hs | hs | hs
      · nlinarith
      · omega
      · nlinarith
    · intro hk
      have : s ≤ 11 ∨ s = 12 ∨ 13 ≤ s := by omega
      rcases this with hs | hs | hs
      · nlinarith
      · omega
      · nlinarith
  simp only [Default] at hc
  refine ⟨by omega, ?_, ?_⟩
  · rw [hc]
    by_cases hk : 12 * o.workers ≤ b
    · simp [hk]; omega
    · simp [hk]; omega
  · rw [hc]
    by_cases hk : 12 * o.workers ≤ b
    · simp [hk]; omega
    · simp [hk]; omega

/-- **C94 (disagreement).** The number of workers given by the user is replaced by a larger one. -/
theorem workers_replaced (lg : Nat → Nat) :
    (Cls.sqrtMultiBFGS.construct lg (some 100) 1).toOption.map Obj.workers = some 11 ∧
    (Cls.fSQPCMA.construct lg (some 100) 1).toOption.map Obj.workers = some 10 := by
  constructor
  · rw [construct_default lg _ (some 100) 1 11 (by decide) (by simp [Cls.rule, Rule.workers, show Nat.sqrt 100 = 10 by decide +kernel]) {}]
    decide +kernel
  · rw [construct_default lg _ (some 100) 1 10 (by decide) (by simp [Cls.rule, Rule.workers, show Nat.sqrt 100 = 10 by decide +kernel]) {}]
    decide +kernel

example : (Cls.multiSQP.construct (fun _ => 0) (some 100) 3).toOption.map (fun o => o.optims) =
    some [⟨.metaCMA, some 34, 1⟩, ⟨.twoPointsDE, some 34, 1⟩, ⟨.scrHammersley, some 34, 1⟩] := by decide +kernel

example : Cls.own .multiSQP (some 100) 3 = [⟨.sqp, none, 1⟩, ⟨.sqp, none, 1⟩, ⟨.sqp, none, 1⟩] := by decide +kernel

example : Cls.own .bfgsCMA (some 100) 4 = [⟨.metaCMA, some 100, 2⟩, ⟨.bfgs, none, 1⟩, ⟨.bfgs, none, 1⟩] := by decide +kernel

/-! ## Crossing -/

/-- **C94.** An object with `no_crossing` tells a candidate to the optimizer which proposed it and to no other. -/
theorem told_own_partial (o : Obj) (i : Nat) (h : o.noCrossing = true) (hi : i < o.optims.length) : told o i = [i] := by
  simp [told, h, hi]

/-- **C94 (disagreement).** `no_crossing` of the configuration is ignored: a candidate is told to all the optimizers of the portfolio, not only to
the one which proposed it. -/
theorem crossing_always (self : Obj) (conf : Option Conf) (budget : Option Nat) (n : Nat) (o : Obj) (h : init self conf budget n = .ok o)
    (i : Nat) : told o i = List.range o.optims.length := by
  unfold init at h
  split at h
  · simp at h
  · injection h with h
    subst h
    simp [told]

example : (init {} (some { optimizers := [.metaCMA, .sqp], noCrossing := true }) (some 100) 1).toOption.map (fun o => told o 1) =
    some [0, 1] := by decide +kernel

/-! ## Competence maps -/

/-- `k` copies of the same optimizer. -/
theorem init_copies (cf : Conf) (a : Alg) (k : Nat) (hk : 0 < k) (r : ℚ) (hr : r ≠ 1) (hcf : cf.optimizers = List.replicate k a)
    (hrat : cf.ratio = some r) (b n : Nat) (hp : a.nonPara = false ∨ n ≤ k) :
    ∃ o, init {} (some cf) (some b) n = .ok o ∧ o.workers = n ∧ o.warmup = some ⌊r * (b : ℚ)⌋.toNat ∧ o.optims = List.replicate k
      ⟨a, some (Portfolio.ceilDiv ⌈(b : ℚ) * r⌉.toNat k + (if r < 1 then 1 + ⌊(b : ℚ) * (1 - r)⌋.toNat else 0)),
        if a.nonPara then 1 else max 1 (Portfolio.ceilDiv n k)⟩ := by
  have hopt : optimizers (some cf) (some b) n = List.replicate k a := by
    unfold optimizers
    simp only [Option.getD_some, hcf]
    cases k with
    | zero => omega
    | succ k => simp [List.replicate_succ]
  have hnum : (cfgOf (some cf) (some b) n).num = k := by simp [Portfolio.Cfg.num, cfgOf, hopt]
  have hratio : (cfgOf (some cf) (some b) n).ratio = some r := by simp [cfgOf, hrat]
  have hnp : (cfgOf (some cf) (some b) n).numNonPara = 0 := by
    unfold Portfolio.Cfg.numNonPara
    rw [hnum]
    show (if n ≤ k then 0 else ((optimizers (some cf) (some b) n).map Alg.nonPara).count true) = 0
    rw [hopt]
    rcases hp with hp | hp
    · simp [hp, List.count_replicate]
    · simp [hp]
  have hc : (cfgOf (some cf) (some b) n).check = none := by
    refine Portfolio.check_ok _ (by omega) ?_ (Or.inr (by simp [cfgOf]))
    rcases hp with hp | hp
    · right
      show false ∈ (optimizers (some cf) (some b) n).map Alg.nonPara
      rw [hopt]
      simp [hp]
      omega
    · left
      rw [hnum]
      exact hp
  have hd : (cfgOf (some cf) (some b) n).distribute = false := by
    simp [Portfolio.Cfg.distribute, hratio, hr]
  have hsb : (cfgOf (some cf) (some b) n).subBudget =
      some (Portfolio.ceilDiv ⌈(b : ℚ) * r⌉.toNat k + (if r < 1 then 1 + ⌊(b : ℚ) * (1 - r)⌋.toNat else 0)) := by
    unfold Portfolio.Cfg.subBudget Portfolio.Cfg.rebudget Portfolio.Cfg.extra
    rw [hratio, hnum, hnp]
    rfl
  have hsw : (cfgOf (some cf) (some b) n).subWorkers = max 1 (Portfolio.ceilDiv n k) := by
    unfold Portfolio.Cfg.subWorkers
    rw [hd, hnum, hnp]
    rfl
  refine ⟨_, by unfold init; rw [hc], rfl, ?_, ?_⟩
  · show (cfgOf (some cf) (some b) n).warmup = _
    unfold Portfolio.Cfg.warmup
    rw [hratio]
    rfl
  · simp only [hopt, hsb, hsw, List.map_replicate]

theorem ceilDiv_one (n : Nat) : Portfolio.ceilDiv n 1 = n := by simp [Portfolio.ceilDiv, Nat.mod_one]

theorem double (b : Nat) : ⌈(b : ℚ) * 2⌉.toNat = 2 * b := by
  rw [show ((b : ℚ) * 2) = ((2 * b : Nat) : ℚ) by push_cast; ring, Int.ceil_natCast]
  omega

theorem init_single (cf : Conf) (a : Alg) (hcf : cf.optimizers = [a]) (hrat : cf.ratio = some 2) (hp : a.nonPara = false) (b n : Nat)
    (hn : 0 < n) : ∃ o, init {} (some cf) (some b) n = .ok o ∧ o.optims = [⟨a, some (2 * b), n⟩] := by
  obtain ⟨o, ho, -, -, hopt⟩ := init_copies cf a 1 (by decide) 2 (by norm_num) hcf hrat b n (Or.inl hp)
  refine ⟨o, ho, ?_⟩
  rw [hopt, double, ceilDiv_one, ceilDiv_one, hp, if_neg (by norm_num : ¬ (2 : ℚ) < 1)]
  simp
  omega

/-- **C94.** `CM` has one optimizer: `MetaCMA` beyond 50 evaluations per dimension, otherwise `OnePlusOne` below 201 evaluations, otherwise
`TwoPointsDE`. (Disagreement: this optimizer is told twice the budget of the portfolio.) -/
theorem cm_spec (dim b n : Nat) (hn : 0 < n) :
    ∃ o, Map.construct .cm dim (some b) n = .ok o ∧ o.optims =
      [⟨if 50 * dim < b then .metaCMA else if b < 201 then .onePlusOne else .twoPointsDE, some (2 * b), n⟩] := by
  refine init_single _ _ ?_ rfl ?_ b n hn
  · simp only [Map.conf]
    split
    · rfl
    · split <;> rfl
  · split
    · rfl
    · split <;> rfl

/-- **C94.** `CMandAS2` and `CMandAS3` select among three copies after a tenth of the budget if there are fewer than 30 workers or more than 50
evaluations per dimension: `MetaModel` in the first one, `MetaCMA` (`ChainCMAPowell` for one worker) in the second one. Each copy may use
the whole rest of the budget. -/
theorem as_select (m : Map) (hm : m ≠ .cm) (dim b n : Nat) (h : 50 * dim < b ∨ n < 30) :
    ∃ o B w, Map.construct m dim (some b) n = .ok o ∧ o.warmup = some (b / 10) ∧ b - b / 10 ≤ B ∧ n ≤ 3 * w ∧
      o.optims = List.replicate 3 ⟨if m = .as2 then .metaModel else if n = 1 then .chainCMAPowell else .metaCMA, some B, w⟩ := by
  generalize ha : (if m = .as2 then Alg.metaModel else if n = 1 then .chainCMAPowell else .metaCMA) = a
  have hpara : a.nonPara = false ∨ n = 1 := by
    subst ha
    by_cases h2 : m = .as2
    · left; simp [h2, Alg.nonPara]
    · by_cases h1 : n = 1
      · right; exact h1
      · left; simp [h2, h1, Alg.nonPara]
  have hcf : (m.conf dim b n) = ⟨List.replicate 3 a, some (1 / 10), false⟩ := by
    subst ha
    cases m with
    | cm => exact absurd rfl hm
    | as2 => simp [Map.conf, h]
    | as3 => simp [Map.conf, h]
  obtain ⟨o, ho, -, hwarm, hopt⟩ := init_copies (m.conf dim b n) a 3 (by decide) (1 / 10) (by norm_num) (by rw [hcf]) (by rw [hcf]) b n
    (hpara.imp id (fun h1 => by omega))
  refine ⟨o, _, _, ho, ?_, ?_, ?_, hopt⟩
  · rw [hwarm]
    congr 1
    rw [show (1 / 10 : ℚ) * b = ((b : Int) : ℚ) / ((10 : Nat) : ℚ) by push_cast; ring, Rat.floor_intCast_div_natCast]
    omega
  · rw [if_pos (by norm_num)]
    have h9 : ⌊(b : ℚ) * (1 - 1 / 10)⌋ = ((9 * b : Nat) : Int) / (10 : Nat) := by
      rw [show (b : ℚ) * (1 - 1 / 10) = (((9 * b : Nat) : Int) : ℚ) / ((10 : Nat) : ℚ) by push_cast; ring, Rat.floor_intCast_div_natCast]
    rw [h9]
    omega
  · split
    · rename_i hpar
      rcases hpara with h1 | h1
      · rw [h1] at hpar; exact absurd hpar (by decide)
      · omega
    · have := Portfolio.ceilDiv_mul_ge n 3 (by decide)
      omega

/-- **C94.** In the remaining case they have one optimizer, `OnePlusOne` below 201 evaluations, otherwise `TwoPointsDE`. (Disagreement: it is
told twice the budget.) -/
theorem as_fallback (m : Map) (hm : m ≠ .cm) (dim b n : Nat) (h : ¬ (50 * dim < b ∨ n < 30)) :
    ∃ o, Map.construct m dim (some b) n = .ok o ∧ o.optims = [⟨if b < 201 then .onePlusOne else .twoPointsDE, some (2 * b), n⟩] := by
  refine init_single _ _ ?_ ?_ ?_ b n (by omega)
  · cases m with
    | cm => exact absurd rfl hm
    | as2 => simp only [Map.conf, if_neg h]; split <;> rfl
    | as3 => simp only [Map.conf, if_neg h]; split <;> rfl
  · cases m with
    | cm => exact absurd rfl hm
    | as2 => simp only [Map.conf, if_neg h]
    | as3 => simp only [Map.conf, if_neg h]
  · split <;> rfl

/-- **C94.** The competence maps need a budget. -/
theorem map_needs_budget (m : Map) (dim n : Nat) : m.construct dim none n = .error .assertion := rfl

example : (Map.construct .cm 2 (some 50) 4).toOption.map Obj.optims = some [⟨.onePlusOne, some 100, 4⟩] := by decide +kernel

example : (Map.construct .as3 2 (some 100) 1).toOption.map Obj.optims =
    some (List.replicate 3 ⟨.chainCMAPowell, some 95, 1⟩) := by decide +kernel

/-! ## `MultiDiscrete` -/

/-- **C94.** `MultiDiscrete` has the three discrete optimizers, and their budgets sum to a quarter of the budget; without a budget it cannot be
created. -/
theorem discrete_content (b n : Nat) (hn : 0 < n) : ∃ o B₁ B₂ B₃, multiDiscrete (some b) n = .ok o ∧
    o.optims = [⟨.discrete, some B₁, n⟩, ⟨.discreteBSO, some B₂, n⟩, ⟨.doubleFastGA, some B₃, n⟩] ∧ B₁ + B₂ + B₃ = b / 4 ∧
    o.warmup = some (b / 4) ∧ o.workers = n ∧
    o.turns = (if 12 * n ≤ b then List.replicate (Portfolio.ceilDiv n 3) 0 ++ List.replicate (Portfolio.ceilDiv n 3) 1 ++
      List.replicate (Portfolio.ceilDiv n 3) 2 else List.replicate n 0) := by
  have hopt : optimizers (some { ratio := some (1 / 4) }) (some b) n = Default (some b) n := optimizers_default (some b) n
  have hpara : ∀ x ∈ (Default (some b) n).map Alg.nonPara, x = false := by
    by_cases h : 12 * n ≤ b <;> simp [Default, h, Alg.nonPara]
  have hlen : (Default (some b) n).length = if 12 * n ≤ b then 3 else 1 := by
    by_cases h : 12 * n ≤ b <;> simp [Default, h]
  generalize hcfg : cfgOf (some { ratio := some (1 / 4) }) (some b) n = cfg
  have hnonpara : cfg.nonPara = (Default (some b) n).map Alg.nonPara := by rw [← hcfg, ← hopt]; rfl
  have hnum : cfg.num = if 12 * n ≤ b then 3 else 1 := by rw [Portfolio.Cfg.num, hnonpara, List.length_map, hlen]
  have hnum0 : 0 < cfg.num := by rw [hnum]; split <;> decide
  have hratio : cfg.ratio = some (1 / 4) := by rw [← hcfg]; rfl
  have hbud : cfg.budget = some b := by rw [← hcfg]; rfl
  have hwork : cfg.workers = n := by rw [← hcfg]; rfl
  have hcount : cfg.nonPara.count true = 0 := by
    rw [hnonpara, List.count_eq_zero]
    intro h
    exact absurd (hpara _ h) (by decide)
  have hnp : cfg.numNonPara = 0 := by
    unfold Portfolio.Cfg.numNonPara
    rw [hcount]
    split <;> rfl
  have hmem : false ∈ cfg.nonPara := by
    rw [hnonpara]
    by_cases h : 12 * n ≤ b <;> simp [Default, h, Alg.nonPara]
  have hc : cfg.check = none := Portfolio.check_ok cfg hnum0 (Or.inr hmem) (Or.inr (by rw [hbud]; simp))
  have hd : cfg.distribute = false := by
    unfold Portfolio.Cfg.distribute
    rw [hratio]
    decide +kernel
  have hsub : cfg.subWorkers = Portfolio.ceilDiv n cfg.num := by
    unfold Portfolio.Cfg.subWorkers
    rw [hd, hnp, hwork]
    have := Portfolio.ceilDiv_mul_ge n cfg.num hnum0
    have : 1 ≤ Portfolio.ceilDiv n cfg.num := by
      rcases Nat.eq_zero_or_pos (Portfolio.ceilDiv n cfg.num) with h0 | h0
      · rw [h0] at this; omega
      · exact h0
    simp
    omega
  have hwo : ∀ i, cfg.workersOf i = Portfolio.ceilDiv n cfg.num := by
    intro i
    unfold Portfolio.Cfg.workersOf
    have : cfg.nonPara.getD i false = false := by
      rw [List.getD_eq_getElem?_getD]
      cases hi : cfg.nonPara[i]? with
      | none => rfl
      | some x =>
        have := List.mem_of_getElem? hi
        rw [hnonpara] at this
        simp [hpara x this]
    rw [this, hsub]
    rfl
  refine ⟨_, b / 12, b / 12, b / 4 - 2 * (b / 12), by unfold multiDiscrete init; simp only [hcfg, hc]; rfl, rfl, by omega, ?_, rfl, ?_⟩
  · show cfg.warmup = _
    unfold Portfolio.Cfg.warmup
    rw [hratio, hbud]
    simp only
    congr 1
    rw [show (1 / 4 : ℚ) * b = ((b : Int) : ℚ) / ((4 : Nat) : ℚ) by push_cast; ring, Rat.floor_intCast_div_natCast]
    omega
  · show cfg.turns = _
    unfold Portfolio.Cfg.turns
    simp only [hwo]
    rw [hnum]
    by_cases h : 12 * n ≤ b
    · simp [h, List.range_succ]
    · simp [h, List.range_succ, ceilDiv_one]

theorem discrete_needs_budget (n : Nat) : ∃ e, multiDiscrete none n = .error e := by
  unfold multiDiscrete
  cases init {} (some { ratio := some (1 / 4) }) none n with
  | error e => exact ⟨e, rfl⟩
  | ok o => exact ⟨.assertion, rfl⟩

/-- The number of asks and of tells. -/
def asks (ops : List Op) : Nat := ops.countP (fun op => match op with | .ask _ => true | .tell => false)
def tells (ops : List Op) : Nat := ops.countP (fun op => decide (op = .tell))

theorem run_append (o : Obj) (ops : List Op) (op : Op) : run o (ops ++ [op]) = step o (run o ops) op := by
  simp [run]

theorem run_tells (o : Obj) (ops : List Op) : (run o ops).tells = tells ops := by
  induction ops using List.reverseRecOn with
  | nil => rfl
  | append_singleton ops op ih =>
    rw [run_append]
    cases op with
    | tell => simp [step, tells, ih, List.countP_append]
    | ask best =>
      have : (select o best (run o ops)).tells = (run o ops).tells := by
        unfold select
        split
        · split
          · split <;> rfl
          · rfl
        · rfl
      simp only [step, ask]
      split <;> simp [this, tells, ih, List.countP_append]

theorem run_served (o : Obj) (ops : List Op) : (run o ops).served.length = asks ops := by
  induction ops using List.reverseRecOn with
  | nil => rfl
  | append_singleton ops op ih =>
    rw [run_append]
    cases op with
    | tell => simp [step, asks, List.countP_append] at ih ⊢; exact ih
    | ask best =>
      have : (select o best (run o ops)).served = (run o ops).served := by
        unfold select
        split
        · split
          · split <;> rfl
          · rfl
        · rfl
      simp only [step, ask]
      split <;> simp [this, asks, List.countP_append] at ih ⊢ <;> exact ih

/-- **C94 (disagreement).** With fewer than twelve evaluations per worker, `MultiDiscrete` only ever asks the first of its three optimizers. -/
theorem discrete_alone (b n : Nat) (hn : 0 < n) (hb : b < 12 * n) (o : Obj) (h : multiDiscrete (some b) n = .ok o) (ops : List Op) :
    (run o ops).served = List.replicate (asks ops) 0 := by
  obtain ⟨o', B₁, B₂, B₃, ho', hopt, -, -, -, hturns⟩ := discrete_content b n hn
  rw [h] at ho'
  injection ho' with ho'
  subst ho'
  rw [if_neg (by omega)] at hturns
  have hget : ∀ k, o.turns.getD (k % o.turns.length) 0 = 0 := by
    intro k
    rw [hturns, List.getD_eq_getElem?_getD]
    cases hi : (List.replicate n 0)[k % (List.replicate n 0).length]? with
    | none => rfl
    | some x => exact List.eq_of_mem_replicate (List.mem_of_getElem? hi)
  have hinv : ((run o ops).live = [0, 1, 2] ∨ (run o ops).live = [0]) ∧ (∀ i ∈ (run o ops).metas, i = 0) ∧
      ∀ k ∈ (run o ops).served, k = 0 := by
    induction ops using List.reverseRecOn with
    | nil => simp [run, hopt, List.range_succ]
    | append_singleton ops op ih =>
      obtain ⟨h1, h2, h3⟩ := ih
      rw [run_append]
      cases op with
      | tell => exact ⟨h1, h2, h3⟩
      | ask best =>
        have hs : ((select o best (run o ops)).live = [0, 1, 2] ∨ (select o best (run o ops)).live = [0]) ∧
            (select o best (run o ops)).metas = (run o ops).metas ∧ (select o best (run o ops)).served = (run o ops).served := by
          unfold select
          split
          · rename_i w i hw hi
            have hi0 : i = 0 := by
              cases best with
              | none => simp at hi
              | some c => exact h2 i (List.mem_of_getElem? hi)
            subst hi0
            split
            · rename_i j hj
              have hj0 : j = 0 := by
                rcases h1 with h1 | h1 <;> rw [h1] at hj <;> simp at hj <;> exact hj.symm
              subst hj0
              split
              · exact ⟨Or.inr rfl, rfl, rfl⟩
              · exact ⟨h1, rfl, rfl⟩
            · exact ⟨h1, rfl, rfl⟩
          · exact ⟨h1, rfl, rfl⟩
        obtain ⟨hl, hm, hsv⟩ := hs
        simp only [step, ask]
        split
        · refine ⟨hl, ?_, ?_⟩
          · intro i hi
            simp only [hm, List.mem_append, List.mem_singleton] at hi
            exact hi.elim (h2 i) id
          · intro k hk
            simp only [hsv, List.mem_append, List.mem_singleton] at hk
            refine hk.elim (h3 k) (fun hk => ?_)
            rw [hk]
            rcases hl with hl | hl <;> rw [hl] <;> rfl
        · refine ⟨hl, ?_, ?_⟩
          · intro i hi
            simp only [hm, List.mem_append, List.mem_singleton] at hi
            exact hi.elim (h2 i) (fun hi => by rw [hi, hget])
          · intro k hk
            simp only [hsv, List.mem_append, List.mem_singleton] at hk
            refine hk.elim (h3 k) (fun hk => ?_)
            rw [hk, hget]
            rcases hl with hl | hl <;> rw [hl] <;> rfl
  exact List.eq_replicate_iff.mpr ⟨run_served o ops, hinv.2.2⟩

/-- The turns of three optimizers with `w` turns each. -/
theorem turns_three (w k : Nat) (hw : 0 < w) :
    (List.replicate w 0 ++ List.replicate w 1 ++ List.replicate w 2).getD
      (k % (List.replicate w 0 ++ List.replicate w 1 ++ List.replicate w 2).length) 0 = k % (3 * w) / w := by
  have hlen : (List.replicate w 0 ++ List.replicate w 1 ++ List.replicate w 2).length = 3 * w := by simp; omega
  rw [hlen, List.getD_eq_getElem?_getD]
  have hlt := Nat.mod_lt k (show 0 < 3 * w by omega)
  generalize k % (3 * w) = m at *
  by_cases h1 : m < w
  · rw [List.getElem?_append_left (by simp; omega), List.getElem?_append_left (by simpa using h1), List.getElem?_replicate, if_pos h1]
    simp [Nat.div_eq_of_lt h1]
  · by_cases h2 : m < 2 * w
    · rw [List.getElem?_append_left (by simp; omega), List.getElem?_append_right (by simp; omega), List.getElem?_replicate,
        if_pos (by simp; omega)]
      simp only [Option.getD_some]
      exact (Nat.div_eq_of_lt_le (by omega) (by omega)).symm
    · rw [List.getElem?_append_right (by simp; omega), List.getElem?_replicate, if_pos (by simp; omega)]
      simp only [Option.getD_some]
      exact (Nat.div_eq_of_lt_le (by omega) (by omega)).symm

theorem select_quiet (o : Obj) (best : Option Nat) (r : Run) (w : Nat) (hw : o.warmup = some w) (h : r.tells ≤ w) : select o best r = r := by
  unfold select
  split
  · split
    · rename_i w' i hw' _ _ j _
      rw [hw] at hw'
      injection hw' with hw'
      rw [if_neg (by omega)]
    · rfl
  · rfl

theorem quiet_state (b n : Nat) (hn : 0 < n) (hb : 12 * n ≤ b) (o : Obj) (h : multiDiscrete (some b) n = .ok o) (ops : List Op)
    (ht : tells ops ≤ b / 4) :
    (run o ops).live = [0, 1, 2] ∧ (run o ops).metas = (run o ops).served ∧ (run o ops).current = asks ops ∧
      (run o ops).served = (List.range (asks ops)).map (fun k : Nat => k % (3 * Portfolio.ceilDiv n 3) / Portfolio.ceilDiv n 3) := by
  obtain ⟨o', B₁, B₂, B₃, ho', hopt, -, hwarm, -, hturns⟩ := discrete_content b n hn
  rw [h] at ho'
  injection ho' with ho'
  subst ho'
  rw [if_pos hb] at hturns
  have hw : 0 < Portfolio.ceilDiv n 3 := by
    have := Portfolio.ceilDiv_mul_ge n 3 (by decide)
    omega
  induction ops using List.reverseRecOn with
  | nil => simp [run, hopt, asks, List.range_succ]
  | append_singleton ops op ih =>
    rw [run_append]
    cases op with
    | tell =>
      have := ih (by simp [tells, List.countP_append] at ht ⊢; omega)
      simpa [step, asks, List.countP_append] using this
    | ask best =>
      have ht' : tells ops ≤ b / 4 := by simpa [tells, List.countP_append] using ht
      obtain ⟨h1, h2, h3, h4⟩ := ih ht'
      have hq := select_quiet o best (run o ops) _ hwarm (by rw [run_tells]; exact ht')
      have hlt : asks ops % (3 * Portfolio.ceilDiv n 3) / Portfolio.ceilDiv n 3 < 3 :=
        Nat.div_lt_of_lt_mul (by have := Nat.mod_lt (asks ops) (show 0 < 3 * Portfolio.ceilDiv n 3 by omega); omega)
      have hask : asks (ops ++ [.ask best]) = asks ops + 1 := by simp [asks, List.countP_append]
      have hi := turns_three (Portfolio.ceilDiv n 3) (asks ops) hw
      simp only [step, ask, hq, h1, List.length_cons, List.length_nil]
      rw [if_neg (by decide), h3, hturns, hi, h2, hask, List.range_succ, List.map_append, ← h4, List.map_singleton]
      generalize asks ops % (3 * Portfolio.ceilDiv n 3) / Portfolio.ceilDiv n 3 = i at *
      refine ⟨rfl, ?_, rfl, ?_⟩ <;>
      · have : i = 0 ∨ i = 1 ∨ i = 2 := by omega
        rcases this with rfl | rfl | rfl <;> rfl

/-- **C94.** Otherwise, until more than a quarter of the budget has been told, the three optimizers are asked in turn, each for a third of the
workers (rounded up). -/
theorem discrete_rotation (b n : Nat) (hn : 0 < n) (hb : 12 * n ≤ b) (o : Obj) (h : multiDiscrete (some b) n = .ok o) (ops : List Op)
    (ht : tells ops ≤ b / 4) :
    (run o ops).served = (List.range (asks ops)).map (fun k : Nat => k % (3 * ((n + 2) / 3)) / ((n + 2) / 3)) := by
  have : Portfolio.ceilDiv n 3 = (n + 2) / 3 := by unfold Portfolio.ceilDiv; split <;> omega
  rw [← this]
  exact (quiet_state b n hn hb o h ops ht).2.2.2

/-- **C94.** At the first ask after that, the optimizer which proposed the pessimistic best is kept alone, for good. -/
theorem discrete_selects (b n : Nat) (hn : 0 < n) (hb : 12 * n ≤ b) (o : Obj) (h : multiDiscrete (some b) n = .ok o)
    (ops ops' : List Op) (ht : tells ops = b / 4) (c j : Nat) (hc : (run o ops).served[c]? = some j) :
    (run o (ops ++ [.tell, .ask (some c)] ++ ops')).served = (run o ops).served ++ List.replicate (1 + asks ops') j := by
  obtain ⟨o', B₁, B₂, B₃, ho', hopt, -, hwarm, hwork, hturns⟩ := discrete_content b n hn
  rw [h] at ho'
  injection ho' with ho'
  subst ho'
  obtain ⟨h1, h2, h3, h4⟩ := quiet_state b n hn hb o h ops (by omega)
  have hj : j < 3 := by
    rw [h4] at hc
    obtain ⟨k, -, rfl⟩ := List.mem_map.mp (List.mem_of_getElem? hc)
    have hw : 0 < Portfolio.ceilDiv n 3 := by
      have := Portfolio.ceilDiv_mul_ge n 3 (by decide)
      omega
    exact Nat.div_lt_of_lt_mul (by have := Nat.mod_lt k (show 0 < 3 * Portfolio.ceilDiv n 3 by omega); omega)
  have hlj : ([0, 1, 2] : List Nat)[j]? = some j := by
    have : j = 0 ∨ j = 1 ∨ j = 2 := by omega
    rcases this with rfl | rfl | rfl <;> rfl
  have hwj : ((o.optims[j]?).map Sub.workers).getD 0 = n := by
    rw [hopt]
    have : j = 0 ∨ j = 1 ∨ j = 2 := by omega
    rcases this with rfl | rfl | rfl <;> rfl
  have hsel : select o (some c) (step o (run o ops) .tell) = { step o (run o ops) .tell with live := [j] } := by
    unfold select
    rw [hwarm]
    have hm : ((some c).bind fun c => (step o (run o ops) .tell).metas[c]?) = some j := by
      show (run o ops).metas[c]? = some j
      rw [h2, hc]
    have hl : (step o (run o ops) .tell).live[j]? = some j := by
      show (run o ops).live[j]? = some j
      rw [h1, hlj]
    rw [hm]
    simp only [hl]
    rw [if_pos]
    refine ⟨?_, ?_, ?_⟩
    · show 1 < (run o ops).live.length
      rw [h1]; decide
    · show b / 4 < (run o ops).tells + 1
      rw [run_tells]; omega
    · rw [hwork, hwj]; omega
  have key : ∀ ops', (run o (ops ++ [.tell, .ask (some c)] ++ ops')).live = [j] ∧
      (run o (ops ++ [.tell, .ask (some c)] ++ ops')).served = (run o ops).served ++ List.replicate (1 + asks ops') j := by
    intro ops'
    induction ops' using List.reverseRecOn with
    | nil =>
      rw [List.append_nil, show ops ++ [Op.tell, .ask (some c)] = (ops ++ [.tell]) ++ [.ask (some c)] by simp, run_append, run_append]
      show (ask o (some c) (step o (run o ops) .tell)).live = _ ∧ (ask o (some c) (step o (run o ops) .tell)).served = _
      simp only [ask, hsel]
      exact ⟨rfl, rfl⟩
    | append_singleton ops' op ih =>
      rw [← List.append_assoc, run_append]
      generalize run o (ops ++ [.tell, .ask (some c)] ++ ops') = r at *
      cases op with
      | tell => simpa [step, asks, List.countP_append] using ih
      | ask best =>
        have hs : select o best r = r := by
          unfold select
          split
          · split
            · rw [if_neg (by rw [ih.1]; simp)]
            · rfl
          · rfl
        show (ask o best r).live = _ ∧ (ask o best r).served = _
        simp only [ask, hs, ih.1]
        refine ⟨rfl, ?_⟩
        show r.served ++ [j] = _
        rw [ih.2, List.append_assoc, ← List.replicate_succ']
        congr 2
        simp [asks, List.countP_append]
        omega
  exact (key ops').2

/-- **C94 (disagreement).** The budgets of the three optimizers only cover the first quarter: after more than a quarter of the asks, one of them
has been asked more often than its budget. -/
theorem discrete_over_budget (b n : Nat) (hn : 0 < n) (o : Obj) (h : multiDiscrete (some b) n = .ok o) (ops : List Op)
    (ha : b / 4 < asks ops) : ∃ i s B, o.optims[i]? = some s ∧ s.budget = some B ∧ B < (run o ops).served.count i := by
  obtain ⟨o', B₁, B₂, B₃, ho', hopt, hsum, -, -, hturns⟩ := discrete_content b n hn
  rw [h] at ho'
  injection ho' with ho'
  subst ho'
  have hinv : (∀ k ∈ (run o ops).live, k < 3) ∧ ∀ k ∈ (run o ops).served, k < 3 := by
    clear ha
    induction ops using List.reverseRecOn with
    | nil => simp [run, hopt]
    | append_singleton ops op ih =>
      obtain ⟨h1, h2⟩ := ih
      rw [run_append]
      cases op with
      | tell => exact ⟨h1, h2⟩
      | ask best =>
        have hs : (∀ k ∈ (select o best (run o ops)).live, k < 3) ∧ (select o best (run o ops)).served = (run o ops).served := by
          unfold select
          split
          · split
            · rename_i j hj
              split
              · refine ⟨fun k hk => ?_, rfl⟩
                rw [List.mem_singleton.mp hk]
                exact h1 j (List.mem_of_getElem? hj)
              · exact ⟨h1, rfl⟩
            · exact ⟨h1, rfl⟩
          · exact ⟨h1, rfl⟩
        obtain ⟨hl, hsv⟩ := hs
        have hget : ∀ i, (select o best (run o ops)).live.getD i 0 < 3 := by
          intro i
          rw [List.getD_eq_getElem?_getD]
          cases hi : (select o best (run o ops)).live[i]? with
          | none => simp
          | some k => exact hl k (List.mem_of_getElem? hi)
        show (∀ k ∈ (ask o best (run o ops)).live, k < 3) ∧ ∀ k ∈ (ask o best (run o ops)).served, k < 3
        simp only [ask]
        split
        · refine ⟨hl, fun k hk => ?_⟩
          simp only [hsv, List.mem_append, List.mem_singleton] at hk
          exact hk.elim (h2 k) (fun hk => hk ▸ hget 0)
        · refine ⟨hl, fun k hk => ?_⟩
          simp only [hsv, List.mem_append, List.mem_singleton] at hk
          exact hk.elim (h2 k) (fun hk => hk ▸ hget _)
  have hserved := hinv.2
  clear hinv
  have hcount : (run o ops).served.count 0 + (run o ops).served.count 1 + (run o ops).served.count 2 = (run o ops).served.length := by
    generalize (run o ops).served = l at *
    induction l with
    | nil => rfl
    | cons a l ih =>
      have ha3 := hserved a (by simp)
      have ih := ih (fun k hk => hserved k (by simp [hk]))
      have : a = 0 ∨ a = 1 ∨ a = 2 := by omega
      rcases this with rfl | rfl | rfl <;> simp <;> omega
  rw [run_served] at hcount
  by_cases h1 : B₁ < (run o ops).served.count 0
  · exact ⟨0, _, _, by rw [hopt]; rfl, rfl, h1⟩
  · by_cases h2 : B₂ < (run o ops).served.count 1
    · exact ⟨1, _, _, by rw [hopt]; rfl, rfl, h2⟩
    · exact ⟨2, _, _, by rw [hopt]; rfl, rfl, by omega⟩

/-- An ask and a tell, `k` times, the last candidate being the best. -/
def rounds (k : Nat) : List Op := (List.range k).flatMap (fun i : Nat => [.ask (if i = 0 then none else some (i - 1)), .tell])

example : (multiDiscrete (some 24) 1).toOption.map (fun o => (run o (rounds 12)).served) =
    some [0, 1, 2, 0, 1, 2, 0, 0, 0, 0, 0, 0] := by decide +kernel

example : (multiDiscrete (some 23) 2).toOption.map (fun o => (run o (rounds 12)).served) = some (List.replicate 12 0) := by decide +kernel

end Ready
end NG
