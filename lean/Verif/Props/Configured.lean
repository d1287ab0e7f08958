import Verif.Model.Configured
import Mathlib.Data.List.Nodup
import Mathlib.Tactic.Common

/-!
# C110: configured optimizers show and pass on their settings
-/

namespace NG
namespace Configured
variable {V : Type}

/-- A dictionary has distinct keys. -/
abbrev DictOK {B : Type} (d : List (Text × B)) : Prop := (d.map (·.1)).Nodup

/-- `k` holds `v` in a configuration, is an argument of the class which is not private, and its default is missing or not equal to `v`. -/
def Changed (eq : V → V → Bool) (args : List (Text × Option V)) (config : Dict V) (k : Text) (v : V) : Prop :=
  (k, v) ∈ config ∧ (∀ rest, k ≠ '_' :: rest) ∧ ∃ d, (k, d) ∈ args ∧ ∀ x, d = some x → eq x v = false

theorem look_mem {d : Dict V} (h : DictOK d) {k : Text} {v : V} : look d k = some v ↔ (k, v) ∈ d := by
  induction d with
  | nil => simp [look]
  | cons e rest ih =>
    obtain ⟨k', v'⟩ := e
    simp only [DictOK, List.map_cons, List.nodup_cons] at h
    by_cases hk : k' = k
    · subst hk
      simp only [look, List.find?_cons, decide_true, Option.map_some, Option.some.injEq, List.mem_cons, Prod.mk.injEq, true_and]
      constructor
      · intro h; exact Or.inl h.symm
      · rintro (h' | h')
        · exact h'.symm
        · exact absurd (List.mem_map.2 ⟨_, h', rfl⟩) h.1
    · have : look ((k', v') :: rest) k = look rest k := by simp [look, hk]
      rw [this, ih h.2]; simp [Ne.symm hk]

theorem head_private (k : Text) : (!decide (k.head? = some '_')) = true ↔ ∀ rest, k ≠ '_' :: rest := by
  cases k with
  | nil => simp
  | cons c rest => simp

theorem differs_iff (eq : V → V → Bool) (d : Option V) (v : V) : differs eq d v = true ↔ ∀ x, d = some x → eq x v = false := by
  cases d <;> simp [differs]

/-- The settings shown in the name are exactly the changed ones. -/
theorem diff_iff (eq : V → V → Bool) (args : List (Text × Option V)) (config : Dict V) (hc : DictOK config) (k : Text) (v : V) :
    (k, v) ∈ diff eq args config ↔ Changed eq args config k v := by
  simp only [diff, List.mem_filterMap, Changed]
  constructor
  · rintro ⟨⟨k', d⟩, ha, h⟩
    simp only at h
    split at h
    · cases h
    · rename_i w hw
      split at h
      · rename_i hd
        simp only [Option.some.injEq, Prod.mk.injEq] at h
        obtain ⟨rfl, rfl⟩ := h
        rw [Bool.and_eq_true, differs_iff, head_private] at hd
        exact ⟨(look_mem hc).1 hw, hd.2, d, ha, hd.1⟩
      · cases h
  · rintro ⟨h1, h2, d, h3, h4⟩
    refine ⟨(k, d), h3, ?_⟩
    simp only [(look_mem hc).2 h1]
    rw [if_pos]
    rw [Bool.and_eq_true, differs_iff, head_private]
    exact ⟨h4, h2⟩

theorem diff_sublist (eq : V → V → Bool) (args : List (Text × Option V)) (config : Dict V) : ((diff eq args config).map (·.1)).Sublist (args.map (·.1)) := by
  induction args with
  | nil => simp [diff]
  | cons a rest ih =>
    have : diff eq (a :: rest) config = diff eq rest config ∨ ∃ v, diff eq (a :: rest) config = (a.1, v) :: diff eq rest config := by
      simp only [diff, List.filterMap_cons]
      cases look config a.1 with
      | none => left; rfl
      | some v =>
        simp only
        by_cases hd : (differs eq a.2 v && !decide (a.1.head? = some '_')) = true
        · right; exact ⟨v, by rw [if_pos hd]⟩
        · left; rw [if_neg hd]
    rcases this with h | ⟨v, h⟩
    · rw [h, List.map_cons]; exact ih.cons _
    · rw [h, List.map_cons, List.map_cons]; exact ih.cons_cons _

/-- Every changed setting is shown once. -/
theorem diff_nodup (eq : V → V → Bool) (args : List (Text × Option V)) (config : Dict V) (ha : DictOK args) : DictOK (diff eq args config) :=
  (diff_sublist eq args config).nodup ha

theorem sortItems_perm (d : Dict V) : (sortItems d).Perm d := List.perm_insertionSort _ _

/-- The shown settings are in alphabetical order. -/
theorem sortItems_sorted (d : Dict V) : ((sortItems d).map (·.1)).Pairwise (· ≤ ·) := by
  rw [List.pairwise_map]
  exact List.pairwise_insertionSort (fun a b : Text × V => a.1 ≤ b.1) d

theorem sort_unique {a b : Dict V} (ha : DictOK a) (h : a.Perm b) : sortItems a = sortItems b := by
  have hp : (sortItems a).Perm (sortItems b) := ((sortItems_perm a).trans h).trans (sortItems_perm b).symm
  have sa := List.pairwise_map.1 (sortItems_sorted a)
  have sb := List.pairwise_map.1 (sortItems_sorted b)
  have hn : DictOK (sortItems a) := ((sortItems_perm a).map _).nodup_iff.2 ha
  refine hp.eq_of_pairwise ?_ sa sb
  intro x y hx hy h1 h2
  exact List.inj_on_of_nodup_map hn hx (hp.mem_iff.2 hy) (le_antisymm h1 h2)

/-! ## Names -/

/-- Texts before the first separator are determined. -/
theorem split_first {c : Char} {x y s t : Text} (hx : c ∉ x) (hy : c ∉ y) (h : x ++ c :: s = y ++ c :: t) : x = y ∧ s = t := by
  induction x generalizing y with
  | nil =>
    cases y with
    | nil => simpa using h
    | cons b y => simp only [List.nil_append, List.cons_append, List.cons.injEq] at h; exact absurd h.1 (by simp at hy; exact hy.1)
  | cons a x ih =>
    cases y with
    | nil => simp only [List.nil_append, List.cons_append, List.cons.injEq] at h; exact absurd h.1.symm (by simp at hx; exact hx.1)
    | cons b y =>
      simp only [List.cons_append, List.cons.injEq] at h
      obtain ⟨h1, h2⟩ := ih (by simp at hx; exact hx.2) (by simp at hy; exact hy.2) h.2
      exact ⟨by rw [h.1, h1], h2⟩

theorem join_inj {xs ys : List Text} (hx : ∀ x ∈ xs, ',' ∉ x ∧ x ≠ []) (hy : ∀ y ∈ ys, ',' ∉ y ∧ y ≠ []) (h : join xs = join ys) : xs = ys := by
  induction xs generalizing ys with
  | nil =>
    cases ys with
    | nil => rfl
    | cons y ys =>
      cases ys with
      | nil => simp only [join] at h; exact absurd h.symm (hy y (by simp)).2
      | cons z rest => simp [join] at h
  | cons x xs ih =>
    cases xs with
    | nil =>
      cases ys with
      | nil => simp only [join] at h; exact absurd h (hx x (by simp)).2
      | cons y ys =>
        cases ys with
        | nil => simp only [join] at h; rw [h]
        | cons z rest =>
          simp only [join] at h
          have hc := (hx x (by simp)).1
          rw [h] at hc; simp at hc
    | cons x' xs =>
      cases ys with
      | nil => simp [join] at h
      | cons y ys =>
        cases ys with
        | nil =>
          simp only [join] at h
          have hc := (hy y (by simp)).1
          rw [← h] at hc; simp at hc
        | cons z rest =>
          simp only [join] at h
          have h' : x ++ ',' :: (' ' :: join (x' :: xs)) = y ++ ',' :: (' ' :: join (z :: rest)) := by simpa using h
          obtain ⟨h1, h2⟩ := split_first (hx x (by simp)).1 (hy y (by simp)).1 h'
          rw [h1, ih (fun x hm => hx x (List.mem_cons_of_mem _ hm)) (fun y hm => hy y (List.mem_cons_of_mem _ hm)) (by simpa using h2)]

theorem nameOf_inj {eq : V → V → Bool} {repr : V → Text} {c : Cls V} {a b : Dict V}
    (h : nameOf eq repr c a = nameOf eq repr c b) :
    join ((sortItems (diff eq c.args a)).map (fun e => e.1 ++ "=".toList ++ repr e.2)) = join ((sortItems (diff eq c.args b)).map (fun e => e.1 ++ "=".toList ++ repr e.2)) := by
  unfold nameOf at h
  have := List.append_cancel_right h
  rw [List.append_assoc, List.append_assoc] at this
  have := List.append_cancel_left (List.append_cancel_left this)
  exact this

/-- The name shows no setting exactly when all public settings are equal to their defaults. -/
theorem name_default (eq : V → V → Bool) (repr : V → Text) (c : Cls V) (config : Dict V) (hc : DictOK config) :
    nameOf eq repr c config = c.name ++ "()".toList ↔ ∀ k v, ¬ Changed eq c.args config k v := by
  have key : nameOf eq repr c config = c.name ++ "()".toList ↔ diff eq c.args config = [] := by
    unfold nameOf
    constructor
    · intro h
      rw [List.append_assoc, List.append_assoc] at h
      have h1 := List.append_cancel_left h
      have h2 : join ((sortItems (diff eq c.args config)).map (fun e => e.1 ++ "=".toList ++ repr e.2)) ++ ")".toList = ")".toList := by simpa using h1
      have h3 : join ((sortItems (diff eq c.args config)).map (fun e => e.1 ++ "=".toList ++ repr e.2)) = [] := by simpa using h2
      have h4 : (sortItems (diff eq c.args config)).length = (diff eq c.args config).length := (sortItems_perm _).length_eq
      match hs : sortItems (diff eq c.args config), h3 with
      | [], _ => rw [hs] at h4; exact List.length_eq_zero_iff.1 h4.symm
      | [e], h3 => simp [join] at h3
      | e :: f :: rest, h3 => simp [join] at h3
    · intro h
      simp [h, sortItems, join]
  rw [key]
  constructor
  · intro h k v hch
    rw [← diff_iff eq c.args config hc, h] at hch
    simp at hch
  · intro h
    rw [List.eq_nil_iff_forall_not_mem]
    rintro ⟨k, v⟩ hm
    exact h k v ((diff_iff eq c.args config hc k v).1 hm)

/-- The order in which arguments are given does not show. -/
theorem name_order (eq : V → V → Bool) (repr : V → Text) (c : Cls V) (a b : Dict V) (hargs : DictOK c.args) (ha : DictOK a) (h : a.Perm b) :
    nameOf eq repr c a = nameOf eq repr c b := by
  have hb : DictOK b := (h.map _).nodup_iff.1 ha
  have : (diff eq c.args a).Perm (diff eq c.args b) := by
    rw [List.perm_ext_iff_of_nodup (List.Nodup.of_map _ (diff_nodup eq c.args a hargs)) (List.Nodup.of_map _ (diff_nodup eq c.args b hargs))]
    rintro ⟨k, v⟩
    rw [diff_iff eq c.args a ha, diff_iff eq c.args b hb]
    unfold Changed
    rw [h.mem_iff]
  unfold nameOf
  rw [sort_unique (diff_nodup eq c.args a hargs) this]

/-- Texts which can be read in a name: no comma in the texts of values, no equality sign nor comma in the names of arguments. -/
def Readable (repr : V → Text) (args : List (Text × Option V)) : Prop := (∀ v, ',' ∉ repr v) ∧ ∀ k d, (k, d) ∈ args → '=' ∉ k ∧ ',' ∉ k

theorem pieces_inj {repr : V → Text} {a b : Dict V} (ha : ∀ e ∈ a, '=' ∉ e.1) (hb : ∀ e ∈ b, '=' ∉ e.1)
    (h : a.map (fun e => e.1 ++ "=".toList ++ repr e.2) = b.map (fun e => e.1 ++ "=".toList ++ repr e.2)) :
    a.map (fun e => (e.1, repr e.2)) = b.map (fun e => (e.1, repr e.2)) := by
  induction a generalizing b with
  | nil => cases b with
    | nil => rfl
    | cons => simp at h
  | cons x a ih =>
    cases b with
    | nil => simp at h
    | cons y b =>
      simp only [List.map_cons, List.cons.injEq] at h ⊢
      have h1 : x.1 ++ '=' :: repr x.2 = y.1 ++ '=' :: repr y.2 := by simpa using h.1
      obtain ⟨h2, h3⟩ := split_first (ha x (by simp)) (hb y (by simp)) h1
      exact ⟨by rw [h2, h3], ih (fun e he => ha e (by simp [he])) (fun e he => hb e (by simp [he])) h.2⟩

/-- Configurations of one class with the same name agree on every public setting, if the texts of the values are readable and determine them. -/
theorem name_determines_partial (eq : V → V → Bool) (repr : V → Text) (c : Cls V) (a b : Dict V)
    (hsym : ∀ x y, eq x y = true → eq y x = true) (htrans : ∀ x y z, eq x y = true → eq y z = true → eq x z = true)
    (hrepr : ∀ x y, repr x = repr y → eq x y = true) (hread : Readable repr c.args) (ha : DictOK a) (hb : DictOK b)
    (h : nameOf eq repr c a = nameOf eq repr c b) (k : Text) (d : Option V) (hk : (k, d) ∈ c.args) (hpub : ∀ rest, k ≠ '_' :: rest) (v w : V)
    (hv : (k, v) ∈ a) (hw : (k, w) ∈ b) : eq v w = true := by
  have hkeys : ∀ config e, e ∈ sortItems (diff eq c.args config) → ∃ d, (e.1, d) ∈ c.args := by
    intro config e he
    have h1 : e.1 ∈ (diff eq c.args config).map (·.1) := List.mem_map.2 ⟨e, (sortItems_perm _).mem_iff.1 he, rfl⟩
    obtain ⟨⟨k', d'⟩, h2, h3⟩ := List.mem_map.1 ((diff_sublist eq c.args config).mem h1)
    exact ⟨d', by rw [← h3]; exact h2⟩
  have hp : ∀ config, ∀ x ∈ (sortItems (diff eq c.args config)).map (fun e => e.1 ++ "=".toList ++ repr e.2), ',' ∉ x ∧ x ≠ [] := by
    intro config x hx
    obtain ⟨e, he, rfl⟩ := List.mem_map.1 hx
    obtain ⟨d', hd'⟩ := hkeys config e he
    refine ⟨?_, by simp⟩
    simp only [List.mem_append, not_or]
    exact ⟨⟨(hread.2 _ _ hd').2, by decide⟩, hread.1 _⟩
  have h1 := join_inj (hp a) (hp b) (nameOf_inj h)
  have heq : ∀ config, ∀ e ∈ sortItems (diff eq c.args config), '=' ∉ e.1 := by
    intro config e he
    obtain ⟨d', hd'⟩ := hkeys config e he
    exact (hread.2 _ _ hd').1
  have h2 := pieces_inj (heq a) (heq b) h1
  have shown : ∀ (x y : Dict V), DictOK x → DictOK y → (sortItems (diff eq c.args x)).map (fun e => (e.1, repr e.2)) = (sortItems (diff eq c.args y)).map (fun e => (e.1, repr e.2)) →
      ∀ v, Changed eq c.args x k v → ∃ w, Changed eq c.args y k w ∧ repr v = repr w := by
    intro x y hx hy hxy v hch
    have m1 : (k, repr v) ∈ (sortItems (diff eq c.args x)).map (fun e => (e.1, repr e.2)) :=
      List.mem_map.2 ⟨(k, v), (sortItems_perm _).mem_iff.2 ((diff_iff eq c.args x hx k v).2 hch), rfl⟩
    rw [hxy] at m1
    obtain ⟨⟨k', w⟩, hm, he⟩ := List.mem_map.1 m1
    simp only [Prod.mk.injEq] at he
    obtain ⟨rfl, he⟩ := he
    exact ⟨w, (diff_iff eq c.args y hy _ w).1 ((sortItems_perm _).mem_iff.1 hm), he.symm⟩
  have uniq : ∀ {x : Dict V}, DictOK x → ∀ {v w : V}, (k, v) ∈ x → (k, w) ∈ x → v = w := by
    intro x hx v w h1 h2
    exact congrArg Prod.snd (List.inj_on_of_nodup_map hx h1 h2 rfl)
  by_cases hca : Changed eq c.args a k v
  · obtain ⟨w', hw', hr⟩ := shown a b ha hb h2 v hca
    obtain rfl := uniq hb hw'.1 hw
    exact hrepr _ _ hr
  · by_cases hcb : Changed eq c.args b k w
    · obtain ⟨v', hv', hr⟩ := shown b a hb ha h2.symm w hcb
      obtain rfl := uniq ha hv'.1 hv
      exact absurd hv' hca
    · have dflt : ∀ {x : Dict V} {u : V}, (k, u) ∈ x → ¬ Changed eq c.args x k u → ∃ z, d = some z ∧ eq z u = true := by
        intro x u hu hn
        by_contra hcon
        apply hn
        refine ⟨hu, hpub, d, hk, fun z hz => ?_⟩
        by_contra h0
        exact hcon ⟨z, hz, by simpa using h0⟩
      obtain ⟨z, hz, h3⟩ := dflt hv hca
      obtain ⟨z', hz', h4⟩ := dflt hw hcb
      rw [hz] at hz'
      obtain rfl := Option.some.inj hz'
      exact htrans _ _ _ (hsym _ _ h3) h4

/-! ## Creation -/

/-- The arguments and the configuration without `self` and `__class__` have the same names. -/
theorem mismatch_iff (args : List (Text × Option V)) (config : Dict V) :
    mismatch args config = false ↔ ∀ k, k ∈ args.map (·.1) ↔ k ∈ config.map (·.1) := by
  simp only [mismatch, Bool.not_eq_false', Bool.and_eq_true, List.all_eq_true, List.any_eq_true, decide_eq_true_eq, List.mem_map]
  constructor
  · rintro ⟨h1, h2⟩ k
    constructor
    · rintro ⟨x, hx, rfl⟩; exact h1 x hx
    · rintro ⟨x, hx, rfl⟩; exact h2 x hx
  · intro h
    exact ⟨fun x hx => (h x.1).1 ⟨x, hx, rfl⟩, fun x hx => (h x.1).2 ⟨x, hx, rfl⟩⟩

theorem clean_mem (config : Dict V) (k : Text) (v : V) :
    (k, v) ∈ clean config ↔ (k, v) ∈ config ∧ k ≠ "self".toList ∧ k ≠ "__class__".toList := by
  simp only [clean, List.mem_filter, Bool.and_eq_true, Bool.not_eq_true', decide_eq_false_iff_not]

/-- A configured optimizer is created exactly when its settings are the arguments of its class and the trial optimizer can be created; it holds these settings. -/
theorem build_iff (eq : V → V → Bool) (repr : V → Text) (trial : Dict V → Bool) (inner : Maker V) (c : Cls V) (config : Dict V) (asConfig : Bool) (m : Maker V) :
    build eq repr trial inner c config asConfig = some m ↔
      (∀ k, k ∈ c.args.map (·.1) ↔ k ∈ (clean config).map (·.1)) ∧ (asConfig = true ∨ trial (clean config) = true) ∧
      m = .conf inner c.name (clean config) asConfig (nameOf eq repr c (clean config)) := by
  unfold build
  rw [← mismatch_iff]
  by_cases h : mismatch c.args (clean config) = true
  · rw [if_pos h]; simp [h]
  · have h' : mismatch c.args (clean config) = false := by simpa using h
    rw [if_neg h]
    by_cases h2 : (asConfig || trial (clean config)) = true
    · rw [if_pos h2]
      simp only [Bool.or_eq_true] at h2
      exact ⟨fun h3 => ⟨h', h2, (Option.some.inj h3).symm⟩, fun h3 => by rw [h3.2.2]⟩
    · rw [if_neg h2]
      simp only [Bool.or_eq_true] at h2
      simp [h2]

/-- A configured optimizer, around any number of others, can be called. -/
theorem make_total {P : Type} (m : Maker V) (p : P) (budget : Option Nat) (workers : Nat) : ∃ run, make m p budget workers = some run := by
  unfold make
  induction m with
  | raw n => exact ⟨_, rfl⟩
  | conf inner cls config asConfig name ih =>
    cases inner with
    | raw n => exact ⟨_, rfl⟩
    | conf i c d a n =>
      obtain ⟨run, h⟩ := ih
      refine ⟨{ run with name := name, owner := some (.conf (.conf i c d a n) cls config asConfig name) }, ?_⟩
      rw [call]
      simp only [passed, h, Option.map_some]

/-- The parametrization, the budget and the number of workers reach the optimizer, through any number of configured optimizers. -/
theorem make_problem {P : Type} (m : Maker V) (p : P) (budget : Option Nat) (workers : Nat) (run : Run V P) (h : make m p budget workers = some run) :
    run.parametrization = p ∧ run.budget = budget ∧ run.workers = workers := by
  unfold make at h
  generalize Given.nothing = g at h
  induction m generalizing g run with
  | raw n => simp only [call, Option.some.injEq] at h; subst h; exact ⟨rfl, rfl, rfl⟩
  | conf inner cls config asConfig name ih =>
    cases g with
    | nothing =>
      simp only [call, Option.map_eq_some_iff] at h
      obtain ⟨r, hr, rfl⟩ := h
      exact ih r _ hr
    | kwargs d => simp [call] at h
    | config m => simp [call] at h

/-- A class is given the settings, or the configured optimizer itself. -/
theorem make_given {P : Type} (cls n name : Text) (config : Dict V) (asConfig : Bool) (p : P) (budget : Option Nat) (workers : Nat) :
    ∃ run, make (.conf (.raw n) cls config asConfig name) p budget workers = some run ∧ run.cls = n ∧
      run.given = (if asConfig = true then Given.config (.conf (.raw n) cls config asConfig name) else Given.kwargs config) := by
  simp [make, call, passed]

/-- The optimizer has the name of the outermost configured optimizer and refers to it. -/
theorem make_name {P : Type} (inner : Maker V) (cls name : Text) (config : Dict V) (asConfig : Bool) (p : P) (budget : Option Nat) (workers : Nat) (run : Run V P)
    (h : make (.conf inner cls config asConfig name) p budget workers = some run) :
    run.name = name ∧ run.owner = some (.conf inner cls config asConfig name) := by
  simp only [make, call, Option.map_eq_some_iff] at h
  obtain ⟨r, -, rfl⟩ := h
  exact ⟨rfl, rfl⟩

/-- A configured optimizer around another one creates the optimizers of the latter: the outer settings are not used. -/
theorem make_nested {P : Type} (inner : Maker V) (cls name : Text) (config : Dict V) (asConfig : Bool) (icls iname : Text) (iconfig : Dict V) (ias : Bool) (p : P)
    (budget : Option Nat) (workers : Nat) :
    ∃ out run, make (.conf (.conf inner icls iconfig ias iname) cls config asConfig name) p budget workers = some out ∧
      make (.conf inner icls iconfig ias iname) p budget workers = some run ∧ out.given = run.given ∧ out.cls = run.cls := by
  obtain ⟨run, h⟩ := make_total (.conf inner icls iconfig ias iname) p budget workers
  refine ⟨{ run with name := name, owner := some (.conf (.conf inner icls iconfig ias iname) cls config asConfig name) }, run, ?_, h, rfl, rfl⟩
  unfold make at h ⊢
  rw [call]
  simp only [passed, h, Option.map_some]

/-! ## Equality -/

theorem dictEq_iff (eq : V → V → Bool) (a b : Dict V) (ha : DictOK a) (hb : DictOK b) :
    dictEq eq a b = true ↔ (∀ k, k ∈ a.map (·.1) ↔ k ∈ b.map (·.1)) ∧ ∀ k v w, (k, v) ∈ a → (k, w) ∈ b → eq v w = true := by
  have all : (a.all (holds eq b)) = true ↔ ∀ k v, (k, v) ∈ a → ∃ w, (k, w) ∈ b ∧ eq v w = true := by
    rw [List.all_eq_true]
    constructor
    · intro h k v hm
      have := h (k, v) hm
      simp only [holds] at this
      split at this
      · cases this
      · rename_i w hw
        exact ⟨w, (look_mem hb).1 hw, this⟩
    · rintro h ⟨k, v⟩ hm
      obtain ⟨w, hw, he⟩ := h k v hm
      simp only [holds, (look_mem hb).2 hw, he]
  unfold dictEq
  rw [Bool.and_eq_true, all, decide_eq_true_eq]
  constructor
  · rintro ⟨hl, h⟩
    have hsub : a.map (·.1) ⊆ b.map (·.1) := by
      intro k hk
      obtain ⟨⟨k', v⟩, hm, rfl⟩ := List.mem_map.1 hk
      obtain ⟨w, hw, _⟩ := h _ _ hm
      exact List.mem_map.2 ⟨_, hw, rfl⟩
    have hperm : (a.map (·.1)).Perm (b.map (·.1)) := (List.subperm_of_subset ha hsub).perm_of_length_le (by simp [hl])
    refine ⟨fun k => hperm.mem_iff, fun k v w hv hw => ?_⟩
    obtain ⟨w', hw', he⟩ := h k v hv
    obtain rfl : w = w' := congrArg Prod.snd (List.inj_on_of_nodup_map hb hw hw' rfl)
    exact he
  · rintro ⟨hk, h⟩
    have hperm : (a.map (·.1)).Perm (b.map (·.1)) := (List.perm_ext_iff_of_nodup ha hb).2 hk
    refine ⟨by simpa using hperm.length_eq, fun k v hm => ?_⟩
    obtain ⟨⟨k', w⟩, hw, he⟩ := List.mem_map.1 ((hk k).1 (List.mem_map.2 ⟨_, hm, rfl⟩))
    simp only at he; subst he
    exact ⟨w, hw, h _ v w hm hw⟩

/-- The configuration held by a maker. -/
def configOf : Maker V → Dict V
  | .raw _ => []
  | .conf _ _ config _ _ => config

/-- Equality of configured optimizers is symmetric. -/
theorem makerEq_symm (eq : V → V → Bool) (hsym : ∀ x y, eq x y = true → eq y x = true) (a b : Maker V) (ha : DictOK (configOf a)) (hb : DictOK (configOf b))
    (h : makerEq eq a b = true) : makerEq eq b a = true := by
  cases a with
  | raw n => cases b with
    | raw m => simpa [makerEq, eq_comm] using h
    | conf => simp [makerEq] at h
  | conf ia ca da aa na => cases b with
    | raw m => simp [makerEq] at h
    | conf ib cb db ab nb =>
      simp only [makerEq, Bool.and_eq_true, decide_eq_true_eq] at h ⊢
      simp only [configOf] at ha hb
      rw [dictEq_iff eq da db ha hb] at h
      rw [dictEq_iff eq db da hb ha]
      exact ⟨h.1.symm, fun k => (h.2.1 k).symm, fun k v w hv hw => hsym _ _ (h.2.2 k w v hw hv)⟩

/-- Equality of configured optimizers is transitive. -/
theorem makerEq_trans (eq : V → V → Bool) (htrans : ∀ x y z, eq x y = true → eq y z = true → eq x z = true) (a b c : Maker V) (ha : DictOK (configOf a))
    (hb : DictOK (configOf b)) (hc : DictOK (configOf c)) (h : makerEq eq a b = true) (h' : makerEq eq b c = true) : makerEq eq a c = true := by
  cases a with
  | raw n => cases b with
    | raw m => cases c with
      | raw l => simp [makerEq] at h h' ⊢; exact h.trans h'
      | conf => simp [makerEq] at h'
    | conf => simp [makerEq] at h
  | conf ia ca da aa na => cases b with
    | raw m => simp [makerEq] at h
    | conf ib cb db ab nb => cases c with
      | raw l => simp [makerEq] at h'
      | conf ic cc dc ac nc =>
        simp only [makerEq, Bool.and_eq_true, decide_eq_true_eq] at h h' ⊢
        simp only [configOf] at ha hb hc
        rw [dictEq_iff eq _ _ ha hb] at h
        rw [dictEq_iff eq _ _ hb hc] at h'
        rw [dictEq_iff eq _ _ ha hc]
        refine ⟨h.1.trans h'.1, fun k => (h.2.1 k).trans (h'.2.1 k), fun k v w hv hw => ?_⟩
        obtain ⟨⟨k', u⟩, hu, he⟩ := List.mem_map.1 ((h.2.1 k).1 (List.mem_map.2 ⟨_, hv, rfl⟩))
        simp only at he; subst he
        exact htrans _ _ _ (h.2.2 _ v u hv hu) (h'.2.2 _ u w hu hw)

/-- Renaming a configured optimizer gives an equal one, up to its name. -/
theorem makerEq_setName (eq : V → V → Bool) (hrefl : ∀ x, eq x x = true) (m : Maker V) (hm : DictOK (configOf m)) (name : Text) : makerEq eq m (setName m name) = true := by
  cases m with
  | raw n => simp [makerEq, setName]
  | conf i c d a n =>
    simp only [makerEq, setName, decide_true, Bool.true_and]
    simp only [configOf] at hm
    rw [dictEq_iff eq d d hm hm]
    refine ⟨fun k => Iff.rfl, fun k v w hv hw => ?_⟩
    obtain rfl : v = w := congrArg Prod.snd (List.inj_on_of_nodup_map hm hv hw rfl)
    exact hrefl v

/-- Equal configured optimizers whose equal values have equal texts were given the same name at creation. -/
theorem equal_same_name_partial (eq : V → V → Bool) (repr : V → Text) (c : Cls V) (a b : Dict V)
    (hsym : ∀ x y, eq x y = true → eq y x = true) (htrans : ∀ x y z, eq x y = true → eq y z = true → eq x z = true)
    (hrepr : ∀ x y, eq x y = true → repr x = repr y) (hargs : DictOK c.args) (ha : DictOK a) (hb : DictOK b) (h : dictEq eq a b = true) :
    nameOf eq repr c a = nameOf eq repr c b := by
  rw [dictEq_iff eq a b ha hb] at h
  have step : ∀ (x y : Dict V), DictOK x → DictOK y → (∀ k, k ∈ x.map (·.1) ↔ k ∈ y.map (·.1)) → (∀ k v w, (k, v) ∈ x → (k, w) ∈ y → eq v w = true) →
      ∀ e ∈ (diff eq c.args x).map (fun e => (e.1, repr e.2)), e ∈ (diff eq c.args y).map (fun e => (e.1, repr e.2)) := by
    rintro x y hx hy hk he ⟨k, r⟩ hm
    obtain ⟨⟨k', v⟩, hv, h1⟩ := List.mem_map.1 hm
    simp only [Prod.mk.injEq] at h1
    obtain ⟨rfl, rfl⟩ := h1
    rw [diff_iff eq c.args x hx] at hv
    obtain ⟨hv1, hv2, d, hd, hne⟩ := hv
    obtain ⟨⟨k'', w⟩, hw, h2⟩ := List.mem_map.1 ((hk k').1 (List.mem_map.2 ⟨_, hv1, rfl⟩))
    simp only at h2; subst h2
    have hvw := he _ _ _ hv1 hw
    refine List.mem_map.2 ⟨(k'', w), (diff_iff eq c.args y hy _ _).2 ⟨hw, hv2, d, hd, fun z hz => ?_⟩, by simp [hrepr _ _ hvw]⟩
    by_contra h0
    have h1 : eq z w = true := by simpa using h0
    have := htrans _ _ _ h1 (hsym _ _ hvw)
    rw [hne z hz] at this
    cases this
  -- the shown texts
  let ta := (diff eq c.args a).map (fun e => (e.1, repr e.2))
  let tb := (diff eq c.args b).map (fun e => (e.1, repr e.2))
  have nta : DictOK ta := by
    have := diff_nodup eq c.args a hargs
    simpa [DictOK, ta, Function.comp_def] using this
  have ntb : DictOK tb := by
    have := diff_nodup eq c.args b hargs
    simpa [DictOK, tb, Function.comp_def] using this
  have hperm : ta.Perm tb := by
    rw [List.perm_ext_iff_of_nodup nta.of_map ntb.of_map]
    exact fun e => ⟨step a b ha hb h.1 h.2 e, step b a hb ha (fun k => (h.1 k).symm) (fun k v w hv hw => hsym _ _ (h.2 k w v hw hv)) e⟩
  have hs := sort_unique nta hperm
  have comm : ∀ d : Dict V, sortItems (d.map (fun e => (e.1, repr e.2))) = (sortItems d).map (fun e => (e.1, repr e.2)) := by
    intro d
    exact (List.map_insertionSort (r := fun a b : Text × V => a.1 ≤ b.1) (s := fun a b : Text × Text => a.1 ≤ b.1) (fun e => (e.1, repr e.2)) d
      (fun _ _ _ _ => Iff.rfl)).symm
  have hm := congrArg (fun l => l.map (fun e : Text × Text => e.1 ++ "=".toList ++ e.2)) hs
  simp only [ta, tb, comm, List.map_map] at hm
  unfold nameOf
  rw [show (sortItems (diff eq c.args a)).map (fun e => e.1 ++ "=".toList ++ repr e.2) = (sortItems (diff eq c.args b)).map (fun e => e.1 ++ "=".toList ++ repr e.2) from hm]

/-! ## Settings of experiments -/

/-- Settings are equal exactly when the optimizers, budgets, numbers of workers and modes are. -/
theorem settings_eq_iff (eq : V → V → Bool) (a b : Settings V) :
    a.beq eq b = true ↔ choiceEq eq a.optimizer b.optimizer = true ∧ a.budget = b.budget ∧ a.workers = b.workers ∧ a.batch = b.batch := by
  simp [Settings.beq, and_assoc]

/-- Flagged exactly when a sequential optimizer is used with several workers. -/
theorem incoherent_iff (sequential : Maker V → Bool) (registry : Text → Maker V) (s : Settings V) :
    s.incoherent sequential registry = true ↔ sequential (s.factory registry) = true ∧ 2 ≤ s.workers := by
  simp [Settings.incoherent]; omega

/-- The optimizer of an experiment gets its budget, its number of workers and its parametrization, and is made by the registered or given factory. -/
theorem instantiate_problem {P : Type} (registry : Text → Maker V) (s : Settings V) (p : P) :
    (∃ run, s.instantiate registry p = some run ∧ run.parametrization = p ∧ run.budget = some s.budget ∧ run.workers = s.workers) ∧
    (∀ n, s.optimizer = .registered n → s.instantiate registry p = make (registry n) p (some s.budget) s.workers) ∧
    (∀ m, s.optimizer = .object m → s.instantiate registry p = make m p (some s.budget) s.workers) := by
  refine ⟨?_, fun n hn => ?_, fun m hm => ?_⟩
  · obtain ⟨run, h⟩ := make_total (s.factory registry) p (some s.budget) s.workers
    exact ⟨run, h, make_problem _ _ _ _ _ h⟩
  · simp [Settings.instantiate, Settings.factory, hn]
  · simp [Settings.instantiate, Settings.factory, hm]

/-- The name in the description is the name of the optimizer which will run, for objects; registered names stand for themselves. -/
theorem description_name {P : Type} (registry : Text → Maker V) (s : Settings V) (m : Maker V) (h : s.optimizer = .object m) (p : P) :
    (s.instantiate registry p).map (·.name) = some s.description.2.2.2 := by
  cases m with
  | raw n => simp [Settings.description, Settings.name, h, Settings.instantiate, Settings.factory, make, call]
  | conf i c d a n =>
    obtain ⟨run, hr⟩ := make_total (.conf i c d a n) p (some s.budget) s.workers
    have h2 := (make_name _ _ _ _ _ _ _ _ _ hr).1
    simp [Settings.description, Settings.name, h, Settings.instantiate, Settings.factory, hr, h2]

/-- Settings equal for registered optimizers have the same description. -/
theorem equal_description_partial (eq : V → V → Bool) (a b : Settings V) (h : a.beq eq b = true) (n : Text) (hn : a.optimizer = .registered n) :
    a.description = b.description := by
  rw [settings_eq_iff] at h
  obtain ⟨h1, h2, h3, h4⟩ := h
  cases hb : b.optimizer with
  | registered m =>
    rw [hn, hb] at h1
    simp only [choiceEq, decide_eq_true_eq] at h1
    simp [Settings.description, Settings.name, hn, hb, h1, h2, h3, h4]
  | object m => rw [hn, hb] at h1; simp [choiceEq] at h1

/-! ## What the code does not ensure -/

/-- Values for the witnesses: numbers with a flag for floats, compared as Python does. -/
abbrev Num := Nat × Bool

/-- `==` -/
def numEq (a b : Num) : Bool := a.1 = b.1

/-- `repr` -/
def numRepr (a : Num) : Text := (Nat.toDigits 10 a.1) ++ (if a.2 = true then ".0".toList else [])

/-- A renamed optimizer is equal to the original one: experiments with both are equal but described differently. -/
theorem renamed_equal_settings : ∃ a b : Settings Num, a.beq numEq b = true ∧ a.description ≠ b.description :=
  ⟨⟨.object (.conf (.raw "_DE".toList) "DE".toList [] true "A".toList), 10, 1, true⟩, ⟨.object (.conf (.raw "_DE".toList) "DE".toList [] true "B".toList), 10, 1, true⟩,
    by decide, by decide⟩

/-- A registered name and the object registered under it are different settings with the same description, though they create the same optimizers. -/
theorem name_and_object_differ (eq : V → V → Bool) (registry : Text → Maker V) (n : Text) (hn : ∃ i c d a, registry n = .conf i c d a n) (budget workers : Nat) (batch : Bool) :
    (⟨.registered n, budget, workers, batch⟩ : Settings V).beq eq ⟨.object (registry n), budget, workers, batch⟩ = false ∧
    (⟨.registered n, budget, workers, batch⟩ : Settings V).description = (⟨.object (registry n), budget, workers, batch⟩ : Settings V).description ∧
    ∀ {P : Type} (p : P), (⟨.registered n, budget, workers, batch⟩ : Settings V).instantiate registry p = (⟨.object (registry n), budget, workers, batch⟩ : Settings V).instantiate registry p := by
  obtain ⟨i, c, d, a, h⟩ := hn
  refine ⟨by simp [Settings.beq, choiceEq], by simp [Settings.description, Settings.name, h], fun p => by simp [Settings.instantiate, Settings.factory]⟩

/-- Equal optimizers can have different names: 2 and 2.0 are equal. -/
theorem equal_other_name : ∃ (c : Cls Num) (a b : Dict Num), dictEq numEq a b = true ∧ nameOf numEq numRepr c a ≠ nameOf numEq numRepr c b :=
  ⟨⟨"TBPSA".toList, [("popsize".toList, some (1, false))]⟩, [("popsize".toList, (2, false))], [("popsize".toList, (2, true))], by decide, by decide +kernel⟩

/-- Private settings are not shown: different optimizers with the same name. -/
theorem private_hidden : ∃ (c : Cls Num) (a b : Dict Num), dictEq numEq a b = false ∧ nameOf numEq numRepr c a = nameOf numEq numRepr c b :=
  ⟨⟨"PSO".toList, [("_k".toList, some (1, false))]⟩, [("_k".toList, (1, false))], [("_k".toList, (2, false))], by decide, by decide +kernel⟩

/-- Texts with commas can be confused: here values are their own text. -/
theorem commas_confuse : ∃ (c : Cls Text) (a b : Dict Text), dictEq (fun x y => x = y) a b = false ∧ nameOf (fun x y => x = y) id c a = nameOf (fun x y => x = y) id c b :=
  ⟨⟨"C".toList, [("a".toList, some []), ("b".toList, some [])]⟩, [("a".toList, "1, b=2".toList), ("b".toList, [])], [("a".toList, "1".toList), ("b".toList, "2".toList)],
    by decide, by decide +kernel⟩

/-! ## Examples -/

/-- `ParametrizedOnePlusOne`-like class with two arguments. -/
def exCls : Cls Num := ⟨"C".toList, [("z".toList, some (1, false)), ("b".toList, some (0, false)), ("a".toList, none)]⟩

example : nameOf numEq numRepr exCls [("z".toList, (3, false)), ("b".toList, (0, true)), ("a".toList, (7, false))] = "C(a=7, z=3)".toList := by decide +kernel

example : nameOf numEq numRepr ⟨"C".toList, [("z".toList, some (1, false))]⟩ [("z".toList, (1, true))] = "C()".toList := by decide +kernel

example : build numEq numRepr (fun _ => true) (.raw "_C".toList) ⟨"C".toList, [("z".toList, some (1, false))]⟩ [("self".toList, (0, false)), ("z".toList, (4, false))] false
    = some (.conf (.raw "_C".toList) "C".toList [("z".toList, (4, false))] false "C(z=4)".toList) := by
  rw [build_iff]
  refine ⟨?_, Or.inr rfl, ?_⟩
  · intro k; simp [clean]
  · have h : clean [("self".toList, ((0, false) : Num)), ("z".toList, (4, false))] = [("z".toList, (4, false))] := by decide +kernel
    have h2 : nameOf numEq numRepr ⟨"C".toList, [("z".toList, some (1, false))]⟩ [("z".toList, (4, false))] = "C(z=4)".toList := by decide +kernel
    rw [h, h2]

example : Readable (fun n : Nat => List.replicate n 'I') [("z".toList, some 1)] := by
  refine ⟨fun v h => ?_, fun k d h => ?_⟩
  · have := List.eq_of_mem_replicate h; exact absurd this (by decide)
  · simp at h; obtain ⟨rfl, _⟩ := h; decide

example : (make (.conf (.conf (.raw "_C".toList) "C".toList [("z".toList, ((4, false) : Num))] false "in".toList) "D".toList [] false "out".toList) () (some 5) 2).map
    (fun run => run.given) = some (.kwargs [("z".toList, (4, false))]) := rfl

end Configured
end NG
