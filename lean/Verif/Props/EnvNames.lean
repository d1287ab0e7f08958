import Verif.Model.EnvNames
import Mathlib.Data.List.Infix

/-!
# The list of environments (C177)
-/

namespace NG
namespace EnvNames

theorem contains_iff (x s : List Char) : contains x s = true ↔ x <:+: s := by
  unfold contains
  rw [List.any_eq_true, List.infix_iff_prefix_suffix]
  constructor
  · rintro ⟨t, ht, hp⟩
    exact ⟨t, List.isPrefixOf_iff_prefix.1 hp, (List.mem_tails _ _).1 ht⟩
  · rintro ⟨t, hp, ht⟩
    exact ⟨t, (List.mem_tails _ _).2 ht, List.isPrefixOf_iff_prefix.2 hp⟩

/-- The environments in the list: no refused part in the name, it can be tried, and the actions are small. The environment refused by its full name is refused by a part of it anyway. -/
theorem kept_iff (e : Env) : kept e = true ↔
    (∀ x ∈ ["Kelly", "Copy", "llvm", "BulletEnv", "Minitaur", "Kuka", "CarRacing-v"], ¬ x.toList <:+: e.id.toList) ∧ ∃ n, e.actions = some n ∧ n < 15000 := by
  have hsub : "BulletEnv".toList <:+: "InvertedPendulumSwingupBulletEnv".toList := (contains_iff _ _).1 (by decide +kernel)
  have hrac : "BulletEnv".toList <:+: "RacecarZedBulletEnv-v0".toList := (contains_iff _ _).1 (by decide +kernel)
  have hact : small e.actions = true ↔ ∃ n, e.actions = some n ∧ n < 15000 := by
    cases e.actions <;> simp [small]
  have hc : ∀ x : String, contains x.toList e.id.toList = false ↔ ¬ x.toList <:+: e.id.toList := fun x => by
    rw [← contains_iff, Bool.not_eq_true]
  unfold kept
  rw [Bool.and_eq_true, Bool.and_eq_true, Bool.and_eq_true, hact]
  simp only [refused, List.any_cons, List.any_nil, Bool.or_false, Bool.not_eq_true', Bool.or_eq_false_iff, hc, bne_iff_ne, ne_eq, List.forall_mem_cons, List.not_mem_nil, false_imp_iff, implies_true, and_true]
  constructor
  · rintro ⟨⟨h1, h2, h3, h4, h5, h6, -⟩, -, h8, h9⟩
    exact ⟨⟨h1, h2, h3, h4, h5, h6, h8⟩, h9⟩
  · rintro ⟨⟨h1, h2, h3, h4, h5, h6, h8⟩, h9⟩
    refine ⟨⟨h1, h2, h3, h4, h5, h6, fun h => h4 (hsub.trans h)⟩, fun h => h4 (h ▸ hrac), h8, h9⟩

theorem loop_names (l : List Env) (d : Int) : (loop l d).1 = (l.filter kept).map Env.id := by
  induction l generalizing d with
  | nil => rfl
  | cons e l ih =>
    unfold loop
    by_cases h : kept e = true
    · simp [h, ih]
    · simp [h, ih]

theorem loop_silent (l : List Env) (d : Int) (hd : d ≤ 0) : (loop l d).2 = [] := by
  induction l generalizing d with
  | nil => rfl
  | cons e l ih =>
    unfold loop
    by_cases h : kept e = true
    · simp [h, ih d hd]
    · have h1 : ¬ (0 < d - 1) := by omega
      have h2 : ¬ (d - 1 = 0) := by omega
      simp only [h, Bool.false_eq_true, if_false, h1, h2, List.nil_append]
      exact ih _ (by omega)

theorem loop_lines (l : List Env) (d : Nat) : (loop l ((d : Int) + 1)).2 =
    (((l.filter fun e => !kept e).take d).map fun e => Line.because e.id) ++ (if d < (l.filter fun e => !kept e).length then [Line.similar] else []) := by
  induction l generalizing d with
  | nil => simp [loop]
  | cons e l ih =>
    unfold loop
    by_cases h : kept e = true
    · simp [h, ih]
    · have hk : kept e = false := by simpa using h
      simp only [hk, Bool.false_eq_true, if_false]
      rw [List.filter_cons_of_pos (by simp [hk])]
      cases d with
      | zero =>
        have e0 : ((0 : Nat) : Int) + 1 - 1 = 0 := by omega
        rw [e0, loop_silent l 0 (by omega)]
        simp
      | succ d =>
        have e1 : ((d + 1 : Nat) : Int) + 1 - 1 = (d : Int) + 1 := by omega
        rw [e1, ih d]
        have h1 : (0 : Int) < (d : Int) + 1 := by omega
        have h2 : ¬ ((d : Int) + 1 = 0) := by omega
        simp [h1, h2]

/-- The names are those of the environments that can be used, in the order of the registry. -/
theorem names_spec (l : List Env) : (envNames l).1 = (l.filter kept).map Env.id := loop_names l 10

/-- A failing environment changes neither whether nor where the others are in the list. -/
theorem names_append (l l' : List Env) (e : Env) (h : kept e = false) : (envNames (l ++ e :: l')).1 = (envNames l).1 ++ (envNames l').1 := by
  rw [names_spec, names_spec, names_spec, List.filter_append, List.filter_cons_of_neg (by simp [h]), List.map_append]

/-- The first nine environments which are refused are printed, and one more line if there are others. -/
theorem lines_spec (l : List Env) : (envNames l).2 =
    (((l.filter fun e => !kept e).take 9).map fun e => Line.because e.id) ++ (if 10 ≤ (l.filter fun e => !kept e).length then [Line.similar] else []) := loop_lines l 9

/-- At most ten lines are printed. -/
theorem lines_length (l : List Env) : (envNames l).2.length = min 10 (l.filter fun e => !kept e).length := by
  rw [lines_spec, List.length_append, List.length_map, List.length_take]
  split <;> simp <;> omega

/-! ## Cases -/

example : (envNames [⟨"CartPole-v1", some 1⟩, ⟨"KukaCam-v0", some 1⟩, ⟨"Broken-v0", none⟩, ⟨"Pong-v0", some 15000⟩, ⟨"Acrobot-v1", some 1⟩]) =
    (["CartPole-v1", "Acrobot-v1"], [.because "KukaCam-v0", .because "Broken-v0", .because "Pong-v0"]) := by decide +kernel

example : (envNames (List.replicate 30 ⟨"Broken-v0", none⟩)).2 = List.replicate 9 (.because "Broken-v0") ++ [.similar] := by decide +kernel

example : kept ⟨"CarRacing-v2", some 3⟩ = false ∧ kept ⟨"CarRace-v2", some 3⟩ = true := by decide +kernel

end EnvNames
end NG
