import Verif.Model.RandState

/-!
# C102: one random generator for a parametrization and everything created from it
-/

namespace NG
namespace Rand

variable {α D : Type}

/-! ## Specification -/

mutual
/-- The generators of a parameter and of all its sub-parameters. -/
def gens : Node α → List (Option Nat)
  | .mk rs _ _ _ kids => rs :: gensL kids
def gensL : List (Node α) → List (Option Nat)
  | [] => []
  | n :: l => gens n ++ gensL l
end

/-- Every part of the parameter uses generator `g`. -/
def Uniform (g : Nat) (n : Node α) : Prop := ∀ x ∈ gens n, x = some g

/-- Operations other than `set_mutation` and the replacement of generators. -/
def Op.plain : Op α → Prop
  | .setMutation _ _ _ => False
  | .setState _ _ => False
  | _ => True

/-- Generator `g` is in the same state in two executions; everything else may differ, in particular numpy's global generator. -/
structure Agree (g : Nat) (s s' : Nat → Nat → D) (w w' : World) : Prop where
  stream : ∀ k, s g k = s' g k
  pos : w.pos g = w'.pos g

/-! ## Trees -/

def UniformL (g : Nat) (l : List (Node α)) : Prop := ∀ n ∈ l, Uniform g n

theorem uniformL_iff (g : Nat) (l : List (Node α)) : UniformL g l ↔ ∀ x ∈ gensL l, x = some g := by
  induction l with
  | nil => simp [UniformL, gensL]
  | cons n l ih =>
    simp only [UniformL, gensL, List.mem_cons, List.mem_append] at ih ⊢
    constructor
    · intro h x hx
      rcases hx with hx | hx
      · exact h n (Or.inl rfl) x hx
      · exact ih.1 (fun m hm => h m (Or.inr hm)) x hx
    · intro h m hm
      rcases hm with rfl | hm
      · exact fun x hx => h x (Or.inl hx)
      · exact ih.2 (fun x hx => h x (Or.inr hx)) m hm

theorem uniform_mk {g : Nat} {rs : Option Nat} {c d : Bool} {v : α} {kids : List (Node α)} :
    Uniform g (.mk rs c d v kids) ↔ rs = some g ∧ UniformL g kids := by
  rw [uniformL_iff]
  simp [Uniform, gens]

mutual
theorem setState_uniform (g : Nat) : ∀ n : Node α, Uniform g (setState (some g) n)
  | .mk rs c d v kids => by
    rw [setState, uniform_mk]
    exact ⟨rfl, setStates_uniform g kids⟩
theorem setStates_uniform (g : Nat) : ∀ l : List (Node α), UniformL g (setStates (some g) l)
  | [] => by intro n hn; simp [setStates] at hn
  | n :: l => by
    intro m hm
    rw [setStates] at hm
    rcases List.mem_cons.1 hm with rfl | hm
    · exact setState_uniform g n
    · exact setStates_uniform g l m hm
end

theorem rs_of_uniform {g : Nat} {n : Node α} (h : Uniform g n) : n.rs = some g := by
  obtain ⟨rs, c, d, v, kids⟩ := n
  exact (uniform_mk.1 h).1

/-- The first reading of the generator of a parameter gives one generator to all its parts, whichever they had before. -/
theorem get_uniform (w : World) (n : Node α) (h : n.rs = none) : Uniform (get w n).1 (get w n).2.1 := by
  unfold get
  rw [h]
  exact setState_uniform _ n

/-- Once a parameter has a generator, reading it changes nothing. -/
theorem get_same {g : Nat} (w : World) (n : Node α) (h : n.rs = some g) : get w n = (g, n, w) := by
  unfold get
  rw [h]

mutual
theorem touch_same {g : Nat} (w : World) : ∀ n : Node α, Uniform g n → touchKids w n = (n, w)
  | .mk rs c d v kids => by
    intro h
    obtain ⟨rfl, hk⟩ := uniform_mk.1 h
    rw [touchKids]
    simp only [touchList_same w kids hk]
theorem touchList_same {g : Nat} (w : World) : ∀ l : List (Node α), UniformL g l → touchList w l = (l, w)
  | [] => by intro _; rw [touchList]
  | n :: l => by
    intro h
    rw [touchList]
    simp only [touch_same w n (h n List.mem_cons_self), touchList_same w l (fun m hm => h m (List.mem_cons_of_mem _ hm))]
end

theorem agree_draw {g : Nat} {s s' : Nat → Nat → D} {w w' : World} (h : Agree g s s' w w') :
    (draw s w g).1 = (draw s' w' g).1 ∧ Agree g s s' (draw s w g).2 (draw s' w' g).2 ∧ (draw s w g).2.next = w.next := by
  unfold draw
  refine ⟨by simp only [h.pos, h.stream], ⟨h.stream, by simp [h.pos]⟩, rfl⟩

mutual
theorem mutateIn_spec {g : Nat} (f : α → List α → D → α) (s s' : Nat → Nat → D) : ∀ (n : Node α) (w w' : World), Uniform g n → Agree g s s' w w' →
    (mutateIn f s w n).1 = (mutateIn f s' w' n).1 ∧ Uniform g (mutateIn f s w n).1 ∧ Agree g s s' (mutateIn f s w n).2 (mutateIn f s' w' n).2 ∧
      (mutateIn f s w n).2.next = w.next
  | .mk rs c d v kids, w, w' => by
    intro h ha
    obtain ⟨rfl, hk⟩ := uniform_mk.1 h
    obtain ⟨h1, h2, h3, h4⟩ := mutateList_spec f s s' kids w w' hk ha
    cases d with
    | false =>
      simp only [mutateIn]
      exact ⟨by simp only [h1], uniform_mk.2 ⟨rfl, h2⟩, h3, h4⟩
    | true =>
      simp only [mutateIn]
      obtain ⟨d1, d2, d3⟩ := agree_draw h3
      exact ⟨by simp only [h1, d1], uniform_mk.2 ⟨rfl, h2⟩, d2, d3.trans h4⟩
theorem mutateList_spec {g : Nat} (f : α → List α → D → α) (s s' : Nat → Nat → D) : ∀ (l : List (Node α)) (w w' : World), UniformL g l →
    Agree g s s' w w' → (mutateList f s w l).1 = (mutateList f s' w' l).1 ∧ UniformL g (mutateList f s w l).1 ∧
      Agree g s s' (mutateList f s w l).2 (mutateList f s' w' l).2 ∧ (mutateList f s w l).2.next = w.next
  | [], w, w' => by
    intro h ha
    rw [mutateList, mutateList]
    exact ⟨rfl, h, ha, rfl⟩
  | n :: l, w, w' => by
    intro h ha
    obtain ⟨h1, h2, h3, h4⟩ := mutateIn_spec f s s' n w w' (h n List.mem_cons_self) ha
    obtain ⟨k1, k2, k3, k4⟩ := mutateList_spec f s s' l _ _ (fun m hm => h m (List.mem_cons_of_mem _ hm)) h3
    rw [mutateList, mutateList]
    refine ⟨by simp only [h1, k1], ?_, k3, k4.trans h4⟩
    intro m hm
    rcases List.mem_cons.1 hm with rfl | hm
    · exact h2
    · exact k2 m hm
end

mutual
theorem sampleIn_spec {g : Nat} (f : α → List α → D → α) (s s' : Nat → Nat → D) : ∀ (n : Node α) (w w' : World), Uniform g n → Agree g s s' w w' →
    (sampleIn f s w n).1 = (sampleIn f s' w' n).1 ∧ Uniform g (sampleIn f s w n).1 ∧ Agree g s s' (sampleIn f s w n).2 (sampleIn f s' w' n).2 ∧
      (sampleIn f s w n).2.next = w.next
  | .mk rs c d v kids, w, w' => by
    intro h ha
    cases c with
    | false =>
      have := mutateIn_spec f s s' (.mk rs false d v kids) w w' h ha
      rw [sampleIn, sampleIn]
      exact this
    | true =>
      obtain ⟨rfl, hk⟩ := uniform_mk.1 h
      obtain ⟨h1, h2, h3, h4⟩ := sampleList_spec f s s' kids w w' hk ha
      rw [sampleIn, sampleIn]
      exact ⟨by simp only [h1, if_true], uniform_mk.2 ⟨rfl, h2⟩, h3, h4⟩
theorem sampleList_spec {g : Nat} (f : α → List α → D → α) (s s' : Nat → Nat → D) : ∀ (l : List (Node α)) (w w' : World), UniformL g l →
    Agree g s s' w w' → (sampleList f s w l).1 = (sampleList f s' w' l).1 ∧ UniformL g (sampleList f s w l).1 ∧
      Agree g s s' (sampleList f s w l).2 (sampleList f s' w' l).2 ∧ (sampleList f s w l).2.next = w.next
  | [], w, w' => by
    intro h ha
    rw [sampleList, sampleList]
    exact ⟨rfl, h, ha, rfl⟩
  | n :: l, w, w' => by
    intro h ha
    obtain ⟨h1, h2, h3, h4⟩ := sampleIn_spec f s s' n w w' (h n List.mem_cons_self) ha
    obtain ⟨k1, k2, k3, k4⟩ := sampleList_spec f s s' l _ _ (fun m hm => h m (List.mem_cons_of_mem _ hm)) h3
    rw [sampleList, sampleList]
    refine ⟨by simp only [h1, k1], ?_, k3, k4.trans h4⟩
    intro m hm
    rcases List.mem_cons.1 hm with rfl | hm
    · exact h2
    · exact k2 m hm
end

theorem replaceAt_uniform {g : Nat} {sub : Node α} (hs : Uniform g sub) : ∀ (l : List (Node α)) (k : Nat), UniformL g l → UniformL g (replaceAt k sub l) := by
  intro l
  induction l with
  | nil =>
    intro k _ n hn
    simp only [replaceAt, List.mem_singleton] at hn
    exact hn ▸ hs
  | cons m l ih =>
    intro k h n hn
    cases k with
    | zero =>
      rcases List.mem_cons.1 hn with rfl | hn
      · exact hs
      · exact h n (List.mem_cons_of_mem _ hn)
    | succ k =>
      rcases List.mem_cons.1 hn with rfl | hn
      · exact h n List.mem_cons_self
      · exact ih k (fun n hn => h n (List.mem_cons_of_mem _ hn)) n hn

theorem setItem_uniform {g : Nat} (k : Nat) (sub n : Node α) (h : Uniform g n) : Uniform g (setItem k sub n) := by
  obtain ⟨rs, c, d, v, kids⟩ := n
  obtain ⟨rfl, hk⟩ := uniform_mk.1 h
  rw [setItem]
  exact uniform_mk.2 ⟨rfl, replaceAt_uniform (setState_uniform g sub) kids k hk⟩

theorem set_uniform {g : Nat} {l : List (Node α)} (h : UniformL g l) (i : Nat) {n : Node α} (hn : Uniform g n) : UniformL g (l.set i n) := by
  intro m hm
  rcases List.mem_or_eq_of_mem_set hm with hm | rfl
  · exact h m hm
  · exact hn

theorem append_uniform {g : Nat} {l : List (Node α)} (h : UniformL g l) {n : Node α} (hn : Uniform g n) : UniformL g (l ++ [n]) := by
  intro m hm
  rcases List.mem_append.1 hm with hm | hm
  · exact h m hm
  · rw [List.mem_singleton] at hm; exact hm ▸ hn

/-! ## Programs -/

theorem step_spec {g : Nat} (f : α → List α → D → α) (s s' : Nat → Nat → D) (w w' : World) (pool : List (Node α)) (hu : UniformL g pool)
    (ha : Agree g s s' w w') (o : Op α) (ho : o.plain) :
    (step f s (w, pool) o).2 = (step f s' (w', pool) o).2 ∧ UniformL g (step f s (w, pool) o).2 ∧
      Agree g s s' (step f s (w, pool) o).1 (step f s' (w', pool) o).1 ∧ (step f s (w, pool) o).1.next = w.next := by
  have hget : ∀ i n, pool[i]? = some n → Uniform g n := fun i n h => hu n (List.mem_of_getElem? h)
  cases o with
  | read i =>
    simp only [step]
    cases h : pool[i]? with
    | none => exact ⟨rfl, hu, ha, rfl⟩
    | some n =>
      simp only [touch_same _ n (hget i n h)]
      exact ⟨trivial, set_uniform hu i (hget i n h), ha, trivial⟩
  | mutate i =>
    simp only [step]
    cases h : pool[i]? with
    | none => exact ⟨rfl, hu, ha, rfl⟩
    | some n =>
      simp only [mutate, touch_same _ n (hget i n h)]
      obtain ⟨h1, h2, h3, h4⟩ := mutateIn_spec f s s' n w w' (hget i n h) ha
      exact ⟨by rw [h1], set_uniform hu i h2, h3, h4⟩
  | copy i =>
    simp only [step]
    cases h : pool[i]? with
    | none => exact ⟨rfl, hu, ha, rfl⟩
    | some n => exact ⟨rfl, append_uniform hu (hget i n h), ha, rfl⟩
  | spawn i =>
    simp only [step]
    cases h : pool[i]? with
    | none => exact ⟨rfl, hu, ha, rfl⟩
    | some n =>
      simp only [spawn, get_same _ n (rs_of_uniform (hget i n h))]
      exact ⟨trivial, append_uniform (set_uniform hu i (hget i n h)) (hget i n h), ha, trivial⟩
  | sample i =>
    simp only [step]
    cases h : pool[i]? with
    | none => exact ⟨rfl, hu, ha, rfl⟩
    | some n =>
      simp only [sample, get_same _ n (rs_of_uniform (hget i n h)), touch_same _ n (hget i n h)]
      obtain ⟨h1, h2, h3, h4⟩ := sampleIn_spec f s s' n w w' (hget i n h) ha
      exact ⟨by rw [h1], append_uniform (set_uniform hu i (hget i n h)) h2, h3, h4⟩
  | setItem i k sub =>
    simp only [step]
    cases h : pool[i]? with
    | none => exact ⟨rfl, hu, ha, rfl⟩
    | some n => exact ⟨rfl, set_uniform hu i (setItem_uniform k sub n (hget i n h)), ha, rfl⟩
  | setMutation i k sub => exact absurd ho id
  | setState i g => exact absurd ho id

/-- The first use of a parameter (reading its value, mutating it) also gives one generator to all its parts. -/
theorem touch_uniform (w : World) (n : Node α) (h : n.rs = none) : Uniform w.next (touchKids w n).1 := by
  obtain ⟨rs, c, d, v, kids⟩ := n
  have h' : rs = none := h
  subst h'
  rw [touchKids]
  exact uniform_mk.2 ⟨rfl, setStates_uniform _ kids⟩

mutual
/-- The number of parts of a parameter which draw. -/
def drawing : Node α → Nat
  | .mk _ _ d _ kids => drawingL kids + if d then 1 else 0
def drawingL : List (Node α) → Nat
  | [] => 0
  | n :: l => drawing n + drawingL l
end

mutual
/-- A mutation takes a fresh draw of the generator for each part which draws, and none of any other generator. -/
theorem mutateIn_pos {g : Nat} (f : α → List α → D → α) (s : Nat → Nat → D) : ∀ (n : Node α) (w : World), Uniform g n →
    ∀ h, (mutateIn f s w n).2.pos h = w.pos h + if h = g then drawing n else 0
  | .mk rs c d v kids, w => by
    intro hu h
    obtain ⟨rfl, hk⟩ := uniform_mk.1 hu
    have ih := mutateList_pos f s kids w hk h
    cases d with
    | false =>
      simp only [mutateIn, drawing]
      rw [ih]
      simp
    | true =>
      simp only [mutateIn, drawing, draw, if_true]
      split
      · rename_i e
        rw [ih, if_pos e, Nat.add_assoc]
      · rename_i e
        rw [ih, if_neg e]
theorem mutateList_pos {g : Nat} (f : α → List α → D → α) (s : Nat → Nat → D) : ∀ (l : List (Node α)) (w : World), UniformL g l →
    ∀ h, (mutateList f s w l).2.pos h = w.pos h + if h = g then drawingL l else 0
  | [], w => by
    intro _ h
    rw [mutateList]
    simp [drawingL]
  | n :: l, w => by
    intro hu h
    rw [mutateList]
    simp only [drawingL]
    rw [mutateList_pos f s l _ (fun m hm => hu m (List.mem_cons_of_mem _ hm)) h, mutateIn_pos f s n w (hu n List.mem_cons_self) h]
    split <;> omega
end

/-- C102: once one generator is used by all parts of the parameters of a program, this stays so for everything created from them; no generator is
created any more, and the values only depend on this generator, whatever numpy's global generator and all other generators provide. -/
theorem reproducible_partial {g : Nat} (f : α → List α → D → α) (s s' : Nat → Nat → D) : ∀ (ops : List (Op α)) (w w' : World) (pool : List (Node α)),
    UniformL g pool → Agree g s s' w w' → (∀ o ∈ ops, o.plain) →
    (run f s (w, pool) ops).2 = (run f s' (w', pool) ops).2 ∧ UniformL g (run f s (w, pool) ops).2 ∧ (run f s (w, pool) ops).1.next = w.next
  | [], w, w', pool, hu, _, _ => ⟨rfl, hu, rfl⟩
  | o :: ops, w, w', pool, hu, ha, hp => by
    obtain ⟨h1, h2, h3, h4⟩ := step_spec f s s' w w' pool hu ha o (hp o List.mem_cons_self)
    have e1 : step f s (w, pool) o = ((step f s (w, pool) o).1, (step f s (w, pool) o).2) := rfl
    have e2 : step f s' (w', pool) o = ((step f s' (w', pool) o).1, (step f s (w, pool) o).2) := by rw [h1]
    have := reproducible_partial f s s' ops (step f s (w, pool) o).1 (step f s' (w', pool) o).1 (step f s (w, pool) o).2 h2 h3
      (fun o' ho' => hp o' (List.mem_cons_of_mem _ ho'))
    rw [run, run, e2]
    exact ⟨this.1, this.2.1, this.2.2.trans h4⟩

/-- The usual case: the generator is read (and possibly seeded) before anything else. -/
theorem seeded_reproducible (f : α → List α → D → α) (s s' : Nat → Nat → D) (ops : List (Op α)) (hp : ∀ o ∈ ops, o.plain) (w : World) (n : Node α)
    (hn : n.rs = none) (hs : ∀ k, s w.next k = s' w.next k) :
    (run f s ((get w n).2.2, [(get w n).2.1]) ops).2 = (run f s' ((get w n).2.2, [(get w n).2.1]) ops).2 := by
  refine (reproducible_partial (g := w.next) f s s' ops _ _ _ ?_ ⟨hs, rfl⟩ hp).1
  intro m hm
  rw [List.mem_singleton] at hm
  subst hm
  have := get_uniform w n hn
  have e : (get w n).1 = w.next := by unfold get; rw [hn]
  rwa [e] at this

/-- Replacing the generator of a parameter replaces it in all its parts, also those which had another one. -/
theorem replace_uniform (g : Nat) (n : Node α) : Uniform g (setState (some g) n) := setState_uniform g n

/-- It does not reach parameters created before: they keep the old generator. -/
theorem replace_not_reaching {g : Nat} (f : α → List α → D → α) (s : Nat → Nat → D) (w : World) (n : Node α) (hn : Uniform g n) (h : Nat) :
    (run f s (w, [n]) [.spawn 0, .setState 0 h]).2 = [setState (some h) n, n] := by
  simp only [run, step, List.getElem?_cons_zero, spawn, get_same w n (rs_of_uniform hn), List.set_cons_zero, List.cons_append, List.nil_append]

/-- The mutation used in the examples: a step scaled by the values of the sub-parameters. -/
def demo (v : Int) (kids : List Int) (x : Int) : Int := v + (1 + kids.sum) * x

/-- An array, and a mutable sigma which was never used. -/
def anArray : Node Int := .mk none false true 0 []
def aSigma : Node Int := .mk none false true 1 []

/-- **False in general**: after `set_mutation(sigma=...)` on a parameter which already has a generator (its value was read, e.g. by `set_bounds`),
sigma draws from a generator of its own, so that the values are not reproducible although the generator of the parameter is. -/
theorem set_mutation_breaks : ∃ (s s' : Nat → Nat → Int), (∀ k, s 0 k = s' 0 k) ∧
    (run demo s (⟨0, fun _ => 0⟩, [anArray]) [.read 0, .setMutation 0 0 aSigma, .mutate 0]).2.map Node.val ≠
      (run demo s' (⟨0, fun _ => 0⟩, [anArray]) [.read 0, .setMutation 0 0 aSigma, .mutate 0]).2.map Node.val ∧
    (run demo s (⟨0, fun _ => 0⟩, [anArray]) [.read 0, .setMutation 0 0 aSigma, .mutate 0]).1.next = 2 := by
  refine ⟨fun g _ => if g = 0 then 1 else 2, fun g _ => if g = 0 then 1 else 3, fun k => rfl, ?_, ?_⟩ <;> decide

/-- With the generator assigned afterwards, everything is reproducible again. -/
theorem set_mutation_repaired {g : Nat} (f : α → List α → D → α) (s s' : Nat → Nat → D) (ops : List (Op α)) (hp : ∀ o ∈ ops, o.plain) (w w' : World)
    (k : Nat) (sub n : Node α) (ha : Agree g s s' w w') :
    (run f s (w, [n]) (.setMutation 0 k sub :: .setState 0 g :: ops)).2 = (run f s' (w', [n]) (.setMutation 0 k sub :: .setState 0 g :: ops)).2 := by
  simp only [run, step, List.getElem?_cons_zero, List.set_cons_zero]
  refine (reproducible_partial (g := g) f s s' ops _ _ _ ?_ ha hp).1
  intro m hm
  rw [List.mem_singleton] at hm
  subst hm
  exact setState_uniform g _

example : (run demo (fun g k => (10 * g + k : Nat)) (⟨0, fun _ => 0⟩, [.mk none true false 0 [anArray, aSigma]])
    [.read 0, .spawn 0, .mutate 1, .sample 0]).2.map (fun n => gens n) = [[some 0, some 0, some 0], [some 0, some 0, some 0], [some 0, some 0, some 0]] := by
  decide
example : (run demo (fun g k => (10 * g + k : Nat)) (⟨0, fun _ => 0⟩, [anArray]) [.read 0, .spawn 0, .mutate 1, .mutate 1, .sample 1]).2.map Node.val =
    [0, 1, 3] := by decide
example : Uniform 3 (setItem 0 aSigma (setState (some 3) anArray)) := setItem_uniform 0 aSigma _ (setState_uniform 3 _)

end Rand
end NG
