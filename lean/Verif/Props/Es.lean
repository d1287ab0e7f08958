import Verif.Model.Es
import Verif.Lemmas.Population

/-! # C48: evolution strategies -/

namespace NG
namespace Es
open Tools UidQueue Pop

variable {U α : Type} [DecidableEq U] [LinearOrder α] [OrderTop α]

/-- The members of the population. -/
def members (s : St U α) : List U := s.pop.map (·.2)

/-! ## the dict and the queue made by a selection -/

theorem foldl_dictSet (l : List U) (d : List (U × U)) (h : (keys d).Nodup) (hd : ∀ e ∈ d, e.1 = e.2) :
    (keys (l.foldl (fun d x => dictSet x x d) d)).Nodup ∧ (∀ e ∈ l.foldl (fun d x => dictSet x x d) d, e.1 = e.2) ∧
    (∀ x, x ∈ keys (l.foldl (fun d x => dictSet x x d) d) ↔ x ∈ keys d ∨ x ∈ l) ∧
    ((keys d ++ l).Nodup → keys (l.foldl (fun d x => dictSet x x d) d) = keys d ++ l) ∧
    (l.foldl (fun d x => dictSet x x d) d).length ≤ d.length + l.length := by
  induction l generalizing d with
  | nil => simp [h]; exact fun a b hab => hd _ hab
  | cons a l ih =>
    have hset : ∀ x, x ∈ keys (dictSet a a d) ↔ x ∈ keys d ∨ x = a := by
      intro x
      rw [keys_set]
      split
      · constructor
        · exact Or.inl
        · rintro (h' | rfl)
          · exact h'
          · assumption
      · simp
    have hdiag : ∀ e ∈ dictSet a a d, e.1 = e.2 := by
      intro e he
      rcases (mem_set a a d h e).mp he with rfl | ⟨h1, _⟩
      · rfl
      · exact hd e h1
    obtain ⟨h1, h2, h3, h4, h5⟩ := ih (dictSet a a d) (nodup_set a a d h) hdiag
    refine ⟨h1, h2, ?_, ?_, ?_⟩
    · intro x
      rw [List.foldl_cons, h3, hset]
      simp [or_assoc]
    · intro hn
      have ha : a ∉ keys d := by
        rw [List.nodup_append] at hn
        exact fun hc => hn.2.2 a hc a (by simp) rfl
      have hk : keys (dictSet a a d) = keys d ++ [a] := by rw [keys_set, if_neg ha]
      rw [List.foldl_cons, h4 (by rw [hk]; simpa using hn), hk]
      simp
    · have := length_set a a d
      rw [List.foldl_cons]
      simp only [List.length_cons]
      split at this <;> omega

theorem toDict_spec (l : List U) : (keys (toDict l)).Nodup ∧ (∀ e ∈ toDict l, e.1 = e.2) ∧ (∀ x, x ∈ keys (toDict l) ↔ x ∈ l) ∧
    (l.Nodup → keys (toDict l) = l) ∧ (toDict l).length ≤ l.length := by
  have := foldl_dictSet l [] (by simp [keys]) (by simp)
  simpa [keys, toDict] using this

theorem foldl_tell (l : List U) (q : UidQueue U) (hq : q.asked.iter = []) :
    (l.foldl UidQueue.tell q).told = q.told ++ l ∧ (l.foldl UidQueue.tell q).asked.iter = [] := by
  induction l generalizing q with
  | nil => simp [hq]
  | cons a l ih =>
    have := ih (q.tell a) (by rw [tell_asked_iter, hq]; rfl)
    rw [tell_told] at this
    simpa using this

omit [OrderTop α] in
theorem select_queue (cfg : Cfg) (ranked : Option (List U)) (s : St U α) :
    (select cfg ranked s).queue.told = keys (select cfg ranked s).pop ∧ (select cfg ranked s).queue.asked.iter = [] := by
  have := foldl_tell (keys (select cfg ranked s).pop) s.queue.clear rfl
  refine ⟨this.1.trans (List.nil_append _), this.2⟩

omit [OrderTop α] in
theorem select_members (cfg : Cfg) (ranked : Option (List U)) (s : St U α) :
    members (select cfg ranked s) = keys (select cfg ranked s).pop := by
  apply List.map_congr_left
  intro e he
  exact ((toDict_spec _).2.1 e he).symm

omit [OrderTop α] in
theorem ordered_perm (cfg : Cfg) (s : St U α) : (ordered cfg none s).Perm (choices cfg s) := List.perm_insertionSort _ _

omit [OrderTop α] in
theorem ordered_sorted (cfg : Cfg) (s : St U α) : (ordered cfg none s).Pairwise (fun a b => s.loss a ≤ s.loss b) := by
  have : Std.Total (fun a b : U => s.loss a ≤ s.loss b) := ⟨fun a b => le_total _ _⟩
  have : IsTrans U (fun a b : U => s.loss a ≤ s.loss b) := ⟨fun a b c h h' => le_trans h h'⟩
  exact List.pairwise_insertionSort _ _

omit [OrderTop α] in
/-- C48: after a selection with one objective, the population consists of candidates considered, no candidate left out is better
than one kept, there are `popsize` of them (or all) if the candidates considered are distinct, the queue holds exactly them, in
order, and no offspring is waiting. -/
theorem select_spec_partial (cfg : Cfg) (s : St U α) :
    (members (select cfg none s)).Nodup ∧
    (∀ x ∈ members (select cfg none s), x ∈ s.waiting ∨ (cfg.only = false ∧ x ∈ members s)) ∧
    (∀ x ∈ members (select cfg none s), ∀ y, (y ∈ s.waiting ∨ (cfg.only = false ∧ y ∈ members s)) →
      y ∉ members (select cfg none s) → s.loss x ≤ s.loss y) ∧
    (members (select cfg none s)).length ≤ cfg.popsize ∧
    ((s.waiting ++ (if cfg.only then [] else members s)).Nodup →
      (members (select cfg none s)).length = min cfg.popsize (s.waiting ++ (if cfg.only then [] else members s)).length) ∧
    (select cfg none s).queue.told = members (select cfg none s) ∧ (select cfg none s).queue.asked.iter = [] ∧
    (select cfg none s).waiting = [] ∧ (∀ e ∈ (select cfg none s).pop, e.1 = e.2) := by
  have hc : ∀ x, x ∈ choices cfg s ↔ x ∈ s.waiting ∨ (cfg.only = false ∧ x ∈ members s) := by
    intro x
    unfold choices members
    cases cfg.only <;> simp
  have hm : ∀ x, x ∈ members (select cfg none s) ↔ x ∈ (ordered cfg none s).take cfg.popsize := by
    intro x
    rw [select_members]
    exact (toDict_spec _).2.2.1 x
  have hq := select_queue cfg none s
  have ht := toDict_spec ((ordered cfg none s).take cfg.popsize)
  refine ⟨?_, ?_, ?_, ?_, ?_, ?_, hq.2, rfl, ht.2.1⟩
  · rw [select_members]; exact ht.1
  · intro x hx
    rw [← hc, ← (ordered_perm cfg s).mem_iff]
    exact List.mem_of_mem_take ((hm x).mp hx)
  · intro x hx y hy hny
    rw [hm] at hx hny
    rw [← hc, ← (ordered_perm cfg s).mem_iff, ← List.take_append_drop cfg.popsize (ordered cfg none s),
      List.mem_append] at hy
    have hs := ordered_sorted cfg s
    rw [← List.take_append_drop cfg.popsize (ordered cfg none s), List.pairwise_append] at hs
    exact hs.2.2 x hx y (hy.resolve_left hny)
  · rw [members, List.length_map]
    exact ht.2.2.2.2.trans (by simp)
  · intro hn
    have hn' : (ordered cfg none s).Nodup := (ordered_perm cfg s).nodup_iff.mpr hn
    have hk := ht.2.2.2.1 (hn'.sublist (List.take_sublist _ _))
    rw [select_members]
    refine (congrArg List.length hk).trans ?_
    rw [List.length_take, (ordered_perm cfg s).length_eq]
    rfl
  · rw [select_members]; exact hq.1

/-! ## the queue and the population, in all histories -/

/-- The queue holds exactly the keys of the population. -/
def Same (s : St U α) : Prop := ∀ k, s.queue.Holds k ↔ k ∈ keys s.pop

theorem mem_keys_set (k v x : U) (d : List (U × U)) : x ∈ keys (dictSet k v d) ↔ x ∈ keys d ∨ x = k := by
  rw [keys_set]
  split
  · constructor
    · exact Or.inl
    · rintro (h' | rfl)
      · exact h'
      · assumption
  · simp

omit [LinearOrder α] [OrderTop α] in
theorem Same.ask {s : St U α} (h : Same s) (cfg : Cfg) (u : U) :
    Same (internalAsk cfg u s).2 ∧ (∀ x ∈ keys s.pop, x ∈ keys (internalAsk cfg u s).2.pop) ∧
    ((internalAsk cfg u s).1 = none → (internalAsk cfg u s).2.pop ≠ []) ∧
    (∀ e, (internalAsk cfg u s).1 = some e ↔ e = .runtime ∧ cfg.popsize ≤ s.numAsk + s.trials ∧ s.pop = []) := by
  have ne : ∀ (d : List (U × U)) (x : U), x ∈ keys d → d ≠ [] := by
    rintro d x hx rfl
    simp [keys] at hx
  unfold internalAsk
  split
  · rename_i hlt
    refine ⟨?_, ?_, ?_, ?_⟩
    · intro k
      rw [holds_register, mem_keys_set, h k]
    · intro x hx
      exact (mem_keys_set u u x s.pop).mpr (Or.inl hx)
    · intro _
      exact ne _ u ((mem_keys_set u u u s.pop).mpr (Or.inr rfl))
    · intro e
      constructor
      · intro hc; cases hc
      · rintro ⟨_, h2, _⟩; omega
  · rename_i hge
    cases hask : s.queue.ask with
    | none =>
      have hemp := (uidQueue_ask_fails_iff s.queue).mp hask
      have hp : s.pop = [] := by
        cases hpop : s.pop with
        | nil => rfl
        | cons e d => exact absurd ((h e.1).mpr (by rw [hpop]; simp [keys])) (hemp e.1)
      refine ⟨h, fun x hx => hx, by simp, ?_⟩
      intro e
      simp only [Option.some.injEq]
      constructor
      · rintro rfl; exact ⟨rfl, by omega, hp⟩
      · rintro ⟨rfl, _⟩; rfl
    | some kq =>
      obtain ⟨k, q⟩ := kq
      have hk : k ∈ keys s.pop := (h k).mp (ask_holds s.queue q k k hask).2
      obtain ⟨p, hp⟩ := (mem_keys_iff s.pop k).mp hk
      simp only [hp]
      refine ⟨fun x => by rw [(ask_holds s.queue q k x hask).1]; exact h x, fun x hx => hx, fun _ => ne _ k hk, ?_⟩
      intro e
      constructor
      · intro hc; cases hc
      · rintro ⟨_, _, h3⟩; exact absurd h3 (ne _ k hk)

omit [OrderTop α] in
theorem Same.select (cfg : Cfg) (ranked : Option (List U)) (s : St U α) : Same (select cfg ranked s) := by
  intro k
  obtain ⟨h1, h2⟩ := select_queue cfg ranked s
  unfold UidQueue.Holds
  rw [h1, h2]
  simp

theorem Same.tell {s : St U α} (h : Same s) (cfg : Cfg) (n : Nat) (hn : cfg.offsprings = some n) (u : U) (l : α)
    (ranked : Option (List U)) : Same (tellCandidate cfg u l ranked s) := by
  unfold tellCandidate
  rw [hn]
  simp only
  have h1 : Same (receive cfg u s) := by
    unfold receive
    split
    · intro k
      simp only [holds_tell, mem_keys_set, h k]
    · exact h
  split
  · exact Same.select cfg ranked _
  · exact h1

theorem Same.step {s : St U α} (h : Same s) (cfg : Cfg) (n : Nat) (hn : cfg.offsprings = some n) (op : Op U α) :
    Same (step cfg op s).2 := by
  cases op with
  | ask u =>
    simp only [Es.step]
    split <;> exact (h.ask cfg u).1
  | suggested => exact h
  | reject u told ranked =>
    simp only [Es.step]
    split
    · exact (h.ask cfg u).1
    · cases told
      · exact (h.ask cfg u).1
      · exact Same.tell (h.ask cfg u).1 cfg n hn u ⊤ ranked
  | rejectSuggestion u told ranked =>
    simp only [Es.step]
    cases told
    · exact h
    · exact h.tell cfg n hn u ⊤ ranked
  | tell u v l ranked =>
    exact Same.tell (s := { s with loss := fun x => if x = u then v else s.loss x }) h cfg n hn u l ranked

theorem Same.run {s : St U α} (h : Same s) (cfg : Cfg) (n : Nat) (hn : cfg.offsprings = some n) (ops : List (Op U α)) :
    Same (run cfg ops s).2 := by
  induction ops generalizing s with
  | nil => exact h
  | cons op ops ih => exact ih (h.step cfg n hn op)

theorem Same.init (lin : U → U) (par : U → Option U) : Same (St.init lin par : St U α) := by
  intro k
  simp [St.init, UidQueue.Holds, UidQueue.empty, OrderedSet.empty, OrderedSet.iter, keys]

/-- C48 (queue): with offsprings, after any history, with any number of objectives, foreign candidates, penalties, rejected
candidates, repeated tells, the queue holds exactly the population, so an ask fails only when the population is empty and the
initial sampling is over; and then with RuntimeError. -/
theorem queue_is_population (cfg : Cfg) (n : Nat) (hn : cfg.offsprings = some n) (lin : U → U) (par : U → Option U)
    (ops : List (Op U α)) (u : U) (e : Err) :
    (∀ k, (run cfg ops (St.init lin par)).2.queue.Holds k ↔ k ∈ keys (run cfg ops (St.init lin par)).2.pop) ∧
    ((step cfg (.ask u) (run cfg ops (St.init lin par)).2).1 = some e ↔
      e = .runtime ∧ cfg.popsize ≤ (run cfg ops (St.init lin par)).2.numAsk + (run cfg ops (St.init lin par)).2.trials ∧
        (run cfg ops (St.init lin par)).2.pop = []) := by
  have h := Same.run (Same.init lin par) cfg n hn ops
  refine ⟨h, ?_⟩
  rw [← (h.ask cfg u).2.2.2 e]
  simp only [Es.step]
  split
  · rename_i e' he'
    simp [he']
  · rename_i he'
    simp [he']

/-- One objective: no ranker is used. -/
def Single : List (Op U α) → Prop
  | [] => True
  | .reject _ _ r :: ops => r = none ∧ Single ops
  | .rejectSuggestion _ _ r :: ops => r = none ∧ Single ops
  | .tell _ _ _ r :: ops => r = none ∧ Single ops
  | _ :: ops => Single ops

omit [OrderTop α] in
theorem select_nonempty (cfg : Cfg) (hp : 0 < cfg.popsize) (s : St U α)
    (hne : s.waiting ≠ [] ∨ (cfg.only = false ∧ s.pop ≠ [])) : (select cfg none s).pop ≠ [] := by
  have hc : choices cfg s ≠ [] := by
    unfold choices
    rcases hne with h | ⟨h1, h2⟩
    · simp [h]
    · simp [h1, h2]
  have ho : ordered cfg none s ≠ [] := by
    intro h
    have := (ordered_perm cfg s).length_eq
    rw [h] at this
    exact hc (List.length_eq_zero_iff.mp this.symm)
  obtain ⟨a, l, hal⟩ := List.exists_cons_of_ne_nil ho
  have ha : a ∈ keys (select cfg none s).pop := by
    refine ((toDict_spec _).2.2.1 a).mpr ?_
    rw [hal]
    cases hps : cfg.popsize with
    | zero => omega
    | succ m => simp
  intro h
  rw [h] at ha
  simp [keys] at ha

theorem tell_nonempty (cfg : Cfg) (hp : 0 < cfg.popsize) (n : Nat) (hn : cfg.offsprings = some n)
    (hon : cfg.only = true → cfg.popsize < n) (u : U) (l : α) (s : St U α) (hne : s.pop ≠ []) :
    (tellCandidate cfg u l none s).pop ≠ [] := by
  unfold tellCandidate
  rw [hn]
  simp only
  have key : ∀ s1 : St U α, s1.pop ≠ [] → (if n ≤ s1.waiting.length then select cfg none s1 else s1).pop ≠ [] := by
    intro s1 h1
    split
    · rename_i hle
      refine select_nonempty cfg hp s1 ?_
      cases ho : cfg.only with
      | false => exact Or.inr ⟨rfl, h1⟩
      | true =>
        left
        intro hw
        rw [hw] at hle
        have := hon ho
        simp at hle
        omega
    · exact h1
  apply key
  unfold receive
  split
  · intro hc
    have : u ∈ keys (dictSet u u s.pop) := (mem_keys_set u u u s.pop).mpr (Or.inr rfl)
    rw [show dictSet u u s.pop = [] from hc] at this
    simp [keys] at this
  · exact hne

/-- C48: an evolution strategy with offsprings, one objective, a positive population size and the options accepted by its
constructor (es.py 122) never fails once a first candidate was asked, in any history. -/
theorem es_never_fails (cfg : Cfg) (hp : 0 < cfg.popsize) (n : Nat) (hn : cfg.offsprings = some n)
    (hon : cfg.only = true → cfg.popsize < n) (lin : U → U) (par : U → Option U) (u : U) (ops : List (Op U α)) (hs : Single ops) :
    ∀ r ∈ (run cfg (.ask u :: ops) (St.init lin par)).1, r = none := by
  have gen : ∀ (ops : List (Op U α)) (s : St U α), Single ops → Same s → s.pop ≠ [] → ∀ r ∈ (run cfg ops s).1, r = none := by
    intro ops
    induction ops with
    | nil => intro s _ _ _ r hr; simp [Es.run] at hr
    | cons op ops ih =>
      intro s hsi hsa hne
      have hok : ∀ x, (internalAsk cfg x s).1 = none := by
        intro x
        cases he : (internalAsk cfg x s).1 with
        | none => rfl
        | some e => exact absurd (((hsa.ask cfg x).2.2.2 e).mp he).2.2 hne
      have key : (step cfg op s).1 = none ∧ (step cfg op s).2.pop ≠ [] ∧ Single ops := by
        cases op with
        | ask x =>
          have h2 := (hsa.ask cfg x).2.2.1 (hok x)
          simp only [Es.step, hok x]
          exact ⟨trivial, h2, hsi⟩
        | suggested => exact ⟨rfl, hne, hsi⟩
        | reject x told ranked =>
          have h2 := (hsa.ask cfg x).2.2.1 (hok x)
          obtain ⟨rfl, hsi⟩ := hsi
          simp only [Es.step, hok x]
          refine ⟨trivial, ?_, hsi⟩
          cases told
          · exact h2
          · exact tell_nonempty cfg hp n hn hon x ⊤ _ h2
        | rejectSuggestion x told ranked =>
          obtain ⟨rfl, hsi⟩ := hsi
          simp only [Es.step]
          refine ⟨trivial, ?_, hsi⟩
          cases told
          · exact hne
          · exact tell_nonempty cfg hp n hn hon x ⊤ _ hne
        | tell x v l ranked =>
          obtain ⟨rfl, hsi⟩ := hsi
          exact ⟨rfl, tell_nonempty cfg hp n hn hon x l _ hne, hsi⟩
      intro r hr
      simp only [Es.run, List.mem_cons] at hr
      rcases hr with rfl | hr
      · exact key.1
      · exact ih _ key.2.2 (hsa.step cfg n hn op) key.2.1 r hr
  have hi := Same.init (α := α) lin par
  have h0 : (internalAsk cfg u (St.init lin par : St U α)).1 = none := by
    unfold internalAsk
    rw [if_pos (by simpa [St.init] using hp)]
  have h1 : (step cfg (.ask u) (St.init lin par : St U α)).1 = none ∧ (step cfg (.ask u) (St.init lin par : St U α)).2.pop ≠ [] := by
    simp only [Es.step, h0]
    exact ⟨trivial, (hi.ask cfg u).2.2.1 h0⟩
  intro r hr
  simp only [Es.run, List.mem_cons] at hr
  rcases hr with rfl | hr
  · exact h1.1
  · exact gen ops _ hs (hi.step cfg n hn _) h1.2 r hr

/-! ## the best member -/

/-- Some member of `s'` is at least as good as each member of `s`. -/
def NoWorse (s s' : St U α) : Prop := ∀ x ∈ members s, ∃ y ∈ members s', s'.loss y ≤ s.loss x

omit [DecidableEq U] [OrderTop α] in
theorem NoWorse.refl (s : St U α) : NoWorse s s := fun x hx => ⟨x, hx, le_refl _⟩

omit [DecidableEq U] [OrderTop α] in
theorem NoWorse.trans {s s' s'' : St U α} (h : NoWorse s s') (h' : NoWorse s' s'') : NoWorse s s'' := by
  intro x hx
  obtain ⟨y, hy, h1⟩ := h x hx
  obtain ⟨z, hz, h2⟩ := h' y hy
  exact ⟨z, hz, h2.trans h1⟩

omit [OrderTop α] in
theorem NoWorse.select (cfg : Cfg) (hp : 0 < cfg.popsize) (hon : cfg.only = false) (s : St U α) :
    NoWorse s (select cfg none s) := by
  intro x hx
  by_cases hm : x ∈ members (Es.select cfg none s)
  · exact ⟨x, hm, le_refl _⟩
  · have hne : s.pop ≠ [] := by
      rintro hc
      simp [members, hc] at hx
    obtain ⟨e, he⟩ := List.exists_mem_of_ne_nil _ (select_nonempty cfg hp s (Or.inr ⟨hon, hne⟩))
    have hmem : e.2 ∈ members (Es.select cfg none s) := List.mem_map.mpr ⟨e, he, rfl⟩
    exact ⟨e.2, hmem, (select_spec_partial cfg s).2.2.1 e.2 hmem x (Or.inr ⟨hon, hx⟩) hm⟩

theorem members_set (k v : U) (d : List (U × U)) (hn : (keys d).Nodup) (x : U) (hx : x ∈ d.map (·.2))
    (hk : ∀ p, dictGet d k = some p → x ≠ p) : x ∈ (dictSet k v d).map (·.2) := by
  obtain ⟨e, he, rfl⟩ := List.mem_map.mp hx
  refine List.mem_map.mpr ⟨e, ?_, rfl⟩
  refine (mem_set k v d hn e).mpr (Or.inr ⟨he, ?_⟩)
  intro hc
  exact hk e.2 (mem_get d hn k e.2 (hc ▸ he)) rfl

theorem members_set_self (k v : U) (d : List (U × U)) (hn : (keys d).Nodup) : v ∈ (dictSet k v d).map (·.2) :=
  List.mem_map.mpr ⟨(k, v), (mem_set k v d hn _).mpr (Or.inl rfl), rfl⟩

omit [LinearOrder α] [OrderTop α] in
theorem ask_nodup (cfg : Cfg) (u : U) (s : St U α) (h : (keys s.pop).Nodup) : (keys (internalAsk cfg u s).2.pop).Nodup := by
  unfold internalAsk
  split
  · exact nodup_set u u _ h
  · split
    · exact h
    · split <;> exact h

theorem tell_nodup (cfg : Cfg) (u : U) (l : α) (ranked : Option (List U)) (s : St U α) (h : (keys s.pop).Nodup) :
    (keys (tellCandidate cfg u l ranked s).pop).Nodup := by
  unfold tellCandidate
  split
  · simp only
    split
    · exact nodup_set _ _ _ h
    · exact h
  · split
    · exact (toDict_spec _).1
    · unfold receive
      split
      · exact nodup_set _ _ _ h
      · exact h

/-- With offsprings the keys are the uids of the members. -/
def Diag (cfg : Cfg) (s : St U α) : Prop := cfg.offsprings.isSome = true → ∀ e ∈ s.pop, e.1 = e.2

omit [LinearOrder α] [OrderTop α] in
theorem Diag.ask {cfg : Cfg} {s : St U α} (h : Diag cfg s) (hn : (keys s.pop).Nodup) (u : U) : Diag cfg (internalAsk cfg u s).2 := by
  intro ho
  unfold internalAsk
  split
  · intro e he
    rcases (mem_set u u _ hn e).mp he with rfl | he
    · rfl
    · exact h ho e he.1
  · split
    · exact h ho
    · split <;> exact h ho

theorem Diag.tell {cfg : Cfg} {s : St U α} (h : Diag cfg s) (hn : (keys s.pop).Nodup) (u : U) (l : α) (ranked : Option (List U)) :
    Diag cfg (tellCandidate cfg u l ranked s) := by
  intro ho
  unfold tellCandidate
  split
  · rename_i hc
    simp [hc] at ho
  · split
    · exact (toDict_spec _).2.1
    · unfold receive
      split
      · intro e he
        rcases (mem_set u u _ hn e).mp he with rfl | he
        · rfl
        · exact h ho e he.1
      · exact h ho

omit [OrderTop α] in
theorem NoWorse.ask (cfg : Cfg) (u : U) (s : St U α) (hn : (keys s.pop).Nodup) (hu : u ∉ keys s.pop) :
    NoWorse s (internalAsk cfg u s).2 := by
  unfold internalAsk
  split
  · intro x hx
    refine ⟨x, members_set u u s.pop hn x hx ?_, le_refl _⟩
    intro p hp
    exact absurd ((mem_keys_iff s.pop u).mpr ⟨p, hp⟩) hu
  · split
    · exact NoWorse.refl s
    · split <;> exact fun x hx => ⟨x, hx, le_refl _⟩

theorem NoWorse.tell (cfg : Cfg) (hp : 0 < cfg.popsize) (hon : cfg.offsprings.isSome = true → cfg.only = false) (u : U) (l : α)
    (s : St U α) (hn : (keys s.pop).Nodup) (hd : Diag cfg s) (hl : s.loss u ≤ l) : NoWorse s (tellCandidate cfg u l none s) := by
  unfold tellCandidate
  split
  · simp only
    split
    · rename_i hlt
      intro x hx
      by_cases hx' : ∀ p, dictGet s.pop (s.lineage u) = some p → x ≠ p
      · exact ⟨x, members_set _ u s.pop hn x hx hx', le_refl _⟩
      · push Not at hx'
        obtain ⟨p, hp, rfl⟩ := hx'
        refine ⟨u, members_set_self _ u s.pop hn, ?_⟩
        simp only [parentValue, hp] at hlt
        exact hl.trans (le_of_lt hlt)
    · exact NoWorse.refl s
  · rename_i n hc
    have ho : cfg.offsprings.isSome = true := by simp [hc]
    have h1 : NoWorse s (receive cfg u s) := by
      unfold receive
      split
      · intro x hx
        by_cases hxu : x = u
        · subst hxu
          exact ⟨x, members_set_self _ x s.pop hn, le_refl _⟩
        · refine ⟨x, members_set u u s.pop hn x hx ?_, le_refl _⟩
          intro p hp hxp
          exact hxu (hxp.trans (hd ho _ (get_mem s.pop u p hp)).symm)
      · exact fun x hx => ⟨x, hx, le_refl _⟩
    split
    · exact h1.trans (NoWorse.select cfg hp (hon ho) _)
    · exact h1

/-- Histories where uids of asked candidates are new, candidates have no loss before they are told (each is told once),
penalties are not negative, and there is one objective. -/
def Fair (cfg : Cfg) : List (Op U α) → St U α → Prop
  | [], _ => True
  | op :: ops, s =>
    (match op with
      | .ask u => u ∉ keys s.pop
      | .suggested => True
      | .reject u _ ranked => u ∉ keys s.pop ∧ ranked = none
      | .rejectSuggestion _ _ ranked => ranked = none
      | .tell u v l ranked => s.loss u = ⊤ ∧ v ≤ l ∧ ranked = none) ∧ Fair cfg ops (step cfg op s).2

theorem noWorse_step (cfg : Cfg) (hp : 0 < cfg.popsize) (hon : cfg.offsprings.isSome = true → cfg.only = false) (op : Op U α)
    (s : St U α) (hn : (keys s.pop).Nodup) (hd : Diag cfg s) (hf : Fair cfg [op] s) :
    (keys (step cfg op s).2.pop).Nodup ∧ Diag cfg (step cfg op s).2 ∧ NoWorse s (step cfg op s).2 := by
  cases op with
  | ask u =>
    have h1 := ask_nodup cfg u s hn
    have h2 := hd.ask hn u
    have h3 := NoWorse.ask cfg u s hn hf.1
    simp only [Es.step]
    split <;> exact ⟨h1, h2, h3⟩
  | suggested => exact ⟨hn, hd, NoWorse.refl s⟩
  | reject u told ranked =>
    have h1 := ask_nodup cfg u s hn
    have h2 := hd.ask hn u
    have h3 := NoWorse.ask cfg u s hn hf.1.1
    obtain ⟨⟨_, rfl⟩, _⟩ := hf
    simp only [Es.step]
    split
    · exact ⟨h1, h2, h3⟩
    · cases told
      · exact ⟨h1, h2, h3⟩
      · exact ⟨tell_nodup cfg u ⊤ none _ h1, h2.tell h1 u ⊤ none, h3.trans (NoWorse.tell cfg hp hon u ⊤ _ h1 h2 le_top)⟩
  | rejectSuggestion u told ranked =>
    obtain ⟨rfl, _⟩ := hf
    simp only [Es.step]
    cases told
    · exact ⟨hn, hd, NoWorse.refl s⟩
    · exact ⟨tell_nodup cfg u ⊤ none s hn, hd.tell hn u ⊤ none, NoWorse.tell cfg hp hon u ⊤ s hn hd le_top⟩
  | tell u v l ranked =>
    obtain ⟨⟨h1, h2, rfl⟩, _⟩ := hf
    have h0 : NoWorse s { s with loss := fun x => if x = u then v else s.loss x } := by
      intro x hx
      refine ⟨x, hx, ?_⟩
      show (if x = u then v else s.loss x) ≤ s.loss x
      split
      · rename_i hxu
        rw [hxu, h1]
        exact le_top
      · exact le_refl _
    have hd' : Diag cfg { s with loss := fun x => if x = u then v else s.loss x } := hd
    exact ⟨tell_nodup cfg u l none _ hn, hd'.tell hn u l none, h0.trans (NoWorse.tell cfg hp hon u l _ hn hd' (by simpa using h2))⟩

/-- C48 (best): with parents included, or in the DE-like mode, the best loss of the population never gets worse: at any two times
of a history each member at the first time is matched by a member at least as good at the second. -/
theorem es_best (cfg : Cfg) (hp : 0 < cfg.popsize) (hon : cfg.offsprings.isSome = true → cfg.only = false) (lin : U → U)
    (par : U → Option U) (ops ops' : List (Op U α)) (hf : Fair cfg (ops ++ ops') (St.init lin par)) (x : U)
    (hx : x ∈ members (run cfg ops (St.init lin par)).2) :
    ∃ y ∈ members (run cfg (ops ++ ops') (St.init lin par)).2,
      (run cfg (ops ++ ops') (St.init lin par)).2.loss y ≤ (run cfg ops (St.init lin par)).2.loss x := by
  have gen : ∀ (ops : List (Op U α)) (s : St U α), (keys s.pop).Nodup → Diag cfg s → Fair cfg ops s →
      (keys (run cfg ops s).2.pop).Nodup ∧ Diag cfg (run cfg ops s).2 ∧ NoWorse s (run cfg ops s).2 := by
    intro ops
    induction ops with
    | nil => intro s h1 h2 _; exact ⟨h1, h2, NoWorse.refl s⟩
    | cons op ops ih =>
      intro s h1 h2 h3
      obtain ⟨g1, g2, g3⟩ := noWorse_step cfg hp hon op s h1 h2 ⟨h3.1, trivial⟩
      obtain ⟨k1, k2, k3⟩ := ih _ g1 g2 h3.2
      exact ⟨k1, k2, g3.trans k3⟩
  have app : ∀ (ops ops' : List (Op U α)) (s : St U α), (run cfg (ops ++ ops') s).2 = (run cfg ops' (run cfg ops s).2).2 := by
    intro ops
    induction ops with
    | nil => intro ops' s; rfl
    | cons op ops ih => intro ops' s; exact ih ops' _
  have split : ∀ (ops ops' : List (Op U α)) (s : St U α), Fair cfg (ops ++ ops') s →
      Fair cfg ops s ∧ Fair cfg ops' (run cfg ops s).2 := by
    intro ops
    induction ops with
    | nil => intro ops' s h; exact ⟨trivial, h⟩
    | cons op ops ih =>
      intro ops' s h
      obtain ⟨h1, h2⟩ := ih ops' _ h.2
      exact ⟨⟨h.1, h1⟩, h2⟩
  obtain ⟨f1, f2⟩ := split ops ops' _ hf
  obtain ⟨g1, g2, _⟩ := gen ops (St.init lin par) (by simp [St.init, keys]) (by intro _ e he; simp [St.init] at he) f1
  obtain ⟨_, _, k⟩ := gen ops' _ g1 g2 f2
  rw [app]
  exact k x hx

/-! ## cases and failures -/

/-- Two parents, two offsprings, parents included: the best two of four. -/
example : members (run (α := WithTop Nat) (U := Nat) ⟨2, some 2, false⟩ [.ask 1, .tell 1 5 5 none, .ask 2, .ask 3, .ask 4,
    .tell 3 7 7 none, .tell 4 3 3 none] (St.init id (fun _ => none))).2 = [4, 1] := by decide +kernel

/-- Sequential use: the last of the initial candidates is both in the population and waiting, so it is counted twice, and after
the selection the population has one member instead of two, though three candidates were available. -/
theorem sequential_shrinks :
    members (run (α := WithTop Nat) (U := Nat) ⟨2, some 2, false⟩ [.ask 1, .tell 1 5 5 none, .ask 2, .tell 2 1 1 none, .ask 3,
      .tell 3 9 9 none] (St.init id (fun _ => none))).2 = [2] := by decide +kernel

/-- The penalty of a violated constraint does not count in a selection: 4, told 0 with penalty 99, is kept and 1, told 5, is
not. -/
theorem penalty_ignored :
    members (run (α := WithTop Nat) (U := Nat) ⟨1, some 1, false⟩ [.ask 1, .tell 1 5 5 none, .ask 4, .tell 4 0 99 none]
      (St.init id (fun _ => none))).2 = [4] := by decide +kernel

/-- As many suggestions as the population size, not told yet, and the next ask fails. -/
theorem suggestions_starve :
    (run (α := WithTop Nat) (U := Nat) ⟨2, some 2, false⟩ [.suggested, .suggested, .ask 1] (St.init id (fun _ => none))).1
      = [none, none, some .runtime] := by decide +kernel

/-- DE-like mode: a suggestion rejected by a penalised cheap constraint leaves a key in the queue which is not in the
population, and a later ask raises KeyError. -/
theorem rejected_suggestion_fails :
    (run (α := WithTop Nat) (U := Nat) ⟨1, none, false⟩ [.ask 1, .tell 1 5 5 none, .rejectSuggestion 9 true none, .suggested,
      .ask 2, .ask 3] (St.init id (fun _ => none))).1 = [none, none, none, none, none, some .key] := by decide +kernel

/-- Several objectives: if the ranker selects nothing (`Nsga.fronts_cycle`), the population is empty and the next ask fails. -/
theorem empty_ranking_fails :
    (run (α := WithTop Nat) (U := Nat) ⟨1, some 2, false⟩ [.ask 1, .tell 1 1 1 none, .ask 2, .tell 2 2 2 (some []), .ask 3]
      (St.init id (fun _ => none))).1 = [none, none, none, none, some .runtime] := by decide +kernel

/-- DE-like mode: foreign candidates are added without limit. -/
theorem foreign_grows :
    (members (run (α := WithTop Nat) (U := Nat) ⟨1, none, false⟩ [.ask 1, .tell 1 5 5 none, .tell 8 6 6 none, .tell 9 7 7 none]
      (St.init id (fun _ => none))).2) = [1, 8, 9] := by decide +kernel

/-- Only offsprings: the best loss can get worse, by design (1 is replaced by 3). -/
example : members (run (α := WithTop Nat) (U := Nat) ⟨1, some 2, true⟩ [.ask 1, .tell 1 5 5 none, .ask 2, .tell 2 7 7 none,
    .ask 3, .tell 3 8 8 none, .ask 4, .tell 4 9 9 none] (St.init id (fun _ => none))).2 = [3] := by decide +kernel

end Es
end NG
