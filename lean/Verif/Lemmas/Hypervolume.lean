import Verif.Lemmas.HvMeasure

/-!
# The hypervolume code computes the slices, up to three objectives
-/

set_option linter.unusedSectionVars false
namespace NG
namespace Hv

variable (c : Nat → Nat → ℝ)

theorem planeLoop_spec (l : List Nat) (done : List Nat) (prev : Nat) (h acc : ℝ)
    (hneg : ∀ n ∈ done ++ l, c n 0 ≤ 0 ∧ c n 1 ≤ 0)
    (hsort : (done ++ l).Pairwise (fun a b => c a 1 ≤ c b 1))
    (hprev : prev ∈ done) (hlast : ∀ n ∈ done, c n 1 ≤ c prev 1)
    (hmin : ∃ x ∈ done, h = c x 0 ∧ ∀ n ∈ done, c x 0 ≤ c n 0) (hacc : acc = F c 1 done (c prev 1)) :
    planeLoop c prev h acc l = H c 2 (done ++ l) := by
  induction l generalizing done prev h acc with
  | nil =>
    unfold planeLoop
    rw [List.append_nil] at hneg ⊢
    obtain ⟨x, hx, rfl, hx2⟩ := hmin
    rw [H_succ, F_add c 1 done (c prev 1) 0 hlast (hneg prev hprev).2, ← hacc, H_one c done x hx hx2 (hneg x hx).1]
    ring
  | cons y l ih =>
    unfold planeLoop
    have e : done ++ y :: l = (done ++ [y]) ++ l := by simp
    rw [e] at hneg hsort ⊢
    have hpy : ∀ n ∈ done, c n 1 ≤ c y 1 := fun n hn =>
      (List.pairwise_append.1 (List.pairwise_append.1 hsort).1).2.2 n hn y (by simp)
    obtain ⟨x, hx, rfl, hx2⟩ := hmin
    apply ih (done ++ [y]) y _ _ hneg hsort (by simp)
    · intro n hn
      rcases List.mem_append.1 hn with hn | hn
      · exact hpy n hn
      · simp at hn; rw [hn]
    · by_cases hle : c x 0 ≤ c y 0
      · refine ⟨x, by simp [hx], min_eq_left hle, ?_⟩
        intro n hn
        rcases List.mem_append.1 hn with hn | hn
        · exact hx2 n hn
        · simp at hn; rw [hn]; exact hle
      · push Not at hle
        refine ⟨y, by simp, min_eq_right hle.le, ?_⟩
        intro n hn
        rcases List.mem_append.1 hn with hn | hn
        · exact hle.le.trans (hx2 n hn)
        · simp at hn; rw [hn]
    · rw [F_append c 1 done y _ le_rfl, F_add c 1 done (c prev 1) (c y 1) hlast (hpy prev hprev), ← hacc,
        H_one c done x hx hx2 (hneg x (by simp [hx])).1]
      ring

/-- `plane_hypervolume` is the area. -/
theorem plane_spec (L : List Nat) (hneg : ∀ n ∈ L, c n 0 ≤ 0 ∧ c n 1 ≤ 0) (hsort : L.Pairwise (fun a b => c a 1 ≤ c b 1)) :
    plane c L = H c 2 L := by
  cases L with
  | nil => simp [plane, H_nil]
  | cons x l =>
    unfold plane
    have := planeLoop_spec c l [x] x (c x 0) 0 hneg hsort (by simp) (by simp) ⟨x, by simp, rfl, by simp⟩
      (by rw [← List.nil_append [x], F_append c 1 [] x _ le_rfl, F_nil])
    simpa using this

/-- Top level without bounds: everything but the first node is popped. -/
theorem popLoop_none (dim : Nat) (x : Nat) (l popped : List Nat) (b : Nat → Option ℝ) (hb : ∀ i, b i = none) :
    popLoop c dim (l ++ [x]) popped b = ([x], l.reverse ++ popped, b) := by
  induction l generalizing popped with
  | nil => rfl
  | cons y l ih =>
    have hu : updBounds c b y dim = b := by
      funext i
      unfold updBounds
      rw [hb i]; simp
    cases l with
    | nil =>
      simp only [List.cons_append, List.nil_append]
      rw [popLoop]
      simp only [hb dim, gtBound, Bool.true_or, if_true, hu]
      rfl
    | cons z l =>
      simp only [List.cons_append] at ih ⊢
      rw [popLoop]
      simp only [hb dim, gtBound, Bool.true_or, if_true, hu]
      rw [ih]
      simp

theorem insertLoop_spec (dim : Nat) (nodes : List Nat) (sub : (Nat → Bool) → Mem ℝ → ℝ × Mem ℝ)
    (hsub : ∀ P m, sub P m = (H c dim (nodes.filter P), m)) (l done : List Nat) (P : Nat → Bool) (prev : Nat) (hv : ℝ) (m : Mem ℝ)
    (hnodes : ∀ n ∈ done ++ l, n ∈ nodes)
    (hneg : ∀ n ∈ done ++ l, c n dim ≤ 0)
    (hsort : (done ++ l).Pairwise (fun a b => c a dim ≤ c b dim)) (hnd : l.Nodup)
    (hP : ∀ n, P n = true ↔ n ∈ done) (hflag : ∀ n ∈ l, m.flag n < dim)
    (hprev : prev ∈ done) (hlast : ∀ n ∈ done, c n dim ≤ c prev dim)
    (harea : m.area prev dim = H c dim done) (hhv : hv = F c dim done (c prev dim)) :
    let r := insertLoop c sub dim l P prev hv m
    r.1 - r.2.2.area r.2.1 dim * c r.2.1 dim = H c (dim + 1) (done ++ l) := by
  induction l generalizing done P prev hv m with
  | nil =>
    simp only [insertLoop, List.append_nil] at hneg ⊢
    rw [harea, hhv, H_succ, F_add c dim done (c prev dim) 0 hlast (hneg prev hprev)]
    ring
  | cons n l ih =>
    have e : done ++ n :: l = (done ++ [n]) ++ l := by simp
    rw [e] at hneg hsort hnodes ⊢
    have hpn : ∀ x ∈ done, c x dim ≤ c n dim := fun x hx =>
      (List.pairwise_append.1 (List.pairwise_append.1 hsort).1).2.2 x hx n (by simp)
    have hP' : ∀ x, (P x || x == n) = true ↔ x ∈ done ++ [n] := by
      intro x; simp [hP x]
    have hfil : H c dim (nodes.filter (fun n' => P n' || n' == n)) = H c dim (done ++ [n]) := by
      apply H_congr
      intro x
      rw [List.mem_filter, hP' x]
      exact ⟨fun h => h.2, fun h => ⟨hnodes x (List.mem_append_left _ h), h⟩⟩
    have hfl : ¬ dim ≤ m.flag n := by have := hflag n (by simp); omega
    rw [insertLoop]
    simp only [skipDominated]
    rw [if_neg hfl]
    simp only [hsub, hfil]
    have hfl2 : ∀ x ∈ l, x ≠ n := by
      intro x hx hxn; subst hxn; exact (List.nodup_cons.1 hnd).1 hx
    apply ih (done ++ [n])
    · exact hnodes
    · exact hneg
    · exact hsort
    · exact (List.nodup_cons.1 hnd).2
    · exact hP'
    · intro x hx
      split
      · simp only [if_neg (hfl2 x hx)]; exact hflag x (by simp [hx])
      · exact hflag x (by simp [hx])
    · simp
    · intro x hx
      rcases List.mem_append.1 hx with hx | hx
      · exact hpn x hx
      · simp at hx; rw [hx]
    · split <;> simp [upd]
    · rw [harea, hhv, F_append c dim done n _ le_rfl, F_add c dim done (c prev dim) (c n dim) hlast (hpn prev hprev)]
      ring

/-- The top level of the recursion, when the level below is exact and does not touch the memory. -/
theorem level_spec (dim : Nat) (hdim : 0 < dim) (nodes : List Nat) (sub : (Nat → Bool) → Mem ℝ → ℝ × Mem ℝ)
    (hsub : ∀ P m, sub P m = (H c dim (nodes.filter P), m)) (L : List Nat) (hL : ∀ n ∈ L, n ∈ nodes) (hnd : L.Nodup)
    (hneg : ∀ n ∈ L, c n dim ≤ 0) (hsort : L.Pairwise (fun a b => c a dim ≤ c b dim)) :
    (level c sub dim L Mem.init).1 = H c (dim + 1) L := by
  cases L with
  | nil => simp [level, H_nil]
  | cons x l =>
    unfold level
    simp only [List.isEmpty_cons, Bool.false_eq_true, if_false, List.reverse_cons]
    rw [popLoop_none c dim x l.reverse [] (Mem.init (α := ℝ)).bounds (fun i => rfl)]
    simp only [List.reverse_reverse, List.append_nil, List.head?_nil]
    have hfl : ∀ (f : Nat → Nat), (∀ n, f n = 0) → ∀ n, (if n ∈ x :: l ∧ f n < dim then 0 else f n) = 0 := by
      intro f hf n; rw [hf n]; simp
    have hcfg : ∀ m : Mem ℝ, (configure c m x dim).flag = m.flag := fun _ => rfl
    have hflx : ¬ dim ≤ (if x ∈ x :: l ∧ (Mem.init (α := ℝ)).flag x < dim then 0 else (Mem.init (α := ℝ)).flag x) := by
      simp [Mem.init, hdim]; omega
    simp only [skipDominated, hcfg]
    rw [if_neg hflx]
    simp only [hsub, areaOf]
    have hfil : H c dim (nodes.filter (fun n => [x].contains n)) = H c dim [x] := by
      apply H_congr
      intro n
      simp only [List.mem_filter, List.contains_iff_mem, List.mem_singleton]
      exact ⟨fun h => h.2, fun h => ⟨hL n (by simp [h]), h⟩⟩
    rw [hfil]
    have := insertLoop_spec c dim nodes sub hsub l [x] (fun n => [x].contains n) x 0
    have e : x :: l = [x] ++ l := rfl
    rw [e]
    apply this
    · exact hL
    · exact hneg
    · exact hsort
    · exact (List.nodup_cons.1 hnd).2
    · intro n; simp
    · intro n hn
      have hnx : n ≠ x := by rintro rfl; exact (List.nodup_cons.1 hnd).1 hn
      split <;> simp [hnx, hdim, Mem.init]
    · simp
    · simp
    · split <;> simp [upd]
    · rw [← List.nil_append [x], F_append c dim [] x _ le_rfl, F_nil]

end Hv
end NG
