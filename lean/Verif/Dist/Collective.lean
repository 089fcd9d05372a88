import Verif.Net.Star
import Mathlib.Algebra.BigOperators.Fin
import Mathlib.Analysis.Real.Sqrt
import Mathlib.Algebra.Order.BigOperators.Group.Finset

/-!
# Collective operations inside a participant (C63, C64)

Model of `/repo/src/com/Communication.cpp:42-308` and `/repo/src/utils/IntraComm.cpp:67-357`. A participant has `n + 1` ranks, rank 0 is the
primary one. A message is one value of the exchanged type (scalar or vector), which is a commutative monoid `V`: no rounding. Every
request is waited for immediately or after the loop, so blocking sends are the strictest interpretation. For a serial participant
(`n = 0`) the code does not communicate and copies the value, which is what the loops over no secondary ranks do.
-/

set_option autoImplicit false

namespace Verif.Dist

variable {V : Type}

/-- `reduceSum`: Communication.cpp:42-72, IntraComm.cpp:149-200. The output buffer `old` of a secondary rank is not touched. -/
def reduceSum [Add V] {n : ℕ} (r : Fin (n + 1)) (x old : V) : Prog (Fin (n + 1)) V V :=
  if r = 0 then gather (fun s _ m => s + m) .ret (secondaries n) x
  else .send 0 x (.ret old)

/-- `allreduceSum`: Communication.cpp:94-183, IntraComm.cpp:202-269 -/
def allreduceSum [Add V] {n : ℕ} (r : Fin (n + 1)) (x : V) : Prog (Fin (n + 1)) V V :=
  if r = 0 then gather (fun s _ m => s + m) (fun s => scatter (fun _ => s) (.ret s) (secondaries n)) (secondaries n) x
  else .send 0 x (.recv 0 .ret)

/-- `broadcast`: Communication.cpp:185-308, IntraComm.cpp:271-357: the primary rank sends `x`, the others receive. -/
def broadcast {n : ℕ} (r : Fin (n + 1)) (x : V) : Prog (Fin (n + 1)) V V :=
  if r = 0 then scatter (fun _ => x) (.ret x) (secondaries n)
  else .recv 0 .ret

theorem foldl_sum [AddCommMonoid V] {n : ℕ} (x : Fin (n + 1) → V) :
    (secondaries n).foldl (fun s r => s + x r) (x 0) = ∑ r, x r := by
  have : ∀ (l : List (Fin (n + 1))) (a : V), l.foldl (fun s r => s + x r) a = a + (l.map x).sum := by
    intro l
    induction l with
    | nil => simp
    | cons b l ih => intro a; rw [List.foldl_cons, ih, List.map_cons, List.sum_cons, add_assoc]
  rw [this, Fin.sum_univ_succ]
  unfold secondaries
  rw [List.map_map, Fin.sum_univ_def]
  rfl

/-- The primary rank gets the sum over all ranks, with every schedule of blocking sends, and nobody gets stuck. -/
theorem C63_reduce [AddCommMonoid V] {n : ℕ} (x old : Fin (n + 1) → V) :
    RNet.AlwaysCompletes (fun r => reduceSum r (x r) (old r)) fun r => if r = 0 then ∑ i, x i else old r := by
  obtain ⟨k, hk⟩ := star_gather (c := (0 : Fin (n + 1))) (fun s _ m => s + m) (.ret (ι := Fin (n + 1)) (M := V)) x (fun r => .ret (old r))
    (secondaries n) (secondaries_nodup n) (zero_notMem_secondaries n) (x 0) (fun r => reduceSum r (x r) (old r)) rfl (by
      intro r hr
      simp only [reduceSum, if_neg ((mem_secondaries r).1 hr)])
  refine RNet.alwaysCompletes_of_steps hk fun r => ?_
  by_cases h : r = 0
  · subst h
    simp only [if_true, foldl_sum]
  · simp only [h, if_false, if_pos ((mem_secondaries r).2 h)]

/-- Every rank gets the sum over all ranks. -/
theorem C63_allreduce [AddCommMonoid V] {n : ℕ} (x : Fin (n + 1) → V) :
    RNet.AlwaysCompletes (fun r => allreduceSum r (x r)) fun _ => ∑ i, x i := by
  obtain ⟨k, hk⟩ := star_gather (c := (0 : Fin (n + 1))) (fun s _ m => s + m)
    (fun s => scatter (fun _ => s) (.ret s) (secondaries n)) x (fun _ => .recv 0 .ret)
    (secondaries n) (secondaries_nodup n) (zero_notMem_secondaries n) (x 0) (fun r => allreduceSum r (x r)) rfl (by
      intro r hr
      simp only [allreduceSum, if_neg ((mem_secondaries r).1 hr)])
  rw [foldl_sum] at hk
  obtain ⟨k', hk'⟩ := star_scatter (c := (0 : Fin (n + 1))) (fun _ => ∑ i, x i) (.ret (∑ i, x i)) (fun _ => .ret)
    (secondaries n) (secondaries_nodup n) (zero_notMem_secondaries n)
    (fun i => if i = 0 then scatter (fun _ => ∑ i, x i) (.ret (∑ i, x i)) (secondaries n) else
      if i ∈ secondaries n then .recv 0 .ret else allreduceSum i (x i)) (by simp only [if_true]) (by
      intro r hr
      simp only [if_neg ((mem_secondaries r).1 hr), if_pos hr])
  refine RNet.alwaysCompletes_of_steps (hk.trans hk') fun r => ?_
  by_cases h : r = 0
  · simp only [h, if_true]
  · simp only [h, if_false, if_pos ((mem_secondaries r).2 h)]

/-- Every rank gets the value of the primary one. -/
theorem C63_broadcast {n : ℕ} (x : Fin (n + 1) → V) : RNet.AlwaysCompletes (fun r => broadcast r (x r)) fun _ => x 0 := by
  obtain ⟨k, hk⟩ := star_scatter (c := (0 : Fin (n + 1))) (fun _ => x 0) (.ret (x 0)) (fun _ => .ret)
    (secondaries n) (secondaries_nodup n) (zero_notMem_secondaries n) (fun r => broadcast r (x r)) rfl (by
      intro r hr
      simp only [broadcast, if_neg ((mem_secondaries r).1 hr)])
  refine RNet.alwaysCompletes_of_steps hk fun r => ?_
  by_cases h : r = 0
  · simp only [h, if_true]
  · simp only [h, if_false, if_pos ((mem_secondaries r).2 h)]

example : RNet.AlwaysCompletes (fun r : Fin 3 => allreduceSum r (![(1 : ℤ), 20, 300] r)) fun _ => 321 := by
  have := C63_allreduce (n := 2) (V := ℤ) ![1, 20, 300]
  rwa [show ∑ i, (![(1 : ℤ), 20, 300] : Fin 3 → ℤ) i = 321 by decide] at this

/-! ## Norms -/

/-- `squaredNorm` of the values of a rank. -/
def squaredNorm (v : List ℝ) : ℝ := (v.map fun a => a * a).sum

/-- `IntraComm::l2norm`, IntraComm.cpp:67-100 -/
noncomputable def l2norm {n : ℕ} (r : Fin (n + 1)) (v : List ℝ) : Prog (Fin (n + 1)) ℝ ℝ :=
  if n = 0 then .ret (Real.sqrt (squaredNorm v))
  else (allreduceSum r (squaredNorm v)).bind fun s => .ret (Real.sqrt s)

/-- `IntraComm::dot`, IntraComm.cpp:102-138 -/
noncomputable def dotProduct {n : ℕ} (r : Fin (n + 1)) (v w : List ℝ) : Prog (Fin (n + 1)) ℝ ℝ :=
  let local' := (List.zipWith (· * ·) v w).sum
  if n = 0 then .ret local' else allreduceSum r local'

/-- All values of a distributed vector, rank by rank. -/
def whole {n : ℕ} (v : Fin (n + 1) → List ℝ) : List ℝ := (List.ofFn v).flatten

theorem squaredNorm_whole {n : ℕ} (v : Fin (n + 1) → List ℝ) : squaredNorm (whole v) = ∑ r, squaredNorm (v r) := by
  unfold squaredNorm whole
  rw [List.map_flatten, List.sum_flatten, List.map_ofFn, List.map_ofFn, List.sum_ofFn]
  rfl

theorem dot_whole {n : ℕ} (v w : Fin (n + 1) → List ℝ) (h : ∀ r, (v r).length = (w r).length) :
    (List.zipWith (· * ·) (whole v) (whole w)).sum = ∑ r, (List.zipWith (· * ·) (v r) (w r)).sum := by
  unfold whole
  have : ∀ (m : ℕ) (v w : Fin m → List ℝ), (∀ r, (v r).length = (w r).length) →
      (List.zipWith (· * ·) (List.ofFn v).flatten (List.ofFn w).flatten).sum = ∑ r, (List.zipWith (· * ·) (v r) (w r)).sum := by
    intro m
    induction m with
    | zero => intro v w _; simp
    | succ m ih =>
      intro v w h
      rw [List.ofFn_succ, List.ofFn_succ, List.flatten_cons, List.flatten_cons, List.zipWith_append (h 0), List.sum_append,
        ih _ _ fun r => h r.succ, Fin.sum_univ_succ]
  exact this _ v w h

theorem alwaysCompletes_bind {ι M α β : Type} [DecidableEq ι] {p : ι → Prog ι M α} {r : ι → α} (h : RNet.AlwaysCompletes p r)
    (f : α → β) : RNet.AlwaysCompletes (fun i => (p i).bind fun a => .ret (f a)) fun i => f (r i) := by
  obtain ⟨k, q, hd, hs, -⟩ := h
  refine RNet.alwaysCompletes_of_steps (hs.bind fun _ a => .ret (f a)) fun i => ?_
  rw [hd i]
  rfl

/-- The norm computed by the ranks of a participant is on every rank the norm a serial participant computes for all values, however
they are distributed. -/
theorem C64_norm {n : ℕ} (v : Fin (n + 1) → List ℝ) :
    RNet.AlwaysCompletes (fun r => l2norm r (v r)) (fun _ => Real.sqrt (squaredNorm (whole v))) ∧
    RNet.AlwaysCompletes (fun r : Fin 1 => l2norm r (whole v)) (fun _ => Real.sqrt (squaredNorm (whole v))) := by
  refine ⟨?_, RNet.alwaysCompletes_of_steps (.refl _) fun r => ?_⟩
  · by_cases hn : n = 0
    · subst hn
      refine RNet.alwaysCompletes_of_steps (.refl _) fun r => ?_
      have : whole v = v r := by
        have : r = 0 := Fin.ext (by omega)
        subst this
        simp [whole]
      rw [this]
      simp [l2norm]
    · have h := alwaysCompletes_bind (C63_allreduce fun r => squaredNorm (v r)) Real.sqrt
      rw [← squaredNorm_whole] at h
      simpa only [l2norm, hn, if_false] using h
  · simp [l2norm]

/-- The same for dot products. -/
theorem C64_dot {n : ℕ} (v w : Fin (n + 1) → List ℝ) (h : ∀ r, (v r).length = (w r).length) :
    RNet.AlwaysCompletes (fun r => dotProduct r (v r) (w r)) (fun _ => (List.zipWith (· * ·) (whole v) (whole w)).sum) ∧
    RNet.AlwaysCompletes (fun r : Fin 1 => dotProduct r (whole v) (whole w)) (fun _ => (List.zipWith (· * ·) (whole v) (whole w)).sum) := by
  refine ⟨?_, RNet.alwaysCompletes_of_steps (.refl _) fun r => ?_⟩
  · rw [dot_whole v w h]
    by_cases hn : n = 0
    · subst hn
      refine RNet.alwaysCompletes_of_steps (.refl _) fun r => ?_
      have : r = 0 := Fin.ext (by omega)
      subst this
      simp [dotProduct]
    · have := C63_allreduce fun r => (List.zipWith (· * ·) (v r) (w r)).sum
      simpa only [dotProduct, hn, if_false] using this
  · simp [dotProduct]

/-- Norms do not depend on the partitioning: two distributions of the same values, also over different numbers of ranks and in
a different order, have the same norm. -/
theorem C64_partition {n m : ℕ} (v : Fin (n + 1) → List ℝ) (w : Fin (m + 1) → List ℝ) (h : (whole v).Perm (whole w)) :
    Real.sqrt (squaredNorm (whole v)) = Real.sqrt (squaredNorm (whole w)) := by
  unfold squaredNorm
  rw [(h.map _).sum_eq]

/-- Hence every decision that depends on norms is the same on all ranks and the same as in serial. -/
theorem C64_verdict {n : ℕ} (v : Fin (n + 1) → List ℝ) (decision : ℝ → Bool) :
    RNet.AlwaysCompletes (fun r => (l2norm r (v r)).bind fun x => .ret (decision x)) (fun _ => decision (Real.sqrt (squaredNorm (whole v)))) :=
  alwaysCompletes_bind (C64_norm v).1 decision

example : squaredNorm (whole ![[1, 2], [], [2]]) = 9 := by
  norm_num [squaredNorm, whole, List.ofFn_succ]

end Verif.Dist
