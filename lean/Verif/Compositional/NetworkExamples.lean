import Verif.Compositional.NetworkDeadlock
import Mathlib.Tactic.IntervalCases

/-!
# C101: examples and counterexamples

Three participants `0`, `1`, `2` with solvers that make one step per window and write the number of
the window plus a hundred times their own number; initial data is this number for window zero.
-/

set_option autoImplicit false

namespace Verif

open Prog Function

/-! ### A scheduler -/

section Scheduler

variable {N : ℕ} {M α : Type}

/-- Let the first participant that can do so perform its next operation, up to `n` times. -/
def drive : ℕ → Net (Fin N) M α → Net (Fin N) M α
  | 0, net => net
  | n + 1, net =>
    match (List.finRange N).findSome? fun i => Net.stepAt i net with
    | none => net
    | some net' => drive n net'

theorem drive_steps (n : ℕ) (net : Net (Fin N) M α) : ∃ k, Net.Steps k net (drive n net) := by
  induction n generalizing net with
  | zero => exact ⟨0, .refl _⟩
  | succ n ih =>
    unfold drive
    split
    · exact ⟨0, .refl _⟩
    · next net' h =>
      obtain ⟨i, _, hi⟩ := List.exists_of_findSome?_eq_some h
      obtain ⟨k, hk⟩ := ih net'
      exact ⟨k + 1, .head ⟨i, hi⟩ hk⟩

/-- no participant can do anything -/
def stuckB (net : Net (Fin N) M α) : Bool := (List.finRange N).all fun i => (Net.stepAt i net).isNone

theorem stuckB_stuck {net : Net (Fin N) M α} (h : stuckB net = true) : Net.Stuck net := fun i => by
  have := List.all_eq_true.mp h i (List.mem_finRange i)
  exact Option.isNone_iff_eq_none.mp this

/-- participant `i` has not returned -/
def unfinished (i : Fin N) (net : Net (Fin N) M α) : Bool :=
  match net.procs i with
  | .ret _ => false
  | _ => true

theorem not_done {net : Net (Fin N) M α} {i : Fin N} (h : unfinished i net = true) : ¬ ∃ r, Net.Done r net := by
  rintro ⟨r, hr, _⟩
  unfold unfinished at h
  rw [hr i] at h
  cases h

/-- If the scheduler ends in a state where nothing goes on, no execution completes. -/
theorem never_of_drive {net : Net (Fin N) M α} (n : ℕ) (i : Fin N)
    (h : (stuckB (drive n net) && unfinished i (drive n net)) = true) {k : ℕ} {net' : Net (Fin N) M α}
    (hs : Net.Steps k net net') : ¬ ∃ r, Net.Done r net' := by
  obtain ⟨h1, h2⟩ := Bool.and_eq_true_iff.mp h
  obtain ⟨k', hk'⟩ := drive_steps n net
  intro hd
  obtain ⟨r, hr⟩ := hd
  have hst := hr.stuck
  obtain ⟨l, _, hl⟩ := Net.steps_confluent hs hst hk'
  cases hl with
  | refl => exact not_done h2 ⟨r, hr⟩
  | head hstep _ =>
    obtain ⟨j, hj⟩ := hstep
    rw [stuckB_stuck h1 j] at hj
    cases hj

end Scheduler

namespace Comp

/-- One step per window. -/
def simpleSolver {ι : Type} (v : ℕ → ℚ) : Solver ι ℚ
  | [] => []
  | c :: hist => [⟨c.maxStep, v (hist.length + 1), true, id⟩]

theorem simpleSolver_ok {ι : Type} (v : ℕ → ℚ) : SolverOk (simpleSolver (ι := ι) v) :=
  fun _ _ _ _ => .last rfl

def num (p : Fin 3) (n : ℕ) : ℚ := 100 * p.val + n

/-- two windows of size 1 -/
def twoWindows : Common := ⟨none, some 2, 1⟩

theorem twoWindows_ok : twoWindows.Ok 2 :=
  ⟨by norm_num [twoWindows, tol], dblMax_pos.le, (fun _ h => by cases h),
    (fun n h => by cases h; omega), Or.inl ⟨2, rfl, le_rfl⟩⟩

/-- the three solvers -/
def trio (links : List (Link (Fin 3))) : Net (Fin 3) (Msg ℚ) (List (Comp (Fin 3) ℚ)) :=
  ⟨fun p => composed twoWindows links (num p 0) (simpleSolver (num p)) 3 p, fun _ => []⟩

instance (a b : Link (Fin 3)) : Decidable (SamePair a b) := by unfold SamePair; exact inferInstance

/-- `0 → 1`, `1 → 2`, `0 → 2` serial, initial data from `1` to `0` -/
def chain : List (Link (Fin 3)) := [⟨true, 0, 1, false, true⟩, ⟨true, 1, 2, true, false⟩, ⟨true, 0, 2, false, false⟩]

theorem chain_simple : Simple chain := ⟨by decide, by decide⟩

theorem chain_ordered : Ordered chain fun p => p.val := by
  have h : ∀ {l j}, chain[j]? = some l → j < 3 := fun h => (List.getElem?_eq_some_iff.mp h).1
  refine ⟨by decide, by decide, ?_, ?_, ?_⟩ <;> intro l j hj
  all_goals
    have := h hj
    interval_cases j <;> obtain rfl := Option.some.inj hj <;> simp [late, chain]

/-- the theorem applies to the chain -/
example : ∃ r K, 1 ≤ K ∧ K ≤ 2 ∧ Result twoWindows chain (fun p => num p 0) (fun p => simpleSolver (num p)) r K ∧
    Net.AlwaysCompletes (trio chain) r :=
  C101_completes chain_simple chain_ordered (by decide) twoWindows_ok (fun _ => simpleSolver_ok _) _ (by omega)

/-- `0 → 1` and `0 → 2` serial, `1 – 2` parallel, with initial data -/
def fork : List (Link (Fin 3)) := [⟨true, 0, 1, true, true⟩, ⟨true, 0, 2, false, true⟩, ⟨false, 1, 2, true, true⟩]

example : ∃ r K, 1 ≤ K ∧ K ≤ 2 ∧ Result twoWindows fork (fun p => num p 0) (fun p => simpleSolver (num p)) r K ∧
    Net.AlwaysCompletes (trio fork) r := by
  refine C101_completes (level := fun p => if p = 0 then 0 else 1) ⟨by decide, by decide⟩ ?_ (by decide)
    twoWindows_ok (fun _ => simpleSolver_ok _) _ (by omega)
  have h : ∀ {l j}, fork[j]? = some l → j < 3 := fun h => (List.getElem?_eq_some_iff.mp h).1
  refine ⟨by decide, by decide, ?_, ?_, ?_⟩ <;> intro l j hj
  all_goals
    have := h hj
    interval_cases j <;> obtain rfl := Option.some.inj hj <;> simp [late, fork]

/-- the hypotheses of `C101_cycle_deadlocks` -/
example : ∀ p : Fin 3, True → ∃ l ∈ ([⟨true, 0, 1, false, false⟩, ⟨true, 1, 2, false, false⟩,
    ⟨true, 2, 0, false, false⟩] : List (Link (Fin 3))), l.serial = true ∧ l.second = p ∧ l.first ≠ p ∧ True := by
  decide

/-- A serial scheme `0 → 1` and parallel schemes `1 – 2`, `0 – 2`: there are no levels. -/
def mixed : List (Link (Fin 3)) := [⟨true, 0, 1, false, false⟩, ⟨false, 2, 1, false, false⟩, ⟨false, 0, 2, false, false⟩]

/-- **C101**, levels: this configuration deadlocks at the end of the first window, in all executions, -/
theorem C101_mixed_deadlocks {k : ℕ} {n : Net (Fin 3) (Msg ℚ) (List (Comp (Fin 3) ℚ))}
    (h : Net.Steps k (trio mixed) n) : ¬ ∃ r, Net.Done r n :=
  never_of_drive 100 0 (by decide +kernel) h

/-- the number of windows completed by `p`, if it returned -/
def finishedAfter (p : Fin 3) (net : Net (Fin 3) (Msg ℚ) (List (Comp (Fin 3) ℚ))) : Option ℕ :=
  match net.procs p with
  | .ret r => some (r.length - 1)
  | _ => none

/-- although it works when the first two schemes are listed in the other order. -/
theorem C101_mixed_order_matters : ∃ links, links.Perm mixed ∧
    ∃ k n, Net.Steps k (trio links) n ∧ ∀ p, finishedAfter p n = some 2 := by
  refine ⟨[⟨false, 2, 1, false, false⟩, ⟨true, 0, 1, false, false⟩, ⟨false, 0, 2, false, false⟩],
    List.Perm.swap _ _ _, ?_⟩
  obtain ⟨k, hk⟩ := drive_steps 100 (trio [⟨false, 2, 1, false, false⟩, ⟨true, 0, 1, false, false⟩,
    ⟨false, 0, 2, false, false⟩])
  exact ⟨k, _, hk, by decide +kernel⟩

/-- `chain` with initial data from `2` to `0`; participant `2` waits for participant `1` before it gets
to the scheme with the initial data. -/
def chainInit : List (Link (Fin 3)) := [⟨true, 0, 1, false, false⟩, ⟨true, 1, 2, false, false⟩, ⟨true, 0, 2, false, true⟩]

/-- **C101**, initial data: this configuration deadlocks in `initialize`, in all executions, -/
theorem C101_initial_deadlocks {k : ℕ} {n : Net (Fin 3) (Msg ℚ) (List (Comp (Fin 3) ℚ))}
    (h : Net.Steps k (trio chainInit) n) : ¬ ∃ r, Net.Done r n :=
  never_of_drive 100 0 (by decide +kernel) h

/-- although it works when the scheme with the initial data is listed first. -/
theorem C101_initial_order_matters : ∃ links, links.Perm chainInit ∧ Simple links ∧ Ordered links fun p => p.val := by
  refine ⟨[⟨true, 0, 2, false, true⟩, ⟨true, 0, 1, false, false⟩, ⟨true, 1, 2, false, false⟩], by decide,
    ⟨by decide, by decide⟩, ?_⟩
  have h : ∀ {l : Link (Fin 3)} {j : ℕ}, ([⟨true, 0, 2, false, true⟩, ⟨true, 0, 1, false, false⟩, ⟨true, 1, 2, false, false⟩])[j]? = some l →
      j < 3 := fun h => (List.getElem?_eq_some_iff.mp h).1
  refine ⟨by decide, by decide, ?_, ?_, ?_⟩ <;> intro l j hj
  all_goals
    have := h hj
    interval_cases j <;> obtain rfl := Option.some.inj hj <;> simp [late]

/-- Two serial schemes between the same participants, the second one with initial data. The scheme
`1 → 2` is there because every participant needs one. -/
def double : List (Link (Fin 3)) := [⟨true, 0, 1, false, false⟩, ⟨true, 0, 1, true, false⟩, ⟨true, 1, 2, false, false⟩]

/-- what participant 1 reads from participant 0 in the first window, and what participant 0 wrote -/
def firstRead (net : Net (Fin 3) (Msg ℚ) (List (Comp (Fin 3) ℚ))) : Option (ℚ × ℚ) :=
  match net.procs 0, net.procs 1 with
  | .ret r, .ret r' => do return (← readable r' 0 0, ← written r 1 1)
  | _, _ => none

/-- **C101**, two schemes between the same participants: the run completes, but in the first window the
second participant reads through the first scheme the initial data of the other scheme instead of
what the first participant wrote. -/
theorem C101_double_mixes_data : ∃ k n, Net.Steps k (trio double) n ∧
    (∀ p, finishedAfter p n = some 2) ∧ firstRead n = some (num 0 0, num 0 1) := by
  obtain ⟨k, hk⟩ := drive_steps 100 (trio double)
  exact ⟨k, _, hk, by decide +kernel, by decide +kernel⟩

/-! ### Blocking sends -/

/-- one communication from `i` to `j`, if both are ready -/
def meetAt {N : ℕ} {M α : Type} (p : Fin N → Prog (Fin N) M α) (x : Fin N × Fin N) :
    Option (Fin N → Prog (Fin N) M α) :=
  match p x.1, p x.2 with
  | .send j m k, .recv i k' => if j = x.2 ∧ i = x.1 then some (update (update p x.1 k) x.2 (k' m)) else none
  | _, _ => none

theorem meetAt_step {N : ℕ} {M α : Type} {p p' : Fin N → Prog (Fin N) M α} {x : Fin N × Fin N}
    (h : meetAt p x = some p') : RNet.Step p p' := by
  unfold meetAt at h
  split at h
  · next j m k i k' h1 h2 =>
    split at h
    · next hij =>
      obtain ⟨rfl, rfl⟩ := hij
      exact ⟨x.1, x.2, m, k, k', h1, h2, (Option.some.inj h).symm⟩
    · cases h
  · cases h

theorem step_meetAt {N : ℕ} {M α : Type} {p p' : Fin N → Prog (Fin N) M α} (h : RNet.Step p p') :
    ∃ x, meetAt p x = some p' := by
  obtain ⟨i, j, m, k, k', h1, h2, rfl⟩ := h
  exact ⟨(i, j), by simp [meetAt, h1, h2]⟩

def allPairs (N : ℕ) : List (Fin N × Fin N) := (List.finRange N).flatMap fun i => (List.finRange N).map (i, ·)

/-- Perform the first possible communication, up to `n` times. -/
def driveBlocking {N : ℕ} {M α : Type} : ℕ → (Fin N → Prog (Fin N) M α) → Fin N → Prog (Fin N) M α
  | 0, p => p
  | n + 1, p =>
    match (allPairs N).findSome? (meetAt p) with
    | none => p
    | some p' => driveBlocking n p'

theorem driveBlocking_steps {N : ℕ} {M α : Type} (n : ℕ) (p : Fin N → Prog (Fin N) M α) :
    ∃ k, RNet.Steps k p (driveBlocking n p) := by
  induction n generalizing p with
  | zero => exact ⟨0, .refl _⟩
  | succ n ih =>
    unfold driveBlocking
    split
    · exact ⟨0, .refl _⟩
    · next p' h =>
      obtain ⟨x, _, hx⟩ := List.exists_of_findSome?_eq_some h
      obtain ⟨k, hk⟩ := ih p'
      exact ⟨k + 1, .head (meetAt_step hx) hk⟩

theorem never_of_driveBlocking {N : ℕ} {M α : Type} {p : Fin N → Prog (Fin N) M α} (n : ℕ) (i : Fin N)
    (h : ((allPairs N).all (fun x => (meetAt (driveBlocking n p) x).isNone) &&
      unfinished i (RNet.toNet (driveBlocking n p))) = true) {k : ℕ} {p' : Fin N → Prog (Fin N) M α}
    (hs : RNet.Steps k p p') : ¬ ∃ r, RNet.Done r p' := by
  obtain ⟨h1, h2⟩ := Bool.and_eq_true_iff.mp h
  obtain ⟨k', hk'⟩ := driveBlocking_steps n p
  rintro ⟨r, hr⟩
  obtain ⟨l, _, hl⟩ := RNet.steps_confluent hs hr.stuck hk'
  cases hl with
  | refl => exact not_done h2 ⟨r, hr, fun _ => rfl⟩
  | head hstep _ =>
    obtain ⟨x, hx⟩ := step_meetAt hstep
    have := List.all_eq_true.mp h1 x (List.mem_flatMap.mpr ⟨x.1, List.mem_finRange _, List.mem_map.mpr
      ⟨x.2, List.mem_finRange _, rfl⟩⟩)
    rw [hx] at this
    cases this

/-- `0 → 1`, `1 → 2`, `0 → 2` serial without initial data -/
def chain0 : List (Link (Fin 3)) := [⟨true, 0, 1, false, false⟩, ⟨true, 1, 2, false, false⟩, ⟨true, 0, 2, false, false⟩]

/-- **C101**, blocking sends: if a send returns only once the partner receives, `0` waits for `2` to take
its data, `2` for the data of `1`, and `1` for `0` to take its data. The same configuration completes
with buffered sends, by `C101_completes`. -/
theorem C101_blocking_sends_deadlock : (Simple chain0 ∧ Ordered chain0 fun p => p.val) ∧
    ∀ k p, RNet.Steps k (trio chain0).procs p → ¬ ∃ r, RNet.Done r p := by
  refine ⟨⟨⟨by decide, by decide⟩, ?_⟩, fun k p h => never_of_driveBlocking 100 0 (by decide +kernel) h⟩
  have h : ∀ {l j}, chain0[j]? = some l → j < 3 := fun h => (List.getElem?_eq_some_iff.mp h).1
  refine ⟨by decide, by decide, ?_, ?_, ?_⟩ <;> intro l j hj
  all_goals
    have := h hj
    interval_cases j <;> obtain rfl := Option.some.inj hj <;> simp

end Comp
end Verif
