import Verif.Config.AccelerationProps
import Mathlib.Tactic.NormNum

/-!
# Examples for the configuration of accelerations (C123)
-/

set_option autoImplicit false

namespace Verif.Config.Accel

open Scheme (Err)

/-- Two meshes with data. -/
def known (mesh data : String) : Bool := (mesh, data) ∈ [("Fluid", "Forces"), ("Solid", "Displacements"), ("Solid", "Velocities")]

/-- IQN-ILS with a preconditioner that weighs the data, and options in an unusual order. -/
def ilsTag : Tag where
  kind := .ils
  alwaysBuildJacobian := none
  reducedTimeGrid := some false
  onBoundViolation := some .clamp
  subs := [.filter (some .qr2) none, .data "Displacements" "Solid" (some 5), .preconditioner .constant none none, .timeWindowsReused 3,
    .data "Forces" "Fluid" none, .initialRelaxation (1 / 4) (some true)]

/-- IMVJ with restart and a preconditioner that is frozen after 20 windows. -/
def imvjTag : Tag where
  kind := .imvj
  alwaysBuildJacobian := none
  reducedTimeGrid := none
  onBoundViolation := none
  subs := [.data "Displacements" "Solid" none, .preconditioner .residual none (some 20), .restartMode none (some 12) none none]

/-- IMVJ with the defaults. -/
def plainTag : Tag where
  kind := .imvj
  alwaysBuildJacobian := none
  reducedTimeGrid := none
  onBoundViolation := none
  subs := [.data "Displacements" "Solid" none]

/-- Aitken with a preconditioner. -/
def aitkenTag : Tag where
  kind := .aitken
  alwaysBuildJacobian := none
  reducedTimeGrid := none
  onBoundViolation := none
  subs := [.data "Displacements" "Solid" none, .preconditioner .residualSum none none]

def aitkenPlain : Tag := { aitkenTag with subs := [.data "Displacements" "Solid" none, .initialRelaxation (1 / 5) none] }

def constantTag : Tag := { aitkenTag with kind := .constant, subs := [.relaxation (3 / 2)] }

theorem valid {t : Tag} (h1 : (t.subs.map Sub.name).filter (· ≠ .data) |>.Nodup) (h2 : ∀ s ∈ t.subs, t.kind.has s.name = true)
    (h3 : t.kind = .constant → (relaxation? t.subs).isSome = true) (h4 : t.kind ≠ .constant → dataOf t.subs ≠ [])
    (h5 : t.kind = .aitken → ∀ s ∈ t.subs, match s with
      | .initialRelaxation _ e => e = none
      | .preconditioner _ u _ => u = none
      | _ => True)
    (h6 : t.kind ≠ .imvj → t.alwaysBuildJacobian = none) (h7 : t.kind.isQN = false → t.reducedTimeGrid = none ∧ t.onBoundViolation = none) : t.Valid := by
  refine ⟨⟨?_, h2⟩, h3, h4, fun h v e hm => h5 h _ hm, fun h p u f hm => h5 h _ hm, h6, h7⟩
  generalize t.subs = l at h1
  induction l with
  | nil => exact .nil
  | cons s l ih =>
    rw [List.map_cons, List.filter_cons] at h1
    by_cases hs : s.name = .data
    · rw [if_neg (by simp [hs])] at h1
      exact .cons (fun _ _ _ => hs) (ih h1)
    · rw [if_pos (by simp [hs]), List.nodup_cons] at h1
      refine .cons (fun a ha he => absurd ?_ h1.1) (ih h1.2)
      rw [List.mem_filter, he]
      exact ⟨List.mem_map_of_mem ha, by simpa [← he] using hs⟩

theorem ilsTag_valid : ilsTag.Valid := valid (by decide) (by decide) (by decide) (by decide) (fun h => absurd h (by decide)) (by decide) (by decide)
theorem imvjTag_valid : imvjTag.Valid := valid (by decide) (by decide) (by decide) (by decide) (fun h => absurd h (by decide)) (by decide) (by decide)
theorem plainTag_valid : plainTag.Valid := valid (by decide) (by decide) (by decide) (by decide) (fun h => absurd h (by decide)) (by decide) (by decide)
theorem constantTag_valid : constantTag.Valid := valid (by decide) (by decide) (by decide) (by decide) (fun h => absurd h (by decide)) (by decide) (by decide)
theorem aitkenPlain_valid : aitkenPlain.Valid :=
  valid (by decide) (by decide) (by decide) (by decide) (fun _ s hs => by
    simp only [aitkenPlain, List.mem_cons, List.not_mem_nil, or_false] at hs
    rcases hs with rfl | rfl <;> trivial) (by decide) (by decide)
theorem aitkenTag_valid : aitkenTag.Valid :=
  valid (by decide) (by decide) (by decide) (by decide) (fun _ s hs => by
    simp only [aitkenTag, List.mem_cons, List.not_mem_nil, or_false] at hs
    rcases hs with rfl | rfl <;> trivial) (by decide) (by decide)

theorem ilsTag_wellFormed : ilsTag.WellFormed known where
  data := by unfold DataFits; decide +kernel
  restart := fun r h => by cases h
  relax := by decide +kernel
  maxUsed := by decide +kernel
  reused := by decide +kernel

theorem imvjTag_wellFormed : imvjTag.WellFormed known where
  data := by unfold DataFits; decide +kernel
  restart := fun r h => .inr rfl
  relax := by decide +kernel
  maxUsed := by decide +kernel
  reused := by decide +kernel

theorem plainTag_wellFormed : plainTag.WellFormed known where
  data := by unfold DataFits; decide +kernel
  restart := fun r h => .inr rfl
  relax := by decide +kernel
  maxUsed := by decide +kernel
  reused := by decide +kernel

/-- The options are found in any order, with the defaults for those not given. -/
example : configure known [] [ilsTag] =
    .ok (some (.ils
      { relaxation := 1 / 4, force := true, maxIterationsUsed := 100, timeWindowsReused := 3, filter := .qr2, limit := 1 / 10 ^ 16,
        data := [("Displacements", "Solid"), ("Forces", "Fluid")], onBound := .clamp, precond := .constant [5, 1], reducedTimeGrid := false }),
      [("Displacements", "Solid"), ("Forces", "Fluid")]) :=
  ((C123_configure_partial known ilsTag_valid (by decide) (by decide)).1 ilsTag_wellFormed).trans (by decide +kernel)

/-- The preconditioner is frozen when the first restart happens. -/
example : configure known [] [imvjTag] =
    .ok (some (.imvj
      { relaxation := 1 / 10, force := false, maxIterationsUsed := 20, timeWindowsReused := 0, filter := .qr3, limit := 1 / 100,
        data := [("Displacements", "Solid")], onBound := .ignore, precond := .residual 12, reducedTimeGrid := true } false (.svd 12 (1 / 10 ^ 4))),
      [("Displacements", "Solid")]) :=
  ((C123_configure_partial known imvjTag_valid (by decide) (fun _ _ h => by cases h)).1 imvjTag_wellFormed).trans (by decide +kernel)

/-- Aitken without a preconditioner. -/
example : configure known [] [aitkenPlain] =
    .ok (some (.aitken (1 / 5) [("Displacements", "Solid")] (.residualSum (-1) true)), [("Displacements", "Solid")]) :=
  ((C123_configure_partial known aitkenPlain_valid (by decide) (by decide)).1
    ⟨by unfold DataFits; decide +kernel, fun r h => (by cases h), by decide +kernel, by decide, by decide⟩).trans (by decide +kernel)

/-- Over-relaxation is rejected. -/
example : configure known [] [constantTag] = .error .check :=
  (C123_configure_partial known constantTag_valid (by decide) (by decide)).2 fun h => absurd h.relax (by decide +kernel)

/-- Aitken with a preconditioner conforms to the schema but aborts. -/
example : aitkenTag.Valid ∧ configure known [] [aitkenTag] = .error .assert ∧ ∀ r, configure known [] [aitkenTag] ≠ .ok r :=
  ⟨aitkenTag_valid, by decide +kernel, C123_aitken_preconditioner known [] (List.mem_singleton.2 rfl) rfl (p := .residualSum) (u := none) (f := none)
    (by decide +kernel)⟩

/-- IMVJ with defaults. -/
example : ∀ s, configure known [] [plainTag] ≠ .ok (some plainTag.expected, s) :=
  (C123_default_truncation known plainTag_valid rfl rfl rfl plainTag_wellFormed).2.2

/-- Writing the restart mode down changes the truncation threshold. -/
example : (configure known [] [plainTag]).map (·.1) ≠
    (configure known [] [{ plainTag with subs := plainTag.subs ++ [.restartMode (some .svd) (some 8) none none] }]).map (·.1) := by decide +kernel

/-- Two accelerations. -/
example : ∀ r, configure known [] [plainTag, constantTag] ≠ .ok r := C123_one_acceleration known [] (by decide)

/-- The same data in the accelerations of two schemes, each of which is accepted alone. -/
example : (∀ r, configureAll known [[plainTag], [], [imvjTag]] [] ≠ .ok r) ∧ (∃ r, configureAll known [[plainTag], []] [] = .ok r) ∧
    ∃ r, configureAll known [[imvjTag]] [] = .ok r :=
  ⟨C123_once known (l₁ := []) (l₂ := [[]]) (l₃ := []) (t₁ := plainTag) (t₂ := imvjTag) (List.mem_singleton.2 rfl) (List.mem_singleton.2 rfl)
    (x := ("Displacements", "Solid")) (by decide) (by decide) [],
    ⟨[some plainTag.actual, none], by
      unfold configureAll
      rw [(C123_accepted known plainTag_valid (by decide)).1 plainTag_wellFormed]
      rfl⟩,
    ⟨[some imvjTag.actual], by
      unfold configureAll
      rw [(C123_accepted known imvjTag_valid (by decide)).1 imvjTag_wellFormed]
      rfl⟩⟩

end Verif.Config.Accel
