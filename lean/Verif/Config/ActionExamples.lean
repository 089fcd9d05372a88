import Verif.Config.ActionProps
import Mathlib.Tactic.NormNum

/-!
# Examples for actions (C124)
-/

set_option autoImplicit false

namespace Verif.Config.Act

open Scheme (Err)

def world : World where
  isMesh m := m ∈ ["Fluid", "Solid"]
  dims m n := if m = "Fluid" then (if n ∈ ["Left", "Right", "Total"] then some 3 else if n = "Pressure" then some 1 else none) else none
  isUsed m := m == "Fluid"
  isDirectory p := p ∈ [".", "scripts"]

def sumTag : Tag := ⟨.summation, .writeMappingPost, "Fluid", ["Left", "Right"], some "Total", none, ""⟩
def mixedTag : Tag := { sumTag with sources := ["Left", "Pressure"] }
def pyTag : Tag := ⟨.python, .readMappingPost, "Fluid", ["Pressure"], some "Total", some "scripts", "ramp"⟩
def noSource : Tag := { pyTag with sources := [] }
def noTarget : Tag := { pyTag with target := none }
def noPath : Tag := { pyTag with path := none }

theorem sumTag_wellFormed : sumTag.WellFormed world :=
  ⟨by decide, by decide, by decide, by decide, by decide, by decide⟩

theorem pyTag_wellFormed : pyTag.WellFormed world :=
  ⟨by decide, by decide, by decide, by decide, by decide, by decide⟩

example : configure world [sumTag] = .ok [.summation .writeMappingPost "Fluid" ["Left", "Right"] "Total"] :=
  (C124_configure_partial world (t := sumTag) ⟨by decide, rfl⟩ (by decide) (by decide) (by decide)).1 sumTag_wellFormed

example : configure world [pyTag] = .ok [.python .readMappingPost "scripts" "ramp" "Fluid" (some "Total") (some "Pressure")] :=
  (C124_configure_partial world (t := pyTag) (Nat.le_refl 1) (by decide) (by decide) (by decide)).1 pyTag_wellFormed

/-- A sum of a vector and a scalar is rejected. -/
example : configure world [mixedTag] = .error .check :=
  (C124_configure_partial world (t := mixedTag) ⟨by decide, rfl⟩ (by decide) (by decide) (by decide)).2
    fun h => absurd (h.dims rfl "Total" rfl "Pressure" (by decide)) (by decide)

/-- A mesh that the participant does not use is rejected. -/
example : configure world [⟨.recorder, .readMappingPost, "Solid", [], none, none, ""⟩] = .error .check :=
  (C124_configure_partial world (by unfold Tag.Valid; decide) (by decide) (by decide) (by decide)).2 fun h => absurd h.used (by decide)

/-- What the documentation allows is not possible. -/
example : configure world [noSource] = .error .undef :=
  C124_python_source world rfl rfl (by decide) ⟨by decide, by decide, by decide, by decide, by decide, by decide⟩
example : noPath.WellFormed world ∧ configure world [noPath] = .error .check :=
  ⟨⟨by decide, by decide, by decide, by decide, by decide, by decide⟩, C124_python_path world (by decide) rfl (by decide) rfl (by decide)⟩
example (f : UserFunction ℕ (List ℚ)) : configure world [noTarget] = .ok [noTarget.expected] ∧ perform f 0 (some [(0, [1])]) none = .error .undef :=
  C124_python_target world rfl rfl rfl (by decide) ⟨by decide, by decide, by decide, by decide, by decide, by decide⟩ f 0 _
example : configure world [{ sumTag with target := some "" }] = .error .undef := C124_empty_target world (.inl rfl) rfl (by decide) (by decide)

/-- The function of the repository's test: it adds 1 and the number of previous calls. -/
def counter : UserFunction ℕ (List ℚ) := fun n _ src _ => some (n + 1, src, (src.getD []).map (· + 1 + n))

/-- It is called for both samples, with the state of the first call in the second. -/
example : perform counter 0 (some [(0, [1, 2]), (1, [3, 4])]) (some [(0, [0, 0]), (1, [0, 0])]) =
    .ok (2, some [(0, [1, 2]), (1, [3, 4])], some [(0, [2, 3]), (1, [5, 6])]) := by
  refine ((C124_perform counter 0 _ _ (by decide)).1 (2, _, _)).2 ⟨rfl, .cons (by unfold equals tol; norm_num) (.cons (by unfold equals tol; norm_num) .nil),
    [(some [1, 2], [2, 3]), (some [3, 4], [5, 6])], .cons (s₁ := 1) ?_ (.cons ?_ (.nil _)), rfl⟩
  · simp only [counter, Option.getD_some, List.map]; norm_num
  · simp only [counter, Option.getD_some, List.map]; norm_num

/-- Samples at different times are rejected. -/
example : ∃ e, perform counter 0 (some [(0, [1]), (1 / 2, [3])]) (some [(0, [0]), (1, [0])]) = .error e ∧ e = .check := by
  cases h : perform counter 0 (some [(0, [1]), (1 / 2, [3])]) (some [(0, [0]), (1, [0])]) with
  | error e => exact ⟨e, rfl, (C124_perform counter 0 _ _ (by decide)).2 e h⟩
  | ok r =>
    obtain ⟨-, h1, -⟩ := ((C124_perform counter 0 _ _ (by decide)).1 r).1 h
    cases h1 with
    | cons _ h1 => cases h1 with
      | cons h1 _ => exact absurd h1 (by unfold equals tol; norm_num)

/-- Without source. -/
def double : UserFunction ℕ (List ℚ) := fun n _ src v => some (n + 1, src, v.map (· * 2))
example : perform double 0 none (some [(0, [1, 2]), (1, [3, 4])]) =
    .ok (2, none, some [(0, [2, 4]), (1, [6, 8])]) := by
  refine ((C124_perform_target double 0 [(0, [1, 2]), (1, [3, 4])] (by decide)).1 (2, _, _)).2 ⟨[(none, [2, 4]), (none, [6, 8])], .cons (s₁ := 1) ?_ (.cons ?_ (.nil _)), rfl⟩
  · simp only [double, List.map]; norm_num
  · simp only [double, List.map]; norm_num

end Verif.Config.Act
