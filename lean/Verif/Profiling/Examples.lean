import Verif.Profiling.Props

/-!
# Profiling: examples for the hypotheses (C130)
-/

set_option autoImplicit false

set_option maxRecDepth 4000

namespace Verif.Profiling

/-- the registry of a fresh process -/
theorem idle_fresh : Idle Reg.fresh := ⟨rfl, rfl, rfl⟩

theorem exists_of_state {env : Env} {cs : List Call} (h : (state env cs).isSome = true) :
    ∃ p p', construct env Reg.fresh = some p ∧ calls env.clk cs p = .ok p' := by
  unfold state at h
  rcases hc : construct env Reg.fresh with _ | p
  · rw [hc] at h; cases h
  · rw [hc] at h
    rcases hp : calls env.clk cs p with e | p'
    · simp [hp] at h
    · exact ⟨p, p', rfl, hp⟩

/-- what a mapping does in `advance` -/
def mapping : Forest :=
  .node "mapping" .fundamental false [("samples", 3)] (.node "map.nn" .other false [] .nil .nil) .nil

/-- calls of a solver -/
def solver : List Call :=
  [.startSection "mesh", .api (.node "setMeshVertices.M" .api false [] .nil .nil), .stopSection,
    .initialize [("meshSizeM", 4)] mapping, .startSection "step", .startSection "assemble", .stopSection, .stopSection,
    .advance mapping, .startSection "output"]

/-- a parallel participant that synchronizes and writes everything at the end -/
def parallelAll : Env := ⟨fun k => 2 * k, true, true, some { mode := .all, flushEvery := 0, synchronize := true }⟩

/-- C130_told_partial, C130_nested_partial, C130_times -/
example : Idle Reg.fresh ∧ (sample 13).settings.mode ≠ .off ∧ ((sample 13).early : ℤ) ≤ (sample 13).settings.flushEvery
    ∧ Monotone (sample 13).clk ∧ Call.finalize ∉ solver ∧ (∃ c ∈ solver, c.isInitialize = true)
    ∧ ∃ p p', construct (sample 13) Reg.fresh = some p
      ∧ calls (sample 13).clk (solver ++ [.finalize]) p = .ok p' :=
  ⟨idle_fresh, by decide, by decide, fun a b h => Int.ofNat_le.2 h, by simp [solver],
    ⟨.initialize [("meshSizeM", 4)] mapping, by simp [solver], rfl⟩,
    exists_of_state (by decide)⟩

example : parallelAll.settings.mode ≠ .off ∧ parallelAll.settings.flushEvery = 0
    ∧ ∃ p p', construct parallelAll Reg.fresh = some p ∧ calls parallelAll.clk (solver ++ [.finalize]) p = .ok p' :=
  ⟨by decide, rfl, exists_of_state (by decide)⟩

/-- what is told about a section in a parallel participant that synchronizes -/
example : shown .all true (.node "a" .fundamental true [("k", 1)] (.node "b" .other false [] .nil .nil) .nil)
    = [.open "a.sync", .close "a.sync", .open "a", .data "a" "k" 1, .open "b", .close "b", .close "a"] := by decide

/-- and in the mode `fundamental` -/
example : shown .fundamental false (.node "a" .fundamental true [] (.node "b" .other false [] .nil .nil) .nil)
    = [.open "a", .close "a"] := by decide

/-- C130_off -/
example : Env.settings ⟨fun k => k, true, false, some { mode := .off }⟩ = { mode := .off }
    ∧ ∃ p p', construct ⟨fun k => k, true, false, some { mode := .off }⟩ Reg.fresh = some p
      ∧ calls (fun k => k) (solver ++ [.finalize]) p = .ok p' :=
  ⟨rfl, exists_of_state (env := ⟨fun k => k, true, false, some { mode := .off }⟩) (by decide)⟩

/-- C130_lost: `flush-every="1"` -/
example : 1 ≤ (sample 1).settings.flushEvery ∧ (sample 1).settings.flushEvery < (sample 1).early
    ∧ ∃ p p', construct (sample 1) Reg.fresh = some p ∧ calls (sample 1).clk (solver ++ [.finalize]) p = .ok p' :=
  ⟨by decide, by decide, exists_of_state (by decide)⟩

/-- C130_unstopped -/
example : (∀ c ∈ [Call.startSection "mesh"], c.isInitialize = false)
    ∧ ∃ p p', construct (sample 50) Reg.fresh = some p
      ∧ calls (sample 50).clk ([.startSection "mesh"] ++ [.finalize]) p = .ok p' :=
  ⟨by decide, exists_of_state (by decide)⟩

/-- C130_memory -/
example : 0 < (sample 2).settings.flushEvery
    ∧ ∃ p p', construct (sample 2) Reg.fresh = some p ∧ calls (sample 2).clk (solver ++ [.stopSection]) p = .ok p' :=
  ⟨by decide, exists_of_state (by decide)⟩

/-- C130_errors: such names and participants -/
example : '/' ∈ "a/b".toList := by decide

end Verif.Profiling
