import Verif.Config.MethodProps

/-!
# Examples for the configuration of mapping methods
-/

set_option autoImplicit false

namespace Verif.Config.MapMethod.Examples

open Verif.Config.MapMethod

/-- Five mappings, one of them on a device. -/
def five : List Tag :=
  [tag .nearestNeighbor [],
   { tag .rbfPum [.basis ⟨.gaussian, some (.fin 2), none⟩, .executor ⟨.cuda, some "auto".toList, none, some true⟩]
     with vertices := some 20, constraint := .conservative },
   { tag .rbfIterative [.basis ⟨.wendlandC6, some (.fin 1), none⟩]
     with rtol := some (.fin (1 / 1000)), zDead := some true, polynomial := some .on },
   tag .rbfPum [.basis ⟨.compactThinPlateSplinesC2, some (.fin 1), none⟩],
   { tag .axial []
     with msDimension := some .d1d3, msType := some .spread, msAxis := some .x, msRadius := some (.fin 1) }]

/-- They are accepted; the executor of the second does not become that of the fourth. Hypothesis of
`C126_methods_partial` and `C126_independent`. -/
example : (mappingTags fullBuild .init five).map (·.done.map (·.method)) = .ok
    [.nearestNeighbor,
     .pum (.gaussian (.fin (91 / 40)) (.fin 2)) .separate 20 (.fin (15 / 100)) true .cuda 4294967295 0 true,
     .petsc (.compact .wendlandC6 (.fin 1)) [false, false, true] .on (.fin (1 / 1000)),
     .pum (.compact .compactThinPlateSplinesC2 (.fin 1)) .separate 50 (.fin (15 / 100)) true .cpu 0 0 true,
     .axial .d1d3 .spread .x (.fin 1) .uniform .circle] := by
  decide +kernel

/-- `C126_accepts_partial`: all of them are possible with this build, and the second is not with a build
without devices. -/
example : (∀ t ∈ five, Valid fullBuild t) ∧ ¬ ∀ t ∈ five, Valid plainBuild t := by
  rw [← C126_accepts_partial, ← C126_accepts_partial]
  have h1 : (mappingTags fullBuild .init five).isOk = true := by decide +kernel
  have h2 : (mappingTags plainBuild .init five).isOk = false := by decide +kernel
  constructor
  · revert h1
    cases mappingTags fullBuild .init five with
    | error e => intro h; cases h
    | ok s => exact fun _ => ⟨s, rfl⟩
  · rintro ⟨s, hs⟩
    rw [hs] at h2
    cases h2

/-- `C126_gaussian_radius` -/
example : DescribesBasis plainBuild ⟨.gaussian, some (.fin 2), none⟩ (.gaussian (.fin (91 / 40)) (.fin 2)) := by
  refine ⟨rfl, by decide +kernel, .inr ⟨.fin 2, rfl, ⟨2, rfl⟩, ?_, by decide +kernel⟩⟩
  rintro ⟨q, h⟩
  cases h

/-- `C126_alias_ignores_dead` -/
example : (mappingTags plainBuild .init [tag .rbfAlias [.basis ⟨.volumeSplines, none, none⟩]]).isOk = true := by
  decide +kernel

end Verif.Config.MapMethod.Examples
