import Verif.Config.ConnectionsProps

/-! # Examples for C125 -/

set_option autoImplicit false

namespace Verif.Config.Conn

/-- Three participants: the fluid provides a mesh which the solid needs with connectivity and the thermal solver as a cloud of points. -/
private def ps : List (Participant String) :=
  [⟨"Fluid", ["FM"], [("SM", "Solid")], fun _ => .vertex⟩,
   ⟨"Solid", ["SM"], [("FM", "Fluid")], fun m => if m = "FM" then .full else .vertex⟩,
   ⟨"Heat", [], [("FM", "Fluid")], fun _ => .vertex⟩]

private def fs : M2N String := ⟨"Fluid", "Solid", false, true, some 5000⟩

private def hf : M2N String := ⟨"Heat", "Fluid", true, false, none⟩

private theorem ok : configure 4 ps [fs, hf] = .ok [fs, hf] := by decide +kernel

/-- The configuration is well-formed. -/
example : WellFormed 4 ps [fs, hf] := by
  by_contra h
  have := (C125_accepted 4 ps [fs, hf]).2 h
  rw [ok] at this
  cases this

/-- A second communication between the same participants, an unknown participant, a wrong port, or a two-level initialization of a serial participant are rejected. -/
example : configure 4 ps [fs, ⟨"Solid", "Fluid", false, false, none⟩] = .error .check ∧ configure 4 ps [⟨"Solid", "Flud", false, false, none⟩] = .error .check ∧
    configure 4 ps [⟨"Solid", "Fluid", false, false, some 65536⟩] = .error .check ∧ configure 1 ps [fs] = .error .check ∧
    configure 4 ps [⟨"Solid", "Fluid", true, true, none⟩] = .error .check := by decide +kernel

/-- Hypotheses of `C125_connections` and `C125_matching_partial`: the connections of the fluid participant. -/
example : (ps.map (·.name)).Nodup ∧ boundFor ps "Fluid" [fs, hf] [] = .ok [⟨fs, "Solid", true⟩, ⟨hf, "Heat", false⟩] ∧
    boundFor ps "Solid" [fs, hf] [] = .ok [⟨fs, "Fluid", false⟩] ∧ boundFor ps "Heat" [fs, hf] [] = .ok [⟨hf, "Fluid", true⟩] := by decide +kernel

/-- `C125_meshes` and `C125_mesh_partial`: the mesh of the fluid participant is sent twice and needs connectivity because of the solid participant. -/
example : meshesFor [fs, hf] ps ps[0] = .ok ⟨[("FM", .full, [fs, hf])], [("SM", fs)]⟩ := by
  simp [meshesFor, ps, receivers, receiverMeshes, getM2N, fs, hf, M2N.links, Except.map, Except.bind, bind, pure, Except.pure, Requirement.level]

example : meshesFor [fs, hf] ps ps[2] = .ok ⟨[], [("FM", hf)]⟩ := by
  simp [meshesFor, ps, getM2N, fs, hf, M2N.links, Except.map, Except.bind, bind, pure, Except.pure]

/-- Without the communication, the participants are not configured. -/
example : meshesFor [fs] ps ps[2] = .error .check := by
  simp [meshesFor, ps, getM2N, fs, M2N.links, Except.map, Except.bind, bind, pure, Except.pure]

end Verif.Config.Conn
