import Verif.Mpi.Props

/-!
# Examples for C133
-/

set_option autoImplicit false

namespace Verif.Mpi

/-- Rank 2 of 4 in the world, rank 1 of 2 in the communicator 7. -/
def parallel : Build := ⟨true, fun c => if c = .user 7 then (1, 2) else (2, 4)⟩

/-- A participant on the communicator 7 that needs PETSc. -/
def onSeven : Session := ⟨3, { comm := some (.user 7), rank := 1, size := 2, cfg := ⟨true, true⟩ }, 2⟩

/-- A participant on the world. -/
def onWorld : Session := ⟨4, { comm := none, rank := 2, size := 4, cfg := ⟨true, true⟩ }, 1⟩

example : onSeven.Good parallel := ⟨rfl, by decide, rfl, rfl, by decide⟩

example : onWorld.Good parallel := ⟨rfl, by decide, rfl, rfl, by decide⟩

/- `C133_sessions_partial`: the process after the application has initialized MPI, two participants with PETSc one after
the other, and the calls made. -/
example : (({} : Proc).run parallel (.app .init :: [onSeven, onWorld].flatMap Session.ops)).2.env.trace =
    ⟨.app, .init, true⟩ :: (onSeven.events ++ onWorld.events) := by
  obtain ⟨we, m, h⟩ := C133_sessions_partial (b := parallel) (ss := [onSeven, onWorld])
    (by
      intro s hs
      rcases List.mem_cons.1 hs with rfl | hs
      · exact ⟨rfl, by decide, rfl, rfl, by decide⟩
      · rw [List.mem_singleton.1 hs]
        exact ⟨rfl, by decide, rfl, rfl, by decide⟩)
    [⟨.app, .init, true⟩] .uninitialized false
  rw [run_cons_ok (q := ⟨⟨true, false, false, [⟨.app, .init, true⟩]⟩, [], false, .uninitialized, false, []⟩) rfl, h]
  simp

example : onSeven.events =
    [⟨.lib (some 3), .use (.user 7), true⟩, ⟨.lib (some 3), .use (.user 7), true⟩,
     ⟨.lib (some 3), .use (.user 7), true⟩, ⟨.lib (some 3), .petscInit (.user 7), true⟩,
     ⟨.lib (some 3), .use (.user 7), true⟩, ⟨.lib (some 3), .use (.user 7), true⟩,
     ⟨.lib (some 3), .petscFinalize, true⟩] := by
  decide

/- `C133_alone`: in a process without MPI. -/
example : (({} : Proc).run parallel onWorld.ops).2.env.trace =
    ⟨.lib (some 4), .init, true⟩ :: (onWorld.events ++ [⟨.lib (some 4), .finalize, true⟩]) := by
  obtain ⟨q, h, -, -, ht⟩ := C133_alone (b := parallel) (s := onWorld) ⟨rfl, by decide, rfl, rfl, by decide⟩ rfl
  rw [h, ht]
  rfl

/- `C133_accepts`: accepted with the rank in the communicator given, rejected with that in the world. -/
example : ((⟨⟨true, false, false, []⟩, [], false, .uninitialized, false, []⟩ : Proc).construct parallel 0
    onSeven.args).1 = .ok ∧
  ((⟨⟨true, false, false, []⟩, [], false, .uninitialized, false, []⟩ : Proc).construct parallel 0
    { onSeven.args with rank := 2, size := 4 }).1 = .error := by
  decide

/- `C133_failed`: a wrong rank, then a right one: MPI is initialized and never finalized. -/
example : fins (({} : Proc).run ⟨false, parallel.shape⟩
    (.construct 4 { onWorld.args with rank := 1 } :: onWorld.ops)).2.env.trace = 0 :=
  (C133_failed rfl rfl (by decide) (Or.inl (by decide)) _).2

/- `C133_two`: both participants are finalized, MPI is not. -/
example : fins (({} : Proc).run ⟨false, parallel.shape⟩
    [.construct 4 onWorld.args, .construct 3 onSeven.args, .finalize 3, .finalize 4]).2.env.trace = 0 :=
  (C133_two (s := onWorld) (s' := onSeven) rfl ⟨rfl, by decide, rfl, rfl, by decide⟩ rfl
    ⟨rfl, by decide, rfl, rfl, by decide⟩ _).2

/- `C133_balanced`: a program in which preCICE initializes and finalizes. -/
example : inits (({} : Proc).run parallel onWorld.ops).2.env.trace = 1 ∧
    fins (({} : Proc).run parallel onWorld.ops).2.env.trace = 1 := by
  decide

/- `C133_application`: a participant while MPI is run by the application. -/
example : (({} : Proc).run parallel (.app .init :: onSeven.ops)).2.env.trace =
    ⟨.app, .init, true⟩ :: onSeven.events := by
  decide

end Verif.Mpi
