import Verif.Remesh.Props
import Mathlib.Tactic.NormNum

/-!
# Examples: the hypotheses of the theorems are met
-/

set_option autoImplicit false
set_option maxRecDepth 4000

namespace Verif.Remesh

def exConfig (implicit substeps : Bool) (k : Kind) : Config ℤ where
  implicit := implicit
  substeps := substeps
  kind := k
  f := fun nS nR v => 100 * v + 10 * nS + nR
  zero := 0

/-- A window that converges at once. -/
def exFirst : Input ℤ := { v := 7, conv := true, next := 2 }

/-- The reader resets its mesh. The sender does one time step before the end of the window. -/
def exReader : Input ℤ := { chR := some 5, subs := [(3 / 2, 8)], v := 9, next := 3 }

/-- The sender resets its mesh. -/
def exSender : Input ℤ := { chS := some 6, v := 9, next := 3 }

/-- Nobody resets a mesh. -/
def exNone : Input ℤ := { subs := [(3 / 2, 8)], v := 9, next := 3 }

theorem exFirst_valid : exFirst.Valid 0 1 :=
  ⟨by decide, by simp [exFirst], by simp [exFirst], by simp [exFirst], by norm_num [exFirst]⟩

theorem exReader_valid : exReader.Valid 1 2 :=
  ⟨by decide, by norm_num [exReader], by norm_num [exReader], by simp [exReader], by norm_num [exReader]⟩

theorem exSender_valid : exSender.Valid 1 2 :=
  ⟨by decide, by simp [exSender], by simp [exSender], by simp [exSender], by norm_num [exSender]⟩

theorem exNone_valid : exNone.Valid 1 2 :=
  ⟨by decide, by norm_num [exNone], by norm_num [exNone], by simp [exNone], by norm_num [exNone]⟩

theorem exAll_valid (implicit : Bool) : ValidAll implicit [exFirst] 0 1 := by
  refine ⟨exFirst_valid, ?_⟩
  simp [exFirst, ValidAll]

/-- After the first window. -/
def exState (substeps : Bool) (k : Kind) : State ℤ :=
  ((run (exConfig true substeps k) [exFirst] (start (exConfig true substeps k) 3 4 1)).getD
    (start (exConfig true substeps k) 3 4 1))

/-- The hypotheses of `C134_sizes`, for two windows with a mesh reset and an iteration in between. -/
example : ValidAll true [exFirst, exReader, exNone] 0 1 := by
  refine ⟨exFirst_valid, ?_⟩
  simp only [exFirst, and_false, if_false, Bool.true_eq_false]
  refine ⟨exReader_valid, ?_⟩
  simp only [exReader, and_self, if_true]
  exact ⟨exNone_valid, by simp [exNone, ValidAll]⟩

/-- The common hypotheses of the other theorems. -/
example : run (exConfig true false .read) [exFirst] (start (exConfig true false .read) 3 4 1) =
    some (exState false .read) := by decide +kernel

example : exReader.Valid (exState false .read).start (exState false .read).stop := exReader_valid

/-- The reader has 7 mapped. -/
example : (exState false .read).readable (exConfig true false .read) = [(1, ⟨4, 734⟩)] := by decide +kernel

/-- `C134_repeat` and `C134_start_partial`: the value at the start stays. -/
example : (step (exConfig true false .read) exNone (exState false .read)).map
    (State.readable (exConfig true false .read)) = some [(1, ⟨4, 734⟩), (2, ⟨4, 934⟩)] := by decide +kernel

example : (step (exConfig true true .read) exNone (exState true .read)).map
    (State.readable (exConfig true true .read)) = some [(1, ⟨4, 734⟩), (3 / 2, ⟨4, 834⟩), (2, ⟨4, 934⟩)] := by
  decide +kernel

example : Repeats [exNone, exNone] := by simp [Repeats, exNone]

example : ((exState true .read).start, (⟨4, 734⟩ : Sample ℤ)) ∈ (exState true .read).readable (exConfig true true .read) := by
  decide +kernel

/-- `C134_sender`: the value at the start stays. -/
example : (step (exConfig true false .read) exSender (exState false .read)).map
    (State.readable (exConfig true false .read)) = some [(1, ⟨4, 734⟩), (2, ⟨4, 964⟩)] := by decide +kernel

/-- `C134_lost`: the value at the start is lost. -/
example : (step (exConfig true false .read) exReader (exState false .read)).map
    (State.readable (exConfig true false .read)) = some [(2, ⟨5, 935⟩)] := by decide +kernel

example : (step (exConfig true false .direct) exSender (exState false .direct)).map
    (State.readable (exConfig true false .direct)) = some [(2, ⟨6, 9⟩)] := by decide +kernel

example : (step (exConfig true false .write) exReader (exState false .write)).map
    (State.readable (exConfig true false .write)) = some [(2, ⟨5, 935⟩)] := by decide +kernel

/-- `C134_zero` and `C134_zero_start`: zeros instead of 7 and 8, mapped. -/
example : (step (exConfig true true .read) exReader (exState true .read)).map
    (State.readable (exConfig true true .read)) = some [(1, ⟨5, 35⟩), (3 / 2, ⟨5, 35⟩), (2, ⟨5, 935⟩)] := by
  decide +kernel

example : (exState true .read).start ∈ (exState true .read).src.times := by decide +kernel

/-- With a write mapping the values before the end are right, only the one at the start is missing. -/
example : (step (exConfig true true .write) exReader (exState true .write)).map
    (State.readable (exConfig true true .write)) = some [(3 / 2, ⟨5, 835⟩), (2, ⟨5, 935⟩)] := by
  decide +kernel

/-- `C134_window`: an explicit scheme in which both meshes are reset. -/
example : ((step (exConfig false false .read) { exReader with chS := some 6, subs := [] } (exState false .read)).map
    (State.readable (exConfig false false .read))) = some [(2, ⟨5, 965⟩)] := by decide +kernel

/-- A sample of a wrong size is noticed by the model: it is not mapped. -/
example : mapData (exConfig true true .read) (exState true .read) none [(1, ⟨8, 1⟩)] [] = none := by decide +kernel

/-! ## Iterations that do different time steps -/

/-- Another iteration, without time steps before the end of the window. -/
def exAgain : Input ℤ := { v := 11, next := 3 }

/-- The last iteration of the window. -/
def exLast : Input ℤ := { subs := [(3 / 2, 5)], v := 12, conv := true, next := 3 }

/-- The window after it. -/
def exNext : Input ℤ := { subs := [(5 / 2, 13)], v := 14, conv := true, next := 4 }

/-- What can be read after a run. -/
def exRead (implicit substeps : Bool) (k : Kind) (is : List (Input ℤ)) : Option (Wave ℤ) :=
  (run (exConfig implicit substeps k) is (start (exConfig implicit substeps k) 3 4 1)).map
    (State.readable (exConfig implicit substeps k))

/-- Nothing of the iteration before is left, whether or not substeps are exchanged. -/
example : ∀ b, exRead true b .direct [exFirst, exNone, exAgain] = some [(1, ⟨3, 7⟩), (2, ⟨3, 11⟩)] ∧
    exRead true b .read [exFirst, exNone, exAgain] = some [(1, ⟨4, 734⟩), (2, ⟨4, 1134⟩)] ∧
    exRead true b .write [exFirst, exNone, exAgain] = some [(1, ⟨4, 734⟩), (2, ⟨4, 1134⟩)] := by decide +kernel

/-- The value at the start of the window stays, with and without substeps. -/
example : exRead true true .direct [exFirst, exNone] = some [(1, ⟨3, 7⟩), (3 / 2, ⟨3, 8⟩), (2, ⟨3, 9⟩)] ∧
    exRead true false .direct [exFirst, exNone] = some [(1, ⟨3, 7⟩), (2, ⟨3, 9⟩)] ∧
    exRead true true .write [exFirst, exNone] = some [(1, ⟨4, 734⟩), (3 / 2, ⟨4, 834⟩), (2, ⟨4, 934⟩)] := by decide +kernel

/-- Write mappings when the reader or the sender resets its mesh: the sizes are those of the mesh of the reader. -/
example : exRead true true .write [exFirst, exReader] = some [(3 / 2, ⟨5, 835⟩), (2, ⟨5, 935⟩)] ∧
    exRead true false .write [exFirst, exSender] = some [(1, ⟨4, 0⟩), (2, ⟨4, 964⟩)] := by decide +kernel

/-- At the end of the window the value of the last iteration is read. -/
example : ∀ b, exRead true b .direct [exFirst, exNone, exAgain, exLast] = some [(2, ⟨3, 12⟩)] ∧
    exRead true b .read [exFirst, exNone, exAgain, exLast] = some [(2, ⟨4, 1234⟩)] ∧
    exRead true b .write [exFirst, exNone, exAgain, exLast] = some [(2, ⟨4, 1234⟩)] := by decide +kernel

/-- Nor of the windows before. -/
example : ∀ b, exRead true b .direct [exFirst, exNone, exAgain, exLast, exNext] = some [(3, ⟨3, 14⟩)] ∧
    exRead true b .read [exFirst, exNone, exAgain, exLast, exNext] = some [(3, ⟨4, 1434⟩)] ∧
    exRead true b .write [exFirst, exNone, exAgain, exLast, exNext] = some [(3, ⟨4, 1434⟩)] := by decide +kernel

example : ∀ b, exRead false b .direct [exFirst, exNone, exNext] = some [(3, ⟨3, 14⟩)] ∧
    exRead false b .read [exFirst, exNone, exNext] = some [(3, ⟨4, 1434⟩)] ∧
    exRead false b .write [exFirst, exNone, exNext] = some [(3, ⟨4, 1434⟩)] := by decide +kernel

end Verif.Remesh
