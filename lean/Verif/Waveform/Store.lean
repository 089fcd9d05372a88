import Verif.Waveform.Bspline
import Mathlib.Data.List.Pairwise

/-!
# Sample storage

Model of `/repo/src/time/Waveform.cpp`. A sample is a single rational (one degree of freedom; all of
them are handled alike). `none` is a violated assertion (undefined behaviour in release builds).
-/

set_option autoImplicit false

namespace Verif

/-- `time::Waveform` -/
structure Waveform where
  /-- `_stampleStorage` -/
  samples : List (ℚ × ℚ)
  degree : ℕ
  /-- `_bspline` -/
  cache : Option Bspline

namespace Waveform

/-- Waveform.cpp:11-16 -/
def empty (degree : ℕ) : Waveform := ⟨[], degree, none⟩

/-- Waveform.cpp:75-82 -/
def maxStoredTime (w : Waveform) : ℚ :=
  match w.samples.getLast? with
  | none => -1
  | some s => s.1

/-- overwrite the first sample with a matching time -/
def overwrite (t v : ℚ) : List (ℚ × ℚ) → List (ℚ × ℚ)
  | [] => []
  | s :: l => if equals s.1 t then (s.1, v) :: l else s :: overwrite t v l

/-- `setSampleAtTime`, Waveform.cpp:29-52 -/
def setSample (t v : ℚ) (w : Waveform) : Option Waveform :=
  match w.samples with
  | [] => some { w with samples := [(t, v)], cache := none }
  | first :: _ =>
    if smallerEquals first.1 t then
      if w.samples.any (fun s => decide (equals s.1 t)) then
        some { w with samples := overwrite t v w.samples, cache := none }
      else if smaller w.maxStoredTime t then
        some { w with samples := w.samples ++ [(t, v)], cache := none }
      else none
    else none

/-- `setAllSamples`, Waveform.cpp:54-59. The cached spline is kept. -/
def setAll (v : ℚ) (w : Waveform) : Waveform :=
  { w with samples := w.samples.map fun s => (s.1, v) }

/-- Changing values in place through the mutable range `stamples()`, Waveform.hpp:90-98, as done by relaxation (Acceleration.cpp:29-43) and by actions
(PythonAction.cpp:96-149, through a `const_cast`). The cached spline is kept. -/
def modify (f : ℚ → ℚ → ℚ) (w : Waveform) : Waveform :=
  { w with samples := w.samples.map fun s => (s.1, f s.1 s.2) }

/-- `setInterpolationDegree`, Waveform.cpp:61-68 -/
def setDegree (d : ℕ) (w : Waveform) : Waveform := { w with degree := d, cache := none }

/-- `move`, Waveform.cpp:95-105 -/
def move (w : Waveform) : Option Waveform :=
  if 2 ≤ w.samples.length then
    some { w with samples := w.samples.drop (w.samples.length - 1), cache := none }
  else none

/-- `trim`, Waveform.cpp:107-117 -/
def trim (w : Waveform) : Option Waveform :=
  if w.samples = [] then none else some { w with samples := w.samples.take 1, cache := none }

/-- `clear`, Waveform.cpp:119-126 -/
def clear (w : Waveform) : Waveform := { w with samples := [], cache := none }

/-- `clearExceptLast`, Waveform.cpp:128-137 -/
def clearExceptLast (w : Waveform) : Waveform :=
  if w.samples = [] then w
  else { w with samples := w.samples.drop (w.samples.length - 1), cache := none }

/-- `trimBefore`, Waveform.cpp:139-146 -/
def trimBefore (t : ℚ) (w : Waveform) : Waveform :=
  { w with samples := w.samples.filter fun s => decide (¬ smaller s.1 t), cache := none }

/-- `trimAfter`, Waveform.cpp:148-155 -/
def trimAfter (t : ℚ) (w : Waveform) : Waveform :=
  { w with samples := w.samples.filter fun s => decide (¬ greater s.1 t), cache := none }

/-- `operator=`, Waveform.cpp:19-27: clears, then inserts the samples of `other` one by one. -/
def assign (other w : Waveform) : Option Waveform :=
  other.samples.foldlM (fun w s => setSample s.1 s.2 w) { w.clear with degree := other.degree }

/-- `getSampleAtOrAfter`, Waveform.cpp:157-167 -/
def atOrAfter (t : ℚ) (w : Waveform) : Option ℚ :=
  match w.samples with
  | [s] => some s.2
  | l => (l.find? fun s => decide (greaterEquals s.1 t)).map (·.2)

/-- `computeUsedDegree`, Waveform.cpp:242-245 -/
def usedDegree (w : Waveform) : ℕ := min w.degree (w.samples.length - 1)

/-- The search loop of `sample`, Waveform.cpp:211-219. -/
def findStored (t : ℚ) : List (ℚ × ℚ) → Option ℚ
  | [] => none
  | s :: l => if equals s.1 t then some s.2 else if greater s.1 t then none else findStored t l

/-- `sample`, Waveform.cpp:200-228. The result contains the waveform because the spline is cached. -/
def sample (q : Bspline.Solver) (t : ℚ) (w : Waveform) : Option (ℚ × Waveform) :=
  if w.samples = [] then none
  else if w.usedDegree = 0 then (w.atOrAfter t).map fun v => (v, w)
  else match findStored t w.samples with
    | some v => some (v, w)
    | none =>
      let b := w.cache.getD (Bspline.build q w.samples w.usedDegree)
      some (b.at' t, { w with cache := some b })

/-- The value part of `sample`. -/
def read (q : Bspline.Solver) (t : ℚ) (w : Waveform) : Option ℚ := (w.sample q t).map (·.1)

/-- Operations on a waveform. -/
inductive Op where
  | setSample (t v : ℚ)
  | setAll (v : ℚ)
  | modify (f : ℚ → ℚ → ℚ)
  | setDegree (d : ℕ)
  | move
  | trim
  | clear
  | clearExceptLast
  | trimBefore (t : ℚ)
  | trimAfter (t : ℚ)
  | assign (other : Waveform)
  | sample (t : ℚ)

/-- Operations that change values without dropping the cached spline. -/
def Op.InPlace : Op → Prop
  | .setAll _ => True
  | .modify _ => True
  | _ => False

/-- One operation; `none` if an assertion is violated. -/
def apply (q : Bspline.Solver) (w : Waveform) : Op → Option Waveform
  | .setSample t v => w.setSample t v
  | .setAll v => some (w.setAll v)
  | .modify f => some (w.modify f)
  | .setDegree d => some (w.setDegree d)
  | .move => w.move
  | .trim => w.trim
  | .clear => some w.clear
  | .clearExceptLast => some w.clearExceptLast
  | .trimBefore t => some (w.trimBefore t)
  | .trimAfter t => some (w.trimAfter t)
  | .assign o => assign o w
  | .sample t => (w.sample q t).map (·.2)

/-- A sequence of operations. -/
def applyAll (q : Bspline.Solver) (w : Waveform) (ops : List Op) : Option Waveform :=
  ops.foldlM (apply q) w

end Waveform
end Verif
