import Verif.Time.Differences

/-!
# TimeHandler

Model of `/repo/src/cplscheme/impl/TimeHandler.cpp`. Simplification: the compensated sums
(`utils::DoubleAggregator`) are exact sums.
-/

set_option autoImplicit false

namespace Verif

/-- `std::numeric_limits<double>::max()`, used as "no limit". -/
def dblMax : ℚ := (2 ^ 53 - 1) * 2 ^ 971

theorem dblMax_pos : 1 < dblMax := by
  have h : (1 : ℚ) ≤ 2 ^ 971 := one_le_pow₀ (by norm_num)
  have h2 : (1 : ℚ) < 2 ^ 53 - 1 := by norm_num
  exact one_lt_mul_of_lt_of_le h2 h

/-- State of `TimeHandler::Impl`, TimeHandler.cpp:11-21. -/
structure TimeHandler where
  maxTime : Option ℚ
  start : ℚ
  progress : ℚ
deriving DecidableEq

namespace TimeHandler

/-- TimeHandler.cpp:61-65 -/
def resetTo (t : TimeHandler) (x : ℚ) : TimeHandler := { t with start := x, progress := 0 }

/-- TimeHandler.cpp:67-70 -/
def progressBy (t : TimeHandler) (dt : ℚ) : TimeHandler := { t with progress := t.progress + dt }

/-- TimeHandler.cpp:72-75 -/
def resetProgress (t : TimeHandler) : TimeHandler := { t with progress := 0 }

/-- TimeHandler.cpp:145-148 -/
def time (t : TimeHandler) : ℚ := t.start + t.progress

/-- TimeHandler.cpp:119-123 -/
def untilTime (t : TimeHandler) (x : ℚ) : ℚ := -(t.start + t.progress - x)

/-- TimeHandler.cpp:150-154 -/
def untilProgress (t : TimeHandler) (w : ℚ) : ℚ := -(t.progress - w)

/-- TimeHandler.cpp:125-131 -/
def untilEnd (t : TimeHandler) : ℚ :=
  match t.maxTime with
  | none => dblMax
  | some m => t.untilTime m

/-- TimeHandler.cpp:99-105 -/
def reachedEnd (t : TimeHandler) : Prop :=
  match t.maxTime with
  | none => False
  | some m => equals (t.untilTime m) 0

instance (t : TimeHandler) : Decidable t.reachedEnd := by
  unfold reachedEnd; cases t.maxTime <;> exact inferInstance

/-- TimeHandler.cpp:109-117 -/
def untilWindowEnd (t : TimeHandler) (w : ℚ) : ℚ :=
  match t.maxTime with
  | none => t.untilProgress w
  | some _ => min (t.untilProgress w) t.untilEnd

/-- TimeHandler.cpp:94-97 -/
def reachedEndOfWindow (t : TimeHandler) (w : ℚ) : Prop := equals (t.untilWindowEnd w) 0

instance (t : TimeHandler) (w : ℚ) : Decidable (t.reachedEndOfWindow w) := by
  unfold reachedEndOfWindow; exact inferInstance

/-- TimeHandler.cpp:77-90. The assertion `reachedEnd()` of the second branch is checked by the
caller in the model (`completeOk`). -/
def completeTimeWindow (t : TimeHandler) (w : ℚ) : TimeHandler :=
  if equals t.progress w then { t with start := t.start + w, progress := 0 }
  else { t with start := t.start + t.progress, progress := 0 }

/-- The assertion inside `completeTimeWindow`, TimeHandler.cpp:86. -/
def completeOk (t : TimeHandler) (w : ℚ) : Prop := equals t.progress w ∨ t.reachedEnd

instance (t : TimeHandler) (w : ℚ) : Decidable (t.completeOk w) := by
  unfold completeOk; exact inferInstance

end TimeHandler
end Verif
