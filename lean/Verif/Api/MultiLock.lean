import Mathlib.Data.List.Basic
import Mathlib.Data.List.Nodup

/-!
# Named locks

Model of `/repo/src/utils/MultiLock.hpp`. A `std::map<Key, bool>` is an association list whose keys are
kept distinct by `add` (the order of the entries is irrelevant for every operation of the class).
-/

set_option autoImplicit false

namespace Verif

/-- The member `_locks`, MultiLock.hpp:155-158 -/
abbrev MultiLock (K : Type) := List (K × Bool)

namespace MultiLock

variable {K : Type} [DecidableEq K]

/-- `_locks.find(name)` -/
def find (l : MultiLock K) (k : K) : Option Bool := (l.find? (fun e => e.1 = k)).map (·.2)

/-- assignment through the iterator returned by `find` -/
def assign (l : MultiLock K) (k : K) (b : Bool) : MultiLock K := l.map (fun e => if e.1 = k then (e.1, b) else e)

/-- `add`, MultiLock.hpp:41-44: `emplace` keeps an existing entry. -/
def add (l : MultiLock K) (k : K) (b : Bool) : MultiLock K :=
  match l.find k with
  | some _ => l
  | none => l ++ [(k, b)]

/-- `lock`, MultiLock.hpp:50-59; `none` is a `LockNotFoundException`. -/
def lock (l : MultiLock K) (k : K) : Option (MultiLock K) :=
  match l.find k with
  | none => none
  | some _ => some (l.assign k true)

/-- `unlock`, MultiLock.hpp:73-82; `none` is a `LockNotFoundException`. -/
def unlock (l : MultiLock K) (k : K) : Option (MultiLock K) :=
  match l.find k with
  | none => none
  | some _ => some (l.assign k false)

/-- `lockAll`, MultiLock.hpp:62-67 -/
def lockAll (l : MultiLock K) : MultiLock K := l.map (fun e => (e.1, true))

/-- `unlockAll`, MultiLock.hpp:85-90 -/
def unlockAll (l : MultiLock K) : MultiLock K := l.map (fun e => (e.1, false))

/-- `check`, MultiLock.hpp:104-113; `none` is a `LockNotFoundException`. -/
def check (l : MultiLock K) (k : K) : Option Bool := l.find k

/-- `checkAll`, MultiLock.hpp:116-122 -/
def checkAll (l : MultiLock K) : Bool := l.all (·.2)

/-- `contains`, MultiLock.hpp:130-134 -/
def contains (l : MultiLock K) (k : K) : Bool := (l.find k).isSome

/-- `size`, MultiLock.hpp:137-140 -/
def size (l : MultiLock K) : ℕ := l.length

/-- `countLocked`, MultiLock.hpp:143-146 -/
def countLocked (l : MultiLock K) : ℕ := l.countP (·.2)

/-- `countUnlocked`, MultiLock.hpp:149-152 -/
def countUnlocked (l : MultiLock K) : ℕ := l.countP (fun e => !e.2)

/-- The operations that modify the locks. -/
inductive Op (K : Type) where
  | add (k : K) (b : Bool)
  | lock (k : K)
  | unlock (k : K)
  | lockAll
  | unlockAll
  | clear

/-- One operation; a thrown exception leaves the locks unchanged and is reported. -/
def step (l : MultiLock K) : Op K → MultiLock K × Bool
  | .add k b => (l.add k b, true)
  | .lock k => match l.lock k with | some l' => (l', true) | none => (l, false)
  | .unlock k => match l.unlock k with | some l' => (l', true) | none => (l, false)
  | .lockAll => (l.lockAll, true)
  | .unlockAll => (l.unlockAll, true)
  | .clear => ([], true)

/-- A history of operations on a new object. -/
def run (ops : List (Op K)) : MultiLock K := ops.foldl (fun l o => (l.step o).1) []

end MultiLock
end Verif
