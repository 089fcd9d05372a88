import Verif.Net.Prog
import Mathlib.Data.Int.Notation

/-!
# Tables in text files

`/repo/src/io/TXTTableWriter.cpp`: the writer of the log files (and of the watch point files). A file is a
header line with the names of the columns and the lines below it; widths and digits of the numbers are not
modelled.
-/

set_option autoImplicit false

namespace Verif.Log

/-- `TXTTableWriter::DataType`, TXTTableWriter.hpp: the two types that the log files use. -/
inductive Kind where
  | int
  | double
deriving DecidableEq, Repr

/-- A number in the file. -/
inductive Cell (R : Type) where
  | int (z : ℤ)
  | double (r : R)
deriving DecidableEq, Repr

variable {R : Type}

def Cell.kind : Cell R → Kind
  | .int _ => .int
  | .double _ => .double

/-- A writer together with its file: `_data`, the position of `_writeIterator` (the number of columns for
`_data.end()`) and the lines below the header. -/
structure Writer (R : Type) where
  cols : List (String × Kind)
  pos : ℕ
  rows : List (List (Cell R))
deriving DecidableEq, Repr

/-- TXTTableWriter.cpp:11-23: opening the file discards what it contained. -/
def Writer.opened : Writer R := ⟨[], 0, []⟩

/-- `addData`, TXTTableWriter.cpp:25-58. -/
def Writer.addData (name : String) (kind : Kind) (w : Writer R) : Writer R :=
  { w with cols := w.cols ++ [(name, kind)], pos := w.cols.length + 1 }

/-- `writeData` for an integer and for a floating point number, TXTTableWriter.cpp:60-100. The assertions
are those of the code. -/
def Writer.writeData (name : String) (v : Cell R) (w : Writer R) : Except Err (Writer R) :=
  if w.cols = [] then .error .assert
  else
    let w := if w.pos = w.cols.length then { w with pos := 0, rows := w.rows ++ [[]] } else w
    if w.cols[w.pos]? = some (name, v.kind) then
      .ok { w with pos := w.pos + 1,
                   rows := w.rows.dropLast ++ [w.rows.getLastD [] ++ [v]] }
    else .error .assert

/-- Several calls of `writeData`. -/
def Writer.writeAll : List (String × Cell R) → Writer R → Except Err (Writer R)
  | [], w => .ok w
  | (n, v) :: rest, w => (w.writeData n v).bind (Writer.writeAll rest)

theorem Writer.writeAll_append (a b : List (String × Cell R)) (w : Writer R) :
    w.writeAll (a ++ b) = (w.writeAll a).bind (Writer.writeAll b) := by
  induction a generalizing w with
  | nil => rfl
  | cons x xs ih =>
    obtain ⟨n, v⟩ := x
    simp only [List.cons_append, Writer.writeAll]
    cases h : w.writeData n v with
    | error e => rfl
    | ok w' => exact ih w'

/-- The names and types of values. -/
def sig (l : List (String × Cell R)) : List (String × Kind) := l.map fun x => (x.1, x.2.kind)

theorem Writer.writeAll_rest (cells : List (String × Cell R)) :
    ∀ (w : Writer R) (pre : List (String × Kind)) (rows : List (List (Cell R))) (r : List (Cell R)),
      w.cols = pre ++ sig cells → w.pos = pre.length → w.rows = rows ++ [r] →
      w.writeAll cells =
        .ok ⟨w.cols, w.cols.length, rows ++ [r ++ cells.map (·.2)]⟩ := by
  induction cells with
  | nil =>
    intro w pre rows r h1 h2 h3
    obtain ⟨cols, pos, rs⟩ := w
    simp only [sig, List.map_nil, List.append_nil] at h1 h2 h3
    simp [Writer.writeAll, h1, h2, h3]
  | cons x xs ih =>
    intro w pre rows r h1 h2 h3
    obtain ⟨n, v⟩ := x
    obtain ⟨cols, pos, rs⟩ := w
    simp only at h1 h2 h3
    subst h1 h2 h3
    have hlen : pre.length ≠ (pre ++ sig ((n, v) :: xs)).length := by
      simp [sig]
    have hne : pre ++ sig ((n, v) :: xs) ≠ [] := by simp [sig]
    have hget : (pre ++ sig ((n, v) :: xs))[pre.length]? = some (n, v.kind) := by
      simp [sig]
    simp only [Writer.writeAll, Writer.writeData, if_neg hne, if_neg hlen, hget, if_true, Except.bind]
    rw [ih _ (pre ++ [(n, v.kind)]) rows (r ++ [v])] <;> simp [sig]

/-- Writing all columns appends one line. -/
theorem Writer.writeAll_row {cells : List (String × Cell R)} (hne : cells ≠ []) {w : Writer R}
    (hc : w.cols = sig cells) (hp : w.pos = w.cols.length) :
    w.writeAll cells = .ok ⟨w.cols, w.cols.length, w.rows ++ [cells.map (·.2)]⟩ := by
  cases cells with
  | nil => exact absurd rfl hne
  | cons x xs =>
    obtain ⟨n, v⟩ := x
    obtain ⟨cols, pos, rs⟩ := w
    simp only at hc hp
    subst hc
    have hne' : sig ((n, v) :: xs) ≠ [] := by simp [sig]
    have hget : (sig ((n, v) :: xs))[0]? = some (n, v.kind) := by simp [sig]
    simp only [Writer.writeAll, Writer.writeData, if_neg hne', if_pos hp, hget, if_true, Except.bind]
    rw [Writer.writeAll_rest xs _ [(n, v.kind)] rs [v]] <;> simp [sig]

end Verif.Log
