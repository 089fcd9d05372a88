import Verif.Log.Lemmas

/-!
# C121: specification of the log files (and helper lemmas)

The specification counts in the sequence of observations of the solver (`Obs`): the completed windows, the
iterations of the current window (`repeats`) and all iterations. A row of the iterations log belongs to a
completed window, a row of the convergence log to an iteration.
-/

set_option autoImplicit false

namespace Verif.Log

open Prog

variable {ι D R : Type}

/-! ### Specification -/

/-- An iteration ended: the window is complete or has to be repeated. -/
def ended (o : Obs) : Bool := o.complete || o.reqRead

/-- Number of iterations so far. -/
def iterationsDone (log : List Obs) : ℕ := (log.filter ended).length

/-- The rows that the steps from number `r` on contribute, `F` tells the row of a step after a history. -/
def rowsFrom {α β : Type} (r : ℕ) (F : List α → α → Option β) (log : List α) : List β :=
  (List.range log.length).filterMap fun p => if p < r then none else log[p]?.bind (F (log.take p))

/-- The observations in a history. -/
def seen (log : List (Obs × LogIn R)) : List Obs := log.map (·.1)

/-- The number of the last step in which the participant was reinitialized. -/
def lastRemesh (log : List (Obs × LogIn R)) : ℕ :=
  ((List.range log.length).filter fun p => (log[p]?).any fun x => x.2.remesh && ended x.1).getLastD 0

/-- The row of the iterations log for a completed window: number of the window, iterations in total,
iterations in this window, convergence flag, and the numbers of the quasi-Newton acceleration. -/
def iterRow (c : Config) (g : LogCfg) (log : List (Obs × LogIn R)) (x : Obs × LogIn R) :
    Option (List (Cell R)) :=
  if x.1.complete = true then
    some ([.int (completedWindows (seen log) + 1 : ℕ), .int (iterationsDone (seen log) + 1 : ℕ),
      .int (repeats (seen log) + 1 : ℕ), .int (convFlag c (repeats (seen log) + 1))] ++
      if c.first = false ∧ g.qn = true then [.int x.2.qn.1, .int x.2.qn.2.1, .int x.2.qn.2.2] else [])
  else none

/-- The row of the convergence log for an iteration: number of the window, number of the iteration in the
window, and the residuals. -/
def convRow (log : List (Obs × LogIn R)) (x : Obs × LogIn R) : Option (List (Cell R)) :=
  if ended x.1 = true then
    some ([.int (completedWindows (seen log) + 1 : ℕ), .int (repeats (seen log) + 1 : ℕ)] ++
      x.2.meas.map fun m => .double m.1)
  else none

/-! ### Helper lemmas -/

theorem rowsFrom_nil {α β : Type} (r : ℕ) (F : List α → α → Option β) : rowsFrom r F [] = [] := rfl

theorem rowsFrom_snoc {α β : Type} {r : ℕ} {F : List α → α → Option β} {log : List α} {a : α}
    (hr : r ≤ log.length) : rowsFrom r F (log ++ [a]) = rowsFrom r F log ++ (F log a).toList := by
  unfold rowsFrom
  rw [List.length_append, List.length_singleton, List.range_succ, List.filterMap_append]
  congr 1
  · apply List.filterMap_congr
    intro p hp
    have hp' : p < log.length := List.mem_range.mp hp
    rw [List.getElem?_append_left hp', List.take_append_of_le_length hp'.le]
  · have : ¬ log.length < r := by omega
    cases hF : F log a <;> simp [this, hF]

theorem rowsFrom_end {α β : Type} {F : List α → α → Option β} {log : List α} {a : α} :
    rowsFrom log.length F (log ++ [a]) = (F log a).toList := by
  rw [rowsFrom_snoc le_rfl]
  have : rowsFrom log.length F log = [] := by
    unfold rowsFrom
    rw [List.filterMap_eq_nil_iff]
    intro p hp
    rw [if_pos (List.mem_range.mp hp)]
  rw [this, List.nil_append]

theorem lastRemesh_snoc (log : List (Obs × LogIn R)) (x : Obs × LogIn R) :
    lastRemesh (log ++ [x]) =
      if (x.2.remesh && ended x.1) = true then log.length else lastRemesh log := by
  unfold lastRemesh
  rw [List.length_append, List.length_singleton, List.range_succ, List.filter_append]
  have h1 : (List.range log.length).filter
      (fun p => ((log ++ [x])[p]?).any fun x => x.2.remesh && ended x.1) =
      (List.range log.length).filter (fun p => (log[p]?).any fun x => x.2.remesh && ended x.1) := by
    apply List.filter_congr
    intro p hp
    rw [List.getElem?_append_left (List.mem_range.mp hp)]
  rw [h1]
  by_cases h : (x.2.remesh && ended x.1) = true
  · rw [if_pos h]
    have : (List.filter (fun p => ((log ++ [x])[p]?).any fun x => x.2.remesh && ended x.1) [log.length]) =
        [log.length] := by
      simp [List.filter, h]
    rw [this, List.getLastD_concat]
  · rw [if_neg h]
    have : (List.filter (fun p => ((log ++ [x])[p]?).any fun x => x.2.remesh && ended x.1) [log.length]) =
        [] := by
      simp [List.filter, h]
    rw [this, List.append_nil]

theorem lastRemesh_le (log : List (Obs × LogIn R)) : lastRemesh log ≤ log.length := by
  induction log using List.reverseRecOn with
  | nil => simp [lastRemesh]
  | append_singleton log x ih =>
    rw [lastRemesh_snoc, List.length_append, List.length_singleton]
    split <;> omega

/-- Columns of the iterations log. -/
def iterCols (c : Config) (g : LogCfg) : List (String × Kind) :=
  [("TimeWindow", .int), ("TotalIterations", .int), ("Iterations", .int), ("Convergence", .int)] ++
    if c.first = false ∧ g.qn = true then
      [("QNColumns", .int), ("DeletedQNColumns", .int), ("DroppedQNColumns", .int)] else []

/-- Columns of the convergence log. -/
def convCols (g : LogCfg) : List (String × Kind) :=
  [("TimeWindow", .int), ("Iteration", .int)] ++ g.measures.map fun n => (n, .double)

theorem openFiles_iter (c : Config) (g : LogCfg) :
    (openFiles c g : Files R).iter = ⟨iterCols c g, (iterCols c g).length, []⟩ := by
  unfold openFiles iterCols
  cases h1 : c.first <;> cases h2 : g.qn <;>
    simp [addLogEntries, Writer.opened, Writer.addData, h2]

theorem foldl_addData (l : List String) (w : Writer R) (hp : w.pos = w.cols.length) :
    l.foldl (fun w n => w.addData n .double) w =
      ⟨w.cols ++ l.map (fun n => (n, .double)), w.cols.length + l.length, w.rows⟩ := by
  induction l generalizing w with
  | nil => obtain ⟨a, b, d⟩ := w; simp only at hp; simp [hp]
  | cons n l ih =>
    rw [List.foldl_cons, ih _ (by simp [Writer.addData])]
    simp [Writer.addData]; omega

theorem openFiles_conv (c : Config) (g : LogCfg) (h : c.first = false) :
    (openFiles c g : Files R).conv = ⟨convCols g, (convCols g).length, []⟩ := by
  unfold openFiles
  simp only [h, Bool.false_eq_true, if_false]
  rw [foldl_addData _ _ (by simp [Writer.addData, Writer.opened])]
  simp [convCols, Writer.addData, Writer.opened]; omega

theorem advanceWriters_ok (c : Config) (g : LogCfg) (l : LogIn R) (s : State D)
    (rows : List (List (Cell R))) :
    advanceWriters c g l s ⟨iterCols c g, (iterCols c g).length, rows⟩ =
      .ok ⟨iterCols c g, (iterCols c g).length, rows ++ [[.int (s.windows - 1), .int s.total,
        .int s.iters, .int (convFlag c s.iters)] ++
        if c.first = false ∧ g.qn = true then [.int l.qn.1, .int l.qn.2.1, .int l.qn.2.2] else []]⟩ := by
  have key : advanceWriters c g l s = Writer.writeAll ([("TimeWindow", .int (s.windows - 1)),
      ("TotalIterations", .int s.total), ("Iterations", .int s.iters),
      ("Convergence", .int (convFlag c s.iters))] ++
        if c.first then [] else qnEntries g l) := by
    funext w
    unfold advanceWriters
    rw [Writer.writeAll_append]
    congr 1
    funext w'
    cases c.first <;> rfl
  rw [key, Writer.writeAll_row (by simp)]
  · cases h1 : c.first <;> cases h2 : g.qn <;> simp [qnEntries, h2]
  · cases h1 : c.first <;> cases h2 : g.qn <;> simp [iterCols, qnEntries, sig, Cell.kind, h1, h2]
  · rfl

/-- A strict measure that has not converged stops the simulation in this iteration. -/
def StrictStop (c : Config) (iters : ℕ) (ms : List (R × Measure.Ctx)) : Prop :=
  ¬ (iters : ℤ) < Measure.rawMax c.maxIter ∧ ∃ m ∈ ms, m.2.holds = false ∧ m.2.strict = true

theorem measureLoop_ok (iters mx : ℤ) (ms : List (String × R × Measure.Ctx)) (w w' : Writer R)
    (h : measureLoop iters mx ms w = .ok w') :
    w.writeAll (ms.map fun x => (x.1, .double x.2.1)) = .ok w' := by
  induction ms generalizing w with
  | nil => exact h
  | cons x ms ih =>
    obtain ⟨n, r, m⟩ := x
    simp only [measureLoop] at h
    simp only [List.map_cons, Writer.writeAll]
    cases hw : w.writeData n (.double r) with
    | error e => rw [hw] at h; cases h
    | ok w1 =>
      rw [hw] at h
      simp only [Except.bind] at h ⊢
      split at h
      · cases h
      · exact ih _ h

theorem measureLoop_eq (iters mx : ℤ) (ms : List (String × R × Measure.Ctx)) (w : Writer R)
    (h : ∀ x ∈ ms, ¬ (x.2.2.holds = false ∧ x.2.2.strict = true ∧ ¬ iters < mx)) :
    measureLoop iters mx ms w = w.writeAll (ms.map fun x => (x.1, .double x.2.1)) := by
  induction ms generalizing w with
  | nil => rfl
  | cons x ms ih =>
    obtain ⟨n, r, m⟩ := x
    simp only [measureLoop, List.map_cons, Writer.writeAll]
    cases hw : w.writeData n (.double r) with
    | error e => rfl
    | ok w1 =>
      simp only [Except.bind]
      rw [if_neg (h (n, r, m) (by simp))]
      exact ih _ fun y hy => h y (by simp [hy])

theorem writeAll_measures (g : LogCfg) (l : LogIn R) (hl : l.meas.length = g.measures.length) (s : State D)
    (rows : List (List (Cell R))) :
    Writer.writeAll ([("TimeWindow", .int (s.windows - 1)), ("Iteration", .int s.iters)] ++
        (g.measures.zip l.meas).map fun x => (x.1, .double x.2.1))
      ⟨convCols g, (convCols g).length, rows⟩ =
      .ok ⟨convCols g, (convCols g).length, rows ++ [[.int (s.windows - 1), .int s.iters] ++
        l.meas.map fun m => .double m.1]⟩ := by
  have h1 : ∀ (a : List String) (b : List (R × Measure.Ctx)), b.length = a.length →
      (a.zip b).map (fun x => (x.1, Kind.double)) = a.map (fun n => (n, Kind.double)) := by
    intro a
    induction a with
    | nil => intro b _; simp
    | cons n a ih => intro b hb; cases b with
      | nil => simp at hb
      | cons m b => simp [ih b (by simpa using hb)]
  have h2 : ∀ (a : List String) (b : List (R × Measure.Ctx)), b.length = a.length →
      (a.zip b).map (fun x => (Cell.double x.2.1 : Cell R)) = b.map (fun m => .double m.1) := by
    intro a
    induction a with
    | nil => intro b hb; have : b = [] := by simpa using hb
             simp [this]
    | cons n a ih => intro b hb; cases b with
      | nil => simp at hb
      | cons m b => simp [ih b (by simpa using hb)]
  rw [Writer.writeAll_row (by simp)]
  · simp only [List.map_append, List.map_cons, List.map_nil, List.map_map, Function.comp_def]
    rw [h2 _ _ hl]
  · simp only [convCols, sig, List.map_append, List.map_cons, List.map_nil, List.map_map,
      Function.comp_def, Cell.kind]
    rw [h1 _ _ hl]
  · rfl

theorem measureLog_ok (c : Config) (g : LogCfg) (l : LogIn R) (hl : l.meas.length = g.measures.length)
    (s : State D) (rows : List (List (Cell R))) (w : Writer R)
    (h : measureLog c g l s ⟨convCols g, (convCols g).length, rows⟩ = .ok w) :
    w = ⟨convCols g, (convCols g).length, rows ++ [[.int (s.windows - 1), .int s.iters] ++
        l.meas.map fun m => .double m.1]⟩ := by
  have := writeAll_measures g l hl s rows
  rw [Writer.writeAll_append] at this
  unfold measureLog at h
  cases hx : Writer.writeAll [("TimeWindow", Cell.int (s.windows - 1)), ("Iteration", .int s.iters)]
      ⟨convCols g, (convCols g).length, rows⟩ with
  | error e => rw [hx] at h; cases h
  | ok w1 =>
    rw [hx] at h this
    have h' := measureLoop_ok _ _ _ _ _ h
    simp only [Except.bind] at this
    rw [this] at h'
    injection h' with h'
    exact h'.symm

theorem measureLog_succeeds (c : Config) (g : LogCfg) (l : LogIn R)
    (hl : l.meas.length = g.measures.length) (s : State D) (hst : ¬ StrictStop c s.iters l.meas)
    (rows : List (List (Cell R))) :
    ∃ w, measureLog c g l s ⟨convCols g, (convCols g).length, rows⟩ = .ok w := by
  have := writeAll_measures g l hl s rows
  rw [Writer.writeAll_append] at this
  unfold measureLog
  cases hx : Writer.writeAll [("TimeWindow", Cell.int (s.windows - 1)), ("Iteration", .int s.iters)]
      ⟨convCols g, (convCols g).length, rows⟩ with
  | error e => rw [hx] at this; cases this
  | ok w1 =>
    rw [hx] at this
    simp only [Except.bind] at this ⊢
    rw [measureLoop_eq, this]
    · exact ⟨_, rfl⟩
    · rintro ⟨n, r, m⟩ hm ⟨e1, e2, e3⟩
      exact hst ⟨e3, (r, m), (List.of_mem_zip hm).2, e1, e2⟩

theorem iterationsDone_snoc (log : List Obs) (o : Obs) :
    iterationsDone (log ++ [o]) = iterationsDone log + if ended o = true then 1 else 0 := by
  unfold iterationsDone
  rw [List.filter_append, List.length_append]
  cases h : ended o <;> simp [h]

end Verif.Log
