import Verif.Config.Acceleration

/-!
# What a user expects from the configuration of an acceleration (C123)

Stated on the tags with the defaults of the documentation.
-/

set_option autoImplicit false

namespace Verif.Config.Accel

/-! ## Reading the tags -/

/-- The data in the order of the tags, with their scaling. -/
def dataOf (l : List Sub) : List ((String × String) × Option ℚ) := l.filterMap fun | .data n m s => some ((n, m), s) | _ => none

def relaxation? (l : List Sub) : Option ℚ := l.findSome? fun | .relaxation v => some v | _ => none
def initialRelaxation? (l : List Sub) : Option (ℚ × Option Bool) := l.findSome? fun | .initialRelaxation v e => some (v, e) | _ => none
def maxUsedIterations? (l : List Sub) : Option ℤ := l.findSome? fun | .maxUsedIterations v => some v | _ => none
def timeWindowsReused? (l : List Sub) : Option ℤ := l.findSome? fun | .timeWindowsReused v => some v | _ => none
def filter? (l : List Sub) : Option (Option Filter × Option ℚ) := l.findSome? fun | .filter t v => some (t, v) | _ => none
def preconditioner? (l : List Sub) : Option (PrecondType × Option Bool × Option ℤ) := l.findSome? fun | .preconditioner t u f => some (t, u, f) | _ => none
def restartMode? (l : List Sub) : Option (Option RestartType × Option ℤ × Option ℤ × Option ℚ) :=
  l.findSome? fun | .restartMode t c r e => some (t, c, r, e) | _ => none

/-! ## Conforming to the schema -/

/-- Subtags other than data occur at most once, and only those of the kind occur. -/
def SubsValid (k : Kind) (l : List Sub) : Prop :=
  l.Pairwise (fun a b => a.name = b.name → a.name = .data) ∧ ∀ s ∈ l, k.has s.name = true

/-- The tag conforms to the schema: what is required occurs, and attributes that the kind does not have are not given. -/
structure Tag.Valid (t : Tag) : Prop where
  subs : SubsValid t.kind t.subs
  relaxation : t.kind = .constant → (relaxation? t.subs).isSome = true
  data : t.kind ≠ .constant → dataOf t.subs ≠ []
  enforce : t.kind = .aitken → ∀ v e, .initialRelaxation v e ∈ t.subs → e = none
  update : t.kind = .aitken → ∀ p u f, .preconditioner p u f ∈ t.subs → u = none
  build : t.kind ≠ .imvj → t.alwaysBuildJacobian = none
  reduced : t.kind.isQN = false → t.reducedTimeGrid = none ∧ t.onBoundViolation = none

/-! ## The expected acceleration -/

/-- IMVJ builds the Jacobian in every iteration. -/
def Tag.builds (t : Tag) : Bool := t.alwaysBuildJacobian.getD false

/-- "If this tag is not provided, IMVJ runs in restart mode with SVD-method", with chunk size 8 and truncation threshold 1e-4 by default; there is no restart if the
Jacobian is always built. -/
def Tag.restart (t : Tag) : Restart :=
  match restartMode? t.subs with
  | none => if t.builds then .no else .svd 8 (1 / 10 ^ 4)
  | some (type, chunk, reused, truncation) =>
    match type.getD .svd with
    | .no => .no
    | .zero => .zero (chunk.getD 8)
    | .ls => .ls (chunk.getD 8) (reused.getD 8)
    | .svd => .svd (chunk.getD 8) (truncation.getD (1 / 10 ^ 4))
    | .slide => .slide (chunk.getD 8)

/-- What happens instead: without the tag, the truncation threshold of the restart is 0. -/
def Tag.actualRestart (t : Tag) : Restart := if restartMode? t.subs = none ∧ t.builds = false then .svd 8 0 else t.restart

/-- The number of windows after which the preconditioner is frozen, at most the chunk size with SVD restart; negative for never. -/
def Tag.freeze (t : Tag) (given : Option ℤ) : ℤ :=
  match t.kind, t.restart with
  | .imvj, .svd chunk _ => min (given.getD (-1)) chunk
  | _, _ => given.getD (-1)

def Tag.precond (t : Tag) : Precond :=
  match preconditioner? t.subs with
  | none => .residualSum (-1) true
  | some (.constant, _, _) => .constant ((dataOf t.subs).map fun e => e.2.getD 1)
  | some (.value, _, f) => .value (t.freeze f)
  | some (.residual, _, f) => .residual (t.freeze f)
  | some (.residualSum, u, f) => .residualSum (t.freeze f) (u.getD true)

/-- The relaxation that is used in the first iteration, or always. -/
def Tag.relax (t : Tag) : ℚ :=
  match t.kind with
  | .constant => (relaxation? t.subs).getD 0
  | .aitken => ((initialRelaxation? t.subs).map (·.1)).getD (1 / 2)
  | _ => ((initialRelaxation? t.subs).map (·.1)).getD (1 / 10)

def Tag.qn (t : Tag) : QN where
  relaxation := t.relax
  force := ((initialRelaxation? t.subs).bind (·.2)).getD false
  maxIterationsUsed := (maxUsedIterations? t.subs).getD (if t.kind = .ils then 100 else 20)
  timeWindowsReused := (timeWindowsReused? t.subs).getD (if t.kind = .ils then 10 else 0)
  filter := ((filter? t.subs).bind (·.1)).getD .qr3
  limit := match filter? t.subs with
    | none => 1 / 100
    | some f => f.2.getD (1 / 10 ^ 16)
  data := (dataOf t.subs).map (·.1)
  onBound := t.onBoundViolation.getD .ignore
  precond := t.precond
  reducedTimeGrid := t.reducedTimeGrid.getD true

def Tag.expected (t : Tag) : Acceleration :=
  match t.kind with
  | .constant => .constant t.relax
  | .aitken => .aitken t.relax ((dataOf t.subs).map (·.1)) t.precond
  | .ils => .ils t.qn
  | .imvj => .imvj t.qn t.builds t.restart

/-- The expected acceleration, but with the restart that happens instead. -/
def Tag.actual (t : Tag) : Acceleration :=
  match t.kind with
  | .imvj => .imvj t.qn t.builds t.actualRestart
  | _ => t.expected

/-! ## When it is accepted -/

/-- The data exist and are given once. -/
def DataFits (known : String → String → Bool) (seen : List (String × String)) (l : List Sub) : Prop :=
  ((dataOf l).map (·.1)).Nodup ∧ ∀ e ∈ dataOf l, e.1 ∉ seen ∧ known e.1.2 e.1.1 = true

/-- A restart is only possible if the Jacobian is not always built. -/
def RestartFits (build : Bool) (l : List Sub) : Prop := ∀ r, restartMode? l = some r → r.1.getD .svd = .no ∨ build = false

structure Tag.WellFormed (known : String → String → Bool) (t : Tag) : Prop where
  data : DataFits known [] t.subs
  restart : RestartFits t.builds t.subs
  relax : 0 < t.relax ∧ t.relax ≤ 1
  maxUsed : t.kind.isQN = true → 0 < t.qn.maxIterationsUsed
  reused : t.kind.isQN = true → 0 ≤ t.qn.timeWindowsReused

end Verif.Config.Accel
