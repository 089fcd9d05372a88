import Verif.Config.Participant

/-!
# What a configuration of a participant means (C119)

Stated from the tags only.
-/

set_option autoImplicit false

namespace Verif.Config.Part

variable {ν : Type} [DecidableEq ν]

def provides (ts : List (Tag ν)) : List ν := ts.filterMap fun | .provide m => some m | _ => none
def receives (ts : List (Tag ν)) : List (ν × Bool) :=
  ts.filterMap fun | .receive m _ _ a => some (m, a) | _ => none
def writes (ts : List (Tag ν)) : List (ν × ν) := ts.filterMap fun | .write d m => some (m, d) | _ => none
def reads (ts : List (Tag ν)) : List (ν × ν) := ts.filterMap fun | .read d m => some (m, d) | _ => none
def mappings (ts : List (Tag ν)) : List (Conf ν) := ts.filterMap fun | .mapping c => some c | _ => none

/-- The mesh `m` has the data `d`. -/
def HasData (k : Setup ν) (m d : ν) : Prop := ∃ x, k.mesh m = some x ∧ d ∈ x.data

/-- A mapping that is possible on its own: between known meshes of the same dimension, or just in time
for reading consistently or writing conservatively with the methods that support it; the gradient and
multiscale methods are not conservative. -/
structure Possible (k : Setup ν) (c : Conf ν) : Prop where
  known : (∀ m, c.src = some m → k.mesh m ≠ none) ∧ ∀ m, c.dst = some m → k.mesh m ≠ none
  dims : ∀ a b x y, c.src = some a → c.dst = some b → k.mesh a = some x → k.mesh b = some y → x.dim = y.dim
  readsJit : c.dst = none → c.src ≠ none ∧ c.write = false ∧ c.constraint = .consistent
  writesJit : c.src = none → c.dst ≠ none ∧ c.write = true ∧ c.constraint = .conservative
  jit : c.src = none ∨ c.dst = none → c.kind ∈ [.nearestNeighbor, .rbfPum, .rbfAlias, .coarseGraining]
  method : c.constraint = .conservative → c.kind ∉ [.gradient, .axial, .radial]
  experimental : c.kind ∈ [.axial, .radial, .coarseGraining] → k.experimental = true
  serial : c.kind ∈ [.axial, .radial] → k.size ≤ 1

/-- What can be said of the tags one after the other. -/
structure TagsOk (k : Setup ν) (ts : List (Tag ν)) : Prop where
  known : ∀ m, m ∈ provides ts ∨ m ∈ (receives ts).map (·.1) → k.mesh m ≠ none
  once : (provides ts).Nodup ∧ ((receives ts).map (·.1)).Nodup ∧
    ∀ m ∈ provides ts, m ∉ (receives ts).map (·.1)
  source : ∀ m src safety a, Tag.receive m src safety a ∈ ts →
    src ≠ none ∧ src ≠ some k.name ∧ 0 ≤ safety
  data : ∀ d, d ∈ writes ts ∨ d ∈ reads ts → HasData k d.1 d.2
  dataOnce : (writes ts).Nodup ∧ (reads ts).Nodup ∧ ∀ d ∈ writes ts, d ∉ reads ts
  possible : ∀ c ∈ mappings ts, Possible k c
  /-- no two mappings between the same meshes -/
  distinct : (mappings ts).Pairwise fun a b => ¬ (a.src = b.src ∧ a.dst = b.dst)
  /-- where data is written just in time, nothing else is mapped to -/
  jitAlone : (mappings ts).Pairwise fun a b =>
    ¬ (a.write = true ∧ b.write = true ∧ a.dst = b.dst ∧ (a.src = none ∨ b.src = none))

/-- The direction of a mapping fits to its meshes: reading maps from received to provided meshes,
writing from provided to received ones. -/
def Directed (ts : List (Tag ν)) (c : Conf ν) : Prop :=
  if c.write then (∀ m, c.src = some m → m ∈ provides ts) ∧ ∃ m a, c.dst = some m ∧ (m, a) ∈ receives ts
  else (∃ m a, c.src = some m ∧ (m, a) ∈ receives ts) ∧ ∀ m, c.dst = some m → m ∈ provides ts

/-- A data of which it is not clear from which of two meshes it is mapped: both have it, and the
participant writes (reads) data of that name. -/
def Unclear (k : Setup ν) (ts : List (Tag ν)) (a b : Conf ν) : Prop :=
  ∃ m s s' d, a.dst = some m ∧ b.dst = some m ∧ a.src = some s ∧ b.src = some s' ∧ HasData k s d ∧
    HasData k s' d ∧ ∃ x, (x, d) ∈ if b.write then writes ts else reads ts

/-- There is a data for the mapping. For mappings just in time any data will do. -/
def Useful (k : Setup ν) (ts : List (Tag ν)) (c : Conf ν) : Prop :=
  if c.write then
    ∃ x ∈ writes ts, c.src = none ∨ (c.src = some x.1 ∧ ∃ m, c.dst = some m ∧ HasData k m x.2)
  else
    ∃ x ∈ reads ts, c.dst = none ∨ (c.dst = some x.1 ∧ ∃ m, c.src = some m ∧ HasData k m x.2)

/-- Well-formed participants. -/
structure WellFormed (k : Setup ν) (ts : List (Tag ν)) : Prop extends TagsOk k ts where
  directed : ∀ c ∈ mappings ts, Directed ts c
  /-- in parallel only reading consistently and writing conservatively -/
  parallel : 1 < k.size → k.running = true → ∀ c ∈ mappings ts,
    c.constraint = if c.write then .conservative else .consistent
  clear : (mappings ts).Pairwise fun a b => ¬ Unclear k ts a b
  useful : ∀ c ∈ mappings ts, Useful k ts c
  remeshing : k.remeshing = true → ∀ d ∈ writes ts, (d.1, true) ∉ receives ts

/-- The mappings a write data is meant to take part in. -/
def expectedWrite (k : Setup ν) (ts : List (Tag ν)) (d : ν × ν) : Ctx ν where
  mesh := d.1
  data := d.2
  maps := (mappings ts).filterMap fun c =>
    match c.dst with
    | none => none
    | some m => if c.write = true ∧ c.src = some d.1 ∧ d.2 ∈ k.dataOf (some m) then
        some ⟨c, d, (m, d.2)⟩ else none
  jit := (mappings ts).find? fun c => c.write = true ∧ c.src = none ∧ c.dst = some d.1

/-- The mappings a read data is meant to take part in. -/
def expectedRead (k : Setup ν) (ts : List (Tag ν)) (d : ν × ν) : Ctx ν where
  mesh := d.1
  data := d.2
  maps := (mappings ts).filterMap fun c =>
    match c.src with
    | none => none
    | some m => if c.write = false ∧ c.dst = some d.1 ∧ d.2 ∈ k.dataOf (some m) then
        some ⟨c, (m, d.2), d⟩ else none
  jit := (mappings ts).find? fun c => c.write = false ∧ c.dst = none ∧ c.src = some d.1

def expected (k : Setup ν) (ts : List (Tag ν)) : Result ν where
  provided := provides ts
  received := receives ts
  writes := (writes ts).map (expectedWrite k ts)
  reads := (reads ts).map (expectedRead k ts)

end Verif.Config.Part
