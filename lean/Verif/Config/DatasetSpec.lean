import Verif.Config.Dataset

/-!
What a configuration of data and meshes should mean, stated on its tags.
-/

set_option autoImplicit false

namespace Verif.Config.Dataset

open Verif.Config.MapMethod (Dbl)

/-- The data tags of a document -/
def tags (doc : List Item) : List DataTag :=
  doc.filterMap fun
    | .data t => some t
    | .mesh .. => none

/-- A mesh tag: name, dimensions and names of the used data -/
structure MeshTag where
  name : String
  dims : ℕ
  uses : List String

/-- The mesh tags of a document -/
def meshTags (doc : List Item) : List MeshTag :=
  doc.filterMap fun
    | .data _ => none
    | .mesh n d us => some ⟨n, d, us⟩

/-- `l` is not above `u`; NaN cannot be compared. -/
def NotAbove (l u : Dbl) : Prop := l ≠ .nan ∧ u ≠ .nan ∧ (l = .ninf ∨ u = .pinf ∨ ∃ a b, l = .fin a ∧ u = .fin b ∧ a ≤ b)

/-- The documents which are accepted. Bounds of vectors are only compared if both are finite. -/
structure Valid (debug : Bool) (doc : List Item) : Prop where
  names : ((tags doc).map DataTag.name).Nodup
  degree : ∀ t ∈ tags doc, 0 ≤ t.degree
  scalar : ∀ t ∈ tags doc, t.kind = .scalar → NotAbove (t.lower 0) (t.upper 0)
  vector : ∀ t ∈ tags doc, t.kind = .vector → ∀ c a b, t.lower c = .fin a → t.upper c = .fin b → a ≤ b
  uses : ∀ pre n d us post, doc = pre ++ .mesh n d us :: post → us.Nodup ∧ ∀ u ∈ us, ∃ t ∈ tags pre, t.name = u
  meshes : debug = true → ((meshTags doc).map MeshTag.name).Nodup ∧ "" ∉ (meshTags doc).map MeshTag.name

/-- The number of components of a data on a mesh -/
def components (k : Kind) (dims : ℕ) : ℕ :=
  match k with
  | .scalar => 1
  | .vector => dims

/-- Data on a mesh with the given dimensions is what a data tag describes. `comp` are the dimensions which give the number of
components of vectors. -/
structure Matches (t : DataTag) (dims comp : ℕ) (d : Data) : Prop where
  name : d.name = t.name
  degree : d.degree = t.degree
  spatial : d.spatial = dims
  dim : d.dim = components t.kind comp
  lowers : d.lower.length = d.dim
  uppers : d.upper.length = d.dim
  lower : ∀ c : Fin 3, (c : ℕ) < d.dim → d.lower[(c : ℕ)]? = some (bound (t.lower c))
  upper : ∀ c : Fin 3, (c : ℕ) < d.dim → d.upper[(c : ℕ)]? = some (bound (t.upper c))

/-- A mesh is what a mesh tag describes. -/
structure MeshMatches (ts : List DataTag) (comp : ℕ) (i : MeshTag) (m : Mesh) : Prop where
  name : m.name = i.name
  dims : m.dims = i.dims
  data : List.Forall₂ (fun u d => ∃ t ∈ ts, t.name = u ∧ Matches t i.dims comp d) i.uses m.data

end Verif.Config.Dataset
