import Verif.Doc.Model

/-!
# The reference of the configuration: specification (C136)

The rules of XML 1.0 for documents with a DTD, and how GitHub and Jekyll name headings.
-/

set_option autoImplicit false

namespace Verif.Doc

open Verif.Config

variable {V : Type}

/-- The names of the elements that are declared. -/
def declared : List Decl → List String
  | [] => []
  | .element n _ :: d => n :: declared d
  | .attlist .. :: d => declared d

/-- XML 1.0, 3.2: an element type must not be declared more than once. -/
def ValidDTD (d : List Decl) : Prop := (declared d).Nodup

/-- XML 1.0, 3.2.1: a sequence `(a*, b?, c+, d)`. -/
inductive Matches : List (String × Occurrence) → List String → Prop
  | nil : Matches [] []
  | cons {n : String} {o : Occurrence} {c : List (String × Occurrence)} {l : List String} (k : ℕ) (h : Occurs o k)
      (t : Matches c l) : Matches ((n, o) :: c) (List.replicate k n ++ l)

/-- XML 1.0, 3 and 3.3: an element is valid. -/
inductive Valid (d : List Decl) : Node → Prop
  | mk {name : String} {given : List (String × String)} {kids : List Node} {content : List (String × Occurrence)}
      (element : Decl.element name content ∈ d) (matched : Matches content (kids.map Node.name))
      (known : ∀ g ∈ given, ∃ b, Decl.attlist name g.1 b ∈ d)
      (required : ∀ a, Decl.attlist name a true ∈ d → a ∈ given.map Prod.fst)
      (inner : ∀ k ∈ kids, Valid d k) : Valid d (.mk name given kids)

/-- The values of attributes, about which the DTD says nothing, are readable and among the options. -/
inductive ValuesOk : Schema V → Node → Prop
  | mk {info : Info V} {subs : List (Schema V)} {name : String} {given : List (String × String)} {kids : List Node}
      (values : ∀ a ∈ info.attrs, ∀ raw, given.lookup a.name = some raw →
        ∃ v, (∀ old, a.read raw old = some v) ∧ ∀ o, a.options = some o → v ∈ o)
      (inner : ∀ t ∈ subs, ∀ k ∈ kids, t.info.name = k.name → ValuesOk t k) :
      ValuesOk (.mk info subs) (.mk name given kids)

/-- The elements are in the order of the schema. -/
inductive InOrder : Schema V → Node → Prop
  | mk {info : Info V} {subs : List (Schema V)} {name : String} {given : List (String × String)} {kids : List Node}
      (order : kids.map Node.name = subs.flatMap fun t => List.replicate (count t.info.name kids) t.info.name)
      (inner : ∀ t ∈ subs, ∀ k ∈ kids, t.info.name = k.name → InOrder t k) :
      InOrder (.mk info subs) (.mk name given kids)

/-- The anchors of headings: the first heading of a name has the name, the following ones have their number appended. -/
def anchors : List String → List String → List (String × Option ℕ)
  | _, [] => []
  | before, n :: l =>
    (n, if before.count n = 0 then none else some (before.count n)) :: anchors (before ++ [n]) l

end Verif.Doc
