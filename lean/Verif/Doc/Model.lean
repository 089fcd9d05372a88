import Verif.Config.TagLemmas

/-!
# The reference of the configuration (C136)

What `precice-tools dtd` and `precice-tools md` print for a schema, `/repo/src/xml/Printer.cpp`.

Simplifications: declarations instead of characters; of the Markdown reference only headings and links to them; a link is
the name of the heading and the number appended to it, the way GitHub transforms names to anchors is taken to be injective
(`toGHLink`, lines 24-42, drops colons).
-/

set_option autoImplicit false

namespace Verif.Doc

open Verif.Config

variable {V : Type}

/-- A declaration of a DTD: the element with its content, a sequence of elements with how often they occur (nothing:
`EMPTY`), or an attribute of an element, required or not (the default is left out). -/
inductive Decl
  | element (name : String) (content : List (String × Occurrence))
  | attlist (element attr : String) (required : Bool)
  deriving DecidableEq

/-- `printDTD` of an attribute, `/repo/src/xml/Printer.cpp:46-60`: the type is always `CDATA`. -/
def attrDecl (element : String) (a : Attr V) : Decl :=
  .attlist element a.name a.default.isNone

mutual

/-- `printDTD` of a tag, `/repo/src/xml/Printer.cpp:130-179`. -/
def decls : Schema V → List Decl
  | .mk info subs =>
    .element info.name (subs.map fun t => (t.info.name, t.info.occurrence)) ::
      (info.attrs.map (attrDecl info.name) ++ declsAll subs)

/-- The loop over the subtags, lines 168-172. -/
def declsAll : List (Schema V) → List Decl
  | [] => []
  | t :: l => decls t ++ declsAll l

end

mutual

/-- The headings that `printMD` prints, `/repo/src/xml/Printer.cpp:227-293`, line 229 and the loop in lines 286-288. -/
def headings : Schema V → List String
  | .mk info subs => info.name :: headingsAll subs

/-- The headings in the loop over the subtags, lines 286-288. -/
def headingsAll : List (Schema V) → List String
  | [] => []
  | t :: l => headings t ++ headingsAll l

end

/-- The map `occurrences`. -/
abbrev Seen := List (String × ℕ)

/-- The link to a subtag, `/repo/src/xml/Printer.cpp:253-261`. The number is `none` if nothing is appended. An entry of the map is
multiplied by one. -/
def link (seen : Seen) (name : String) : Option ℕ × Seen :=
  match seen.lookup name with
  | some k => (some k, seen.map fun x => if x.1 = name then (x.1, x.2 * 1) else x)
  | none => (none, (name, 1) :: seen)

/-- The list of subtags, `/repo/src/xml/Printer.cpp:252-282`. Links to tags with a namespace are grouped and printed after the
others; the model has them in the order in which they are computed. -/
def linkAll : Seen → List String → List (String × Option ℕ) × Seen
  | seen, [] => ([], seen)
  | seen, n :: l =>
    let (k, seen) := link seen n
    let (r, seen) := linkAll seen l
    ((n, k) :: r, seen)

mutual

/-- All links that `printMD` prints, in order: those of a tag to its subtags, then those in the subtags. -/
def links : Seen → Schema V → List (String × Option ℕ) × Seen
  | seen, .mk _ subs =>
    let (own, seen) := linkAll seen (subs.map fun t => t.info.name)
    let (rest, seen) := linksAll seen subs
    (own ++ rest, seen)

/-- The links in the loop over the subtags, lines 286-288. -/
def linksAll : Seen → List (Schema V) → List (String × Option ℕ) × Seen
  | seen, [] => ([], seen)
  | seen, t :: l =>
    let (a, seen) := links seen t
    let (b, seen) := linksAll seen l
    (a ++ b, seen)

end

/-- The links of the reference, `printMD`, `/repo/src/xml/Printer.cpp:298-303`. -/
def reference (s : Schema V) : List (String × Option ℕ) := (links [] s).1

end Verif.Doc
