import Mathlib.Data.List.Basic
import Mathlib.Tactic.Common

/-!
# Validation of the configuration (C107)

Model of `ConfigParser::connectTags` (`/repo/src/xml/ConfigParser.cpp:249-304`) and of what it calls: `XMLTag::readAttributes`, `XMLTag::areAllSubtagsConfigured`,
`XMLTag::resetAttributes` (`/repo/src/xml/XMLTag.cpp:184-274`), `XMLAttribute::readValue` (`/repo/src/xml/XMLAttribute.hpp:160-192`).

The tags of the schema are mutable objects that are used again for every element of the file, so flags and values of an earlier element are still there.
The file is the tree that libxml2 has parsed; attribute names of an element are distinct, libxml2 rejects the others. The type of values is a parameter.
Messages are left out. A tag and its copy share their subtags (`std::shared_ptr`); the model has no sharing, which makes no difference as long as
no tag is added to two parents.
-/

set_option autoImplicit false

namespace Verif.Config

/-! ## The schema and its state -/

/-- How reading can fail. -/
inductive Err where
  /-- `PRECICE_CHECK`, `PRECICE_ERROR`: a message for the user -/
  | check
  /-- `PRECICE_ASSERT` -/
  | assert
deriving DecidableEq

/-- `XMLTag::Occurrence`, XMLTag.hpp:43-49; `OCCUR_ARBITRARY_NESTED` is not used by the schema and left out. -/
inductive Occurrence where
  | notOrOnce
  | once
  | onceOrMore
  | arbitrary
deriving DecidableEq

/-- The constant part of `XMLAttribute<T>`, XMLAttribute.hpp: `read raw old` is `readValueSpecific` with a variable that holds `old`; `none` is the exception. -/
structure Attr (V : Type) where
  name : String
  read : String → V → Option V
  default : Option V
  options : Option (List V)

/-- The constant part of `XMLTag`. -/
structure Info (V : Type) where
  /-- `_fullName` -/
  name : String
  /-- `_namespace`, empty if there is none -/
  ns : String
  occurrence : Occurrence
  attrs : List (Attr V)

/-- An `XMLTag` during the parsing. -/
inductive Tag (V : Type) where
  /-- `configured` is `_configured`; `spaces` is `_configuredNamespaces`, which has an entry for the namespace of each subtag since `addSubtag` sets it; here it has an
  entry for all strings; `values` are the `_value`s of the attributes. The flags `_read` of attributes are never set and left out. -/
  | mk (info : Info V) (configured : Bool) (spaces : String → Bool) (values : List V) (subs : List (Tag V))

/-- An element of the file (`ConfigParser::CTag`); the name contains the prefix. -/
inductive Node where
  | mk (name : String) (attrs : List (String × String)) (subs : List Node)

/-- The calls of the listeners. -/
inductive Event (V : Type) where
  /-- `xmlTagCallback`, in which the listener gets the values of the attributes -/
  | start (name : String) (values : List V)
  /-- `xmlEndTagCallback` -/
  | stop (name : String)
deriving DecidableEq

namespace Tag

variable {V : Type}

def info : Tag V → Info V
  | .mk i _ _ _ _ => i

def configured : Tag V → Bool
  | .mk _ c _ _ _ => c

def spaces : Tag V → String → Bool
  | .mk _ _ s _ _ => s

def values : Tag V → List V
  | .mk _ _ _ v _ => v

def subs : Tag V → List (Tag V)
  | .mk _ _ _ _ l => l

mutual

/-- `XMLTag::resetAttributes`, XMLTag.cpp:256-274. The values stay. -/
def reset : Tag V → Tag V
  | .mk i _ _ v l => .mk i false (fun _ => false) v (resetAll l)

def resetAll : List (Tag V) → List (Tag V)
  | [] => []
  | t :: l => t.reset :: resetAll l

end

end Tag

/-! ## Attributes -/

section

variable {V : Type} [DecidableEq V]

/-- `XMLAttribute::readValue`, XMLAttribute.hpp:160-192. -/
def readAttr (given : List (String × String)) (a : Attr V) (old : V) : Except Err V :=
  match given.lookup a.name with
  | none =>
    match a.default with
    | none => .error .check
    | some v => .ok v
  | some raw =>
    match a.read raw old with
    | none => .error .check
    | some v =>
      match a.options with
      | none => .ok v
      | some o => if v ∈ o then .ok v else .error .check

/-- The loop over the attributes, XMLTag.cpp:214-218. There are as many values as attributes. -/
def readAll (given : List (String × String)) : List (Attr V) → List V → Except Err (List V)
  | a :: as, old :: olds =>
    match readAttr given a old with
    | .error e => .error e
    | .ok v =>
      match readAll given as olds with
      | .error e => .error e
      | .ok vs => .ok (v :: vs)
  | [], _ => .ok []
  | _ :: _, [] => .error .assert

/-- `XMLTag::readAttributes`, XMLTag.cpp:184-219. -/
def readAttributes (given : List (String × String)) (attrs : List (Attr V)) (old : List V) : Except Err (List V) :=
  if ∀ g ∈ given, g.1 ∈ attrs.map Attr.name then readAll given attrs old else .error .check

/-! ## Tags -/

/-- `XMLTag::areAllSubtagsConfigured`, XMLTag.cpp:230-254, for one subtag of a tag with the given namespaces. -/
def subtagConfigured (spaces : String → Bool) (t : Tag V) : Bool :=
  let configured := if t.info.ns ≠ "" then t.configured || spaces t.info.ns else t.configured
  configured || !(t.info.occurrence = .once || t.info.occurrence = .onceOrMore)

/-- `std::find_if` over the tags of the schema, ConfigParser.cpp:258-263. -/
def findTag (name : String) (tags : List (Tag V)) : Option (Tag V) := tags.find? fun t => t.info.name = name

/-- The tag that was found is an object in the vector, which is changed in place. -/
def storeTag (t : Tag V) : List (Tag V) → List (Tag V)
  | [] => []
  | u :: l => if u.info.name = t.info.name then t :: l else u :: storeTag t l

/-- The check with `usedTags`, ConfigParser.cpp:284-288: the names used, with the new one. -/
def useTag (i : Info V) (used : List String) : Except Err (List String) :=
  if i.occurrence = .once ∨ i.occurrence = .notOrOnce then
    if i.name ∈ used then .error .check else .ok (i.name :: used)
  else .ok used

mutual

/-- `ConfigParser::connectTags`, ConfigParser.cpp:249-304, the body of the loop. -/
def connectNode (tags : List (Tag V)) (used : List String) : Node → Except Err (List (Tag V) × List String × List (Event V))
  | .mk name given kids =>
    if name = "solver-interface" then .error .check
    else
      match findTag name tags with
      | none => .error .check
      | some t =>
        let t := t.reset
        match useTag t.info used with
        | .error e => .error e
        | .ok used =>
          let spaces := fun s => if s = t.info.ns then true else t.spaces s
          match readAttributes given t.info.attrs t.values with
          | .error e => .error e
          | .ok values =>
            match connectNodes t.subs [] kids with
            | .error e => .error e
            | .ok (subs, events) =>
              if subs.all (subtagConfigured spaces) then
                .ok (storeTag (.mk t.info true spaces values subs) tags, used, .start name values :: (events ++ [.stop name]))
              else .error .check

/-- `ConfigParser::connectTags`, ConfigParser.cpp:249-304, the loop. -/
def connectNodes (tags : List (Tag V)) (used : List String) : List Node → Except Err (List (Tag V) × List (Event V))
  | [] => .ok (tags, [])
  | n :: l =>
    match connectNode tags used n with
    | .error e => .error e
    | .ok (tags, used, events) =>
      match connectNodes tags used l with
      | .error e => .error e
      | .ok (tags, events') => .ok (tags, events ++ events')

end

/-- The constructor of `ConfigParser`, ConfigParser.cpp:126-146: the tag of the whole configuration and the root of the file. The result are the calls of the
listeners. -/
def configure (t : Tag V) (n : Node) : Except Err (List (Event V)) :=
  match connectNodes [t] [] [n] with
  | .error e => .error e
  | .ok (_, events) => .ok events

end

end Verif.Config
