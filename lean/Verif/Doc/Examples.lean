import Verif.Doc.Props
import Verif.Config.TagExamples

/-!
# The reference of the configuration: examples (C136)
-/

set_option autoImplicit false

namespace Verif.Doc

open Verif.Config

/-- A configuration with steps and at most one scheme, see `Config/TagExamples.lean`. -/
def schema : Schema ℤ := (small (cleanAttr "size" none)).schema

theorem schema_valid : ValidDTD (decls schema) := by
  show (declared (decls schema)).Nodup
  decide

/-- What is printed for it. -/
example : decls schema =
    [.element "configuration" [("step", .onceOrMore), ("scheme:serial", .notOrOnce)],
      .element "step" [], .attlist "step" "size" true, .element "scheme:serial" []] := rfl

/-- An attribute with a default is not required. -/
example : decls (small (cleanAttr "size" (some 1))).schema =
    [.element "configuration" [("step", .onceOrMore), ("scheme:serial", .notOrOnce)],
      .element "step" [], .attlist "step" "size" false, .element "scheme:serial" []] := rfl

/-- Two steps and a scheme, in the order of the schema. -/
def ordered : Node := .mk "configuration" [] [.mk "step" [("size", "2")] [], .mk "step" [("size", "1")] [], .mk "scheme:serial" [] []]

/-- The same, the scheme first. -/
def swapped : Node := .mk "configuration" [] [.mk "scheme:serial" [] [], .mk "step" [("size", "2")] [], .mk "step" [("size", "1")] []]

theorem ordered_valid : Valid (decls schema) ordered := by
  refine .mk (content := [("step", .onceOrMore), ("scheme:serial", .notOrOnce)]) (by decide) ?_ (by simp) ?_ ?_
  · exact .cons 2 (by simp [Occurs]) (.cons 1 (by simp [Occurs]) .nil)
  · intro a h
    simp [schema, small, leaf, Tag.schema, Tag.schemas, decls, declsAll, attrDecl] at h
  · intro k hk
    simp only [List.mem_cons, List.not_mem_nil, or_false] at hk
    rcases hk with rfl | rfl | rfl
    · refine .mk (content := []) (by decide) .nil ?_ ?_ (by simp)
      · intro g hg
        exact ⟨true, by simp at hg; subst hg; decide⟩
      · intro a h
        simpa [schema, small, leaf, Tag.schema, Tag.schemas, decls, declsAll, attrDecl, cleanAttr] using h
    · refine .mk (content := []) (by decide) .nil ?_ ?_ (by simp)
      · intro g hg
        exact ⟨true, by simp at hg; subst hg; decide⟩
      · intro a h
        simpa [schema, small, leaf, Tag.schema, Tag.schemas, decls, declsAll, attrDecl, cleanAttr] using h
    · refine .mk (content := []) (by decide) .nil (by simp) ?_ (by simp)
      intro a h
      simp [schema, small, leaf, Tag.schema, Tag.schemas, decls, declsAll, attrDecl, cleanAttr] at h

theorem ordered_values : ValuesOk schema ordered := by
  have hs : ∀ raw : String, ∀ v : ℤ, readInt false raw.toList 0 = some v → v ∈ [0, 1, 2, (3 : ℤ)] →
      ValuesOk (.mk ⟨"step", "", .onceOrMore, [cleanAttr "size" none]⟩ []) (.mk "step" [("size", raw)] []) := by
    intro raw v hv hm
    refine .mk ?_ (by simp)
    intro a ha r hr
    simp only [List.mem_singleton] at ha
    subst ha
    have : raw = r := by simpa [cleanAttr] using hr
    subst this
    exact ⟨v, fun _ => hv, fun o ho => by simp only [cleanAttr, Option.some.injEq] at ho; exact ho ▸ hm⟩
  refine .mk (by simp) ?_
  intro t ht k hk hn
  simp only [Tag.schemas, List.mem_cons, List.not_mem_nil, or_false] at ht hk
  rcases ht with rfl | rfl
  · rcases hk with rfl | rfl | rfl
    · exact hs "2" 2 rfl (by simp)
    · exact hs "1" 1 rfl (by simp)
    · exact absurd hn (by decide)
  · rcases hk with rfl | rfl | rfl
    · exact absurd hn (by decide)
    · exact absurd hn (by decide)
    · exact .mk (by simp) (by simp [Tag.schemas])

/-- The hypotheses of `C136_dtd_sound_partial` are met. -/
example : ∃ events, Accepted schema ordered events :=
  C136_dtd_sound_partial schema_valid (by decide) rfl ordered_valid ordered_values

theorem wellFormed : (small (cleanAttr "size" none)).schema.WellFormed := by
  refine .mk (by decide) ?_ (by simp) ?_
  · simp [Required, Schema.info, Tag.schemas, Tag.schema, leaf]
  · intro s hs
    simp only [Tag.schemas, List.mem_cons, List.not_mem_nil, or_false] at hs
    rcases hs with rfl | rfl
    · exact .mk (by simp [Tag.schemas]) (by simp [Tag.schemas]) (by simp [cleanAttr]) (by simp [Tag.schemas])
    · exact .mk (by simp [Tag.schemas]) (by simp [Tag.schemas]) (by simp) (by simp [Tag.schemas])

def orderedEvents : List (Event ℤ) :=
  [.start "configuration" [], .start "step" [2], .stop "step", .start "step" [1], .stop "step", .start "scheme:serial" [], .stop "scheme:serial", .stop "configuration"]

/-- The hypotheses of `C136_dtd_complete_partial` are met. -/
example : Valid (decls schema) ordered := by
  refine C136_dtd_complete_partial schema_valid (events := orderedEvents) ((C107_accepts (small_sized _) wellFormed _ _).1 rfl) ?_
  refine .mk (by decide) ?_
  intro t ht k hk _
  simp only [Tag.schemas, List.mem_cons, List.not_mem_nil, or_false] at ht hk
  rcases ht with rfl | rfl <;> rcases hk with rfl | rfl | rfl <;>
    exact .mk (by simp [Tag.schemas]) (by simp [Tag.schemas])

/-- **C136, order.** preCICE accepts the file with the scheme first, which is not valid according to the printed DTD. -/
theorem C136_dtd_rejects_accepted : (∃ events, configure (small (cleanAttr "size" none)) swapped = .ok events) ∧ ¬ Valid (decls schema) swapped := by
  refine ⟨⟨_, rfl⟩, ?_⟩
  intro h
  have := C136_dtd_order schema_valid (self_tags schema) h
  revert this
  decide

/-! ## Tags with the same name -/

/-- A tag without attributes. -/
def tag (name : String) (subs : List (Schema ℤ)) : Schema ℤ := .mk ⟨name, "", .arbitrary, []⟩ subs

/-- `participant` is a tag of the configuration (`/repo/src/precice/config/ParticipantConfiguration.hpp:80`) and of multi coupling
schemes (`/repo/src/cplscheme/config/CouplingSchemeConfiguration.cpp:536`). An excerpt of the schema without attributes. -/
def multi : Schema ℤ := tag "precice-configuration" [tag "participant" [tag "provide-mesh" []], tag "coupling-scheme:multi" [tag "participant" []]]

/-- **C136, equal names.** What is printed declares `participant` twice. -/
theorem C136_dtd_participant : ¬ ValidDTD (decls multi) :=
  C136_dtd_twice (t := tag "participant" [tag "provide-mesh" []]) (u := tag "participant" [])
    (by
      simp only [tag, tags, tagsAll, List.append_nil, List.cons_append, List.nil_append]
      refine .cons _ (.cons_cons _ (.cons _ (.cons _ (.cons_cons _ .slnil))))) rfl

/-! ## Links -/

/-- The hypotheses of `C136_links_partial` are met. -/
example : (headings schema).Nodup ∧ reference schema = [("step", none), ("scheme:serial", none)] := ⟨by decide, rfl⟩

/-- `data` in a mesh (`/repo/src/mesh/config/MeshConfiguration.cpp:50`) and in accelerations
(`/repo/src/acceleration/config/AccelerationConfiguration.cpp:405, 462`). An excerpt: accelerations are inside coupling schemes. -/
def accelerated : Schema ℤ :=
  tag "precice-configuration" [tag "mesh" [tag "data" []], tag "acceleration:constant" [tag "data" []], tag "acceleration:aitken" [tag "data" []]]

/-- The hypotheses of `C136_links_third` are met; the links in the accelerations are the same. -/
example : 2 < (headings accelerated).count "data" ∧ reference accelerated =
    [("mesh", none), ("acceleration:constant", none), ("acceleration:aitken", none), ("data", none), ("data", some 1), ("data", some 1)] :=
  ⟨by decide, rfl⟩

/-- **C136, order of links.** The links of a tag are numbered before those in its first subtag, the headings are not: for this
schema the link of the root to its `x` is the anchor of the `x` in `a`, and the other way round. This is a schema for which
`printMD` goes wrong, not the one of preCICE: there `participant` is registered before the coupling schemes
(`/repo/src/precice/config/Configuration.cpp:59-62`). -/
theorem C136_links_swapped :
    let s := tag "root" [tag "a" [tag "x" []], tag "x" []]
    reference s = [("a", none), ("x", none), ("x", some 1)] ∧
      anchors [] (headings s) = [("root", none), ("a", none), ("x", none), ("x", some 1)] ∧
      tags s = [s, tag "a" [tag "x" []], tag "x" [], tag "x" []] :=
  ⟨rfl, rfl, rfl⟩

end Verif.Doc
