import Verif.Config.TagProps

/-!
# Validation of the configuration: errors, leftovers and examples (C107)
-/

set_option autoImplicit false

namespace Verif.Config

variable {V : Type} [DecidableEq V]

/-! ## Errors are messages -/

theorem readAttr_error {given : List (String × String)} {a : Attr V} {old : V} {e : Err} (h : readAttr given a old = .error e) : e = .check := by
  unfold readAttr at h
  split at h
  · split at h
    · cases h; rfl
    · cases h
  · split at h
    · cases h; rfl
    · split at h
      · cases h
      · split at h
        · cases h
        · cases h; rfl

theorem readAll_error {given : List (String × String)} {attrs : List (Attr V)} {old : List V} (hl : old.length = attrs.length) {e : Err}
    (h : readAll given attrs old = .error e) : e = .check := by
  induction attrs generalizing old with
  | nil =>
    cases old with
    | nil => cases h
    | cons o old => cases hl
  | cons a attrs ih =>
    cases old with
    | nil => cases hl
    | cons o old =>
      rw [readAll] at h
      cases h1 : readAttr given a o with
      | error e' =>
        rw [h1] at h
        cases h
        exact readAttr_error h1
      | ok v =>
        rw [h1] at h
        simp only at h
        cases h2 : readAll given attrs old with
        | error e' =>
          rw [h2] at h
          cases h
          exact ih (by simpa using hl) h2
        | ok vs => rw [h2] at h; cases h

omit [DecidableEq V] in
theorem useTag_error {i : Info V} {used : List String} {e : Err} (h : useTag i used = .error e) : e = .check := by
  unfold useTag at h
  split at h
  · split at h
    · cases h; rfl
    · cases h
  · cases h

mutual

theorem node_error : ∀ (n : Node) {ts : List (Tag V)} {used : List String} {e : Err}, Ready ts → connectNode ts used n = .error e → e = .check
  | .mk name given kids, ts, used, e, hts, h => by
    rw [connectNode] at h
    split at h
    · cases h; rfl
    · split at h
      · cases h; rfl
      · next t hf =>
        have ht := (findTag_some hf).1
        simp only [reset_info] at h
        cases h1 : useTag t.info used with
        | error e' => rw [h1] at h; cases h; exact useTag_error h1
        | ok used' =>
          rw [h1] at h
          simp only at h
          cases h2 : readAttributes given t.info.attrs t.reset.values with
          | error e' =>
            rw [h2] at h
            cases h
            unfold readAttributes at h2
            split at h2
            · refine readAll_error ?_ h2
              have := hts.sized t ht
              cases t with
              | mk i c s v l =>
                cases this with
                | mk len _ => exact len
            · cases h2; rfl
          | ok values =>
            rw [h2] at h
            simp only at h
            cases h3 : connectNodes t.reset.subs [] kids with
            | error e' =>
              rw [h3] at h
              cases h
              exact nodes_error kids (hts.inner ht) h3
            | ok r =>
              obtain ⟨subs, events⟩ := r
              rw [h3] at h
              simp only at h
              split at h
              · cases h
              · cases h; rfl

theorem nodes_error : ∀ (l : List Node) {ts : List (Tag V)} {used : List String} {e : Err}, Ready ts → connectNodes ts used l = .error e → e = .check
  | [], ts, used, e, hts, h => by cases h
  | n :: l, ts, used, e, hts, h => by
    rw [connectNodes] at h
    cases h1 : connectNode ts used n with
    | error e' => rw [h1] at h; cases h; exact node_error n hts h1
    | ok r =>
      obtain ⟨us, used', events⟩ := r
      rw [h1] at h
      simp only at h
      obtain ⟨_, _, _, _, _, _, haft⟩ := sound_node n hts h1
      cases h2 : connectNodes us used' l with
      | error e' => rw [h2] at h; cases h; exact nodes_error l (hts.after haft) h2
      | ok r2 => rw [h2] at h; cases h

end

/-- **C107, errors.** A configuration that does not fit gives an error message, never a failing assertion. -/
theorem C107_rejects {t : Tag V} (ht : t.Sized) (hw : t.schema.WellFormed) {n : Node} (h : ∀ events, ¬ Accepted t.schema n events) :
    configure t n = .error .check := by
  cases hc : configure t n with
  | ok events => exact absurd ((C107_accepts ht hw n events).1 hc) (h events)
  | error e =>
    have hr : Ready [t] := ⟨by simpa using ht, by simp [Distinct], by simpa using hw⟩
    unfold configure at hc
    cases h1 : connectNodes [t] [] [n] with
    | error e' =>
      rw [h1] at hc
      cases hc
      rw [nodes_error [n] hr h1]
    | ok r => rw [h1] at hc; cases hc

/-! ## A small schema -/

/-- An attribute for integers, in the classic locale. -/
def intAttr (name : String) (default : Option ℤ) : Attr ℤ := ⟨name, fun raw old => readInt false raw.toList old, default, none⟩

/-- An attribute that is read without looking at the old value. -/
def cleanAttr (name : String) (default : Option ℤ) : Attr ℤ := ⟨name, fun raw _ => readInt false raw.toList 0, default, some [0, 1, 2, 3]⟩

/-- A fresh tag. -/
def leaf (name ns : String) (o : Occurrence) (attrs : List (Attr ℤ)) : Tag ℤ := .mk ⟨name, ns, o, attrs⟩ false (fun _ => false) (attrs.map fun _ => 0) []

/-- A configuration with any number of `step` tags and one `scheme:serial`. -/
def small (a : Attr ℤ) : Tag ℤ :=
  .mk ⟨"configuration", "", .once, []⟩ false (fun _ => false) [] [leaf "step" "" .onceOrMore [a], leaf "scheme:serial" "scheme" .notOrOnce []]

/-- The same with flags and values left from another file. -/
def dirty (a : Attr ℤ) : Tag ℤ :=
  .mk ⟨"configuration", "", .once, []⟩ true (fun _ => true) []
    [.mk ⟨"step", "", .onceOrMore, [a]⟩ true (fun _ => true) [3] [], .mk ⟨"scheme:serial", "scheme", .notOrOnce, []⟩ true (fun _ => true) [] []]

theorem small_wellFormed : (small (cleanAttr "size" (some 1))).schema.WellFormed := by
  have e : (small (cleanAttr "size" (some 1))).schema = .mk ⟨"configuration", "", .once, []⟩
      [.mk ⟨"step", "", .onceOrMore, [cleanAttr "size" (some 1)]⟩ [], .mk ⟨"scheme:serial", "scheme", .notOrOnce, []⟩ []] := rfl
  rw [e]
  refine .mk (by decide) ?_ (by simp) ?_
  · simp [Required, Schema.info]
  · intro s hs
    simp only [List.mem_cons, List.not_mem_nil, or_false] at hs
    rcases hs with rfl | rfl
    · exact .mk (by simp) (by simp) (by simp [cleanAttr]) (by simp)
    · exact .mk (by simp) (by simp) (by simp) (by simp)

theorem small_sized (a : Attr ℤ) : (small a).Sized := by
  refine .mk rfl ?_
  intro t ht
  simp only [List.mem_cons, List.not_mem_nil, or_false] at ht
  rcases ht with rfl | rfl
  · exact .mk rfl (by simp)
  · exact .mk rfl (by simp)

theorem dirty_sized (a : Attr ℤ) : (dirty a).Sized := by
  refine .mk rfl ?_
  intro t ht
  simp only [List.mem_cons, List.not_mem_nil, or_false] at ht
  rcases ht with rfl | rfl
  · exact .mk rfl (by simp)
  · exact .mk rfl (by simp)

/-- Two steps, the second with the default, around a scheme. -/
def file : Node := .mk "configuration" [] [.mk "step" [("size", "2")] [], .mk "scheme:serial" [] [], .mk "step" [] []]

def fileEvents : List (Event ℤ) :=
  [.start "configuration" [], .start "step" [2], .stop "step", .start "scheme:serial" [], .stop "scheme:serial", .start "step" [1], .stop "step", .stop "configuration"]

/-- The hypotheses of `C107_accepts` are met, with accepted files. -/
example : configure (small (cleanAttr "size" (some 1))) file = .ok fileEvents := by rfl

example : Accepted (small (cleanAttr "size" (some 1))).schema file fileEvents :=
  (C107_accepts (small_sized _) small_wellFormed _ _).1 rfl

/-- And from the state that another file has left. -/
example : configure (dirty (cleanAttr "size" (some 1))) file = .ok fileEvents :=
  (C107_state_free (small_sized _) (dirty_sized _) rfl small_wellFormed _ _).1 rfl

/-- Rejected: a missing tag, a tag that occurs twice, an unknown attribute, a value that is not an option, an unreadable value, an unknown tag. -/
example : ∀ n ∈ [Node.mk "configuration" [] [], .mk "configuration" [] [.mk "step" [] [], .mk "scheme:serial" [] [], .mk "scheme:serial" [] []],
    .mk "configuration" [] [.mk "step" [("sise", "1")] []], .mk "configuration" [] [.mk "step" [("size", "7")] []],
    .mk "configuration" [] [.mk "step" [("size", "one")] []], .mk "configuration" [] [.mk "stop" [] []]],
    configure (small (cleanAttr "size" (some 1))) n = .error .check := by
  intro n hn
  simp only [List.mem_cons, List.not_mem_nil, or_false] at hn
  rcases hn with rfl | rfl | rfl | rfl | rfl | rfl <;> rfl

/-! ## Leftovers -/

/-- Two steps, the second with a blank number. -/
def blankFile : Node := .mk "configuration" [] [.mk "step" [("size", "2")] [], .mk "step" [("size", " ")] []]

/-- **C107, blank numbers.** A blank integer attribute gets the value of the element before, and of another file if it is the first: what is read is not free of the
state. So the condition on reading in `WellFormed` is needed. -/
theorem C107_leftover :
    configure (small (intAttr "size" none)) blankFile =
        .ok [.start "configuration" [], .start "step" [2], .stop "step", .start "step" [2], .stop "step", .stop "configuration"] ∧
      configure (small (intAttr "size" none)) (.mk "configuration" [] [.mk "step" [("size", "")] []]) ≠
        configure (dirty (intAttr "size" none)) (.mk "configuration" [] [.mk "step" [("size", "")] []]) := by
  refine ⟨rfl, ?_⟩
  have h1 : configure (small (intAttr "size" none)) (.mk "configuration" [] [.mk "step" [("size", "")] []]) =
      .ok [.start "configuration" [], .start "step" [0], .stop "step", .stop "configuration"] := rfl
  have h2 : configure (dirty (intAttr "size" none)) (.mk "configuration" [] [.mk "step" [("size", "")] []]) =
      .ok [.start "configuration" [], .start "step" [3], .stop "step", .stop "configuration"] := rfl
  rw [h1, h2]
  simp

/-- A schema where one of two alternatives of a namespace is required. -/
def alternatives : Tag ℤ :=
  .mk ⟨"configuration", "", .once, []⟩ false (fun _ => false) [] [leaf "scheme:serial" "scheme" .onceOrMore [], leaf "scheme:parallel" "scheme" .onceOrMore []]

/-- **C107, alternatives.** Tags of a namespace are meant as alternatives: the check for required tags is satisfied if the namespace is configured. But the flag for
that is set at the tag itself and not at its parent, so each alternative is required. No schema of preCICE has such tags; the condition on namespaces in `WellFormed`
excludes them. -/
theorem C107_alternatives :
    configure alternatives (.mk "configuration" [] [.mk "scheme:serial" [] []]) = .error .check ∧
      configure alternatives (.mk "configuration" [] [.mk "scheme:parallel" [] []]) = .error .check ∧
      configure alternatives (.mk "configuration" [] [.mk "scheme:serial" [] [], .mk "scheme:parallel" [] []]) =
        .ok [.start "configuration" [], .start "scheme:serial" [], .stop "scheme:serial", .start "scheme:parallel" [], .stop "scheme:parallel", .stop "configuration"] :=
  ⟨rfl, rfl, rfl⟩

end Verif.Config
