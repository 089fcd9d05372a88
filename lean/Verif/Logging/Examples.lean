import Verif.Logging.Props

/-! # Examples for C132 -/

set_option autoImplicit false

namespace Verif.Logging.Examples

open Verif.Logging

/-- A message -/
def event (s : Severity) (m : String) : Event := ⟨s, true, "12:00:00", "impl", 7, "advance", m⟩

/-- Warnings and errors in a file, everything that is more than debugging on the screen -/
def tag : Tag where
  sinks :=
    [{ kind := .file, output := "warnings.log", filter := .custom fun r => decide (3 ≤ r.severity.level),
       format := .custom [.participant, .text ": ", .severity, .message] },
     {}]

/-- The second rank of a participant -/
def second : Env := ⟨true, 1, "Fluid", none, some tag⟩

theorem second_plain : ∀ t, second.tag = some t → t.Plain := by
  intro t ht
  obtain rfl : tag = t := by simpa [second] using ht
  exact .inr ⟨rfl, .inr ⟨{}, by simp [tag], rfl⟩⟩

/-- `C132_accepted` -/
theorem second_ok : ∃ k, configure second (Core.fresh []) = .ok k := by
  refine C132_accepted _ (by simp [second]) ?_
  intro t ht c hc _
  obtain rfl : tag = t := by simpa [second] using ht
  simp only [tag, List.mem_cons, List.not_mem_nil, or_false] at hc
  rcases hc with rfl | rfl
  · exact ⟨by simp [Cfg.target], trivial, by simp⟩
  · exact ⟨by simp [Cfg.target], trivial, by simp⟩

/-- `C132_records_partial`: the file has the warning and not the info, the screen has it, too. -/
example {k : Core} (h : configure second (Core.fresh []) = .ok k) :
    ((logAll [event .info "a", event .warning "b", event .debug "c"] k).out (.file "warnings.log")).map Prod.fst =
      [record k (event .warning "b")] ∧
    ((logAll [event .info "a", event .warning "b", event .debug "c"] k).out .stdout).map Prod.fst =
      (k.out .stdout).map Prod.fst ++ [record k (event .warning "b")] := by
  have hr : k.rank = 1 := (C132_attributes rfl second_plain h (event .info "a")).2.1 rfl
  have h1 := C132_records_partial rfl second_plain h (d := .file "warnings.log") (by simp [Quiet, Core.fresh])
    [event .info "a", event .warning "b", event .debug "c"]
  have h2 := C132_records_partial rfl second_plain h (d := .stdout) (by simp [Quiet, Core.fresh])
    [event .info "a", event .warning "b", event .debug "c"]
  have hw : second.wanted = tag.sinks := rfl
  constructor
  · rw [h1.1, h1.2 rfl ⟨tag.sinks[0], by simp [hw, tag], rfl⟩, hw]
    simp [linesAt, tag, Cfg.target, Cfg.shows, event, record, Severity.level]
  · rw [h2.1, hw]
    simp [linesAt, tag, Cfg.target, Cfg.shows, event, record, hr]

/-- `C132_text_partial`: an error in the file -/
example {k : Core} (h : configure second (Core.fresh []) = .ok k) :
    (logAll [event .error "broken"] k).out (.file "warnings.log") =
      [(record k (event .error "broken"), "Fluid: ERROR: broken")] := by
  have hp : k.participant = "Fluid" := (C132_attributes rfl second_plain h (event .info "a")).1
  have h0 := (C132_records_partial rfl second_plain h (d := .file "warnings.log") (by simp [Quiet, Core.fresh]) []).2 rfl
    ⟨tag.sinks[0], by simp [Env.wanted, second, Tag.wanted, tag], rfl⟩
  rw [C132_text_partial rfl second_plain h (d := .file "warnings.log") (by simp [Quiet, Core.fresh])
    (.inl (by simp [event])), h0, show second.wanted = tag.sinks from rfl]
  simp only [List.nil_append, List.map_cons, List.map_nil, List.flatMap_cons, List.flatMap_nil, List.append_nil, linesAt, tag]
  simp [Cfg.target, Cfg.shows, Cfg.lineOf, event, record, Severity.level, renderAll, Piece.render, hp]

/-- No configuration -/
def bare (mpi : Bool) (rank : ℤ) : Env := ⟨mpi, rank, "Fluid", none, none⟩

/-- `C132_default` -/
example {k : Core} (h : configure (bare true 1) (Core.fresh []) = .ok k) :
    ((log (event .warning "b") k).out .stdout).map Prod.fst =
      (k.out .stdout).map Prod.fst ++ [record k (event .warning "b")] := by
  have := (C132_default rfl rfl rfl rfl h (fun d => by simp [Quiet, Core.fresh]) (e := event .warning "b") rfl).1
  simpa [event] using this

/-- `C132_rank`: the infos of the second rank are shown. -/
example {k : Core} (h : configure (bare false 1) (Core.fresh []) = .ok k) :
    ((log (event .info "a") k).out .stdout).map Prod.fst =
      (k.out .stdout).map Prod.fst ++ [record k (event .info "a")] :=
  (C132_rank rfl rfl rfl rfl h (by simp [Quiet, Core.fresh]) rfl rfl).2

example (b : Bool) (r : ℤ) : ∃ k, configure (bare b r) (Core.fresh []) = .ok k :=
  C132_accepted _ (by simp [bare]) (by simp [bare])

/-- `C132_locked` -/
example : setupLogging [{}] true { Core.fresh [] with locked := true } = .ok { Core.fresh [] with locked := true } :=
  C132_locked _ _ rfl

/-- `C132_not_disabled` -/
example : configure { second with tag := some ⟨false, tag.sinks⟩ } (Core.fresh []) = configure second (Core.fresh []) :=
  C132_not_disabled (cs := tag.sinks) (c := {}) _ (by simp [tag]) rfl rfl

/-- `C132_all_disabled`: a message for debugging on the second rank appears on the console. -/
def silenced : Env := { second with tag := some ⟨true, [{ enabled := false }]⟩ }

example : ∃ k, configure silenced (Core.fresh []) = .ok k :=
  C132_accepted _ (by simp [silenced, second]) (by
    intro t ht c hc he
    obtain rfl : (⟨true, [{ enabled := false }]⟩ : Tag) = t := by simpa [silenced] using ht
    simp at hc
    subst hc
    simp at he)

example {k : Core} (h : configure silenced (Core.fresh []) = .ok k) :
    ((log (event .debug "c") k).out .console).map Prod.fst =
      (k.out .console).map Prod.fst ++ [record k (event .debug "c")] :=
  C132_all_disabled rfl (cs := [{ enabled := false }]) (by simp) (by simp) rfl rfl h _

/-- `C132_warning` -/
example : defaultFormatter (record (Core.fresh []) (event .warning "b")) ≠
    renderAll defaultPieces (record (Core.fresh []) (event .warning "b")) :=
  C132_warning rfl

/-- `C132_stream` -/
example : configure { second with tag := some ⟨true, [{ output := "screen" }]⟩ } (Core.fresh []) = .error .null :=
  C132_stream (c := { output := "screen" }) (cs := []) rfl (by simp [second]) rfl rfl (by decide) (by decide) rfl

/-! ## Computed without the theorems -/

/-- The lines at a destination after messages; the first list is written before the participant is constructed. -/
def linesOf (env : Env) (old es : List Event) (d : Dest) : Option (List String) :=
  match configure env (logAll old (Core.fresh [])) with
  | .ok k => some (((logAll es k).out d).map Prod.snd)
  | .error _ => none

/-- All levels, and an error of the application -/
def all : List Event :=
  [event .trace "t", event .debug "d", event .info "i", event .warning "w", event .error "e",
    ⟨.error, false, "12:00:00", "app", 1, "main", "x"⟩]

/-- The second rank, with two sinks -/
example : linesOf second [] all (.file "warnings.log") = some ["Fluid: WARNING: w", "Fluid: ERROR: e"] ∧
    linesOf second [] all .stdout = some ["(1) 12:00:00 [impl]:7 in advance: \x1b[36mWARNING: ]\x1b[0mw",
      "(1) 12:00:00 [impl]:7 in advance: \x1b[31mERROR: \x1b[0me"] ∧
    linesOf second [] all .stderr = some [] := by decide +kernel

/-- The first rank shows infos, too. -/
example : (linesOf (bare true 0) [] all .stdout).map List.length = some 3 ∧
    (linesOf (bare true 1) [] all .stdout).map List.length = some 2 := by decide +kernel

/-- A sink for the other stream without a filter, and one that is disabled -/
example : linesOf { second with tag := some ⟨true, [{ output := "stderr", filter := .empty, format := .custom [.message] },
      { kind := .file, output := "off", enabled := false }]⟩ } [] all .stderr = some ["t", "d", "i", "w", "e"] ∧
    linesOf { second with tag := some ⟨true, [{ output := "stderr", filter := .empty, format := .custom [.message] },
      { kind := .file, output := "off", enabled := false }]⟩ } [] all (.file "off") = some [] := by decide +kernel

end Verif.Logging.Examples
