import Verif.Logging.Model

/-!
# What is to be logged (C132)

From the documentation of the tags `<log>` and `<sink>` (`/repo/src/logging/config/LogConfiguration.cpp:15-52`).
-/

set_option autoImplicit false

namespace Verif.Logging

/-- The sinks a tag `<log>` asks for: "Enables the creation of log sinks", "Enables the sink". Without sinks there is one
with the defaults. -/
def Tag.wanted (t : Tag) : List Cfg :=
  if t.enabled then (if t.sinks.isEmpty then [{}] else t.sinks.filter fun c => c.enabled) else []

/-- The sinks a participant is to have: those of the tag, otherwise those of the file `log.conf`, otherwise one with the
defaults -/
def Env.wanted (env : Env) : List Cfg :=
  match env.tag with
  | some t => t.wanted
  | none =>
    match env.conf with
    | none | some [] => [{}]
    | some cs => cs

/-- "For streams, this can be stdout or stderr. For files, this is the filename." -/
def Cfg.target (c : Cfg) : Option Dest :=
  match c.kind with
  | .stream => if c.output = "stdout" then some .stdout else if c.output = "stderr" then some .stderr else none
  | .file => some (.file c.output)
  | .other => none

/-- The records a sink shows: records of preCICE that pass its filter. By default warnings and errors of all ranks, infos
of the first rank. -/
def Cfg.shows (c : Cfg) (r : Record) : Bool :=
  r.preCICE &&
    match c.filter with
    | .default =>
      decide (r.severity = .error) || decide (r.severity = .warning) || decide (r.severity = .info ∧ r.rank = 0)
    | .empty => true
    | .custom p => p r
    | .invalid => false

/-- The default format `(%Rank%) %TimeStamp(format="%H:%M:%S")% [%Module%]:%Line% in %Function%:
%ColorizedSeverity%%Message%`, LogConfiguration.cpp:165 -/
def defaultPieces : List Piece :=
  [.text "(", .rank, .text ") ", .time, .text " [", .module, .text "]:", .line, .text " in ", .function, .text ": ",
    .colorized, .message]

/-- The line a sink writes for a record -/
def Cfg.lineOf (c : Cfg) (r : Record) : String :=
  match c.format with
  | .default => renderAll defaultPieces r
  | .custom ps => renderAll ps r
  | .invalid => ""

/-- The filter, the format and the output have a meaning. -/
def Cfg.Valid (c : Cfg) : Prop :=
  c.target ≠ none ∧ (match c.filter with | .invalid => False | _ => True) ∧ c.format ≠ .invalid

/-- The lines for a record at a destination, one for each sink -/
def linesAt (cs : List Cfg) (d : Dest) (r : Record) : List (Record × String) :=
  (cs.filter fun c => decide (c.target = some d) && c.shows r).map fun c => (r, c.lineOf r)

/-- The settings that mean what they say: the tag is disabled and all its sinks are, or it is enabled and has no sinks or
an enabled one. -/
def Tag.Plain (t : Tag) : Prop :=
  (t.enabled = false ∧ ∀ c ∈ t.sinks, c.enabled = false) ∨
    (t.enabled = true ∧ (t.sinks = [] ∨ ∃ c ∈ t.sinks, c.enabled = true))

/-- The application does not write to a destination itself. -/
def Quiet (k : Core) (d : Dest) : Prop := ∀ s ∈ k.application, s.dest ≠ d

end Verif.Logging
