import Mathlib.Data.Int.Notation
import Mathlib.Data.Nat.Notation
import Mathlib.Data.List.Basic

/-!
# Logging (C132)

Model of `/repo/src/logging/LogConfiguration.cpp`, `/repo/src/logging/config/LogConfiguration.cpp`, `/repo/src/logging/Logger.cpp`
and of their use in `/repo/src/precice/impl/ParticipantImpl.cpp`.

Boost.Log is modelled by its documentation: the core passes a record to every sink whose filter accepts it, and to a
default sink without a filter, which writes to the console, if there is no sink. Filters and formats in the syntax of
Boost are given by what they mean: a predicate, a list of pieces.

Simplifications: one process; a file which is opened by two sinks gets the lines of both; opening and writing succeed; a
line is kept together with the record it was made of.
-/

set_option autoImplicit false

namespace Verif.Logging

/-- `boost::log::trivial::severity_level` -/
inductive Severity where
  | trace | debug | info | warning | error
deriving DecidableEq

/-- the order of the levels -/
def Severity.level : Severity → ℕ
  | .trace => 0
  | .debug => 1
  | .info => 2
  | .warning => 3
  | .error => 4

/-- A log record with its attributes, Logger.cpp:44-126. Records of the application have other attributes, `preCICE` is
false for them. -/
structure Record where
  severity : Severity
  preCICE : Bool
  rank : ℤ
  participant : String
  time : String
  module : String
  line : ℕ
  function : String
  message : String
deriving DecidableEq

/-- The pieces of a format -/
inductive Piece where
  | text (s : String)
  | rank | time | «module» | line | function | participant
  /-- `%Severity%` -/
  | severity
  /-- `%ColorizedSeverity%` -/
  | colorized
  | message
deriving DecidableEq

/-- red, `\033[31m` -/
def red : String := "\x1b[31m"
/-- cyan, `\033[36m` -/
def cyan : String := "\x1b[36m"
/-- the end of a colour, `\033[0m` -/
def noColor : String := "\x1b[0m"

/-- What a piece is for a record: the formatter factories, LogConfiguration.cpp:27-76 -/
def Piece.render (r : Record) : Piece → String
  | .text s => s
  | .rank => toString r.rank
  | .time => r.time
  | .module => r.module
  | .line => toString r.line
  | .function => r.function
  | .participant => r.participant
  | .severity =>
    (if r.severity = .error then "ERROR: " else "") ++ (if r.severity = .warning then "WARNING: " else "")
  | .colorized =>
    (if r.severity = .error then red ++ "ERROR: " else "") ++
      (if r.severity = .warning then cyan ++ "WARNING: " else "") ++ noColor
  | .message => r.message

/-- `boost::log::parse_formatter` -/
def renderAll (ps : List Piece) (r : Record) : String :=
  ps.foldr (fun p s => p.render r ++ s) ""

/-- `format` of a sink -/
inductive Format where
  /-- equal to `BackendConfiguration::default_formatter` -/
  | default
  | custom (pieces : List Piece)
  /-- not a format -/
  | invalid
deriving DecidableEq

/-- `filter` of a sink -/
inductive Filter where
  /-- equal to `BackendConfiguration::default_filter` -/
  | default
  /-- the empty string -/
  | empty
  | custom (p : Record → Bool)
  /-- not a filter -/
  | invalid

/-- `type` of a sink; the options of the attribute are `stream` and `file`, the file `log.conf` may have others. -/
inductive Kind where
  | stream | file | other
deriving DecidableEq

/-- `BackendConfiguration`, LogConfiguration.hpp:9-29 with the defaults of LogConfiguration.cpp:164-167 -/
structure Cfg where
  kind : Kind := .stream
  output : String := "stdout"
  filter : Filter := .default
  format : Format := .default
  enabled : Bool := true

/-- `createDefaultFormatter`, LogConfiguration.cpp:169-190, with the bracket of line 187 -/
def defaultFormatter (r : Record) : String :=
  "(" ++ toString r.rank ++ ") " ++ r.time ++ " [" ++ r.module ++ "]:" ++ toString r.line ++ " in " ++ r.function ++ ": " ++
    (if r.severity = .error then red ++ "ERROR: " else "") ++
    (if r.severity = .warning then cyan ++ "WARNING: ]" else "") ++ noColor ++ r.message

/-- `createDefaultFilter`, LogConfiguration.cpp:192-200 -/
def defaultFilter (r : Record) : Bool :=
  r.preCICE && decide (Severity.debug.level < r.severity.level) &&
    !(decide (r.severity = .info) && decide (r.rank ≠ 0))

/-- Where lines go. `console` is the default sink of Boost. -/
inductive Dest where
  | stdout | stderr | file (name : String) | console
deriving DecidableEq

/-- A sink of preCICE; `NullSink`, LogConfiguration.cpp:78-102, is one that accepts nothing. -/
structure Sink where
  dest : Dest
  accepts : Record → Bool
  text : Record → String

/-- The logging of a process: the sinks of the core which are not from preCICE, `activeSinks`, `GlobalLoggingConfig` and what
has been written -/
structure Core where
  application : List Sink
  active : List Sink
  locked : Bool
  rank : ℤ
  participant : String
  out : Dest → List (Record × String)

/-- The start of the process, LogConfiguration.hpp:56-60 -/
def Core.fresh (application : List Sink) : Core where
  application := application
  active := []
  locked := false
  rank := -1
  participant := ""
  out _ := []

/-- What ends the configuration of the logging -/
inductive Err where
  /-- an exception of Boost: a filter or format that cannot be parsed -/
  | parse
  /-- the assertion that there is a backend, in a build without assertions a null pointer is dereferenced -/
  | null
deriving DecidableEq

/-- the backend of a sink, LogConfiguration.cpp:283-293 -/
def backend (c : Cfg) : Except Err Dest :=
  match c.kind with
  | .file => .ok (.file c.output)
  | .stream =>
    if c.output = "stdout" then .ok .stdout
    else if c.output = "stderr" then .ok .stderr
    else .error .null
  | .other => .error .null

/-- the formatter of a sink, LogConfiguration.cpp:299-304 -/
def formatter (c : Cfg) : Except Err (Record → String) :=
  match c.format with
  | .default => .ok defaultFormatter
  | .custom ps => .ok (renderAll ps)
  | .invalid => .error .parse

/-- the filter of a sink, LogConfiguration.cpp:306-314 -/
def filter (c : Cfg) : Except Err (Record → Bool) :=
  match c.filter with
  | .empty => .ok fun r => r.preCICE
  | .default => .ok defaultFilter
  | .custom p => .ok fun r => r.preCICE && p r
  | .invalid => .error .parse

/-- `new std::ofstream(config.output)`: the file is empty. -/
def openFile (d : Dest) (k : Core) : Core :=
  match d with
  | .file f => { k with out := Function.update k.out (.file f) [] }
  | _ => k

/-- a sink is created and added, LogConfiguration.cpp:283-317 -/
def addSink (c : Cfg) (k : Core) : Except Err Core :=
  match backend c with
  | .error e => .error e
  | .ok d =>
    let k := openFile d k
    match formatter c with
    | .error e => .error e
    | .ok t =>
      match filter c with
      | .error e => .error e
      | .ok a => .ok { k with active := k.active ++ [⟨d, a, t⟩] }

/-- the loop over the configurations, LogConfiguration.cpp:278-318 -/
def addSinks : List Cfg → Core → Except Err Core
  | [], k => .ok k
  | c :: cs, k =>
    if c.enabled then
      match addSink c k with
      | .error e => .error e
      | .ok k => addSinks cs k
    else
      addSinks cs k

/-- `setupLogging`, LogConfiguration.cpp:227-319 -/
def setupLogging (cs : List Cfg) (enabled : Bool) (k : Core) : Except Err Core :=
  if k.locked then
    .ok k
  else
    let k := { k with active := [] }
    if !enabled && cs.all fun c => !c.enabled then
      .ok { k with active := [⟨.console, fun _ => false, fun _ => ""⟩] }
    else
      addSinks (if cs.isEmpty then [{}] else cs) k

/-- `setupLogging(logConfigFile)` for the file `log.conf`, LogConfiguration.cpp:321-324 and `readLogConfFile` 126-161. The
file is given by its sections, of which all are enabled; `none` if it does not exist. Names of keys and the order of the
sections in the map are left out. -/
def setupFromFile (conf : Option (List Cfg)) (k : Core) : Except Err Core :=
  setupLogging ((conf.getD []).map fun c => { c with enabled := true }) true k

/-- The tag `<log>` with its tags `<sink>`, config/LogConfiguration.cpp:8-56 -/
structure Tag where
  enabled : Bool := true
  sinks : List Cfg := []

/-- The participant: whether preCICE is built with MPI, its name and rank, the file `log.conf` and the tag -/
structure Env where
  mpi : Bool
  rank : ℤ
  participant : String
  conf : Option (List Cfg)
  tag : Option Tag

/-- The constructor of `Participant` as far as logging is concerned: `setParticipant` ParticipantImpl.cpp:99, the constructor of
`LogConfiguration` config/LogConfiguration.cpp:8-15, `setMPIRank` ParticipantImpl.cpp:178 with `Parallel::CommState::rank`
Parallel.cpp:51-58, and the end of the tag `<log>`, config/LogConfiguration.cpp:75-82. Records in
between are left out. -/
def configure (env : Env) (k : Core) : Except Err Core :=
  let k := { k with participant := env.participant }
  match setupFromFile env.conf k with
  | .error e => .error e
  | .ok k =>
    let k := { k with rank := if env.mpi then env.rank else 0 }
    match env.tag with
    | none => .ok k
    | some t => setupLogging t.sinks t.enabled k

/-- A sink gets a record. -/
def Sink.consume (r : Record) (k : Core) (s : Sink) : Core :=
  if s.accepts r then
    { k with out := Function.update k.out s.dest (k.out s.dest ++ [(r, s.text r)]) }
  else
    k

/-- What is logged: a record without rank and participant. Records of the application have neither. -/
structure Event where
  severity : Severity
  preCICE : Bool
  time : String
  module : String
  line : ℕ
  function : String
  message : String

/-- The attributes of `LoggerImpl`, Logger.cpp:110-126: rank and participant are those at the time of the record. -/
def record (k : Core) (e : Event) : Record where
  severity := e.severity
  preCICE := e.preCICE
  rank := k.rank
  participant := k.participant
  time := e.time
  module := e.module
  line := e.line
  function := e.function
  message := e.message

/-- A record is logged: `Logger::info` and so on, Logger.cpp:157-195, and the core of Boost.Log. The text of the default
sink of Boost is only the message here. -/
def log (e : Event) (k : Core) : Core :=
  let r := record k e
  let sinks := k.application ++ k.active
  if sinks.isEmpty then
    { k with out := Function.update k.out .console (k.out .console ++ [(r, r.message)]) }
  else
    sinks.foldl (Sink.consume r) k

/-- Several records -/
def logAll (es : List Event) (k : Core) : Core :=
  es.foldl (fun k e => log e k) k

end Verif.Logging
