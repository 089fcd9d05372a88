import Verif.Profiling.Model

/-!
# Profiling: what a user relies on (C130)

The specification knows neither ids nor queues: a profile is a list of sections that begin and end, by their names.
-/

set_option autoImplicit false

namespace Verif.Profiling

/-- What is told about a section -/
inductive Rec where
  | open (name : String)
  | close (name : String)
  | data (name key : String) (value : ℤ)
deriving DecidableEq

/-- A reader of a file of records: the names of the ids, what has been read. -/
structure Reader where
  names : ℕ → Option String
  out : List Rec

/-- Before reading -/
def Reader.start : Reader := ⟨fun _ => none, []⟩

/-- Reading a record. It is an error to use an id without a name and to name an id twice. -/
def Reader.read (s : Reader) : Entry → Option Reader
  | .name n i =>
    match s.names i with
    | none => some ⟨fun j => if j = i then some n else s.names j, s.out⟩
    | some _ => none
  | .start i _ => (s.names i).map fun n => ⟨s.names, s.out ++ [.open n]⟩
  | .stop i _ => (s.names i).map fun n => ⟨s.names, s.out ++ [.close n]⟩
  | .data i _ k v =>
    match s.names i, s.names k with
    | some n, some key => some ⟨s.names, s.out ++ [.data n key v]⟩
    | _, _ => none

/-- Reading records in order -/
def Reader.readAll (s : Reader) : List Entry → Option Reader
  | [] => some s
  | e :: es => (s.read e).bind fun s => s.readAll es

/-- What a file tells -/
def decode (file : List Entry) : Option (List Rec) :=
  (Reader.start.readAll file).map Reader.out

/-- How much detail a mode asks for -/
def Mode.level : Mode → ℕ
  | .off => 0
  | .fundamental => 1
  | .api => 2
  | .all => 3

/-- With which detail a section is shown -/
def Group.level : Group → ℕ
  | .fundamental => 1
  | .api => 2
  | .other => 3

/-- Entering a section: a parallel participant that synchronizes shows the waiting time as a section of its own. -/
def enter (sync : Bool) (n : String) (synchronize : Bool) : List Rec :=
  if synchronize && sync then [.open (n ++ ".sync"), .close (n ++ ".sync"), .open n] else [.open n]

/-- The sections of a forest, without those that the mode hides -/
def shown (m : Mode) (sync : Bool) : Forest → List Rec
  | .nil => []
  | .node n g s data inner rest =>
    (if g.level ≤ m.level then
      enter sync n s ++ data.map (fun kv => .data n kv.1 kv.2) ++ shown m sync inner ++ [.close n]
    else
      shown m sync inner) ++ shown m sync rest

/-- A section without anything in it -/
def empty (n : String) : List Rec := [.open n, .close n]

/-- What the constructor of a participant does -/
def preamble (env : Env) (m : Mode) (sync : Bool) : List Rec :=
  [.open "_GLOBAL", .open "construction"]
    ++ (if env.mpi then empty "com.initializeMPI" else [])
    ++ [.open "configure"] ++ empty "readConfiguration" ++ [.close "configure"]
    ++ (if m = .all then empty "startProfilingBackend" else [])
    ++ (if env.parallel then empty "com.initializeIntraCom" else [])
    ++ [.close "construction"] ++ enter sync "solver.initialize" true

/-- Where the solver is: its open sections and the event for the time spent in the solver -/
structure Now where
  sections : List String
  solver : String

/-- What a call tells, and where the solver is afterwards -/
def tell (m : Mode) (sync : Bool) (s : Now) : Call → List Rec × Now
  | .startSection n => ([.open n], { s with sections := s.sections ++ [n] })
  | .stopSection =>
    ((s.sections.getLast?.map Rec.close).toList, { s with sections := s.sections.dropLast })
  | .api f => (shown m sync f, s)
  | .initialize data inner =>
    (.close "solver.initialize" :: shown m sync (.node "initialize" .fundamental true data inner .nil)
      ++ enter sync "solver.advance" true, { s with solver := "solver.advance" })
  | .advance inner =>
    (.close "solver.advance" :: shown m sync (.node "advance" .fundamental true [] inner .nil)
      ++ enter sync "solver.advance" true, s)
  | .finalize =>
    (s.sections.reverse.map Rec.close ++ [.close s.solver] ++ empty "finalize" ++ [.close "_GLOBAL"],
      { s with sections := [] })

/-- What calls tell -/
def tellAll (m : Mode) (sync : Bool) : Now → List Call → List Rec
  | _, [] => []
  | s, c :: cs => (tell m sync s c).1 ++ tellAll m sync (tell m sync s c).2 cs

/-- Sections are nested: the section that ends is the one that has begun last. `some open` are the open sections. -/
def nesting : List String → List Rec → Option (List String)
  | st, [] => some st
  | st, .open n :: rs => nesting (n :: st) rs
  | t :: st, .close n :: rs => if t = n then nesting st rs else none
  | [], .close _ :: _ => none
  | t :: st, .data n _ _ :: rs => if t = n then nesting (t :: st) rs else none
  | [], .data _ _ _ :: _ => none

/-- Every section that begins ends, properly nested. -/
def Nested (rs : List Rec) : Prop := nesting [] rs = some []

/-- The time of a record -/
def Entry.time : Entry → Option ℤ
  | .start _ t => some t
  | .stop _ t => some t
  | .data _ t _ _ => some t
  | .name _ _ => none

/-- The settings in force: those of the tag, or the documented defaults -/
def Env.settings (env : Env) : Tag := env.tag.getD {}

/-- Number of records before the file is opened -/
def Env.early (env : Env) : ℕ := if env.mpi then 13 else 10

/-- A call of `initialize` -/
def Call.isInitialize : Call → Bool
  | .initialize _ _ => true
  | _ => false

end Verif.Profiling
