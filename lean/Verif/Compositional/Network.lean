import Verif.Compositional.Model
import Verif.Protocol.Participant

/-!
# Networks of participants with several explicit coupling schemes

The configuration lists coupling schemes (`<coupling-scheme:serial-explicit>`,
`<coupling-scheme:parallel-explicit>`), each between two participants. A participant that occurs in
several of them runs a `CompositionalCouplingScheme` whose members are in the order of the
configuration file (CouplingSchemeConfiguration.cpp:394-427). Participants in a single scheme run
that scheme alone, which does the same as a composition with one member.

Simplifications: all schemes have the same window size, the same maximal time and the same maximal
number of windows; the data exchanged in one direction by one scheme is one message, also if the
scheme exchanges no data in that direction.
-/

set_option autoImplicit false

namespace Verif

open Prog

variable {ι D : Type}

/-- One explicit coupling scheme of the configuration. -/
structure Link (ι : Type) where
  /-- `serial-explicit` or `parallel-explicit` -/
  serial : Bool
  first : ι
  second : ι
  /-- some data from the first to the second participant has `initialize="true"` -/
  initFS : Bool := false
  /-- some data from the second to the first participant has `initialize="true"` -/
  initSF : Bool := false
deriving DecidableEq

/-- The settings that all schemes share. -/
structure Common where
  maxTime : Option ℚ
  maxWindows : Option ℕ
  size : ℚ

namespace Link

variable [DecidableEq ι]

/-- the scheme is one of participant `p` -/
def has (l : Link ι) (p : ι) : Bool := decide (p = l.first) || decide (p = l.second)

/-- the other participant -/
def peer (l : Link ι) (p : ι) : ι := if p = l.first then l.second else l.first

/-- `createSerialExplicitCouplingScheme` / `createParallelExplicitCouplingScheme`,
CouplingSchemeConfiguration.cpp:812-850, for participant `p`; `determineInitialSend` and
`determineInitialReceive`, BaseCouplingScheme.cpp:822-841. -/
def cfg (g : Common) (p : ι) (l : Link ι) : Config where
  implicit := false
  first := decide (p = l.first)
  maxWindows := g.maxWindows
  minIter := 1
  maxIter := some 1
  sendsInit := if p = l.first then l.initFS else l.initSF
  receivesInit := if p = l.first then l.initSF else l.initFS

def name (l : Link ι) (b : Bool) : ι := if b then l.first else l.second

/-- the scheme object of participant `p` -/
def member (g : Common) (p : ι) (l : Link ι) : Member ι D where
  cfg := l.cfg g p
  hooks := (if l.serial then Serial.hooks (l.cfg g p) else Parallel.hooks (l.cfg g p)).rename l.name
  peer := l.peer p

end Link

namespace Comp

/-- `initialize`, CompositionalCouplingScheme.cpp:71-79, without an implicit scheme. -/
def initExpl (c : Comp ι D) : Prog ι (Msg D) (Comp ι D) :=
  (forEach (fun m s => initScheme m.cfg m.hooks s) c.expl).bind fun l => ret { c with expl := l }

/-- The `advance` calls of one window; all requested actions are performed before each call. -/
def iterate : List (StepIn D) → Comp ι D → Prog ι (Msg D) (Comp ι D)
  | [], c => ret c
  | i :: is, c => (advance i c.fulfilAll).bind (iterate is)

/-- A solver: for the states seen at window starts (newest first) the steps of the next window. -/
abbrev Solver (ι D : Type) := List (Comp ι D) → List (StepIn D)

/-- The solver loop, see `coupled`. -/
def loop (plan : Solver ι D) : ℕ → Comp ι D → List (Comp ι D) → Prog ι (Msg D) (List (Comp ι D))
  | 0, _, _ => fail .check
  | k + 1, c, hist =>
    if c.ongoing then
      (iterate (plan (c :: hist)) c).bind fun c' => loop plan k c' (c :: hist)
    else ret (c :: hist)

/-- A solver that uses `getMaxTimeStepSize()` to hit every window end exactly. -/
def SolverOk (plan : Solver ι D) : Prop :=
  ∀ c hist, c.ongoing → (∀ ms ∈ c.expl, ms.2.time.progress = 0) → StepsTo c.maxStep (plan (c :: hist))

/-- The state of the scheme with partner `q`. -/
def stateOf [DecidableEq ι] (q : ι) (c : Comp ι D) : Option (State D) :=
  (c.expl.find? fun ms => ms.1.peer = q).map (·.2)

/-- The composition of participant `p` after construction, all initial data written. -/
def built [DecidableEq ι] (g : Common) (links : List (Link ι)) (d : D) (p : ι) : Comp ι D where
  impl := none
  expl := (links.filter (·.has p)).map fun l =>
    (l.member g p, (constructed (l.cfg g p) g.maxTime g.size d).fulfilAll)
  onHold := false

/-- A complete run of participant `p`. -/
def composed [DecidableEq ι] (g : Common) (links : List (Link ι)) (d : D) (plan : Solver ι D)
    (fuel : ℕ) (p : ι) : Prog ι (Msg D) (List (Comp ι D)) :=
  (built g links d p).initExpl.bind fun c => loop plan fuel c []

end Comp
end Verif
