import Verif.Scheme.Exec
import Verif.Protocol.Props

/-!
# CompositionalCouplingScheme

`/repo/src/cplscheme/CompositionalCouplingScheme.cpp`: several explicit schemes and at most one
implicit scheme of one participant. Synchronisation functions (147-155, 180-190) are empty without
remeshing, which is not allowed with compositional schemes
(CouplingSchemeConfiguration.cpp:332-407), and are left out.
-/

set_option autoImplicit false

namespace Verif

open Prog

namespace Prog

variable {ι κ M α : Type}

/-- Rename the peers of a program. -/
def mapPeer (f : ι → κ) : Prog ι M α → Prog κ M α
  | ret a => ret a
  | send dst m k => send (f dst) m (k.mapPeer f)
  | recv src k => recv (f src) fun m => (k m).mapPeer f
  | fail e => fail e

/-- The partner of a communication event. -/
def Ev.peer : Ev ι M → ι
  | .sent dst _ => dst
  | .got src _ => src

def Ev.mapPeer (f : ι → κ) : Ev ι M → Ev κ M
  | .sent dst m => .sent (f dst) m
  | .got src m => .got (f src) m

theorem run_mapPeer {f : ι → κ} {p : Prog ι M α} {tr : List (Ev κ M)} {a : α}
    (h : Run (p.mapPeer f) tr a) : ∃ tr', Run p tr' a ∧ tr = tr'.map (Ev.mapPeer f) := by
  induction p generalizing tr with
  | ret b => cases h; exact ⟨[], .ret _, rfl⟩
  | fail e => cases h
  | send dst m k ih =>
    cases h with
    | send _ _ h => obtain ⟨tr', h1, rfl⟩ := ih h; exact ⟨_, .send _ _ h1, rfl⟩
  | recv src k ih =>
    cases h with
    | recv _ m h => obtain ⟨tr', h1, rfl⟩ := ih m h; exact ⟨_, .recv _ m h1, rfl⟩

end Prog

variable {ι D : Type}

/-- Exchange functions of a two-participant scheme (partners named by `Bool`) as used by a
participant that calls its partner `f b`. -/
def Hooks.rename {κ : Type} (f : ι → κ) (h : Hooks ι D) : Hooks κ D :=
  ⟨fun s => (h.initial s).mapPeer f, fun i s => (h.first i s).mapPeer f,
    fun i s => (h.second i s).mapPeer f⟩

/-- A member scheme. Its partner is given for explicit schemes (which have one partner). -/
structure Member (ι D : Type) where
  cfg : Config
  hooks : Hooks ι D
  peer : ι

/-- State of the composition: `_implicitScheme`, `_explicitSchemes`, `_explicitOnHold`. -/
structure Comp (ι D : Type) where
  impl : Option (Member ι D × State D)
  expl : List (Member ι D × State D)
  onHold : Bool

namespace Comp

/-- A loop over schemes. -/
def forEach (f : Member ι D → State D → Prog ι (Msg D) (State D)) :
    List (Member ι D × State D) → Prog ι (Msg D) (List (Member ι D × State D))
  | [] => ret []
  | (m, s) :: l => (f m s).bind fun s' => (forEach f l).bind fun l' => ret ((m, s') :: l')

/-- `_activeSchemes`, CompositionalCouplingScheme.cpp:71-79, 438-462. -/
def active (c : Comp ι D) : List (Member ι D × State D) :=
  match c.impl with
  | none => c.expl
  | some ms => ms :: if c.onHold then [] else c.expl

/-- `getNextTimeStepMaxSize`, CompositionalCouplingScheme.cpp:333-357 -/
def maxStep (c : Comp ι D) : ℚ :=
  c.active.foldr (fun ms x => min (ms.2.maxStep ms.1.cfg) x) dblMax

/-- `isCouplingOngoing`, CompositionalCouplingScheme.cpp:359-368 (`front()` of an empty vector is
undefined behaviour; the configuration creates compositions with at least two schemes, at most one
of them implicit). -/
def ongoing (c : Comp ι D) : Prop :=
  match c.impl, c.expl with
  | some (m, s), _ => s.ongoing m.cfg
  | none, (m, s) :: _ => s.ongoing m.cfg
  | none, [] => False

instance (c : Comp ι D) : Decidable c.ongoing := by
  unfold ongoing
  rcases c with ⟨_ | ⟨m, s⟩, _ | ⟨⟨m', s'⟩, l⟩, h⟩ <;> exact inferInstance

/-- `getTime`, CompositionalCouplingScheme.cpp:279-289 -/
def time (c : Comp ι D) : Option ℚ :=
  match c.impl, c.expl with
  | some (_, s), _ => some s.time.time
  | none, (_, s) :: _ => some s.time.time
  | none, [] => none

/-- `isTimeWindowComplete`, CompositionalCouplingScheme.cpp:370-378 -/
def complete (c : Comp ι D) : Bool := c.active.any (·.2.complete)

/-- `addComputedTime`, CompositionalCouplingScheme.cpp:104-142 -/
def addTime (dt : ℚ) (c : Comp ι D) : Prog ι (Msg D) (Comp ι D) :=
  match c.impl with
  | none =>
    (forEach (fun m s => addComputedTime m.cfg s dt ret) c.expl).bind fun l => ret { c with expl := l }
  | some (m, s) =>
    (addComputedTime m.cfg s dt ret).bind fun s' =>
    if c.onHold then ret { c with impl := some (m, s') }
    else
      (forEach (fun m s => addComputedTime m.cfg s dt ret) c.expl).bind fun l =>
      ret { impl := some (m, s'), expl := l, onHold := decide s'.reachedEndOfWindow }

/-- `firstExchange` of one member with the data written so far. -/
def memberFirst (i : StepIn D) (m : Member ι D) (s : State D) : Prog ι (Msg D) (State D) :=
  firstExchange m.hooks i { s with sendBuf := i.value }

/-- `secondExchange` of one member. -/
def memberSecond (i : StepIn D) (m : Member ι D) (s : State D) : Prog ι (Msg D) (State D) :=
  secondExchange m.cfg m.hooks i s

/-- `firstExchange`, CompositionalCouplingScheme.cpp:157-178 -/
def firstEx (i : StepIn D) (c : Comp ι D) : Prog ι (Msg D) (Comp ι D) :=
  match c.impl with
  | none => (forEach (memberFirst i) c.expl).bind fun l => ret { c with expl := l }
  | some (m, s) =>
    (memberFirst i m s).bind fun s' =>
    if c.onHold then ret { c with impl := some (m, s') }
    else (forEach (memberFirst i) c.expl).bind fun l => ret { c with impl := some (m, s'), expl := l }

/-- `secondExchange`, CompositionalCouplingScheme.cpp:192-230 -/
def secondEx (i : StepIn D) (c : Comp ι D) : Prog ι (Msg D) (Comp ι D) :=
  match c.impl with
  | none => (forEach (memberSecond i) c.expl).bind fun l => ret { c with expl := l }
  | some (m, s) =>
    (memberSecond i m s).bind fun s' =>
    match c.expl with
    | [] => fail .assert
    | e :: _ =>
      if s'.time.time < e.2.time.time then
        ensure .assert (c.onHold = true) (ret { c with impl := some (m, s') })
      else
        (forEach (memberFirst i) c.expl).bind fun l =>
        (forEach (memberSecond i) l).bind fun l =>
        ret { impl := some (m, s'), expl := l, onHold := false }

/-- `advance` with a compositional scheme, ParticipantImpl.cpp:407-449. The checks of
ParticipantImpl.cpp:407-416 are part of every member's `addComputedTime`. -/
def advance (i : StepIn D) (c : Comp ι D) : Prog ι (Msg D) (Comp ι D) :=
  (addTime i.dt c).bind fun c => (firstEx i c).bind (secondEx i)

/-- All requested actions of the active schemes are performed,
CompositionalCouplingScheme.cpp:411-420. -/
def fulfilAll (c : Comp ι D) : Comp ι D :=
  { c with impl := c.impl.map fun ms => (ms.1, ms.2.fulfilAll),
           expl := if c.impl.isSome && c.onHold then c.expl
             else c.expl.map fun ms => (ms.1, ms.2.fulfilAll) }

/-- What happened in one `advance` call: its inputs, its communication events and the value of
`isTimeWindowComplete()` afterwards. -/
structure Call (ι D : Type) where
  inp : StepIn D
  events : List (Ev ι (Msg D))
  complete : Bool

/-- Executions: any number of `advance` calls. -/
inductive Exec (P : Comp ι D → ℚ → Prop) (c₀ : Comp ι D) :
    List (Call ι D) → Comp ι D → Prop where
  | nil : Exec P c₀ [] c₀
  | step {log : List (Call ι D)} {c c' : Comp ι D} {i : StepIn D} {tr : List (Ev ι (Msg D))} :
      Exec P c₀ log c → P c i.dt → Run (advance i c.fulfilAll) tr c' →
      Exec P c₀ (log ++ [⟨i, tr, c'.complete⟩]) c'

/-- The solver limits its step by `getMaxTimeStepSize()` and does not leave a remainder below the
tolerance. -/
def Sharp (c : Comp ι D) (dt : ℚ) : Prop :=
  dt ≤ c.maxStep ∧ (c.maxStep - dt ≤ tol → dt = c.maxStep)

end Comp
end Verif
