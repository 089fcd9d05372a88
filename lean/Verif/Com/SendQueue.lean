import Mathlib.Data.List.Basic
import Mathlib.Logic.Relation

/-!
# The queue of asynchronous sends of the socket communication (C69)

Model of `/repo/src/com/SocketSendQueue.cpp`. `dispatch` and `sendCompleted` hold the mutex, so each of them is one step. `asio::async_write` starts a write that finishes at any later
time; its handler first calls the callback of the request and then `sendCompleted`, and other threads may dispatch in between. All items are written completely (the error code passed to
the handler is ignored by the code, so a failed write is not noticed here).
-/

set_option autoImplicit false

namespace Verif.Com.Queue

/-- What `asio` is doing. -/
inductive Write (α : Type) where
  | idle
  /-- `async_write` is in progress -/
  | running (item : α)
  /-- the handler has called the callback, but not `sendCompleted` yet -/
  | calledBack (item : α)
deriving DecidableEq

/-- The queue, and as a record for the specification everything that was dispatched, written to its socket and called back. `overlap` becomes true if a write is started while another
one is in progress. -/
structure State (α : Type) where
  queue : List α
  ready : Bool
  write : Write α
  dispatched : List α
  written : List α
  called : List α
  overlap : Bool

variable {α : Type}

def init : State α := ⟨[], true, .idle, [], [], [], false⟩

/-- `process`, SocketSendQueue.cpp:37-52 -/
def process (s : State α) : State α :=
  match s.ready, s.queue with
  | true, x :: q => { s with queue := q, ready := false, write := .running x, overlap := s.overlap || match s.write with
      | .idle => false
      | _ => true }
  | _, _ => s

/-- `dispatch`, SocketSendQueue.cpp:21-28 -/
def dispatch (x : α) (s : State α) : State α := process { s with queue := s.queue ++ [x], dispatched := s.dispatched ++ [x] }

/-- The write is finished and the handler calls the callback, SocketSendQueue.cpp:48-49. -/
def finish (s : State α) : State α :=
  match s.write with
  | .running x => { s with write := .calledBack x, written := s.written ++ [x], called := s.called ++ [x] }
  | _ => s

/-- `sendCompleted`, SocketSendQueue.cpp:30-35, called by the handler. -/
def sendCompleted (s : State α) : State α :=
  match s.write with
  | .calledBack _ => process { s with ready := true, write := .idle }
  | _ => s

inductive Step : State α → State α → Prop where
  | dispatch (x : α) (s : State α) : Step s (dispatch x s)
  | finish (s : State α) (x : α) (h : s.write = .running x) : Step s (finish s)
  | completed (s : State α) (x : α) (h : s.write = .calledBack x) : Step s (sendCompleted s)

def Reachable (s : State α) : Prop := Relation.ReflTransGen Step init s

/-- The item being written. -/
def inFlight : Write α → List α
  | .running x => [x]
  | _ => []

structure Inv (s : State α) : Prop where
  order : s.written ++ inFlight s.write ++ s.queue = s.dispatched
  called : s.called = s.written
  busy : s.ready = false ↔ s.write ≠ .idle
  waiting : s.write = .idle → s.queue = []
  overlap : s.overlap = false

theorem Inv.process {s : State α} (h1 : s.write = .idle → s.written ++ s.queue = s.dispatched) (h2 : s.write ≠ .idle → s.written ++ inFlight s.write ++ s.queue = s.dispatched)
    (h3 : s.called = s.written) (h4 : s.ready = false ↔ s.write ≠ .idle) (h5 : s.overlap = false) : Inv (Queue.process s) := by
  obtain ⟨queue, ready, write, dispatched, written, called, overlap⟩ := s
  simp only at h1 h2 h3 h4 h5
  unfold Queue.process
  cases ready with
  | false =>
    have hw : write ≠ .idle := h4.1 rfl
    exact ⟨h2 hw, h3, h4, fun h => absurd h hw, h5⟩
  | true =>
    have hw : write = .idle := by
      by_contra h
      have := h4.2 h
      simp at this
    subst hw
    cases queue with
    | nil => exact ⟨by simpa [inFlight] using h1 rfl, h3, h4, fun _ => rfl, h5⟩
    | cons x q =>
      refine ⟨by simpa [inFlight] using h1 rfl, h3, by simp, by simp, ?_⟩
      simp [h5]

theorem Reachable.inv {s : State α} (h : Reachable s) : Inv s := by
  induction h with
  | refl => exact ⟨rfl, rfl, by simp [init], fun _ => rfl, rfl⟩
  | tail _ hs ih =>
    obtain ⟨h1, h2, h3, h4, h5⟩ := ih
    cases hs with
    | dispatch x =>
      unfold Queue.dispatch
      refine Inv.process ?_ ?_ h2 h3 h5
      · intro hw
        simp only at hw ⊢
        rw [← h1, hw]
        simp [inFlight]
      · intro _
        simp only
        rw [← h1]
        simp
    | finish _ x hw =>
      unfold Queue.finish
      rw [hw] at h1 h3 ⊢
      exact ⟨by simpa [inFlight] using h1, by simp [h2], by simpa using h3, by simp, h5⟩
    | completed _ x hw =>
      unfold Queue.sendCompleted
      rw [hw] at h1 ⊢
      refine Inv.process ?_ ?_ h2 ?_ h5
      · intro _
        simpa [inFlight] using h1
      · simp
      · simp

/-! ## Main theorems -/

/-- Whatever the interleaving of sends and completions: on every socket, the messages that have been written are the first ones that were sent on it, in the same order and without loss
or duplication; callbacks come in the same order; writes never overlap. Here `sock` is the socket of an item. -/
theorem C69_order {σ : Type} [DecidableEq σ] (sock : α → σ) (s : State α) (h : Reachable s) :
    s.overlap = false ∧ s.called = s.written ∧
    ∀ c, (s.written.filter fun x => sock x = c) <+: s.dispatched.filter fun x => sock x = c := by
  have hi := h.inv
  refine ⟨hi.overlap, hi.called, fun c => ?_⟩
  rw [← hi.order, List.append_assoc, List.filter_append]
  exact List.prefix_append _ _

/-- If no write is in progress, everything that was sent has been written. -/
theorem C69_none_lost (s : State α) (h : Reachable s) (hw : s.write = .idle) : s.written = s.dispatched := by
  have hi := h.inv
  have := hi.order
  rw [hw, hi.waiting hw] at this
  simpa [inFlight] using this

/-- A write in progress can always finish, and after finitely many completions without further sends everything is written. -/
theorem C69_drains (s : State α) (h : Reachable s) : ∃ s', Relation.ReflTransGen Step s s' ∧ s'.write = .idle ∧ s'.dispatched = s.dispatched ∧ s'.written = s.dispatched := by
  have key : ∀ (k : ℕ) (s : State α), Reachable s → s.queue.length = k → ∃ s', Relation.ReflTransGen Step s s' ∧ s'.write = .idle ∧ s'.dispatched = s.dispatched := by
    intro k
    induction k with
    | zero =>
      intro s hr hk
      have hq : s.queue = [] := List.length_eq_zero_iff.1 hk
      cases hw : s.write with
      | idle => exact ⟨s, .refl, hw, rfl⟩
      | running x =>
        refine ⟨_, (Relation.ReflTransGen.single (Step.finish s x hw)).tail (Step.completed _ x (by simp [finish, hw])), ?_, ?_⟩ <;>
          simp [finish, sendCompleted, process, hw, hq]
      | calledBack x =>
        refine ⟨_, Relation.ReflTransGen.single (Step.completed s x hw), ?_, ?_⟩ <;> simp [sendCompleted, process, hw, hq]
    | succ k ih =>
      intro s hr hk
      obtain ⟨y, q, hq⟩ := List.exists_cons_of_length_eq_add_one hk
      have hlen : q.length = k := by rw [hq] at hk; simpa using hk
      have hb : s.write ≠ .idle := by
        intro e
        have := hr.inv.waiting e
        rw [hq] at this
        cases this
      have hone : ∃ s1, Relation.ReflTransGen Step s s1 ∧ s1.queue = q ∧ s1.dispatched = s.dispatched := by
        cases hw : s.write with
        | idle => exact absurd hw hb
        | running x =>
          refine ⟨_, (Relation.ReflTransGen.single (Step.finish s x hw)).tail (Step.completed _ x (by simp [finish, hw])), ?_, ?_⟩ <;>
            simp [finish, sendCompleted, process, hw, hq]
        | calledBack x =>
          refine ⟨_, Relation.ReflTransGen.single (Step.completed s x hw), ?_, ?_⟩ <;> simp [sendCompleted, process, hw, hq]
      obtain ⟨s1, hs1, hq1, hd1⟩ := hone
      obtain ⟨s2, hs2, hw2, hd2⟩ := ih s1 (hr.trans hs1) (by rw [hq1]; exact hlen)
      exact ⟨s2, hs1.trans hs2, hw2, hd2.trans hd1⟩
  obtain ⟨s', h1, h2, h3⟩ := key _ s h rfl
  exact ⟨s', h1, h2, h3, (C69_none_lost s' (h.trans h1) h2).trans h3⟩

/-- Non-vacuity: three sends, the second one between the callback of the first and its completion. -/
example : (dispatch 3 (sendCompleted (dispatch 2 (finish (dispatch 1 (init : State ℕ)))))).written = [1] ∧
    (dispatch 3 (sendCompleted (dispatch 2 (finish (dispatch 1 (init : State ℕ)))))).queue = [3] := by decide

end Verif.Com.Queue
