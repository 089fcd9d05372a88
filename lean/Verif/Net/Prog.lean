import Mathlib.Logic.Function.Basic
import Mathlib.Data.List.Basic

/-!
# Communicating programs

A finite interaction tree: what one participant does during an API call, seen from the network.
`M2N::send` / `M2N::receive` are the primitive operations, `fail` is a failed `PRECICE_CHECK`
(`Err.check`) or a failed `PRECICE_ASSERT` (`Err.assert`).
-/

set_option autoImplicit false

namespace Verif

/-- Why a program stopped abnormally: user-visible error or violated internal assertion. -/
inductive Err where
  | check
  | assert
deriving DecidableEq, Repr

/-- Interaction trees over peers `ι` and messages `M`. -/
inductive Prog (ι M α : Type) : Type where
  | ret (a : α)
  | send (dst : ι) (m : M) (k : Prog ι M α)
  | recv (src : ι) (k : M → Prog ι M α)
  | fail (e : Err)

namespace Prog

variable {ι M α β γ : Type}

/-- Sequential composition. -/
def bind : Prog ι M α → (α → Prog ι M β) → Prog ι M β
  | ret a, f => f a
  | send dst m k, f => send dst m (k.bind f)
  | recv src k, f => recv src (fun m => (k m).bind f)
  | fail e, _ => fail e

@[simp] theorem ret_bind (a : α) (f : α → Prog ι M β) : (ret a : Prog ι M α).bind f = f a := rfl
@[simp] theorem send_bind (dst : ι) (m : M) (k : Prog ι M α) (f : α → Prog ι M β) :
    (send dst m k).bind f = send dst m (k.bind f) := rfl
@[simp] theorem recv_bind (src : ι) (k : M → Prog ι M α) (f : α → Prog ι M β) :
    (recv src k).bind f = recv src (fun m => (k m).bind f) := rfl
@[simp] theorem fail_bind (e : Err) (f : α → Prog ι M β) :
    (fail e : Prog ι M α).bind f = fail e := rfl

theorem bind_assoc (p : Prog ι M α) (f : α → Prog ι M β) (g : β → Prog ι M γ) :
    (p.bind f).bind g = p.bind (fun a => (f a).bind g) := by
  induction p with
  | ret a => rfl
  | send dst m k ih => simp [ih]
  | recv src k ih => simp [ih]
  | fail e => rfl

theorem bind_ret (p : Prog ι M α) : p.bind Prog.ret = p := by
  induction p with
  | ret a => rfl
  | send dst m k ih => simp [ih]
  | recv src k ih => simp [ih]
  | fail e => rfl

/-- A failed assertion / check if the condition does not hold. -/
def ensure (e : Err) (c : Prop) [Decidable c] (k : Prog ι M α) : Prog ι M α :=
  if c then k else fail e

/-- A communication event of one participant. -/
inductive Ev (ι M : Type) where
  | sent (dst : ι) (m : M)
  | got (src : ι) (m : M)

/-- `Run p tr a`: with some environment the program performs the events `tr` and returns `a`.
The environment is arbitrary, i.e. any message may be received. -/
inductive Run : Prog ι M α → List (Ev ι M) → α → Prop where
  | ret (a : α) : Run (ret a) [] a
  | send (dst : ι) (m : M) {k : Prog ι M α} {tr a} : Run k tr a → Run (send dst m k) (.sent dst m :: tr) a
  | recv (src : ι) (m : M) {k : M → Prog ι M α} {tr a} :
      Run (k m) tr a → Run (recv src k) (.got src m :: tr) a

@[simp] theorem run_ret {a b : α} {tr : List (Ev ι M)} :
    Run (Prog.ret a) tr b ↔ tr = [] ∧ b = a := by
  constructor
  · intro h; cases h; exact ⟨rfl, rfl⟩
  · rintro ⟨rfl, rfl⟩; exact .ret _

@[simp] theorem run_fail {e : Err} {b : α} {tr : List (Ev ι M)} :
    ¬ Run (Prog.fail e) tr b := by
  intro h; cases h

@[simp] theorem run_send {dst : ι} {m : M} {k : Prog ι M α} {b : α} {tr : List (Ev ι M)} :
    Run (Prog.send dst m k) tr b ↔ ∃ tr', tr = .sent dst m :: tr' ∧ Run k tr' b := by
  constructor
  · intro h; cases h; exact ⟨_, rfl, ‹_›⟩
  · rintro ⟨tr', rfl, h⟩; exact .send _ _ h

@[simp] theorem run_recv {src : ι} {k : M → Prog ι M α} {b : α} {tr : List (Ev ι M)} :
    Run (Prog.recv src k) tr b ↔ ∃ m tr', tr = .got src m :: tr' ∧ Run (k m) tr' b := by
  constructor
  · intro h; cases h; exact ⟨_, _, rfl, ‹_›⟩
  · rintro ⟨m, tr', rfl, h⟩; exact .recv _ _ h

@[simp] theorem run_ensure {e : Err} {c : Prop} [Decidable c] {k : Prog ι M α} {b : α}
    {tr : List (Ev ι M)} : Run (ensure e c k) tr b ↔ c ∧ Run k tr b := by
  unfold ensure; split <;> simp_all

theorem run_bind {p : Prog ι M α} {f : α → Prog ι M β} {b : β} {tr : List (Ev ι M)} :
    Run (p.bind f) tr b ↔ ∃ t1 t2 a, tr = t1 ++ t2 ∧ Run p t1 a ∧ Run (f a) t2 b := by
  induction p generalizing tr with
  | ret a => simp
  | fail e => simp
  | send dst m k ih =>
    simp only [send_bind, run_send, ih]
    constructor
    · rintro ⟨tr', rfl, t1, t2, a, rfl, h1, h2⟩
      exact ⟨.sent dst m :: t1, t2, a, rfl, ⟨t1, rfl, h1⟩, h2⟩
    · rintro ⟨_, t2, a, rfl, ⟨t1, rfl, h1⟩, h2⟩
      exact ⟨t1 ++ t2, rfl, t1, t2, a, rfl, h1, h2⟩
  | recv src k ih =>
    simp only [recv_bind, run_recv, ih]
    constructor
    · rintro ⟨m, tr', rfl, t1, t2, a, rfl, h1, h2⟩
      exact ⟨.got src m :: t1, t2, a, rfl, ⟨m, t1, rfl, h1⟩, h2⟩
    · rintro ⟨_, t2, a, rfl, ⟨m, t1, rfl, h1⟩, h2⟩
      exact ⟨m, t1 ++ t2, rfl, t1, t2, a, rfl, h1, h2⟩

end Prog
end Verif

namespace Verif.Prog

variable {ι M α β : Type}

/-- Evaluate a program, feeding it the given received messages in order. Used for examples. -/
def eval : Prog ι M α → List M → Option (α × List M)
  | ret a, ms => some (a, ms)
  | send _ _ k, ms => k.eval ms
  | recv _ _, [] => none
  | recv _ k, m :: ms => (k m).eval ms
  | fail _, _ => none

theorem run_of_eval {p : Prog ι M α} {ms ms' : List M} {a : α} (h : p.eval ms = some (a, ms')) :
    ∃ tr, Run p tr a := by
  induction p generalizing ms with
  | ret b => simp only [eval, Option.some.injEq, Prod.mk.injEq] at h; exact ⟨[], by simp [h.1]⟩
  | send dst m k ih =>
    obtain ⟨tr, h'⟩ := ih h
    exact ⟨_, .send _ _ h'⟩
  | recv src k ih =>
    cases ms with
    | nil => simp [eval] at h
    | cons m ms =>
      obtain ⟨tr, h'⟩ := ih m h
      exact ⟨_, .recv _ m h'⟩
  | fail e => simp [eval] at h

end Verif.Prog
