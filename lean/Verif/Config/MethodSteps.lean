import Verif.Config.MethodLemmas

/-!
# A tag of a mapping with its subtags
-/

set_option autoImplicit false

namespace Verif.Config.MapMethod

open Verif.Config.Scheme (Err)
open Verif.Config.Part (Constraint Kind)

/-- The part of `_rbfConfig` the subtags set. -/
def basisAfter (b : Build) (r r' : Rbf) : List BasisTag → Prop
  | [] => r' = r
  | [t] => r.basis = none ∧ ∃ v, readBasis b t = .ok v ∧ r' = { r with basis := some v }
  | _ => False

/-- `_executorConfig` after the subtags. -/
def execAfter (k : Kind) (e e' : Option Exec) : List ExecutorTag → Prop
  | [] => e' = e
  | t :: l => ∃ x, knowsExecutor k t.executor = true ∧ readExec k t = .ok x ∧ execAfter k (some x) e' l

theorem subTags_iff (b : Build) (kind : Kind) (dim : ℕ) (jit : Bool) (m : Option Method)
    (hk : requiresBasis kind = true) (l : List Sub) (s s' : State)
    (hc : s.current = some (kind, dim, jit, m)) :
    subTags b s l = .ok s' ↔ basisAfter b s.rbf s'.rbf (bases l) ∧ execAfter kind s.exec s'.exec (execs l) ∧
      s'.done = s.done ∧ s'.current = s.current ∧ s'.constraint = s.constraint := by
  induction l generalizing s with
  | nil =>
    simp only [subTags, Except.ok.injEq, bases, execs, List.filterMap_nil, basisAfter, execAfter]
    constructor
    · rintro rfl; simp
    · rintro ⟨h1, h2, h3, h4, h5⟩
      obtain ⟨a1, a2, a3, a4, a5⟩ := s
      obtain ⟨b1, b2, b3, b4, b5⟩ := s'
      dsimp only at h1 h2 h3 h4 h5
      subst h1 h2 h3 h4 h5
      rfl
  | cons t l ih =>
    simp only [subTags, bind_ok]
    cases t with
    | basis t =>
      have e1 : bases (.basis t :: l) = t :: bases l := rfl
      have e2 : execs (.basis t :: l) = execs l := rfl
      rw [e1, e2]
      have eb : ∀ x, subTag b s (.basis t) = .ok x ↔
          s.rbf.basis = none ∧ ∃ v, readBasis b t = .ok v ∧ x = { s with rbf := { s.rbf with basis := some v } } := by
        intro x
        simp only [subTag, basisTag, hc]
        rw [if_neg (by rw [hk]; simp)]
        cases hb : s.rbf.basis with
        | some v => simp
        | none =>
          simp only [Option.isSome_none, Bool.false_eq_true, if_false, bind_ok, Except.ok.injEq, true_and]
          exact exists_congr fun v => and_congr_right fun _ => by rw [← hc]; exact eq_comm
      simp only [eb]
      constructor
      · rintro ⟨x, ⟨hn, v, hv, rfl⟩, h⟩
        obtain ⟨h1, h2, h3, h4, h5⟩ := (ih _ (by exact hc)).mp h
        refine ⟨?_, h2, h3, h4, h5⟩
        cases hl : bases l with
        | nil =>
          rw [hl] at h1
          exact ⟨hn, v, hv, h1⟩
        | cons y r =>
          rw [hl] at h1
          cases r with
          | nil => obtain ⟨h, _⟩ := h1; cases h
          | cons _ _ => exact h1
      · rintro ⟨h1, h2, h3, h4, h5⟩
        cases hl : bases l with
        | nil =>
          rw [hl] at h1
          obtain ⟨hn, v, hv, he⟩ := h1
          refine ⟨_, ⟨hn, v, hv, rfl⟩, (ih _ (by exact hc)).mpr ⟨?_, h2, h3, h4, h5⟩⟩
          rw [hl]
          exact he
        | cons y r => rw [hl] at h1; exact h1.elim
    | executor t =>
      have e1 : bases (.executor t :: l) = bases l := rfl
      have e2 : execs (.executor t :: l) = t :: execs l := rfl
      rw [e1, e2]
      have eb : ∀ x, subTag b s (.executor t) = .ok x ↔
          knowsExecutor kind t.executor = true ∧ ∃ v, readExec kind t = .ok v ∧ x = { s with exec := some v } := by
        intro x
        simp only [subTag, executorTag, hc]
        cases hb : knowsExecutor kind t.executor with
        | false => simp
        | true =>
          simp only [Bool.true_eq_false, if_false, bind_ok, Except.ok.injEq, true_and]
          exact exists_congr fun v => and_congr_right fun _ => by rw [← hc]; exact eq_comm
      simp only [eb]
      constructor
      · rintro ⟨x, ⟨hn, v, hv, rfl⟩, h⟩
        obtain ⟨h1, h2, h3, h4, h5⟩ := (ih _ (by exact hc)).mp h
        exact ⟨h1, ⟨v, hn, hv, h2⟩, h3, h4, h5⟩
      · rintro ⟨h1, ⟨v, hn, hv, h2⟩, h3, h4, h5⟩
        exact ⟨_, ⟨hn, v, hv, rfl⟩, (ih _ (by exact hc)).mpr ⟨h1, h2, h3, h4, h5⟩⟩

/-- Only the last executor counts. -/
theorem execAfter_iff (k : Kind) (l : List ExecutorTag) (e' : Option Exec) (e : Option Exec) :
    execAfter k e e' l ↔ (∀ t ∈ l, ExecutorOk k t) ∧
      match l.getLast? with
      | none => e' = e
      | some t => ∃ x, readExec k t = .ok x ∧ e' = some x := by
  induction l generalizing e with
  | nil => simp [execAfter]
  | cons t l ih =>
    simp only [execAfter, ih]
    have hok : ExecutorOk k t ↔ ∃ x, knowsExecutor k t.executor = true ∧ readExec k t = .ok x := by
      constructor
      · intro h
        have : ∃ v, deviceId (t.device.getD "0".toList) = .ok v := by
          cases hd : t.device with
          | none => exact ⟨0, deviceId_zero⟩
          | some d => exact (h.device d hd).2
        obtain ⟨v, hv⟩ := this
        exact ⟨⟨_, v, _, _⟩, (readExec_iff k t _).mpr ⟨h, rfl, hv, rfl, rfl⟩⟩
      · rintro ⟨x, h⟩
        exact ((readExec_iff k t x).mp h).1
    have hc : (∀ t' ∈ t :: l, ExecutorOk k t') ↔ ExecutorOk k t ∧ ∀ t' ∈ l, ExecutorOk k t' := by simp
    rw [hc, hok]
    cases hl : l.getLast? with
    | none =>
      have hl' : l = [] := by simpa using hl
      subst hl'
      simp only [List.getLast?_singleton]
      constructor
      · rintro ⟨x, h1, h2, _, h3⟩
        exact ⟨⟨⟨x, h1, h2⟩, by simp⟩, x, h2, h3⟩
      · rintro ⟨⟨⟨x, h1, h2⟩, h4⟩, x', h2', h3⟩
        exact ⟨x', h1, h2', by simp, h3⟩
    | some y =>
      have hl' : (t :: l).getLast? = some y := by
        cases l with
        | nil => cases hl
        | cons z r => rw [← hl]; rfl
      rw [hl']
      constructor
      · rintro ⟨x, h1, h2, h3, h4⟩
        exact ⟨⟨⟨x, h1, h2⟩, h3⟩, h4⟩
      · rintro ⟨⟨⟨x, h1, h2⟩, h3⟩, h4⟩
        exact ⟨x, h1, h2, h3, h4⟩

end Verif.Config.MapMethod
