import Verif.Api.ActionsLemmas

/-!
# The writer with an action (C122)
-/

set_option autoImplicit false

namespace Verif.DataPath

variable {V : Type}

/-- The samples after the window start that are sent in an iteration: the accelerated ones if there are any, else the mapped ones, each with the action
applied once. -/
def Writer.actedSamples (c : Writer V) (f : V → V) (steps : Samples V) (acc : Option (Samples V)) : Samples V :=
  acc.getD ((c.produced steps).map (acted f))

theorem Writer.actedSamples_covers {c : Writer V} {f : V → V} {t now : ℚ} {steps : Samples V} {acc : Option (Samples V)} (hs : Covers t now steps)
    (ha : ∀ new, acc = some new → Covers t now new) : Covers t now (c.actedSamples f steps acc) := by
  unfold Writer.actedSamples
  cases acc with
  | none => exact (c.produced_covers hs).acted f
  | some new => exact ha new rfl

theorem Writer.iterateAct_ok {c : Writer V} {f : V → V} {T now : ℚ} {v : V} {p : ℚ × V} {s : WriterState V} {steps : Samples V} {acc : Option (Samples V)}
    (h : c.At T v p s) (hs : Covers p.1 now steps) (ha : ∀ new, acc = some new → Covers p.1 now new) :
    ∃ s' msg, c.iterateAct f T steps acc s = .ok (s', msg) ∧ c.out s' = acted f p :: c.actedSamples f steps acc ∧
      (c.map.isSome = true → s'.prov = (p.1, v) :: c.kept steps) ∧
      ∀ at', Delivers c.substeps at' (acted f p) msg (exchanged c.substeps at' (c.actedSamples f steps acc)) := by
  have htol := tol_pos
  obtain ⟨h1, h2⟩ := Writer.store_ok h hs
  have hp := c.produced_covers hs
  have hS := Writer.actedSamples_covers (c := c) (f := f) hs ha
  obtain ⟨msg, hmsg, hdel⟩ := message_delivers c.substeps (acted f p) _ hS
  have hacc : ∀ new l : Samples V, Covers p.1 now l → accelerate T new (acted f p :: l) = acted f p :: new := by
    intro new l hl
    unfold accelerate
    rw [trimAfter_start (s := acted f p) h.upper fun b hb => by have := hl.1 b hb; have := h.lower; linarith]
    rfl
  have hperf : perform f (p :: c.produced steps) = .ok (acted f p :: (c.produced steps).map (acted f)) := perform_ok f hp.gap
  unfold Writer.iterateAct
  rw [h1]
  cases hm : c.map with
  | none =>
    have hv : (p.1, v) = p := by rw [h.same hm]
    have hprod : c.produced steps = c.kept steps := by
      unfold Writer.produced
      rw [hm]
      exact List.map_id _
    rw [hprod] at hperf
    cases acc with
    | none =>
      refine ⟨⟨acted f p :: (c.kept steps).map (acted f), s.sent⟩, msg, ?_, ?_, by simp, hdel⟩
      · simp only [hv, Except.bind, bind, Writer.out, Writer.setOut, hm, Option.isSome_none, Bool.false_eq_true, if_false, hperf]
        rw [← hprod]
        have : message c.substeps (acted f p :: (c.produced steps).map (acted f)) = .ok msg := hmsg
        rw [this]
      · simp [Writer.out, hm, Writer.actedSamples, hprod]
    | some new =>
      refine ⟨⟨acted f p :: new, s.sent⟩, msg, ?_, ?_, by simp, hdel⟩
      · simp only [hv, Except.bind, bind, Writer.out, Writer.setOut, hm, Option.isSome_none, Bool.false_eq_true, if_false, hperf]
        rw [hacc new _ ((c.kept_covers hs).acted f)]
        have : message c.substeps (acted f p :: new) = .ok msg := hmsg
        rw [this]
      · simp [Writer.out, hm, Writer.actedSamples]
  | some m =>
    have h2 := h2 m hm
    cases acc with
    | none =>
      refine ⟨⟨(p.1, v) :: c.kept steps, acted f p :: (c.produced steps).map (acted f)⟩, msg, ?_, ?_, fun _ => rfl, hdel⟩
      · simp only [Except.bind, bind, h2, Writer.out, Writer.setOut, hm, Option.isSome_some, if_true, hperf]
        have : message c.substeps (acted f p :: (c.produced steps).map (acted f)) = .ok msg := hmsg
        rw [this]
      · simp [Writer.out, hm, Writer.actedSamples]
    | some new =>
      refine ⟨⟨(p.1, v) :: c.kept steps, acted f p :: new⟩, msg, ?_, ?_, fun _ => rfl, hdel⟩
      · simp only [Except.bind, bind, h2, Writer.out, Writer.setOut, hm, Option.isSome_some, if_true, hperf]
        rw [hacc new _ (hp.acted f)]
        have : message c.substeps (acted f p :: new) = .ok msg := hmsg
        rw [this]
      · simp [Writer.out, hm, Writer.actedSamples]

/-- Repeating the window leaves its first sample as the action left it. -/
theorem Writer.finishAct_repeat {c : Writer V} {f : V → V} {T now next : ℚ} {v : V} {p : ℚ × V} {s s' : WriterState V} {steps new : Samples V}
    (h : c.At T v p s) (hs : Covers p.1 now steps) (hn : Covers p.1 now new) (ho : c.out s' = acted f p :: new)
    (hp : c.map.isSome = true → s'.prov = (p.1, v) :: c.kept steps) : ∃ v', c.At T v' (acted f p) (c.finish T next false s') := by
  cases hm : c.map with
  | none =>
    refine ⟨f p.2, Writer.finish_repeat (s := ⟨[(p.1, f p.2)], []⟩) ⟨h.lower, h.upper, rfl, by simp [hm], fun _ => rfl⟩ hs hn ho (by simp [hm])⟩
  | some m =>
    exact ⟨v, Writer.finish_repeat (s := ⟨[(p.1, v)], [acted f p]⟩) ⟨h.lower, h.upper, rfl, fun _ => rfl, by simp [hm]⟩ hs hn ho hp⟩

/-- Completing the window leaves the last sample. -/
theorem Writer.finishAct_complete {c : Writer V} {T now next : ℚ} {v z : V} {p p' : ℚ × V} {s' : WriterState V} {steps k : Samples V}
    (hs : Covers p.1 now steps) (hnext : |now - next| ≤ tol) (ho : c.out s' = p' :: (k ++ [(now, z)]))
    (hp : c.map.isSome = true → s'.prov = (p.1, v) :: c.kept steps) : ∃ v', c.At next v' (now, z) (c.finish T next true s') := by
  have htol := tol_pos
  obtain ⟨hn1, hn2⟩ := abs_le.1 hnext
  have hmove : move (c.out s') = [(now, z)] := by rw [ho, ← List.cons_append, move_end]
  have hlast : ∀ w : V, trimBefore next [(now, w)] = [(now, w)] := by
    intro w
    exact trimBefore_all fun b hb => by
      rw [List.mem_singleton] at hb
      subst hb
      change next ≤ now + tol
      linarith
  have hkc := c.kept_covers hs
  obtain ⟨-, hgap, j, x, hk⟩ := id hkc
  unfold Writer.finish
  simp only [if_true]
  rw [hmove]
  cases hm : c.map with
  | none =>
    simp only [Writer.setOut, hm, Option.isSome_none, Bool.false_eq_true, if_false]
    refine ⟨z, ?_, ?_, hlast z, by simp [hm], fun _ => rfl⟩
    · change next ≤ now + tol
      linarith
    · change now ≤ next + tol
      linarith
  | some m =>
    simp only [Writer.setOut, hm, Option.isSome_some, if_true]
    refine ⟨x, ?_, ?_, ?_, fun _ => hlast _, by simp [hm]⟩
    · change next ≤ now + tol
      linarith
    · change now ≤ next + tol
      linarith
    · change trimBefore next s'.prov = _
      rw [hp (by simp [hm]), hk, ← List.cons_append]
      refine trimBefore_end (by change next ≤ now + tol; linarith) ?_
      intro b hb
      rw [List.mem_cons] at hb
      rcases hb with rfl | hb
      · have := hs.lt
        change p.1 + tol < next
        linarith
      · rw [hk] at hgap
        have : b.1 + 2 * tol < now := (Gap.append_iff.1 hgap).2.2 b hb (now, x) (by simp)
        linarith

/-- `initialize`: the action is applied once to the initial sample. -/
theorem Writer.initAct_ok (c : Writer V) (f : V → V) (v : V) :
    ∃ s p v', c.initAct f v = .ok s ∧ c.At 0 v' (acted f p) s ∧ c.out s = [acted f p] ∧ Shows c.map (0, v) p := by
  have htol := tol_pos
  have h0 : setSample (0 : ℚ) v [] = .ok [(0, v)] := rfl
  have hperf : ∀ q : ℚ × V, perform f [q] = .ok [acted f q] := fun q => perform_ok f (List.pairwise_singleton _ _)
  unfold Writer.initAct Writer.init
  rw [h0]
  cases hm : c.map with
  | none =>
    simp only [bind, Except.bind, Writer.out, Writer.setOut, hm, Option.isSome_none, Bool.false_eq_true, if_false, hperf]
    refine ⟨_, (0, v), f v, rfl, ⟨?_, ?_, rfl, by simp [hm], fun _ => rfl⟩, rfl, rfl, .inl rfl⟩
    · change (0 : ℚ) ≤ 0 + tol
      linarith
    · change (0 : ℚ) ≤ 0 + tol
      linarith
  | some m =>
    have hmap := mapData_append (m := m) (after := none) (z := true) [] [(0, v)] [] (by simp) (by simp) (by simp) (List.pairwise_singleton _ _)
    simp only [List.nil_append, List.map_cons, List.map_nil] at hmap
    simp only [bind, Except.bind, hmap, Writer.out, Writer.setOut, hm, Option.isSome_some, if_true, hperf]
    refine ⟨_, m.sample true (0, v), v, rfl, ⟨?_, ?_, rfl, fun _ => rfl, by simp [hm]⟩, rfl, ?_⟩
    · change (0 : ℚ) ≤ 0 + tol
      linarith
    · change (0 : ℚ) ≤ 0 + tol
      linarith
    · exact shows_sample m true (0, v)

/-! ## Specification -/

/-- What the messages carry if the window starts with the sample `p`: the window start and the new samples. The new samples are those of the iteration with
the action applied once; the window start gets the action once more in every iteration. -/
def expectSent (c : Writer V) (f : V → V) (p : ℚ × V) : List (WIter V) → List ((ℚ × V) × Samples V)
  | [] => []
  | i :: l => (acted f p, c.actedSamples f i.steps i.acc) ::
      expectSent c f (if i.complete then (c.actedSamples f i.steps i.acc).getLastD p else acted f p) l

/-- The times of the iterations fit together: a window starts at `T` and its first sample is at `t`; `now` is the end of the iteration. -/
def WSchedule (t T : ℚ) : List (WIter V) → Prop
  | [] => True
  | i :: l => i.start = T ∧ ∃ now, Covers t now i.steps ∧ (∀ n, i.acc = some n → Covers t now n) ∧
    (i.complete = true → |now - i.next| ≤ tol ∧ WSchedule now i.next l) ∧ (i.complete = false → WSchedule t T l)

/-- The message carries the window start and the new samples with substeps, and the value at the end without. -/
def Carries (substeps : Bool) (e : (ℚ × V) × Samples V) (msg : Msg V) : Prop := ∀ at', Delivers substeps at' e.1 msg (exchanged substeps at' e.2)

theorem sendRun_ok {c : Writer V} {f : V → V} (l : List (WIter V)) {t T : ℚ} {v : V} {p : ℚ × V} {s : WriterState V} (hsch : WSchedule t T l)
    (hp : p.1 = t) (h : c.At T v p s) : ∃ msgs, sendRun c f l s = .ok msgs ∧ List.Forall₂ (Carries c.substeps) (expectSent c f p l) msgs := by
  induction l generalizing t T v p s with
  | nil => exact ⟨[], rfl, .nil⟩
  | cons i l ih =>
    obtain ⟨hstart, now, hcov, hacc, hcomp, hrep⟩ := hsch
    subst hp
    subst hstart
    obtain ⟨s', msg, h1, h2, h3, h4⟩ := Writer.iterateAct_ok (f := f) h hcov hacc
    have hA := Writer.actedSamples_covers (c := c) (f := f) hcov hacc
    unfold sendRun expectSent
    rw [h1]
    simp only [bind, Except.bind]
    cases hc : i.complete with
    | true =>
      obtain ⟨hnext, hsch'⟩ := hcomp hc
      obtain ⟨-, -, k, z, hk⟩ := id hA
      rw [hk] at h2
      obtain ⟨v', hw'⟩ := Writer.finishAct_complete (T := i.start) hcov hnext h2 h3
      obtain ⟨msgs, h7, h8⟩ := ih (p := (now, z)) hsch' rfl hw'
      rw [h7]
      refine ⟨_, rfl, .cons h4 ?_⟩
      have : (c.actedSamples f i.steps i.acc).getLastD p = (now, z) := by rw [hk]; simp
      rw [if_pos rfl, this]
      exact h8
    | false =>
      obtain ⟨v', hw'⟩ := Writer.finishAct_repeat (f := f) (next := i.next) h hcov hA h2 h3
      obtain ⟨msgs, h7, h8⟩ := ih (p := acted f p) (hrep hc) rfl hw'
      rw [h7]
      refine ⟨_, rfl, .cons h4 ?_⟩
      simpa using h8

end Verif.DataPath
