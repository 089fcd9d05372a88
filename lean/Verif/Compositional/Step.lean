import Verif.Compositional.Local

/-!
# Invariant of a composition (helper lemmas)
-/

set_option autoImplicit false

namespace Verif

open Prog

variable {ι D : Type}

namespace Comp

/-- Length of the current window: the distance from its start to its end. -/
def winLen (t : TimeHandler) (w : ℚ) : ℚ := t.progress + t.untilWindowEnd w

theorem winLen_progress (t : TimeHandler) (w x : ℚ) : winLen { t with progress := x } w = winLen t w := by
  have h : ({ t with progress := x } : TimeHandler) = t.progressBy (x - t.progress) := by
    cases t; simp [TimeHandler.progressBy]
  unfold winLen
  rw [h, TimeHandler.untilWindowEnd_progressBy]
  simp only [TimeHandler.progressBy]; ring

/-- What the composition is made of: members of one window size `w`, the explicit ones with
different partners, the implicit one with other partners. -/
structure Shape (w : ℚ) (c : Comp ι D) (m : Member ι D) : Prop where
  bi : ∀ ms ∈ c.expl, BiExplicit ms.1
  nodup : (c.expl.map (·.1.peer)).Nodup
  nonempty : c.expl ≠ []
  implicit : m.cfg.implicit = true
  fixed : FixedHooks m.hooks
  apart1 : ∀ i s tr s', Run (m.hooks.first i s) tr s' → ∀ e ∈ tr, e.peer ∉ c.expl.map (·.1.peer)
  apart2 : ∀ i s tr s', Run (m.hooks.second i s) tr s' → ∀ e ∈ tr, e.peer ∉ c.expl.map (·.1.peer)

theorem Shape.congr {w : ℚ} {c c' : Comp ι D} {m : Member ι D} (h : Shape w c m)
    (e : c'.expl.map (·.1) = c.expl.map (·.1)) : Shape w c' m := by
  have e2 : c'.expl.map (·.1.peer) = c.expl.map (·.1.peer) := by
    have := congrArg (List.map Member.peer) e
    simpa [List.map_map, Function.comp_def] using this
  refine ⟨fun ms hm => ?_, e2 ▸ h.nodup, fun hx => ?_, h.implicit, h.fixed, ?_, ?_⟩
  · have : ms.1 ∈ c'.expl.map (·.1) := List.mem_map_of_mem hm
    rw [e, List.mem_map] at this
    obtain ⟨ms', h1, h2⟩ := this
    rw [← h2]; exact h.bi _ h1
  · rw [hx] at e; exact h.nonempty (List.map_eq_nil_iff.mp e.symm)
  · rw [e2]; exact h.apart1
  · rw [e2]; exact h.apart2

/-- Explicit members follow the implicit one: in step with it, or on hold at the end of the window
the implicit scheme repeats. -/
structure CInv (w : ℚ) (m : Member ι D) (s : State D) (c : Comp ι D) : Prop where
  impl : c.impl = some (m, s)
  at' : At w s.time s.windows s
  progress : 0 ≤ s.time.progress
  free : c.onHold = false → ∀ ms ∈ c.expl, At w s.time s.windows ms.2
  hold : c.onHold = true → (∀ ms ∈ c.expl, At w { s.time with progress := winLen s.time w } s.windows ms.2) ∧
    s.time.progress < winLen s.time w

theorem members_fulfilAll (c : Comp ι D) : c.fulfilAll.expl.map (·.1) = c.expl.map (·.1) := by
  unfold fulfilAll; dsimp only; split <;> simp [List.map_map, Function.comp_def]

theorem CInv.fulfilAll {w : ℚ} {m : Member ι D} {s : State D} {c : Comp ι D} (h : CInv w m s c) :
    CInv w m s.fulfilAll c.fulfilAll := by
  refine ⟨by simp [Comp.fulfilAll, h.impl], ⟨rfl, h.at'.size, h.at'.nextSize, rfl⟩, h.progress, ?_, ?_⟩
  · intro hh ms hm
    have hh' : c.onHold = false := hh
    simp only [Comp.fulfilAll, h.impl, hh', Option.isSome_some, Bool.and_false, Bool.false_eq_true,
      if_false, List.mem_map] at hm
    obtain ⟨ms', hm', rfl⟩ := hm
    have := h.free hh' ms' hm'
    exact ⟨this.time, this.size, this.nextSize, this.windows⟩
  · intro hh
    have hh' : c.onHold = true := hh
    refine ⟨fun ms hm => ?_, (h.hold hh').2⟩
    simp only [Comp.fulfilAll, h.impl, hh', Option.isSome_some, Bool.and_true, if_true] at hm
    exact (h.hold hh').1 ms hm

theorem run_addTime {c : Config} {s s' : State D} {dt : ℚ} {tr : List (Ev ι (Msg D))}
    (h : Run (addComputedTime (ι := ι) c s dt ret) tr s') :
    tr = [] ∧ s' = { s with time := s.time.progressBy dt } ∧ s.ongoing c ∧ tol < dt ∧
      dt ≤ s.maxStep c + tol := by
  unfold addComputedTime at h
  simp only [run_ensure, run_ret] at h
  obtain ⟨hon, hne, hpos, _, hle, rfl, rfl⟩ := h
  refine ⟨rfl, rfl, hon, ?_, ?_⟩
  · by_contra hcon
    push Not at hcon
    exact hne (equals_iff.mpr ⟨by linarith [tol_pos], by linarith⟩)
  · unfold greaterEquals at hle; linarith

theorem foldr_min_eq {u : ℚ} (hu : u ≤ dblMax) (l : List (Member ι D × State D))
    (h : ∀ ms ∈ l, ms.2.maxStep ms.1.cfg = u) :
    min u (l.foldr (fun ms x => min (ms.2.maxStep ms.1.cfg) x) dblMax) = u := by
  induction l with
  | nil => exact min_eq_left hu
  | cons a l ih =>
    simp only [List.mem_cons, forall_eq_or_imp] at h
    rw [List.foldr_cons, h.1, ← min_assoc, min_self]
    exact ih h.2

theorem At.maxStep {w : ℚ} {t : TimeHandler} {n : ℕ} {s : State D} (h : At w t n s) (hw : 0 < w) {c : Config}
    (hon : s.ongoing c) : s.maxStep c = t.untilWindowEnd w := by
  rw [maxStep_of hon (h.hasSize hw), h.time, h.size]

/-- What one call of `advance` on a composition does. -/
structure Stepped [DecidableEq ι] (w : ℚ) (m : Member ι D) (c : Comp ι D) (i : StepIn D)
    (tr : List (Ev ι (Msg D))) (c' : Comp ι D) : Prop where
  inv : ∃ s', CInv w m s' c'
  members : c'.expl.map (·.1) = c.expl.map (·.1)
  sent : ∀ p ∈ c.expl.map (·.1.peer),
    sentMsgs p tr = if c'.complete then [.data i.value] else []
  quiet : c'.complete = false → ∀ e ∈ tr, e.peer ∉ c.expl.map (·.1.peer)
  held : c.onHold = true → c'.complete = false → c'.expl = c.expl ∧ c'.onHold = true

theorem progress_winLen {t : TimeHandler} {w dt : ℚ} (h : dt = t.untilWindowEnd w) :
    t.progressBy dt = { t with progress := winLen t w } := by
  subst h; rfl

/-- the part of `advance` after the explicit schemes were put on hold at the window end -/
theorem window_end [DecidableEq ι] {w : ℚ} {m : Member ι D} {s : State D}
    {c c1 c2 : Comp ι D} {i : StepIn D} {t1 t2 : List (Ev ι (Msg D))} (hsh : Shape w c m)
    (him : c.impl = some (m, s)) (hold : c.onHold = true) {t : TimeHandler} {n : ℕ} (hat : At w t n s)
    (hend : t.reachedEndOfWindow w) (hex : ∀ ms ∈ c.expl, At w t n ms.2) (hpr : 0 < t.progress)
    (hwl : t.progress = winLen t w)
    (h1 : Run (firstEx i c) t1 c1) (h2 : Run (secondEx i c1) t2 c2) :
    (∃ s', CInv w m s' c2) ∧ c2.expl.map (·.1) = c.expl.map (·.1) ∧
    (∀ p ∈ c.expl.map (·.1.peer), sentMsgs p (t1 ++ t2) = if c2.complete then [.data i.value] else []) ∧
    (c2.complete = false → ∀ e ∈ t1 ++ t2, e.peer ∉ c.expl.map (·.1.peer)) ∧
    (c2.complete = false → c2.expl = c.expl ∧ c2.onHold = true) := by
  have htol := tol_pos
  unfold firstEx at h1
  simp only [him] at h1
  rw [run_bind] at h1
  obtain ⟨ta, tb, s1, rfl, r1, r2⟩ := h1
  rw [if_pos hold, run_ret] at r2
  obtain ⟨rfl, rfl⟩ := r2
  obtain ⟨hat1, _, sa, _, r1'⟩ := memberFirst_end hsh.fixed hat hend r1
  have q1 := hsh.apart1 _ _ _ _ r1'
  unfold secondEx at h2
  dsimp only at h2
  rw [run_bind] at h2
  obtain ⟨tc, td, s2, rfl, r3, r4⟩ := h2
  obtain ⟨⟨s3, r3'⟩, ho⟩ := memberSecond_end hsh.fixed hat1 hend r3
  have q2 := hsh.apart2 _ _ _ _ r3'
  have q12 : ∀ e ∈ ta ++ [] ++ tc, e.peer ∉ c.expl.map (·.1.peer) := by
    intro e he
    simp only [List.append_nil, List.mem_append] at he
    exact he.elim (q1 e) (q2 e)
  obtain ⟨e0, l, hl⟩ : ∃ e0 l, c.expl = e0 :: l := by
    cases h : c.expl with
    | nil => exact absurd h hsh.nonempty
    | cons a l => exact ⟨a, l, rfl⟩
  rw [hl] at r4
  dsimp only at r4
  have he0 : e0.2.time.time = t.start + t.progress := by
    rw [(hex e0 (by rw [hl]; exact List.mem_cons_self)).time]; rfl
  rcases ho with ⟨hc, hat2⟩ | ⟨_, hc, hat2⟩
  · -- converged
    have hge : ¬ s2.time.time < e0.2.time.time := by
      rw [he0, hat2.time]
      unfold TimeHandler.completeTimeWindow
      split
      · rw [hwl]
        simp only [TimeHandler.time]
        have := TimeHandler.untilWindowEnd_le t w
        unfold winLen; linarith
      · simp [TimeHandler.time]
    rw [if_neg hge, run_bind] at r4
    obtain ⟨te, tf, l1, rfl, x1, x2⟩ := r4
    rw [run_bind] at x2
    obtain ⟨tg, th, l2, rfl, x2, x3⟩ := x2
    rw [run_ret] at x3
    obtain ⟨rfl, rfl⟩ := x3
    rw [← hl] at x1
    obtain ⟨y1, y2, y3⟩ := explicit_exchange hend hsh.bi hex hsh.nodup (run_forEach x1) (run_forEach x2)
    have hcomp : ({ impl := some (m, s2), expl := l2, onHold := false } : Comp ι D).complete = true := by
      simp [complete, active, hc]
    refine ⟨⟨s2, rfl, ⟨rfl, hat2.size, hat2.nextSize, rfl⟩, ?_, fun _ ms hm => ?_, fun h => by simp at h⟩, ?_,
      ?_, ?_, ?_⟩
    · rw [hat2.time]; unfold TimeHandler.completeTimeWindow; split <;> simp
    · rw [hat2.time, hat2.windows]; exact (y1 ms hm).1
    · dsimp only
      rw [(run_forEach x2).members, (run_forEach x1).members]
    · intro p hp
      rw [hcomp, if_pos rfl]
      have := y2 p hp
      rw [sentMsgs_append] at this
      simp only [sentMsgs_append] at *
      rw [sentMsgs_nil_of (a := ta) fun e he hx => q1 e he (hx ▸ hp),
        sentMsgs_nil_of (a := tc) fun e he hx => q2 e he (hx ▸ hp)]
      simpa [sentMsgs] using this
    · rw [hcomp]; intro h; cases h
    · rw [hcomp]; intro h; cases h
  · -- repeated
    have hlt : s2.time.time < e0.2.time.time := by
      rw [he0, hat2.time]; simp only [TimeHandler.time, TimeHandler.resetProgress]; linarith
    rw [if_pos hlt, ← hl, run_ensure, run_ret] at r4
    obtain ⟨_, rfl, rfl⟩ := r4
    have hcomp : ({ c with impl := some (m, s2) } : Comp ι D).complete = false := by
      simp [complete, active, hold, hc]
    refine ⟨⟨s2, rfl, ⟨rfl, hat2.size, hat2.nextSize, rfl⟩, ?_, fun h => ?_, fun _ => ⟨fun ms hm => ?_, ?_⟩⟩,
      rfl, ?_, ?_, fun _ => ⟨rfl, hold⟩⟩
    · rw [hat2.time]; simp [TimeHandler.resetProgress]
    · simp [hold] at h
    · have := hex ms hm
      refine ⟨?_, this.size, this.nextSize, this.windows.trans hat2.windows.symm⟩
      rw [this.time, hat2.time]
      unfold TimeHandler.resetProgress
      rw [winLen_progress, ← hwl]
    · rw [hat2.time]
      unfold TimeHandler.resetProgress
      rw [winLen_progress, ← hwl]; exact hpr
    · intro p hp
      rw [hcomp]
      simp only [Bool.false_eq_true, if_false]
      refine sentMsgs_nil_of fun e he hx => q12 e (by simpa using he) (hx ▸ hp)
    · intro _ e he
      exact q12 e (by simpa using he)

theorem step_cases [DecidableEq ι] {w : ℚ} (hw : tol < w) (hwd : w ≤ dblMax) {m : Member ι D}
    {s : State D} {c c' : Comp ι D} {i : StepIn D} {tr : List (Ev ι (Msg D))} (hsh : Shape w c m)
    (hi : CInv w m s c) (hsharp : Sharp c i.dt) (hr : Run (advance i c) tr c') :
    Stepped w m c i tr c' := by
  have htol := tol_pos
  have hw0 : 0 < w := by linarith
  unfold advance at hr
  rw [run_bind] at hr
  obtain ⟨ta, tb, c1, rfl, r1, r2⟩ := hr
  rw [run_bind] at r2
  obtain ⟨t1, t2, c2, rfl, r2, r3⟩ := r2
  unfold addTime at r1
  simp only [hi.impl] at r1
  rw [run_bind] at r1
  obtain ⟨tx, ty, s1, rfl, x1, x2⟩ := r1
  obtain ⟨rfl, rfl, hon, hdt, hle⟩ := run_addTime x1
  have hu : s.maxStep m.cfg = s.time.untilWindowEnd w := hi.at'.maxStep hw0 hon
  have hud : s.time.untilWindowEnd w ≤ dblMax := by
    have := TimeHandler.untilWindowEnd_le s.time w; linarith [hi.progress]
  have hat1 : At w (s.time.progressBy i.dt) s.windows { s with time := s.time.progressBy i.dt } :=
    ⟨rfl, hi.at'.size, hi.at'.nextSize, rfl⟩
  have hpos1 : 0 < (s.time.progressBy i.dt).progress := by
    simp only [TimeHandler.progressBy]; linarith [hi.progress]
  have hre : ∀ q : State D, At w (s.time.progressBy i.dt) s.windows q →
      (q.reachedEndOfWindow ↔ (s.time.progressBy i.dt).reachedEndOfWindow w) := by
    intro q hq
    unfold State.reachedEndOfWindow
    rw [hq.time, hq.size]
    exact ⟨fun h => h (hq.hasSize hw0), fun h _ => h⟩
  -- sharp steps reach the end exactly or stay clear of it
  have hsh' : c.maxStep = s.time.untilWindowEnd w →
      (i.dt = s.time.untilWindowEnd w ∧ (s.time.progressBy i.dt).reachedEndOfWindow w) ∨
      (tol < s.time.untilWindowEnd w - i.dt ∧ ¬ (s.time.progressBy i.dt).reachedEndOfWindow w) := by
    intro he
    unfold Sharp at hsharp
    rw [he] at hsharp
    by_cases hc : s.time.untilWindowEnd w - i.dt ≤ tol
    · exact .inl ⟨hsharp.2 hc, reachedEndOfWindow_exact (hsharp.2 hc).symm⟩
    · push Not at hc
      exact .inr ⟨hc, not_reachedEndOfWindow hc⟩
  have hwl' : winLen (s.time.progressBy i.dt) w = winLen s.time w := winLen_progress _ _ _
  cases hh : c.onHold with
  | true =>
    rw [if_pos hh, run_ret] at x2
    obtain ⟨rfl, rfl⟩ := x2
    obtain ⟨hex, hlt⟩ := hi.hold hh
    have hms : c.maxStep = s.time.untilWindowEnd w := by
      unfold maxStep active
      simp [hi.impl, hh, hu, hud]
    rcases hsh' hms with ⟨hd, hend⟩ | ⟨hd, hend⟩
    · have hpe : (s.time.progressBy i.dt) = { s.time with progress := winLen s.time w } :=
        progress_winLen hd
      obtain ⟨a1, a2, a3, a4, a5⟩ := window_end (m := m) (t := s.time.progressBy i.dt)
        (c := { c with impl := some (m, { s with time := s.time.progressBy i.dt }) })
        (hsh.congr rfl) rfl hh hat1 hend (by rw [hpe]; exact hex) hpos1
        (by rw [hwl', hpe]) r2 r3
      exact ⟨a1, a2, by simpa using a3, by simpa using a4, fun _ => a5⟩
    · -- subcycle of a repeated window
      unfold firstEx at r2
      dsimp only at r2
      rw [run_bind] at r2
      obtain ⟨tp, tq, s2, rfl, y1, y2⟩ := r2
      obtain ⟨hat2, _, rfl⟩ := memberFirst_mid hw0 hat1 hend y1
      rw [if_pos hh, run_ret] at y2
      obtain ⟨rfl, rfl⟩ := y2
      unfold secondEx at r3
      dsimp only at r3
      rw [run_bind] at r3
      obtain ⟨tp, tq, s3, rfl, y3, y4⟩ := r3
      obtain ⟨hat3, hcf, rfl⟩ := memberSecond_mid hw0 hat2 hend y3
      obtain ⟨e0, l, hl⟩ : ∃ e0 l, c.expl = e0 :: l := by
        cases h : c.expl with
        | nil => exact absurd h hsh.nonempty
        | cons a l => exact ⟨a, l, rfl⟩
      rw [hl] at y4
      dsimp only at y4
      have hlt2 : (s.time.progressBy i.dt).progress < winLen s.time w := by
        simp only [TimeHandler.progressBy, winLen]; linarith
      rw [if_pos (by
        rw [hat3.time, (hex e0 (by rw [hl]; exact List.mem_cons_self)).time]
        simp only [TimeHandler.time]
        have : (s.time.progressBy i.dt).start = s.time.start := rfl
        linarith), ← hl, run_ensure, run_ret] at y4
      obtain ⟨_, rfl, rfl⟩ := y4
      have hcomp : ({ c with impl := some (m, s3) } : Comp ι D).complete = false := by
        simp [complete, active, hh, hcf]
      refine ⟨⟨s3, rfl, ⟨rfl, hat3.size, hat3.nextSize, rfl⟩, by rw [hat3.time]; exact hpos1.le,
        fun h => by simp [hh] at h, fun _ => ⟨?_, ?_⟩⟩, rfl, ?_, ?_, fun _ _ => ⟨rfl, hh⟩⟩
      · rw [hat3.time, hwl', hat3.windows]; exact hex
      · rw [hat3.time, hwl']; exact hlt2
      · intro p _; simp only [hcomp]; simp [sentMsgs]
      · intro _ e he; simp at he
  | false =>
    rw [hh, if_neg (by simp), run_bind] at x2
    obtain ⟨tz, tw, l1, rfl, z1, z2⟩ := x2
    rw [run_ret] at z2
    obtain ⟨rfl, rfl⟩ := z2
    have hfree := hi.free hh
    have zmem := (run_forEach z1).members
    obtain ⟨z3, rfl⟩ := (run_forEach z1).silent (P := fun ms => At w s.time s.windows ms.2)
      (Q := fun ms => At w (s.time.progressBy i.dt) s.windows ms.2) hfree (by
        intro m' s' t' s'' hP hrun
        obtain ⟨rfl, rfl, _⟩ := run_addTime hrun
        refine ⟨⟨?_, hP.size, hP.nextSize, hP.windows⟩, rfl⟩
        show s'.time.progressBy i.dt = _
        rw [hP.time])
    have hong : ∀ ms ∈ c.expl, ms.2.maxStep ms.1.cfg = s.time.untilWindowEnd w := by
      have : ∀ (l : List (Member ι D × State D)) tr l', RunEach
          (fun m s => addComputedTime m.cfg s i.dt ret) l tr l' → (∀ ms ∈ l, At w s.time s.windows ms.2) →
          ∀ ms ∈ l, ms.2.maxStep ms.1.cfg = s.time.untilWindowEnd w := by
        intro l tr l' hl
        induction hl with
        | nil => simp
        | cons h1 _ ih =>
          intro hA
          simp only [List.mem_cons, forall_eq_or_imp] at hA ⊢
          exact ⟨hA.1.maxStep hw0 (run_addTime h1).2.2.1, ih hA.2⟩
      exact this _ _ _ (run_forEach z1) hfree
    have hms : c.maxStep = s.time.untilWindowEnd w := by
      unfold maxStep active
      simp only [hi.impl, hh, Bool.false_eq_true, if_false, List.foldr_cons]
      rw [hu]
      exact foldr_min_eq hud _ hong
    rcases hsh' hms with ⟨hd, hend⟩ | ⟨hd, hend⟩
    · have hpe : (s.time.progressBy i.dt) = { s.time with progress := winLen s.time w } :=
        progress_winLen hd
      have hdec : decide (State.reachedEndOfWindow { s with time := s.time.progressBy i.dt }) = true :=
        decide_eq_true ((hre _ hat1).mpr hend)
      rw [hdec] at r2
      obtain ⟨a1, a2, a3, a4, a5⟩ := window_end (m := m) (t := s.time.progressBy i.dt)
        (c := { impl := some (m, { s with time := s.time.progressBy i.dt }), expl := l1, onHold := true })
        (hsh.congr zmem) rfl rfl hat1 hend z3 hpos1 (by rw [hwl', hpe]) r2 r3
      have ep : l1.map (·.1.peer) = c.expl.map (·.1.peer) := by
        have := congrArg (List.map Member.peer) zmem
        simpa [List.map_map, Function.comp_def] using this
      refine ⟨a1, a2.trans zmem, ?_, ?_, fun h => by simp [hh] at h⟩
      · intro p hp; rw [← ep] at hp; simpa using a3 p hp
      · intro h e he; rw [← ep]; exact a4 h e (by simpa using he)
    · -- subcycle
      have hdec : decide (State.reachedEndOfWindow { s with time := s.time.progressBy i.dt }) = false :=
        decide_eq_false fun h => hend ((hre _ hat1).mp h)
      rw [hdec] at r2
      unfold firstEx at r2
      dsimp only at r2
      rw [run_bind] at r2
      obtain ⟨tp, tq, s2, rfl, y1, y2⟩ := r2
      obtain ⟨hat2, _, rfl⟩ := memberFirst_mid hw0 hat1 hend y1
      rw [if_neg (by simp), run_bind] at y2
      obtain ⟨tr, ts, l2, rfl, y2, y3⟩ := y2
      rw [run_ret] at y3
      obtain ⟨rfl, rfl⟩ := y3
      obtain ⟨w1, rfl⟩ := (run_forEach y2).silent
        (Q := fun ms => At w (s.time.progressBy i.dt) s.windows ms.2) z3
        (fun m' s' t' s'' hP hrun => by
          obtain ⟨a, b, d⟩ := memberFirst_mid hw0 hP hend hrun; exact ⟨a, d⟩)
      have mem2 := (run_forEach y2).members
      unfold secondEx at r3
      dsimp only at r3
      rw [run_bind] at r3
      obtain ⟨tp, tq, s3, rfl, y3, y4⟩ := r3
      obtain ⟨hat3, hcf, rfl⟩ := memberSecond_mid hw0 hat2 hend y3
      have hne2 : l2 ≠ [] := by
        intro hx; rw [hx] at mem2
        have h0 := mem2.trans zmem
        exact hsh.nonempty (List.map_eq_nil_iff.mp h0.symm)
      obtain ⟨e0, l, hl⟩ : ∃ e0 l, l2 = e0 :: l := by
        cases l2 with
        | nil => exact absurd rfl hne2
        | cons a l => exact ⟨a, l, rfl⟩
      rw [hl] at y4
      dsimp only at y4
      rw [if_neg (by
        rw [hat3.time, (w1 e0 (by rw [hl]; exact List.mem_cons_self)).time]
        exact lt_irrefl _), ← hl, run_bind] at y4
      obtain ⟨te, tf, l3, rfl, v1, v2⟩ := y4
      rw [run_bind] at v2
      obtain ⟨tg, th, l4, rfl, v2, v3⟩ := v2
      rw [run_ret] at v3
      obtain ⟨rfl, rfl⟩ := v3
      obtain ⟨w2, rfl⟩ := (run_forEach v1).silent
        (Q := fun ms => At w (s.time.progressBy i.dt) s.windows ms.2) w1
        (fun m' s' t' s'' hP hrun => by
          obtain ⟨a, b, d⟩ := memberFirst_mid hw0 hP hend hrun; exact ⟨a, d⟩)
      obtain ⟨w3, rfl⟩ := (run_forEach v2).silent
        (Q := fun ms => At w (s.time.progressBy i.dt) s.windows ms.2 ∧ ms.2.complete = false) w2
        (fun m' s' t' s'' hP hrun => by
          obtain ⟨a, b, d⟩ := memberSecond_mid hw0 hP hend hrun; exact ⟨⟨a, b⟩, d⟩)
      have hcomp : ({ impl := some (m, s3), expl := l4, onHold := false } : Comp ι D).complete = false := by
        simp only [complete, active, Bool.false_eq_true, if_false, List.any_cons, hcf, Bool.false_or]
        rw [List.any_eq_false]
        intro ms hm; simp [(w3 ms hm).2]
      refine ⟨⟨s3, rfl, ⟨rfl, hat3.size, hat3.nextSize, rfl⟩, by rw [hat3.time]; exact hpos1.le,
        fun _ ms hm => by rw [hat3.time, hat3.windows]; exact (w3 ms hm).1, fun h => by simp at h⟩, ?_, ?_, ?_,
        fun h => by simp [hh] at h⟩
      · exact (run_forEach v2).members.trans ((run_forEach v1).members.trans (mem2.trans zmem))
      · intro p _; simp only [hcomp]; simp [sentMsgs]
      · intro _ e he; simp at he

end Comp
end Verif
