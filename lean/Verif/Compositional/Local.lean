import Verif.Compositional.Model

/-!
# One `advance` call of a composition (helper lemmas)
-/

set_option autoImplicit false

namespace Verif

open Prog

variable {ι D : Type}

theorem FixedHooks.rename {κ : Type} {f : ι → κ} {h : Hooks ι D} (hh : FixedHooks h) :
    FixedHooks (h.rename f) := by
  refine ⟨?_, ?_, ?_⟩
  · intro i s tr s' hr
    obtain ⟨tr', h1, _⟩ := run_mapPeer hr; exact hh.first _ _ _ _ h1
  · intro i s tr s' hr
    obtain ⟨tr', h1, _⟩ := run_mapPeer hr; exact hh.second _ _ _ _ h1
  · intro s tr s' hr
    obtain ⟨tr', h1, _⟩ := run_mapPeer hr; exact hh.initial _ _ _ h1

/-- The messages sent to `p`, in order. -/
def sentMsgs [DecidableEq ι] (p : ι) (tr : List (Ev ι (Msg D))) : List (Msg D) :=
  tr.filterMap fun
    | .sent d m => if d = p then some m else none
    | .got _ _ => none

theorem sentMsgs_append [DecidableEq ι] (p : ι) (a b : List (Ev ι (Msg D))) :
    sentMsgs p (a ++ b) = sentMsgs p a ++ sentMsgs p b := List.filterMap_append

theorem sentMsgs_nil_of [DecidableEq ι] {p : ι} {a : List (Ev ι (Msg D))}
    (h : ∀ e ∈ a, e.peer ≠ p) : sentMsgs p a = [] := by
  unfold sentMsgs
  rw [List.filterMap_eq_nil_iff]
  intro e he
  have := h e he
  cases e with
  | sent d m => simpa [Ev.peer] using this
  | got d m => rfl

namespace Comp

/-- An explicit member: serial-explicit or parallel-explicit with one partner and a fixed window
size. -/
def BiExplicit (m : Member ι D) : Prop :=
  m.cfg.implicit = false ∧ m.cfg.setsSize = false ∧ m.cfg.receivesSize = false ∧
    (m.hooks = (Serial.hooks m.cfg).rename (fun _ => m.peer) ∨
     m.hooks = (Parallel.hooks m.cfg).rename (fun _ => m.peer))

theorem BiExplicit.fixed {m : Member ι D} (h : BiExplicit m) : FixedHooks m.hooks := by
  obtain ⟨_, h2, h3, h4 | h4⟩ := h
  · rw [h4]; exact (Serial.fixedHooks h2 h3).rename
  · rw [h4]; exact (Parallel.fixedHooks _).rename

/-- One exchange of an explicit scheme: exactly one message is sent, to its partner. -/
theorem BiExplicit.once [DecidableEq ι] {m : Member ι D} (h : BiExplicit m) {i : StepIn D}
    {sa s1 s2 s3 : State D} {t1 t2 : List (Ev ι (Msg D))} (h1 : Run (m.hooks.first i sa) t1 s1)
    (hb : s2.sendBuf = s1.sendBuf) (h2 : Run (m.hooks.second i s2) t2 s3) :
    sentMsgs m.peer (t1 ++ t2) = [.data sa.sendBuf] ∧ ∀ e ∈ t1 ++ t2, e.peer = m.peer := by
  obtain ⟨him, hss, hrs, hk | hk⟩ := h
  · rw [hk] at h1 h2
    obtain ⟨u1, r1, rfl⟩ := run_mapPeer h1
    obtain ⟨u2, r2, rfl⟩ := run_mapPeer h2
    simp only [Serial.hooks, Serial.first, Serial.sendSize, hss, him, Bool.false_eq_true, if_false] at r1
    simp only [Serial.hooks, Serial.second, Serial.receiveSize, hrs, him, Bool.false_eq_true, if_false,
      false_and, or_false] at r2
    cases hf : m.cfg.first
    · simp only [hf, Bool.false_eq_true, if_false, run_ensure, run_send, run_ret] at r1
      obtain ⟨_, _, rfl, rfl, rfl⟩ := r1
      simp only [hf, Bool.false_eq_true, if_false] at r2
      split at r2
      · simp only [run_ensure, run_recvData, run_notify, run_ret] at r2
        obtain ⟨_, _, _, rfl, _, rfl, _⟩ := r2
        simp [sentMsgs, Ev.mapPeer, Ev.peer]
      · simp only [run_ret] at r2
        obtain ⟨rfl, _⟩ := r2
        simp [sentMsgs, Ev.mapPeer, Ev.peer]
    · simp only [hf, if_true, run_ensure, run_send, run_ret] at r1
      obtain ⟨_, _, rfl, rfl, rfl⟩ := r1
      simp only [hf, if_true, run_ensure, run_recvData, run_notify, run_ret] at r2
      obtain ⟨_, _, _, rfl, _, rfl, _⟩ := r2
      simp [sentMsgs, Ev.mapPeer, Ev.peer]
  · rw [hk] at h1 h2
    obtain ⟨u1, r1, rfl⟩ := run_mapPeer h1
    obtain ⟨u2, r2, rfl⟩ := run_mapPeer h2
    simp only [Parallel.hooks, Parallel.first, run_ensure] at r1
    simp only [Parallel.hooks, Parallel.second, run_ensure, him, Bool.false_eq_true, if_false] at r2
    cases hf : m.cfg.first
    · simp only [hf, Bool.false_eq_true, if_false, run_recvData, run_notify, run_ret] at r1
      obtain ⟨_, _, _, rfl, _, rfl, rfl⟩ := r1
      simp only [hf, Bool.false_eq_true, if_false, run_send, run_ret] at r2
      obtain ⟨_, _, rfl, rfl, rfl⟩ := r2
      simp only at hb
      simp [sentMsgs, Ev.mapPeer, Ev.peer, hb]
    · simp only [hf, if_true, run_send, run_ret] at r1
      obtain ⟨_, _, rfl, rfl, rfl⟩ := r1
      simp only [hf, if_true, run_recvData, run_notify, run_ret] at r2
      obtain ⟨_, _, _, rfl, _, rfl, _⟩ := r2
      simp [sentMsgs, Ev.mapPeer, Ev.peer]

/-! ### Members -/

/-- control facts of a member with a fixed window size `w` at time `t` and window counter `n` -/
structure At (w : ℚ) (t : TimeHandler) (n : ℕ) (s : State D) : Prop where
  time : s.time = t
  size : s.size = w
  nextSize : s.nextSize = w
  windows : s.windows = n

theorem At.hasSize {w : ℚ} {t : TimeHandler} {n : ℕ} {s : State D} (h : At w t n s) (hw : 0 < w) : s.hasSize := by
  unfold State.hasSize; rw [h.size]; exact hasSize_of_pos hw

theorem memberFirst_end {m : Member ι D} (hh : FixedHooks m.hooks) {i : StepIn D} {s s' : State D}
    {tr} {w : ℚ} {t : TimeHandler} {n : ℕ} (ha : At w t n s) (hend : t.reachedEndOfWindow w)
    (hr : Run (memberFirst i m s) tr s') :
    At w t (n + 1) s' ∧ s'.complete = false ∧ ∃ sa, sa.sendBuf = i.value ∧ Run (m.hooks.first i sa) tr s' := by
  unfold memberFirst firstExchange at hr
  rw [run_checkActions] at hr
  obtain ⟨_, hr⟩ := hr
  rw [if_pos (by intro _; simpa [State.clearActions, ha.time, ha.size] using hend)] at hr
  obtain ⟨hc, hs⟩ := hh.first _ _ _ _ hr
  exact ⟨⟨hc.time.trans ha.time, hs.size.trans ha.size, hs.nextSize.trans ha.nextSize,
    hc.windows.trans (congrArg (· + 1) ha.windows)⟩, hc.complete,
    _, rfl, hr⟩

theorem memberFirst_mid {m : Member ι D} {i : StepIn D} {s s' : State D}
    {tr} {w : ℚ} (hw : 0 < w) {t : TimeHandler} {n : ℕ} (ha : At w t n s) (hend : ¬ t.reachedEndOfWindow w)
    (hr : Run (memberFirst i m s) tr s') : At w t n s' ∧ s'.complete = false ∧ tr = [] := by
  unfold memberFirst firstExchange at hr
  rw [run_checkActions] at hr
  obtain ⟨_, hr⟩ := hr
  rw [if_neg (by
    intro hx; have := hx (ha.hasSize hw); simp only [State.clearActions, ha.time, ha.size] at this
    exact hend this), run_ret] at hr
  obtain ⟨rfl, rfl⟩ := hr
  exact ⟨⟨ha.time, ha.size, ha.nextSize, ha.windows⟩, rfl, rfl⟩

theorem memberSecond_mid {m : Member ι D} {i : StepIn D} {s s' : State D}
    {tr} {w : ℚ} (hw : 0 < w) {t : TimeHandler} {n : ℕ} (ha : At w t n s) (hend : ¬ t.reachedEndOfWindow w)
    (hr : Run (memberSecond i m s) tr s') : At w t n s' ∧ s'.complete = false ∧ tr = [] := by
  unfold memberSecond secondExchange at hr
  rw [run_checkActions, run_ensure] at hr
  obtain ⟨_, hcf, hr⟩ := hr
  rw [if_neg (by
    intro hx; have := hx (ha.hasSize hw); simp only [State.clearActions, ha.time, ha.size] at this
    exact hend this), run_ret] at hr
  obtain ⟨rfl, rfl⟩ := hr
  exact ⟨⟨ha.time, ha.size, ha.nextSize, ha.windows⟩, hcf, rfl⟩

theorem finishWindow_run {c : Config} {w : ℚ} {t : TimeHandler} {n : ℕ} {s s' : State D} {tr}
    (ha : At w t (n + 1) s) (hr : Run (finishWindow (ι := ι) c s) tr s') :
    tr = [] ∧ ((s'.complete = true ∧ At w (t.completeTimeWindow w) (n + 1) s') ∨
      (c.implicit = true ∧ s'.complete = false ∧ At w t.resetProgress n s')) := by
  unfold finishWindow at hr
  rw [run_bind] at hr
  obtain ⟨t5, t6, s3, rfl, h5, h6⟩ := hr
  rw [run_ensure, run_bind] at h6
  obtain ⟨hrec, t7, t8, s4, rfl, h7, h8⟩ := h6
  simp only [run_ret] at h8
  obtain ⟨rfl, rfl⟩ := h8
  have h3 : t5 = [] ∧ s3.time = t ∧ s3.size = w ∧ s3.nextSize = w ∧
      (s3.complete = false → c.implicit = true ∧ s3.windows = n) ∧
      (s3.complete = true → s3.windows = n + 1) := by
    split at h5
    · next hi =>
      split at h5
      · rw [run_ensure, run_ret] at h5
        obtain ⟨_, rfl, rfl⟩ := h5
        exact ⟨rfl, ha.time, ha.size, ha.nextSize, fun _ => ⟨hi, by simp [ha.windows]⟩, fun h => by simp at h⟩
      · rw [run_ret] at h5
        obtain ⟨rfl, rfl⟩ := h5
        exact ⟨rfl, ha.time, ha.size, ha.nextSize, fun h => by simp at h, fun _ => ha.windows⟩
    · rw [run_ret] at h5
      obtain ⟨rfl, rfl⟩ := h5
      exact ⟨rfl, ha.time, ha.size, ha.nextSize, fun h => by simp at h, fun _ => ha.windows⟩
  obtain ⟨rfl, e1, e2, e3, e4, e5⟩ := h3
  split at h7
  · next hc =>
    rw [run_ensure, run_ret] at h7
    obtain ⟨_, rfl, rfl⟩ := h7
    exact ⟨rfl, Or.inl ⟨hc, by simp [e1, e2], e3, e3, e5 hc⟩⟩
  · next hc =>
    rw [run_ret] at h7
    obtain ⟨rfl, rfl⟩ := h7
    have hc' : s3.complete = false := by simpa using hc
    exact ⟨rfl, Or.inr ⟨(e4 hc').1, hc', by simp [e1], e3, e3, (e4 hc').2⟩⟩

theorem memberSecond_end {m : Member ι D} (hh : FixedHooks m.hooks) {i : StepIn D} {s s' : State D}
    {tr} {w : ℚ} {t : TimeHandler} {n : ℕ} (ha : At w t (n + 1) s) (hend : t.reachedEndOfWindow w)
    (hr : Run (memberSecond i m s) tr s') :
    (∃ s2, Run (m.hooks.second i s.clearActions) tr s2) ∧
    ((s'.complete = true ∧ At w (t.completeTimeWindow w) (n + 1) s') ∨
      (m.cfg.implicit = true ∧ s'.complete = false ∧ At w t.resetProgress n s')) := by
  unfold memberSecond secondExchange at hr
  rw [run_checkActions, run_ensure] at hr
  obtain ⟨_, hcf, hr⟩ := hr
  rw [if_pos (by intro _; simpa [State.clearActions, ha.time, ha.size] using hend), run_bind] at hr
  obtain ⟨t1, t2, s2, rfl, h1, h2⟩ := hr
  obtain ⟨hc, hs⟩ := hh.second _ _ _ _ h1
  obtain ⟨rfl, h3⟩ := finishWindow_run (w := w) (t := t) (n := n)
    ⟨hc.time.trans ha.time, hs.size.trans ha.size, hs.nextSize.trans ha.nextSize,
      hc.windows.trans ha.windows⟩ h2
  exact ⟨⟨s2, by simpa using h1⟩, h3⟩

/-! ### Loops over members -/

/-- A run of the loop, member by member. -/
inductive RunEach (f : Member ι D → State D → Prog ι (Msg D) (State D)) :
    List (Member ι D × State D) → List (Ev ι (Msg D)) → List (Member ι D × State D) → Prop where
  | nil : RunEach f [] [] []
  | cons {m : Member ι D} {s s' : State D} {l l' t t'} :
      Run (f m s) t s' → RunEach f l t' l' → RunEach f ((m, s) :: l) (t ++ t') ((m, s') :: l')

theorem run_forEach {f : Member ι D → State D → Prog ι (Msg D) (State D)} {l tr l'}
    (h : Run (forEach f l) tr l') : RunEach f l tr l' := by
  induction l generalizing tr l' with
  | nil => unfold forEach at h; rw [run_ret] at h; obtain ⟨rfl, rfl⟩ := h; exact .nil
  | cons ms l ih =>
    obtain ⟨m, s⟩ := ms
    unfold forEach at h
    rw [run_bind] at h
    obtain ⟨t1, t2, s1, rfl, h1, h2⟩ := h
    rw [run_bind] at h2
    obtain ⟨t3, t4, s2, rfl, h3, h4⟩ := h2
    rw [run_ret] at h4
    obtain ⟨rfl, rfl⟩ := h4
    simpa using RunEach.cons h1 (ih h3)

theorem RunEach.members {f : Member ι D → State D → Prog ι (Msg D) (State D)} {l tr l'}
    (h : RunEach f l tr l') : l'.map (·.1) = l.map (·.1) := by
  induction h with
  | nil => rfl
  | cons _ _ ih => simp [ih]

/-- a property of single runs lifts to the loop if the runs are silent -/
theorem RunEach.silent {f : Member ι D → State D → Prog ι (Msg D) (State D)} {l tr l'}
    (h : RunEach f l tr l') {P Q : Member ι D × State D → Prop} (hP : ∀ ms ∈ l, P ms)
    (hf : ∀ m s t s', P (m, s) → Run (f m s) t s' → Q (m, s') ∧ t = []) :
    (∀ ms ∈ l', Q ms) ∧ tr = [] := by
  induction h with
  | nil => simp
  | cons h1 _ ih =>
    simp only [List.mem_cons, forall_eq_or_imp] at hP ⊢
    obtain ⟨q, rfl⟩ := hf _ _ _ _ hP.1 h1
    obtain ⟨q2, rfl⟩ := ih hP.2
    exact ⟨⟨q, q2⟩, rfl⟩

/-- The exchange of all explicit schemes at the window end. -/
theorem explicit_exchange [DecidableEq ι] {i : StepIn D} {w : ℚ} {t : TimeHandler} {n : ℕ}
    (hend : t.reachedEndOfWindow w) {l l1 l2 : List (Member ι D × State D)} {t1 t2}
    (hb : ∀ ms ∈ l, BiExplicit ms.1) (hat : ∀ ms ∈ l, At w t n ms.2)
    (hn : (l.map (·.1.peer)).Nodup)
    (h1 : RunEach (memberFirst i) l t1 l1) (h2 : RunEach (memberSecond i) l1 t2 l2) :
    (∀ ms ∈ l2, At w (t.completeTimeWindow w) (n + 1) ms.2 ∧ ms.2.complete = true) ∧
    (∀ p, (p ∈ l.map (·.1.peer) → sentMsgs p (t1 ++ t2) = [.data i.value])) ∧
    (∀ e ∈ t1 ++ t2, e.peer ∈ l.map (·.1.peer)) := by
  induction h1 generalizing t2 l2 with
  | nil => cases h2; simp
  | @cons m s s' l l' ta tb r1 r2 ih =>
    cases h2 with
    | @cons _ _ s2 _ l2 tc td r3 r4 =>
    simp only [List.mem_cons, forall_eq_or_imp, List.map_cons, List.nodup_cons] at hb hat hn
    obtain ⟨a1, a2, a3⟩ := ih hb.2 hat.2 hn.2 r4
    obtain ⟨hs1, _, sa, hsa, r1'⟩ := memberFirst_end hb.1.fixed hat.1 hend r1
    obtain ⟨⟨s3, r3'⟩, ho⟩ := memberSecond_end hb.1.fixed hs1 hend r3
    obtain ⟨o1, o2⟩ := hb.1.once (s2 := s'.clearActions) r1' rfl r3'
    have ho' := ho.resolve_right (fun h => by simp [hb.1.1] at h)
    have nb : ∀ x, (x ∈ ta ∨ x ∈ tc) → x.peer = m.peer := fun x hx => o2 x (List.mem_append.mpr hx)
    have nd : ∀ x, (x ∈ tb ∨ x ∈ td) → x.peer ∈ l.map (·.1.peer) :=
      fun x hx => a3 x (List.mem_append.mpr hx)
    refine ⟨?_, ?_, ?_⟩
    · simp only [List.mem_cons, forall_eq_or_imp]
      exact ⟨⟨ho'.2, ho'.1⟩, a1⟩
    · intro p hp
      simp only [sentMsgs_append] at o1 a2 ⊢
      simp only [List.map_cons, List.mem_cons] at hp
      rcases hp with rfl | hp
      · rw [sentMsgs_nil_of (a := tb) fun e he (hx : e.peer = m.peer) => hn.1 (hx ▸ nd e (.inl he)),
          sentMsgs_nil_of (a := td) fun e he (hx : e.peer = m.peer) => hn.1 (hx ▸ nd e (.inr he))]
        simpa [hsa] using o1
      · have hne : m.peer ≠ p := fun hx => hn.1 (hx ▸ hp)
        rw [sentMsgs_nil_of (a := ta) fun e he hx => hne ((nb e (.inl he)).symm.trans hx),
          sentMsgs_nil_of (a := tc) fun e he hx => hne ((nb e (.inr he)).symm.trans hx)]
        simpa using a2 p hp
    · intro e he
      simp only [List.map_cons, List.mem_cons]
      simp only [List.mem_append] at he
      rcases he with (he | he) | (he | he)
      · exact .inl (nb e (.inl he))
      · exact .inr (nd e (.inl he))
      · exact .inl (nb e (.inr he))
      · exact .inr (nd e (.inr he))

end Comp
end Verif
