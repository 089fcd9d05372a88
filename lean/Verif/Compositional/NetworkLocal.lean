import Verif.Compositional.Network
import Verif.Net.Script
import Verif.Protocol.Serial
import Verif.Protocol.Parallel

/-!
# Scripts of the members of a composition
-/

set_option autoImplicit false

namespace Verif

open Prog Script

variable {ι D : Type} [DecidableEq ι]

/-- data messages -/
def IsData (m : Msg D) : Prop := ∃ d, m = .data d

@[simp] theorem isData_data (d : D) : IsData (.data d) := ⟨d, rfl⟩

@[simp] theorem forall_isData {P : Msg D → Prop} : (∀ m, IsData m → P m) ↔ ∀ d, P (.data d) :=
  ⟨fun h d => h _ ⟨d, rfl⟩, fun h _ ⟨d, hd⟩ => hd ▸ h d⟩

/-- The events with one partner only. -/
structure Talk (q : ι) (out inn : List (Msg D)) (tr : List (Ev ι (Msg D))) : Prop where
  sent : sent q tr = out
  got : got q tr = inn
  other : ∀ q', q' ≠ q → Script.sent q' tr = [] ∧ Script.got q' tr = []

namespace Link

/-- `p` is the second participant of the serial scheme -/
def waits (l : Link ι) (p : ι) : Bool := l.serial && !decide (p = l.first)

/-- operations of `p` in `initialize` for the scheme `l` -/
def initActs (l : Link ι) (p : ι) : List (Act ι) :=
  if l.serial then
    if p = l.first then
      (if l.initSF then [.recv l.second] else []) ++ (if l.initFS then [.send l.second] else [])
    else
      (if l.initSF then [.send l.first] else []) ++ (if l.initFS then [.recv l.first] else []) ++
        [.recv l.first]
  else
    if p = l.first then
      (if l.initFS then [.send l.second] else []) ++ (if l.initSF then [.recv l.second] else [])
    else
      (if l.initFS then [.recv l.first] else []) ++ (if l.initSF then [.send l.first] else [])

/-- operations of `p` in the first exchange of a window -/
def acts1 (l : Link ι) (p : ι) : List (Act ι) :=
  if p = l.first then [.send l.second]
  else if l.serial then [.send l.first] else [.recv l.first]

/-- operations of `p` in the second exchange of a window -/
def acts2 (more : Bool) (l : Link ι) (p : ι) : List (Act ι) :=
  if p = l.first then [.recv l.second]
  else if l.serial then (if more then [.recv l.first] else []) else [.send l.first]

/-- after `initialize` -/
structure Inited (g : Common) (d : D) (p : ι) (l : Link ι) (tr : List (Ev ι (Msg D))) (s : State D) :
    Prop where
  time : s.time = ⟨g.maxTime, 0, 0⟩
  size : s.size = g.size
  nextSize : s.nextSize = g.size
  windows : s.windows = 1
  iters : s.iters = 1
  sendBuf : s.sendBuf = d
  talk : ∃ inn, Talk (l.peer p) (if (l.cfg g p).sendsInit then [.data d] else []) inn tr ∧
    if l.waits p then ∃ pre, pre.length = (if l.initFS then 1 else 0) ∧ inn = pre ++ [.data s.recvBuf]
    else inn = if (l.cfg g p).receivesInit then [.data s.recvBuf] else []

theorem follows_init {g : Common} {d : D} {p : ι} {l : Link ι} (hp : l.has p) (hne : l.first ≠ l.second) :
    (initScheme (l.member (D := D) g p).cfg (l.member (D := D) g p).hooks
      (constructed (l.cfg g p) g.maxTime g.size d).fulfilAll).Follows IsData (l.initActs p)
      (Inited g d p l) := by
  obtain ⟨ser, f, s, ifs, isf⟩ := l
  simp only [has, Bool.or_eq_true, decide_eq_true_eq] at hp hne
  have hns : ∀ q', q' ≠ s → s ≠ q' := fun q' h => h.symm
  have hnf : ∀ q', q' ≠ f → f ≠ q' := fun q' h => h.symm
  have hinit : ∀ (tr : List (Ev ι (Msg D))) (st : State D) (pr : ι), st.time = ⟨g.maxTime, 0, 0⟩ → st.size = g.size →
      st.nextSize = g.size → st.windows = 1 → st.iters = 1 → st.sendBuf = d →
      (∃ inn, Talk (peer ⟨ser, f, s, ifs, isf⟩ pr)
        (if (cfg g pr ⟨ser, f, s, ifs, isf⟩).sendsInit then [.data d] else []) inn tr ∧
        if waits ⟨ser, f, s, ifs, isf⟩ pr then
          ∃ pre, pre.length = (if ifs then 1 else 0) ∧ inn = pre ++ [.data st.recvBuf]
        else inn = if (cfg g pr ⟨ser, f, s, ifs, isf⟩).receivesInit then [.data st.recvBuf] else []) →
      Inited g d pr ⟨ser, f, s, ifs, isf⟩ tr st :=
    fun tr st pr h1 h2 h3 h4 h5 h6 h7 => ⟨h1, h2, h3, h4, h5, h6, h7⟩
  rcases hp with rfl | rfl
  · cases ser <;> cases ifs <;> cases isf <;>
      simp [initScheme, member, cfg, Hooks.rename, Serial.hooks, Parallel.hooks, Serial.initial,
        Parallel.initial, initActs, constructed, State.fulfilAll, recvData, notify, Prog.mapPeer, Follows,
        name, ensure, TimeHandler.resetTo] <;> intros <;>
      refine hinit _ _ _ rfl rfl rfl rfl rfl rfl ⟨_, ⟨?_, rfl, fun q' hq' => ?_⟩, ?_⟩ <;>
      simp_all [sent, got, peer, cfg, waits]
  · have hne' : p ≠ f := hne.symm
    cases ser <;> cases ifs <;> cases isf <;>
      simp [initScheme, member, cfg, Hooks.rename, Serial.hooks, Parallel.hooks, Serial.initial,
        Parallel.initial, initActs, constructed, State.fulfilAll, recvData, notify, Prog.mapPeer, Follows,
        name, ensure, TimeHandler.resetTo, hne', Serial.receiveSize] <;> intros <;>
      refine hinit _ _ _ rfl rfl rfl rfl rfl rfl ⟨_, ⟨?_, rfl, fun q' hq' => ?_⟩, ?_⟩ <;>
      simp_all [sent, got, peer, cfg, waits]
    all_goals exact ⟨[.data _], rfl, rfl⟩

/-- `p` is the second participant of the parallel scheme -/
def listens (l : Link ι) (p : ι) : Bool := !l.serial && !decide (p = l.first)

/-- between the two exchanges at the end of a window that started in `s` -/
structure Half (p : ι) (l : Link ι) (L : ℚ) (v : D) (s : State D) (tr : List (Ev ι (Msg D)))
    (s1 : State D) : Prop where
  time : s1.time = s.time.progressBy L
  windows : s1.windows = s.windows + 1
  size : s1.size = s.size
  nextSize : s1.nextSize = s.nextSize
  iters : s1.iters = s.iters
  sendBuf : s1.sendBuf = v
  complete : s1.complete = false
  noreq : s1.reqInit = false ∧ s1.reqRead = false ∧ s1.reqWrite = false
  received : s1.received = l.listens p
  talk : if l.listens p then Talk (l.peer p) [] [.data s1.recvBuf] tr
    else Talk (l.peer p) [.data v] [] tr

theorem follows_first {g : Common} {p : ι} {l : Link ι} (hp : l.has p) (hne : l.first ≠ l.second)
    {s : State D} {i : StepIn D} {L : ℚ} (hsz : s.hasSize) (hL : s.time.untilWindowEnd s.size = L) :
    ((l.member g p).hooks.first i (atEnd s L i.value)).Follows IsData (l.acts1 p)
      (Half p l L i.value s) := by
  have hw : (atEnd s L i.value).atWindowEnd := atWindowEnd_of (t := s.time) hsz rfl rfl hL
  obtain ⟨ser, f, sn, ifs, isf⟩ := l
  simp only [has, Bool.or_eq_true, decide_eq_true_eq] at hp hne
  have hns : ∀ q', q' ≠ sn → sn ≠ q' := fun q' h => h.symm
  have hnf : ∀ q', q' ≠ f → f ≠ q' := fun q' h => h.symm
  have hhalf : ∀ (tr : List (Ev ι (Msg D))) (s1 : State D) (pr : ι), s1.time = s.time.progressBy L →
      s1.windows = s.windows + 1 → s1.size = s.size → s1.nextSize = s.nextSize → s1.iters = s.iters →
      s1.sendBuf = i.value → s1.complete = false →
      (s1.reqInit = false ∧ s1.reqRead = false ∧ s1.reqWrite = false) →
      s1.received = listens ⟨ser, f, sn, ifs, isf⟩ pr →
      (if listens ⟨ser, f, sn, ifs, isf⟩ pr then Talk (peer ⟨ser, f, sn, ifs, isf⟩ pr) [] [.data s1.recvBuf] tr
        else Talk (peer ⟨ser, f, sn, ifs, isf⟩ pr) [.data i.value] [] tr) →
      Half pr ⟨ser, f, sn, ifs, isf⟩ L i.value s tr s1 :=
    fun tr s1 pr h1 h2 h3 h4 h5 h6 h7 h8 h9 h10 => ⟨h1, h2, h3, h4, h5, h6, h7, h8, h9, h10⟩
  rcases hp with rfl | rfl
  · cases ser <;>
      simp [member, cfg, Hooks.rename, Serial.hooks, Parallel.hooks, Serial.first,
        Parallel.first, acts1, Prog.mapPeer, Follows, Serial.sendSize,
        name, ensure, hw] <;>
      refine hhalf _ _ _ rfl rfl rfl rfl rfl rfl rfl ⟨rfl, rfl, rfl⟩ ?_ ?_ <;>
      simp [listens, peer, atEnd]
    all_goals
      refine ⟨?_, rfl, fun q' hq' => ?_⟩ <;> simp_all [sent, got]
  · have hne' : p ≠ f := hne.symm
    cases ser <;>
      simp [member, cfg, Hooks.rename, Serial.hooks, Parallel.hooks, Serial.first,
        Parallel.first, acts1, Prog.mapPeer, Follows, recvData, notify,
        name, ensure, hw, hne']
    · intro d
      rw [if_pos (show (atEnd s L i.value).received = false from rfl)]
      refine hhalf _ _ _ rfl rfl rfl rfl rfl rfl rfl ⟨rfl, rfl, rfl⟩ ?_ ?_ <;>
        simp [listens, peer, hne']
      refine ⟨?_, ?_, fun q' hq' => ?_⟩ <;> simp_all [sent, got]
    · refine hhalf _ _ _ rfl rfl rfl rfl rfl rfl rfl ⟨rfl, rfl, rfl⟩ ?_ ?_ <;>
        simp [listens, peer, atEnd, hne']
      refine ⟨?_, ?_, fun q' hq' => ?_⟩ <;> simp_all [sent, got]

/-- after a window -/
structure Full (g : Common) (p : ι) (l : Link ι) (more : Bool) (v : D) (s s1 : State D)
    (tr : List (Ev ι (Msg D))) (s' : State D) : Prop where
  after : AfterIter (l.cfg g p) g.size s s' true
  sendBuf : s'.sendBuf = v
  keep : l.listens p = true → s'.recvBuf = s1.recvBuf
  talk : if l.listens p then Talk (l.peer p) [.data v] [] tr
    else Talk (l.peer p) [] (if l.waits p && !more then [] else [.data s'.recvBuf]) tr

theorem follows_finish {g : Common} {p : ι} {l : Link ι} {s s1 s2 : State D} {L : ℚ} {v : D}
    {more : Bool} {t0 tr0 : List (Ev ι (Msg D))}
    (hp : s.time.progress = 0) (hL : s.time.untilWindowEnd g.size = L) (hpos : tol < L)
    (h1 : Half p l L v s t0 s1) (hs : s.size = g.size) (hn : s.nextSize = g.size)
    (e1 : s2.time = s1.time) (e2 : s2.windows = s1.windows) (e3 : s2.size = s1.size)
    (e4 : s2.nextSize = s1.nextSize) (e5 : s2.iters = s1.iters) (e6 : s2.sendBuf = s1.sendBuf)
    (hrec : s2.received = true ∨ ¬ s2.ongoing (l.cfg g p))
    (hkeep : l.listens p = true → s2.recvBuf = s1.recvBuf)
    (htalk : if l.listens p then Talk (l.peer p) [.data v] [] tr0
      else Talk (l.peer p) [] (if l.waits p && !more then [] else [.data s2.recvBuf]) tr0) :
    (finishWindow (ι := ι) (l.cfg g p) s2).Follows IsData []
      fun tr s' => Full g p l more v s s1 (tr0 ++ tr) s' := by
  obtain ⟨s', hf, ha, hb, hb2, -⟩ := finishWindow_eq (ι := ι) (c := l.cfg g p) (s2 := s2) hp hL hpos
    (e1.trans h1.time) (e2.trans h1.windows) (e3.trans (h1.size.trans hs))
    (e4.trans (h1.nextSize.trans hn)) (e5.trans h1.iters)
    (hrec.imp_right fun h => ⟨h, fun hx => by simp [cfg] at hx⟩)
  rw [hf]
  refine follows_ret ⟨ha, hb.trans (e6.trans h1.sendBuf), fun hl => hb2.trans (hkeep hl), ?_⟩
  rw [List.append_nil, hb2]
  exact htalk

theorem follows_second {g : Common} {p : ι} {l : Link ι} (hp : l.has p) (hne : l.first ≠ l.second)
    {s s1 : State D} {i : StepIn D} {L : ℚ} {t0 : List (Ev ι (Msg D))} (hsz : s.hasSize)
    (hp0 : s.time.progress = 0) (hL : s.time.untilWindowEnd g.size = L) (hpos : tol < L)
    (h1 : Half p l L i.value s t0 s1) (hs : s.size = g.size) (hn : s.nextSize = g.size) :
    (secondExchange (l.member (D := D) g p).cfg (l.member g p).hooks i s1).Follows IsData
      (l.acts2 (decide (s1.ongoing (l.cfg g p))) p)
      (Full g p l (decide (s1.ongoing (l.cfg g p))) i.value s s1) := by
  have hend : s1.time.reachedEndOfWindow s1.size := by
    rw [h1.time, h1.size, hs]; exact reachedEndOfWindow_exact hL
  have hw : s1.clearActions.atWindowEnd :=
    atWindowEnd_of (t := s.time) (w := g.size) (by
      unfold State.hasSize at hsz ⊢
      show ¬ equals s1.size undefinedSize
      rw [h1.size]; exact hsz) (h1.size.trans hs) h1.time hL
  have hon : s1.clearActions.ongoing (l.cfg g p) ↔ s1.ongoing (l.cfg g p) := Iff.rfl
  have hrc : s1.clearActions.received = s1.received := rfl
  have hsb : s1.clearActions.sendBuf = i.value := h1.sendBuf
  have hfin := fun (s2 : State D) (tr0 : List (Ev ι (Msg D))) =>
    follows_finish (more := decide (s1.ongoing (l.cfg g p))) (tr0 := tr0) (s2 := s2) hp0 hL hpos h1 hs hn
  rw [secondExchange_end h1.noreq h1.complete hend]
  rw [← List.append_nil (l.acts2 _ p)]
  refine Follows.bind (P := fun tr0 s2 => (finishWindow (ι := ι) (l.cfg g p) s2).Follows IsData []
      fun tr s' => Full g p l (decide (s1.ongoing (l.cfg g p))) i.value s s1 (tr0 ++ tr) s') ?_
    fun tr0 s2 h => h
  have hnr := h1.received
  obtain ⟨ser, f, sn, ifs, isf⟩ := l
  simp only [has, Bool.or_eq_true, decide_eq_true_eq] at hp hne
  have hns : ∀ q', q' ≠ sn → sn ≠ q' := fun q' h => h.symm
  have hnf : ∀ q', q' ≠ f → f ≠ q' := fun q' h => h.symm
  rcases hp with rfl | rfl
  · have hr0 : s1.clearActions.received = false := by rw [hrc, hnr]; cases ser <;> simp [listens]
    cases ser <;>
      simp [member, Hooks.rename, Serial.hooks, Parallel.hooks, Serial.second,
        Parallel.second, acts2, Prog.mapPeer, Follows, recvData, notify,
        name, ensure, hw, show (cfg g p ⟨_, p, sn, ifs, isf⟩).first = true from by simp [cfg],
        show (cfg g p ⟨_, p, sn, ifs, isf⟩).implicit = false from rfl]
    all_goals
      intro d
      rw [if_pos hr0]
      refine hfin { s1.clearActions with recvBuf := d, received := true } [.got sn (.data d)]
        rfl rfl rfl rfl rfl rfl (Or.inl rfl) (fun h => by simp [listens] at h) ?_
      simp only [listens, waits, peer, Bool.not_true, Bool.not_false, Bool.and_false, Bool.false_and,
        decide_true, Bool.false_eq_true, if_false, if_true]
      refine ⟨?_, ?_, fun q' hq' => ?_⟩ <;> simp_all [sent, got]
  · have hne' : p ≠ f := hne.symm
    have hfi : ∀ b, (cfg g p ⟨b, f, p, ifs, isf⟩).first = false := fun b => by simp [cfg, hne']
    have him : ∀ b, (cfg g p ⟨b, f, p, ifs, isf⟩).implicit = false := fun b => rfl
    cases ser
    · simp [member, Hooks.rename, Parallel.hooks, Parallel.second, acts2, Prog.mapPeer, Follows,
        name, ensure, hw, hfi, him, hne']
      refine hfin s1.clearActions [.sent f (.data s1.clearActions.sendBuf)]
        rfl rfl rfl rfl rfl rfl (Or.inl (by rw [hrc, hnr]; simp [listens, hne'])) (fun _ => rfl) ?_
      simp only [listens, peer, Bool.not_false, hne', decide_false, if_true, if_false, Bool.and_self, hsb]
      refine ⟨?_, ?_, fun q' hq' => ?_⟩ <;> simp_all [sent, got]
    · by_cases hm : s1.ongoing (cfg g p ⟨true, f, p, ifs, isf⟩)
      · have hr0 : s1.clearActions.received = false := by rw [hrc, hnr]; simp [listens]
        simp [member, Hooks.rename, Serial.hooks, Serial.second, Serial.receiveSize, acts2, Prog.mapPeer, Follows,
          name, ensure, hw, hfi, him, hne', hm, hon, recvData, notify,
          show (cfg g p ⟨true, f, p, ifs, isf⟩).receivesSize = false from rfl]
        intro d
        rw [if_pos hr0]
        have := hfin { s1.clearActions with recvBuf := d, received := true } [.got f (.data d)]
          rfl rfl rfl rfl rfl rfl (Or.inl rfl) (fun h => by simp [listens] at h) (by
          simp only [listens, waits, peer, hne', hm, Bool.not_true, Bool.false_and, Bool.and_false,
            decide_true, Bool.false_eq_true, if_false]
          refine ⟨?_, ?_, fun q' hq' => ?_⟩ <;> simp_all [sent, got])
        simpa [hm, Prog.mapPeer, Follows] using this
      · simp [member, Hooks.rename, Serial.hooks, Serial.second, acts2, Prog.mapPeer, Follows,
          hfi, him, hne', hm, hon]
        have := hfin s1.clearActions []
          rfl rfl rfl rfl rfl rfl (Or.inr hm) (fun h => by simp [listens] at h) (by
          simp only [listens, waits, peer, hne', hm, Bool.not_true, Bool.not_false, Bool.and_true,
            decide_false, Bool.false_eq_true, if_false, if_true]
          refine ⟨?_, ?_, fun q' hq' => ?_⟩ <;> simp_all [sent, got])
        simpa [hm] using this

end Link
end Verif
