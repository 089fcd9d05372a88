import Verif.Api.DataPathSteps

/-!
# What is read is what was written (C104)

The writer and the reader of one data, over any number of windows and iterations.

* `runBehind`: both participants of a parallel scheme, and the first participant of a serial scheme as reader. The data of an iteration can be read in
  the next iteration.
* `runAhead`: the second participant of a serial scheme as reader. The data of an iteration can be read in the same iteration.

Messages arrive in the order in which they are sent (C14 to C17, C22), so the reader gets the message of the iteration given here.
-/

set_option autoImplicit false

namespace Verif.DataPath

variable {V : Type}

/-- One iteration: the start of its window, the time at its end, the time stamped by `receiveDataForWindowEnd` at its end, the start of the next window,
whether the window is complete, the steps of the writer, and the result of the acceleration done by the writer or by the reader. -/
structure Iter (V : Type) where
  start : ℚ
  now : ℚ
  stamp : ℚ
  next : ℚ
  complete : Bool
  steps : Samples V
  accW : Option (Samples V)
  accR : Option (Samples V)

/-! ## Runs -/

/-- Initialisation of the writer and its initial message. -/
def start (w : Writer V) (sends : Bool) (v : V) : Except Err (WriterState V × Option (Msg V)) := do
  let ws ← w.init v
  if sends then
    let msg ← message w.substeps (w.out ws)
    .ok (ws, some msg)
  else .ok (ws, none)

/-- The iterations; the result are the samples that can be read after each of them. -/
def iterationsBehind (w : Writer V) (r : Reader V) : List (Iter V) → WriterState V → ReaderState V → Except Err (List (Samples V))
  | [], _, _ => .ok []
  | i :: l, ws, rs => do
    let (ws, msg) ← w.iterate i.start i.steps i.accW ws
    let rs ← r.iterate i.start i.now i.stamp i.next i.complete (some msg) i.accR rs
    let rest ← iterationsBehind w r l (w.finish i.start i.next i.complete ws) rs
    .ok (r.readable rs :: rest)

/-- The samples that can be read after `initialize` and after each iteration. -/
def runBehind (w : Writer V) (r : Reader V) (sends : Bool) (v : V) (l : List (Iter V)) : Except Err (List (Samples V)) := do
  let (ws, initial) ← start w sends v
  let rs ← r.init initial 0 none
  let rest ← iterationsBehind w r l ws rs
  .ok (r.readable rs :: rest)

/-- The iterations after the first; `i` is the iteration before. -/
def iterationsAhead (w : Writer V) (r : Reader V) : Iter V → List (Iter V) → WriterState V → ReaderState V → Except Err (List (Samples V))
  | _, [], _, _ => .ok []
  | i, j :: l, ws, rs => do
    let (ws, msg) ← w.iterate j.start j.steps j.accW ws
    let rs ← r.iterate i.start i.now i.stamp i.next i.complete (some msg) none rs
    let rest ← iterationsAhead w r j l (w.finish j.start j.next j.complete ws) rs
    .ok (r.readable rs :: rest)

/-- The samples that can be read in each iteration; `stamp` is the time of the end of the first window. -/
def runAhead (w : Writer V) (r : Reader V) (sends : Bool) (v : V) (stamp : ℚ) (i : Iter V) (l : List (Iter V)) : Except Err (List (Samples V)) := do
  let (ws, initial) ← start w sends v
  let (ws, msg) ← w.iterate i.start i.steps i.accW ws
  let rs ← r.init initial stamp (some msg)
  let rest ← iterationsAhead w r i l (w.finish i.start i.next i.complete ws) rs
  .ok (r.readable rs :: rest)

/-! ## Specification -/

/-- What the partner gets of an iteration: the accelerated samples if there are any, else what was written, mapped; with substeps at all steps, else at
the end. -/
def transferred (w : Writer V) (i : Iter V) : Samples V := exchanged w.substeps i.now (i.accW.getD (i.steps.map (mapped w.map)))

/-- What a reader gets that may accelerate. -/
def arrived (w : Writer V) (i : Iter V) : Samples V := i.accR.getD (transferred w i)

/-- What can be read after each iteration if the window started with the sample `p`: the start and the new samples if the window is repeated, else
the sample at the end. -/
def expectBehind (w : Writer V) (p : ℚ × V) : List (Iter V) → List (Samples V)
  | [] => []
  | i :: l =>
    if i.complete then [(arrived w i).getLastD p] :: expectBehind w ((arrived w i).getLastD p) l
    else (p :: arrived w i) :: expectBehind w p l

/-- What can be read in each iteration: the start of the window and the samples of this iteration. -/
def expectAhead (w : Writer V) (p : ℚ × V) : List (Iter V) → List (Samples V)
  | [] => []
  | i :: l => (p :: transferred w i) :: expectAhead w (if i.complete then (transferred w i).getLastD p else p) l

/-- The times of the iterations fit together: a window starts at `T`, and its first sample is at `t`. The steps and the results of acceleration are spaced and end
at the end of the iteration; all iterations of a window end at the same time; only explicit schemes never repeat. -/
def Schedule (implicit substeps : Bool) (t T : ℚ) : List (Iter V) → Prop
  | [] => True
  | i :: l =>
    i.start = T ∧ Covers t i.now i.steps ∧ (∀ n, i.accW = some n → Covers t i.now n) ∧
    (∀ n, i.accR = some n → Covers t i.now n ∧ Fits substeps i.now n) ∧
    (i.complete = true → i.accW = none ∧ i.accR = none ∧ |i.now - i.next| ≤ tol ∧ Schedule implicit substeps i.now i.next l) ∧
    (i.complete = false → implicit = true ∧ (∀ j, l.head? = some j → j.now = i.now) ∧ Schedule implicit substeps t T l)

/-- The time stamped at the end of a window is the end of the next window. -/
def Stamped : Iter V → List (Iter V) → Prop
  | _, [] => True
  | i, j :: l => (i.complete = true → i.stamp = j.now) ∧ Stamped j l

/-! ## Lemmas -/

theorem exchanged_kept {w : Writer V} (hk : w.substeps = true → w.keepSteps = true) {t now : ℚ} {steps : Samples V} (h : Covers t now steps) (at' : ℚ) :
    exchanged w.substeps at' (w.produced steps) = exchanged w.substeps at' (steps.map (mapped w.map)) := by
  unfold Writer.produced Writer.kept
  split
  · rfl
  · next hne =>
    have hs : w.substeps = false := by
      cases hs : w.substeps with
      | false => rfl
      | true => exact absurd (hk hs) hne
    obtain ⟨-, -, ini, v, rfl⟩ := h
    rw [hs]
    simp [exchanged]

theorem exchanged_sent {w : Writer V} (hk : w.substeps = true → w.keepSteps = true) {t : ℚ} {i : Iter V} (h : Covers t i.now i.steps) :
    exchanged w.substeps i.now (w.sentSamples i.steps i.accW) = transferred w i := by
  unfold Writer.sentSamples transferred
  cases i.accW with
  | none => exact exchanged_kept hk h i.now
  | some n => rfl

theorem transferred_covers {w : Writer V} {t : ℚ} {i : Iter V} (h : Covers t i.now i.steps) (ha : ∀ n, i.accW = some n → Covers t i.now n) :
    Covers t i.now (transferred w i) := by
  unfold transferred
  refine Covers.exchanged ?_ _
  cases hc : i.accW with
  | none => exact h.congr (by simp [mapped, Function.comp_def])
  | some n => exact ha n hc

theorem transferred_fits {w : Writer V} {t : ℚ} {i : Iter V} (h : Covers t i.now i.steps) (ha : ∀ n, i.accW = some n → Covers t i.now n) :
    Fits w.substeps i.now (transferred w i) := by
  have hc : Covers t i.now (i.accW.getD (i.steps.map (mapped w.map))) := by
    cases hc : i.accW with
    | none => exact h.congr (by simp [mapped, Function.comp_def])
    | some n => exact ha n hc
  unfold transferred
  obtain ⟨-, -, ini, v, he⟩ := hc
  rw [he]
  cases hs : w.substeps with
  | true => exact .inl rfl
  | false => exact .inr (.inr ⟨v, by simp [exchanged]⟩)

theorem sentSamples_covers {w : Writer V} {t : ℚ} {i : Iter V} (h : Covers t i.now i.steps) (ha : ∀ n, i.accW = some n → Covers t i.now n) :
    Covers t i.now (w.sentSamples i.steps i.accW) := by
  unfold Writer.sentSamples
  cases hc : i.accW with
  | none => exact w.produced_covers h
  | some n => exact ha n hc

/-- The last sample that is transferred is the last one that was produced. -/
theorem transferred_last {w : Writer V} {i : Iter V} {ini : Samples V} {x : V} (h : i.steps = ini ++ [(i.now, x)]) (ha : i.accW = none) :
    ∃ k, transferred w i = k ++ [mapped w.map (i.now, x)] := by
  unfold transferred
  rw [ha, h]
  cases w.substeps
  · exact ⟨[], by simp [exchanged, mapped]⟩
  · exact ⟨ini.map (mapped w.map), by simp [exchanged]⟩

theorem iterationsBehind_ok {w : Writer V} {r : Reader V} (hk : w.substeps = true → w.keepSteps = true) (hsub : r.substeps = w.substeps)
    (hsec : r.second = false) (l : List (Iter V)) (t T : ℚ) (v : V) (p : ℚ × V) (rest : Samples V) (ws : WriterState V) (rs : ReaderState V)
    (hsch : Schedule r.implicit w.substeps t T l) (hp : p.1 = t) (hw : w.At T v p ws) (hr : r.At T p rest rs)
    (hi : r.implicit = true ∨ rest = []) (hf : ∀ j, l.head? = some j → Fits w.substeps j.now rest) :
    ∃ obs, iterationsBehind w r l ws rs = .ok obs ∧ List.Forall₂ (List.Forall₂ (Shows r.map)) (expectBehind w p l) obs := by
  induction l generalizing t T v p rest ws rs with
  | nil => exact ⟨[], rfl, .nil⟩
  | cons i l ih =>
    obtain ⟨hstart, hcov, haw, har, hcomp, hrep⟩ := hsch
    subst hp
    subst hstart
    obtain ⟨ws', msg, h1, h2, h3, h4⟩ := Writer.iterate_ok hw hcov haw
    have hdel := h4 i.now
    rw [exchanged_sent hk hcov] at hdel
    have hT := transferred_covers (w := w) hcov haw
    have hF := hf i rfl
    rw [← hsub] at hdel hF
    have hA : Covers p.1 i.now (arrived w i) := by
      unfold arrived
      cases hc : i.accR with
      | none => exact hT
      | some n => exact (har n hc).1
    unfold iterationsBehind expectBehind
    rw [h1]
    simp only [bind, Except.bind]
    cases hc : i.complete with
    | true =>
      obtain ⟨hw0, hr0, hnext, hsch'⟩ := hcomp hc
      obtain ⟨-, -, ini, x, hsteps⟩ := id hcov
      obtain ⟨k, hk'⟩ := transferred_last (w := w) hsteps hw0
      have harr : arrived w i = k ++ [mapped w.map (i.now, x)] := by
        unfold arrived
        rw [hr0]
        exact hk'
      obtain ⟨rs', h5, h6⟩ := Reader.iterate_behind (stamp := i.stamp) (ini := k) (x := (mapped w.map (i.now, x)).2) hr hsec hi hF hdel hT hk' hnext
      have hw' : w.At i.next x (mapped w.map (i.now, x)) (w.finish i.start i.next true ws') := by
        rw [hsteps] at hcov h3
        refine Writer.finish_complete hcov hnext ?_ h3
        rw [h2, hw0, hsteps]
        rfl
      obtain ⟨obs, h7, h8⟩ := ih i.now i.next x (mapped w.map (i.now, x)) [] _ rs' hsch' rfl hw' h6 (.inr rfl) (fun _ _ => .inr (.inl rfl))
      rw [hr0, h5]
      simp only [h7, if_true]
      refine ⟨_, rfl, ?_⟩
      have hl : (arrived w i).getLastD p = mapped w.map (i.now, x) := by rw [harr]; simp
      rw [hl]
      exact .cons h6.shown h8
    | false =>
      obtain ⟨himp, hnow, hsch'⟩ := hrep hc
      obtain ⟨rs', h5, h6⟩ := Reader.iterate_repeat (stamp := i.stamp) (next := i.next) hr himp hF hdel hT (fun n hn => (har n hn).1)
        (fun h => by rw [hsec] at h; cases h)
      have hw' : w.At i.start v p (w.finish i.start i.next false ws') := Writer.finish_repeat hw hcov (sentSamples_covers hcov haw) h2 h3
      obtain ⟨obs, h7, h8⟩ := ih p.1 i.start v p (arrived w i) _ rs' hsch' rfl hw' h6 (.inl himp) (by
        intro j hj
        rw [hnow j hj]
        unfold arrived
        cases hc : i.accR with
        | none => exact transferred_fits hcov haw
        | some n => exact (har n hc).2)
      rw [h5]
      simp only [h7, Bool.false_eq_true, if_false]
      exact ⟨_, rfl, .cons h6.shown h8⟩

theorem iterationsAhead_ok {w : Writer V} {r : Reader V} (hk : w.substeps = true → w.keepSteps = true) (hsub : r.substeps = w.substeps)
    (hsec : r.second = true) (l : List (Iter V)) (i : Iter V) (t T : ℚ) (v v' : V) (p : ℚ × V) (ws ws' : WriterState V) (rs : ReaderState V)
    (hsch : Schedule r.implicit w.substeps t T (i :: l)) (hst : Stamped i l) (hp : p.1 = t) (hw : w.At T v p ws)
    (h2 : w.out ws' = p :: w.sentSamples i.steps i.accW) (h3 : w.map.isSome = true → ws'.prov = (p.1, v') :: w.kept i.steps) (hv : v' = v)
    (hr : r.At T p (transferred w i) rs) :
    ∃ obs, iterationsAhead w r i l (w.finish i.start i.next i.complete ws') rs = .ok obs ∧
      List.Forall₂ (List.Forall₂ (Shows r.map)) (expectAhead w (if i.complete then (transferred w i).getLastD p else p) l) obs := by
  induction l generalizing i t T v v' p ws ws' rs with
  | nil => exact ⟨[], rfl, .nil⟩
  | cons j l ih =>
    obtain ⟨hstart, hcov, haw, har, hcomp, hrep⟩ := hsch
    obtain ⟨hstamp, hst'⟩ := hst
    subst hp
    subst hstart
    subst hv
    unfold iterationsAhead expectAhead
    cases hc : i.complete with
    | true =>
      obtain ⟨hw0, hr0, hnext, hsch'⟩ := hcomp hc
      obtain ⟨-, -, ini, x, hsteps⟩ := id hcov
      obtain ⟨k, hk'⟩ := transferred_last (w := w) hsteps hw0
      have hw' : w.At i.next x (mapped w.map (i.now, x)) (w.finish i.start i.next true ws') := by
        rw [hsteps] at hcov h3
        refine Writer.finish_complete hcov hnext ?_ h3
        rw [h2, hw0, hsteps]
        rfl
      have hl : (transferred w i).getLastD p = mapped w.map (i.now, x) := by rw [hk']; simp
      have hsch'' := hsch'
      obtain ⟨hstartj, hcovj, hawj, -, -, -⟩ := hsch''
      obtain ⟨ws'', msg, g1, g2, g3, g4⟩ := Writer.iterate_ok hw' hcovj hawj
      have hdel := g4 j.now
      rw [exchanged_sent hk hcovj] at hdel
      have hT := transferred_covers (w := w) hcovj hawj
      rw [← hstamp hc, ← hsub] at hdel
      rw [← hstamp hc] at hT
      obtain ⟨rs', h5, h6⟩ := Reader.iterate_ahead (T := i.start) (stamp := i.stamp) (next := i.next) (ini := k) (x := (mapped w.map (i.now, x)).2) hr hsec hk' hdel hT hnext
      rw [hstartj, g1]
      simp only [bind, Except.bind, if_true]
      rw [h5]
      obtain ⟨obs, h7, h8⟩ := ih j i.now i.next x x (mapped w.map (i.now, x)) _ ws'' rs' hsch' hst' rfl hw' g2 g3 rfl h6
      rw [hstartj] at h7
      simp only [h7]
      refine ⟨_, rfl, ?_⟩
      rw [hl]
      exact .cons h6.shown h8
    | false =>
      obtain ⟨himp, hnow, hsch'⟩ := hrep hc
      have hw' : w.At i.start v' p (w.finish i.start i.next false ws') := Writer.finish_repeat hw hcov (sentSamples_covers hcov haw) h2 h3
      have hsch'' := hsch'
      obtain ⟨hstartj, hcovj, hawj, -, -, -⟩ := hsch''
      obtain ⟨ws'', msg, g1, g2, g3, g4⟩ := Writer.iterate_ok hw' hcovj hawj
      have hdel := g4 j.now
      rw [exchanged_sent hk hcovj] at hdel
      have hT := transferred_covers (w := w) hcovj hawj
      have hF : Fits w.substeps i.now (transferred w i) := transferred_fits hcov haw
      rw [hnow j rfl] at hdel hT
      rw [← hsub] at hdel hF
      obtain ⟨rs', h5, h6⟩ := Reader.iterate_repeat (stamp := i.stamp) (next := i.next) (acc := none) hr himp hF hdel hT (by simp) (fun _ => rfl)
      rw [hstartj, g1]
      simp only [bind, Except.bind, Bool.false_eq_true, if_false]
      rw [h5]
      obtain ⟨obs, h7, h8⟩ := ih j p.1 i.start v' v' p _ ws'' rs' hsch' hst' rfl hw' g2 g3 rfl h6
      rw [hstartj] at h7
      simp only [h7]
      exact ⟨_, rfl, .cons h6.shown h8⟩

/-- Initialisation of the writer. -/
theorem Writer.init_ok (w : Writer V) (v : V) : ∃ ws p, w.init v = .ok ws ∧ w.At 0 v p ws ∧ p.1 = 0 ∧ Shows w.map (0, v) p ∧ w.out ws = [p] := by
  have htol := tol_pos
  unfold Writer.init
  cases hm : w.map with
  | none =>
    refine ⟨⟨[(0, v)], []⟩, (0, v), rfl, ⟨by simp [htol.le], by simp [htol.le], rfl, by simp [hm], fun _ => rfl⟩, rfl, ⟨rfl, .inl rfl⟩, ?_⟩
    simp [Writer.out, hm]
  | some m =>
    have h : mapData m none true [(0, v)] [] = .ok [m.sample true (0, v)] := by
      have := mapData_append (m := m) (after := none) (z := true) [] [(0, v)] [] (by simp) (by simp) (by simp) (List.pairwise_singleton _ _)
      simpa using this
    refine ⟨⟨[(0, v)], [m.sample true (0, v)]⟩, m.sample true (0, v), ?_, ?_, rfl, shows_sample m true (0, v), ?_⟩
    · have hs : setSample 0 v [] = Except.ok [(0, v)] := rfl
      simp only [hs, bind, Except.bind, h]
    · exact ⟨by simp [SampleMap.sample, htol.le], by simp [SampleMap.sample, htol.le], rfl, fun _ => rfl, by simp [hm]⟩
    · simp [Writer.out, hm]

theorem start_ok (w : Writer V) (sends : Bool) (v : V) : ∃ ws p msg, start w sends v = .ok (ws, if sends then some msg else none) ∧ w.At 0 v p ws ∧
    p.1 = 0 ∧ Shows w.map (0, v) p ∧ (w.substeps = true → msg = .samples [p]) ∧ (w.substeps = false → msg = .value p.2) := by
  obtain ⟨ws, p, h1, h2, h3, h4, h5⟩ := w.init_ok v
  have hmsg : message w.substeps (w.out ws) = .ok (if w.substeps then .samples [p] else .value p.2) := by
    rw [h5]
    rfl
  refine ⟨ws, p, if w.substeps then .samples [p] else .value p.2, ?_, h2, h3, h4, fun h => by rw [if_pos h], fun h => by rw [if_neg (by simp [h])]⟩
  unfold start
  rw [h1]
  cases sends
  · rfl
  · simp only [bind, Except.bind, hmsg, if_true]

/-- The received storage after the initial exchange. -/
theorem initial_ok {w : Writer V} {r : Reader V} {p : ℚ × V} {msg : Msg V} (hsub : r.substeps = w.substeps) (sends : Bool) (hp : p.1 = 0)
    (h1 : w.substeps = true → msg = .samples [p]) (h2 : w.substeps = false → msg = .value p.2) (hz : sends = false → p.2 = r.zero) :
    r.initialRecv (if sends then some msg else none) = .ok [p] := by
  have hpp : p = (0, p.2) := by rw [← hp]
  cases sends with
  | true =>
    simp only [if_true]
    change receive r.substeps 0 msg [(0, r.zero)] = _
    cases hs : w.substeps with
    | true =>
      rw [hsub, hs, h1 hs]
      rfl
    | false =>
      rw [hsub, hs, h2 hs]
      change setSample 0 p.2 ([] ++ [(0, r.zero)]) = _
      rw [setSample_last (by simp), List.nil_append, ← hpp]
  | false =>
    change setSample 0 r.zero ([] ++ [(0, r.zero)]) = _
    rw [setSample_last (by simp), List.nil_append, hpp, hz rfl]

/-! ## Theorems -/

/-- **Parallel schemes, and the first participant of a serial scheme as reader.** Every run succeeds, and after `initialize` and after each iteration
exactly the expected samples can be read. `p` is the initial sample on the exchanged mesh. -/
theorem C104_behind (w : Writer V) (r : Reader V) (sends : Bool) (v : V) (l : List (Iter V)) (hk : w.substeps = true → w.keepSteps = true)
    (hsub : r.substeps = w.substeps) (hsec : r.second = false) (hsch : Schedule r.implicit w.substeps 0 0 l)
    (hz : sends = false → ∀ p, Shows w.map (0, v) p → p.2 = r.zero) :
    ∃ p obs, Shows w.map (0, v) p ∧ runBehind w r sends v l = .ok obs ∧ List.Forall₂ (List.Forall₂ (Shows r.map)) ([p] :: expectBehind w p l) obs := by
  have htol := tol_pos
  obtain ⟨ws, p, msg, h1, h2, h3, h4, h5, h6⟩ := start_ok w sends v
  have hi := initial_ok (r := r) hsub sends h3 h5 h6 (fun h => hz h p h4)
  obtain ⟨rs, g1, g2, g3⟩ := mapRead_ok (c := r) (z := true) (old := []) (new := [p]) (s := ⟨[p], []⟩) rfl (by simp) (List.pairwise_singleton _ _)
    (fun _ => .nil)
  have hinit : r.init (if sends then some msg else none) 0 none = .ok rs := by
    unfold Reader.init
    rw [hi]
    exact g1
  have hr : r.At 0 p [] rs := ⟨by rw [h3]; simp [htol.le], by rw [h3]; simp [htol.le], g2, List.pairwise_singleton _ _, g3⟩
  obtain ⟨obs, h7, h8⟩ := iterationsBehind_ok hk hsub hsec l 0 0 v p [] ws rs hsch h3 h2 hr (.inr rfl) (fun _ _ => .inr (.inl rfl))
  refine ⟨p, r.readable rs :: obs, h4, ?_, .cons g3 h8⟩
  unfold runBehind
  rw [h1]
  simp only [bind, Except.bind, hinit, h7]

/-- **The second participant of a serial scheme as reader.** Every run succeeds, and in each iteration exactly the expected samples can be read. -/
theorem C104_ahead_partial (w : Writer V) (r : Reader V) (sends : Bool) (v : V) (stamp : ℚ) (i : Iter V) (l : List (Iter V))
    (hk : w.substeps = true → w.keepSteps = true) (hsub : r.substeps = w.substeps) (hsec : r.second = true)
    (hsch : Schedule r.implicit w.substeps 0 0 (i :: l)) (hstamp : stamp = i.now) (hst : Stamped i l)
    (hz : sends = false → ∀ p, Shows w.map (0, v) p → p.2 = r.zero) :
    ∃ p obs, Shows w.map (0, v) p ∧ runAhead w r sends v stamp i l = .ok obs ∧
      List.Forall₂ (List.Forall₂ (Shows r.map)) (expectAhead w p (i :: l)) obs := by
  have htol := tol_pos
  obtain ⟨ws, p, msg, h1, h2, h3, h4, h5, h6⟩ := start_ok w sends v
  have hi := initial_ok (r := r) hsub sends h3 h5 h6 (fun h => hz h p h4)
  obtain ⟨hstart, hcov, haw, -, -, -⟩ := id hsch
  rw [← h3] at hcov haw
  obtain ⟨ws', m1, g1, g2, g3, g4⟩ := Writer.iterate_ok h2 hcov haw
  have hdel := g4 i.now
  rw [exchanged_sent hk hcov, ← hsub] at hdel
  have hT := transferred_covers (w := w) hcov haw
  have hrec := receive_ok (rest := []) (.inr (.inl rfl)) hdel hT.gap
  obtain ⟨rs, k1, k2, k3⟩ := mapRead_ok (c := r) (z := true) (old := []) (new := p :: transferred w i) (s := ⟨p :: transferred w i, []⟩) rfl (by simp)
    hT.gap (fun _ => .nil)
  have hinit : r.init (if sends then some msg else none) stamp (some m1) = .ok rs := by
    unfold Reader.init
    rw [hi]
    change (receive r.substeps stamp m1 [p] >>= fun recv => r.mapRead true ⟨recv, []⟩) = _
    rw [hstamp, hrec]
    exact k1
  have hr : r.At 0 p (transferred w i) rs := ⟨by rw [h3]; simp [htol.le], by rw [h3]; simp [htol.le], k2, hT.gap, k3⟩
  obtain ⟨obs, h7, h8⟩ := iterationsAhead_ok hk hsub hsec l i 0 0 v v p ws ws' rs hsch hst h3 h2 g2 g3 rfl hr
  refine ⟨p, r.readable rs :: obs, h4, ?_, .cons k3 h8⟩
  unfold runAhead
  rw [h1]
  simp only [bind, Except.bind]
  rw [hstart, g1]
  simp only [hinit]
  rw [hstart] at h7
  simp only [h7]

end Verif.DataPath
