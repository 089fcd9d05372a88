import Mathlib.Data.List.Forall2
import Verif.Protocol.Serial

/-!
# Communication protocols of two participants with a fixed window size: properties
-/

set_option autoImplicit false

namespace Verif

open Prog

variable {D : Type}

/-- Which participant runs which scheme. -/
inductive BiKind where
  | serial
  | parallel
deriving DecidableEq

/-- The exchange functions of the chosen scheme. -/
def BiKind.hooks (k : BiKind) (c : Config) : Hooks Bool D :=
  match k with
  | .serial => Serial.hooks c
  | .parallel => Parallel.hooks c

/-- The two coupled programs. -/
def biPrograms (k : BiKind) (cA cB : Config) (mt : Option ℚ) (w : ℚ) (dA dB : D) (pA pB : Plan D)
    (fuel : ℕ) : Bool → Prog Bool (Msg D) (List (State D)) :=
  pair (participant cA (k.hooks cA) mt w dA pA fuel) (participant cB (k.hooks cB) mt w dB pB fuel)

/-- Everything that is assumed about the coupled run: both configurations stem from the same scheme,
the window size and the end are resolvable by the numerical tolerance, the solvers hit window ends
exactly (with any subcycling), and there is some end: a maximum time or window number, and a bound on
the iterations per window (max-iterations or a convergence that happens at some point). -/
structure BiSetup (cA cB : Config) (mt : Option ℚ) (w : ℚ) (pA pB : Plan D) (W N : ℕ) : Prop where
  pair : FixedPair cA cB
  size : tol < w
  stepsA : PlanOk cA pA
  stepsB : PlanOk cB pB
  maxTime : ∀ m, mt = some m → tol < m
  maxWindows : ∀ n, cA.maxWindows = some n → 1 ≤ n
  windowBound : WindowBound cA mt w W
  iterBound : IterBound cB pB N

/-- Facts about the histories of a completed run (newest state first). -/
structure BiOutcome (kind : BiKind) (cA cB : Config) (dA dB : D) (pA pB : Plan D)
    (rA rB : List (State D)) : Prop where
  agree : List.Forall₂ Agree rA rB
  finished : ∀ s ∈ rA.head?, ¬ s.ongoing cA
  wroteA : Wrote pA false rA
  wroteB : Wrote pB true rB
  decided : Decided cB pB rB
  recvA : List.Forall₂ (fun a b => a.recvBuf = b.sendBuf) rA.dropLast rB.dropLast
  recvB : match kind with
    | .serial => List.Forall₂ (fun a b => b.recvBuf = a.sendBuf) rA.dropLast rB.tail
    | .parallel => List.Forall₂ (fun a b => b.complete = true → b.recvBuf = a.sendBuf)
        rA.dropLast rB.dropLast
  initA : ∀ s ∈ rA.getLast?, s.recvBuf = if cA.receivesInit then dB else dA
  initB : kind = .parallel → ∀ s ∈ rB.getLast?, s.recvBuf = if cB.receivesInit then dA else dB

theorem ongoing_init {c : Config} {mt : Option ℚ} {s : State D} (hm : ∀ m, mt = some m → tol < m)
    (hn : ∀ n, c.maxWindows = some n → 1 ≤ n) (ht : s.time = ⟨mt, 0, 0⟩) (hw : s.windows = 1) :
    s.ongoing c := by
  constructor
  · cases h : c.maxWindows with
    | none => trivial
    | some n => rw [hw]; exact hn n h
  · rw [ht, TimeHandler.reachedEnd_iff]
    rintro ⟨m, hm', h1, h2⟩
    have := hm m hm'
    simp only [TimeHandler.time] at h1 h2
    linarith

theorem bi_outcome (kind : BiKind) {cA cB : Config} {mt : Option ℚ} {w : ℚ} {pA pB : Plan D} {W N : ℕ}
    (h : BiSetup cA cB mt w pA pB W N) (dA dB : D) {fuel : ℕ} (hf : W * N + N + 2 ≤ fuel) :
    ∃ rA rB, Meet (participant cA (kind.hooks cA) mt w dA pA fuel)
      (participant cB (kind.hooks cB) mt w dB pB fuel) rA rB ∧
      BiOutcome kind cA cB dA dB pA pB rA rB := by
  have htol := tol_pos
  have hmt : ∀ m, mt = some m → 0 < m := fun m hm => lt_trans htol (h.maxTime m hm)
  have hrem : ∀ s : State D, s.iters = 1 → remaining W N s < fuel := by
    intro s hs
    unfold remaining
    rw [hs]
    have := Nat.mul_le_mul_right N (Nat.sub_le W s.windows)
    omega
  have hN1 := h.iterBound.1
  cases kind with
  | parallel =>
    obtain ⟨sA, sB, hm, stA, stB, ag, hit, inA, inB⟩ :=
      Parallel.init_meet (w := w) (dA := dA) (dB := dB) h.pair hmt
    obtain ⟨lA, lB, hm2, hfa, h1, h2, h3, h4⟩ := Parallel.coupled_meet h.pair h.size h.stepsA h.stepsB
      h.windowBound h.iterBound fuel sA sB [] [] stA stB ag (by omega) (fun _ => by rw [← ag.iters]; exact hit)
      (fun _ => hrem sA hit) (by omega) trivial trivial trivial
    refine ⟨_, _, hm.bind hm2, ?_, h4, h1, h2, h3, ?_, ?_, by simpa using inA, fun _ => by simpa using inB⟩
    · exact forall₂_append (hfa.imp fun _ _ h => h.toAgree) (.cons ag .nil)
    · simpa using hfa.imp fun _ _ h => h.recvA
    · simpa using hfa.imp fun _ _ h => h.recvB
  | serial =>
    obtain ⟨sA, q, hm, stA, hit, hwin, htime, inA, hwait⟩ :=
      Serial.init_meet (w := w) (dA := dA) (dB := dB) (planB := pB) h.pair hmt fuel
    obtain ⟨lA, lB, sB, hm2, ag, hfa, hfb, h1, h2, h3, h4, -⟩ := Serial.coupled_meet h.pair h.size h.stepsA h.stepsB
      h.windowBound h.iterBound fuel sA [] [] q (fun _ => True) stA
      (ongoing_init h.maxTime h.maxWindows htime hwin) (by omega) (fun _ => hit)
      (hrem sA hit) trivial hwait
    refine ⟨_, _, hm hm2, ?_, h4, h1, h2, h3, ?_, ?_, by simpa using inA, by simp⟩
    · exact forall₂_append (hfa.imp fun _ _ h => h.toAgree) (.cons ag .nil)
    · simpa using hfa.imp fun _ _ h => h.recvA
    · simpa using hfb

/-- In every completed execution the results are the ones of the matched run. -/
theorem bi_results (kind : BiKind) {cA cB : Config} {mt : Option ℚ} {w : ℚ} {pA pB : Plan D} {W N : ℕ}
    (h : BiSetup cA cB mt w pA pB W N) (dA dB : D) {fuel : ℕ} (hf : W * N + N + 2 ≤ fuel)
    {l : ℕ} {a : Net Bool (Msg D) (List (State D))} {r : Bool → List (State D)}
    (hs : Net.Steps l (RNet.toNet (biPrograms kind cA cB mt w dA dB pA pB fuel)) a)
    (hd : Net.Done r a) : BiOutcome kind cA cB dA dB pA pB (r true) (r false) := by
  obtain ⟨rA, rB, hm, ho⟩ := bi_outcome kind h dA dB hf
  obtain ⟨k, f, hdf, -, hall⟩ := hm.alwaysCompletes.buffered
  have := (hall l a hs).2.1 hd.stuck
  subst this
  have e : ∀ x, r x = bif x then rA else rB := fun x => by
    have h1 := hdf.1 x
    rw [hd.1 x] at h1
    injection h1
  rw [e true, e false]
  exact ho

/-- Both programs finish under blocking sends and under buffered sends; see `RNet.AlwaysCompletes`
and `Net.AlwaysCompletes`: every execution is finite, no execution gets stuck before both programs
have returned, no assertion fails, and no message is left over. -/
def BothComplete (p : Bool → Prog Bool (Msg D) (List (State D))) : Prop :=
  ∃ r, RNet.AlwaysCompletes p r ∧ Net.AlwaysCompletes (RNet.toNet p) r

theorem bi_complete (kind : BiKind) {cA cB : Config} {mt : Option ℚ} {w : ℚ} {pA pB : Plan D} {W N : ℕ}
    (h : BiSetup cA cB mt w pA pB W N) (dA dB : D) {fuel : ℕ} (hf : W * N + N + 2 ≤ fuel) :
    BothComplete (biPrograms kind cA cB mt w dA dB pA pB fuel) := by
  obtain ⟨rA, rB, hm, ho⟩ := bi_outcome kind h dA dB hf
  exact ⟨_, hm.alwaysCompletes, hm.alwaysCompletes.buffered⟩

/-- C14 (fixed window size). -/
theorem C14_serial_explicit {cA cB : Config} {mt : Option ℚ} {w : ℚ} {pA pB : Plan D} {W : ℕ}
    (h : BiSetup cA cB mt w pA pB W 1) (_ : cA.implicit = false) (dA dB : D) {fuel : ℕ}
    (hf : W + 3 ≤ fuel) : BothComplete (biPrograms .serial cA cB mt w dA dB pA pB fuel) :=
  bi_complete .serial h dA dB (by omega)

/-- C15 -/
theorem C15_serial_implicit {cA cB : Config} {mt : Option ℚ} {w : ℚ} {pA pB : Plan D} {W N : ℕ}
    (h : BiSetup cA cB mt w pA pB W N) (_ : cA.implicit = true) (dA dB : D) {fuel : ℕ}
    (hf : W * N + N + 2 ≤ fuel) : BothComplete (biPrograms .serial cA cB mt w dA dB pA pB fuel) :=
  bi_complete .serial h dA dB hf

/-- C16 (explicit and implicit). -/
theorem C16_parallel {cA cB : Config} {mt : Option ℚ} {w : ℚ} {pA pB : Plan D} {W N : ℕ}
    (h : BiSetup cA cB mt w pA pB W N) (dA dB : D) {fuel : ℕ}
    (hf : W * N + N + 2 ≤ fuel) : BothComplete (biPrograms .parallel cA cB mt w dA dB pA pB fuel) :=
  bi_complete .parallel h dA dB hf

/-- C18: in every completed execution both participants have gone through the same iterations: at
the `n`-th iteration start both have the same time, window number, iteration number and report of a
completed window; both are finished. -/
theorem C18_agreement (kind : BiKind) {cA cB : Config} {mt : Option ℚ} {w : ℚ} {pA pB : Plan D}
    {W N : ℕ} (h : BiSetup cA cB mt w pA pB W N) (dA dB : D) {fuel : ℕ} (hf : W * N + N + 2 ≤ fuel)
    {l : ℕ} {a : Net Bool (Msg D) (List (State D))} {r : Bool → List (State D)}
    (hs : Net.Steps l (RNet.toNet (biPrograms kind cA cB mt w dA dB pA pB fuel)) a)
    (hd : Net.Done r a) :
    List.Forall₂ (fun sA sB => sA.time = sB.time ∧ sA.windows = sB.windows ∧ sA.iters = sB.iters ∧
      sA.complete = sB.complete) (r true) (r false) ∧
    (∀ s ∈ (r true).head?, ¬ s.ongoing cA) ∧ (∀ s ∈ (r false).head?, ¬ s.ongoing cB) := by
  have ho := bi_results kind h dA dB hf hs hd
  refine ⟨ho.agree.imp fun _ _ h => ⟨h.time, h.windows, h.iters, h.complete⟩, ho.finished, ?_⟩
  intro s hs hon
  have hag := ho.agree
  have hfin := ho.finished
  revert hs hag hfin
  generalize r true = rA
  generalize r false = rB
  intro hs hag hfin
  cases hag with
  | nil => simp at hs
  | cons h1 _ =>
    simp only [List.head?_cons, Option.mem_some_iff] at hs hfin
    subst hs
    exact hfin _ rfl ((h1.ongoing h.pair.maxWindows).mpr hon)

/-- C18: every window is completed exactly when the measuring participant's decision is positive. -/
theorem C18_verdict (kind : BiKind) {cA cB : Config} {mt : Option ℚ} {w : ℚ} {pA pB : Plan D}
    {W N : ℕ} (h : BiSetup cA cB mt w pA pB W N) (dA dB : D) {fuel : ℕ} (hf : W * N + N + 2 ≤ fuel)
    {l : ℕ} {a : Net Bool (Msg D) (List (State D))} {r : Bool → List (State D)}
    (hs : Net.Steps l (RNet.toNet (biPrograms kind cA cB mt w dA dB pA pB fuel)) a)
    (hd : Net.Done r a) : Decided cB pB (r false) :=
  (bi_results kind h dA dB hf hs hd).decided

/-- C22: after every iteration the first participant holds the data the second one sent in this
iteration, and if the window is completed that is what the second participant's solver wrote last;
the second participant's data is what the first one's solver wrote last in the same iteration (serial:
before the second one starts computing; parallel: when the window is completed). -/
theorem C22_right_window (kind : BiKind) {cA cB : Config} {mt : Option ℚ} {w : ℚ} {pA pB : Plan D}
    {W N : ℕ} (h : BiSetup cA cB mt w pA pB W N) (dA dB : D) {fuel : ℕ} (hf : W * N + N + 2 ≤ fuel)
    {l : ℕ} {a : Net Bool (Msg D) (List (State D))} {r : Bool → List (State D)}
    (hs : Net.Steps l (RNet.toNet (biPrograms kind cA cB mt w dA dB pA pB fuel)) a)
    (hd : Net.Done r a) :
    Wrote pA false (r true) ∧ Wrote pB true (r false) ∧
    List.Forall₂ (fun a b => a.recvBuf = b.sendBuf) (r true).dropLast (r false).dropLast ∧
    (kind = .serial → List.Forall₂ (fun a b => b.recvBuf = a.sendBuf) (r true).dropLast (r false).tail) ∧
    (kind = .parallel → List.Forall₂ (fun a b => b.complete = true → b.recvBuf = a.sendBuf)
      (r true).dropLast (r false).dropLast) := by
  have ho := bi_results kind h dA dB hf hs hd
  refine ⟨ho.wroteA, ho.wroteB, ho.recvA, ?_, ?_⟩
  · rintro rfl; exact ho.recvB
  · rintro rfl; exact ho.recvB

/-- C22, start of the coupling: after `initialize` the receivers of initial data hold what the
partner wrote before `initialize` (for the serial second participant these values are superseded
within `initialize` by the data of the first window, see `C22_right_window`). -/
theorem C22_initial_data (kind : BiKind) {cA cB : Config} {mt : Option ℚ} {w : ℚ} {pA pB : Plan D}
    {W N : ℕ} (h : BiSetup cA cB mt w pA pB W N) (dA dB : D) {fuel : ℕ} (hf : W * N + N + 2 ≤ fuel)
    {l : ℕ} {a : Net Bool (Msg D) (List (State D))} {r : Bool → List (State D)}
    (hs : Net.Steps l (RNet.toNet (biPrograms kind cA cB mt w dA dB pA pB fuel)) a)
    (hd : Net.Done r a) :
    (cA.receivesInit = true → ∀ s ∈ (r true).getLast?, s.recvBuf = dB) ∧
    (kind = .parallel → cB.receivesInit = true → ∀ s ∈ (r false).getLast?, s.recvBuf = dA) := by
  have ho := bi_results kind h dA dB hf hs hd
  refine ⟨fun h1 s hs => ?_, fun h0 h1 s hs => ?_⟩
  · rw [ho.initA s hs, if_pos h1]
  · rw [ho.initB h0 s hs, if_pos h1]

/-! ### The hypotheses can be met -/

/-- A solver that makes one step per window, or two if the remaining size allows it. -/
def examplePlan (c : Config) (verdict : ℕ → Bool) : Plan ℚ := fun hist =>
  match hist with
  | [] => []
  | s :: _ =>
    if 2 * tol < s.maxStep c / 2 then
      [⟨s.maxStep c / 2, s.recvBuf + 1, verdict s.iters, id⟩,
       ⟨s.maxStep c / 2, s.recvBuf + 2, verdict s.iters, id⟩]
    else [⟨s.maxStep c, s.recvBuf + 3, verdict s.iters, id⟩]

theorem examplePlan_ok (c : Config) (v : ℕ → Bool) : PlanOk c (examplePlan c v) := by
  have htol := tol_pos
  intro s hist _ _
  unfold examplePlan
  split
  · simp at *
  · next heq =>
    simp only [List.cons.injEq] at heq
    obtain ⟨rfl, rfl⟩ := heq
    split
    · next h =>
      exact .cons (by dsimp only; linarith) (by dsimp only; linarith) (.last (by dsimp only; ring))
    · exact .last rfl

def exCfg (implicit first : Bool) : Config :=
  { implicit := implicit, first := first, maxWindows := none, minIter := 1,
    maxIter := if implicit then some 4 else none, sendsInit := first, receivesInit := !first }

theorem tol_lt_tenth : tol < 1 / 10 := by norm_num [tol]

example : BiSetup (exCfg true true) (exCfg true false) (some 1) (3 / 10)
    (examplePlan (exCfg true true) fun _ => true) (examplePlan (exCfg true false) fun n => n == 2) 4 4 where
  pair := ⟨rfl, rfl, rfl, rfl, rfl, rfl, rfl, rfl, rfl, rfl⟩
  size := by have := tol_lt_tenth; linarith
  stepsA := examplePlan_ok _ _
  stepsB := examplePlan_ok _ _
  maxTime := by intro m hm; injection hm with hm; have := tol_lt_tenth; linarith
  maxWindows := by intro n hn; simp [exCfg] at hn
  windowBound := Or.inr ⟨1, rfl, by norm_num⟩
  iterBound := iterBound_of_maxIter (by norm_num) rfl

example : BiSetup (exCfg false true) (exCfg false false) (some 1) (3 / 10)
    (examplePlan (exCfg false true) fun _ => true) (examplePlan (exCfg false false) fun n => n == 2) 4 1 where
  pair := ⟨rfl, rfl, rfl, rfl, rfl, rfl, rfl, rfl, rfl, rfl⟩
  size := by have := tol_lt_tenth; linarith
  stepsA := examplePlan_ok _ _
  stepsB := examplePlan_ok _ _
  maxTime := by intro m hm; injection hm with hm; have := tol_lt_tenth; linarith
  maxWindows := by intro n hn; simp [exCfg] at hn
  windowBound := Or.inr ⟨1, rfl, by norm_num⟩
  iterBound := ⟨by norm_num, fun h => by simp [exCfg] at h⟩

end Verif
