import Verif.Protocol.FirstMethod

/-!
# First-participant window size method: properties
-/

set_option autoImplicit false

namespace Verif

open Prog

variable {D : Type}

/-- `initialize` of both participants with the first-participant method. -/
theorem Serial.first_init_meet {cA cB : Config} {mt : Option ℚ} {δ : ℚ} {dA dB : D} {planA planB : Plan D}
    (hp : FirstPair cA cB) (hmt : ∀ m, mt = some m → 0 < m) (k : ℕ) :
    ∃ sA q, (∀ {f : State D → Prog Bool (Msg D) (List (State D))} {x y : List (State D)},
        Meet (f sA) q x y →
        Meet ((initScheme cA (Serial.hooks cA) (constructed cA mt undefinedSize dA).fulfilAll).bind f)
          (participant cB (Serial.hooks cB) mt undefinedSize dB planB k) x y) ∧
      AtStartF mt δ sA ∧ sA.iters = 1 ∧ sA.windows = 1 ∧ sA.time = ⟨mt, 0, 0⟩ ∧
      WaitingF cB planB k sA [] none (fun sB => (Wrote planB true [sB] ∧ Decided cB planB [sB] ∧
        Follows planA [sA] [sB]) ∧ True) q := by
  have htol := tol_pos
  have hfB : ¬ cB.first = true := by rw [hp.firstB]; exact Bool.false_ne_true
  set iA : State D := { (constructed cA mt undefinedSize dA).fulfilAll with
    time := (constructed cA mt undefinedSize dA).fulfilAll.time.resetTo 0, windows := 1, received := false,
    reqWrite := (constructed cA mt undefinedSize dA).fulfilAll.reqWrite || cA.implicit } with hiA
  set iB : State D := { (constructed cB mt undefinedSize dB).fulfilAll with
    time := (constructed cB mt undefinedSize dB).fulfilAll.time.resetTo 0, windows := 1, received := false,
    reqWrite := (constructed cB mt undefinedSize dB).fulfilAll.reqWrite || cB.implicit } with hiB
  set iB' : State D := (if cB.receivesInit then { iB with recvBuf := dA } else iB) with hiB'
  set q : Prog Bool (Msg D) (List (State D)) :=
    (Serial.receiveSize cB true iB' fun s =>
      recvData true { s with size := s.nextSize } fun s => notify s ret).bind
      fun s => coupled cB (Serial.hooks cB) planB k s [] with hq
  have at0 : ∀ s : State D, s.time = ⟨mt, 0, 0⟩ → s.size = undefinedSize → s.nextSize = undefinedSize →
      s.windows = 1 → s.iters = 1 → AtStartF mt δ s := by
    intro s h1 h2 h3 h4 h5
    exact ⟨by rw [h1], h2, h3, by rw [h1], by omega, by omega, Or.inl (by rw [h1, h4]; simp),
      fun m hm => by rw [h1]; exact le_of_lt (hmt m hm)⟩
  refine ⟨if cA.receivesInit then { iA with recvBuf := dB, received := true } else iA, q, ?_, ?_, ?_, ?_,
    ?_, ?_⟩
  · intro f x y hm
    show Meet ((Serial.initial cA iA).bind f)
      ((Serial.initial cB iB).bind fun s => coupled cB (Serial.hooks cB) planB k s []) x y
    unfold Serial.initial
    rw [if_pos hp.firstA, if_neg hfB]
    simp only [hp.initAB, hp.initBA]
    cases hBr : cB.receivesInit <;> cases hAr : cA.receivesInit <;>
      simp only [hBr, hAr, hq, hiB', Bool.false_eq_true, if_true, if_false] at hm ⊢
    · exact hm
    · exact .bwd hm
    · exact .fwd hm
    · exact .bwd (.fwd hm)
  · cases cA.receivesInit <;> exact at0 _ rfl rfl rfl rfl rfl
  · cases cA.receivesInit <;> rfl
  · cases cA.receivesInit <;> rfl
  · cases cA.receivesInit <;> rfl
  · have hns : ¬ iB'.hasSize := undefined_noSize (by rw [hiB']; split <;> rfl)
    have hrec : iB'.received = false := by rw [hiB']; split <;> rfl
    have hti : iB'.time = ⟨mt, 0, 0⟩ := by rw [hiB']; split <;> rfl
    have hwi : iB'.windows = 1 := by rw [hiB']; split <;> rfl
    have hit : iB'.iters = 1 := by rw [hiB']; split <;> rfl
    have hco : iB'.complete = false := by rw [hiB']; split <;> rfl
    rw [hq]
    unfold Serial.receiveSize
    rw [if_pos hp.receivesB]
    refine ⟨_, rfl, fun dt hdt _ => ⟨fun m => Prog.bind (match m with
      | .data d => notify { iB' with nextSize := dt, size := dt, recvBuf := d } ret
      | _ => fail .assert) (fun s => coupled cB (Serial.hooks cB) planB k s []), ?_, fun d => ?_⟩⟩
    · have h1 : ¬ equals dt undefinedSize := by
        rw [equals_iff]; unfold undefinedSize; rintro ⟨_, h2⟩; linarith
      have h2 : iB'.hasSize ∧ cB.implicit = true ∧ iB'.converged = false → dt = iB'.size :=
        fun h => absurd h.1 hns
      show Prog.bind (ensure _ _ (ensure _ _ (recvData true _ _))) _ = _
      simp only [ensure]
      rw [if_pos h1, if_pos h2]
      rfl
    · refine ⟨{ iB' with nextSize := dt, size := dt, recvBuf := d, received := true }, ?_, rfl, rfl, rfl,
        ?_, ⟨trivial, trivial, trivial⟩, trivial⟩
      · show Prog.bind (notify { iB' with nextSize := dt, size := dt, recvBuf := d } ret) _ = _
        have : (notify { iB' with nextSize := dt, size := dt, recvBuf := d } ret :
            Prog Bool (Msg D) (State D)) =
          ret { iB' with nextSize := dt, size := dt, recvBuf := d, received := true } := if_pos hrec
        rw [this, ret_bind]
      · exact ⟨by rw [hti]; split <;> rfl, by rw [hwi]; split <;> rfl, by rw [hit]; split <;> rfl,
          by rw [hco]; split <;> rfl⟩

/-- Assumptions about a run with the first-participant method: any steps of the first participant
that fit into the remaining time, any subcycling of the second. -/
structure FirstSetup (cA cB : Config) (mt : Option ℚ) (δ : ℚ) (pA pB : Plan D) (W N : ℕ) : Prop where
  pair : FirstPair cA cB
  stepsA : FirstPlan cA δ pA
  stepsB : PlanOk cB pB
  maxTime : ∀ m, mt = some m → tol < m
  maxWindows : ∀ n, cA.maxWindows = some n → 1 ≤ n
  windowBound : WindowBoundF cA mt δ W
  iterBound : IterBound cB pB N

structure FirstOutcome (cA cB : Config) (pA pB : Plan D) (rA rB : List (State D)) : Prop where
  agree : List.Forall₂ Agree rA rB
  follows : Follows pA rA rB
  finished : ∀ s ∈ rA.head?, ¬ s.ongoing cA
  wroteA : Wrote pA false rA
  wroteB : Wrote pB true rB
  decided : Decided cB pB rB
  recvA : List.Forall₂ (fun a b => a.recvBuf = b.sendBuf) rA.dropLast rB.dropLast
  recvB : List.Forall₂ (fun a b => b.recvBuf = a.sendBuf) rA.dropLast rB.tail

theorem first_outcome {cA cB : Config} {mt : Option ℚ} {δ : ℚ} {pA pB : Plan D} {W N : ℕ}
    (h : FirstSetup cA cB mt δ pA pB W N) (dA dB : D) {fuel : ℕ} (hf : W * N + N + 2 ≤ fuel) :
    ∃ rA rB, Meet (participant cA (Serial.hooks cA) mt undefinedSize dA pA fuel)
      (participant cB (Serial.hooks cB) mt undefinedSize dB pB fuel) rA rB ∧
      FirstOutcome cA cB pA pB rA rB := by
  have htol := tol_pos
  have hmt : ∀ m, mt = some m → 0 < m := fun m hm => lt_trans htol (h.maxTime m hm)
  have hrem : ∀ s : State D, s.iters = 1 → remaining W N s < fuel := by
    intro s hs
    unfold remaining
    rw [hs]
    have := Nat.mul_le_mul_right N (Nat.sub_le W s.windows)
    omega
  have hN1 := h.iterBound.1
  obtain ⟨sA, q, hm, stA, hit, hwin, htime, hwait⟩ :=
    Serial.first_init_meet (δ := δ) (dA := dA) (dB := dB) (planA := pA) (planB := pB) h.pair hmt fuel
  obtain ⟨lA, lB, sB, hm2, ag, hfa, hfb, h1, h2, h3, h3', h4, -⟩ := Serial.first_meet h.pair h.stepsA h.stepsB
    h.windowBound h.iterBound fuel sA [] [] q none (fun _ => True) stA
    (ongoing_init h.maxTime h.maxWindows htime hwin) (by omega) (fun _ => hit)
    (hrem sA hit) (fun _ _ _ h => by cases h) trivial hwait
  refine ⟨_, _, hm hm2, ?_, h3', h4, h1, h2, h3, ?_, ?_⟩
  · exact forall₂_append (hfa.imp fun _ _ h => h.toAgree) (.cons ag .nil)
  · simpa using hfa.imp fun _ _ h => h.recvA
  · simpa using hfb

/-- The two coupled programs. -/
def firstPrograms (cA cB : Config) (mt : Option ℚ) (dA dB : D) (pA pB : Plan D)
    (fuel : ℕ) : Bool → Prog Bool (Msg D) (List (State D)) :=
  biPrograms .serial cA cB mt undefinedSize dA dB pA pB fuel

/-- C14 for the first-participant method (explicit and implicit). -/
theorem C14_first_method {cA cB : Config} {mt : Option ℚ} {δ : ℚ} {pA pB : Plan D} {W N : ℕ}
    (h : FirstSetup cA cB mt δ pA pB W N) (dA dB : D) {fuel : ℕ} (hf : W * N + N + 2 ≤ fuel) :
    BothComplete (firstPrograms cA cB mt dA dB pA pB fuel) := by
  obtain ⟨rA, rB, hm, -⟩ := first_outcome h dA dB hf
  exact ⟨_, hm.alwaysCompletes, hm.alwaysCompletes.buffered⟩

theorem first_results {cA cB : Config} {mt : Option ℚ} {δ : ℚ} {pA pB : Plan D} {W N : ℕ}
    (h : FirstSetup cA cB mt δ pA pB W N) (dA dB : D) {fuel : ℕ} (hf : W * N + N + 2 ≤ fuel)
    {l : ℕ} {a : Net Bool (Msg D) (List (State D))} {r : Bool → List (State D)}
    (hs : Net.Steps l (RNet.toNet (firstPrograms cA cB mt dA dB pA pB fuel)) a)
    (hd : Net.Done r a) : FirstOutcome cA cB pA pB (r true) (r false) := by
  obtain ⟨rA, rB, hm, ho⟩ := first_outcome h dA dB hf
  obtain ⟨k, f, hdf, -, hall⟩ := hm.alwaysCompletes.buffered
  have := (hall l a hs).2.1 hd.stuck
  subst this
  have e : ∀ x, r x = bif x then rA else rB := fun x => by
    have h1 := hdf.1 x
    rw [hd.1 x] at h1
    injection h1
  rw [e true, e false]
  exact ho

/-- C19: in every completed execution the second participant's window is in each iteration exactly
as long as the first participant's step, and completed windows advance both times by this step; the
times of both participants agree at every iteration start. -/
theorem C19_follows {cA cB : Config} {mt : Option ℚ} {δ : ℚ} {pA pB : Plan D} {W N : ℕ}
    (h : FirstSetup cA cB mt δ pA pB W N) (dA dB : D) {fuel : ℕ} (hf : W * N + N + 2 ≤ fuel)
    {l : ℕ} {a : Net Bool (Msg D) (List (State D))} {r : Bool → List (State D)}
    (hs : Net.Steps l (RNet.toNet (firstPrograms cA cB mt dA dB pA pB fuel)) a)
    (hd : Net.Done r a) :
    Follows pA (r true) (r false) ∧
    List.Forall₂ (fun sA sB => sA.time = sB.time ∧ sA.windows = sB.windows ∧ sA.iters = sB.iters ∧
      sA.complete = sB.complete) (r true) (r false) := by
  have ho := first_results h dA dB hf hs hd
  exact ⟨ho.follows, ho.agree.imp fun _ _ h => ⟨h.time, h.windows, h.iters, h.complete⟩⟩

/-- C22 for the first-participant method. -/
theorem C22_first_method {cA cB : Config} {mt : Option ℚ} {δ : ℚ} {pA pB : Plan D} {W N : ℕ}
    (h : FirstSetup cA cB mt δ pA pB W N) (dA dB : D) {fuel : ℕ} (hf : W * N + N + 2 ≤ fuel)
    {l : ℕ} {a : Net Bool (Msg D) (List (State D))} {r : Bool → List (State D)}
    (hs : Net.Steps l (RNet.toNet (firstPrograms cA cB mt dA dB pA pB fuel)) a)
    (hd : Net.Done r a) :
    Wrote pA false (r true) ∧ Wrote pB true (r false) ∧
    List.Forall₂ (fun a b => a.recvBuf = b.sendBuf) (r true).dropLast (r false).dropLast ∧
    List.Forall₂ (fun a b => b.recvBuf = a.sendBuf) (r true).dropLast (r false).tail := by
  have ho := first_results h dA dB hf hs hd
  exact ⟨ho.wroteA, ho.wroteB, ho.recvA, ho.recvB⟩

/-! ### The hypotheses can be met -/

def exFirstCfg (implicit first : Bool) : Config :=
  { exCfg implicit first with setsSize := first, receivesSize := !first }

/-- Steps of at most 3/10. -/
def exFirstPlan : Plan ℚ := fun hist =>
  match hist with
  | [] => []
  | s :: hist' => [⟨min (3 / 10) s.time.untilEnd, s.recvBuf + hist'.length, true, id⟩]

theorem exFirstPlan_ok (c : Config) : FirstPlan c (3 / 10) exFirstPlan where
  step s hist _ _ hlt := by
    have := tol_lt_tenth
    have := dblMax_pos
    refine ⟨_, rfl, lt_min (by linarith) hlt, min_le_right _ _,
      lt_of_le_of_lt (min_le_left _ _) (by linarith), ?_⟩
    rcases min_choice (3 / 10) s.time.untilEnd with h | h
    · left; dsimp only; rw [h]
    · right; dsimp only; rw [h]
  same s' s hist i i' _ ht h1 h2 := by
    simp only [exFirstPlan, lastStep, List.getLast?_singleton, Option.some.injEq] at h1 h2
    rw [← h1, ← h2]; dsimp only; rw [ht]

example : FirstSetup (exFirstCfg true true) (exFirstCfg true false) (some 1) (3 / 10) exFirstPlan
    (examplePlan (exFirstCfg true false) fun n => n == 2) 4 4 where
  pair := ⟨rfl, rfl, rfl, rfl, rfl, rfl, rfl, rfl, rfl, rfl⟩
  stepsA := exFirstPlan_ok _
  stepsB := examplePlan_ok _ _
  maxTime := by intro m hm; injection hm with hm; have := tol_lt_tenth; linarith
  maxWindows := by intro n hn; simp [exFirstCfg, exCfg] at hn
  windowBound := Or.inr ⟨1, rfl, by norm_num, by norm_num⟩
  iterBound := iterBound_of_maxIter (by norm_num) rfl

end Verif
