import Verif.Protocol.Multi
import Verif.Protocol.Props

/-!
# Multi coupling with any number of participants: properties
-/

set_option autoImplicit false

namespace Verif

open Prog

variable {ι E : Type} [DecidableEq ι]

/-- All coupled programs. -/
def multiPrograms (cfg : ι → MultiCfg ι) (mt : Option ℚ) (w : ℚ) (d : ι → ι → E)
    (plan : ι → Plan (ι → E)) (fuel : ℕ) : ι → Prog ι (Msg (ι → E)) (List (State (ι → E))) :=
  fun i => participant (cfg i).base (Multi.hooks (cfg i)) mt w (d i) (plan i) fuel

/-- Assumptions about the coupled run, as in `BiSetup`. -/
structure MultiSetup (c : ι) (others : List ι) (cfg : ι → MultiCfg ι) (mt : Option ℚ) (w : ℚ)
    (plan : ι → Plan (ι → E)) (W N : ℕ) : Prop where
  topo : Multi.Topo c others cfg
  size : tol < w
  steps : ∀ i, PlanOk (cfg i).base (plan i)
  maxTime : ∀ m, mt = some m → tol < m
  windowBound : WindowBound (cfg c).base mt w W
  iterBound : IterBound (cfg c).base (plan c) N

/-- What is known of all participants' `n`-th states: they agree, and what a participant received
from `j` is what `j` sent to it (for the controller, whose received data is accelerated: if the
window is completed). -/
def SameExchange (cfg : ι → MultiCfg ι) (c : ι) (s : ι → State (ι → E)) : Prop :=
  (∀ i, (s i).time = (s c).time ∧ (s i).windows = (s c).windows ∧ (s i).iters = (s c).iters ∧
    (s i).complete = (s c).complete) ∧
  ∀ i j, (i ≠ c ∨ (s c).complete = true) → j ∈ (cfg i).recvFrom → (s i).recvBuf j = (s j).sendBuf i

/-- Facts about the histories of a completed run (newest state first). -/
structure MultiOutcome (c : ι) (cfg : ι → MultiCfg ι) (d : ι → ι → E)
    (plan : ι → Plan (ι → E)) (r : ι → List (State (ι → E))) : Prop where
  finished : ∀ i, ∀ s ∈ (r i).head?, ¬ s.ongoing (cfg i).base
  wrote : ∀ i, Wrote (plan i) (decide (i = c)) (r i)
  decided : Decided (cfg c).base (plan c) (r c)
  /-- all histories have the same length, and the states at the same position, except for the ones
  after `initialize`, satisfy `SameExchange` -/
  same : ∃ n, Multi.AllHist (SameExchange cfg c) n (fun i => (r i).dropLast)
  start : ∀ i, ∃ s, (r i).getLast? = some s ∧ s.time.time = 0 ∧ s.windows = 1 ∧ s.iters = 1 ∧
    ∀ j ∈ (cfg i).recvFrom, (cfg i).initFrom j = true → s.recvBuf j = d j i

theorem multi_outcome {c : ι} {others : List ι} {cfg : ι → MultiCfg ι} {mt : Option ℚ} {w : ℚ}
    {plan : ι → Plan (ι → E)} {W N : ℕ} (h : MultiSetup c others cfg mt w plan W N) (d : ι → ι → E)
    {fuel : ℕ} (hf : W * N + N + 2 ≤ fuel) :
    ∃ r, Rounds c others (Multi.StarTopo c others cfg) (multiPrograms cfg mt w d plan fuel)
      (fun i => ret (r i)) ∧ MultiOutcome c cfg d plan r := by
  have htol := tol_pos
  have hmt : ∀ m, mt = some m → 0 < m := fun m hm => lt_trans htol (h.maxTime m hm)
  have hN1 := h.iterBound.1
  obtain ⟨s, st, ag, hit, htw, hrecv, hround⟩ := Multi.init_round (w := w) h.topo hmt d
  obtain ⟨rd, hrd⟩ := hround _ (fun i s => coupled (cfg i).base (Multi.hooks (cfg i)) (plan i) fuel s [])
  have hrem : remaining W N (s c) < fuel := by
    unfold remaining
    rw [hit c]
    have := Nat.mul_le_mul_right N (Nat.sub_le W (s c).windows)
    omega
  obtain ⟨m, l, hr, h1, h2, h3, h4, h5⟩ := Multi.coupled_rounds (P := SameExchange cfg c) h.topo h.size h.steps
    h.windowBound h.iterBound (fun s hs => ⟨fun i => ⟨(hs.agree i).time.symm, (hs.agree i).windows.symm,
      (hs.agree i).iters.symm, (hs.agree i).complete.symm⟩, fun i j hij hj => by
        rcases h.topo.all i with rfl | hi
        · exact hs.recvC (hij.resolve_left (fun h => h rfl)) j hj
        · exact hs.recvO i hi j hj⟩)
    fuel s (fun _ => []) st ag (by rw [hit c]; exact hN1) (fun _ => hrem) (by omega)
    (fun _ _ => trivial) trivial trivial
  refine ⟨_, .head rd hrd hr, h5, ?_, h4, ⟨m, ?_⟩, ?_⟩
  · intro i
    rcases h.topo.all i with rfl | hi
    · simpa using h3
    · have : i ≠ c := fun e => h.topo.notMem (e ▸ hi)
      simpa [this] using h2 i hi
  · simpa using h1
  · intro i
    refine ⟨s i, by simp, by rw [(htw i).1]; simp [TimeHandler.time], (htw i).2, hit i, fun j hj hij => ?_⟩
    rw [hrecv, if_pos ⟨hj, hij⟩]

/-- C17: with buffered sends every execution completes, for every topology in which the controller
is connected to all participants: it is finite, never stuck before all programs have returned, no
assertion fails, no message is left over. -/
theorem C17_multi {c : ι} {others : List ι} {cfg : ι → MultiCfg ι} {mt : Option ℚ} {w : ℚ}
    {plan : ι → Plan (ι → E)} {W N : ℕ} (h : MultiSetup c others cfg mt w plan W N) (d : ι → ι → E)
    {fuel : ℕ} (hf : W * N + N + 2 ≤ fuel) :
    ∃ r, Net.AlwaysCompletes (RNet.toNet (multiPrograms cfg mt w d plan fuel)) r := by
  obtain ⟨r, hr, -⟩ := multi_outcome h d hf
  obtain ⟨k, hk⟩ := hr.buffered
  exact ⟨r, Net.alwaysCompletes_of_steps hk ⟨fun _ => rfl, fun _ => rfl⟩⟩

/-- C17: if data is exchanged with the controller only, every execution completes also with blocking
sends. -/
theorem C17_star_blocking {c : ι} {others : List ι} {cfg : ι → MultiCfg ι} {mt : Option ℚ} {w : ℚ}
    {plan : ι → Plan (ι → E)} {W N : ℕ} (h : MultiSetup c others cfg mt w plan W N)
    (hs : Multi.StarTopo c others cfg) (d : ι → ι → E) {fuel : ℕ} (hf : W * N + N + 2 ≤ fuel) :
    ∃ r, RNet.AlwaysCompletes (multiPrograms cfg mt w d plan fuel) r := by
  obtain ⟨r, hr, -⟩ := multi_outcome h d hf
  obtain ⟨k, hk⟩ := hr.blocking hs
  exact ⟨r, RNet.alwaysCompletes_of_steps hk fun _ => rfl⟩

/-- C17/C18/C22: in every completed execution all participants went through the same iterations
(time, window and iteration numbers, completion reports), windows are completed exactly by the
controller's decisions, and everybody holds the data its partners sent in the same iteration. -/
theorem C17_outcome {c : ι} {others : List ι} {cfg : ι → MultiCfg ι} {mt : Option ℚ} {w : ℚ}
    {plan : ι → Plan (ι → E)} {W N : ℕ} (h : MultiSetup c others cfg mt w plan W N) (d : ι → ι → E)
    {fuel : ℕ} (hf : W * N + N + 2 ≤ fuel)
    {l : ℕ} {a : Net ι (Msg (ι → E)) (List (State (ι → E)))} {r : ι → List (State (ι → E))}
    (hs : Net.Steps l (RNet.toNet (multiPrograms cfg mt w d plan fuel)) a) (hd : Net.Done r a) :
    MultiOutcome c cfg d plan r := by
  obtain ⟨r', hr, ho⟩ := multi_outcome h d hf
  obtain ⟨k, hk⟩ := hr.buffered
  have hac := Net.alwaysCompletes_of_steps (r := r') hk ⟨fun _ => rfl, fun _ => rfl⟩
  obtain ⟨k, f, hdf, -, hall⟩ := hac
  have := (hall l a hs).2.1 hd.stuck
  subst this
  have e : r = r' := by
    funext x
    have h1 := hdf.1 x
    rw [hd.1 x] at h1
    injection h1
  rw [e]
  exact ho

/-! ### The hypotheses can be met, and the limit of blocking sends -/

/-- Three participants; `0` is the controller, all pairs exchange data. -/
def triCfg (direct : Bool) (i : Fin 3) : MultiCfg (Fin 3) where
  base := { implicit := true, first := i != 0, maxWindows := some 2, minIter := 1, maxIter := some 3 }
  ctrl := 0
  m2ns := if i = 0 then [1, 2] else if i = 1 then [0, 2] else [0, 1]
  sendTo := if i = 0 then [1, 2] else if i = 1 then (if direct then [0, 2] else [0])
    else (if direct then [0, 1] else [0])
  recvFrom := if i = 0 then [1, 2] else if i = 1 then (if direct then [0, 2] else [0])
    else (if direct then [0, 1] else [0])
  initTo := fun j => i == 0 || j == 0
  initFrom := fun j => i == 0 || j == 0

/-- Two steps per iteration; the controller's verdict is positive in the second iteration. -/
def triPlan (c : Config) : Plan (Fin 3 → ℚ) := fun hist =>
  match hist with
  | [] => []
  | s :: _ =>
    if 2 * tol < s.maxStep c / 2 then
      [⟨s.maxStep c / 2, s.recvBuf, false, id⟩, ⟨s.maxStep c / 2, fun j => s.recvBuf j + 1, s.iters == 2, id⟩]
    else [⟨s.maxStep c, s.recvBuf, true, id⟩]

theorem triPlan_ok (c : Config) : PlanOk c (triPlan c) := by
  have htol := tol_pos
  intro s hist _ _
  unfold triPlan
  split
  · simp at *
  · next heq =>
    simp only [List.cons.injEq] at heq
    obtain ⟨rfl, rfl⟩ := heq
    split
    · next h =>
      exact .cons (by dsimp only; linarith) (by dsimp only; linarith) (.last (by dsimp only; ring))
    · exact .last rfl

theorem tri_setup (direct : Bool) : MultiSetup 0 [1, 2] (triCfg direct) none 1
    (fun i => triPlan (triCfg direct i).base) 2 3 where
  topo := by
    cases direct <;> exact ⟨by decide, by decide, by decide, by decide, by decide, by decide, by decide, by decide,
      by decide, by decide, by decide, by decide, by decide, by decide, by decide⟩
  size := by have := tol_lt_tenth; linarith
  steps := fun _ => triPlan_ok _
  maxTime := fun m hm => by cases hm
  windowBound := Or.inl ⟨2, rfl, le_refl _⟩
  iterBound := iterBound_of_maxIter (by norm_num) rfl

example : Multi.StarTopo 0 [1, 2] (triCfg false) := by unfold Multi.StarTopo; decide

/-- Carry out the given communications (sender, receiver) as far as they are possible. -/
def playN {M α : Type} : List (ι × ι) → (ι → Prog ι M α) → (ι → Prog ι M α)
  | [], p => p
  | (i, j) :: l, p =>
    match p i, p j with
    | .send j' m k, .recv i' k' =>
      if j' = j ∧ i' = i then playN l (Function.update (Function.update p i k) j (k' m)) else p
    | _, _ => p

theorem playN_steps {M α : Type} (l : List (ι × ι)) (p : ι → Prog ι M α) :
    ∃ k, RNet.Steps k p (playN l p) := by
  induction l generalizing p with
  | nil => exact ⟨0, .refl _⟩
  | cons x l ih =>
    obtain ⟨i, j⟩ := x
    unfold playN
    split
    · next j' m k i' k' h1 h2 =>
      split
      · next h =>
        obtain ⟨rfl, rfl⟩ := h
        obtain ⟨n, hn⟩ := ih (Function.update (Function.update p i' k) j' (k' m))
        exact ⟨n + 1, .head ⟨i', j', m, k, k', h1, h2, rfl⟩ hn⟩
      · exact ⟨0, .refl _⟩
    · exact ⟨0, .refl _⟩

/-- `i` tries to send to `j` and `j` tries to send to `i`. -/
def crossing {M α : Type} (i j : ι) (p : ι → Prog ι M α) : Bool :=
  match p i, p j with
  | .send j' _ _, .send i' _ _ => decide (j' = j ∧ i' = i)
  | _, _ => false

/-- Two participants that want to send to each other never get on with blocking sends. -/
theorem crossing_forever {M α : Type} {i j : ι} {k : ℕ} {p p' : ι → Prog ι M α} (h : RNet.Steps k p p')
    (hx : crossing i j p = true) : crossing i j p' = true := by
  induction h with
  | refl p => exact hx
  | head hs _ ih =>
    apply ih
    obtain ⟨a, b, m, q, q', ha, hb, rfl⟩ := hs
    unfold crossing at hx
    split at hx
    · next j' m1 k1 i' m2 k2 h1 h2 =>
      simp only [decide_eq_true_eq] at hx
      obtain ⟨rfl, rfl⟩ := hx
      have e1 : i' ≠ b := by rintro rfl; rw [h1] at hb; cases hb
      have e2 : j' ≠ b := by rintro rfl; rw [h2] at hb; cases hb
      have e3 : i' ≠ a := by
        rintro rfl; rw [h1] at ha; cases ha; exact e2 rfl
      have e4 : j' ≠ a := by
        rintro rfl; rw [h2] at ha; cases ha; exact e1 rfl
      unfold crossing
      simp only [Function.update_of_ne e1, Function.update_of_ne e2, Function.update_of_ne e3,
        Function.update_of_ne e4, h1, h2]
      simp
    · cases hx

/-- If two participants other than the controller exchange data directly (which the configuration
allows), blocking sends deadlock in the first window: both send before they receive. -/
theorem C17_direct_exchange_blocks :
    ∃ (c : Fin 3) (others : List (Fin 3)) (cfg : Fin 3 → MultiCfg (Fin 3)) (plan : Fin 3 → Plan (Fin 3 → ℚ)),
      MultiSetup c others cfg none 1 plan 2 3 ∧
      ¬ ∃ r, RNet.AlwaysCompletes (multiPrograms cfg none 1 (fun _ _ => 0) plan 20) r := by
  refine ⟨0, [1, 2], triCfg true, fun i => triPlan (triCfg true i).base, tri_setup true, ?_⟩
  rintro ⟨r, k, f, hd, -, hall⟩
  set p := multiPrograms (triCfg true) none 1 (fun _ _ => (0 : ℚ)) (fun i => triPlan (triCfg true i).base) 20
    with hp
  obtain ⟨n, hn⟩ := playN_steps [(1, 0), (2, 0), (0, 1), (0, 2), (1, 0), (2, 0)] p
  have hx : crossing 1 2 (playN [(1, 0), (2, 0), (0, 1), (0, 2), (1, 0), (2, 0)] p) = true := by
    rw [hp]; decide +kernel
  have h1 := (hall n _ hn).2.2.1
  have h2 := crossing_forever h1 hx
  unfold crossing at h2
  rw [hd 1] at h2
  cases h2

end Verif
