import Verif.Compositional.NetworkLoop
import Verif.Compositional.Step

/-!
# A complete run of a participant follows a script
-/

set_option autoImplicit false

namespace Verif

open Prog Script

variable {ι D : Type} [DecidableEq ι]

namespace Comp

/-- The time after `n` windows. -/
def clock (g : Common) : ℕ → TimeHandler
  | 0 => ⟨g.maxTime, 0, 0⟩
  | n + 1 => nextTime (clock g n) g.size

/-- The coupling is ongoing after `n` windows. -/
def Live (g : Common) (n : ℕ) : Prop :=
  (match g.maxWindows with
    | none => True
    | some m => m ≥ n + 1) ∧ ¬ (clock g n).reachedEnd

instance (g : Common) (n : ℕ) : Decidable (Live g n) := by
  unfold Live; cases g.maxWindows <;> exact inferInstance

/-- The common settings end the coupling after at most `W` windows. -/
structure _root_.Verif.Common.Ok (g : Common) (W : ℕ) : Prop where
  size : tol < g.size
  sizeMax : g.size ≤ dblMax
  maxTime : ∀ m, g.maxTime = some m → tol < m
  maxWindows : ∀ n, g.maxWindows = some n → 1 ≤ n
  bound : (∃ N, g.maxWindows = some N ∧ N ≤ W) ∨ ∃ m, g.maxTime = some m ∧ m ≤ W * g.size

/-- a scheme after `n` windows -/
structure After (g : Common) (n : ℕ) (s : State D) : Prop where
  time : s.time = clock g n
  size : s.size = g.size
  nextSize : s.nextSize = g.size
  windows : s.windows = n + 1

theorem After.ongoing {g : Common} {n : ℕ} {s : State D} (h : After g n s) (p : ι) (k : Link ι) :
    s.ongoing (k.cfg g p) ↔ Live g n := by
  unfold State.ongoing Live
  rw [h.time, h.windows]
  rfl

/-- a state after `n` windows, for reasoning about the clock -/
def tick (g : Common) (n : ℕ) : State Unit :=
  { constructed ⟨false, true, g.maxWindows, 1, none, false, false, false, false⟩ g.maxTime g.size () with
    time := clock g n, windows := n + 1, complete := true }

theorem tick_ongoing {g : Common} {n : ℕ} :
    (tick g n).ongoing ⟨false, true, g.maxWindows, 1, none, false, false, false, false⟩ ↔ Live g n := by
  unfold State.ongoing Live tick
  exact Iff.rfl

theorem tick_atStart {g : Common} {W : ℕ} (hg : g.Ok W) : ∀ {n : ℕ}, (∀ m < n, Live g m) →
    AtStart g.maxTime g.size (tick g n)
  | 0, _ => started_atStart (fun m hm => by linarith [hg.maxTime m hm, tol_pos]) rfl rfl rfl rfl rfl
  | n + 1, h => by
    have ih := tick_atStart hg (n := n) fun m hm => h m (by omega)
    exact AfterIter.atStart (b := true) ih (tick_ongoing.mpr (h n (by omega)))
      ⟨rfl, rfl, rfl, rfl, rfl, rfl⟩

theorem clock_progress {g : Common} {W : ℕ} (hg : g.Ok W) {n : ℕ} (h : ∀ m < n, Live g m) :
    (clock g n).progress = 0 := (tick_atStart hg h).progress

theorem clock_pos {g : Common} {W : ℕ} (hg : g.Ok W) {n : ℕ} (h : ∀ m < n, Live g m) (hn : Live g n) :
    tol < (clock g n).untilWindowEnd g.size :=
  (tick_atStart hg h).pos hg.size (tick_ongoing.mpr hn)

theorem live_lt {g : Common} {W : ℕ} (hg : g.Ok W) {n : ℕ} (h : ∀ m < n, Live g m) (hn : Live g n) :
    n < W := by
  have := (tick_atStart hg h).windows_le hg.size (tick_ongoing.mpr hn) (W := W) hg.bound
  exact this

/-- The number of windows. -/
theorem exists_windows {g : Common} {W : ℕ} (hg : g.Ok W) :
    ∃ K, 1 ≤ K ∧ K ≤ W ∧ (∀ n < K, Live g n) ∧ ¬ Live g K := by
  classical
  have hex : ∃ n, ¬ Live g n := by
    by_contra hcon
    push Not at hcon
    exact absurd (live_lt hg (fun m _ => hcon m) (hcon W)) (lt_irrefl _)
  have hmin : ∀ n < Nat.find hex, Live g n := fun n hn => by
    have := Nat.find_min hex hn
    push Not at this
    exact this
  have h0 : Live g 0 := by
    refine ⟨?_, fun hx => ?_⟩
    · cases hm : g.maxWindows with
      | none => trivial
      | some m => exact hg.maxWindows m hm
    · obtain ⟨m, hm, h1, h2⟩ := TimeHandler.reachedEnd_iff.mp hx
      have := hg.maxTime m hm
      simp only [clock, TimeHandler.time] at h1 h2
      linarith
  refine ⟨Nat.find hex, ?_, ?_, hmin, Nat.find_spec hex⟩
  · by_contra hcon
    have : Nat.find hex = 0 := by omega
    exact Nat.find_spec hex (this ▸ h0)
  · by_contra hcon
    push Not at hcon
    exact absurd (live_lt hg (fun m hm => hmin m (by omega)) (hmin W hcon)) (lt_irrefl _)

/-- Every state after a window carries the value the solver wrote last in that window. -/
def WroteAll (plan : Solver ι D) : List (Comp ι D) → Prop
  | c' :: c :: hist =>
    (∃ i, lastStep (plan (c :: hist)) = some i ∧ ∀ ms ∈ c'.expl, ms.2.sendBuf = i.value) ∧
      WroteAll plan (c :: hist)
  | _ => True

variable {g : Common} {p : ι} {ks : List (Link ι)}

theorem maxStep_ofStates {t : TimeHandler} {st : Link ι → State D} (h : Same g p ks t st) (hw : 0 < g.size)
    (hks : ks ≠ []) (hu : t.untilWindowEnd g.size ≤ dblMax) :
    (ofStates g p ks st).maxStep = t.untilWindowEnd g.size := by
  obtain ⟨k, l, rfl⟩ := List.exists_cons_of_ne_nil hks
  unfold maxStep active ofStates listOf
  simp only [List.map_cons, List.foldr_cons]
  rw [show (st k).maxStep (Link.member (D := D) g p k).cfg = t.untilWindowEnd g.size from
    h.maxStep hw List.mem_cons_self]
  refine foldr_min_eq hu _ fun ms hms => ?_
  obtain ⟨k', hk', rfl⟩ := List.mem_map.mp hms
  exact h.maxStep hw (List.mem_cons_of_mem _ hk')

theorem ongoing_ofStates {st : Link ι → State D} (hks : ks ≠ []) {n : ℕ} (h : ∀ k ∈ ks, After g n (st k)) :
    (ofStates g p ks st).ongoing ↔ Live g n := by
  obtain ⟨k, l, rfl⟩ := List.exists_cons_of_ne_nil hks
  exact (h k List.mem_cons_self).ongoing p k

/-- What the loop does from the `n`-th window on, in `j` windows. -/
structure Looped (g : Common) (p : ι) (ks : List (Link ι)) (plan : Solver ι D) (n j : ℕ)
    (st : Link ι → State D) (hist : List (Comp ι D)) (tr : List (Ev ι (Msg D))) (r : List (Comp ι D))
    (f : ℕ → Link ι → State D) : Prop where
  start : f n = st
  result : r = ((List.range' n (j + 1)).map fun m => ofStates g p ks (f m)).reverse ++ hist
  after : ∀ m, n ≤ m → m ≤ n + j → ∀ k ∈ ks, After g m (f m k)
  wrote : WroteAll plan (ofStates g p ks st :: hist) → WroteAll plan r
  sent : ∀ k ∈ ks, sent (k.peer p) tr = (List.range' n j).map fun m => .data (f (m + 1) k).sendBuf
  got : ∀ k ∈ ks, got (k.peer p) tr = (List.range' n j).flatMap fun m =>
    if k.waits p && !decide (Live g (m + 1)) then [] else [.data (f (m + 1) k).recvBuf]

theorem follows_loop {W : ℕ} (hg : g.Ok W) (ho : Own p ks) (hks : ks ≠ []) {plan : Solver ι D}
    (hplan : SolverOk plan) {K : ℕ} (hlive : ∀ n < K, Live g n) (hend : ¬ Live g K) :
    ∀ (j n fuel : ℕ) (st : Link ι → State D) (hist : List (Comp ι D)), n + j = K → j < fuel →
      (∀ k ∈ ks, After g n (st k)) →
      (loop plan fuel (ofStates g p ks st) hist).Follows IsData
        ((List.range' n j).flatMap fun m => windowActs p ks (decide (Live g (m + 1))))
        fun tr r => ∃ f, Looped g p ks plan n j st hist tr r f
  | 0, n, fuel, st, hist, hn, hf, hst => by
    obtain ⟨fuel, rfl⟩ : ∃ m, fuel = m + 1 := ⟨fuel - 1, by omega⟩
    have hnon : ¬ (ofStates g p ks st).ongoing := by
      rw [ongoing_ofStates hks hst, show n = K by omega]; exact hend
    rw [loop, if_neg hnon]
    refine follows_ret ⟨fun _ => st, rfl, by simp, ?_, fun h => h, fun k hk => rfl, fun k hk => rfl⟩
    intro m h1 h2 k hk
    obtain rfl : m = n := by omega
    exact hst k hk
  | j + 1, n, fuel, st, hist, hn, hf, hst => by
    obtain ⟨fuel, rfl⟩ : ∃ m, fuel = m + 1 := ⟨fuel - 1, by omega⟩
    have hlt : ∀ m < n, Live g m := fun m hm => hlive m (by omega)
    have hln : Live g n := hlive n (by omega)
    have hw : 0 < g.size := tol_pos.trans hg.size
    have hon : (ofStates g p ks st).ongoing := (ongoing_ofStates hks hst).mpr hln
    have hsame : Same g p ks (clock g n) st :=
      ⟨fun k hk => (hst k hk).time, fun k hk => (hst k hk).size, fun k hk => ((hst k hk).ongoing p k).mpr hln⟩
    have hp0 := clock_progress hg hlt
    have hpos := clock_pos hg hlt hln
    have hle := TimeHandler.untilWindowEnd_le (clock g n) g.size
    have hms := maxStep_ofStates hsame hw hks (by rw [hp0] at hle; linarith [hg.sizeMax])
    have hst' := hplan (ofStates g p ks st) hist hon (fun ms hm => by
      obtain ⟨k, hk, rfl⟩ := List.mem_map.mp hm
      show (st k).time.progress = 0
      rw [(hst k hk).time, hp0])
    rw [hms] at hst'
    have hafter : ∀ k ∈ ks, ∀ s' : State D, AfterIter (k.cfg g p) g.size (st k) s' true → After g (n + 1) s' := by
      intro k hk s' ha
      have h1 := ha.time
      have h2 := ha.windows
      simp only [if_true] at h1 h2
      exact ⟨by rw [h1, (hst k hk).time]; rfl, ha.size, ha.nextSize, by rw [h2, (hst k hk).windows]⟩
    obtain ⟨i, hi, hfol⟩ := follows_iterate (more := decide (Live g (n + 1))) ho hw hsame hp0 hpos
      (fun k hk => (hst k hk).nextSize) hst' (fun k hk s' ha => by
        rw [(hafter k hk s' ha).ongoing p k, decide_eq_true_eq])
    rw [loop, if_pos hon, List.range'_succ, List.flatMap_cons]
    refine hfol.bind ?_
    rintro tr _ ⟨st1, rfl, h1⟩
    refine (follows_loop hg ho hks hplan hlive hend j (n + 1) fuel st1 (ofStates g p ks st :: hist) (by omega)
      (by omega) fun k hk => hafter k hk _ (h1 k hk).after).mono ?_
    rintro tr' r ⟨f, hl⟩
    have hf1 : ∀ m, n < m → (if m = n then st else f m) = f m := fun m hm => if_neg (by omega)
    refine ⟨fun m => if m = n then st else f m, if_pos rfl, ?_, ?_, ?_, ?_, ?_⟩
    · rw [hl.result, List.range'_succ (n := j + 1), List.map_cons, List.reverse_cons, if_pos rfl, List.append_assoc,
        List.singleton_append]
      congr 2
      refine List.map_congr_left fun m hm => ?_
      rw [hf1 m (by have := (List.mem_range'_1.mp hm).1; omega)]
    · intro m hm1 hm2 k hk
      by_cases hmn : m = n
      · subst hmn; simp only [if_true]; exact hst k hk
      · simp only [if_neg hmn]; exact hl.after m (by omega) (by omega) k hk
    · intro hwr
      refine hl.wrote ⟨⟨i, hi, fun ms hms => ?_⟩, hwr⟩
      obtain ⟨k, hk, rfl⟩ := List.mem_map.mp hms
      exact (h1 k hk).sendBuf
    · intro k hk
      rw [sent_append, (h1 k hk).sent, hl.sent k hk, List.range'_succ, List.map_cons, List.singleton_append]
      congr 1
      · show _ = Msg.data ((if n + 1 = n then st else f (n + 1)) k).sendBuf
        rw [hf1 _ (by omega), hl.start]
      · refine List.map_congr_left fun m hm => ?_
        simp only [hf1 (m + 1) (by have := (List.mem_range'_1.mp hm).1; omega)]
    · intro k hk
      rw [got_append, (h1 k hk).got, hl.got k hk, List.range'_succ, List.flatMap_cons]
      congr 1
      · show _ = if (k.waits p && !decide (Live g (n + 1))) = true then [] else
          [Msg.data ((if n + 1 = n then st else f (n + 1)) k).recvBuf]
        rw [hf1 _ (by omega), hl.start]
      · refine List.flatMap_congr fun m hm => ?_
        simp only [hf1 (m + 1) (by have := (List.mem_range'_1.mp hm).1; omega)]

/-- Facts about the complete run of a participant: `f n k` is the state of scheme `k` after `n`
windows. -/
structure Ran (g : Common) (p : ι) (ks : List (Link ι)) (d : D) (plan : Solver ι D) (K : ℕ)
    (tr : List (Ev ι (Msg D))) (r : List (Comp ι D)) (f : ℕ → Link ι → State D) : Prop where
  result : r.reverse = (List.range (K + 1)).map fun m => ofStates g p ks (f m)
  after : ∀ m, m ≤ K → ∀ k ∈ ks, After g m (f m k)
  wrote : WroteAll plan r
  initial : ∀ k ∈ ks, (f 0 k).sendBuf = d
  sent : ∀ k ∈ ks, sent (k.peer p) tr = (if (k.cfg g p).sendsInit then [.data d] else []) ++
    (List.range K).map fun m => .data (f (m + 1) k).sendBuf
  got : ∀ k ∈ ks, ∃ pre : List (Msg D), pre.length = (if (k.cfg g p).receivesInit then 1 else 0) ∧
    (k.waits p = false → (k.cfg g p).receivesInit = true → pre = [.data (f 0 k).recvBuf]) ∧
    got (k.peer p) tr = pre ++
      if k.waits p then (List.range K).map fun m => .data (f m k).recvBuf
      else (List.range K).map fun m => .data (f (m + 1) k).recvBuf

theorem range_shift {α : Type} (F : ℕ → α) (P : ℕ → Bool) {K : ℕ} (hK : 1 ≤ K)
    (hP : ∀ m < K, P (m + 1) = decide (m + 1 < K)) :
    [F 0] ++ (List.range K).flatMap (fun m => if !P (m + 1) then [] else [F (m + 1)]) =
      (List.range K).map F := by
  obtain ⟨K, rfl⟩ : ∃ k, K = k + 1 := ⟨K - 1, by omega⟩
  rw [List.range_succ, List.flatMap_append, ← List.range_succ, List.range_succ_eq_map, List.map_cons,
    List.singleton_append]
  congr 1
  have h1 : (List.range K).flatMap (fun m => if !P (m + 1) then [] else [F (m + 1)]) =
      (List.range K).map fun m => F (m + 1) := by
    rw [List.map_eq_flatMap]
    refine List.flatMap_congr fun m hm => ?_
    have := List.mem_range.mp hm
    rw [hP m (by omega), decide_eq_true (by omega)]; rfl
  have h2 : [K].flatMap (fun m => if !P (m + 1) then [] else [F (m + 1)]) = [] := by
    rw [List.flatMap_singleton, hP K (by omega), decide_eq_false (by omega)]; rfl
  rw [h1, h2, List.append_nil, List.map_map]
  rfl

/-- operations of a participant -/
def runActs (g : Common) (p : ι) (ks : List (Link ι)) (K : ℕ) : List (Act ι) :=
  ks.flatMap (·.initActs p) ++ (List.range K).flatMap fun m => windowActs p ks (decide (Live g (m + 1)))

theorem follows_composed {W : ℕ} (hg : g.Ok W) {links : List (Link ι)} (ho : Own p (links.filter (·.has p)))
    (hks : links.filter (·.has p) ≠ []) {plan : Solver ι D} (hplan : SolverOk plan) (d : D)
    {K fuel : ℕ} (hK : 1 ≤ K) (hlive : ∀ n < K, Live g n) (hend : ¬ Live g K) (hfuel : K < fuel) :
    (composed g links d plan fuel p).Follows IsData (runActs g p (links.filter (·.has p)) K)
      fun tr r => ∃ f, Ran g p (links.filter (·.has p)) d plan K tr r f := by
  unfold composed runActs
  generalize hksd : links.filter (·.has p) = ks at ho hks
  have hb : built g links d p =
      ofStates g p ks fun l => (constructed (l.cfg g p) g.maxTime g.size d).fulfilAll := by
    unfold built; rw [hksd]; rfl
  rw [hb]
  have hinit : (ofStates g p ks fun l => (constructed (l.cfg g p) g.maxTime g.size d).fulfilAll).initExpl.Follows
      IsData (ks.flatMap (·.initActs p)) fun tr c => ∃ st trs, c = ofStates g p ks st ∧ tr = ks.flatMap trs ∧
        ∀ k ∈ ks, Link.Inited g d p k (trs k) (st k) := by
    unfold initExpl
    rw [← List.append_nil (ks.flatMap _)]
    refine (follows_forEach (rel := fun k => Link.Inited g d p k) ho.nodup fun k hk =>
      Link.follows_init (ho.has k hk) (ho.ne k hk)).bind ?_
    rintro tr _ ⟨st, trs, rfl, rfl, h⟩
    exact follows_ret ⟨st, trs, rfl, List.append_nil _, h⟩
  refine hinit.bind ?_
  rintro tr _ ⟨st, trs, rfl, rfl, hin⟩
  have hst : ∀ k ∈ ks, After g 0 (st k) := fun k hk =>
    ⟨(hin k hk).time, (hin k hk).size, (hin k hk).nextSize, (hin k hk).windows⟩
  have := follows_loop hg ho hks hplan hlive hend K 0 fuel st [] (by omega) hfuel hst
  rw [← List.range_eq_range'] at this
  refine this.mono ?_
  rintro tr' r ⟨f, hl⟩
  choose! inn htalk hinn using fun k hk => (hin k hk).talk
  have hlv : ∀ m < K, decide (Live g (m + 1)) = decide (m + 1 < K) := by
    intro m hm
    by_cases h : m + 1 < K
    · rw [decide_eq_true h, decide_eq_true (hlive _ h)]
    · rw [decide_eq_false h, decide_eq_false (by rw [show m + 1 = K by omega]; exact hend)]
  refine ⟨f, ?_, fun m hm => hl.after m (by omega) (by omega), hl.wrote trivial,
    fun k hk => by rw [hl.start]; exact (hin k hk).sendBuf, fun k hk => ?_, fun k hk => ?_⟩
  · rw [hl.result, List.append_nil, List.reverse_reverse, List.range_eq_range']
  · rw [sent_append, (ho.talk htalk hk).1, hl.sent k hk, List.range_eq_range']
  · have h1 := (ho.talk htalk hk).2
    have h2 := hl.got k hk
    have h3 := hinn k hk
    rw [got_append, h1, h2, ← List.range_eq_range']
    cases hwt : k.waits p with
    | true =>
      rw [hwt] at h3
      simp only [if_true] at h3
      obtain ⟨pre, hp1, hp2⟩ := h3
      have hri : (k.cfg g p).receivesInit = k.initFS := by
        have : p ≠ k.first := by
          unfold Link.waits at hwt
          simp only [Bool.and_eq_true, Bool.not_eq_true', decide_eq_false_iff_not] at hwt
          exact hwt.2
        simp [Link.cfg, this]
      refine ⟨pre, by rw [hri]; exact hp1, fun h => (by cases h), ?_⟩
      rw [hp2, List.append_assoc]
      congr 1
      simp only [if_true, Bool.true_and]
      rw [← hl.start]
      exact range_shift (fun m => Msg.data (f m k).recvBuf) (fun m => decide (Live g m)) hK hlv
    | false =>
      rw [hwt] at h3
      simp only [Bool.false_eq_true, if_false] at h3
      refine ⟨inn k, by rw [h3]; split <;> rfl, fun _ hr => ?_, ?_⟩
      · rw [h3, if_pos hr, hl.start]
      · simp only [Bool.false_and, Bool.false_eq_true, if_false]
        rw [List.map_eq_flatMap]

end Comp
end Verif
