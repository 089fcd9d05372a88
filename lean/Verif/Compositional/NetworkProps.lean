import Verif.Compositional.NetworkRank

/-!
# C101: networks of explicit coupling schemes

Any number of participants, any number of serial-explicit and parallel-explicit coupling schemes
between them. `Ordered` and `Simple` are what the configuration must fulfil; `Result` is what the
solvers observe.
-/

set_option autoImplicit false

namespace Verif

open Prog Script

variable {ι D : Type} [DecidableEq ι]

namespace Comp

/-- The state of the scheme with partner `q` after `n` windows; `r`: the states that the participant
saw at window starts, newest first. -/
def stateAt (r : List (Comp ι D)) (n : ℕ) (q : ι) : Option (State D) :=
  (r.reverse[n]?).bind (stateOf q)

/-- the data written for `q` when `n` windows are complete -/
def written (r : List (Comp ι D)) (n : ℕ) (q : ι) : Option D := (stateAt r n q).map (·.sendBuf)

/-- the data of `q` that is there to be read when `n` windows are complete -/
def readable (r : List (Comp ι D)) (n : ℕ) (q : ι) : Option D := (stateAt r n q).map (·.recvBuf)

/-- What the participants of a completed run observe; `K`: number of windows. -/
structure Result (g : Common) (links : List (Link ι)) (d : ι → D) (plan : ι → Solver ι D)
    (r : ι → List (Comp ι D)) (K : ℕ) : Prop where
  /-- every participant is at a window start `K + 1` times, -/
  length : ∀ p, (r p).length = K + 1
  /-- each time all its schemes are at the same time, which is the same for all participants, and
  they all end the coupling at the same time -/
  states : ∀ l ∈ links, ∀ p, l.has p = true → ∀ n, n ≤ K → ∃ s, stateAt (r p) n (l.peer p) = some s ∧
    s.windows = n + 1 ∧ (n < K → s.time.time = n * g.size) ∧ (s.ongoing (l.cfg g p) ↔ n < K)
  /-- the end of the coupling has been reached -/
  finished : g.maxWindows = some K ∨ ∃ m, g.maxTime = some m ∧ ∀ l ∈ links, ∀ p, l.has p = true →
    ∀ s, stateAt (r p) K (l.peer p) = some s → |s.time.time - m| ≤ tol
  /-- what was written is what the solver wrote last -/
  wrote : ∀ p, WroteAll (plan p) (r p)
  start : ∀ l ∈ links, ∀ p, l.has p = true → written (r p) 0 (l.peer p) = some (d p)
  /-- serial schemes: in window `n + 1` the second participant reads what the first one wrote in
  this window -/
  serial : ∀ l ∈ links, l.serial = true → ∀ n, n < K →
    readable (r l.second) n l.first = written (r l.first) (n + 1) l.second
  /-- parallel schemes: in window `n + 2` the second participant reads what the first one wrote in
  window `n + 1` -/
  parallel : ∀ l ∈ links, l.serial = false → ∀ n, n < K →
    readable (r l.second) (n + 1) l.first = written (r l.first) (n + 1) l.second
  /-- in window `n + 2` the first participant reads what the second one wrote in window `n + 1` -/
  back : ∀ l ∈ links, ∀ n, n < K →
    readable (r l.first) (n + 1) l.second = written (r l.second) (n + 1) l.first
  /-- in the first window the first participant reads the initial data, if there is some, -/
  initialSF : ∀ l ∈ links, l.initSF = true → readable (r l.first) 0 l.second = some (d l.second)
  /-- and the second one, in parallel schemes -/
  initialFS : ∀ l ∈ links, l.serial = false → l.initFS = true →
    readable (r l.second) 0 l.first = some (d l.first)

variable {links : List (Link ι)} {level : ι → ℕ} {g : Common}

theorem Simple.own (hs : Simple links) (p : ι) : Own p (links.filter (·.has p)) := by
  have hne : ∀ k ∈ links.filter (·.has p), k.first ≠ k.second := fun k hk => hs.ne k (List.mem_of_mem_filter hk)
  have hhas : ∀ k ∈ links.filter (·.has p), k.has p = true := fun k hk => (List.mem_filter.mp hk).2
  refine ⟨?_, hhas, hne, ?_⟩
  · refine ((hs.pairs.filter _).imp ?_)
    rintro a b hab rfl
    exact hab (Or.inl ⟨rfl, rfl⟩)
  · intro k hk k' hk' he
    have h1 := joins_of_has (hhas k hk)
    have h2 := joins_of_has (hhas k' hk')
    rw [← he] at h2
    obtain ⟨j, hj, hjk⟩ := List.getElem_of_mem (List.mem_of_mem_filter hk)
    obtain ⟨j', hj', hjk'⟩ := List.getElem_of_mem (List.mem_of_mem_filter hk')
    have m1 : (k, j) ∈ links.zipIdx := List.mk_mem_zipIdx_iff_getElem?.mpr (by rw [List.getElem?_eq_getElem hj, hjk])
    have m2 : (k', j') ∈ links.zipIdx := List.mk_mem_zipIdx_iff_getElem?.mpr (by rw [List.getElem?_eq_getElem hj', hjk'])
    exact congrArg Prod.fst (hs.unique m1 m2 h1 h2)

theorem stateOf_ofStates {p : ι} {ks : List (Link ι)} (ho : Own p ks) {st : Link ι → State D} {k : Link ι} (hk : k ∈ ks) :
    stateOf (k.peer p) (ofStates g p ks st) = some (st k) := by
  unfold stateOf ofStates listOf
  rw [List.find?_map, Option.map_map]
  cases h : List.find? ((fun ms : Member ι D × State D => decide (ms.1.peer = k.peer p)) ∘
      fun k => (k.member g p, st k)) ks with
  | none =>
    have := List.find?_eq_none.mp h k hk
    simp [Link.member] at this
  | some k' =>
    have h1 := List.find?_some h
    have h2 := List.mem_of_find?_eq_some h
    rw [ho.inj k' h2 k hk (of_decide_eq_true h1)]
    rfl

theorem stateAt_ran {p : ι} {ks : List (Link ι)} (ho : Own p ks) {d : D} {plan : Solver ι D} {K : ℕ}
    {tr : List (Ev ι (Msg D))} {r : List (Comp ι D)} {f : ℕ → Link ι → State D} (h : Ran g p ks d plan K tr r f)
    {k : Link ι} (hk : k ∈ ks) {n : ℕ} (hn : n ≤ K) : stateAt r n (k.peer p) = some (f n k) := by
  unfold stateAt
  rw [h.result, List.getElem?_map, List.getElem?_range (by omega)]
  exact stateOf_ofStates ho hk

theorem map_range_inj {α : Type} {F G : ℕ → α} {K : ℕ} (h : (List.range K).map F = (List.range K).map G) {n : ℕ}
    (hn : n < K) : F n = G n := by
  have := congrArg (·[n]?) h
  simpa [hn] using this

/-- **C101**: every run of the network completes, whatever the participants' relative speeds, and
its result is as the configuration says. -/
theorem C101_completes [Fintype ι] (hs : Simple links) (ho : Ordered links level)
    (hall : ∀ p, ∃ l ∈ links, l.has p = true) {W : ℕ} (hg : g.Ok W) {plan : ι → Solver ι D}
    (hplan : ∀ p, SolverOk (plan p)) (d : ι → D) {fuel : ℕ} (hfuel : W < fuel) :
    ∃ (r : ι → List (Comp ι D)) (K : ℕ), 1 ≤ K ∧ K ≤ W ∧ Result g links d plan r K ∧
      Net.AlwaysCompletes ⟨fun p => composed g links (d p) (plan p) fuel p, fun _ => []⟩ r := by
  obtain ⟨K, hK, hKW, hlive, hend⟩ := exists_windows hg
  have hP : ∀ m < K, decide (Live g (m + 1)) = decide (m + 1 < K) := by
    intro m hm
    by_cases h : m + 1 < K
    · rw [decide_eq_true h, decide_eq_true (hlive _ h)]
    · rw [decide_eq_false h, decide_eq_false (by rw [show m + 1 = K by omega]; exact hend)]
  have hne : ∀ p, links.filter (·.has p) ≠ [] := fun p he => by
    obtain ⟨l, hl, hp⟩ := hall p
    have : l ∈ links.filter (·.has p) := List.mem_filter.mpr ⟨hl, hp⟩
    rw [he] at this
    cases this
  obtain ⟨r, tr, hdone, hpost, hchan⟩ := Script.completes (good := IsData)
    (post := fun p tr r => ∃ f, Ran g p (links.filter (·.has p)) (d p) (plan p) K tr r f)
    (fun p => composed g links (d p) (plan p) fuel p) (fun p => script links level g K p)
    (fun p => by
      rw [script_acts]
      exact follows_composed hg (hs.own p) (hne p) (hplan p) (d p) hK hlive hend (by omega))
    (fun p => script_sorted ho) (fun p q => script_order hs ho hK hP p q)
  choose f hf using hpost
  have hmem : ∀ l ∈ links, ∀ p, l.has p = true → l ∈ links.filter (·.has p) := fun l hl p hp =>
    List.mem_filter.mpr ⟨hl, hp⟩
  have hstate : ∀ l ∈ links, ∀ p, l.has p = true → ∀ n, n ≤ K → stateAt (r p) n (l.peer p) = some (f p n l) :=
    fun l hl p hp n hn => stateAt_ran (hs.own p) (hf p) (hmem l hl p hp) hn
  have hlive' : ∀ n, n ≤ K → (Live g n ↔ n < K) := fun n hn =>
    ⟨fun h => lt_of_le_of_ne hn fun e => hend (e ▸ h), fun h => hlive n h⟩
  have h1 : ∀ l : Link ι, l.has l.first = true := fun l => by simp [Link.has]
  have h2 : ∀ l : Link ι, l.has l.second = true := fun l => by simp [Link.has]
  have p1 : ∀ l : Link ι, l.peer l.first = l.second := fun l => by simp [Link.peer]
  have p2 : ∀ l ∈ links, l.peer l.second = l.first := fun l hl => by simp [Link.peer, (hs.ne l hl).symm]
  have hfwd : ∀ l ∈ links,
      (if l.initFS then [Msg.data (d l.first)] else []) ++ ((List.range K).map fun m => Msg.data (f l.first (m + 1) l).sendBuf) =
      got l.first (tr l.second) := by
    intro l hl
    have := (hf l.first).sent l (hmem l hl _ (h1 l))
    rw [p1, hchan] at this
    rw [this]
    simp [Link.cfg]
  have hbwd : ∀ l ∈ links,
      (if l.initSF then [Msg.data (d l.second)] else []) ++ ((List.range K).map fun m => Msg.data (f l.second (m + 1) l).sendBuf) =
      got l.second (tr l.first) := by
    intro l hl
    have := (hf l.second).sent l (hmem l hl _ (h2 l))
    rw [p2 l hl, hchan] at this
    rw [this]
    simp [Link.cfg, (hs.ne l hl).symm]
  have gfwd : ∀ l ∈ links, ∃ pre : List (Msg D), pre = (if l.initFS then [Msg.data (d l.first)] else []) ∧
      (l.serial = false → l.initFS = true → pre = [.data (f l.second 0 l).recvBuf]) ∧
      ((List.range K).map fun m => Msg.data (f l.first (m + 1) l).sendBuf) =
        if l.serial then (List.range K).map fun m => .data (f l.second m l).recvBuf
        else (List.range K).map fun m => .data (f l.second (m + 1) l).recvBuf := by
    intro l hl
    obtain ⟨pre, hlen, hpre, hgot⟩ := (hf l.second).got l (hmem l hl _ (h2 l))
    have hw : l.waits l.second = l.serial := by simp [Link.waits, (hs.ne l hl).symm]
    have hr : (l.cfg g l.second).receivesInit = l.initFS := by simp [Link.cfg, (hs.ne l hl).symm]
    rw [hw, hr] at hpre
    rw [hr] at hlen
    rw [p2 l hl, hw, ← hfwd l hl] at hgot
    obtain ⟨e1, e2⟩ := List.append_inj hgot (by rw [hlen]; split <;> rfl)
    exact ⟨pre, e1.symm, hpre, e2⟩
  have gbwd : ∀ l ∈ links, ∃ pre : List (Msg D), pre = (if l.initSF then [Msg.data (d l.second)] else []) ∧
      (l.initSF = true → pre = [.data (f l.first 0 l).recvBuf]) ∧
      ((List.range K).map fun m => Msg.data (f l.second (m + 1) l).sendBuf) =
        (List.range K).map fun m => .data (f l.first (m + 1) l).recvBuf := by
    intro l hl
    obtain ⟨pre, hlen, hpre, hgot⟩ := (hf l.first).got l (hmem l hl _ (h1 l))
    have hw : l.waits l.first = false := by simp [Link.waits]
    have hr : (l.cfg g l.first).receivesInit = l.initSF := by simp [Link.cfg]
    rw [hw, hr] at hpre
    rw [hr] at hlen
    rw [p1, hw, ← hbwd l hl] at hgot
    obtain ⟨e1, e2⟩ := List.append_inj hgot (by rw [hlen]; split <;> rfl)
    exact ⟨pre, e1.symm, hpre rfl, by simpa using e2⟩
  have hf1 : ∀ l ∈ links, ∀ n, n ≤ K → stateAt (r l.first) n l.second = some (f l.first n l) := fun l hl n hn => by
    have := hstate l hl l.first (h1 l) n hn
    rwa [p1] at this
  have hf2 : ∀ l ∈ links, ∀ n, n ≤ K → stateAt (r l.second) n l.first = some (f l.second n l) := fun l hl n hn => by
    have := hstate l hl l.second (h2 l) n hn
    rwa [p2 l hl] at this
  refine ⟨r, K, hK, hKW, ⟨fun p => ?_, ?_, ?_, fun p => (hf p).wrote, ?_, ?_, ?_, ?_, ?_, ?_⟩, hdone⟩
  · rw [← List.length_reverse, (hf p).result, List.length_map, List.length_range]
  · intro l hl p hp n hn
    have ha := (hf p).after n hn l (hmem l hl p hp)
    refine ⟨_, hstate l hl p hp n hn, ha.windows, fun hlt => ?_, by rw [ha.ongoing p l, hlive' n hn]⟩
    rw [ha.time]
    have hst := tick_atStart hg (n := n) fun m hm => hlive m (by omega)
    have hpr := hst.progress
    rcases hst.start with hst | hst
    · have e : (tick g n).time = clock g n := rfl
      have e' : (tick g n).windows = n + 1 := rfl
      rw [e, e'] at hst
      rw [e] at hpr
      unfold TimeHandler.time
      rw [hst, hpr]
      push_cast; ring
    · exact absurd hst (hlive n hlt).2
  · have hend' := hend
    unfold Live at hend'
    rw [not_and_or, not_not] at hend'
    rcases hend' with h | h
    · left
      have hprev := (hlive (K - 1) (by omega)).1
      cases hm : g.maxWindows with
      | none => rw [hm] at h; exact absurd trivial h
      | some m =>
        rw [hm] at h hprev
        simp only at h hprev
        rw [show m = K by omega]
    · right
      obtain ⟨m, hm, ha, hb⟩ := TimeHandler.reachedEnd_iff.mp h
      have hmt : (clock g K).maxTime = g.maxTime :=
        (tick_atStart hg (n := K) fun m hm => hlive m hm).maxTime
      refine ⟨m, hmt ▸ hm, fun l hl p hp s hsm => ?_⟩
      rw [hstate l hl p hp K le_rfl] at hsm
      obtain rfl := Option.some.inj hsm
      rw [((hf p).after K le_rfl l (hmem l hl p hp)).time, abs_le]
      constructor <;> linarith
  · intro l hl p hp
    unfold written
    rw [hstate l hl p hp 0 (by omega)]
    exact congrArg some ((hf p).initial l (hmem l hl p hp))
  · intro l hl hser n hn
    obtain ⟨_, _, _, h⟩ := gfwd l hl
    rw [hser, if_pos rfl] at h
    unfold written readable
    rw [hf2 l hl n (by omega), hf1 l hl (n + 1) (by omega)]
    exact congrArg some (Msg.data.inj (map_range_inj h hn)).symm
  · intro l hl hser n hn
    obtain ⟨_, _, _, h⟩ := gfwd l hl
    rw [hser, if_neg (by simp)] at h
    unfold written readable
    rw [hf2 l hl (n + 1) (by omega), hf1 l hl (n + 1) (by omega)]
    exact congrArg some (Msg.data.inj (map_range_inj h hn)).symm
  · intro l hl n hn
    obtain ⟨_, _, _, h⟩ := gbwd l hl
    unfold written readable
    rw [hf1 l hl (n + 1) (by omega), hf2 l hl (n + 1) (by omega)]
    exact congrArg some (Msg.data.inj (map_range_inj h hn)).symm
  · intro l hl hi
    obtain ⟨pre, h, h', _⟩ := gbwd l hl
    rw [h' hi, if_pos hi] at h
    unfold readable
    rw [hf1 l hl 0 (by omega)]
    exact congrArg some (Msg.data.inj (List.cons.inj h).1)
  · intro l hl hser hi
    obtain ⟨pre, h, h', _⟩ := gfwd l hl
    rw [h' hser hi, if_pos hi] at h
    unfold readable
    rw [hf2 l hl 0 (by omega)]
    exact congrArg some (Msg.data.inj (List.cons.inj h).1)

end Comp
end Verif
