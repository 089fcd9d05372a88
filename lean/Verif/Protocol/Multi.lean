import Verif.Scheme.Multi
import Verif.Protocol.Parallel

/-!
# Multi coupling: rounds (helper lemmas)
-/

set_option autoImplicit false

namespace Verif

open Prog Function

variable {ι E : Type} [DecidableEq ι]

/-- A sequence of rounds; `star`: all of them have star topology. -/
inductive Rounds {M α : Type} (c : ι) (others : List ι) (star : Prop) :
    (ι → Prog ι M α) → (ι → Prog ι M α) → Prop where
  | refl (p : ι → Prog ι M α) : Rounds c others star p p
  | head {p p' p'' : ι → Prog ι M α} (h : Round c others p p') (hs : star → h.IsStar) :
      Rounds c others star p' p'' → Rounds c others star p p''

theorem Rounds.buffered {M α : Type} {c : ι} {others : List ι} {star : Prop} {p p' : ι → Prog ι M α}
    (h : Rounds c others star p p') : ∃ k, Net.Steps k (RNet.toNet p) (RNet.toNet p') := by
  induction h with
  | refl p => exact ⟨0, .refl _⟩
  | head h _ _ ih =>
    obtain ⟨k, hk⟩ := h.buffered
    obtain ⟨l, hl⟩ := ih
    exact ⟨_, hk.trans hl⟩

theorem Rounds.blocking {M α : Type} {c : ι} {others : List ι} {star : Prop} {p p' : ι → Prog ι M α}
    (h : Rounds c others star p p') (hstar : star) : ∃ k, RNet.Steps k p p' := by
  induction h with
  | refl p => exact ⟨0, .refl _⟩
  | head h hs _ ih =>
    obtain ⟨k, hk⟩ := h.blocking (hs hstar)
    obtain ⟨l, hl⟩ := ih
    exact ⟨_, hk.trans hl⟩

/-! ### Lists of messages -/

theorem take_map {M : Type} (m : ι → M) : ∀ {js : List ι} {ch : ι → List M}, js.Nodup →
    (∀ j, ch j = if j ∈ js then [m j] else []) → take js ch = some (js.map m, fun _ => [])
  | [], ch, _, h => by
    have : ch = fun _ => [] := by funext j; rw [h]; simp
    rw [this]; rfl
  | j :: js, ch, hn, h => by
    rw [List.nodup_cons] at hn
    have hj : ch j = [m j] := by rw [h]; simp
    unfold take
    rw [hj]
    simp only []
    rw [take_map m hn.2 (ch := update ch j []) (by
      intro x
      by_cases hx : x = j
      · subst hx; rw [update_self, if_neg hn.1]
      · rw [update_of_ne hx, h]; simp [hx])]
    rfl

theorem toward_map {M : Type} (m : ι → M) (b : ι) : ∀ {js : List ι}, js.Nodup →
    toward b (js.map fun j => (j, m j)) = if b ∈ js then [m b] else []
  | [], _ => by simp [toward]
  | j :: js, hn => by
    rw [List.nodup_cons] at hn
    simp only [List.map_cons, toward]
    rw [toward_map m b hn.2]
    by_cases h : j = b
    · subst h; simp [hn.1]
    · have : b ≠ j := fun e => h e.symm
      simp [h, this]

theorem toward_append {M : Type} (b : ι) : ∀ (l l' : List (ι × M)),
    toward b (l ++ l') = toward b l ++ toward b l'
  | [], l' => rfl
  | (j, m) :: l, l' => by
    simp only [List.cons_append, toward, toward_append b l l']
    split <;> rfl

omit [DecidableEq ι] in
theorem sendL_append {M α : Type} (k : Prog ι M α) : ∀ (l l' : List (ι × M)),
    sendL (l ++ l') k = sendL l (sendL l' k)
  | [], _ => rfl
  | (j, m) :: l, l' => by simp only [List.cons_append, sendL, sendL_append k l l']

namespace Multi

/-- `s` after receiving the values `v` from `js`. -/
def withRecv (s : State (ι → E)) (js : List ι) (v : ι → E) : State (ι → E) :=
  { s with recvBuf := fun x => if x ∈ js then v x else s.recvBuf x }

theorem recvs_datas (v : ι → E) (k : State (ι → E) → Prog ι (Msg (ι → E)) (State (ι → E))) :
    ∀ (js : List ι) (s : State (ι → E)),
      Recvs (recvDatas js s k) js (js.map fun j => Msg.data fun _ => v j) (k (withRecv s js v))
  | [], s => by
    have : withRecv s [] v = s := by simp [withRecv]
    rw [this]; exact .nil _
  | j :: js, s => by
    refine .cons ?_
    have := recvs_datas v k js { s with recvBuf := update s.recvBuf j (v j) }
    have e : withRecv { s with recvBuf := update s.recvBuf j (v j) } js v = withRecv s (j :: js) v := by
      simp only [withRecv]
      congr 1
      funext x
      by_cases hx : x = j
      · subst hx; simp
      · simp [hx]
    rw [← e]
    exact this

/-- The configurations of all participants stem from the same multi coupling scheme with controller
`c`; the controller is connected to every other participant. -/
structure Topo (c : ι) (others : List ι) (cfg : ι → MultiCfg ι) : Prop where
  nodup : others.Nodup
  notMem : c ∉ others
  all : ∀ i, i = c ∨ i ∈ others
  implicit : ∀ i, (cfg i).base.implicit = true
  firstC : (cfg c).base.first = false
  firstO : ∀ i ∈ others, (cfg i).base.first = true
  ctrl : ∀ i ∈ others, (cfg i).ctrl = c
  maxWindows : ∀ i, (cfg i).base.maxWindows = (cfg c).base.maxWindows
  m2nsNodup : (cfg c).m2ns.Nodup
  m2ns : ∀ j, j ∈ (cfg c).m2ns ↔ j ∈ others
  sendNodup : ∀ i, (cfg i).sendTo.Nodup
  recvNodup : ∀ i, (cfg i).recvFrom.Nodup
  dual : ∀ i j, j ∈ (cfg i).sendTo ↔ i ∈ (cfg j).recvFrom
  noSelf : ∀ i, i ∉ (cfg i).sendTo
  initDual : ∀ i j, (cfg i).initTo j = (cfg j).initFrom i

/-- Data is exchanged with the controller only. -/
def StarTopo (c : ι) (others : List ι) (cfg : ι → MultiCfg ι) : Prop :=
  ∀ i ∈ others, (∀ j ∈ (cfg i).sendTo, j = c) ∧ (∀ j ∈ (cfg i).recvFrom, j = c)

/-- What one iteration of all participants does; `b`: the decision of the controller. -/
structure IterFacts (c : ι) (others : List ι) (cfg : ι → MultiCfg ι) (w : ℚ) (s s' : ι → State (ι → E))
    (inp : ι → StepIn (ι → E)) (b : Bool) : Prop where
  after : ∀ i, AfterIter (cfg i).base w (s i) (s' i) b
  sendO : ∀ i ∈ others, (s' i).sendBuf = (inp i).value
  sendC : b = true → (s' c).sendBuf = (inp c).value
  recvO : ∀ i ∈ others, ∀ j ∈ (cfg i).recvFrom, (s' i).recvBuf j = (s' j).sendBuf i
  recvC : b = true → ∀ j ∈ (cfg c).recvFrom, (s' c).recvBuf j = (s' j).sendBuf c

theorem iter_round {c : ι} {others : List ι} {cfg : ι → MultiCfg ι} {mt : Option ℚ} {w : ℚ}
    {plan : ι → Plan (ι → E)} {s : ι → State (ι → E)} {hist : ι → List (State (ι → E))}
    (ht : Topo c others cfg) (hw : tol < w) (ok : ∀ i, PlanOk (cfg i).base (plan i))
    (st : ∀ i, AtStart mt w (s i)) (ag : ∀ i, Agree (s c) (s i)) (hon : (s c).ongoing (cfg c).base) :
    ∃ inp s', (∀ i, lastStep (plan i (s i :: hist i)) = some (inp i)) ∧
      IterFacts c others cfg w s s' inp (decision (cfg c).base (s c).iters (inp c).verdict) ∧
      ∀ (β : Type) (f : ι → State (ι → E) → Prog ι (Msg (ι → E)) β),
        ∃ r : Round c others
          (fun i => (iterate (cfg i).base (hooks (cfg i)) (plan i (s i :: hist i)) (s i)).bind (f i))
          (fun i => f i (s' i)), StarTopo c others cfg → r.IsStar := by
  have hon' : ∀ i, (s i).ongoing (cfg i).base := fun i =>
    ((ag i).ongoing (ht.maxWindows i).symm).mp hon
  have hiter := fun i => iterate_eq (h := hooks (cfg i)) (L := (s i).time.untilWindowEnd w)
    ((st i).maxStep hw (hon' i) ▸ ok i (s i) (hist i) (hon' i) (st i).progress)
    ((st i).maxStep hw (hon' i)) ((st i).pos hw (hon' i)) (hon' i) ((st i).hasSize hw)
  choose inp hlast heq using hiter
  set L : ι → ℚ := fun i => (s i).time.untilWindowEnd w with hL
  set e : ι → State (ι → E) := fun i => atEnd (s i) (L i) (inp i).value with he
  have hae : ∀ i (x : State (ι → E)), x.size = (s i).size → x.time = (s i).time.progressBy (L i) →
      x.atWindowEnd := fun i x h1 h2 =>
    atWindowEnd_of (by unfold State.hasSize; rw [h1]; exact (st i).hasSize hw) (h1.trans (st i).size) h2 rfl
  have hre : ∀ i (x : State (ι → E)), x.size = (s i).size → x.time = (s i).time.progressBy (L i) →
      x.time.reachedEndOfWindow x.size := by
    intro i x h1 h2
    rw [h1, h2, (st i).size]; exact reachedEndOfWindow_exact rfl
  have hnc : ∀ i ∈ others, i ≠ c := fun i hi e => ht.notMem (e ▸ hi)
  have hfc : ¬ (cfg c).base.first = true := by rw [ht.firstC]; exact Bool.false_ne_true
  -- the controller
  set vc : ι → E := fun j => (inp j).value c with hvc
  set s1 : State (ι → E) := { withRecv (e c) (cfg c).recvFrom vc with received := true } with hs1
  set s2 := doImplicitStep (cfg c).base true (inp c) s1 with hs2
  have hconv : s2.converged = decision (cfg c).base (s c).iters (inp c).verdict := rfl
  -- the others
  set vo : ι → ι → E := fun i j => if j = c then s2.sendBuf i else (inp j).value i with hvo
  set o2 : ι → State (ι → E) := fun i =>
    { withRecv { e i with converged := s2.converged } (cfg i).recvFrom (vo i) with received := true } with ho2
  set z : ι → State (ι → E) := fun i => if i = c then s2 else o2 i with hz
  have hfin : ∀ i, ∃ x', (finishWindow (cfg i).base (z i) : Prog ι (Msg (ι → E)) _) = ret x' ∧
      AfterIter (cfg i).base w (s i) x' (!(cfg i).base.implicit || (z i).converged) ∧
      x'.sendBuf = (z i).sendBuf ∧ x'.recvBuf = (z i).recvBuf ∧ x'.converged = (z i).converged := by
    intro i
    by_cases hi : i = c
    · subst hi
      simp only [hz, if_true]
      exact finishWindow_eq (st i).progress rfl ((st i).pos hw (hon' i)) rfl rfl (st i).size
        (st i).nextSize rfl (Or.inl rfl)
    · simp only [hz, if_neg hi]
      exact finishWindow_eq (st i).progress rfl ((st i).pos hw (hon' i)) rfl rfl (st i).size
        (st i).nextSize rfl (Or.inl rfl)
  choose s' hret haft hsb hrb hcv using hfin
  have hzc : z c = s2 := if_pos rfl
  have hzo : ∀ i ∈ others, z i = o2 i := fun i hi => if_neg (hnc i hi)
  have hzconv : ∀ i, (z i).converged = decision (cfg c).base (s c).iters (inp c).verdict := by
    intro i
    by_cases hi : i = c
    · subst hi; rw [hzc, hconv]
    · rw [hzo i ((ht.all i).resolve_left hi)]; rfl
  have hkeep : s2.converged = true → s2.sendBuf = (inp c).value ∧ s2.recvBuf = s1.recvBuf := by
    intro h
    rw [hs2] at h ⊢
    unfold doImplicitStep at h ⊢
    simp only at h ⊢
    constructor
    · rw [h]; rfl
    · rw [h]; rfl
  have hsO : ∀ i ∈ others, (s' i).sendBuf = (inp i).value := fun i hi => by rw [hsb, hzo i hi]; rfl
  refine ⟨inp, s', hlast, ⟨?_, hsO, ?_, ?_, ?_⟩, ?_⟩
  · intro i
    have := haft i
    rw [ht.implicit i, hzconv] at this
    exact this
  · intro h
    rw [hsb, hzc]
    exact (hkeep h).1
  · intro i hi j hj
    rw [hrb, hzo i hi]
    show (if j ∈ (cfg i).recvFrom then vo i j else _) = _
    rw [if_pos hj, hvo]
    by_cases hjc : j = c
    · subst hjc; simp only [if_true]; rw [hsb, hzc]
    · simp only [if_neg hjc]
      rw [hsO j ((ht.all j).resolve_left hjc)]
  · intro h j hj
    rw [hrb, hzc, (hkeep h).2]
    show (if j ∈ (cfg c).recvFrom then vc j else _) = _
    have hjo : j ∈ others := by
      rcases ht.all j with rfl | h'
      · exact absurd ((ht.dual j j).mpr hj) (ht.noSelf j)
      · exact h'
    rw [if_pos hj, hsO j hjo]
  · intro β f
    refine ⟨{ l := fun i => (cfg i).sendTo.map (dataMsg (e i)),
              x := fun i => ((secondExchange (cfg i).base (hooks (cfg i)) (inp i) (e i))).bind (f i),
              r := fun i => c :: (cfg i).recvFrom,
              m := fun i => .conv s2.converged :: (cfg i).recvFrom.map fun j => .data fun _ => vo i j,
              rc := (cfg c).recvFrom,
              mc := (cfg c).recvFrom.map fun j => .data fun _ => vc j,
              lc := (cfg c).m2ns.map (fun j => (j, .conv s2.converged)) ++ (cfg c).sendTo.map (dataMsg s2),
              nodup := ht.nodup, notMem := ht.notMem, all := ht.all,
              send_o := ?_, recv_o := ?_, recv_c := ?_, noSelf := ?_, take_c := ?_, take_o := ?_ }, ?_⟩
    · intro i hi
      show (iterate _ _ _ _).bind _ = _
      rw [heq i]
      show ((first (cfg i) (inp i) (e i)).bind _).bind _ = _
      unfold first ensure
      rw [if_pos (hae i (e i) rfl rfl), if_pos (ht.firstO i hi)]
      rw [sendL_bind, sendL_bind]
      rfl
    · intro i hi
      have h1 : secondExchange (cfg i).base (hooks (cfg i)) (inp i) (e i) =
          (second (cfg i) (inp i) (e i).clearActions).bind (finishWindow (cfg i).base) :=
        secondExchange_end (by exact ⟨rfl, rfl, rfl⟩) rfl (hre i (e i) rfl rfl)
      show Recvs ((secondExchange _ _ _ _).bind _) _ _ _
      rw [h1]
      have h2 : Recvs (second (cfg i) (inp i) (e i).clearActions) (c :: (cfg i).recvFrom)
          (.conv s2.converged :: (cfg i).recvFrom.map fun j => .data fun _ => vo i j) (ret (o2 i)) := by
        unfold second ensure
        rw [if_pos (hae i (e i).clearActions rfl rfl), if_pos (ht.firstO i hi)]
        unfold recvConv
        rw [ht.ctrl i hi]
        refine .cons ?_
        have := recvs_datas (vo i) (fun s => notify s ret) (cfg i).recvFrom
          { (e i).clearActions with converged := s2.converged }
        simpa [notify, ensure, withRecv, State.clearActions, he, atEnd, ho2] using this
      have h3 := (h2.bind (finishWindow (cfg i).base)).bind (f i)
      rw [ret_bind, ← hzo i hi, hret i, ret_bind] at h3
      exact h3
    · show Recvs ((iterate _ _ _ _).bind _) _ _ _
      rw [heq c]
      have h1 : Recvs (first (cfg c) (inp c) (e c)) (cfg c).recvFrom
          ((cfg c).recvFrom.map fun j => .data fun _ => vc j) (ret s1) := by
        unfold first ensure
        rw [if_pos (hae c (e c) rfl rfl), if_neg hfc]
        have := recvs_datas vc (fun s => notify s ret) (cfg c).recvFrom (e c)
        simpa [notify, ensure, withRecv, he, atEnd, hs1] using this
      have h2 : secondExchange (cfg c).base (hooks (cfg c)) (inp c) s1 =
          (second (cfg c) (inp c) s1.clearActions).bind (finishWindow (cfg c).base) :=
        secondExchange_end (by exact ⟨rfl, rfl, rfl⟩) rfl (hre c s1 rfl rfl)
      have h3 := (h1.bind (secondExchange (cfg c).base (hooks (cfg c)) (inp c))).bind (f c)
      rw [ret_bind, h2] at h3
      have h4 : second (cfg c) (inp c) s1.clearActions = sendL ((cfg c).m2ns.map (fun j => (j, .conv s2.converged)) ++ (cfg c).sendTo.map (dataMsg s2)) (ret s2) := by
        unfold second ensure
        rw [if_pos (hae c s1.clearActions rfl rfl), if_neg hfc, sendL_append]
        rfl
      rw [h4, sendL_bind, sendL_bind, ret_bind, ← hzc, hret c, ret_bind] at h3
      rw [← hzc]
      exact h3
    · intro x hx
      rw [List.mem_append] at hx
      rcases hx with hx | hx
      · obtain ⟨j, hj, rfl⟩ := List.mem_map.mp hx
        exact hnc j ((ht.m2ns j).mp hj)
      · obtain ⟨j, hj, rfl⟩ := List.mem_map.mp hx
        intro h
        have h' : j = c := h
        rw [h'] at hj
        exact ht.noSelf _ hj
    · refine take_map (fun j => Msg.data fun _ => vc j) (ht.recvNodup c) ?_
      intro j
      by_cases hj : j ∈ others
      · rw [if_pos hj]
        have := toward_map (fun x => (.data fun _ => (e j).sendBuf x : Msg (ι → E))) c (ht.sendNodup j)
        refine Eq.trans this ?_
        simp only [ht.dual j c]
        rfl
      · rw [if_neg hj]
        have hjc := (ht.all j).resolve_right hj
        subst hjc
        rw [if_neg (fun h => ht.noSelf j ((ht.dual j j).mpr h))]
    · intro i hi
      unfold take
      have hcc : toward i ((cfg c).m2ns.map (fun j => (j, Msg.conv s2.converged)) ++ (cfg c).sendTo.map (dataMsg s2)) =
          .conv s2.converged :: if i ∈ (cfg c).sendTo then [.data fun _ => s2.sendBuf i] else [] := by
        rw [toward_append, toward_map (fun _ => Msg.conv s2.converged) i ht.m2nsNodup, if_pos ((ht.m2ns i).mpr hi)]
        have := toward_map (fun x => (.data fun _ => s2.sendBuf x : Msg (ι → E))) i (ht.sendNodup c)
        rw [← this]; rfl
      simp only [if_true, hcc]
      rw [take_map (fun j => Msg.data fun _ => vo i j) (ht.recvNodup i)]
      · rfl
      · intro j
        by_cases hj : j = c
        · subst hj
          rw [update_self]
          simp only [ht.dual j i, hvo, if_true]
        · rw [update_of_ne hj, if_neg hj]
          have := toward_map (fun x => (.data fun _ => (e j).sendBuf x : Msg (ι → E))) i (ht.sendNodup j)
          refine Eq.trans this ?_
          simp only [ht.dual j i, hvo, if_neg hj]
          rfl
    · intro hstar
      refine ⟨?_, ?_⟩
      · intro i hi x hx
        obtain ⟨j, hj, rfl⟩ := List.mem_map.mp hx
        exact (hstar i hi).1 j hj
      · intro i hi j hj
        rcases List.mem_cons.mp hj with h | h
        · exact h
        · exact (hstar i hi).2 j h

/-- Agreement after an iteration, including the exchanged data. -/
structure ExchangedAll (c : ι) (others : List ι) (cfg : ι → MultiCfg ι) (s : ι → State (ι → E)) : Prop where
  agree : ∀ i, Agree (s c) (s i)
  recvO : ∀ i ∈ others, ∀ j ∈ (cfg i).recvFrom, (s i).recvBuf j = (s j).sendBuf i
  recvC : (s c).complete = true → ∀ j ∈ (cfg c).recvFrom, (s c).recvBuf j = (s j).sendBuf c

/-- The histories of all participants after a run: the newest states of all participants satisfy
`P`, and so on. -/
inductive AllHist (P : (ι → State (ι → E)) → Prop) : ℕ → (ι → List (State (ι → E))) → Prop where
  | nil : AllHist P 0 fun _ => []
  | cons {n : ℕ} {s : ι → State (ι → E)} {h : ι → List (State (ι → E))} : P s → AllHist P n h →
      AllHist P (n + 1) fun i => s i :: h i

omit [DecidableEq ι] in
theorem AllHist.snoc {P : (ι → State (ι → E)) → Prop} {n : ℕ} {l : ι → List (State (ι → E))}
    (h : AllHist P n l) {s : ι → State (ι → E)} (hs : P s) : AllHist P (n + 1) fun i => l i ++ [s i] := by
  induction h with
  | nil => exact .cons hs .nil
  | cons h1 _ ih => exact .cons h1 ih

theorem coupled_rounds {c : ι} {others : List ι} {cfg : ι → MultiCfg ι} {mt : Option ℚ} {w : ℚ}
    {W N : ℕ} {plan : ι → Plan (ι → E)}
    (ht : Topo c others cfg) (hw : tol < w) (ok : ∀ i, PlanOk (cfg i).base (plan i))
    (hW : WindowBound (cfg c).base mt w W) (hN : IterBound (cfg c).base (plan c) N)
    {P : (ι → State (ι → E)) → Prop} (hP : ∀ s, ExchangedAll c others cfg s → P s) :
    ∀ (k : ℕ) (s : ι → State (ι → E)) (hist : ι → List (State (ι → E))),
      (∀ i, AtStart mt w (s i)) → (∀ i, Agree (s c) (s i)) → (s c).iters ≤ N →
      ((s c).ongoing (cfg c).base → remaining W N (s c) < k) → 0 < k →
      (∀ i ∈ others, Wrote (plan i) false (s i :: hist i)) → Wrote (plan c) true (s c :: hist c) →
      Decided (cfg c).base (plan c) (s c :: hist c) →
      ∃ m l, Rounds c others (StarTopo c others cfg)
          (fun i => coupled (cfg i).base (hooks (cfg i)) (plan i) k (s i) (hist i))
          (fun i => ret (l i ++ s i :: hist i)) ∧
        AllHist P m l ∧ (∀ i ∈ others, Wrote (plan i) false (l i ++ s i :: hist i)) ∧
        Wrote (plan c) true (l c ++ s c :: hist c) ∧ Decided (cfg c).base (plan c) (l c ++ s c :: hist c) ∧
        (∀ i, ∀ x ∈ (l i ++ s i :: hist i).head?, ¬ x.ongoing (cfg i).base) := by
  intro k
  induction k with
  | zero => intro s hist _ _ _ _ h0; omega
  | succ k ih =>
    intro s hist st ag hi hk _ wo wc dc
    by_cases hon : (s c).ongoing (cfg c).base
    · have hon' : ∀ i, (s i).ongoing (cfg i).base := fun i =>
        ((ag i).ongoing (ht.maxWindows i).symm).mp hon
      obtain ⟨inp, s', hlast, facts, hround⟩ := iter_round (hist := hist) ht hw ok st ag hon
      set b := decision (cfg c).base (s c).iters (inp c).verdict with hb
      have st' : ∀ i, AtStart mt w (s' i) := fun i => (facts.after i).atStart (st i) (hon' i)
      have ag' : ∀ i, Agree (s' c) (s' i) := fun i =>
        (facts.after c).agree ((ht.implicit c).trans (ht.implicit i).symm) (ag i) (facts.after i)
      have hbf : b = false → (s c).iters < N := by
        intro h
        rcases Nat.lt_or_ge (s c).iters N with h1 | h1
        · exact h1
        · have h2 : (s c).iters = N := by omega
          have h3 := hN.2 (ht.implicit c) (s c) (hist c) (inp c) h2 (hlast c)
          rw [hb, h2, h3] at h; cases h
      have himp : (cfg c).base.implicit = false → b = true ∧ (s c).iters = 1 := by
        intro h; rw [ht.implicit c] at h; cases h
      have hit' : (s' c).iters ≤ N :=
        (remaining_lt (W := (s' c).windows) (facts.after c) hN.1 hi himp hbf (le_refl _)).2.1
      obtain ⟨m, l, hr, h1, h2, h3, h4, h5⟩ := ih s' (fun i => s i :: hist i) st' ag' hit'
        (fun hon2 => by
          have hw' := (st' c).windows_le hw hon2 hW
          have := (remaining_lt (W := W) (facts.after c) hN.1 hi himp hbf hw').1
          have := hk hon
          omega)
        (by have := hk hon
            have h2 : 0 < remaining W N (s c) := by unfold remaining; omega
            omega)
        (fun i hi => ⟨⟨inp i, hlast i, fun _ => facts.sendO i hi⟩, wo i hi⟩)
        ⟨⟨inp c, hlast c, fun h => facts.sendC (by
          rw [← (facts.after c).complete]; exact h.resolve_left (by simp))⟩, wc⟩
        ⟨⟨inp c, hlast c, by rw [(facts.after c).complete, ht.implicit c]; rfl⟩, dc⟩
      have hPs := hP s' ⟨ag', facts.recvO, fun h => facts.recvC (by rw [← (facts.after c).complete]; exact h)⟩
      refine ⟨m + 1, fun i => l i ++ [s' i], ?_, h1.snoc hPs, ?_⟩
      case refine_2 =>
        simp only [List.append_assoc, List.singleton_append]
        exact ⟨h2, h3, h4, h5⟩
      simp only [List.append_assoc, List.singleton_append]
      obtain ⟨rd, hs⟩ := hround _ (fun i s2 => coupled (cfg i).base (hooks (cfg i)) (plan i) k s2 (s i :: hist i))
      have e : (fun i => coupled (cfg i).base (hooks (cfg i)) (plan i) (k + 1) (s i) (hist i)) =
          fun i => (iterate (cfg i).base (hooks (cfg i)) (plan i (s i :: hist i)) (s i)).bind
            fun s2 => coupled (cfg i).base (hooks (cfg i)) (plan i) k s2 (s i :: hist i) := by
        funext i; exact coupled_ongoing (hon' i)
      rw [e]
      exact .head rd hs hr
    · have hon' : ∀ i, ¬ (s i).ongoing (cfg i).base := fun i h =>
        hon (((ag i).ongoing (ht.maxWindows i).symm).mpr h)
      refine ⟨0, fun _ => [], ?_, .nil, wo, wc, dc, fun i x hx => ?_⟩
      · have e : (fun i => coupled (cfg i).base (hooks (cfg i)) (plan i) (k + 1) (s i) (hist i)) =
            fun i => ret (s i :: hist i) := by
          funext i; exact if_neg (hon' i)
        rw [e]; exact .refl _
      · simp only [List.nil_append, List.head?_cons, Option.mem_some_iff] at hx
        subst hx; exact hon' i

/-- `initialize` of all participants. -/
theorem init_round {c : ι} {others : List ι} {cfg : ι → MultiCfg ι} {mt : Option ℚ} {w : ℚ}
    (ht : Topo c others cfg) (hmt : ∀ m, mt = some m → 0 < m) (d : ι → ι → E) :
    ∃ s : ι → State (ι → E), (∀ i, AtStart mt w (s i)) ∧ (∀ i, Agree (s c) (s i)) ∧ (∀ i, (s i).iters = 1) ∧
      (∀ i, (s i).time = ⟨mt, 0, 0⟩ ∧ (s i).windows = 1) ∧
      (∀ i j, (s i).recvBuf j = if j ∈ (cfg i).recvFrom ∧ (cfg i).initFrom j = true then d j i else d i j) ∧
      ∀ (β : Type) (f : ι → State (ι → E) → Prog ι (Msg (ι → E)) β),
        ∃ r : Round c others
          (fun i => (initScheme (cfg i).base (hooks (cfg i)) (constructed (cfg i).base mt w (d i)).fulfilAll).bind (f i))
          (fun i => f i (s i)), StarTopo c others cfg → r.IsStar := by
  have hnc : ∀ i ∈ others, i ≠ c := fun i hi e => ht.notMem (e ▸ hi)
  have hfc : ¬ (cfg c).base.first = true := by rw [ht.firstC]; exact Bool.false_ne_true
  set a : ι → State (ι → E) := fun i => { (constructed (cfg i).base mt w (d i)).fulfilAll with
    time := (constructed (cfg i).base mt w (d i)).fulfilAll.time.resetTo 0, windows := 1, received := false,
    reqWrite := (constructed (cfg i).base mt w (d i)).fulfilAll.reqWrite || (cfg i).base.implicit } with ha
  set v : ι → ι → E := fun i j => d j i with hv
  set rf : ι → List ι := fun i => (cfg i).recvFrom.filter (cfg i).initFrom with hrf
  set sf : ι → List ι := fun i => (cfg i).sendTo.filter (cfg i).initTo with hsf
  set s : ι → State (ι → E) := fun i => { withRecv (a i) (rf i) (v i) with received := true } with hs
  have hdual : ∀ i j, j ∈ sf i ↔ i ∈ rf j := by
    intro i j
    simp only [hsf, hrf, List.mem_filter, ht.dual i j, ht.initDual i j]
  have hrn : ∀ i, (rf i).Nodup := fun i => (ht.recvNodup i).filter _
  have hsn : ∀ i, (sf i).Nodup := fun i => (ht.sendNodup i).filter _
  refine ⟨s, fun i => started_atStart hmt rfl rfl rfl rfl rfl,
    fun i => ⟨rfl, rfl, rfl, rfl⟩, fun i => rfl, fun i => ⟨rfl, rfl⟩, ?_, ?_⟩
  · intro i j
    show (if j ∈ rf i then v i j else d i j) = _
    simp only [hrf, List.mem_filter]
    rfl
  · intro β f
    refine ⟨{ l := fun i => (sf i).map (dataMsg (a i)),
              x := fun i => (recvDatas (rf i) (a i) fun s => notify s ret).bind (f i),
              r := rf,
              m := fun i => (rf i).map fun j => .data fun _ => v i j,
              rc := rf c,
              mc := (rf c).map fun j => .data fun _ => v c j,
              lc := (sf c).map (dataMsg (s c)),
              nodup := ht.nodup, notMem := ht.notMem, all := ht.all,
              send_o := ?_, recv_o := ?_, recv_c := ?_, noSelf := ?_, take_c := ?_, take_o := ?_ }, ?_⟩
    · intro i hi
      show (initial (cfg i) (a i)).bind _ = _
      unfold initial
      rw [if_pos (ht.firstO i hi), sendL_bind]
    · intro i hi
      have := recvs_datas (v i) (fun s => notify s ret) (rf i) (a i)
      have h2 := this.bind (f i)
      have e : notify (withRecv (a i) (rf i) (v i)) (ret : _ → Prog ι (Msg (ι → E)) _) = ret (s i) := by
        unfold notify ensure
        rw [if_pos (show (withRecv (a i) (rf i) (v i)).received = false from rfl)]
      simp only [e, ret_bind] at h2
      exact h2
    · show Recvs ((initial (cfg c) (a c)).bind _) _ _ _
      unfold initial
      rw [if_neg hfc]
      have := recvs_datas (v c) (fun s => notify s fun s => sendL ((sf c).map (dataMsg s)) (ret s)) (rf c) (a c)
      have h2 := this.bind (f c)
      have e : notify (withRecv (a c) (rf c) (v c)) (fun s => sendL ((sf c).map (dataMsg s)) (ret s)) =
          sendL ((sf c).map (dataMsg (s c))) (ret (s c)) := by
        unfold notify ensure
        rw [if_pos (show (withRecv (a c) (rf c) (v c)).received = false from rfl)]
      simp only [e, ret_bind, sendL_bind] at h2
      exact h2
    · intro x hx
      obtain ⟨j, hj, rfl⟩ := List.mem_map.mp hx
      intro e
      have e' : j = c := e
      rw [e'] at hj
      exact ht.noSelf _ (List.mem_of_mem_filter hj)
    · refine take_map (fun j => Msg.data fun _ => v c j) (hrn c) ?_
      intro j
      by_cases hj : j ∈ others
      · rw [if_pos hj]
        have := toward_map (fun x => (.data fun _ => (a j).sendBuf x : Msg (ι → E))) c (hsn j)
        refine Eq.trans this ?_
        simp only [hdual j c]
        rfl
      · rw [if_neg hj]
        have hjc := (ht.all j).resolve_right hj
        subst hjc
        rw [if_neg (fun h => ht.noSelf j ((ht.dual j j).mpr (List.mem_of_mem_filter h)))]
    · intro i hi
      refine take_map (fun j => Msg.data fun _ => v i j) (hrn i) ?_
      intro j
      by_cases hj : j = c
      · subst hj
        rw [if_pos rfl]
        have := toward_map (fun x => (.data fun _ => (s j).sendBuf x : Msg (ι → E))) i (hsn j)
        refine Eq.trans this ?_
        simp only [hdual]
        rfl
      · rw [if_neg hj]
        have := toward_map (fun x => (.data fun _ => (a j).sendBuf x : Msg (ι → E))) i (hsn j)
        refine Eq.trans this ?_
        simp only [hdual]
        rfl
    · intro hstar
      refine ⟨?_, ?_⟩
      · intro i hi x hx
        obtain ⟨j, hj, rfl⟩ := List.mem_map.mp hx
        exact (hstar i hi).1 j (List.mem_of_mem_filter hj)
      · intro i hi j hj
        exact (hstar i hi).2 j (List.mem_of_mem_filter hj)

end Multi
end Verif
