import Verif.Compositional.NetworkLocal

/-!
# The solver loop of a composition follows a script
-/

set_option autoImplicit false

namespace Verif

open Prog Script

variable {ι D : Type} [DecidableEq ι]

namespace Comp

/-- members and their states, given by the list of schemes -/
def listOf (g : Common) (p : ι) (ks : List (Link ι)) (st : Link ι → State D) : List (Member ι D × State D) :=
  ks.map fun k => (k.member g p, st k)

theorem follows_forEach {g : Common} {p : ι} {f : Member ι D → State D → Prog ι (Msg D) (State D)}
    {acts : Link ι → List (Act ι)} {rel : Link ι → List (Ev ι (Msg D)) → State D → Prop}
    {st : Link ι → State D} : ∀ {ks : List (Link ι)}, ks.Nodup →
    (∀ k ∈ ks, (f (k.member g p) (st k)).Follows IsData (acts k) (rel k)) →
    (forEach f (listOf g p ks st)).Follows IsData (ks.flatMap acts) fun tr l' =>
      ∃ (st' : Link ι → State D) (trs : Link ι → List (Ev ι (Msg D))), l' = listOf g p ks st' ∧
        tr = ks.flatMap trs ∧ ∀ k ∈ ks, rel k (trs k) (st' k)
  | [], _, _ => follows_ret ⟨st, fun _ => [], rfl, rfl, fun k hk => by cases hk⟩
  | k :: ks, hn, h => by
    obtain ⟨hk, hn⟩ := List.nodup_cons.mp hn
    rw [List.flatMap_cons]
    refine (h k List.mem_cons_self).bind fun tr s' hs' => ?_
    rw [← List.append_nil (ks.flatMap acts)]
    refine (follows_forEach hn fun k' hk' => h k' (List.mem_cons_of_mem _ hk')).bind ?_
    rintro tr' l' ⟨st', trs, rfl, rfl, hrel⟩
    have hne : ∀ k' ∈ ks, k' ≠ k := fun k' hk' he => hk (he ▸ hk')
    refine follows_ret ⟨Function.update st' k s', Function.update trs k tr, ?_, ?_, ?_⟩
    · unfold listOf
      rw [List.map_cons, Function.update_self]
      congr 1
      exact List.map_congr_left fun k' hk' => by rw [Function.update_of_ne (hne k' hk')]
    · rw [List.flatMap_cons, Function.update_self, List.append_nil]
      congr 1
      exact List.flatMap_congr fun k' hk' => by rw [Function.update_of_ne (hne k' hk')]
    · intro k' hk'
      rcases List.mem_cons.mp hk' with rfl | hk'
      · rw [Function.update_self, Function.update_self]; exact hs'
      · rw [Function.update_of_ne (hne k' hk'), Function.update_of_ne (hne k' hk')]; exact hrel k' hk'

theorem flatMap_single {α β : Type} {f : α → List β} {a : α} : ∀ {l : List α}, l.Nodup → a ∈ l →
    (∀ x ∈ l, x ≠ a → f x = []) → l.flatMap f = f a
  | [], _, h, _ => by cases h
  | x :: l, hn, h, h0 => by
    obtain ⟨hx, hn⟩ := List.nodup_cons.mp hn
    rw [List.flatMap_cons]
    by_cases hxa : x = a
    · subst hxa
      rw [List.flatMap_eq_nil_iff.mpr fun y hy => h0 y (List.mem_cons_of_mem _ hy) fun e => hx (e ▸ hy),
        List.append_nil]
    · rw [h0 x List.mem_cons_self hxa, List.nil_append]
      exact flatMap_single hn ((List.mem_cons.mp h).resolve_left (Ne.symm hxa))
        fun y hy => h0 y (List.mem_cons_of_mem _ hy)

theorem sent_flatMap (q : ι) {α M : Type} (f : α → List (Ev ι M)) (l : List α) :
    sent q (l.flatMap f) = l.flatMap fun x => sent q (f x) := by
  induction l with
  | nil => rfl
  | cons a l ih => rw [List.flatMap_cons, sent_append, ih, List.flatMap_cons]

theorem got_flatMap (q : ι) {α M : Type} (f : α → List (Ev ι M)) (l : List α) :
    got q (l.flatMap f) = l.flatMap fun x => got q (f x) := by
  induction l with
  | nil => rfl
  | cons a l ih => rw [List.flatMap_cons, got_append, ih, List.flatMap_cons]

/-- The schemes of one participant have different partners. -/
structure Own (p : ι) (ks : List (Link ι)) : Prop where
  nodup : ks.Nodup
  has : ∀ k ∈ ks, k.has p = true
  ne : ∀ k ∈ ks, k.first ≠ k.second
  inj : ∀ k ∈ ks, ∀ k' ∈ ks, k.peer p = k'.peer p → k = k'

theorem Own.talk {p : ι} {ks : List (Link ι)} (ho : Own p ks) {trs : Link ι → List (Ev ι (Msg D))}
    {out inn : Link ι → List (Msg D)} (h : ∀ k ∈ ks, Talk (k.peer p) (out k) (inn k) (trs k)) {k : Link ι}
    (hk : k ∈ ks) : sent (k.peer p) (ks.flatMap trs) = out k ∧ got (k.peer p) (ks.flatMap trs) = inn k := by
  have h0 : ∀ x ∈ ks, x ≠ k → k.peer p ≠ x.peer p := fun x hx hne he => hne (ho.inj x hx k hk he.symm)
  rw [sent_flatMap, got_flatMap,
    flatMap_single ho.nodup hk fun x hx hne => ((h x hx).other _ (h0 x hx hne)).1,
    flatMap_single ho.nodup hk fun x hx hne => ((h x hx).other _ (h0 x hx hne)).2]
  exact ⟨(h k hk).sent, (h k hk).got⟩

/-! ### One window -/

theorem forEach_ret {f : Member ι D → State D → Prog ι (Msg D) (State D)} {h : Link ι → State D → State D}
    {g : Common} {p : ι} {st : Link ι → State D} : ∀ {ks : List (Link ι)},
    (∀ k ∈ ks, f (k.member g p) (st k) = ret (h k (st k))) →
    forEach f (listOf g p ks st) = ret (listOf g p ks fun k => h k (st k))
  | [], _ => rfl
  | k :: ks, hf => by
    have := forEach_ret fun k' hk' => hf k' (List.mem_cons_of_mem _ hk')
    unfold listOf at this ⊢
    rw [List.map_cons, forEach, hf k List.mem_cons_self, ret_bind, this, ret_bind, List.map_cons]

theorem forEach_congr {f f' : Member ι D → State D → Prog ι (Msg D) (State D)}
    {g : Common} {p : ι} {st st' : Link ι → State D} : ∀ {ks : List (Link ι)},
    (∀ k ∈ ks, f (k.member g p) (st k) = f' (k.member g p) (st' k)) →
    forEach f (listOf g p ks st) = forEach f' (listOf g p ks st')
  | [], _ => rfl
  | k :: ks, hf => by
    have := forEach_congr fun k' hk' => hf k' (List.mem_cons_of_mem _ hk')
    unfold listOf at this ⊢
    rw [List.map_cons, List.map_cons, forEach, forEach, hf k List.mem_cons_self, this]

/-- the composition with the given states -/
def ofStates (g : Common) (p : ι) (ks : List (Link ι)) (st : Link ι → State D) : Comp ι D :=
  ⟨none, listOf g p ks st, false⟩

/-- All schemes are ongoing, with the same time `t` and the common window size. -/
structure Same (g : Common) (p : ι) (ks : List (Link ι)) (t : TimeHandler) (st : Link ι → State D) : Prop where
  time : ∀ k ∈ ks, (st k).time = t
  size : ∀ k ∈ ks, (st k).size = g.size
  ongoing : ∀ k ∈ ks, (st k).ongoing (k.cfg g p)

variable {g : Common} {p : ι} {ks : List (Link ι)} {t : TimeHandler} {st : Link ι → State D}

theorem Same.hasSize (h : Same g p ks t st) (hw : 0 < g.size) {k : Link ι} (hk : k ∈ ks) : (st k).hasSize := by
  unfold State.hasSize; rw [h.size k hk]; exact hasSize_of_pos hw

theorem Same.maxStep (h : Same g p ks t st) (hw : 0 < g.size) {k : Link ι} (hk : k ∈ ks) :
    (st k).maxStep (k.cfg g p) = t.untilWindowEnd g.size := by
  rw [maxStep_of (h.ongoing k hk) (h.hasSize hw hk), h.time k hk, h.size k hk]

omit [DecidableEq ι] in
theorem addTime_member {c : Config} {s : State D} {dt : ℚ} (hon : s.ongoing c) (hpos : tol < dt)
    (hle : dt ≤ s.maxStep c) (hsz : s.hasSize) : addComputedTime (ι := ι) c s.fulfilAll dt ret =
      ret { s.fulfilAll with time := s.time.progressBy dt } := by
  have htol := tol_pos
  have h1 : ¬ equals dt 0 := by rw [equals_iff]; rintro ⟨_, h2⟩; linarith
  have h2 : dt > 0 := by linarith
  have h3 : greaterEquals (s.fulfilAll.maxStep c) dt := by
    unfold greaterEquals; rw [fulfilAll_maxStep]; linarith
  have h4 : s.fulfilAll.hasSize ∨ dt < dblMax := Or.inl hsz
  unfold addComputedTime ensure
  rw [if_pos (show s.fulfilAll.ongoing c from hon), if_pos h1, if_pos h2, if_pos h4, if_pos h3]
  rfl

omit [DecidableEq ι] in
theorem first_member {m : Member ι D} {i : StepIn D} {s : State D} (hsz : s.hasSize) :
    memberFirst i m { s.fulfilAll with time := s.time.progressBy i.dt } =
      if (s.time.progressBy i.dt).reachedEndOfWindow s.size then m.hooks.first i (atEnd s i.dt i.value)
      else ret (midWindow s i.dt i.value) := by
  unfold memberFirst firstExchange checkActions ensure
  rw [if_pos (by exact actionsDone_fulfilAll s)]
  by_cases hend : (s.time.progressBy i.dt).reachedEndOfWindow s.size
  · rw [if_pos hend]; exact if_pos (fun _ => hend)
  · rw [if_neg hend]; exact if_neg (fun hx => hend (hx hsz))

theorem fulfilAll_ofStates : (ofStates g p ks st).fulfilAll = ofStates g p ks fun k => (st k).fulfilAll := by
  unfold ofStates fulfilAll listOf
  simp

/-- `advance` on a composition of explicit schemes -/
theorem advance_ofStates (h : Same g p ks t st) (hw : 0 < g.size) {i : StepIn D} (hpos : tol < i.dt)
    (hle : i.dt ≤ t.untilWindowEnd g.size) :
    advance i (ofStates g p ks st).fulfilAll =
      if (t.progressBy i.dt).reachedEndOfWindow g.size then
        (forEach (fun m s => m.hooks.first i s) (listOf g p ks fun k => atEnd (st k) i.dt i.value)).bind fun l =>
        (forEach (memberSecond i) l).bind fun l => ret ⟨none, l, false⟩
      else ret (ofStates g p ks fun k => midWindow (st k) i.dt i.value) := by
  rw [fulfilAll_ofStates]
  unfold advance addTime ofStates
  simp only
  rw [forEach_ret (h := fun k s => { s with time := s.time.progressBy i.dt }) (fun k hk => by
    exact addTime_member (h.ongoing k hk) hpos (hle.trans (h.maxStep hw hk).ge) (h.hasSize hw hk))]
  simp only [ret_bind, firstEx]
  by_cases hend : (t.progressBy i.dt).reachedEndOfWindow g.size
  · rw [if_pos hend, forEach_congr (f' := fun m s => m.hooks.first i s)
      (st' := fun k => atEnd (st k) i.dt i.value) (fun k hk => by
        have := first_member (m := k.member g p) (i := i) (h.hasSize hw hk)
        rw [h.time k hk, h.size k hk, if_pos hend, ← h.time k hk] at this
        exact this)]
    rw [Prog.bind_assoc]
    rfl
  · rw [if_neg hend, forEach_congr (f' := fun m s => ret s)
      (st' := fun k => midWindow (st k) i.dt i.value) (fun k hk => by
        have := first_member (m := k.member g p) (i := i) (h.hasSize hw hk)
        rw [h.time k hk, h.size k hk, if_neg hend, ← h.time k hk] at this
        exact this)]
    rw [forEach_ret (h := fun _ s => s) fun k hk => rfl]
    simp only [ret_bind, secondEx]
    rw [forEach_ret (h := fun _ s => s) fun k hk => by
      refine secondExchange_mid (h.hasSize hw hk) ?_
      rw [h.time k hk, h.size k hk]; exact hend]
    rfl

theorem Same.mid (h : Same g p ks t st) {i : StepIn D} (hle : tol < t.untilWindowEnd g.size - i.dt) :
    Same g p ks (t.progressBy i.dt) fun k => midWindow (st k) i.dt i.value :=
  ⟨fun k hk => congrArg (·.progressBy i.dt) (h.time k hk), h.size, fun k hk =>
    ongoing_mid (h.ongoing k hk) (by rw [h.time k hk, h.size k hk]; exact hle)⟩

/-- A window with substeps: the exchange happens at its end, with the last written value. -/
theorem iterate_ofStates {L : ℚ} {is : List (StepIn D)} (hs : StepsTo L is) (h : Same g p ks t st)
    (hw : 0 < g.size) (hL : t.untilWindowEnd g.size = L) (hpos : tol < L) :
    ∃ i, lastStep is = some i ∧ iterate is (ofStates g p ks st) =
      (forEach (fun m s => m.hooks.first i s) (listOf g p ks fun k => atEnd (st k) L i.value)).bind fun l =>
      (forEach (memberSecond i) l).bind fun l => ret ⟨none, l, false⟩ := by
  induction hs generalizing t st with
  | @last L i hi =>
    refine ⟨i, rfl, ?_⟩
    have hend : (t.progressBy i.dt).reachedEndOfWindow g.size := by
      apply reachedEndOfWindow_exact; rw [hL, hi]
    have hnil : iterate (ι := ι) (D := D) [] = ret := by funext x; rfl
    rw [iterate, advance_ofStates h hw (by linarith) (by linarith), if_pos hend, hi, hnil, bind_ret]
  | @cons L i is h1 h2 h3 ih =>
    have hend : ¬ (t.progressBy i.dt).reachedEndOfWindow g.size :=
      not_reachedEndOfWindow (by rw [hL]; exact h2)
    obtain ⟨j, hj, hit⟩ := ih (h.mid (i := i) (by rw [hL]; exact h2)) (by
      rw [TimeHandler.untilWindowEnd_progressBy, hL]) h2
    refine ⟨j, ?_, ?_⟩
    · have := h3.ne_nil
      unfold lastStep at hj ⊢
      rw [List.getLast?_cons_of_ne_nil this]
      exact hj
    · rw [iterate, advance_ofStates h hw h1 (by linarith [tol_pos]), if_neg hend, ret_bind, hit]
      congr 3
      funext k
      simp only [atEnd, midWindow, TimeHandler.progressBy]
      congr 2
      ring

/-- what one window did to the scheme `k`; `more`: the coupling goes on -/
structure Windowed (g : Common) (p : ι) (more : Bool) (v : D) (tr : List (Ev ι (Msg D))) (k : Link ι)
    (s s' : State D) : Prop where
  after : AfterIter (k.cfg g p) g.size s s' true
  sendBuf : s'.sendBuf = v
  sent : sent (k.peer p) tr = [.data s'.sendBuf]
  got : got (k.peer p) tr = if k.waits p && !more then [] else [.data s'.recvBuf]

/-- operations of `p` in one window -/
def windowActs (p : ι) (ks : List (Link ι)) (more : Bool) : List (Act ι) :=
  ks.flatMap (·.acts1 p) ++ ks.flatMap (·.acts2 more p)

theorem Link.waits_listens {k : Link ι} {p : ι} (h : k.listens p = true) : k.waits p = false := by
  unfold Link.listens at h
  unfold Link.waits
  cases hs : k.serial <;> simp_all

theorem follows_iterate {is : List (StepIn D)} {more : Bool} (ho : Own p ks) (hw : 0 < g.size)
    (h : Same g p ks t st) (hp0 : t.progress = 0) (hpos : tol < t.untilWindowEnd g.size)
    (hn : ∀ k ∈ ks, (st k).nextSize = g.size)
    (hs : StepsTo (t.untilWindowEnd g.size) is)
    (hmore : ∀ k ∈ ks, ∀ s' : State D, AfterIter (k.cfg g p) g.size (st k) s' true →
      (s'.ongoing (k.cfg g p) ↔ more = true)) :
    ∃ i, lastStep is = some i ∧ (iterate is (ofStates g p ks st)).Follows IsData (windowActs p ks more)
      fun tr c => ∃ st', c = ofStates g p ks st' ∧ ∀ k ∈ ks, Windowed g p more i.value tr k (st k) (st' k) := by
  obtain ⟨i, hi, he⟩ := iterate_ofStates hs h hw rfl hpos
  refine ⟨i, hi, ?_⟩
  rw [he]
  unfold windowActs
  have hL : ∀ k ∈ ks, (st k).time.untilWindowEnd g.size = t.untilWindowEnd g.size := fun k hk => by rw [h.time k hk]
  refine (follows_forEach (rel := fun k => Link.Half p k (t.untilWindowEnd g.size) i.value (st k)) ho.nodup
    fun k hk => Link.follows_first (ho.has k hk) (ho.ne k hk) (h.hasSize hw hk)
      (by rw [h.size k hk, hL k hk])).bind ?_
  rintro tr1 _ ⟨st1, trs1, rfl, rfl, h1⟩
  have hm : ∀ k ∈ ks, decide ((st1 k).ongoing (k.cfg g p)) = more := by
    intro k hk
    have hh := h1 k hk
    obtain ⟨s', -, ha, -⟩ := finishWindow_eq (ι := ι) (c := k.cfg g p) (s := st k)
      (s2 := { st1 k with received := true }) (by rw [h.time k hk, hp0]) (hL k hk) hpos hh.time hh.windows
      (hh.size.trans (h.size k hk)) (hh.nextSize.trans (hn k hk)) hh.iters (Or.inl rfl)
    have ha' : AfterIter (k.cfg g p) g.size (st k) s' true := ha
    have := ongoing_next (s2 := st1 k) (by rw [h.time k hk, hp0]) ha' (by rw [hh.time, hL k hk]) hh.windows
    rw [hmore k hk s' ha'] at this
    cases more <;> simp_all
  rw [← List.append_nil (ks.flatMap (·.acts2 more p))]
  refine (follows_forEach (acts := fun k => k.acts2 more p)
    (rel := fun k => Link.Full g p k more i.value (st k) (st1 k)) ho.nodup
    fun k hk => ?_).bind ?_
  · have := Link.follows_second (g := g) (ho.has k hk) (ho.ne k hk) (h.hasSize hw hk)
      (by rw [h.time k hk, hp0]) (hL k hk) hpos (h1 k hk) (h.size k hk) (hn k hk)
    rw [hm k hk] at this
    exact this
  · rintro tr2 _ ⟨st', trs2, rfl, rfl, h2⟩
    refine follows_ret ⟨st', rfl, fun k hk => ?_⟩
    have t1 := ho.talk (trs := trs1)
      (out := fun k => if k.listens p then [] else [.data i.value])
      (inn := fun k => if k.listens p then [.data (st1 k).recvBuf] else []) (fun k hk => by
        have := (h1 k hk).talk
        split at this <;> simp_all) hk
    have t2 := ho.talk (trs := trs2)
      (out := fun k => if k.listens p then [.data i.value] else [])
      (inn := fun k => if k.listens p then [] else if k.waits p && !more then [] else [.data (st' k).recvBuf])
      (fun k hk => by
        have := (h2 k hk).talk
        split at this <;> simp_all) hk
    refine ⟨(h2 k hk).after, (h2 k hk).sendBuf, ?_, ?_⟩
    · rw [List.append_nil, sent_append, t1.1, t2.1, (h2 k hk).sendBuf]
      cases k.listens p <;> rfl
    · rw [List.append_nil, got_append, t1.2, t2.2]
      cases hl : k.listens p with
      | false => simp
      | true => simp [Link.waits_listens hl, (h2 k hk).keep hl]

end Comp
end Verif
