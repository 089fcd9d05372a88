import Verif.Net.Rendezvous

/-!
# Rounds of a star of communicating programs (helper lemmas)

One distinguished participant `c` and a list of others. A round: the others send, `c` receives, `c`
sends, the others receive.
-/

set_option autoImplicit false

namespace Verif

open Prog Function

variable {ι M α : Type} [DecidableEq ι]

/-- Send the messages in order. -/
def sendL : List (ι × M) → Prog ι M α → Prog ι M α
  | [], k => k
  | (j, m) :: l, k => .send j m (sendL l k)

/-- `Recvs p js ms q`: the program `p` receives the messages `ms` from the sources `js` in this order
and continues as `q`. -/
inductive Recvs : Prog ι M α → List ι → List M → Prog ι M α → Prop where
  | nil (p : Prog ι M α) : Recvs p [] [] p
  | cons {j : ι} {k : M → Prog ι M α} {m : M} {js : List ι} {ms : List M} {q : Prog ι M α} :
      Recvs (k m) js ms q → Recvs (.recv j k) (j :: js) (m :: ms) q

omit [DecidableEq ι] in
theorem sendL_bind {β : Type} (l : List (ι × M)) (k : Prog ι M α) (f : α → Prog ι M β) :
    (sendL l k).bind f = sendL l (k.bind f) := by
  induction l with
  | nil => rfl
  | cons x l ih =>
    obtain ⟨j, m⟩ := x
    show Prog.send j m ((sendL l k).bind f) = Prog.send j m _
    rw [ih]

omit [DecidableEq ι] in
theorem Recvs.bind {β : Type} {p q : Prog ι M α} {js : List ι} {ms : List M} (h : Recvs p js ms q)
    (f : α → Prog ι M β) : Recvs (p.bind f) js ms (q.bind f) := by
  induction h with
  | nil p => exact .nil _
  | cons _ ih => exact .cons ih

/-- Take messages from the channels `ch` (indexed by the source). -/
def take : List ι → (ι → List M) → Option (List M × (ι → List M))
  | [], ch => some ([], ch)
  | j :: js, ch =>
    match ch j with
    | [] => none
    | m :: rest => (take js (update ch j rest)).map fun r => (m :: r.1, r.2)

/-- The messages of a list of sends that go to `b`. -/
def toward (b : ι) : List (ι × M) → List M
  | [] => []
  | (j, m) :: l => if j = b then m :: toward b l else toward b l

namespace Net

theorem steps_sendL {i : ι} {l : List (ι × M)} {k : Prog ι M α} :
    ∀ {n : Net ι M α}, n.procs i = sendL l k →
      ∃ c, Steps c n ⟨update n.procs i k,
        fun x => if x.1 = i then n.chan x ++ toward x.2 l else n.chan x⟩ := by
  induction l with
  | nil =>
    intro n hn
    refine ⟨0, ?_⟩
    have h1 : update n.procs i k = n.procs := by
      funext x; by_cases h : x = i
      · subst h; rw [update_self]; exact hn.symm
      · rw [update_of_ne h]
    have h2 : (fun x : ι × ι => if x.1 = i then n.chan x ++ toward x.2 ([] : List (ι × M)) else n.chan x) =
        n.chan := by funext x; split <;> simp [toward]
    rw [h1, h2]
    exact .refl _
  | cons x l ih =>
    obtain ⟨j, m⟩ := x
    intro n hn
    set n1 : Net ι M α := ⟨update n.procs i (sendL l k),
      update n.chan (i, j) (n.chan (i, j) ++ [m])⟩ with hn1
    obtain ⟨c, hc⟩ := ih (n := n1) (by rw [hn1]; exact update_self ..)
    refine ⟨c + 1, .head (n' := n1) ⟨i, ?_⟩ ?_⟩
    · simp only [stepAt, hn, sendL, hn1]
    · have h1 : update n1.procs i k = update n.procs i k := by
        rw [hn1]; exact update_idem ..
      have h2 : (fun x : ι × ι => if x.1 = i then n1.chan x ++ toward x.2 l else n1.chan x) =
          (fun x : ι × ι => if x.1 = i then n.chan x ++ toward x.2 ((j, m) :: l) else n.chan x) := by
        funext x
        obtain ⟨a, b⟩ := x
        by_cases ha : a = i
        · subst ha
          by_cases hb : j = b
          · subst hb; simp [hn1, toward]
          · have : (a, b) ≠ (a, j) := by simp [Ne.symm hb]
            simp [hn1, toward, hb, update_of_ne this]
        · have : (a, b) ≠ (i, j) := by simp [ha]
          simp [ha, hn1]
      rw [← h1, ← h2]
      exact hc

theorem steps_recvL {i : ι} {l : List ι} {ms : List M} {p q : Prog ι M α} {ch' : ι → List M}
    (hr : Recvs p l ms q) : ∀ {n : Net ι M α}, n.procs i = p →
      take l (fun j => n.chan (j, i)) = some (ms, ch') →
      ∃ c, Steps c n ⟨update n.procs i q, fun x => if x.2 = i then ch' x.1 else n.chan x⟩ := by
  induction hr with
  | nil p =>
    intro n hn ht
    simp only [take, Option.some.injEq, Prod.mk.injEq] at ht
    obtain ⟨-, rfl⟩ := ht
    refine ⟨0, ?_⟩
    have h1 : update n.procs i p = n.procs := by
      funext x; by_cases h : x = i
      · subst h; rw [update_self]; exact hn.symm
      · rw [update_of_ne h]
    have h2 : (fun x : ι × ι => if x.2 = i then n.chan (x.1, i) else n.chan x) = n.chan := by
      funext x
      split
      · next h => rw [← h]
      · rfl
    rw [h1, h2]
    exact .refl _
  | @cons j K m l ms' q hr ih =>
    intro n hn ht
    unfold take at ht
    split at ht
    · cases ht
    · next m' rest hm =>
      simp only [Option.map_eq_some_iff, Prod.mk.injEq, List.cons.injEq] at ht
      obtain ⟨⟨ms2, ch2⟩, ht, ⟨rfl, rfl⟩, rfl⟩ := ht
      have hm' : n.chan (j, i) = m' :: rest := hm
      set n1 : Net ι M α := ⟨update n.procs i (K m'), update n.chan (j, i) rest⟩ with hn1
      have hch : (fun j' => n1.chan (j', i)) = update (fun j => n.chan (j, i)) j rest := by
        funext j'
        by_cases h : j' = j
        · subst h; simp [hn1]
        · have : (j', i) ≠ (j, i) := by simp [h]
          simp [hn1, update_of_ne this, update_of_ne h]
      obtain ⟨c, hc⟩ := ih (n := n1) (by rw [hn1]; exact update_self ..) (by rw [hch]; exact ht)
      refine ⟨c + 1, .head (n' := n1) ⟨i, ?_⟩ ?_⟩
      · simp only [stepAt, hn, hn1, hm']
      · have h1 : update n1.procs i q = update n.procs i q := by
          rw [hn1]; exact update_idem ..
        have h2 : (fun x : ι × ι => if x.2 = i then ch2 x.1 else n1.chan x) =
            (fun x : ι × ι => if x.2 = i then ch2 x.1 else n.chan x) := by
          funext x
          obtain ⟨a, b⟩ := x
          by_cases hb : b = i
          · simp [hb]
          · have : (a, b) ≠ (j, i) := by simp [hb]
            simp [hb, hn1]
        rw [← h1, ← h2]
        exact hc

end Net

/-- The data of one round. -/
structure Round (c : ι) (others : List ι) (p p' : ι → Prog ι M α) where
  /-- sends of the others -/
  l : ι → List (ι × M)
  /-- the others after sending -/
  x : ι → Prog ι M α
  /-- sources the others receive from -/
  r : ι → List ι
  /-- what the others receive -/
  m : ι → List M
  /-- sources `c` receives from, and what -/
  rc : List ι
  mc : List M
  /-- sends of `c` -/
  lc : List (ι × M)
  nodup : others.Nodup
  notMem : c ∉ others
  all : ∀ i, i = c ∨ i ∈ others
  send_o : ∀ i ∈ others, p i = sendL (l i) (x i)
  recv_o : ∀ i ∈ others, Recvs (x i) (r i) (m i) (p' i)
  recv_c : Recvs (p c) rc mc (sendL lc (p' c))
  noSelf : ∀ x ∈ lc, x.1 ≠ c
  take_c : take rc (fun j => if j ∈ others then toward c (l j) else []) = some (mc, fun _ => [])
  take_o : ∀ i ∈ others, take (r i) (fun j => if j = c then toward i lc else
    toward i (l j)) = some (m i, fun _ => [])

theorem Net.steps_mk {k : ℕ} {n n' n'' : Net ι M α} (h : Net.Steps k n n') (h' : n' = n'') :
    Net.Steps k n n'' := h' ▸ h

/-- Any topology, buffered sends. -/
theorem Round.buffered {c : ι} {others : List ι} {p p' : ι → Prog ι M α} (h : Round c others p p') :
    ∃ k, Net.Steps k (RNet.toNet p) (RNet.toNet p') := by
  -- the others send
  have ph1 : ∀ L : List ι, (∀ i ∈ L, i ∈ others) → L.Nodup → ∃ k, Net.Steps k (RNet.toNet p)
      ⟨fun i => if i ∈ L then h.x i else p i,
        fun x => if x.1 ∈ L then toward x.2 (h.l x.1) else []⟩ := by
    intro L
    induction L with
    | nil => intro _ _; exact ⟨0, .refl _⟩
    | cons i L ih =>
      intro hsub hnd
      rw [List.nodup_cons] at hnd
      obtain ⟨k, hk⟩ := ih (fun j hj => hsub j (List.mem_cons_of_mem _ hj)) hnd.2
      obtain ⟨k2, hk2⟩ := Net.steps_sendL (i := i) (l := h.l i) (k := h.x i)
        (n := ⟨fun i => if i ∈ L then h.x i else p i,
          fun x => if x.1 ∈ L then toward x.2 (h.l x.1) else []⟩)
        (by simp only [if_neg hnd.1]; exact h.send_o i (hsub i List.mem_cons_self))
      refine ⟨k + k2, (hk.trans hk2).trans (l := 0) ?_⟩
      refine Net.steps_mk (.refl _) ?_
      congr 1
      · funext x
        by_cases hx : x = i
        · subst hx; simp
        · simp [List.mem_cons, hx]
      · funext ⟨a, b⟩
        by_cases ha : a = i
        · subst ha; simp [hnd.1]
        · simp [ha, List.mem_cons]
  obtain ⟨k1, hk1⟩ := ph1 others (fun _ hi => hi) h.nodup
  -- `c` receives
  obtain ⟨k2, hk2⟩ := Net.steps_recvL (i := c) (ch' := fun _ => []) h.recv_c
    (n := ⟨fun i => if i ∈ others then h.x i else p i,
      fun x => if x.1 ∈ others then toward x.2 (h.l x.1) else []⟩)
    (by simp only [if_neg h.notMem]) h.take_c
  -- `c` sends
  obtain ⟨k3, hk3⟩ := Net.steps_sendL (i := c) (l := h.lc) (k := p' c)
    (n := ⟨update (fun i => if i ∈ others then h.x i else p i) c
        (sendL (h.lc) (p' c)),
      fun x => if x.2 = c then [] else if x.1 ∈ others then toward x.2 (h.l x.1) else []⟩)
    (by simp only [update_self])
  -- the others receive
  have ph4 : ∀ L : List ι, (∀ i ∈ L, i ∈ others) → L.Nodup → ∃ k, Net.Steps k (RNet.toNet p)
      ⟨fun i => if i = c then p' c else if i ∈ L then p' i else h.x i,
        fun x => if x.2 ∈ L ∨ x.2 = c then [] else if x.1 = c then toward x.2 (h.lc)
          else toward x.2 (h.l x.1)⟩ := by
    intro L
    induction L with
    | nil =>
      intro _ _
      refine ⟨_, Net.steps_mk ((hk1.trans hk2).trans hk3) ?_⟩
      congr 1
      · funext x
        by_cases hx : x = c
        · subst hx; simp
        · have := (h.all x).resolve_left hx
          simp [hx, this]
      · funext ⟨a, b⟩
        by_cases ha : a = c
        · subst ha
          by_cases hb : b = a
          · subst hb
            simp only [if_true, List.nil_append, List.not_mem_nil, false_or]
            have : toward b (h.lc) = [] := by
              have hs := h.noSelf
              revert hs
              generalize h.lc = l
              intro hs
              induction l with
              | nil => rfl
              | cons x l ih =>
                obtain ⟨j, m⟩ := x
                unfold toward
                rw [if_neg (hs (j, m) List.mem_cons_self)]
                exact ih fun y hy => hs y (List.mem_cons_of_mem _ hy)
            exact this
          · simp [hb, h.notMem]
        · have := (h.all a).resolve_left ha
          by_cases hb : b = c
          · simp [ha, hb]
          · simp [ha, hb, this]
    | cons i L ih =>
      intro hsub hnd
      rw [List.nodup_cons] at hnd
      obtain ⟨k, hk⟩ := ih (fun j hj => hsub j (List.mem_cons_of_mem _ hj)) hnd.2
      have hio := hsub i List.mem_cons_self
      have hic : i ≠ c := fun e => h.notMem (e ▸ hio)
      obtain ⟨k2, hk2⟩ := Net.steps_recvL (i := i) (ch' := fun _ => []) (h.recv_o i hio)
        (n := ⟨fun i => if i = c then p' c else if i ∈ L then p' i else h.x i,
          fun x => if x.2 ∈ L ∨ x.2 = c then [] else if x.1 = c then toward x.2 (h.lc)
            else toward x.2 (h.l x.1)⟩)
        (by simp only [if_neg hic, if_neg hnd.1])
        (by simp only [hnd.1, hic, or_self, if_false]; exact h.take_o i hio)
      refine ⟨_, Net.steps_mk (hk.trans hk2) ?_⟩
      congr 1
      · funext x
        by_cases hx : x = i
        · subst hx; simp [hic]
        · simp [List.mem_cons, hx]
      · funext ⟨a, b⟩
        by_cases hb : b = i
        · subst hb; simp
        · simp [hb, List.mem_cons]
  obtain ⟨k4, hk4⟩ := ph4 others (fun _ hi => hi) h.nodup
  refine ⟨k4, Net.steps_mk hk4 ?_⟩
  unfold RNet.toNet
  congr 1
  · funext x
    rcases h.all x with hx | hx
    · subst hx; simp
    · have hxc : x ≠ c := fun e => h.notMem (e ▸ hx)
      simp [hxc, hx]
  · funext ⟨a, b⟩
    rcases h.all b with hb | hb <;> simp [hb]

/-! ### Star topology with blocking sends -/

theorem toward_eq_nil {c : ι} {l : List (ι × M)} (h : toward c l = []) (hc : ∀ x ∈ l, x.1 = c) :
    l = [] := by
  cases l with
  | nil => rfl
  | cons x l =>
    obtain ⟨j, m⟩ := x
    have := hc (j, m) List.mem_cons_self
    simp only at this
    unfold toward at h
    rw [if_pos this] at h
    cases h

theorem RNet.star_recv {c : ι} {others : List ι} (hc : c ∉ others) (hall : ∀ i, i = c ∨ i ∈ others)
    {X : ι → Prog ι M α} {rc : List ι} {mc : List M} {pc q : Prog ι M α} (hr : Recvs pc rc mc q) :
      ∀ (l : ι → List (ι × M)) (p : ι → Prog ι M α), p c = pc → (∀ i ∈ others, p i = sendL (l i) (X i)) →
      (∀ i ∈ others, ∀ x ∈ l i, x.1 = c) →
      take rc (fun j => if j ∈ others then toward c (l j) else []) = some (mc, fun _ => []) →
      ∃ k, RNet.Steps k p (fun i => if i = c then q else X i) := by
  induction hr with
  | nil q =>
    intro l p hpc hpo hl ht
    simp only [take, Option.some.injEq, Prod.mk.injEq] at ht
    obtain ⟨-, ht⟩ := ht
    refine ⟨0, ?_⟩
    have : p = fun i => if i = c then q else X i := by
      funext i
      rcases hall i with hi | hi
      · subst hi; rw [if_pos rfl]; exact hpc
      · have hic : i ≠ c := fun e => hc (e ▸ hi)
        rw [if_neg hic, hpo i hi]
        have h1 := congrFun ht i
        simp only [if_pos hi] at h1
        rw [toward_eq_nil h1 (hl i hi)]
        rfl
    rw [← this]
    exact .refl _
  | @cons j K m rc ms' q hr ih =>
    intro l p hpc hpo hl ht
    unfold take at ht
    split at ht
    · cases ht
    · next m' rest hm =>
      simp only [Option.map_eq_some_iff, Prod.mk.injEq, List.cons.injEq] at ht
      obtain ⟨⟨ms2, ch2⟩, ht, ⟨rfl, rfl⟩, rfl⟩ := ht
      have hj : j ∈ others := by
        by_contra hj
        simp only [if_neg hj] at hm
        cases hm
      have hjc : j ≠ c := fun e => hc (e ▸ hj)
      simp only [if_pos hj] at hm
      obtain ⟨l', hl'⟩ : ∃ l', l j = (c, m') :: l' := by
        have h0 := hl j hj
        revert hm h0
        cases l j with
        | nil => intro hm; cases hm
        | cons x l' =>
          obtain ⟨d, m2⟩ := x
          intro hm h0
          have hd : d = c := h0 _ List.mem_cons_self
          subst hd
          unfold toward at hm
          rw [if_pos rfl] at hm
          injection hm with h1 h2
          subst h1
          exact ⟨l', rfl⟩
      have hrest : rest = toward c l' := by
        rw [hl'] at hm; unfold toward at hm; rw [if_pos rfl] at hm; injection hm with _ h2; exact h2.symm
      set p1 : ι → Prog ι M α := update (update p j (sendL l' (X j))) c (K m')
        with hp1
      obtain ⟨k, hk⟩ := ih (update l j l') p1 (by rw [hp1, update_self])
        (by
          intro i hi
          have hic : i ≠ c := fun e => hc (e ▸ hi)
          rw [hp1, update_of_ne hic]
          by_cases hij : i = j
          · subst hij; rw [update_self, update_self]
          · rw [update_of_ne hij, update_of_ne hij]; exact hpo i hi)
        (by
          intro i hi
          by_cases hij : i = j
          · subst hij; rw [update_self]
            intro x hx; exact hl i hi x (by rw [hl']; exact List.mem_cons_of_mem _ hx)
          · rw [update_of_ne hij]; exact hl i hi)
        (by
          have : (fun x => if x ∈ others then toward c (update l j l' x) else []) =
              update (fun x => if x ∈ others then toward c (l x) else []) j rest := by
            funext x
            by_cases hxj : x = j
            · subst hxj; rw [update_self, update_self, if_pos hj, hrest]
            · rw [update_of_ne hxj, update_of_ne hxj]
          rw [this]; exact ht)
      refine ⟨k + 1, .head ⟨j, c, m', sendL l' (X j), K, ?_, hpc, rfl⟩ hk⟩
      rw [hpo j hj, hl']; rfl

theorem RNet.star_send {c : ι} {others : List ι} (hc : c ∉ others) (hall : ∀ i, i = c ∨ i ∈ others)
    {k0 : Prog ι M α} : ∀ (lc : List (ι × M)) (r : ι → List ι) (m : ι → List M) (p q : ι → Prog ι M α),
      p c = sendL lc k0 → (∀ i ∈ others, Recvs (p i) (r i) (m i) (q i)) →
      (∀ i ∈ others, ∀ j ∈ r i, j = c) → (∀ x ∈ lc, x.1 ≠ c) →
      (∀ i ∈ others, take (r i) (fun j => if j = c then toward i lc else []) = some (m i, fun _ => [])) →
      ∃ k, RNet.Steps k p (fun i => if i = c then k0 else q i) := by
  intro lc
  induction lc with
  | nil =>
    intro r m p q hpc hpo hr _ ht
    refine ⟨0, ?_⟩
    have : p = fun i => if i = c then k0 else q i := by
      funext i
      rcases hall i with hi | hi
      · subst hi; rw [if_pos rfl]; exact hpc
      · have hic : i ≠ c := fun e => hc (e ▸ hi)
        have h1 := ht i hi
        have h2 := hpo i hi
        rw [if_neg hic]
        revert h1
        generalize p i = pi at h2 ⊢
        generalize q i = qi at h2 ⊢
        generalize r i = ri at h2 ⊢
        generalize m i = mi at h2 ⊢
        cases h2 with
        | nil => intro _; rfl
        | cons h3 =>
          intro h1
          simp only [take, toward, ite_self] at h1
          cases h1
    rw [← this]
    exact .refl _
  | cons x lc ih =>
    obtain ⟨i, m0⟩ := x
    intro r m p q hpc hpo hr hs ht
    have hic : i ≠ c := hs _ List.mem_cons_self
    have hi := (hall i).resolve_left hic
    have h1 := ht i hi
    obtain ⟨K, r', ms', hpi, hri, hmi, hrec⟩ : ∃ K r' ms', p i = .recv c K ∧ r i = c :: r' ∧ m i = m0 :: ms' ∧
        Recvs (K m0) r' ms' (q i) := by
      have h2 := hr i hi
      have h3 := hpo i hi
      revert h1 h2
      generalize p i = pi at h3 ⊢
      generalize r i = ri at h3 ⊢
      generalize m i = mi at h3 ⊢
      generalize q i = qi at h3 ⊢
      cases h3 with
      | nil =>
        intro h1
        simp only [take, Option.some.injEq, Prod.mk.injEq] at h1
        have := congrFun h1.2 c
        simp only [if_pos, toward] at this
        cases this
      | @cons j k m1 js ms1 q1 h4 =>
        intro h1 h2
        have hj : j = c := h2 j List.mem_cons_self
        subst hj
        simp only [take, if_true, toward, Option.map_eq_some_iff, Prod.mk.injEq, List.cons.injEq] at h1
        obtain ⟨_, -, ⟨rfl, rfl⟩, -⟩ := h1
        exact ⟨k, js, _, rfl, rfl, rfl, h4⟩
    rw [hri, hmi] at h1
    simp only [take, if_true, toward, Option.map_eq_some_iff, Prod.mk.injEq, List.cons.injEq] at h1
    obtain ⟨⟨ms2, ch'⟩, h1, ⟨-, hm⟩, hch⟩ := h1
    simp only at hm hch h1
    subst hch hm
    set p1 : ι → Prog ι M α := update (update p c (sendL lc k0)) i (K m0) with hp1
    obtain ⟨k, hk⟩ := ih (update r i r') (update m i ms2) p1 q
      (by rw [hp1, update_of_ne hic.symm, update_self])
      (by
        intro x hx
        have hxc : x ≠ c := fun e => hc (e ▸ hx)
        by_cases hxi : x = i
        · subst hxi; rw [hp1, update_self, update_self, update_self]; exact hrec
        · rw [hp1, update_of_ne hxi, update_of_ne hxc, update_of_ne hxi, update_of_ne hxi]; exact hpo x hx)
      (by
        intro x hx
        by_cases hxi : x = i
        · subst hxi; rw [update_self]; intro j hj; exact hr x hx j (by rw [hri]; exact List.mem_cons_of_mem _ hj)
        · rw [update_of_ne hxi]; exact hr x hx)
      (fun x hx => hs x (List.mem_cons_of_mem _ hx))
      (by
        intro x hx
        by_cases hxi : x = i
        · subst hxi
          rw [update_self, update_self]
          have : (update (fun j => if j = c then m0 :: toward x lc else ([] : List M)) c (toward x lc)) =
              fun j => if j = c then toward x lc else [] := by
            funext j
            by_cases hj : j = c
            · subst hj; rw [update_self, if_pos rfl]
            · rw [update_of_ne hj, if_neg hj, if_neg hj]
          rw [← this]; exact h1
        · rw [update_of_ne hxi, update_of_ne hxi]
          have h2 := ht x hx
          simp only [toward, if_neg (Ne.symm hxi)] at h2
          exact h2)
    exact ⟨k + 1, .head ⟨c, i, m0, sendL lc k0, K, hpc, hpi, rfl⟩ hk⟩

/-- Only `c` communicates with the others. -/
structure Round.IsStar {c : ι} {others : List ι} {p p' : ι → Prog ι M α} (h : Round c others p p') :
    Prop where
  sends : ∀ i ∈ others, ∀ x ∈ h.l i, x.1 = c
  recvs : ∀ i ∈ others, ∀ j ∈ h.r i, j = c

theorem toward_eq_nil_of {i c : ι} (hic : i ≠ c) : ∀ {l : List (ι × M)}, (∀ x ∈ l, x.1 = c) →
    toward i l = []
  | [], _ => rfl
  | (j, m) :: l, h => by
    have hj : j = c := h (j, m) List.mem_cons_self
    unfold toward
    rw [if_neg (by rw [hj]; exact hic.symm)]
    exact toward_eq_nil_of hic fun x hx => h x (List.mem_cons_of_mem _ hx)

/-- Star topology, blocking sends. -/
theorem Round.blocking {c : ι} {others : List ι} {p p' : ι → Prog ι M α} (h : Round c others p p')
    (hs : h.IsStar) : ∃ k, RNet.Steps k p p' := by
  obtain ⟨k1, h1⟩ := RNet.star_recv h.notMem h.all (X := h.x) h.recv_c h.l p rfl
    h.send_o hs.sends h.take_c
  obtain ⟨k2, h2⟩ := RNet.star_send h.notMem h.all (k0 := p' c) h.lc h.r h.m
    (fun i => if i = c then sendL h.lc (p' c) else h.x i) p' (if_pos rfl)
    (fun i hi => by
      have hic : i ≠ c := fun e => h.notMem (e ▸ hi)
      simp only [if_neg hic]; exact h.recv_o i hi) hs.recvs h.noSelf
    (fun i hi => by
      have hic : i ≠ c := fun e => h.notMem (e ▸ hi)
      rw [← h.take_o i hi]
      congr 1
      funext j
      split
      · rfl
      · next hj => exact (toward_eq_nil_of hic (hs.sends j ((h.all j).resolve_left hj))).symm)
  have : p' = fun i => if i = c then p' c else p' i := by
    funext i
    split
    · next e => rw [e]
    · rfl
  rw [this]
  exact ⟨_, h1.trans h2⟩

end Verif
