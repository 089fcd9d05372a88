import Verif.Config.Connections

/-!
# C125: Communication between participants
-/

set_option autoImplicit false

namespace Verif.Config.Conn

open Scheme (Err)

variable {ν : Type} [DecidableEq ν]

/-! ## Specification -/

/-- `m` is a communication between `a` and `b`. -/
def Between (m : M2N ν) (a b : ν) : Prop := (m.acceptor = a ∧ m.connector = b) ∨ (m.acceptor = b ∧ m.connector = a)

/-- When the communications should be accepted: at most one between any two participants, no contradicting options, a valid port, and existing participants. -/
structure WellFormed (size : ℕ) (ps : List (Participant ν)) (ts : List (M2N ν)) : Prop where
  once : ts.Pairwise fun a b => ¬ Between a b.acceptor b.connector
  options : ∀ t ∈ ts, t.twoLevel = true → t.gatherScatter = false ∧ size ≠ 1
  port : ∀ t ∈ ts, ∀ p, t.port = some p → 0 ≤ p ∧ p < 2 ^ 16
  acceptor : ∀ t ∈ ts, ∃ p ∈ ps, p.name = t.acceptor
  connector : ∀ t ∈ ts, ∃ p ∈ ps, p.name = t.connector

/-! ## Acceptance -/

theorem links_iff (m : M2N ν) (a b : ν) : m.links a b = true ↔ Between m a b := by
  unfold M2N.links Between
  simp only [Bool.or_eq_true, Bool.and_eq_true, beq_iff_eq]
  exact or_congr_right and_comm

/-- What one tag is checked for. -/
def TagOk (size : ℕ) (t : M2N ν) : Prop := (t.twoLevel = true → t.gatherScatter = false ∧ size ≠ 1) ∧ ∀ p, t.port = some p → 0 ≤ p ∧ p < 2 ^ 16

theorem addM2N_eq (size : ℕ) (ms : List (M2N ν)) (t : M2N ν) :
    ((∀ m ∈ ms, ¬ Between m t.acceptor t.connector) ∧ TagOk size t → addM2N size ms t = .ok (ms ++ [t])) ∧
    (¬ ((∀ m ∈ ms, ¬ Between m t.acceptor t.connector) ∧ TagOk size t) → addM2N size ms t = .error .check) := by
  unfold addM2N TagOk
  by_cases h1 : ∃ m ∈ ms, Between m t.acceptor t.connector
  · rw [if_pos (by
      simp only [List.any_eq_true, links_iff]
      exact h1)]
    exact ⟨fun h => absurd h1 (by
      rintro ⟨m, hm, hb⟩
      exact h.1 m hm hb), fun _ => rfl⟩
  · rw [if_neg (by
      simp only [List.any_eq_true, links_iff]
      exact h1)]
    have h1' : ∀ m ∈ ms, ¬ Between m t.acceptor t.connector := fun m hm hb => h1 ⟨m, hm, hb⟩
    have hp : ((t.port.map fun p => decide (65535 < p) || decide (p < 0)).getD false = true) ↔ ¬ ∀ p, t.port = some p → 0 ≤ p ∧ p < 2 ^ 16 := by
      cases t.port with
      | none => simp
      | some p =>
        simp only [Option.map_some, Option.getD_some, Bool.or_eq_true, decide_eq_true_eq, Option.some.injEq, forall_eq']
        omega
    generalize hP : (∀ p, t.port = some p → 0 ≤ p ∧ p < 2 ^ 16) = P at hp ⊢
    generalize hQ : (∀ m ∈ ms, ¬ Between m t.acceptor t.connector) = Q at h1' ⊢
    generalize (t.port.map fun p => decide (65535 < p) || decide (p < 0)).getD false = c at hp ⊢
    cases t.twoLevel <;> cases t.gatherScatter <;> cases c <;> by_cases h4 : size = 1 <;> simp at hp <;> simp [h4, hp, h1']

theorem addM2Ns_eq (size : ℕ) (ts ms : List (M2N ν)) (hm : ms.Pairwise fun a b => ¬ Between a b.acceptor b.connector) (ho : ∀ t ∈ ms, TagOk size t) :
    ((ms ++ ts).Pairwise (fun a b => ¬ Between a b.acceptor b.connector) ∧ (∀ t ∈ ms ++ ts, TagOk size t) → addM2Ns size ms ts = .ok (ms ++ ts)) ∧
    (¬ ((ms ++ ts).Pairwise (fun a b => ¬ Between a b.acceptor b.connector) ∧ ∀ t ∈ ms ++ ts, TagOk size t) → addM2Ns size ms ts = .error .check) := by
  induction ts generalizing ms with
  | nil => exact ⟨fun _ => by simp [addM2Ns], fun h => absurd ⟨by simpa using hm, by simpa using ho⟩ h⟩
  | cons t ts ih =>
    have e := addM2N_eq size ms t
    unfold addM2Ns
    by_cases h : (∀ m ∈ ms, ¬ Between m t.acceptor t.connector) ∧ TagOk size t
    · rw [e.1 h]
      have := ih (ms ++ [t]) (List.pairwise_append.2 ⟨hm, List.pairwise_singleton _ _, fun a ha b hb => by
          rw [List.mem_singleton.1 hb]
          exact h.1 a ha⟩) fun a ha => by
          rcases List.mem_append.1 ha with ha | ha
          · exact ho a ha
          · rw [List.mem_singleton.1 ha]
            exact h.2
      rw [List.append_assoc, List.singleton_append] at this
      exact this
    · rw [e.2 h]
      refine ⟨fun h' => absurd ⟨fun m hm => ?_, h'.2 t (by simp)⟩ h, fun _ => rfl⟩
      exact (List.pairwise_append.1 h'.1).2.2 m hm t (by simp)

/-- The communications are accepted exactly if they are well-formed, and otherwise rejected with an error message. -/
theorem C125_accepted (size : ℕ) (ps : List (Participant ν)) (ts : List (M2N ν)) :
    (WellFormed size ps ts → configure size ps ts = .ok ts) ∧ (¬ WellFormed size ps ts → configure size ps ts = .error .check) := by
  have e := addM2Ns_eq size ts [] .nil (by simp)
  rw [List.nil_append] at e
  have hP : ∀ n, isParticipant ps n = true ↔ ∃ p ∈ ps, p.name = n := fun n => by
    unfold isParticipant
    simp
  have hW : WellFormed size ps ts ↔ (ts.Pairwise (fun a b => ¬ Between a b.acceptor b.connector) ∧ ∀ t ∈ ts, TagOk size t) ∧
      ∀ t ∈ ts, isParticipant ps t.acceptor = true ∧ isParticipant ps t.connector = true := by
    constructor
    · intro h
      exact ⟨⟨h.once, fun t ht => ⟨h.options t ht, h.port t ht⟩⟩, fun t ht => ⟨(hP _).2 (h.acceptor t ht), (hP _).2 (h.connector t ht)⟩⟩
    · rintro ⟨⟨h1, h2⟩, h3⟩
      exact ⟨h1, fun t ht => (h2 t ht).1, fun t ht => (h2 t ht).2, fun t ht => (hP _).1 (h3 t ht).1, fun t ht => (hP _).1 (h3 t ht).2⟩
  rw [hW]
  unfold configure
  by_cases h : ts.Pairwise (fun a b => ¬ Between a b.acceptor b.connector) ∧ ∀ t ∈ ts, TagOk size t
  · rw [e.1 h]
    by_cases h3 : ∀ t ∈ ts, isParticipant ps t.acceptor = true ∧ isParticipant ps t.connector = true
    · refine ⟨fun _ => if_pos (by simpa using h3), fun h' => absurd ⟨h, h3⟩ h'⟩
    · refine ⟨fun h' => absurd h'.2 h3, fun _ => if_neg (by simpa using h3)⟩
  · rw [e.2 h]
    exact ⟨fun h' => absurd h'.1 h, fun _ => rfl⟩

/-! ## Connections of a participant -/

theorem bindTo_none (m : M2N ν) (n : ν) (q : Bool) (ps : List (Participant ν)) (r : List (Bound ν)) (h : ∀ p ∈ ps, p.name ≠ n) : bindTo m n q ps r = .ok r := by
  induction ps with
  | nil => rfl
  | cons p ps ih =>
    unfold bindTo
    rw [if_neg (h p (by simp))]
    exact ih fun p hp => h p (by simp [hp])

theorem bindTo_eq (m : M2N ν) (n : ν) (q : Bool) (ps : List (Participant ν)) (r : List (Bound ν)) (hn : (ps.map (·.name)).Nodup) (hp : ∃ p ∈ ps, p.name = n)
    (hr : ∀ b ∈ r, b.remote ≠ n) : bindTo m n q ps r = .ok (r ++ [⟨m, n, q⟩]) := by
  induction ps with
  | nil =>
    obtain ⟨p, hp, -⟩ := hp
    cases hp
  | cons p ps ih =>
    rw [List.map_cons, List.nodup_cons] at hn
    unfold bindTo
    by_cases h : p.name = n
    · rw [if_pos h, if_neg (by simpa using hr)]
      refine bindTo_none m n q ps _ fun p' hp' he => hn.1 ?_
      rw [h, ← he]
      exact List.mem_map_of_mem hp'
    · rw [if_neg h]
      refine ih hn.2 ?_
      obtain ⟨p', hp', he⟩ := hp
      rcases List.mem_cons.1 hp' with rfl | hp'
      · exact absurd he h
      · exact ⟨p', hp', he⟩

/-- What the communication `m` means for the participant `name`. -/
def bindOf (name : ν) (m : M2N ν) : Option (Bound ν) :=
  if m.acceptor = name then some ⟨m, m.connector, true⟩ else if m.connector = name then some ⟨m, m.acceptor, false⟩ else none

theorem bindOf_between {name : ν} {m : M2N ν} {b : Bound ν} (h : bindOf name m = some b) : Between m name b.remote := by
  unfold bindOf at h
  unfold Between
  split_ifs at h with h1 h2 <;> cases h
  · exact .inl ⟨h1, rfl⟩
  · exact .inr ⟨rfl, h2⟩

omit [DecidableEq ν] in
theorem Between.unique {a b : M2N ν} {x y : ν} (ha : Between a x y) (hb : Between b x y) : Between a b.acceptor b.connector := by
  unfold Between at *
  rcases ha with ⟨rfl, rfl⟩ | ⟨rfl, rfl⟩ <;> rcases hb with ⟨h1, h2⟩ | ⟨h1, h2⟩ <;> simp [h1, h2]

theorem boundFor_eq {ps : List (Participant ν)} {name : ν} (hn : (ps.map (·.name)).Nodup) (ms : List (M2N ν)) (r : List (Bound ν))
    (hp : ms.Pairwise fun a b => ¬ Between a b.acceptor b.connector)
    (he : ∀ t ∈ ms, (∃ p ∈ ps, p.name = t.acceptor) ∧ ∃ p ∈ ps, p.name = t.connector)
    (hr : ∀ b ∈ r, ∃ m, bindOf name m = some b ∧ ∀ m' ∈ ms, ¬ Between m m'.acceptor m'.connector) :
    boundFor ps name ms r = .ok (r ++ ms.filterMap (bindOf name)) := by
  induction ms generalizing r with
  | nil => simp [boundFor]
  | cons m ms ih =>
    obtain ⟨hp1, hp2⟩ := List.pairwise_cons.1 hp
    have key : ∀ b, bindOf name m = some b → (∀ b' ∈ r, b'.remote ≠ b.remote) ∧ boundFor ps name ms (r ++ [b]) = .ok (r ++ (m :: ms).filterMap (bindOf name)) := by
      intro b hb
      constructor
      · intro b' hb' hq
        obtain ⟨m', h1, h2⟩ := hr b' hb'
        have h3 := bindOf_between h1
        rw [hq] at h3
        exact h2 m (by simp) (h3.unique (bindOf_between hb))
      · rw [ih (r ++ [b]) hp2 (fun t ht => he t (by simp [ht])), List.filterMap_cons, hb, List.append_assoc]
        · rfl
        · intro b' hb'
          rcases List.mem_append.1 hb' with hb' | hb'
          · obtain ⟨m', h1, h2⟩ := hr b' hb'
            exact ⟨m', h1, fun m'' hm => h2 m'' (by simp [hm])⟩
          · rw [List.mem_singleton.1 hb']
            exact ⟨m, hb, hp1⟩
    obtain ⟨e1, e2⟩ := he m (by simp)
    unfold boundFor
    by_cases h1 : m.acceptor = name
    · rw [if_neg fun h => h.1 h1, if_pos h1]
      have hb : bindOf name m = some ⟨m, m.connector, true⟩ := by simp [bindOf, h1]
      obtain ⟨k1, k2⟩ := key _ hb
      rw [bindTo_eq m m.connector true ps r hn e2 k1]
      exact k2
    · by_cases h2 : m.connector = name
      · rw [if_neg fun h => h.2 h2, if_neg h1]
        have hb : bindOf name m = some ⟨m, m.acceptor, false⟩ := by simp [bindOf, h1, h2]
        obtain ⟨k1, k2⟩ := key _ hb
        rw [bindTo_eq m m.acceptor false ps r hn e1 k1]
        exact k2
      · rw [if_pos ⟨h1, h2⟩, List.filterMap_cons, show bindOf name m = none by simp [bindOf, h1, h2]]
        exact ih r hp2 (fun t ht => he t (by simp [ht])) fun b hb => by
          obtain ⟨m', h3, h4⟩ := hr b hb
          exact ⟨m', h3, fun m'' hm => h4 m'' (by simp [hm])⟩

/-- In an accepted configuration with different names of participants, every participant has exactly the connections that are configured for it: one for each partner
with which there is a communication. -/
theorem C125_connections {size : ℕ} {ps : List (Participant ν)} {ts ms : List (M2N ν)} (h : configure size ps ts = .ok ms) (hn : (ps.map (·.name)).Nodup) (a : ν) :
    ∃ bs, boundFor ps a ms [] = .ok bs ∧ (bs.map (·.remote)).Nodup ∧ (∀ b ∈ bs, b.m2n ∈ ts ∧ Between b.m2n a b.remote) ∧
      ∀ t ∈ ts, ∀ r, Between t a r → ∃ b ∈ bs, b.m2n = t ∧ b.remote = r := by
  have hw : WellFormed size ps ts := by
    by_contra hc
    rw [(C125_accepted size ps ts).2 hc] at h
    cases h
  rw [(C125_accepted size ps ts).1 hw] at h
  cases h
  have hb := boundFor_eq (name := a) hn ts [] hw.once (fun t ht => ⟨hw.acceptor t ht, hw.connector t ht⟩) (by simp)
  rw [List.nil_append] at hb
  refine ⟨_, hb, ?_, ?_, ?_⟩
  · have : (ts.filterMap (bindOf a)).Pairwise fun b b' => b.remote ≠ b'.remote := by
      refine List.Pairwise.filterMap _ ?_ hw.once
      intro m m' hm b hb' b' hb'' hq
      have h1 := bindOf_between hb'
      rw [hq] at h1
      exact hm (h1.unique (bindOf_between hb''))
    exact List.pairwise_map.2 this
  · intro b hb'
    obtain ⟨m, hm, hq⟩ := List.mem_filterMap.1 hb'
    have h1 := bindOf_between hq
    have h2 : b.m2n = m := by
      unfold bindOf at hq
      split_ifs at hq <;> cases hq <;> rfl
    rw [h2]
    exact ⟨hm, h1⟩
  · intro t ht r hr
    have : ∃ b, bindOf a t = some b ∧ b.m2n = t ∧ b.remote = r := by
      unfold bindOf
      unfold Between at hr
      by_cases h1 : t.acceptor = a
      · rw [if_pos h1]
        refine ⟨_, rfl, rfl, ?_⟩
        rcases hr with ⟨-, h2⟩ | ⟨h2, h3⟩
        · exact h2
        · show t.connector = r
          rw [h3, ← h2, h1]
      · rw [if_neg h1]
        rcases hr with ⟨h2, -⟩ | ⟨h2, h3⟩
        · exact absurd h2 h1
        · rw [if_pos h3]
          exact ⟨_, rfl, rfl, h2⟩
    obtain ⟨b, h1, h2, h3⟩ := this
    exact ⟨b, List.mem_filterMap.2 ⟨t, ht, h1⟩, h2, h3⟩

/-- Both ends of a communication between two different participants fit together: they use the same communication, know each other, and exactly one of them is the
requesting side. Missing: a communication of a participant with itself, which is accepted (`C125_self`). -/
theorem C125_matching_partial {size : ℕ} {ps : List (Participant ν)} {ts ms : List (M2N ν)} (h : configure size ps ts = .ok ms) (hn : (ps.map (·.name)).Nodup)
    {a : ν} {as : List (Bound ν)} (ha : boundFor ps a ms [] = .ok as) {x : Bound ν} (hx : x ∈ as) (hne : x.remote ≠ a) :
    ∃ bs, boundFor ps x.remote ms [] = .ok bs ∧ ⟨x.m2n, a, !x.isRequesting⟩ ∈ bs := by
  have hw : WellFormed size ps ts := by
    by_contra hc
    rw [(C125_accepted size ps ts).2 hc] at h
    cases h
  rw [(C125_accepted size ps ts).1 hw] at h
  cases h
  have hb := fun n => boundFor_eq (name := n) hn ts [] hw.once (fun t ht => ⟨hw.acceptor t ht, hw.connector t ht⟩) (by simp)
  simp only [List.nil_append] at hb
  rw [hb a] at ha
  cases ha
  refine ⟨_, hb _, ?_⟩
  obtain ⟨m, hm, hq⟩ := List.mem_filterMap.1 hx
  refine List.mem_filterMap.2 ⟨m, hm, ?_⟩
  unfold bindOf at hq ⊢
  split_ifs at hq with h1 h2 <;> cases hq
  · dsimp only at hne ⊢
    rw [if_neg (fun he : m.acceptor = m.connector => hne (he.symm.trans h1)), if_pos rfl, h1]
    rfl
  · dsimp only at hne ⊢
    rw [if_pos rfl, h2]
    rfl

/-- A communication of a participant with itself is accepted; the participant then waits for a request of itself and has no other end. -/
theorem C125_self (size : ℕ) (p : Participant ν) : configure size [p] [⟨p.name, p.name, false, false, none⟩] = .ok [⟨p.name, p.name, false, false, none⟩] ∧
    boundFor [p] p.name [⟨p.name, p.name, false, false, none⟩] [] = .ok [⟨⟨p.name, p.name, false, false, none⟩, p.name, true⟩] := by
  refine ⟨(C125_accepted size [p] _).1 ⟨List.pairwise_singleton _ _, by simp, by simp, by simp, by simp⟩, ?_⟩
  simp [boundFor, bindTo, Except.bind]

/-! ## Meshes -/

theorem getM2N_ok {ms : List (M2N ν)} {a b : ν} {m : M2N ν} (h : getM2N ms a b = .ok m) : m ∈ ms ∧ Between m a b := by
  unfold getM2N at h
  split at h
  · rename_i x hx
    cases h
    exact ⟨List.mem_of_find?_eq_some hx, (links_iff _ _ _).1 (by simpa using List.find?_some hx)⟩
  · cases h

omit [DecidableEq ν] in
theorem once_unique {ms : List (M2N ν)} (hp : ms.Pairwise fun a b => ¬ Between a b.acceptor b.connector) {a b : ν} {m m' : M2N ν} (hm : m ∈ ms) (hb : Between m a b)
    (hm' : m' ∈ ms) (hb' : Between m' a b) : m = m' := by
  induction hp with
  | nil => cases hm
  | cons h _ ih =>
    rcases List.mem_cons.1 hm with rfl | k <;> rcases List.mem_cons.1 hm' with rfl | k'
    · rfl
    · exact absurd (hb.unique hb') (h _ k')
    · exact absurd (hb'.unique hb) (h _ k)
    · exact ih k k'

/-- Who receives the mesh from the participant, in the order of the configuration. -/
def receiversOf (ps : List (Participant ν)) (name mesh : ν) : List (Participant ν) :=
  ps.flatMap fun r => (r.received.filter fun e => e.2 = name ∧ e.1 = mesh).map fun _ => r

theorem receiverMeshes_ok {ms : List (M2N ν)} {name mesh : ν} {r : Participant ν} {l : List (ν × ν)} {s s' : Requirement × List (M2N ν)}
    (h : receiverMeshes ms name mesh r l s = .ok s') :
    (∃ k, s'.2 = s.2 ++ k ∧ List.Forall₂ (fun (x : Participant ν) m => getM2N ms x.name name = .ok m)
      ((l.filter fun e => e.2 = name ∧ e.1 = mesh).map fun _ => r) k) ∧
    (s'.1 = .full ↔ s.1 = .full ∨ ∃ x ∈ (l.filter fun e => e.2 = name ∧ e.1 = mesh).map fun _ => r, x.own mesh = .full) := by
  induction l generalizing s with
  | nil =>
    cases h
    simp
  | cons e l ih =>
    obtain ⟨m, src⟩ := e
    obtain ⟨q, k⟩ := s
    unfold receiverMeshes at h
    by_cases hc : src = name ∧ m = mesh
    · rw [if_pos hc] at h
      cases hg : getM2N ms r.name name with
      | error e =>
        rw [hg] at h
        cases h
      | ok x =>
        rw [hg] at h
        obtain ⟨⟨k', h1, h2⟩, h3⟩ := ih h
        rw [List.filter_cons, if_pos (by simpa using hc), List.map_cons]
        refine ⟨⟨x :: k', by rw [h1]; simp, .cons hg h2⟩, ?_⟩
        rw [h3]
        obtain ⟨rfl, rfl⟩ := hc
        have hl : ((if q.level < (r.own m).level then r.own m else q) = .full) ↔ q = .full ∨ r.own m = .full := by
          cases q <;> cases r.own m <;> simp [Requirement.level]
        simp only [List.mem_cons, exists_eq_or_imp]
        rw [hl, or_assoc]
    · rw [if_neg hc] at h
      rw [List.filter_cons, if_neg (by simpa using hc)]
      exact ih h

theorem receivers_ok {ms : List (M2N ν)} {name mesh : ν} {ps : List (Participant ν)} {s s' : Requirement × List (M2N ν)} (h : receivers ms name mesh ps s = .ok s') :
    (∃ k, s'.2 = s.2 ++ k ∧ List.Forall₂ (fun (x : Participant ν) m => getM2N ms x.name name = .ok m) (receiversOf ps name mesh) k) ∧
    (s'.1 = .full ↔ s.1 = .full ∨ ∃ x ∈ receiversOf ps name mesh, x.own mesh = .full) := by
  induction ps generalizing s with
  | nil =>
    cases h
    simp [receiversOf]
  | cons r ps ih =>
    unfold receivers at h
    cases hq : receiverMeshes ms name mesh r r.received s with
    | error e =>
      rw [hq] at h
      cases h
    | ok s1 =>
      rw [hq] at h
      obtain ⟨⟨k1, a1, a2⟩, a3⟩ := receiverMeshes_ok hq
      obtain ⟨⟨k2, b1, b2⟩, b3⟩ := ih h
      have e : receiversOf (r :: ps) name mesh = ((r.received.filter fun e => e.2 = name ∧ e.1 = mesh).map fun _ => r) ++ receiversOf ps name mesh := by
        simp [receiversOf]
      rw [e]
      refine ⟨⟨k1 ++ k2, by rw [b1, a1, List.append_assoc], List.rel_append a2 b2⟩, ?_⟩
      rw [b3, a3]
      simp only [List.mem_append, or_and_right, exists_or, or_assoc]

theorem mapM_ok {α β : Type} {f : α → Except Err β} {l : List α} {k : List β} (h : l.mapM f = .ok k) : List.Forall₂ (fun a b => f a = .ok b) l k := by
  induction l generalizing k with
  | nil =>
    cases h
    exact .nil
  | cons a l ih =>
    rw [List.mapM_cons] at h
    cases ha : f a with
    | error e =>
      rw [ha] at h
      cases h
    | ok b =>
      rw [ha] at h
      cases hl : l.mapM f with
      | error e =>
        simp only [hl, bind, Except.bind] at h
        cases h
      | ok k' =>
        simp only [hl, bind, Except.bind, pure, Except.pure] at h
        cases h
        exact .cons ha (ih hl)

/-- The mesh contexts of a participant: every provided mesh is sent by one communication for each participant that receives it from this one, in the order of the
participants, and connectivity is required exactly if the mappings and actions of the participant or of such a receiver need it. Every received mesh is received by the
communication with the participant it is received from. -/
theorem C125_meshes {ms : List (M2N ν)} {ps : List (Participant ν)} {p : Participant ν} {c : Meshes ν} (h : meshesFor ms ps p = .ok c) :
    List.Forall₂ (fun m e => e.1 = m ∧ List.Forall₂ (fun r x => x ∈ ms ∧ Between x r.name p.name) (receiversOf ps p.name m) e.2.2 ∧
      (e.2.1 = .full ↔ p.own m = .full ∨ ∃ r ∈ receiversOf ps p.name m, r.own m = .full)) p.provided c.provided ∧
    List.Forall₂ (fun e x => x.1 = e.1 ∧ x.2 ∈ ms ∧ Between x.2 p.name e.2) p.received c.received := by
  unfold meshesFor at h
  cases h1 : p.provided.mapM fun m => (receivers ms p.name m ps (p.own m, [])).map fun s => (m, s) with
  | error e =>
    rw [h1] at h
    cases h
  | ok pr =>
    cases h2 : p.received.mapM fun e => (getM2N ms p.name e.2).map fun x => (e.1, x) with
    | error e =>
      simp only [h1, h2, bind, Except.bind] at h
      cases h
    | ok rc =>
      simp only [h1, h2, bind, Except.bind] at h
      cases h
      constructor
      · refine (mapM_ok h1).imp fun m e he => ?_
        cases hq : receivers ms p.name m ps (p.own m, []) with
        | error e =>
          rw [hq] at he
          cases he
        | ok s =>
          rw [hq] at he
          cases he
          obtain ⟨⟨k, a1, a2⟩, a3⟩ := receivers_ok hq
          refine ⟨rfl, ?_, a3⟩
          dsimp only
          rw [a1, List.nil_append]
          exact a2.imp fun r x hx => getM2N_ok hx
      · refine (mapM_ok h2).imp fun e x hx => ?_
        cases hq : getM2N ms p.name e.2 with
        | error e' =>
          rw [hq] at hx
          cases hx
        | ok y =>
          rw [hq] at hx
          cases hx
          exact ⟨rfl, getM2N_ok hq⟩

/-- A mesh that is received from its provider arrives by a communication by which the provider sends it. Missing: the mesh may be received from a participant that does
not provide it (`C125_orphan`). -/
theorem C125_mesh_partial {size : ℕ} {ps : List (Participant ν)} {ts ms : List (M2N ν)} (h : configure size ps ts = .ok ms) {p r : Participant ν} {m : ν} (hr : r ∈ ps)
    (hm : (m, p.name) ∈ r.received) (hpm : m ∈ p.provided) {cp cr : Meshes ν} (hcp : meshesFor ms ps p = .ok cp) (hcr : meshesFor ms ps r = .ok cr) :
    ∃ x q l, (m, x) ∈ cr.received ∧ (m, q, l) ∈ cp.provided ∧ x ∈ l := by
  have hw : WellFormed size ps ts := by
    by_contra hc
    rw [(C125_accepted size ps ts).2 hc] at h
    cases h
  rw [(C125_accepted size ps ts).1 hw] at h
  cases h
  obtain ⟨a1, -⟩ := C125_meshes hcp
  obtain ⟨-, b2⟩ := C125_meshes hcr
  have mem : ∀ {α β : Type} {R : α → β → Prop} {l : List α} {k : List β} {a : α}, List.Forall₂ R l k → a ∈ l → ∃ b ∈ k, R a b := by
    intro α β R l k a h ha
    induction h with
    | nil => cases ha
    | cons hab _ ih =>
      rcases List.mem_cons.1 ha with rfl | ha
      · exact ⟨_, by simp, hab⟩
      · obtain ⟨b, hb, hR⟩ := ih ha
        exact ⟨b, by simp [hb], hR⟩
  obtain ⟨⟨m', x⟩, hx, hx1, hx2, hx3⟩ := mem b2 hm
  obtain ⟨⟨m'', q, l⟩, he, he1, he2, -⟩ := mem a1 hpm
  dsimp only at hx1 hx2 hx3 he1 he2
  subst hx1 he1
  have hro : r ∈ receiversOf ps p.name m'' := by
    unfold receiversOf
    rw [List.mem_flatMap]
    refine ⟨r, hr, List.mem_map.2 ⟨(m'', p.name), ?_, rfl⟩⟩
    rw [List.mem_filter]
    exact ⟨hm, by simp⟩
  obtain ⟨y, hy, hy1, hy2⟩ := mem he2 hro
  refine ⟨x, q, l, hx, he, ?_⟩
  have : y = x := once_unique hw.once hy1 hy2 hx2 hx3
  rw [← this]
  exact hy

/-- A mesh may be received from a participant that neither provides it nor knows it: nothing checks this. Both participants are configured, the receiver gets a
communication for the mesh, and the other participant sends nothing. -/
theorem C125_orphan (a b mesh : ν) (q : ν → Requirement) :
    let t : M2N ν := ⟨a, b, false, false, none⟩
    let ps : List (Participant ν) := [⟨a, [], [], q⟩, ⟨b, [], [(mesh, a)], q⟩]
    configure 1 ps [t] = .ok [t] ∧ meshesFor [t] ps ⟨a, [], [], q⟩ = .ok ⟨[], []⟩ ∧ meshesFor [t] ps ⟨b, [], [(mesh, a)], q⟩ = .ok ⟨[], [(mesh, t)]⟩ := by
  intro t ps
  refine ⟨(C125_accepted 1 ps [t]).1 ⟨List.pairwise_singleton _ _, by simp [t], by simp [t], by simp [t, ps], by simp [t, ps]⟩, rfl, ?_⟩
  have : t.links b a = true := (links_iff _ _ _).2 (.inr ⟨rfl, rfl⟩)
  simp [meshesFor, getM2N, this, Except.map, pure, Except.pure, bind, Except.bind]

end Verif.Config.Conn
