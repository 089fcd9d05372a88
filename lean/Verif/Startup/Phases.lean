import Verif.Startup.Lemmas

/-!
# The phases of `initialize()` and `finalize()` follow their plans
-/

set_option autoImplicit false

namespace Verif.Startup

open Ordered

variable {n : ℕ} {C D I : Type} [DecidableEq I]

/-! ## Connections -/

def connectTalk (s : Setup n C D I) (p q : Fin n) (_ : Link n) (b : Bool) : Talk (Msg C D I) :=
  if b then [(false, .address), (true, .connected), (false, .info (s.info q)), (true, .info (s.info p))]
  else [(true, .address), (false, .connected), (true, .info (s.info p)), (false, .info (s.info q))]

omit [DecidableEq I] in
theorem connectTalk_dual (s : Setup n C D I) (p q : Fin n) (l : Link n) (b : Bool) : connectTalk s q p l (!b) = Talk.dual (connectTalk s p q l b) := by
  cases b <;> rfl

theorem follows_connect {s : Setup n C D I} (hi : ∀ p q, s.info p = s.info q) (p : Fin n) (x : Fin n × Link n × Bool) :
    Follows (connect s p x) (Talk.acts x.1 (connectTalk s p x.1 x.2.1 x.2.2)) () := by
  obtain ⟨q, l, b⟩ := x
  cases b
  · refine Follows.send q Msg.address (Follows.recv q Msg.connected (Follows.send q (Msg.info (s.info p)) (Follows.recv q (Msg.info (s.info q)) ?_)))
    show Follows (Prog.ensure _ _ _) _ _
    rw [Prog.ensure, if_pos (hi q p)]
    exact .ret _
  · refine Follows.recv q Msg.address (Follows.send q Msg.connected (Follows.recv q (Msg.info (s.info q)) (Follows.send q (Msg.info (s.info p)) ?_)))
    show Follows (Prog.ensure _ _ _) _ _
    rw [Prog.ensure, if_pos (hi q p)]
    exact .ret _

omit [DecidableEq I] in
theorem pairPlan_acts {M : Type} (s : Setup n C D I) (talk : Fin n → Fin n → Link n → Bool → Talk M) (p : Fin n) :
    (pairPlan s talk p).acts = (partners s p).flatMap fun x => Talk.acts x.1 (talk p x.1 x.2.1 x.2.2) := by
  unfold pairPlan Plan.acts
  rw [List.flatMap_map]

theorem connect_steps {s : Setup n C D I} (ho : ∀ l ∈ s.links, l.acceptor ≠ l.connector) (hi : ∀ p q, s.info p = s.info q) :
    ∃ k, RNet.Steps k (fun p => collect (connect s p) (partners s p)) fun p => .ret ((partners s p).map fun _ => ()) := by
  refine (pairPlan_agreed ho (connectTalk_dual s)).completes fun p => ?_
  rw [pairPlan_acts]
  exact follows_collect _ fun x _ => follows_connect hi p x

/-! ## Meshes -/

/-- The mesh received, if any. -/
def gotMesh (s : Setup n C D I) (x : ℕ × Use n) : List (ℕ × C) :=
  match x.2 with
  | .provide => []
  | .receive q => [(x.1, s.content q x.1)]

omit [DecidableEq I] in
theorem follows_communicate {s : Setup n C D I} (hs : Checked s) (p : Fin n) (x : ℕ × Use n) (hx : x ∈ contexts s p) :
    Follows (communicate s p x) (Plan.acts (match x.2 with
      | .provide => (receivers s p x.1).map fun r => ((toLex (x.1, s.order.idxOf r) : ℕ ×ₗ ℕ), r, [(true, Msg.mesh (s.content p x.1))])
      | .receive q => [(toLex (x.1, s.order.idxOf p), q, [(false, Msg.mesh (s.content q x.1))])])) (gotMesh s x) := by
  obtain ⟨m, u⟩ := x
  cases u with
  | provide =>
    have hm := mem_contexts_provide.1 hx
    have h := (follows_collect (f := fun r => Prog.ensure .check (0 < s.size (s.content p m)) (.send r (.mesh (s.content p m)) (.ret ())))
      (acts := fun r => [Act.send r (Msg.mesh (D := D) (I := I) (s.content p m))]) (res := fun _ => ()) (receivers s p m) ?_).bind
      (f := fun _ => Prog.ret (gotMesh s (m, .provide))) (Follows.ret _)
    · rw [List.append_nil] at h
      show Follows _ (Plan.acts ((receivers s p m).map _)) _
      unfold Plan.acts
      rw [List.flatMap_map]
      exact h
    · intro r hr
      rw [Prog.ensure, if_pos (hs.filled p r m ⟨hm, (mem_receivers hs).1 hr⟩)]
      exact .send _ _ (.ret _)
  | receive q => exact Follows.recv q (Msg.mesh (s.content q m)) (Follows.ret _)

omit [DecidableEq I] in
theorem communicate_steps {s : Setup n C D I} (hs : Checked s) (ho : ∀ p m q, (m, q) ∈ s.received p → m ∈ s.provided q) :
    ∃ k, RNet.Steps k (fun p => collect (communicate s p) (contexts s p)) fun p => .ret ((contexts s p).map (gotMesh s)) := by
  refine (meshPlan_agreed hs ho).completes fun p => ?_
  have h := follows_collect (f := communicate s p) (contexts s p) fun x hx => follows_communicate hs p x hx
  unfold meshPlan Plan.acts
  rw [List.flatMap_assoc]
  exact h

omit [DecidableEq I] in
theorem got_perm (s : Setup n C D I) (p : Fin n) : ((contexts s p).map (gotMesh s)).flatten.Perm ((s.received p).map fun x => (x.1, s.content x.2 x.1)) := by
  rw [← List.flatMap_def]
  refine ((contexts_perm s p).flatMap_right _).trans ?_
  rw [List.flatMap_append, List.flatMap_map, List.flatMap_map]
  have h1 : (s.provided p).flatMap (fun m => gotMesh s (m, .provide)) = [] := by
    rw [List.flatMap_eq_nil_iff]
    intro m _
    rfl
  have h2 : (s.received p).flatMap (fun x => gotMesh s (x.1, .receive x.2)) = (s.received p).map fun x => (x.1, s.content x.2 x.1) := by
    generalize s.received p = l
    induction l with
    | nil => rfl
    | cons a l ih => rw [List.flatMap_cons, ih]; rfl
  rw [h1, h2]
  exact .refl _

/-! ## Distributions -/

def distTalk (s : Setup n C D I) (got : Fin n → List (ℕ × C)) (p q : Fin n) (b : Bool) (m : ℕ) : Talk (Msg C D I) :=
  if b then [(false, .address), (true, .connected), (false, .dist (s.dist q (got q) m)), (true, .dist (s.dist p (got p) m))]
  else [(true, .address), (false, .connected), (true, .dist (s.dist p (got p) m)), (false, .dist (s.dist q (got q) m))]

omit [DecidableEq I] in
theorem distTalk_dual (s : Setup n C D I) (got : Fin n → List (ℕ × C)) (p q : Fin n) (b : Bool) (m : ℕ) : distTalk s got q p (!b) m = Talk.dual (distTalk s got p q b m) := by
  cases b <;> rfl

omit [DecidableEq I] in
theorem follows_exchange (s : Setup n C D I) (got : Fin n → List (ℕ × C)) (p q : Fin n) (b : Bool) (m : ℕ) :
    Follows (exchange s p (got p) q b m) (Talk.acts q (distTalk s got p q b m)) (q, m, s.dist q (got q) m) := by
  cases b
  · exact Follows.send q Msg.address (Follows.recv q Msg.connected (Follows.send q (Msg.dist (s.dist p (got p) m)) (Follows.recv q (Msg.dist (s.dist q (got q) m)) (Follows.ret _))))
  · exact Follows.recv q Msg.address (Follows.send q Msg.connected (Follows.recv q (Msg.dist (s.dist q (got q) m)) (Follows.send q (Msg.dist (s.dist p (got p) m)) (Follows.ret _))))

/-- The distributions learned from a partner. -/
def gotDists (s : Setup n C D I) (got : Fin n → List (ℕ × C)) (p : Fin n) (x : Fin n × Link n × Bool) : List (Fin n × ℕ × D) :=
  if x.2.1.p2p then (shared s p x.1).map fun m => (x.1, m, s.dist x.1 (got x.1) m) else []

omit [DecidableEq I] in
theorem follows_secondary (s : Setup n C D I) (got : Fin n → List (ℕ × C)) (p : Fin n) (x : Fin n × Link n × Bool) :
    Follows (secondary s p (got p) x) (Plan.acts (if x.2.1.p2p then (shared s p x.1).map fun m => ((toLex (pair p x.1, s.meshId m) : (ℕ ×ₗ ℕ) ×ₗ ℕ), x.1, distTalk s got p x.1 x.2.2 m) else []))
      (gotDists s got p x) := by
  obtain ⟨q, l, b⟩ := x
  unfold secondary gotDists
  by_cases h : l.p2p = true
  · simp only [if_pos h]
    unfold Plan.acts
    rw [List.flatMap_map]
    exact follows_collect _ fun m _ => follows_exchange s got p q b m
  · simp only [if_neg h]
    exact .ret _

omit [DecidableEq I] in
theorem secondary_steps {s : Setup n C D I} (hs : Checked s) (ho : Sound s) (got : Fin n → List (ℕ × C)) :
    ∃ k, RNet.Steps k (fun p => collect (secondary s p (got p)) (partners s p)) fun p => .ret ((partners s p).map (gotDists s got p)) := by
  refine (distPlan_agreed hs ho (distTalk_dual s got)).completes fun p => ?_
  have h := follows_collect (f := secondary s p (got p)) (partners s p) fun x _ => follows_secondary s got p x
  unfold distPlan Plan.acts
  rw [List.flatMap_assoc]
  exact h

omit [DecidableEq I] in
theorem mem_gotDists {s : Setup n C D I} (hs : Checked s) (ho : Sound s) (got : Fin n → List (ℕ × C)) {p q : Fin n} {m : ℕ} {d : D} :
    (q, m, d) ∈ ((partners s p).map (gotDists s got p)).flatten ↔ LinkedDirectly s p q ∧ (Gives s p q m ∨ Gives s q p m) ∧ d = s.dist q (got q) m := by
  rw [← List.flatMap_def, List.mem_flatMap]
  constructor
  · rintro ⟨⟨q', l, b⟩, hx, h⟩
    unfold gotDists at h
    simp only at h
    split at h
    · rename_i hl
      obtain ⟨m', hm, he⟩ := List.mem_map.1 h
      cases he
      obtain ⟨h1, h2⟩ := find_joins (mem_partners.1 hx).1
      exact ⟨⟨l, h1, hl, h2⟩, (mem_shared ho.offered).1 hm, rfl⟩
    · cases h
  · rintro ⟨⟨l, h1, hl, h2⟩, hm, rfl⟩
    refine ⟨(q, l, decide (l.acceptor = p)), mem_partners.2 ⟨find_of_mem hs.unique h1 h2, rfl⟩, ?_⟩
    unfold gotDists
    simp only
    rw [if_pos hl]
    exact List.mem_map.2 ⟨m, (mem_shared ho.offered).2 hm, rfl⟩

/-! ## All of `initialize()` -/

/-- What each participant knows in the end. -/
def known (s : Setup n C D I) (p : Fin n) : Known n C D :=
  (((contexts s p).map (gotMesh s)).flatten, ((partners s p).map (gotDists s (fun q => ((contexts s q).map (gotMesh s)).flatten) p)).flatten)

omit [DecidableEq I] in
theorem known_informed {s : Setup n C D I} (hs : Checked s) (ho : Sound s) : Informed s (known s) :=
  ⟨got_perm s, fun _ _ _ _ => mem_gotDists hs ho _⟩

theorem setup_steps {s : Setup n C D I} (hs : Checked s) (ho : Sound s) : ∃ k, RNet.Steps k (setup s) fun p => .ret (known s p) := by
  obtain ⟨k1, h1⟩ := connect_steps ho.other hs.info
  obtain ⟨k2, h2⟩ := communicate_steps hs ho.offered
  obtain ⟨k3, h3⟩ := secondary_steps hs ho (fun q => ((contexts s q).map (gotMesh s)).flatten)
  have h3' := h3.bind fun p ds => Prog.ret (M := Msg C D I) (((contexts s p).map (gotMesh s)).flatten, ds.flatten)
  have h2' := h2.bind fun p got => (collect (secondary s p got.flatten) (partners s p)).bind fun ds => Prog.ret (M := Msg C D I) (got.flatten, ds.flatten)
  have h1' := h1.bind fun p _ => (collect (communicate s p) (contexts s p)).bind fun got =>
    (collect (secondary s p got.flatten) (partners s p)).bind fun ds => Prog.ret (M := Msg C D I) (got.flatten, ds.flatten)
  exact ⟨_, (h1'.trans h2').trans h3'⟩

omit [DecidableEq I] in
theorem accepted_of {s : Setup n C D I} (hs : Checked s) (p : Fin n) : accepted s p = true := by
  unfold accepted
  simp only [Bool.and_eq_true, decide_eq_true_eq, List.all_eq_true, List.any_eq_true]
  refine ⟨⟨⟨?_, ?_⟩, ?_⟩, hs.once p⟩
  · rw [List.Nodup, List.pairwise_map]
    refine (hs.unique.sublist List.filter_sublist).imp_of_mem ?_
    intro a b ha hb hab he
    have ha' := (List.mem_filter.1 ha).2
    have hb' := (List.mem_filter.1 hb).2
    simp only [Bool.or_eq_true, decide_eq_true_eq] at ha' hb'
    refine hab ?_
    unfold Link.other at he
    by_cases h1 : a.acceptor = p <;> by_cases h2 : b.acceptor = p
    · rw [if_pos h1, if_pos h2] at he
      exact .inl ⟨h1.trans h2.symm, he⟩
    · rw [if_pos h1, if_neg h2] at he
      exact .inr ⟨h1.trans (hb'.resolve_left h2).symm, he⟩
    · rw [if_neg h1, if_pos h2] at he
      exact .inr ⟨he, (ha'.resolve_left h1).trans h2.symm⟩
    · rw [if_neg h1, if_neg h2] at he
      exact .inl ⟨he, (ha'.resolve_left h1).trans (hb'.resolve_left h2).symm⟩
  · rintro ⟨m, q⟩ hm
    obtain ⟨⟨l, hl, hj⟩, hne⟩ := hs.linked p m q hm
    exact ⟨⟨l, hl, joins_iff.2 hj⟩, hne⟩
  · intro m _ r hr
    obtain ⟨⟨l, hl, hj⟩, _⟩ := hs.linked r m p ((mem_receivers hs).1 hr)
    exact ⟨l, hl, joins_iff.2 hj⟩

theorem start_steps {s : Setup n C D I} (hs : Checked s) (ho : Sound s) : ∃ k, RNet.Steps k (start s) fun p => .ret (known s p) := by
  have : start s = setup s := by
    funext p
    unfold start
    rw [Prog.ensure, if_pos (accepted_of hs p)]
  rw [this]
  exact setup_steps hs ho

/-! ## `finalize()` -/

def closeTalk (s : Setup n C D I) (_ _ : Fin n) (_ : Link n) (b : Bool) : Talk (Msg C D I) :=
  if s.wait then if b then [(true, .ping), (false, .pong)] else [(false, .ping), (true, .pong)] else []

omit [DecidableEq I] in
theorem closeTalk_dual (s : Setup n C D I) (p q : Fin n) (l : Link n) (b : Bool) : closeTalk s q p l (!b) = Talk.dual (closeTalk s p q l b) := by
  unfold closeTalk
  cases s.wait <;> cases b <;> rfl

omit [DecidableEq I] in
theorem follows_close (s : Setup n C D I) (p : Fin n) (x : Fin n × Link n × Bool) : Follows (close s x) (Talk.acts x.1 (closeTalk s p x.1 x.2.1 x.2.2)) () := by
  obtain ⟨q, l, b⟩ := x
  unfold close closeTalk
  by_cases h : s.wait = true
  · simp only [if_pos h]
    cases b
    · exact Follows.recv q Msg.ping (Follows.send q Msg.pong (Follows.ret _))
    · exact Follows.send q Msg.ping (Follows.recv q Msg.pong (Follows.ret _))
  · simp only [if_neg h]
    exact .ret _

omit [DecidableEq I] in
theorem finalize_steps {s : Setup n C D I} (ho : ∀ l ∈ s.links, l.acceptor ≠ l.connector) : ∃ k, RNet.Steps k (finalize s) fun _ => .ret () := by
  obtain ⟨k, h⟩ := (pairPlan_agreed ho (closeTalk_dual s)).completes (p := fun p => collect (close s) (partners s p)) (r := fun p => (partners s p).map fun _ => ()) fun p => by
    rw [pairPlan_acts]
    exact follows_collect _ fun x _ => follows_close s p x
  exact ⟨k, h.bind fun _ _ => .ret ()⟩

end Verif.Startup
