import Verif.Startup.Spec
import Mathlib.Data.List.Sort
import Mathlib.Data.List.NodupEquivFin

/-!
# Partners, meshes and plans of participants that start together
-/

set_option autoImplicit false

namespace Verif.Startup

open Ordered

variable {n : ℕ} {C D I : Type}

/-! ## Partners -/

theorem joins_comm (l : Link n) (p q : Fin n) : l.joins p q = l.joins q p := by
  unfold Link.joins
  rw [Bool.or_comm]
  congr 1 <;> rw [Bool.and_comm]

theorem joins_iff {l : Link n} {p q : Fin n} : l.joins p q = true ↔ (l.acceptor = p ∧ l.connector = q) ∨ (l.acceptor = q ∧ l.connector = p) := by
  unfold Link.joins
  simp [and_comm]

theorem mem_partners {s : Setup n C D I} {p q : Fin n} {l : Link n} {b : Bool} :
    (q, l, b) ∈ partners s p ↔ s.links.find? (·.joins p q) = some l ∧ b = decide (l.acceptor = p) := by
  unfold partners
  simp only [List.mem_filterMap, List.mem_finRange, true_and, Option.map_eq_some_iff]
  constructor
  · rintro ⟨q', l', h, he⟩
    cases he
    exact ⟨h, rfl⟩
  · rintro ⟨h, rfl⟩
    exact ⟨q, l, h, rfl⟩

theorem partners_sorted (s : Setup n C D I) (p : Fin n) : (partners s p).Pairwise fun a b => a.1 < b.1 := by
  unfold partners
  rw [List.pairwise_filterMap]
  refine (List.pairwise_lt_finRange n).imp ?_
  intro a b hab x hx y hy
  obtain ⟨_, _, rfl⟩ := Option.map_eq_some_iff.1 hx
  obtain ⟨_, _, rfl⟩ := Option.map_eq_some_iff.1 hy
  exact hab

theorem find_joins {s : Setup n C D I} {p q : Fin n} {l : Link n} (h : s.links.find? (·.joins p q) = some l) :
    l ∈ s.links ∧ ((l.acceptor = p ∧ l.connector = q) ∨ (l.acceptor = q ∧ l.connector = p)) :=
  ⟨List.mem_of_find?_eq_some h, joins_iff.1 (List.find?_some (p := fun x : Link n => x.joins p q) h)⟩

theorem partner_ne {s : Setup n C D I} (hs : ∀ l ∈ s.links, l.acceptor ≠ l.connector) {p q : Fin n} {l : Link n} {b : Bool} (h : (q, l, b) ∈ partners s p) : q ≠ p := by
  obtain ⟨hl, hj⟩ := find_joins (mem_partners.1 h).1
  have := hs l hl
  rintro rfl
  rcases hj with ⟨h1, h2⟩ | ⟨h1, h2⟩ <;> exact this (h1.trans h2.symm)

theorem partner_symm {s : Setup n C D I} (hs : ∀ l ∈ s.links, l.acceptor ≠ l.connector) {p q : Fin n} {l : Link n} {b : Bool} (h : (q, l, b) ∈ partners s p) :
    (p, l, !b) ∈ partners s q := by
  have hne := partner_ne hs h
  rw [mem_partners] at h ⊢
  obtain ⟨h, rfl⟩ := h
  refine ⟨?_, ?_⟩
  · rw [← h]
    congr 1
    funext l
    exact joins_comm l q p
  · rcases (find_joins h).2 with ⟨h1, _⟩ | ⟨h1, _⟩
    · simp [h1, hne.symm]
    · simp [h1, hne]

/-- With one link between two participants, that is the link found. -/
theorem find_of_mem {s : Setup n C D I} (hu : s.links.Pairwise fun a b => ¬ ((a.acceptor = b.acceptor ∧ a.connector = b.connector) ∨ (a.acceptor = b.connector ∧ a.connector = b.acceptor)))
    {p q : Fin n} {l : Link n} (hl : l ∈ s.links) (hj : (l.acceptor = p ∧ l.connector = q) ∨ (l.acceptor = q ∧ l.connector = p)) : s.links.find? (·.joins p q) = some l := by
  generalize s.links = ls at hu hl
  induction ls with
  | nil => cases hl
  | cons a ls ih =>
    rw [List.pairwise_cons] at hu
    rcases List.mem_cons.1 hl with rfl | hl
    · rw [List.find?_cons_of_pos (p := fun x : Link n => x.joins p q) (joins_iff.2 hj)]
    · have : ¬ a.joins p q = true := by
        intro ha
        rw [joins_iff] at ha
        refine hu.1 l hl ?_
        rcases ha with ⟨rfl, rfl⟩ | ⟨rfl, rfl⟩ <;> rcases hj with ⟨h1, h2⟩ | ⟨h1, h2⟩ <;> simp [h1, h2]
      rw [List.find?_cons_of_neg (p := fun x : Link n => x.joins p q) this]
      exact ih hu.2 hl

/-! ## Labels of pairs -/

/-- The order in which pairs of participants communicate. -/
def pair (p q : Fin n) : ℕ ×ₗ ℕ := toLex (min p.val q.val, max p.val q.val)

theorem pair_comm (p q : Fin n) : pair p q = pair q p := by
  unfold pair
  rw [min_comm, max_comm]

theorem pair_lt {p q r : Fin n} (h : q < r) (hq : q ≠ p) (hr : r ≠ p) : pair p q < pair p r := by
  unfold pair
  rw [Prod.Lex.toLex_lt_toLex]
  have h1 : q.val < r.val := h
  have h2 : q.val ≠ p.val := fun e => hq (Fin.ext e)
  have h3 : r.val ≠ p.val := fun e => hr (Fin.ext e)
  simp only
  omega

/-- The plan of a phase in which a participant has one conversation with each partner. -/
def pairPlan {M : Type} (s : Setup n C D I) (talk : Fin n → Fin n → Link n → Bool → Talk M) (p : Fin n) : Plan (ℕ ×ₗ ℕ) (Fin n) M :=
  (partners s p).map fun x => (pair p x.1, x.1, talk p x.1 x.2.1 x.2.2)

theorem pairPlan_agreed {M : Type} {s : Setup n C D I} (hs : ∀ l ∈ s.links, l.acceptor ≠ l.connector) {talk : Fin n → Fin n → Link n → Bool → Talk M}
    (hd : ∀ p q l b, talk q p l (!b) = Talk.dual (talk p q l b)) : Agreed (pairPlan s talk) := by
  constructor
  · intro p
    unfold pairPlan
    rw [List.pairwise_map]
    refine (partners_sorted s p).imp_of_mem ?_
    rintro ⟨q, l, b⟩ ⟨r, l', b'⟩ hq hr hlt
    exact pair_lt hlt (partner_ne hs hq) (partner_ne hs hr)
  · intro p q r t h
    obtain ⟨⟨q', l, b⟩, hx, he⟩ := List.mem_map.1 h
    cases he
    refine List.mem_map.2 ⟨(p, l, !b), partner_symm hs hx, ?_⟩
    simp only [pair_comm, hd]

/-! ## Meshes -/

theorem contexts_perm (s : Setup n C D I) (p : Fin n) :
    (contexts s p).Perm ((s.provided p).map (fun m => (m, Use.provide)) ++ (s.received p).map fun x : ℕ × Fin n => (x.1, Use.receive x.2)) := List.perm_insertionSort _ _

theorem contexts_sorted {s : Setup n C D I} (hs : Checked s) (p : Fin n) : (contexts s p).Pairwise fun a b => a.1 < b.1 := by
  have h1 : (contexts s p).Pairwise fun a b => a.1 ≤ b.1 := by
    have : Std.Total (fun a b : ℕ × Use n => a.1 ≤ b.1) := ⟨fun a b => le_total a.1 b.1⟩
    have : IsTrans (ℕ × Use n) (fun a b => a.1 ≤ b.1) := ⟨fun a b c h h' => le_trans h h'⟩
    exact List.pairwise_insertionSort _ _
  have h2 : ((contexts s p).map (·.1)).Nodup := by
    rw [((contexts_perm s p).map _).nodup_iff, List.map_append, List.map_map, List.map_map]
    have := hs.once p
    have e1 : ((fun x : ℕ × Use n => x.1) ∘ fun m : ℕ => (m, Use.provide)) = id := rfl
    have e2 : ((fun x : ℕ × Use n => x.1) ∘ fun x : ℕ × Fin n => (x.1, Use.receive x.2)) = (·.1) := rfl
    rw [e1, e2, List.map_id]
    exact this
  rw [List.Nodup, List.pairwise_map] at h2
  refine (h1.and h2).imp ?_
  rintro a b ⟨h, h'⟩
  exact lt_of_le_of_ne h h'

theorem mem_contexts_provide {s : Setup n C D I} {p : Fin n} {m : ℕ} : (m, Use.provide) ∈ contexts s p ↔ m ∈ s.provided p := by
  rw [(contexts_perm s p).mem_iff]
  simp

theorem mem_contexts_receive {s : Setup n C D I} {p q : Fin n} {m : ℕ} : (m, Use.receive q) ∈ contexts s p ↔ (m, q) ∈ s.received p := by
  rw [(contexts_perm s p).mem_iff]
  simp

theorem received_nodup {s : Setup n C D I} (hs : Checked s) (p : Fin n) : (s.received p).Nodup := by
  have := (List.nodup_append.1 (hs.once p)).2.1
  exact this.of_map _

theorem receivers_eq {s : Setup n C D I} (hs : Checked s) (p : Fin n) (m : ℕ) : receivers s p m = s.order.filter fun r => decide ((m, p) ∈ s.received r) := by
  have key : ∀ r, ((s.received r).filter fun x => x.1 = m && x.2 = p).map (fun _ => r) = if (m, p) ∈ s.received r then [r] else [] := by
    intro r
    have hf : ((s.received r).filter fun x => x.1 = m && x.2 = p) = (s.received r).filter fun x => x == (m, p) := by
      refine List.filter_congr ?_
      rintro ⟨a, b⟩ _
      rw [Bool.eq_iff_iff]
      simp
    rw [hf, List.filter_beq, List.Nodup.count (received_nodup hs r)]
    split
    · rfl
    · rfl
  unfold receivers
  generalize s.order = o
  induction o with
  | nil => rfl
  | cons r o ih =>
    rw [List.flatMap_cons, ih, key r, List.filter_cons]
    by_cases h : (m, p) ∈ s.received r
    · rw [if_pos h, if_pos (decide_eq_true h)]
      rfl
    · rw [if_neg h, if_neg (by simpa using h)]
      rfl

theorem mem_receivers {s : Setup n C D I} (hs : Checked s) {p r : Fin n} {m : ℕ} : r ∈ receivers s p m ↔ (m, p) ∈ s.received r := by
  rw [receivers_eq hs]
  simp [hs.known]

theorem receivers_sorted {s : Setup n C D I} (hs : Checked s) (p : Fin n) (m : ℕ) : (receivers s p m).Pairwise fun a b => s.order.idxOf a < s.order.idxOf b := by
  rw [receivers_eq hs]
  refine List.Pairwise.sublist List.filter_sublist ?_
  rw [List.pairwise_iff_getElem]
  intro i j hi hj hij
  rw [List.Nodup.idxOf_getElem hs.named, List.Nodup.idxOf_getElem hs.named]
  exact hij

/-- The conversations about meshes. -/
def meshPlan (s : Setup n C D I) (p : Fin n) : Plan (ℕ ×ₗ ℕ) (Fin n) (Msg C D I) :=
  (contexts s p).flatMap fun x => match x.2 with
    | .provide => (receivers s p x.1).map fun r => (toLex (x.1, s.order.idxOf r), r, [(true, Msg.mesh (s.content p x.1))])
    | .receive q => [(toLex (x.1, s.order.idxOf p), q, [(false, Msg.mesh (s.content q x.1))])]

theorem mem_meshPlan {s : Setup n C D I} {p q : Fin n} {r : ℕ ×ₗ ℕ} {t : Talk (Msg C D I)} : (r, q, t) ∈ meshPlan s p ↔
    (∃ m, m ∈ s.provided p ∧ q ∈ receivers s p m ∧ r = toLex (m, s.order.idxOf q) ∧ t = [(true, Msg.mesh (s.content p m))]) ∨
    (∃ m, (m, q) ∈ s.received p ∧ r = toLex (m, s.order.idxOf p) ∧ t = [(false, Msg.mesh (s.content q m))]) := by
  unfold meshPlan
  rw [List.mem_flatMap]
  constructor
  · rintro ⟨⟨m, u⟩, hm, h⟩
    cases u with
    | provide =>
      obtain ⟨q', hq, he⟩ := List.mem_map.1 h
      cases he
      exact .inl ⟨m, mem_contexts_provide.1 hm, hq, rfl, rfl⟩
    | receive q' =>
      cases List.mem_singleton.1 h
      exact .inr ⟨m, mem_contexts_receive.1 hm, rfl, rfl⟩
  · rintro (⟨m, hm, hq, rfl, rfl⟩ | ⟨m, hm, rfl, rfl⟩)
    · exact ⟨(m, .provide), mem_contexts_provide.2 hm, List.mem_map.2 ⟨q, hq, rfl⟩⟩
    · exact ⟨(m, .receive q), mem_contexts_receive.2 hm, List.mem_singleton.2 rfl⟩

theorem meshPlan_label {s : Setup n C D I} {p : Fin n} {x : ℕ × Use n} {y : (ℕ ×ₗ ℕ) × Fin n × Talk (Msg C D I)}
    (h : y ∈ (match x.2 with
      | .provide => (receivers s p x.1).map fun r => (toLex (x.1, s.order.idxOf r), r, [(true, Msg.mesh (s.content p x.1))])
      | .receive q => [(toLex (x.1, s.order.idxOf p), q, [(false, Msg.mesh (s.content q x.1))])])) : ∃ k, y.1 = toLex (x.1, k) := by
  obtain ⟨m, u⟩ := x
  cases u with
  | provide =>
    obtain ⟨r, _, rfl⟩ := List.mem_map.1 h
    exact ⟨_, rfl⟩
  | receive q =>
    rw [List.mem_singleton.1 h]
    exact ⟨_, rfl⟩

theorem meshPlan_agreed {s : Setup n C D I} (hs : Checked s) (ho : ∀ p m q, (m, q) ∈ s.received p → m ∈ s.provided q) : Agreed (meshPlan s) := by
  constructor
  · intro p
    unfold meshPlan
    rw [List.pairwise_flatMap]
    constructor
    · rintro ⟨m, u⟩ _
      cases u with
      | provide =>
        show List.Pairwise _ ((receivers s p m).map _)
        rw [List.pairwise_map]
        refine (receivers_sorted hs p m).imp ?_
        intro a b hab
        exact Prod.Lex.toLex_lt_toLex.2 (.inr ⟨rfl, hab⟩)
      | receive q => exact List.pairwise_singleton _ _
    · refine (contexts_sorted hs p).imp ?_
      intro x y hxy a ha b hb
      obtain ⟨k, hk⟩ := meshPlan_label ha
      obtain ⟨k', hk'⟩ := meshPlan_label hb
      rw [hk, hk']
      exact Prod.Lex.toLex_lt_toLex.2 (.inl hxy)
  · intro p q r t h
    rw [mem_meshPlan] at h ⊢
    rcases h with ⟨m, hm, hq, rfl, rfl⟩ | ⟨m, hm, rfl, rfl⟩
    · exact .inr ⟨m, (mem_receivers hs).1 hq, rfl, rfl⟩
    · exact .inl ⟨m, ho _ _ _ hm, (mem_receivers hs).2 hm, rfl, rfl⟩

/-! ## Meshes shared with a partner -/

theorem shared_perm (s : Setup n C D I) (p q : Fin n) :
    (shared s p q).Perm ((s.provided p).filter (fun m => (m, p) ∈ s.received q) ++ ((s.received p).filter fun x => x.2 = q).map (·.1)) := List.perm_insertionSort _ _

theorem shared_sorted {s : Setup n C D I} (hs : Checked s) (p q : Fin n) : (shared s p q).Pairwise fun a b => s.meshId a < s.meshId b := by
  have h1 : (shared s p q).Pairwise fun a b => s.meshId a ≤ s.meshId b := by
    have : Std.Total (fun a b : ℕ => s.meshId a ≤ s.meshId b) := ⟨fun a b => le_total _ _⟩
    have : IsTrans ℕ (fun a b => s.meshId a ≤ s.meshId b) := ⟨fun a b c h h' => le_trans h h'⟩
    exact List.pairwise_insertionSort _ _
  have h2 : (shared s p q).Nodup := by
    rw [(shared_perm s p q).nodup_iff]
    exact (hs.once p).sublist (List.filter_sublist.append (List.filter_sublist.map _))
  refine (h1.and h2).imp ?_
  rintro a b ⟨h, h'⟩
  exact lt_of_le_of_ne h fun e => h' (hs.ids e)

theorem mem_shared {s : Setup n C D I} (ho : ∀ p m q, (m, q) ∈ s.received p → m ∈ s.provided q) {p q : Fin n} {m : ℕ} : m ∈ shared s p q ↔ Gives s p q m ∨ Gives s q p m := by
  rw [(shared_perm s p q).mem_iff]
  unfold Gives
  simp only [List.mem_append, List.mem_filter, decide_eq_true_eq, List.mem_map, Prod.exists, exists_and_right, exists_eq_right]
  refine or_congr Iff.rfl ?_
  constructor
  · intro h
    exact ⟨ho _ _ _ h, h⟩
  · exact fun h => h.2

/-- The conversations about distributions. -/
def distPlan (s : Setup n C D I) (talk : Fin n → Fin n → Bool → ℕ → Talk (Msg C D I)) (p : Fin n) : Plan ((ℕ ×ₗ ℕ) ×ₗ ℕ) (Fin n) (Msg C D I) :=
  (partners s p).flatMap fun x => if x.2.1.p2p then (shared s p x.1).map fun m => (toLex (pair p x.1, s.meshId m), x.1, talk p x.1 x.2.2 m) else []

theorem distPlan_agreed {s : Setup n C D I} (hs : Checked s) (ho : Sound s) {talk : Fin n → Fin n → Bool → ℕ → Talk (Msg C D I)}
    (hd : ∀ p q b m, talk q p (!b) m = Talk.dual (talk p q b m)) : Agreed (distPlan s talk) := by
  constructor
  · intro p
    unfold distPlan
    rw [List.pairwise_flatMap]
    constructor
    · rintro ⟨q, l, b⟩ _
      by_cases h : l.p2p = true
      · rw [if_pos h, List.pairwise_map]
        refine (shared_sorted hs p q).imp ?_
        intro a b hab
        exact Prod.Lex.toLex_lt_toLex.2 (.inr ⟨rfl, hab⟩)
      · rw [if_neg h]
        exact .nil
    · refine (partners_sorted s p).imp_of_mem ?_
      rintro ⟨q, l, b⟩ ⟨r, l', b'⟩ hq hr hlt x hx y hy
      simp only at hx hy
      split at hx
      · split at hy
        · obtain ⟨_, _, rfl⟩ := List.mem_map.1 hx
          obtain ⟨_, _, rfl⟩ := List.mem_map.1 hy
          exact Prod.Lex.toLex_lt_toLex.2 (.inl (pair_lt hlt (partner_ne ho.other hq) (partner_ne ho.other hr)))
        · cases hy
      · cases hx
  · intro p q r t h
    obtain ⟨⟨q', l, b⟩, hx, h⟩ := List.mem_flatMap.1 h
    simp only at h
    split at h
    · rename_i hl
      obtain ⟨m, hm, he⟩ := List.mem_map.1 h
      cases he
      refine List.mem_flatMap.2 ⟨(p, l, !b), partner_symm ho.other hx, ?_⟩
      simp only
      rw [if_pos hl]
      refine List.mem_map.2 ⟨m, ?_, ?_⟩
      · rw [mem_shared ho.offered] at hm ⊢
        exact hm.symm
      · simp only [pair_comm, hd]
    · cases h

end Verif.Startup
