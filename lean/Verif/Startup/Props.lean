import Verif.Startup.Phases
import Verif.Net.Never

/-!
# C110: participants start and end together
-/

set_option autoImplicit false

namespace Verif.Startup

open Waits

variable {n : ℕ} {C D I : Type} [DecidableEq I]

/-- **C110.** For every number of participants, links and meshes: in `initialize()` no schedule deadlocks or fails, with blocking or with buffered sends, and in the end each
participant has the meshes it receives and the distributions of its partners. -/
theorem C110_initialize (s : Setup n C D I) (hs : Checked s) (ho : Sound s) :
    ∃ k, RNet.AlwaysCompletes (start s) k ∧ Net.AlwaysCompletes (RNet.toNet (start s)) k ∧ Informed s k := by
  obtain ⟨_, h⟩ := start_steps hs ho
  have h := RNet.alwaysCompletes_of_steps h fun _ => rfl
  exact ⟨known s, h, h.buffered, known_informed hs ho⟩

omit [DecidableEq I] in
/-- **C110.** `finalize()` never deadlocks or fails, with or without `wait-in-finalize`. -/
theorem C110_finalize (s : Setup n C D I) (ho : Sound s) :
    RNet.AlwaysCompletes (finalize s) (fun _ => ()) ∧ Net.AlwaysCompletes (RNet.toNet (finalize s)) fun _ => () := by
  obtain ⟨_, h⟩ := finalize_steps ho.other
  have h := RNet.alwaysCompletes_of_steps h fun _ => rfl
  exact ⟨h, h.buffered⟩

/-- **C110.** A coupling that completes, given what participants know after `initialize()`, completes between `initialize()` and `finalize()` too, though some participants
may be in the coupling or in `finalize()` while others are still in `initialize()`. -/
theorem C110_run {α : Type} (s : Setup n C D I) (hs : Checked s) (ho : Sound s) (couple : Fin n → Known n C D → Do n C D I α) (r : Fin n → α)
    (hc : ∀ k, Informed s k → RNet.AlwaysCompletes (fun p => couple p (k p)) r) :
    RNet.AlwaysCompletes (fun p => (start s p).bind fun k => (couple p k).bind fun a => (finalize s p).bind fun _ => .ret a) r := by
  obtain ⟨k1, h1⟩ := start_steps hs ho
  obtain ⟨k2, f, hd, h2, _⟩ := hc _ (known_informed hs ho)
  obtain ⟨k3, h3⟩ := finalize_steps (s := s) ho.other
  have h1' := h1.bind fun p k => (couple p k).bind fun a => (finalize s p).bind fun _ => .ret a
  have h2' := h2.bind fun p a => (finalize s p).bind fun _ => .ret a
  have h3' := h3.bind fun p _ => Prog.ret (r p)
  have hf : (fun p => (f p).bind fun a => (finalize s p).bind fun _ => .ret a) = fun p => (finalize s p).bind fun _ => Prog.ret (r p) := by
    funext p
    rw [hd p]
    rfl
  rw [hf] at h2'
  exact RNet.alwaysCompletes_of_steps ((h1'.trans h2').trans h3') fun _ => rfl

/-! ## Participants that do not start -/

theorem sends_start {ok : Fin n → Msg C D I → Prop} {s : Setup n C D I} {p : Fin n}
    (hconn : ∀ q l b, (q, l, b) ∈ partners s p → (b = true → ok q .connected) ∧ (b = false → ok q .address) ∧ ok q (.info (s.info p)) ∧ ∀ d, ok q (.dist d))
    (hmesh : ∀ m r, m ∈ s.provided p → r ∈ receivers s p m → ok r (.mesh (s.content p m))) : Sends ok (start s p) := by
  refine Sends.ensure fun _ => ?_
  refine (Sends.collect ?_).bind fun _ => (Sends.collect ?_).bind fun got => (Sends.collect ?_).bind fun _ => trivial
  · rintro ⟨q, l, b⟩ hx
    obtain ⟨h1, h2, h3, _⟩ := hconn q l b hx
    cases b
    · refine ⟨h2 rfl, fun m => ?_⟩
      cases m <;> try trivial
      refine ⟨h3, fun m => ?_⟩
      cases m <;> try trivial
      exact Sends.ensure fun _ => trivial
    · intro m
      cases m <;> try trivial
      refine ⟨h1 rfl, fun m => ?_⟩
      cases m <;> try trivial
      exact ⟨h3, Sends.ensure fun _ => trivial⟩
  · rintro ⟨m, u⟩ hx
    cases u with
    | provide =>
      refine Sends.bind (Sends.collect ?_) fun _ => trivial
      intro r hr
      refine Sends.ensure fun _ => ?_
      exact ⟨hmesh m r (mem_contexts_provide.1 hx) hr, trivial⟩
    | receive q =>
      intro m
      cases m <;> trivial
  · rintro ⟨q, l, b⟩ hx
    obtain ⟨h1, h2, _, h4⟩ := hconn q l b hx
    unfold secondary
    split
    · refine Sends.collect fun m _ => ?_
      cases b
      · refine ⟨h2 rfl, fun m' => ?_⟩
        cases m' <;> try trivial
        refine ⟨h4 _, fun m' => ?_⟩
        cases m' <;> trivial
      · intro m'
        cases m' <;> try trivial
        refine ⟨h1 rfl, fun m' => ?_⟩
        cases m' <;> try trivial
        exact ⟨h4 _, trivial⟩
    · trivial

omit [DecidableEq I] in
theorem linked_partner {s : Setup n C D I} {p q : Fin n} (h : Linked s p q) : ∃ l b, (q, l, b) ∈ partners s p := by
  obtain ⟨l, hl, hj⟩ := h
  cases hf : s.links.find? (·.joins p q) with
  | none =>
    have := List.find?_eq_none.1 hf l hl
    exact absurd (joins_iff.2 hj) this
  | some l' => exact ⟨l', _, mem_partners.2 ⟨hf, rfl⟩⟩

/-- **C110.** Two linked participants with different versions or configurations: neither gets through `initialize()`, whatever all the others do. -/
theorem C110_mismatch (s : Setup n C D I) (p q : Fin n) (hl : Linked s p q) (hi : s.info p ≠ s.info q) (k : ℕ) (f : Net (Fin n) (Msg C D I) (Known n C D))
    (h : Net.Steps k (RNet.toNet (start s)) f) (a : Known n C D) : f.procs p ≠ .ret a := by
  refine never_returns (ok := fun i _ m => ∀ x, m = .info x → x = s.info i) h (by simp [RNet.toNet]) ?_ ?_ a
  · intro i
    refine sends_start (fun _ _ _ _ => ⟨?_, ?_, ?_, ?_⟩) ?_
    · intro _ x hx
      cases hx
    · intro _ x hx
      cases hx
    · intro x hx
      cases hx
      rfl
    · intro _ x hx
      cases hx
    · intro _ _ _ _ x hx
      cases hx
  · obtain ⟨l, b, hp⟩ := linked_partner hl
    refine Never.ensure fun _ => (Never.collect hp ?_).bind
    cases b
    · intro m _
      cases m <;> try trivial
      intro m hm
      cases m <;> try trivial
      rename_i x
      refine Never.ensure fun he => ?_
      exact hi ((he.symm).trans (hm x rfl))
    · intro m _
      cases m <;> try trivial
      intro m hm
      cases m <;> try trivial
      rename_i x
      refine Never.ensure fun he => ?_
      exact hi ((he.symm).trans (hm x rfl))

/-- **C110, what is not checked.** A participant that is linked with itself waits for itself: it never gets through `initialize()`. -/
theorem C110_self_link (s : Setup n C D I) (p : Fin n) (hl : Linked s p p) (k : ℕ) (f : Net (Fin n) (Msg C D I) (Known n C D))
    (h : Net.Steps k (RNet.toNet (start s)) f) (a : Known n C D) : f.procs p ≠ .ret a := by
  have hreq : ∀ l b, (p, l, b) ∈ partners s p → b = true := by
    intro l b hb
    obtain ⟨h1, rfl⟩ := mem_partners.1 hb
    rcases (find_joins h1).2 with ⟨h2, _⟩ | ⟨h2, _⟩ <;> exact decide_eq_true h2
  refine never_returns (ok := fun i j m => i = p → j = p → m ≠ .address) h (by simp [RNet.toNet]) ?_ ?_ a
  · intro i
    refine sends_start ?_ ?_
    · intro q l b hq
      refine ⟨fun _ _ _ => by simp, ?_, fun _ _ => by simp, fun _ _ _ => by simp⟩
      rintro hb rfl rfl
      rw [hreq l b hq] at hb
      cases hb
    · intro _ _ _ _ _ _
      simp
  · obtain ⟨l, b, hp⟩ := linked_partner hl
    have := hreq l b hp
    subst this
    refine Never.ensure fun _ => (Never.collect hp ?_).bind
    intro m hm
    cases m <;> try trivial
    exact absurd rfl (hm rfl rfl)

/-- **C110, what is not checked.** A participant that receives a mesh from somebody who provides none of the meshes it asks for never gets through `initialize()`. -/
theorem C110_not_provided (s : Setup n C D I) (p q : Fin n) (m : ℕ) (hm : (m, q) ∈ s.received p) (hn : ∀ m', (m', q) ∈ s.received p → m' ∉ s.provided q) (k : ℕ)
    (f : Net (Fin n) (Msg C D I) (Known n C D)) (h : Net.Steps k (RNet.toNet (start s)) f) (a : Known n C D) : f.procs p ≠ .ret a := by
  refine never_returns (ok := fun i j x => i = q → j = p → ∀ c, x ≠ .mesh c) h (by simp [RNet.toNet]) ?_ ?_ a
  · intro i
    refine sends_start ?_ ?_
    · intro _ _ _ _
      exact ⟨fun _ _ _ _ => by simp, fun _ _ _ _ => by simp, fun _ _ _ => by simp, fun _ _ _ _ => by simp⟩
    · rintro m' r hm' hr rfl rfl
      obtain ⟨r', _, hr'⟩ := List.mem_flatMap.1 hr
      obtain ⟨⟨x, y⟩, hx, rfl⟩ := List.mem_map.1 hr'
      obtain ⟨hx, hxy⟩ := List.mem_filter.1 hx
      simp only [Bool.and_eq_true, decide_eq_true_eq] at hxy
      rw [hxy.1, hxy.2] at hx
      exact absurd hm' (hn _ hx)
  · refine Never.ensure fun _ => Never.bind_right _ fun _ => (Never.collect (mem_contexts_receive.2 hm) ?_).bind
    intro x hx
    cases x <;> try trivial
    exact absurd rfl (hx rfl rfl _)

end Verif.Startup
