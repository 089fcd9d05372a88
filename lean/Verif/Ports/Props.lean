import Verif.Ports.Lemmas

/-!
# C135: ranks of two participants get connected

For all numbers of ranks, all distributions of the vertices and all orders in which the ranks act.
-/

set_option autoImplicit false

namespace Verif.Ports

/-- Sockets and one port per rank: as long as not all ranks have returned, some rank can go on. -/
theorem C135_no_deadlock (c : Conf) {n : ℕ} {s : State} (h : Run c n s) : Done c s ∨ ∃ t, Step c s t := by
  by_cases hd : Done c s
  · exact Or.inl hd
  · exact Or.inr (progress (inv_run h) hd)

/-- Sockets and one port per rank: the ranks cannot go on forever. -/
theorem C135_terminates (c : Conf) {n : ℕ} {s : State} (h : Run c n s) : n ≤ c.nA + c.nR * c.nA := by
  have h1 := left_run h
  have h2 : left c (init c) ≤ c.nA + c.nR * c.nA := by
    unfold left
    apply Nat.add_le_add
    · simp [init]
    · have : ∑ r ∈ Finset.range c.nR, ((init c).todo r).length ≤ ∑ r ∈ Finset.range c.nR, c.nA := by
        apply Finset.sum_le_sum
        intro r _
        calc ((init c).todo r).length ≤ (List.range c.nA).length := List.length_filter_le _ _
          _ = c.nA := List.length_range
      simpa using this
  omega

/-- Sockets and one port per rank: when no rank can go on, all have returned, ranks that share a vertex are connected to
each other and only these are. So what a rank sends to a rank of the other participant arrives there. -/
theorem C135_right (c : Conf) {n : ℕ} {s : State} (h : Run c n s) (hend : ∀ t, ¬Step c s t) :
    Done c s ∧ Right c s := by
  rcases C135_no_deadlock c h with hd | ⟨t, ht⟩
  · exact ⟨hd, right_of_done (inv_run h) hd⟩
  · exact absurd ht (hend t)

/-- A single port: if all ranks of both participants share a vertex with a rank of the other one, all get connected.
Without that the claim is false, see `C135_single_hangs`. -/
theorem C135_single_partial (c : Conf) (hall : AllShare c) {n : ℕ} {s : Called} (h : SingleRun c n s) :
    n ≤ c.nA + c.nR ∧ ((∀ x, c.valid x → Returned c s x) ∨ ∃ t, SingleStep c s t) := by
  refine ⟨by have := missing_run h; omega, ?_⟩
  by_cases hc : ∀ y, c.valid y → s y = true
  · exact Or.inl fun x hx => Or.inr ⟨hc x hx, hc⟩
  · push Not at hc
    obtain ⟨y, hy, hs⟩ := hc
    exact Or.inr ⟨_, SingleStep.call hy (partners_ne hall hy) (by simpa using hs)⟩

/-- **A single port hangs.** If some rank of one of the participants shares no vertex with the other participant, the
ranks that do share one never return. -/
theorem C135_single_hangs (c : Conf) {x y : Rank} (hx : c.valid x) (hxn : ¬HasPartner c x) (hy : HasPartner c y)
    {n : ℕ} {s : Called} (h : SingleRun c n s) : ¬Returned c s y := by
  rintro (he | ⟨_, hall⟩)
  · exact (partners_iff y).2 hy he
  · exact hxn ((partners_iff x).1 (single_called h x (hall x hx)))

end Verif.Ports
