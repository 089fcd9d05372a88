import Verif.Accel.IMVJProps

/-!
# Restart modes of the multi-vector quasi-Newton method (C93)
-/

set_option autoImplicit false
set_option linter.unusedSectionVars false

namespace Verif.Accel

variable {ι κ : Type} [Fintype ι] [Fintype κ]

theorem slideLoop_length {V : List (QNCol ι)} : ∀ (i : ℕ) {l l' : List (Factor ι κ)}, slideLoop V i l = some l' → l'.length + i = l.length
  | 0, l, l', h => by obtain rfl := Option.some.inj h; rfl
  | i + 1, l, l', h => by
    unfold slideLoop at h
    simp only [Option.bind_eq_bind, Option.bind_eq_some_iff] at h
    obtain ⟨l1, h1, h⟩ := h
    have := slideLoop_length i h
    cases l with
    | nil => cases h1
    | cons f fs =>
      unfold slideStep at h1
      simp only at h1
      cases hg : (f :: fs)[i + 1]? with
      | none => rw [hg] at h1; cases h1
      | some g =>
        rw [hg] at h1
        simp only at h1
        split_ifs at h1
        obtain rfl := Option.some.inj h1
        simp at this
        rw [List.length_cons]
        omega

/-- What the end of a window does with the stored factors. -/
theorem IMVJ.converged_chunk {c : IMVJConfig} {size : ℕ} {kind : Restart} (hm : c.mode = .restart size kind) {s s' : IMVJ ι κ} {r : ι → ℝ} {x : κ → ℝ} {w : ι → ℝ} {n : Bool}
    {other : List (Factor ι κ)} (h : s.converged c r x w n other = some s') :
    ∃ V f, (if s.chunk.length ≥ size then restartChunk kind V other (s.chunk ++ [f]) else some (s.chunk ++ [f])) = some s'.chunk := by
  have hne : c.mode ≠ .always := by rw [hm]; simp
  unfold IMVJ.converged at h
  simp only [Option.bind_eq_bind, Option.bind_eq_some_iff] at h
  obtain ⟨s1, h1, s2, h2, b, hb, h⟩ := h
  obtain rfl := Option.some.inj h
  unfold IMVJ.lastDifferences at h1
  rw [Option.map_eq_some_iff] at h1
  obtain ⟨s0, h0, rfl⟩ := h1
  obtain ⟨t1, t2, t3, g1, g2, g3, rfl⟩ := IMVJ.specialized_eq hne h2
  have e : t2.chunk = s.chunk := (IMVJ.lift_base g2).2.2.2.1.trans ((IMVJ.lift_base g1).2.2.2.1.trans (IMVJ.updateDifferences_base h0).2.2.2.1)
  unfold IMVJ.store at g3
  simp only [hm, Option.map_eq_some_iff] at g3
  obtain ⟨l, hl, rfl⟩ := g3
  refine ⟨t2.base.sys.V, ⟨t2.til, t2.base.pseudoInverse⟩, ?_⟩
  rw [e, List.length_append, List.length_singleton] at hl
  show _ = some l
  rw [← hl]
  by_cases hsz : size ≤ s.chunk.length
  · rw [if_pos hsz, if_pos (by omega)]
  · rw [if_neg hsz, if_neg (by omega)]

/-- C93: in the restart modes RS-0 and RS-SLIDE there are never more stored factors than the configured chunk size. -/
theorem C93_chunks_bounded {c : IMVJConfig} (hs : c.Sound ι κ) {size : ℕ} {kind : Restart} (hm : c.mode = .restart size kind) (hk : kind = .zero ∨ kind = .slide) (h1 : 1 ≤ size)
    {s : IMVJ ι κ} (hr : IMVJ.Reachable c s) : s.chunk.length ≤ size := by
  induction hr with
  | init w => exact Nat.zero_le _
  | @step s s' a other hr hw h ih =>
    unfold IMVJ.step at h
    split_ifs at h
    · obtain ⟨V, f, h⟩ := IMVJ.converged_chunk hm h
      split at h
      · rcases hk with rfl | rfl
        · obtain h := Option.some.inj h
          rw [← h]; exact Nat.zero_le _
        · have := slideLoop_length _ (show slideLoop V _ _ = _ from h)
          rw [List.length_append, List.length_singleton] at this
          omega
      · have h := Option.some.inj h
        rw [← h, List.length_append, List.length_singleton]
        omega
    · unfold IMVJ.accelerate at h
      split_ifs at h with h2
      · obtain rfl := Option.some.inj h
        exact ih
      · simp only [Option.bind_eq_bind, Option.bind_eq_some_iff] at h
        obtain ⟨s1, hp, h⟩ := h
        obtain rfl := Option.some.inj h
        have e1 := (IMVJ.prepare_jac hp (hr.inv hs).counts (IMVJ.noRelax h2)).2.2.1
        have e2 := (IMVJ.compute_base c s1).2.2
        have e3 := (IMVJ.pendingTil_base c (s1.compute c)).2.2
        show ((((s1.compute c).pendingTil c).pending c).chunk).length ≤ size
        rw [show (((s1.compute c).pendingTil c).pending c).chunk = ((s1.compute c).pendingTil c).chunk from rfl, e3, e2, e1]
        exact ih

/-- C93: RS-0 forgets the Jacobian when the chunk size is exceeded: the next window starts with the zero matrix. -/
theorem C93_restart_zero {c : IMVJConfig} {size : ℕ} (hm : c.mode = .restart size .zero) {s s' : IMVJ ι κ} {r : ι → ℝ} {x : κ → ℝ} {w : ι → ℝ} {n : Bool}
    {other : List (Factor ι κ)} (h : s.converged c r x w n other = some s') (hfull : size ≤ s.chunk.length) : s'.kept c = fun _ _ => 0 := by
  obtain ⟨V, f, h⟩ := IMVJ.converged_chunk hm h
  rw [if_pos hfull] at h
  have h := Option.some.inj h
  unfold IMVJ.kept IMVJConfig.restarts
  rw [hm, ← h]
  rfl

end Verif.Accel
