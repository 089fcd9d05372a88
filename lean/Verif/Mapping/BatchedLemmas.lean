import Verif.Mapping.Batched
import Verif.Mapping.PumProps
import Mathlib.LinearAlgebra.Matrix.PosDef
import Mathlib.Tactic.FieldSimp

/-!
Helpers for the partition of unity mapping on a device.
-/

set_option autoImplicit false

namespace Verif.Batched
open Matrix Rbf Pum

/-! ## LU without pivoting -/

theorem schur_apply {k : ℕ} (A : Matrix (Fin (k + 1)) (Fin (k + 1)) ℝ) (i j : Fin k) : schur A i j = A i.succ j.succ - A i.succ 0 / A 0 0 * A 0 j.succ := rfl

theorem solveLU_spec : ∀ {k : ℕ} {A : Matrix (Fin k) (Fin k) ℝ} {b x : Fin k → ℝ}, solveLU A b = some x → A *ᵥ x = b
  | 0, A, b, x, _ => funext fun i => i.elim0
  | k + 1, A, b, x, h => by
    rw [solveLU] at h
    split at h
    · exact absurd h (by simp)
    · rename_i ha
      rw [Option.map_eq_some_iff] at h
      obtain ⟨y, hy, rfl⟩ := h
      have hS := solveLU_spec hy
      funext i
      refine Fin.cases ?_ (fun i => ?_) i
      · rw [Matrix.mulVec, dotProduct, Fin.sum_univ_succ]
        simp only [Fin.cons_zero, Fin.cons_succ]
        rw [mul_div_cancel₀ _ ha]
        ring
      · have hi := congrFun hS i
        rw [Matrix.mulVec, dotProduct] at hi ⊢
        rw [Fin.sum_univ_succ]
        simp only [Fin.cons_zero, Fin.cons_succ] at hi ⊢
        have e1 : (∑ j, schur A i j * y j) =
            (∑ j, A i.succ j.succ * y j) - A i.succ 0 / A 0 0 * ∑ j, A 0 j.succ * y j := by
          rw [Finset.mul_sum, ← Finset.sum_sub_distrib]
          exact Finset.sum_congr rfl fun j _ => by rw [schur_apply]; ring
        rw [e1] at hi
        have e2 : A i.succ 0 * ((b 0 - ∑ j, A 0 j.succ * y j) / A 0 0) = A i.succ 0 / A 0 0 * b 0 - A i.succ 0 / A 0 0 * ∑ j, A 0 j.succ * y j := by
          field_simp
        rw [e2]
        linarith

/-- The form of a symmetric positive definite matrix, without stars -/
def Positive {k : ℕ} (A : Matrix (Fin k) (Fin k) ℝ) : Prop := (∀ i j, A i j = A j i) ∧ ∀ x, x ≠ 0 → 0 < ∑ i, x i * (A *ᵥ x) i

theorem positive_of_posDef {k : ℕ} {A : Matrix (Fin k) (Fin k) ℝ} (h : A.PosDef) : Positive A := by
  refine ⟨fun i j => ?_, fun x hx => ?_⟩
  · have := congrFun (congrFun h.1 j) i
    simpa [Matrix.conjTranspose_apply] using this
  · have := h.dotProduct_mulVec_pos hx
    simpa [dotProduct] using this

theorem Positive.pivot {k : ℕ} {A : Matrix (Fin (k + 1)) (Fin (k + 1)) ℝ} (h : Positive A) : 0 < A 0 0 := by
  have := h.2 (Pi.single 0 1) (by intro h0; have := congrFun h0 0; simp at this)
  rw [Finset.sum_eq_single 0] at this
  · simpa using this
  · intro i _ hi
    rw [Pi.single_eq_of_ne hi, zero_mul]
  · simp

theorem Positive.remains {k : ℕ} {A : Matrix (Fin (k + 1)) (Fin (k + 1)) ℝ} (h : Positive A) :
    Positive (schur A) := by
  have ha := h.pivot
  refine ⟨fun i j => ?_, fun y hy => ?_⟩
  · rw [schur_apply, schur_apply, h.1 i.succ j.succ, h.1 i.succ 0, h.1 j.succ 0]
    field_simp
  · let t := (∑ j, A 0 j.succ * y j)
    have hne : (Fin.cons (-t / A 0 0) y : Fin (k + 1) → ℝ) ≠ 0 := by
      intro h0
      refine hy (funext fun i => ?_)
      have := congrFun h0 i.succ
      simpa using this
    have := h.2 _ hne
    rw [Fin.sum_univ_succ] at this
    simp only [Fin.cons_zero, Fin.cons_succ] at this
    have e0 : (A *ᵥ Fin.cons (-t / A 0 0) y) 0 = 0 := by
      rw [Matrix.mulVec, dotProduct, Fin.sum_univ_succ]
      simp only [Fin.cons_zero, Fin.cons_succ]
      rw [mul_div_cancel₀ _ ha.ne']
      simp [t]
    rw [e0, mul_zero, zero_add] at this
    refine this.trans_eq (Finset.sum_congr rfl fun i _ => congrArg (y i * ·) ?_)
    rw [Matrix.mulVec, dotProduct, Fin.sum_univ_succ, Matrix.mulVec, dotProduct]
    simp only [Fin.cons_zero, Fin.cons_succ]
    have e1 : (∑ j, schur A i j * y j) =
        (∑ j, A i.succ j.succ * y j) - A i.succ 0 / A 0 0 * t := by
      rw [Finset.mul_sum, ← Finset.sum_sub_distrib]
      exact Finset.sum_congr rfl fun j _ => by rw [schur_apply]; ring
    rw [e1]
    field_simp
    ring

theorem solveLU_positive : ∀ {k : ℕ} {A : Matrix (Fin k) (Fin k) ℝ}, Positive A → ∀ b, ∃ x, solveLU A b = some x
  | 0, _, _, b => ⟨b, rfl⟩
  | k + 1, A, h, b => by
    obtain ⟨y, hy⟩ := solveLU_positive h.remains fun i => b i.succ - A i.succ 0 / A 0 0 * b 0
    rw [solveLU, if_neg h.pivot.ne', hy]
    exact ⟨_, rfl⟩

/-! ## Teams -/

variable {threads : ℕ}

/-- What holds while no thread writes too early: every thread has read a part of the memory, and the memory is as in the
beginning until all have read all. -/
structure Reading (rank : ℕ) (memory : ℕ → ℝ) (s : State threads) : Prop where
  todo : ∀ t, ∃ r, r ≤ rank ∧ ∃ w : List Access, (∀ q, Access.read q ∉ w) ∧ s.todo t = ((List.range rank).drop r).map .read ++ w ∧ ∀ q < r, s.registers t q = memory q
  memory : (∃ t q, Access.read q ∈ s.todo t) → s.memory = memory

theorem drop_range {rank r : ℕ} (h : r < rank) : (List.range rank).drop r = r :: (List.range rank).drop (r + 1) := by
  rw [List.drop_eq_getElem_cons (by simpa using h)]
  simp

theorem Reading.step {rank : ℕ} {memory : ℕ → ℝ} {s : State threads} (h : Reading rank memory s) (t : Fin threads)
    (ho : ∀ a v rest, s.todo t = .write a v :: rest → ∀ t' r, Access.read r ∉ s.todo t') : Reading rank memory (s.step t) := by
  obtain ⟨r, hr, w, hw, ht, hreg⟩ := h.todo t
  unfold State.step
  split
  · exact h
  · rename_i q rest hq
    have hrk : r < rank := by
      by_contra hn
      rw [List.drop_eq_nil_of_le (by simpa using hn), List.map_nil, List.nil_append] at ht
      exact hw q (by rw [← ht, hq]; simp)
    have hmem := h.memory ⟨t, q, by rw [hq]; simp⟩
    rw [drop_range hrk, List.map_cons, List.cons_append, hq] at ht
    obtain ⟨h1, rfl⟩ := List.cons.inj ht
    obtain rfl : q = r := by injection h1
    refine ⟨fun t' => ?_, fun _ => hmem⟩
    by_cases htt : t' = t
    · subst htt
      refine ⟨q + 1, hrk, w, hw, by simp, fun p hp => ?_⟩
      simp only [Function.update_self]
      rcases Nat.lt_succ_iff_lt_or_eq.1 hp with hp | rfl
      · rw [Function.update_of_ne hp.ne, hreg p hp]
      · rw [Function.update_self, hmem]
    · obtain ⟨r', a, w', b, c, d⟩ := h.todo t'
      refine ⟨r', a, w', b, ?_, ?_⟩
      · simp only [Function.update_of_ne htt]
        exact c
      · simp only [Function.update_of_ne htt]
        exact d
  · rename_i a v rest hq
    have hno := ho a v rest hq
    refine ⟨fun t' => ?_, fun ⟨t', q, hq'⟩ => ?_⟩
    · by_cases htt : t' = t
      · subst htt
        have hrk : r = rank := by
          by_contra hn
          rw [drop_range (lt_of_le_of_ne hr hn), List.map_cons, List.cons_append] at ht
          exact hno t' r (by rw [ht]; simp)
        refine ⟨rank, le_rfl, rest, fun q hq' => hno t' q (by rw [hq]; exact List.mem_cons_of_mem _ hq'), by simp, fun q hq' => hreg q (hrk ▸ hq')⟩
      · obtain ⟨r', a, w', b, c, d⟩ := h.todo t'
        refine ⟨r', a, w', b, ?_, d⟩
        simp only [Function.update_of_ne htt]
        exact c
    · exfalso
      by_cases htt : t' = t
      · subst htt
        simp only [Function.update_self] at hq'
        exact hno t' q (by rw [hq]; exact List.mem_cons_of_mem _ hq')
      · simp only [Function.update_of_ne htt] at hq'
        exact hno t' q hq'

theorem Reading.run {rank : ℕ} {memory : ℕ → ℝ} : ∀ {s : State threads} {ts : List (Fin threads)}, Reading rank memory s → s.Orderly ts → Reading rank memory (s.run ts)
  | _, [], h, _ => h
  | _, t :: _, h, ho => (h.step t ho.1).run ho.2

theorem not_read_rows {k : ℕ} {active : Fin 3 → Bool} {X : Fin k → Point} {l : List (Fin k)} (q : ℕ) : Access.read q ∉ l.flatMap (rowAccesses active X) := by
  rw [List.mem_flatMap]
  rintro ⟨i, -, hi⟩
  unfold rowAccesses at hi
  rw [List.mem_mapIdx] at hi
  obtain ⟨p, _, hp⟩ := hi
  exact Access.noConfusion hp

/-- In an orderly team every thread reads the coefficients. -/
theorem orderly_registers {k l : ℕ} {active : Fin 3 → Bool} {D : Device} {X : Fin k → Point} {f : Fin k → ℝ} {team : Team k l}
    (ho : team.Orderly active D X f) (hc : Complete active D X f team) (t : Fin team.threads) {q : ℕ} (hq : q < (D.pivots (polyMatrix active X)).length) :
    ((start (active := active) D X f team).run team.schedule).registers t q = solution (active := active) D X f q := by
  have h0 : Reading (D.pivots (polyMatrix active X)).length (solution (active := active) D X f) (start (active := active) D X f team) :=
    ⟨fun t => ⟨0, Nat.zero_le _, _, not_read_rows, by rw [List.drop_zero]; rfl, fun q hq => absurd hq (Nat.not_lt_zero q)⟩, fun _ => rfl⟩
  obtain ⟨r, hr, w, -, ht, hreg⟩ := (h0.run ho).todo t
  rw [hc t] at ht
  have : ((List.range (D.pivots (polyMatrix active X)).length).drop r).map Access.read = [] := (List.append_eq_nil_iff.1 ht.symm).1
  rw [List.map_eq_nil_iff, List.drop_eq_nil_iff, List.length_range] at this
  exact hreg q (lt_of_lt_of_le hq this)

theorem place_solution {k : ℕ} {active : Fin 3 → Bool} {D : Device} {X : Fin k → Point} {f : Fin k → ℝ} {reg : ℕ → ℝ}
    (h : ∀ q < (D.pivots (polyMatrix active X)).length, reg q = solution (active := active) D X f q) :
    place (D.pivots (polyMatrix active X)) reg = basicInverse (polyMatrix active X) (D.pivots (polyMatrix active X)).toFinset *ᵥ f := by
  funext l
  unfold place
  split
  · rename_i hl
    rw [h _ (List.idxOf_lt_length_of_mem hl)]
    unfold solution
    rw [List.getElem?_eq_getElem (List.idxOf_lt_length_of_mem hl), List.getElem_idxOf]
    rfl
  · rename_i hl
    rw [Matrix.mulVec, dotProduct]
    refine (Finset.sum_eq_zero fun i _ => ?_).symm
    unfold basicInverse
    rw [dif_neg (by simpa using hl), zero_mul]

/-- The polynomial of an orderly cluster -/
noncomputable def fit {k : ℕ} (pol : Polynomial) (active : Fin 3 → Bool) (D : Device) (X : Fin k → Point) (f : Fin k → ℝ) : Poly active → ℝ :=
  if pol = .separate then basicInverse (polyMatrix active X) (D.pivots (polyMatrix active X)).toFinset *ᵥ f else 0

theorem threadCoefficients_eq {k l : ℕ} {pol : Polynomial} {active : Fin 3 → Bool} {D : Device} {X : Fin k → Point} {f : Fin k → ℝ} {team : Team k l}
    (ho : pol = .separate → team.Orderly active D X f ∧ Complete active D X f team) (t : Fin team.threads) :
    threadCoefficients pol active D X f team t = fit pol active D X f := by
  unfold threadCoefficients fit
  split
  · rename_i hp
    exact place_solution fun q hq => orderly_registers (ho hp).1 (ho hp).2 t hq
  · rfl

/-- A single thread reads before it writes. -/
theorem single_orderly {k l : ℕ} {active : Fin 3 → Bool} {D : Device} {X : Fin k → Point} {f : Fin k → ℝ} {team : Team k l} (h1 : team.threads = 1) :
    team.Orderly active D X f := by
  have key : ∀ (s : State team.threads) (ts : List (Fin team.threads)),
      (∀ t, ∃ (rs : List ℕ) (w : List Access), (∀ q, Access.read q ∉ w) ∧ s.todo t = rs.map .read ++ w) → s.Orderly ts := by
    intro s ts
    induction ts generalizing s with
    | nil => exact fun _ => trivial
    | cons t ts ih =>
      intro hs
      have hsub : ∀ t', t' = t := fun t' => by ext; omega
      obtain ⟨rs, w, hw, ht⟩ := hs t
      refine ⟨fun a v rest hq t' r => ?_, ih _ fun t' => ?_⟩
      · obtain rfl := hsub t'
        cases rs with
        | nil =>
          rw [ht]
          exact hw r
        | cons q rs =>
          rw [ht] at hq
          exact Access.noConfusion (List.cons.inj hq).1
      · obtain rfl := hsub t'
        unfold State.step
        split
        · exact ⟨rs, w, hw, ht⟩
        · rename_i q rest hq
          cases rs with
          | nil =>
            rw [ht] at hq
            exact absurd (by rw [← List.nil_append w]; rw [List.map_nil] at hq; rw [hq]; simp) (hw q)
          | cons q' rs =>
            rw [ht] at hq
            exact ⟨rs, w, hw, by simp only [Function.update_self]; exact (List.cons.inj hq).2.symm⟩
        · rename_i a v rest hq
          cases rs with
          | nil =>
            refine ⟨[], rest, fun q hq' => ?_, by simp⟩
            rw [ht, List.map_nil, List.nil_append] at hq
            exact hw q (by rw [hq]; exact List.mem_cons_of_mem _ hq')
          | cons q' rs =>
            rw [ht] at hq
            exact Access.noConfusion (List.cons.inj hq).1
  exact key _ _ fun t => ⟨_, _, not_read_rows, rfl⟩

/-! ## One cluster -/

/-- What an orderly cluster computes -/
theorem solveCluster_spec {k l : ℕ} {D : Device} {φ : ℝ → ℝ} {pol : Polynomial} {active : Fin 3 → Bool} {X : Fin k → Point} {Y : Fin l → Point} {team : Team k l} {f : Fin k → ℝ}
    {v : Fin l → ℝ} (h : solveCluster D φ pol active X Y team f = some v) (ho : pol = .separate → team.Orderly active D X f ∧ Complete active D X f team) :
    ∃ μ, kernelMatrix φ active X *ᵥ μ = (fun i => f i - ∑ a, polyRow active (X i) a * fit pol active D X f a) ∧
      ∀ j, v j = (∑ i, entry φ active (Y j) (X i) * μ i) + ∑ a, polyRow active (Y j) a * fit pol active D X f a := by
  unfold solveCluster at h
  simp only [threadCoefficients_eq ho] at h
  rw [Option.map_eq_some_iff] at h
  obtain ⟨μ, hμ, rfl⟩ := h
  exact ⟨μ, solveLU_spec hμ, fun _ => rfl⟩

theorem solveCluster_some {k l : ℕ} {D : Device} {φ : ℝ → ℝ} {pol : Polynomial} {active : Fin 3 → Bool} {X : Fin k → Point} {Y : Fin l → Point} {team : Team k l} {f : Fin k → ℝ}
    (h : (kernelMatrix φ active X).PosDef) : ∃ v, solveCluster D φ pol active X Y team f = some v := by
  unfold solveCluster
  simp only
  obtain ⟨x, hx⟩ := solveLU_positive (positive_of_posDef h) fun i => f i - ∑ a, polyRow active (X i) a * threadCoefficients pol active D X f team (team.rowOf i) a
  rw [hx]
  exact ⟨_, rfl⟩

/-! ## The polynomial -/

theorem Spread.injective {k : ℕ} {axes : Fin 3 → Bool} {Q : Matrix (Fin k) (Poly axes) ℝ} (h : Spread Q) {c : Poly axes → ℝ} (hc : Q *ᵥ c = 0) : c = 0 := by
  funext l
  by_contra hl
  have h1 := h l l ((c l)⁻¹ • c) (by rw [Pi.smul_apply, smul_eq_mul, inv_mul_cancel₀ hl])
  rw [Matrix.mulVec_smul, hc, smul_zero] at h1
  have h2 : 0 ≤ ∑ i, Q i l ^ 2 := Finset.sum_nonneg fun i _ => sq_nonneg _
  have h3 : (∑ i : Fin k, (0 : Fin k → ℝ) i ^ 2) = 0 := Finset.sum_eq_zero fun i _ => by simp
  rw [h3] at h1
  have h4 := mul_nonneg (sq_nonneg (1 / 10 ^ 5 : ℝ)) h2
  linarith

theorem Spread.independent {k : ℕ} {axes : Fin 3 → Bool} {Q : Matrix (Fin k) (Poly axes) ℝ} (h : Spread Q) : LinearIndependent ℝ Qᵀ := by
  refine Fintype.linearIndependent_iff.2 fun c hc => ?_
  have : Q *ᵥ c = 0 := by
    funext i
    have := congrFun hc i
    rw [Finset.sum_apply] at this
    rw [Matrix.mulVec, dotProduct]
    refine Eq.trans (Finset.sum_congr rfl fun l _ => ?_) this
    rw [Pi.smul_apply, smul_eq_mul, Matrix.transpose_apply, mul_comm]
  exact fun l => congrFun (h.injective this) l

theorem Device.Valid.all {D : Device} (hD : D.Valid) {k : ℕ} {axes : Fin 3 → Bool} {Q : Matrix (Fin k) (Poly axes) ℝ} (h : Spread Q) : (D.pivots Q).toFinset = Finset.univ :=
  Finset.eq_univ_iff_forall.2 fun l => List.mem_toFinset.2 (hD.spread Q h l)

end Verif.Batched
