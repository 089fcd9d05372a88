import Verif.Mapping.RbfExamples

/-!
The order in which the vertices are numbered, for both directions of the mapping (C96): needed for comparing the meshes
which the primary rank assembles with the ones of a serial run.
-/

set_option autoImplicit false

namespace Verif.Rbf
open Matrix

variable {n m : ℕ} {pol : Polynomial} {active : Fin 3 → Bool}

/-- Singular values do not depend on the order of the rows. -/
def Eigen.OrderFree (e : Eigen) : Prop :=
  ∀ {n : ℕ} {axes : Fin 3 → Bool} (Q : Matrix (Fin n) (Poly axes) ℝ) (σ : Fin n ≃ Fin n), e.ill (Q.submatrix σ id) = e.ill Q

theorem someEigen_orderFree : someEigen.OrderFree := by
  intro n axes Q σ
  have : LinearIndependent ℝ (Q.submatrix σ id)ᵀ ↔ LinearIndependent ℝ Qᵀ := by
    have h : (Q.submatrix σ id)ᵀ = LinearEquiv.funCongrLeft ℝ ℝ σ ∘ Qᵀ := rfl
    rw [h]
    exact LinearMap.linearIndependent_iff (LinearEquiv.funCongrLeft ℝ ℝ σ).toLinearMap (LinearEquiv.ker _)
  unfold someEigen
  exact decide_eq_decide.2 (and_congr_right fun _ => not_congr this)

theorem extent_renumber (X : Fin n → Point) (σ : Fin n ≃ Fin n) (d : Fin 3) : extent (X ∘ σ) d = extent X d := by
  unfold extent
  rw [← σ.iSup_comp (g := fun i => X i d), ← σ.iInf_comp (g := fun i => X i d)]
  rfl

theorem reduce_renumber (X : Fin n → Point) (σ : Fin n ≃ Fin n) (axes : Fin 3 → Bool) :
    reduceActiveAxis (X ∘ σ) axes = reduceActiveAxis X axes := by
  unfold reduceActiveAxis
  simp only [extent_renumber]

theorem chooseAxes_renumber {e : Eigen} (ho : e.OrderFree) (X : Fin n → Point) (σ : Fin n ≃ Fin n) :
    ∀ (fuel : ℕ) (axes : Fin 3 → Bool), chooseAxes e (X ∘ σ) fuel axes = chooseAxes e X fuel axes
  | 0, _ => rfl
  | fuel + 1, axes => by
    have h : e.ill (polyMatrix axes (X ∘ σ)) = e.ill (polyMatrix axes X) := ho (polyMatrix axes X) σ
    rw [chooseAxes, chooseAxes, h, reduce_renumber, chooseAxes_renumber ho X σ fuel]

theorem decomposable_renumber (spd : Bool) (φ : ℝ → ℝ) (X : Fin n → Point) (σ : Fin n ≃ Fin n) :
    decomposable spd (buildCLU (pol := pol) (active := active) φ (X ∘ σ)) = decomposable spd (buildCLU (pol := pol) (active := active) φ X) := by
  rw [clu_renumber]
  unfold decomposable
  have h : ((buildCLU (pol := pol) (active := active) φ X).submatrix (renumber σ) (renumber σ)).PosDef ↔ (buildCLU (pol := pol) (active := active) φ X).PosDef := by
    constructor
    · intro h
      have := h.submatrix (renumber σ).symm.injective
      rwa [Matrix.submatrix_submatrix, Equiv.self_comp_symm, Matrix.submatrix_id_id] at this
    · intro h
      exact h.submatrix (renumber σ).injective
  cases spd
  · refine (if_neg (by decide)).trans ((decide_eq_decide.2 ?_).trans (if_neg (by decide)).symm)
    rw [Matrix.det_submatrix_equiv_self]
  · exact (if_pos rfl).trans ((decide_eq_decide.2 h).trans (if_pos rfl).symm)

/-- Whether the constructor succeeds, and which axes it keeps, does not depend on the order of the input vertices. -/
theorem construct_renumber {e : Eigen} (ho : e.OrderFree) {spd : Bool} {φ : ℝ → ℝ} {X : Fin n → Point} {Y : Fin m → Point} (σ : Fin n ≃ Fin n)
    {s : Solver n m pol active} (h : construct e spd φ pol active X Y = some s) {m' : ℕ} (Y' : Fin m' → Point) :
    ∃ s' : Solver n m' pol active, construct e spd φ pol active (X ∘ σ) Y' = some s' ∧ s'.axes = s.axes := by
  unfold construct at h ⊢
  split at h
  · exact absurd h (by simp)
  · rename_i h0
    rw [if_neg h0]
    split at h
    · rename_i hd
      rw [decomposable_renumber, if_pos hd]
      rw [Option.map_eq_some_iff] at h
      obtain ⟨axes, ha, rfl⟩ := h
      rw [chooseAxes_renumber ho, ha]
      exact ⟨_, rfl, rfl⟩
    · exact absurd h (by simp)

theorem consistent_renumber {e : Eigen} (he : e.Valid) (ho : e.OrderFree) {spd : Bool} {φ : ℝ → ℝ} {X : Fin n → Point} {Y : Fin m → Point}
    (σ : Fin n ≃ Fin n) {s : Solver n m pol active} (h : construct e spd φ pol active X Y = some s)
    (hsep : pol = .separate → Fintype.card (Poly active) ≤ n) {m' : ℕ} (Y' : Fin m' → Point) :
    ∃ s' : Solver n m' pol active, construct e spd φ pol active (X ∘ σ) Y' = some s' ∧
      ∀ f k k', (∀ d, active d = true → Y' k' d = Y k d) → s'.mapConsistent (f ∘ σ) k' = s.mapConsistent f k := by
  obtain ⟨s', hs', _⟩ := construct_renumber ho σ h Y'
  obtain ⟨s'', hs'', hax⟩ := construct_renumber ho σ h Y
  refine ⟨s', hs', fun f k k' hk => ?_⟩
  rw [C95_pointwise e spd φ (X ∘ σ) Y' Y s' s'' hs' hs'' (f ∘ σ) k' k hk]
  exact congrFun (C95_numbering e he spd φ X Y σ s s'' h hs'' (fun hp => ⟨hsep hp, hax⟩) f) k

theorem conservative_renumber {e : Eigen} (he : e.Valid) (ho : e.OrderFree) {spd : Bool} {φ : ℝ → ℝ} {X : Fin n → Point} {Y : Fin m → Point}
    (σ : Fin n ≃ Fin n) (τ : Fin m ≃ Fin m) {s : Solver n m pol active} (h : construct e spd φ pol active X Y = some s)
    (hsep : pol = .separate → Fintype.card (Poly active) ≤ n) :
    ∃ s' : Solver n m pol active, construct e spd φ pol active (X ∘ σ) (Y ∘ τ) = some s' ∧
      ∀ u i, s'.mapConservative (u ∘ τ) i = s.mapConservative u (σ i) := by
  obtain ⟨s', hs', hv⟩ := consistent_renumber he ho σ h hsep (Y ∘ τ)
  refine ⟨s', hs', fun u i => ?_⟩
  have h1 := C95_adjoint e spd φ _ _ s' hs' (Pi.single (σ i) 1 ∘ σ) (u ∘ τ)
  have h2 := C95_adjoint e spd φ _ _ s h (Pi.single (σ i) 1) u
  have h3 : ∑ k, (u ∘ τ) k * s'.mapConsistent (Pi.single (σ i) 1 ∘ σ) k = ∑ k, u k * s.mapConsistent (Pi.single (σ i) 1) k := by
    rw [← Equiv.sum_comp τ fun k => u k * s.mapConsistent (Pi.single (σ i) 1) k]
    refine Finset.sum_congr rfl fun k _ => ?_
    rw [hv (Pi.single (σ i) 1) (τ k) k fun _ _ => rfl]
    rfl
  rw [h3, h2] at h1
  have h4 : (Pi.single (σ i) 1 ∘ σ : Fin n → ℝ) = Pi.single i 1 := by
    funext j
    by_cases hj : j = i
    · subst hj; simp
    · simp [hj]
  rw [h4] at h1
  simpa [Pi.single_apply] using h1.symm

end Verif.Rbf
