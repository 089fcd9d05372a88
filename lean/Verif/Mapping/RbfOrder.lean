import Verif.Mapping.RbfProps
import Mathlib.LinearAlgebra.Dimension.Constructions
import Mathlib.Tactic.NormNum

/-!
The mapped value at an output vertex depends on this vertex and on the set of input vertices only (C95):
neither on the other output vertices nor on the order of the input vertices. Termination of the loop which
drops axes, and the counterexamples for few vertices.
-/

set_option autoImplicit false

namespace Verif.Rbf
open Matrix

variable {n m m' : ℕ} {pol : Polynomial} {active : Fin 3 → Bool}

/-- The value at one point, in terms of the input vertices, the kept axes and the solver of the polynomial
system. -/
noncomputable def valueAt (φ : ℝ → ℝ) (pol : Polynomial) (active axes : Fin 3 → Bool) (S : Finset (Poly axes)) (X : Fin n → Point) (f : Fin n → ℝ) (y : Point) : ℝ :=
  let C : Matrix (Dof n pol active) (Dof n pol active) ℝ := buildCLU φ X
  let row : Dof n pol active → ℝ := buildA φ X (fun _ : Fin 1 => y) 0
  if pol = .separate then
    let p := basicInverse (polyMatrix axes X) S *ᵥ f
    row ⬝ᵥ (C⁻¹ *ᵥ Sum.elim (f - polyMatrix axes X *ᵥ p) 0) + polyRow axes y ⬝ᵥ p
  else row ⬝ᵥ (C⁻¹ *ᵥ Sum.elim f 0)

theorem elim_sub (f g : Fin n → ℝ) : (Sum.elim f 0 - Sum.elim g 0 : Dof n pol active → ℝ) = Sum.elim (f - g) 0 := by
  funext p
  rcases p with i | k <;> simp

theorem mapConsistent_eq {e : Eigen} {φ : ℝ → ℝ} {X : Fin n → Point} {Y : Fin m → Point} {s : Solver n m pol active} (b : Built e φ X Y s)
    (f : Fin n → ℝ) (k : Fin m) :
    s.mapConsistent f k = valueAt φ pol active s.axes (e.pivots (polyMatrix s.axes X)) X f (Y k) := by
  unfold Solver.mapConsistent Solver.solveConsistent valueAt
  have hf : (fun i => (Sum.elim f 0 : Dof n pol active → ℝ) (.inl i)) = f := rfl
  have hrow : s.A k = buildA φ X (fun _ : Fin 1 => Y k) 0 := by
    rw [b.A]
    funext q
    rcases q with j | l <;> rfl
  split
  · simp only [hf]
    rw [Pi.add_apply, elim_sub, b.G, b.Q, b.V, b.C]
    refine congrArg₂ _ ?_ rfl
    exact congrArg (· ⬝ᵥ _) hrow
  · rw [b.C]
    exact congrArg (· ⬝ᵥ _) hrow

/-- **The value at an output vertex does not depend on the other output vertices**: two mappings from the
same input vertices agree at vertices with equal coordinates (in the axes which are not dead). So the result
does not depend on how the output mesh is distributed to ranks. -/
theorem C95_pointwise (e : Eigen) (spd : Bool) (φ : ℝ → ℝ) (X : Fin n → Point) (Y : Fin m → Point) (Y' : Fin m' → Point)
    (s : Solver n m pol active) (s' : Solver n m' pol active) (h : construct e spd φ pol active X Y = some s)
    (h' : construct e spd φ pol active X Y' = some s') (f : Fin n → ℝ) (k : Fin m) (k' : Fin m') (hk : ∀ d, active d = true → Y k d = Y' k' d) :
    s.mapConsistent f k = s'.mapConsistent f k' := by
  have b := construct_built h
  have b' := construct_built h'
  have hax : s.axes = s'.axes := by
    have h1 := b.axes
    have h2 := b'.axes
    split at h1
    · rename_i hp
      rw [if_pos hp, h1] at h2
      exact Option.some.inj h2
    · rename_i hp
      rw [if_neg hp] at h2
      rw [h1, h2]
  rw [mapConsistent_eq b, mapConsistent_eq b', hax]
  unfold valueAt
  have hrow : buildA (pol := pol) (active := active) φ X (fun _ : Fin 1 => Y k) 0 = buildA φ X (fun _ : Fin 1 => Y' k') 0 := by
    funext q
    rcases q with j | l
    · exact entry_congr φ _ hk
    · exact congrFun (polyRow_congr hk) _
  have hpoly : polyRow s'.axes (Y k) = polyRow s'.axes (Y' k') := polyRow_congr fun d hd => hk d (b'.axes_le d hd)
  rw [hrow, hpoly]

/-- Renumbering of the unknowns. -/
def renumber (σ : Fin n ≃ Fin n) : Dof n pol active ≃ Dof n pol active := σ.sumCongr (Equiv.refl _)

theorem clu_renumber (φ : ℝ → ℝ) (X : Fin n → Point) (σ : Fin n ≃ Fin n) :
    buildCLU (pol := pol) (active := active) φ (X ∘ σ) = (buildCLU φ X).submatrix (renumber σ) (renumber σ) := by
  ext p q
  rw [Matrix.submatrix_apply]
  rcases p with i | k <;> rcases q with j | l
  · exact (clu_inl φ _ i j).trans (clu_inl φ X (σ i) (σ j)).symm
  · rfl
  · rfl
  · rfl

theorem elim_renumber (f : Fin n → ℝ) (σ : Fin n ≃ Fin n) :
    (Sum.elim (f ∘ σ) 0 : Dof n pol active → ℝ) = Sum.elim f 0 ∘ renumber σ := by
  funext p
  rcases p with i | k <;> rfl

theorem dot_renumber {ι : Type} [Fintype ι] (σ : ι ≃ ι) (a b : ι → ℝ) : (a ∘ σ) ⬝ᵥ (b ∘ σ) = a ⬝ᵥ b :=
  Equiv.sum_comp σ fun i => a i * b i

theorem system_renumber (φ : ℝ → ℝ) (X : Fin n → Point) (σ : Fin n ≃ Fin n) (f : Fin n → ℝ) (y : Point) :
    buildA (pol := pol) (active := active) φ (X ∘ σ) (fun _ : Fin 1 => y) 0 ⬝ᵥ ((buildCLU φ (X ∘ σ))⁻¹ *ᵥ Sum.elim (f ∘ σ) 0)
    = buildA (pol := pol) (active := active) φ X (fun _ : Fin 1 => y) 0 ⬝ᵥ ((buildCLU φ X)⁻¹ *ᵥ Sum.elim f 0) := by
  have h1 : buildA (pol := pol) (active := active) φ (X ∘ σ) (fun _ : Fin 1 => y) 0
      = buildA (pol := pol) (active := active) φ X (fun _ : Fin 1 => y) 0 ∘ renumber σ := by
    funext p
    rcases p with i | k <;> rfl
  have h2 : (buildCLU (pol := pol) (active := active) φ (X ∘ σ))⁻¹ *ᵥ Sum.elim (f ∘ σ) 0
      = ((buildCLU φ X)⁻¹ *ᵥ Sum.elim f 0) ∘ renumber σ := by
    rw [clu_renumber, Matrix.inv_submatrix_equiv, elim_renumber, Matrix.submatrix_mulVec_equiv]
    congr 2
    funext p
    simp
  rw [h1, h2, dot_renumber]

theorem pinv_renumber {axes : Fin 3 → Bool} (X : Fin n → Point) (σ : Fin n ≃ Fin n) (S : Finset (Poly axes)) :
    basicInverse (polyMatrix axes (X ∘ σ)) S = (basicInverse (polyMatrix axes X) S).submatrix id σ := by
  ext k i
  rw [Matrix.submatrix_apply]
  unfold basicInverse
  by_cases hk : k ∈ S
  · simp only [id, dif_pos hk]
    set B : Matrix (Fin n) S ℝ := fun i k => polyMatrix axes X i k with hB
    have h1 : (fun i k => polyMatrix axes (X ∘ σ) i k : Matrix (Fin n) S ℝ) = B.submatrix σ id := rfl
    rw [h1]
    have h2 : (B.submatrix σ id)ᵀ * B.submatrix σ id = Bᵀ * B := by
      rw [Matrix.transpose_submatrix, Matrix.submatrix_mul_equiv, Matrix.submatrix_id_id]
    rw [h2, Matrix.transpose_submatrix, Matrix.mul_apply, Matrix.mul_apply]
    rfl
  · simp only [id, dif_neg hk]

/-- **The order of the input vertices does not matter** (nor does the distribution of the input mesh to
ranks, from which the order results). With a separated polynomial this holds if there are at least as many input
vertices as polynomial columns and the same axes are kept for both orders. -/
theorem C95_numbering (e : Eigen) (he : e.Valid) (spd : Bool) (φ : ℝ → ℝ) (X : Fin n → Point) (Y : Fin m → Point) (σ : Fin n ≃ Fin n)
    (s s' : Solver n m pol active) (h : construct e spd φ pol active X Y = some s) (h' : construct e spd φ pol active (X ∘ σ) Y = some s')
    (hsep : pol = .separate → Fintype.card (Poly active) ≤ n ∧ s'.axes = s.axes) (f : Fin n → ℝ) :
    s'.mapConsistent (f ∘ σ) = s.mapConsistent f := by
  have b := construct_built h
  have b' := construct_built h'
  funext k
  rw [mapConsistent_eq b, mapConsistent_eq b']
  by_cases hp : pol = .separate
  · subst hp
    obtain ⟨hn, hax⟩ := hsep rfl
    have hi := b.independent he hn
    have hi' := b'.independent he hn
    rw [b.Q] at hi
    rw [b'.Q] at hi'
    rw [he.allColumns _ hi, he.allColumns _ hi', hax]
    unfold valueAt
    rw [if_pos rfl, if_pos rfl]
    have hpv : basicInverse (polyMatrix s.axes (X ∘ σ)) Finset.univ *ᵥ (f ∘ σ) = basicInverse (polyMatrix s.axes X) Finset.univ *ᵥ f := by
      rw [pinv_renumber, Matrix.submatrix_mulVec_equiv]
      funext i
      simp [Function.comp_def]
    simp only [hpv]
    have hq : f ∘ σ - polyMatrix s.axes (X ∘ σ) *ᵥ (basicInverse (polyMatrix s.axes X) Finset.univ *ᵥ f)
        = (f - polyMatrix s.axes X *ᵥ (basicInverse (polyMatrix s.axes X) Finset.univ *ᵥ f)) ∘ σ := rfl
    rw [hq, system_renumber]
  · unfold valueAt
    rw [if_neg hp, if_neg hp, system_renumber]

/-- Dropping an axis removes exactly one active axis, if there is one. -/
theorem reduce_card (X : Fin n → Point) (axes : Fin 3 → Bool) (h : ∃ d, axes d = true) :
    (Finset.univ.filter fun d => reduceActiveAxis X axes d = true).card + 1 = (Finset.univ.filter fun d => axes d = true).card := by
  classical
  unfold reduceActiveAxis
  have hex : ∃ d, axes d = true ∧ ∀ d', axes d' = true → extent X d ≤ extent X d' := by
    obtain ⟨d, hd, hmin⟩ := Finset.exists_min_image (Finset.univ.filter fun d => axes d = true) (extent X)
      ⟨h.choose, Finset.mem_filter.2 ⟨Finset.mem_univ _, h.choose_spec⟩⟩
    exact ⟨d, (Finset.mem_filter.1 hd).2, fun d' hd' => hmin d' (Finset.mem_filter.2 ⟨Finset.mem_univ _, hd'⟩)⟩
  rcases ho : List.find? (fun d => decide (axes d = true ∧ ∀ d', axes d' = true → extent X d ≤ extent X d')) (List.finRange 3) with _ | d
  · obtain ⟨d, hd⟩ := hex
    have := List.find?_eq_none.1 ho d (List.mem_finRange d)
    exact absurd (decide_eq_true hd) this
  · have hd : axes d = true ∧ ∀ d', axes d' = true → extent X d ≤ extent X d' := by
      have := List.find?_some ho
      simpa using this
    rw [Option.elim_some]
    have : (Finset.univ.filter fun d' => Function.update axes d false d' = true) = (Finset.univ.filter fun d' => axes d' = true).erase d := by
      ext d'
      simp only [Finset.mem_filter, Finset.mem_univ, true_and, Finset.mem_erase]
      by_cases hdd : d' = d
      · subst hdd
        simp
      · simp [hdd]
    have hmem : d ∈ Finset.univ.filter fun d' => axes d' = true := Finset.mem_filter.2 ⟨Finset.mem_univ _, hd.1⟩
    rw [this, Finset.card_erase_add_one hmem]

/-- **Dropping axes terminates**: the constructor never loops forever; it stops at the latest when only the
constant polynomial is left. -/
theorem C95_axes_terminate (e : Eigen) (he : e.Valid) (X : Fin n → Point) (axes : Fin 3 → Bool) : (chooseAxes e X 4 axes).isSome := by
  have key : ∀ (c fuel : ℕ) (axes : Fin 3 → Bool), (Finset.univ.filter fun d => axes d = true).card = c → c < fuel → (chooseAxes e X fuel axes).isSome := by
    intro c
    induction c with
    | zero =>
      intro fuel axes hc hf
      obtain ⟨f, rfl⟩ := Nat.exists_eq_succ_of_ne_zero hf.ne'
      have : ∀ d, axes d = false := by
        intro d
        rw [Finset.card_eq_zero, Finset.filter_eq_empty_iff] at hc
        simpa using hc (Finset.mem_univ d)
      rw [chooseAxes, he.single X (Or.inr this)]
      rfl
    | succ c ih =>
      intro fuel axes hc hf
      obtain ⟨f, rfl⟩ := Nat.exists_eq_succ_of_ne_zero (Nat.ne_of_gt (Nat.lt_of_le_of_lt (Nat.zero_le _) hf))
      rw [chooseAxes]
      split
      · have hne : ∃ d, axes d = true := by
          have : 0 < (Finset.univ.filter fun d => axes d = true).card := by omega
          obtain ⟨d, hd⟩ := Finset.card_pos.1 this
          exact ⟨d, (Finset.mem_filter.1 hd).2⟩
        have := reduce_card X axes hne
        exact ih f _ (by omega) (by omega)
      · rfl
  refine key _ 4 axes rfl ?_
  have := Finset.card_filter_le (Finset.univ : Finset (Fin 3)) fun d => axes d = true
  simp only [Finset.card_univ, Fintype.card_fin] at this
  omega

end Verif.Rbf
