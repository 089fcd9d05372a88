import Verif.Mapping.Rbf
import Mathlib.Analysis.Matrix.PosDef
import Mathlib.Algebra.Order.Star.Real
import Mathlib.Tactic.Ring
import Mathlib.Tactic.FinCases

/-!
Interpolation, polynomial reproduction and conservation of the radial basis function mapping (C95).
-/

set_option autoImplicit false

namespace Verif.Rbf
open Matrix

variable {n m : ℕ} {pol : Polynomial} {active : Fin 3 → Bool}

theorem squaredDifference_comm (u v : Point) : squaredDifference active u v = squaredDifference active v u := by
  refine Finset.sum_congr rfl fun d _ => ?_
  ring

theorem entry_comm (φ : ℝ → ℝ) (u v : Point) : entry φ active u v = entry φ active v u := by
  rw [entry, entry, squaredDifference_comm]

/-- Only the active coordinates matter. -/
theorem entry_congr (φ : ℝ → ℝ) {u u' : Point} (v : Point) (h : ∀ d, active d = true → u d = u' d) :
    entry φ active u v = entry φ active u' v := by
  unfold entry squaredDifference
  refine congrArg _ (congrArg _ (Finset.sum_congr rfl fun d _ => ?_))
  by_cases hd : active d = true
  · rw [h d hd]
  · simp [hd]

theorem polyRow_congr {axes : Fin 3 → Bool} {u u' : Point} (h : ∀ d, axes d = true → u d = u' d) : polyRow axes u = polyRow axes u' := by
  funext k
  cases k with
  | none => rfl
  | some d => exact h d.1 d.2

theorem clu_inl (φ : ℝ → ℝ) (X : Fin n → Point) (i j : Fin n) :
    buildCLU (pol := pol) (active := active) φ X (.inl i) (.inl j) = entry φ active (X i) (X j) := by
  unfold buildCLU isUpper
  by_cases h : i ≤ j
  · simp [h, upperCLU]
  · have h' : j ≤ i := le_of_not_ge h
    simp [h, h', upperCLU, entry_comm φ (X j)]

theorem clu_inr (φ : ℝ → ℝ) (X : Fin n → Point) (i : Fin n) (k : {_k : Poly active // pol = .on}) :
    buildCLU (pol := pol) (active := active) φ X (.inl i) (.inr k) = polyRow active (X i) k.1 := rfl

theorem clu_inr' (φ : ℝ → ℝ) (X : Fin n → Point) (i : Fin n) (k : {_k : Poly active // pol = .on}) :
    buildCLU (pol := pol) (active := active) φ X (.inr k) (.inl i) = polyRow active (X i) k.1 := rfl

theorem clu_inr_inr (φ : ℝ → ℝ) (X : Fin n → Point) (k l : {_k : Poly active // pol = .on}) :
    buildCLU (pol := pol) (active := active) φ X (.inr k) (.inr l) = 0 := rfl

theorem clu_symm (φ : ℝ → ℝ) (X : Fin n → Point) : (buildCLU (pol := pol) (active := active) φ X)ᵀ = buildCLU φ X := by
  ext p q
  rw [Matrix.transpose_apply]
  rcases p with i | k <;> rcases q with j | l
  · rw [clu_inl, clu_inl, entry_comm]
  · rfl
  · rfl
  · rfl

/-- The evaluation at a point which coincides with an input vertex in the active coordinates is the row of
the system of this vertex. -/
theorem A_row (φ : ℝ → ℝ) (X : Fin n → Point) (Y : Fin m → Point) (k : Fin m) (i : Fin n) (h : ∀ d, active d = true → Y k d = X i d) :
    buildA (pol := pol) (active := active) φ X Y k = buildCLU φ X (.inl i) := by
  funext q
  rcases q with j | l
  · rw [clu_inl]
    exact entry_congr φ _ h
  · rw [clu_inr]
    exact congrFun (polyRow_congr h) _

/-- What a successful constructor provides. -/
structure Built (e : Eigen) (φ : ℝ → ℝ) (X : Fin n → Point) (Y : Fin m → Point) (s : Solver n m pol active) : Prop where
  C : s.C = buildCLU φ X
  A : s.A = buildA φ X Y
  Q : s.Q = polyMatrix s.axes X
  V : s.V = polyMatrix s.axes Y
  G : s.G = basicInverse s.Q (e.pivots s.Q)
  inv : IsUnit s.C.det
  axes : if pol = .separate then chooseAxes e X 4 active = some s.axes else s.axes = active

theorem decomposable_isUnit {spd : Bool} {C : Matrix (Dof n pol active) (Dof n pol active) ℝ} (h : decomposable spd C = true) : IsUnit C.det := by
  unfold decomposable at h
  cases spd
  · simpa using h
  · have hp : C.PosDef := by simpa using h
    exact isUnit_iff_ne_zero.2 hp.det_pos.ne'

theorem construct_built {e : Eigen} {spd : Bool} {φ : ℝ → ℝ} {X : Fin n → Point} {Y : Fin m → Point} {s : Solver n m pol active}
    (h : construct e spd φ pol active X Y = some s) : Built e φ X Y s := by
  unfold construct at h
  split at h
  · exact absurd h (by simp)
  · split at h
    · rename_i hd
      rw [Option.map_eq_some_iff] at h
      obtain ⟨axes, ha, rfl⟩ := h
      refine ⟨rfl, rfl, rfl, rfl, rfl, decomposable_isUnit hd, ?_⟩
      split at ha
      · rename_i hs
        rw [if_pos hs]
        exact ha
      · rename_i hs
        rw [if_neg hs]
        exact (Option.some.inj ha).symm
    · exact absurd h (by simp)

theorem reduce_le (X : Fin n → Point) (axes : Fin 3 → Bool) (d : Fin 3) (h : reduceActiveAxis X axes d = true) : axes d = true := by
  unfold reduceActiveAxis at h
  generalize List.find? _ _ = o at h
  rcases o with _ | d'
  · exact h
  · rw [Option.elim_some] at h
    by_cases hd : d = d'
    · subst hd
      simp at h
    · rwa [Function.update_of_ne hd] at h

theorem chooseAxes_spec {e : Eigen} {X : Fin n → Point} : ∀ {fuel : ℕ} {axes axes' : Fin 3 → Bool}, chooseAxes e X fuel axes = some axes' →
    e.ill (polyMatrix axes' X) = false ∧ ∀ d, axes' d = true → axes d = true
  | 0, _, _, h => absurd h (by simp [chooseAxes])
  | fuel + 1, axes, axes', h => by
    rw [chooseAxes] at h
    split at h
    · obtain ⟨h1, h2⟩ := chooseAxes_spec h
      exact ⟨h1, fun d hd => reduce_le X axes d (h2 d hd)⟩
    · rename_i hi
      cases h
      exact ⟨by simpa using hi, fun d hd => hd⟩

theorem Built.axes_le {e : Eigen} {φ : ℝ → ℝ} {X : Fin n → Point} {Y : Fin m → Point} {s : Solver n m pol active} (b : Built e φ X Y s) :
    ∀ d, s.axes d = true → active d = true := by
  have h := b.axes
  split at h
  · exact (chooseAxes_spec h).2
  · intro d hd
    rwa [h] at hd

theorem card_poly_le {a b : Fin 3 → Bool} (h : ∀ d, a d = true → b d = true) : Fintype.card (Poly a) ≤ Fintype.card (Poly b) := by
  refine Fintype.card_le_of_injective (fun k => k.map fun d => ⟨d.1, h d.1 d.2⟩) fun k l hkl => ?_
  cases k <;> cases l <;> simp_all [Subtype.ext_iff]

/-- The polynomial matrix of the separated polynomial has independent columns as soon as there are enough
input vertices. -/
theorem Built.independent {e : Eigen} (he : e.Valid) {φ : ℝ → ℝ} {X : Fin n → Point} {Y : Fin m → Point} {s : Solver n m .separate active}
    (b : Built e φ X Y s) (hn : Fintype.card (Poly active) ≤ n) : LinearIndependent ℝ s.Qᵀ := by
  have h := b.axes
  rw [if_pos rfl] at h
  rw [b.Q]
  exact he.full X ((card_poly_le b.axes_le).trans hn) (chooseAxes_spec h).1

/-- On the pivot columns the rank-revealing solve is a left inverse. -/
theorem basicInverse_mul_pivots {P : Type} [Fintype P] [DecidableEq P] (Q : Matrix (Fin n) P ℝ) (S : Finset P)
    (h : LinearIndependent ℝ fun k : S => Qᵀ k) (k l : P) (hk : k ∈ S) (hl : l ∈ S) :
    ∑ i, basicInverse Q S k i * Q i l = if k = l then 1 else 0 := by
  set B : Matrix (Fin n) S ℝ := fun i k => Q i k with hB
  have hinj : Function.Injective B.mulVec := by
    rw [Matrix.mulVec_injective_iff]
    exact h
  have hpd : (Bᵀ * B).PosDef := by
    have := Matrix.PosDef.conjTranspose_mul_self B hinj
    rwa [Matrix.conjTranspose_eq_transpose_of_trivial] at this
  have hu : IsUnit (Bᵀ * B).det := isUnit_iff_ne_zero.2 hpd.det_pos.ne'
  have h1 : (Bᵀ * B)⁻¹ * Bᵀ * B = 1 := by
    rw [Matrix.mul_assoc, Matrix.nonsing_inv_mul _ hu]
  have h2 := congrFun (congrFun h1 ⟨k, hk⟩) ⟨l, hl⟩
  rw [Matrix.mul_apply] at h2
  have h3 : ∀ i, basicInverse Q S k i * Q i l = ((Bᵀ * B)⁻¹ * Bᵀ) ⟨k, hk⟩ i * B i ⟨l, hl⟩ := by
    intro i
    unfold basicInverse
    rw [dif_pos hk]
  rw [Finset.sum_congr rfl fun i _ => h3 i, h2, Matrix.one_apply]
  simp

/-- Solving for a right-hand side in the range of a matrix with independent columns returns the
coefficients. -/
theorem basicInverse_mul {P : Type} [Fintype P] [DecidableEq P] (Q : Matrix (Fin n) P ℝ) (h : LinearIndependent ℝ Qᵀ) :
    basicInverse Q Finset.univ * Q = 1 := by
  ext k l
  rw [Matrix.mul_apply, basicInverse_mul_pivots Q Finset.univ (h.comp _ Subtype.val_injective) k l (Finset.mem_univ k)
    (Finset.mem_univ l), Matrix.one_apply]

theorem Built.G_mul_Q {e : Eigen} (he : e.Valid) {φ : ℝ → ℝ} {X : Fin n → Point} {Y : Fin m → Point} {s : Solver n m .separate active}
    (b : Built e φ X Y s) (hn : Fintype.card (Poly active) ≤ n) : s.G * s.Q = 1 := by
  have hi := b.independent he hn
  rw [b.G, he.allColumns _ hi]
  exact basicInverse_mul _ hi

/-- **Interpolation.** At an output vertex which coincides with an input vertex (in the axes which are not
dead) a consistent mapping returns exactly the value of this input vertex, with and without polynomial. -/
theorem C95_interpolates (e : Eigen) (spd : Bool) (φ : ℝ → ℝ) (X : Fin n → Point) (Y : Fin m → Point) (s : Solver n m pol active)
    (h : construct e spd φ pol active X Y = some s) (f : Fin n → ℝ) (k : Fin m) (i : Fin n) (hki : ∀ d, active d = true → Y k d = X i d) :
    s.mapConsistent f k = f i := by
  have b := construct_built h
  have key : ∀ x : Dof n pol active → ℝ, (s.A *ᵥ (s.C⁻¹ *ᵥ x)) k = x (.inl i) := by
    intro x
    have h1 : (s.A *ᵥ (s.C⁻¹ *ᵥ x)) k = (s.C *ᵥ (s.C⁻¹ *ᵥ x)) (.inl i) := by
      refine congrArg (· ⬝ᵥ _) ?_
      rw [b.A, A_row φ X Y k i hki, b.C]
    rw [h1, Matrix.mulVec_mulVec, Matrix.mul_nonsing_inv _ b.inv, Matrix.one_mulVec]
  unfold Solver.mapConsistent Solver.solveConsistent
  split
  · have hv : (s.V *ᵥ (s.G *ᵥ fun j => (Sum.elim f 0 : Dof n pol active → ℝ) (.inl j))) k
        = (s.Q *ᵥ (s.G *ᵥ fun j => (Sum.elim f 0 : Dof n pol active → ℝ) (.inl j))) i := by
      refine congrArg (· ⬝ᵥ _) ?_
      rw [b.V, b.Q]
      exact polyRow_congr fun d hd => hki d (b.axes_le d hd)
    rw [Pi.add_apply, key, hv]
    simp
  · rw [key]
    rfl

/-- The affine function `c + ∑ g d · x d` over the axes in `axes`. -/
def affine (axes : Fin 3 → Bool) (c : ℝ) (g : Fin 3 → ℝ) (x : Point) : ℝ := c + ∑ d, if axes d then g d * x d else 0

/-- The coefficients of an affine function. -/
def coefficients (axes : Fin 3 → Bool) (c : ℝ) (g : Fin 3 → ℝ) : Poly axes → ℝ
  | none => c
  | some d => g d.1

theorem affine_single {axes : Fin 3 → Bool} {d : Fin 3} (hd : axes d = true) (x : Point) : affine axes 0 (Pi.single d 1) x = x d := by
  unfold affine
  rw [zero_add, Finset.sum_eq_single d]
  · simp [hd]
  · intro d' _ hne
    simp [Pi.single_eq_of_ne hne]
  · simp

theorem polyRow_dot (axes : Fin 3 → Bool) (c : ℝ) (g : Fin 3 → ℝ) (x : Point) :
    polyRow axes x ⬝ᵥ coefficients axes c g = affine axes c g x := by
  unfold dotProduct affine
  rw [Fintype.sum_option]
  have h : ∑ d : {d : Fin 3 // axes d = true}, polyRow axes x (some d) * coefficients axes c g (some d)
      = ∑ d, if axes d = true then g d * x d else 0 := by
    rw [← Finset.sum_filter]
    rw [Finset.sum_subtype (Finset.univ.filter fun d => axes d = true) (p := fun d => axes d = true) (fun d => by simp)]
    refine Finset.sum_congr rfl fun d _ => ?_
    exact mul_comm _ _
  rw [h]
  simp [polyRow, coefficients]

theorem poly_mulVec (axes : Fin 3 → Bool) (c : ℝ) (g : Fin 3 → ℝ) (X : Fin n → Point) :
    polyMatrix axes X *ᵥ coefficients axes c g = fun i => affine axes c g (X i) := by
  funext i
  exact polyRow_dot axes c g (X i)

/-- An affine function over the active axes is, on vertices which agree along the dropped axes, an affine
function over the remaining axes. -/
theorem affine_drop {axes : Fin 3 → Bool} (hle : ∀ d, axes d = true → active d = true) (c : ℝ) (g z : Fin 3 → ℝ) (x : Point)
    (hx : ∀ d, active d = true → axes d = false → x d = z d) :
    affine active c g x = affine axes (c + ∑ d, if active d = true ∧ axes d = false then g d * z d else 0) g x := by
  unfold affine
  rw [add_assoc, ← Finset.sum_add_distrib]
  refine congrArg _ (Finset.sum_congr rfl fun d _ => ?_)
  by_cases ha : active d = true
  · by_cases hb : axes d = true
    · simp [ha, hb]
    · have hb' : axes d = false := by simpa using hb
      simp [ha, hb', hx d ha hb']
  · have hb : ¬ axes d = true := fun hb => ha (hle d hb)
    simp [ha, hb]

/-- **Reproduction of affine functions, integrated polynomial.** A consistent mapping of the values of an
affine function of the coordinates (dead axes excluded) gives the values of this function at all output
vertices. -/
theorem C95_affine_integrated (e : Eigen) (spd : Bool) (φ : ℝ → ℝ) (X : Fin n → Point) (Y : Fin m → Point) (s : Solver n m .on active)
    (h : construct e spd φ .on active X Y = some s) (c : ℝ) (g : Fin 3 → ℝ) :
    (s.mapConsistent fun i => affine active c g (X i)) = fun k => affine active c g (Y k) := by
  have b := construct_built h
  set w : Dof n .on active → ℝ := Sum.elim 0 fun k => coefficients active c g k.1 with hw
  have hsum : ∀ r : Poly active → ℝ, ∑ k : {_k : Poly active // Polynomial.on = .on}, r k.1 * coefficients active c g k.1
      = ∑ k, r k * coefficients active c g k := by
    intro r
    exact Fintype.sum_equiv (Equiv.subtypeUnivEquiv fun _ => rfl) _ _ fun _ => rfl
  have h1 : s.C *ᵥ w = Sum.elim (fun i => affine active c g (X i)) 0 := by
    funext p
    rw [b.C]
    rcases p with i | k
    · rw [Sum.elim_inl, ← polyRow_dot, Matrix.mulVec, dotProduct, Fintype.sum_sum_type]
      simp only [hw, Sum.elim_inl, Sum.elim_inr, Pi.zero_apply, mul_zero, Finset.sum_const_zero, zero_add, clu_inr]
      exact hsum _
    · rw [Matrix.mulVec, dotProduct, Fintype.sum_sum_type]
      simp only [hw, Sum.elim_inl, Sum.elim_inr, Pi.zero_apply, mul_zero, Finset.sum_const_zero, zero_add, clu_inr_inr, zero_mul]
  have h2 : s.C⁻¹ *ᵥ Sum.elim (fun i => affine active c g (X i)) 0 = w := by
    rw [← h1, Matrix.mulVec_mulVec, Matrix.nonsing_inv_mul _ b.inv, Matrix.one_mulVec]
  unfold Solver.mapConsistent Solver.solveConsistent
  rw [if_neg (by decide), h2]
  funext k
  rw [b.A, ← polyRow_dot, Matrix.mulVec, dotProduct, Fintype.sum_sum_type]
  simp only [hw, Sum.elim_inl, Sum.elim_inr, Pi.zero_apply, mul_zero, Finset.sum_const_zero, zero_add, buildA]
  exact hsum _

/-- A separated polynomial is reproduced. -/
theorem separate_poly {e : Eigen} (he : e.Valid) {φ : ℝ → ℝ} {X : Fin n → Point} {Y : Fin m → Point} {s : Solver n m .separate active}
    (b : Built e φ X Y s) (hn : Fintype.card (Poly active) ≤ n) (c : Poly s.axes → ℝ) : s.mapConsistent (s.Q *ᵥ c) = s.V *ᵥ c := by
  unfold Solver.mapConsistent Solver.solveConsistent
  rw [if_pos rfl]
  have hp : (s.G *ᵥ fun i => (Sum.elim (s.Q *ᵥ c) 0 : Dof n .separate active → ℝ) (.inl i)) = c := by
    have : (fun i => (Sum.elim (s.Q *ᵥ c) 0 : Dof n .separate active → ℝ) (.inl i)) = s.Q *ᵥ c := rfl
    rw [this, Matrix.mulVec_mulVec, b.G_mul_Q he hn, Matrix.one_mulVec]
  simp only [hp]
  rw [sub_self, Matrix.mulVec_zero, Matrix.mulVec_zero, zero_add]

/-- **Reproduction of affine functions, separated polynomial**, if there are at least as many input vertices
as polynomial columns. If the mapping had to drop an axis (the input vertices lie almost in a hyperplane), the
input vertices have to agree along this axis and the function is reproduced at the output vertices which
agree as well. -/
theorem C95_affine_separated (e : Eigen) (he : e.Valid) (spd : Bool) (φ : ℝ → ℝ) (X : Fin n → Point) (Y : Fin m → Point)
    (s : Solver n m .separate active) (h : construct e spd φ .separate active X Y = some s) (hn : Fintype.card (Poly active) ≤ n)
    (c : ℝ) (g z : Fin 3 → ℝ) (hX : ∀ i d, active d = true → s.axes d = false → X i d = z d)
    (k : Fin m) (hY : ∀ d, active d = true → s.axes d = false → Y k d = z d) :
    (s.mapConsistent fun i => affine active c g (X i)) k = affine active c g (Y k) := by
  have b := construct_built h
  have h1 : (fun i => affine active c g (X i)) = s.Q *ᵥ coefficients s.axes
      (c + ∑ d, if active d = true ∧ s.axes d = false then g d * z d else 0) g := by
    rw [b.Q, poly_mulVec]
    funext i
    exact affine_drop b.axes_le c g z (X i) (hX i)
  rw [h1, separate_poly he b hn, b.V, poly_mulVec]
  exact (affine_drop b.axes_le c g z (Y k) hY).symm

/-- **Constants** are reproduced with a separated polynomial whenever there are at least as many input
vertices as polynomial columns. -/
theorem C95_constant_separated (e : Eigen) (he : e.Valid) (spd : Bool) (φ : ℝ → ℝ) (X : Fin n → Point) (Y : Fin m → Point)
    (s : Solver n m .separate active) (h : construct e spd φ .separate active X Y = some s) (hn : Fintype.card (Poly active) ≤ n) (c : ℝ) :
    (s.mapConsistent fun _ => c) = fun _ => c := by
  have b := construct_built h
  have h1 : ∀ {l : ℕ} (Z : Fin l → Point), polyMatrix s.axes Z *ᵥ coefficients s.axes c 0 = fun _ => c := by
    intro l Z
    rw [poly_mulVec]
    funext i
    simp [affine]
  have h2 : (fun _ : Fin n => c) = s.Q *ᵥ coefficients s.axes c 0 := by
    rw [b.Q, h1]
  rw [h2, separate_poly he b hn, b.V, h1]

theorem dot_mulVec_inv {ι : Type} [Fintype ι] [DecidableEq ι] {C : Matrix ι ι ℝ} (hC : Cᵀ = C) {A : Matrix (Fin m) ι ℝ} (u : Fin m → ℝ) (x : ι → ℝ) :
    u ⬝ᵥ (A *ᵥ (C⁻¹ *ᵥ x)) = (C⁻¹ *ᵥ (Aᵀ *ᵥ u)) ⬝ᵥ x := by
  have h1 : C⁻¹ᵀ = C⁻¹ := by rw [Matrix.transpose_nonsing_inv, hC]
  rw [Matrix.dotProduct_mulVec, Matrix.dotProduct_mulVec, ← Matrix.mulVec_transpose, ← Matrix.mulVec_transpose, h1]

theorem dot_elim {ι κ : Type} [Fintype ι] [Fintype κ] (μ : ι ⊕ κ → ℝ) (f : ι → ℝ) :
    μ ⬝ᵥ Sum.elim f 0 = (fun i => μ (.inl i)) ⬝ᵥ f := by
  unfold dotProduct
  rw [Fintype.sum_sum_type]
  simp

/-- **Conservative is the transpose of consistent**: for all values `f` and loads `u` the work is the same,
with and without polynomial. -/
theorem C95_adjoint (e : Eigen) (spd : Bool) (φ : ℝ → ℝ) (X : Fin n → Point) (Y : Fin m → Point) (s : Solver n m pol active)
    (h : construct e spd φ pol active X Y = some s) (f : Fin n → ℝ) (u : Fin m → ℝ) :
    ∑ k, u k * s.mapConsistent f k = ∑ i, s.mapConservative u i * f i := by
  have b := construct_built h
  have hC : s.Cᵀ = s.C := by rw [b.C, clu_symm]
  change u ⬝ᵥ s.mapConsistent f = s.mapConservative u ⬝ᵥ f
  unfold Solver.mapConsistent Solver.mapConservative Solver.solveConsistent Solver.solveConservative
  by_cases hp : pol = .separate
  · simp only [if_pos hp]
    set μ := s.C⁻¹ *ᵥ (s.Aᵀ *ᵥ u) with hμ
    rw [dotProduct_add, dot_mulVec_inv hC, ← hμ, dotProduct_sub, dot_elim, dot_elim]
    have hf : (fun i => (Sum.elim f 0 : Dof n pol active → ℝ) (.inl i)) = f := rfl
    rw [hf]
    have h1 : (fun i => (μ - Sum.elim (s.Gᵀ *ᵥ -(s.Vᵀ *ᵥ u - s.Qᵀ *ᵥ fun i => μ (.inl i))) 0 : Dof n pol active → ℝ) (.inl i))
        = (fun i => μ (.inl i)) + s.Gᵀ *ᵥ (s.Vᵀ *ᵥ u - s.Qᵀ *ᵥ fun i => μ (.inl i)) := by
      funext i
      rw [Pi.sub_apply, Sum.elim_inl, Matrix.mulVec_neg, Pi.neg_apply, sub_neg_eq_add]
      rfl
    rw [h1, add_dotProduct, Matrix.mulVec_transpose s.G, ← Matrix.dotProduct_mulVec, sub_dotProduct, Matrix.mulVec_transpose s.V,
      ← Matrix.dotProduct_mulVec, Matrix.mulVec_transpose s.Q, ← Matrix.dotProduct_mulVec]
    ring
  · simp only [if_neg hp]
    rw [dot_mulVec_inv hC, dot_elim]

/-- **Conservation, integrated polynomial.** The sum of the mapped values is the sum of the given values and
so are all moments with affine functions of the coordinates. -/
theorem C95_conservative_integrated (e : Eigen) (spd : Bool) (φ : ℝ → ℝ) (X : Fin n → Point) (Y : Fin m → Point) (s : Solver n m .on active)
    (h : construct e spd φ .on active X Y = some s) (u : Fin m → ℝ) :
    ∑ i, s.mapConservative u i = ∑ k, u k ∧
    ∀ d, active d = true → ∑ i, s.mapConservative u i * X i d = ∑ k, u k * Y k d := by
  have key : ∀ c g, ∑ i, s.mapConservative u i * affine active c g (X i) = ∑ k, u k * affine active c g (Y k) := by
    intro c g
    rw [← C95_adjoint e spd φ X Y s h, C95_affine_integrated e spd φ X Y s h c g]
  refine ⟨by simpa [affine] using key 1 0, fun d hd => ?_⟩
  have := key 0 (Pi.single d 1)
  simpa only [affine_single hd] using this

/-- **Conservation, separated polynomial**, if there are at least as many input vertices (of the consistent
direction) as polynomial columns: the sum is conserved, and so are the moments along the axes which are not
dropped. -/
theorem C95_conservative_separated (e : Eigen) (he : e.Valid) (spd : Bool) (φ : ℝ → ℝ) (X : Fin n → Point) (Y : Fin m → Point)
    (s : Solver n m .separate active) (h : construct e spd φ .separate active X Y = some s) (hn : Fintype.card (Poly active) ≤ n) (u : Fin m → ℝ) :
    ∑ i, s.mapConservative u i = ∑ k, u k ∧
    ∀ d, s.axes d = true → ∑ i, s.mapConservative u i * X i d = ∑ k, u k * Y k d := by
  have b := construct_built h
  have key : ∀ c g, ∑ i, s.mapConservative u i * affine s.axes c g (X i) = ∑ k, u k * affine s.axes c g (Y k) := by
    intro c g
    have h1 : (fun i => affine s.axes c g (X i)) = s.Q *ᵥ coefficients s.axes c g := by rw [b.Q, poly_mulVec]
    have h2 : (fun k => affine s.axes c g (Y k)) = s.V *ᵥ coefficients s.axes c g := by rw [b.V, poly_mulVec]
    have h3 := C95_adjoint e spd φ X Y s h (s.Q *ᵥ coefficients s.axes c g) u
    rw [separate_poly he b hn, ← h1, ← h2] at h3
    exact h3.symm
  refine ⟨by simpa [affine] using key 1 0, fun d hd => ?_⟩
  have := key 0 (Pi.single d 1)
  simpa only [affine_single hd] using this

/-- **Duplicated vertices** (equal in the active axes) are reported as an error. -/
theorem C95_duplicate_error (e : Eigen) (spd : Bool) (φ : ℝ → ℝ) (X : Fin n → Point) (Y : Fin m → Point) (i j : Fin n) (hij : i ≠ j)
    (hX : ∀ d, active d = true → X i d = X j d) : construct e spd φ pol active X Y = none := by
  rw [Option.eq_none_iff_forall_not_mem]
  intro s hs
  have b := construct_built (Option.mem_def.1 hs)
  have hrow : buildCLU (pol := pol) (active := active) φ X (.inl i) = buildCLU φ X (.inl j) := by
    rw [← A_row φ X X i i fun _ _ => rfl, ← A_row φ X X i j hX]
  have hdet := Matrix.det_zero_of_row_eq (fun h => hij (Sum.inl.inj h)) hrow
  have := b.inv
  rw [b.C, hdet] at this
  exact not_isUnit_zero this

end Verif.Rbf
