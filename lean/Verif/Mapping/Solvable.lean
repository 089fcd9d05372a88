import Verif.Mapping.BasisDefinite
import Verif.Mapping.RbfOrder
import Verif.Mapping.BasisProps

set_option autoImplicit false

/-!
C114: for which vertices and basis functions the interpolation system of a radial basis function mapping can be set
up.  `Rbf.construct` is the constructor of the solver, `none` is the error message about the decomposition.
-/

namespace Verif.Rbf
open Matrix Verif.Basis Verif.Definite

variable {n m : ℕ} {pol : Polynomial} {active : Fin 3 → Bool}

/-- No two input vertices agree in all active coordinates. -/
def Distinct (active : Fin 3 → Bool) (X : Fin n → Point) : Prop :=
  ∀ i j, (∀ d, active d = true → X i d = X j d) → i = j

/-- The input vertices determine affine functions of the active coordinates: they do not lie in a common line or plane
(of the space of active coordinates). -/
def Spanning (active : Fin 3 → Bool) (X : Fin n → Point) : Prop :=
  ∀ c g, (∀ i, affine active c g (X i) = 0) → c = 0 ∧ ∀ d, active d = true → g d = 0

/-! ## From the model to quadratic forms -/

/-- The active coordinates. -/
def masked (active : Fin 3 → Bool) (X : Fin n → Point) (i : Fin n) : Point := fun d => if active d then X i d else 0

theorem squaredDifference_eq (X : Fin n → Point) (i j : Fin n) :
    squaredDifference active (X i) (X j) = sq (masked active X) i j := by
  unfold squaredDifference Definite.sq masked
  refine Finset.sum_congr rfl fun d _ => ?_
  cases active d <;> simp [pow_two]

theorem masked_injective {X : Fin n → Point} (h : Distinct active X) : Function.Injective (masked active X) := fun i j e =>
  h i j fun d hd => by simpa [masked, hd] using congrFun e d

/-- The kernel part of the system. -/
noncomputable def kernel (φ : ℝ → ℝ) (active : Fin 3 → Bool) (X : Fin n → Point) (i j : Fin n) : ℝ := entry φ active (X i) (X j)

theorem kernel_eq (φ : ℝ → ℝ) (X : Fin n → Point) (i j : Fin n) : kernel φ active X i j = φ √(sq (masked active X) i j) := by
  rw [kernel, entry, squaredDifference_eq]

theorem construct_isSome {e : Eigen} (he : e.Valid) (spd : Bool) (φ : ℝ → ℝ) (X : Fin n → Point) (Y : Fin m → Point) :
    (construct e spd φ pol active X Y).isSome
      ↔ ¬(spd = true ∧ pol = .on) ∧ decomposable spd (buildCLU (pol := pol) (active := active) φ X) = true := by
  unfold construct
  split
  · rename_i h
    simp [h]
  · rename_i h
    split
    · rename_i hd
      split
      · simp only [Option.isSome_map, C95_axes_terminate e he X active, true_iff]
        exact ⟨h, hd⟩
      · simp only [Option.map_some, Option.isSome_some, true_iff]
        exact ⟨h, hd⟩
    · rename_i hd
      simp [hd]

theorem dot_clu (φ : ℝ → ℝ) (X : Fin n → Point) (hp : pol ≠ .on) (v : Dof n pol active → ℝ) :
    v ⬝ᵥ (buildCLU (pol := pol) (active := active) φ X *ᵥ v) = form (kernel φ active X) fun i => v (.inl i) := by
  have : IsEmpty {_k : Poly active // pol = .on} := ⟨fun k => hp k.2⟩
  simp only [dotProduct, mulVec, Fintype.sum_sum_type, Finset.univ_eq_empty, Finset.sum_empty, add_zero, form, clu_inl, Finset.mul_sum]
  refine Finset.sum_congr rfl fun i _ => Finset.sum_congr rfl fun j _ => ?_
  rw [kernel]
  ring

theorem inl_ne_zero (hp : pol ≠ .on) {v : Dof n pol active → ℝ} (hv : v ≠ 0) : (fun i => v (.inl i)) ≠ 0 := fun h => hv <| by
  funext p
  rcases p with i | k
  · exact congrFun h i
  · exact absurd k.2 hp

/-- A kernel with positive form passes the Cholesky decomposition. -/
theorem decomposable_of_pos (φ : ℝ → ℝ) (X : Fin n → Point) (hp : pol ≠ .on)
    (h : ∀ c : Fin n → ℝ, c ≠ 0 → 0 < form (kernel φ active X) c) (spd : Bool) :
    decomposable spd (buildCLU (pol := pol) (active := active) φ X) = true := by
  have hpd : (buildCLU (pol := pol) (active := active) φ X).PosDef := by
    refine Matrix.PosDef.of_dotProduct_mulVec_pos (clu_symm φ X) fun v hv => ?_
    have := h _ (inl_ne_zero hp hv)
    rwa [← dot_clu φ X hp v] at this
  cases spd
  · simpa [decomposable] using isUnit_iff_ne_zero.2 hpd.det_pos.ne'
  · simpa [decomposable] using hpd

/-- A kernel that fails to have a positive form does not. -/
theorem not_decomposable (φ : ℝ → ℝ) (X : Fin n → Point) (hp : pol ≠ .on) (c : Fin n → ℝ) (hc : c ≠ 0)
    (h : form (kernel φ active X) c ≤ 0) : decomposable true (buildCLU (pol := pol) (active := active) φ X) = false := by
  simp only [decomposable, if_true, decide_eq_false_iff_not]
  intro hpd
  have hv : (Sum.elim c 0 : Dof n pol active → ℝ) ≠ 0 := fun e => hc (funext fun i => congrFun e (.inl i))
  have := hpd.dotProduct_mulVec_pos hv
  rw [star_trivial, dot_clu φ X hp] at this
  exact absurd this (not_lt.mpr h)

/-- Weights with `K c = 0`. -/
theorem form_of_zero (K : Fin n → Fin n → ℝ) (c : Fin n → ℝ) (h : ∀ i, ∑ j, K i j * c j = 0) : form K c = 0 := by
  simp only [form]
  refine Finset.sum_eq_zero fun i _ => ?_
  have := congrArg (c i * ·) (h i)
  simp only [Finset.mul_sum, mul_zero] at this
  rw [← this]
  exact Finset.sum_congr rfl fun j _ => by ring

/-- A symmetric kernel that is negative on weights with sum zero and positive on the constant weights is regular. -/
theorem regular_of_neg (K : Fin n → Fin n → ℝ) (hs : ∀ i j, K i j = K j i)
    (hneg : ∀ c : Fin n → ℝ, c ≠ 0 → ∑ i, c i = 0 → form K c < 0) (hone : 0 < ∑ i, ∑ j, K i j)
    (c : Fin n → ℝ) (h : ∀ i, ∑ j, K i j * c j = 0) : c = 0 := by
  by_contra hc
  by_cases h0 : ∑ i, c i = 0
  · exact absurd (form_of_zero K c h) (hneg c hc h0).ne
  · set S := ∑ i, c i with hS
    have hrow : ∀ j, ∑ i, K i j * c i = 0 := fun j => by
      rw [← h j]
      exact Finset.sum_congr rfl fun i _ => by rw [hs]
    set w : Fin n → ℝ := fun i => 1 - n / S * c i with hw
    have hw0 : ∑ i, w i = 0 := by
      simp only [hw, Finset.sum_sub_distrib, ← Finset.mul_sum, ← hS]
      simp [div_mul_cancel₀ _ h0]
    have hfw : form K w = ∑ i, ∑ j, K i j := by
      have h1 : ∀ i, ∑ j, w i * w j * K i j = w i * ∑ j, K i j := fun i => by
        have e : ∀ j, w i * w j * K i j = w i * K i j - w i * (n / S) * (K i j * c j) := fun j => by simp only [hw]; ring
        simp only [e, Finset.sum_sub_distrib, ← Finset.mul_sum, h]
        ring
      simp only [form, h1]
      have h2 : ∑ i, w i * ∑ j, K i j = ∑ i, ∑ j, K i j - n / S * ∑ i, c i * ∑ j, K i j := by
        rw [Finset.mul_sum, ← Finset.sum_sub_distrib]
        exact Finset.sum_congr rfl fun i _ => by simp only [hw]; ring
      have h3 : ∑ i, c i * ∑ j, K i j = 0 := by
        simp only [Finset.mul_sum]
        rw [Finset.sum_comm]
        refine Finset.sum_eq_zero fun j _ => ?_
        rw [← hrow j]
        exact Finset.sum_congr rfl fun i _ => mul_comm _ _
      rw [h2, h3, mul_zero, sub_zero]
    by_cases hwz : w = 0
    · rw [hwz] at hfw
      have : form K 0 = 0 := by simp [form]
      rw [this] at hfw
      exact absurd hfw hone.ne
    · have := hneg w hwz hw0
      rw [hfw] at this
      exact absurd this (not_lt.mpr hone.le)

/-- A regular kernel passes the rank-revealing decomposition. -/
theorem decomposable_of_regular (φ : ℝ → ℝ) (X : Fin n → Point) (hp : pol ≠ .on)
    (h : ∀ c : Fin n → ℝ, (∀ i, ∑ j, kernel φ active X i j * c j = 0) → c = 0) :
    decomposable false (buildCLU (pol := pol) (active := active) φ X) = true := by
  have he : IsEmpty {_k : Poly active // pol = .on} := ⟨fun k => hp k.2⟩
  simp only [decomposable, Bool.false_eq_true, if_false, decide_eq_true_eq, isUnit_iff_ne_zero]
  intro hdet
  obtain ⟨v, hv, hz⟩ := Matrix.exists_mulVec_eq_zero_iff.mpr hdet
  refine inl_ne_zero hp hv (h _ fun i => ?_)
  have := congrFun hz (.inl i)
  simp only [mulVec, dotProduct, Fintype.sum_sum_type, Finset.univ_eq_empty, Finset.sum_empty, add_zero, clu_inl, Pi.zero_apply] at this
  exact this

/-- With the polynomial in the system it is enough that the form vanishes for no weights which are orthogonal to the
polynomial. -/
theorem decomposable_on (φ : ℝ → ℝ) (X : Fin n → Point) (hX : Spanning active X)
    (h : ∀ c : Fin n → ℝ, c ≠ 0 → ∑ i, c i = 0 → (∀ d, ∑ i, c i * masked active X i d = 0) → form (kernel φ active X) c ≠ 0) :
    decomposable false (buildCLU (pol := .on) (active := active) φ X) = true := by
  simp only [decomposable, Bool.false_eq_true, if_false, decide_eq_true_eq, isUnit_iff_ne_zero]
  intro hdet
  obtain ⟨v, hv, hz⟩ := Matrix.exists_mulVec_eq_zero_iff.mpr hdet
  set c : Fin n → ℝ := fun i => v (.inl i) with hc
  set b : Poly active → ℝ := fun k => v (.inr ⟨k, rfl⟩) with hb
  have hsum : ∀ f : {_k : Poly active // Polynomial.on = .on} → ℝ, ∑ k, f k = ∑ k : Poly active, f ⟨k, rfl⟩ := fun f =>
    Fintype.sum_equiv (Equiv.subtypeUnivEquiv fun _ => rfl) _ _ fun _ => rfl
  have h1 : ∀ i, ∑ j, kernel φ active X i j * c j + polyRow active (X i) ⬝ᵥ b = 0 := fun i => by
    have := congrFun hz (.inl i)
    simp only [mulVec, dotProduct, Fintype.sum_sum_type, clu_inl, clu_inr, Pi.zero_apply, hsum] at this
    exact this
  have h2 : ∀ k, ∑ i, polyRow active (X i) k * c i = 0 := fun k => by
    have := congrFun hz (.inr ⟨k, rfl⟩)
    simp only [mulVec, dotProduct, Fintype.sum_sum_type, clu_inr', clu_inr_inr, Pi.zero_apply, hsum, zero_mul,
      Finset.sum_const_zero, add_zero] at this
    exact this
  have hcz : c = 0 := by
    by_contra hne
    refine h c hne ?_ (fun d => ?_) ?_
    · simpa [polyRow] using h2 none
    · by_cases hd : active d = true
      · have := h2 (some ⟨d, hd⟩)
        simp only [masked, hd, if_true]
        rw [← this]
        exact Finset.sum_congr rfl fun i _ => by simp [polyRow, mul_comm]
      · simp [masked, hd]
    · have h3 : form (kernel φ active X) c = ∑ i, c i * ∑ j, kernel φ active X i j * c j := by
        simp only [form, Finset.mul_sum]
        exact Finset.sum_congr rfl fun i _ => Finset.sum_congr rfl fun j _ => by ring
      have h4 : ∀ i, ∑ j, kernel φ active X i j * c j = -(polyRow active (X i) ⬝ᵥ b) := fun i => eq_neg_of_add_eq_zero_left (h1 i)
      rw [h3]
      simp only [h4, dotProduct, mul_neg, Finset.sum_neg_distrib, Finset.mul_sum]
      rw [Finset.sum_comm, neg_eq_zero]
      refine Finset.sum_eq_zero fun k _ => ?_
      have := congrArg (· * b k) (h2 k)
      simp only [Finset.sum_mul, zero_mul] at this
      rw [← this]
      exact Finset.sum_congr rfl fun i _ => by ring
  have hbz : b = 0 := by
    have h3 : ∀ i, polyRow active (X i) ⬝ᵥ b = 0 := fun i => by
      have := h1 i
      simpa [hcz] using this
    set g : Fin 3 → ℝ := fun d => if hd : active d = true then b (some ⟨d, hd⟩) else 0 with hg
    have hbg : b = coefficients active (b none) g := by
      funext k
      rcases k with _ | ⟨d, hd⟩
      · rfl
      · simp [coefficients, hg, hd]
    obtain ⟨h4, h5⟩ := hX (b none) g fun i => by
      rw [← polyRow_dot, ← hbg]
      exact h3 i
    funext k
    rcases k with _ | ⟨d, hd⟩
    · exact h4
    · have := h5 d hd
      simpa [hg, hd] using this
  refine hv (funext fun p => ?_)
  rcases p with i | k
  · exact congrFun hcz i
  · exact congrFun hbz k.1

/-! ## The property -/

/-- Distinct vertices are necessary for every basis function. -/
theorem distinct_of_isSome {e : Eigen} {spd : Bool} {φ : ℝ → ℝ} {X : Fin n → Point} {Y : Fin m → Point}
    (h : (construct e spd φ pol active X Y).isSome) : Distinct active X := fun i j hij => by
  by_contra hne
  rw [C95_duplicate_error e spd φ X Y i j hne hij] at h
  simp at h

/-- With the integrated polynomial, spanning vertices are necessary for every basis function. -/
theorem spanning_of_isSome {e : Eigen} {spd : Bool} {φ : ℝ → ℝ} {X : Fin n → Point} {Y : Fin m → Point}
    (h : (construct e spd φ .on active X Y).isSome) : Spanning active X := fun c g hcg => by
  obtain ⟨s, hs⟩ := Option.isSome_iff_exists.mp h
  have h1 := construct_built hs
  have h2 : Matrix.det s.C ≠ 0 := h1.inv.ne_zero
  have h3 : (Sum.elim 0 fun k => coefficients active c g k.1 : Dof n .on active → ℝ) = 0 := by
    by_contra hne
    refine h2 (Matrix.exists_mulVec_eq_zero_iff.mp ⟨_, hne, ?_⟩)
    funext p
    rw [h1.C]
    rcases p with i | k
    · rw [Matrix.mulVec, dotProduct, Fintype.sum_sum_type]
      simp only [Sum.elim_inl, Sum.elim_inr, Pi.zero_apply, mul_zero, Finset.sum_const_zero, zero_add, clu_inr]
      rw [← hcg i, ← polyRow_dot]
      exact Fintype.sum_equiv (Equiv.subtypeUnivEquiv fun _ => rfl) _ _ fun _ => rfl
    · rw [Matrix.mulVec, dotProduct, Fintype.sum_sum_type]
      simp only [Sum.elim_inl, Sum.elim_inr, Pi.zero_apply, mul_zero, Finset.sum_const_zero, zero_add, clu_inr_inr, zero_mul]
  exact ⟨congrFun h3 (.inr ⟨none, rfl⟩), fun d hd => congrFun h3 (.inr ⟨some ⟨d, hd⟩, rfl⟩)⟩

theorem quadratic_kernel (φ : ℝ → ℝ) (X : Fin n → Point) (c : Fin n → ℝ) :
    form (kernel φ active X) c = quadratic φ (masked active X) c := by
  rw [quadratic_eq]
  congr 1
  funext i j
  exact kernel_eq φ X i j

/-- **Compactly supported polynomials and inverse multiquadrics** can be set up exactly for distinct vertices. -/
theorem C114_definite {e : Eigen} (he : e.Valid) (kind : Kind) (hk : Basis.Definite kind) (R shape : ℝ) (f : Fn)
    (hf : constructRBF kind R shape = some f) (hp : pol ≠ .on) (X : Fin n → Point) (Y : Fin m → Point) :
    (construct e f.definite f.eval pol active X Y).isSome ↔ Distinct active X := by
  refine ⟨distinct_of_isSome, fun hX => (construct_isSome he _ _ X Y).mpr ⟨fun h => hp h.2, decomposable_of_pos _ X hp (fun c hc => ?_) _⟩⟩
  rw [quadratic_kernel]
  exact C98_definite kind hk R shape f hf _ (masked_injective hX) c hc

/-- **Compact thin plate splines** can be set up for vertices whose distances are at least 1e-14 of the support radius, below which the
code changes the function. -/
theorem C114_compact_spline {e : Eigen} (he : e.Valid) (R shape : ℝ) (f : Fn) (hf : constructRBF .thinPlateC2 R shape = some f)
    (hp : pol ≠ .on) (X : Fin n → Point) (Y : Fin m → Point)
    (hsep : ∀ i j, i ≠ j → R * tiny ≤ √(squaredDifference active (X i) (X j))) :
    (construct e f.definite f.eval pol active X Y).isSome := by
  refine (construct_isSome he _ _ X Y).mpr ⟨fun h => hp h.2, decomposable_of_pos _ X hp (fun c hc => ?_) _⟩
  rw [quadratic_kernel]
  refine C98_definite_spline R shape f hf _ (fun i j hij => ?_) c hc
  have := hsep i j hij
  rwa [squaredDifference_eq] at this

/-- The **Gaussian** can be set up for distinct vertices within one support radius of each other. -/
theorem C114_gaussian_partial {e : Eigen} (he : e.Valid) (R shape : ℝ) (f : Fn) (hf : constructRBF .gaussian R shape = some f)
    (hp : pol ≠ .on) (X : Fin n → Point) (Y : Fin m → Point) (hX : Distinct active X)
    (hr : ∀ i j, √(squaredDifference active (X i) (X j)) ≤ gaussianRadius shape) :
    (construct e f.definite f.eval pol active X Y).isSome := by
  refine (construct_isSome he _ _ X Y).mpr ⟨fun h => hp h.2, decomposable_of_pos _ X hp (fun c hc => ?_) _⟩
  rw [quadratic_kernel]
  refine C98_definite_gaussian_partial R shape f hf _ (masked_injective hX) (fun i j => ?_) c hc
  have := hr i j
  rwa [squaredDifference_eq] at this

theorem masked_line {d : Fin 3} (hd : active d = true) (s : ℝ) : masked active (line d s) = line d s := by
  funext i e
  unfold masked
  by_cases he : active e = true
  · rw [if_pos he]
  · have hne : e ≠ d := fun h => he (h ▸ hd)
    rw [if_neg he]
    fin_cases i
    · rfl
    · simp [line, Pi.single_eq_of_ne hne]
    · simp [line, Pi.single_eq_of_ne hne]

/-- **Disagreement: the Gaussian is refused for some distinct vertices.** -/
theorem C114_gaussian_refused {e : Eigen} (he : e.Valid) (R shape : ℝ) (f : Fn) (hf : constructRBF .gaussian R shape = some f)
    (d : Fin 3) (hd : active d = true) (Y : Fin m → Point) :
    Distinct active (line d shape) ∧ construct e f.definite f.eval pol active (line d shape) Y = none := by
  obtain ⟨hdef, hinj, c, hc, hneg⟩ := C98_gaussian_indefinite R shape f hf d
  have hX : Distinct active (line d shape) := fun i j hij => hinj <| by
    rw [← masked_line hd shape]
    funext a
    unfold masked
    by_cases ha : active a = true
    · rw [if_pos ha, if_pos ha, hij a ha]
    · rw [if_neg ha, if_neg ha]
  refine ⟨hX, ?_⟩
  rw [Option.eq_none_iff_forall_not_mem]
  intro s hs
  have h1 : (construct e f.definite f.eval pol active (line d shape) Y).isSome := by
    rw [Option.mem_def.1 hs]
    rfl
  obtain ⟨h2, h3⟩ := (construct_isSome he _ _ _ Y).mp h1
  have hp : pol ≠ .on := fun h => h2 ⟨hdef, h⟩
  rw [hdef, not_decomposable f.eval (line d shape) hp c hc] at h3
  · simp at h3
  · rw [quadratic_kernel, masked_line hd]
    exact hneg.le

/-- Two vertices at distance one. -/
def unitPair (d : Fin 3) : Fin 2 → Point
  | 0 => 0
  | 1 => Pi.single d 1

/-- **Disagreement: thin plate splines are refused for some distinct vertices**, unless the polynomial is part of the system: for two
vertices at distance one the matrix is zero. -/
theorem C114_thin_plate_refused {e : Eigen} (R shape : ℝ) (f : Fn) (hf : constructRBF .thinPlate R shape = some f) (hp : pol ≠ .on)
    (d : Fin 3) (hd : active d = true) (Y : Fin m → Point) :
    Distinct active (unitPair d) ∧ construct e f.definite f.eval pol active (unitPair d) Y = none := by
  obtain rfl := Option.some.inj hf
  constructor
  · intro i j h
    have := h d hd
    fin_cases i <;> fin_cases j <;> simp_all [unitPair]
  · rw [Option.eq_none_iff_forall_not_mem]
    intro s hs
    have b := construct_built (Option.mem_def.1 hs)
    refine b.inv.ne_zero (Matrix.det_eq_zero_of_row_eq_zero (.inl 0) fun p => ?_)
    rw [b.C]
    rcases p with j | k
    · have h1 : squaredDifference active (unitPair d 0) (unitPair d 1) = 1 := by
        unfold squaredDifference
        rw [Finset.sum_eq_single d]
        · simp [unitPair, hd]
        · intro a _ ha
          simp [unitPair, Pi.single_eq_of_ne ha]
        · simp
      have h0 : squaredDifference active (unitPair d 0) (unitPair d 0) = 0 := by simp [squaredDifference]
      rw [clu_inl, entry]
      fin_cases j
      · simp [h0, thinPlate, C98_power]
      · have : max (1 : ℝ) tiny = 1 := max_eq_left tiny_lt_one.le
        simp [h1, thinPlate, C98_power, this]
    · exact absurd k.2 hp

/-- The entries of multiquadrics and volume splines. -/
theorem multiquadrics_eq (shape : ℝ) (X : Fin n → Point) (i j : Fin n) :
    kernel (multiquadrics shape) active X i j = √(shape ^ 2 + sq (masked active X) i j) := by
  rw [kernel_eq, multiquadrics, C98_power, C98_power, Real.sq_sqrt (sq_nonneg _ i j)]

theorem volume_eq (X : Fin n → Point) (i j : Fin n) : kernel volume active X i j = √(0 + sq (masked active X) i j) := by
  rw [kernel_eq, volume, zero_add, abs_of_nonneg (Real.sqrt_nonneg _)]

theorem multiquadrics_form {X : Fin n → Point} (hX : Distinct active X) (shape : ℝ) {c : Fin n → ℝ} (hc : c ≠ 0) (h0 : ∑ i, c i = 0) :
    form (kernel (multiquadrics shape) active X) c < 0 := by
  rw [show kernel (multiquadrics shape) active X = _ from funext fun i => funext fun j => multiquadrics_eq shape X i j]
  exact sqrt_neg (masked_injective hX) (by positivity) hc h0

theorem volume_form {X : Fin n → Point} (hX : Distinct active X) {c : Fin n → ℝ} (hc : c ≠ 0) (h0 : ∑ i, c i = 0) :
    form (kernel volume active X) c < 0 := by
  rw [show kernel volume active X = _ from funext fun i => funext fun j => volume_eq X i j]
  exact sqrt_neg (masked_injective hX) le_rfl hc h0

/-- **Multiquadrics** with a nonzero shape parameter, with no or a separate polynomial, can be set up exactly for
distinct vertices. -/
theorem C114_multiquadrics {e : Eigen} (he : e.Valid) (R shape : ℝ) (hs : shape ≠ 0) (f : Fn)
    (hf : constructRBF .multiquadrics R shape = some f) (hp : pol ≠ .on) (X : Fin n → Point) (Y : Fin m → Point) :
    (construct e f.definite f.eval pol active X Y).isSome ↔ Distinct active X := by
  refine ⟨distinct_of_isSome, fun hX => ?_⟩
  obtain rfl := Option.some.inj hf
  refine (construct_isSome he _ _ X Y).mpr ⟨fun h => hp h.2, decomposable_of_regular _ X hp fun c hc => ?_⟩
  rcases Nat.eq_zero_or_pos n with rfl | hn
  · exact Subsingleton.elim _ _
  refine regular_of_neg _ (fun i j => ?_) (fun c hc h0 => ?_) ?_ c hc
  · exact entry_comm _ _ _
  · exact multiquadrics_form hX shape hc h0
  · have : Nonempty (Fin n) := ⟨⟨0, hn⟩⟩
    refine Finset.sum_pos (fun i _ => Finset.sum_pos (fun j _ => ?_) Finset.univ_nonempty) Finset.univ_nonempty
    rw [multiquadrics_eq]
    exact Real.sqrt_pos.mpr (add_pos_of_pos_of_nonneg (by positivity) (sq_nonneg _ i j))

/-- **Volume splines**, with no or a separate polynomial, can be set up exactly for distinct vertices, if there is more
than one. -/
theorem C114_volume {e : Eigen} (he : e.Valid) (R shape : ℝ) (f : Fn) (hf : constructRBF .volume R shape = some f) (hp : pol ≠ .on)
    (X : Fin n → Point) (Y : Fin m → Point) (hn : n ≠ 1) :
    (construct e f.definite f.eval pol active X Y).isSome ↔ Distinct active X := by
  refine ⟨distinct_of_isSome, fun hX => ?_⟩
  obtain rfl := Option.some.inj hf
  refine (construct_isSome he _ _ X Y).mpr ⟨fun h => hp h.2, decomposable_of_regular _ X hp fun c hc => ?_⟩
  rcases Nat.eq_zero_or_pos n with rfl | hn0
  · exact Subsingleton.elim _ _
  refine regular_of_neg _ (fun i j => ?_) (fun c hc h0 => ?_) ?_ c hc
  · exact entry_comm _ _ _
  · exact volume_form hX hc h0
  · have hnn : ∀ i j, 0 ≤ kernel volume active X i j := fun i j => by rw [volume_eq]; exact Real.sqrt_nonneg _
    refine Finset.sum_pos' (fun i _ => Finset.sum_nonneg fun j _ => hnn i j) ⟨⟨0, hn0⟩, Finset.mem_univ _, ?_⟩
    refine Finset.sum_pos' (fun j _ => hnn _ j) ⟨⟨1, by omega⟩, Finset.mem_univ _, ?_⟩
    rw [volume_eq, zero_add]
    refine Real.sqrt_pos.mpr (sq_pos fun e => ?_)
    have := masked_injective hX e
    simp at this

/-- A single vertex cannot be used with volume splines or thin plate splines, unless the polynomial is part of the
system. -/
theorem C114_single {e : Eigen} (kind : Kind) (hk : kind = .volume ∨ kind = .thinPlate) (R shape : ℝ) (f : Fn)
    (hf : constructRBF kind R shape = some f) (hp : pol ≠ .on) (X : Fin 1 → Point) (Y : Fin m → Point) :
    construct e f.definite f.eval pol active X Y = none := by
  have he : IsEmpty {_k : Poly active // pol = .on} := ⟨fun k => hp k.2⟩
  have h0 : f.eval 0 = 0 := by
    rcases hk with rfl | rfl <;> obtain rfl := Option.some.inj hf
    · simp [volume]
    · simp [thinPlate, C98_power]
  rw [Option.eq_none_iff_forall_not_mem]
  intro s hs
  have b := construct_built (Option.mem_def.1 hs)
  refine b.inv.ne_zero (Matrix.det_eq_zero_of_row_eq_zero (.inl 0) fun p => ?_)
  rw [b.C]
  rcases p with j | k
  · rw [clu_inl, Subsingleton.elim j 0, entry, squaredDifference_eq, sq_self, Real.sqrt_zero, h0]
  · exact absurd k.2 hp

/-- **Multiquadrics and volume splines with the polynomial in the system** can be set up exactly for distinct, spanning
vertices. -/
theorem C114_integrated {e : Eigen} (he : e.Valid) (kind : Kind) (hk : kind = .multiquadrics ∨ kind = .volume) (R shape : ℝ) (f : Fn)
    (hf : constructRBF kind R shape = some f) (X : Fin n → Point) (Y : Fin m → Point) :
    (construct e f.definite f.eval .on active X Y).isSome ↔ Distinct active X ∧ Spanning active X := by
  refine ⟨fun h => ⟨distinct_of_isSome h, spanning_of_isSome h⟩, fun ⟨hX, hS⟩ => ?_⟩
  rcases hk with rfl | rfl <;> obtain rfl := Option.some.inj hf
  · refine (construct_isSome he _ _ X Y).mpr ⟨by simp, decomposable_on _ X hS fun c hc h0 _ => ?_⟩
    exact (multiquadrics_form hX shape hc h0).ne
  · refine (construct_isSome he _ _ X Y).mpr ⟨by simp, decomposable_on _ X hS fun c hc h0 _ => ?_⟩
    exact (volume_form hX hc h0).ne

/-- Functions that declare themselves strictly positive definite are refused with the polynomial in the system, with an error message
(RadialBasisFctMapping.hpp:89). -/
theorem C114_integrated_refused {e : Eigen} (kind : Kind) (hk : Basis.Definite kind ∨ kind = .thinPlateC2 ∨ kind = .gaussian) (R shape : ℝ) (f : Fn)
    (hf : constructRBF kind R shape = some f) (X : Fin n → Point) (Y : Fin m → Point) : construct e f.definite f.eval .on active X Y = none := by
  have hd : f.definite = true := by
    rcases hk with (rfl | rfl | rfl | rfl | rfl | rfl) | rfl | rfl <;> simp only [constructRBF, compact] at hf <;> split at hf <;>
      first
      | (obtain rfl := Option.some.inj hf; rfl)
      | cases hf
  unfold construct
  rw [if_pos ⟨hd, rfl⟩]

/-- **Thin plate splines with the polynomial in the system** can be set up for spanning vertices whose distances are at
least 1e-14, below which the code changes the function. -/
theorem C114_thin_plate_integrated {e : Eigen} (he : e.Valid) (R shape : ℝ) (f : Fn)
    (hf : constructRBF .thinPlate R shape = some f) (X : Fin n → Point) (Y : Fin m → Point) (hS : Spanning active X)
    (hsep : ∀ i j, i ≠ j → tiny ^ 2 ≤ squaredDifference active (X i) (X j)) :
    (construct e f.definite f.eval .on active X Y).isSome := by
  obtain rfl := Option.some.inj hf
  have hX : Distinct active X := fun i j hij => by
    by_contra hne
    have h1 := hsep i j hne
    have h2 : squaredDifference active (X i) (X j) = 0 := by
      unfold squaredDifference
      refine Finset.sum_eq_zero fun d _ => ?_
      by_cases hd : active d = true
      · simp [hij d hd]
      · simp [hd]
    rw [h2] at h1
    exact absurd h1 (not_le.mpr (pow_pos tiny_pos 2))
  refine (construct_isSome he _ _ X Y).mpr ⟨by simp, decomposable_on _ X hS fun c hc h0 h1 => ?_⟩
  have h2 := log_pos (masked_injective hX) hc h0 h1
  have h3 : form (kernel thinPlate active X) c
      = 1 / 2 * form (fun i j => sq (masked active X) i j * Real.log (sq (masked active X) i j)) c := by
    rw [← form_smul]
    congr 1
    funext i j
    rw [kernel_eq, thinPlate, C98_power, Real.sq_sqrt (sq_nonneg _ i j)]
    by_cases hij : i = j
    · rw [hij, sq_self]
      simp
    · have h4 : tiny ≤ √(sq (masked active X) i j) := by
        rw [← squaredDifference_eq]
        exact Real.le_sqrt_of_sq_le (hsep i j hij)
      rw [max_eq_left h4, Real.log_sqrt (sq_nonneg _ i j)]
      ring
  rw [h3]
  positivity

end Verif.Rbf
