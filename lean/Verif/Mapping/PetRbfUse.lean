import Verif.Mapping.PetRbfExamples

/-!
Examples for the iterative radial basis function mapping, and three more differences to the direct one (C127): rescaling, input vertices in a plane, and unknown neighbours.
-/

set_option autoImplicit false

namespace Verif.PetRbf
open Matrix Verif.Rbf

variable {N M : ℕ} {active : Fin 3 → Bool} {φ : ℝ → ℝ} {X : Fin N → Point} {Y : Fin M → Point}

/-! ## Vertices which do not see each other -/

/-- No vertex is in the support of another one, and the basis function is one at zero. -/
def Apart (φ : ℝ → ℝ) (active : Fin 3 → Bool) (X : Fin N → Point) : Prop := ∀ i j, entry φ active (X i) (X j) = if i = j then 1 else 0

theorem Apart.clu {pol : Polynomial} (hp : pol ≠ .on) (h : Apart φ active X) : buildCLU (pol := pol) (active := active) φ X = 1 := by
  ext p q
  rcases p with i | k
  · rcases q with j | l
    · rw [clu_inl, h, Matrix.one_apply]
      simp
    · exact absurd l.2 hp
  · exact absurd k.2 hp

theorem Apart.off (h : Apart φ active X) (e : Eigen) (Y : Fin M → Point) : ∃ s, construct e true φ .off active X Y = some s := by
  unfold construct
  have hd : decomposable true (buildCLU (pol := .off) (active := active) φ X) = true := by
    rw [h.clu (by decide)]
    simp [decomposable, Matrix.PosDef.one]
  rw [if_neg (by decide), hd, if_pos rfl, if_neg (by decide)]
  exact ⟨_, rfl⟩

theorem Apart.separate (h : Apart φ active X) (hi : LinearIndependent ℝ (polyMatrix active X)ᵀ) (Y : Fin M → Point) :
    ∃ s, construct someEigen true φ .separate active X Y = some s ∧ s.axes = active := by
  unfold construct
  have hd : decomposable true (buildCLU (pol := .separate) (active := active) φ X) = true := by
    rw [h.clu (by decide)]
    simp [decomposable, Matrix.PosDef.one]
  have hill : someEigen.ill (polyMatrix active X) = false := by
    unfold someEigen
    simp [hi]
  rw [if_neg (by decide), hd, if_pos rfl, if_pos rfl]
  have hch : chooseAxes someEigen X 4 active = some active := by
    rw [chooseAxes, hill]
    rfl
  rw [hch]
  exact ⟨_, rfl, rfl⟩

theorem system_apart {pol : Polynomial} (hp : pol ≠ .on) (h : Apart φ active X) (Y : Fin M → Point) (f : Fin N → ℝ) (k : Fin M) :
    (buildA (pol := pol) (active := active) φ X Y *ᵥ ((buildCLU φ X)⁻¹ *ᵥ Sum.elim f 0)) k = ∑ j, entry φ active (Y k) (X j) * f j := by
  rw [h.clu hp, inv_one, Matrix.one_mulVec]
  unfold Matrix.mulVec dotProduct
  rw [Fintype.sum_sum_type]
  have : IsEmpty {_k : Poly active // pol = .on} := ⟨fun k => hp k.2⟩
  simp [buildA]

theorem Apart.value_off (h : Apart φ active X) {e : Eigen} {spd : Bool} {s : Solver N M .off active} (hs : construct e spd φ .off active X Y = some s) (f : Fin N → ℝ)
    (k : Fin M) : s.mapConsistent f k = ∑ j, entry φ active (Y k) (X j) * f j := by
  have b := construct_built hs
  unfold Solver.mapConsistent Solver.solveConsistent
  rw [if_neg (by decide), b.C, b.A, system_apart (by decide) h]

theorem Apart.value_separate (h : Apart φ active X) (hi : LinearIndependent ℝ (polyMatrix active X)ᵀ) {spd : Bool} {s : Solver N M .separate active}
    (hs : construct someEigen spd φ .separate active X Y = some s) (hax : s.axes = active) (hcard : Fintype.card (Poly active) ≤ N) {f : Fin N → ℝ} {c : ℝ} {g : Fin 3 → ℝ}
    (hf : Fits active X f c g) (k : Fin M) :
    s.mapConsistent f k = ∑ j, entry φ active (Y k) (X j) * (f j - affine active c g (X j)) + affine active c g (Y k) := by
  have b := construct_built hs
  have hG := solver_G someEigen_valid b hcard
  obtain ⟨C, A, axes, Q, V, G⟩ := s
  dsimp only at hax
  subst hax
  have bC := b.C
  have bA := b.A
  have bQ := b.Q
  have bV := b.V
  dsimp only at bC bA bQ bV hG
  have ha : G *ᵥ f = coefficients axes c g := by
    rw [hG, bQ, ← lsqr_eq (shortest_gram hi f)]
    exact lsqr_fits hi hf
  unfold Solver.mapConsistent Solver.solveConsistent
  simp only [if_pos]
  have h1 : (fun i => (Sum.elim f 0 : Dof N .separate axes → ℝ) (.inl i)) = f := rfl
  rw [h1, ha, elim_sub, bC, bA, bQ, bV, poly_mulVec, poly_mulVec, Pi.add_apply, system_apart (by decide) h]
  rfl

/-! ## Rescaling -/

/-- Three vertices on a line. -/
def spaced (i : Fin 3) : Point := ![(i : ℝ), 0, 0]

theorem line_distance (u v : Point) : √(squaredDifference line u v) = |u 0 - v 0| := by
  rw [← Real.sqrt_mul_self_eq_abs]
  simp [squaredDifference, line, Fin.sum_univ_three]

theorem spaced_apart : Apart compactC0 line spaced := by
  intro i j
  unfold entry
  rw [line_distance]
  fin_cases i <;> fin_cases j <;> simp [spaced, compactC0] <;> norm_num

theorem spaced_independent : LinearIndependent ℝ (polyMatrix line spaced)ᵀ := by
  refine Fintype.linearIndependent_iff.2 ?_
  intro g hg
  have hsum : ∀ i, ∑ k, g k * polyRow line (spaced i) k = 0 := fun i => by
    have := congrFun hg i
    simpa [polyMatrix] using this
  have hP : ∀ F : Poly line → ℝ, ∑ k, F k = F none + F (some ⟨0, rfl⟩) := by
    intro F
    have : (Finset.univ : Finset (Poly line)) = {none, some ⟨0, rfl⟩} := by decide
    rw [this, Finset.sum_pair (by decide)]
  have h0 := hsum 0
  have h1 := hsum 1
  rw [hP] at h0 h1
  simp [polyRow, spaced] at h0 h1
  intro k
  rcases k with _ | ⟨d, hd⟩
  · exact h0
  · fin_cases d
    · show g (some ⟨0, _⟩) = 0
      linarith
    · exact absurd hd (by decide)
    · exact absurd hd (by decide)

/-- The setting: `CompactPolynomialC0` with support radius one, separated polynomial, one axis. -/
noncomputable abbrev lineSetting : Setting := ⟨compactC0, some 1, .separate, line⟩

theorem compactC0_supported {pol : Polynomial} {active : Fin 3 → Bool} : Supported ⟨compactC0, some 1, pol, active⟩ := by
  intro R hR t ht
  cases hR
  exact if_pos ht

/-- The middle of the first two vertices. -/
noncomputable def middle (_ : Fin 1) : Point := ![1 / 2, 0, 0]

theorem middle_entry (j : Fin 3) : entry compactC0 line (middle 0) (spaced j) = ![1 / 4, 1 / 4, 0] j := by
  unfold entry
  rw [line_distance]
  fin_cases j
  · have : |middle 0 0 - spaced 0 0| = 1 / 2 := by simp [middle, spaced]
    show compactC0 |middle 0 0 - spaced 0 0| = 1 / 4
    rw [this]
    norm_num [compactC0]
  · have : |middle 0 0 - spaced 1 0| = 1 / 2 := by simp only [middle, spaced]; norm_num
    show compactC0 |middle 0 0 - spaced 1 0| = 1 / 4
    rw [this]
    norm_num [compactC0]
  · have : |middle 0 0 - spaced 2 0| = 3 / 2 := by simp only [middle, spaced]; norm_num [abs_of_neg]
    show compactC0 |middle 0 0 - spaced 2 0| = 0
    rw [this]
    norm_num [compactC0]

theorem spaced_level {pol : Polynomial} : Level spaced middle ⟨compactC0, some 1, pol, line⟩ := by
  intro _
  refine ⟨0, fun d hd => ?_⟩
  have hd' : line d = false := hd
  clear hd
  fin_cases d
  · exact absurd hd' (by decide)
  · exact ⟨fun i => by simp [spaced], fun k => by simp [middle]⟩
  · exact ⟨fun i => by simp [spaced], fun k => by simp [middle]⟩

/-- One at the vertex with index one, zero elsewhere. -/
def peak (i : ℕ) : ℝ := if i = 1 then 1 else 0

theorem peak_fits : Fits line spaced (fun i => peak i) (1 / 3) 0 := by
  constructor
  · rw [Fin.sum_univ_three]
    simp [peak, affine]
    norm_num
  · intro d hd
    fin_cases d
    · simp [Fin.sum_univ_three, peak, affine, spaced]
      norm_num
    · exact absurd hd (by decide)
    · exact absurd hd (by decide)

/-- **The rescaled mapping is not the direct one, and conservative is not its transpose.** For three vertices at 0, 1 and 2 and a vertex at 1/2, the values 0, 1, 0 are
mapped to 5/12 by the direct mapping and to 1/2 by the iterative one. The iterative conservative mapping of a unit load at 1/2 gives the vertex at 1 the value 5/12: the
work of the mapped load with the values 0, 1, 0 is 5/12, the work of the load with the mapped values is 1/2. -/
theorem C127_rescaled :
    ∃ s, construct someEigen true compactC0 .separate line spaced middle = some s ∧ s.mapConsistent (fun i => peak i) 0 = 5 / 12 ∧
      (mapConsistent (everywhere (fun _ => (0 : Fin 1)) spaced middle) lineSetting (fun _ i => peak i) 0)[0]? = some (1 / 2) ∧
      (mapConservative (everywhere (fun _ => (0 : Fin 1)) spaced middle) lineSetting (fun _ _ => 1) 0)[1]? = some (5 / 12) := by
  obtain ⟨s, hs, hax⟩ := spaced_apart.separate spaced_independent middle
  obtain ⟨s₀, hs₀⟩ := spaced_apart.off someEigen middle
  have hcard : Fintype.card (Poly line) ≤ 3 := by rw [card_poly]; decide
  have hdir : s.mapConsistent (fun i => peak i) 0 = 5 / 12 := by
    rw [spaced_apart.value_separate spaced_independent hs hax hcard peak_fits, Fin.sum_univ_three]
    simp only [middle_entry, affine, peak]
    norm_num [Matrix.cons_val_two]
  have hone : s₀.mapConsistent (fun _ => 1) 0 = 1 / 2 := by
    rw [spaced_apart.value_off hs₀, Fin.sum_univ_three]
    simp only [middle_entry]
    norm_num [Matrix.cons_val_two]
  have hd := everywhere_distributed (fun _ => (0 : Fin 1)) spaced middle lineSetting.support
  refine ⟨s, hs, hdir, ?_, ?_⟩
  · obtain ⟨w, hw, hc⟩ := C127_separated_partial (S := lineSetting) someEigen someEigen_valid someEigen_orderFree true rfl s hs s₀ hs₀ hcard hax compactC0_supported spaced_level
      hd _ _ (everywhere_holds _ spaced middle peak) (1 / 3) 0 peak_fits 0 0 _ 0 (everywhere_out _ spaced middle 0) rfl
    dsimp only at hc
    rw [hone, hdir] at hc
    have hfit : affine lineSetting.active (1 / 3) 0 (middle 0) = 1 / 3 := by simp [affine]
    rw [hfit, if_neg (by norm_num [abs_of_pos])] at hc
    have h2 := hc.1 (by norm_num [abs_of_pos])
    rw [hw, h2]
    norm_num
  · obtain ⟨w, hw, hc⟩ := (C127_conservative_partial (S := lineSetting) someEigen someEigen_valid someEigen_orderFree true s hs (fun _ => ⟨hcard, hax⟩) compactC0_supported
      spaced_level hd (everywhere_numbered _ _ _) (everywhere_length _ _ _) _ _ (everywhere_loaded _ spaced middle fun _ => 1) 0).2 1 ⟨1, spaced 1, true⟩ 1 rfl rfl
    rw [if_pos rfl] at hc
    have hadj := C95_adjoint someEigen true compactC0 spaced middle s hs (fun i => peak i) fun _ => 1
    rw [Fin.sum_univ_one, hdir, Fin.sum_univ_three] at hadj
    have hval : s.mapConservative (fun _ => 1) 1 = 5 / 12 := by
      simpa [peak] using hadj.symm
    have hval' : Solver.mapConservative (pol := lineSetting.pol) (active := lineSetting.active) s (fun _ => 1) 1 = 5 / 12 := hval
    rw [hval'] at hc
    rw [hw, hc.1 (by norm_num [abs_of_pos])]

/-! ## Vertices in a plane -/

/-- Three vertices with first coordinate one. -/
def upright (i : Fin 3) : Point := ![1, (i : ℝ), 0]

/-- A vertex next to them. -/
def aside (_ : Fin 1) : Point := ![3, 0, 0]

noncomputable abbrev flatSetting : Setting := ⟨compactC0, some 1, .separate, planar⟩

theorem upright_apart : Apart compactC0 planar upright := by
  intro i j
  unfold entry
  rw [squaredDifference_planar]
  fin_cases i <;> fin_cases j <;> simp [upright, compactC0] <;> norm_num [Real.one_le_sqrt, Real.le_sqrt]

/-- **Constants are not reproduced if the input vertices lie in a plane.** The direct mapping drops an axis and maps the constant one to one; the iterative one takes the shortest
of all fitting affine functions, here 1/2 + x/2, and maps the constant one to two at a vertex beside the plane x = 1. -/
theorem C127_flat :
    ∃ s, construct someEigen true compactC0 .separate planar upright aside = some s ∧ s.mapConsistent (fun _ => 1) 0 = 1 ∧
      (mapConsistent (everywhere (fun _ => (0 : Fin 1)) upright aside) flatSetting (fun _ _ => 1) 0)[0]? = some 2 := by
  have hcard : Fintype.card (Poly planar) ≤ 3 := by rw [card_poly]; decide
  have hex : ∃ s, construct someEigen true compactC0 .separate planar upright aside = some s := by
    unfold construct
    have hd : decomposable true (buildCLU (pol := .separate) (active := planar) compactC0 upright) = true := by
      rw [upright_apart.clu (by decide)]
      simp [decomposable, Matrix.PosDef.one]
    rw [if_neg (by decide), hd, if_pos rfl, if_pos rfl]
    obtain ⟨a, ha⟩ := Option.isSome_iff_exists.1 (C95_axes_terminate someEigen someEigen_valid upright planar)
    rw [ha]
    exact ⟨_, rfl⟩
  obtain ⟨s, hs⟩ := hex
  refine ⟨s, hs, congrFun (C95_constant_separated someEigen someEigen_valid true compactC0 upright aside s hs hcard 1) 0, ?_⟩
  have hd := everywhere_distributed (fun _ => (0 : Fin 1)) upright aside flatSetting.support
  have hQ := matrixQ_eq (S := flatSetting) hd
  -- the shortest solution
  have hfit : ∀ {L : ℕ} (σ : Fin L ≃ Fin 3), polyMatrix planar (upright ∘ σ) *ᵥ coefficients planar (1 / 2) ![1 / 2, 0, 0] = fun _ => 1 := by
    intro L σ
    rw [poly_mulVec]
    funext i
    simp [affine, planar, upright, Fin.sum_univ_three]
    norm_num
  have hshort : Shortest (polyMatrix planar (upright ∘ hd.order)) (fun _ => 1) (coefficients planar (1 / 2) ![1 / 2, 0, 0]) := by
    refine ⟨by rw [hfit], fun p => if hd.order p = 0 then 1 / 2 else 0, ?_⟩
    funext k
    unfold Matrix.mulVec dotProduct
    have hsum : ∑ p, (polyMatrix planar (upright ∘ hd.order))ᵀ k p * (if hd.order p = 0 then 1 / 2 else 0) = polyRow planar (upright 0) k * (1 / 2) := by
      rw [Finset.sum_eq_single (hd.order.symm 0)]
      · simp [polyMatrix]
      · intro p _ hp
        rw [if_neg (fun h => hp (by rw [← h]; simp)), mul_zero]
      · simp
    rw [hsum]
    rcases k with _ | ⟨d, hd⟩
    · simp [coefficients, polyRow]
    · fin_cases d
      · simp [coefficients, polyRow, upright]
      · simp [coefficients, polyRow, upright]
      · exact absurd hd (by decide)
  have hval : ∀ k : Fin (outRows (everywhere (fun _ => (0 : Fin 1)) upright aside)).length,
      solveConsistent (everywhere (fun _ => (0 : Fin 1)) upright aside) flatSetting (fun _ => 1) k = 2 := by
    intro k
    unfold solveConsistent
    rw [if_pos (show flatSetting.pol = .separate from rfl)]
    have hl : lsqr (matrixQ (everywhere (fun _ => (0 : Fin 1)) upright aside) flatSetting) (fun _ => 1) = coefficients planar (1 / 2) ![1 / 2, 0, 0] := by
      rw [hQ]
      exact lsqr_eq hshort
    have hrest : (fun _ => (1 : ℝ)) - matrixQ (everywhere (fun _ => (0 : Fin 1)) upright aside) flatSetting *ᵥ coefficients planar (1 / 2) ![1 / 2, 0, 0] = 0 := by
      rw [hQ]
      exact sub_eq_zero.2 (hfit _).symm
    have hzero : (Sum.elim 0 0 : Dof (rows (everywhere (fun _ => (0 : Fin 1)) upright aside)).length flatSetting.pol flatSetting.active → ℝ) = 0 := by
      funext p
      rcases p with p | p <;> rfl
    have hV : (matrixV (everywhere (fun _ => (0 : Fin 1)) upright aside) flatSetting *ᵥ coefficients planar (1 / 2) ![1 / 2, 0, 0]) k = 2 := by
      obtain ⟨l, hl⟩ := outPoints_spec hd k
      have h1 : (matrixV (everywhere (fun _ => (0 : Fin 1)) upright aside) flatSetting *ᵥ coefficients planar (1 / 2) ![1 / 2, 0, 0]) k
          = affine planar (1 / 2) ![1 / 2, 0, 0] (outPoints (everywhere (fun _ => (0 : Fin 1)) upright aside) k) :=
        congrFun (poly_mulVec planar (1 / 2) ![1 / 2, 0, 0] (outPoints (everywhere (fun _ => (0 : Fin 1)) upright aside))) k
      rw [h1, hl]
      simp [affine, planar, aside, Fin.sum_univ_three]
      norm_num
    simp only [hl, hrest, hzero, Matrix.mulVec_zero, Pi.zero_apply, zero_div, zero_add, hV]
    norm_num [filter]
  unfold mapConsistent
  rw [slice_outs _ (fun _ => 2) (fun k => hval k)]
  exact congrArg (Option.map fun _ => (2 : ℝ)) (everywhere_out _ upright aside 0)

/-! ## Neighbours which a rank does not know -/

/-- Two vertices, closer to each other than the support radius. -/
noncomputable def close (i : Fin 2) : Point := ![(i : ℝ) / 2, 0, 0]

/-- Each rank owns one of them. The first rank does not know the second vertex; the output is the first vertex, on the second rank. -/
noncomputable def halo : Fin 2 → Part
  | 0 => ⟨[⟨0, close 0, true⟩], []⟩
  | 1 => ⟨[⟨0, close 0, false⟩, ⟨1, close 1, true⟩], [(0, close 0)]⟩

noncomputable abbrev offSetting : Setting := ⟨compactC0, some 1, .off, line⟩

theorem halo_rows : rows halo = [(0, ⟨0, close 0, true⟩, 0), (1, ⟨1, close 1, true⟩, 1)] := rfl

theorem halo_outRows : outRows halo = [(1, (0, close 0), 0)] := rfl

theorem halo_near (i j : Fin 2) : near (some 1) (close i) (close j) := by
  rintro R ⟨⟩
  rw [Real.sqrt_lt' one_pos]
  fin_cases i <;> fin_cases j <;> simp [squaredDifference, close, Fin.sum_univ_three] <;> norm_num

/-- The row of the vertex of the first rank. -/
noncomputable def row₀ : Fin (rows halo).length := (0 : Fin 2)

/-- The row of the vertex of the second rank. -/
noncomputable def row₁ : Fin (rows halo).length := (1 : Fin 2)

theorem halo_column (i : Fin 2) : column halo i.1 = some (show Fin (rows halo).length from i) := by
  fin_cases i <;> rfl

theorem halo_entry : entryOf halo (some 1) 0 (close 0) row₀ = some ⟨0, close 0, true⟩ ∧
    entryOf halo (some 1) 0 (close 0) row₁ = none ∧
    ∀ i : Fin 2, entryOf halo (some 1) 1 (close i) row₀ = some ⟨0, close 0, false⟩ ∧
      entryOf halo (some 1) 1 (close i) row₁ = some ⟨1, close 1, true⟩ := by
  have c0 : column halo 0 = some row₀ := halo_column 0
  have c1 : column halo 1 = some row₁ := halo_column 1
  have h01 : row₀ ≠ row₁ := fun h => absurd (congrArg Fin.val h) (by decide)
  unfold entryOf
  refine ⟨?_, ?_, fun i => ⟨?_, ?_⟩⟩
  · show List.find? _ [_] = _
    rw [List.find?_cons_of_pos]
    simp [halo_near, c0]
  · show List.find? _ [_] = _
    rw [List.find?_cons_of_neg, List.find?_nil]
    simp [halo_near, c0, h01]
  · show List.find? _ [_, _] = _
    rw [List.find?_cons_of_neg, List.find?_cons_of_pos]
    · simp [halo_near, c0]
    · simp [halo_near, c1, h01.symm]
  · show List.find? _ [_, _] = _
    rw [List.find?_cons_of_pos]
    simp [halo_near, c1]

theorem close_entry (i j : Fin 2) : entry compactC0 line (close i) (close j) = if i = j then 1 else 1 / 4 := by
  unfold entry
  rw [line_distance]
  fin_cases i <;> fin_cases j <;> simp [close, compactC0] <;> norm_num

theorem halo_matrixC : matrixC halo offSetting = 1 := by
  obtain ⟨h1, h2, h3⟩ := halo_entry
  ext p q
  rcases p with p | p
  · rcases q with q | q
    · have e00 : upper halo offSetting row₀ row₀ = 1 := by
        show (entryOf halo (some 1) 0 (close 0) _).elim 0 _ = _
        rw [h1]
        exact (close_entry 0 0).trans (if_pos rfl)
      have e01 : upper halo offSetting row₀ row₁ = 0 := by
        show (entryOf halo (some 1) 0 (close 0) _).elim 0 _ = _
        rw [h2]
        rfl
      have e11 : upper halo offSetting row₁ row₁ = 1 := by
        show (entryOf halo (some 1) 1 (close 1) _).elim 0 _ = _
        rw [(h3 1).2]
        exact (close_entry 1 1).trans (if_pos rfl)
      change Fin 2 at p q
      show (if p ≤ q then upper halo offSetting p q else upper halo offSetting q p) = _
      fin_cases p <;> fin_cases q
      · exact (if_pos (le_refl _)).trans (e00.trans (Matrix.one_apply_eq _).symm)
      · refine (if_pos (by decide)).trans (e01.trans (Matrix.one_apply_ne fun h => ?_).symm)
        exact absurd (congrArg Fin.val (Sum.inl.inj h)) (by decide)
      · refine (if_neg (by decide)).trans (e01.trans (Matrix.one_apply_ne fun h => ?_).symm)
        exact absurd (congrArg Fin.val (Sum.inl.inj h)) (by decide)
      · exact (if_pos (le_refl _)).trans (e11.trans (Matrix.one_apply_eq _).symm)
    · exact absurd q.2 (by simp)
  · exact absurd p.2 (by simp)

/-- **The result depends on what the ranks know**: if a rank does not know a vertex in the support of a vertex it owns, the mapping is no longer an interpolation. Here the vertices
are at 0 and 1/2 with the values 0 and 1, and the iterative mapping gives the value 1/4 at 0. On one rank (or if the first rank knew the second vertex) the value is 0. -/
theorem C127_halo :
    (mapConsistent halo offSetting (fun _ i => i) 1)[0]? = some (1 / 4) ∧ Holds halo (fun _ i => i) ![0, (1 : ℝ)] ∧
      ∀ (e : Eigen) (spd : Bool) (s : Solver 2 1 .off line), construct e spd compactC0 .off line close (fun _ => close 0) = some s → s.mapConsistent ![0, (1 : ℝ)] 0 = 0 := by
  obtain ⟨-, -, h3⟩ := halo_entry
  refine ⟨?_, ?_, fun e spd s hs => C95_interpolates e spd compactC0 close _ s hs _ 0 0 fun d _ => rfl⟩
  · have hval : ∀ k, solveConsistent halo offSetting (fun p => (((rows halo)[p].2.2 : ℕ) : ℝ)) k = 1 / 4 := by
      intro k
      unfold solveConsistent
      rw [if_neg (show ¬ offSetting.pol = .separate by decide), halo_matrixC, inv_one, Matrix.one_mulVec]
      have hk : k = (show Fin (outRows halo).length from (0 : Fin 1)) := Fin.ext (by have := k.2; simp [halo_outRows] at this; exact this)
      have hsum : (matrixA halo offSetting *ᵥ Sum.elim (fun p => (((rows halo)[p].2.2 : ℕ) : ℝ)) 0) k = 1 / 4 := by
        have hempty : IsEmpty {_k : Poly offSetting.active // offSetting.pol = .on} := ⟨fun k => absurd k.2 (by simp)⟩
        have ha : matrixA halo offSetting k (.inl row₁) = 1 / 4 := by
          rw [hk]
          show (entryOf halo (some 1) 1 (close 0) _).elim 0 _ = _
          rw [(h3 0).2]
          exact (close_entry 0 1).trans (if_neg (by decide))
        unfold Matrix.mulVec dotProduct
        rw [Fintype.sum_sum_type]
        have hfin : ∀ F : Fin (rows halo).length → ℝ, ∑ p, F p = F row₀ + F row₁ :=
          fun F => Fin.sum_univ_two (show Fin 2 → ℝ from F)
        rw [hfin, Fintype.sum_empty, add_zero, Sum.elim_inl, Sum.elim_inl]
        dsimp only
        rw [ha]
        have v0 : (((rows halo)[row₀].2.2 : ℕ) : ℝ) = 0 := by
          show ((0 : ℕ) : ℝ) = 0
          simp
        have v1 : (((rows halo)[row₁].2.2 : ℕ) : ℝ) = 1 := by
          show ((1 : ℕ) : ℝ) = 1
          simp
        rw [v0, v1]
        norm_num
      rw [hsum]
      norm_num [filter, abs_of_pos]
    unfold mapConsistent
    rw [slice_outs _ (fun _ => 1 / 4) hval]
    rfl
  · intro r i v hg hv ho
    fin_cases r
    · have hv' : [(⟨0, close 0, true⟩ : Vertex)][i]? = some v := hv
      rcases i with _ | i
      · cases hv'
        simp
      · simp at hv'
    · have hv' : [(⟨0, close 0, false⟩ : Vertex), ⟨1, close 1, true⟩][i]? = some v := hv
      rcases i with _ | _ | i
      · cases hv'
        exact absurd ho (by decide)
      · cases hv'
        simp
      · simp at hv'

/-! ## The hypotheses can be met -/

/-- A basis function without compact support, integrated polynomial, two ranks that own one vertex each. -/
noncomputable abbrev onSetting : Setting := ⟨fun r => |r|, none, .on, line⟩

theorem onSetting_supported : Supported onSetting := fun R hR => absurd hR (by simp)

theorem onSetting_level {X : Fin N → Point} {Y : Fin M → Point} : Level X Y onSetting := fun h => absurd rfl h

example (vals : ℕ → ℝ) (loads : ℕ → ℝ) (Y : Fin M → Point) : ∃ s : Solver 2 M .on line,
    let P := everywhere (n := 1) (fun i => i) ![![0, 0, 0], ![2, 7, 0]] Y
    (∀ k : Fin M, ∃ w, (mapConsistent P onSetting (fun _ => vals) 0)[k.1]? = some w ∧ Chopped w (s.mapConsistent (fun i => vals i) k)) ∧
    (∀ i : Fin 2, ∃ w, (mapConservative P onSetting (fun _ => loads) i)[i.1]? = some w ∧ Chopped w (s.mapConservative (fun k => loads k) i)) ∧
    |∑ r, (mapConservative P onSetting (fun _ => loads) r).sum - ∑ k : Fin M, loads k| ≤ (2 : ℕ) * 1e-9 := by
  obtain ⟨s, hs⟩ := line_constructs Y
  have hd := everywhere_distributed (n := 1) (fun i : Fin 2 => i) ![![0, 0, 0], ![2, 7, 0]] Y none
  refine ⟨s, fun k => ?_, fun i => ?_, ?_⟩
  · exact (C127_consistent_partial (S := onSetting) someEigen someEigen_valid someEigen_orderFree false (by decide) s hs onSetting_supported onSetting_level hd _ _
      (everywhere_holds _ _ Y vals) 0).2 k.1 (k.1, Y k) k (everywhere_out _ _ _ k) rfl
  · obtain ⟨w, hw, hc⟩ := (C127_conservative_partial (S := onSetting) someEigen someEigen_valid someEigen_orderFree false s hs (fun h => absurd h (by decide)) onSetting_supported
      onSetting_level hd (everywhere_numbered _ _ _) (everywhere_length _ _ _) _ _ (everywhere_loaded _ _ Y loads) i).2 i.1 ⟨i.1, _, true⟩ i (by fin_cases i <;> rfl) rfl
    exact ⟨w, hw, by simpa using hc⟩
  · exact C127_conserves_partial (S := onSetting) someEigen someEigen_valid someEigen_orderFree false s hs (by decide) (fun h => absurd h (by decide)) onSetting_supported
      onSetting_level hd (everywhere_numbered _ _ _) (everywhere_length _ _ _) _ _ (everywhere_loaded _ _ Y loads)

/-- Separated polynomial: three vertices on a line, owned by three ranks. Affine data are reproduced at any point of the line, whatever its support is. -/
example (c a t : ℝ) : ∃ w, (mapConsistent (everywhere (n := 2) (fun i => i) spaced fun _ : Fin 1 => ![t, 0, 0]) lineSetting (fun _ i => c + a * i) 0)[0]? = some w ∧
    Chopped w (c + a * t) := by
  obtain ⟨s, hs, hax⟩ := spaced_apart.separate spaced_independent fun _ : Fin 1 => ![t, 0, 0]
  obtain ⟨s₀, hs₀⟩ := spaced_apart.off someEigen fun _ : Fin 1 => ![t, 0, 0]
  have hcard : Fintype.card (Poly line) ≤ 3 := by rw [card_poly]; decide
  have hl : Level spaced (fun _ : Fin 1 => ![t, 0, 0]) lineSetting := by
    intro _
    refine ⟨0, fun d hd => ?_⟩
    have hd' : line d = false := hd
    clear hd
    fin_cases d
    · exact absurd hd' (by decide)
    · exact ⟨fun i => by simp [spaced], fun k => by simp⟩
    · exact ⟨fun i => by simp [spaced], fun k => by simp⟩
  have hh : Holds (everywhere (n := 2) (fun i => i) spaced fun _ : Fin 1 => ![t, 0, 0]) (fun _ i => c + a * i) fun i => affine line c ![a, 0, 0] (spaced i) := by
    have h1 := everywhere_holds (n := 2) (fun i : Fin 3 => i) spaced (fun _ : Fin 1 => ![t, 0, 0]) fun i => c + a * i
    have h2 : (fun i : Fin 3 => affine line c ![a, 0, 0] (spaced i)) = fun i : Fin 3 => c + a * ((i.1 : ℕ) : ℝ) := by
      funext i
      simp [affine, line, spaced, Fin.sum_univ_three]
    rw [h2]
    exact h1
  obtain ⟨w, hw, hc⟩ := C127_separated_affine_partial (S := lineSetting) someEigen someEigen_valid someEigen_orderFree true rfl s hs s₀ hs₀ hcard hax compactC0_supported hl
    (everywhere_distributed (n := 2) (fun i : Fin 3 => i) spaced _ _) _ c ![a, 0, 0] hh 0 0 _ 0 (everywhere_out _ _ _ 0) rfl
  refine ⟨w, hw, ?_⟩
  have h2 : affine lineSetting.active c ![a, 0, 0] ![t, 0, 0] = c + a * t := by simp [affine, line, Fin.sum_univ_three]
  rw [← h2]
  exact hc

/-- Two ranks and one rank agree, with separated polynomial. -/
example : (mapConsistent (everywhere (n := 2) (fun i => i) spaced middle) lineSetting (fun _ i => peak i) 0)[0]? = some (1 / 2) := by
  obtain ⟨s, hs, hax⟩ := spaced_apart.separate spaced_independent middle
  obtain ⟨s₀, hs₀⟩ := spaced_apart.off someEigen middle
  have hcard : Fintype.card (Poly line) ≤ 3 := by rw [card_poly]; decide
  obtain ⟨-, -, -, hone, -⟩ := C127_rescaled
  rw [← hone]
  exact C127_distribution_partial (S := lineSetting) someEigen someEigen_valid someEigen_orderFree true s hs s₀ (fun _ => ⟨hs₀, hcard, hax⟩) compactC0_supported spaced_level
    (everywhere_distributed _ _ _ _) (everywhere_distributed _ _ _ _) _ _ _ (everywhere_holds _ spaced middle peak) (everywhere_holds _ spaced middle peak) 0 0 0 0 _ _
    (everywhere_out _ spaced middle 0) (everywhere_out _ spaced middle 0) rfl

/-- Small constants are lost. -/
example (Y : Fin 1 → Point) : (mapConsistent (everywhere (n := 1) (fun i => i) ![![0, 0, 0], ![2, 7, 0]] Y) onSetting (fun _ _ => 1e-10) 0)[0]? = some 0 := by
  obtain ⟨s, hs⟩ := line_constructs Y
  exact (C127_small_constant (S := onSetting) someEigen someEigen_valid someEigen_orderFree false rfl s hs onSetting_supported onSetting_level
    (everywhere_distributed (n := 1) (fun i : Fin 2 => i) ![![0, 0, 0], ![2, 7, 0]] Y none) _ 1e-10 (by norm_num [abs_of_pos]) (everywhere_holds _ _ Y fun _ => 1e-10) 0 0 _ 0
    (everywhere_out _ _ Y 0) rfl).2

/-- A dead axis: the vertices coincide in the plane and are five apart along the dead axis. -/
example (F : ℝ) : ∃ s, construct someEigen true compactC0 .off planar (fun _ : Fin 1 => 0) (fun _ : Fin 1 => ![0, 0, 5]) = some s ∧ s.mapConsistent (fun _ => F) 0 = F ∧
    (mapConsistent (everywhere (n := 0) (fun _ => 0) (fun _ : Fin 1 => 0) fun _ : Fin 1 => ![0, 0, 5]) ⟨compactC0, some 1, .off, planar⟩ (fun _ _ => F) 0)[0]? = some 0 := by
  have ha : Apart compactC0 planar fun _ : Fin 1 => (0 : Point) := by
    intro i j
    rw [if_pos (Subsingleton.elim _ _)]
    simp [entry, squaredDifference, compactC0]
  obtain ⟨s, hs⟩ := ha.off someEigen fun _ : Fin 1 => ![0, 0, 5]
  refine ⟨s, hs, ?_⟩
  refine C127_dead_axis (S := ⟨compactC0, some 1, .off, planar⟩) someEigen true rfl s hs _ _ 0 0 (0, ![0, 0, 5]) 0 (everywhere_out _ _ _ 0) 0 (fun d hd => ?_) fun v hv hn => ?_
  · have hd' : planar d = true := hd
    clear hd
    fin_cases d
    · rfl
    · rfl
    · exact absurd hd' (by decide)
  · obtain ⟨hg, hx⟩ := (everywhere_distributed (n := 0) (fun _ => 0) (fun _ : Fin 1 => (0 : Point)) (fun _ : Fin 1 => ![0, 0, 5]) none).ins 0 v hv
    have := hn 1 rfl
    rw [hx, Real.sqrt_lt' one_pos] at this
    simp [squaredDifference, Fin.sum_univ_three] at this
    norm_num at this

end Verif.PetRbf
