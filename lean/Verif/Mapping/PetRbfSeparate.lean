import Verif.Mapping.PetRbfProps

/-!
The iterative radial basis function mapping with separated polynomial, conservation, and independence of the distribution (C127).
-/

set_option autoImplicit false

namespace Verif.PetRbf
open Matrix Verif.Rbf

variable {n N M : ℕ} {P : Fin (n + 1) → Part} {X : Fin N → Point} {Y : Fin M → Point} {S : Setting}

/-- The affine function `c + ∑ g d · x d` fits the values `F` best: the residual is orthogonal to the constant and to all coordinates. -/
def Fits (active : Fin 3 → Bool) (X : Fin N → Point) (F : Fin N → ℝ) (c : ℝ) (g : Fin 3 → ℝ) : Prop :=
  ∑ i, (F i - affine active c g (X i)) = 0 ∧ ∀ d, active d = true → ∑ i, (F i - affine active c g (X i)) * X i d = 0

/-! ## Systems without integrated polynomial -/

instance {active : Fin 3 → Bool} : IsEmpty {_k : Poly active // Polynomial.separate = .on} := ⟨fun k => by simpa using k.2⟩
instance {active : Fin 3 → Bool} : IsEmpty {_k : Poly active // Polynomial.off = .on} := ⟨fun k => by simpa using k.2⟩

/-- Without integrated polynomial the unknowns are the same. -/
def unknowns (L : ℕ) (active : Fin 3 → Bool) : Dof L .separate active ≃ Dof L .off active := Equiv.sumCongr (Equiv.refl _) (Equiv.equivOfIsEmpty _ _)

theorem system_off {L K : ℕ} {active : Fin 3 → Bool} (φ : ℝ → ℝ) (X : Fin L → Point) (Y : Fin K → Point) (f : Fin L → ℝ) :
    buildA (pol := .separate) (active := active) φ X Y *ᵥ ((buildCLU φ X)⁻¹ *ᵥ Sum.elim f 0)
    = buildA (pol := .off) (active := active) φ X Y *ᵥ ((buildCLU φ X)⁻¹ *ᵥ Sum.elim f 0) := by
  have hC : buildCLU (pol := .separate) (active := active) φ X = (buildCLU (pol := .off) (active := active) φ X).submatrix (unknowns L active) (unknowns L active) := by
    ext p q
    rcases p with i | k
    · rcases q with j | l
      · rw [clu_inl, Matrix.submatrix_apply]
        exact (clu_inl φ X i j).symm
      · exact isEmptyElim l
    · exact isEmptyElim k
  have hA : buildA (pol := .separate) (active := active) φ X Y = (buildA (pol := .off) (active := active) φ X Y).submatrix id (unknowns L active) := by
    ext i q
    rcases q with j | l
    · rfl
    · exact isEmptyElim l
  have hf : (Sum.elim f 0 : Dof L .separate active → ℝ) ∘ (unknowns L active).symm = (Sum.elim f 0 : Dof L .off active → ℝ) := by
    funext q
    rcases q with j | l
    · rfl
    · exact isEmptyElim l
  rw [hC, hA, Matrix.inv_submatrix_equiv, Matrix.submatrix_mulVec_equiv, Matrix.submatrix_mulVec_equiv, hf]
  funext i
  simp [Function.comp_def]

theorem fits_normal {active : Fin 3 → Bool} {F : Fin N → ℝ} {c : ℝ} {g : Fin 3 → ℝ} (h : Fits active X F c g) :
    (polyMatrix active X)ᵀ *ᵥ (polyMatrix active X *ᵥ coefficients active c g) = (polyMatrix active X)ᵀ *ᵥ F := by
  rw [poly_mulVec]
  funext k
  unfold Matrix.mulVec dotProduct
  have h0 : ∑ i, (F i - affine active c g (X i)) * polyRow active (X i) k = 0 := by
    cases k with
    | none => simpa [polyRow] using h.1
    | some d => exact h.2 d.1 d.2
  have h1 : ∑ i, (F i - affine active c g (X i)) * polyRow active (X i) k = ∑ i, (polyMatrix active X)ᵀ k i * F i - ∑ i, (polyMatrix active X)ᵀ k i * affine active c g (X i) := by
    rw [← Finset.sum_sub_distrib]
    refine Finset.sum_congr rfl fun i _ => ?_
    show _ = polyRow active (X i) k * F i - polyRow active (X i) k * affine active c g (X i)
    ring
  rw [h1] at h0
  linarith

theorem lsqr_fits {active : Fin 3 → Bool} (hi : LinearIndependent ℝ (polyMatrix active X)ᵀ) {F : Fin N → ℝ} {c : ℝ} {g : Fin 3 → ℝ} (h : Fits active X F c g) :
    lsqr (polyMatrix active X) F = coefficients active c g := by
  have hu := gram_unit hi
  refine lsqr_eq ⟨fits_normal h, polyMatrix active X *ᵥ (((polyMatrix active X)ᵀ * polyMatrix active X)⁻¹ *ᵥ coefficients active c g), ?_⟩
  rw [Matrix.mulVec_mulVec, Matrix.mulVec_mulVec, Matrix.mul_nonsing_inv _ hu, Matrix.one_mulVec]

theorem fits_renumber {active : Fin 3 → Bool} {L : ℕ} (σ : Fin L ≃ Fin N) {F : Fin N → ℝ} {c : ℝ} {g : Fin 3 → ℝ} (h : Fits active X F c g) :
    Fits active (X ∘ σ) (F ∘ σ) c g :=
  ⟨(Equiv.sum_comp σ fun i => F i - affine active c g (X i)).trans h.1,
    fun d hd => (Equiv.sum_comp σ fun i => (F i - affine active c g (X i)) * X i d).trans (h.2 d hd)⟩

/-- There is always a best fitting function. -/
theorem exists_fits (active : Fin 3 → Bool) (X : Fin N → Point) (F : Fin N → ℝ) : ∃ c g, Fits active X F c g := by
  obtain ⟨a, h, -⟩ := exists_shortest (polyMatrix active X) F
  let g : Fin 3 → ℝ := fun d => if hd : active d = true then a (some ⟨d, hd⟩) else 0
  have ha : a = coefficients active (a none) g := by
    funext k
    cases k with
    | none => rfl
    | some d =>
      show a (some d) = g d.1
      simp only [g]
      rw [dif_pos d.2]
  refine ⟨a none, g, ?_⟩
  rw [ha, poly_mulVec] at h
  have key : ∀ k, ∑ i, (F i - affine active (a none) g (X i)) * polyRow active (X i) k = 0 := by
    intro k
    have h1 := congrFun h k
    unfold Matrix.mulVec dotProduct at h1
    have h2 : ∑ i, (F i - affine active (a none) g (X i)) * polyRow active (X i) k
        = ∑ i, (polyMatrix active X)ᵀ k i * F i - ∑ i, (polyMatrix active X)ᵀ k i * affine active (a none) g (X i) := by
      rw [← Finset.sum_sub_distrib]
      refine Finset.sum_congr rfl fun i _ => ?_
      show _ = polyRow active (X i) k * F i - polyRow active (X i) k * affine active (a none) g (X i)
      ring
    rw [h2]
    exact sub_eq_zero.2 h1.symm
  exact ⟨by simpa [polyRow] using key none, fun d hd => key (some ⟨d, hd⟩)⟩

/-! ## Consistent mapping with separated polynomial -/

theorem solve_separate (hp : S.pol = .separate) (hsup : Supported S) (hl : Level X Y S) (h : Distributed P X Y S.support) {e : Eigen} (he : e.Valid) {spd : Bool}
    {s' : Solver (rows P).length (outRows P).length S.pol S.active} (hs : construct e spd S.φ S.pol S.active (X ∘ h.order) (outPoints P) = some s')
    {s₀ : Solver (rows P).length (outRows P).length .off S.active} (hs₀ : construct e spd S.φ .off S.active (X ∘ h.order) (outPoints P) = some s₀)
    (hcard : Fintype.card (Poly S.active) ≤ N) (hax : s'.axes = S.active) {f : Fin (rows P).length → ℝ} {c : ℝ} {g : Fin 3 → ℝ} (hf : Fits S.active (X ∘ h.order) f c g)
    (i : Fin (outRows P).length) :
    solveConsistent P S f i = filter 1e-9 ((s'.mapConsistent f i - affine S.active c g (outPoints P i)) / filter 1e-6 (s₀.mapConsistent (fun _ => 1) i)
      + affine S.active c g (outPoints P i)) := by
  have b := construct_built hs
  have b₀ := construct_built hs₀
  have hC := matrixC_eq hsup hl h
  have hA := matrixA_eq hsup hl h
  have hQ := matrixQ_eq (S := S) h
  have hN : (rows P).length = N := by simpa using Fintype.card_congr h.order
  have hV : matrixV P S = polyMatrix S.active (outPoints P) := rfl
  obtain ⟨φ, sup, pol, active⟩ := S
  dsimp only at hp
  subst hp
  obtain ⟨C, A, axes, Q, V, G⟩ := s'
  dsimp only at hax
  subst hax
  have bC := b.C
  have bA := b.A
  have bQ := b.Q
  have bV := b.V
  have hG := solver_G he b (hcard.trans hN.symm.le)
  have hi := b.independent he (hcard.trans hN.symm.le)
  dsimp only at bC bA bQ bV hG hi hC hA hQ hV hf
  have ha : lsqr Q f = coefficients axes c g := by
    rw [bQ] at hi ⊢
    exact lsqr_fits hi hf
  have ha' : G *ᵥ f = coefficients axes c g := by
    rw [← ha, hG, lsqr_eq (shortest_gram hi f)]
  have hone : oneInterpolant P ⟨φ, sup, .separate, axes⟩ i = filter 1e-6 (s₀.mapConsistent (fun _ => 1) i) := by
    unfold oneInterpolant Solver.mapConsistent Solver.solveConsistent
    rw [if_neg (by decide), b₀.C, b₀.A, hC, hA]
    have h1 : (fun _ => 1 : Dof (rows P).length .separate axes → ℝ) = Sum.elim (fun _ => 1) 0 := by
      funext q
      rcases q with j | l
      · rfl
      · exact isEmptyElim l
    exact congrArg (filter 1e-6) (by rw [h1]; exact congrFun (system_off φ _ _ _) i)
  have hpoly : V *ᵥ coefficients axes c g = fun k => affine axes c g (outPoints P k) := by rw [bV, poly_mulVec]
  have hdir : (⟨C, A, axes, Q, V, G⟩ : Solver (rows P).length (outRows P).length .separate axes).mapConsistent f i - affine axes c g (outPoints P i)
      = (A *ᵥ (C⁻¹ *ᵥ Sum.elim (f - Q *ᵥ coefficients axes c g) 0)) i := by
    unfold Solver.mapConsistent Solver.solveConsistent
    simp only [if_pos]
    have h1 : (fun i => (Sum.elim f 0 : Dof (rows P).length .separate axes → ℝ) (.inl i)) = f := rfl
    rw [h1, ha', elim_sub, Pi.add_apply, hpoly]
    ring
  unfold solveConsistent
  rw [hone, hC, hA, hQ, hV, ← bC, ← bA, ← bQ, ← bV]
  simp only [if_pos]
  rw [ha, hdir, hpoly]

/-- **The consistent iterative mapping with separated polynomial.** The direct mapping adds the best fitting affine function and the interpolant of the rest. The
iterative one divides this interpolant by the interpolant of the constant function one (the value of the direct mapping without polynomial), and leaves it out
where that is below 1e-6. Values below 1e-9 are replaced by zero. -/
theorem C127_separated_partial (e : Eigen) (he : e.Valid) (ho : e.OrderFree) (spd : Bool) (hp : S.pol = .separate) (s : Solver N M S.pol S.active)
    (hs : construct e spd S.φ S.pol S.active X Y = some s) (s₀ : Solver N M .off S.active) (hs₀ : construct e spd S.φ .off S.active X Y = some s₀)
    (hcard : Fintype.card (Poly S.active) ≤ N) (hax : s.axes = S.active) (hsup : Supported S) (hl : Level X Y S) (h : Distributed P X Y S.support)
    (vals : Fin (n + 1) → ℕ → ℝ) (F : Fin N → ℝ) (hv : Holds P vals F) (c : ℝ) (g : Fin 3 → ℝ) (hf : Fits S.active X F c g) (r : Fin (n + 1)) (j : ℕ) (y : ℕ × Point)
    (k : Fin M) (hy : (P r).outs[j]? = some y) (hk : y.1 = k) :
    ∃ w, (mapConsistent P S vals r)[j]? = some w ∧
      let fit := affine S.active c g (Y k)
      let one := s₀.mapConsistent (fun _ => 1) k
      Chopped w (if |one| < 1e-6 then fit else (s.mapConsistent F k - fit) / one + fit) := by
  obtain ⟨s', hs', hax', hval⟩ := consistent_renumber' he ho h.order hs (fun _ => hcard) (outPoints P)
  obtain ⟨s₀', hs₀', -, hval₀⟩ := consistent_renumber' he ho h.order hs₀ (fun h => absurd h (by decide)) (outPoints P)
  let V : Fin M → ℝ := fun k => filter 1e-9 ((s.mapConsistent F k - affine S.active c g (Y k)) / filter 1e-6 (s₀.mapConsistent (fun _ => 1) k) + affine S.active c g (Y k))
  let G : Fin (n + 1) × (ℕ × Point) × ℕ → ℝ := fun x => if hx : x.2.1.1 < M then V ⟨x.2.1.1, hx⟩ else 0
  have hG : ∀ x (hx : x.2.1.1 < M), G x = V ⟨x.2.1.1, hx⟩ := fun x hx => dif_pos hx
  have key : (mapConsistent P S vals r)[j]? = ((P r).outs[j]?).map fun y => G (r, y, j) := by
    refine slice_outs _ G (fun k => ?_) r j
    rw [input_eq h hv, solve_separate hp hsup hl h he hs' hs₀' hcard (hax'.trans hax) (fits_renumber h.order hf)]
    have hm := mem_outRows.1 (List.getElem_mem (l := outRows P) k.2)
    obtain ⟨hg, hy⟩ := h.outs _ _ (List.mem_of_getElem? hm)
    rw [hval F ⟨_, hg⟩ k fun d _ => congrFun hy d]
    have h1 : s₀'.mapConsistent (fun _ => 1) k = s₀.mapConsistent (fun _ => 1) ⟨(outRows P)[k].2.1.1, hg⟩ := hval₀ (fun _ => 1) ⟨_, hg⟩ k fun d _ => congrFun hy d
    rw [h1, show outPoints P k = Y ⟨(outRows P)[k].2.1.1, hg⟩ from hy]
    exact (hG _ hg).symm
  have hx : y.1 < M := hk ▸ k.2
  have hVk : V k = filter 1e-9 (if |s₀.mapConsistent (fun _ => 1) k| < 1e-6 then affine S.active c g (Y k)
      else (s.mapConsistent F k - affine S.active c g (Y k)) / s₀.mapConsistent (fun _ => 1) k + affine S.active c g (Y k)) := by
    show filter 1e-9 (_ / filter 1e-6 _ + _) = _
    congr 1
    unfold filter
    split
    · rw [div_zero, zero_add]
    · rfl
  refine ⟨V k, ?_, ?_⟩
  · rw [key, hy, Option.map_some, hG _ hx, show (⟨y.1, hx⟩ : Fin M) = k from Fin.ext hk]
  · rw [hVk]
    exact filter_chopped _

/-- **Interpolation with separated polynomial**: where a vertex of the output coincides with one of the input (in the axes which are not dead) the value is taken over,
up to the replacement of values below 1e-9. -/
theorem C127_separated_interpolates_partial (e : Eigen) (he : e.Valid) (ho : e.OrderFree) (spd : Bool) (hp : S.pol = .separate) (s : Solver N M S.pol S.active)
    (hs : construct e spd S.φ S.pol S.active X Y = some s) (s₀ : Solver N M .off S.active) (hs₀ : construct e spd S.φ .off S.active X Y = some s₀)
    (hcard : Fintype.card (Poly S.active) ≤ N) (hax : s.axes = S.active) (hsup : Supported S) (hl : Level X Y S) (h : Distributed P X Y S.support)
    (vals : Fin (n + 1) → ℕ → ℝ) (F : Fin N → ℝ) (hv : Holds P vals F) (r : Fin (n + 1)) (j : ℕ) (y : ℕ × Point)
    (k : Fin M) (hy : (P r).outs[j]? = some y) (hk : y.1 = k) (i : Fin N) (hki : ∀ d, S.active d = true → Y k d = X i d) :
    ∃ w, (mapConsistent P S vals r)[j]? = some w ∧ Chopped w (F i) := by
  obtain ⟨c, g, hf⟩ := exists_fits S.active X F
  obtain ⟨w, hw, hc⟩ := C127_separated_partial e he ho spd hp s hs s₀ hs₀ hcard hax hsup hl h vals F hv c g hf r j y k hy hk
  refine ⟨w, hw, ?_⟩
  have h1 := C95_interpolates e spd S.φ X Y s₀ hs₀ (fun _ => 1) k i hki
  have h2 := C95_interpolates e spd S.φ X Y s hs F k i hki
  dsimp only at hc
  rw [h1, h2, if_neg (by norm_num), div_one, sub_add_cancel] at hc
  exact hc

/-- **Reproduction of affine functions with separated polynomial**, up to the replacement of values below 1e-9. -/
theorem C127_separated_affine_partial (e : Eigen) (he : e.Valid) (ho : e.OrderFree) (spd : Bool) (hp : S.pol = .separate) (s : Solver N M S.pol S.active)
    (hs : construct e spd S.φ S.pol S.active X Y = some s) (s₀ : Solver N M .off S.active) (hs₀ : construct e spd S.φ .off S.active X Y = some s₀)
    (hcard : Fintype.card (Poly S.active) ≤ N) (hax : s.axes = S.active) (hsup : Supported S) (hl : Level X Y S) (h : Distributed P X Y S.support)
    (vals : Fin (n + 1) → ℕ → ℝ) (c : ℝ) (g : Fin 3 → ℝ) (hv : Holds P vals fun i => affine S.active c g (X i)) (r : Fin (n + 1)) (j : ℕ) (y : ℕ × Point)
    (k : Fin M) (hy : (P r).outs[j]? = some y) (hk : y.1 = k) :
    ∃ w, (mapConsistent P S vals r)[j]? = some w ∧ Chopped w (affine S.active c g (Y k)) := by
  have hf : Fits S.active X (fun i => affine S.active c g (X i)) c g := ⟨by simp, fun d _ => by simp⟩
  obtain ⟨w, hw, hc⟩ := C127_separated_partial e he ho spd hp s hs s₀ hs₀ hcard hax hsup hl h vals _ hv c g hf r j y k hy hk
  refine ⟨w, hw, ?_⟩
  obtain ⟨φ, sup, pol, active⟩ := S
  dsimp only at hp
  subst hp
  have h2 := C95_affine_separated e he spd φ X Y s hs hcard c g 0 (fun i d h1 h2 => absurd h1 (by rw [← hax]; simp [h2]))
    k (fun d h1 h2 => absurd h1 (by rw [← hax]; simp [h2]))
  dsimp only at hc h2 ⊢
  rw [h2, sub_self, zero_div, zero_add, ite_self] at hc
  exact hc

/-! ## Conservation -/

theorem sum_gather {α : Type} (l : Fin (n + 1) → List α) (g : α → ℝ) : ((gather l).map g).sum = ∑ r, ((l r).map g).sum := by
  unfold gather
  rw [List.map_flatMap, List.flatMap_def, List.sum_flatten, List.map_map, ← List.sum_ofFn, List.ofFn_eq_map]
  rfl

theorem spread_sum : ∀ (l : List Vertex) (k : ℕ) (G : Vertex × ℕ → ℝ),
    (spread l (((l.zipIdx k).filter (·.1.owner)).map G)).sum = (((l.zipIdx k).filter (·.1.owner)).map G).sum
  | [], _, _ => rfl
  | v :: l, k, G => by
    rw [List.zipIdx_cons, spread]
    cases hv : v.owner with
    | true => rw [if_pos rfl, List.filter_cons_of_pos (by simpa using hv), List.map_cons, List.headD_cons, List.tail_cons, List.sum_cons, List.sum_cons, spread_sum l (k + 1) G]
    | false => rw [if_neg (by simp), List.filter_cons_of_neg (by simpa using hv), List.sum_cons, zero_add, spread_sum l (k + 1) G]

/-- **Conservation.** With a polynomial the sum of the mapped loads over all vertices of all ranks is the sum of the loads, up to 1e-9 for each vertex. -/
theorem C127_conserves_partial (e : Eigen) (he : e.Valid) (ho : e.OrderFree) (spd : Bool) (s : Solver N M S.pol S.active)
    (hs : construct e spd S.φ S.pol S.active X Y = some s) (hp : S.pol ≠ .off) (hsep : S.pol = .separate → Fintype.card (Poly S.active) ≤ N ∧ s.axes = S.active)
    (hsup : Supported S) (hl : Level X Y S) (h : Distributed P X Y S.support) (hn : Numbered P) (hM : (outRows P).length = M)
    (vals : Fin (n + 1) → ℕ → ℝ) (U : Fin M → ℝ) (hv : Loaded P vals U) :
    |∑ r, (mapConservative P S vals r).sum - ∑ k, U k| ≤ N * 1e-9 := by
  obtain ⟨s', hs', hax, hval⟩ := conservative_renumber' he ho h.order (numbering hM) hs fun h => (hsep h).1
  rw [← outPoints_numbering h hn hM] at hs'
  let G : Fin (n + 1) × Vertex × ℕ → ℝ := fun x => if hx : x.2.1.g < N then filter 1e-9 (s.mapConservative U ⟨x.2.1.g, hx⟩) else 0
  have hG : ∀ x (hx : x.2.1.g < N), G x = filter 1e-9 (s.mapConservative U ⟨x.2.1.g, hx⟩) := fun x hx => dif_pos hx
  have hvec : ∀ p : Fin (rows P).length, solveConservative P S (loads P vals) p = G (rows P)[p] := by
    intro p
    rw [solve_direct_conservative hsup hl h he hs' (fun hp => ⟨(hsep hp).1, hax.trans (hsep hp).2⟩), loads_eq hn hM hv, hval]
    exact (hG _ (h.row_ins p).1).symm
  have hlist : List.ofFn (solveConservative P S (loads P vals)) = (rows P).map G := by
    rw [← ofFn_list]
    exact congrArg List.ofFn (funext hvec)
  have hrank : ∀ r, (mapConservative P S vals r).sum = (((ownedRows (P r).ins).map fun x => (r, x)).map G).sum := by
    intro r
    unfold mapConservative
    have h2 : (fun r => (ownedRows (P r).ins).length) = fun r => ((ownedRows (P r).ins).map fun x => (r, x)).length := by
      funext r
      simp
    rw [hlist, h2]
    unfold rows
    rw [slice_gather (fun r => (ownedRows (P r).ins).map fun x => (r, x)) G r, List.map_map]
    exact spread_sum (P r).ins 0 _
  have hsum : ∑ r, (mapConservative P S vals r).sum = ∑ g, filter 1e-9 (s.mapConservative U g) := by
    rw [Finset.sum_congr rfl fun r _ => hrank r, ← sum_gather (fun r => (ownedRows (P r).ins).map fun x => (r, x)) G]
    show ((rows P).map G).sum = _
    rw [← hlist, List.sum_ofFn, Finset.sum_congr rfl fun p _ => hvec p, ← Equiv.sum_comp h.order fun g => filter 1e-9 (s.mapConservative U g)]
    exact Finset.sum_congr rfl fun p _ => hG _ (h.row_ins p).1
  have hU : ∑ k, U k = ∑ g, s.mapConservative U g := by
    obtain ⟨φ, sup, pol, active⟩ := S
    cases pol with
    | on => exact (C95_conservative_integrated e spd φ X Y s hs U).1.symm
    | off => exact absurd rfl hp
    | separate => exact (C95_conservative_separated e he spd φ X Y s hs (hsep rfl).1 U).1.symm
  rw [hsum, hU, ← Finset.sum_sub_distrib]
  refine (Finset.abs_sum_le_sum_abs _ _).trans ((Finset.sum_le_sum fun g _ => (filter_chopped _).close.le).trans ?_)
  simp

/-! ## Independence of the distribution -/

theorem Chopped.unique {w w' v : ℝ} (h : Chopped w v) (h' : Chopped w' v) : w = w' := by
  rcases lt_or_ge |v| 1e-9 with hv | hv
  · rw [h.2 hv, h'.2 hv]
  · rw [h.1 hv, h'.1 hv]

/-- **Parallel is serial**: two distributions of the same meshes (for example to one rank and to many) give the same value at a vertex, with all three treatments
of the polynomial. -/
theorem C127_distribution_partial {n' : ℕ} {P' : Fin (n' + 1) → Part} (e : Eigen) (he : e.Valid) (ho : e.OrderFree) (spd : Bool) (s : Solver N M S.pol S.active)
    (hs : construct e spd S.φ S.pol S.active X Y = some s) (s₀ : Solver N M .off S.active)
    (hsep : S.pol = .separate → construct e spd S.φ .off S.active X Y = some s₀ ∧ Fintype.card (Poly S.active) ≤ N ∧ s.axes = S.active)
    (hsup : Supported S) (hl : Level X Y S) (h : Distributed P X Y S.support) (h' : Distributed P' X Y S.support)
    (vals : Fin (n + 1) → ℕ → ℝ) (vals' : Fin (n' + 1) → ℕ → ℝ) (F : Fin N → ℝ) (hv : Holds P vals F) (hv' : Holds P' vals' F)
    (r : Fin (n + 1)) (r' : Fin (n' + 1)) (j j' : ℕ) (y y' : ℕ × Point) (hy : (P r).outs[j]? = some y) (hy' : (P' r').outs[j']? = some y') (hk : y.1 = y'.1) :
    (mapConsistent P S vals r)[j]? = (mapConsistent P' S vals' r')[j']? := by
  obtain ⟨hg, -⟩ := h.outs r y (List.mem_of_getElem? hy)
  by_cases hp : S.pol = .separate
  · obtain ⟨hs₀, hcard, hax⟩ := hsep hp
    obtain ⟨c, g, hf⟩ := exists_fits S.active X F
    obtain ⟨w, hw, hc⟩ := C127_separated_partial e he ho spd hp s hs s₀ hs₀ hcard hax hsup hl h vals F hv c g hf r j y ⟨y.1, hg⟩ hy rfl
    obtain ⟨w', hw', hc'⟩ := C127_separated_partial e he ho spd hp s hs s₀ hs₀ hcard hax hsup hl h' vals' F hv' c g hf r' j' y' ⟨y.1, hg⟩ hy' hk.symm
    rw [hw, hw', Chopped.unique hc hc']
  · obtain ⟨w, hw, hc⟩ := (C127_consistent_partial e he ho spd hp s hs hsup hl h vals F hv r).2 j y ⟨y.1, hg⟩ hy rfl
    obtain ⟨w', hw', hc'⟩ := (C127_consistent_partial e he ho spd hp s hs hsup hl h' vals' F hv' r').2 j' y' ⟨y.1, hg⟩ hy' hk.symm
    rw [hw, hw', hc.unique hc']

end Verif.PetRbf
