import Verif.Mapping.BatchedLemmas

/-!
Partition of unity mapping on a device (C128).
-/

set_option autoImplicit false

namespace Verif.Batched
open Matrix Rbf Pum

variable {n m : ℕ} {pol : Polynomial} {active : Fin 3 → Bool}

/-! ## Specification -/

/-- The input vertices of the cluster around `c` -/
noncomputable abbrev around (R : ℝ) (X : Fin n → Point) (c : Point) (i : Fin (within X c R).length) : Point := X ((within X c R).get i)

/-- The threads of all teams read the coefficients of the polynomial before one of them overwrites the memory, and all
threads reach the barrier. -/
def OrderlyTeams (D : Device) (pol : Polynomial) (active : Fin 3 → Bool) (R : ℝ) (X : Fin n → Point) (Y : Fin m → Point) (cs : List Point) (teams : Teams R X Y cs) (f : Fin n → ℝ) : Prop :=
  ∀ c, pol = .separate → (teams c).Orderly active D (around R X (cs.get c)) (fun i => f ((within X (cs.get c) R).get i)) ∧
    Complete active D (around R X (cs.get c)) (fun i => f ((within X (cs.get c) R).get i)) (teams c)

/-! ## Weights -/

theorem rawWeight_pos (R : ℝ) (c v : Point) : 0 < rawWeight R c v := lt_of_lt_of_le tolerance_pos (le_max_right _ _)

theorem ready_spec {spd : Bool} {R : ℝ} {X : Fin n → Point} {Y : Fin m → Point} {cs : List Point} (h : ready spd pol R X Y cs = true) :
    pol ≠ .on ∧ spd = true ∧ n ≠ 0 ∧ m ≠ 0 ∧ cs ≠ [] ∧ tolerance < R ∧ (∀ c ∈ cs, within X c R ≠ []) ∧ ∀ j, weightSum R cs Y j ≠ 0 := by
  simpa only [ready, decide_eq_true_eq] using h

theorem weightSum_nonneg (R : ℝ) (cs : List Point) (Y : Fin m → Point) (j : Fin m) : 0 ≤ weightSum R cs Y j :=
  Finset.sum_nonneg fun c _ => by
    split
    · exact (rawWeight_pos _ _ _).le
    · exact le_rfl

/-- **Partition of unity on the device.** The weights of the clusters around an output vertex are positive and their sum
is one. -/
theorem C128_unity (spd : Bool) (R : ℝ) (X : Fin n → Point) (Y : Fin m → Point) (cs : List Point) (h : ready spd pol R X Y cs = true) (j : Fin m) :
    (∑ c, if j ∈ within Y (cs.get c) (R - tolerance) then weight R cs Y c j else 0) = 1 ∧ ∀ c, 0 < weight R cs Y c j := by
  have h0 := (ready_spec h).2.2.2.2.2.2.2 j
  have hpos : 0 < weightSum R cs Y j := lt_of_le_of_ne (weightSum_nonneg R cs Y j) (Ne.symm h0)
  refine ⟨?_, fun c => div_pos (rawWeight_pos _ _ _) hpos⟩
  have : (∑ c, if j ∈ within Y (cs.get c) (R - tolerance) then weight R cs Y c j else 0) = weightSum R cs Y j / weightSum R cs Y j := by
    conv_rhs => rw [weightSum, Finset.sum_div]
    refine Finset.sum_congr rfl fun c _ => ?_
    split
    · rfl
    · rw [zero_div]
  rw [this, div_self h0]

/-- What the mapping computes at an output vertex -/
theorem mapConsistent_value {D : Device} {φ : ℝ → ℝ} {R : ℝ} {X : Fin n → Point} {Y : Fin m → Point} {cs : List Point} {teams : Teams R X Y cs} {f : Fin n → ℝ} {g : Fin m → ℝ}
    (hg : mapConsistent D φ pol active R X Y cs teams f = some g) :
    (∀ c, ∃ v, clusterValues D φ pol active R X Y cs teams f c = some v) ∧
    ∀ (F : Fin cs.length → Fin m → ℝ), (∀ c v i, clusterValues D φ pol active R X Y cs teams f c = some v → v i = F c ((within Y (cs.get c) (R - tolerance)).get i)) →
      ∀ j, g j = ∑ c, if j ∈ within Y (cs.get c) (R - tolerance) then F c j * weight R cs Y c j else 0 := by
  unfold mapConsistent at hg
  split at hg
  · rename_i hall
    obtain rfl := Option.some.inj hg
    refine ⟨fun c => Option.isSome_iff_exists.1 (hall c), fun F hF j => ?_⟩
    refine Finset.sum_congr rfl fun c _ => ?_
    obtain ⟨v, hv⟩ := Option.isSome_iff_exists.1 (hall c)
    rw [hv, Option.getD_some]
    split
    · rename_i hj
      obtain ⟨i, rfl⟩ := List.get_of_mem hj
      rw [sum_get (within_nodup _ _ _) (fun i => v i * weight R cs Y c ((within Y (cs.get c) (R - tolerance)).get i)), hF c v i hv]
    · rename_i hj
      exact sum_get_none hj _
  · exact absurd hg (by simp)

/-- If all clusters which have an output vertex agree on a value, this is the mapped value. -/
theorem value_of_agree {spd : Bool} {D : Device} {φ : ℝ → ℝ} {R : ℝ} {X : Fin n → Point} {Y : Fin m → Point} {cs : List Point} {teams : Teams R X Y cs} {f : Fin n → ℝ} {g : Fin m → ℝ}
    (h : ready spd pol R X Y cs = true) (hg : mapConsistent D φ pol active R X Y cs teams f = some g) {j : Fin m} {a : ℝ}
    (ha : ∀ c v i, clusterValues D φ pol active R X Y cs teams f c = some v → (within Y (cs.get c) (R - tolerance)).get i = j → v i = a) : g j = a := by
  classical
  obtain ⟨h1, h2⟩ := mapConsistent_value hg
  choose v hv using h1
  let F : Fin cs.length → Fin m → ℝ := fun c j => ∑ i, if (within Y (cs.get c) (R - tolerance)).get i = j then v c i else 0
  have hF : ∀ c i, F c ((within Y (cs.get c) (R - tolerance)).get i) = v c i := fun c i => sum_get (within_nodup _ _ _) (v c) i
  rw [h2 F (fun c w i hw => by rw [hF]; rw [hv c] at hw; rw [Option.some.inj hw]) j, ← one_mul a, ← (C128_unity spd R X Y cs h j).1, Finset.sum_mul]
  refine Finset.sum_congr rfl fun c _ => ?_
  split
  · rename_i hj
    obtain ⟨i, hi⟩ := List.get_of_mem hj
    have e1 : F c j = v c i := by rw [← hi]; exact hF c i
    rw [e1, ha c (v c) i (hv c) hi, mul_comm]
  · rw [zero_mul]

/-! ## Values -/

/-- **Interpolation.** At an output vertex with the coordinates of an input vertex the device computes the value of the
input vertex, with every basis function and polynomial and however the clusters lie. Missing: this needs threads which do
not overtake each other (`C128_race`), and values which are numbers (`C128_duplicate`). -/
theorem C128_interpolates_partial (D : Device) (spd : Bool) (φ : ℝ → ℝ) (R : ℝ) (X : Fin n → Point) (Y : Fin m → Point) (cs : List Point) (h : ready spd pol R X Y cs = true)
    (teams : Teams R X Y cs) (f : Fin n → ℝ) (ho : OrderlyTeams D pol active R X Y cs teams f) (g : Fin m → ℝ) (hg : mapConsistent D φ pol active R X Y cs teams f = some g)
    (i : Fin n) (j : Fin m) (hij : Y j = X i) : g j = f i := by
  refine value_of_agree h hg fun c v k hv hk => ?_
  have hin : i ∈ within X (cs.get c) R := by
    have hj : j ∈ within Y (cs.get c) (R - tolerance) := hk ▸ List.get_mem _ k
    rw [mem_within] at hj ⊢
    have := tolerance_pos
    rw [← hij]
    linarith
  obtain ⟨l, rfl⟩ := List.get_of_mem hin
  obtain ⟨μ, h1, h2⟩ := solveCluster_spec hv (ho c)
  rw [h2 k]
  have h3 := congrFun h1 l
  have h4 : ∀ d, Y ((within Y (cs.get c) (R - tolerance)).get k) d = X ((within X (cs.get c) R).get l) d := fun d => by rw [hk, hij]
  have e1 : (∑ i, entry φ active (Y ((within Y (cs.get c) (R - tolerance)).get k)) (X ((within X (cs.get c) R).get i)) * μ i) =
      (kernelMatrix φ active (around R X (cs.get c)) *ᵥ μ) l := by
    rw [funext h4]
    refine Finset.sum_congr rfl fun i _ => congrArg (· * μ i) ?_
    exact entry_comm _ _ _
  rw [e1, h3, funext h4]
  exact sub_add_cancel _ _

/-- **Affine functions** are reproduced with a separated polynomial, if the input vertices of every cluster are spread in
all directions. Missing: clusters whose vertices agree along an axis (`C128_flat`). -/
theorem C128_affine_partial (D : Device) (hD : D.Valid) (spd : Bool) (φ : ℝ → ℝ) (R : ℝ) (X : Fin n → Point) (Y : Fin m → Point) (cs : List Point)
    (h : ready spd .separate R X Y cs = true) (teams : Teams R X Y cs) (a : ℝ) (b : Fin 3 → ℝ)
    (ho : OrderlyTeams D .separate active R X Y cs teams fun i => affine active a b (X i))
    (hs : ∀ c ∈ cs, Spread (polyMatrix active (around R X c))) (hk : ∀ c ∈ cs, (kernelMatrix φ active (around R X c)).PosDef) :
    ∃ g, mapConsistent D φ .separate active R X Y cs teams (fun i => affine active a b (X i)) = some g ∧ ∀ j, g j = affine active a b (Y j) := by
  have hsome : ∀ c, ∃ v, clusterValues D φ .separate active R X Y cs teams (fun i => affine active a b (X i)) c = some v := fun c =>
    solveCluster_some (hk _ (List.get_mem cs c))
  have hex : ∃ g, mapConsistent D φ .separate active R X Y cs teams (fun i => affine active a b (X i)) = some g := by
    unfold mapConsistent
    rw [if_pos fun c => Option.isSome_iff_exists.2 (hsome c)]
    exact ⟨_, rfl⟩
  obtain ⟨g, hg⟩ := hex
  refine ⟨g, hg, fun j => value_of_agree h hg fun c v k hv hkj => ?_⟩
  obtain ⟨μ, h1, h2⟩ := solveCluster_spec hv (ho c)
  let p : Poly active → ℝ := coefficients active a b
  have haff : ∀ x : Point, affine active a b x = ∑ l, polyRow active x l * p l := fun x => (polyRow_dot active a b x).symm
  have hfit : fit .separate active D (around R X (cs.get c)) (fun i => affine active a b (X ((within X (cs.get c) R).get i))) = p := by
    unfold fit
    rw [if_pos rfl, hD.all (hs _ (List.get_mem cs c))]
    have e1 : (fun i => affine active a b (X ((within X (cs.get c) R).get i))) = polyMatrix active (around R X (cs.get c)) *ᵥ p := (poly_mulVec active a b _).symm
    rw [e1, Matrix.mulVec_mulVec, basicInverse_mul _ (hs _ (List.get_mem cs c)).independent, Matrix.one_mulVec]
  rw [hfit] at h1 h2
  have h0 : (fun i => affine active a b (X ((within X (cs.get c) R).get i)) - ∑ l, polyRow active (around R X (cs.get c) i) l * p l) = 0 := by
    funext i
    rw [haff]
    exact sub_self _
  rw [h0] at h1
  have hμ : μ = 0 := by
    have := (hk _ (List.get_mem cs c)).det_pos.ne'
    exact Matrix.eq_zero_of_mulVec_eq_zero this h1
  rw [h2 k, hμ, ← haff, hkj]
  simp

/-! ## The CPU variant -/

theorem kernel_posDef {k : ℕ} {φ : ℝ → ℝ} {X : Fin k → Point} (h : (buildCLU (pol := pol) (active := active) φ X).PosDef) :
    (kernelMatrix φ active X).PosDef := by
  have := h.submatrix (Sum.inl_injective (α := Fin k) (β := {_k : Poly active // pol = .on}))
  have e : (buildCLU (pol := pol) (active := active) φ X).submatrix Sum.inl Sum.inl = kernelMatrix φ active X := by
    ext i j
    rw [Matrix.submatrix_apply, clu_inl]
    exact entry_comm _ _ _
  rwa [e] at this

theorem made_posDef {e : Eigen} {φ : ℝ → ℝ} {R : ℝ} {X : Fin n → Point} {Y : Fin m → Point} {k : Cluster n m pol active} (h : Made e true φ R X Y k) :
    (buildCLU (pol := pol) (active := active) φ (around R X k.center)).PosDef := by
  obtain ⟨c, ins, outs, s⟩ := k
  obtain ⟨h1, h2, h3, h4⟩ := h
  simp only at h1 h2 h4
  subst h1
  unfold construct at h4
  split at h4
  · exact absurd h4 (by simp)
  · split at h4
    · rename_i hd
      unfold decomposable at hd
      rw [if_pos rfl] at hd
      simpa only [decide_eq_true_eq] using hd
    · exact absurd h4 (by simp)

/-- The value of the local interpolant of the CPU variant, when no axis is dropped -/
theorem valueAt_eq {k : ℕ} {φ : ℝ → ℝ} {X : Fin k → Point} (hp : pol ≠ .on) (h : (buildCLU (pol := pol) (active := active) φ X).PosDef) (f : Fin k → ℝ) (q : Poly active → ℝ)
    (S : Finset (Poly active)) (hq : q = if pol = .separate then basicInverse (polyMatrix active X) S *ᵥ f else 0) (μ : Fin k → ℝ)
    (hμ : kernelMatrix φ active X *ᵥ μ = fun i => f i - ∑ a, polyRow active (X i) a * q a) (y : Point) :
    valueAt φ pol active active S X f y = (∑ i, entry φ active y (X i) * μ i) + ∑ a, polyRow active y a * q a := by
  have : IsEmpty {_k : Poly active // pol = .on} := ⟨fun a => hp a.2⟩
  have hsum : ∀ F : Dof k pol active → ℝ, ∑ a, F a = ∑ i, F (.inl i) := by
    intro F
    rw [Fintype.sum_sum_type, Finset.univ_eq_empty (α := {_k : Poly active // pol = .on}), Finset.sum_empty, add_zero]
  have hdet : IsUnit (buildCLU (pol := pol) (active := active) φ X).det := isUnit_iff_ne_zero.2 h.det_pos.ne'
  have hsolve : (buildCLU (pol := pol) (active := active) φ X)⁻¹ *ᵥ Sum.elim (fun i => f i - ∑ a, polyRow active (X i) a * q a) 0 = Sum.elim μ 0 := by
    have e1 : buildCLU (pol := pol) (active := active) φ X *ᵥ Sum.elim μ 0 = Sum.elim (fun i => f i - ∑ a, polyRow active (X i) a * q a) 0 := by
      funext a
      rcases a with i | k
      · rw [Matrix.mulVec, dotProduct, hsum, Sum.elim_inl, ← congrFun hμ i]
        refine Finset.sum_congr rfl fun j _ => ?_
        rw [clu_inl, Sum.elim_inl]
        exact congrArg (· * μ j) (entry_comm _ _ _)
      · exact absurd k.2 hp
    rw [← e1, Matrix.mulVec_mulVec, Matrix.nonsing_inv_mul _ hdet, Matrix.one_mulVec]
  have hrow : buildA (pol := pol) (active := active) φ X (fun _ : Fin 1 => y) 0 ⬝ᵥ Sum.elim μ 0 = ∑ i, entry φ active y (X i) * μ i := by
    rw [dotProduct, hsum]
    rfl
  unfold valueAt
  split at hq
  · rename_i hs
    simp only [if_pos hs]
    rw [← hq]
    have e2 : f - polyMatrix active X *ᵥ q = fun i => f i - ∑ a, polyRow active (X i) a * q a := rfl
    rw [e2, hsolve, hrow]
    rfl
  · rename_i hs
    simp only [if_neg hs]
    have e2 : f = fun i => f i - ∑ a, polyRow active (X i) a * q a := by
      funext i
      rw [hq]
      simp
    rw [← e2] at hsolve
    rw [hsolve, hrow, hq]
    simp

theorem axesFor_eq {k : ℕ} {e : Eigen} {X : Fin k → Point} (h : pol = .separate → e.ill (polyMatrix active X) = false) : axesFor e pol active X = active := by
  unfold axesFor
  split
  · rename_i hp
    rw [chooseAxes, if_neg (by rw [h hp]; simp), Option.getD_some]
  · rfl

theorem interpolant_eq {e : Eigen} {φ : ℝ → ℝ} {R : ℝ} {X : Fin n → Point} {f : Fin n → ℝ} {c y : Point} (h : pol = .separate → e.ill (polyMatrix active (around R X c)) = false) :
    interpolant e φ pol active R X f c y = valueAt φ pol active active (e.pivots (polyMatrix active (around R X c))) (around R X c) (fun i => f ((within X c R).get i)) y := by
  change valueAt φ pol active (axesFor e pol active (around R X c)) (e.pivots (polyMatrix (axesFor e pol active (around R X c)) (around R X c))) (around R X c)
    (fun i => f ((within X c R).get i)) y = _
  rw [axesFor_eq h]

/-- The set of clusters which have a vertex, and their weights, are those of the CPU variant. -/
theorem weight_eq {R : ℝ} (hR : 0 < R) {Y : Fin m → Point} {cs : List Point} {j : Fin m}
    (hin : ∀ c ∈ cs, distance c (Y j) < R → distance c (Y j) < R - tolerance) (hw : ∀ c ∈ cs, distance c (Y j) < R → tolerance ≤ compactC2 R (distance c (Y j)))
    (c : Fin cs.length) : (if j ∈ within Y (cs.get c) (R - tolerance) then rawWeight R (cs.get c) (Y j) else 0) = compactC2 R (distance (cs.get c) (Y j)) := by
  split
  · rename_i hj
    rw [mem_within] at hj
    have := tolerance_pos
    exact max_eq_left (hw _ (List.get_mem cs c) (by linarith))
  · rename_i hj
    rw [mem_within] at hj
    refine (compactC2_far hR (not_lt.1 fun h => hj (hin _ (List.get_mem cs c) h))).symm

theorem sum_get_map (cs : List Point) (F : Point → ℝ) : ∑ c : Fin cs.length, F (cs.get c) = (cs.map F).sum := by
  rw [← Fin.sum_univ_fun_getElem]
  rfl

/-- **The executor does not change the result.** If the mapping can be computed on the CPU, every center has input
vertices, every cluster around an output vertex has a weight of at least `1e-14`, and, with a separated polynomial, the
CPU variant drops no axis and the input vertices of every cluster are spread in all directions, then the device accepts
the mapping and computes the values of the CPU variant. Missing: clusters in which an axis is dropped (`C128_flat`), ranks
without vertices (`C128_empty_rank`), and threads which overtake each other (`C128_race`). -/
theorem C128_executor_partial (e : Eigen) (he : e.Valid) (D : Device) (hD : D.Valid) (φ : ℝ → ℝ) (R : ℝ) (hR : tolerance < R) (X : Fin n → Point) (Y : Fin m → Point) (hm : m ≠ 0)
    (cs : List Point) (p : Mapping n m pol active) (hcpu : compute e true φ pol active R X Y cs = some p) (hcs : ∀ c ∈ cs, within X c R ≠ [])
    (hw : ∀ c ∈ cs, ∀ j, distance c (Y j) < R → tolerance ≤ compactC2 R (distance c (Y j)))
    (hax : pol = .separate → ∀ c ∈ cs, e.ill (polyMatrix active (around R X c)) = false ∧ Spread (polyMatrix active (around R X c)))
    (teams : Teams R X Y cs) (f : Fin n → ℝ) (ho : OrderlyTeams D pol active R X Y cs teams f) :
    ready true pol R X Y cs = true ∧ mapConsistent D φ pol active R X Y cs teams f = p.mapConsistent f := by
  have hR0 : 0 < R := tolerance_pos.trans hR
  have hc := compute_spec hR0 hcpu
  have hpop : populated R X cs = cs := by
    unfold populated
    rw [List.filter_eq_self]
    intro c hcm
    simpa using hcs c hcm
  have hcent : ∀ c ∈ cs, ∃ k : Fin p.clusters.length, (p.clusters.get k).center = c := by
    intro c hcm
    rw [← hpop, ← hc.hcenters, List.mem_map] at hcm
    obtain ⟨k, hk, rfl⟩ := hcm
    obtain ⟨i, rfl⟩ := List.get_of_mem hk
    exact ⟨i, rfl⟩
  have hin : ∀ j, ∀ c ∈ cs, distance c (Y j) < R → distance c (Y j) < R - tolerance := by
    intro j c hcm hd
    obtain ⟨k, rfl⟩ := hcent c hcm
    have := (hc.inside j k hd).1
    rwa [(hc.made k).outs, mem_within] at this
  have hws : ∀ j, weightSum R cs Y j = (cs.map fun c => compactC2 R (distance c (Y j))).sum := by
    intro j
    rw [← sum_get_map]
    exact Finset.sum_congr rfl fun c _ => weight_eq hR0 (hin j) (fun c hcm => hw c hcm j) c
  have hpos : ∀ j, 0 < weightSum R cs Y j := by
    intro j
    obtain ⟨k, hk⟩ := hc.covered j
    have := total_pos hR0 hk
    rw [sum_centers p.clusters fun c => compactC2 R (distance c (Y j)), hc.hcenters, hpop] at this
    rw [hws j]
    exact this
  obtain ⟨j₀⟩ : Nonempty (Fin m) := ⟨⟨0, Nat.pos_of_ne_zero hm⟩⟩
  obtain ⟨k₀, -⟩ := hc.covered j₀
  have hne : cs ≠ [] := by
    intro h0
    have := congrArg List.length hc.hcenters
    rw [hpop, h0, List.length_map, List.length_nil] at this
    exact absurd k₀.2 (by omega)
  have hn : n ≠ 0 := by
    rintro rfl
    obtain ⟨i, -⟩ := List.exists_mem_of_ne_nil _ (hc.made k₀).nonempty
    exact i.elim0
  have hpd : ∀ c ∈ cs, (buildCLU (pol := pol) (active := active) φ (around R X c)).PosDef := by
    intro c hcm
    obtain ⟨k, rfl⟩ := hcent c hcm
    exact made_posDef (hc.made k)
  refine ⟨by unfold ready; exact decide_eq_true ⟨hc.notOn, rfl, hn, hm, hne, hR, hcs, fun j => (hpos j).ne'⟩, ?_⟩
  have hsome : ∀ c, ∃ v, clusterValues D φ pol active R X Y cs teams f c = some v := fun c => solveCluster_some (kernel_posDef (hpd _ (List.get_mem cs c)))
  have hex : ∃ g, mapConsistent D φ pol active R X Y cs teams f = some g := by
    unfold mapConsistent
    rw [if_pos fun c => Option.isSome_iff_exists.2 (hsome c)]
    exact ⟨_, rfl⟩
  obtain ⟨g, hg⟩ := hex
  rw [hg, C97_value e true φ R hR0 X Y cs p hcpu f]
  congr 1
  funext j
  rw [(mapConsistent_value hg).2 (fun c j => interpolant e φ pol active R X f (cs.get c) (Y j)) (fun c v i hv => ?_) j]
  · rw [hpop, blend, ← hws j, ← sum_get_map cs fun c => compactC2 R (distance c (Y j)) * interpolant e φ pol active R X f c (Y j), Finset.sum_div]
    refine Finset.sum_congr rfl fun c _ => ?_
    rw [← weight_eq hR0 (hin j) (fun c hcm => hw c hcm j) c]
    split
    · rw [weight]
      ring
    · rw [zero_mul, zero_div]
  · obtain ⟨μ, h1, h2⟩ := solveCluster_spec hv (ho c)
    have hmem := List.get_mem cs c
    rw [h2 i, interpolant_eq fun hs => (hax hs _ hmem).1]
    refine (valueAt_eq hc.notOn (hpd _ hmem) _ _ _ ?_ μ h1 _).symm
    unfold fit
    split
    · rename_i hs
      rw [hD.all (hax hs _ hmem).2, he.allColumns _ (hax hs _ hmem).2.independent]
    · rfl

/-- **One thread per team** is always orderly: then only the accesses have to be completed. -/
theorem C128_single_thread (D : Device) (R : ℝ) (X : Fin n → Point) (Y : Fin m → Point) (cs : List Point) (teams : Teams R X Y cs) (f : Fin n → ℝ) (h1 : ∀ c, (teams c).threads = 1)
    (hcomp : ∀ c, Complete active D (around R X (cs.get c)) (fun i => f ((within X (cs.get c) R).get i)) (teams c)) : OrderlyTeams D pol active R X Y cs teams f :=
  fun c _ => ⟨single_orderly (h1 c), hcomp c⟩

/-! ## Conservative mappings -/

/-- **Disagreement.** The conservative mapping is accepted with a device as executor. It is not implemented: a debug build
aborts, and in a release build all loads are lost. -/
theorem C128_conservative (u : Fin m → ℝ) (hu : ∑ j, u j ≠ 0) : mapConservative (n := n) true u = none ∧
    ∃ v : Fin n → ℝ, mapConservative false u = some v ∧ ∑ i, v i ≠ ∑ j, u j :=
  ⟨rfl, 0, rfl, by simpa using hu.symm⟩

end Verif.Batched
