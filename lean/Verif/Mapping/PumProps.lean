import Verif.Mapping.PumLemmas

/-!
Partition of unity mapping with radial basis functions (C97).
-/

set_option autoImplicit false

namespace Verif.Pum
open Matrix Rbf

variable {n m : ℕ} {pol : Polynomial} {active : Fin 3 → Bool}

/-! ## Specification -/

/-- The axes which a local polynomial keeps -/
noncomputable def axesFor {k : ℕ} (e : Eigen) (pol : Polynomial) (active : Fin 3 → Bool) (X : Fin k → Point) : Fin 3 → Bool :=
  if pol = .separate then (chooseAxes e X 4 active).getD active else active

/-- The local interpolant of the input vertices in the ball around `c`, at the point `y` -/
noncomputable def interpolant (e : Eigen) (φ : ℝ → ℝ) (pol : Polynomial) (active : Fin 3 → Bool) (R : ℝ) (X : Fin n → Point) (f : Fin n → ℝ) (c y : Point) : ℝ :=
  let X' : Fin (within X c R).length → Point := fun i => X ((within X c R).get i)
  let axes := axesFor e pol active X'
  valueAt φ pol active axes (e.pivots (polyMatrix axes X')) X' (fun i => f ((within X c R).get i)) y

/-- The average of the values `s c` over the centers `C`, weighted with the weighting function at the point `v` -/
noncomputable def blend (R : ℝ) (C : List Point) (s : Point → ℝ) (v : Point) : ℝ :=
  (C.map fun c => compactC2 R (distance c v) * s c).sum / (C.map fun c => compactC2 R (distance c v)).sum

/-! ## Values -/

theorem Built.axesFor {k l : ℕ} {e : Eigen} {φ : ℝ → ℝ} {X : Fin k → Point} {Y : Fin l → Point} {s : Solver k l pol active} (b : Built e φ X Y s) :
    s.axes = Pum.axesFor e pol active X := by
  have h := b.axes
  unfold Pum.axesFor
  split at h
  · rename_i hp
    rw [if_pos hp, h, Option.getD_some]
  · rename_i hp
    rw [if_neg hp, h]

theorem Made.value {e : Eigen} {spd : Bool} {φ : ℝ → ℝ} {R : ℝ} {X : Fin n → Point} {Y : Fin m → Point} {k : Cluster n m pol active} (h : Made e spd φ R X Y k)
    (f : Fin n → ℝ) (i : Fin k.outs.length) :
    (k.solver.mapConsistent fun i => f (k.ins.get i)) i = interpolant e φ pol active R X f k.center (Y (k.outs.get i)) := by
  obtain ⟨c, ins, outs, s⟩ := k
  obtain ⟨h1, h2, h3, h4⟩ := h
  simp only at h1 h2 h4
  subst h1
  have b := construct_built h4
  rw [mapConsistent_eq b, Built.axesFor b]
  rfl

theorem sum_centers (l : List (Cluster n m pol active)) (F : Point → ℝ) : ∑ c, F (centers l c) = ((l.map Cluster.center).map F).sum := by
  rw [List.map_map, ← Fin.sum_univ_fun_getElem]
  rfl

theorem sum_share (l : List (Cluster n m pol active)) (R : ℝ) (v : Point) (s : Point → ℝ) :
    ∑ c, share (centers l) R v c * s (centers l c) = blend R (l.map Cluster.center) s v := by
  unfold blend share
  rw [← sum_centers l fun c => compactC2 R (distance c v) * s c, ← sum_centers l fun c => compactC2 R (distance c v), Finset.sum_div]
  exact Finset.sum_congr rfl fun c _ => div_mul_eq_mul_div _ _ _

theorem addConsistent_eq {e : Eigen} {spd : Bool} {φ : ℝ → ℝ} {R : ℝ} (hR : 0 < R) {X : Fin n → Point} {Y : Fin m → Point} {cs : List Point} {p : Mapping n m pol active}
    (h : Computed e spd φ R X Y cs p) (f : Fin n → ℝ) (c : Fin p.clusters.length) (j : Fin m) :
    p.addConsistent f c j = share (centers p.clusters) R (Y j) c * interpolant e φ pol active R X f (centers p.clusters c) (Y j) := by
  unfold Mapping.addConsistent
  simp only
  by_cases hj : j ∈ (p.clusters.get c).outs
  · obtain ⟨i, rfl⟩ := List.get_of_mem hj
    rw [sum_get (by rw [(h.made c).outs]; exact within_nodup _ _ _), (h.made c).value, h.weight hj]
    exact mul_comm _ _
  · rw [sum_get_none hj, share_far hR (not_lt.1 fun hd => hj ((h.mem_outs c j).2 hd)), zero_mul]

/-- **The mapped value is the weighted average of the local interpolants** of all clusters around the output vertex.
The mapping of values never fails once the mapping has been computed. -/
theorem C97_value (e : Eigen) (spd : Bool) (φ : ℝ → ℝ) (R : ℝ) (hR : 0 < R) (X : Fin n → Point) (Y : Fin m → Point) (cs : List Point) (p : Mapping n m pol active)
    (h : compute e spd φ pol active R X Y cs = some p) (f : Fin n → ℝ) :
    p.mapConsistent f = some fun j => blend R (populated R X cs) (fun c => interpolant e φ pol active R X f c (Y j)) (Y j) := by
  have hc := compute_spec hR h
  unfold Mapping.mapConsistent
  rw [if_pos hc.ready]
  congr 1
  funext j
  rw [← hc.hcenters, ← sum_share]
  exact Finset.sum_congr rfl fun c _ => addConsistent_eq hR hc f c j

/-- **Partition of unity.** The weights with which the clusters contribute to an output vertex are positive for the
clusters around the vertex, zero for the others, and their sum is one. -/
theorem C97_unity (e : Eigen) (spd : Bool) (φ : ℝ → ℝ) (R : ℝ) (hR : 0 < R) (X : Fin n → Point) (Y : Fin m → Point) (cs : List Point) (p : Mapping n m pol active)
    (h : compute e spd φ pol active R X Y cs = some p) (j : Fin m) :
    (∑ c, if j ∈ (p.clusters.get c).outs then p.weight c j else 0) = 1 ∧
    ∀ c, if distance (p.clusters.get c).center (Y j) < R then j ∈ (p.clusters.get c).outs ∧ 0 < p.weight c j else j ∉ (p.clusters.get c).outs := by
  have hc := compute_spec hR h
  refine ⟨?_, fun c => ?_⟩
  · obtain ⟨c, hcov⟩ := hc.covered j
    rw [← share_sum hR hcov]
    refine Finset.sum_congr rfl fun c _ => ?_
    split
    · rename_i hj
      exact hc.weight hj
    · rename_i hj
      exact (share_far hR (not_lt.1 fun hd => hj ((hc.mem_outs c j).2 hd))).symm
  · split
    · rename_i hd
      have hj := (hc.mem_outs c j).2 hd
      refine ⟨hj, ?_⟩
      rw [hc.weight hj]
      exact share_pos hR hd
    · rename_i hd
      exact fun hj => hd ((hc.mem_outs c j).1 hj)

/-- If all clusters around an output vertex agree on a value, this is the mapped value. -/
theorem value_of_agree {e : Eigen} {spd : Bool} {φ : ℝ → ℝ} {R : ℝ} (hR : 0 < R) {X : Fin n → Point} {Y : Fin m → Point} {cs : List Point} {p : Mapping n m pol active}
    (h : compute e spd φ pol active R X Y cs = some p) {f : Fin n → ℝ} {g : Fin m → ℝ} (hg : p.mapConsistent f = some g) {j : Fin m} {a : ℝ}
    (ha : ∀ c, ∀ i, (p.clusters.get c).outs.get i = j → ((p.clusters.get c).solver.mapConsistent fun i => f ((p.clusters.get c).ins.get i)) i = a) : g j = a := by
  have hc := compute_spec hR h
  unfold Mapping.mapConsistent at hg
  rw [if_pos hc.ready] at hg
  obtain rfl := Option.some.inj hg
  simp only
  have hu := (C97_unity e spd φ R hR X Y cs p h j).1
  rw [← one_mul a, ← hu, Finset.sum_mul]
  refine Finset.sum_congr rfl fun c _ => ?_
  unfold Mapping.addConsistent
  simp only
  split
  · rename_i hj
    obtain ⟨i, rfl⟩ := List.get_of_mem hj
    rw [sum_get (by rw [(hc.made c).outs]; exact within_nodup _ _ _), ha c i rfl, mul_comm]
  · rename_i hj
    rw [sum_get_none hj, zero_mul]

/-- **Interpolation.** At an output vertex with the coordinates of an input vertex the mapped value is the value of
the input vertex. -/
theorem C97_interpolates (e : Eigen) (spd : Bool) (φ : ℝ → ℝ) (R : ℝ) (hR : 0 < R) (X : Fin n → Point) (Y : Fin m → Point) (cs : List Point) (p : Mapping n m pol active)
    (h : compute e spd φ pol active R X Y cs = some p) (f : Fin n → ℝ) (g : Fin m → ℝ) (hg : p.mapConsistent f = some g) (i : Fin n) (j : Fin m) (hij : Y j = X i) :
    g j = f i := by
  have hc := compute_spec hR h
  refine value_of_agree hR h hg fun c k hk => ?_
  have hin : i ∈ (p.clusters.get c).ins := by
    rw [(hc.made c).ins, mem_within, ← hij]
    exact (hc.mem_outs c j).1 (hk ▸ List.get_mem _ k)
  obtain ⟨l, rfl⟩ := List.get_of_mem hin
  refine C95_interpolates e spd φ _ _ _ (hc.made c).solver _ k l fun d _ => ?_
  simp only [hk, hij]

/-- **Constants**, with a separated polynomial: if every cluster around the output vertex has at least as many input
vertices as the polynomial has coefficients. -/
theorem C97_constant (e : Eigen) (he : e.Valid) (spd : Bool) (φ : ℝ → ℝ) (R : ℝ) (hR : 0 < R) (X : Fin n → Point) (Y : Fin m → Point) (cs : List Point) (p : Mapping n m .separate active)
    (h : compute e spd φ .separate active R X Y cs = some p) (a : ℝ) (g : Fin m → ℝ) (hg : p.mapConsistent (fun _ => a) = some g) (j : Fin m)
    (hn : ∀ c, distance (p.clusters.get c).center (Y j) < R → Fintype.card (Poly active) ≤ (p.clusters.get c).ins.length) : g j = a := by
  have hc := compute_spec hR h
  refine value_of_agree hR h hg fun c k hk => ?_
  have := C95_constant_separated e he spd φ _ _ _ (hc.made c).solver (hn c ((hc.mem_outs c j).1 (hk ▸ List.get_mem _ k))) a
  exact congrFun this k

/-- **Affine functions**, with a separated polynomial: if every cluster around the output vertex has at least as many
input vertices as the polynomial has coefficients, and an axis is only dropped when the input vertices of the cluster
and the output vertex agree along the axis. -/
theorem C97_affine (e : Eigen) (he : e.Valid) (spd : Bool) (φ : ℝ → ℝ) (R : ℝ) (hR : 0 < R) (X : Fin n → Point) (Y : Fin m → Point) (cs : List Point) (p : Mapping n m .separate active)
    (h : compute e spd φ .separate active R X Y cs = some p) (a : ℝ) (b : Fin 3 → ℝ) (g : Fin m → ℝ) (hg : p.mapConsistent (fun i => affine active a b (X i)) = some g) (j : Fin m)
    (hn : ∀ c, distance (p.clusters.get c).center (Y j) < R → Fintype.card (Poly active) ≤ (p.clusters.get c).ins.length)
    (hX : ∀ c, distance (p.clusters.get c).center (Y j) < R → ∀ i ∈ (p.clusters.get c).ins, ∀ d, active d = true → (p.clusters.get c).solver.axes d = false → X i d = Y j d) :
    g j = affine active a b (Y j) := by
  have hc := compute_spec hR h
  refine value_of_agree hR h hg fun c k hk => ?_
  have hd := (hc.mem_outs c j).1 (hk ▸ List.get_mem _ k)
  have := C95_affine_separated e he spd φ _ _ _ (hc.made c).solver (hn c hd) a b (Y j) (fun i d h1 h2 => hX c hd _ (List.get_mem _ i) d h1 h2) k
    (fun d _ _ => by rw [hk])
  rw [this, hk]

/-! ## Conservative mapping -/

theorem sum_scatter {l : List (Fin n)} (F : Fin l.length → ℝ) (f : Fin n → ℝ) :
    (∑ i, (∑ k, if l.get k = i then F k else 0) * f i) = ∑ k, F k * f (l.get k) := by
  simp only [Finset.sum_mul]
  rw [Finset.sum_comm]
  refine Finset.sum_congr rfl fun k _ => ?_
  rw [Finset.sum_eq_single (l.get k)]
  · rw [if_pos rfl]
  · intro i _ hne
    rw [if_neg (Ne.symm hne), zero_mul]
  · simp

/-- **The conservative mapping is the transpose of the consistent one**, with and without polynomial. -/
theorem C97_adjoint (e : Eigen) (spd : Bool) (φ : ℝ → ℝ) (R : ℝ) (hR : 0 < R) (X : Fin n → Point) (Y : Fin m → Point) (cs : List Point) (p : Mapping n m pol active)
    (h : compute e spd φ pol active R X Y cs = some p) (f : Fin n → ℝ) (u : Fin m → ℝ) :
    ∃ g v, p.mapConsistent f = some g ∧ p.mapConservative u = some v ∧ ∑ j, u j * g j = ∑ i, v i * f i := by
  have hc := compute_spec hR h
  refine ⟨_, _, if_pos hc.ready, if_pos hc.ready, ?_⟩
  simp only [Finset.mul_sum, Finset.sum_mul]
  rw [Finset.sum_comm, Finset.sum_comm (s := (Finset.univ : Finset (Fin n)))]
  refine Finset.sum_congr rfl fun c _ => ?_
  unfold Mapping.addConsistent Mapping.addConservative
  simp only
  rw [sum_scatter]
  simp only [mul_comm (u _)]
  rw [sum_scatter (fun i => _ * p.weight c _)]
  have := C95_adjoint e spd φ _ _ _ (hc.made c).solver (fun i => f ((p.clusters.get c).ins.get i)) fun i => p.weight c ((p.clusters.get c).outs.get i) * u ((p.clusters.get c).outs.get i)
  rw [← this]
  refine Finset.sum_congr rfl fun i _ => ?_
  ring

/-- **Conservation**, with a separated polynomial: the sum of the mapped loads is the sum of the given loads, if every
cluster has at least as many vertices as the polynomial has coefficients. -/
theorem C97_conserves (e : Eigen) (he : e.Valid) (spd : Bool) (φ : ℝ → ℝ) (R : ℝ) (hR : 0 < R) (X : Fin n → Point) (Y : Fin m → Point) (cs : List Point) (p : Mapping n m .separate active)
    (h : compute e spd φ .separate active R X Y cs = some p) (hn : ∀ c, Fintype.card (Poly active) ≤ (p.clusters.get c).ins.length) (u : Fin m → ℝ) (v : Fin n → ℝ)
    (hv : p.mapConservative u = some v) : ∑ i, v i = ∑ j, u j := by
  obtain ⟨g, v', h1, h2, h3⟩ := C97_adjoint e spd φ R hR X Y cs p h (fun _ => 1) u
  rw [hv] at h2
  obtain rfl := Option.some.inj h2
  simp only [mul_one] at h3
  rw [← h3]
  refine Finset.sum_congr rfl fun j _ => ?_
  rw [C97_constant e he spd φ R hR X Y cs p h 1 g h1 j fun c _ => hn c, mul_one]

/-! ## Locality -/

/-- **Locality.** The value at an output vertex only depends on input vertices which are closer than two radii. -/
theorem C97_local (e : Eigen) (spd : Bool) (φ : ℝ → ℝ) (R : ℝ) (hR : 0 < R) (X : Fin n → Point) (Y : Fin m → Point) (cs : List Point) (p : Mapping n m pol active)
    (h : compute e spd φ pol active R X Y cs = some p) (f f' : Fin n → ℝ) (g g' : Fin m → ℝ) (hg : p.mapConsistent f = some g) (hg' : p.mapConsistent f' = some g')
    (j : Fin m) (hf : ∀ i, distance (X i) (Y j) < 2 * R → f i = f' i) : g j = g' j := by
  have hc := compute_spec hR h
  unfold Mapping.mapConsistent at hg hg'
  rw [if_pos hc.ready] at hg hg'
  obtain rfl := Option.some.inj hg
  obtain rfl := Option.some.inj hg'
  simp only
  refine Finset.sum_congr rfl fun c _ => ?_
  unfold Mapping.addConsistent
  simp only
  by_cases hj : j ∈ (p.clusters.get c).outs
  · have : (fun i => f ((p.clusters.get c).ins.get i)) = fun i => f' ((p.clusters.get c).ins.get i) := by
      funext i
      refine hf _ ?_
      have h1 := (hc.mem_outs c j).1 hj
      have h2 : (p.clusters.get c).ins.get i ∈ (p.clusters.get c).ins := List.get_mem _ i
      generalize (p.clusters.get c).ins.get i = a at h2 ⊢
      rw [(hc.made c).ins, mem_within, distance_comm] at h2
      have h3 := distance_triangle (X a) (p.clusters.get c).center (Y j)
      have h1' : distance (p.clusters.get c).center (Y j) < R := h1
      linarith
    rw [this]
  · rw [sum_get_none hj, sum_get_none hj]

/-! ## Errors -/

/-- **Vertices without cluster are an error**: an output vertex which is in no ball with input vertices is never
mapped silently. -/
theorem C97_uncovered (e : Eigen) (spd : Bool) (φ : ℝ → ℝ) (R : ℝ) (hR : 0 < R) (X : Fin n → Point) (Y : Fin m → Point) (cs : List Point) (j : Fin m)
    (hj : ∀ c ∈ cs, (∃ i, distance c (X i) < R) → R ≤ distance c (Y j)) : compute e spd φ pol active R X Y cs = none := by
  rw [Option.eq_none_iff_forall_ne_some]
  intro p h
  have hc := compute_spec hR h
  obtain ⟨c, hcov⟩ := hc.covered j
  have hm : (p.clusters.get c).center ∈ populated R X cs := by
    rw [← hc.hcenters]
    exact List.mem_map_of_mem (List.get_mem _ c)
  unfold populated at hm
  rw [List.mem_filter] at hm
  obtain ⟨i, hi⟩ := List.exists_mem_of_ne_nil _ (hc.made c).nonempty
  rw [(hc.made c).ins, mem_within] at hi
  exact absurd hcov (not_lt.2 (hj _ hm.1 ⟨i, hi⟩))

/-- **Disagreement at the edge of a cluster.** An output vertex whose distance to a center is in the last `1e-14` below the
radius is found when the weights are computed, but is not part of the cluster: the assertion in `setNormalizedWeight`
fails (without assertions the weight is written behind the end of the vector), even if the vertex is well inside of
other clusters. -/
theorem C97_edge (e : Eigen) (spd : Bool) (φ : ℝ → ℝ) (R : ℝ) (hR : 0 < R) (X : Fin n → Point) (Y : Fin m → Point) (cs : List Point) (j : Fin m) (c : Point) (hcs : c ∈ cs)
    (hne : ∃ i, distance c (X i) < R) (h1 : R - tolerance ≤ distance c (Y j)) (h2 : distance c (Y j) < R) : compute e spd φ pol active R X Y cs = none := by
  rw [Option.eq_none_iff_forall_ne_some]
  intro p h
  have hc := compute_spec hR h
  have hm : c ∈ p.clusters.map Cluster.center := by
    rw [hc.hcenters]
    unfold populated
    rw [List.mem_filter]
    refine ⟨hcs, ?_⟩
    obtain ⟨i, hi⟩ := hne
    have : i ∈ within X c R := mem_within.2 hi
    cases hw : within X c R with
    | nil => rw [hw] at this; exact absurd this (by simp)
    | cons a l => rfl
  obtain ⟨k, hk, rfl⟩ := List.mem_map.1 hm
  obtain ⟨i, rfl⟩ := List.get_of_mem hk
  have := (hc.inside j i h2).1
  rw [(hc.made i).outs, mem_within] at this
  exact absurd this (not_lt.2 h1)

/-! ## Just-in-time mapping -/

theorem cache_value {k l : ℕ} {e : Eigen} {φ : ℝ → ℝ} {X : Fin k → Point} {Y : Fin l → Point} {s : Solver k l pol active} (b : Built e φ X Y s) (hp : pol ≠ .on)
    {v : Point} (hX : ∀ i d, active d = false → X i d = v d) (f : Fin k → ℝ) :
    interpolateAt φ s X v (cacheData s f) = valueAt φ pol active s.axes (e.pivots (polyMatrix s.axes X)) X f v := by
  have hsum : ∀ w : Dof k pol active → ℝ, buildA (pol := pol) (active := active) φ X (fun _ : Fin 1 => v) 0 ⬝ᵥ w = ∑ j, entry φ (fun _ => true) v (X j) * w (.inl j) := by
    intro w
    rw [dotProduct, Fintype.sum_sum_type]
    have : IsEmpty {_k : Poly active // pol = .on} := ⟨fun a => hp a.2⟩
    rw [Finset.univ_eq_empty (α := {_k : Poly active // pol = .on}), Finset.sum_empty, add_zero]
    refine Finset.sum_congr rfl fun j _ => ?_
    refine congrArg (· * _) ?_
    change entry φ active v (X j) = _
    unfold entry squaredDifference
    refine congrArg _ (congrArg _ (Finset.sum_congr rfl fun d _ => ?_))
    by_cases hd : active d = true
    · rw [if_pos hd, if_pos rfl]
    · rw [hX j d (by simpa using hd)]
      simp
  unfold interpolateAt cacheData valueAt
  by_cases hs : pol = .separate
  · simp only [if_pos hs]
    rw [hsum, b.G, b.Q, b.C]
    rfl
  · simp only [if_neg hs]
    rw [hsum, b.C, add_zero]

theorem Made.read {e : Eigen} {spd : Bool} {φ : ℝ → ℝ} {R : ℝ} {X : Fin n → Point} {Y : Fin m → Point} {k : Cluster n m pol active} (h : Made e spd φ R X Y k) (hp : pol ≠ .on)
    (f : Fin n → ℝ) (v : Point) (hX : ∀ i d, active d = false → X i d = v d) :
    interpolateAt φ k.solver (fun i => X (k.ins.get i)) v (cacheData k.solver fun i => f (k.ins.get i)) = interpolant e φ pol active R X f k.center v := by
  obtain ⟨c, ins, outs, s⟩ := k
  obtain ⟨h1, h2, h3, h4⟩ := h
  simp only at h1 h2 h4
  subst h1
  have b := construct_built h4
  rw [cache_value b hp fun i d hd => hX _ d hd, Built.axesFor b]
  rfl

/-- **Reading just in time** gives the weighted average of the local interpolants, at every location in a cluster, and
is an error elsewhere. Vertices and location agree in the third coordinate of a problem in two dimensions. -/
theorem C97_read_at (e : Eigen) (spd : Bool) (φ : ℝ → ℝ) (R : ℝ) (hR : 0 < R) (X : Fin n → Point) (Y : Fin m → Point) (cs : List Point) (p : Mapping n m pol active)
    (h : compute e spd φ pol active R X Y cs = some p) (f : Fin n → ℝ) (v : Point) (hX : ∀ i d, active d = false → X i d = v d) :
    p.readAt φ X f v = if ∃ c ∈ populated R X cs, distance c v < R then some (blend R (populated R X cs) (fun c => interpolant e φ pol active R X f c v) v) else none := by
  have hc := compute_spec hR h
  unfold Mapping.readAt
  rw [hc.radius]
  split
  · rename_i hex
    obtain ⟨c, hcm, hd⟩ := hex
    rw [← hc.hcenters] at hcm
    obtain ⟨k, hk, rfl⟩ := List.mem_map.1 hcm
    obtain ⟨i, rfl⟩ := List.get_of_mem hk
    obtain ⟨l, hl⟩ := normalizedWeights_isSome (centers := centers p.clusters) (c := i) hd
    rw [hl, Option.map_some, normalizedWeights_eq hR hl, List.map_map]
    congr 1
    rw [← hc.hcenters, ← sum_share, ← sum_within (centers p.clusters) v _ fun c hcd => by rw [share_far hR hcd, zero_mul]]
    refine congrArg List.sum (List.map_congr_left fun c _ => ?_)
    exact congrArg _ ((hc.made c).read hc.notOn f v hX)
  · rename_i hex
    rw [normalizedWeights_none]
    · rfl
    · intro c
      by_contra hd
      refine hex ⟨(p.clusters.get c).center, ?_, not_le.1 hd⟩
      rw [← hc.hcenters]
      exact List.mem_map_of_mem (List.get_mem _ c)

/-- Reading just in time at a location gives the value which the ordinary mapping gives at an output vertex with these
coordinates, if the clusters are the same. The two mappings may have different output meshes. -/
theorem C97_read_as_mesh (e : Eigen) (spd : Bool) (φ : ℝ → ℝ) (R : ℝ) (hR : 0 < R) (X : Fin n → Point) {m' : ℕ} (Y : Fin m → Point) (Y' : Fin m' → Point) (cs : List Point)
    (p : Mapping n m pol active) (p' : Mapping n m' pol active) (h : compute e spd φ pol active R X Y cs = some p) (h' : compute e spd φ pol active R X Y' cs = some p')
    (f : Fin n → ℝ) (g : Fin m' → ℝ) (hg : p'.mapConsistent f = some g) (j : Fin m') (hX : ∀ i d, active d = false → X i d = Y' j d) :
    p.readAt φ X f (Y' j) = some (g j) := by
  have hc' := compute_spec hR h'
  rw [C97_value e spd φ R hR X Y' cs p' h' f] at hg
  obtain rfl := Option.some.inj hg
  rw [C97_read_at e spd φ R hR X Y cs p h f (Y' j) hX, if_pos]
  obtain ⟨c, hcov⟩ := hc'.covered j
  refine ⟨(p'.clusters.get c).center, ?_, hcov⟩
  rw [← hc'.hcenters]
  exact List.mem_map_of_mem (List.get_mem _ c)

end Verif.Pum
