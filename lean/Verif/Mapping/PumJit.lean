import Verif.Mapping.PumProps

/-!
Just-in-time writes of the partition of unity mapping, and when the mapping can be computed (C97).
-/

set_option autoImplicit false

namespace Verif.Pum
open Matrix Rbf

variable {n m : ℕ} {pol : Polynomial} {active : Fin 3 → Bool}

/-! ## Writes -/

/-- The cached loads of a cluster applied to values at the vertices of the cluster -/
noncomputable def pairing {k l : ℕ} (s : Solver k l pol active) (d : (Poly s.axes → ℝ) × (Fin k → ℝ)) (h : Fin k → ℝ) : ℝ :=
  (if pol = .separate then d.1 ⬝ᵥ (cacheData s h).1 else 0) + d.2 ⬝ᵥ fun j => (cacheData s h).2 (.inl j)

theorem dot_inv {ι κ : Type} [Fintype ι] [DecidableEq ι] [Fintype κ] [DecidableEq κ] {C : Matrix (ι ⊕ κ) (ι ⊕ κ) ℝ} (hC : Cᵀ = C) (a g : ι → ℝ) :
    (fun i => (C⁻¹ *ᵥ Sum.elim a 0) (.inl i)) ⬝ᵥ g = a ⬝ᵥ fun j => (C⁻¹ *ᵥ Sum.elim g 0) (.inl j) := by
  have h1 : C⁻¹ᵀ = C⁻¹ := by rw [Matrix.transpose_nonsing_inv, hC]
  rw [← dot_elim, dotProduct_comm a, ← dot_elim, dotProduct_comm, Matrix.dotProduct_mulVec, ← Matrix.mulVec_transpose, h1]

theorem evaluate_pairing {k l : ℕ} {e : Eigen} {φ : ℝ → ℝ} {X : Fin k → Point} {Y : Fin l → Point} {s : Solver k l pol active} (b : Built e φ X Y s)
    (d : (Poly s.axes → ℝ) × (Fin k → ℝ)) (h : Fin k → ℝ) : ∑ i, evaluateCache s d i * h i = pairing s d h := by
  have hC : s.Cᵀ = s.C := by rw [b.C, clu_symm]
  change evaluateCache s d ⬝ᵥ h = _
  unfold evaluateCache pairing cacheData
  by_cases hp : pol = .separate
  · simp only [if_pos hp]
    set o : Fin k → ℝ := fun i => (s.C⁻¹ *ᵥ Sum.elim d.2 0) (.inl i) with ho
    have e1 : (fun i => (s.C⁻¹ *ᵥ Sum.elim d.2 0) (.inl i) - (s.Gᵀ *ᵥ (-(d.1 - s.Qᵀ *ᵥ o))) i) = o + s.Gᵀ *ᵥ (d.1 - s.Qᵀ *ᵥ o) := by
      funext i
      rw [Matrix.mulVec_neg, Pi.neg_apply, sub_neg_eq_add]
      rfl
    rw [e1, add_dotProduct, Matrix.mulVec_transpose s.G, ← Matrix.dotProduct_mulVec, sub_dotProduct, Matrix.mulVec_transpose s.Q, ← Matrix.dotProduct_mulVec,
      ← dot_inv hC d.2 (h - s.Q *ᵥ s.G *ᵥ h), ← ho, dotProduct_sub]
    ring
  · simp only [if_neg hp]
    rw [zero_add, ← dot_inv hC]

/-- The cached loads of all clusters applied to values -/
noncomputable def total (p : Mapping n m pol active) (d : WriteCache p) (f : Fin n → ℝ) : ℝ :=
  ∑ c, pairing (p.clusters.get c).solver (d c) fun i => f ((p.clusters.get c).ins.get i)

theorem total_addWrite (φ : ℝ → ℝ) (X : Fin n → Point) (p : Mapping n m pol active) (v : Point) (d : WriteCache p) (c : Fin p.clusters.length) (load : ℝ) (f : Fin n → ℝ) :
    total p (addWrite φ X p v d c load) f = total p d f + load * interpolateAt φ (p.clusters.get c).solver (fun i => X ((p.clusters.get c).ins.get i)) v
      (cacheData (p.clusters.get c).solver fun i => f ((p.clusters.get c).ins.get i)) := by
  unfold total
  rw [← Finset.add_sum_erase _ _ (Finset.mem_univ c), ← Finset.add_sum_erase (a := c) _ (fun c => pairing (p.clusters.get c).solver (d c) _) (Finset.mem_univ c)]
  have hrest : ∀ c' ∈ Finset.univ.erase c, pairing (p.clusters.get c').solver (addWrite φ X p v d c load c') (fun i => f ((p.clusters.get c').ins.get i))
      = pairing (p.clusters.get c').solver (d c') fun i => f ((p.clusters.get c').ins.get i) := by
    intro c' hc'
    unfold addWrite
    rw [Function.update_of_ne (Finset.ne_of_mem_erase hc')]
  rw [Finset.sum_congr rfl hrest]
  have hself : addWrite φ X p v d c load c = (if pol = .separate then fun a => (d c).1 a + polyRow (p.clusters.get c).solver.axes v a * load else (d c).1,
      fun j => (d c).2 j + entry φ (fun _ => true) v (X ((p.clusters.get c).ins.get j)) * load) := by
    unfold addWrite
    rw [Function.update_self]
  rw [hself]
  unfold pairing interpolateAt
  generalize cacheData (p.clusters.get c).solver (fun i => f ((p.clusters.get c).ins.get i)) = q
  by_cases hp : pol = .separate
  · simp only [if_pos hp, dotProduct, add_mul, Finset.sum_add_distrib, mul_add, Finset.mul_sum]
    have h1 : ∀ a, polyRow (p.clusters.get c).solver.axes v a * load * q.1 a = load * (polyRow (p.clusters.get c).solver.axes v a * q.1 a) := fun a => by ring
    have h2 : ∀ j, entry φ (fun _ => true) v (X ((p.clusters.get c).ins.get j)) * load * q.2 (.inl j)
        = load * (entry φ (fun _ => true) v (X ((p.clusters.get c).ins.get j)) * q.2 (.inl j)) := fun j => by ring
    simp only [h1, h2]
    ring
  · simp only [if_neg hp, dotProduct, add_mul, Finset.sum_add_distrib, mul_add, Finset.mul_sum]
    have h2 : ∀ j, entry φ (fun _ => true) v (X ((p.clusters.get c).ins.get j)) * load * q.2 (.inl j)
        = load * (entry φ (fun _ => true) v (X ((p.clusters.get c).ins.get j)) * q.2 (.inl j)) := fun j => by ring
    simp only [h2]
    ring

theorem total_foldl (φ : ℝ → ℝ) (X : Fin n → Point) (p : Mapping n m pol active) (v : Point) (load : ℝ) (f : Fin n → ℝ) :
    ∀ (l : List (Fin p.clusters.length × ℝ)) (d : WriteCache p), total p (l.foldl (fun d q => addWrite φ X p v d q.1 (q.2 * load)) d) f
      = total p d f + load * (l.map fun q => q.2 * interpolateAt φ (p.clusters.get q.1).solver (fun i => X ((p.clusters.get q.1).ins.get i)) v
        (cacheData (p.clusters.get q.1).solver fun i => f ((p.clusters.get q.1).ins.get i))).sum
  | [], d => by simp
  | q :: l, d => by
    rw [List.foldl_cons, total_foldl φ X p v load f l, total_addWrite, List.map_cons, List.sum_cons]
    ring

/-- A write adds what a read would give, times the load. -/
theorem total_writeAt {φ : ℝ → ℝ} {X : Fin n → Point} {p : Mapping n m pol active} {d d' : WriteCache p} {v : Point} {load : ℝ} (h : p.writeAt φ X d v load = some d') (f : Fin n → ℝ) :
    ∃ a, p.readAt φ X f v = some a ∧ total p d' f = total p d f + load * a := by
  unfold Mapping.writeAt at h
  rw [Option.map_eq_some_iff] at h
  obtain ⟨l, hl, rfl⟩ := h
  unfold Mapping.readAt
  rw [hl]
  exact ⟨_, rfl, total_foldl φ X p v load f l d⟩

theorem total_writeAll {φ : ℝ → ℝ} {X : Fin n → Point} {p : Mapping n m pol active} (f : Fin n → ℝ) : ∀ {w : List (Point × ℝ)} {d d' : WriteCache p}, p.writeAll φ X d w = some d' →
    ∃ r, w.mapM (fun q => p.readAt φ X f q.1) = some r ∧ total p d' f = total p d f + (List.zipWith (fun q a => q.2 * a) w r).sum
  | [], d, d', h => by
    obtain rfl := Option.some.inj h
    exact ⟨[], rfl, by simp⟩
  | q :: w, d, d', h => by
    unfold Mapping.writeAll at h
    rw [List.foldlM_cons, Option.bind_eq_bind, Option.bind_eq_some_iff] at h
    obtain ⟨d1, h1, h2⟩ := h
    obtain ⟨a, ha, e1⟩ := total_writeAt h1 f
    obtain ⟨r, hr, e2⟩ := total_writeAll f h2
    refine ⟨a :: r, ?_, ?_⟩
    · rw [List.mapM_cons, ha, hr]
      rfl
    · rw [e2, e1, List.zipWith_cons_cons, List.sum_cons, add_assoc]

theorem sum_complete {e : Eigen} {spd : Bool} {φ : ℝ → ℝ} {R : ℝ} {X : Fin n → Point} {Y : Fin m → Point} {cs : List Point} {p : Mapping n m pol active}
    (hc : Computed e spd φ R X Y cs p) {d : WriteCache p} (hd : pol = .separate → ∀ c, (∀ j, (d c).2 j = 0) → ∀ a, (d c).1 a = 0) (f : Fin n → ℝ) :
    ∑ i, p.complete d i * f i = total p d f := by
  classical
  unfold Mapping.complete total
  simp only [Finset.sum_mul]
  rw [Finset.sum_comm]
  refine Finset.sum_congr rfl fun c _ => ?_
  split
  · rw [sum_scatter, evaluate_pairing (construct_built (hc.made c).solver)]
  · rename_i h0
    have hz : ∀ j, (d c).2 j = 0 := by
      have := le_antisymm (not_lt.1 h0) (Finset.sum_nonneg fun j _ => sq_nonneg _)
      intro j
      have := (Finset.sum_eq_zero_iff_of_nonneg fun j _ => sq_nonneg ((d c).2 j)).1 this j (Finset.mem_univ j)
      exact pow_eq_zero_iff (two_ne_zero) |>.1 this
    have hz' : (d c).2 = 0 := funext hz
    simp only [zero_mul, Finset.sum_const_zero]
    unfold pairing
    rw [hz', zero_dotProduct, add_zero]
    split
    · rename_i hp
      have : (d c).1 = 0 := funext (hd hp c hz)
      rw [this, zero_dotProduct]
    · rfl

/-- **Writing just in time is the transpose of reading just in time**: for all written loads `w` and all values `f`,
the loads which the vertices receive do the same work on `f` as the written loads on the values which are read at
their locations. This is proved if no cluster whose basis functions all vanish at the written locations has a
contribution to its polynomial; `C97_write_lost` shows that the loads of such clusters disappear. Without polynomial there is
no such restriction. -/
theorem C97_write_at_partial (e : Eigen) (spd : Bool) (φ : ℝ → ℝ) (R : ℝ) (hR : 0 < R) (X : Fin n → Point) (Y : Fin m → Point) (cs : List Point) (p : Mapping n m pol active)
    (h : compute e spd φ pol active R X Y cs = some p) (w : List (Point × ℝ)) (d : WriteCache p) (hw : p.writeAll φ X (fun _ => (0, 0)) w = some d)
    (hd : pol = .separate → ∀ c, (∀ j, (d c).2 j = 0) → ∀ a, (d c).1 a = 0) (f : Fin n → ℝ) :
    ∃ r, w.mapM (fun q => p.readAt φ X f q.1) = some r ∧ ∑ i, p.complete d i * f i = (List.zipWith (fun q a => q.2 * a) w r).sum := by
  have hc := compute_spec hR h
  obtain ⟨r, hr, ht⟩ := total_writeAll f hw
  refine ⟨r, hr, ?_⟩
  rw [sum_complete hc hd, ht]
  have : total p (fun _ => (0, 0)) f = 0 := by
    unfold total pairing
    simp
  rw [this, zero_add]

/-- A write is an error exactly if the location is in no cluster. -/
theorem C97_write_error (e : Eigen) (spd : Bool) (φ : ℝ → ℝ) (R : ℝ) (hR : 0 < R) (X : Fin n → Point) (Y : Fin m → Point) (cs : List Point) (p : Mapping n m pol active)
    (h : compute e spd φ pol active R X Y cs = some p) (d : WriteCache p) (v : Point) (load : ℝ) :
    p.writeAt φ X d v load = none ↔ ∀ c ∈ populated R X cs, R ≤ distance c v := by
  have hc := compute_spec hR h
  unfold Mapping.writeAt
  rw [Option.map_eq_none_iff, hc.radius, ← hc.hcenters]
  constructor
  · intro hn c hcm
    obtain ⟨k, hk, rfl⟩ := List.mem_map.1 hcm
    obtain ⟨i, rfl⟩ := List.get_of_mem hk
    by_contra hd
    obtain ⟨l, hl⟩ := normalizedWeights_isSome (centers := centers p.clusters) (c := i) (not_le.1 hd)
    rw [hn] at hl
    exact absurd hl (by simp)
  · intro hall
    exact normalizedWeights_none fun c => hall _ (List.mem_map_of_mem (List.get_mem _ c))

/-! ## When the mapping can be computed -/

theorem makeClusters_isSome {e : Eigen} {spd : Bool} {φ : ℝ → ℝ} {R : ℝ} {X : Fin n → Point} {Y : Fin m → Point} : ∀ {cs : List Point},
    (∀ c ∈ cs, within X c R ≠ [] → ∃ s, construct e spd φ pol active (fun i => X ((within X c R).get i)) (fun i => Y ((within Y c (R - tolerance)).get i)) = some s) →
    ∃ l, makeClusters e spd φ pol active R X Y cs = some l
  | [], _ => ⟨[], rfl⟩
  | c :: cs, h => by
    obtain ⟨l, hl⟩ := makeClusters_isSome fun c' hc' => h c' (List.mem_cons_of_mem _ hc')
    rw [makeClusters]
    split
    · exact ⟨l, hl⟩
    · rename_i hne
      rw [List.isEmpty_iff] at hne
      obtain ⟨s, hs⟩ := h c (List.mem_cons_self ..) hne
      rw [hs, hl]
      exact ⟨_, rfl⟩

theorem setWeight_isSome {k : ℕ} {outs : Fin k → List (Fin m)} {j : Fin m} {F : Fin k → ℝ} : ∀ {ids : List (Fin k)} (W : Fin k → Fin m → Option ℝ),
    (∀ c ∈ ids, j ∈ outs c ∧ 0 < F c) → ∃ W', (ids.map fun c => (c, F c)).foldlM (setWeight outs j) W = some W'
  | [], W, _ => ⟨W, rfl⟩
  | c :: ids, W, h => by
    rw [List.map_cons, List.foldlM_cons]
    have : setWeight outs j W (c, F c) = some (Function.update W c (Function.update (W c) j (some (F c)))) := by
      unfold setWeight
      rw [if_pos (h c (List.mem_cons_self ..))]
    rw [this]
    exact setWeight_isSome _ fun c' hc' => h c' (List.mem_cons_of_mem _ hc')

theorem setWeights_isSome {k : ℕ} {cs : Fin k → Point} {outs : Fin k → List (Fin m)} {R : ℝ} (hR : 0 < R) {Y : Fin m → Point} (h1 : ∀ j, ∃ c, distance (cs c) (Y j) < R)
    (h2 : ∀ j c, distance (cs c) (Y j) < R → j ∈ outs c) : ∀ (js : List (Fin m)) (W : Fin k → Fin m → Option ℝ), ∃ W', js.foldlM (setWeights cs outs R Y) W = some W'
  | [], W => ⟨W, rfl⟩
  | j :: js, W => by
    obtain ⟨c, hc⟩ := h1 j
    obtain ⟨l, hl⟩ := normalizedWeights_isSome (centers := cs) (c := c) hc
    have he := normalizedWeights_eq hR hl
    obtain ⟨W1, hW1⟩ := setWeight_isSome (outs := outs) (j := j) (F := share cs R (Y j)) (ids := within cs (Y j) R) W fun c hc => by
      have := distance_comm (Y j) (cs c) ▸ mem_within.1 hc
      exact ⟨h2 j c this, share_pos hR this⟩
    obtain ⟨W', hW'⟩ := setWeights_isSome hR h1 h2 js W1
    refine ⟨W', ?_⟩
    rw [List.foldlM_cons]
    have : setWeights cs outs R Y W j = some W1 := by
      unfold setWeights
      rw [hl, Option.bind_some, he, hW1]
    rw [this]
    exact hW'

/-- **The mapping can be computed** exactly if the local interpolation problems can be solved, every output
vertex is in a cluster, and no output vertex is in the last `1e-14` below the radius of a cluster. -/
theorem C97_computes (e : Eigen) (spd : Bool) (φ : ℝ → ℝ) (R : ℝ) (hR : tolerance < R) (X : Fin n → Point) (Y : Fin m → Point) (cs : List Point) (hp : pol ≠ .on) :
    (∃ p, compute e spd φ pol active R X Y cs = some p) ↔
      (∀ c ∈ populated R X cs, ∃ s, construct e spd φ pol active (fun i => X ((within X c R).get i)) (fun i => Y ((within Y c (R - tolerance)).get i)) = some s) ∧
      (∀ j, ∃ c ∈ populated R X cs, distance c (Y j) < R) ∧ ∀ j, ∀ c ∈ populated R X cs, distance c (Y j) < R - tolerance ∨ R ≤ distance c (Y j) := by
  have hR0 : 0 < R := lt_trans tolerance_pos hR
  constructor
  · rintro ⟨p, h⟩
    have hc := compute_spec hR0 h
    refine ⟨fun c hcm => ?_, fun j => ?_, fun j c hcm => ?_⟩
    · rw [← hc.hcenters] at hcm
      obtain ⟨k, hk, rfl⟩ := List.mem_map.1 hcm
      obtain ⟨i, rfl⟩ := List.get_of_mem hk
      have hm := hc.made i
      generalize p.clusters.get i = k at hm
      obtain ⟨c, ins, outs, s⟩ := k
      obtain ⟨h1, h2, h3, h4⟩ := hm
      simp only at h1 h2 h4
      subst h1 h2
      exact ⟨s, h4⟩
    · obtain ⟨c, hcov⟩ := hc.covered j
      refine ⟨(p.clusters.get c).center, ?_, hcov⟩
      rw [← hc.hcenters]
      exact List.mem_map_of_mem (List.get_mem _ c)
    · by_contra hcon
      push Not at hcon
      have hm := hcm
      unfold populated at hm
      rw [List.mem_filter] at hm
      have hne : ∃ i, distance c (X i) < R := by
        cases hw : within X c R with
        | nil => simp [hw] at hm
        | cons a l =>
          refine ⟨a, mem_within.1 ?_⟩
          rw [hw]
          exact List.mem_cons_self ..
      rw [C97_edge e spd φ R hR0 X Y cs j c hm.1 hne hcon.1 hcon.2] at h
      exact absurd h (by simp)
  · rintro ⟨h1, h2, h3⟩
    obtain ⟨l, hl⟩ := makeClusters_isSome (e := e) (spd := spd) (φ := φ) (pol := pol) (active := active) (R := R) (X := X) (Y := Y) (cs := cs) fun c hcs hne => h1 c (by
      unfold populated
      rw [List.mem_filter]
      refine ⟨hcs, ?_⟩
      cases hw : within X c R with
      | nil => exact absurd hw hne
      | cons a l => rfl)
    obtain ⟨k1, k2⟩ := makeClusters_spec hl
    have hmem : ∀ i, centers l i ∈ populated R X cs := fun i => by
      rw [← k2]
      exact List.mem_map_of_mem (List.get_mem _ i)
    obtain ⟨W, hW⟩ := setWeights_isSome (cs := centers l) (outs := fun c => (l.get c).outs) hR0 (Y := Y)
      (fun j => by
        obtain ⟨c, hcm, hd⟩ := h2 j
        rw [← k2] at hcm
        obtain ⟨k, hk, rfl⟩ := List.mem_map.1 hcm
        obtain ⟨i, rfl⟩ := List.get_of_mem hk
        exact ⟨i, hd⟩)
      (fun j i hd => by
        rw [(k1 _ (List.get_mem l i)).outs, mem_within]
        exact (h3 j _ (hmem i)).resolve_right (not_le.2 hd)) (List.finRange m) fun _ _ => none
    refine ⟨⟨R, l, W⟩, ?_⟩
    unfold compute
    rw [if_neg (by push Not; exact ⟨hp, fun _ => hR⟩), hl, Option.bind_some, hW]
    rfl

end Verif.Pum
