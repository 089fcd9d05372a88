import Verif.Mapping.Pum
import Verif.Mapping.RbfOrder
import Mathlib.Algebra.BigOperators.Fin
import Mathlib.Analysis.InnerProductSpace.PiL2

/-!
Lemmas about the partition of unity mapping: the weights form a partition of unity, and the loops set every weight
exactly where it is read.
-/

set_option autoImplicit false

namespace Verif.Pum
open Matrix Rbf

variable {n m : ℕ} {pol : Polynomial} {active : Fin 3 → Bool}

theorem tolerance_pos : 0 < tolerance := by unfold tolerance; positivity

theorem distance_nonneg (u v : Point) : 0 ≤ distance u v := Real.sqrt_nonneg _

theorem distance_comm (u v : Point) : distance u v = distance v u := by rw [distance, distance, squaredDifference_comm]

theorem distance_dist (u v : Point) : distance u v = dist (WithLp.toLp 2 u : EuclideanSpace ℝ (Fin 3)) (WithLp.toLp 2 v) := by
  rw [EuclideanSpace.dist_eq]
  unfold distance squaredDifference
  refine congrArg _ (Finset.sum_congr rfl fun d _ => ?_)
  simp only [if_true, mul_one, Real.dist_eq, sq_abs]
  ring

theorem distance_triangle (u v w : Point) : distance u w ≤ distance u v + distance v w := by
  rw [distance_dist, distance_dist, distance_dist]
  exact dist_triangle _ _ _

theorem mem_within {k : ℕ} {X : Fin k → Point} {c : Point} {r : ℝ} {i : Fin k} : i ∈ within X c r ↔ distance c (X i) < r := by
  unfold within
  simp [List.mem_filter]

theorem within_nodup {k : ℕ} (X : Fin k → Point) (c : Point) (r : ℝ) : (within X c r).Nodup := (List.nodup_finRange k).filter _

theorem compactC2_pos {R r : ℝ} (h0 : 0 ≤ r) (h : r < R) : 0 < compactC2 R r := by
  have hR : 0 < R := h0.trans_lt h
  have hp : r * (1 / R) < 1 := by
    rw [mul_one_div, div_lt_one hR]
    exact h
  have hp0 : 0 ≤ r * (1 / R) := by positivity
  unfold compactC2
  simp only [ge_iff_le]
  rw [if_neg (not_le.2 hp)]
  have : 0 < 1 - r * (1 / R) := by linarith
  positivity

theorem compactC2_far {R r : ℝ} (hR : 0 < R) (h : R ≤ r) : compactC2 R r = 0 := by
  unfold compactC2
  simp only [ge_iff_le]
  rw [if_pos]
  rw [mul_one_div, le_div_iff₀ hR, one_mul]
  exact h

/-- The weight of Shepard's method: the share of one center at a location. -/
noncomputable def share {k : ℕ} (centers : Fin k → Point) (R : ℝ) (v : Point) (c : Fin k) : ℝ :=
  compactC2 R (distance (centers c) v) / ∑ c', compactC2 R (distance (centers c') v)

theorem compactC2_nonneg {R r : ℝ} (hR : 0 < R) (h0 : 0 ≤ r) : 0 ≤ compactC2 R r := by
  rcases lt_or_ge r R with h | h
  · exact (compactC2_pos h0 h).le
  · exact (compactC2_far hR h).ge

theorem sum_within {k : ℕ} (centers : Fin k → Point) {R : ℝ} (v : Point) (F : Fin k → ℝ) (hF : ∀ c, R ≤ distance (centers c) v → F c = 0) :
    ((within centers v R).map F).sum = ∑ c, F c := by
  classical
  rw [← List.sum_toFinset _ (within_nodup centers v R)]
  refine Finset.sum_subset (Finset.subset_univ _) fun c _ hc => hF c ?_
  rw [List.mem_toFinset, mem_within, not_lt] at hc
  rwa [distance_comm]

theorem total_pos {k : ℕ} {centers : Fin k → Point} {R : ℝ} (hR : 0 < R) {v : Point} {c : Fin k} (h : distance (centers c) v < R) :
    0 < ∑ c', compactC2 R (distance (centers c') v) :=
  Finset.sum_pos' (fun _ _ => compactC2_nonneg hR (distance_nonneg _ _)) ⟨c, Finset.mem_univ c, compactC2_pos (distance_nonneg _ _) h⟩

/-- The normalised weights are the shares. -/
theorem normalizedWeights_eq {k : ℕ} {centers : Fin k → Point} {R : ℝ} (hR : 0 < R) {v : Point} {l : List (Fin k × ℝ)}
    (h : normalizedWeights centers R v = some l) : l = (within centers v R).map fun c => (c, share centers R v c) := by
  unfold normalizedWeights at h
  simp only at h
  split at h
  · exact absurd h (by simp)
  · rename_i hne
    obtain ⟨c, hc⟩ : ∃ c, c ∈ within centers v R := by
      rcases hw : within centers v R with _ | ⟨c, l⟩
      · simp [hw] at hne
      · exact ⟨c, by simp⟩
    have hs : ((within centers v R).map fun c => compactC2 R (distance (centers c) v)).sum = ∑ c', compactC2 R (distance (centers c') v) :=
      sum_within centers v _ fun c hc => compactC2_far hR hc
    have hpos := total_pos hR (distance_comm v (centers c) ▸ mem_within.1 hc)
    rw [hs, if_neg (not_le.2 hpos)] at h
    obtain rfl := Option.some.inj h
    rw [List.map_map, List.zip_map_right, ← List.map_id (within centers v R), List.zip_map']
    simp [share, Function.comp_def]

theorem normalizedWeights_none {k : ℕ} {centers : Fin k → Point} {R : ℝ} {v : Point} (h : ∀ c, R ≤ distance (centers c) v) :
    normalizedWeights centers R v = none := by
  unfold normalizedWeights
  simp only
  rw [if_pos]
  rw [List.isEmpty_iff, List.eq_nil_iff_forall_not_mem]
  intro c hc
  have := mem_within.1 hc
  rw [distance_comm] at this
  exact absurd this (not_lt.2 (h c))

theorem normalizedWeights_isSome {k : ℕ} {centers : Fin k → Point} {R : ℝ} {v : Point} {c : Fin k} (h : distance (centers c) v < R) :
    ∃ l, normalizedWeights centers R v = some l := by
  unfold normalizedWeights
  simp only
  rw [if_neg]
  · exact ⟨_, rfl⟩
  · rw [List.isEmpty_iff]
    intro h0
    have : c ∈ within centers v R := mem_within.2 (distance_comm v (centers c) ▸ h)
    rw [h0] at this
    exact absurd this (by simp)

theorem normalizedWeights_covered {k : ℕ} {centers : Fin k → Point} {R : ℝ} {v : Point} {l : List (Fin k × ℝ)}
    (h : normalizedWeights centers R v = some l) : ∃ c, distance (centers c) v < R := by
  by_contra hc
  push Not at hc
  rw [normalizedWeights_none hc] at h
  exact absurd h (by simp)

theorem share_sum {k : ℕ} {centers : Fin k → Point} {R : ℝ} (hR : 0 < R) {v : Point} {c : Fin k} (h : distance (centers c) v < R) :
    ∑ c, share centers R v c = 1 := by
  unfold share
  rw [← Finset.sum_div]
  exact div_self (total_pos hR h).ne'

theorem share_pos {k : ℕ} {centers : Fin k → Point} {R : ℝ} (hR : 0 < R) {v : Point} {c : Fin k} (h : distance (centers c) v < R) :
    0 < share centers R v c := div_pos (compactC2_pos (distance_nonneg _ _) h) (total_pos hR h)

theorem share_far {k : ℕ} {centers : Fin k → Point} {R : ℝ} (hR : 0 < R) {v : Point} {c : Fin k} (h : R ≤ distance (centers c) v) :
    share centers R v c = 0 := by
  unfold share
  rw [compactC2_far hR h, zero_div]

/-- The inner loop: every listed cluster gets its weight for vertex `j`, everything else remains. -/
theorem setWeight_foldlM {k : ℕ} {outs : Fin k → List (Fin m)} {j : Fin m} {F : Fin k → ℝ} : ∀ {ids : List (Fin k)} {W W' : Fin k → Fin m → Option ℝ}, ids.Nodup →
    (ids.map fun c => (c, F c)).foldlM (setWeight outs j) W = some W' →
    (∀ c ∈ ids, j ∈ outs c ∧ W' c j = some (F c)) ∧ (∀ c, c ∉ ids → W' c j = W c j) ∧ ∀ c j', j' ≠ j → W' c j' = W c j'
  | [], W, W', _, h => by
    simp only [List.map_nil, List.foldlM_nil] at h
    obtain rfl := Option.some.inj h
    simp
  | c :: ids, W, W', hn, h => by
    classical
    rw [List.map_cons, List.foldlM_cons, Option.bind_eq_bind, Option.bind_eq_some_iff] at h
    obtain ⟨W1, h1, h2⟩ := h
    unfold setWeight at h1
    split at h1
    · rename_i hj
      obtain rfl := Option.some.inj h1
      obtain ⟨hc, hn⟩ := List.nodup_cons.1 hn
      obtain ⟨k1, k2, k3⟩ := setWeight_foldlM hn h2
      refine ⟨fun c' hc' => ?_, fun c' hc' => ?_, fun c' j' hj' => ?_⟩
      · rcases List.mem_cons.1 hc' with rfl | hm
        · refine ⟨hj.1, ?_⟩
          rw [k2 _ hc, Function.update_self, Function.update_self]
        · exact k1 c' hm
      · rw [List.mem_cons, not_or] at hc'
        rw [k2 c' hc'.2, Function.update_of_ne hc'.1]
      · rw [k3 c' j' hj']
        by_cases he : c' = c
        · rw [he, Function.update_self, Function.update_of_ne hj']
        · rw [Function.update_of_ne he]
    · exact absurd h1 (by simp)

/-- The loops over the vertices: afterwards the weights are known. -/
theorem setWeights_foldlM {k : ℕ} {cs : Fin k → Point} {outs : Fin k → List (Fin m)} {R : ℝ} (hR : 0 < R) {Y : Fin m → Point} :
    ∀ {js : List (Fin m)} {W W' : Fin k → Fin m → Option ℝ}, js.Nodup → js.foldlM (setWeights cs outs R Y) W = some W' →
    (∀ j ∈ js, (∃ c, distance (cs c) (Y j) < R) ∧ (∀ c, distance (cs c) (Y j) < R → j ∈ outs c ∧ W' c j = some (share cs R (Y j) c)) ∧
      ∀ c, R ≤ distance (cs c) (Y j) → W' c j = W c j) ∧ ∀ j, j ∉ js → ∀ c, W' c j = W c j
  | [], W, W', _, h => by
    simp only [List.foldlM_nil] at h
    obtain rfl := Option.some.inj h
    simp
  | j :: js, W, W', hn, h => by
    rw [List.foldlM_cons, Option.bind_eq_bind, Option.bind_eq_some_iff] at h
    obtain ⟨W1, h1, h2⟩ := h
    unfold setWeights at h1
    rw [Option.bind_eq_some_iff] at h1
    obtain ⟨l, hl, h1⟩ := h1
    have hcov := normalizedWeights_covered hl
    rw [normalizedWeights_eq hR hl] at h1
    obtain ⟨k1, k2, k3⟩ := setWeight_foldlM (within_nodup _ _ _) h1
    obtain ⟨hj, hn⟩ := List.nodup_cons.1 hn
    obtain ⟨r1, r2⟩ := setWeights_foldlM hR hn h2
    refine ⟨fun j' hj' => ?_, fun j' hj' c => ?_⟩
    · rcases List.mem_cons.1 hj' with rfl | hm
      · refine ⟨hcov, fun c hc => ?_, fun c hc => ?_⟩
        · obtain ⟨a, b⟩ := k1 c (mem_within.2 (distance_comm (cs c) _ ▸ hc))
          exact ⟨a, (r2 _ hj c).trans b⟩
        · rw [r2 _ hj c]
          refine k2 c fun hm => ?_
          have := mem_within.1 hm
          rw [distance_comm] at this
          exact absurd this (not_lt.2 hc)
      · obtain ⟨a, b, d⟩ := r1 j' hm
        have hne : j' ≠ j := fun h => hj (h ▸ hm)
        exact ⟨a, b, fun c hc => (d c hc).trans (k3 c j' hne)⟩
    · rw [List.mem_cons, not_or] at hj'
      rw [r2 j' hj'.2 c, k3 c j' hj'.1]

/-! ## The clusters -/

/-- A cluster is what the constructor makes of its center. -/
structure Made (e : Eigen) (spd : Bool) (φ : ℝ → ℝ) (R : ℝ) (X : Fin n → Point) (Y : Fin m → Point) (k : Cluster n m pol active) : Prop where
  ins : k.ins = within X k.center R
  outs : k.outs = within Y k.center (R - tolerance)
  nonempty : k.ins ≠ []
  solver : construct e spd φ pol active (fun i => X (k.ins.get i)) (fun i => Y (k.outs.get i)) = some k.solver

/-- The centers which have input vertices -/
noncomputable def populated (R : ℝ) (X : Fin n → Point) (candidates : List Point) : List Point := candidates.filter fun c => !(within X c R).isEmpty

theorem makeClusters_spec {e : Eigen} {spd : Bool} {φ : ℝ → ℝ} {R : ℝ} {X : Fin n → Point} {Y : Fin m → Point} :
    ∀ {cs : List Point} {l : List (Cluster n m pol active)}, makeClusters e spd φ pol active R X Y cs = some l →
    (∀ k ∈ l, Made e spd φ R X Y k) ∧ l.map Cluster.center = populated R X cs
  | [], l, h => by
    obtain rfl := Option.some.inj h
    simp [populated]
  | c :: cs, l, h => by
    rw [makeClusters] at h
    split at h
    · rename_i he
      obtain ⟨h1, h2⟩ := makeClusters_spec h
      refine ⟨h1, ?_⟩
      rw [h2, populated, populated, List.filter_cons_of_neg]
      simp [he]
    · rename_i he
      rw [Option.bind_eq_some_iff] at h
      obtain ⟨s, hs, h⟩ := h
      rw [Option.map_eq_some_iff] at h
      obtain ⟨l', hl, rfl⟩ := h
      obtain ⟨h1, h2⟩ := makeClusters_spec hl
      refine ⟨fun k hk => ?_, ?_⟩
      · rcases List.mem_cons.1 hk with rfl | hk
        · exact ⟨rfl, rfl, fun h => he (by rw [List.isEmpty_iff]; exact h), hs⟩
        · exact h1 k hk
      · rw [List.map_cons, h2, populated, populated, List.filter_cons_of_pos]
        simp [he]

/-- What `compute` guarantees. -/
structure Computed (e : Eigen) (spd : Bool) (φ : ℝ → ℝ) (R : ℝ) (X : Fin n → Point) (Y : Fin m → Point) (cs : List Point) (p : Mapping n m pol active) : Prop where
  radius : p.radius = R
  notOn : pol ≠ .on
  made : ∀ c, Made e spd φ R X Y (p.clusters.get c)
  hcenters : p.clusters.map Cluster.center = populated R X cs
  covered : ∀ j, ∃ c, distance (Pum.centers p.clusters c) (Y j) < R
  inside : ∀ j c, distance (Pum.centers p.clusters c) (Y j) < R → j ∈ (p.clusters.get c).outs ∧ p.weights c j = some (share (Pum.centers p.clusters) R (Y j) c)

theorem compute_spec {e : Eigen} {spd : Bool} {φ : ℝ → ℝ} {R : ℝ} (hR : 0 < R) {X : Fin n → Point} {Y : Fin m → Point} {cs : List Point} {p : Mapping n m pol active}
    (h : compute e spd φ pol active R X Y cs = some p) : Computed e spd φ R X Y cs p := by
  unfold compute at h
  split at h
  · exact absurd h (by simp)
  · rename_i hg
    push Not at hg
    rw [Option.bind_eq_some_iff] at h
    obtain ⟨l, hl, h⟩ := h
    rw [Option.map_eq_some_iff] at h
    obtain ⟨W, hW, rfl⟩ := h
    obtain ⟨h1, h2⟩ := makeClusters_spec hl
    obtain ⟨k1, -⟩ := setWeights_foldlM hR (List.nodup_finRange m) hW
    exact ⟨rfl, hg.1, fun c => h1 _ (List.get_mem l c), h2, fun j => (k1 j (List.mem_finRange j)).1, fun j c => (k1 j (List.mem_finRange j)).2.1 c⟩

/-- Either no candidates are left, or the radius is positive. -/
theorem compute_radius {e : Eigen} {spd : Bool} {φ : ℝ → ℝ} {R : ℝ} {X : Fin n → Point} {Y : Fin m → Point} {cs : List Point} {p : Mapping n m pol active}
    (h : compute e spd φ pol active R X Y cs = some p) : cs = [] ∨ tolerance < R := by
  unfold compute at h
  split at h
  · exact absurd h (by simp)
  · rename_i hg
    push Not at hg
    by_cases hc : cs = []
    · exact Or.inl hc
    · exact Or.inr (hg.2 hc)

theorem Computed.mem_outs {e : Eigen} {spd : Bool} {φ : ℝ → ℝ} {R : ℝ} {X : Fin n → Point} {Y : Fin m → Point} {cs : List Point} {p : Mapping n m pol active}
    (h : Computed e spd φ R X Y cs p) (c : Fin p.clusters.length) (j : Fin m) : j ∈ (p.clusters.get c).outs ↔ distance (Pum.centers p.clusters c) (Y j) < R := by
  refine ⟨fun hj => ?_, fun hj => (h.inside j c hj).1⟩
  rw [(h.made c).outs, mem_within] at hj
  have := tolerance_pos
  exact lt_of_lt_of_le hj (by linarith)

theorem Computed.ready {e : Eigen} {spd : Bool} {φ : ℝ → ℝ} {R : ℝ} {X : Fin n → Point} {Y : Fin m → Point} {cs : List Point} {p : Mapping n m pol active}
    (h : Computed e spd φ R X Y cs p) : p.ready := by
  intro c j hj
  rw [(h.inside j c ((h.mem_outs c j).1 hj)).2]
  rfl

theorem Computed.weight {e : Eigen} {spd : Bool} {φ : ℝ → ℝ} {R : ℝ} {X : Fin n → Point} {Y : Fin m → Point} {cs : List Point} {p : Mapping n m pol active}
    (h : Computed e spd φ R X Y cs p) {c : Fin p.clusters.length} {j : Fin m} (hj : j ∈ (p.clusters.get c).outs) :
    p.weight c j = share (Pum.centers p.clusters) R (Y j) c := by
  unfold Mapping.weight
  rw [(h.inside j c ((h.mem_outs c j).1 hj)).2]
  rfl

theorem sum_get {α : Type} [DecidableEq α] {l : List α} (hl : l.Nodup) (F : Fin l.length → ℝ) (i : Fin l.length) :
    (∑ i', if l.get i' = l.get i then F i' else 0) = F i := by
  rw [Finset.sum_eq_single i]
  · rw [if_pos rfl]
  · intro i' _ hne
    rw [if_neg fun h => hne (List.nodup_iff_injective_get.1 hl h)]
  · simp

theorem sum_get_none {α : Type} [DecidableEq α] {l : List α} {a : α} (h : a ∉ l) (F : Fin l.length → ℝ) :
    (∑ i', if l.get i' = a then F i' else 0) = 0 :=
  Finset.sum_eq_zero fun i _ => if_neg fun hi : l.get i = a => h (hi ▸ List.get_mem l i)

end Verif.Pum
