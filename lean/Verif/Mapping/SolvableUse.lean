import Verif.Mapping.Solvable
import Verif.Mapping.Pum
import Verif.Mapping.RbfParallel
import Verif.Mapping.RbfExamples

set_option autoImplicit false

/-!
C114 for the mappings which use the solver: the clusters of a partition of unity and the gathered meshes of a parallel
participant.  The hypotheses of the theorems of C114 can be met.
-/

namespace Verif.Rbf
open Matrix Verif.Basis Verif.Definite

variable {n m : ℕ} {pol : Polynomial} {active : Fin 3 → Bool}

theorem distinct_get {X : Fin n → Point} (hX : Distinct active X) {l : List (Fin n)} (hl : l.Nodup) :
    Distinct active fun i => X (l.get i) := fun _ _ h =>
  List.nodup_iff_injective_get.mp hl (hX _ _ h)

theorem within_nodup {k : ℕ} (X : Fin k → Point) (c : Point) (r : ℝ) : (Pum.within X c r).Nodup :=
  (List.nodup_finRange k).filter _

/-- **Every cluster of a partition of unity can be set up** for a basis function that is positive definite in every
dimension and distinct input vertices, whatever the centers and the radius are. -/
theorem C114_clusters {e : Eigen} (he : e.Valid) (kind : Kind) (hk : Basis.Definite kind) (R shape : ℝ) (f : Fn)
    (hf : constructRBF kind R shape = some f) (hp : pol ≠ .on) (radius : ℝ) (X : Fin n → Point) (Y : Fin m → Point)
    (hX : Distinct active X) (candidates : List Point) :
    (Pum.makeClusters e f.definite f.eval pol active radius X Y candidates).isSome := by
  induction candidates with
  | nil => rfl
  | cons c cs ih =>
    rw [Pum.makeClusters]
    split
    · exact ih
    · obtain ⟨s, hs⟩ := Option.isSome_iff_exists.mp ((C114_definite he kind hk R shape f hf hp
        (fun i => X ((Pum.within X c radius).get i)) fun i => Y ((Pum.within Y c (radius - Pum.tolerance)).get i)).mpr
        (distinct_get hX (within_nodup X c radius)))
      obtain ⟨l, hl⟩ := Option.isSome_iff_exists.mp ih
      rw [hs, hl]
      rfl

/-- **With volume splines or thin plate splines a partition of unity cannot be set up** as soon as one of the clusters
holds a single input vertex. -/
theorem C114_clusters_single {e : Eigen} (kind : Kind) (hk : kind = .volume ∨ kind = .thinPlate) (R shape : ℝ) (f : Fn)
    (hf : constructRBF kind R shape = some f) (hp : pol ≠ .on) (radius : ℝ) (X : Fin n → Point) (Y : Fin m → Point)
    (candidates : List Point) (c : Point) (hc : c ∈ candidates)
    (hone : ∃! i, Pum.distance c (X i) < radius) :
    Pum.makeClusters e f.definite f.eval pol active radius X Y candidates = none := by
  induction candidates with
  | nil => cases hc
  | cons d ds ih =>
    rw [Pum.makeClusters]
    rcases List.mem_cons.mp hc with rfl | hm
    · obtain ⟨i, hi, hu⟩ := hone
      have hw : Pum.within X c radius = [i] := by
        have h1 : i ∈ Pum.within X c radius := by simp [Pum.within, hi]
        refine List.perm_singleton.mp ((List.perm_ext_iff_of_nodup (within_nodup X c radius) (List.nodup_singleton i)).mpr fun j => ?_)
        rw [List.mem_singleton]
        refine ⟨fun h => hu j (by simpa [Pum.within] using h), fun h => h ▸ h1⟩
      rw [hw]
      simp only [List.isEmpty_cons, Bool.false_eq_true, if_false]
      have := C114_single (e := e) (active := active) kind hk R shape f hf hp (fun k : Fin 1 => X (([i] : List (Fin n)).get k))
        fun k => Y ((Pum.within Y c (radius - Pum.tolerance)).get k)
      erw [this]
      rfl
    · rw [ih hm]
      split
      · rfl
      · cases construct e f.definite f.eval pol active (fun k => X ((Pum.within X d radius).get k))
          fun k => Y ((Pum.within Y d (radius - Pum.tolerance)).get k) <;> rfl

/-! ## The hypotheses can be met -/

theorem triangle_distinct : Distinct planar triangle := fun i j h => by
  have h0 := h 0 rfl
  have h1 := h 1 rfl
  fin_cases i <;> fin_cases j <;> simp_all [triangle]

theorem triangle_spanning : Spanning planar triangle := fun c g h => by
  have h0 := h 0
  have h1 := h 1
  have h2 := h 2
  simp only [affine, planar, triangle, Fin.sum_univ_three, Matrix.cons_val_zero, Matrix.cons_val_one, Matrix.cons_val,
    mul_zero, add_zero, if_true, Bool.false_eq_true, if_false, zero_add] at h0 h1 h2
  refine ⟨by linarith, fun d hd => ?_⟩
  fin_cases d
  · change g 0 = 0
    linarith
  · change g 1 = 0
    linarith
  · simp [planar] at hd

theorem compact_defined {g : ℝ → ℝ → ℝ} {r : ℝ} (h : tiny < r) : compact g r = some ⟨g (1 / r), some (1 / (1 / r)), true⟩ := by
  unfold compact
  rw [if_pos (by simpa using h)]

theorem tiny_lt_one : tiny < 1 := by unfold tiny; norm_num

/-- For every function of the list there are parameters with which it is accepted. -/
example (kind : Kind) : ∃ f, constructRBF kind 1 1 = some f := by
  cases kind <;> simp only [constructRBF] <;>
    first
    | exact ⟨_, compact_defined tiny_lt_one⟩
    | exact ⟨_, rfl⟩
    | exact ⟨_, if_pos (by simpa using tiny_lt_one)⟩

/-- `C114_definite`, with a support radius that reaches all vertices -/
example (Y : Fin m → Point) : ∃ f, constructRBF .c6 5 0 = some f ∧ (construct someEigen f.definite f.eval .separate planar triangle Y).isSome :=
  ⟨_, compact_defined (tiny_lt_one.trans (by norm_num)),
    (C114_definite someEigen_valid .c6 (by simp [Basis.Definite]) 5 0 _ (compact_defined (tiny_lt_one.trans (by norm_num))) (by decide) _ _).mpr triangle_distinct⟩

/-- Without distinct vertices the constructor reports an error. -/
example (Y : Fin m → Point) : ∃ f, constructRBF .c6 5 0 = some f ∧
    ¬(construct someEigen f.definite f.eval .separate planar ![![0, 0, 0], ![0, 0, 1]] Y).isSome := by
  refine ⟨_, compact_defined (tiny_lt_one.trans (by norm_num)), fun h => ?_⟩
  have := distinct_of_isSome h 0 1 fun d hd => by fin_cases d <;> simp_all [planar]
  simp at this

theorem triangle_far (i j : Fin 3) (h : i ≠ j) : 4 ≤ squaredDifference planar (triangle i) (triangle j) := by
  rw [squaredDifference_planar]
  fin_cases i <;> fin_cases j <;> simp_all [triangle] <;> norm_num

theorem triangle_near (i j : Fin 3) : squaredDifference planar (triangle i) (triangle j) ≤ 8 := by
  rw [squaredDifference_planar]
  fin_cases i <;> fin_cases j <;> simp [triangle] <;> norm_num

/-- `C114_compact_spline` -/
example (i j : Fin 3) (h : i ≠ j) : 5 * tiny ≤ √(squaredDifference planar (triangle i) (triangle j)) := by
  refine le_trans ?_ (Real.sqrt_le_sqrt (triangle_far i j h))
  rw [show (4 : ℝ) = 2 ^ 2 by norm_num, Real.sqrt_sq (by norm_num)]
  unfold tiny
  norm_num

/-- `C114_gaussian_partial`: the support radius of the shape parameter 1 is greater than four. -/
example (i j : Fin 3) : √(squaredDifference planar (triangle i) (triangle j)) ≤ gaussianRadius 1 := by
  rw [gaussianRadius, div_one]
  refine Real.sqrt_le_sqrt ((triangle_near i j).trans ?_)
  have : Real.log cutoff ≤ Real.log (Real.exp (-8)) := by
    refine Real.log_le_log (by unfold cutoff; norm_num) ?_
    rw [Real.exp_neg]
    have h3 : Real.exp 8 ≤ 3 ^ 8 := by
      rw [show (8 : ℝ) = ((8 : ℕ) : ℝ) * 1 by norm_num, Real.exp_nat_mul]
      exact pow_le_pow_left₀ (Real.exp_pos 1).le Real.exp_one_lt_three.le 8
    have h4 : (3 ^ 8 : ℝ)⁻¹ ≤ (Real.exp 8)⁻¹ := inv_anti₀ (Real.exp_pos 8) h3
    refine le_trans ?_ h4
    unfold cutoff
    norm_num
  rw [Real.log_exp] at this
  linarith

/-- `C114_integrated` -/
example (Y : Fin m → Point) : (construct someEigen false volume .on planar triangle Y).isSome :=
  (C114_integrated someEigen_valid .volume (.inr rfl) 0 0 ⟨volume, none, false⟩ rfl triangle Y).mpr ⟨triangle_distinct, triangle_spanning⟩

/-- `C114_thin_plate_integrated` -/
example (Y : Fin m → Point) : (construct someEigen false thinPlate .on planar triangle Y).isSome :=
  C114_thin_plate_integrated someEigen_valid 0 0 ⟨thinPlate, none, false⟩ rfl triangle Y triangle_spanning fun i j h =>
    le_trans (by unfold tiny; norm_num) (triangle_far i j h)

/-- `C114_clusters_single`: a cluster around one corner of the triangle -/
example : ∃! i, Pum.distance (triangle 1) (triangle i) < 1 := by
  refine ⟨1, by simp [Pum.distance, squaredDifference], fun i hi => ?_⟩
  by_contra hne
  have h4 : 4 ≤ squaredDifference (fun _ => true) (triangle 1) (triangle i) := by
    fin_cases i <;> simp_all [triangle, squaredDifference, Fin.sum_univ_three] <;> norm_num
  have := Real.sqrt_le_sqrt h4
  rw [show (4 : ℝ) = 2 ^ 2 by norm_num, Real.sqrt_sq (by norm_num)] at this
  unfold Pum.distance at hi
  linarith

end Verif.Rbf
