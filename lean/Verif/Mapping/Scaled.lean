import Verif.Mesh.Integrate
import Verif.Mapping.Model

/-!
# Scaled-consistent mappings (C50)

Model of `Mapping::scaleConsistentMapping` (`/repo/src/mapping/Mapping.cpp:175-246`), applied to the arbitrary result of
a consistent mapping.
-/

set_option autoImplicit false

namespace Verif.Mapping

open Integrate

/-- The check for connectivity of one mesh, Mapping.cpp:196-211 -/
def hasConnectivity {d : ℕ} (volumeMode : Bool) (m : Mesh d) : Bool :=
  let requiresEdges := d == 2 && !volumeMode
  let requiresTriangles := (d == 2 && volumeMode) || (d == 3 && !volumeMode)
  let requiresTetra := d == 3 && volumeMode
  m.verts.isEmpty || (!(requiresEdges && m.edges.isEmpty) && !(requiresTriangles && m.tris.isEmpty) && !(requiresTetra && m.tets.isEmpty))

open Classical in
/-- The factor of one component, Mapping.cpp:230 -/
noncomputable def scalingFactor (lhs rhs : ℝ) : ℝ := if rhs = 0 then 1 else lhs / rhs

/-- `scaleConsistentMapping`, Mapping.cpp:175-246. `n` is the number of components. An error if connectivity is missing. -/
noncomputable def scaleConsistent {d : ℕ} (volumeMode : Bool) (n : ℕ) (input output : Mesh d) (x y : ℕ → ℝ) : Option (ℕ → ℝ) :=
  if input.verts.isEmpty || output.verts.isEmpty then some y
  else if hasConnectivity volumeMode input && hasConnectivity volumeMode output then
    let integralInput := if volumeMode then integrateVolume input n x else integrateSurface input n x
    let integralOutput := if volumeMode then integrateVolume output n y else integrateSurface output n y
    some fun j => scalingFactor (integralInput (j % n)) (integralOutput (j % n)) * y j
  else none

/-- Cells have the number of corners their kind requires. -/
structure CornersOk {d : ℕ} (m : Mesh d) : Prop where
  edges : ∀ c ∈ m.edges, c.length = 2
  tris : ∀ c ∈ m.tris, c.length = 3
  tets : ∀ c ∈ m.tets, c.length = 4

theorem scale_eq {d : ℕ} (volumeMode : Bool) {n : ℕ} {input output : Mesh d} (hi : CornersOk input)
    (ho : CornersOk output) {x y y' : ℕ → ℝ} (h : scaleConsistent volumeMode n input output x y = some y')
    (hne : input.verts ≠ []) (hne' : output.verts ≠ []) (j : ℕ) :
    y' j = scalingFactor (integral input (cellsFor volumeMode input) fun i => x (i * n + j % n))
      (integral output (cellsFor volumeMode output) fun i => y (i * n + j % n)) * y j := by
  unfold scaleConsistent at h
  rw [if_neg (by simp [hne, hne'])] at h
  split at h
  · simp only [Option.some.injEq] at h
    subst h
    cases volumeMode
    · simp only [Bool.false_eq_true, if_false]
      rw [integrateSurface_eq input hi.edges hi.tris, integrateSurface_eq output ho.edges ho.tris]
    · simp only [if_true]
      rw [integrateVolume_eq input hi.tets hi.tris, integrateVolume_eq output ho.tets ho.tris]
  · cases h

/-- After a scaled-consistent mapping the integral of the output equals the integral of the input, per component, unless
the integral of the unscaled output is zero. -/
theorem C50_integral {d : ℕ} (volumeMode : Bool) {n : ℕ} {input output : Mesh d} (hi : CornersOk input)
    (ho : CornersOk output) {x y y' : ℕ → ℝ} (h : scaleConsistent volumeMode n input output x y = some y')
    (hne : input.verts ≠ []) (hne' : output.verts ≠ []) (k : ℕ) (hk : k < n)
    (hnz : integral output (cellsFor volumeMode output) (fun i => y (i * n + k)) ≠ 0) :
    integral output (cellsFor volumeMode output) (fun i => y' (i * n + k)) =
      integral input (cellsFor volumeMode input) (fun i => x (i * n + k)) := by
  have hmod : ∀ i, (i * n + k) % n = k := fun i => by
    rw [Nat.add_comm, Nat.add_mul_mod_self_right, Nat.mod_eq_of_lt hk]
  have : (fun i => y' (i * n + k)) = fun i => scalingFactor (integral input (cellsFor volumeMode input) fun i => x (i * n + k))
      (integral output (cellsFor volumeMode output) fun i => y (i * n + k)) * y (i * n + k) := by
    funext i
    rw [scale_eq volumeMode hi ho h hne hne', hmod]
  rw [this, integral_smul]
  unfold scalingFactor
  rw [if_neg hnz, div_mul_cancel₀ _ hnz]

/-- A component whose unscaled output integral is zero is left as it is. -/
theorem C50_zero {d : ℕ} (volumeMode : Bool) {n : ℕ} {input output : Mesh d} (hi : CornersOk input)
    (ho : CornersOk output) {x y y' : ℕ → ℝ} (h : scaleConsistent volumeMode n input output x y = some y')
    (hne : input.verts ≠ []) (hne' : output.verts ≠ []) (k : ℕ) (hk : k < n)
    (hz : integral output (cellsFor volumeMode output) (fun i => y (i * n + k)) = 0) (i : ℕ) :
    y' (i * n + k) = y (i * n + k) := by
  have hmod : (i * n + k) % n = k := by rw [Nat.add_comm, Nat.add_mul_mod_self_right, Nat.mod_eq_of_lt hk]
  rw [scale_eq volumeMode hi ho h hne hne', hmod, hz]
  unfold scalingFactor
  simp

/-- If one of the meshes has no vertices, nothing is scaled. -/
theorem C50_empty {d : ℕ} (volumeMode : Bool) (n : ℕ) (input output : Mesh d) (x y : ℕ → ℝ)
    (h : input.verts = [] ∨ output.verts = []) : scaleConsistent volumeMode n input output x y = some y := by
  unfold scaleConsistent
  rw [if_pos]
  rcases h with h | h <;> simp [h]

/-- Missing connectivity is an error, and only that. -/
theorem C50_error {d : ℕ} (volumeMode : Bool) (n : ℕ) (hd : d = 2 ∨ d = 3) (input output : Mesh d) (x y : ℕ → ℝ) :
    scaleConsistent volumeMode n input output x y = none ↔
      input.verts ≠ [] ∧ output.verts ≠ [] ∧ (cellsFor volumeMode input = [] ∨ cellsFor volumeMode output = []) := by
  have key : ∀ m : Mesh d, m.verts ≠ [] → (hasConnectivity volumeMode m = true ↔ cellsFor volumeMode m ≠ []) := by
    intro m hm
    unfold hasConnectivity cellsFor
    rcases hd with rfl | rfl <;> cases volumeMode <;> simp [hm]
  unfold scaleConsistent
  split
  · rename_i h
    simp only [reduceCtorEq, false_iff]
    rintro ⟨h1, h2, -⟩
    simp [h1, h2] at h
  · rename_i h
    simp only [Bool.or_eq_true, List.isEmpty_iff, not_or] at h
    split
    · rename_i h'
      rw [Bool.and_eq_true, key _ h.1, key _ h.2] at h'
      simp [h'.1, h'.2]
    · rename_i h'
      rw [Bool.and_eq_true, key _ h.1, key _ h.2] at h'
      simp only [true_iff]
      refine ⟨h.1, h.2, ?_⟩
      by_contra hcon
      push Not at hcon
      exact h' hcon

/-- A segment of length 1 mapped to a segment of length 2, nearest neighbor: values 1, 3 become 1/2, 3/2. -/
example : ∃ y', scaleConsistent false 1 (⟨[{ coords := ![0, 0] }, { coords := ![1, 0] }], [[0, 1]], [], []⟩ : Mesh 2)
      ⟨[{ coords := ![0, 0] }, { coords := ![2, 0] }], [[0, 1]], [], []⟩
      (fun i => 1 + 2 * i) (fun i => 1 + 2 * i) = some y' ∧ y' 0 = 1 / 2 ∧ y' 1 = 3 / 2 := by
  have h4 : Real.sqrt 4 = 2 := by
    rw [show (4 : ℝ) = 2 * 2 by norm_num]
    exact Real.sqrt_mul_self (by norm_num)
  refine ⟨_, rfl, ?_, ?_⟩ <;>
    norm_num [h4, scalingFactor, integrateSurface, cornerSum, cellMeasure, simplexMeasure, Geometry.edgeLength, Geometry.norm, realCoords,
      Fin.sum_univ_two]

end Verif.Mapping
