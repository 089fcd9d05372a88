import Verif.Mapping.Props

/-!
# How written gradients are laid out (C51)

A participant passes gradients to preCICE as one block of numbers per vertex. This file models how the block is
stored and which of its numbers a nearest-neighbor-gradient mapping takes for which derivative, and compares that
with the order the documentation of `writeGradientData` asks for.
-/

set_option autoImplicit false

namespace Verif.Mapping

open Geometry

variable {d : ℕ}

/-- The buffer of gradients, entry by entry in the order of the memory. -/
abbrev GradBuffer := ℕ → ℚ

/-- One pass of the loop of `WriteDataContext::writeGradientsIntoDataBuffer` (src/precice/impl/WriteDataContext.cpp: 83-86):
the `i`-th block of the input becomes the block of vertex `v`. A block has `size` numbers, columns of
`inputGradients` and `localGradients` being consecutive in memory. -/
def storeBlock (size : ℕ) (input : ℕ → ℚ) (buf : GradBuffer) (v i : ℕ) : GradBuffer :=
  fun j => if j / size = v then input (i * size + j % size) else buf j

/-- `WriteDataContext::writeGradientsIntoDataBuffer` (src/precice/impl/WriteDataContext.cpp: 73-87). There are
`d * n` numbers per vertex for data with `n` components on a mesh of dimension `d` (line 75). -/
def storeGradients (d n : ℕ) (vertices : List ℕ) (input : ℕ → ℚ) (buf : GradBuffer) : GradBuffer :=
  vertices.zipIdx.foldl (fun b v => storeBlock (d * n) input b v.1 v.2) buf

/-- Column `j` of the matrix of gradients, which has `d` rows (`conservativeResize(getSpatialDimensions(), …)`,
src/precice/impl/WriteDataContext.cpp: 111) and is stored column by column. -/
def gradCol (d : ℕ) (buf : GradBuffer) (j : ℕ) : Pt d := fun r => buf (j * d + r)

/-- Writing the values `x` and the gradients `input` of all listed vertices and mapping them
(`NearestNeighborGradientMapping::mapConsistent`, src/mapping/NearestNeighborGradientMapping.cpp: 53-87). The values
are given as stored. -/
def writeAndMapGradient (q : Query d) (source target : Mesh d) (n : ℕ) (vertices : List ℕ) (x : Data) (input : ℕ → ℚ) : Data :=
  mapNNG q source target n x (gradCol d (storeGradients d n vertices input fun _ => 0))

/-! ## Specification -/

/-- The order of the documentation (src/precice/Participant.hpp: 1134-1146): for 2D vector data `x dx, y dx, x dy, y dy`,
that is all components of the derivative in the first direction, then those in the second. `D a k` is the derivative
of component `k` in direction `a`. -/
def documented (d n : ℕ) (D : ℕ → ℕ → ℚ) (j : ℕ) : ℚ := D (j % (d * n) / n) (j % n)

/-- The other order: `x dx, x dy, y dx, y dy`, the gradient of the first component, then that of the second. -/
def byComponent (d n : ℕ) (D : ℕ → ℕ → ℚ) (j : ℕ) : ℚ := D (j % d) (j % (d * n) / d)

example (D : ℕ → ℕ → ℚ) : (List.range 4).map (documented 2 2 D) = [D 0 0, D 0 1, D 1 0, D 1 1] := rfl

example (D : ℕ → ℕ → ℚ) : (List.range 4).map (byComponent 2 2 D) = [D 0 0, D 1 0, D 0 1, D 1 1] := rfl

/-! ## Storing -/

theorem foldl_storeBlock (size : ℕ) (input : ℕ → ℚ) (hs : 0 < size) (l : List (ℕ × ℕ)) (buf : GradBuffer) (v r : ℕ) (hr : r < size) :
    (l.foldl (fun b w => storeBlock size input b w.1 w.2) buf) (v * size + r) =
      match l.reverse.find? (fun w => w.1 = v) with
      | some w => input (w.2 * size + r)
      | none => buf (v * size + r) := by
  induction l using List.reverseRecOn generalizing buf with
  | nil => rfl
  | append_singleton l w ih =>
    rw [List.foldl_append, List.foldl_cons, List.foldl_nil, List.reverse_append, List.reverse_singleton, List.singleton_append,
      List.find?_cons]
    unfold storeBlock
    have h1 : (v * size + r) / size = v := by rw [mul_comm, Nat.mul_add_div hs, Nat.div_eq_of_lt hr, add_zero]
    have h2 : (v * size + r) % size = r := by rw [mul_comm, Nat.mul_add_mod, Nat.mod_eq_of_lt hr]
    rw [h1, h2]
    by_cases h : w.1 = v
    · simp [h]
    · rw [if_neg (Ne.symm h)]
      have : decide (w.1 = v) = false := by simpa using h
      rw [this]
      exact ih buf

/-- The block of the last occurrence of a vertex is what is stored for it, and other vertices keep their block. -/
theorem storeGradients_apply (n : ℕ) (vertices : List ℕ) (input : ℕ → ℚ) (buf : GradBuffer) (v r : ℕ) (hr : r < d * n) :
    storeGradients d n vertices input buf (v * (d * n) + r) =
      match vertices.zipIdx.reverse.find? (fun w => w.1 = v) with
      | some w => input (w.2 * (d * n) + r)
      | none => buf (v * (d * n) + r) :=
  foldl_storeBlock (d * n) input (by omega) _ buf v r hr

theorem storeGradients_periodic (n : ℕ) (vertices : List ℕ) (f : ℕ → ℚ) (hf : ∀ i r, f (i * (d * n) + r) = f r) (buf : GradBuffer)
    (v r : ℕ) (hv : v ∈ vertices) (hr : r < d * n) : storeGradients d n vertices f buf (v * (d * n) + r) = f r := by
  rw [storeGradients_apply n vertices f buf v r hr]
  obtain ⟨i, hi, he⟩ := List.getElem_of_mem hv
  have hm : (v, i) ∈ vertices.zipIdx.reverse := by
    rw [List.mem_reverse, List.mem_zipIdx_iff_getElem?]
    simp [List.getElem?_eq_getElem hi, he]
  cases h : vertices.zipIdx.reverse.find? (fun w => w.1 = v) with
  | none => exact absurd (List.find?_eq_none.mp h _ hm) (by simp)
  | some w => exact hf w.2 r

theorem documented_periodic (n : ℕ) (D : ℕ → ℕ → ℚ) (i r : ℕ) : documented d n D (i * (d * n) + r) = documented d n D r := by
  unfold documented
  rw [mul_comm i, Nat.mul_add_mod, mul_right_comm d n i, mul_comm (d * i) n, Nat.mul_add_mod]

theorem byComponent_periodic (n : ℕ) (D : ℕ → ℕ → ℚ) (i r : ℕ) : byComponent d n D (i * (d * n) + r) = byComponent d n D r := by
  unfold byComponent
  rw [mul_comm i, Nat.mul_add_mod, mul_assoc, Nat.mul_add_mod]

theorem gradCol_stored (n : ℕ) (vertices : List ℕ) (f : ℕ → ℚ) (hf : ∀ i r, f (i * (d * n) + r) = f r) (v : ℕ) (hv : v ∈ vertices)
    (k : ℕ) (hk : k < n) (a : Fin d) : gradCol d (storeGradients d n vertices f fun _ => 0) (v * n + k) a = f (k * d + a) := by
  unfold gradCol
  have e : (v * n + k) * d + a.val = v * (d * n) + (k * d + a) := by ring
  have hr : k * d + a < d * n := by
    have := Nat.mul_le_mul_right d (Nat.succ_le_of_lt hk)
    rw [Nat.succ_mul, mul_comm n d] at this
    omega
  rw [e, storeGradients_periodic n vertices f hf _ v _ hv hr]

/-! ## Mapping -/

/-- Gradients written component by component: affine fields are reproduced, for scalar and vector data. `D a k` is the
derivative of component `k` in direction `a`. -/
theorem C51_by_component {q : Query d} (hq : q.Valid) (source target : Mesh d) (hin : source.verts ≠ []) (n : ℕ) (vertices : List ℕ)
    (hall : ∀ j < source.verts.length, j ∈ vertices) (x : Data) (c : ℕ → ℚ) (D : ℕ → ℕ → ℚ)
    (hx : ∀ j < source.verts.length, ∀ k < n, x (j * n + k) = c k + ∑ a : Fin d, D a k * coordsOf source j a)
    (i : ℕ) (hi : i < target.verts.length) (k : ℕ) (hk : k < n) :
    writeAndMapGradient q source target n vertices x (byComponent d n D) (i * n + k) =
      c k + ∑ a : Fin d, D a k * coordsOf target i a := by
  refine C51_affine hq source target hin n x _ c (fun k a => D a k) hx (fun j hj k hk => ?_) i hi k hk
  funext a
  rw [gradCol_stored n vertices _ (byComponent_periodic n D) j (hall j hj) k hk a]
  unfold byComponent
  have h1 : (k * d + a.val) % d = a := by rw [mul_comm, Nat.mul_add_mod, Nat.mod_eq_of_lt a.2]
  have hr : k * d + a < d * n := by
    have := Nat.mul_le_mul_right d (Nat.succ_le_of_lt hk)
    rw [Nat.succ_mul, mul_comm n d] at this
    omega
  have h2 : (k * d + a.val) / d = k := by
    rw [mul_comm, Nat.mul_add_div (by have := a.2; omega), Nat.div_eq_of_lt a.2, add_zero]
  rw [h1, Nat.mod_eq_of_lt hr, h2]

/-- Scalar data: the documented order is the one the mapping takes, so affine fields are reproduced. -/
theorem C51_documented_scalar_partial {q : Query d} (hq : q.Valid) (source target : Mesh d) (hin : source.verts ≠ []) (vertices : List ℕ)
    (hall : ∀ j < source.verts.length, j ∈ vertices) (x : Data) (c : ℚ) (D : ℕ → ℚ)
    (hx : ∀ j < source.verts.length, x j = c + ∑ a : Fin d, D a * coordsOf source j a) (i : ℕ) (hi : i < target.verts.length) :
    writeAndMapGradient q source target 1 vertices x (documented d 1 fun a _ => D a) i = c + ∑ a : Fin d, D a * coordsOf target i a := by
  have h := C51_by_component hq source target hin 1 vertices hall x (fun _ => c) (fun a _ => D a)
    (fun j hj k hk => by simpa [show k = 0 by omega] using hx j hj) i hi 0 one_pos
  have e : documented d 1 (fun a _ => D a) = byComponent d 1 fun a _ => D a := by
    funext j
    unfold documented byComponent
    rw [Nat.div_one, mul_one]
  rw [e]
  simpa using h

/-- Vector data in the documented order: instead of the gradient of component `k` the mapping takes the derivatives of all
components in direction `k`. -/
theorem C51_documented_vector {q : Query d} (hq : q.Valid) (source target : Mesh d) (hin : source.verts ≠ []) (vertices : List ℕ)
    (hall : ∀ j < source.verts.length, j ∈ vertices) (x : Data) (c : ℕ → ℚ) (D : ℕ → ℕ → ℚ)
    (hx : ∀ j < source.verts.length, ∀ k < d, x (j * d + k) = c k + ∑ a : Fin d, D a k * coordsOf source j a)
    (i : ℕ) (hi : i < target.verts.length) (k : ℕ) (hk : k < d) :
    ∃ j, (j < source.verts.length ∧ ∀ i' < source.verts.length, dist2 (coordsOf target i) (coordsOf source j) ≤ dist2 (coordsOf target i) (coordsOf source i')) ∧
    writeAndMapGradient q source target d vertices x (documented d d D) (i * d + k) =
      (c k + ∑ a : Fin d, D a k * coordsOf target i a) +
        ∑ a : Fin d, (D k a - D a k) * (coordsOf target i a - coordsOf source j a) := by
  have hv := hq.vertex source (coordsOf target i) hin
  refine ⟨q.closestVertex source (coordsOf target i), ⟨hv.1, hv.2⟩, ?_⟩
  unfold writeAndMapGradient mapNNG
  rw [nng_apply hk, if_pos hi]
  have hl : (nnIndices q .consistent source target).length = target.verts.length := by
    unfold nnIndices setup
    simp
  have hoff : (nngOffsets (nnIndices q .consistent source target) target source)[i]?.getD 0 =
      coordsOf target i - coordsOf source ((nnIndices q .consistent source target)[i]?.getD 0) := by
    unfold nngOffsets
    rw [List.getElem?_map, List.getElem?_range (by omega)]
    rfl
  rw [hoff, nnIndices_consistent q (by decide) source target hi, hx _ hv.1 k hk]
  have hg : gradCol d (storeGradients d d vertices (documented d d D) fun _ => 0) (q.closestVertex source (coordsOf target i) * d + k) =
      fun a : Fin d => D k a := by
    funext a
    rw [gradCol_stored d vertices _ (documented_periodic d D) _ (hall _ hv.1) k hk a]
    unfold documented
    have h1 : (k * d + a.val) % d = a := by rw [mul_comm, Nat.mul_add_mod, Nat.mod_eq_of_lt a.2]
    have hr : k * d + a < d * d := by
      have := Nat.mul_le_mul_right d (Nat.succ_le_of_lt hk)
      rw [Nat.succ_mul] at this
      omega
    have h2 : (k * d + a.val) / d = k := by
      rw [mul_comm, Nat.mul_add_div (by have := a.2; omega), Nat.div_eq_of_lt a.2, add_zero]
    rw [Nat.mod_eq_of_lt hr, h1, h2]
  rw [hg]
  unfold dot
  rw [add_assoc, add_assoc, ← Finset.sum_add_distrib, ← Finset.sum_add_distrib]
  congr 1
  exact Finset.sum_congr rfl fun a _ => by simp only [Pi.sub_apply]; ring

/-- So vector fields written in the documented order are reproduced if the matrix of derivatives is symmetric. -/
theorem C51_documented_symmetric_partial {q : Query d} (hq : q.Valid) (source target : Mesh d) (hin : source.verts ≠ []) (vertices : List ℕ)
    (hall : ∀ j < source.verts.length, j ∈ vertices) (x : Data) (c : ℕ → ℚ) (D : ℕ → ℕ → ℚ) (hsym : ∀ a < d, ∀ b < d, D a b = D b a)
    (hx : ∀ j < source.verts.length, ∀ k < d, x (j * d + k) = c k + ∑ a : Fin d, D a k * coordsOf source j a)
    (i : ℕ) (hi : i < target.verts.length) (k : ℕ) (hk : k < d) :
    writeAndMapGradient q source target d vertices x (documented d d D) (i * d + k) = c k + ∑ a : Fin d, D a k * coordsOf target i a := by
  obtain ⟨j, -, h⟩ := C51_documented_vector hq source target hin vertices hall x c D hx i hi k hk
  have e : ∑ a : Fin d, (D k a - D a k) * (coordsOf target i a - coordsOf source j a) = 0 :=
    Finset.sum_eq_zero fun a _ => by rw [hsym k hk a a.2, sub_self, zero_mul]
  rw [h, e, add_zero]

/-! ## The documented order is not the one the mapping takes -/

namespace Rotation

/-- One vertex at the origin. -/
def here : Mesh 2 := ⟨[{ coords := ![0, 0] }], [], [], []⟩

/-- One vertex beside it. -/
def there : Mesh 2 := ⟨[{ coords := ![1, 2] }], [], [], []⟩

/-- The derivatives of the rotation `(x, y) ↦ (-y, x)`. -/
def D (a k : ℕ) : ℚ := if a = 1 ∧ k = 0 then -1 else if a = 0 ∧ k = 1 then 1 else 0

/-- The field is zero at the origin and `(-2, 1)` at `(1, 2)`, but a participant that follows the documentation makes the
mapping deliver `(2, -1)` there. In the order by components the result is right. -/
theorem C51_documented_order_differs :
    (List.range 4).map (documented 2 2 D) = [0, 1, -1, 0] ∧
    (List.range 2).map (writeAndMapGradient (bruteForce 2) here there 2 [0] (fun _ => 0) (documented 2 2 D)) = [2, -1] ∧
    (List.range 2).map (writeAndMapGradient (bruteForce 2) here there 2 [0] (fun _ => 0) (byComponent 2 2 D)) = [-2, 1] := by
  decide +kernel

/-- `C51_by_component` applies to this field. -/
example : writeAndMapGradient (bruteForce 2) here there 2 [0] (fun _ => 0) (byComponent 2 2 D) (0 * 2 + 0) = -2 := by
  rw [C51_by_component (bruteForce_valid 2) here there (by decide) 2 [0] (by decide) (fun _ => 0) (fun _ => 0) D (by decide +kernel) 0
    (by decide) 0 (by decide)]
  decide +kernel

/-- A field with symmetric derivatives, `(x + 3 y, 3 x + y)`, can be written in the documented order. -/
example : writeAndMapGradient (bruteForce 2) here there 2 [0] (fun _ => 0) (documented 2 2 fun a k => if a = k then 1 else 3) (0 * 2 + 1) = 5 := by
  rw [C51_documented_symmetric_partial (bruteForce_valid 2) here there (by decide) [0] (by decide) (fun _ => 0) (fun _ => 0)
    (fun a k => if a = k then 1 else 3) (fun a _ b _ => by simp only [eq_comm]) (by decide +kernel) 0 (by decide) 1 (by decide)]
  decide +kernel

/-- A scalar field `3 x + 5 y`. -/
example : writeAndMapGradient (bruteForce 2) here there 1 [0] (fun _ => 0) (documented 2 1 fun a _ => if a = 0 then 3 else 5) 0 = 13 := by
  rw [C51_documented_scalar_partial (bruteForce_valid 2) here there (by decide) [0] (by decide) (fun _ => 0) 0
    (fun a => if a = 0 then 3 else 5) (by decide +kernel) 0 (by decide)]
  decide +kernel

end Rotation

end Verif.Mapping
