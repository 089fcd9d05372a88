import Verif.Misc.WatchIntegral
import Mathlib.Algebra.BigOperators.Group.Finset.Piecewise

/-!
# Multiply- and divide-by-area actions

Model of `performAction` (`/repo/src/action/ScaleByAreaAction.cpp`:26-72) for the values of one sample: the loop 31-71 applies it to every sample and writes the
result back at the time of the sample. Values are real; `none` is a value which is not a finite number (division by zero).
-/

set_option autoImplicit false

namespace Verif
namespace ScaleByArea

open Integrate Geometry WatchIntegral Function

variable {d : ℕ}

/-! ## Model -/

/-- `Edge::getEnclosingRadius`, Edge.cpp:29-37: distance of the first vertex from the centre -/
noncomputable def enclosingRadius (a b : Fin d → ℝ) : ℝ := Geometry.norm (a - fun i => 0.5 * (a i + b i))

/-- `areas[i] += x` -/
noncomputable def addTo (areas : ℕ → ℝ) (i : ℕ) (x : ℝ) : ℕ → ℝ := update areas i (areas i + x)

/-- share of an edge, ScaleByAreaAction.cpp:42-45 -/
noncomputable def edgeShare (m : Mesh d) (e : Cell) : ℝ :=
  match e with
  | [a, b] => enclosingRadius (realCoords m a) (realCoords m b)
  | _ => 0

/-- share of a triangle, ScaleByAreaAction.cpp:49-53 -/
noncomputable def triangleShare (m : Mesh d) (t : Cell) : ℝ := cellMeasure m t / 3

/-- ScaleByAreaAction.cpp:36-54: the areas of the vertices, `none` if the connectivity is missing -/
noncomputable def computeAreas (m : Mesh d) : Option (ℕ → ℝ) :=
  if d = 2 then
    if m.edges = [] then none
    else some (m.edges.foldl (fun areas e => e.foldl (fun areas i => addTo areas i (edgeShare m e)) areas) fun _ => 0)
  else
    if m.tris = [] then none
    else some (m.tris.foldl (fun areas t => t.foldl (fun areas i => addTo areas i (triangleShare m t)) areas) fun _ => 0)

/-- `_scaling` -/
inductive Scaling where
  | divide
  | multiply

/-- dividing a double -/
noncomputable def divideBy (x : Option ℝ) (a : ℝ) : Option ℝ := open Classical in x.bind fun v => if a = 0 then none else some (v / a)

/-- ScaleByAreaAction.cpp:55-69: entry `k` of data with `n` components belongs to vertex `k / n`. -/
noncomputable def scaleValues (s : Scaling) (areas : ℕ → ℝ) (n : ℕ) (values : ℕ → Option ℝ) : ℕ → Option ℝ := fun k =>
  match s with
  | .divide => divideBy (values k) (areas (k / n))
  | .multiply => (values k).map fun v => v * areas (k / n)

/-- `performAction` on the values of one sample; `none` is the error message about missing connectivity. -/
noncomputable def perform (s : Scaling) (m : Mesh d) (n : ℕ) (values : ℕ → Option ℝ) : Option (ℕ → Option ℝ) :=
  (computeAreas m).map fun areas => scaleValues s areas n values

/-! ## Lemmas -/

/-- how often a vertex is a corner, times the share of the element, over all elements -/
noncomputable def vertexArea (share : Cell → ℝ) (cells : List Cell) (i : ℕ) : ℝ :=
  (cells.map fun c => (c.count i : ℝ) * share c).sum

theorem enclosingRadius_eq (a b : Fin d → ℝ) : enclosingRadius a b = edgeLength a b / 2 := by
  unfold enclosingRadius edgeLength Geometry.norm
  have : ∑ i, (a - fun i => 0.5 * (a i + b i)) i * (a - fun i => 0.5 * (a i + b i)) i =
      (∑ i, (b - a) i * (b - a) i) * (1 / 2) ^ 2 := by
    rw [Finset.sum_mul]
    refine Finset.sum_congr rfl fun i _ => ?_
    simp only [Pi.sub_apply]
    ring
  rw [this, Real.sqrt_mul (Finset.sum_nonneg fun i _ => mul_self_nonneg _), Real.sqrt_sq (by norm_num)]
  ring

theorem inner_fold (x : ℝ) (c : Cell) (areas : ℕ → ℝ) (i : ℕ) :
    c.foldl (fun areas i => addTo areas i x) areas i = areas i + c.count i * x := by
  induction c generalizing areas with
  | nil => simp
  | cons a c ih =>
    rw [List.foldl_cons, ih, addTo, List.count_cons]
    by_cases h : a = i
    · subst h
      rw [update_self]
      simp
      ring
    · rw [update_of_ne (Ne.symm h)]
      simp [h]

theorem outer_fold (share : Cell → ℝ) (cells : List Cell) (areas : ℕ → ℝ) (i : ℕ) :
    cells.foldl (fun areas c => c.foldl (fun areas i => addTo areas i (share c)) areas) areas i =
      areas i + vertexArea share cells i := by
  induction cells generalizing areas with
  | nil => simp [vertexArea]
  | cons c cells ih =>
    rw [List.foldl_cons, ih, inner_fold]
    simp only [vertexArea, List.map_cons, List.sum_cons]
    ring

/-- the share of a surface element -/
noncomputable def share (m : Mesh d) (c : Cell) : ℝ := cellMeasure m c / c.length

theorem edgeShare_eq (m : Mesh d) {e : Cell} (h : e.length = 2) : edgeShare m e = share m e := by
  match e, h with
  | [a, b], _ =>
    simp only [edgeShare, enclosingRadius_eq, share, cellMeasure, List.map_cons, List.map_nil]
    have : simplexMeasure d [realCoords m a, realCoords m b] = edgeLength (realCoords m a) (realCoords m b) := by
      unfold simplexMeasure
      rcases d with _ | _ | _ | _ | d <;> rfl
    rw [this]
    simp

theorem triangleShare_eq (m : Mesh d) {t : Cell} (h : t.length = 3) : triangleShare m t = share m t := by
  simp [triangleShare, share, h]

theorem computeAreas_eq {m : Mesh d} (hm : WellFormed m) :
    computeAreas m = if cellsFor false m = [] then none else some (vertexArea (share m) (cellsFor false m)) := by
  unfold computeAreas cellsFor
  simp only [Bool.false_eq_true, if_false]
  split
  · split
    · rfl
    · congr 1
      funext i
      rw [outer_fold, zero_add]
      unfold vertexArea
      congr 1
      exact List.map_congr_left fun e he => by rw [edgeShare_eq m (hm.1 e he)]
  · split
    · rfl
    · congr 1
      funext i
      rw [outer_fold, zero_add]
      unfold vertexArea
      congr 1
      exact List.map_congr_left fun e he => by rw [triangleShare_eq m (hm.2.1 e he)]

theorem simplexMeasure_nonneg {c : List (Fin d → ℝ)} (h : c.length = 2 ∨ c.length = 3) : 0 ≤ simplexMeasure d c := by
  rcases h with h | h
  · match c, h with
    | [a, b], _ =>
      have : simplexMeasure d [a, b] = edgeLength a b := by
        unfold simplexMeasure
        rcases d with _ | _ | _ | _ | d <;> rfl
      rw [this]
      exact Real.sqrt_nonneg _
  · match c, h with
    | [a, b, e], _ =>
      rcases d with _ | _ | _ | _ | d
      · exact le_rfl
      · exact le_rfl
      · exact (C88_area2 ![a, b, e]).1
      · exact (C88_area3 ![a, b, e]).1
      · exact le_rfl

theorem share_nonneg {m : Mesh d} (hm : WellFormed m) {c : Cell} (hc : c ∈ cellsFor false m) : 0 ≤ share m c :=
  div_nonneg (simplexMeasure_nonneg (by simpa using hm.length hc)) (by positivity)

/-- Summing over the vertices is summing over the corners of the elements. -/
theorem sum_vertexArea {cells : List Cell} {N : ℕ} (h : ∀ c ∈ cells, ∀ i ∈ c, i < N) (w : Cell → ℝ) (f : ℕ → ℝ) :
    ∑ i ∈ Finset.range N, vertexArea w cells i * f i = (cells.map fun c => w c * (c.map f).sum).sum := by
  have corner : ∀ c : Cell, (∀ i ∈ c, i < N) → ∑ i ∈ Finset.range N, (c.count i : ℝ) * f i = (c.map f).sum := by
    intro c
    induction c with
    | nil => simp
    | cons a c ih =>
      intro hc
      have h1 := ih fun i hi => hc i (List.mem_cons_of_mem _ hi)
      rw [List.map_cons, List.sum_cons, ← h1]
      have : ∀ i, (((a :: c).count i : ℕ) : ℝ) * f i = (if a = i then f i else 0) + (c.count i : ℝ) * f i := by
        intro i
        rw [List.count_cons]
        by_cases e : a = i
        · simp [e]; ring
        · simp [e]
      rw [Finset.sum_congr rfl fun i _ => this i, Finset.sum_add_distrib, Finset.sum_ite_eq, if_pos (by simpa using hc a (by simp))]
  induction cells with
  | nil => simp [vertexArea]
  | cons c cells ih =>
    rw [List.map_cons, List.sum_cons, ← ih fun c' h' => h c' (List.mem_cons_of_mem _ h'), ← corner c (h c (by simp)), Finset.mul_sum,
      ← Finset.sum_add_distrib]
    refine Finset.sum_congr rfl fun i _ => ?_
    simp only [vertexArea, List.map_cons, List.sum_cons]
    ring

/-! ## Theorems -/

/-- The area of a vertex: half of the length of its edges in two, a third of the area of its triangles in three dimensions. -/
noncomputable def areaOf (m : Mesh d) (i : ℕ) : ℝ :=
  ((cellsFor false m).map fun c => (c.count i : ℝ) * (cellMeasure m c / c.length)).sum

theorem areaOf_pos {m : Mesh d} (hm : WellFormed m) {i : ℕ} (h : ∃ c ∈ cellsFor false m, i ∈ c ∧ 0 < cellMeasure m c) :
    0 < areaOf m i := by
  obtain ⟨c, hc, hi, hp⟩ := h
  unfold areaOf
  have hnn : ∀ x ∈ (cellsFor false m).map fun c => (c.count i : ℝ) * (cellMeasure m c / c.length), 0 ≤ x := by
    intro x hx
    obtain ⟨c', hc', rfl⟩ := List.mem_map.1 hx
    exact mul_nonneg (by positivity) (share_nonneg hm hc')
  refine lt_of_lt_of_le ?_ (List.single_le_sum hnn _ (List.mem_map.2 ⟨c, hc, rfl⟩))
  have hl : 0 < c.length := List.length_pos_of_mem hi
  have : 0 < c.count i := List.count_pos_iff.2 hi
  positivity

/-- On a mesh in which every vertex belongs to an element of positive measure, multiplying and then dividing by the area gives back the values, and so does
dividing and then multiplying, for all entries of data with any number of components. -/
theorem C84_inverse {m : Mesh d} (hm : WellFormed m)
    (hpos : ∀ i, i < m.verts.length → ∃ c ∈ cellsFor false m, i ∈ c ∧ 0 < cellMeasure m c)
    (hne : m.verts ≠ []) (n : ℕ) (values : ℕ → ℝ) :
    ∃ mul div, perform .multiply m n (fun k => some (values k)) = some mul ∧ perform .divide m n (fun k => some (values k)) = some div ∧
    ∃ back back', perform .divide m n mul = some back ∧ perform .multiply m n div = some back' ∧
      ∀ k, k < m.verts.length * n → back k = some (values k) ∧ back' k = some (values k) := by
  have hc : cellsFor false m ≠ [] := by
    obtain ⟨c, hc, -⟩ := hpos 0 (List.length_pos_iff.2 hne)
    exact List.ne_nil_of_mem hc
  have ha : computeAreas m = some (areaOf m) := by
    rw [computeAreas_eq hm, if_neg hc]; rfl
  simp only [perform, ha, Option.map_some]
  refine ⟨_, _, rfl, rfl, _, _, rfl, rfl, fun k hk => ?_⟩
  have hp : areaOf m (k / n) ≠ 0 := by
    refine ne_of_gt (areaOf_pos hm (hpos _ ?_))
    rcases Nat.eq_zero_or_pos n with rfl | h
    · simp at hk
    · exact (Nat.div_lt_iff_lt_mul h).2 hk
  constructor
  · simp [scaleValues, divideBy, hp]
  · simp [scaleValues, divideBy, hp]

/-- The areas of the vertices add up to the area of the mesh. -/
theorem C84_total {m : Mesh d} (hm : WellFormed m) (hc : cellsFor false m ≠ []) :
    ∃ areas, computeAreas m = some areas ∧ ∑ i ∈ Finset.range m.verts.length, areas i = surfaceArea m := by
  refine ⟨_, by rw [computeAreas_eq hm, if_neg hc], ?_⟩
  have := sum_vertexArea (fun c hc => hm.corner hc) (share m) fun _ => (1 : ℝ)
  simp only [mul_one] at this
  rw [this]
  unfold surfaceArea
  congr 1
  refine List.map_congr_left fun c hc => ?_
  have hl : (c.length : ℝ) ≠ 0 := by
    rcases hm.length hc with h | h <;> rw [h] <;> norm_num
  rw [List.map_const', List.sum_replicate, nsmul_eq_mul, mul_one, share, div_mul_cancel₀ _ hl]

/-- The sum of the multiplied values is the surface integral of the values: multiply-by-area turns densities into the integrated quantity. -/
theorem C84_integral {m : Mesh d} (hm : WellFormed m) (hc : cellsFor false m ≠ []) (n : ℕ) (values : ℕ → ℝ) (c : Fin n) :
    ∃ mul, perform .multiply m n (fun k => some (values k)) = some mul ∧
      (∑ i ∈ Finset.range m.verts.length, (mul (i * n + c)).getD 0) = integral m (cellsFor false m) fun i => values (i * n + c) := by
  refine ⟨_, by rw [perform, computeAreas_eq hm, if_neg hc]; rfl, ?_⟩
  have hn : 0 < n := Nat.lt_of_le_of_lt (Nat.zero_le _) c.isLt
  have hdiv : ∀ i, (i * n + (c : ℕ)) / n = i := fun i => by
    rw [Nat.mul_comm, Nat.mul_add_div hn, Nat.div_eq_of_lt c.isLt, Nat.add_zero]
  have := sum_vertexArea (fun c hc => hm.corner hc) (share m) fun i => values (i * n + c)
  simp only [scaleValues, Option.map_some, Option.getD_some, hdiv]
  rw [Finset.sum_congr rfl fun i _ => mul_comm (values (i * n + c)) _, this]
  unfold integral
  congr 1
  refine List.map_congr_left fun e _ => ?_
  unfold share cellMeasure
  ring

/-- Without edges (2D) or triangles (3D) the action is refused. -/
theorem C84_connectivity_required {m : Mesh d} (hm : WellFormed m) (s : Scaling) (n : ℕ) (values : ℕ → Option ℝ) :
    perform s m n values = none ↔ cellsFor false m = [] := by
  rw [perform, computeAreas_eq hm]
  split
  · simp [*]
  · simp [*]

/-- Dividing by area at a vertex which belongs to no element does not give a number. The mesh is accepted. -/
theorem C84_isolated_vertex :
    ∃ div, perform .divide whole3 1 (fun _ => some 1) = some div ∧ div 2 = none := by
  have hw : WellFormed whole3 := by refine ⟨?_, ?_, ?_⟩ <;> decide
  refine ⟨_, by rw [perform, computeAreas_eq hw, if_neg (by decide)]; rfl, ?_⟩
  simp [scaleValues, divideBy, vertexArea, show cellsFor false whole3 = [[0, 1]] from rfl]

/-- In parallel every rank only knows its own elements: the common vertex of two edges of length one has the area one, but a half on
each of two ranks with one edge each. The scaled values depend on the distribution of the mesh. -/
theorem C84_partition_dependent :
    Distributed path3 ![left2, right2] ![id, fun i => 2 - i] ∧
    ∃ mul mulLeft mulRight, perform .multiply path3 1 (fun _ => some 1) = some mul ∧
      perform .multiply left2 1 (fun _ => some 1) = some mulLeft ∧ perform .multiply right2 1 (fun _ => some 1) = some mulRight ∧
      mul 1 = some 1 ∧ mulLeft 1 = some (1 / 2) ∧ mulRight 1 = some (1 / 2) := by
  have w1 : WellFormed path3 := by refine ⟨?_, ?_, ?_⟩ <;> decide
  have w2 : WellFormed left2 := by refine ⟨?_, ?_, ?_⟩ <;> decide
  have w3 : WellFormed right2 := by refine ⟨?_, ?_, ?_⟩ <;> decide
  have unit : ∀ (m : Mesh 2) (i j : ℕ) (x : ℚ), m.verts[i]? = some (at2 x 0) → m.verts[j]? = some (at2 (x + 1) 0) →
      cellMeasure m [i, j] = 1 ∧ cellMeasure m [j, i] = 1 := by
    intro m i j x hi hj
    have ei : realCoords m i = ![(x : ℝ), 0] := by
      funext k
      fin_cases k <;> simp [realCoords, hi, at2]
    have ej : realCoords m j = ![(x : ℝ) + 1, 0] := by
      funext k
      fin_cases k <;> simp [realCoords, hj, at2]
    constructor
    · show simplexMeasure 2 [realCoords m i, realCoords m j] = 1
      rw [ei, ej]
      show edgeLength (![(x : ℝ), 0] : Fin 2 → ℝ) ![(x : ℝ) + 1, 0] = 1
      simp [edgeLength, Geometry.norm, Fin.sum_univ_two]
    · show simplexMeasure 2 [realCoords m j, realCoords m i] = 1
      rw [ei, ej]
      show edgeLength (![(x : ℝ) + 1, 0] : Fin 2 → ℝ) ![(x : ℝ), 0] = 1
      simp [edgeLength, Geometry.norm, Fin.sum_univ_two]
  refine ⟨path_distributed, _, _, _, by rw [perform, computeAreas_eq w1, if_neg (by decide)]; rfl,
    by rw [perform, computeAreas_eq w2, if_neg (by decide)]; rfl, by rw [perform, computeAreas_eq w3, if_neg (by decide)]; rfl, ?_, ?_, ?_⟩
  · have h1 := (unit path3 0 1 0 rfl (by simp; rfl)).1
    have h2 := (unit path3 1 2 1 rfl (by norm_num; rfl)).1
    simp [scaleValues, vertexArea, share, show cellsFor false path3 = [[0, 1], [1, 2]] from rfl, h1, h2]
    norm_num
  · have h1 := (unit left2 0 1 0 rfl (by simp; rfl)).1
    simp [scaleValues, vertexArea, share, show cellsFor false left2 = [[0, 1]] from rfl, h1]
  · have h1 := (unit right2 1 0 1 rfl (by norm_num; rfl)).2
    simp [scaleValues, vertexArea, share, show cellsFor false right2 = [[0, 1]] from rfl, h1]

/-- the preconditions hold for two edges in a row -/
example : WellFormed path3 ∧ cellsFor false path3 ≠ [] ∧ (∀ i, i < path3.verts.length → ∃ c ∈ cellsFor false path3, i ∈ c) := by
  refine ⟨?_, by decide, ?_⟩
  · refine ⟨?_, ?_, ?_⟩ <;> decide
  · decide

end ScaleByArea
end Verif
