import Verif.Mapping.Lemmas

/-!
# Properties of nearest-neighbor, projection and cell mappings (C43 - C49, C51, C52)

`dist2` is the squared Euclidean distance. The vertices of `mesh` are `0, ..., mesh.verts.length - 1` at
`coordsOf mesh i`, and component `k` of vertex `i` of a data vector `x` with `n` components is `x (i * n + k)`.
-/

set_option autoImplicit false

namespace Verif.Mapping

open Geometry

variable {d : ℕ}

/-! ## A query that satisfies the specification of the tree search -/

/-- The first index below `n` with a minimal value. -/
def argmin (f : ℕ → ℚ) : ℕ → ℕ
  | 0 => 0
  | n + 1 => if n = 0 then 0 else if f n < f (argmin f n) then n else argmin f n

theorem argmin_spec (f : ℕ → ℚ) (n : ℕ) (hn : 0 < n) : argmin f n < n ∧ ∀ i < n, f (argmin f n) ≤ f i := by
  induction n with
  | zero => omega
  | succ n ih =>
    unfold argmin
    by_cases h0 : n = 0
    · subst h0
      simp only [if_true]
      refine ⟨by omega, fun i hi => ?_⟩
      rw [show i = 0 by omega]
    · obtain ⟨h1, h2⟩ := ih (by omega)
      rw [if_neg h0]
      split
      · rename_i h
        refine ⟨by omega, fun i hi => ?_⟩
        by_cases e : i = n
        · rw [e]
        · exact h.le.trans (h2 i (by omega))
      · rename_i h
        refine ⟨by omega, fun i hi => ?_⟩
        by_cases e : i = n
        · rw [e]; exact not_lt.1 h
        · exact h2 i (by omega)

/-- Exhaustive search. -/
def bruteForce (d : ℕ) : Query d where
  closestVertex m u := argmin (fun i => dist2 u (coordsOf m i)) m.verts.length
  closestEdges m _ _ := List.range m.edges.length
  closestTriangles m _ _ := List.range m.tris.length
  enclosingTetrahedra m _ := List.range m.tets.length

theorem bruteForce_valid (d : ℕ) : (bruteForce d).Valid where
  vertex m u hm := argmin_spec _ _ (List.length_pos_iff.2 hm)
  edge m u n := by
    refine ⟨fun i hi => List.mem_range.1 hi, fun _ c hc => ?_⟩
    obtain ⟨i, hi, rfl⟩ := List.mem_iff_getElem.1 hc
    refine ⟨i, List.mem_range.2 hi, fun p hp => ⟨p, ?_, le_refl _⟩⟩
    rw [List.getElem?_eq_getElem hi]
    exact hp
  triangle m u n i hi := List.mem_range.1 hi
  tetrahedron m u i hi := List.mem_range.1 hi

/-- A vertex at the given position. -/
def vtx (x : Pt d) : Vertex d := { coords := x }

/-- Two points and an edge; a point beside the edge and one beyond its end. -/
def inMesh : Mesh 2 := ⟨[vtx ![0, 0], vtx ![4, 0]], [[0, 1]], [], []⟩
def outMesh : Mesh 2 := ⟨[vtx ![1, 1], vtx ![6, 0]], [], [], []⟩

theorem inMesh_ok : inMesh.Ok := by
  constructor <;> intro c hc <;> simp [inMesh] at hc
  subst hc
  refine ⟨rfl, by decide, by decide, by decide⟩

/-! ## Nearest neighbor -/

theorem nnIndices_consistent (q : Query d) {c : Constraint} (hc : c ≠ .conservative) (input output : Mesh d) {i : ℕ}
    (hi : i < output.verts.length) :
    (nnIndices q c input output)[i]?.getD 0 = q.closestVertex input (coordsOf output i) := by
  unfold nnIndices setup
  simp only [if_neg hc]
  rw [List.getElem?_map, List.getElem?_range hi]
  rfl

theorem nnIndices_conservative (q : Query d) (input output : Mesh d) {i : ℕ} (hi : i < input.verts.length) :
    (nnIndices q .conservative input output)[i]?.getD 0 = q.closestVertex output (coordsOf input i) := by
  unfold nnIndices setup
  simp only [if_true]
  rw [List.getElem?_map, List.getElem?_range hi]
  rfl

/-- Every output vertex gets the value of an input vertex at minimal distance. -/
theorem C43_nearest {q : Query d} (hq : q.Valid) {c : Constraint} (hc : c ≠ .conservative) (input output : Mesh d)
    (hin : input.verts ≠ []) (n : ℕ) (x : Data) (i : ℕ) (hi : i < output.verts.length) :
    ∃ j < input.verts.length,
      (∀ l < input.verts.length, dist2 (coordsOf output i) (coordsOf input j) ≤ dist2 (coordsOf output i) (coordsOf input l)) ∧
      ∀ k < n, mapNN q c input output n x (i * n + k) = x (j * n + k) := by
  obtain ⟨h1, h2⟩ := hq.vertex input (coordsOf output i) hin
  refine ⟨_, h1, h2, fun k hk => ?_⟩
  unfold mapNN
  simp only [if_neg hc]
  rw [nnConsistent_apply hk, if_pos hi, nnIndices_consistent q hc input output hi]

/-- Constants are reproduced, and no value outside the range of the input is created. -/
theorem C43_range {q : Query d} (hq : q.Valid) {c : Constraint} (hc : c ≠ .conservative) (input output : Mesh d)
    (hin : input.verts ≠ []) (n k : ℕ) (hk : k < n) (x : Data) (lo hi : ℚ)
    (hx : ∀ j < input.verts.length, lo ≤ x (j * n + k) ∧ x (j * n + k) ≤ hi) (i : ℕ) (h : i < output.verts.length) :
    lo ≤ mapNN q c input output n x (i * n + k) ∧ mapNN q c input output n x (i * n + k) ≤ hi := by
  obtain ⟨j, hj, -, e⟩ := C43_nearest hq hc input output hin n x i h
  rw [e k hk]
  exact hx j hj

example : (bruteForce 2).Valid ∧ inMesh.verts ≠ [] ∧
    mapNN (bruteForce 2) .consistent inMesh outMesh 1 (fun j => (j : ℚ) + 10) 0 = 10 ∧
    mapNN (bruteForce 2) .consistent inMesh outMesh 1 (fun j => (j : ℚ) + 10) 1 = 11 :=
  ⟨bruteForce_valid 2, by decide, by decide +kernel, by decide +kernel⟩

/-- The sum of every component is preserved by conservative mappings. -/
theorem C44_sum {q : Query d} (hq : q.Valid) (input output : Mesh d) (hout : output.verts ≠ []) (n k : ℕ) (hk : k < n)
    (x : Data) :
    ∑ j ∈ Finset.range output.verts.length, mapNN q .conservative input output n x (j * n + k) =
      ∑ i ∈ Finset.range input.verts.length, x (i * n + k) := by
  unfold mapNN
  simp only [if_true, nnConservative_apply hk, Pi.zero_apply, zero_add]
  have := sum_swap (N := output.verts.length) (fun i => (nnIndices q .conservative input output)[i]?.getD 0)
    (fun i => x (i * n + k)) (fun _ => 1) (List.range input.verts.length) (by
      intro i hi
      rw [nnIndices_conservative q input output (List.mem_range.1 hi)]
      exact (hq.vertex output _ hout).1)
  simp only [one_mul] at this
  rw [this, range_map_sum]

example : mapNN (bruteForce 2) .conservative outMesh inMesh 1 (fun j => (j : ℚ) + 10) 0 = 10 ∧
    mapNN (bruteForce 2) .conservative outMesh inMesh 1 (fun j => (j : ℚ) + 10) 1 = 11 := by decide +kernel

/-- Conservative from A to B is the transpose of consistent from B to A: nearest neighbor. -/
theorem C45_nn {q : Query d} (hq : q.Valid) {c : Constraint} (hc : c ≠ .conservative) (A B : Mesh d) (hB : B.verts ≠ [])
    (n k : ℕ) (hk : k < n) (x y : Data) :
    ∑ i ∈ Finset.range A.verts.length, y (i * n + k) * mapNN q c B A n x (i * n + k) =
      ∑ j ∈ Finset.range B.verts.length, mapNN q .conservative A B n y (j * n + k) * x (j * n + k) := by
  have e : ∀ i ∈ Finset.range A.verts.length, y (i * n + k) * mapNN q c B A n x (i * n + k) =
      y (i * n + k) * x (q.closestVertex B (coordsOf A i) * n + k) := by
    intro i hi
    have hi := Finset.mem_range.1 hi
    unfold mapNN
    simp only [if_neg hc]
    rw [nnConsistent_apply hk, if_pos hi, nnIndices_consistent q hc B A hi]
  rw [Finset.sum_congr rfl e]
  have e2 : ∀ j, mapNN q .conservative A B n y (j * n + k) * x (j * n + k) =
      x (j * n + k) * ((List.range A.verts.length).map fun i =>
        if q.closestVertex B (coordsOf A i) = j then y (i * n + k) else 0).sum := by
    intro j
    unfold mapNN
    simp only [if_true]
    rw [nnConservative_apply hk, Pi.zero_apply, zero_add, mul_comm]
    congr 2
    refine List.map_congr_left fun i hi => ?_
    rw [nnIndices_conservative q A B (List.mem_range.1 hi)]
  simp only [e2]
  rw [sum_swap (fun i => q.closestVertex B (coordsOf A i)) (fun i => y (i * n + k)) (fun j => x (j * n + k)) _
    (fun i _ => (hq.vertex B _ hB).1), range_map_sum]
  exact Finset.sum_congr rfl fun i _ => mul_comm _ _

/-! ## Projection and cell mappings -/

theorem ops_bounds (kind : Kind) {q : Query d} (hq : q.Valid) (A B : Mesh d) (hB : B.verts ≠ []) (hok : B.Ok) :
    ∀ op ∈ computeOps kind q A B, op.out < A.verts.length ∧ op.in' < B.verts.length := by
  intro op hop
  rw [computeOps_eq, List.mem_flatMap] at hop
  obtain ⟨i, hi, hop⟩ := hop
  unfold opsOf at hop
  rw [List.mem_map] at hop
  obtain ⟨e, he, rfl⟩ := hop
  refine ⟨List.mem_range.1 hi, ?_⟩
  obtain ⟨c, hc, hp, -⟩ := search_good kind hq hB (coordsOf A i)
  obtain ⟨ws, -, -, -, h4, -, -⟩ := polation_elems hp
  exact elem_lt hok hc _ (h4 ▸ List.mem_map_of_mem (List.mem_filter.1 he).1)

/-- Conservative from A to B is the transpose of consistent from B to A: projection and cell mappings. -/
theorem C45_projection (kind : Kind) {q : Query d} (hq : q.Valid) {c : Constraint} (hc : c ≠ .conservative) (A B : Mesh d)
    (hB : B.verts ≠ []) (hok : B.Ok) (n k : ℕ) (hk : k < n) (x y : Data) :
    ∑ i ∈ Finset.range A.verts.length, y (i * n + k) * mapProjection kind q c B A n x (i * n + k) =
      ∑ j ∈ Finset.range B.verts.length, mapProjection kind q .conservative A B n y (j * n + k) * x (j * n + k) := by
  have hb := ops_bounds kind hq A B hB hok
  have h := ops_adjoint hk (computeOps kind q A B) (fun op h => (hb op h).1) (fun op h => (hb op h).2) x y
  have e1 : ∀ i, mapProjection kind q c B A n x (i * n + k) = mapOpsConsistent n (computeOps kind q A B) x 0 (i * n + k) := by
    intro i
    unfold mapProjection computeMapping setup postProcess
    simp only [if_neg hc]
  have e2 : ∀ j, mapProjection kind q .conservative A B n y (j * n + k) =
      mapOpsConservative n (computeOps kind q A B) y 0 (j * n + k) := by
    intro j
    rw [conservative_value kind q A B hk, mapOpsConservative_apply hk, Pi.zero_apply, zero_add]
  simp only [e1, e2, h]
  exact Finset.sum_congr rfl fun j _ => mul_comm _ _

example : (bruteForce 2).Valid ∧ inMesh.verts ≠ [] ∧ inMesh.Ok ∧
    mapProjection .projection (bruteForce 2) .consistent inMesh outMesh 1 (fun j => (j : ℚ) * 8) 0 = 2 ∧
    mapProjection .projection (bruteForce 2) .conservative outMesh inMesh 1 (fun j => 8 - 7 * (j : ℚ)) 0 = 6 ∧
    mapProjection .projection (bruteForce 2) .conservative outMesh inMesh 1 (fun j => 8 - 7 * (j : ℚ)) 1 = 3 :=
  ⟨bruteForce_valid 2, by decide, inMesh_ok, by decide +kernel, by decide +kernel, by decide +kernel⟩

/-- The weights found by a projection or cell search sum to one. -/
theorem C46_weights (kind : Kind) {q : Query d} (hq : q.Valid) (m : Mesh d) (hm : m.verts ≠ []) (u : Pt d) :
    ((search kind q m u).elems.map (·.2)).sum = 1 := by
  obtain ⟨c, -, hp, -⟩ := search_good kind hq hm u
  obtain ⟨ws, -, -, -, -, h5, h6⟩ := polation_elems hp
  rw [h5, h6]

theorem good_length {m : Mesh d} (hok : m.Ok) {u : Pt d} {p : Polation} (h : Good m u p) : p.elems.length ≤ 4 := by
  obtain ⟨c, hc, hp, -⟩ := h
  obtain ⟨ws, -, -, -, h4, -, -⟩ := polation_elems hp
  have := elem_length hok hc
  rw [← h4, List.length_map] at this
  exact this

/-- Dropping weights that are numerically zero changes the value by at most the tolerance times the values. -/
theorem applied_full (p : Polation) (v : ℕ → ℚ) (B : ℚ) (hv : ∀ e ∈ p.elems, |v e.1| ≤ B) :
    |applied p v - full p v| ≤ p.elems.length * (tol * B) := by
  unfold applied full
  generalize p.elems = l at hv
  induction l with
  | nil => simp
  | cons e l ih =>
    have ih := ih fun e' he => hv e' (List.mem_cons_of_mem _ he)
    have hB : |v e.1| ≤ B := hv e (by simp)
    have hB0 : 0 ≤ tol * B := mul_nonneg tol_pos.le ((abs_nonneg _).trans hB)
    rw [List.length_cons]
    push_cast
    by_cases h : equals e.2 0
    · rw [List.filter_cons_of_neg (by simpa using h), List.map_cons, List.sum_cons]
      have h1 : |e.2 * v e.1| ≤ tol * B := by
        rw [abs_mul]
        refine mul_le_mul ?_ hB (abs_nonneg _) tol_pos.le
        unfold equals at h
        rwa [sub_zero] at h
      rw [← sub_sub, sub_right_comm]
      have := abs_sub (a := _ - _) (b := e.2 * v e.1) |>.trans (add_le_add ih h1)
      linarith
    · rw [List.filter_cons_of_pos (by simpa using h), List.map_cons, List.map_cons, List.sum_cons, List.sum_cons,
        add_sub_add_left_eq_sub]
      linarith

theorem applied_full_of_exact (p : Polation) (v : ℕ → ℚ) (h : ∀ e ∈ p.elems, equals e.2 0 → e.2 = 0) :
    applied p v = full p v := by
  unfold applied full
  generalize p.elems = l at h
  induction l with
  | nil => rfl
  | cons e l ih =>
    have ih := ih fun e' he => h e' (List.mem_cons_of_mem _ he)
    by_cases he : equals e.2 0
    · rw [List.filter_cons_of_neg (by simpa using he), List.map_cons, List.sum_cons, ih, h e (by simp) he, zero_mul, zero_add]
    · rw [List.filter_cons_of_pos (by simpa using he), List.map_cons, List.map_cons, List.sum_cons, List.sum_cons, ih]

theorem full_const (p : Polation) (c : ℚ) : full p (fun _ => c) = (p.elems.map (·.2)).sum * c := by
  unfold full
  generalize p.elems = l
  induction l with
  | nil => simp
  | cons e l ih => simp only [List.map_cons, List.sum_cons, ih, add_mul]

theorem four_le (p : Polation) (h : p.elems.length ≤ 4) {B : ℚ} (hB : 0 ≤ B) :
    (p.elems.length : ℚ) * (tol * B) ≤ 4 * tol * B := by
  have : (p.elems.length : ℚ) ≤ 4 := by exact_mod_cast h
  have h2 : 0 ≤ tol * B := mul_nonneg tol_pos.le hB
  nlinarith

/-- Constants are reproduced up to the tolerance of the weights, and exactly if no tiny weight was dropped. -/
theorem C46_constants (kind : Kind) {q : Query d} (hq : q.Valid) {c : Constraint} (hc : c ≠ .conservative)
    (input output : Mesh d) (hin : input.verts ≠ []) (hok : input.Ok) (n k : ℕ) (hk : k < n) (x : Data) (v : ℚ)
    (hx : ∀ j, x (j * n + k) = v) (i : ℕ) (hi : i < output.verts.length) :
    |mapProjection kind q c input output n x (i * n + k) - v| ≤ 4 * tol * |v| ∧
    ((∀ e ∈ (search kind q input (coordsOf output i)).elems, equals e.2 0 → e.2 = 0) →
      mapProjection kind q c input output n x (i * n + k) = v) := by
  rw [consistent_value kind q c hc input output hk x hi]
  have hf : full (search kind q input (coordsOf output i)) (fun j => x (j * n + k)) = v := by
    simp only [hx]
    rw [full_const, C46_weights kind hq input hin, one_mul]
  constructor
  · have := applied_full (search kind q input (coordsOf output i)) (fun j => x (j * n + k)) |v| (fun e _ => by rw [hx])
    rw [hf] at this
    exact this.trans (four_le _ (good_length hok (search_good kind hq hin _)) (abs_nonneg _))
  · intro h
    rw [applied_full_of_exact _ _ h, hf]

/-- Totals are preserved by conservative mappings up to the tolerance of the weights. -/
theorem C46_totals (kind : Kind) {q : Query d} (hq : q.Valid) (input output : Mesh d) (hout : output.verts ≠ [])
    (hok : output.Ok) (n k : ℕ) (hk : k < n) (x : Data) :
    |∑ j ∈ Finset.range output.verts.length, mapProjection kind q .conservative input output n x (j * n + k) -
      ∑ i ∈ Finset.range input.verts.length, x (i * n + k)| ≤
      4 * tol * ∑ i ∈ Finset.range input.verts.length, |x (i * n + k)| := by
  have h := C45_projection kind hq (c := .consistent) (by decide) input output hout hok n k hk (fun _ => 1) x
  simp only [mul_one] at h
  rw [← h, ← Finset.sum_sub_distrib, Finset.mul_sum]
  refine (Finset.abs_sum_le_sum_abs _ _).trans (Finset.sum_le_sum fun i hi => ?_)
  have := (C46_constants kind hq (c := .consistent) (by decide) output input hout hok n k hk (fun _ => 1) 1
    (fun _ => rfl) i (Finset.mem_range.1 hi)).1
  rw [abs_one, mul_one] at this
  calc |x (i * n + k) * mapProjection kind q .consistent output input n (fun _ => 1) (i * n + k) - x (i * n + k)|
      = |x (i * n + k)| * |mapProjection kind q .consistent output input n (fun _ => 1) (i * n + k) - 1| := by
        rw [← abs_mul, mul_sub, mul_one]
    _ ≤ |x (i * n + k)| * (4 * tol) := mul_le_mul_of_nonneg_left this (abs_nonneg _)
    _ = 4 * tol * |x (i * n + k)| := mul_comm _ _

/-- Disagreement with exactness: a weight of 1e-15 is dropped and the constant one is not reproduced exactly. -/
theorem C46_dropped :
    mapProjection .projection (bruteForce 2) .consistent inMesh ⟨[vtx ![4 / 10 ^ 15, 1]], [], [], []⟩ 1 (fun _ => 1) 0 =
      1 - 1 / 10 ^ 15 := by decide +kernel

/-! ### Affine fields -/

theorem dot_add_right' {d : ℕ} (g x : Pt d) (r : ℚ) (y : Pt d) : dot g (r • x + y) = r * dot g x + dot g y := by
  unfold dot
  rw [Finset.mul_sum, ← Finset.sum_add_distrib]
  exact Finset.sum_congr rfl fun i _ => by simp only [Pi.add_apply, Pi.smul_apply, smul_eq_mul]; ring

/-- Affine fields commute with weighted means. -/
theorem affine_combine (c : ℚ) (g : Pt d) (l : List (Pt d × ℚ)) :
    (l.map fun p => p.2 * (c + dot g p.1)).sum = (l.map (·.2)).sum * c + dot g ((l.map fun p => p.2 • p.1).sum) := by
  induction l with
  | nil => simp [dot]
  | cons p l ih =>
    simp only [List.map_cons, List.sum_cons, ih, dot_add_right']
    ring

theorem full_affine {m : Mesh d} {u : Pt d} {cell : Cell} {p : Polation} (h : polation m u cell = some p) (c : ℚ) (g : Pt d) :
    ∃ ws, weights d (cell.map (coordsOf m)) u = some ws ∧
      full p (fun j => c + dot g (coordsOf m j)) = c + dot g (combine (cell.map (coordsOf m)) ws) := by
  obtain ⟨ws, h1, h2, h3, -, -, h6⟩ := polation_elems h
  refine ⟨ws, h1, ?_⟩
  have : full p (fun j => c + dot g (coordsOf m j)) =
      (((cell.map (coordsOf m)).zip ws).map fun p => p.2 * (c + dot g p.1)).sum := by
    unfold full
    rw [h2, List.zip_map_left, List.map_map]
    rfl
  rw [this, affine_combine, List.map_snd_zip (by rw [List.length_map]; omega), h6, one_mul]
  rfl

/-- The orthogonal projection of a point of the affine hull is the point itself. -/
theorem proj_unique {xs : List (Pt d)} {u : Pt d} {ws vs : List ℚ} (hl : ws.length = xs.length) (hl' : vs.length = xs.length)
    (hs : ws.sum = 1) (hs' : vs.sum = 1) (hu : u = combine xs vs)
    (h : ∀ x ∈ xs, ∀ y ∈ xs, dot (u - combine xs ws) (x - y) = 0) : combine xs ws = u := by
  have key : ∀ (w : Pt d) (z : Pt d) (ts : List ℚ), ts.length = xs.length → (∀ x ∈ xs, dot w (x - z) = 0) →
      dot w (combine xs ts) = ts.sum * dot w z := by
    intro w z
    unfold combine
    clear hu h hl hl'
    induction xs with
    | nil => intro ts h _; simp at h; subst h; simp [dot]
    | cons x xs ih =>
      intro ts h hz
      cases ts with
      | nil => simp at h
      | cons t ts =>
        simp only [List.zip_cons_cons, List.map_cons, List.sum_cons]
        rw [dot_add_right', ih ts (by simpa using h) fun x hx => hz x (List.mem_cons_of_mem _ hx)]
        have hx := hz x (by simp)
        have : dot w (x - z) = dot w x - dot w z := by
          unfold dot
          rw [← Finset.sum_sub_distrib]
          exact Finset.sum_congr rfl fun i _ => by simp only [Pi.sub_apply]; ring
        rw [this] at hx
        linear_combination t * hx
  have sub : ∀ w a b : Pt d, dot w (a - b) = dot w a - dot w b := by
    intro w a b
    unfold dot
    rw [← Finset.sum_sub_distrib]
    exact Finset.sum_congr rfl fun i _ => by simp only [Pi.sub_apply]; ring
  cases xs with
  | nil => simp at hl; subst hl; simp at hs
  | cons z xs =>
    have hz : ∀ x ∈ z :: xs, dot (u - combine (z :: xs) ws) (x - z) = 0 := fun x hx => h x hx z (by simp)
    have e : dot (u - combine (z :: xs) ws) (u - combine (z :: xs) ws) = 0 := by
      rw [sub (u - combine (z :: xs) ws), key _ z ws hl hz, hs]
      conv_lhs => enter [1, 2]; rw [hu]
      rw [key _ z vs hl' hz, hs', sub_self]
    have := dot_self_eq_zero e
    exact (sub_eq_zero.1 this).symm

/-- Affine data is mapped to its value at the orthogonal projection onto the element that was found (up to the
tolerance of dropped weights), which is the vertex itself if it lies in the line, plane or space of the element. -/
theorem C47_affine (kind : Kind) {q : Query d} (hq : q.Valid) {con : Constraint} (hc : con ≠ .conservative)
    (input output : Mesh d) (hin : input.verts ≠ []) (hok : input.Ok) (n k : ℕ) (hk : k < n) (x : Data) (c : ℚ) (g : Pt d)
    (hx : ∀ j < input.verts.length, x (j * n + k) = c + dot g (coordsOf input j)) (B : ℚ)
    (hB : ∀ j < input.verts.length, |x (j * n + k)| ≤ B) (i : ℕ) (hi : i < output.verts.length) :
    ∃ cell, Elem input cell ∧ ∃ ws : List ℚ, ws.length = cell.length ∧ ws.sum = 1 ∧
      (∀ a ∈ cell, ∀ b ∈ cell,
        dot (coordsOf output i - combine (cell.map (coordsOf input)) ws) (coordsOf input a - coordsOf input b) = 0) ∧
      |mapProjection kind q con input output n x (i * n + k) - (c + dot g (combine (cell.map (coordsOf input)) ws))| ≤ 4 * tol * B ∧
      ∀ vs : List ℚ, vs.length = cell.length → vs.sum = 1 → coordsOf output i = combine (cell.map (coordsOf input)) vs →
        |mapProjection kind q con input output n x (i * n + k) - (c + dot g (coordsOf output i))| ≤ 4 * tol * B := by
  have hgood := search_good kind hq hin (coordsOf output i)
  obtain ⟨cell, hcell, hp, hint⟩ := hgood
  obtain ⟨ws, hws, hfull⟩ := full_affine hp c g
  obtain ⟨h1, h2, h3⟩ := weights_spec hws
  rw [List.length_map] at h1
  have hlt := elem_lt hok hcell
  have hel : ∀ e ∈ (search kind q input (coordsOf output i)).elems, e.1 < input.verts.length := by
    intro e he
    obtain ⟨-, -, -, -, h4, -, -⟩ := polation_elems hp
    exact hlt _ (h4 ▸ List.mem_map_of_mem he)
  have hval := consistent_value kind q con hc input output hk x hi
  have happ : |mapProjection kind q con input output n x (i * n + k) - (c + dot g (combine (cell.map (coordsOf input)) ws))| ≤ 4 * tol * B := by
    rw [hval, ← hfull]
    have e : full (search kind q input (coordsOf output i)) (fun j => c + dot g (coordsOf input j)) =
        full (search kind q input (coordsOf output i)) (fun j => x (j * n + k)) := by
      unfold full
      congr 1
      exact List.map_congr_left fun e he => congrArg (e.2 * ·) (hx e.1 (hel e he)).symm
    rw [e]
    have hB0 : 0 ≤ B := (abs_nonneg _).trans (hB 0 (List.length_pos_iff.2 hin))
    have h1 := applied_full (search kind q input (coordsOf output i)) (fun j => x (j * n + k)) B fun e he => hB e.1 (hel e he)
    have h2 := four_le (search kind q input (coordsOf output i)) (good_length hok ⟨cell, hcell, hp, hint⟩) hB0
    exact h1.trans h2
  refine ⟨cell, hcell, ws, h1, h2, fun a ha b hb => h3 _ (List.mem_map_of_mem ha) _ (List.mem_map_of_mem hb), happ, ?_⟩
  intro vs hvl hvs hu
  have : combine (cell.map (coordsOf input)) ws = coordsOf output i :=
    proj_unique (by rw [List.length_map]; exact h1) (by rw [List.length_map]; exact hvl) h2 hvs hu h3
  rwa [this] at happ

/-- In triangles of two-dimensional meshes and in tetrahedra, every point is in the plane or space. -/
theorem C47_full_dimensional :
    (∀ (a b c u : Pt 2) (ws : List ℚ), weights 2 [a, b, c] u = some ws → combine [a, b, c] ws = u) ∧
    (∀ (a b c e u : Pt 3) (ws : List ℚ), weights 3 [a, b, c, e] u = some ws → combine [a, b, c, e] ws = u) :=
  ⟨fun _ _ _ _ _ h => (baryTriangle2_spec h).2.2, fun _ _ _ _ _ _ h => (baryTetra_spec h).2.2⟩

/-- The weights exist for all non-degenerate elements. -/
theorem C47_exist :
    (∀ (e : ℕ) (a b u : Pt e), a ≠ b → (weights e [a, b] u).isSome) ∧
    (∀ (a b c u : Pt 2), cross2 (b - a) (c - a) ≠ 0 → (weights 2 [a, b, c] u).isSome) ∧
    (∀ (a b c u : Pt 3), cross (b - a) (c - a) ≠ 0 → (weights 3 [a, b, c] u).isSome) ∧
    (∀ (a b c e u : Pt 3), dot (cross (b - a) (c - a)) (e - a) ≠ 0 → (weights 3 [a, b, c, e] u).isSome) := by
  refine ⟨?_, ?_, ?_, ?_⟩
  · intro e a b u h
    unfold weights baryEdge
    simp only
    rw [if_neg]
    · rfl
    · intro h0
      exact h (sub_eq_zero.1 (dot_self_eq_zero h0)).symm
  · intro a b c u h
    unfold weights baryTriangle2
    simp only
    rw [if_neg h]; rfl
  · intro a b c u h
    unfold weights baryTriangle3
    simp only
    rw [if_neg fun h0 => h (dot_self_eq_zero h0)]; rfl
  · intro a b c e u h
    unfold weights baryTetra
    simp only
    rw [if_neg]
    · rfl
    · intro h0
      apply h
      rw [← h0]
      simp only [dot3, cross_apply.1, cross_apply.2.1, cross_apply.2.2, Pi.sub_apply]
      ring

/-! ### Range of the values -/

theorem full_range (l : List (ℕ × ℚ)) (v : ℕ → ℚ) (lo hi : ℚ) (hw : ∀ e ∈ l, -tol ≤ e.2)
    (hv : ∀ e ∈ l, lo ≤ v e.1 ∧ v e.1 ≤ hi) :
    (l.map fun e => e.2 * v e.1).sum ≤ (l.map (·.2)).sum * hi + l.length * (tol * (hi - lo)) ∧
    (l.map (·.2)).sum * lo - l.length * (tol * (hi - lo)) ≤ (l.map fun e => e.2 * v e.1).sum := by
  induction l with
  | nil => simp
  | cons e l ih =>
    obtain ⟨i1, i2⟩ := ih (fun e' h => hw e' (List.mem_cons_of_mem _ h)) (fun e' h => hv e' (List.mem_cons_of_mem _ h))
    have hwe := hw e (by simp)
    obtain ⟨v1, v2⟩ := hv e (by simp)
    simp only [List.map_cons, List.sum_cons, List.length_cons]
    push_cast
    have ht := tol_pos
    constructor
    · have : 0 ≤ (e.2 + tol) * (hi - v e.1) := mul_nonneg (by linarith) (by linarith)
      have : 0 ≤ tol * (v e.1 - lo) := mul_nonneg ht.le (by linarith)
      nlinarith
    · have : 0 ≤ (e.2 + tol) * (v e.1 - lo) := mul_nonneg (by linarith) (by linarith)
      have : 0 ≤ tol * (hi - v e.1) := mul_nonneg ht.le (by linarith)
      nlinarith

/-- Mapped values stay in the range of the values at the vertices of the element, up to the tolerance of the
weights. -/
theorem C48_range (kind : Kind) {q : Query d} (hq : q.Valid) {con : Constraint} (hc : con ≠ .conservative)
    (input output : Mesh d) (hin : input.verts ≠ []) (hok : input.Ok) (n k : ℕ) (hk : k < n) (x : Data)
    (i : ℕ) (hi : i < output.verts.length) :
    ∃ cell, Elem input cell ∧ ∀ lo up, (∀ j ∈ cell, lo ≤ x (j * n + k) ∧ x (j * n + k) ≤ up) →
      lo - 4 * tol * (up - lo) - 4 * tol * max |lo| |up| ≤ mapProjection kind q con input output n x (i * n + k) ∧
      mapProjection kind q con input output n x (i * n + k) ≤ up + 4 * tol * (up - lo) + 4 * tol * max |lo| |up| := by
  have hgood := search_good kind hq hin (coordsOf output i)
  obtain ⟨cell, hcell, hp, hint⟩ := hgood
  refine ⟨cell, hcell, fun lo up hlu => ?_⟩
  rw [consistent_value kind q con hc input output hk x hi]
  have h46 := C46_weights kind hq input hin (coordsOf output i)
  have hlen := good_length hok ⟨cell, hcell, hp, hint⟩
  generalize search kind q input (coordsOf output i) = p at *
  obtain ⟨ws, -, -, -, h4, -, -⟩ := polation_elems hp
  have hmem : ∀ e ∈ p.elems, e.1 ∈ cell := fun e he => h4 ▸ List.mem_map_of_mem he
  have hne : p.elems ≠ [] := by
    intro h; rw [h] at h46; simp at h46
  obtain ⟨e0, he0⟩ := List.exists_mem_of_ne_nil _ hne
  have hle : lo ≤ up := (hlu _ (hmem e0 he0)).1.trans (hlu _ (hmem e0 he0)).2
  obtain ⟨f1, f2⟩ := full_range p.elems (fun j => x (j * n + k)) lo up
    (fun e he => by have := hint e he; unfold greaterEquals at this; linarith)
    (fun e he => hlu _ (hmem e he))
  rw [h46, one_mul] at f1 f2
  have hab := applied_full p (fun j => x (j * n + k)) (max |lo| |up|) (fun e he => by
    obtain ⟨a, b⟩ := hlu _ (hmem e he)
    exact abs_le_max_abs_abs a b)
  have h0 : 0 ≤ max |lo| |up| := (abs_nonneg lo).trans (le_max_left _ _)
  have b1 := four_le p hlen h0
  have b2 := four_le p hlen (sub_nonneg.2 hle)
  have hab := abs_le.1 (hab.trans b1)
  unfold full at hab
  constructor <;> linarith [hab.1, hab.2]

/-! ### Quality of the projection -/

theorem cv_le {q : Query d} (hq : q.Valid) {m : Mesh d} (hm : m.verts ≠ []) (u : Pt d) :
    ∀ i < m.verts.length, (findVertexProjection q m u).dist2 ≤ dist2 u (coordsOf m i) := (hq.vertex m u hm).2

theorem edge_le_cv (q : Query d) (m : Mesh d) (u : Pt d) (n : ℕ) (cv : Polation) :
    (findEdgeProjection q m u n cv).dist2 ≤ cv.dist2 := by
  unfold findEdgeProjection
  split
  · exact le_refl _
  · split
    · exact le_refl _
    · rename_i h; exact not_lt.1 h

theorem triangle_le_cv (q : Query d) (m : Mesh d) (u : Pt d) (n : ℕ) (cv : Polation) :
    (findTriangleProjection q m u n cv).dist2 ≤ cv.dist2 := by
  unfold findTriangleProjection
  split
  · exact edge_le_cv q m u n cv
  · split
    · exact edge_le_cv q m u n cv
    · rename_i h; exact not_lt.1 h

/-- A nearest projection is never farther away than any vertex. -/
theorem C49_vertex {q : Query d} (hq : q.Valid) (m : Mesh d) (hm : m.verts ≠ []) (u : Pt d) (n : ℕ) (i : ℕ)
    (hi : i < m.verts.length) : (findNearestProjection q m u n).dist2 ≤ dist2 u (coordsOf m i) := by
  unfold findNearestProjection
  split
  · exact (edge_le_cv q m u n _).trans (cv_le hq hm u i hi)
  · exact (triangle_le_cv q m u n _).trans (cv_le hq hm u i hi)

/-- Among the admissible candidates of the chosen kind one of minimal distance is returned: an edge only if no other
admissible edge candidate is closer, a triangle only if no other admissible triangle candidate is closer. -/
theorem C49_minimal (q : Query d) (m : Mesh d) (u : Pt d) (n : ℕ) :
    (∀ cv, findEdgeProjection q m u n cv = cv ∨
      (findEdgeProjection q m u n cv ∈ candidates m u m.edges (q.closestEdges m u n) ∧
        ∀ p ∈ candidates m u m.edges (q.closestEdges m u n), (findEdgeProjection q m u n cv).dist2 ≤ p.dist2)) ∧
    (∀ cv, findTriangleProjection q m u n cv = findEdgeProjection q m u n cv ∨
      (findTriangleProjection q m u n cv ∈ candidates m u m.tris (q.closestTriangles m u n) ∧
        ∀ p ∈ candidates m u m.tris (q.closestTriangles m u n), (findTriangleProjection q m u n cv).dist2 ≤ p.dist2)) := by
  constructor
  · intro cv
    unfold findEdgeProjection
    split
    · exact .inl rfl
    · rename_i p hp
      split
      · exact .inl rfl
      · exact .inr (minElement_some hp)
  · intro cv
    unfold findTriangleProjection
    split
    · exact .inl rfl
    · rename_i p hp
      split
      · exact .inl rfl
      · exact .inr (minElement_some hp)

/-- Pythagoras on a line. -/
theorem dist2_line (a b u : Pt d) (s t : ℚ) (ht : t * dot (b - a) (b - a) = dot (u - a) (b - a)) :
    dist2 u (fun i => (1 - s) * a i + s * b i) =
      dist2 u (fun i => (1 - t) * a i + t * b i) + (s - t) ^ 2 * dot (b - a) (b - a) := by
  have h1 : ∀ r, dist2 u (fun i => (1 - r) * a i + r * b i) =
      dot (u - a) (u - a) - 2 * r * dot (u - a) (b - a) + r ^ 2 * dot (b - a) (b - a) := by
    intro r
    unfold dist2 dot
    rw [Finset.mul_sum, Finset.mul_sum, ← Finset.sum_sub_distrib, ← Finset.sum_add_distrib]
    exact Finset.sum_congr rfl fun i _ => by simp only [Pi.sub_apply]; ring
  rw [h1 s, h1 t, ← ht]
  ring

theorem combine_two (a b : Pt d) (x y : ℚ) : combine [a, b] [x, y] = fun i => x * a i + y * b i := by
  funext i
  rw [combine_apply]
  simp

/-- The edge projection, with a closest vertex as alternative, is the nearest point of all edges. -/
theorem edge_global {q : Query d} (hq : q.Valid) {m : Mesh d} (hok : m.Ok) (u : Pt d) {n : ℕ} (hn : 0 < n) {cv : Polation}
    (hcv : ∀ i < m.verts.length, cv.dist2 ≤ dist2 u (coordsOf m i)) (c : Cell) (hc : c ∈ m.edges) (p : Pt d) (hp : InCell m c p) :
    (findEdgeProjection q m u n cv).dist2 ≤ dist2 u p := by
  obtain ⟨hb, hnear⟩ := hq.edge m u n
  obtain ⟨i, hi, h⟩ := hnear hn c hc
  obtain ⟨p', hp', hle⟩ := h p hp
  refine le_trans ?_ hle
  have hil := hb i hi
  have hce : m.edges[i]? = some m.edges[i] := List.getElem?_eq_getElem hil
  rw [hce, Option.getD_some] at hp'
  have hmem : m.edges[i] ∈ m.edges := List.getElem_mem hil
  obtain ⟨hlen, -, -, hlt⟩ := hok.edges _ hmem
  generalize m.edges[i] = e at *
  match e, hlen with
  | [ia, ib], _ =>
    have hia := hlt ia (by simp)
    have hib := hlt ib (by simp)
    obtain ⟨vs, hvl, hv0, hv1, hpe⟩ := hp'
    match vs, hvl with
    | [x, y], _ =>
      have hx : 0 ≤ x := hv0 x (by simp)
      have hy : 0 ≤ y := hv0 y (by simp)
      have hxy : x = 1 - y := by simp at hv1; linarith
      simp only [List.map_cons, List.map_nil] at hpe
      rw [combine_two, hxy] at hpe
      have hmin : ∀ pl, pl ∈ candidates m u m.edges (q.closestEdges m u n) → (findEdgeProjection q m u n cv).dist2 ≤ pl.dist2 := by
        intro pl hpl
        rcases (C49_minimal q m u n).1 cv with h | ⟨-, h⟩
        · rw [h]
          have hne : minElement (candidates m u m.edges (q.closestEdges m u n)) ≠ none := by
            intro h0
            rw [minElement_none h0] at hpl
            simp at hpl
          obtain ⟨mn, hmn⟩ := Option.ne_none_iff_exists'.1 hne
          have h2 := (minElement_some hmn).2 pl hpl
          unfold findEdgeProjection at h
          rw [hmn] at h
          simp only at h
          split at h
          · rename_i hgt; exact hgt.le.trans h2
          · rw [← h]; exact h2
        · exact h pl hpl
      by_cases hdeg : dot (coordsOf m ib - coordsOf m ia) (coordsOf m ib - coordsOf m ia) = 0
      · have heq := sub_eq_zero.1 (dot_self_eq_zero hdeg)
        have : p' = coordsOf m ia := by
          rw [hpe, heq]; funext k; ring
        rw [this]
        exact (edge_le_cv q m u n cv).trans (hcv ia hia)
      · generalize ht : dot (u - coordsOf m ia) (coordsOf m ib - coordsOf m ia) /
          dot (coordsOf m ib - coordsOf m ia) (coordsOf m ib - coordsOf m ia) = t
        have ht' : t * dot (coordsOf m ib - coordsOf m ia) (coordsOf m ib - coordsOf m ia) =
            dot (u - coordsOf m ia) (coordsOf m ib - coordsOf m ia) := by
          rw [← ht, div_mul_cancel₀ _ hdeg]
        have hpos : 0 ≤ dot (coordsOf m ib - coordsOf m ia) (coordsOf m ib - coordsOf m ia) := dot_self_nonneg _
        have hw : weights d ([ia, ib].map (coordsOf m)) u = some [1 - t, t] := by
          simp only [List.map_cons, List.map_nil, weights]
          unfold baryEdge
          simp only [hdeg, if_false, ht]
        have hline := dist2_line (coordsOf m ia) (coordsOf m ib) u y t ht'
        have hpol : polation m u [ia, ib] = some ⟨[ia, ib].zip [1 - t, t],
            dist2 u (fun k => (1 - t) * coordsOf m ia k + t * coordsOf m ib k)⟩ := by
          unfold polation
          rw [hw]
          simp only [List.map_cons, List.map_nil, combine_two]
          rfl
        by_cases hint : (⟨[ia, ib].zip [1 - t, t],
            dist2 u (fun k => (1 - t) * coordsOf m ia k + t * coordsOf m ib k)⟩ : Polation).isInterpolation
        · refine (hmin _ (mem_candidates_of hi hce hpol hint)).trans ?_
          rw [hpe, hline]
          have := mul_nonneg (sq_nonneg (y - t)) hpos
          simp only
          linarith
        · have hout : t < 0 ∨ 1 < t := by
            by_contra hcon
            push Not at hcon
            apply hint
            intro e he
            simp only [List.zip_cons_cons, List.zip_nil_right, List.mem_cons, List.not_mem_nil, or_false] at he
            unfold greaterEquals
            have := tol_pos
            rcases he with rfl | rfl
            · simp only; linarith
            · simp only; linarith
          rcases hout with h | h
          · have h0 := dist2_line (coordsOf m ia) (coordsOf m ib) u 0 t ht'
            have e0 : (fun k => (1 - (0 : ℚ)) * coordsOf m ia k + 0 * coordsOf m ib k) = coordsOf m ia := by
              funext k; ring
            rw [e0] at h0
            refine ((edge_le_cv q m u n cv).trans (hcv ia hia)).trans ?_
            rw [hpe, hline, h0]
            have : (0 - t) ^ 2 ≤ (y - t) ^ 2 := by nlinarith
            have := mul_le_mul_of_nonneg_right this hpos
            linarith
          · have h0 := dist2_line (coordsOf m ia) (coordsOf m ib) u 1 t ht'
            have e0 : (fun k => (1 - (1 : ℚ)) * coordsOf m ia k + 1 * coordsOf m ib k) = coordsOf m ib := by
              funext k; ring
            rw [e0] at h0
            refine ((edge_le_cv q m u n cv).trans (hcv ib hib)).trans ?_
            rw [hpe, hline, h0]
            have : (1 - t) ^ 2 ≤ (y - t) ^ 2 := by nlinarith
            have := mul_le_mul_of_nonneg_right this hpos
            linarith

/-- In two dimensions the result is at least as close as every point of every edge. -/
theorem C49_global_2d {q : Query 2} (hq : q.Valid) (m : Mesh 2) (hok : m.Ok) (hm : m.verts ≠ []) (u : Pt 2) (n : ℕ) (hn : 0 < n)
    (c : Cell) (hc : c ∈ m.edges) (p : Pt 2) (hp : InCell m c p) : (findNearestProjection q m u n).dist2 ≤ dist2 u p := by
  unfold findNearestProjection
  rw [if_pos rfl]
  exact edge_global hq hok u hn (cv_le hq hm u) c hc p hp

example : (bruteForce 2).Valid ∧ inMesh.Ok ∧ inMesh.verts ≠ [] ∧ [0, 1] ∈ inMesh.edges ∧ InCell inMesh [0, 1] ![1, 0] ∧
    (findNearestProjection (bruteForce 2) inMesh ![1, 1] 4).dist2 = 1 := by
  refine ⟨bruteForce_valid 2, inMesh_ok, by decide, by decide, ⟨[3 / 4, 1 / 4], rfl, ?_, by norm_num, ?_⟩, by decide +kernel⟩
  · intro w hw
    simp at hw
    rcases hw with rfl | rfl <;> norm_num
  · funext i
    fin_cases i <;> decide +kernel

/-- The first cell in which the point lies is used by cell interpolation, with distance zero for tetrahedra; if there is none the
nearest projection is used. -/
theorem C49_cell (q : Query d) (m : Mesh d) (u : Pt d) (n : ℕ) (found : List Polation)
    (h : found = if d = 2 then candidates m u m.tris (q.closestTriangles m u n)
      else candidates m u m.tets (q.enclosingTetrahedra m u)) :
    (found ≠ [] → findCellOrProjection q m u n ∈ found) ∧
      (found = [] → findCellOrProjection q m u n = findNearestProjection q m u n) := by
  unfold findCellOrProjection
  simp only
  rw [← h]
  cases found with
  | nil => exact ⟨fun h => absurd rfl h, fun _ => rfl⟩
  | cons p ps => exact ⟨fun _ => by simp, fun h => by simp at h⟩

/-! ### Gradients -/

theorem foldl_update_range (f : ℕ → ℚ) (s n : ℕ) (o : Data) (j : ℕ) :
    ((List.range n).foldl (fun o t => Function.update o (s + t) (f t)) o) j =
      if s ≤ j ∧ j < s + n then f (j - s) else o j := by
  induction n with
  | zero => simp
  | succ n ih =>
    rw [List.range_succ, List.foldl_append, List.foldl_cons, List.foldl_nil, Function.update_apply, ih]
    by_cases h : j = s + n
    · rw [if_pos h, if_pos (by omega), show j - s = n by omega]
    · rw [if_neg h]
      by_cases h' : s ≤ j ∧ j < s + n
      · rw [if_pos h', if_pos (by omega)]
      · rw [if_neg h', if_neg (by omega)]

theorem nng_apply {n k : ℕ} (hk : k < n) (N j : ℕ) (idx : List ℕ) (off : List (Pt d)) (x : Data) (grad : ℕ → Pt d) (out : Data) :
    nngConsistent n N idx off x grad out (j * n + k) =
      if j < N then x (idx[j]?.getD 0 * n + k) + dot (off[j]?.getD 0) (grad (idx[j]?.getD 0 * n + k)) else out (j * n + k) := by
  unfold nngConsistent
  induction N with
  | zero => simp
  | succ N ih =>
    rw [List.range_succ, List.foldl_append, List.foldl_cons, List.foldl_nil]
    simp only
    rw [foldl_update_range (fun dim => x (idx[N]?.getD 0 * n + dim) + dot (off[N]?.getD 0) (grad (idx[N]?.getD 0 * n + dim))), ih]
    by_cases h : j = N
    · subst h
      rw [if_pos ⟨by omega, by omega⟩, if_pos (by omega), Nat.add_sub_cancel_left]
    · have hne : ¬ (N * n ≤ j * n + k ∧ j * n + k < N * n + n) := by
        rintro ⟨h1, h2⟩
        have e1 := idx_div j hk
        have : (j * n + k) / n = N := by
          apply Nat.div_eq_of_lt_le
          · linarith
          · rw [Nat.succ_mul]; linarith
        omega
      rw [if_neg hne]
      by_cases h' : j < N
      · rw [if_pos h', if_pos (by omega)]
      · rw [if_neg h', if_neg (by omega)]

/-- With true gradients affine fields are reproduced exactly, for every component of vector data. -/
theorem C51_affine {q : Query d} (hq : q.Valid) (input output : Mesh d) (hin : input.verts ≠ []) (n : ℕ) (x : Data)
    (grad : ℕ → Pt d) (c : ℕ → ℚ) (g : ℕ → Pt d)
    (hx : ∀ j < input.verts.length, ∀ k < n, x (j * n + k) = c k + dot (g k) (coordsOf input j))
    (hg : ∀ j < input.verts.length, ∀ k < n, grad (j * n + k) = g k) (i : ℕ) (hi : i < output.verts.length) (k : ℕ) (hk : k < n) :
    mapNNG q input output n x grad (i * n + k) = c k + dot (g k) (coordsOf output i) := by
  unfold mapNNG
  rw [nng_apply hk, if_pos hi]
  have hl : (nnIndices q .consistent input output).length = output.verts.length := by
    unfold nnIndices setup
    simp
  have hoff : (nngOffsets (nnIndices q .consistent input output) output input)[i]?.getD 0 =
      coordsOf output i - coordsOf input ((nnIndices q .consistent input output)[i]?.getD 0) := by
    unfold nngOffsets
    rw [List.getElem?_map, List.getElem?_range (by omega)]
    rfl
  have hlt := (hq.vertex input (coordsOf output i) hin).1
  rw [hoff, nnIndices_consistent q (by decide) input output hi, hx _ hlt k hk, hg _ hlt k hk]
  unfold dot
  rw [add_assoc, ← Finset.sum_add_distrib]
  congr 1
  exact Finset.sum_congr rfl fun a _ => by simp only [Pi.sub_apply]; ring

example : mapNNG (bruteForce 2) inMesh outMesh 1 (fun j => if j = 0 then 1 else 13) (fun _ => ![3, 5]) 0 = 1 + 3 * 1 + 5 * 1 ∧
    mapNNG (bruteForce 2) inMesh outMesh 1 (fun j => if j = 0 then 1 else 13) (fun _ => ![3, 5]) 1 = 1 + 3 * 6 + 5 * 0 := by
  decide +kernel

/-! ### Linearity -/

theorem all_idx {n : ℕ} (hn : 0 < n) {f g : Data} (h : ∀ i, ∀ k < n, f (i * n + k) = g (i * n + k)) : f = g := by
  funext j
  have := h (j / n) (j % n) (Nat.mod_lt _ hn)
  rwa [Nat.div_add_mod'] at this

/-- Nearest neighbor mappings are linear. -/
theorem C52_nn (q : Query d) (c : Constraint) (input output : Mesh d) (n : ℕ) (hn : 0 < n) (x y : Data) (r s : ℚ) :
    mapNN q c input output n (r • x + s • y) = r • mapNN q c input output n x + s • mapNN q c input output n y := by
  refine all_idx hn fun i k hk => ?_
  simp only [Pi.add_apply, Pi.smul_apply, smul_eq_mul]
  unfold mapNN
  by_cases hc : c = .conservative
  · simp only [if_pos hc, nnConservative_apply hk, Pi.zero_apply, zero_add, Pi.add_apply, Pi.smul_apply, smul_eq_mul]
    generalize List.range input.verts.length = l
    induction l with
    | nil => simp
    | cons a l ih =>
      simp only [List.map_cons, List.sum_cons, ih]
      split <;> ring
  · simp only [if_neg hc, nnConsistent_apply hk, Pi.add_apply, Pi.smul_apply, smul_eq_mul]
    split
    · rfl
    · simp

/-- Projection and cell mappings are linear. -/
theorem C52_projection (kind : Kind) (q : Query d) (c : Constraint) (input output : Mesh d) (n : ℕ) (hn : 0 < n) (x y : Data)
    (r s : ℚ) : mapProjection kind q c input output n (r • x + s • y) =
      r • mapProjection kind q c input output n x + s • mapProjection kind q c input output n y := by
  refine all_idx hn fun i k hk => ?_
  simp only [Pi.add_apply, Pi.smul_apply, smul_eq_mul]
  unfold mapProjection
  by_cases hc : c = .conservative
  · simp only [if_pos hc, mapOpsConservative_apply hk, Pi.zero_apply, zero_add, Pi.add_apply, Pi.smul_apply, smul_eq_mul]
    generalize computeMapping kind q c input output = l
    induction l with
    | nil => simp
    | cons a l ih =>
      simp only [List.map_cons, List.sum_cons, ih]
      split <;> ring
  · simp only [if_neg hc, mapOpsConsistent_apply hk, Pi.zero_apply, zero_add, Pi.add_apply, Pi.smul_apply, smul_eq_mul]
    generalize computeMapping kind q c input output = l
    induction l with
    | nil => simp
    | cons a l ih =>
      simp only [List.map_cons, List.sum_cons, ih]
      split <;> ring

/-- Zero is mapped to zero. -/
theorem C52_zero (kind : Kind) (q : Query d) (c : Constraint) (input output : Mesh d) (n : ℕ) (hn : 0 < n) :
    mapNN q c input output n 0 = 0 ∧ mapProjection kind q c input output n 0 = 0 := by
  have h1 := C52_nn q c input output n hn 0 0 0 0
  have h2 := C52_projection kind q c input output n hn 0 0 0 0
  simp only [zero_smul, add_zero] at h1 h2
  exact ⟨h1, h2⟩

end Verif.Mapping
