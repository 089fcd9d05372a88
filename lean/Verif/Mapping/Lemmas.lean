import Verif.Mapping.Model
import Verif.Mesh.MeshProps

/-! # Lemmas about the mapping model -/

set_option autoImplicit false

namespace Verif.Mapping

open Geometry

/-! ### Columns -/

theorem idx_div {n k : ℕ} (i : ℕ) (hk : k < n) : (i * n + k) / n = i := by
  rw [Nat.add_comm, Nat.add_mul_div_right _ _ (by omega), Nat.div_eq_of_lt hk, Nat.zero_add]

theorem idx_mod {n k : ℕ} (i : ℕ) (hk : k < n) : (i * n + k) % n = k := by
  rw [Nat.add_comm, Nat.add_mul_mod_self_right, Nat.mod_eq_of_lt hk]

theorem addCol_apply {n k : ℕ} (hk : k < n) (i j : ℕ) (f : ℕ → ℚ) (x : Data) :
    addCol n i f x (j * n + k) = x (j * n + k) + if i = j then f k else 0 := by
  unfold addCol
  rw [idx_div j hk, idx_mod j hk]
  by_cases h : j = i
  · rw [if_pos h, if_pos h.symm]
  · rw [if_neg h, if_neg (Ne.symm h), add_zero]

theorem setCol_apply {n k : ℕ} (hk : k < n) (i j : ℕ) (f : ℕ → ℚ) (x : Data) :
    setCol n i f x (j * n + k) = if j = i then f k else x (j * n + k) := by
  unfold setCol
  rw [idx_div j hk, idx_mod j hk]

theorem foldl_addCol {β : Type} {n k : ℕ} (hk : k < n) (t : β → ℕ) (f : β → ℕ → ℚ) (l : List β) (j : ℕ) (out : Data) :
    (l.foldl (fun o e => addCol n (t e) (f e) o) out) (j * n + k) =
      out (j * n + k) + (l.map fun e => if t e = j then f e k else 0).sum := by
  induction l generalizing out with
  | nil => simp
  | cons e l ih =>
    rw [List.foldl_cons, ih, addCol_apply hk, List.map_cons, List.sum_cons, add_assoc]

theorem foldl_setCol {n k : ℕ} (hk : k < n) (f : ℕ → ℕ → ℚ) (N j : ℕ) (out : Data) :
    ((List.range N).foldl (fun o i => setCol n i (f i) o) out) (j * n + k) =
      if j < N then f j k else out (j * n + k) := by
  induction N with
  | zero => simp
  | succ N ih =>
    rw [List.range_succ, List.foldl_append, List.foldl_cons, List.foldl_nil, setCol_apply hk, ih]
    by_cases h : j = N
    · rw [if_pos h, if_pos (by omega), h]
    · rw [if_neg h]
      by_cases h' : j < N
      · rw [if_pos h', if_pos (by omega)]
      · rw [if_neg h', if_neg (by omega)]

theorem nnConsistent_apply {n k : ℕ} (hk : k < n) (N j : ℕ) (idx : List ℕ) (x out : Data) :
    nnConsistent n N idx x out (j * n + k) = if j < N then x (idx[j]?.getD 0 * n + k) else out (j * n + k) := by
  unfold nnConsistent
  rw [foldl_setCol hk]
  rfl

theorem nnConservative_apply {n k : ℕ} (hk : k < n) (N j : ℕ) (idx : List ℕ) (x out : Data) :
    nnConservative n N idx x out (j * n + k) =
      out (j * n + k) + ((List.range N).map fun i => if idx[i]?.getD 0 = j then x (i * n + k) else 0).sum := by
  unfold nnConservative
  rw [foldl_addCol hk]
  rfl

theorem mapOpsConsistent_apply {n k : ℕ} (hk : k < n) (ops : List Operation) (j : ℕ) (x out : Data) :
    mapOpsConsistent n ops x out (j * n + k) =
      out (j * n + k) + (ops.map fun op => if op.out = j then op.weight * x (op.in' * n + k) else 0).sum := by
  unfold mapOpsConsistent
  rw [foldl_addCol hk]
  rfl

theorem mapOpsConservative_apply {n k : ℕ} (hk : k < n) (ops : List Operation) (j : ℕ) (x out : Data) :
    mapOpsConservative n ops x out (j * n + k) =
      out (j * n + k) + (ops.map fun op => if op.in' = j then op.weight * x (op.out * n + k) else 0).sum := by
  unfold mapOpsConservative
  rw [foldl_addCol hk]
  rfl

/-! ### Sums over vertices -/

/-- A delta sum. -/
theorem sum_delta {N i : ℕ} (hi : i < N) (f : ℕ → ℚ) :
    ∑ j ∈ Finset.range N, (if i = j then f j else 0) = f i := by
  rw [Finset.sum_ite_eq, if_pos (Finset.mem_range.2 hi)]

theorem sum_swap {β : Type} {N : ℕ} (t : β → ℕ) (f : β → ℚ) (g : ℕ → ℚ) (l : List β) (h : ∀ e ∈ l, t e < N) :
    ∑ j ∈ Finset.range N, g j * (l.map fun e => if t e = j then f e else 0).sum = (l.map fun e => g (t e) * f e).sum := by
  induction l with
  | nil => simp
  | cons e l ih =>
    have ih := ih fun e' he => h e' (List.mem_cons_of_mem _ he)
    simp only [List.map_cons, List.sum_cons, mul_add, Finset.sum_add_distrib, ih]
    congr 1
    have : ∀ j, g j * (if t e = j then f e else 0) = if t e = j then g j * f e else 0 := by
      intro j; split <;> simp
    simp only [this]
    exact sum_delta (h e (by simp)) fun j => g j * f e

/-- The heart of C45 for lists of operations. -/
theorem ops_adjoint {n k N M : ℕ} (hk : k < n) (ops : List Operation) (hN : ∀ op ∈ ops, op.out < N)
    (hM : ∀ op ∈ ops, op.in' < M) (x y : Data) :
    ∑ i ∈ Finset.range N, y (i * n + k) * mapOpsConsistent n ops x 0 (i * n + k) =
      ∑ j ∈ Finset.range M, x (j * n + k) * mapOpsConservative n ops y 0 (j * n + k) := by
  simp only [mapOpsConsistent_apply hk, mapOpsConservative_apply hk, Pi.zero_apply, zero_add]
  rw [sum_swap (fun op : Operation => op.out) (fun op => op.weight * x (op.in' * n + k)) (fun i => y (i * n + k)) ops hN,
    sum_swap (fun op : Operation => op.in') (fun op => op.weight * y (op.out * n + k)) (fun i => x (i * n + k)) ops hM]
  congr 1
  exact List.map_congr_left fun op _ => by ring

/-! ### Operations -/

/-- The operations of one origin. -/
def opsOf (i : ℕ) (p : Polation) : List Operation :=
  (p.elems.filter fun e => ¬ equals e.2 0).map fun e => ⟨i, e.1, e.2⟩

theorem computeOps_eq {d : ℕ} (k : Kind) (q : Query d) (origins searchSpace : Mesh d) :
    computeOps k q origins searchSpace = (List.range origins.verts.length).flatMap
      fun i => opsOf i (search k q searchSpace (coordsOf origins i)) := by
  unfold computeOps addPolation opsOf
  generalize List.range origins.verts.length = l
  have : ∀ (g : ℕ → List Operation) (acc : List Operation),
      l.foldl (fun ops i => ops ++ g i) acc = acc ++ l.flatMap g := by
    intro g
    induction l with
    | nil => simp
    | cons i l ih => intro acc; rw [List.foldl_cons, ih, List.flatMap_cons, List.append_assoc]
  rw [this, List.nil_append]

theorem postProcess_perm (c : Constraint) (ops : List Operation) : (postProcess c ops).Perm ops := by
  unfold postProcess
  split
  · exact List.perm_insertionSort _ _
  · exact List.Perm.refl _

theorem sum_flatMap {α β : Type} (l : List α) (g : α → List β) (f : β → ℚ) :
    ((l.flatMap g).map f).sum = (l.map fun a => ((g a).map f).sum).sum := by
  induction l with
  | nil => simp
  | cons a l ih => simp [ih]

theorem range_map_sum (N : ℕ) (f : ℕ → ℚ) : ((List.range N).map f).sum = ∑ i ∈ Finset.range N, f i := by
  induction N with
  | zero => simp
  | succ N ih => rw [List.range_succ, Finset.sum_range_succ]; simp [ih]

/-- The value computed from one polation: weights that are numerically zero are dropped. -/
def applied (p : Polation) (v : ℕ → ℚ) : ℚ := ((p.elems.filter fun e => ¬ equals e.2 0).map fun e => e.2 * v e.1).sum

/-- The value with all weights. -/
def full (p : Polation) (v : ℕ → ℚ) : ℚ := (p.elems.map fun e => e.2 * v e.1).sum

theorem opsOf_sum_out (i j : ℕ) (p : Polation) (v : ℕ → ℚ) :
    ((opsOf i p).map fun op => if op.out = j then op.weight * v op.in' else 0).sum = if i = j then applied p v else 0 := by
  unfold opsOf applied
  rw [List.map_map]
  by_cases h : i = j
  · simp only [Function.comp_def, h, if_true]
  · simp only [Function.comp_def, h, if_false]
    simp

theorem consistent_value {d : ℕ} (kind : Kind) (q : Query d) (c : Constraint) (hc : c ≠ .conservative) (input output : Mesh d)
    {n k : ℕ} (hk : k < n) (x : Data) {i : ℕ} (hi : i < output.verts.length) :
    mapProjection kind q c input output n x (i * n + k) =
      applied (search kind q input (coordsOf output i)) fun j => x (j * n + k) := by
  unfold mapProjection computeMapping setup postProcess
  simp only [if_neg hc]
  rw [mapOpsConsistent_apply hk, computeOps_eq, sum_flatMap]
  simp only [opsOf_sum_out _ _ _ fun j => x (j * n + k), Pi.zero_apply, zero_add]
  rw [range_map_sum]
  have : ∀ a, (if a = i then applied (search kind q input (coordsOf output a)) fun j => x (j * n + k) else 0) =
      if i = a then applied (search kind q input (coordsOf output a)) (fun j => x (j * n + k)) else 0 := by
    intro a; simp only [eq_comm]
  simp only [this]
  exact sum_delta hi fun a => applied (search kind q input (coordsOf output a)) fun j => x (j * n + k)

theorem conservative_value {d : ℕ} (kind : Kind) (q : Query d) (input output : Mesh d)
    {n k : ℕ} (hk : k < n) (x : Data) (j : ℕ) :
    mapProjection kind q .conservative input output n x (j * n + k) =
      ((computeOps kind q input output).map fun op => if op.in' = j then op.weight * x (op.out * n + k) else 0).sum := by
  unfold mapProjection computeMapping setup
  simp only [if_true]
  rw [mapOpsConservative_apply hk, Pi.zero_apply, zero_add]
  exact ((postProcess_perm _ _).map _).sum_eq

/-! ### Results of the searches -/

/-- The element of a search result: an existing vertex, edge, triangle or tetrahedron. -/
def Elem {d : ℕ} (m : Mesh d) (c : Cell) : Prop :=
  (∃ i < m.verts.length, c = [i]) ∨ c ∈ m.edges ∨ c ∈ m.tris ∨ c ∈ m.tets

theorem combine_one {d : ℕ} (x : Pt d) : combine [x] [1] = x := by
  unfold combine; simp

theorem vertexProjection_spec {d : ℕ} {q : Query d} (hq : q.Valid) {m : Mesh d} (hm : m.verts ≠ []) (u : Pt d) :
    ∃ c, Elem m c ∧ polation m u c = some (findVertexProjection q m u) ∧ (findVertexProjection q m u).isInterpolation := by
  refine ⟨[q.closestVertex m u], Or.inl ⟨_, (hq.vertex m u hm).1, rfl⟩, ?_, ?_⟩
  · unfold polation weights findVertexProjection
    simp only [List.map_cons, List.map_nil, combine_one]
    rfl
  · unfold Polation.isInterpolation findVertexProjection
    simp only [List.mem_singleton, forall_eq]
    unfold greaterEquals
    have := tol_pos
    linarith

theorem mem_candidates {d : ℕ} {m : Mesh d} {u : Pt d} {cells : List Cell} {ids : List ℕ} {p : Polation}
    (h : p ∈ candidates m u cells ids) : ∃ i ∈ ids, ∃ c, cells[i]? = some c ∧ polation m u c = some p ∧ p.isInterpolation := by
  unfold candidates at h
  rw [List.mem_filterMap] at h
  obtain ⟨i, hi, h⟩ := h
  split at h
  · simp at h
  · rename_i c hc
    split at h
    · simp at h
    · rename_i p' hp
      split at h
      · rename_i hint
        simp only [Option.some.injEq] at h
        subst h
        exact ⟨i, hi, c, hc, hp, hint⟩
      · simp at h

theorem mem_candidates_of {d : ℕ} {m : Mesh d} {u : Pt d} {cells : List Cell} {ids : List ℕ} {p : Polation} {i : ℕ} {c : Cell}
    (hi : i ∈ ids) (hc : cells[i]? = some c) (hp : polation m u c = some p) (hint : p.isInterpolation) :
    p ∈ candidates m u cells ids := by
  unfold candidates
  rw [List.mem_filterMap]
  refine ⟨i, hi, ?_⟩
  rw [hc]
  simp only [hp]
  rw [if_pos hint]

theorem minElement_none {l : List Polation} (h : minElement l = none) : l = [] := by
  cases l with
  | nil => rfl
  | cons p ps => simp [minElement] at h

theorem minElement_some {l : List Polation} {p : Polation} (h : minElement l = some p) :
    p ∈ l ∧ ∀ x ∈ l, p.dist2 ≤ x.dist2 := by
  cases l with
  | nil => simp [minElement] at h
  | cons a l =>
    simp only [minElement, Option.some.injEq] at h
    have : ∀ (l : List Polation) (a p : Polation),
        l.foldl (fun m x => if x.dist2 < m.dist2 then x else m) a = p →
        (p = a ∨ p ∈ l) ∧ p.dist2 ≤ a.dist2 ∧ ∀ x ∈ l, p.dist2 ≤ x.dist2 := by
      intro l
      induction l with
      | nil => intro a p h; subst h; simp
      | cons b l ih =>
        intro a p h
        rw [List.foldl_cons] at h
        obtain ⟨h1, h2, h3⟩ := ih _ _ h
        by_cases hb : b.dist2 < a.dist2
        · rw [if_pos hb] at h1 h2
          refine ⟨?_, h2.trans hb.le, ?_⟩
          · rcases h1 with h1 | h1 <;> simp [h1]
          · intro x hx
            rcases List.mem_cons.1 hx with rfl | hx
            · exact h2
            · exact h3 x hx
        · rw [if_neg hb] at h1 h2
          refine ⟨?_, h2, ?_⟩
          · rcases h1 with h1 | h1 <;> simp [h1]
          · intro x hx
            rcases List.mem_cons.1 hx with rfl | hx
            · exact h2.trans (not_lt.1 hb)
            · exact h3 x hx
    obtain ⟨h1, h2, h3⟩ := this l a p h
    refine ⟨by simpa using h1, ?_⟩
    intro x hx
    rcases List.mem_cons.1 hx with rfl | hx
    · exact h2
    · exact h3 x hx

/-- The result of a search is the polation of an existing element and is an interpolation. -/
def Good {d : ℕ} (m : Mesh d) (u : Pt d) (p : Polation) : Prop :=
  ∃ c, Elem m c ∧ polation m u c = some p ∧ p.isInterpolation

theorem good_candidate {d : ℕ} {m : Mesh d} {u : Pt d} {cells : List Cell} {ids : List ℕ} {p : Polation}
    (hsub : ∀ c ∈ cells, Elem m c) (h : p ∈ candidates m u cells ids) : Good m u p := by
  obtain ⟨i, _, c, hc, hp, hint⟩ := mem_candidates h
  exact ⟨c, hsub c (List.mem_of_getElem? hc), hp, hint⟩

theorem findEdge_good {d : ℕ} {q : Query d} {m : Mesh d} {u : Pt d} {n : ℕ} {cv : Polation} (h : Good m u cv) :
    Good m u (findEdgeProjection q m u n cv) := by
  unfold findEdgeProjection
  split
  · exact h
  · rename_i p hp
    split
    · exact h
    · exact good_candidate (fun c hc => .inr (.inl hc)) (minElement_some hp).1

theorem findTriangle_good {d : ℕ} {q : Query d} {m : Mesh d} {u : Pt d} {n : ℕ} {cv : Polation} (h : Good m u cv) :
    Good m u (findTriangleProjection q m u n cv) := by
  unfold findTriangleProjection
  split
  · exact findEdge_good h
  · rename_i p hp
    split
    · exact findEdge_good h
    · exact good_candidate (fun c hc => .inr (.inr (.inl hc))) (minElement_some hp).1

theorem findNearest_good {d : ℕ} {q : Query d} (hq : q.Valid) {m : Mesh d} (hm : m.verts ≠ []) (u : Pt d) (n : ℕ) :
    Good m u (findNearestProjection q m u n) := by
  unfold findNearestProjection
  split
  · exact findEdge_good (vertexProjection_spec hq hm u)
  · exact findTriangle_good (vertexProjection_spec hq hm u)

theorem search_good {d : ℕ} (k : Kind) {q : Query d} (hq : q.Valid) {m : Mesh d} (hm : m.verts ≠ []) (u : Pt d) :
    Good m u (search k q m u) := by
  cases k with
  | projection => exact findNearest_good hq hm u 4
  | cell =>
    unfold search findCellOrProjection
    simp only
    split
    · rename_i p ps h
      by_cases hd : d = 2
      · rw [if_pos hd] at h
        exact good_candidate (cells := m.tris) (ids := q.closestTriangles m u 4) (fun c hc => .inr (.inr (.inl hc)))
          (h ▸ List.mem_cons_self)
      · rw [if_neg hd] at h
        exact good_candidate (cells := m.tets) (ids := q.enclosingTetrahedra m u) (fun c hc => .inr (.inr (.inr hc)))
          (h ▸ List.mem_cons_self)
    · exact findNearest_good hq hm u 4

theorem elem_lt {d : ℕ} {m : Mesh d} (hok : m.Ok) {c : Cell} (h : Elem m c) : ∀ i ∈ c, i < m.verts.length := by
  rcases h with ⟨i, hi, rfl⟩ | h | h | h
  · simpa using hi
  · exact (hok.edges c h).2.2.2
  · exact (hok.tris c h).2.2.2
  · exact (hok.tets c h).2.2.2

theorem elem_length {d : ℕ} {m : Mesh d} (hok : m.Ok) {c : Cell} (h : Elem m c) : c.length ≤ 4 := by
  rcases h with ⟨i, hi, rfl⟩ | h | h | h
  · simp
  · exact (hok.edges c h).1.trans_le (by omega)
  · exact (hok.tris c h).1.trans_le (by omega)
  · exact (hok.tets c h).1.le

/-- The elements of a polation of a cell: the vertices of the cell and the weights. -/
theorem polation_elems {d : ℕ} {m : Mesh d} {u : Pt d} {c : Cell} {p : Polation} (h : polation m u c = some p) :
    ∃ ws, weights d (c.map (coordsOf m)) u = some ws ∧ p.elems = c.zip ws ∧ ws.length = c.length ∧
      p.elems.map (·.1) = c ∧ p.elems.map (·.2) = ws ∧ ws.sum = 1 := by
  unfold polation at h
  split at h
  · simp at h
  · rename_i ws hws
    simp only [Option.some.injEq] at h
    obtain ⟨h1, h2, -⟩ := weights_spec hws
    rw [List.length_map] at h1
    refine ⟨ws, hws, by rw [← h], h1, ?_, ?_, h2⟩
    · rw [← h]; exact List.map_fst_zip (by omega)
    · rw [← h]; exact List.map_snd_zip (by omega)

theorem combine_apply {d : ℕ} (xs : List (Pt d)) (ws : List ℚ) (i : Fin d) :
    combine xs ws i = ((xs.zip ws).map fun p => p.2 * p.1 i).sum := by
  unfold combine
  generalize xs.zip ws = l
  induction l with
  | nil => rfl
  | cons a l ih => simp only [List.map_cons, List.sum_cons, Pi.add_apply, ih, Pi.smul_apply, smul_eq_mul]

end Verif.Mapping
