import Verif.Mapping.ParallelRbf

/-!
C115: which vertices are needed, and examples.
-/

set_option autoImplicit false

namespace Verif.Mapping

open Verif.Repartition Verif.Com Verif.Dist Verif.Rbf Geometry

variable {d n : ℕ}

/-- Without geometric filter, a basis function without compact support needs every vertex on every rank that has vertices. -/
theorem C115_needed_global {k : Cfg} (hk : k.filter = .none) (box : Box (d + 1)) (x : Local (d + 1)) (own : Mesh (d + 1)) (hown : own.verts ≠ []) (v : Vertex (d + 1)) :
    Needed none box k x own v := ⟨hown, C113_reach_no_filter hk x v, by simp⟩

/-- Without geometric filter, a basis function with compact support needs all vertices whose distance to a vertex of the local mesh is at most the support radius. -/
theorem C115_needed_support {k : Cfg} (hk : k.filter = .none) (b0 : Box (d + 1)) (x : Local (d + 1)) (own : Mesh (d + 1)) {R : ℚ} (hR : 0 ≤ R) {i : ℕ} (hi : i < own.verts.length)
    (v : Vertex (d + 1)) (hv : dist2 (coordsOf own i) v.coords ≤ R ^ 2) : Needed (some R) (b0.compute (own.verts.map fun w => w.coords)) k x own v := by
  have hu : coordsOf own i ∈ (b0.compute (own.verts.map fun w => w.coords)).points := by
    refine (Box.C39_contains _ _).1 (Box.C39_computed_box_contains b0 _ ?_)
    rw [coordsOf_some (List.getElem?_eq_getElem hi)]
    exact List.mem_map.2 ⟨_, List.getElem_mem hi, rfl⟩
  refine ⟨List.ne_nil_of_length_pos (by omega), C113_reach_no_filter hk x v, fun R' hR' => ?_⟩
  obtain rfl := Option.some.inj hR'
  refine (Box.C39_contains _ _).2 ((Box.C39_expand _ hR).2 (not_default_of_mem hu) _ hu _ fun j => ?_)
  rw [abs_sub_comm]
  exact abs_le_of_sq_le_sq ((comp_le_dist2 (coordsOf own i) v.coords j).trans hv) hR

namespace Example

/-- Three vertices on a line -/
abbrev bar : Mesh 2 := Access.Example.line

def box (r : Fin 2) : Box 2 := (Box.default 2).compute ((own r).verts.map fun w => w.coords)

/-- The ranks of `own` with a basis function of support radius 1 -/
def rbf (r : Fin 2) : Local 2 := ⟨[box r], true, Box.default 2, rbfFirst (some 1) (box r) (own r), rbfSecond (some 1)⟩

theorem line_distinct : Distinct planar (positions bar) := fun i j h => by
  have h0 := h 0 rfl
  fin_cases i <;> fin_cases j <;> simp_all [positions, toPoint, bar, Access.Example.line]

theorem line_needed : ∀ v ∈ bar.verts, ∃ r, Needed (some 1) (box r) cfg (rbf r) (own r) v := by
  have h : ∀ v ∈ bar.verts, ∃ r, (own r).verts ≠ [] ∧ Reach cfg (rbf r) v = true ∧ ((box r).expand 1).contains v.coords = true := by decide +kernel
  intro v hv
  obtain ⟨r, h1, h2, h3⟩ := h v hv
  exact ⟨r, h1, h2, fun R hR => Option.some.inj hR ▸ h3⟩

theorem rbf_found : cfg.filter ≠ .none → ∀ r, (rbf r).provided = true → ∃ v ∈ bar.verts, inside (prepareBox cfg (rbf r)) v = true := by
  have h : ∀ r, ∃ v ∈ bar.verts, inside (prepareBox cfg (rbf r)) v = true := by decide +kernel
  exact fun _ r _ => h r

/-- The vertices of both ranks together -/
def outs : Fin 4 → Pt 2 := ![![0, 1 / 4], ![3 / 4, 1 / 4], ![7 / 4, 1 / 4], ![5 / 4, 1 / 4]]

theorem line_solver {M : ℕ} (Y : Fin M → Point) :
    ∃ s : Solver 3 M .off planar, construct someEigen true (Basis.polynomialC0 (1 / 1)) .off planar (positions bar) Y = some s :=
  Option.isSome_iff_exists.1 ((C114_definite someEigen_valid .c0 (by simp [Basis.Definite]) 1 0 _ (compact_defined tiny_lt_one) (by decide) _ _).2 line_distinct)

/-- The provider has the vertices in the order 2, 0, 1 and two values per vertex. -/
def items (_ : Fin 1) : Arr ℝ := ⟨6, fun i => i⟩

/-- The same by vertices -/
def given (v : Fin 3) (c : Fin 2) : ℝ := ![2 + (c.1 : ℝ), 4 + (c.1 : ℝ), (c.1 : ℝ)] v

/-- `C115_read`: two ranks read two values per vertex from a provider with one rank. -/
example : ∃ s, construct someEigen true (Basis.polynomialC0 (1 / 1)) .off planar (positions bar) (fun j => toPoint (outs j)) = some s ∧
    ∃ res, RNet.AlwaysCompletes (fun r : Fin 2 => compute (n := 1) cfg 3 (rbf r) r (start (n := 1) bar r)) res ∧
      ∀ buf : Fin 2 → Arr ℝ, (∀ r, (buf r).size = (gids (res r).mesh).length * 2) →
        ∃ data, RNet.AlwaysCompletes (gsTransfer 2 3 (fun _ : Fin 1 => [2, 0, 1]) (fun r => gids (res r).mesh) items buf) data ∧
          ∃ out, RNet.AlwaysCompletes (consistentJob ⟨someEigen, true, Basis.polynomialC0 (1 / 1), .off, planar⟩ 3 (fun r => rbfPart (res r).mesh (own r))
              fun r => rows 2 (res r).mesh.verts.length (data (.inr r))) out ∧
            (out 1)[0]? = some fun c => s.mapConsistent (fun v => given v c) 2 := by
  obtain ⟨s, hs⟩ := line_solver fun j => toPoint (outs j)
  refine ⟨s, hs, ?_⟩
  obtain ⟨res, h1, h2⟩ := C115_read ⟨someEigen, true, Basis.polynomialC0 (1 / 1), .off, planar⟩ someEigen_valid someEigen_orderFree line_ok rfl (by decide) cfg rbf (by decide) rfl rbf_found own box
    (some 1) (fun r M g h => h) (by decide) line_needed outs s hs (fun h => by cases h) (p := 0) 2 (by decide) (fun _ => [2, 0, 1]) items (fun _ => rfl)
    (fun v hv => one_rank (by decide) (by revert v; decide)) given (by
      intro v q l hl c
      have hl3 : l < 3 := (List.getElem?_eq_some_iff.1 hl).1
      interval_cases l <;> fin_cases v <;> simp [Access.Example.line, given, items] at hl ⊢)
  refine ⟨res, h1, fun buf hbuf => ?_⟩
  obtain ⟨data, h3, out, h4, h5⟩ := h2 buf hbuf
  exact ⟨data, h3, out, h4, (h5 1).2 0 (by decide) 2 rfl⟩

theorem outs_held : HeldOnce ![[(0 : Fin 4), 1], [2, 3]] := by
  have h : ∀ v : Fin 4, ∃ x ∈ [((0 : Fin 2), 0), (0, 1), (1, 0), (1, 1)], (![[(0 : Fin 4), 1], [2, 3]] x.1)[x.2]? = some v ∧
      ∀ r : Fin 2, ∀ j < 2, (![[(0 : Fin 4), 1], [2, 3]] r)[j]? = some v → (r, j) = x := by decide
  intro v
  obtain ⟨x, -, h1, h2⟩ := h v
  refine ⟨x, h1, fun y hy => h2 y.1 y.2 ?_ hy⟩
  have hl : ∀ r : Fin 2, (![[(0 : Fin 4), 1], [2, 3]] r).length = 2 := by decide
  rw [← hl y.1]
  exact (List.getElem?_eq_some_iff.1 hy).1

/-- `C115_write`: the first vertex of the provider is vertex 2. -/
example (U : Fin 4 → Row 2) : ∃ s : Solver 3 4 .off planar, construct someEigen true (Basis.polynomialC0 (1 / 1)) .off planar (positions bar) (fun j => toPoint (outs j)) = some s ∧
    ∃ res, RNet.AlwaysCompletes (fun r : Fin 2 => compute (n := 1) cfg 3 (rbf r) r (start (n := 1) bar r)) res ∧
      ∃ out, RNet.AlwaysCompletes (conservativeJob ⟨someEigen, true, Basis.polynomialC0 (1 / 1), .off, planar⟩ 3 (fun r => rbfPart (res r).mesh (own r))
          (fun r => (![[0, 1], [2, 3]] r).map U) fun r => List.replicate (res r).mesh.verts.length 0) out ∧
        ∃ data, RNet.AlwaysCompletes (gsTransfer 2 3 (fun r => gids (res r).mesh) (fun _ : Fin 1 => [2, 0, 1]) (fun r => flatten (by decide) (out r)) items) data ∧
          ∀ c : Fin 2, (data (.inr 0)).get (2 * 0 + c) = s.mapConservative (fun l => U l c) 2 := by
  obtain ⟨s, hs⟩ := line_solver fun j => toPoint (outs j)
  obtain ⟨res, h1, out, h2, data, h3, h4⟩ := C115_write ⟨someEigen, true, Basis.polynomialC0 (1 / 1), .off, planar⟩ someEigen_valid someEigen_orderFree line_ok rfl (by decide) cfg rbf (by decide) rfl
    rbf_found own box (some 1) (fun r M g h => h) (by decide) line_needed outs ![[0, 1], [2, 3]] outs_held (fun r => by fin_cases r <;> rfl) s hs (fun h => by cases h) (p := 0) 2 (by decide)
    (fun _ => [2, 0, 1]) items (fun _ => rfl) U
  exact ⟨s, hs, res, h1, out, h2, data, h3, h4 0 0 (2 : Fin 3) rfl⟩

/-- Both ranks are at the beginning of the line, and the support radius is 1/2. -/
def near (_ : Fin 2) : Local 2 := ⟨[box 0], true, Box.default 2, rbfFirst (some (1 / 2)) (box 0) (own 0), rbfSecond (some (1 / 2))⟩

/-- `C115_lost`: the last vertex is out of reach of both ranks. -/
example := C115_lost (n := 1) (b := 1) someEigen someEigen_valid .c0 (by simp [Basis.Definite]) (1 / 2) 0 _
  (compact_defined (by unfold Basis.tiny; norm_num)) .off (by decide) planar line_ok rfl (by decide) ⟨.none, 0, false, true, false⟩ near (by decide) rfl rfl (by decide) (fun _ => own 0)
  (fun _ => box 0) (some (1 / 2)) (fun _ => rfl) line_distinct
  ⟨_, List.mem_cons_self, 0, by decide, rfl, fun R hR => Option.some.inj hR ▸ by decide +kernel⟩
  ⟨{ coords := ![2, 0], globalIndex := 2 }, by decide, fun r h => by
    have := h.2.2 _ rfl
    revert this
    decide +kernel⟩

end Example

end Verif.Mapping
