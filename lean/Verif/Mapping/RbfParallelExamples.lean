import Verif.Mapping.RbfParallelProps

/-!
Cases for the theorems about radial basis function mappings with several ranks (C96), and vertices without an owner.
-/

set_option autoImplicit false

namespace Verif.Rbf
open Matrix

/-- Compact polynomials of support radius one in the plane, separated polynomial. -/
noncomputable def planarSetting : Setting := ⟨someEigen, true, compactC0, .separate, planar⟩

/-- Rank 0 owns the first vertex and has a copy of the second one; rank 1 owns the other two; rank 2 has none. -/
def triangleIds : Fin 3 → List (Fin 3 × Bool) := ![[(1, false), (0, true)], [(2, true), (1, true)], []]

theorem triangleIds_once : OwnedOnce triangleIds := by
  have hmem : ∀ r i v, (triangleIds r)[i]? = some (v, true) → (v, r, i) ∈ [((0 : Fin 3), (0 : Fin 3), 1), (2, 1, 0), (1, 1, 1)] := by
    intro r i v h
    have hi : i < 2 := by
      have h1 := (List.getElem?_eq_some_iff.1 h).1
      have : (triangleIds r).length ≤ 2 := by fin_cases r <;> decide
      omega
    revert v
    have : ∀ r : Fin 3, ∀ i : Fin 2, ∀ v : Fin 3, (triangleIds r)[i.1]? = some (v, true) →
        (v, r, i.1) ∈ [((0 : Fin 3), (0 : Fin 3), 1), (2, 1, 0), (1, 1, 1)] := by decide
    exact fun v h => this r ⟨i, hi⟩ v h
  have hex : ∀ v : Fin 3, ∃ r : Fin 3, ∃ i : Fin 2, (triangleIds r)[i.1]? = some (v, true) := by decide
  intro v
  obtain ⟨r, i, hi⟩ := hex v
  refine ⟨(r, i.1), hi, fun x hx => ?_⟩
  have h1 := hmem r i.1 v hi
  have h2 := hmem x.1 x.2 v hx
  simp only [List.mem_cons, List.not_mem_nil, Prod.mk.injEq, or_false] at h1 h2
  refine Prod.ext ?_ ?_ <;> simp only <;> omega

/-- The hypotheses of `C96_consistent` with three ranks, copies, an empty rank and two components. -/
example (F : Fin 3 → Row 2) : ∃ (s : Solver 3 1 .separate planar) (res : Fin 3 → List (Row 2)),
    construct someEigen true compactC0 .separate planar triangle (fun _ => ![1, 1, 0]) = some s ∧
    RNet.AlwaysCompletes (consistentJob planarSetting 3 (parts triangle triangleIds ![[], [![2, 0, 0], ![1, 1, 0]], [![1, 1, 0]]])
      fun r => (triangleIds r).map fun x => F x.1) res ∧
    res 0 = [] ∧ (res 1)[1]? = (res 2)[0]? ∧ (res 2)[0]? = some fun c => s.mapConsistent (fun i => F i c) 0 := by
  obtain ⟨⟨s, hs⟩, hn⟩ := triangle_constructs fun _ : Fin 1 => ![1, 1, 0]
  obtain ⟨res, h1, h2⟩ := C96_consistent planarSetting someEigen_valid someEigen_orderFree triangle (fun _ : Fin 1 => ![1, 1, 0]) s hs (fun _ => hn)
    triangleIds triangleIds_once ![[], [![2, 0, 0], ![1, 1, 0]], [![1, 1, 0]]] F
  have ha := (h2 1).2 1 0 _ rfl fun _ _ => rfl
  have hb := (h2 2).2 0 0 _ rfl fun _ _ => rfl
  exact ⟨s, res, hs, h1, List.length_eq_zero_iff.1 (h2 0).1, ha.trans hb.symm, hb⟩

/-- The input vertices of the conservative mapping, on ranks 2 and 0. -/
def loadIds : Fin 3 → List (Fin 2) := ![[1], [], [0]]

theorem loadIds_once : HeldOnce loadIds := by
  have hmem : ∀ r i v, (loadIds r)[i]? = some v → (v, r, i) ∈ [((0 : Fin 2), (2 : Fin 3), 0), (1, 0, 0)] := by
    intro r i v h
    have hi : i < 1 := by
      have h1 := (List.getElem?_eq_some_iff.1 h).1
      have : (loadIds r).length ≤ 1 := by fin_cases r <;> decide
      omega
    have : ∀ r : Fin 3, ∀ i : Fin 1, ∀ v : Fin 2, (loadIds r)[i.1]? = some v → (v, r, i.1) ∈ [((0 : Fin 2), (2 : Fin 3), 0), (1, 0, 0)] := by decide
    exact this r ⟨i, hi⟩ v h
  have hex : ∀ v : Fin 2, ∃ r : Fin 3, ∃ i : Fin 1, (loadIds r)[i.1]? = some v := by decide
  intro v
  obtain ⟨r, i, hi⟩ := hex v
  refine ⟨(r, i.1), hi, fun x hx => ?_⟩
  have h1 := hmem r i.1 v hi
  have h2 := hmem x.1 x.2 v hx
  simp only [List.mem_cons, List.not_mem_nil, Prod.mk.injEq, or_false] at h1 h2
  refine Prod.ext ?_ ?_ <;> simp only <;> omega

/-- The hypotheses of `C96_conservative`. -/
example (U : Fin 2 → Row 1) : ∃ (s : Solver 3 2 .separate planar) (res : Fin 3 → List (Row 1)),
    construct someEigen true compactC0 .separate planar triangle ![![1, 1, 0], ![2, 1, 0]] = some s ∧
    RNet.AlwaysCompletes (conservativeJob planarSetting 3 (parts triangle triangleIds fun r => (loadIds r).map ![![1, 1, 0], ![2, 1, 0]])
      (fun r => (loadIds r).map U) fun r => (triangleIds r).map fun _ => 0) res ∧
    (res 0)[0]? = some 0 ∧ (res 1)[0]? = some fun c => s.mapConservative (fun k => U k c) 2 := by
  obtain ⟨⟨s, hs⟩, hn⟩ := triangle_constructs ![![1, 1, 0], ![2, 1, 0]]
  obtain ⟨res, h1, h2⟩ := C96_conservative planarSetting someEigen_valid someEigen_orderFree triangle ![![1, 1, 0], ![2, 1, 0]] s hs (fun _ => hn)
    triangleIds triangleIds_once loadIds loadIds_once U (fun r => (triangleIds r).map fun _ => 0) fun r => by simp
  exact ⟨s, res, hs, h1, ((h2 0).2 0 1).2 rfl, ((h2 1).2 0 2).1 rfl⟩

/-- Which vertices of the received mesh a rank keeps for a basis function with support radius `ρ`:
`tagMeshFirstRound`, RadialBasisFctBaseMapping.hpp:124-155 (`l` are the vertices of its other mesh; the box around them is
enlarged by `ρ`). -/
def Tagged (l : List Point) (ρ : ℝ) (v : Point) : Prop := l ≠ [] ∧ ∀ d, (∃ u ∈ l, u d - ρ ≤ v d) ∧ ∃ u ∈ l, v d ≤ u d + ρ

/-- Three vertices on a line. -/
def gapMesh : Fin 3 → Point := ![![0, 0, 0], ![5, 0, 0], ![10, 0, 0]]

/-- Two ranks, each with one output vertex. -/
def gapOuts : Fin 2 → List Point := ![[![0, 0, 0]], [![10, 0, 0]]]

/-- What the ranks keep of the mesh: each owns the vertex which it tagged. -/
def gapIds : Fin 2 → List (Fin 3 × Bool) := ![[(0, true)], [(2, true)]]

/-- Compact polynomials of support radius one without polynomial. -/
noncomputable def gapSetting : Setting := ⟨someEigen, true, compactC0, .off, planar⟩

theorem gap_tagged (r : Fin 2) (v : Fin 3) : Tagged (gapOuts r) 1 (gapMesh v) ↔ v ∈ owned (gapIds r) := by
  fin_cases r <;> fin_cases v <;> simp [Tagged, gapOuts, gapMesh, gapIds, owned, Fin.forall_fin_succ]
  norm_num

/-- **A gap wider than the support radius breaks the mapping.** The middle vertex is further away from the output vertices
of both ranks than the support radius, so no rank keeps it; such vertices are filtered out with a warning. With one rank the
mapping is well-defined, but with two ranks the primary rank accesses the input matrix out of bounds, because it copies as
many rows as the unfiltered mesh has vertices. -/
theorem C96_gap (F : Fin 3 → Row 1) :
    (∀ r v, Tagged (gapOuts r) 1 (gapMesh v) ↔ v ∈ owned (gapIds r)) ∧
    (∃ s : Solver 3 2 .off planar, construct someEigen true compactC0 .off planar gapMesh ![![0, 0, 0], ![10, 0, 0]] = some s) ∧
    (∃ k p, RNet.Steps k (consistentJob gapSetting 3 (parts gapMesh gapIds gapOuts) fun r => (gapIds r).map fun x => F x.1) p ∧ p 0 = .fail .assert) ∧
    ¬ ∃ res, RNet.AlwaysCompletes (consistentJob gapSetting 3 (parts gapMesh gapIds gapOuts) fun r => (gapIds r).map fun x => F x.1) res := by
  have hcons : ∀ {k m : ℕ} (X : Fin k → Point) (Y : Fin m → Point), (∀ i j, entry compactC0 planar (X i) (X j) = if i = j then 1 else 0) →
      ∃ s : Solver k m .off planar, construct someEigen true compactC0 .off planar X Y = some s := by
    intro k m X Y hX
    have hC : buildCLU (pol := .off) (active := planar) compactC0 X = 1 := by
      ext p q
      rcases p with i | l
      · rcases q with j | l
        · rw [clu_inl, hX, Matrix.one_apply]
          simp
        · exact absurd l.2 (by decide)
      · exact absurd l.2 (by decide)
    unfold construct
    have hd : decomposable true (buildCLU (pol := .off) (active := planar) compactC0 X) = true := by
      rw [hC]
      simp [decomposable, Matrix.PosDef.one]
    rw [if_neg (by decide), hd, if_pos rfl, if_neg (by decide)]
    exact ⟨_, rfl⟩
  refine ⟨gap_tagged, hcons _ _ fun i j => ?_, ?_⟩
  · unfold entry
    rw [squaredDifference_planar]
    fin_cases i <;> fin_cases j <;> simp [gapMesh] <;> first | exact compactC0_zero | exact compactC0_far (by norm_num) | simp [compactC0]
  · obtain ⟨s, hs⟩ := hcons ((allRanks 1).flatMap fun r => owned (parts gapMesh gapIds gapOuts r).ins).get
      ((allRanks 1).flatMap fun r => (parts gapMesh gapIds gapOuts r).outs).get (by
        have hl : ((allRanks 1).flatMap fun r => owned (parts gapMesh gapIds gapOuts r).ins) = [![0, 0, 0], ![10, 0, 0]] := rfl
        rw [hl]
        intro i j
        unfold entry
        rw [squaredDifference_planar]
        fin_cases i <;> fin_cases j <;> simp <;> first | exact compactC0_zero | exact compactC0_far (by norm_num) | simp [compactC0])
    have hpol : gapSetting.pol ≠ .on := show Polynomial.off ≠ .on by decide
    have hlen : ((allRanks 1).flatMap fun r => owned (parts gapMesh gapIds gapOuts r).ins).length ≠ 3 := by
      rw [show ((allRanks 1).flatMap fun r => owned (parts gapMesh gapIds gapOuts r).ins) = [![0, 0, 0], ![10, 0, 0]] from rfl]
      simp
    have hvals : ∀ r, ((gapIds r).map fun x => F x.1).length = (parts gapMesh gapIds gapOuts r).ins.length := fun r => by simp [parts]
    exact C96_unowned gapSetting hpol 3 (parts gapMesh gapIds gapOuts) _ hvals s hs hlen

end Verif.Rbf
