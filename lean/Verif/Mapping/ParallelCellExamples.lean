import Verif.Mapping.ParallelCell
import Verif.Mapping.ParallelExamples
import Mathlib.Tactic.IntervalCases

/-!
# Linear cell interpolation of parallel participants: example (C113)
-/

set_option autoImplicit false

namespace Verif.Mapping.Example

open Verif.Repartition Verif.Com Verif.Dist Geometry

/-- The two tetrahedra of `tetMesh`, numbered. -/
def tets : Mesh 3 :=
  ⟨[{ coords := ![0, 0, 0], globalIndex := 0 }, { coords := ![1, 0, 0], globalIndex := 1 }, { coords := ![0, 1, 0], globalIndex := 2 }, { coords := ![0, 0, 1], globalIndex := 3 },
    { coords := ![1, 1, 1], globalIndex := 4 }], [], [], [[0, 1, 2, 3], [1, 2, 3, 4]]⟩

/-- The first rank has two vertices in the first tetrahedron, the second rank two in the other one. -/
def inner : Fin 2 → Mesh 3 :=
  ![⟨[{ coords := ![1 / 8, 1 / 8, 1 / 8] }, { coords := ![1 / 8, 1 / 8, 5 / 8] }], [], [], []⟩,
    ⟨[{ coords := ![1 / 2, 1 / 2, 1 / 2] }, { coords := ![3 / 4, 3 / 4, 3 / 4] }], [], [], []⟩]

def hereLC (con : Constraint) (r : Fin 2) : Local 3 :=
  ⟨[(Box.default 3).compute ((inner r).verts.map fun w => w.coords)], true, Box.default 3, npTags .cell (boxSearch 3) con (inner r), fun _ _ => false⟩

theorem tets_ok : tets.Ok := by constructor <;> unfold Mesh.CellsOk <;> decide

theorem reachLC (con : Constraint) : ∀ r : Fin 2, ∀ v ∈ tets.verts, inside (prepareBox (d := 2) wide (hereLC con r)) v = true := by
  cases con <;> decide +kernel

theorem genericLC : ∀ r : Fin 2, ∀ i < (inner r).verts.length, Generic tets (coordsOf (inner r) i) := by
  have h : ∀ r : Fin 2, ∀ i < (inner r).verts.length, ∀ c ∈ tets.tets, ∀ p ∈ (polation tets (coordsOf (inner r) i) c).toList, (∀ e ∈ p.elems, greaterEquals e.2 0) →
      ∀ e ∈ p.elems, ¬ equals e.2 0 := by
    unfold equals greaterEquals tol
    decide +kernel
  exact fun r i hi c hc p hp hint => h r i hi c hc p (by rw [hp]; simp) hint

theorem insideLC : ∀ r : Fin 2, ∀ i < (inner r).verts.length, ∃ c ∈ tets.tets, Proper tets c ∧ InCell tets c (coordsOf (inner r) i) := by
  have p1 : Proper tets [0, 1, 2, 3] := ⟨0, [1, 0, 0, 0], by decide +kernel⟩
  have p2 : Proper tets [1, 2, 3, 4] := ⟨![1, 0, 0], [1, 0, 0, 0], by decide +kernel⟩
  intro r i hi
  have h2 : i < 2 := by
    have : ∀ r : Fin 2, (inner r).verts.length = 2 := by decide
    rw [this] at hi
    exact hi
  fin_cases r <;> interval_cases i
  · exact ⟨_, by decide, p1, [5 / 8, 1 / 8, 1 / 8, 1 / 8], rfl, by decide +kernel, by decide +kernel, by decide +kernel⟩
  · exact ⟨_, by decide, p1, [1 / 8, 1 / 8, 1 / 8, 5 / 8], rfl, by decide +kernel, by decide +kernel, by decide +kernel⟩
  · exact ⟨_, by decide, p2, [1 / 4, 1 / 4, 1 / 4, 1 / 4], rfl, by decide +kernel, by decide +kernel, by decide +kernel⟩
  · exact ⟨_, by decide, p2, [1 / 8, 1 / 8, 1 / 8, 5 / 8], rfl, by decide +kernel, by decide +kernel, by decide +kernel⟩

theorem usesLC (con : Constraint) (r : Fin 2) : UsesLC (d := 2) (boxSearch 3) con wide (hereLC con r) (inner r) tets := by
  refine ⟨fun M g h => h, ?_, fun h => absurd h (by decide), genericLC r⟩
  intro i hi
  obtain ⟨c, h1, h2, h3⟩ := insideLC r i hi
  refine ⟨c, h1, h2, h3, fun j _ v hv => ?_⟩
  have := reachLC con r v (List.mem_of_getElem? hv)
  unfold Reach
  rw [Bool.or_eq_true]
  exact .inr this

theorem foundLC (con : Constraint) : wide.filter ≠ .none → ∀ r, (hereLC con r).provided = true → ∃ v ∈ tets.verts, inside (prepareBox (d := 2) wide (hereLC con r)) v = true :=
  fun _ r _ => ⟨_, List.mem_cons_self, reachLC con r _ List.mem_cons_self⟩

theorem tets_data (j l : ℕ) (v : Vertex 3) (hv : tets.verts[j]? = some v) (hl : (List.range 5)[l]? = some v.globalIndex.toNat) : l = j := by
  have h3 : j < 5 := (List.getElem?_eq_some_iff.1 hv).1
  have hl3 : l < 5 := by simpa using (List.getElem?_eq_some_iff.1 hl).1
  rw [List.getElem?_range hl3, Option.some.injEq] at hl
  have : ∀ j < 5, ((tets.verts[j]?).map fun v => v.globalIndex.toNat) = some j := by decide
  have h := this j h3
  rw [hv, Option.map_some, Option.some.injEq] at h
  omega

example := C113_cell (d := 2) (boxSearch_valid 3) (boxSearch_boxes 3) (.inr rfl) (con := .consistent) (by decide) tets_ok rfl (by decide) wide (hereLC .consistent) 5 (by decide) rfl
  (foundLC _) inner (usesLC _) ⟨0, by decide⟩ 2 (by decide) (fun _ : Fin 1 => List.range 5) (fun _ => ⟨10, fun i => i⟩) (by decide)
  (fun v hv => one_rank (by decide) (by revert v; decide))
  (fun i => i) (by
    intro j v s l hv hl e _
    rw [tets_data j l v hv hl, Nat.mul_comm])

example := C113_cell_write (d := 2) (boxSearch_valid 3) (boxSearch_boxes 3) (.inr rfl) tets_ok rfl (by decide) wide (hereLC .conservative) 5 (by decide) rfl (foundLC _) inner (usesLC _)
  ⟨0, by decide⟩ 2 (by decide) (fun _ : Fin 1 => [2, 0, 1, 4, 3]) (fun _ => ⟨10, fun i => i⟩) (by decide) (fun _ i => i)

end Verif.Mapping.Example
