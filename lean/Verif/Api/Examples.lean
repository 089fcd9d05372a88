import Verif.Api.Order

/-! # Concrete runs: satisfiable hypotheses and disagreements (C31-C37) -/

set_option autoImplicit false

namespace Verif.Api.Participant

open Hist

/-- A participant with one provided and one received mesh. -/
def start : Participant 2 where
  phase := .constructed
  experimental := true
  remeshing := true
  meshes := [⟨"A", true, false, true, Mesh.empty 2⟩, ⟨"B", false, true, false, Mesh.empty 2⟩,
    ⟨"C", true, false, false, Mesh.empty 2⟩]
  locks := [("A", false), ("B", false), ("C", false)]
  writes := [⟨"A", "Force", 2, []⟩, ⟨"B", "Heat", 1, []⟩]
  reads := [⟨"A", "Disp", 1, none, false⟩]
  view := ⟨true, false, 0, 1⟩

theorem start_configured : start.Configured :=
  ⟨rfl, by decide, by intro c hc; simp [start] at hc; rcases hc with rfl | rfl | rfl <;> rfl, rfl, by decide, by decide, rfl⟩

/-- What the rest of preCICE does in the examples. -/
def env (t : ℚ) : Env 2 where
  view := ⟨true, true, t, 1⟩
  received := fun _ => { Mesh.empty 2 with verts := [{ coords := fun _ => 0 }, { coords := fun _ => 1 }] }
  reads := fun _ _ => some (fun t => [[t], [2 * t]])

/-- Vertices, connectivity, data and time steps. -/
def calls : List (Call 2) :=
  [.setMeshVertices "A" [0, 0, 1, 0, 0, 1] 3, .setMeshTriangle "A" 0 1 2, .writeData "A" "Force" [2, 0, 2] [1, 2, 3, 4, 5, 6],
    .initialize (env 0), .writeData "A" "Force" [1] [7, 8], .writeData "B" "Heat" [1, 0] [3, 4]]

example : (start.run calls).1.map (·.2) = [.ok (.ids [0, 1, 2]), .ok .unit, .ok .unit, .ok .unit, .ok .unit, .ok .unit] ∧
    (start.after calls).phase = .initialized ∧
    (start.after calls).stored = [("A", "Force", 0, [[3, 4], [0, 0], [5, 6]]), ("B", "Heat", 0, [[0], [0]])] := by
  decide +kernel

/-- Hypotheses of `C32_sent_partial`, `C32_direct`, `C35_locked` and `C36_accepts`. -/
example : ((start.after calls).exec (.advance (1 / 2) (env (1 / 2)))).1 = .ok .unit ∧
    ((start.after calls).exec (.advance (1 / 2) (env (1 / 2)))).2.stored.drop 2 =
      [("A", "Force", 1 / 2, [[0, 0], [7, 8], [0, 0]]), ("B", "Heat", 1 / 2, [[4], [3]])] ∧
    (start.after calls).reinits (env (1 / 2)) = false ∧ resetSince "A" (start.hist calls) = false ∧
    ((start.after calls).exec (.setMeshVertex "A" [0, 0])).1 = .error := by
  decide +kernel

/-- Hypotheses of `C31_accepts`, `C31_rejects`, and of `C37_data`. -/
example : ((start.after calls).exec (.readData "A" "Disp" [1, 0] (1 / 2) 2)).1 = .ok (.vals [1, 1 / 2]) ∧
    ((start.after calls).exec (.readData "A" "Disp" [1, 0] 2 2)).1 = .error ∧
    ((start.after calls).exec (.readData "A" "Disp" [1, 3] (1 / 2) 2)).1 = .error ∧
    ((start.after calls).exec (.writeData "A" "Force" [-1] [1, 1])).1 = .error := by
  decide +kernel

/-- Hypotheses of `C32_order` and `C33_round_trip`. -/
example : (pairs 2 [2, 0] [1, 2, 3, 4]).Perm (pairs 2 [0, 2] [3, 4, 1, 2]) ∧
    ((start.after calls).exec (.writeData "A" "Force" [2, 0] [1, 2, 3, 4])).1 = .ok .unit ∧
    ((start.after calls).exec (.writeData "A" "Force" [0, 2] [3, 4, 1, 2])).1 = .ok .unit := by
  decide +kernel

/-- Hypotheses of `C34_one_by_one`. -/
example : start.Modifiable "A" ⟨"A", true, false, true, Mesh.empty 2⟩ ∧
    (∀ w ∈ start.writes, w.mesh = "A" → w.buffer.length ≤ 0) :=
  ⟨⟨by decide, rfl, rfl, rfl⟩, by decide⟩

/-- Hypotheses of `C35_unlocked`, `C35_reset` and `C35_relocked`. -/
example : let p := start.after (calls ++ [.advance 1 (env 1), .resetMesh "A"])
    p.phase = .initialized ∧ resetSince "A" (start.hist (calls ++ [.advance 1 (env 1), .resetMesh "A"])) = true ∧
    (p.exec (.setMeshVertex "A" [0, 0])).1 = .ok (.ids [0]) ∧ (p.exec (.setMeshVertex "C" [0, 0])).1 = .error ∧
    (p.exec (.advance 1 (env 2))).1 = .ok .unit ∧
    ((p.exec (.advance 1 (env 2))).2.exec (.setMeshVertex "A" [0, 0])).1 = .error := by
  decide +kernel

/-- Hypotheses of `C37_connectivity`. -/
example : ((start.after (calls.take 1)).exec (.setMeshTriangle "A" 0 1 3)).1 = .error ∧
    ((start.after (calls.take 1)).exec (.setMeshTriangle "A" 0 1 2)).1 = .ok .unit ∧
    ((start.after (calls.take 1)).exec (.setMeshEdge "C" 7 8)).1 = .ok .unit := by
  decide +kernel

/-- Disagreement with C32: values written before `resetMesh` reappear on vertices of the new mesh that were
never written. -/
theorem C32_stale_after_reset :
    let before := calls ++ [.advance 1 (env 1), .writeData "A" "Force" [0] [5, 5], .resetMesh "A",
      .setMeshVertices "A" [8, 8, 9, 9] 2, .writeData "A" "Force" [1] [6, 6]]
    ((start.after before).exec (.advance 1 (env 2))).1 = .ok .unit ∧
      written 2 "A" "Force" 0 (start.hist before) = none ∧
      ("A", "Force", 2, [[5, 5], [6, 6]]) ∈ ((start.after before).exec (.advance 1 (env 2))).2.stored := by
  decide +kernel

/-- Disagreement with C32: values written to a received mesh are lost when the mesh is reinitialized in the
same `advance`, for instance because another mesh was reset. -/
theorem C32_direct_lost :
    let before := calls ++ [.advance 1 (env 1), .resetMesh "A", .setMeshVertex "A" [0, 0], .writeData "B" "Heat" [0] [5]]
    ((start.after before).exec (.advance 1 (env 2))).1 = .ok .unit ∧
      written 1 "B" "Heat" 0 (start.hist before) = some [5] ∧
      ("B", "Heat", 2, [[0], [0]]) ∈ ((start.after before).exec (.advance 1 (env 2))).2.stored := by
  decide +kernel

/-- Disagreement with C36: both kinds of undefined behaviour are reachable. -/
theorem C36_ub_reachable :
    (start.exec (.advance 1 (env 1))).1 = .ub ∧
      ((start.after (calls ++ [.finalize])).exec (.getMeshVertexSize "A")).1 = .ub ∧
      ((start.after (calls ++ [.finalize])).exec (.advance 1 (env 1))).1 = .ub := by
  decide +kernel

/-- Of several quads in one call the ones before the first invalid one are created although the call fails. -/
theorem C37_quads_not_atomic :
    let p := start.after [.setMeshVertices "A" [0, 0, 1, 0, 1, 1, 0, 1, 1 / 4, 1 / 4] 5]
    (p.exec (.setMeshQuads "A" [0, 1, 2, 3, 0, 1, 4, 3])).1 = .error ∧
      ((p.exec (.setMeshQuads "A" [0, 1, 2, 3, 0, 1, 4, 3])).2.meshCtx "A").map (fun c => c.mesh.tris.length) = some 2 := by
  decide +kernel

/-- A step that does not end the window after a reset is rejected, but its time is already counted. -/
theorem C36_error_advances_time :
    let p := start.after (calls ++ [.advance 1 (env 1), .resetMesh "A"])
    (p.exec (.advance (1 / 2) { env 2 with atEnd := false })).1 = .error ∧
      (p.exec (.advance (1 / 2) { env 2 with atEnd := false })).2.view.time = p.view.time + 1 / 2 := by
  decide +kernel

end Verif.Api.Participant
