import Verif.Api.Model
import Verif.Api.QuadProps
import Verif.Api.MultiLockProps
import Verif.Mesh.MeshProps

/-! # How API calls change the participant -/

set_option autoImplicit false

namespace Verif.Api

variable {d : ℕ}

/-- The mesh a call defines vertices or connectivity of. -/
def Call.defines : Call d → Option String
  | .setMeshVertex m _ => some m
  | .setMeshVertices m _ _ => some m
  | .setMeshEdge m _ _ => some m
  | .setMeshEdges m _ => some m
  | .setMeshTriangle m _ _ _ => some m
  | .setMeshTriangles m _ => some m
  | .setMeshQuad m _ _ _ _ => some m
  | .setMeshQuads m _ => some m
  | .setMeshTetrahedron m _ _ _ _ => some m
  | .setMeshTetrahedra m _ => some m
  | _ => none

/-- Calls with a permanent effect when they succeed, except for connectivity. -/
def Call.effectful : Call d → Bool
  | .initialize _ => true
  | .advance _ _ => true
  | .finalize => true
  | .resetMesh _ => true
  | .setMeshVertex _ _ => true
  | .setMeshVertices _ _ _ => true
  | .writeData _ _ _ _ => true
  | _ => false

/-- The positions passed to a vertex definition call. -/
def Call.points : Call d → List (Pt d)
  | .setMeshVertex _ pos => [Participant.toPt pos]
  | .setMeshVertices _ pos n => (List.range n).map (fun i => Participant.toPt (Participant.group d pos i))
  | _ => []

namespace Participant

/-- The mesh may be modified. -/
structure Modifiable (p : Participant d) (m : String) (c : MeshCtx d) : Prop where
  notFin : p.phase ≠ .finalized
  ctx : p.meshCtx m = some c
  provided : c.provided = true
  unlocked : p.locks.check m = some false

/-- Possible changes of the participant by a call. -/
inductive Change (p : Participant d) : Call d → Outcome → Participant d → Prop where
  | err (c : Call d) : Change p c .error p
  | ub (c : Call d) : Change p c .ub p
  | query (c : Call d) (r : Resp) : c.effectful = false → p.phase ≠ .finalized → Change p c (.ok r) p
  | advErr (dt : ℚ) (e : Env d) : p.phase = .initialized →
      Change p (.advance dt e) .error { p with view := { p.view with time := p.view.time + dt } }
  | initReq (r : Resp) (b : Bool) : p.phase = .constructed →
      Change p .requiresInitialData (.ok r) { p with initFulfilled := b }
  | cells (c : Call d) (o : Outcome) (m : String) (k : MeshCtx d) (x : Mesh d) : c.defines = some m →
      c.effectful = false → p.Modifiable m k → x.verts = k.mesh.verts → o ≠ .ub → Change p c o (p.setMesh m x)
  | init (e : Env d) : p.phase = .constructed → e.good = true → Change p (.initialize e) (.ok .unit) (p.initDone e)
  | adv (dt : ℚ) (e : Env d) : p.phase = .initialized → p.view.ongoing = true → ¬ equals dt 0 → 0 < dt →
      greaterEquals p.view.maxStep dt → ¬ (p.remeshing = true ∧ e.atEnd = false ∧ p.locks.checkAll = false) →
      e.good = true → Change p (.advance dt e) (.ok .unit) (p.advDone dt e)
  | fin : p.phase ≠ .finalized → Change p .finalize (.ok .unit) { p with phase := .finalized }
  | reset (m : String) (k : MeshCtx d) (l : MultiLock String) : p.phase = .initialized → p.remeshing = true →
      p.meshCtx m = some k →
      p.view.ongoing = true → p.view.complete = true → p.locks.unlock m = some l →
      Change p (.resetMesh m) (.ok .unit) (({ p with locks := l } : Participant d).setMesh m (Mesh.empty d))
  | vertices (c : Call d) (m : String) (k : MeshCtx d) : c.defines = some m → c.effectful = true →
      p.Modifiable m k → Change p c (.ok (.ids (createVertices k.mesh c.points).2))
        ((p.setMesh m (createVertices k.mesh c.points).1).resizeBuffers m
          (createVertices k.mesh c.points).1.verts.length false)
  | writeNone (m data : String) : p.phase ≠ .finalized → Change p (.writeData m data [] []) (.ok .unit) p
  | write (m data : String) (ids : List ℤ) (vals : List ℚ) (k : MeshCtx d) (w : WriteCtx) (b : List Col) :
      p.phase ≠ .finalized →
      p.meshCtx m = some k → p.writes.find? (fun w => w.mesh = m ∧ w.data = data) = some w →
      ids.length * w.dims = vals.length → (∀ i ∈ ids, k.mesh.isValidVertexID i = true) →
      writeBuffer w.dims vals ids 0 w.buffer = some b →
      Change p (.writeData m data ids vals) (.ok .unit) { p with writes := p.writes.map (fun w =>
        if w.mesh = m ∧ w.data = data then { w with buffer := b } else w) }

theorem change_require {p : Participant d} {c : Prop} [Decidable c] {k : Outcome × Participant d} {call : Call d}
    (h : c → Change p call k.1 k.2) : Change p call (p.require c k).1 (p.require c k).2 := by
  unfold require; split
  · exact h ‹_›
  · exact .err _

theorem change_modify {p : Participant d} {m : String} {k : MeshCtx d → Outcome × Participant d} {call : Call d}
    (h : ∀ c, p.Modifiable m c → Change p call (k c).1 (k c).2) :
    Change p call (p.modify m k).1 (p.modify m k).2 := by
  unfold modify accessor
  split
  · exact .ub _
  · split
    · exact .err _
    · rename_i c hc
      refine change_require fun hp => ?_
      split
      · exact h _ ⟨‹_›, hc, hp, ‹_›⟩
      · exact .err _

theorem createCells_verts {create : Mesh d → List ℕ → Mesh d} (hc : ∀ x l, (create x l).verts = x.verts)
    (x : Mesh d) (cs : List (List ℤ)) : (createCells create x cs).verts = x.verts := by
  unfold createCells
  induction cs generalizing x with
  | nil => rfl
  | cons c cs ih => rw [List.foldl_cons, ih, hc]

theorem createQuads_verts (x : Mesh d) (qs : List (List ℤ)) : (createQuads x qs).2.verts = x.verts := by
  induction qs generalizing x with
  | nil => rfl
  | cons q qs ih =>
    unfold createQuads
    simp only
    split
    · rfl
    · rfl
    · rw [ih]; rfl

theorem createQuads_no_ub (x : Mesh d) (qs : List (List ℤ)) : (createQuads x qs).1 ≠ .ub := by
  induction qs generalizing x with
  | nil => simp [createQuads]
  | cons q qs ih =>
    unfold createQuads
    simp only
    split
    · simp
    · rename_i h; exact absurd h (Quad.C91_no_ub _ _)
    · exact ih _

theorem change_connect {p : Participant d} {m : String} {create : Mesh d → List ℕ → Mesh d} {dim3 unique : Bool}
    {n : ℕ} {ids : List ℤ} {call : Call d} (hc : ∀ x l, (create x l).verts = x.verts)
    (h1 : call.defines = some m) (h2 : call.effectful = false) :
    Change p call (p.connect m create dim3 n unique ids).1 (p.connect m create dim3 n unique ids).2 := by
  unfold connect
  refine change_modify fun c hm => ?_
  refine change_require fun _ => ?_
  split
  · exact .query _ _ h2 hm.notFin
  · refine change_require fun _ => change_require fun _ => change_require fun _ => ?_
    exact .cells _ _ m c _ h1 h2 hm (createCells_verts hc _ _) (by simp)

theorem change_quads {p : Participant d} {m : String} {ids : List ℤ} {call : Call d}
    (h1 : call.defines = some m) (h2 : call.effectful = false) :
    Change p call (p.quads m ids).1 (p.quads m ids).2 := by
  unfold quads
  refine change_modify fun c hm => ?_
  split
  · exact .query _ _ h2 hm.notFin
  · refine change_require fun _ => change_require fun _ => ?_
    exact .cells _ _ m c _ h1 h2 hm (createQuads_verts _ _) (createQuads_no_ub _ _)

/-- Every call changes the participant in one of these ways. -/
theorem exec_change (p : Participant d) (c : Call d) : Change p c (p.exec c).1 (p.exec c).2 := by
  cases c with
  | «initialize» e =>
    simp only [exec, Participant.init]
    refine change_require fun h1 => change_require fun h2 => change_require fun _ => change_require fun h3 => ?_
    refine .init e ?_ h3
    cases hp : p.phase <;> simp_all
  | advance dt e =>
    simp only [exec, advance]
    split
    · exact .ub _
    · rename_i hp
      refine change_require fun h1 => change_require fun h2 => change_require fun h3 => change_require fun h4 => ?_
      split
      · exact .advErr _ _ (not_not.1 hp)
      · refine change_require fun h5 => ?_
        exact .adv dt e (not_not.1 hp) h1 h2 h3 h4 ‹_› h5
  | finalize => exact change_require fun h => .fin h
  | isCouplingOngoing => exact change_require fun h => .query _ _ rfl (by simp [h])
  | isTimeWindowComplete => exact change_require fun h => .query _ _ rfl (by simp [h])
  | getMaxTimeStepSize => exact change_require fun h => .query _ _ rfl (by simp [h])
  | requiresInitialData => exact change_require fun h => .initReq _ _ h
  | getMeshDimensions m =>
    simp only [exec, accessor]; split
    · exact .ub _
    · exact change_require fun h => .query _ _ rfl ‹_›
  | requiresMeshConnectivityFor m =>
    simp only [exec, accessor]; split
    · exact .ub _
    · split
      · exact .err _
      · exact .query _ _ rfl ‹_›
  | getMeshVertexSize m =>
    simp only [exec, accessor]; split
    · exact .ub _
    · split
      · exact .err _
      · exact change_require fun h => .query _ _ rfl ‹_›
  | resetMesh m =>
    simp only [exec, Participant.resetMesh]
    refine change_require fun h1 => change_require fun h2 => change_require fun h3 => change_require fun h4 =>
      change_require fun h5 => change_require fun h6 => ?_
    obtain ⟨k, hk⟩ := Option.ne_none_iff_exists'.1 h4
    split
    · exact .err _
    · exact .reset m k _ h3 h2 hk h5 h6 ‹_›
  | setMeshVertex m pos =>
    simp only [exec, Participant.setMeshVertex]
    exact change_modify fun k hk => change_require fun _ => .vertices (.setMeshVertex m pos) m k rfl rfl hk
  | setMeshVertices m pos n =>
    simp only [exec, Participant.setMeshVertices]
    exact change_modify fun k hk => change_require fun _ => .vertices (.setMeshVertices m pos n) m k rfl rfl hk
  | setMeshEdge m a b => exact change_connect (fun _ _ => rfl) rfl rfl
  | setMeshEdges m ids => exact change_connect (fun _ _ => rfl) rfl rfl
  | setMeshTriangle m a b c => exact change_connect (fun _ _ => rfl) rfl rfl
  | setMeshTriangles m ids => exact change_connect (fun _ _ => rfl) rfl rfl
  | setMeshQuad m a b c e => exact change_quads rfl rfl
  | setMeshQuads m ids => exact change_quads rfl rfl
  | setMeshTetrahedron m a b c e => exact change_connect (fun _ _ => rfl) rfl rfl
  | setMeshTetrahedra m ids => exact change_connect (fun _ _ => rfl) rfl rfl
  | writeData m data ids vals =>
    simp only [exec, Participant.writeData]
    refine change_require fun h1 => change_require fun h2 => ?_
    unfold dataAccess
    split
    · exact .err _
    · rename_i k hk
      refine change_require fun h3 => ?_
      split
      · exact .err _
      · rename_i w hw
        split
        · rename_i he
          obtain ⟨rfl, rfl⟩ := he
          exact .writeNone m data h1
        · refine change_require fun h4 => change_require fun h5 => ?_
          split
          · exact .ub _
          · exact .write m data ids vals k w _ h1 hk hw h4 (by simpa using h5) ‹_›
  | readData m data ids t n =>
    simp only [exec, Participant.readData, readable, dataAccess]
    refine change_require fun h1 => change_require fun h2 => change_require fun _ => change_require fun _ =>
      change_require fun _ => ?_
    split
    · exact .err _
    · refine change_require fun h3 => ?_
      split
      · exact .err _
      · refine change_require fun _ => ?_
        split
        · exact .query _ _ rfl h2
        · split
          · exact .err _
          · exact change_require fun _ => change_require fun _ => .query _ _ rfl h2
  | mapAndReadData m data coords t n =>
    simp only [exec, Participant.mapAndReadData, readable, dataAccess]
    refine change_require fun h1 => change_require fun h3 => change_require fun h2 => change_require fun _ =>
      change_require fun _ => change_require fun _ => ?_
    split
    · exact .err _
    · refine change_require fun h4 => ?_
      split
      · exact .err _
      · refine change_require fun _ => change_require fun _ => change_require fun _ => ?_
        split
        · exact .query _ _ rfl h2
        · exact change_require fun _ => change_require fun _ => .query _ _ rfl h2

end Participant
end Verif.Api
