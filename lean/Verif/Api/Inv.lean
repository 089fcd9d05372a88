import Verif.Api.Lemmas

/-! # Invariants of the participant -/

set_option autoImplicit false

namespace Verif.Api

variable {d : ℕ}

/-- A history, the latest call first. -/
abbrev Hist (d : ℕ) := List (Call d × Outcome)

namespace Hist

/-- The values passed with each vertex ID. -/
def pairs (dims : ℕ) (ids : List ℤ) (vals : List ℚ) : List (ℤ × Col) :=
  ids.zipIdx.map (fun e => (e.1, Participant.group dims vals e.2))

/-- The value a call of `writeData` gives to a vertex: the last one with this ID. -/
def lastFor (dims : ℕ) (ids : List ℤ) (vals : List ℚ) (v : ℕ) : Option Col :=
  ((pairs dims ids vals).reverse.find? (fun e => e.1 = (v : ℤ))).map (·.2)

/-- The last value written for a vertex since the last successful `initialize` or `advance`; a reset of the
mesh removes its vertices. -/
def written (dims : ℕ) (m data : String) (v : ℕ) : Hist d → Option Col
  | [] => none
  | (.writeData m' data' ids vals, .ok _) :: h =>
    if m' = m ∧ data' = data then (lastFor dims ids vals v).or (written dims m data v h) else written dims m data v h
  | (.resetMesh m', .ok _) :: h => if m' = m then none else written dims m data v h
  | (.advance _ _, .ok _) :: _ => none
  | (.initialize _, .ok _) :: _ => none
  | _ :: h => written dims m data v h

/-- The mesh was successfully reset since the last successful `initialize` or `advance`. -/
def resetSince (m : String) : Hist d → Bool
  | [] => false
  | (.resetMesh m', .ok _) :: h => m' = m || resetSince m h
  | (.advance _ _, .ok _) :: _ => false
  | (.initialize _, .ok _) :: _ => false
  | _ :: h => resetSince m h

theorem written_skip (dims : ℕ) (m data : String) (v : ℕ) {c : Call d} {o : Outcome} (h : Hist d)
    (hc : c.effectful = false ∨ ∀ r, o ≠ .ok r) : written dims m data v ((c, o) :: h) = written dims m data v h := by
  cases o with
  | ok r =>
    have hc : c.effectful = false := hc.resolve_right (fun h => h r rfl)
    cases c <;> first | rfl | simp [Call.effectful] at hc
  | error => cases c <;> rfl
  | ub => cases c <;> rfl

theorem resetSince_skip (m : String) {c : Call d} {o : Outcome} (h : Hist d)
    (hc : c.effectful = false ∨ ∀ r, o ≠ .ok r) : resetSince m ((c, o) :: h) = resetSince m h := by
  cases o with
  | ok r =>
    have hc : c.effectful = false := hc.resolve_right (fun h => h r rfl)
    cases c <;> first | rfl | simp [Call.effectful] at hc
  | error => cases c <;> rfl
  | ub => cases c <;> rfl

theorem written_defines (dims : ℕ) (m data : String) (v : ℕ) {c : Call d} {o : Outcome} (h : Hist d) {m' : String}
    (hc : c.defines = some m') : written dims m data v ((c, o) :: h) = written dims m data v h := by
  cases c <;> first | (cases o <;> rfl) | simp [Call.defines] at hc

theorem resetSince_defines (m : String) {c : Call d} {o : Outcome} (h : Hist d) {m' : String}
    (hc : c.defines = some m') : resetSince m ((c, o) :: h) = resetSince m h := by
  cases c <;> first | (cases o <;> rfl) | simp [Call.defines] at hc

end Hist

namespace Participant

open Hist

/-- The participant as left by the constructor, ParticipantImpl.cpp:150-246: nothing is defined, one open
lock per used mesh. -/
structure Configured (p : Participant d) : Prop where
  phase : p.phase = .constructed
  names : (p.meshes.map (·.name)).Nodup
  meshes : ∀ c ∈ p.meshes, c.mesh = Mesh.empty d
  locks : p.locks = p.meshes.map (fun c => (c.name, false))
  keys : (p.writes.map (fun w => (w.mesh, w.data))).Nodup
  writes : ∀ w ∈ p.writes, w.buffer = []
  stored : p.stored = []

/-- Structural invariants. -/
structure Inv (p : Participant d) : Prop where
  names : (p.meshes.map (·.name)).Nodup
  locks : p.locks.map (·.1) = p.meshes.map (·.name)
  keys : (p.writes.map (fun w => (w.mesh, w.data))).Nodup
  size : ∀ w ∈ p.writes, ∀ c, p.meshCtx w.mesh = some c → c.mesh.verts.length ≤ w.buffer.length
  cols : ∀ w ∈ p.writes, ∀ x ∈ w.buffer, x.length = w.dims

/-- Buffers contain what was written last; the locks reflect the history. -/
structure HistInv (h : Hist d) (p : Participant d) : Prop where
  size : ∀ w ∈ p.writes, ∀ c, p.meshCtx w.mesh = some c → resetSince w.mesh h = false →
    w.buffer.length = c.mesh.verts.length
  val : ∀ w ∈ p.writes, ∀ c, p.meshCtx w.mesh = some c → ∀ v x, written w.dims w.mesh w.data v h = some x →
    v < c.mesh.verts.length ∧ w.buffer[v]? = some x
  zero : ∀ w ∈ p.writes, ∀ c, p.meshCtx w.mesh = some c → resetSince w.mesh h = false →
    ∀ v < c.mesh.verts.length, written w.dims w.mesh w.data v h = none →
      w.buffer[v]? = some (List.replicate w.dims 0)
  lock : p.phase = .initialized → ∀ m c, p.meshCtx m = some c → p.locks.check m = some (!resetSince m h)
  remesh : ∀ m, resetSince m h = true → p.remeshing = true ∧ ∃ c, p.meshCtx m = some c

/-! ### Lookups -/

theorem find_map_ctx (l : List (MeshCtx d)) (f : MeshCtx d → MeshCtx d) (hf : ∀ c, (f c).name = c.name) (m : String) :
    (l.map f).find? (fun c => c.name = m) = (l.find? (fun c => c.name = m)).map f := by
  induction l with
  | nil => rfl
  | cons c l ih =>
    by_cases h : c.name = m <;> simp [hf, h, ih]

theorem meshCtx_name {p : Participant d} {m : String} {c : MeshCtx d} (h : p.meshCtx m = some c) : c.name = m := by
  simpa using List.find?_some h

theorem meshCtx_setMesh (p : Participant d) (m m' : String) (x : Mesh d) :
    (p.setMesh m x).meshCtx m' = (p.meshCtx m').map (fun c => if c.name = m then { c with mesh := x } else c) := by
  unfold meshCtx setMesh
  exact find_map_ctx _ _ (fun c => by split <;> rfl) _

theorem meshCtx_setMesh_some {p : Participant d} {m m' : String} {x : Mesh d} {c : MeshCtx d}
    (h : (p.setMesh m x).meshCtx m' = some c) :
    ∃ c0, p.meshCtx m' = some c0 ∧ c = if m' = m then { c0 with mesh := x } else c0 := by
  rw [meshCtx_setMesh] at h
  obtain ⟨c0, h0, rfl⟩ := Option.map_eq_some_iff.1 h
  exact ⟨c0, h0, by rw [meshCtx_name h0]⟩

theorem setMesh_names (p : Participant d) (m : String) (x : Mesh d) :
    (p.setMesh m x).meshes.map (·.name) = p.meshes.map (·.name) := by
  simp only [setMesh, List.map_map]
  exact List.map_congr_left fun c _ => by simp only [Function.comp]; split <;> rfl

theorem setup_names (p : Participant d) (e : Env d) : (p.setup e).meshes.map (·.name) = p.meshes.map (·.name) := by
  simp only [setup, List.map_map]; exact List.map_congr_left fun c _ => rfl

/-- Mesh of a context after `setup`. -/
def setupMesh (e : Env d) (c : MeshCtx d) : MeshCtx d :=
  { c with mesh := if c.provided then c.mesh.preprocess e.ptr else e.received c.name }

theorem meshCtx_setup (p : Participant d) (e : Env d) (m : String) :
    (p.setup e).meshCtx m = (p.meshCtx m).map (setupMesh e) := by
  exact find_map_ctx p.meshes (setupMesh e) (fun _ => rfl) m

theorem resize_length (n : ℕ) (b : Bool) (w : WriteCtx) : (resize n b w).buffer.length = n := by
  unfold resize
  cases b <;> simp <;> omega

theorem resize_dims (n : ℕ) (b : Bool) (w : WriteCtx) : (resize n b w).dims = w.dims := rfl
theorem resize_mesh (n : ℕ) (b : Bool) (w : WriteCtx) : (resize n b w).mesh = w.mesh := rfl
theorem resize_data (n : ℕ) (b : Bool) (w : WriteCtx) : (resize n b w).data = w.data := rfl

theorem resize_cols (n : ℕ) (b : Bool) {w : WriteCtx} (h : ∀ x ∈ w.buffer, x.length = w.dims) :
    ∀ x ∈ (resize n b w).buffer, x.length = w.dims := by
  intro x hx
  unfold resize at hx
  cases b with
  | false =>
    simp only [Bool.false_eq_true, if_false, List.mem_append, List.mem_replicate] at hx
    rcases hx with hx | ⟨-, rfl⟩
    · exact h x (List.mem_of_mem_take hx)
    · simp
  | true =>
    simp only [if_true, List.mem_map] at hx
    obtain ⟨_, _, rfl⟩ := hx
    simp

/-- Write context after `setup`. -/
def setupWrite (p : Participant d) (e : Env d) (w : WriteCtx) : WriteCtx :=
  match (p.setup e).meshCtx w.mesh with
  | some c => resize c.mesh.verts.length (!c.provided) w
  | none => w

theorem setup_writes (p : Participant d) (e : Env d) : (p.setup e).writes = p.writes.map (p.setupWrite e) := rfl

theorem setupWrite_key (p : Participant d) (e : Env d) (w : WriteCtx) :
    (p.setupWrite e w).mesh = w.mesh ∧ (p.setupWrite e w).data = w.data ∧ (p.setupWrite e w).dims = w.dims := by
  unfold setupWrite; split <;> exact ⟨rfl, rfl, rfl⟩

/-- Context with all values zero. -/
def zeroed (w : WriteCtx) : WriteCtx := { w with buffer := w.buffer.map (fun c => c.map (fun _ => 0)) }

theorem resetWritten_writes (p : Participant d) : p.resetWritten.writes = p.writes.map zeroed := rfl

theorem zeroed_buffer {w : WriteCtx} (h : ∀ x ∈ w.buffer, x.length = w.dims) :
    (zeroed w).buffer = List.replicate w.buffer.length (List.replicate w.dims 0) := by
  unfold zeroed
  simp only
  rw [List.eq_replicate_iff]
  refine ⟨by simp, ?_⟩
  intro b hb
  obtain ⟨c, hc, rfl⟩ := List.mem_map.1 hb
  rw [List.eq_replicate_iff]
  refine ⟨by rw [List.length_map]; exact h c hc, ?_⟩
  intro x hx
  obtain ⟨_, _, rfl⟩ := List.mem_map.1 hx
  rfl

theorem map_keys (l : List WriteCtx) (f : WriteCtx → WriteCtx) (h : ∀ w, (f w).mesh = w.mesh ∧ (f w).data = w.data) :
    (l.map f).map (fun w => (w.mesh, w.data)) = l.map (fun w => (w.mesh, w.data)) := by
  rw [List.map_map]
  exact List.map_congr_left fun w _ => by simp [h w]

/-! ### The write buffer -/

/-- Last value for a vertex, positions counted from `i`. -/
def lastFrom (dims : ℕ) (vals : List ℚ) (ids : List ℤ) (i : ℕ) (v : ℕ) : Option Col :=
  (((ids.zipIdx i).map (fun e => (e.1, group dims vals e.2))).reverse.find? (fun e => e.1 = (v : ℤ))).map (·.2)

theorem lastFrom_cons (dims : ℕ) (vals : List ℚ) (x : ℤ) (ids : List ℤ) (i v : ℕ) :
    lastFrom dims vals (x :: ids) i v =
      (lastFrom dims vals ids (i + 1) v).or (if x = (v : ℤ) then some (group dims vals i) else none) := by
  unfold lastFrom
  simp only [List.zipIdx_cons, List.map_cons, List.reverse_cons, List.find?_append]
  cases h : List.find? (fun e => decide (e.1 = (v : ℤ)))
      (List.map (fun e => (e.1, group dims vals e.2)) (ids.zipIdx (i + 1))).reverse with
  | some y => simp
  | none =>
    by_cases hx : x = (v : ℤ) <;> simp [hx]

theorem writeBuffer_spec {dims : ℕ} {vals : List ℚ} {ids : List ℤ} {i : ℕ} {b b' : List Col}
    (hnn : ∀ x ∈ ids, 0 ≤ x) (h : writeBuffer dims vals ids i b = some b') :
    b'.length = b.length ∧ ∀ v, b'[v]? = (b[v]?).map (fun old => (lastFrom dims vals ids i v).getD old) := by
  induction ids generalizing i b with
  | nil =>
    simp only [writeBuffer, Option.some.injEq] at h
    subst h
    refine ⟨rfl, fun v => ?_⟩
    cases b[v]? <;> simp [lastFrom]
  | cons x ids ih =>
    unfold writeBuffer at h
    split at h
    · rename_i hlt
      obtain ⟨h1, h2⟩ := ih (fun y hy => hnn y (List.mem_cons_of_mem _ hy)) h
      refine ⟨by simpa using h1, fun v => ?_⟩
      rw [h2 v, lastFrom_cons]
      have hx : 0 ≤ x := hnn x List.mem_cons_self
      by_cases hv : x = (v : ℤ)
      · have hv' : x.toNat = v := by omega
        subst hv'
        rw [List.getElem?_set_self hlt, List.getElem?_eq_getElem hlt, if_pos hv]
        cases lastFrom dims vals ids (i + 1) x.toNat <;> rfl
      · have hv' : x.toNat ≠ v := by omega
        rw [List.getElem?_set_ne hv']
        simp [hv]
    · simp at h

theorem writeBuffer_total {dims : ℕ} {vals : List ℚ} {ids : List ℤ} {i : ℕ} {b : List Col}
    (h : ∀ x ∈ ids, x.toNat < b.length) : ∃ b', writeBuffer dims vals ids i b = some b' := by
  induction ids generalizing i b with
  | nil => exact ⟨b, rfl⟩
  | cons x ids ih =>
    unfold writeBuffer
    rw [if_pos (h x List.mem_cons_self)]
    exact ih (fun y hy => by simpa using h y (List.mem_cons_of_mem _ hy))

theorem writeBuffer_cols {dims : ℕ} {vals : List ℚ} {ids : List ℤ} {i : ℕ} {b b' : List Col}
    (hlen : (i + ids.length) * dims ≤ vals.length)
    (hb : ∀ x ∈ b, x.length = dims) (h : writeBuffer dims vals ids i b = some b') : ∀ x ∈ b', x.length = dims := by
  induction ids generalizing i b with
  | nil => simp only [writeBuffer, Option.some.injEq] at h; subst h; exact hb
  | cons y ids ih =>
    unfold writeBuffer at h
    split at h
    · refine ih (i := i + 1) ?_ ?_ h
      · rw [List.length_cons] at hlen
        rw [show i + 1 + ids.length = i + (ids.length + 1) by omega]; exact hlen
      · intro x hx
        rcases List.mem_or_eq_of_mem_set hx with hx | rfl
        · exact hb x hx
        · unfold group
          rw [List.length_take, List.length_drop]
          have : (i + 1) * dims ≤ (i + (y :: ids).length) * dims := by
            apply Nat.mul_le_mul_right; simp
          have e : (i + 1) * dims = dims * i + dims := by ring
          omega
    · simp at h

/-! ### Invariance -/

theorem createVertices_verts (x : Mesh d) (ps : List (Pt d)) :
    (createVertices x ps).1.verts = x.verts ++ ps.map (fun q => ({ coords := q } : Vertex d)) ∧
      (createVertices x ps).2 = (List.range ps.length).map (fun i => x.verts.length + i) := by
  induction ps generalizing x with
  | nil => simp [createVertices]
  | cons q ps ih =>
    simp only [createVertices]
    obtain ⟨h1, h2⟩ := ih (x.createVertex { coords := q }).1
    constructor
    · rw [h1]; simp [Mesh.createVertex]
    · rw [h2, List.length_cons, List.range_succ_eq_map]
      simp [Mesh.createVertex, Function.comp_def]
      intro a _; omega

theorem preprocess_verts (ptr : ℕ → ℕ) (m : Mesh d) : (m.preprocess ptr).verts = m.verts := by
  unfold Mesh.preprocess Mesh.generateImplicit Mesh.removeDuplicates
  simp only
  split <;> rfl

theorem lockAll_names (l : MultiLock String) : l.lockAll.map (·.1) = l.map (·.1) := by
  simp [MultiLock.lockAll, Function.comp_def]

theorem unlock_names {l l' : MultiLock String} {m : String} (h : l.unlock m = some l') : l'.map (·.1) = l.map (·.1) := by
  unfold MultiLock.unlock at h
  split at h
  · simp at h
  · simp only [Option.some.injEq] at h; subst h; exact MultiLock.assign_keys _ _ _

theorem find_unique {l : List WriteCtx} (hk : (l.map (fun w => (w.mesh, w.data))).Nodup) {w : WriteCtx} (hw : w ∈ l) :
    l.find? (fun x => x.mesh = w.mesh ∧ x.data = w.data) = some w := by
  induction l with
  | nil => simp at hw
  | cons x l ih =>
    simp only [List.map_cons, List.nodup_cons] at hk
    rcases List.mem_cons.1 hw with rfl | hw'
    · simp
    · have : ¬ (x.mesh = w.mesh ∧ x.data = w.data) := by
        rintro ⟨h1, h2⟩
        exact hk.1 (List.mem_map.2 ⟨w, hw', by simp [h1, h2]⟩)
      rw [List.find?_cons_of_neg (by simpa using this)]
      exact ih hk.2 hw'

theorem setup_inv {p : Participant d} (h : p.Inv) (e : Env d) : (p.setup e).Inv := by
  refine ⟨by rw [setup_names]; exact h.names, by rw [setup_names]; exact h.locks, ?_, ?_, ?_⟩
  · rw [setup_writes, map_keys _ _ (fun w => ⟨(setupWrite_key p e w).1, (setupWrite_key p e w).2.1⟩)]; exact h.keys
  · intro w hw c hc
    rw [setup_writes] at hw
    obtain ⟨w0, hw0, rfl⟩ := List.mem_map.1 hw
    rw [(setupWrite_key p e w0).1] at hc
    unfold setupWrite
    rw [hc, resize_length]
  · intro w hw
    rw [setup_writes] at hw
    obtain ⟨w0, hw0, rfl⟩ := List.mem_map.1 hw
    rw [(setupWrite_key p e w0).2.2]
    unfold setupWrite
    split
    · exact resize_cols _ _ (h.cols w0 hw0)
    · exact h.cols w0 hw0

theorem setup_size {p : Participant d} {e : Env d} {w : WriteCtx} (hw : w ∈ (p.setup e).writes) {c : MeshCtx d}
    (hc : (p.setup e).meshCtx w.mesh = some c) : w.buffer.length = c.mesh.verts.length := by
  rw [setup_writes] at hw
  obtain ⟨w0, hw0, rfl⟩ := List.mem_map.1 hw
  rw [(setupWrite_key p e w0).1] at hc
  unfold setupWrite
  rw [hc, resize_length]

/-- Lock, store, reset and adopt. -/
theorem flush_inv {p : Participant d} (h : p.Inv) (e : Env d) (s : List Stored) (l : MultiLock String) (ph : Phase)
    (hl : l.map (·.1) = p.locks.map (·.1)) :
    ({ (({ p with stored := s } : Participant d).resetWritten.adopt e) with locks := l, phase := ph } : Participant d).Inv := by
  refine ⟨h.names, hl.trans h.locks, ?_, ?_, ?_⟩
  · change ((p.writes.map zeroed).map (fun w => (w.mesh, w.data))).Nodup
    rw [map_keys p.writes zeroed (fun _ => ⟨rfl, rfl⟩)]; exact h.keys
  · intro w hw c hc
    change w ∈ p.writes.map zeroed at hw
    obtain ⟨w0, hw0, rfl⟩ := List.mem_map.1 hw
    have := h.size w0 hw0 c hc
    simpa [zeroed] using this
  · intro w hw x hx
    change w ∈ p.writes.map zeroed at hw
    obtain ⟨w0, hw0, rfl⟩ := List.mem_map.1 hw
    simp only [zeroed, List.mem_map] at hx
    obtain ⟨y, hy, rfl⟩ := hx
    rw [List.length_map]; exact h.cols w0 hw0 y hy

theorem change_inv {p p' : Participant d} {c : Call d} {o : Outcome} (h : p.Inv) (hc : Change p c o p') : p'.Inv := by
  cases hc with
  | err => exact h
  | ub => exact h
  | query => exact h
  | advErr => exact ⟨h.names, h.locks, h.keys, h.size, h.cols⟩
  | initReq => exact ⟨h.names, h.locks, h.keys, h.size, h.cols⟩
  | fin => exact ⟨h.names, h.locks, h.keys, h.size, h.cols⟩
  | writeNone => exact h
  | cells _ _ m k x h1 h2 hm hx ho =>
    refine ⟨by rw [setMesh_names]; exact h.names, by rw [setMesh_names]; exact h.locks, h.keys, ?_, h.cols⟩
    intro w hw c hc
    obtain ⟨c0, hc0, rfl⟩ := meshCtx_setMesh_some hc
    split
    · rename_i hmm
      rw [hmm, hm.ctx] at hc0
      cases hc0
      change x.verts.length ≤ _
      rw [hx]; exact h.size w hw k (hmm ▸ hm.ctx)
    · exact h.size w hw c0 hc0
  | init e hp hg => exact flush_inv (setup_inv h e) e _ _ _ (lockAll_names _)
  | adv dt e hp h1 h2 h3 h4 h5 h6 =>
    unfold advDone
    simp only
    have : ∀ q : Participant d, q.Inv → ({ ((if e.atEnd = true ∨ e.substeps = true then q.store (p.view.time + dt)
        else q).resetWritten.adopt e) with
        locks := ((if e.atEnd = true ∨ e.substeps = true then q.store (p.view.time + dt)
        else q).resetWritten.adopt e).locks.lockAll } : Participant d).Inv := by
      intro q hq
      split
      · exact flush_inv hq e _ _ _ (lockAll_names _)
      · exact flush_inv hq e q.stored _ _ (lockAll_names _)
    refine this _ ?_
    split
    · exact setup_inv h e
    · exact h
  | reset m k l hp hr hk ho hcmp hl =>
    refine ⟨by rw [setMesh_names]; exact h.names, by rw [setMesh_names]; exact (unlock_names hl).trans h.locks,
      h.keys, ?_, h.cols⟩
    intro w hw c hc
    obtain ⟨c0, hc0, rfl⟩ := meshCtx_setMesh_some hc
    split
    · exact Nat.zero_le _
    · exact h.size w hw c0 hc0
  | vertices c m k h1 h2 hm =>
    refine ⟨by exact (setMesh_names p m _).symm ▸ h.names, ?_, ?_, ?_, ?_⟩
    · exact h.locks.trans (setMesh_names p m _).symm
    · refine (map_keys p.writes _ ?_).symm ▸ h.keys
      intro w; split <;> exact ⟨rfl, rfl⟩
    · intro w hw c' hc'
      obtain ⟨c0, hc0, rfl⟩ := meshCtx_setMesh_some (p := p) hc'
      obtain ⟨w0, hw0, rfl⟩ := List.mem_map.1 hw
      by_cases hmm : w0.mesh = m
      · simp only [hmm, if_true, resize_mesh, resize_length]; exact le_refl _
      · simp only [hmm, if_false] at hc0 ⊢
        exact h.size w0 hw0 c0 hc0
    · intro w hw
      obtain ⟨w0, hw0, rfl⟩ := List.mem_map.1 hw
      split
      · exact resize_cols _ _ (h.cols w0 hw0)
      · exact h.cols w0 hw0
  | write m data ids vals k w b hp hk hw hlen hval hb =>
    have hwm : w.mesh = m ∧ w.data = data := by simpa using List.find?_some hw
    have hwmem := List.mem_of_find?_eq_some hw
    have hnn : ∀ x ∈ ids, 0 ≤ x := fun x hx => by
      have := hval x hx; unfold Mesh.isValidVertexID at this; simp at this; exact this.1
    refine ⟨h.names, h.locks, ?_, ?_, ?_⟩
    · refine (map_keys p.writes _ ?_).symm ▸ h.keys
      intro w; split <;> exact ⟨rfl, rfl⟩
    · intro w' hw' c' hc'
      obtain ⟨w0, hw0, rfl⟩ := List.mem_map.1 hw'
      by_cases hmm : w0.mesh = m ∧ w0.data = data
      · have e : w0 = w := by
          have := find_unique h.keys hw0
          rw [hmm.1, hmm.2, hw] at this
          exact (Option.some.inj this).symm
        subst e
        simp only [hmm, and_self, if_true]
        rw [(writeBuffer_spec hnn hb).1]
        simp only [hmm, and_self, if_true] at hc'
        exact h.size w0 hw0 c' (hmm.1.symm ▸ hc')
      · simp only [hmm, if_false] at hc' ⊢
        exact h.size w0 hw0 c' hc'
    · intro w' hw'
      obtain ⟨w0, hw0, rfl⟩ := List.mem_map.1 hw'
      by_cases hmm : w0.mesh = m ∧ w0.data = data
      · have e : w0 = w := by
          have := find_unique h.keys hw0
          rw [hmm.1, hmm.2, hw] at this
          exact (Option.some.inj this).symm
        subst e
        simp only [hmm, and_self, if_true]
        exact writeBuffer_cols (i := 0) (by rw [Nat.zero_add]; exact hlen.le) (h.cols w0 hw0) hb
      · simp only [hmm, if_false]
        exact h.cols w0 hw0

theorem Configured.inv {p : Participant d} (h : p.Configured) : p.Inv := by
  refine ⟨h.names, ?_, h.keys, ?_, ?_⟩
  · rw [h.locks]; simp [Function.comp_def]
  · intro w hw c hc
    have : c ∈ p.meshes := List.mem_of_find?_eq_some hc
    rw [h.meshes c this]; simp [Mesh.empty]
  · intro w hw x hx
    rw [h.writes w hw] at hx; simp at hx

/-! ### History -/

theorem lockAll_check {l : MultiLock String} {m : String} (h : m ∈ l.map (·.1)) : l.lockAll.check m = some true := by
  unfold MultiLock.check MultiLock.lockAll
  rw [MultiLock.find_mapConst]
  cases hf : l.find m with
  | none => exact absurd h ((MultiLock.find_eq_none l m).1 hf)
  | some b => rfl

theorem checkAll_false {l : MultiLock String} {m : String} (h : l.check m = some false) : l.checkAll = false := by
  unfold MultiLock.check at h
  induction l with
  | nil => simp at h
  | cons e l ih =>
    rw [MultiLock.find_cons] at h
    unfold MultiLock.checkAll
    split at h
    · simp only [Option.some.injEq] at h; simp [h]
    · have := ih h
      unfold MultiLock.checkAll at this
      simp [this]

/-- Transfer to a state with the same buffers, numbers of vertices and locks. -/
theorem HistInv.transfer {h h' : Hist d} {p p' : Participant d} (H : HistInv h p) (hw : p'.writes = p.writes)
    (hm : ∀ m c', p'.meshCtx m = some c' → ∃ c, p.meshCtx m = some c ∧ c'.mesh.verts.length = c.mesh.verts.length)
    (hm' : ∀ m c, p.meshCtx m = some c → ∃ c', p'.meshCtx m = some c')
    (hp : p'.phase = .initialized → p.phase = .initialized) (hl : p'.locks = p.locks)
    (hr : p'.remeshing = p.remeshing) (h1 : ∀ dims m data v, written dims m data v h' = written dims m data v h)
    (h2 : ∀ m, resetSince m h' = resetSince m h) : HistInv h' p' := by
  refine ⟨?_, ?_, ?_, ?_, ?_⟩
  · intro w hw' c hc hr'
    obtain ⟨c0, hc0, e⟩ := hm _ _ hc
    rw [e]; rw [h2] at hr'; exact H.size w (hw ▸ hw') c0 hc0 hr'
  · intro w hw' c hc v x hx
    obtain ⟨c0, hc0, e⟩ := hm _ _ hc
    rw [e]; rw [h1] at hx; exact H.val w (hw ▸ hw') c0 hc0 v x hx
  · intro w hw' c hc hr' v hv hx
    obtain ⟨c0, hc0, e⟩ := hm _ _ hc
    rw [e] at hv; rw [h1] at hx; rw [h2] at hr'; exact H.zero w (hw ▸ hw') c0 hc0 hr' v hv hx
  · intro hp' m c hc
    obtain ⟨c0, hc0, _⟩ := hm _ _ hc
    rw [hl, h2]; exact H.lock (hp hp') m c0 hc0
  · intro m hm2
    rw [h2] at hm2
    obtain ⟨a, c, hc⟩ := H.remesh m hm2
    exact ⟨hr ▸ a, hm' m c hc⟩

theorem HistInv.same {h h' : Hist d} {p p' : Participant d} (H : HistInv h p) (hw : p'.writes = p.writes)
    (hm : p'.meshes = p.meshes)
    (hp : p'.phase = .initialized → p.phase = .initialized) (hl : p'.locks = p.locks)
    (hr : p'.remeshing = p.remeshing) (h1 : ∀ dims m data v, written dims m data v h' = written dims m data v h)
    (h2 : ∀ m, resetSince m h' = resetSince m h) : HistInv h' p' := by
  refine H.transfer hw ?_ ?_ hp hl hr h1 h2
  · intro m c hc; unfold meshCtx at hc; rw [hm] at hc; exact ⟨c, hc, rfl⟩
  · intro m c hc; unfold meshCtx; rw [hm]; exact ⟨c, hc⟩

/-- A state with cleared buffers after a successful `initialize` or `advance`. -/
theorem HistInv.flush {h' : Hist d} {p' q : Participant d} (hq : q.Inv) (hw : p'.writes = q.writes.map zeroed)
    (hm : p'.meshes = q.meshes) (hl : p'.locks = q.locks.lockAll)
    (hs : ∀ w ∈ q.writes, ∀ c, q.meshCtx w.mesh = some c → w.buffer.length = c.mesh.verts.length)
    (h1 : ∀ dims m data v, written dims m data v h' = none) (h2 : ∀ m, resetSince m h' = false) : HistInv h' p' := by
  have hmc : ∀ m, p'.meshCtx m = q.meshCtx m := fun m => by unfold meshCtx; rw [hm]
  refine ⟨?_, ?_, ?_, ?_, ?_⟩
  · intro w hw' c hc _
    rw [hw] at hw'
    obtain ⟨w0, hw0, rfl⟩ := List.mem_map.1 hw'
    rw [hmc] at hc
    have := hs w0 hw0 c hc
    simpa [zeroed] using this
  · intro w hw' c hc v x hx
    rw [h1] at hx; simp at hx
  · intro w hw' c hc _ v hv _
    rw [hw] at hw'
    obtain ⟨w0, hw0, rfl⟩ := List.mem_map.1 hw'
    rw [hmc] at hc
    have e := hs w0 hw0 c hc
    rw [zeroed_buffer (hq.cols w0 hw0), e, List.getElem?_replicate, if_pos hv]
    rfl
  · intro _ m c hc
    rw [hmc] at hc
    rw [h2, hl]
    have hmem : m ∈ q.locks.map (·.1) := by
      rw [hq.locks, ← meshCtx_name hc]
      exact List.mem_map.2 ⟨c, List.mem_of_find?_eq_some hc, rfl⟩
    exact lockAll_check hmem
  · intro m hm2; rw [h2] at hm2; simp at hm2

theorem adv_sizes {h : Hist d} {p : Participant d} (hI : p.Inv) (H : HistInv h p) {e : Env d}
    (hp : p.phase = .initialized) (h4 : ¬ (p.remeshing = true ∧ e.atEnd = false ∧ p.locks.checkAll = false)) :
    (if p.reinits e then p.setup e else p).Inv ∧
    ∀ w ∈ (if p.reinits e then p.setup e else p).writes, ∀ c,
      (if p.reinits e then p.setup e else p).meshCtx w.mesh = some c → w.buffer.length = c.mesh.verts.length := by
  by_cases hr : p.reinits e = true
  · rw [if_pos hr]
    exact ⟨setup_inv hI e, fun w hw c hc => setup_size hw hc⟩
  · rw [if_neg hr]
    refine ⟨hI, fun w hw c hc => H.size w hw c hc ?_⟩
    by_contra hrs
    rw [Bool.not_eq_false] at hrs
    have h1 := H.lock hp _ c hc
    rw [hrs] at h1
    have h2 := checkAll_false h1
    have h3 := (H.remesh _ hrs).1
    apply hr
    unfold reinits
    rw [h2, h3]
    cases ha : e.atEnd with
    | true => rfl
    | false => exact absurd ⟨h3, ha, h2⟩ h4

theorem change_hist {h : Hist d} {p p' : Participant d} {c : Call d} {o : Outcome} (hI : p.Inv) (H : HistInv h p)
    (hc : Change p c o p') : HistInv ((c, o) :: h) p' := by
  cases hc with
  | err =>
    exact H.same rfl rfl id rfl rfl (fun _ _ _ _ => written_skip _ _ _ _ h (.inr (by simp)))
      (fun _ => resetSince_skip _ h (.inr (by simp)))
  | ub =>
    exact H.same rfl rfl id rfl rfl (fun _ _ _ _ => written_skip _ _ _ _ h (.inr (by simp)))
      (fun _ => resetSince_skip _ h (.inr (by simp)))
  | query _ r he =>
    exact H.same rfl rfl id rfl rfl (fun _ _ _ _ => written_skip _ _ _ _ h (.inl he))
      (fun _ => resetSince_skip _ h (.inl he))
  | advErr =>
    exact H.same rfl rfl id rfl rfl (fun _ _ _ _ => rfl) (fun _ => rfl)
  | initReq =>
    exact H.same rfl rfl id rfl rfl (fun _ _ _ _ => rfl) (fun _ => rfl)
  | fin =>
    exact H.same rfl rfl (fun h => by simp at h) rfl rfl (fun _ _ _ _ => rfl) (fun _ => rfl)
  | writeNone m data =>
    refine H.same rfl rfl id rfl rfl (fun dims m' data' v => ?_) (fun _ => rfl)
    change (if m = m' ∧ data = data' then (lastFor dims [] [] v).or (written dims m' data' v h)
      else written dims m' data' v h) = _
    split <;> rfl
  | cells _ _ m k x h1 h2 hm hx ho =>
    refine H.transfer rfl ?_ ?_ id rfl rfl (fun _ _ _ _ => written_defines _ _ _ _ h h1)
      (fun _ => resetSince_defines _ h h1)
    · intro m' c' hc'
      obtain ⟨c0, hc0, rfl⟩ := meshCtx_setMesh_some hc'
      refine ⟨c0, hc0, ?_⟩
      split
      · rename_i hmm
        rw [hmm, hm.ctx] at hc0
        cases hc0
        change x.verts.length = _
        rw [hx]
      · rfl
    · intro m' c' hc'
      rw [meshCtx_setMesh, hc']
      exact ⟨_, rfl⟩
  | init e hp hg =>
    exact HistInv.flush (setup_inv hI e) rfl rfl rfl (fun w hw c hc => setup_size hw hc)
      (fun _ _ _ _ => rfl) (fun _ => rfl)
  | adv dt e hp h1 h2 h3 h4 h5 h6 =>
    obtain ⟨a, b⟩ := adv_sizes hI H hp h5
    refine HistInv.flush (q := if p.reinits e then p.setup e else p) a ?_ ?_ ?_ b (fun _ _ _ _ => rfl) (fun _ => rfl)
    all_goals
      unfold advDone
      simp only
      split <;> rfl
  | reset m k l hp hr hk ho hcmp hl =>
    have hloc : ∀ m', l.check m' = if m' = m then some false else p.locks.check m' := by
      intro m'
      unfold MultiLock.unlock at hl
      cases hf : p.locks.find m with
      | none => rw [hf] at hl; simp at hl
      | some b =>
        rw [hf] at hl
        simp only [Option.some.injEq] at hl
        subst hl
        unfold MultiLock.check
        rw [MultiLock.find_assign, hf]; rfl
    have hrs : ∀ m', resetSince m' ((.resetMesh m, .ok .unit) :: h) = (decide (m = m') || resetSince m' h) :=
      fun m' => rfl
    refine ⟨?_, ?_, ?_, ?_, ?_⟩
    · intro w hw c hc hrs'
      obtain ⟨c0, hc0, rfl⟩ := meshCtx_setMesh_some (p := p) hc
      rw [hrs, Bool.or_eq_false_iff] at hrs'
      have hne : ¬ w.mesh = m := fun e => by simp [e] at hrs'
      rw [if_neg hne]
      exact H.size w hw c0 hc0 hrs'.2
    · intro w hw c hc v x hx
      obtain ⟨c0, hc0, rfl⟩ := meshCtx_setMesh_some (p := p) hc
      unfold written at hx
      split at hx
      · simp at hx
      · rename_i hne
        rw [if_neg (fun e => hne e.symm)]
        exact H.val w hw c0 hc0 v x hx
    · intro w hw c hc hrs' v hv hx
      obtain ⟨c0, hc0, rfl⟩ := meshCtx_setMesh_some (p := p) hc
      rw [hrs, Bool.or_eq_false_iff] at hrs'
      have hne : ¬ w.mesh = m := fun e => by simp [e] at hrs'
      rw [if_neg hne] at hv
      unfold written at hx
      rw [if_neg (fun e => hne e.symm)] at hx
      exact H.zero w hw c0 hc0 hrs'.2 v hv hx
    · intro _ m' c hc
      obtain ⟨c0, hc0, rfl⟩ := meshCtx_setMesh_some (p := p) hc
      change l.check m' = _
      rw [hloc, hrs]
      by_cases e : m' = m
      · simp [e]
      · rw [if_neg e, H.lock hp m' c0 hc0]
        have : ¬ m = m' := fun x => e x.symm
        simp [this]
    · intro m' hm'
      refine ⟨hr, ?_⟩
      change ∃ c, (p.setMesh m _).meshCtx m' = some c
      rw [meshCtx_setMesh]
      rw [hrs, Bool.or_eq_true] at hm'
      rcases hm' with e | e
      · have : m = m' := by simpa using e
        subst this
        rw [hk]; exact ⟨_, rfl⟩
      · obtain ⟨-, c, hc⟩ := H.remesh m' e
        rw [hc]; exact ⟨_, rfl⟩
  | vertices c m k h1 h2 hm =>
    have hlen : k.mesh.verts.length ≤ (createVertices k.mesh c.points).1.verts.length := by
      rw [(createVertices_verts _ _).1]; simp
    generalize createVertices k.mesh c.points = x at hlen
    have hwr : ∀ dims m' data v, written dims m' data v ((c, Outcome.ok (Resp.ids x.2)) :: h) = written dims m' data v h :=
      fun _ _ _ _ => written_defines _ _ _ _ h h1
    have hre : ∀ m', resetSince m' ((c, Outcome.ok (Resp.ids x.2)) :: h) = resetSince m' h :=
      fun _ => resetSince_defines _ h h1
    refine ⟨?_, ?_, ?_, ?_, ?_⟩
    · intro w hw c' hc' hrs
      obtain ⟨c0, hc0, rfl⟩ := meshCtx_setMesh_some (p := p) hc'
      obtain ⟨w0, hw0, rfl⟩ := List.mem_map.1 hw
      rw [hre] at hrs
      by_cases hmm : w0.mesh = m
      · simp only [hmm, if_true, resize_mesh, resize_length]
      · simp only [hmm, if_false] at hc0 hrs ⊢
        exact H.size w0 hw0 c0 hc0 hrs
    · intro w hw c' hc' v y hy
      obtain ⟨c0, hc0, rfl⟩ := meshCtx_setMesh_some (p := p) hc'
      obtain ⟨w0, hw0, rfl⟩ := List.mem_map.1 hw
      rw [hwr] at hy
      by_cases hmm : w0.mesh = m
      · simp only [hmm, if_true, resize_mesh, resize_dims, resize_data] at hc0 hy ⊢
        have hc0' : p.meshCtx w0.mesh = some c0 := by rw [hmm]; exact hc0
        have ek : c0 = k := by rw [hm.ctx] at hc0; exact (Option.some.inj hc0).symm
        subst ek
        obtain ⟨a, b⟩ := H.val w0 hw0 c0 hc0' v y (by rw [hmm]; exact hy)
        refine ⟨by omega, ?_⟩
        unfold resize
        simp only [Bool.false_eq_true, if_false]
        have hvb : v < w0.buffer.length := (List.getElem?_eq_some_iff.1 b).1
        rw [List.getElem?_append_left (by rw [List.length_take]; omega), List.getElem?_take, if_pos (by omega), b]
      · simp only [hmm, if_false] at hc0 hy ⊢
        exact H.val w0 hw0 c0 hc0 v y hy
    · intro w hw c' hc' hrs v hv hy
      obtain ⟨c0, hc0, rfl⟩ := meshCtx_setMesh_some (p := p) hc'
      obtain ⟨w0, hw0, rfl⟩ := List.mem_map.1 hw
      rw [hwr] at hy
      rw [hre] at hrs
      by_cases hmm : w0.mesh = m
      · simp only [hmm, if_true, resize_mesh, resize_dims, resize_data] at hc0 hy hrs hv ⊢
        have hc0' : p.meshCtx w0.mesh = some c0 := by rw [hmm]; exact hc0
        have ek : c0 = k := by rw [hm.ctx] at hc0; exact (Option.some.inj hc0).symm
        subst ek
        have hs := H.size w0 hw0 c0 hc0' (by rw [hmm]; exact hrs)
        unfold resize
        simp only [Bool.false_eq_true, if_false]
        by_cases hvb : v < w0.buffer.length
        · rw [List.getElem?_append_left (by rw [List.length_take]; omega), List.getElem?_take, if_pos (by omega)]
          exact H.zero w0 hw0 c0 hc0' (by rw [hmm]; exact hrs) v (by omega) (by rw [hmm]; exact hy)
        · rw [List.getElem?_append_right (by rw [List.length_take]; omega), List.getElem?_replicate,
            if_pos (by rw [List.length_take]; omega)]
      · simp only [hmm, if_false] at hc0 hy hrs hv ⊢
        exact H.zero w0 hw0 c0 hc0 hrs v hv hy
    · intro hp m' c' hc'
      obtain ⟨c0, hc0, rfl⟩ := meshCtx_setMesh_some (p := p) hc'
      rw [hre]; exact H.lock hp m' c0 hc0
    · intro m' hm'
      rw [hre] at hm'
      obtain ⟨a, c', hc'⟩ := H.remesh m' hm'
      refine ⟨a, ?_⟩
      change ∃ c, (p.setMesh m _).meshCtx m' = some c
      rw [meshCtx_setMesh, hc']
      exact ⟨_, rfl⟩
  | write m data ids vals k w b hp hk hw hlen hval hb =>
    have hwm : w.mesh = m ∧ w.data = data := by simpa using List.find?_some hw
    have hv2 : ∀ x ∈ ids, 0 ≤ x ∧ x.toNat < k.mesh.verts.length := fun x hx => by
      have := hval x hx; unfold Mesh.isValidVertexID at this; simp at this; omega
    have hnn : ∀ x ∈ ids, 0 ≤ x := fun x hx => (hv2 x hx).1
    obtain ⟨hb1, hb2⟩ := writeBuffer_spec hnn hb
    have hlast : ∀ v x, lastFor w.dims ids vals v = some x → v < k.mesh.verts.length := by
      intro v x hx
      unfold lastFor at hx
      obtain ⟨e, he, -⟩ := Option.map_eq_some_iff.1 hx
      have h1 : e.1 = (v : ℤ) := by simpa using List.find?_some he
      have h2 := List.mem_of_find?_eq_some he
      rw [List.mem_reverse] at h2
      obtain ⟨q, hq, rfl⟩ := List.mem_map.1 h2
      have h3 : q.1 ∈ ids := (List.mem_zipIdx' hq).2 ▸ List.getElem_mem _
      have := hv2 _ h3
      simp only at h1
      omega
    have hsame : ∀ w0 ∈ p.writes, w0.mesh = m ∧ w0.data = data → w0 = w := by
      intro w0 hw0 hmm
      have := find_unique hI.keys hw0
      rw [hmm.1, hmm.2, hw] at this
      exact (Option.some.inj this).symm
    have hwr : ∀ dims m' data' v, written dims m' data' v ((Call.writeData m data ids vals, Outcome.ok Resp.unit) :: h) =
        if m = m' ∧ data = data' then (lastFor dims ids vals v).or (written dims m' data' v h)
        else written dims m' data' v h := fun _ _ _ _ => rfl
    have hre : ∀ m', resetSince m' ((Call.writeData m data ids vals, Outcome.ok Resp.unit) :: h) = resetSince m' h :=
      fun _ => rfl
    refine ⟨?_, ?_, ?_, H.lock, H.remesh⟩
    · intro w' hw' c hc hrs
      obtain ⟨w0, hw0, rfl⟩ := List.mem_map.1 hw'
      rw [hre] at hrs
      by_cases hmm : w0.mesh = m ∧ w0.data = data
      · obtain rfl := hsame w0 hw0 hmm
        rw [if_pos hmm] at hc hrs ⊢
        rw [show ({ w0 with buffer := b } : WriteCtx).buffer = b from rfl, hb1]
        exact H.size w0 hw0 c hc hrs
      · rw [if_neg hmm] at hc hrs ⊢
        exact H.size w0 hw0 c hc hrs
    · intro w' hw' c hc v x hx
      obtain ⟨w0, hw0, rfl⟩ := List.mem_map.1 hw'
      by_cases hmm : w0.mesh = m ∧ w0.data = data
      · obtain rfl := hsame w0 hw0 hmm
        rw [if_pos hmm] at hc hx ⊢
        rw [hwr] at hx
        have hc' : c = k := by
          have : p.meshCtx w0.mesh = some c := hc
          rw [hmm.1, hk] at this
          exact (Option.some.inj this).symm
        subst hc'
        simp only [hmm, and_self, if_true] at hx
        cases hl : lastFor w0.dims ids vals v with
        | some y =>
          rw [hl] at hx
          simp only [Option.some_or, Option.some.injEq] at hx
          subst hx
          refine ⟨hlast v y hl, ?_⟩
          change b[v]? = some y
          have hvb : v < w0.buffer.length := lt_of_lt_of_le (hlast v y hl) (hI.size w0 hw0 c hc)
          rw [hb2, List.getElem?_eq_getElem hvb, Option.map_some,
            show lastFrom w0.dims vals ids 0 v = some y from hl]
          rfl
        | none =>
          rw [hl] at hx
          simp only [Option.none_or] at hx
          obtain ⟨a1, a2⟩ := H.val w0 hw0 c hc v x (by rw [hmm.1, hmm.2]; exact hx)
          refine ⟨a1, ?_⟩
          change b[v]? = some x
          rw [hb2, a2, Option.map_some, show lastFrom w0.dims vals ids 0 v = none from hl]
          rfl
      · rw [if_neg hmm] at hc hx ⊢
        rw [hwr, if_neg (fun e => hmm ⟨e.1.symm, e.2.symm⟩)] at hx
        exact H.val w0 hw0 c hc v x hx
    · intro w' hw' c hc hrs v hv hx
      obtain ⟨w0, hw0, rfl⟩ := List.mem_map.1 hw'
      rw [hre] at hrs
      by_cases hmm : w0.mesh = m ∧ w0.data = data
      · obtain rfl := hsame w0 hw0 hmm
        rw [if_pos hmm] at hc hx hrs ⊢
        rw [hwr] at hx
        simp only [hmm, and_self, if_true] at hx
        cases hl : lastFor w0.dims ids vals v with
        | some y => rw [hl] at hx; simp at hx
        | none =>
          rw [hl] at hx
          simp only [Option.none_or] at hx
          have := H.zero w0 hw0 c hc hrs v hv (by rw [hmm.1, hmm.2]; exact hx)
          change b[v]? = _
          rw [hb2, this, Option.map_some, show lastFrom w0.dims vals ids 0 v = none from hl]
          rfl
      · rw [if_neg hmm] at hc hx hrs ⊢
        rw [hwr, if_neg (fun e => hmm ⟨e.1.symm, e.2.symm⟩)] at hx
        exact H.zero w0 hw0 c hc hrs v hv hx

theorem Configured.hist {p : Participant d} (h : p.Configured) : HistInv [] p := by
  have hv : ∀ m c, p.meshCtx m = some c → c.mesh.verts = [] := fun m c hc => by
    rw [h.meshes c (List.mem_of_find?_eq_some hc)]; rfl
  refine ⟨?_, ?_, ?_, ?_, ?_⟩
  · intro w hw c hc _
    rw [h.writes w hw, hv _ _ hc]; rfl
  · intro w hw c hc v x hx; simp [written] at hx
  · intro w hw c hc _ v hv' _
    rw [hv _ _ hc] at hv'; simp at hv'
  · intro hp; rw [h.phase] at hp; simp at hp
  · intro m hm; simp [resetSince] at hm

/-- Invariants of histories. -/
theorem run_induct {P : Hist d → Participant d → Prop}
    (hstep : ∀ h p c, P h p → P ((c, (p.exec c).1) :: h) (p.exec c).2) (p : Participant d) (cs : List (Call d))
    (h : Hist d) (H : P h p) : P ((p.run cs).1.reverse ++ h) (p.run cs).2 := by
  induction cs generalizing p h with
  | nil => exact H
  | cons c cs ih =>
    unfold run
    simp only
    split
    · exact hstep h p c H
    · have := ih (p.exec c).2 ((c, (p.exec c).1) :: h) (hstep h p c H)
      simpa using this

/-- The history of a run from the configured state, latest call first. -/
def hist (p : Participant d) (cs : List (Call d)) : Hist d := (p.run cs).1.reverse

/-- The state after a run. -/
def after (p : Participant d) (cs : List (Call d)) : Participant d := (p.run cs).2

theorem run_invs {p : Participant d} (h : p.Configured) (cs : List (Call d)) :
    (p.after cs).Inv ∧ HistInv (p.hist cs) (p.after cs) := by
  have := run_induct (P := fun h p => p.Inv ∧ HistInv h p)
    (fun h p c H => ⟨change_inv H.1 (exec_change p c), change_hist H.1 H.2 (exec_change p c)⟩) p cs [] ⟨h.inv, h.hist⟩
  simpa [hist, after] using this

end Participant
end Verif.Api
