import Verif.Api.Inv

/-! # Properties of the participant API (C31-C37) -/

set_option autoImplicit false

namespace Verif.Api.Participant

open Hist

variable {d : ℕ}

/-- The vertex IDs passed to a connectivity call. -/
def cellIds : Call d → List ℤ
  | .setMeshEdge _ a b => [a, b]
  | .setMeshEdges _ ids => ids
  | .setMeshTriangle _ a b c => [a, b, c]
  | .setMeshTriangles _ ids => ids
  | .setMeshQuad _ a b c e => [a, b, c, e]
  | .setMeshQuads _ ids => ids
  | .setMeshTetrahedron _ a b c e => [a, b, c, e]
  | .setMeshTetrahedra _ ids => ids
  | _ => []

/-- Calls that need the participant configuration but do not check that it still exists. -/
def unguarded : Call d → Bool
  | .getMeshDimensions _ => true
  | .requiresMeshConnectivityFor _ => true
  | .getMeshVertexSize _ => true
  | .setMeshVertex _ _ => true
  | .setMeshVertices _ _ _ => true
  | c => !(cellIds c).isEmpty || c.defines.isSome

/-! ## C31 -/

/-- Reading outside of `[0, getMaxTimeStepSize()]` is an error without any effect. -/
theorem C31_rejects (p : Participant d) (m data : String) (ids : List ℤ) (coords : List ℚ) (t : ℚ) (n : ℕ)
    (ht : t < 0 ∨ t > p.view.maxStep + tol) :
    p.exec (.readData m data ids t n) = (.error, p) ∧ p.exec (.mapAndReadData m data coords t n) = (.error, p) := by
  have key : ∀ k, p.readable t k = (.error, p) := by
    intro k
    unfold readable require
    split
    · split
      · split
        · rename_i h
          split
          · rename_i h'
            unfold smallerEquals at h
            rcases ht with ht | ht <;> linarith
          · rfl
        · rfl
      · rfl
    · rfl
  refine ⟨key _, ?_⟩
  simp only [exec, mapAndReadData, key]
  unfold require; split <;> rfl

/-- Reading inside of the interval works whenever there is data, the vertices exist and the mesh is not
being redefined; the result is the waveform evaluated at the current time plus the relative time. -/
theorem C31_accepts (p : Participant d) (m data : String) (ids : List ℤ) (t : ℚ) (c : MeshCtx d) (r : ReadCtx)
    (s : ℚ → List Col) (hp : p.phase = .initialized) (h0 : 0 ≤ t) (h1 : t ≤ p.view.maxStep)
    (ho : p.view.ongoing = true ∨ t = 0) (hc : p.meshCtx m = some c) (ha : c.provided = true ∨ c.direct = true)
    (hr : p.reads.find? (fun r => r.mesh = m ∧ r.data = data) = some r) (hl : p.locks.check m = some true)
    (hs : r.sample = some s) (hi : ∀ i ∈ ids, 0 ≤ i ∧ i < c.mesh.verts.length) :
    p.exec (.readData m data ids t (ids.length * r.dims)) =
      (.ok (.vals (ids.flatMap (fun i => (s (p.view.time + t)).getD i.toNat []))), p) := by
  have hval : ids.all (fun i => c.mesh.isValidVertexID i) = true := by
    rw [List.all_eq_true]
    intro i hi'
    unfold Mesh.isValidVertexID
    simpa using hi i hi'
  have hse : smallerEquals t p.view.maxStep := by unfold smallerEquals; have := tol_pos; linarith
  have hon : p.view.ongoing = true ∨ equals t 0 := ho.imp_right (fun e : t = 0 => e ▸ equals_refl 0)
  simp only [exec, readData, readable, dataAccess, require, hc, hr, hs]
  rw [if_pos (by simp [hp]), if_pos (by simp [hp]), if_pos hse, if_pos h0, if_pos hon, if_pos ha, if_pos hl]
  split
  · rename_i he
    rw [he.1]; rfl
  · simp

/-- A successful read was inside of the interval, up to the tolerance. -/
theorem C31_successful (p : Participant d) (m data : String) (ids : List ℤ) (coords : List ℚ) (t : ℚ) (n : ℕ) (r : Resp)
    (h : (p.exec (.readData m data ids t n)).1 = .ok r ∨ (p.exec (.mapAndReadData m data coords t n)).1 = .ok r) :
    0 ≤ t ∧ t ≤ p.view.maxStep + tol := by
  by_contra hn
  have ht : t < 0 ∨ t > p.view.maxStep + tol := by
    rcases lt_or_ge t 0 with h1 | h1
    · exact .inl h1
    · exact .inr (not_le.1 fun h2 => hn ⟨h1, h2⟩)
  obtain ⟨h1, h2⟩ := C31_rejects p m data ids coords t n ht
  rw [h1, h2] at h
  simp at h

/-! ## C32 -/

/-- The columns of a buffer, checked against the history. -/
def Matches (h : Hist d) (w : WriteCtx) (n : ℕ) (vals : List Col) : Prop :=
  vals.length = n ∧ ∀ v < n,
    (∀ x, written w.dims w.mesh w.data v h = some x → vals[v]? = some x) ∧
    (resetSince w.mesh h = false → written w.dims w.mesh w.data v h = none →
      vals[v]? = some (List.replicate w.dims 0))

theorem setup_matches {h : Hist d} {p : Participant d} (hI : p.Inv) (H : HistInv h p) (e : Env d) {w : WriteCtx}
    (hw : w ∈ p.writes) {c : MeshCtx d} (hc : p.meshCtx w.mesh = some c) (hp : c.provided = true) :
    Matches h w c.mesh.verts.length (p.setupWrite e w).buffer := by
  have hs : p.setupWrite e w = resize c.mesh.verts.length false w := by
    unfold setupWrite
    rw [meshCtx_setup, hc]
    simp only [Option.map_some, setupMesh, hp, if_true, preprocess_verts, Bool.not_true]
  rw [hs]
  have hlen := hI.size w hw c hc
  have hb : (resize c.mesh.verts.length false w).buffer = w.buffer.take c.mesh.verts.length := by
    unfold resize
    simp only [Bool.false_eq_true, if_false]
    rw [Nat.sub_eq_zero_of_le hlen]; simp
  rw [hb]
  refine ⟨by rw [List.length_take]; omega, fun v hv => ⟨fun x hx => ?_, fun hr hx => ?_⟩⟩
  · rw [List.getElem?_take, if_pos hv]; exact (H.val w hw c hc v x hx).2
  · rw [List.getElem?_take, if_pos hv]; exact H.zero w hw c hc hr v hv hx

theorem plain_matches {h : Hist d} {p : Participant d} (H : HistInv h p) {w : WriteCtx}
    (hw : w ∈ p.writes) {c : MeshCtx d} (hc : p.meshCtx w.mesh = some c) (hr : resetSince w.mesh h = false) :
    Matches h w c.mesh.verts.length w.buffer :=
  ⟨H.size w hw c hc hr, fun v hv => ⟨fun x hx => (H.val w hw c hc v x hx).2, fun _ hx => H.zero w hw c hc hr v hv hx⟩⟩

/-- What a successful `advance` hands over to the coupling scheme, after any sequence of calls. For every
data on a provided mesh and every vertex of this mesh, it is the value written last since the previous
`advance` or `initialize`, and zero for vertices without written value. Missing (`_partial`): vertices
without written value of a mesh that was reset, see `C32_stale_after_reset`. -/
theorem C32_sent_partial {p0 : Participant d} (h0 : p0.Configured) (cs : List (Call d)) (dt : ℚ) (e : Env d)
    (hok : ((p0.after cs).exec (.advance dt e)).1 = .ok .unit) (hst : e.atEnd = true ∨ e.substeps = true) :
    ∃ new, ((p0.after cs).exec (.advance dt e)).2.stored = (p0.after cs).stored ++ new ∧
      new.map (fun x => (x.1, x.2.1)) = (p0.after cs).writes.map (fun w => (w.mesh, w.data)) ∧
      ∀ w ∈ (p0.after cs).writes, ∀ c, (p0.after cs).meshCtx w.mesh = some c → c.provided = true →
        ∃ vals, (w.mesh, w.data, (p0.after cs).view.time + dt, vals) ∈ new ∧
          Matches (p0.hist cs) w c.mesh.verts.length vals := by
  obtain ⟨hI, H⟩ := run_invs h0 cs
  generalize p0.after cs = p at *
  generalize p0.hist cs = h at *
  have hch := exec_change p (.advance dt e)
  generalize p.exec (.advance dt e) = out at *
  obtain ⟨o, p'⟩ := out
  simp only at hok hch ⊢
  subst hok
  cases hch with
  | query _ _ he => simp [Call.effectful] at he
  | cells _ _ _ _ _ h1 => simp [Call.defines] at h1
  | adv _ _ hp h1 h2 h3 h4 h5 h6 =>
    by_cases hr : p.reinits e = true
    · refine ⟨(p.setup e).writes.map (fun w => (w.mesh, w.data, p.view.time + dt, w.buffer)), ?_, ?_, ?_⟩
      · unfold advDone; simp only [hr, if_true, hst]; rfl
      · rw [setup_writes, List.map_map, List.map_map]
        refine List.map_congr_left fun w _ => ?_
        simp [setupWrite_key]
      · intro w hw c hc hpr
        refine ⟨_, List.mem_map.2 ⟨p.setupWrite e w, ?_, ?_⟩, setup_matches hI H e hw hc hpr⟩
        · rw [setup_writes]; exact List.mem_map.2 ⟨w, hw, rfl⟩
        · simp [setupWrite_key]
    · refine ⟨p.writes.map (fun w => (w.mesh, w.data, p.view.time + dt, w.buffer)), ?_, ?_, ?_⟩
      · unfold advDone; simp only [hr, hst, if_true]; rfl
      · rw [List.map_map]; rfl
      · intro w hw c hc hpr
        refine ⟨_, List.mem_map.2 ⟨w, hw, rfl⟩, plain_matches H hw hc ?_⟩
        by_contra hrs
        rw [Bool.not_eq_false] at hrs
        have h7 := H.lock hp _ c hc
        rw [hrs] at h7
        have h8 := checkAll_false h7
        have h9 := (H.remesh _ hrs).1
        apply hr
        unfold reinits
        rw [h8, h9]
        cases ha : e.atEnd with
        | true => rfl
        | false => exact absurd ⟨h9, ha, h8⟩ h5

/-- The same for `initialize`: there are no resets before, hence nothing is missing. -/
theorem C32_initial {p0 : Participant d} (h0 : p0.Configured) (cs : List (Call d)) (e : Env d)
    (hok : ((p0.after cs).exec (.initialize e)).1 = .ok .unit) :
    ∃ new, ((p0.after cs).exec (.initialize e)).2.stored = (p0.after cs).stored ++ new ∧
      new.map (fun x => (x.1, x.2.1)) = (p0.after cs).writes.map (fun w => (w.mesh, w.data)) ∧
      ∀ w ∈ (p0.after cs).writes, ∀ c, (p0.after cs).meshCtx w.mesh = some c → c.provided = true →
        ∃ vals, (w.mesh, w.data, 0, vals) ∈ new ∧ Matches (p0.hist cs) w c.mesh.verts.length vals := by
  obtain ⟨hI, H⟩ := run_invs h0 cs
  generalize p0.after cs = p at *
  generalize p0.hist cs = h at *
  have hch := exec_change p (.initialize e)
  generalize p.exec (.initialize e) = out at *
  obtain ⟨o, p'⟩ := out
  simp only at hok hch ⊢
  subst hok
  cases hch with
  | query _ _ he => simp [Call.effectful] at he
  | cells _ _ _ _ _ h1 => simp [Call.defines] at h1
  | init _ hp hg =>
    refine ⟨(p.setup e).writes.map (fun w => (w.mesh, w.data, 0, w.buffer)), rfl, ?_, ?_⟩
    · rw [setup_writes, List.map_map, List.map_map]
      refine List.map_congr_left fun w _ => ?_
      simp [setupWrite_key]
    · intro w hw c hc hpr
      refine ⟨_, List.mem_map.2 ⟨p.setupWrite e w, ?_, ?_⟩, setup_matches hI H e hw hc hpr⟩
      · rw [setup_writes]; exact List.mem_map.2 ⟨w, hw, rfl⟩
      · simp [setupWrite_key]

/-- Data on a received mesh (direct access) is handed over in the same way as long as no reinitialization
takes place in this `advance`. -/
theorem C32_direct {p0 : Participant d} (h0 : p0.Configured) (cs : List (Call d)) (dt : ℚ) (e : Env d)
    (hok : ((p0.after cs).exec (.advance dt e)).1 = .ok .unit) (hst : e.atEnd = true ∨ e.substeps = true)
    (hr : (p0.after cs).reinits e = false) :
    ((p0.after cs).exec (.advance dt e)).2.stored = (p0.after cs).stored ++
        (p0.after cs).writes.map (fun w => (w.mesh, w.data, (p0.after cs).view.time + dt, w.buffer)) ∧
      ∀ w ∈ (p0.after cs).writes, ∀ c, (p0.after cs).meshCtx w.mesh = some c → resetSince w.mesh (p0.hist cs) = false →
        Matches (p0.hist cs) w c.mesh.verts.length w.buffer := by
  obtain ⟨hI, H⟩ := run_invs h0 cs
  generalize p0.after cs = p at *
  generalize p0.hist cs = h at *
  have hch := exec_change p (.advance dt e)
  generalize p.exec (.advance dt e) = out at *
  obtain ⟨o, p'⟩ := out
  simp only at hok hch ⊢
  subst hok
  cases hch with
  | query _ _ he => simp [Call.effectful] at he
  | cells _ _ _ _ _ h1 => simp [Call.defines] at h1
  | adv _ _ hp h1 h2 h3 h4 h5 h6 =>
    refine ⟨?_, fun w hw c hc hrs => plain_matches H hw hc hrs⟩
    unfold advDone; simp only [hr, Bool.false_eq_true, if_false, hst, if_true]; rfl

theorem find_perm {l l' : List (ℤ × Col)} (hp : l.Perm l') (hn : (l.map (·.1)).Nodup) (v : ℤ) :
    l.find? (fun e => e.1 = v) = l'.find? (fun e => e.1 = v) := by
  induction hp with
  | nil => rfl
  | cons x _ ih =>
    simp only [List.map_cons, List.nodup_cons] at hn
    by_cases h : x.1 = v <;> simp [h, ih hn.2]
  | swap x y l =>
    simp only [List.map_cons, List.nodup_cons, List.mem_cons, not_or] at hn
    by_cases h : x.1 = v <;> by_cases h' : y.1 = v <;> simp [h, h']
    exact absurd (h'.trans h.symm) hn.1.1
  | trans h1 h2 ih1 ih2 =>
    exact (ih1 hn).trans (ih2 ((h1.map _).nodup_iff.1 hn))

/-- Effect of a successful `writeData`. -/
theorem write_effect {p : Participant d} (hI : p.Inv) {m data : String} {ids : List ℤ} {vals : List ℚ} {w : WriteCtx}
    (hw : p.writes.find? (fun w => w.mesh = m ∧ w.data = data) = some w) {r : Resp}
    (h : (p.exec (.writeData m data ids vals)).1 = .ok r) :
    ∃ b, (p.exec (.writeData m data ids vals)).2 = { p with writes := p.writes.map (fun w =>
        if w.mesh = m ∧ w.data = data then { w with buffer := b } else w) } ∧ b.length = w.buffer.length ∧
      (∀ v, b[v]? = (w.buffer[v]?).map (fun old => (lastFor w.dims ids vals v).getD old)) ∧
      ids.length * w.dims = vals.length ∧ (∀ i ∈ ids, 0 ≤ i ∧ i.toNat < w.buffer.length) := by
  have hch := exec_change p (.writeData m data ids vals)
  generalize p.exec (.writeData m data ids vals) = out at *
  obtain ⟨o, p'⟩ := out
  simp only at h hch ⊢
  subst h
  have hwm : w.mesh = m ∧ w.data = data := by simpa using List.find?_some hw
  have hsame : ∀ w0 ∈ p.writes, w0.mesh = m ∧ w0.data = data → w0 = w := by
    intro w0 hw0 hmm
    have := find_unique hI.keys hw0
    rw [hmm.1, hmm.2, hw] at this
    exact (Option.some.inj this).symm
  cases hch with
  | query _ _ he => simp [Call.effectful] at he
  | cells _ _ _ _ _ h1 => simp [Call.defines] at h1
  | vertices _ _ _ h1 => simp [Call.defines] at h1
  | writeNone =>
    refine ⟨w.buffer, ?_, rfl, ?_, by simp, by simp⟩
    · have : p.writes.map (fun w' : WriteCtx => if w'.mesh = m ∧ w'.data = data then { w' with buffer := w.buffer } else w') =
          p.writes := by
        conv_rhs => rw [← List.map_id p.writes]
        refine List.map_congr_left fun w0 hw0 => ?_
        split
        · rename_i hmm
          rw [hsame w0 hw0 hmm]; rfl
        · rfl
      rw [this]
    · intro v
      cases w.buffer[v]? <;> simp [lastFor, pairs]
  | write _ _ _ _ k w' b hp hk hw' hlen hval hb =>
    rw [hw] at hw'
    cases hw'
    have hv2 : ∀ x ∈ ids, 0 ≤ x ∧ x.toNat < k.mesh.verts.length := fun x hx => by
      have := hval x hx; unfold Mesh.isValidVertexID at this; simp at this; omega
    obtain ⟨h1, h2⟩ := writeBuffer_spec (fun x hx => (hv2 x hx).1) hb
    refine ⟨b, rfl, h1, h2, hlen, fun i hi => ⟨(hv2 i hi).1, ?_⟩⟩
    exact lt_of_lt_of_le (hv2 i hi).2 (hI.size w (List.mem_of_find?_eq_some hw) k (hwm.1.symm ▸ hk))

theorem pairs_fst (dims : ℕ) (ids : List ℤ) (vals : List ℚ) : (pairs dims ids vals).map (·.1) = ids := by
  unfold pairs
  rw [List.map_map]
  exact List.zipIdx_map_fst 0 ids

/-- The order of distinct vertices inside of a call is irrelevant: passing the same pairs of ID and value in
another order leads to the same state. -/
theorem C32_order {p0 : Participant d} (h0 : p0.Configured) (cs : List (Call d)) (m data : String)
    (ids ids' : List ℤ) (vals vals' : List ℚ) (w : WriteCtx)
    (hw : (p0.after cs).writes.find? (fun w => w.mesh = m ∧ w.data = data) = some w) (hn : ids.Nodup)
    (hp : (pairs w.dims ids vals).Perm (pairs w.dims ids' vals'))
    (h1 : ((p0.after cs).exec (.writeData m data ids vals)).1 = .ok .unit)
    (h2 : ((p0.after cs).exec (.writeData m data ids' vals')).1 = .ok .unit) :
    ((p0.after cs).exec (.writeData m data ids vals)).2 = ((p0.after cs).exec (.writeData m data ids' vals')).2 := by
  obtain ⟨hI, -⟩ := run_invs h0 cs
  obtain ⟨b, e1, -, e2, -, -⟩ := write_effect hI hw h1
  obtain ⟨b', e1', -, e2', -, -⟩ := write_effect hI hw h2
  have hlast : ∀ v, lastFor w.dims ids vals v = lastFor w.dims ids' vals' v := by
    intro v
    unfold lastFor
    rw [find_perm ((List.reverse_perm _).trans (hp.trans (List.reverse_perm _).symm))]
    rw [List.map_reverse, pairs_fst, List.nodup_reverse]; exact hn
  have : b = b' := List.ext_getElem? fun v => by rw [e2, e2', hlast]
  rw [e1, e1', this]

/-- Two writes for one vertex in one call: the last one wins. -/
theorem C32_duplicates (dims : ℕ) (ids : List ℤ) (vals : List ℚ) (v : ℕ) (i : ℕ) (hi : ids[i]? = some (v : ℤ))
    (hlast : ∀ j, i < j → ids[j]? ≠ some (v : ℤ)) : lastFor dims ids vals v = some (group dims vals i) := by
  obtain ⟨hlt, hi'⟩ := List.getElem?_eq_some_iff.1 hi
  have hsplit : ids = ids.take i ++ (v : ℤ) :: ids.drop (i + 1) := by
    rw [← hi', List.cons_getElem_drop_succ, List.take_append_drop]
  have key : ∀ (l : List ℤ) (k : ℕ), (∀ x ∈ l, x ≠ (v : ℤ)) → lastFrom dims vals l k v = none := by
    intro l
    induction l with
    | nil => intro k _; rfl
    | cons x l ih =>
      intro k hx
      rw [lastFrom_cons, ih (k + 1) (fun y hy => hx y (List.mem_cons_of_mem _ hy)), if_neg (hx x List.mem_cons_self)]
      rfl
  have app : ∀ (l l' : List ℤ) (k : ℕ),
      lastFrom dims vals (l ++ l') k v = (lastFrom dims vals l' (k + l.length) v).or (lastFrom dims vals l k v) := by
    intro l l'
    induction l with
    | nil =>
      intro k
      rw [show lastFrom dims vals [] k v = none from rfl, Option.or_none]; rfl
    | cons x l ih =>
      intro k
      rw [List.cons_append, lastFrom_cons, ih, lastFrom_cons, List.length_cons,
        show k + 1 + l.length = k + (l.length + 1) by omega, Option.or_assoc]
  change lastFrom dims vals ids 0 v = _
  rw [hsplit, app, lastFrom_cons, key (ids.drop (i + 1))]
  · simp [List.length_take, Nat.min_eq_left hlt.le]
  · intro x hx e
    obtain ⟨j, hj⟩ := List.getElem?_of_mem hx
    rw [List.getElem?_drop] at hj
    exact hlast (i + 1 + j) (by omega) (by rw [hj, e])

/-! ## C33 -/

theorem group_length {α : Type} (n : ℕ) (l : List α) (i k : ℕ) (hl : k * n = l.length) (hi : i < k) :
    (group n l i).length = n := by
  unfold group
  rw [List.length_take, List.length_drop]
  have : (i + 1) * n ≤ k * n := Nat.mul_le_mul_right _ hi
  have e : (i + 1) * n = n * i + n := by ring
  omega

theorem flatMap_group {α : Type} (n : ℕ) (l : List α) (k : ℕ) (hl : k * n = l.length) :
    (List.range k).flatMap (group n l) = l := by
  have : ∀ j ≤ k, (List.range j).flatMap (group n l) = l.take (n * j) := by
    intro j
    induction j with
    | zero => intro _; simp
    | succ j ih =>
      intro hj
      rw [List.range_succ, List.flatMap_append, ih (by omega)]
      simp only [List.flatMap_cons, List.flatMap_nil, List.append_nil, group]
      rw [show n * (j + 1) = n * j + n by ring, List.take_add]
  rw [this k (le_refl _), List.take_of_length_le]
  rw [← hl]; exact le_of_eq (Nat.mul_comm _ _)

/-- Write values through a list of distinct IDs; a participant that reads the resulting buffer (at the time
it is available) through the same list gets the values back in the same order. -/
theorem C33_round_trip {p0 : Participant d} (h0 : p0.Configured) (cs : List (Call d)) (m data : String)
    (ids : List ℤ) (vals : List ℚ) (w : WriteCtx)
    (hw : (p0.after cs).writes.find? (fun w => w.mesh = m ∧ w.data = data) = some w) (hn : ids.Nodup)
    (h1 : ((p0.after cs).exec (.writeData m data ids vals)).1 = .ok .unit)
    (q : Participant d) (m' data' : String) (r : ReadCtx) (s : ℚ → List Col) (t : ℚ)
    (hr : q.reads.find? (fun r => r.mesh = m' ∧ r.data = data') = some r) (hs : r.sample = some s)
    (hq : ∃ w' ∈ ((p0.after cs).exec (.writeData m data ids vals)).2.writes, w'.mesh = m ∧ w'.data = data ∧
      s (q.view.time + t) = w'.buffer)
    (got : List ℚ) (h2 : (q.exec (.readData m' data' ids t vals.length)).1 = .ok (.vals got)) : got = vals := by
  obtain ⟨hI, -⟩ := run_invs h0 cs
  obtain ⟨b, e1, -, e2, e3, e4⟩ := write_effect hI hw h1
  have hsb : s (q.view.time + t) = b := by
    obtain ⟨w', hw', hm', hd', e⟩ := hq
    rw [e1] at hw'
    obtain ⟨w0, hw0, rfl⟩ := List.mem_map.1 hw'
    by_cases hmm : w0.mesh = m ∧ w0.data = data
    · rw [if_pos hmm] at e; exact e
    · rw [if_neg hmm] at hm' hd'; exact absurd ⟨hm', hd'⟩ hmm
  have hval : ∀ i (hi : i < ids.length), b.getD (ids[i]).toNat [] = group w.dims vals i := by
    intro i hi
    obtain ⟨h5, h6⟩ := e4 _ (List.getElem_mem hi)
    have hl : lastFor w.dims ids vals (ids[i]).toNat = some (group w.dims vals i) := by
      refine C32_duplicates _ _ _ _ i ?_ ?_
      · rw [List.getElem?_eq_getElem hi]; congr 1; omega
      · intro j hj hx
        obtain ⟨hj', hx'⟩ := List.getElem?_eq_some_iff.1 hx
        have : ids[j] = ids[i] := by rw [hx']; omega
        exact absurd ((List.Nodup.getElem_inj_iff hn).1 this) (by omega)
    rw [List.getD_eq_getElem?_getD, e2, List.getElem?_eq_getElem h6, hl]; rfl
  have hgot : got = ids.flatMap (fun i => b.getD i.toNat []) := by
    rw [← hsb]
    simp only [exec, readData, readable, dataAccess, require, hr, hs] at h2
    repeat' split at h2
    all_goals simp only [Outcome.ok.injEq, Resp.vals.injEq, reduceCtorEq] at h2
    · rename_i he
      rw [he.1, ← h2]; rfl
    · exact h2.symm
  rw [hgot]
  have : ids.flatMap (fun i => b.getD i.toNat []) = (List.range ids.length).flatMap (group w.dims vals) := by
    rw [List.flatMap_def, List.flatMap_def]
    congr 1
    refine List.ext_getElem (by simp) fun i h5 h6 => ?_
    simp only [List.getElem_map, List.getElem_range]
    exact hval i (by simpa using h5)
  rw [this, flatMap_group _ _ _ e3]

/-! ## C34 -/

/-- Effect of a vertex definition call. -/
theorem define_effect {p : Participant d} {c : Call d} {m : String} {r : Resp} (h1 : c.defines = some m)
    (h2 : c.effectful = true) (h : (p.exec c).1 = .ok r) :
    ∃ k, p.Modifiable m k ∧ r = .ids (createVertices k.mesh c.points).2 ∧
      (p.exec c).2 = (p.setMesh m (createVertices k.mesh c.points).1).resizeBuffers m
          (createVertices k.mesh c.points).1.verts.length false := by
  have hch := exec_change p c
  generalize p.exec c = out at *
  obtain ⟨o, p'⟩ := out
  simp only at h hch ⊢
  subst h
  cases hch with
  | query _ _ he => rw [h2] at he; simp at he
  | cells _ _ _ _ _ _ h3 => rw [h2] at h3; simp at h3
  | initReq => simp [Call.defines] at h1
  | init => simp [Call.defines] at h1
  | adv => simp [Call.defines] at h1
  | fin => simp [Call.defines] at h1
  | reset => simp [Call.defines] at h1
  | writeNone => simp [Call.defines] at h1
  | write => simp [Call.defines] at h1
  | vertices _ m' k h3 _ hm =>
    rw [h1] at h3
    cases h3
    exact ⟨k, hm, rfl, rfl⟩

/-- A successful definition of vertices returns consecutive IDs that start at the number of vertices defined
before; afterwards the mesh consists of the previous vertices followed by vertices at the given positions. -/
theorem C34_ids (p : Participant d) (c : Call d) (m : String) (r : Resp) (h1 : c.defines = some m)
    (h2 : c.effectful = true) (h : (p.exec c).1 = .ok r) :
    ∃ k k', p.meshCtx m = some k ∧ (p.exec c).2.meshCtx m = some k' ∧
      r = .ids ((List.range c.points.length).map (fun i => k.mesh.verts.length + i)) ∧
      k'.mesh.verts.map (·.coords) = k.mesh.verts.map (·.coords) ++ c.points ∧
      (∀ i (hi : i < c.points.length), (k'.mesh.verts[k.mesh.verts.length + i]?).map (·.coords) = some c.points[i]) ∧
      (∀ m', m' ≠ m → (p.exec c).2.meshCtx m' = p.meshCtx m') := by
  obtain ⟨k, hm, hr, hp⟩ := define_effect h1 h2 h
  obtain ⟨e1, e2⟩ := createVertices_verts k.mesh c.points
  have hlook : ∀ m', (p.exec c).2.meshCtx m' = (p.setMesh m (createVertices k.mesh c.points).1).meshCtx m' := by
    intro m'; rw [hp]; rfl
  refine ⟨k, { k with mesh := (createVertices k.mesh c.points).1 }, hm.ctx, ?_, ?_, ?_, ?_, ?_⟩
  · rw [hlook, meshCtx_setMesh, hm.ctx]
    simp [meshCtx_name hm.ctx]
  · rw [hr, e2]
  · simp only [e1, List.map_append, List.map_map]
    congr 1
    conv_rhs => rw [← List.map_id c.points]
    rfl
  · intro i hi
    simp only [e1]
    rw [List.getElem?_append_right (by omega)]
    simp [hi]
  · intro m' hm'
    rw [hlook, meshCtx_setMesh]
    cases hc : p.meshCtx m' with
    | none => rfl
    | some c0 => simp [meshCtx_name hc, hm']

theorem toPt_points (m : String) (pos : List ℚ) (n : ℕ) :
    (Call.setMeshVertices m pos n : Call d).points =
      (List.range n).flatMap (fun i => (Call.setMeshVertex m (group d pos i) : Call d).points) := by
  simp [Call.points, List.flatMap_def]
  induction List.range n with
  | nil => rfl
  | cons a l ih => simp [ih]

/-- `getMeshVertexSize` reports the number of vertices. -/
theorem C34_size (p : Participant d) (m : String) (k : MeshCtx d) (hp : p.phase ≠ .finalized)
    (hk : p.meshCtx m = some k) (hpr : k.provided = true) :
    p.exec (.getMeshVertexSize m) = (.ok (.num k.mesh.verts.length), p) := by
  simp [exec, accessor, hp, hk, require, hpr]

theorem createVertices_append (x : Mesh d) (ps qs : List (Pt d)) :
    (createVertices x (ps ++ qs)).1 = (createVertices (createVertices x ps).1 qs).1 := by
  induction ps generalizing x with
  | nil => rfl
  | cons q ps ih => simp only [List.cons_append, createVertices]; exact ih _

theorem resize_resize (n n' : ℕ) (w : WriteCtx) (h : n ≤ n') (h' : w.buffer.length ≤ n ∨ n = n') :
    resize n' false (resize n false w) = resize n' false w := by
  unfold resize
  simp only [Bool.false_eq_true, if_false, WriteCtx.mk.injEq, true_and]
  rcases h' with h' | rfl
  · rw [List.take_of_length_le h', List.take_of_length_le (by simp; omega), List.take_of_length_le (by omega),
      List.append_assoc, List.replicate_append_replicate]
    congr 2
    simp; omega
  · have e : (List.take n w.buffer ++ List.replicate (n - w.buffer.length) (List.replicate w.dims 0)).length = n := by
      simp; omega
    rw [List.take_of_length_le (le_of_eq e), e]; simp

/-- The state after a vertex definition call for the points `ps`. -/
def defined (p : Participant d) (m : String) (x : Mesh d) : Participant d :=
  (p.setMesh m x).resizeBuffers m x.verts.length false

theorem setMesh_setMesh (p : Participant d) (m : String) (x y : Mesh d) :
    (p.setMesh m x).setMesh m y = p.setMesh m y := by
  unfold setMesh
  simp only [List.map_map]
  congr 1
  refine List.map_congr_left fun c _ => ?_
  simp only [Function.comp]
  by_cases h : c.name = m <;> simp [h]

theorem defined_defined (p : Participant d) (m : String) (x y : Mesh d) (h : x.verts.length ≤ y.verts.length)
    (hb : ∀ w ∈ p.writes, w.mesh = m → w.buffer.length ≤ x.verts.length) :
    (p.defined m x).defined m y = p.defined m y := by
  have e1 : ((p.defined m x).defined m y).meshes = (p.defined m y).meshes := by
    change ((p.setMesh m x).setMesh m y).meshes = (p.setMesh m y).meshes
    rw [setMesh_setMesh]
  have e2 : ((p.defined m x).defined m y).writes = (p.defined m y).writes := by
    simp only [defined, resizeBuffers, setMesh, List.map_map]
    refine List.map_congr_left fun w hw => ?_
    simp only [Function.comp]
    by_cases hm : w.mesh = m
    · rw [if_pos hm, if_pos (by rw [resize_mesh]; exact hm), resize_resize _ _ _ h (.inl (hb w hw hm)), if_pos hm]
    · simp [hm]
  have e3 : ∀ q q' : Participant d, q.meshes = q'.meshes → q.writes = q'.writes → q.phase = q'.phase →
      q.experimental = q'.experimental → q.remeshing = q'.remeshing → q.locks = q'.locks → q.reads = q'.reads →
      q.view = q'.view → q.initRequired = q'.initRequired → q.initFulfilled = q'.initFulfilled →
      q.stored = q'.stored → q = q' := by
    rintro ⟨⟩ ⟨⟩; simp only; intros; subst_vars; rfl
  exact e3 _ _ e1 e2 rfl rfl rfl rfl rfl rfl rfl rfl rfl

theorem setMeshVertex_ok {p : Participant d} {m : String} {k : MeshCtx d} (hm : p.Modifiable m k) (q : List ℚ)
    (hq : q.length = d) : p.exec (.setMeshVertex m q) =
      (.ok (.ids [k.mesh.verts.length]), p.defined m (k.mesh.createVertex { coords := toPt q }).1) := by
  simp only [exec, setMeshVertex, modify, accessor, require, hm.notFin, hm.ctx, hm.provided, hm.unlocked, hq]
  rfl

theorem defined_modifiable {p : Participant d} {m : String} {k : MeshCtx d} (hm : p.Modifiable m k) (x : Mesh d) :
    (p.defined m x).Modifiable m { k with mesh := x } := by
  refine ⟨hm.notFin, ?_, hm.provided, hm.unlocked⟩
  change (p.setMesh m x).meshCtx m = _
  rw [meshCtx_setMesh, hm.ctx]
  simp [meshCtx_name hm.ctx]

theorem run_vertices {p : Participant d} {m : String} {k : MeshCtx d} (hm : p.Modifiable m k) (qs : List (List ℚ))
    (hq : ∀ q ∈ qs, q.length = d)
    (hb : ∀ w ∈ p.writes, w.mesh = m → w.buffer.length ≤ k.mesh.verts.length) :
    (p.run (qs.map (Call.setMeshVertex m))).2 =
        (if qs = [] then p else p.defined m (createVertices k.mesh (qs.map toPt)).1) ∧
      (p.run (qs.map (Call.setMeshVertex m))).1.map (·.2) =
        (List.range qs.length).map (fun i => Outcome.ok (.ids [k.mesh.verts.length + i])) := by
  induction qs generalizing p k with
  | nil => exact ⟨rfl, rfl⟩
  | cons q qs ih =>
    simp only [List.map_cons, run]
    rw [setMeshVertex_ok hm q (hq q List.mem_cons_self)]
    simp only [reduceCtorEq, if_false]
    set x := (k.mesh.createVertex { coords := toPt q }).1 with hx
    have hxl : x.verts.length = k.mesh.verts.length + 1 := by simp [hx, Mesh.createVertex]
    obtain ⟨i1, i2⟩ := ih (defined_modifiable hm x) (fun q' h => hq q' (List.mem_cons_of_mem _ h)) (by
      intro w hw hwm
      obtain ⟨w0, hw0, rfl⟩ := List.mem_map.1 hw
      by_cases h0 : w0.mesh = m
      · rw [if_pos h0, resize_length]
      · rw [if_neg h0] at hwm; exact absurd hwm h0)
    constructor
    · rw [i1]
      by_cases hqs : qs = []
      · subst hqs; simp [createVertices, hx]
      · rw [if_neg hqs, defined_defined]
        · rfl
        · rw [(createVertices_verts _ _).1]; simp
        · intro w hw hwm
          have := hb w hw hwm
          omega
    · simp only [List.map_cons]
      rw [i2, List.length_cons, List.range_succ_eq_map]
      simp only [List.map_cons, List.map_map, Nat.add_zero, List.cons.injEq, true_and]
      refine List.map_congr_left fun i _ => ?_
      simp only [Function.comp, hxl, Nat.succ_eq_add_one]
      rw [Nat.add_assoc, Nat.add_comm 1]

/-- Defining vertices one by one is the same as defining them at once, provided the buffers are not larger
than the mesh (which holds unless the mesh was just reset, see `HistInv.size`). -/
theorem C34_one_by_one {p : Participant d} {m : String} {k : MeshCtx d} (hm : p.Modifiable m k)
    (pos : List ℚ) (n : ℕ) (hlen : pos.length = n * d) (hn : 0 < n)
    (hb : ∀ w ∈ p.writes, w.mesh = m → w.buffer.length ≤ k.mesh.verts.length) :
    (p.run ((List.range n).map (fun i => Call.setMeshVertex m (group d pos i)))).2 =
        (p.exec (.setMeshVertices m pos n)).2 ∧
      (p.run ((List.range n).map (fun i => Call.setMeshVertex m (group d pos i)))).1.map (·.2) =
        (List.range n).map (fun i => Outcome.ok (.ids [k.mesh.verts.length + i])) ∧
      (p.exec (.setMeshVertices m pos n)).1 = .ok (.ids ((List.range n).map (fun i => k.mesh.verts.length + i))) := by
  have hq : ∀ q ∈ (List.range n).map (group d pos), q.length = d := by
    intro q hq
    obtain ⟨i, hi, rfl⟩ := List.mem_map.1 hq
    exact group_length d pos i n hlen.symm (List.mem_range.1 hi)
  obtain ⟨r1, r2⟩ := run_vertices hm ((List.range n).map (group d pos)) hq hb
  have e : p.exec (.setMeshVertices m pos n) =
      (.ok (.ids (createVertices k.mesh ((List.range n).map (fun i => toPt (group d pos i)))).2),
        p.defined m (createVertices k.mesh ((List.range n).map (fun i => toPt (group d pos i)))).1) := by
    simp only [exec, setMeshVertices, modify, accessor, require, hm.notFin, hm.ctx, hm.provided, hm.unlocked, hlen]
    rfl
  rw [List.map_map] at r1 r2
  refine ⟨?_, ?_, ?_⟩
  · refine r1.trans ?_
    rw [if_neg (by simp; omega), e, List.map_map]; rfl
  · refine r2.trans ?_
    simp
  · rw [e, (createVertices_verts _ _).2]; simp

end Verif.Api.Participant
