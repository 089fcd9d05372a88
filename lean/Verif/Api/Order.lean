import Verif.Api.Props

/-! # Locks, call order and invalid IDs (C35-C37) -/

set_option autoImplicit false

namespace Verif.Api.Participant

open Hist

variable {d : ℕ}

/-! ## C35 -/

theorem modify_locked {p : Participant d} {m : String} {k : MeshCtx d → Outcome × Participant d}
    (hp : p.phase ≠ .finalized) (hl : ∀ c, p.meshCtx m = some c → p.locks.check m ≠ some false) :
    p.modify m k = (.error, p) := by
  unfold modify accessor
  rw [if_neg hp]
  split
  · rfl
  · rename_i c hc
    unfold require
    split
    · split
      · exact absurd ‹_› (hl c hc)
      · rfl
    · rfl

theorem defines_locked {p : Participant d} {c : Call d} {m : String} (hd : c.defines = some m)
    (hp : p.phase ≠ .finalized) (hl : ∀ c, p.meshCtx m = some c → p.locks.check m ≠ some false) :
    p.exec c = (.error, p) := by
  cases c <;> simp only [Call.defines, Option.some.injEq, reduceCtorEq] at hd <;> subst hd <;>
    simp only [exec, connect, quads, setMeshVertex, setMeshVertices] <;> exact modify_locked hp hl

/-- After any sequence of calls: between `initialize` and `finalize` defining vertices or connectivity of a
mesh fails and changes nothing, unless this mesh was reset since the last `advance`. -/
theorem C35_locked {p0 : Participant d} (h0 : p0.Configured) (cs : List (Call d)) (c : Call d) (m : String)
    (hp : (p0.after cs).phase = .initialized) (hd : c.defines = some m) (hr : resetSince m (p0.hist cs) = false) :
    (p0.after cs).exec c = (.error, p0.after cs) := by
  obtain ⟨-, H⟩ := run_invs h0 cs
  refine defines_locked hd (by rw [hp]; simp) fun k hk => ?_
  rw [H.lock hp m k hk, hr]; simp

/-- A mesh that was reset since the last `advance` can be redefined. -/
theorem C35_unlocked {p0 : Participant d} (h0 : p0.Configured) (cs : List (Call d)) (m : String) (k : MeshCtx d)
    (pos : List ℚ) (hp : (p0.after cs).phase = .initialized) (hk : (p0.after cs).meshCtx m = some k)
    (hpr : k.provided = true) (hr : resetSince m (p0.hist cs) = true) (hpos : pos.length = d) :
    ((p0.after cs).exec (.setMeshVertex m pos)).1 = .ok (.ids [k.mesh.verts.length]) := by
  obtain ⟨-, H⟩ := run_invs h0 cs
  rw [setMeshVertex_ok ⟨by rw [hp]; simp, hk, hpr, by rw [H.lock hp m k hk, hr]; rfl⟩ pos hpos]

/-- `resetMesh` empties and unlocks this mesh and no other. -/
theorem C35_reset (p : Participant d) (m : String) (h : (p.exec (.resetMesh m)).1 = .ok .unit) :
    (p.exec (.resetMesh m)).2.locks.check m = some false ∧
      (∃ k, (p.exec (.resetMesh m)).2.meshCtx m = some k ∧ k.mesh.verts = [] ∧ k.mesh.edges = [] ∧
        k.mesh.tris = [] ∧ k.mesh.tets = []) ∧
      ∀ m', m' ≠ m → (p.exec (.resetMesh m)).2.locks.check m' = p.locks.check m' ∧
        (p.exec (.resetMesh m)).2.meshCtx m' = p.meshCtx m' := by
  have hch := exec_change p (.resetMesh m)
  generalize p.exec (.resetMesh m) = out at *
  obtain ⟨o, p'⟩ := out
  simp only at h hch ⊢
  subst h
  cases hch with
  | query _ _ he => simp [Call.effectful] at he
  | cells _ _ _ _ _ h1 => simp [Call.defines] at h1
  | reset _ k l hp hr hk ho hcmp hl =>
    have hloc : ∀ m', l.check m' = if m' = m then some false else p.locks.check m' := by
      intro m'
      unfold MultiLock.unlock at hl
      cases hf : p.locks.find m with
      | none => rw [hf] at hl; simp at hl
      | some b =>
        rw [hf] at hl
        simp only [Option.some.injEq] at hl
        subst hl
        unfold MultiLock.check
        rw [MultiLock.find_assign, hf]; rfl
    have hlook : ∀ m', ((({ p with locks := l } : Participant d).setMesh m (Mesh.empty d))).meshCtx m' =
        (p.meshCtx m').map (fun c => if c.name = m then { c with mesh := Mesh.empty d } else c) :=
      fun m' => meshCtx_setMesh p m m' _
    refine ⟨by change l.check m = _; rw [hloc, if_pos rfl], ⟨{ k with mesh := Mesh.empty d }, ?_, rfl, rfl, rfl, rfl⟩,
      fun m' hm' => ⟨by change l.check m' = _; rw [hloc, if_neg hm'], ?_⟩⟩
    · rw [hlook, hk]; simp [meshCtx_name hk]
    · rw [hlook]
      cases hc : p.meshCtx m' with
      | none => rfl
      | some c0 => simp [meshCtx_name hc, hm']

/-- A successful `advance` locks every mesh again, so does `initialize`. -/
theorem C35_relocked {p0 : Participant d} (h0 : p0.Configured) (cs : List (Call d)) (c : Call d) (r : Resp)
    (hc : (∃ dt e, c = .advance dt e) ∨ ∃ e, c = .initialize e) (hok : ((p0.after cs).exec c).1 = .ok r)
    (c' : Call d) (m : String) (hd : c'.defines = some m) :
    ((p0.after cs).exec c).2.exec c' = (.error, ((p0.after cs).exec c).2) := by
  obtain ⟨hI, H⟩ := run_invs h0 cs
  have H' := change_hist hI H (exec_change _ c)
  generalize p0.after cs = p at *
  have hph : (p.exec c).2.phase = .initialized := by
    have hch := exec_change p c
    generalize p.exec c = out at *
    obtain ⟨o, p'⟩ := out
    simp only at hok hch ⊢
    subst hok
    rcases hc with ⟨dt, e, rfl⟩ | ⟨e, rfl⟩
    · cases hch with
      | query _ _ he => simp [Call.effectful] at he
      | cells _ _ _ _ _ h1 => simp [Call.defines] at h1
      | adv _ _ hp =>
        unfold advDone
        simp only
        split <;> split <;> exact hp
      | vertices _ _ _ h1 => simp [Call.defines] at h1
    · cases hch with
      | query _ _ he => simp [Call.effectful] at he
      | cells _ _ _ _ _ h1 => simp [Call.defines] at h1
      | init => rfl
      | vertices _ _ _ h1 => simp [Call.defines] at h1
  refine defines_locked hd (by rw [hph]; simp) fun k hk => ?_
  rw [H'.lock hph m k hk, hok]
  rcases hc with ⟨dt, e, rfl⟩ | ⟨e, rfl⟩ <;> simp [resetSince]

/-! ## C36 -/

/-- A successful `initialize` in a history. -/
def isInit : Call d × Outcome → Bool
  | (.initialize _, .ok _) => true
  | _ => false

/-- A successful `finalize` in a history. -/
def isFin : Call d × Outcome → Bool
  | (.finalize, .ok _) => true
  | _ => false

/-- Relation between history (latest first) and phase. -/
structure OrderInv (h : Hist d) (p : Participant d) : Prop where
  inits : h.countP isInit ≤ 1
  fins : h.countP isFin ≤ 1
  constr : p.phase = .constructed → h.countP isInit = 0 ∧ h.countP isFin = 0
  run : p.phase = .initialized → h.countP isInit = 1 ∧ h.countP isFin = 0
  fin : p.phase = .finalized → h.countP isFin = 1
  /-- what a successful call implies for the calls before -/
  before : ∀ l c r h', h = l ++ (c, .ok r) :: h' → h'.countP isFin = 0 ∧
    (∀ dt e, c = .advance dt e → h'.countP isInit = 1)

theorem order_quiet {h : Hist d} {p p' : Participant d} {c : Call d} {o : Outcome} (H : OrderInv h p)
    (hp : p'.phase = p.phase) (h1 : isInit (c, o) = false) (h2 : isFin (c, o) = false)
    (h3 : ∀ r, o = .ok r → p.phase ≠ .finalized ∧ ∀ dt e, c = .advance dt e → p.phase = .initialized) :
    OrderInv ((c, o) :: h) p' := by
  refine ⟨?_, ?_, ?_, ?_, ?_, ?_⟩
  · rw [List.countP_cons, h1]; exact H.inits
  · rw [List.countP_cons, h2]; exact H.fins
  · rw [List.countP_cons, List.countP_cons, h1, h2, hp]; exact H.constr
  · rw [List.countP_cons, List.countP_cons, h1, h2, hp]; exact H.run
  · rw [List.countP_cons, h2, hp]; exact H.fin
  · intro l c' r h' he
    cases l with
    | nil =>
      simp only [List.nil_append, List.cons.injEq, Prod.mk.injEq] at he
      obtain ⟨⟨rfl, rfl⟩, rfl⟩ := he
      obtain ⟨a, b⟩ := h3 r rfl
      refine ⟨?_, fun dt e hc => (H.run (b dt e hc)).1⟩
      cases hph : p.phase with
      | constructed => exact (H.constr hph).2
      | initialized => exact (H.run hph).2
      | finalized => exact absurd hph a
    | cons x l =>
      simp only [List.cons_append, List.cons.injEq] at he
      exact H.before l c' r h' he.2

theorem order_change {h : Hist d} {p p' : Participant d} {c : Call d} {o : Outcome} (H : OrderInv h p)
    (hc : Change p c o p') : OrderInv ((c, o) :: h) p' := by
  have quiet_defines : ∀ {c : Call d} {m : String} {o : Outcome}, c.defines = some m →
      isInit (c, o) = false ∧ isFin (c, o) = false ∧ ∀ dt e, c ≠ .advance dt e := by
    intro c m o hd
    cases c <;> simp_all [Call.defines, isInit, isFin]
  cases hc with
  | err => exact order_quiet H rfl (by cases c <;> rfl) (by cases c <;> rfl) (by simp)
  | ub => exact order_quiet H rfl (by cases c <;> rfl) (by cases c <;> rfl) (by simp)
  | query _ r he hf =>
    refine order_quiet H rfl ?_ ?_ ?_
    · cases c <;> first | rfl | simp [Call.effectful] at he
    · cases c <;> first | rfl | simp [Call.effectful] at he
    · intro r _
      refine ⟨hf, ?_⟩
      rintro dt e rfl
      simp [Call.effectful] at he
  | advErr => exact order_quiet H rfl rfl rfl (by simp)
  | initReq _ _ hp => exact order_quiet H rfl rfl rfl (by simp [hp])
  | cells _ _ m k x h1 h2 hm =>
    obtain ⟨a, b, e⟩ := quiet_defines (o := o) h1
    exact order_quiet H rfl a b (fun r _ => ⟨hm.notFin, fun dt e' h => absurd h (e dt e')⟩)
  | vertices _ m k h1 h2 hm =>
    obtain ⟨a, b, e⟩ := quiet_defines (o := .ok (.ids (createVertices k.mesh c.points).2)) h1
    exact order_quiet H rfl a b (fun r _ => ⟨hm.notFin, fun dt e' h => absurd h (e dt e')⟩)
  | reset m k l hp => exact order_quiet H rfl rfl rfl (by simp [hp])
  | writeNone m data hp => exact order_quiet H rfl rfl rfl (by simp [hp])
  | write m data ids vals k w b hp => exact order_quiet H rfl rfl rfl (by simp [hp])
  | adv dt e hp =>
    refine order_quiet H ?_ rfl rfl (by simp [hp])
    unfold advDone
    simp only
    split <;> split <;> rfl
  | init e hp =>
    obtain ⟨a, b⟩ := H.constr hp
    refine ⟨?_, ?_, ?_, ?_, ?_, ?_⟩
    · rw [List.countP_cons, a]; simp [isInit]
    · rw [List.countP_cons, b]; simp [isFin]
    · intro h; simp [initDone] at h
    · intro _; rw [List.countP_cons, List.countP_cons, a, b]; simp [isInit, isFin]
    · intro h; simp [initDone] at h
    · intro l c' r h' he
      cases l with
      | nil =>
        simp only [List.nil_append, List.cons.injEq, Prod.mk.injEq] at he
        obtain ⟨⟨rfl, -⟩, rfl⟩ := he
        exact ⟨b, by simp⟩
      | cons x l =>
        simp only [List.cons_append, List.cons.injEq] at he
        exact H.before l c' r h' he.2
  | fin hp =>
    have b : h.countP isFin = 0 := by
      cases hph : p.phase with
      | constructed => exact (H.constr hph).2
      | initialized => exact (H.run hph).2
      | finalized => exact absurd hph hp
    refine ⟨?_, ?_, ?_, ?_, ?_, ?_⟩
    · rw [List.countP_cons]; simpa [isInit] using H.inits
    · rw [List.countP_cons, b]; simp [isFin]
    · intro h; simp at h
    · intro h; simp at h
    · intro _; rw [List.countP_cons, b]; simp [isFin]
    · intro l c' r h' he
      cases l with
      | nil =>
        simp only [List.nil_append, List.cons.injEq, Prod.mk.injEq] at he
        obtain ⟨⟨rfl, -⟩, rfl⟩ := he
        exact ⟨b, by simp⟩
      | cons x l =>
        simp only [List.cons_append, List.cons.injEq] at he
        exact H.before l c' r h' he.2

theorem run_order {p : Participant d} (h : p.Configured) (cs : List (Call d)) : OrderInv (p.hist cs) (p.after cs) := by
  have := run_induct (P := fun h p => OrderInv h p) (fun h p c H => order_change H (exec_change p c)) p cs []
    ⟨by simp, by simp, by simp, by simp [h.phase], by simp [h.phase], by simp⟩
  simpa [hist, after] using this

/-- In every run `initialize` and `finalize` succeed at most once, no call succeeds after `finalize`, and
every successful `advance` comes after a successful `initialize`. -/
theorem C36_order {p : Participant d} (h : p.Configured) (cs : List (Call d)) :
    (p.run cs).1.countP isInit ≤ 1 ∧ (p.run cs).1.countP isFin ≤ 1 ∧
      ∀ before c r rest, (p.run cs).1 = before ++ (c, .ok r) :: rest →
        before.countP isFin = 0 ∧ (∀ dt e, c = .advance dt e → before.countP isInit = 1) := by
  have H := run_order h cs
  unfold hist at H
  refine ⟨?_, ?_, ?_⟩
  · have := H.inits; rwa [List.countP_reverse] at this
  · have := H.fins; rwa [List.countP_reverse] at this
  · intro before c r rest he
    have h1 := H.before rest.reverse c r before.reverse (by rw [he]; simp)
    rwa [List.countP_reverse, List.countP_reverse] at h1

/-- `advance` is only accepted while the coupling is ongoing. -/
theorem C36_advance (p : Participant d) (dt : ℚ) (e : Env d) (r : Resp) (h : (p.exec (.advance dt e)).1 = .ok r) :
    p.phase = .initialized ∧ p.view.ongoing = true ∧ 0 < dt ∧ dt ≤ p.view.maxStep + tol := by
  have hch := exec_change p (.advance dt e)
  generalize p.exec (.advance dt e) = out at *
  obtain ⟨o, p'⟩ := out
  simp only at h hch ⊢
  subst h
  cases hch with
  | query _ _ he => simp [Call.effectful] at he
  | cells _ _ _ _ _ h1 => simp [Call.defines] at h1
  | adv _ _ hp h1 h2 h3 h4 =>
    refine ⟨hp, h1, h3, ?_⟩
    unfold greaterEquals at h4
    linarith
  | vertices _ _ _ h1 => simp [Call.defines] at h1

/-- The other direction: correct use is accepted (given that the internals report no error). -/
theorem C36_accepts (p : Participant d) (dt : ℚ) (e : Env d) (hg : e.good = true) :
    (p.phase = .constructed → (p.initRequired = true → p.initFulfilled = true) →
      (p.exec (.initialize e)).1 = .ok .unit) ∧
    (p.phase = .initialized → p.view.ongoing = true → tol < dt → dt ≤ p.view.maxStep → p.locks.checkAll = true →
      (p.exec (.advance dt e)).1 = .ok .unit) ∧
    (p.phase ≠ .finalized → (p.exec .finalize).1 = .ok .unit) := by
  refine ⟨fun h1 h2 => ?_, fun h1 h2 h3 h4 h5 => ?_, fun h => ?_⟩
  · simp only [exec, init, require, h1, hg]
    cases hr : p.initRequired <;> simp_all
  · have t := tol_pos
    have e1 : ¬ equals dt 0 := by rw [equals_iff]; intro h; linarith [h.2]
    have e2 : greaterEquals p.view.maxStep dt := by unfold greaterEquals; linarith
    have e3 : 0 < dt := by linarith
    simp [exec, advance, require, h1, h2, e1, e2, e3, h5, hg]
  · simp [exec, finalize, require, h]

theorem require_ub {p : Participant d} {c : Prop} [Decidable c] {k : Outcome × Participant d}
    (h : (p.require c k).1 = .ub) : c ∧ k.1 = .ub := by
  unfold require at h; split at h
  · exact ⟨‹_›, h⟩
  · simp at h

theorem modify_ub {p : Participant d} {m : String} {k : MeshCtx d → Outcome × Participant d}
    (hk : ∀ c, (k c).1 ≠ .ub) (h : (p.modify m k).1 = .ub) : p.phase = .finalized := by
  unfold modify accessor at h
  split at h
  · assumption
  · split at h
    · simp at h
    · have := (require_ub h).2
      split at this
      · exact absurd this (hk _)
      · simp at this

theorem require_ne {p : Participant d} {c : Prop} [Decidable c] {k : Outcome × Participant d} (h : k.1 ≠ .ub) :
    (p.require c k).1 ≠ .ub := fun e => h (require_ub e).2

theorem connect_ub {p : Participant d} {m : String} {create : Mesh d → List ℕ → Mesh d} {dim3 unique : Bool}
    {n : ℕ} {ids : List ℤ} (h : (p.connect m create dim3 n unique ids).1 = .ub) : p.phase = .finalized := by
  unfold connect at h
  refine modify_ub (fun c => require_ne ?_) h
  split
  · simp
  · exact require_ne (require_ne (require_ne (by simp)))

theorem quads_ub {p : Participant d} {m : String} {ids : List ℤ} (h : (p.quads m ids).1 = .ub) :
    p.phase = .finalized := by
  unfold quads at h
  refine modify_ub (fun c => ?_) h
  split
  · simp
  · exact require_ne (require_ne (createQuads_no_ub _ _))

/-- After any sequence of calls, undefined behaviour is only possible in two ways: `advance` outside of
`initialize` .. `finalize`, and mesh functions after `finalize`. Missing (`_partial`): the claim asks for an
error in these cases, see `C36_advance_first` and `C36_mesh_after_finalize`. -/
theorem C36_no_ub_partial {p0 : Participant d} (h0 : p0.Configured) (cs : List (Call d)) (c : Call d)
    (h : ((p0.after cs).exec c).1 = .ub) :
    (∃ dt e, c = .advance dt e ∧ (p0.after cs).phase ≠ .initialized) ∨
      (unguarded c = true ∧ (p0.after cs).phase = .finalized) := by
  obtain ⟨hI, -⟩ := run_invs h0 cs
  generalize p0.after cs = p at *
  cases c with
  | «initialize» e =>
    exact absurd (require_ub (require_ub (require_ub (require_ub h).2).2).2).2 (by simp)
  | advance dt e =>
    refine .inl ⟨dt, e, rfl, fun hp => ?_⟩
    simp only [exec, advance, hp] at h
    rw [if_neg (by simp)] at h
    have := (require_ub (require_ub (require_ub (require_ub h).2).2).2).2
    split at this
    · simp at this
    · exact absurd (require_ub this).2 (by simp)
  | finalize => exact absurd (require_ub h).2 (by simp)
  | isCouplingOngoing => exact absurd (require_ub h).2 (by simp)
  | isTimeWindowComplete => exact absurd (require_ub h).2 (by simp)
  | getMaxTimeStepSize => exact absurd (require_ub h).2 (by simp)
  | requiresInitialData => exact absurd (require_ub h).2 (by simp)
  | getMeshDimensions m =>
    refine .inr ⟨rfl, ?_⟩
    simp only [exec, accessor] at h
    split at h
    · assumption
    · exact absurd (require_ub h).2 (by simp)
  | requiresMeshConnectivityFor m =>
    refine .inr ⟨rfl, ?_⟩
    simp only [exec, accessor] at h
    split at h
    · assumption
    · split at h <;> simp at h
  | getMeshVertexSize m =>
    refine .inr ⟨rfl, ?_⟩
    simp only [exec, accessor] at h
    split at h
    · assumption
    · split at h
      · simp at h
      · exact absurd (require_ub h).2 (by simp)
  | resetMesh m =>
    have := (require_ub (require_ub (require_ub (require_ub (require_ub (require_ub h).2).2).2).2).2).2
    split at this <;> simp at this
  | setMeshVertex m pos => exact .inr ⟨rfl, modify_ub (fun c => require_ne (by simp)) h⟩
  | setMeshVertices m pos n => exact .inr ⟨rfl, modify_ub (fun c => require_ne (by simp)) h⟩
  | setMeshEdge m a b => exact .inr ⟨rfl, connect_ub h⟩
  | setMeshEdges m ids => exact .inr ⟨by simp [unguarded, Call.defines], connect_ub h⟩
  | setMeshTriangle m a b c => exact .inr ⟨rfl, connect_ub h⟩
  | setMeshTriangles m ids => exact .inr ⟨by simp [unguarded, Call.defines], connect_ub h⟩
  | setMeshQuad m a b c e => exact .inr ⟨rfl, quads_ub h⟩
  | setMeshQuads m ids => exact .inr ⟨by simp [unguarded, Call.defines], quads_ub h⟩
  | setMeshTetrahedron m a b c e => exact .inr ⟨rfl, connect_ub h⟩
  | setMeshTetrahedra m ids => exact .inr ⟨by simp [unguarded, Call.defines], connect_ub h⟩
  | writeData m data ids vals =>
    exfalso
    have := (require_ub (require_ub h).2).2
    unfold dataAccess at this
    split at this
    · simp at this
    · rename_i k hk
      have := (require_ub this).2
      split at this
      · simp at this
      · rename_i w hw
        split at this
        · simp at this
        · have h1 := require_ub this
          have h2 := require_ub h1.2
          have hwm : w.mesh = m ∧ w.data = data := by simpa using List.find?_some hw
          have hlen := hI.size w (List.mem_of_find?_eq_some hw) k (hwm.1.symm ▸ hk)
          obtain ⟨b, hb⟩ := writeBuffer_total (dims := w.dims) (vals := vals) (ids := ids) (i := 0) (b := w.buffer)
            (fun x hx => by
              have := List.all_eq_true.1 h2.1 x hx
              unfold Mesh.isValidVertexID at this; simp at this; omega)
          have h3 := h2.2
          rw [hb] at h3
          simp at h3
  | readData m data ids t n =>
    exfalso
    have := (require_ub (require_ub (require_ub (require_ub (require_ub h).2).2).2).2).2
    unfold dataAccess at this
    split at this
    · simp at this
    · have := (require_ub this).2
      split at this
      · simp at this
      · have := (require_ub this).2
        split at this
        · simp at this
        · split at this
          · simp at this
          · exact absurd (require_ub (require_ub this).2).2 (by simp)
  | mapAndReadData m data coords t n =>
    exfalso
    have := (require_ub (require_ub (require_ub (require_ub (require_ub (require_ub h).2).2).2).2).2).2
    unfold dataAccess at this
    split at this
    · simp at this
    · have := (require_ub this).2
      split at this
      · simp at this
      · have := (require_ub (require_ub (require_ub this).2).2).2
        split at this
        · simp at this
        · exact absurd (require_ub (require_ub this).2).2 (by simp)

/-- Disagreement: calling `advance` before `initialize` or after `finalize` dereferences a null pointer before
the check that is meant to report it. -/
theorem C36_advance_first (p : Participant d) (dt : ℚ) (e : Env d) (h : p.phase ≠ .initialized) :
    (p.exec (.advance dt e)).1 = .ub := by
  simp [exec, advance, h]

/-- Disagreement: mesh functions after `finalize` use the released configuration. -/
theorem C36_mesh_after_finalize (p : Participant d) (c : Call d) (h : p.phase = .finalized) (hc : unguarded c = true) :
    (p.exec c).1 = .ub := by
  cases c <;> simp [unguarded, cellIds, Call.defines] at hc <;>
    simp [exec, accessor, connect, quads, setMeshVertex, setMeshVertices, modify, h]

/-! ## C37 -/

theorem connect_invalid {p : Participant d} {m : String} {create : Mesh d → List ℕ → Mesh d} {dim3 unique : Bool}
    {n : ℕ} {ids : List ℤ} {k : MeshCtx d} (hk : p.meshCtx m = some k) (hi : ∃ i ∈ ids, k.mesh.isValidVertexID i = false) :
    (p.connect m create dim3 n unique ids).2 = p ∧
      (k.full = true → ∀ r, (p.connect m create dim3 n unique ids).1 ≠ .ok r) := by
  have hall : ¬ ids.all (fun i => k.mesh.isValidVertexID i) = true := by
    rw [List.all_eq_true]
    obtain ⟨i, h1, h2⟩ := hi
    intro h; rw [h i h1] at h2; simp at h2
  unfold connect modify accessor require
  rw [hk]
  simp only [hall]
  repeat' split
  all_goals try (refine ⟨rfl, ?_⟩)
  all_goals simp_all

theorem quads_invalid {p : Participant d} {m : String} {ids : List ℤ} {k : MeshCtx d} (hk : p.meshCtx m = some k)
    (hi : ∃ i ∈ ids, k.mesh.isValidVertexID i = false) :
    (p.quads m ids).2 = p ∧ (k.full = true → ∀ r, (p.quads m ids).1 ≠ .ok r) := by
  have hall : ¬ ids.all (fun i => k.mesh.isValidVertexID i) = true := by
    rw [List.all_eq_true]
    obtain ⟨i, h1, h2⟩ := hi
    intro h; rw [h i h1] at h2; simp at h2
  unfold quads modify accessor require
  rw [hk]
  simp only [hall]
  repeat' split
  all_goals try (refine ⟨rfl, ?_⟩)
  all_goals simp_all

/-- A connectivity call with an ID outside of `0, ..., getMeshVertexSize() - 1` changes nothing, and does not
succeed if connectivity is required for this mesh (otherwise all connectivity calls are ignored). -/
theorem C37_connectivity (p : Participant d) (c : Call d) (m : String) (k : MeshCtx d) (hd : c.defines = some m)
    (hk : p.meshCtx m = some k) (hi : ∃ i ∈ cellIds c, i < 0 ∨ (k.mesh.verts.length : ℤ) ≤ i) :
    (p.exec c).2 = p ∧ (k.full = true → ∀ r, (p.exec c).1 ≠ .ok r) := by
  have hi' : ∃ i ∈ cellIds c, k.mesh.isValidVertexID i = false := by
    obtain ⟨i, h1, h2⟩ := hi
    refine ⟨i, h1, ?_⟩
    unfold Mesh.isValidVertexID
    simp; omega
  cases c <;> simp only [Call.defines, Option.some.injEq, reduceCtorEq] at hd <;> subst hd <;>
    simp only [exec] <;> first
      | exact connect_invalid hk hi'
      | exact quads_invalid hk hi'
      | (simp [cellIds] at hi')

/-- Writing to or reading from an unknown vertex is an error that changes nothing. -/
theorem C37_data (p : Participant d) (m data : String) (k : MeshCtx d) (ids : List ℤ) (vals : List ℚ) (t : ℚ) (n : ℕ)
    (hk : p.meshCtx m = some k) (hi : ∃ i ∈ ids, i < 0 ∨ (k.mesh.verts.length : ℤ) ≤ i) :
    p.exec (.writeData m data ids vals) = (.error, p) ∧ p.exec (.readData m data ids t n) = (.error, p) := by
  have hall : ¬ ids.all (fun i => k.mesh.isValidVertexID i) = true := by
    rw [List.all_eq_true]
    obtain ⟨i, h1, h2⟩ := hi
    intro h
    have := h i h1
    unfold Mesh.isValidVertexID at this; simp at this; omega
  have hne : ids ≠ [] := by rintro rfl; simp at hi
  constructor
  · simp only [exec, writeData, dataAccess, require, hk, hne, hall]
    repeat' split
    all_goals simp_all
  · simp only [exec, readData, readable, dataAccess, require, hk, hne, hall]
    repeat' split
    all_goals simp_all

end Verif.Api.Participant
