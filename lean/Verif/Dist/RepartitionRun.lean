import Verif.Dist.RepartitionMesh

/-!
# All ranks compute the partition of a received mesh

Lemmas for C112: the protocol of `Verif.Repartition.compute` completes.
-/

set_option autoImplicit false

namespace Verif.Repartition

open Verif.Dist Verif.Com

variable {d n : ℕ}

/-- The mesh a rank has after the geometric filter. -/
def candidates (c : Cfg) (x : Local (d + 1)) (m : Mesh (d + 1)) : Mesh (d + 1) :=
  if c.filter = .none then m else Mesh.filter (Mesh.empty (d + 1)) m (inside (prepareBox c x))

theorem replaceBy_ok {ι : Type} {m : Mesh d} (h : m.Ok) : (replaceBy m : Prog ι (Msg d) (Mesh d)) = .ret m := by
  unfold replaceBy
  rw [addMesh_empty h]

theorem filter_core {m : Mesh d} (hm : m.Ok) (hc : m.verts.map core = m.verts) (p : Vertex d → Bool) :
    (Mesh.filter (Mesh.empty d) m p).verts.map core = (Mesh.filter (Mesh.empty d) m p).verts := by
  obtain ⟨h1, -⟩ := Mesh.C41_filter (Mesh.empty d) m hm p
  rw [h1]
  have : ∀ v ∈ m.verts, core v = v := by
    intro v hv
    rw [← hc] at hv
    obtain ⟨w, -, rfl⟩ := List.mem_map.1 hv
    rfl
  have h2 : ∀ v ∈ ([] : List (Vertex d)) ++ m.verts.filter p, core v = v := fun v hv => this v (List.mem_of_mem_filter (by simpa using hv))
  exact (List.map_congr_left h2).trans (List.map_id _)

/-- The mesh the ranks start with. -/
def start (m : Mesh d) (r : Fin (n + 1)) : Mesh d := if r = 0 then m else Mesh.empty d

theorem broadcast_completes {m : Mesh d} (hc : m.verts.map core = m.verts) :
    RNet.AlwaysCompletes (fun r : Fin (n + 1) => broadcastMesh r (start m r)) fun _ => m := by
  obtain ⟨k, hk⟩ := star_scatter (c := (0 : Fin (n + 1))) (fun _ => Msg.mesh m) (.ret m)
    (fun _ a => match a with | .mesh m' => .ret (appended (Mesh.empty d) m') | _ => .fail .assert)
    (secondaries n) (secondaries_nodup n) (zero_notMem_secondaries n) (fun r => broadcastMesh r (start m r)) rfl (by
      intro r hr
      simp only [broadcastMesh, if_neg ((mem_secondaries r).1 hr)]
      rfl)
  refine RNet.alwaysCompletes_of_steps hk fun r => ?_
  by_cases h : r = 0
  · simp only [h, if_true]
  · simp only [h, if_false, if_pos ((mem_secondaries r).2 h), appended_empty hc]

theorem serve_completes {m : Mesh d} (hm : m.Ok) (hc : m.verts.map core = m.verts) (bb : Fin (n + 1) → Box d) (provided : Fin (n + 1) → Bool)
    (hp : ∀ r, provided r = true → (Mesh.filter (Mesh.empty d) m (inside (bb r))).verts ≠ []) :
    RNet.AlwaysCompletes (fun r : Fin (n + 1) => filterByBox .onPrimary (provided r) (bb r) r (start m r)) fun r => Mesh.filter (Mesh.empty d) m (inside (bb r)) := by
  set K : Prog (Fin (n + 1)) (Msg d) (Mesh d) := (replaceBy (Mesh.filter (Mesh.empty d) m (inside (bb 0)))).bind (notFilteredOut (provided 0)) with hK
  have hK' : K = .ret (Mesh.filter (Mesh.empty d) m (inside (bb 0))) := by
    rw [hK, replaceBy_ok (filter_ok hm _)]
    simp only [Prog.ret_bind, notFilteredOut, Prog.ensure, if_pos (hp 0)]
  obtain ⟨k, hk⟩ := star_loop (c := (0 : Fin (n + 1))) (fun (_ : Unit) _ => ()) (fun l _ => serve m K l)
    (fun r => .send 0 (.box (bb r)) (receiveMesh (notFilteredOut (provided r)))) (fun r _ => .ret (Mesh.filter (Mesh.empty d) m (inside (bb r))))
    (fun r l _ => by
      rw [serve, receiveMesh]
      refine .bwd (.fwd ?_)
      simp only [appended_empty (filter_core hm hc _), notFilteredOut, Prog.ensure, if_pos (hp r)]
      exact .refl _ _)
    (secondaries n) (secondaries_nodup n) (zero_notMem_secondaries n) () (fun r => filterByBox .onPrimary (provided r) (bb r) r (start m r)) (by
      simp only [filterByBox, start, if_true, hK]) (by
      intro r hr
      simp only [filterByBox, if_neg ((mem_secondaries r).1 hr)])
  refine RNet.alwaysCompletes_of_steps hk fun r => ?_
  by_cases h : r = 0
  · subst h
    simp only [if_true, serve]
    exact hK'
  · simp only [h, if_false, if_pos ((mem_secondaries r).2 h)]

theorem filter_completes {m : Mesh (d + 1)} (hm : m.Ok) (hc : m.verts.map core = m.verts) (c : Cfg) (x : Fin (n + 1) → Local (d + 1))
    (hp : c.filter ≠ .none → ∀ r, (x r).provided = true → (candidates c (x r) m).verts ≠ []) :
    RNet.AlwaysCompletes (fun r => filterByBox c.filter (x r).provided (prepareBox c (x r)) r (start m r)) fun r => candidates c (x r) m := by
  unfold candidates at hp ⊢
  cases hf : c.filter with
  | onPrimary =>
    simp only [hf, if_neg (by decide : ¬ GeoFilter.onPrimary = GeoFilter.none)] at hp ⊢
    exact serve_completes hm hc _ _ fun r hr => hp (by decide) r hr
  | onSecondary =>
    simp only [hf, if_neg (by decide : ¬ GeoFilter.onSecondary = GeoFilter.none)] at hp ⊢
    refine (broadcast_completes hc).bind (f := fun r m => (replaceBy (Mesh.filter (Mesh.empty (d + 1)) m (inside (prepareBox c (x r))))).bind (notFilteredOut (x r).provided))
      (RNet.alwaysCompletes_of_steps (.refl _) fun r => ?_)
    simp only [replaceBy_ok (filter_ok hm _), Prog.ret_bind, notFilteredOut, Prog.ensure, if_pos (hp (by decide) r)]
  | none =>
    simp only [if_true]
    exact broadcast_completes hc

/-- The mesh after the owners have been set. -/
def owned (c : Cfg) (x : Local (d + 1)) (m : Mesh (d + 1)) (own : List Bool) : Mesh (d + 1) := setOwners own (tagFirst c x (candidates c x m))

/-- The mesh a rank keeps. -/
def kept (c : Cfg) (x : Local (d + 1)) (m : Mesh (d + 1)) (own : List Bool) : Mesh (d + 1) :=
  let m2 := owned c x m own
  Mesh.filter (Mesh.empty (d + 1)) (tagVerts (fun v => x.tag2 m2 v.globalIndex) m2) fun v => v.tagged

theorem feedback_completes (l : Fin (n + 1) → List ℕ) :
    RNet.AlwaysCompletes (fun r => (feedback r (l r) : Prog (Fin (n + 1)) (Msg d) _)) fun r => if r = 0 then l else fun _ => [] := by
  obtain ⟨k, hk⟩ := star_gather (c := (0 : Fin (n + 1))) (fun s q (m : Msg d) => Function.update s q (m.nums?.getD [])) .ret (fun r => .nums (l r)) (fun _ => .ret fun _ => [])
    (secondaries n) (secondaries_nodup n) (zero_notMem_secondaries n) (Function.update (fun _ => []) 0 (l 0)) (fun r => feedback r (l r)) rfl (by
      intro r hr
      simp only [feedback, if_neg ((mem_secondaries r).1 hr)])
  have hfold : ∀ (s : Fin (n + 1) → List ℕ) (q : List (Fin (n + 1))), (∀ r, r ∉ q → s r = l r) →
      q.foldl (fun s r => Function.update s r ((Msg.nums (d := d) (l r)).nums?.getD [])) s = l := by
    intro s q
    induction q generalizing s with
    | nil => intro h; exact funext fun r => h r (by simp)
    | cons a q ih =>
      intro h
      rw [List.foldl_cons]
      refine ih _ fun r hr => ?_
      by_cases e : r = a
      · subst e; rw [Function.update_self]; rfl
      · rw [Function.update_of_ne e]; exact h r (by simp [e, hr])
  refine RNet.alwaysCompletes_of_steps hk fun r => ?_
  by_cases h : r = 0
  · simp only [h, if_true]
    rw [hfold]
    intro r hr
    have : r = 0 := by
      by_contra h
      exact hr ((mem_secondaries r).2 h)
    subst this
    exact Function.update_self ..
  · simp only [h, if_false, if_pos ((mem_secondaries r).2 h)]

theorem offsets_completes (count : Fin (n + 1) → ℕ) :
    RNet.AlwaysCompletes (fun r => (offsets r (count r) : Prog (Fin (n + 1)) (Msg d) _)) fun _ => offsetsOf count (n + 1) := by
  obtain ⟨k, hk⟩ := star_gather (c := (0 : Fin (n + 1))) (fun s _ (m : Msg d) => s ++ [(m.nums?.getD []).headD 0 + s.getLastD 0])
    (fun s => scatter (fun _ => .nums s) (.ret s) (secondaries n)) (fun r => .nums [count r]) (fun _ => .recv 0 fun m => .ret (m.nums?.getD []))
    (secondaries n) (secondaries_nodup n) (zero_notMem_secondaries n) [count 0] (fun r => offsets r (count r)) rfl (by
      intro r hr
      simp only [offsets, if_neg ((mem_secondaries r).1 hr)])
  have hfold : ∀ (q : List (Fin (n + 1))) (s : List ℕ) (t : ℕ),
      q.foldl (fun s r => s ++ [((Msg.nums (d := d) [count r]).nums?.getD []).headD 0 + s.getLastD 0]) s = (q.foldl (nextState count) (s, t)).1 := by
    intro q
    induction q with
    | nil => intro s t; rfl
    | cons a q ih => intro s t; rw [List.foldl_cons, List.foldl_cons]; exact ih _ _
  have hstate := fold_state count (le_refl n)
  rw [List.take_of_length_le (by simp [secondaries])] at hstate
  rw [hfold _ _ (count 0), hstate] at hk
  obtain ⟨k', hk'⟩ := star_scatter (c := (0 : Fin (n + 1))) (fun _ => Msg.nums (d := d) (offsetsOf count (n + 1))) (.ret (offsetsOf count (n + 1)))
    (fun _ m => .ret (m.nums?.getD []))
    (secondaries n) (secondaries_nodup n) (zero_notMem_secondaries n)
    (fun i => if i = 0 then scatter (fun _ => .nums (offsetsOf count (n + 1))) (.ret (offsetsOf count (n + 1))) (secondaries n) else
      if i ∈ secondaries n then .recv 0 fun m => .ret (m.nums?.getD []) else offsets i (count i)) (by simp only [if_true]) (by
      intro r hr
      simp only [if_neg ((mem_secondaries r).1 hr), if_pos hr])
  refine RNet.alwaysCompletes_of_steps (hk.trans hk') fun r => ?_
  by_cases h : r = 0
  · simp only [h, if_true]
  · simp only [h, if_false, if_pos ((mem_secondaries r).2 h)]
    rfl

theorem tagVerts_core (t : Vertex d → Bool) (m : Mesh d) : (tagVerts t m).verts.map core = m.verts.map core := by
  unfold tagVerts
  rw [List.map_map]
  rfl

theorem tagFirst_core (c : Cfg) (x : Local d) (m : Mesh d) : (tagFirst c x m).verts.map core = m.verts.map core := by
  unfold tagFirst
  simp only [tagVerts_core]
  split
  · exact tagVerts_core _ _
  · rfl

theorem setOwners_core {own : List Bool} {m : Mesh d} (h : own.length = m.verts.length) : (setOwners own m).verts.map core = m.verts.map core := by
  unfold setOwners
  simp only [List.map_zipWith]
  have : ∀ (l : List (Vertex d)) (o : List Bool), o.length = l.length → List.zipWith (fun v b => core { v with owner := b }) l o = l.map core := by
    intro l
    induction l with
    | nil => intro o _; simp
    | cons a l ih =>
      intro o ho
      cases o with
      | nil => simp at ho
      | cons b o => rw [List.zipWith_cons_cons, List.map_cons, ih o (by simpa using ho)]; rfl
  exact this _ _ h

theorem length_of_core {a b : Mesh d} (h : a.verts.map core = b.verts.map core) : a.verts.length = b.verts.length := by
  have := congrArg List.length h
  simpa using this

theorem ok_of_core {a b : Mesh d} (hb : b.Ok) (hv : a.verts.map core = b.verts.map core) (he : a.edges = b.edges) (ht : a.tris = b.tris) (htt : a.tets = b.tets) : a.Ok := by
  have hl := length_of_core hv
  exact ⟨by rw [hl, he]; exact hb.edges, by rw [hl, ht]; exact hb.tris, by rw [hl, htt]; exact hb.tets⟩

theorem tagFirst_cells (c : Cfg) (x : Local d) (m : Mesh d) : (tagFirst c x m).edges = m.edges ∧ (tagFirst c x m).tris = m.tris ∧ (tagFirst c x m).tets = m.tets := by
  unfold tagFirst tagVerts
  split <;> exact ⟨rfl, rfl, rfl⟩

theorem candidates_ok {m : Mesh (d + 1)} (hm : m.Ok) (c : Cfg) (x : Local (d + 1)) : (candidates c x m).Ok := by
  unfold candidates
  split
  · exact hm
  · exact filter_ok hm _

theorem owned_core {m : Mesh (d + 1)} {c : Cfg} {x : Local (d + 1)} {own : List Bool} (h : own.length = (candidates c x m).verts.length) :
    (owned c x m own).verts.map core = (candidates c x m).verts.map core := by
  unfold owned
  rw [setOwners_core (by rw [h, length_of_core (tagFirst_core c x _)]), tagFirst_core]

theorem owned_ok {m : Mesh (d + 1)} (hm : m.Ok) {c : Cfg} {x : Local (d + 1)} {own : List Bool} (h : own.length = (candidates c x m).verts.length) :
    (owned c x m own).Ok :=
  ok_of_core (candidates_ok hm c x) (owned_core h) (tagFirst_cells c x _).1 (tagFirst_cells c x _).2.1 (tagFirst_cells c x _).2.2

theorem tagged_ok {m : Mesh d} (hm : m.Ok) (t : Vertex d → Bool) : (tagVerts t m).Ok := ok_of_core hm (tagVerts_core t m) rfl rfl rfl

/-- All ranks complete if some rank needs a vertex and no rank with a local mesh loses all vertices; `own` are the owner vectors. -/
theorem compute_completes {m : Mesh (d + 1)} (hm : m.Ok) (hc : m.verts.map core = m.verts) (c : Cfg) (x : Fin (n + 1) → Local (d + 1)) (total : ℕ)
    (hcfg : c.mapped = true ∨ c.direct = true) (hp : c.filter ≠ .none → ∀ r, (x r).provided = true → (candidates c (x r) m).verts ≠ [])
    {own : Fin (n + 1) → List Bool} (ho : RNet.AlwaysCompletes (fun r => createOwners total r (ownerView (tagFirst c (x r) (candidates c (x r) m)))) own)
    (hl : ∀ r, (own r).length = (candidates c (x r) m).verts.length) :
    RNet.AlwaysCompletes (fun r => compute c total (x r) r (start m r)) fun r =>
      ⟨kept c (x r) m (own r), if r = 0 then fun s => gids (kept c (x s) m (own s)) else fun _ => [], offsetsOf (fun s => (kept c (x s) m (own s)).verts.length) (n + 1)⟩ := by
  unfold compute
  simp only [Prog.ensure, hcfg, implies_true, if_true]
  refine (filter_completes hm hc c x hp).bind ?_
  refine (RNet.AlwaysCompletes.lift (inj := Msg.nums (d := d + 1)) (proj := Msg.nums?) (fun _ => rfl) ho).bind (f := fun r own => (replaceBy (Mesh.filter (Mesh.empty (d + 1))
      (tagVerts (fun v => (x r).tag2 (setOwners own (tagFirst c (x r) (candidates c (x r) m))) v.globalIndex) (setOwners own (tagFirst c (x r) (candidates c (x r) m))))
      fun v => v.tagged)).bind fun m4 => (feedback r (gids m4)).bind fun dist => (offsets r m4.verts.length).bind fun offs => .ret (⟨m4, dist, offs⟩ : Part (d + 1) n)) ?_
  have e : ∀ r, (replaceBy (Mesh.filter (Mesh.empty (d + 1))
      (tagVerts (fun v => (x r).tag2 (setOwners (own r) (tagFirst c (x r) (candidates c (x r) m))) v.globalIndex) (setOwners (own r) (tagFirst c (x r) (candidates c (x r) m))))
      fun v => v.tagged) : Prog (Fin (n + 1)) (Msg (d + 1)) _) = .ret (kept c (x r) m (own r)) := fun r =>
    replaceBy_ok (filter_ok (tagged_ok (owned_ok hm (hl r)) _) _)
  simp only [e, Prog.ret_bind]
  refine (feedback_completes fun r => gids (kept c (x r) m (own r))).bind ?_
  refine (offsets_completes fun r => (kept c (x r) m (own r)).verts.length).bind ?_
  exact RNet.alwaysCompletes_of_steps (.refl _) fun r => rfl

end Verif.Repartition
