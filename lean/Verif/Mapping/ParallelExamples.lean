import Verif.Mapping.ParallelProjection

/-!
# Projection mappings of parallel participants: examples and counterexamples (C113)
-/

set_option autoImplicit false

namespace Verif.Mapping

open Verif.Repartition Verif.Com Verif.Dist Geometry

variable {d n : ℕ}

/-! ## A rank's mesh is determined up to flags -/

theorem map_inj_mem {α β : Type} {f : α → β} : ∀ {l l' : List α}, (∀ x ∈ l, ∀ y ∈ l', f x = f y → x = y) → l.map f = l'.map f → l = l' := by
  intro l
  induction l with
  | nil =>
    intro l' _ h
    cases l' with
    | nil => rfl
    | cons => simp at h
  | cons a l ih =>
    intro l' hi h
    cases l' with
    | nil => simp at h
    | cons b l' =>
      simp only [List.map_cons, List.cons.injEq] at h
      rw [hi a (by simp) b (by simp) h.1, ih (fun x hx y hy => hi x (by simp [hx]) y (by simp [hy])) h.2]

/-- Two parts with the same vertices differ at most in the flags of the vertices. -/
theorem restricts_unique {a b m : Mesh d} {p : Vertex d → Bool} (ha : a.Ok) (hb : b.Ok) (hn : (ids m).Nodup) (h : Restricts a m p) (h' : Restricts b m p) :
    a.verts.map core = b.verts.map core ∧ a.edges = b.edges ∧ a.tris = b.tris ∧ a.tets = b.tets := by
  have hv : a.verts.map core = b.verts.map core := by rw [h.verts, h'.verts]
  have hl : a.verts.length = b.verts.length := by simpa using congrArg List.length hv
  have hnm : named a = named b := funext fun c => List.map_congr_left fun i _ => name_of_verts hv i
  have hi : ids a = ids b := ids_of_verts hv
  have hinj : ∀ {k k' : ℕ} {cs cs' : List Cell}, Mesh.CellsOk a.verts.length k cs → Mesh.CellsOk b.verts.length k' cs' → cs.map (named a) = cs'.map (named a) → cs = cs' := by
    intro k k' cs cs' h1 h2 h3
    refine map_inj_mem (fun c hc c' hc' he => ?_) h3
    refine map_inj_mem (fun i hi j hj hij => ?_) he
    have e1 : a.verts[i]? = some _ := List.getElem?_eq_getElem ((h1 c hc).2.2.2 i hi)
    have e2 : a.verts[j]? = some _ := List.getElem?_eq_getElem (hl ▸ (h2 c' hc').2.2.2 j hj)
    exact ids_inj (h.nodup hn) e1 e2 (by rw [← name_some e1, ← name_some e2, hij])
  refine ⟨hv, hinj ha.edges hb.edges ?_, hinj ha.tris hb.tris ?_, hinj ha.tets hb.tets ?_⟩
  · rw [h.edges, hnm, h'.edges, hi]
  · rw [h.tris, hnm, h'.tris, hi]
  · rw [h.tets, hnm, h'.tets, hi]

/-- The search does not depend on the flags. -/
theorem search_flags (kind : Kind) {a b : Mesh d} (hv : a.verts.map core = b.verts.map core) (he : a.edges = b.edges) (ht : a.tris = b.tris) (htt : a.tets = b.tets) (u : Pt d) :
    search kind (bruteForce d) a u = search kind (bruteForce d) b u := by
  have hco : coordsOf a = coordsOf b := by
    funext i
    have := congrArg (fun l : List (Vertex d) => (l[i]?).map fun v => v.coords) hv
    simp only [List.getElem?_map, Option.map_map] at this
    unfold coordsOf
    exact congrArg (fun o => o.getD 0) this
  have hl : a.verts.length = b.verts.length := by simpa using congrArg List.length hv
  have hc : ∀ u cells l, candidates a u cells l = candidates b u cells l := by
    intro u cells l
    unfold candidates polation
    simp only [hco]
  have h1 : ∀ n, findVertexProjection (bruteForce d) a n = findVertexProjection (bruteForce d) b n := by
    intro n
    unfold findVertexProjection bruteForce
    simp only [hco, hl]
  have h2 : ∀ n cv, findEdgeProjection (bruteForce d) a u n cv = findEdgeProjection (bruteForce d) b u n cv := by
    intro n cv
    unfold findEdgeProjection bruteForce
    simp only [hc, he]
  have h3 : ∀ n cv, findTriangleProjection (bruteForce d) a u n cv = findTriangleProjection (bruteForce d) b u n cv := by
    intro n cv
    unfold findTriangleProjection
    simp only [h2, hc, ht]
    simp only [bruteForce, ht]
  have h4 : ∀ n, findNearestProjection (bruteForce d) a u n = findNearestProjection (bruteForce d) b u n := by
    intro n
    unfold findNearestProjection
    rw [h1, h2, h3]
  cases kind with
  | projection => exact h4 4
  | cell =>
    unfold search findCellOrProjection
    simp only [h4, hc, ht, htt]
    simp only [bruteForce, ht, htt]

namespace Example

open Access.Example (line)

/-! ## Two dimensions -/

def wide : Cfg := ⟨.onPrimary, 3, false, true, false⟩

def hereNP (con : Constraint) (r : Fin 2) : Local 2 :=
  ⟨[(Box.default 2).compute ((own r).verts.map fun w => w.coords)], true, Box.default 2, npTags .projection (bruteForce 2) con (own r), fun _ _ => false⟩

theorem line_clean : ∀ r : Fin 2, ∀ i < (own r).verts.length, Clean line (coordsOf (own r) i) := by
  have h : ∀ r : Fin 2, ∀ i < (own r).verts.length, ∀ c ∈ line.edges, ∀ p ∈ (polation line (coordsOf (own r) i) c).toList, ∀ e ∈ p.elems, equals e.2 0 → e.2 = 0 := by
    unfold equals tol
    decide +kernel
  exact fun r i hi c hc p hp => h r i hi c hc p (by rw [hp]; simp)

theorem reachNP (con : Constraint) : ∀ r : Fin 2, ∀ v ∈ line.verts, inside (prepareBox (d := 1) wide (hereNP con r)) v = true := by
  cases con <;> decide +kernel

theorem usesNP (con : Constraint) (r : Fin 2) : UsesNP (bruteForce 2) con wide (hereNP con r) (own r) line := by
  refine ⟨fun M g h => h, ?_, line_clean r⟩
  intro i hi
  obtain ⟨c, ws, h1, -, h3, h4, h5, h6, -⟩ := search_clean (bruteForce_valid 2) line_ok (by decide) (line_clean r i hi)
  refine ⟨c, _, h1, ⟨ws, h3, h4, h5, rfl⟩, h6, fun j _ v hv => ?_⟩
  have := reachNP con r v (List.mem_of_getElem? hv)
  unfold Reach
  rw [Bool.or_eq_true]
  exact .inr this

theorem foundNP (con : Constraint) : wide.filter ≠ .none → ∀ r, (hereNP con r).provided = true → ∃ v ∈ line.verts, inside (prepareBox (d := 1) wide (hereNP con r)) v = true := by
  exact fun _ r _ => ⟨_, List.mem_cons_self, reachNP con r _ List.mem_cons_self⟩

theorem line_data (j l : ℕ) (v : Vertex 2) (hv : line.verts[j]? = some v) (hl : (List.range 3)[l]? = some v.globalIndex.toNat) : l = j := by
  have h3 : j < 3 := (List.getElem?_eq_some_iff.1 hv).1
  have hl3 : l < 3 := by simpa using (List.getElem?_eq_some_iff.1 hl).1
  rw [List.getElem?_range hl3, Option.some.injEq] at hl
  have : ∀ j < 3, ((line.verts[j]?).map fun v => v.globalIndex.toNat) = some j := by decide
  have h := this j h3
  rw [hv, Option.map_some, Option.some.injEq] at h
  omega

example := C113_projection_2d (bruteForce_valid 2) (con := .consistent) (by decide) line_ok rfl (by decide) wide (hereNP .consistent) 3 (by decide) rfl (foundNP _) own (usesNP _)
  ⟨0, by decide⟩ 2 (by decide) (fun _ : Fin 1 => List.range 3) (fun _ => ⟨6, fun i => i⟩) (by decide) (fun v hv => one_rank (by decide) (by revert v; decide))
  (fun i => i) (by
    intro j v s l hv hl e _
    rw [line_data j l v hv hl, Nat.mul_comm])

example := C113_nn_same (bruteForce_valid 2) (con := .consistent) (by decide) line_ok rfl (by decide) cfg (here .consistent) 3 (by decide) rfl (found _) own (uses _)
  ⟨0, by decide⟩ 2 (by decide) (fun _ : Fin 1 => List.range 3) (fun _ => ⟨6, fun i => i⟩) (by decide) (fun v hv => one_rank (by decide) (by revert v; decide))
  (fun i => i) (by
    intro j v s l hv hl e _
    rw [line_data j l v hv hl, Nat.mul_comm]) (own 0)

example := C113_projection_2d_write (bruteForce_valid 2) line_ok rfl (by decide) wide (hereNP .conservative) 3 (by decide) rfl (foundNP _) own (usesNP _)
  ⟨0, by decide⟩ 2 (by decide) (fun _ : Fin 1 => [2, 0, 1]) (fun _ => ⟨6, fun i => i⟩) (by decide) (fun _ i => i)

/-! ## Three dimensions -/

/-- Two triangles with their edges, at the heights 1 and -2. -/
def plates : Mesh 3 :=
  ⟨[{ coords := ![-10, 0, 1], globalIndex := 0 }, { coords := ![10, 0, 1], globalIndex := 1 }, { coords := ![0, 10, 1], globalIndex := 2 },
    { coords := ![-10, -10, -2], globalIndex := 3 }, { coords := ![10, -10, -2], globalIndex := 4 }, { coords := ![0, 10, -2], globalIndex := 5 }],
    [[0, 1], [0, 2], [1, 2], [3, 4], [3, 5], [4, 5]], [[0, 1, 2], [3, 4, 5]], []⟩

/-- The second rank has a vertex between the triangles, below an edge of the upper one, and a vertex below both. -/
def between : Fin 2 → Mesh 3 := ![⟨[], [], [], []⟩, ⟨[{ coords := ![0, 0, 0] }, { coords := ![0, 0, -3] }], [], [], []⟩]

def platesAt (r : Fin 2) : Local 3 := ⟨[], decide (r = 1), Box.default 3, npTags .projection (bruteForce 3) .consistent (between r), fun _ _ => false⟩

def unfiltered : Cfg := ⟨.none, 1 / 2, false, true, false⟩

/-- 1 on the upper triangle, 0 on the lower one. -/
def upper (g : ℤ) : ℚ := if g < 3 then 1 else 0

theorem plates_ok : plates.Ok := by constructor <;> unfold Mesh.CellsOk <;> decide

/-- In three dimensions the number of ranks matters, even without geometric filter: a serial run gives the value 1 of the upper triangle, which is closest. A parallel run tags the two vertices
of the edge, as the third weight is zero; the rank does not keep the upper triangle and gives the value 0 of the lower one, which is farther away than the edge. -/
theorem C113_projection_3d_partial : ∃ second res, RNet.AlwaysCompletes (fun r : Fin 2 => compute (d := 2) (n := 1) unfiltered 6 (platesAt r) r (start (n := 1) plates r)) res ∧
    Repartitioned (d := 2) (n := 1) unfiltered platesAt plates (fun r => seen (d := 2) unfiltered (platesAt r) plates) second res ∧
    mapProjection .projection (bruteForce 3) .consistent plates (between 1) 1 (fun j => upper (name plates j)) 0 = 1 ∧
    mapProjection .projection (bruteForce 3) .consistent (res 1).mesh (between 1) 1 (fun j => upper (name (res 1).mesh j)) 0 = 0 := by
  have htag : ∀ v ∈ plates.verts, npTags .projection (bruteForce 3) .consistent (between 1) (seen (d := 2) unfiltered (platesAt 1) plates) v.globalIndex = decide (v.globalIndex ≠ 2) := by
    decide +kernel
  obtain ⟨second, res, h1, h2⟩ := C112_repartition (d := 2) (n := 1) (m := plates) plates_ok rfl (by decide) unfiltered platesAt 6 (by decide) (.inl rfl) (fun h => absurd rfl h)
    ⟨1, { coords := ![-10, 0, 1], globalIndex := 0 }, by simp [plates], rfl, by
      rw [Bool.or_eq_true]
      exact .inr ((htag _ (by simp [plates])).trans (by decide))⟩
  refine ⟨second, res, h1, h2, by decide +kernel, ?_⟩
  have hr : Restricts (Mesh.filter (Mesh.empty 3) plates fun v => decide (v.globalIndex ≠ 2)) plates fun v => decide (v.globalIndex ≠ 2) :=
    restricts_filter plates_ok (by decide) _ _ fun v _ => rfl
  have hp := (h2.mesh 1).congr (q := fun v => decide (v.globalIndex ≠ 2)) (by
    intro v hv
    have hv : v ∈ plates.verts := hv
    have h3 : (platesAt 1).tag1 (seen (d := 2) unfiltered (platesAt 1) plates) v.globalIndex = decide (v.globalIndex ≠ 2) := htag v hv
    rw [h3]
    simp only [Reach, Accessed, unfiltered, platesAt, decide_true, Bool.true_or, Bool.true_and, Bool.false_and, Bool.false_or, Bool.or_false])
  obtain ⟨e1, e2, e3, e4⟩ := restricts_unique (h2.ok 1) (filter_ok plates_ok _) (by decide) hp hr
  have hs := search_flags .projection e1 e2 e3 e4 (coordsOf (between 1) 0)
  have := consistent_value (n := 1) (k := 0) .projection (bruteForce 3) .consistent (by decide) (res 1).mesh (between 1) one_pos (fun j => upper (name (res 1).mesh j)) (i := 0) (by decide)
  rw [Nat.zero_mul, hs] at this
  refine this.trans ?_
  simp only [name_of_verts e1, Nat.mul_one, Nat.add_zero]
  decide +kernel

end Example

end Verif.Mapping
