import Verif.Mesh.Integrate
import Verif.Dist.Collective
import Mathlib.Data.List.Perm.Basic
import Mathlib.Data.List.Permutation

/-!
# Watch integrals in parallel

Model of `/repo/src/precice/impl/WatchIntegral.cpp`: `exportIntegralData` 59-101, `calculateIntegral` 103-121, `calculateSurfaceArea` 123-139 and the
column definition in `initialize` 46-57. Values are real, data has `n` components. A watch integral is only allowed on provided meshes
(ParticipantConfiguration.cpp:770-774).
-/

set_option autoImplicit false

namespace Verif
namespace WatchIntegral

open Integrate Geometry Verif.Dist

variable {d : ℕ}

/-! ## Model -/

/-- `calculateIntegral`, WatchIntegral.cpp:103-121 -/
noncomputable def rankIntegral (scaling : Bool) (m : Mesh d) (n : ℕ) (values : ℕ → ℝ) : Fin n → ℝ :=
  open Classical in
  if m.edges = [] ∨ scaling = false then fun k => ((List.range m.verts.length).map fun i => values (i * n + k)).sum
  else fun k => integrateSurface m n values k

/-- `calculateSurfaceArea` 123-139 and the fallback 92-98 for ranks without edges -/
noncomputable def rankArea (m : Mesh d) : ℝ :=
  open Classical in
  if m.edges = [] then 0
  else if d = 3 then (m.tris.map (cellMeasure m)).sum else (m.edges.map (cellMeasure m)).sum

/-- WatchIntegral.cpp:68-76: the integral on a rank, summed up on the primary one. A serial participant does not communicate, which is
what `reduceSum` does for a single rank. -/
noncomputable def total (scaling : Bool) {p : ℕ} (r : Fin (p + 1)) (m : Mesh d) (n : ℕ) (values : ℕ → ℝ) :
    Prog (Fin (p + 1)) (Fin n → ℝ) (Fin n → ℝ) :=
  reduceSum r (rankIntegral scaling m n values) 0

/-- WatchIntegral.cpp:87-99: the surface area -/
noncomputable def totalArea {p : ℕ} (r : Fin (p + 1)) (m : Mesh d) : Prog (Fin (p + 1)) ℝ ℝ := reduceSum r (rankArea m) 0

/-- WatchIntegral.cpp:48-51, 87-96: is there a column for the surface area? `m` is the mesh of the primary rank. -/
def hasAreaColumn (m : Mesh d) : Prop := m.edges ≠ []

/-! ## Specification -/

/-- A mesh `M` is distributed over ranks: vertex `i` of rank `r` is vertex `toGlobal r i` of `M`, and every surface element of `M` belongs to exactly one
rank (its corners may be listed in a different order). -/
structure Distributed {p : ℕ} (M : Mesh d) (m : Fin (p + 1) → Mesh d) (toGlobal : Fin (p + 1) → ℕ → ℕ) : Prop where
  coords : ∀ r i, i < (m r).verts.length → realCoords (m r) i = realCoords M (toGlobal r i)
  cells : ∃ cs : List Cell, List.Forall₂ List.Perm cs (cellsFor false M) ∧
    cs.Perm (List.ofFn fun r => (cellsFor false (m r)).map (List.map (toGlobal r))).flatten

/-- elements with the right number of corners, all of them vertices of the mesh -/
def WellFormed (m : Mesh d) : Prop :=
  (∀ e ∈ m.edges, e.length = 2) ∧ (∀ t ∈ m.tris, t.length = 3) ∧ ∀ c ∈ m.edges ++ m.tris, ∀ i ∈ c, i < m.verts.length

/-- total measure of the surface elements -/
noncomputable def surfaceArea (m : Mesh d) : ℝ := ((cellsFor false m).map (cellMeasure m)).sum

/-! ## Lemmas -/

theorem measure_swap2 (a b : Fin d → ℝ) : simplexMeasure d [a, b] = simplexMeasure d [b, a] := by
  have : edgeLength a b = edgeLength b a := by
    unfold edgeLength Geometry.norm
    congr 1
    exact Finset.sum_congr rfl fun i _ => by simp only [Pi.sub_apply]; ring
  unfold simplexMeasure
  rcases d with _ | _ | _ | _ | d <;> exact this

theorem measure_perm3 (p : Fin 3 → Fin d → ℝ) (i j k : Fin 3) (hij : i ≠ j) (hjk : j ≠ k) (hik : i ≠ k) :
    simplexMeasure d [p i, p j, p k] = simplexMeasure d [p 0, p 1, p 2] := by
  rcases d with _ | _ | _ | _ | d
  · rfl
  · rfl
  · exact (C88_area2 p).2.2 i j k hij hjk hik
  · exact (C88_area3 p).2.2 i j k hij hjk hik
  · rfl

theorem perm_two {β : Type} {a b x y : β} (h : [a, b].Perm [x, y]) : (x = a ∧ y = b) ∨ (x = b ∧ y = a) := by
  have ha : a ∈ [x, y] := h.subset (by simp)
  simp only [List.mem_cons, List.not_mem_nil, or_false] at ha
  rcases ha with rfl | rfl
  · rw [List.perm_cons, List.singleton_perm_singleton] at h
    exact .inl ⟨rfl, h.symm⟩
  · have := h.trans (List.Perm.swap a x [])
    rw [List.perm_cons, List.singleton_perm_singleton] at this
    exact .inr ⟨this.symm, rfl⟩

theorem measure_perm2 {a b : Fin d → ℝ} {c' : List (Fin d → ℝ)} (h : [a, b].Perm c') :
    simplexMeasure d [a, b] = simplexMeasure d c' := by
  have hl := h.length_eq
  match c', hl with
  | [x, y], _ =>
    rcases perm_two h with ⟨rfl, rfl⟩ | ⟨rfl, rfl⟩
    · rfl
    · exact measure_swap2 _ _

theorem measure_perm3' {a b c : Fin d → ℝ} {c' : List (Fin d → ℝ)} (h : [a, b, c].Perm c') :
    simplexMeasure d [a, b, c] = simplexMeasure d c' := by
  have hl := h.length_eq
  match c', hl with
  | [x, y, z], _ =>
    have key := measure_perm3 ![a, b, c]
    have ha : a ∈ [x, y, z] := h.subset (by simp)
    simp only [List.mem_cons, List.not_mem_nil, or_false] at ha
    rcases ha with rfl | rfl | rfl
    · rw [List.perm_cons] at h
      rcases perm_two h with ⟨rfl, rfl⟩ | ⟨rfl, rfl⟩
      · rfl
      · exact (key 0 2 1 (by decide) (by decide) (by decide)).symm
    · have := h.trans (List.Perm.swap a x [z])
      rw [List.perm_cons] at this
      rcases perm_two this with ⟨rfl, rfl⟩ | ⟨rfl, rfl⟩
      · exact (key 1 0 2 (by decide) (by decide) (by decide)).symm
      · exact (key 2 0 1 (by decide) (by decide) (by decide)).symm
    · have := h.trans ((List.Perm.swap a y []).cons x) |>.trans (List.Perm.swap a x [y])
      rw [List.perm_cons] at this
      rcases perm_two this with ⟨rfl, rfl⟩ | ⟨rfl, rfl⟩
      · exact (key 1 2 0 (by decide) (by decide) (by decide)).symm
      · exact (key 2 1 0 (by decide) (by decide) (by decide)).symm

theorem measure_perm {c c' : List (Fin d → ℝ)} (h : c.Perm c') (hl : c.length = 2 ∨ c.length = 3) :
    simplexMeasure d c = simplexMeasure d c' := by
  rcases hl with hl | hl
  · match c, hl with
    | [a, b], _ => exact measure_perm2 h
  · match c, hl with
    | [a, b, e], _ => exact measure_perm3' h

/-- contribution of one element -/
noncomputable def contribution (M : Mesh d) (f : ℕ → ℝ) (c : Cell) : ℝ :=
  simplexMeasure d (c.map (realCoords M)) * ((c.map f).sum / c.length)

theorem contribution_perm {M : Mesh d} {f : ℕ → ℝ} {c c' : Cell} (h : c.Perm c') (hl : c'.length = 2 ∨ c'.length = 3) :
    contribution M f c = contribution M f c' := by
  rw [← h.length_eq] at hl
  unfold contribution
  rw [measure_perm (h.map _) (by simpa using hl), (h.map f).sum_eq, h.length_eq]

theorem WellFormed.length {m : Mesh d} (h : WellFormed m) {c : Cell} (hc : c ∈ cellsFor false m) :
    c.length = 2 ∨ c.length = 3 := by
  unfold cellsFor at hc
  simp only [Bool.false_eq_true, if_false] at hc
  split at hc
  · exact .inl (h.1 c hc)
  · exact .inr (h.2.1 c hc)

theorem WellFormed.corner {m : Mesh d} (h : WellFormed m) {c : Cell} (hc : c ∈ cellsFor false m) :
    ∀ i ∈ c, i < m.verts.length := by
  unfold cellsFor at hc
  simp only [Bool.false_eq_true, if_false] at hc
  refine h.2.2 c (List.mem_append.2 ?_)
  split at hc
  · exact .inl hc
  · exact .inr hc

theorem sum_forall₂ {F : Cell → ℝ} {l l' : List Cell} (h : List.Forall₂ List.Perm l l')
    (hF : ∀ c c', List.Perm c c' → c' ∈ l' → F c = F c') : (l.map F).sum = (l'.map F).sum := by
  induction h with
  | nil => rfl
  | cons h _ ih =>
    rw [List.map_cons, List.map_cons, List.sum_cons, List.sum_cons, hF _ _ h (by simp),
      ih fun c c' hp hc => hF c c' hp (List.mem_cons_of_mem _ hc)]

/-- A sum over the surface elements of the whole mesh is the sum over the ranks of the sums over their elements. -/
theorem sum_distributed {p : ℕ} {M : Mesh d} {m : Fin (p + 1) → Mesh d} {g : Fin (p + 1) → ℕ → ℕ} (h : Distributed M m g)
    (hM : WellFormed M) (F : Cell → ℝ) (hF : ∀ c c' : Cell, c.Perm c' → (c'.length = 2 ∨ c'.length = 3) → F c = F c') :
    ((cellsFor false M).map F).sum = ∑ r, ((cellsFor false (m r)).map fun c => F (c.map (g r))).sum := by
  obtain ⟨cs, h1, h2⟩ := h.cells
  rw [← sum_forall₂ h1 fun c c' hp hc => hF c c' hp (hM.length hc), (h2.map F).sum_eq, List.map_flatten, List.sum_flatten,
    List.map_ofFn, List.map_ofFn, List.sum_ofFn]
  refine Finset.sum_congr rfl fun r _ => ?_
  simp only [Function.comp_apply, List.map_map]
  rfl

theorem integral_distributed {p : ℕ} {M : Mesh d} {m : Fin (p + 1) → Mesh d} {g : Fin (p + 1) → ℕ → ℕ}
    (h : Distributed M m g) (hM : WellFormed M) (hm : ∀ r, WellFormed (m r)) (f : ℕ → ℝ) :
    integral M (cellsFor false M) f = ∑ r, integral (m r) (cellsFor false (m r)) fun i => f (g r i) := by
  have := sum_distributed h hM (contribution M f) fun c c' hp hl => contribution_perm hp hl
  refine this.trans (Finset.sum_congr rfl fun r _ => ?_)
  unfold integral
  congr 1
  refine List.map_congr_left fun c hc => ?_
  unfold contribution
  rw [List.map_map, List.map_map, List.length_map]
  congr 2
  exact List.map_congr_left fun i hi => (h.coords r i ((hm r).corner hc i hi)).symm

theorem area_distributed {p : ℕ} {M : Mesh d} {m : Fin (p + 1) → Mesh d} {g : Fin (p + 1) → ℕ → ℕ}
    (h : Distributed M m g) (hM : WellFormed M) (hm : ∀ r, WellFormed (m r)) : surfaceArea M = ∑ r, surfaceArea (m r) := by
  have := sum_distributed h hM (cellMeasure M) fun c c' hp hl => by
    rw [← hp.length_eq] at hl
    exact measure_perm (hp.map _) (by simpa using hl)
  refine this.trans (Finset.sum_congr rfl fun r _ => ?_)
  unfold surfaceArea
  congr 1
  refine List.map_congr_left fun c hc => ?_
  unfold cellMeasure
  rw [List.map_map]
  congr 1
  exact List.map_congr_left fun i hi => (h.coords r i ((hm r).corner hc i hi)).symm

/-! ## Theorems -/

/-- With scaling, the value on the primary rank is the integral over the whole mesh, for every number of ranks, every distribution of
the elements and every schedule of blocking sends, provided that every rank which has vertices also has edges. -/
theorem C82_scaled_partial {p n : ℕ} {M : Mesh d} {m : Fin (p + 1) → Mesh d} {toGlobal : Fin (p + 1) → ℕ → ℕ}
    (h : Distributed M m toGlobal) (hM : WellFormed M) (hm : ∀ r, WellFormed (m r))
    (hedges : ∀ r, (m r).edges = [] → (m r).verts = [])
    (f : ℕ → Fin n → ℝ) (values : Fin (p + 1) → ℕ → ℝ)
    (hv : ∀ r i, ∀ k : Fin n, values r (i * n + k) = f (toGlobal r i) k) :
    ∃ result : Fin (p + 1) → Fin n → ℝ, RNet.AlwaysCompletes (fun r => total true r (m r) n (values r)) result ∧
      ∀ k, result 0 k = integral M (cellsFor false M) fun i => f i k := by
  refine ⟨_, C63_reduce _ _, fun k => ?_⟩
  rw [if_pos rfl, Finset.sum_apply, integral_distributed h hM hm]
  refine Finset.sum_congr rfl fun r _ => ?_
  unfold rankIntegral
  by_cases he : (m r).edges = []
  · rw [if_pos (.inl he), hedges r he]
    have hc : cellsFor false (m r) = [] := by
      rw [List.eq_nil_iff_forall_not_mem]
      intro c hc
      have h1 := (hm r).corner hc
      rw [hedges r he] at h1
      match c, (hm r).length hc with
      | i :: _, _ => exact absurd (h1 i (by simp)) (by simp)
    rw [hc]
    simp [integral]
  · rw [if_neg (by simp [he]), integrateSurface_eq _ (hm r).1 (hm r).2.1]
    congr 1
    funext i
    exact hv r i k

/-- The value does not depend on the distribution: two runs with different numbers of ranks write the same value. -/
theorem C82_independent_partial {p q n : ℕ} {M : Mesh d} {m : Fin (p + 1) → Mesh d} {m' : Fin (q + 1) → Mesh d}
    {g : Fin (p + 1) → ℕ → ℕ} {g' : Fin (q + 1) → ℕ → ℕ}
    (h : Distributed M m g) (h' : Distributed M m' g') (hM : WellFormed M) (hm : ∀ r, WellFormed (m r)) (hm' : ∀ r, WellFormed (m' r))
    (he : ∀ r, (m r).edges = [] → (m r).verts = []) (he' : ∀ r, (m' r).edges = [] → (m' r).verts = [])
    (f : ℕ → Fin n → ℝ) (values : Fin (p + 1) → ℕ → ℝ) (values' : Fin (q + 1) → ℕ → ℝ)
    (hv : ∀ r i, ∀ k : Fin n, values r (i * n + k) = f (g r i) k)
    (hv' : ∀ r i, ∀ k : Fin n, values' r (i * n + k) = f (g' r i) k) :
    ∃ (result : Fin (p + 1) → Fin n → ℝ) (result' : Fin (q + 1) → Fin n → ℝ),
      RNet.AlwaysCompletes (fun r => total true r (m r) n (values r)) result ∧
      RNet.AlwaysCompletes (fun r => total true r (m' r) n (values' r)) result' ∧ result 0 = result' 0 := by
  obtain ⟨r, hr, e⟩ := C82_scaled_partial h hM hm he f values hv
  obtain ⟨r', hr', e'⟩ := C82_scaled_partial h' hM hm' he' f values' hv'
  exact ⟨r, r', hr, hr', funext fun k => (e k).trans (e' k).symm⟩

/-- Without scaling, the value on the primary rank is the sum of the values of all vertices if every vertex belongs to exactly one rank. -/
theorem C82_unscaled {p n : ℕ} (m : Fin (p + 1) → Mesh d) (toGlobal : Fin (p + 1) → ℕ → ℕ) (N : ℕ)
    (hverts : (List.range N).Perm (List.ofFn fun r => (List.range (m r).verts.length).map (toGlobal r)).flatten)
    (f : ℕ → Fin n → ℝ) (values : Fin (p + 1) → ℕ → ℝ)
    (hv : ∀ r i, ∀ k : Fin n, values r (i * n + k) = f (toGlobal r i) k) :
    ∃ result : Fin (p + 1) → Fin n → ℝ, RNet.AlwaysCompletes (fun r => total false r (m r) n (values r)) result ∧
      ∀ k, result 0 k = ∑ i ∈ Finset.range N, f i k := by
  refine ⟨_, C63_reduce _ _, fun k => ?_⟩
  have h1 : ∑ i ∈ Finset.range N, f i k = ((List.range N).map fun i => f i k).sum := by
    clear hverts
    induction N with
    | zero => simp
    | succ N ih => rw [Finset.sum_range_succ, List.range_succ, List.map_append, List.sum_append, ih]; simp
  rw [if_pos rfl, Finset.sum_apply, h1, (hverts.map _).sum_eq, List.map_flatten, List.sum_flatten, List.map_ofFn, List.map_ofFn,
    List.sum_ofFn]
  refine Finset.sum_congr rfl fun r _ => ?_
  unfold rankIntegral
  rw [if_pos (.inr rfl)]
  simp only [Function.comp_apply, List.map_map]
  congr 1
  exact List.map_congr_left fun i _ => hv r i k

/-- The surface area on the primary rank is the area of the whole mesh if ranks without edges have no triangles. -/
theorem C82_area {p : ℕ} {M : Mesh d} {m : Fin (p + 1) → Mesh d} {toGlobal : Fin (p + 1) → ℕ → ℕ}
    (h : Distributed M m toGlobal) (hM : WellFormed M) (hm : ∀ r, WellFormed (m r)) (hd : d = 2 ∨ d = 3)
    (htris : ∀ r, (m r).edges = [] → (m r).tris = []) :
    ∃ result : Fin (p + 1) → ℝ, RNet.AlwaysCompletes (fun r => totalArea r (m r)) result ∧ result 0 = surfaceArea M := by
  refine ⟨_, C63_reduce _ _, ?_⟩
  rw [if_pos rfl, area_distributed h hM hm]
  refine Finset.sum_congr rfl fun r _ => ?_
  unfold rankArea surfaceArea cellsFor
  simp only [Bool.false_eq_true, if_false]
  by_cases he : (m r).edges = []
  · rw [if_pos he, he, htris r he]
    simp
  · rw [if_neg he]
    rcases hd with rfl | rfl
    · rfl
    · rfl

/-! ## Counterexamples -/

/-- a vertex at a point of the plane -/
def at2 (x y : ℚ) : Vertex 2 := { coords := ![x, y] }

/-- an edge of length one and a vertex without edge -/
def whole3 : Mesh 2 := ⟨[at2 0 0, at2 1 0, at2 5 0], [[0, 1]], [], []⟩

/-- the edge -/
def left2 : Mesh 2 := ⟨[at2 0 0, at2 1 0], [[0, 1]], [], []⟩

/-- the vertex -/
def right1 : Mesh 2 := ⟨[at2 5 0], [], [], []⟩

theorem unit_edge (m : Mesh 2) (h0 : m.verts[0]? = some (at2 0 0)) (h1 : m.verts[1]? = some (at2 1 0)) :
    cellMeasure m [0, 1] = 1 := by
  have e0 : realCoords m 0 = ![0, 0] := by
    funext k
    fin_cases k <;> simp [realCoords, h0, at2]
  have e1 : realCoords m 1 = ![1, 0] := by
    funext k
    fin_cases k <;> simp [realCoords, h1, at2]
  show simplexMeasure 2 [realCoords m 0, realCoords m 1] = 1
  rw [e0, e1]
  show edgeLength (![0, 0] : Fin 2 → ℝ) ![1, 0] = 1
  simp [edgeLength, Geometry.norm, Fin.sum_univ_two]

/-- the values 1, 1, 5 -/
def vals (i : ℕ) : ℝ := if i = 2 then 5 else 1

/-- A rank which has vertices but no edges adds unscaled values: the edge of length one with values 1 and 1 gives the integral 1 on a single rank; if the
vertex without edge is on a rank of its own, 6 is written. -/
theorem C82_mixed :
    Distributed whole3 ![left2, right1] ![id, fun i => i + 2] ∧ Distributed (p := 0) whole3 ![whole3] ![id] ∧
    (∃ result : Fin 1 → Fin 1 → ℝ, RNet.AlwaysCompletes (fun r => total true r (![whole3] r) 1 (![vals] r)) result ∧
      result 0 0 = 1) ∧
    ∃ result : Fin 2 → Fin 1 → ℝ,
      RNet.AlwaysCompletes (fun r => total true r (![left2, right1] r) 1 (![vals, fun i => vals (i + 2)] r)) result ∧
      result 0 0 = 6 := by
  refine ⟨⟨?_, ?_⟩, ⟨?_, ?_⟩, ⟨_, C63_reduce _ _, ?_⟩, ⟨_, C63_reduce _ _, ?_⟩⟩
  · intro r i hi
    fin_cases r
    · change i < 2 at hi
      have : i = 0 ∨ i = 1 := by omega
      rcases this with rfl | rfl <;> rfl
    · change i < 1 at hi
      obtain rfl : i = 0 := by omega
      rfl
  · exact ⟨[[0, 1]], .cons (.refl _) .nil, .refl _⟩
  · intro r i hi
    fin_cases r
    rfl
  · exact ⟨[[0, 1]], .cons (.refl _) .nil, .refl _⟩
  · have h := unit_edge whole3 rfl rfl
    simp [rankIntegral, integrateSurface, show whole3.edges = [[0, 1]] from rfl, h, cornerSum, vals]
    norm_num
  · have h := unit_edge left2 rfl rfl
    simp [rankIntegral, integrateSurface, show left2.edges = [[0, 1]] from rfl, show right1.edges = [] from rfl,
      show right1.verts.length = 1 from rfl, h, cornerSum, vals, Fin.sum_univ_two]
    norm_num

/-- The column with the surface area is missing if the primary rank has no edges, although the area is positive. -/
theorem C82_area_column_missing :
    ¬ hasAreaColumn right1 ∧ hasAreaColumn left2 ∧
    ∃ result : Fin 2 → ℝ, RNet.AlwaysCompletes (fun r => totalArea r (![right1, left2] r)) result ∧ result 0 = 1 := by
  refine ⟨fun h => h rfl, by simp [hasAreaColumn, left2], ⟨_, C63_reduce _ _, ?_⟩⟩
  have h := unit_edge left2 rfl rfl
  simp [rankArea, show left2.edges = [[0, 1]] from rfl, show right1.edges = [] from rfl, h, Fin.sum_univ_two]

/-- the second of two edges, with its corners in reverse order -/
def right2 : Mesh 2 := ⟨[at2 2 0, at2 1 0], [[0, 1]], [], []⟩

/-- two edges in a row -/
def path3 : Mesh 2 := ⟨[at2 0 0, at2 1 0, at2 2 0], [[0, 1], [1, 2]], [], []⟩

theorem path_distributed : Distributed path3 ![left2, right2] ![id, fun i => 2 - i] := by
  refine ⟨?_, ⟨[[0, 1], [2, 1]], .cons (.refl _) (.cons (.swap _ _ _) .nil), .refl _⟩⟩
  intro r i hi
  fin_cases r
  · change i < 2 at hi
    have : i = 0 ∨ i = 1 := by omega
    rcases this with rfl | rfl <;> rfl
  · change i < 2 at hi
    have : i = 0 ∨ i = 1 := by omega
    rcases this with rfl | rfl <;> rfl

/-- two edges of length one on two ranks, listed with reversed corners on the second one; both components of vector data -/
example (f : ℕ → Fin 2 → ℝ) (values : Fin 2 → ℕ → ℝ)
    (hv : ∀ r i, ∀ k : Fin 2, values r (i * 2 + k) = f ((![id, fun i => 2 - i] : Fin 2 → ℕ → ℕ) r i) k) :
    ∃ result : Fin 2 → Fin 2 → ℝ,
      RNet.AlwaysCompletes (fun r => total true r ((![left2, right2] : Fin 2 → Mesh 2) r) 2 (values r)) result ∧
      ∀ k, result 0 k = integral path3 (cellsFor false path3) fun i => f i k := by
  refine C82_scaled_partial path_distributed ?_ ?_ ?_ f values hv
  · refine ⟨?_, ?_, ?_⟩ <;> decide
  · intro r
    fin_cases r <;> refine ⟨?_, ?_, ?_⟩ <;> decide
  · intro r
    fin_cases r <;> intro h <;> cases h

end WatchIntegral
end Verif
