import Verif.Mapping.ClusteringProps
import Verif.Mapping.PumExamples

/-!
Meshes which meet the hypotheses of C99, and meshes which cannot be mapped onto themselves.
-/

set_option autoImplicit false

namespace Verif.Pum
open Matrix Rbf

variable {n m : ℕ}

/-- `computeMapping`: the clustering and the clusters, PartitionOfUnityMapping.hpp:225-288 -/
noncomputable def setUp (e : Eigen) (spd : Bool) (φ : ℝ → ℝ) (pol : Polynomial) (active : Fin 3 → Bool) (dim : ℕ) (overlap : ℝ) (k : ℕ) (project : Bool) {X : Fin n → Point} (N : Nearest X)
    (Y : Fin m → Point) : Option (Mapping n m pol active) :=
  (createClustering dim overlap k project false N Y).bind fun r => compute e spd φ pol active r.1 X Y r.2

/-! ## Tools -/

/-- Every mesh has a search for the nearest vertex. -/
noncomputable def nearest (X : Fin (n + 1) → Point) : Nearest X where
  pick p := (Finite.exists_min fun i => distance (X i) p).choose
  valid p := (Finite.exists_min fun i => distance (X i) p).choose_spec

theorem lowest_of {X : Fin n → Point} (i : Fin n) {d : Fin 3} (h : ∀ j, X i d ≤ X j d) : lowest X d = X i d :=
  have : Nonempty (Fin n) := ⟨i⟩
  le_antisymm (lowest_le X i d) (le_ciInf h)

theorem highest_of {X : Fin n → Point} (i : Fin n) {d : Fin 3} (h : ∀ j, X j d ≤ X i d) : highest X d = X i d :=
  have : Nonempty (Fin n) := ⟨i⟩
  le_antisymm (ciSup_le h) (le_highest X i d)

/-- Two vertices per cluster: the radius is the distance to the closest other vertex. -/
theorem radiusAt_two {X : Fin n → Point} {s j : Fin n} (hj : j ≠ s) (h : ∀ i, i ≠ s → squaredDifference (fun _ => true) (X j) (X s) ≤ squaredDifference (fun _ => true) (X i) (X s)) :
    radiusAt X 2 s = some √(squaredDifference (fun _ => true) (X j) (X s)) := by
  unfold radiusAt
  have hmem : j ∈ (List.finRange n).erase s := (List.mem_erase_of_ne hj).2 (List.mem_finRange j)
  rw [sorted_cons, insertionSort_perm ((List.perm_cons_erase hmem).map _), List.map_cons, List.insertionSort_cons_of_forall_rel]
  · rfl
  · intro b hb
    obtain ⟨i, hi, rfl⟩ := List.mem_map.1 hb
    have hi' := List.mem_of_mem_erase hi
    exact h i fun e => (List.nodup_finRange n).not_mem_erase (e ▸ hi')

/-- The projected centers are vertices. -/
theorem mem_projected {g : Grid} {X : Fin n → Point} {N : Nearest X} {Y : Fin m → Point} {jit : Bool} (hp : g.project = true) {c : Point} (hc : c ∈ untagged (tagCenters g N Y jit)) :
    ∃ p ∈ g.centers X, c = X (N.pick p) := by
  rw [mem_untagged] at hc
  unfold tagCenters at hc
  have hout : ∀ {l : List (Point × Bool)} {v : Point}, (v, false) ∈ (if jit then l else l.map (tagEmpty g.radius Y)) → (v, false) ∈ l := by
    intro l v h
    cases jit with
    | true => exact h
    | false =>
      obtain ⟨⟨w, b⟩, hw, he⟩ := List.mem_map.1 h
      simp only [tagEmpty, Prod.mk.injEq, Bool.or_eq_false_iff] at he
      rw [← he.1, ← he.2.1]
      exact hw
  have hstep : ∀ (t : ℝ) (o : List ℤ) (l : List (Point × Bool)) (id : ℕ) {v : Point}, (v, false) ∈ tagDuplicate t o l id → (v, false) ∈ l := by
    intro t o l id v h
    unfold tagDuplicate at h
    split at h
    · split at h
      · rcases List.mem_or_eq_of_mem_set h with h' | h'
        · exact h'
        · exact absurd (congrArg Prod.snd h') Bool.false_ne_true
      · exact h
    · exact h
  have hdup : ∀ (t : ℝ) (o : List ℤ) (r : List ℕ) (l : List (Point × Bool)) {v : Point}, (v, false) ∈ r.foldl (tagDuplicate t o) l → (v, false) ∈ l := by
    intro t o r
    induction r with
    | nil => exact fun l v h => h
    | cons a r ih => exact fun l v h => hstep t o l a (ih _ h)
  simp only [hp, if_true] at hc
  have h1 := hdup _ _ _ _ (hout hc)
  obtain ⟨⟨w, b⟩, hw, he⟩ := List.mem_map.1 h1
  unfold moveCenter at he
  cases b with
  | true => exact absurd (congrArg Prod.snd he) (fun h : true = false => Bool.noConfusion h)
  | false =>
    have h2 := hout hw
    obtain ⟨⟨a, b'⟩, ha, he'⟩ := List.mem_map.1 h2
    obtain ⟨a', ha', e⟩ := List.mem_map.1 ha
    refine ⟨w, ?_, ?_⟩
    · have e1 : a' = a := congrArg Prod.fst e
      have e2 : a = w := congrArg Prod.fst he'
      rw [← e2, ← e1]
      exact ha'
    · exact (congrArg Prod.fst he).symm

/-! ## A line of equidistant vertices -/

/-- Thirteen vertices with unit distance -/
def line (i : Fin 13) : Point := ![(i : ℝ), 0, 0]

theorem line_sq (i s : Fin 13) : squaredDifference (fun _ => true) (line i) (line s) = ((i : ℝ) - s) ^ 2 := by
  simp [squaredDifference, Fin.sum_univ_three, line, third, sq]

theorem line_distance (i s : Fin 13) : distance (line i) (line s) = |(i : ℝ) - s| := by
  unfold distance
  rw [line_sq, Real.sqrt_sq_eq_abs]

theorem line_far {i s : Fin 13} (h : i ≠ s) : 1 ≤ |(i : ℝ) - s| := by
  have h1 : (i : ℤ) - s ≠ 0 := by
    intro h0
    exact h (Fin.ext (by omega))
  have h2 := Int.one_le_abs h1
  have : ((1 : ℤ) : ℝ) ≤ ((|(i : ℤ) - s| : ℤ) : ℝ) := Int.cast_le.2 h2
  simpa using this

theorem line_injective : Function.Injective line := by
  intro i s h
  by_contra hne
  have h1 := line_far hne
  rw [← line_distance, h, line_distance, sub_self, abs_zero] at h1
  linarith

theorem line_radius (s : Fin 13) : radiusAt line 2 s = some 1 := by
  obtain ⟨j, hj, hd⟩ : ∃ j : Fin 13, j ≠ s ∧ |(j : ℝ) - s| = 1 := by
    by_cases h : (s : ℕ) = 0
    · refine ⟨1, fun e => by rw [← e] at h; exact absurd h (by decide), ?_⟩
      rw [h]
      norm_num
    · have hs := s.isLt
      refine ⟨⟨s - 1, by omega⟩, fun e => ?_, ?_⟩
      · have := congrArg Fin.val e
        simp only at this
        omega
      · have : ((s : ℕ) - 1 + 1 : ℕ) = (s : ℕ) := by omega
        have h2 : (((s : ℕ) - 1 : ℕ) : ℝ) + 1 = (s : ℕ) := by exact_mod_cast this
        simp only
        rw [← h2]
        norm_num
  have hsq : ∀ x : ℝ, |x| = 1 → x ^ 2 = 1 := fun x h => by rw [← sq_abs, h, one_pow]
  have := radiusAt_two (X := line) hj fun i hi => by
    rw [line_sq, line_sq, hsq _ hd]
    have := line_far hi
    rw [← sq_abs]
    nlinarith
  rw [this, line_sq, hsq _ hd, Real.sqrt_one]

theorem line_estimate {dim : ℕ} (N : Nearest line) : estimateRadius dim 2 N = some 1 := by
  obtain ⟨R, h, rfl⟩ := estimate_of_all (dim := dim) (k := 2) N (P := fun r => r = 1) fun s => ⟨1, line_radius s, rfl⟩
  exact h

theorem line_planar : ∀ i, line i 2 = 0 := fun i => by simp [line, third]

/-- Without projection the line is covered: the hypotheses of `C99_covers`, `C99_useful` and `C99_succeeds` are met. -/
example (N : Nearest line) : ∃ cs, createClustering 2 0.15 2 false false N line = some (1, cs) ∧ ∀ j, ∃ c ∈ cs, distance c (line j) < 1 := by
  obtain ⟨R, hR, h⟩ := C99_succeeds 2 0.15 (by norm_num) 2 (le_refl 2) false line line_injective (Or.inr ⟨rfl, line_planar⟩) N line (by norm_num)
  have h0 : ∀ j, distance (line j) (line j) = 0 := fun j => by rw [line_distance, sub_self, abs_zero]
  obtain ⟨cs, hcs⟩ := h (line 0) 0 (Or.inr ⟨0, rfl⟩) (by rw [h0]; positivity)
  have hR1 : R = 1 := by
    have := (grid_branch (Or.inl (by norm_num)) (by norm_num) 0 hcs).1
    rw [line_estimate] at this
    exact (Option.some.inj this).symm
  subst hR1
  refine ⟨cs, hcs, fun j => ?_⟩
  obtain ⟨c, hc, h1, -⟩ := C99_covers 2 0.15 (by norm_num) 2 false line (Or.inr ⟨rfl, line_planar⟩) N line (by norm_num) 1 cs hcs (line j) (Or.inr ⟨j, rfl⟩) j (by rw [h0]; norm_num)
  exact ⟨c, hc, h1⟩

/-- `C99_single`: fewer than twice the vertices per cluster -/
example (N : Nearest line) : ∃ R c, createClustering 2 0.15 50 true false N line = some (R, [c]) ∧ ∀ j, distance c (line j) < R := by
  obtain ⟨R, c, h, h', -⟩ := C99_single 2 0.15 50 true false line N line (Or.inl (by norm_num)) (by norm_num)
  exact ⟨R, c, h, h'⟩

theorem line_lowest : lowest line 0 = 0 := by
  rw [lowest_of 0]
  · simp [line]
  · intro j
    simp [line]

theorem line_highest : highest line 0 = 12 := by
  rw [highest_of 12]
  · simp [line]
  · intro j
    have h : (j : ℕ) ≤ 12 := by omega
    have : ((j : ℕ) : ℝ) ≤ 12 := by exact_mod_cast h
    simpa [line] using this

theorem line_edge : edge line 0 = 12 := by
  rw [edge_eq line 0, line_lowest, line_highest, sub_zero]

theorem line_flat {d : Fin 3} (hd : d ≠ 0) (i : Fin 13) : line i d = 0 := by
  fin_cases d
  · exact absurd rfl hd
  · simp [line]
  · simp [line, third]

/-- The grid for the default settings -/
noncomputable def defaultGrid : Grid := ⟨2, 1, 0.15, true⟩

theorem line_spacing : defaultGrid.spacing line 0 = 1.2 := by
  have hm : defaultGrid.maxDistance = √2 * 0.85 := by
    have h2 : (4 : ℝ) / 2 = 2 := by norm_num
    unfold Grid.maxDistance defaultGrid
    norm_num
  have h1 : (1.4 : ℝ) < √2 := by
    rw [Real.lt_sqrt (by norm_num)]
    norm_num
  have h2 : √2 < (1.5 : ℝ) := by
    rw [Real.sqrt_lt' (by norm_num)]
    norm_num
  have h3 : (1.41 : ℝ) < √2 := by
    rw [Real.lt_sqrt (by norm_num)]
    norm_num
  have hc : defaultGrid.count line 0 = 10 := by
    unfold Grid.count
    rw [line_edge, hm, Nat.ceil_eq_iff (by norm_num)]
    have hp : (0 : ℝ) < √2 * 0.85 := by positivity
    constructor
    · refine lt_max_of_lt_right ?_
      rw [lt_div_iff₀ hp]
      norm_num
      linarith
    · refine max_le (by norm_num) ?_
      rw [div_le_iff₀ hp]
      push_cast
      have h4 : (1.4118 : ℝ) < √2 := by
        rw [Real.lt_sqrt (by norm_num)]
        norm_num
      linarith
  unfold Grid.spacing
  rw [line_edge, hc]
  norm_num

theorem line_start : defaultGrid.start line 0 = 0 := by
  rw [Grid.start_eq, Grid.start0, if_pos (show defaultGrid.project = true from rfl), line_lowest]

theorem line_grid_flat {d : Fin 3} (hd : d ≠ 0) (x : ℕ) : defaultGrid.start line d + x * defaultGrid.spacing line d = 0 := by
  have hl : lowest line d = 0 := by rw [lowest_of 0 (fun j => by rw [line_flat hd, line_flat hd]), line_flat hd]
  have hh : highest line d = 0 := by rw [highest_of 0 (fun j => by rw [line_flat hd, line_flat hd]), line_flat hd]
  have hsp : defaultGrid.spacing line d = 0 := by rw [Grid.spacing, edge_eq line 0, hl, hh, sub_zero, zero_div]
  rw [Grid.start_eq, Grid.start0, if_pos (show defaultGrid.project = true from rfl), hl, hsp, mul_zero, add_zero]

theorem line_distance_to (i : Fin 13) {q : Point} (h1 : q 1 = 0) (h2 : q 2 = 0) : distance (line i) q = |(i : ℝ) - q 0| := by
  unfold distance
  rw [← Real.sqrt_sq_eq_abs]
  congr 1
  simp only [squaredDifference, Fin.sum_univ_three, if_true, h1, h2, line_flat (by decide : (1 : Fin 3) ≠ 0), line_flat (by decide : (2 : Fin 3) ≠ 0)]
  simp only [line, Matrix.cons_val_zero]
  ring

/-- The vertex at 3 is the closest one for no center of the grid. -/
theorem line_pick (N : Nearest line) (x : ℕ) {q : Point} (h0 : q 0 = 1.2 * x) (h1 : q 1 = 0) (h2 : q 2 = 0) : N.pick q ≠ 3 := by
  intro h3
  have hv := N.valid q
  rw [h3] at hv
  have hv2 := hv 2
  have hv4 := hv 4
  rw [line_distance_to _ h1 h2, line_distance_to _ h1 h2, h0] at hv2 hv4
  have c2 : (((2 : Fin 13) : ℕ) : ℝ) = 2 := by norm_num
  have c3 : (((3 : Fin 13) : ℕ) : ℝ) = 3 := by norm_num
  have c4 : (((4 : Fin 13) : ℕ) : ℝ) = 4 := by norm_num
  rw [c3, c2] at hv2
  rw [c3, c4] at hv4
  rcases Nat.lt_or_ge x 3 with h | h
  · have hx0 : (x : ℝ) ≤ 2 := by exact_mod_cast Nat.le_of_lt_succ h
    rw [abs_of_nonneg (by linarith)] at hv2
    rcases abs_cases ((2 : ℝ) - 1.2 * x) with ⟨h', -⟩ | ⟨h', -⟩ <;> rw [h'] at hv2 <;> linarith
  · have hx0 : (3 : ℝ) ≤ x := by exact_mod_cast h
    rw [abs_of_nonpos (by linarith)] at hv4
    rcases abs_cases ((4 : ℝ) - 1.2 * x) with ⟨h', -⟩ | ⟨h', -⟩ <;> rw [h'] at hv4 <;> linarith

/-- **Disagreement: the default projection leaves gaps.** A line of equidistant vertices is mapped onto itself with two
vertices per cluster, the default overlap and the default projection of the centers to the input mesh. Whatever the basis
function and however the search resolves ties, the mapping cannot be computed: the centers next to the vertex at 3 are
moved away from it and no cluster contains it. -/
theorem C99_projection_gap (e : Eigen) (spd : Bool) (φ : ℝ → ℝ) (pol : Polynomial) (active : Fin 3 → Bool) (N : Nearest line) : setUp e spd φ pol active 2 0.15 2 true N line = none := by
  unfold setUp
  cases hc : createClustering 2 0.15 2 true false N line with
  | none => rfl
  | some r =>
    obtain ⟨R, cs⟩ := r
    obtain ⟨hR, -, rfl⟩ := grid_branch (Or.inl (by norm_num)) (by norm_num) 0 hc
    rw [line_estimate] at hR
    obtain rfl := Option.some.inj hR
    rw [Option.bind_some]
    refine C97_uncovered e spd φ 1 one_pos line line _ 3 fun c hc' _ => ?_
    obtain ⟨p, hp, rfl⟩ := mem_projected (g := defaultGrid) rfl hc'
    obtain ⟨x, hx, rfl⟩ := Grid.of_mem_centers _ _ hp
    rw [line_distance]
    refine line_far (line_pick N (x 0) ?_ ?_ ?_)
    · rw [line_start, line_spacing, zero_add, mul_comm]
    · exact line_grid_flat (by decide) _
    · exact line_grid_flat (by decide) _

/-! ## A cluster without overlap -/

/-- The corners and the center of a square -/
def square : Fin 5 → Point := ![![0, 0, 0], ![2, 0, 0], ![0, 2, 0], ![2, 2, 0], ![1, 1, 0]]

theorem square_radius (s : Fin 5) : radiusAt square 2 s = some √2 := by
  have key : ∀ j : Fin 5, j ≠ s → squaredDifference (fun _ => true) (square j) (square s) = 2 → (∀ i, i ≠ s → 2 ≤ squaredDifference (fun _ => true) (square i) (square s)) → radiusAt square 2 s = some √2 := by
    intro j hj h1 h2
    rw [radiusAt_two hj fun i hi => by rw [h1]; exact h2 i hi, h1]
  have h4 : ∀ i : Fin 5, i ≠ s → 2 ≤ squaredDifference (fun _ => true) (square i) (square s) := by
    intro i hi
    fin_cases i <;> fin_cases s <;> first | exact absurd rfl hi | (simp [squaredDifference, Fin.sum_univ_three, square, third]; try norm_num)
  by_cases hs : s = 4
  · refine key 0 (by rw [hs]; decide) ?_ h4
    rw [hs]
    simp [squaredDifference, Fin.sum_univ_three, square, third]
    norm_num
  · refine key 4 (Ne.symm hs) ?_ h4
    fin_cases s <;> first | exact absurd rfl hs | (simp [squaredDifference, Fin.sum_univ_three, square, third]; try norm_num)

theorem square_estimate {dim : ℕ} (N : Nearest square) : estimateRadius dim 2 N = some √2 := by
  obtain ⟨R, h, rfl⟩ := estimate_of_all (dim := dim) (k := 2) N (P := fun r => r = √2) fun s => ⟨_, square_radius s, rfl⟩
  exact h

theorem square_lowest (d : Fin 3) : lowest square d = 0 := by
  rw [lowest_of 0]
  · fin_cases d <;> simp [square, third]
  · intro j
    fin_cases d <;> fin_cases j <;> simp [square, third]

theorem square_highest {d : Fin 3} (hd : d ≠ 2) : highest square d = 2 := by
  rw [highest_of 3]
  · fin_cases d <;> first | exact absurd rfl hd | simp [square]
  · intro j
    fin_cases d <;> fin_cases j <;> first | exact absurd rfl hd | (simp [square]; try norm_num)

/-- **Disagreement: no overlap.** The configuration accepts `relative-overlap="0"`. A square with a vertex in its middle
then has a single cluster through its corners, which do not belong to it, and cannot be mapped onto itself. -/
theorem C99_no_overlap (e : Eigen) (spd : Bool) (φ : ℝ → ℝ) (pol : Polynomial) (active : Fin 3 → Bool) (N : Nearest square) : setUp e spd φ pol active 2 0 2 false N square = none := by
  unfold setUp
  cases hc : createClustering 2 0 2 false false N square with
  | none => rfl
  | some r =>
    obtain ⟨R, cs⟩ := r
    obtain ⟨hR, -, rfl⟩ := grid_branch (Or.inl (by norm_num)) (by norm_num) 0 hc
    rw [square_estimate] at hR
    obtain rfl := Option.some.inj hR
    rw [Option.bind_some]
    refine C97_uncovered e spd φ √2 (by positivity) square square _ 0 fun c hc' _ => ?_
    have hcen := ((mem_plain rfl).1 hc').1
    obtain ⟨x, hx, rfl⟩ := Grid.of_mem_centers _ _ hcen
    set g : Grid := ⟨2, √2, 0, false⟩ with hg
    have hm : g.maxDistance = 2 := by
      rw [hg]
      unfold Grid.maxDistance
      norm_num
    have hax : ∀ {d : Fin 3}, d ≠ 2 → g.start square d + x d * g.spacing square d = 1 := by
      intro d hd
      have he : edge square d = 2 := by rw [edge_eq square 0, square_highest hd, square_lowest, sub_zero]
      have hcount : g.count square d = 1 := by
        unfold Grid.count
        rw [he, hm, div_self two_ne_zero, max_self, Nat.ceil_one]
      have hsp : g.spacing square d = 2 := by
        unfold Grid.spacing
        rw [he, hcount]
        norm_num
      have hloc := g.countLocal_eq square d 0 rfl (by rw [hsp]; norm_num)
      have hx0 : x d = 0 := by
        have := hx d
        rw [hloc, hcount] at this
        omega
      rw [Grid.start_eq, Grid.start0, if_neg (by rw [hg]; decide), square_lowest, hsp, hx0]
      norm_num
    have h0 := hax (d := 0) (by decide)
    have h1 := hax (d := 1) (by decide)
    refine le_distance ?_
    simp only [h0, h1]
    simp [square]
    norm_num
    positivity

end Verif.Pum
