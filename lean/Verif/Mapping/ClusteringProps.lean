import Verif.Mapping.Clustering
import Verif.Mapping.PumJit

/-!
The clusters of the partition of unity mapping cover the meshes (C99).
-/

set_option autoImplicit false

namespace Verif.Pum
open Rbf

variable {n m : ℕ}

/-! ## The bounding box -/

theorem lowest_le (X : Fin n → Point) (i : Fin n) (d : Fin 3) : lowest X d ≤ X i d := ciInf_le (Set.finite_range _).bddBelow i

theorem le_highest (X : Fin n → Point) (i : Fin n) (d : Fin 3) : X i d ≤ highest X d := le_ciSup (f := fun i => X i d) (Set.finite_range _).bddAbove i

theorem edge_eq (X : Fin n → Point) (i : Fin n) (d : Fin 3) : edge X d = highest X d - lowest X d :=
  abs_of_nonneg (sub_nonneg.2 ((lowest_le X i d).trans (le_highest X i d)))

theorem edge_nonneg (X : Fin n → Point) (d : Fin 3) : 0 ≤ edge X d := abs_nonneg _

/-- The closest point of the box -/
noncomputable def clamp (X : Fin n → Point) (y : Point) : Point := fun d => max (lowest X d) (min (y d) (highest X d))

theorem clamp_mem (X : Fin n → Point) (i : Fin n) (y : Point) (d : Fin 3) : lowest X d ≤ clamp X y d ∧ clamp X y d ≤ highest X d :=
  ⟨le_max_left _ _, max_le ((lowest_le X i d).trans (le_highest X i d)) (min_le_right _ _)⟩

theorem clamp_near (X : Fin n → Point) (i : Fin n) (y : Point) (d : Fin 3) : |clamp X y d - y d| ≤ |X i d - y d| ∧ |clamp X y d - X i d| ≤ |X i d - y d| := by
  have h1 := lowest_le X i d
  have h2 := le_highest X i d
  unfold clamp
  rcases le_total (y d) (highest X d) with h3 | h3
  · rw [min_eq_left h3]
    rcases le_total (lowest X d) (y d) with h4 | h4
    · rw [max_eq_right h4]
      exact ⟨by simp, by rw [abs_sub_comm]⟩
    · rw [max_eq_left h4, abs_of_nonneg (by linarith), abs_of_nonneg (by linarith : 0 ≤ X i d - y d), abs_of_nonpos (by linarith)]
      constructor <;> linarith
  · rw [min_eq_right h3, max_eq_right (h1.trans h2), abs_of_nonpos (by linarith), abs_of_nonpos (by linarith : X i d - y d ≤ 0), abs_of_nonneg (by linarith)]
    constructor <;> linarith

theorem distance_mono {a b c e : Point} (h : ∀ d, |a d - b d| ≤ |c d - e d|) : distance a b ≤ distance c e := by
  unfold distance squaredDifference
  refine Real.sqrt_le_sqrt (Finset.sum_le_sum fun d _ => ?_)
  have := h d
  have h2 := mul_self_le_mul_self (abs_nonneg _) this
  rw [abs_mul_abs_self, abs_mul_abs_self] at h2
  simpa using h2

theorem distance_le {a b : Point} {r : ℝ} (hr : 0 ≤ r) (h : (a 0 - b 0) ^ 2 + (a 1 - b 1) ^ 2 + (a 2 - b 2) ^ 2 ≤ r ^ 2) : distance a b ≤ r := by
  unfold distance
  rw [Real.sqrt_le_left hr]
  simpa [squaredDifference, Fin.sum_univ_three, ← sq] using h

/-! ## The grid -/

namespace Grid
variable (g : Grid) (X : Fin n → Point) (d : Fin 3)

theorem count_pos : 0 < g.count X d := Nat.ceil_pos.2 (lt_of_lt_of_le one_pos (le_max_left _ _))

theorem spacing_nonneg : 0 ≤ g.spacing X d := div_nonneg (edge_nonneg X d) (Nat.cast_nonneg _)

theorem spacing_mul : g.spacing X d * g.count X d = edge X d := div_mul_cancel₀ _ (Nat.cast_ne_zero.2 (g.count_pos X d).ne')

/-- Neighbouring centers are not farther away than intended. -/
theorem spacing_le (h : 0 < g.maxDistance) : g.spacing X d ≤ g.maxDistance := by
  have hc : edge X d / g.maxDistance ≤ g.count X d := (le_max_right _ _).trans (Nat.le_ceil _)
  unfold spacing
  rw [div_le_iff₀ (Nat.cast_pos.2 (g.count_pos X d)), mul_comm]
  rwa [div_le_iff₀ h] at hc

theorem start_eq : g.start X d = g.start0 X d := by
  unfold start
  split
  · rename_i hs
    have ht := tolerance_pos
    have ht2 : tolerance < 1 / 2 := by
      unfold tolerance
      norm_num
    have h0 : ⌈(lowest X d - g.start0 X d) / g.spacing X d - tolerance⌉ = 0 := by
      rw [Int.ceil_eq_zero_iff]
      unfold start0
      split
      · rw [sub_self, zero_div]
        exact ⟨by linarith, by linarith⟩
      · have : (lowest X d - (lowest X d + 0.5 * g.spacing X d)) / g.spacing X d = -0.5 := by
          field_simp
          ring
        rw [this]
        exact ⟨by linarith, by linarith⟩
    rw [h0]
    simp
  · rfl

/-- Without projection the centers are in the middle of the cells. -/
theorem countLocal_eq (i : Fin n) (hp : g.project = false) (hs : 0 < g.spacing X d) : g.countLocal X d = g.count X d := by
  have ht := tolerance_pos
  have ht2 : tolerance < 1 / 2 := by
    unfold tolerance
    norm_num
  unfold countLocal
  rw [if_pos hs, start_eq]
  have hv : (highest X d - g.start0 X d) / g.spacing X d = g.count X d - 0.5 := by
    have h1 := g.spacing_mul X d
    rw [edge_eq X i d] at h1
    unfold start0
    rw [hp]
    simp only [Bool.false_eq_true, if_false]
    rw [div_eq_iff hs.ne']
    linear_combination -h1
  have : ⌊(highest X d - g.start0 X d) / g.spacing X d + tolerance⌋ = (g.count X d : ℤ) - 1 := by
    rw [Int.floor_eq_iff, hv]
    push_cast
    constructor <;> linarith
  rw [this]
  omega

/-- With projection there is an additional layer. -/
theorem countLocal_project (i : Fin n) (hp : g.project = true) (hs : 0 < g.spacing X d) : g.countLocal X d = g.count X d + 1 := by
  have ht := tolerance_pos
  have ht2 : tolerance < 1 / 2 := by
    unfold tolerance
    norm_num
  unfold countLocal
  rw [if_pos hs, start_eq]
  have hv : (highest X d - g.start0 X d) / g.spacing X d = g.count X d := by
    have h1 := g.spacing_mul X d
    rw [edge_eq X i d] at h1
    unfold start0
    rw [hp]
    simp only [if_true]
    rw [div_eq_iff hs.ne']
    linear_combination -h1
  have : ⌊(highest X d - g.start0 X d) / g.spacing X d + tolerance⌋ = (g.count X d : ℤ) := by
    rw [Int.floor_eq_iff, hv]
    push_cast
    constructor <;> linarith
  rw [this]
  omega

/-- Along each axis every point of the box has a center closer than half of the spacing. -/
theorem axis_near (i : Fin n) (hp : g.project = false) {p : ℝ} (h1 : lowest X d ≤ p) (h2 : p ≤ highest X d) :
    ∃ x < g.countLocal X d, |g.start X d + x * g.spacing X d - p| ≤ g.spacing X d / 2 := by
  rw [start_eq]
  have hst : g.start0 X d = lowest X d + 0.5 * g.spacing X d := by
    unfold start0
    rw [hp]
    simp
  have hedge := edge_eq X i d
  by_cases hs : 0 < g.spacing X d
  · rw [g.countLocal_eq X d i hp hs, hst]
    have hmul := g.spacing_mul X d
    have hcp := g.count_pos X d
    set q := (p - lowest X d) / g.spacing X d with hq
    have hq0 : 0 ≤ q := div_nonneg (by linarith) hs.le
    have hpq : p = lowest X d + q * g.spacing X d := by
      rw [hq, div_mul_cancel₀ _ hs.ne']
      ring
    have hqn : q ≤ g.count X d := by
      rw [hq, div_le_iff₀ hs]
      nlinarith
    by_cases hlast : ⌊q⌋₊ < g.count X d
    · refine ⟨⌊q⌋₊, hlast, ?_⟩
      have f1 := Nat.floor_le hq0
      have f2 := Nat.lt_floor_add_one q
      rw [hpq]
      have e : lowest X d + 0.5 * g.spacing X d + (⌊q⌋₊ : ℝ) * g.spacing X d - (lowest X d + q * g.spacing X d) = (0.5 + ⌊q⌋₊ - q) * g.spacing X d := by ring
      rw [e, abs_mul, abs_of_pos hs, div_eq_mul_inv, mul_comm (g.spacing X d)]
      refine mul_le_mul_of_nonneg_right ?_ hs.le
      rw [abs_le]
      constructor <;> linarith
    · refine ⟨g.count X d - 1, by omega, ?_⟩
      have hqe : q = g.count X d := by
        have f1 := Nat.floor_le hq0
        have : (g.count X d : ℝ) ≤ ⌊q⌋₊ := Nat.cast_le.2 (not_lt.1 hlast)
        linarith
      rw [hpq, hqe, Nat.cast_sub hcp]
      have e : lowest X d + 0.5 * g.spacing X d + ((g.count X d : ℝ) - (1 : ℕ)) * g.spacing X d - (lowest X d + g.count X d * g.spacing X d) = -(g.spacing X d / 2) := by
        push_cast
        ring
      rw [e, abs_neg, abs_of_pos (by linarith)]
  · have hs0 : g.spacing X d = 0 := le_antisymm (not_lt.1 hs) (g.spacing_nonneg X d)
    have he : edge X d = 0 := by rw [← g.spacing_mul X d, hs0, zero_mul]
    refine ⟨0, ?_, ?_⟩
    · unfold countLocal
      rw [if_neg hs]
      exact one_pos
    · rw [hst, hs0]
      have : p = lowest X d := by linarith
      simp [this]

theorem mem_centers {x : Fin 3 → ℕ} (hx : ∀ d, x d < g.countLocal X d) : (fun d => g.start X d + x d * g.spacing X d) ∈ g.centers X := by
  unfold centers
  rw [List.mem_flatMap]
  refine ⟨x 0, List.mem_range.2 (hx 0), ?_⟩
  rw [List.mem_flatMap]
  refine ⟨x 1, List.mem_range.2 (hx 1), ?_⟩
  rw [List.mem_map]
  refine ⟨x 2, List.mem_range.2 (hx 2), ?_⟩
  funext d
  fin_cases d <;> rfl

theorem of_mem_centers {c : Point} (hc : c ∈ g.centers X) : ∃ x : Fin 3 → ℕ, (∀ d, x d < g.countLocal X d) ∧ c = fun d => g.start X d + x d * g.spacing X d := by
  unfold centers at hc
  simp only [List.mem_flatMap, List.mem_map, List.mem_range] at hc
  obtain ⟨x, hx, y, hy, z, hz, rfl⟩ := hc
  refine ⟨![x, y, z], fun d => ?_, ?_⟩
  · fin_cases d
    · exact hx
    · exact hy
    · exact hz
  · funext d
    fin_cases d <;> rfl

/-- Every point of the box has a center closer than the radius without the overlap. -/
theorem center_near (i : Fin n) (hp : g.project = false) (hdim : g.dim = 3 ∨ (g.dim = 2 ∧ edge X 2 = 0)) (hR : 0 ≤ g.radius) (ho : g.overlap < 1) (hm : 0 < g.maxDistance)
    {p : Point} (h1 : ∀ d, lowest X d ≤ p d) (h2 : ∀ d, p d ≤ highest X d) : ∃ c ∈ g.centers X, distance c p ≤ g.radius * (1 - g.overlap) := by
  choose x hx hd using fun d => g.axis_near X d i hp (h1 d) (h2 d)
  refine ⟨_, g.mem_centers X hx, distance_le (mul_nonneg hR (by linarith)) ?_⟩
  have hsq : ∀ d, (g.start X d + x d * g.spacing X d - p d) ^ 2 ≤ g.spacing X d ^ 2 / 4 := by
    intro d
    have := mul_self_le_mul_self (abs_nonneg _) (hd d)
    rw [abs_mul_abs_self] at this
    nlinarith
  have hle : ∀ d, g.spacing X d ^ 2 ≤ g.maxDistance ^ 2 := by
    intro d
    exact pow_le_pow_left₀ (g.spacing_nonneg X d) (g.spacing_le X d hm) 2
  have hM : g.maxDistance ^ 2 = 4 / g.dim * (g.radius * (1 - g.overlap)) ^ 2 := by
    unfold maxDistance
    rw [mul_assoc, mul_pow, Real.sq_sqrt (by positivity)]
  have a0 := hsq 0
  have a1 := hsq 1
  have a2 := hsq 2
  have b0 := hle 0
  have b1 := hle 1
  have b2 := hle 2
  rcases hdim with h3 | ⟨h3, he⟩
  · rw [h3] at hM
    push_cast at hM
    linarith
  · rw [h3] at hM
    push_cast at hM
    have : g.spacing X 2 = 0 := by
      unfold spacing
      rw [he, zero_div]
    rw [this] at a2 ⊢
    linarith

end Grid

/-! ## Coverage -/

theorem mem_untagged {l : List (Point × Bool)} {c : Point} : c ∈ untagged l ↔ (c, false) ∈ l := by
  unfold untagged
  simp only [List.mem_map, List.mem_filter, Bool.not_eq_true', Prod.exists, exists_and_right, exists_eq_right]

theorem within_isEmpty {k : ℕ} {M : Fin k → Point} {c : Point} {R : ℝ} : (within M c R).isEmpty = false ↔ ∃ i, distance c (M i) < R := by
  constructor
  · intro h
    cases hw : within M c R with
    | nil => simp [hw] at h
    | cons a l =>
      refine ⟨a, mem_within.1 ?_⟩
      rw [hw]
      exact List.mem_cons_self ..
  · rintro ⟨i, hi⟩
    have : i ∈ within M c R := mem_within.2 hi
    cases hw : within M c R with
    | nil =>
      rw [hw] at this
      exact absurd this (by simp)
    | cons a l => rfl

/-- Without projection the centers are those of the grid with vertices of both meshes in reach. -/
theorem mem_plain {g : Grid} {X : Fin n → Point} {N : Nearest X} {Y : Fin m → Point} {jit : Bool} (hp : g.project = false) {c : Point} :
    c ∈ untagged (tagCenters g N Y jit) ↔ c ∈ g.centers X ∧ (∃ i, distance c (X i) < g.radius) ∧ (jit = false → ∃ j, distance c (Y j) < g.radius) := by
  rw [mem_untagged]
  unfold tagCenters
  simp only [hp, Bool.false_eq_true, if_false]
  have key : (c, false) ∈ ((g.centers X).map fun c => (c, false)).map (tagEmpty g.radius X) ↔ c ∈ g.centers X ∧ ∃ i, distance c (X i) < g.radius := by
    simp only [List.map_map, List.mem_map, Function.comp_apply, tagEmpty, Bool.false_or, Prod.mk.injEq]
    constructor
    · rintro ⟨a, ha, rfl, h⟩
      exact ⟨ha, within_isEmpty.1 h⟩
    · rintro ⟨ha, h⟩
      exact ⟨c, ha, rfl, within_isEmpty.2 h⟩
  cases jit with
  | true =>
    simp only [if_true, Bool.true_eq_false, false_implies, and_true]
    exact key
  | false =>
    simp only [Bool.false_eq_true, if_false, true_implies]
    constructor
    · intro h
      obtain ⟨⟨a, b⟩, ha, h⟩ := List.mem_map.1 h
      unfold tagEmpty at h
      simp only [Prod.mk.injEq, Bool.or_eq_false_iff] at h
      obtain ⟨rfl, rfl, h⟩ := h
      obtain ⟨h1, h2⟩ := key.1 ha
      exact ⟨h1, h2, within_isEmpty.1 h⟩
    · rintro ⟨h1, h2, h3⟩
      refine List.mem_map.2 ⟨(c, false), key.2 ⟨h1, h2⟩, ?_⟩
      unfold tagEmpty
      simp [within_isEmpty.2 h3]

/-- **Every cluster is useful**: without projection each returned center has an input vertex and (unless the output is only
known just in time) an output vertex in reach. -/
theorem C99_useful (dim : ℕ) (overlap : ℝ) (k : ℕ) (jit : Bool) (X : Fin n → Point) (N : Nearest X) (Y : Fin m → Point) (hk : k * 2 ≤ n) (R : ℝ) (cs : List Point)
    (h : createClustering dim overlap k false jit N Y = some (R, cs)) :
    ∀ c ∈ cs, (∃ i, distance c (X i) < R) ∧ (jit = false → ∃ j, distance c (Y j) < R) := by
  unfold createClustering at h
  split at h
  · obtain ⟨-, rfl⟩ := Prod.mk.inj (Option.some.inj h)
    simp
  · rw [if_neg (not_lt.2 hk), Option.bind_eq_some_iff] at h
    obtain ⟨R', -, h⟩ := h
    simp only at h
    split at h
    · exact absurd h (by simp)
    · split at h
      · exact absurd h (by simp)
      · obtain ⟨rfl, rfl⟩ := Prod.mk.inj (Option.some.inj h)
        intro c hc
        exact ((mem_plain rfl).1 hc).2

theorem nonempty_case {jit : Bool} (hn : 0 < n) (hm : 0 < m ∨ jit = true) : ¬(n = 0 ∨ (m = 0 ∧ jit = false)) := by
  rintro (h | ⟨h, h'⟩)
  · omega
  · rcases hm with hm | hm
    · omega
    · rw [hm] at h'
      exact absurd h' (by decide)

/-- What the branch with many vertices returns -/
theorem grid_branch {dim : ℕ} {overlap : ℝ} {k : ℕ} {project jit : Bool} {X : Fin n → Point} {N : Nearest X} {Y : Fin m → Point} (hm : 0 < m ∨ jit = true) (hk : k * 2 ≤ n) {R : ℝ} {cs : List Point}
    (i : Fin n) (h : createClustering dim overlap k project jit N Y = some (R, cs)) :
    estimateRadius dim k N = some R ∧ 0 < Grid.maxDistance ⟨dim, R, overlap, project⟩ ∧ cs = untagged (tagCenters ⟨dim, R, overlap, project⟩ N Y jit) := by
  unfold createClustering at h
  have hn : 0 < n := i.pos
  rw [if_neg (nonempty_case hn hm), if_neg (not_lt.2 hk), Option.bind_eq_some_iff] at h
  obtain ⟨R', hR', h⟩ := h
  simp only at h
  split at h
  · exact absurd h (by simp)
  · rename_i hpos
    split at h
    · exact absurd h (by simp)
    · obtain ⟨rfl, rfl⟩ := Prod.mk.inj (Option.some.inj h)
      exact ⟨hR', not_le.1 hpos, rfl⟩

theorem radius_pos_of_distance {dim : ℕ} {R overlap : ℝ} {project : Bool} (ho : overlap < 1) (h : 0 < Grid.maxDistance ⟨dim, R, overlap, project⟩) : 0 < R := by
  unfold Grid.maxDistance at h
  simp only at h
  have h1 := pos_of_mul_pos_left h (by linarith : (0 : ℝ) ≤ 1 - overlap)
  exact pos_of_mul_pos_right h1 (Real.sqrt_nonneg _)

/-- The center which covers a point near an input vertex -/
theorem covering_center {g : Grid} {X : Fin n → Point} (N : Nearest X) {Y : Fin m → Point} {jit : Bool} (hp : g.project = false) (ho : g.overlap < 1) (hdim : g.dim = 3 ∨ (g.dim = 2 ∧ ∀ i, X i 2 = 0))
    (hpos : 0 < g.maxDistance) (hRp : 0 < g.radius) {y : Point} (hy : jit = true ∨ ∃ j, Y j = y) {i : Fin n} (hi : distance (X i) y < g.overlap * g.radius) :
    ∃ c ∈ untagged (tagCenters g N Y jit), distance c y < g.radius ∧ distance c (X i) < g.radius := by
  have hdim' : g.dim = 3 ∨ (g.dim = 2 ∧ edge X 2 = 0) := by
    refine hdim.imp_right fun ⟨a, b⟩ => ⟨a, ?_⟩
    have : Nonempty (Fin n) := ⟨i⟩
    unfold edge highest lowest
    simp [b]
  obtain ⟨c, hc, hd⟩ := g.center_near X i hp hdim' hRp.le ho hpos (fun d => (clamp_mem X i y d).1) fun d => (clamp_mem X i y d).2
  have h1 : distance (clamp X y) y ≤ distance (X i) y := distance_mono fun d => (clamp_near X i y d).1
  have h2 : distance (clamp X y) (X i) ≤ distance (X i) y := distance_mono fun d => (clamp_near X i y d).2
  have h3 : distance c y < g.radius := by
    have := distance_triangle c (clamp X y) y
    nlinarith
  have h4 : distance c (X i) < g.radius := by
    have := distance_triangle c (clamp X y) (X i)
    nlinarith
  refine ⟨c, (mem_plain hp).2 ⟨hc, ⟨i, h4⟩, fun hj => ?_⟩, h3, h4⟩
  rcases hy with hy | ⟨j, rfl⟩
  · rw [hy] at hj
    exact absurd hj (by decide)
  · exact ⟨j, h3⟩

/-- **Coverage without projection.** Every output vertex (or location, just in time) with an input vertex closer than
the overlap times the radius is inside of a returned cluster, together with this input vertex. -/
theorem C99_covers (dim : ℕ) (overlap : ℝ) (ho : overlap < 1) (k : ℕ) (jit : Bool) (X : Fin n → Point) (hdim : dim = 3 ∨ (dim = 2 ∧ ∀ i, X i 2 = 0)) (N : Nearest X) (Y : Fin m → Point)
    (hk : k * 2 ≤ n) (R : ℝ) (cs : List Point) (h : createClustering dim overlap k false jit N Y = some (R, cs)) (y : Point) (hy : jit = true ∨ ∃ j, Y j = y) (i : Fin n)
    (hi : distance (X i) y < overlap * R) : ∃ c ∈ cs, distance c y < R ∧ distance c (X i) < R := by
  have hm : 0 < m ∨ jit = true := by
    rcases hy with hy | ⟨j, -⟩
    · exact Or.inr hy
    · exact Or.inl j.pos
  obtain ⟨-, hpos, rfl⟩ := grid_branch hm hk i h
  exact covering_center (g := ⟨dim, R, overlap, false⟩) N rfl ho hdim hpos (radius_pos_of_distance ho hpos) hy hi

/-! ## The radius -/

theorem insertionSort_perm {l l' : List ℝ} (h : l.Perm l') : l.insertionSort (· ≤ ·) = l'.insertionSort (· ≤ ·) :=
  List.Perm.eq_of_pairwise (fun _ _ _ _ => le_antisymm) (List.pairwise_insertionSort _ _) (List.pairwise_insertionSort _ _)
    ((List.perm_insertionSort _ l).trans (h.trans (List.perm_insertionSort _ l').symm))

theorem squaredDifference_nonneg (u v : Point) : 0 ≤ squaredDifference (fun _ => true) u v :=
  Finset.sum_nonneg fun _ _ => mul_self_nonneg _

theorem squaredDifference_self (u : Point) : squaredDifference (fun _ => true) u u = 0 := by simp [squaredDifference]

/-- The sorted squared distances from a vertex start with the vertex itself. -/
theorem sorted_cons (X : Fin n → Point) (s : Fin n) :
    ((List.finRange n).map fun i => squaredDifference (fun _ => true) (X i) (X s)).insertionSort (· ≤ ·)
      = 0 :: (((List.finRange n).erase s).map fun i => squaredDifference (fun _ => true) (X i) (X s)).insertionSort (· ≤ ·) := by
  rw [insertionSort_perm ((List.perm_cons_erase (List.mem_finRange s)).map _), List.map_cons, squaredDifference_self]
  refine List.insertionSort_cons_of_forall_rel _ fun b hb => ?_
  obtain ⟨i, -, rfl⟩ := List.mem_map.1 hb
  exact squaredDifference_nonneg _ _

/-- With at least two vertices per cluster and distinct vertices the radius at each vertex is positive. -/
theorem radiusAt_pos {X : Fin n → Point} (hX : Function.Injective X) {k : ℕ} (hk : 2 ≤ k) (hn : 2 ≤ n) (s : Fin n) : ∃ r, radiusAt X k s = some r ∧ 0 < r := by
  unfold radiusAt
  rw [sorted_cons]
  obtain ⟨k, rfl⟩ : ∃ k', k = k' + 1 + 1 := ⟨k - 2, by omega⟩
  have hlen : 0 < ((((List.finRange n).erase s).map fun i => squaredDifference (fun _ => true) (X i) (X s)).insertionSort (· ≤ ·)).length := by
    rw [List.length_insertionSort, List.length_map, List.length_erase_of_mem (List.mem_finRange s), List.length_finRange]
    omega
  have hmem : ∀ a ∈ (((List.finRange n).erase s).map fun i => squaredDifference (fun _ => true) (X i) (X s)).insertionSort (· ≤ ·), 0 < a := by
    intro a ha
    rw [List.mem_insertionSort] at ha
    obtain ⟨i, hi, rfl⟩ := List.mem_map.1 ha
    refine lt_of_le_of_ne (squaredDifference_nonneg _ _) fun h0 => ?_
    have hd : distance (X i) (X s) = 0 := by
      unfold distance
      rw [← h0, Real.sqrt_zero]
    have : X i = X s := by
      funext d
      have h1 : ∀ d ∈ Finset.univ, (X i d - X s d) * (X i d - X s d) = 0 := by
        refine (Finset.sum_eq_zero_iff_of_nonneg fun d _ => mul_self_nonneg _).1 ?_
        rw [h0]
        simp [squaredDifference]
      have := mul_self_eq_zero.1 (h1 d (Finset.mem_univ d))
      linarith
    have his := hX this
    rw [his] at hi
    exact (List.nodup_finRange n).not_mem_erase hi
  generalize (((List.finRange n).erase s).map fun i => squaredDifference (fun _ => true) (X i) (X s)).insertionSort (· ≤ ·) = l at hlen hmem
  cases l with
  | nil => exact absurd hlen (by simp)
  | cons a l =>
    rw [List.take_succ_cons, List.take_succ_cons, List.getLast?_cons_cons]
    obtain ⟨b, hb⟩ : ∃ b, (a :: List.take k l).getLast? = some b := ⟨_, List.getLast?_eq_getLast_of_ne_nil (by simp)⟩
    rw [hb]
    refine ⟨√b, rfl, Real.sqrt_pos.2 (hmem b ?_)⟩
    have := List.mem_of_getLast? hb
    rcases List.mem_cons.1 this with rfl | h'
    · exact List.mem_cons_self ..
    · exact List.mem_cons_of_mem _ (List.mem_of_mem_take h')

theorem mapM_some {α β : Type} {f : α → Option β} {P : β → Prop} : ∀ {l : List α}, (∀ a ∈ l, ∃ b, f a = some b ∧ P b) → ∃ r, l.mapM f = some r ∧ r.length = l.length ∧ ∀ b ∈ r, P b
  | [], _ => ⟨[], rfl, rfl, by simp⟩
  | a :: l, h => by
    obtain ⟨b, hb, hP⟩ := h a (List.mem_cons_self ..)
    obtain ⟨r, hr, hl, hr'⟩ := mapM_some fun a ha => h a (List.mem_cons_of_mem _ ha)
    refine ⟨b :: r, ?_, by simp [hl], ?_⟩
    · rw [List.mapM_cons, hb, hr]
      rfl
    · intro c hc
      rcases List.mem_cons.1 hc with rfl | h'
      · exact hP
      · exact hr' c h'

/-- The estimate is one of the radii at the vertices. -/
theorem estimate_of_all {dim k : ℕ} {X : Fin n → Point} (N : Nearest X) {P : ℝ → Prop} (h : ∀ s, ∃ r, radiusAt X k s = some r ∧ P r) : ∃ R, estimateRadius dim k N = some R ∧ P R := by
  unfold estimateRadius
  obtain ⟨r, hr, hl, hP⟩ := mapM_some (l := samples dim N) fun s _ => h s
  rw [hr, Option.bind_some]
  have hpos : r.length / 2 < (r.insertionSort (· ≤ ·)).length := by
    rw [List.length_insertionSort, hl]
    have : 0 < (samples dim N).length := by simp [samples]
    omega
  rw [List.getElem?_eq_getElem hpos]
  exact ⟨_, rfl, hP _ ((List.mem_insertionSort _).1 (List.getElem_mem hpos))⟩

/-- **A clustering is found** for all meshes of distinct vertices, without projection and with at least two vertices per
cluster, if only one output vertex is close to an input vertex. The radius is positive. -/
theorem C99_succeeds (dim : ℕ) (overlap : ℝ) (ho : overlap < 1) (k : ℕ) (hk2 : 2 ≤ k) (jit : Bool) (X : Fin n → Point) (hX : Function.Injective X) (hdim : dim = 3 ∨ (dim = 2 ∧ ∀ i, X i 2 = 0))
    (N : Nearest X) (Y : Fin m → Point) (hk : k * 2 ≤ n) : ∃ R, 0 < R ∧ ∀ y i, (jit = true ∨ ∃ j, Y j = y) → distance (X i) y < overlap * R →
      ∃ cs, createClustering dim overlap k false jit N Y = some (R, cs) := by
  obtain ⟨R, hR, hRp⟩ := estimate_of_all (dim := dim) (k := k) N (P := fun r => 0 < r) fun s => radiusAt_pos hX hk2 (by omega) s
  refine ⟨R, hRp, fun y i hy hi => ?_⟩
  have hm : 0 < m ∨ jit = true := by
    rcases hy with hy | ⟨j, -⟩
    · exact Or.inr hy
    · exact Or.inl j.pos
  have hd : 0 < dim := by rcases hdim with h | ⟨h, -⟩ <;> omega
  have hpos : 0 < Grid.maxDistance ⟨dim, R, overlap, false⟩ := by
    unfold Grid.maxDistance
    have h1 : 0 < √(4 / (dim : ℝ)) := Real.sqrt_pos.2 (by positivity)
    exact mul_pos (mul_pos h1 hRp) (by simp only; linarith)
  obtain ⟨c, hc, -⟩ := covering_center (g := ⟨dim, R, overlap, false⟩) N rfl ho hdim hpos hRp hy hi
  refine ⟨untagged (tagCenters ⟨dim, R, overlap, false⟩ N Y jit), ?_⟩
  · unfold createClustering
    rw [if_neg (nonempty_case i.pos hm), if_neg (not_lt.2 hk), hR, Option.bind_some]
    simp only
    rw [if_neg (not_le.2 hpos), if_neg]
    intro h0
    rw [h0] at hc
    exact absurd hc (by simp)

/-- **Disagreement: too few vertices per cluster.** With `vertices-per-cluster` zero or one, which the configuration
accepts, the clustering of every mesh with at least two vertices has undefined behaviour (for zero, debug builds stop at
an assertion): for zero the largest element of an empty list is read, for one the radius is zero and infinity is converted to a number of clusters. -/
theorem C99_one_per_cluster (dim : ℕ) (overlap : ℝ) (k : ℕ) (hk : k ≤ 1) (project jit : Bool) (X : Fin n → Point) (hn : 2 ≤ n) (N : Nearest X) (Y : Fin m → Point) (hm : 0 < m ∨ jit = true) :
    createClustering dim overlap k project jit N Y = none := by
  unfold createClustering
  rw [if_neg (nonempty_case (by omega) hm), if_neg (by omega)]
  rcases Nat.le_one_iff_eq_zero_or_eq_one.1 hk with rfl | rfl
  · have : estimateRadius dim 0 N = none := by
      unfold estimateRadius samples
      rw [List.mapM_cons]
      rfl
    rw [this]
    rfl
  · obtain ⟨R, hR, h0⟩ := estimate_of_all (dim := dim) (k := 1) N (P := fun r => r = 0) fun s => by
      refine ⟨√0, ?_, Real.sqrt_zero⟩
      unfold radiusAt
      rw [sorted_cons]
      rfl
    rw [hR, Option.bind_some, h0]
    simp only
    rw [if_pos]
    unfold Grid.maxDistance
    simp

/-- **Coverage by the single cluster** of a small mesh: everything that is not farther away from an input vertex than
the longest edge of the box (or than one, for a mesh of coinciding vertices) is inside, and so are all input vertices. -/
theorem C99_single (dim : ℕ) (overlap : ℝ) (k : ℕ) (project jit : Bool) (X : Fin n → Point) (N : Nearest X) (Y : Fin m → Point) (hm : 0 < m ∨ jit = true) (hk : n < k * 2) :
    ∃ R c, createClustering dim overlap k project jit N Y = some (R, [c]) ∧ (∀ i, distance c (X i) < R) ∧
      ∀ y i, distance (X i) y ≤ R / 2 → distance c y < R := by
  have hn : 0 < n := (N.pick 0).pos
  refine ⟨(singleCluster X).1, boxCenter X, ?_, ?_⟩
  · unfold createClustering
    rw [if_neg (nonempty_case hn hm), if_pos hk]
    rfl
  · set M := max (edge X 0) (max (edge X 1) (edge X 2)) with hM
    have hM0 : 0 ≤ M := (edge_nonneg X 0).trans (le_max_left _ _)
    have hedge : ∀ d, edge X d ≤ M := by
      intro d
      fin_cases d
      · exact le_max_left _ _
      · exact (le_max_left _ _).trans (le_max_right _ _)
      · exact (le_max_right _ _).trans (le_max_right _ _)
    have hL : (singleCluster X).1 = (if M = 0 then 1 else M) * 2 := rfl
    set L := if M = 0 then (1 : ℝ) else M with hLdef
    have hLpos : 0 < L := by
      rw [hLdef]
      split
      · exact one_pos
      · rename_i h0
        exact lt_of_le_of_ne hM0 (Ne.symm h0)
    have hML : M ≤ L := by
      rw [hLdef]
      split
      · rename_i h0
        linarith
      · exact le_refl _
    have hcen : ∀ i, distance (boxCenter X) (X i) < L := by
      intro i
      have hd : ∀ d, (boxCenter X d - X i d) ^ 2 ≤ (L / 2) ^ 2 := by
        intro d
        have h1 := lowest_le X i d
        have h2 := le_highest X i d
        have h3 := edge_eq X i d
        have h4 := hedge d
        have e : boxCenter X d = (highest X d + lowest X d) * 0.5 := rfl
        refine sq_le_sq' ?_ ?_ <;> rw [e] <;> linarith
      refine lt_of_le_of_lt (distance_le (r := √3 / 2 * L) (by positivity) ?_) ?_
      · have h3 : (√3 / 2 * L) ^ 2 = 3 / 4 * L ^ 2 := by
          rw [mul_pow, div_pow, Real.sq_sqrt (by norm_num)]
          ring
        rw [h3]
        have a0 := hd 0
        have a1 := hd 1
        have a2 := hd 2
        linarith
      · have : √3 < 2 := by
          rw [Real.sqrt_lt' (by norm_num)]
          norm_num
        nlinarith
    rw [hL]
    refine ⟨fun i => by linarith [hcen i], fun y i hy => ?_⟩
    have := distance_triangle (boxCenter X) (X i) y
    have := hcen i
    linarith

/-- **The mapping can be computed**: without projection and with a positive overlap smaller than one, if every output vertex has an
input vertex closer than the overlap times the radius, the local problems can be solved, and no output
vertex is in the last `1e-14` below the radius of a cluster. -/
theorem C99_computes (e : Eigen) (spd : Bool) (φ : ℝ → ℝ) {pol : Polynomial} {active : Fin 3 → Bool} (hpol : pol ≠ .on) (dim : ℕ) (overlap : ℝ) (ho : overlap < 1) (k : ℕ) (X : Fin n → Point)
    (hdim : dim = 3 ∨ (dim = 2 ∧ ∀ i, X i 2 = 0)) (N : Nearest X) (Y : Fin m → Point) (hk : k * 2 ≤ n) (R : ℝ) (hR : tolerance < R) (cs : List Point) (h : createClustering dim overlap k false false N Y = some (R, cs))
    (hnear : ∀ j, ∃ i, distance (X i) (Y j) < overlap * R)
    (hsolve : ∀ c ∈ cs, ∃ s, construct e spd φ pol active (fun i => X ((within X c R).get i)) (fun j => Y ((within Y c (R - tolerance)).get j)) = some s)
    (hedge : ∀ j, ∀ c ∈ cs, distance c (Y j) < R - tolerance ∨ R ≤ distance c (Y j)) :
    ∃ p, compute e spd φ pol active R X Y cs = some p := by
  rw [C97_computes e spd φ R hR X Y cs hpol]
  have hsub : ∀ c ∈ populated R X cs, c ∈ cs := fun c hc => List.mem_of_mem_filter hc
  refine ⟨fun c hc => hsolve c (hsub c hc), fun j => ?_, fun j c hc => hedge j c (hsub c hc)⟩
  obtain ⟨i, hi⟩ := hnear j
  obtain ⟨c, hc, h1, h2⟩ := C99_covers dim overlap ho k false X hdim N Y hk R cs h (Y j) (Or.inr ⟨j, rfl⟩) i hi
  refine ⟨c, ?_, h1⟩
  unfold populated
  rw [List.mem_filter]
  exact ⟨hc, by rw [within_isEmpty.2 ⟨i, h2⟩]; rfl⟩

end Verif.Pum
