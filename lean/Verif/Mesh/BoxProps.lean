import Verif.Mesh.Box
import Mathlib.Data.Fin.VecNotation

/-!
# Properties C39 and C40: bounding boxes
-/

set_option autoImplicit false

namespace Verif.Box

variable {d : ℕ}

/-! ### Specification: the set of points of a box -/

/-- The closed box as a set of points. -/
def points (b : Box d) : Set (Pt d) := {p | ∀ i, b.lo i ≤ p i ∧ p i ≤ b.hi i}

/-! ### C39 -/

/-- C39: membership is the closed component-wise test. -/
theorem C39_contains (b : Box d) (p : Pt d) : b.contains p = true ↔ p ∈ b.points := by
  unfold contains points
  simp only [List.all_eq_true, List.mem_finRange, Bool.not_eq_true', Bool.or_eq_false_iff,
    decide_eq_false_iff_not, not_lt, true_implies, Set.mem_ofPred_eq, gt_iff_lt]

theorem points_add (b : Box d) (p : Pt d) : b.points ⊆ (b.add p).points := fun _ hx i =>
  ⟨(min_le_left _ _).trans (hx i).1, (hx i).2.trans (le_max_left _ _)⟩

theorem mem_add (b : Box d) (p : Pt d) : p ∈ (b.add p).points := fun _ =>
  ⟨min_le_right _ _, le_max_right _ _⟩

theorem points_foldl (vs : List (Pt d)) (b : Box d) : b.points ⊆ (vs.foldl add b).points := by
  induction vs generalizing b with
  | nil => exact fun _ h => h
  | cons v vs ih => exact (points_add b v).trans (ih _)

theorem mem_foldl (vs : List (Pt d)) (b : Box d) {v : Pt d} (hv : v ∈ vs) :
    v ∈ (vs.foldl add b).points := by
  induction vs generalizing b with
  | nil => simp at hv
  | cons w vs ih =>
    rcases List.mem_cons.mp hv with rfl | hv
    · exact points_foldl vs _ (mem_add b v)
    · exact ih _ hv

/-- C39: the computed bounding box contains every vertex, whatever box was there before. -/
theorem C39_computed_box_contains (b : Box d) (vs : List (Pt d)) {v : Pt d} (hv : v ∈ vs) :
    (b.compute vs).contains v = true := (C39_contains _ _).mpr (mem_foldl vs _ hv)

/-- C39: a box set before (by the access region of the API) is kept. -/
theorem C39_computed_box_keeps (b : Box d) (hb : ¬ b.isDefault) (vs : List (Pt d)) {p : Pt d}
    (hp : p ∈ b.points) : p ∈ (b.compute vs).points := by
  unfold compute
  rw [if_neg hb]
  exact points_foldl vs b hp

theorem foldl_least (vs : List (Pt d)) (b c : Box d) (hb : ∀ i, c.lo i ≤ b.lo i ∧ b.hi i ≤ c.hi i)
    (hv : ∀ v ∈ vs, v ∈ c.points) :
    ∀ i, c.lo i ≤ (vs.foldl add b).lo i ∧ (vs.foldl add b).hi i ≤ c.hi i := by
  induction vs generalizing b with
  | nil => exact hb
  | cons v vs ih =>
    refine ih _ (fun i => ?_) fun w hw => hv w (List.mem_cons_of_mem _ hw)
    have := hv v List.mem_cons_self i
    exact ⟨le_min (hb i).1 this.1, max_le (hb i).2 this.2⟩

/-- C39: the box computed from scratch is the smallest one: it lies in every box that contains the
vertices and is not larger than the number range. -/
theorem C39_computed_box_least (b : Box d) (hb : b.isDefault) (vs : List (Pt d)) (c : Box d)
    (hc : ∀ i, c.lo i ≤ dblMax ∧ -dblMax ≤ c.hi i) (hv : ∀ v ∈ vs, v ∈ c.points) :
    (b.compute vs).points ⊆ c.points := by
  unfold compute
  rw [if_pos hb]
  intro p hp i
  have := foldl_least vs (default d) c hc hv i
  exact ⟨this.1.trans (hp i).1, (hp i).2.trans this.2⟩

/-- C39: merging two boxes loses no point of either. -/
theorem C39_join (b c : Box d) : b.points ⊆ (b.join c).points ∧ c.points ⊆ (b.join c).points :=
  ⟨fun _ hx i => ⟨(min_le_left _ _).trans (hx i).1, (hx i).2.trans (le_max_left _ _)⟩,
   fun _ hx i => ⟨(min_le_right _ _).trans (hx i).1, (hx i).2.trans (le_max_right _ _)⟩⟩

/-- C39: expanding by a non-negative distance keeps every point and gains every point within that
distance (if the box is not the default one). -/
theorem C39_expand (b : Box d) {v : ℚ} (hv : 0 ≤ v) :
    b.points ⊆ (b.expand v).points ∧
    (¬ b.isDefault → ∀ p ∈ b.points, ∀ q : Pt d, (∀ i, |q i - p i| ≤ v) → q ∈ (b.expand v).points) := by
  constructor
  · intro p hp
    unfold expand
    split
    · exact hp
    · exact fun i => ⟨by have := (hp i).1; dsimp only; linarith, by have := (hp i).2; dsimp only; linarith⟩
  · intro hb p hp q hq i
    unfold expand
    rw [if_neg hb]
    have := abs_le.mp (hq i)
    exact ⟨by have := (hp i).1; dsimp only; linarith, by have := (hp i).2; dsimp only; linarith⟩

/-- C39: scaling by a non-negative safety factor keeps every point. -/
theorem C39_scale (b : Box (d + 1)) {f : ℚ} (hf : 0 ≤ f) : b.points ⊆ (b.scale f).points := by
  intro p hp
  unfold scale
  split
  · exact hp
  · have hl : 0 ≤ b.longest := by
      have h0 := hp 0
      exact (by linarith : (0 : ℚ) ≤ b.hi 0 - b.lo 0).trans
        (Finset.le_sup' (fun i => b.hi i - b.lo i) (Finset.mem_univ 0))
    have := mul_nonneg hf hl
    exact fun i => ⟨by have := (hp i).1; dsimp only; linarith, by have := (hp i).2; dsimp only; linarith⟩

/-! ### C40 -/

/-- C40: the test is symmetric. -/
theorem C40_symm (b c : Box d) : b.overlapping c = c.overlapping b := by
  unfold overlapping
  congr 1
  funext i
  rw [Bool.or_comm]

/-- C40: two non-empty boxes are reported as overlapping iff they have a common point. -/
theorem C40_overlap_iff (b c : Box d) (hb : b.points.Nonempty) (hc : c.points.Nonempty) :
    b.overlapping c = true ↔ (b.points ∩ c.points).Nonempty := by
  obtain ⟨x, hx⟩ := hb
  obtain ⟨y, hy⟩ := hc
  have key : b.overlapping c = true ↔ ∀ i, c.lo i ≤ b.hi i ∧ b.lo i ≤ c.hi i := by
    unfold overlapping
    simp only [List.all_eq_true, List.mem_finRange, Bool.not_eq_true', Bool.or_eq_false_iff,
      Bool.and_eq_false_iff, decide_eq_false_iff_not, not_lt, true_implies]
    refine forall_congr' fun i => ?_
    have h1 := (hx i).1.trans (hx i).2
    have h2 := (hy i).1.trans (hy i).2
    constructor
    · rintro ⟨h3 | h3, h4 | h4⟩ <;> constructor <;> linarith
    · rintro ⟨h3, h4⟩; exact ⟨Or.inr h3, Or.inr h4⟩
  rw [key]
  constructor
  · intro h
    refine ⟨fun i => max (b.lo i) (c.lo i), fun i => ⟨le_max_left _ _, max_le ?_ (h i).1⟩,
      fun i => ⟨le_max_right _ _, max_le (h i).2 ?_⟩⟩
    · exact (hx i).1.trans (hx i).2
    · exact (hy i).1.trans (hy i).2
  · rintro ⟨p, hp, hq⟩ i
    exact ⟨(hq i).1.trans (hp i).2, (hp i).1.trans (hq i).2⟩

/-- C40, disagreement: two default boxes (of ranks without vertices) have no points at all but are
reported as overlapping. -/
theorem C40_default_boxes_overlap :
    (default 3).overlapping (default 3) = true ∧ (default 3).points = ∅ := by
  constructor
  · unfold overlapping; simp
  · ext p
    simp only [Set.mem_empty_iff_false, iff_false]
    intro h
    have h1 := (h 0).1.trans (h 0).2
    have h2 := dblMax_pos
    simp only [default] at h1
    linarith

/-- A default box never overlaps a box with a point (of the number range). -/
theorem C40_default_box (b : Box (d + 1)) (hb : b.points.Nonempty)
    (hr : ∀ i, -dblMax < b.lo i ∧ b.hi i < dblMax) : (default (d + 1)).overlapping b = false := by
  obtain ⟨x, hx⟩ := hb
  unfold overlapping
  rw [List.all_eq_false]
  refine ⟨0, List.mem_finRange _, ?_⟩
  have h1 : b.lo 0 ≤ b.hi 0 := (hx 0).1.trans (hx 0).2
  have h2 : b.lo 0 < (default (d + 1)).lo 0 := h1.trans_lt (hr 0).2
  have h3 : b.hi 0 < (default (d + 1)).lo 0 := (hr 0).2
  simp [h2, h3]

/-! ### Examples -/

example : ((default 2).compute [![0, 1], ![2, -1]]).contains ![1, 0] = true := by decide +kernel
example : ((default 2).compute [![0, 1], ![2, -1]]).contains ![1, 2] = false := by decide +kernel
example : (⟨![0, 0], ![1, 1]⟩ : Box 2).overlapping ⟨![1, 1], ![2, 2]⟩ = true := by decide +kernel
example : (⟨![0, 0], ![1, 1]⟩ : Box 2).overlapping ⟨![0, 2], ![2, 3]⟩ = false := by decide +kernel
example : (default 2).isDefault := by decide +kernel
example : ¬ (⟨![0, 0], ![1, 1]⟩ : Box 2).isDefault := by decide +kernel

end Verif.Box
