import Verif.Api.Quad
import Mathlib.Data.Sign.Defs
import Mathlib.Data.Sign.Basic
import Mathlib.Tactic.Linarith
import Mathlib.Tactic.Ring
import Mathlib.Tactic.FinCases
import Mathlib.Tactic.FieldSimp
import Mathlib.Data.Fin.VecNotation
import Mathlib.Algebra.Order.BigOperators.Group.Finset
import Mathlib.Algebra.BigOperators.Ring.Finset

/-! # The gift-wrapping loop terminates and finds the cyclic order -/

set_option autoImplicit false

namespace Verif.Quad

/-- Orientation of a triple of corners computed from the orientations of `(1,2,3)`, `(0,2,3)`, `(0,1,3)`
and `(0,1,2)`. -/
def ori (s : Fin 4 → SignType) : Fin 4 → Fin 4 → Fin 4 → SignType
  | 0, 1, 2 => s 3 | 1, 2, 0 => s 3 | 2, 0, 1 => s 3 | 0, 2, 1 => -s 3 | 2, 1, 0 => -s 3 | 1, 0, 2 => -s 3
  | 0, 1, 3 => s 2 | 1, 3, 0 => s 2 | 3, 0, 1 => s 2 | 0, 3, 1 => -s 2 | 3, 1, 0 => -s 2 | 1, 0, 3 => -s 2
  | 0, 2, 3 => s 1 | 2, 3, 0 => s 1 | 3, 0, 2 => s 1 | 0, 3, 2 => -s 1 | 3, 2, 0 => -s 1 | 2, 0, 3 => -s 1
  | 1, 2, 3 => s 0 | 2, 3, 1 => s 0 | 3, 1, 2 => s 0 | 1, 3, 2 => -s 0 | 3, 2, 1 => -s 0 | 2, 1, 3 => -s 0
  | _, _, _ => 0

/-- The orientations of the four triples. -/
def signs (q : Fin 4 → ℚ × ℚ) : Fin 4 → SignType :=
  ![SignType.sign (val q 1 2 3), SignType.sign (val q 0 2 3), SignType.sign (val q 0 1 3), SignType.sign (val q 0 1 2)]

theorem val_perm1 (q : Fin 4 → ℚ × ℚ) (i j k : Fin 4) : val q j k i = val q i j k := by unfold val; ring
theorem val_perm2 (q : Fin 4 → ℚ × ℚ) (i j k : Fin 4) : val q i k j = -val q i j k := by unfold val; ring
theorem val_same1 (q : Fin 4 → ℚ × ℚ) (i j : Fin 4) : val q i i j = 0 := by unfold val; ring
theorem val_same2 (q : Fin 4 → ℚ × ℚ) (i j : Fin 4) : val q i j j = 0 := by unfold val; ring
theorem val_same3 (q : Fin 4 → ℚ × ℚ) (i j : Fin 4) : val q i j i = 0 := by unfold val; ring

theorem sign_val (q : Fin 4 → ℚ × ℚ) (i j k : Fin 4) : SignType.sign (val q i j k) = ori (signs q) i j k := by
  have n : ∀ i j k : Fin 4, SignType.sign (val q i k j) = -SignType.sign (val q i j k) := fun i j k => by
    rw [val_perm2 q i j k, Left.sign_neg]
  have c : ∀ i j k : Fin 4, SignType.sign (val q j k i) = SignType.sign (val q i j k) := fun i j k => by
    rw [val_perm1]
  match i, j, k with
  | 0, 1, 2 => rfl
  | 1, 2, 0 => exact c 0 1 2
  | 2, 0, 1 => exact (c 1 2 0).trans (c 0 1 2)
  | 0, 2, 1 => exact n 0 1 2
  | 2, 1, 0 => exact (c 0 2 1).trans (n 0 1 2)
  | 1, 0, 2 => exact ((c 2 1 0).trans (c 0 2 1)).trans (n 0 1 2)
  | 0, 1, 3 => rfl
  | 1, 3, 0 => exact c 0 1 3
  | 3, 0, 1 => exact (c 1 3 0).trans (c 0 1 3)
  | 0, 3, 1 => exact n 0 1 3
  | 3, 1, 0 => exact (c 0 3 1).trans (n 0 1 3)
  | 1, 0, 3 => exact ((c 3 1 0).trans (c 0 3 1)).trans (n 0 1 3)
  | 0, 2, 3 => rfl
  | 2, 3, 0 => exact c 0 2 3
  | 3, 0, 2 => exact (c 2 3 0).trans (c 0 2 3)
  | 0, 3, 2 => exact n 0 2 3
  | 3, 2, 0 => exact (c 0 3 2).trans (n 0 2 3)
  | 2, 0, 3 => exact ((c 3 2 0).trans (c 0 3 2)).trans (n 0 2 3)
  | 1, 2, 3 => rfl
  | 2, 3, 1 => exact c 1 2 3
  | 3, 1, 2 => exact (c 2 3 1).trans (c 1 2 3)
  | 1, 3, 2 => exact n 1 2 3
  | 3, 2, 1 => exact (c 1 3 2).trans (n 1 2 3)
  | 2, 1, 3 => exact ((c 3 2 1).trans (c 1 3 2)).trans (n 1 2 3)
  | 0, 0, k => rw [val_same1, sign_zero]; fin_cases k <;> rfl
  | 1, 1, k => rw [val_same1, sign_zero]; fin_cases k <;> rfl
  | 2, 2, k => rw [val_same1, sign_zero]; fin_cases k <;> rfl
  | 3, 3, k => rw [val_same1, sign_zero]; fin_cases k <;> rfl
  | 0, 1, 1 => rw [val_same2, sign_zero]; rfl
  | 0, 2, 2 => rw [val_same2, sign_zero]; rfl
  | 0, 3, 3 => rw [val_same2, sign_zero]; rfl
  | 1, 0, 0 => rw [val_same2, sign_zero]; rfl
  | 1, 2, 2 => rw [val_same2, sign_zero]; rfl
  | 1, 3, 3 => rw [val_same2, sign_zero]; rfl
  | 2, 0, 0 => rw [val_same2, sign_zero]; rfl
  | 2, 1, 1 => rw [val_same2, sign_zero]; rfl
  | 2, 3, 3 => rw [val_same2, sign_zero]; rfl
  | 3, 0, 0 => rw [val_same2, sign_zero]; rfl
  | 3, 1, 1 => rw [val_same2, sign_zero]; rfl
  | 3, 2, 2 => rw [val_same2, sign_zero]; rfl
  | 0, 1, 0 => rw [val_same3, sign_zero]; rfl
  | 0, 2, 0 => rw [val_same3, sign_zero]; rfl
  | 0, 3, 0 => rw [val_same3, sign_zero]; rfl
  | 1, 0, 1 => rw [val_same3, sign_zero]; rfl
  | 1, 2, 1 => rw [val_same3, sign_zero]; rfl
  | 1, 3, 1 => rw [val_same3, sign_zero]; rfl
  | 2, 0, 2 => rw [val_same3, sign_zero]; rfl
  | 2, 1, 2 => rw [val_same3, sign_zero]; rfl
  | 2, 3, 2 => rw [val_same3, sign_zero]; rfl
  | 3, 0, 3 => rw [val_same3, sign_zero]; rfl
  | 3, 1, 3 => rw [val_same3, sign_zero]; rfl
  | 3, 2, 3 => rw [val_same3, sign_zero]; rfl

/-- The walk only depends on the orientations. -/
theorem hull_eq (q : Fin 4 → ℚ × ℚ) :
    hull q = wrap (fun c n i => decide (ori (signs q) c n i = 1)) (lowest q) 4 (lowest q) [] := by
  unfold hull
  congr 1
  funext c n i
  rw [← sign_val]
  exact decide_eq_decide.2 (sign_eq_one_iff).symm

/-- Sign patterns that can occur with the given left-most point: the four orientations satisfy
`(0,1,2) + (0,2,3) = (0,1,3) + (1,2,3)`, the first one is not negative, and the left-most point is not
inside of the others. -/
def Possible (s : Fin 4 → SignType) (start : Fin 4) : Prop :=
  (s = fun _ => 0) ∨
  (s 3 = 1 ∧
    ¬ (s 1 ≠ -1 ∧ s 2 ≠ 1 ∧ s 0 ≠ 1) ∧
    start ≠ 1 ∧
    (start = 0 → ¬ (s 2 = -1 ∧ s 1 = 1)) ∧
    (start = 2 → ¬ (s 2 = 1 ∧ s 1 = 1 ∧ s 0 ≠ 1)) ∧
    (start = 3 → ¬ (s 2 ≠ -1 ∧ s 1 ≠ 1 ∧ s 0 = 1)))

instance (s : Fin 4 → SignType) (start : Fin 4) : Decidable (Possible s start) := by
  unfold Possible; exact inferInstance

/-- The corners are listed in cyclic order: both diagonals separate the other two corners. -/
def Cyclic (s : Fin 4 → SignType) (r : Fin 4 → Fin 4) : Prop :=
  Function.Injective r ∧
  ori s (r 0) (r 2) (r 1) * ori s (r 0) (r 2) (r 3) ≠ 1 ∧
  ori s (r 1) (r 3) (r 0) * ori s (r 1) (r 3) (r 2) ≠ 1

instance (s : Fin 4 → SignType) (r : Fin 4 → Fin 4) : Decidable (Cyclic s r) := by
  unfold Cyclic; exact inferInstance

/-- Outcome of the walk for a pattern. -/
def walkOk (s : Fin 4 → SignType) (start : Fin 4) : Bool :=
  match wrap (fun c n i => decide (ori s c n i = 1)) start 4 start [] with
  | none => false
  | some [a, b, c, e] => decide (Cyclic s ![a, b, c, e])
  | some l => decide (l.length < 4)

set_option maxRecDepth 10000 in
theorem walk_table : ∀ s0 s1 s2 s3 : SignType, ∀ start : Fin 4, Possible ![s0, s1, s2, s3] start →
    walkOk ![s0, s1, s2, s3] start = true := by decide +kernel

end Verif.Quad

namespace Verif.Quad

variable {d : ℕ}

theorem dot_self_nonneg (u : Pt d) : 0 ≤ dot u u :=
  Finset.sum_nonneg fun i _ => mul_self_nonneg (u i)

theorem dot_comm (u v : Pt d) : dot u v = dot v u := by
  unfold dot; exact Finset.sum_congr rfl fun i _ => mul_comm _ _

theorem dot_self_eq_zero {u : Pt d} (h : dot u u = 0) : u = 0 := by
  unfold dot at h
  rw [Finset.sum_eq_zero_iff_of_nonneg (fun i _ => mul_self_nonneg (u i))] at h
  funext i; exact mul_self_eq_zero.1 (h i (Finset.mem_univ i))

theorem dot_lin (u v w : Pt d) (a b : ℚ) : dot (a • u + b • v) w = a * dot u w + b * dot v w := by
  simp only [dot, Pi.add_apply, Pi.smul_apply, smul_eq_mul, Finset.mul_sum, ← Finset.sum_add_distrib]
  exact Finset.sum_congr rfl fun i _ => by ring

theorem dot_zero_left (w : Pt d) : dot 0 w = 0 := by simp [dot]

/-- Cauchy–Schwarz, with the case of equality. -/
theorem gram_nonneg (u v : Pt d) : 0 ≤ dot u u * dot v v - dot u v ^ 2 ∧
    (dot u u * dot v v - dot u v ^ 2 = 0 → ∀ w, dot u u * dot v w = dot u v * dot u w) := by
  have key : dot ((dot u u) • v + (-(dot u v)) • u) ((dot u u) • v + (-(dot u v)) • u) =
      dot u u * (dot u u * dot v v - dot u v ^ 2) := by
    rw [dot_lin, dot_comm v, dot_comm u (_ + _), dot_lin, dot_lin, dot_comm v u]; ring
  constructor
  · rcases (dot_self_nonneg u).eq_or_lt with h | h
    · have hu := dot_self_eq_zero h.symm
      subst hu; simp [dot_zero_left]
    · have := dot_self_nonneg ((dot u u) • v + (-(dot u v)) • u)
      rw [key] at this
      exact nonneg_of_mul_nonneg_right this h
  · intro h w
    rw [h, mul_zero] at key
    have h0 := dot_self_eq_zero key
    have h1 := dot_lin v u w (dot u u) (-(dot u v))
    rw [h0, dot_zero_left] at h1
    linarith

theorem lowest_spec (q : Fin 4 → ℚ × ℚ) :
    (lowest q = 0 → (q 0).1 ≤ (q 1).1 ∧ (q 0).1 ≤ (q 2).1 ∧ (q 0).1 ≤ (q 3).1) ∧
    (lowest q = 1 → (q 1).1 < (q 0).1) ∧
    (lowest q = 2 → (q 2).1 < (q 0).1 ∧ (q 2).1 ≤ (q 3).1) ∧
    (lowest q = 3 → (q 3).1 < (q 0).1 ∧ (q 3).1 < (q 2).1) := by
  unfold lowest
  simp only [List.foldl_cons, List.foldl_nil]
  split_ifs with h1 h2 h3 h2 h3 h3 h3 <;> simp_all <;>
    first
    | constructor <;> linarith
    | linarith

theorem vals_project (c : Fin 4 → Pt d) :
    let e1 := c 1 - c 0; let e2 := c 2 - c 0; let w := c 3 - c 0
    (project c 0).1 = 0 ∧ (project c 1).1 = dot e1 e1 ∧ (project c 2).1 = dot e1 e2 ∧ (project c 3).1 = dot e1 w ∧
    val (project c) 0 1 2 = dot e1 e1 * dot e2 e2 - dot e1 e2 ^ 2 ∧
    val (project c) 0 1 3 = dot e1 e1 * dot e2 w - dot e1 e2 * dot e1 w ∧
    val (project c) 0 2 3 = dot e1 e2 * dot e2 w - dot e2 e2 * dot e1 w ∧
    val (project c) 0 1 2 + val (project c) 0 2 3 = val (project c) 0 1 3 + val (project c) 1 2 3 := by
  intro e1 e2 w
  have h0 : ∀ u : Pt d, dot u (c 0 - c 0) = 0 := fun u => by rw [dot_comm, sub_self, dot_zero_left]
  refine ⟨h0 _, rfl, rfl, rfl, ?_, ?_, ?_, ?_⟩
  · simp only [val, project, h0]; rw [dot_comm (c 2 - c 0) (c 1 - c 0)]; ring
  · simp only [val, project, h0]; rw [dot_comm (c 2 - c 0) (c 1 - c 0)]; ring
  · simp only [val, project, h0]; ring
  · simp only [val]; ring

theorem possible_project (c : Fin 4 → Pt d) : Possible (signs (project c)) (lowest (project c)) := by
  obtain ⟨hx0, hx1, hx2, hx3, h012, h013, h023, hrel⟩ := vals_project c
  obtain ⟨hg, hg0⟩ := gram_nonneg (c 1 - c 0) (c 2 - c 0)
  set a := dot (c 1 - c 0) (c 1 - c 0) with ha
  set b := dot (c 1 - c 0) (c 2 - c 0) with hb
  set g := dot (c 2 - c 0) (c 2 - c 0) with hgdef
  set x := dot (c 1 - c 0) (c 3 - c 0) with hx
  set y := dot (c 2 - c 0) (c 3 - c 0) with hy
  have hapos : 0 ≤ a := dot_self_nonneg _
  have hgpos : 0 ≤ g := dot_self_nonneg _
  rcases hg.eq_or_lt with hz | hpos
  · left
    have h1 := hg0 hz.symm
    have e013 : val (project c) 0 1 3 = 0 := by rw [h013, h1 (c 3 - c 0)]; ring
    have e012 : val (project c) 0 1 2 = 0 := by rw [h012]; linarith
    have e023 : val (project c) 0 2 3 = 0 := by
      rw [h023]
      have h2 := (gram_nonneg (c 2 - c 0) (c 1 - c 0)).2 (by
        rw [dot_comm (c 2 - c 0) (c 1 - c 0), ← hb, ← ha, ← hgdef]; linarith) (c 3 - c 0)
      rw [dot_comm (c 2 - c 0) (c 1 - c 0), ← hb, ← hgdef, ← hx, ← hy] at h2
      linarith
    have e123 : val (project c) 1 2 3 = 0 := by linarith
    funext k
    fin_cases k
    · exact sign_eq_zero_iff.2 e123
    · exact sign_eq_zero_iff.2 e023
    · exact sign_eq_zero_iff.2 e013
    · exact sign_eq_zero_iff.2 e012
  · right
    have hab : 0 < a := by
      rcases hapos.eq_or_lt with h | h
      · rw [← h] at hpos; nlinarith [sq_nonneg b]
      · exact h
    have s3 : signs (project c) 3 = SignType.sign (val (project c) 0 1 2) := rfl
    have s2 : signs (project c) 2 = SignType.sign (val (project c) 0 1 3) := rfl
    have s1 : signs (project c) 1 = SignType.sign (val (project c) 0 2 3) := rfl
    have s0 : signs (project c) 0 = SignType.sign (val (project c) 1 2 3) := rfl
    have hneg : ∀ z : ℚ, SignType.sign z ≠ -1 → 0 ≤ z := fun z h => not_lt.1 (mt sign_neg h)
    have hnpos : ∀ z : ℚ, SignType.sign z ≠ 1 → z ≤ 0 := fun z h => not_lt.1 (mt sign_pos h)
    obtain ⟨l0, l1, l2, l3⟩ := lowest_spec (project c)
    rw [hx0, hx1] at l1
    rw [hx0, hx1, hx2, hx3] at l0
    rw [hx0, hx2, hx3] at l2
    rw [hx0, hx2, hx3] at l3
    rw [s0, s1, s2, s3]
    have p012 : 0 < val (project c) 0 1 2 := by rw [h012]; exact hpos
    refine ⟨sign_pos p012, ?_, ?_, ?_, ?_, ?_⟩
    · rintro ⟨h1, h2, h3⟩
      have := hneg _ h1; have := hnpos _ h2; have := hnpos _ h3
      linarith
    · intro h; have := l1 h; linarith
    · rintro h ⟨h1, h2⟩
      obtain ⟨-, hb0, hx0⟩ := l0 h
      have h1 := sign_eq_neg_one_iff.1 h1
      have h2 := sign_eq_one_iff.1 h2
      rw [h013] at h1; rw [h023] at h2
      rcases hb0.eq_or_lt with hb' | hb'
      · rw [← hb'] at h2; nlinarith
      · have e1 : b * (a * y) < b * (b * x) := by nlinarith
        have e2 : a * (g * x) < a * (b * y) := by nlinarith
        nlinarith
    · rintro h ⟨h1, h2, h3⟩
      obtain ⟨hb0, hbx⟩ := l2 h
      have h1 := sign_eq_one_iff.1 h1
      have h2 := sign_eq_one_iff.1 h2
      have h3 := hnpos _ h3
      have bary : val (project c) 0 1 3 * b = val (project c) 0 2 3 * a + val (project c) 0 1 2 * x := by
        rw [h013, h023, h012]; ring
      have e : val (project c) 0 1 3 - val (project c) 0 1 2 > 0 := by linarith
      nlinarith [mul_pos h2 hab, mul_nonneg p012.le (sub_nonneg.2 hbx), mul_neg_of_pos_of_neg e hb0]
    · rintro h ⟨h1, h2, h3⟩
      obtain ⟨hx0, hxb⟩ := l3 h
      have h1 := hneg _ h1
      have h2 := hnpos _ h2
      have h3 := sign_eq_one_iff.1 h3
      have bary : val (project c) 0 1 2 * x = -val (project c) 0 2 3 * a + val (project c) 0 1 3 * b := by
        rw [h013, h023, h012]; ring
      have t1 : 0 ≤ -val (project c) 0 2 3 * a := mul_nonneg (by linarith) hab.le
      have t2 : val (project c) 0 1 2 * x < 0 := mul_neg_of_pos_of_neg p012 hx0
      rcases le_or_gt 0 b with hb0 | hb0
      · have := mul_nonneg h1 hb0; linarith
      · have t3 : val (project c) 0 1 2 * x < val (project c) 0 1 2 * b := mul_lt_mul_of_pos_left hxb p012
        have t4 : (val (project c) 0 1 2 - val (project c) 0 1 3) * b < 0 :=
          mul_neg_of_pos_of_neg (by linarith) hb0
        linarith

/-- The walk never leaves the array, and if it visits all four corners it does so in cyclic order. -/
theorem hull_project (c : Fin 4 → Pt d) : ∃ l, hull (project c) = some l ∧
    ∀ r0 r1 r2 r3, l = [r0, r1, r2, r3] → Cyclic (signs (project c)) ![r0, r1, r2, r3] := by
  have hp := possible_project c
  have ht := walk_table (signs (project c) 0) (signs (project c) 1) (signs (project c) 2) (signs (project c) 3)
    (lowest (project c))
  have he : (![signs (project c) 0, signs (project c) 1, signs (project c) 2, signs (project c) 3] :
      Fin 4 → SignType) = signs (project c) := by funext k; fin_cases k <;> rfl
  rw [he] at ht
  have ht := ht hp
  rw [hull_eq]
  unfold walkOk at ht
  split at ht
  · simp at ht
  · rename_i a b c' e hw
    refine ⟨_, hw, ?_⟩
    intro r0 r1 r2 r3 hl
    simp only [List.cons.injEq, and_true] at hl
    obtain ⟨rfl, rfl, rfl, rfl⟩ := hl
    exact of_decide_eq_true ht
  · rename_i l h hw
    refine ⟨l, hw, ?_⟩
    rintro r0 r1 r2 r3 rfl
    simp at ht

end Verif.Quad
