import Verif.Api.QuadLemmas
import Mathlib.Analysis.Real.Sqrt
import Mathlib.Tactic.LinearCombination

/-! # Quads are split correctly (C91) -/

set_option autoImplicit false

namespace Verif.Quad

variable {d : ℕ}

/-- Squared area of the parallelogram spanned by two vectors. -/
def gram (u v : Pt d) : ℚ := dot u u * dot v v - dot u v ^ 2

/-- Area of a triangle in any dimension. -/
noncomputable def area (p q r : Pt d) : ℝ := √(gram (q - p) (r - p) : ℚ) / 2

/-- Area of a convex quadrilateral with corners in cyclic order: half of the parallelogram spanned by the
diagonals. -/
noncomputable def quadArea (p q r s : Pt d) : ℝ := √(gram (r - p) (s - q) : ℚ) / 2

/-- The fourth corner lies in the plane of the others, which are not on a line. -/
def Proper (c : Fin 4 → Pt d) : Prop :=
  gram (c 1 - c 0) (c 2 - c 0) ≠ 0 ∧ ∃ α β : ℚ, c 3 - c 0 = α • (c 1 - c 0) + β • (c 2 - c 0)

theorem gram_comb (u v : Pt d) (a b a' b' : ℚ) :
    gram (a • u + b • v) (a' • u + b' • v) = (a * b' - b * a') ^ 2 * gram u v := by
  unfold gram
  rw [dot_lin, dot_lin, dot_lin, dot_comm u (a • u + b • v), dot_comm v (a • u + b • v),
    dot_comm u (a' • u + b' • v), dot_comm v (a' • u + b' • v), dot_lin, dot_lin, dot_lin, dot_lin, dot_comm v u]
  ring

/-- Coordinates of the corners with respect to the first two edges. -/
def coef (α β : ℚ) : Fin 4 → ℚ × ℚ := ![(0, 0), (1, 0), (0, 1), (α, β)]

theorem corner_eq {c : Fin 4 → Pt d} {α β : ℚ} (h : c 3 - c 0 = α • (c 1 - c 0) + β • (c 2 - c 0)) (i : Fin 4) :
    c i - c 0 = (coef α β i).1 • (c 1 - c 0) + (coef α β i).2 • (c 2 - c 0) := by
  fin_cases i
  · simp [coef]
  · simp [coef]
  · simp [coef]
  · simpa [coef] using h

theorem diff_eq {c : Fin 4 → Pt d} {α β : ℚ} (h : c 3 - c 0 = α • (c 1 - c 0) + β • (c 2 - c 0)) (i j : Fin 4) :
    c j - c i = ((coef α β j).1 - (coef α β i).1) • (c 1 - c 0) + ((coef α β j).2 - (coef α β i).2) • (c 2 - c 0) := by
  have e : c j - c i = (c j - c 0) - (c i - c 0) := by abel
  rw [e, corner_eq h i, corner_eq h j]
  funext k
  simp only [Pi.sub_apply, Pi.add_apply, Pi.smul_apply, smul_eq_mul]
  ring

theorem project_eq {c : Fin 4 → Pt d} {α β : ℚ} (h : c 3 - c 0 = α • (c 1 - c 0) + β • (c 2 - c 0)) (i : Fin 4) :
    project c i = ((coef α β i).1 * dot (c 1 - c 0) (c 1 - c 0) + (coef α β i).2 * dot (c 1 - c 0) (c 2 - c 0),
      (coef α β i).1 * dot (c 1 - c 0) (c 2 - c 0) + (coef α β i).2 * dot (c 2 - c 0) (c 2 - c 0)) := by
  unfold project
  rw [corner_eq h i, dot_comm (c 1 - c 0) (_ + _), dot_lin, dot_comm (c 2 - c 0) (_ + _), dot_lin,
    dot_comm (c 2 - c 0) (c 1 - c 0)]

theorem val_eq {c : Fin 4 → Pt d} {α β : ℚ} (h : c 3 - c 0 = α • (c 1 - c 0) + β • (c 2 - c 0)) (i j k : Fin 4) :
    val (project c) i j k = val (coef α β) i j k * gram (c 1 - c 0) (c 2 - c 0) := by
  simp only [val, project_eq h, gram]; ring

theorem area_eq {c : Fin 4 → Pt d} {α β : ℚ} (h : c 3 - c 0 = α • (c 1 - c 0) + β • (c 2 - c 0)) (i j k : Fin 4) :
    area (c i) (c j) (c k) =
      |((val (coef α β) i j k : ℚ) : ℝ)| * √((gram (c 1 - c 0) (c 2 - c 0) : ℚ) : ℝ) / 2 := by
  unfold area
  rw [diff_eq h i j, diff_eq h i k, gram_comb]
  push_cast
  rw [Real.sqrt_mul (sq_nonneg _), Real.sqrt_sq_eq_abs]
  congr 3
  simp only [val]
  push_cast
  ring_nf

theorem quadArea_eq {c : Fin 4 → Pt d} {α β : ℚ} (h : c 3 - c 0 = α • (c 1 - c 0) + β • (c 2 - c 0))
    (i j k l : Fin 4) :
    quadArea (c i) (c j) (c k) (c l) =
      |((val (coef α β) i k l - val (coef α β) i k j : ℚ) : ℝ)| * √((gram (c 1 - c 0) (c 2 - c 0) : ℚ) : ℝ) / 2 := by
  unfold quadArea
  rw [diff_eq h i k, diff_eq h j l, gram_comb]
  push_cast
  rw [Real.sqrt_mul (sq_nonneg _), Real.sqrt_sq_eq_abs]
  congr 3
  simp only [val]
  push_cast
  ring_nf

theorem abs_add_opposite {a b : ℚ} (h : SignType.sign a * SignType.sign b ≠ 1) : |a| + |b| = |b - a| := by
  rcases lt_trichotomy a 0 with ha | ha | ha <;> rcases lt_trichotomy b 0 with hb | hb | hb
  · rw [sign_neg ha, sign_neg hb] at h; exact absurd (by decide) h
  · subst hb; simp
  · rw [abs_of_neg ha, abs_of_pos hb, abs_of_pos (by linarith)]; ring
  · subst ha; simp
  · subst ha; simp
  · subst ha; simp
  · rw [abs_of_pos ha, abs_of_neg hb, abs_of_neg (by linarith)]; ring
  · subst hb; simp
  · rw [sign_pos ha, sign_pos hb] at h; exact absurd (by decide) h

/-- Defining a quad yields two triangles. They use exactly the four given vertices, share exactly two of
them, i.e. one diagonal, and this diagonal is not longer than the other one. -/
theorem C91_split (ids : Fin 4 → ℕ) (c : Fin 4 → Pt d) {a b : List ℕ} (h : split ids c = .triangles a b) :
    ∃ r : Fin 4 → Fin 4, Function.Injective r ∧
      a = [ids (r 0), ids (r 2), ids (r 1)] ∧ b = [ids (r 0), ids (r 2), ids (r 3)] ∧
      (∀ i, ids i ∈ a ∨ ids i ∈ b) ∧ (∀ v, (v ∈ a ∧ v ∈ b) ↔ (v = ids (r 0) ∨ v = ids (r 2))) ∧
      a.Nodup ∧ b.Nodup ∧ dist2 (c (r 0)) (c (r 2)) ≤ dist2 (c (r 1)) (c (r 3)) ∧
      (Proper c →
        area (c (r 0)) (c (r 2)) (c (r 1)) + area (c (r 0)) (c (r 2)) (c (r 3)) =
          quadArea (c (r 0)) (c (r 1)) (c (r 2)) (c (r 3)) ∧
        area (c (r 1)) (c (r 3)) (c (r 0)) + area (c (r 1)) (c (r 3)) (c (r 2)) =
          quadArea (c (r 0)) (c (r 1)) (c (r 2)) (c (r 3))) := by
  unfold split at h
  by_cases h1 : Function.Injective ids
  swap
  · simp [h1] at h
  by_cases h2 : Function.Injective c
  swap
  · simp [h1, h2] at h
  by_cases h3 : planar c
  swap
  · simp [h1, h2, h3] at h
  simp only [h1, h2, h3, not_true_eq_false, if_false] at h
  obtain ⟨l, hl, hcyc⟩ := hull_project c
  rw [hl] at h
  match l, hcyc, h with
  | [], _, h => simp at h
  | [_], _, h => simp at h
  | [_, _], _, h => simp at h
  | [_, _, _], _, h => simp at h
  | _ :: _ :: _ :: _ :: _ :: _, _, h => simp at h
  | [r0, r1, r2, r3], hcyc, h =>
    have hcyc := hcyc r0 r1 r2 r3 rfl
    simp only [Split.triangles.injEq] at h
    obtain ⟨hinj, hs1, hs2⟩ := hcyc
    have n01 : r0 ≠ r1 := fun e => by simpa using hinj (show (![r0, r1, r2, r3] : Fin 4 → Fin 4) 0 = ![r0, r1, r2, r3] 1 from e)
    have n02 : r0 ≠ r2 := fun e => by simpa using hinj (show (![r0, r1, r2, r3] : Fin 4 → Fin 4) 0 = ![r0, r1, r2, r3] 2 from e)
    have n03 : r0 ≠ r3 := fun e => by simpa using hinj (show (![r0, r1, r2, r3] : Fin 4 → Fin 4) 0 = ![r0, r1, r2, r3] 3 from e)
    have n12 : r1 ≠ r2 := fun e => by simpa using hinj (show (![r0, r1, r2, r3] : Fin 4 → Fin 4) 1 = ![r0, r1, r2, r3] 2 from e)
    have n13 : r1 ≠ r3 := fun e => by simpa using hinj (show (![r0, r1, r2, r3] : Fin 4 → Fin 4) 1 = ![r0, r1, r2, r3] 3 from e)
    have n23 : r2 ≠ r3 := fun e => by simpa using hinj (show (![r0, r1, r2, r3] : Fin 4 → Fin 4) 2 = ![r0, r1, r2, r3] 3 from e)
    have hsurj : ∀ i, i = r0 ∨ i = r1 ∨ i = r2 ∨ i = r3 := by
      intro i
      obtain ⟨k, hk⟩ := (Finite.injective_iff_surjective.1 hinj) i
      fin_cases k
      · exact .inl hk.symm
      · exact .inr (.inl hk.symm)
      · exact .inr (.inr (.inl hk.symm))
      · exact .inr (.inr (.inr hk.symm))
    have hs1 : ori (signs (project c)) r0 r2 r1 * ori (signs (project c)) r0 r2 r3 ≠ 1 := hs1
    have hs2 : ori (signs (project c)) r1 r3 r0 * ori (signs (project c)) r1 r3 r2 ≠ 1 := hs2
    rw [← sign_val, ← sign_val] at hs1 hs2
    have i01 : ids r0 ≠ ids r1 := fun e => n01 (h1 e)
    have i02 : ids r0 ≠ ids r2 := fun e => n02 (h1 e)
    have i03 : ids r0 ≠ ids r3 := fun e => n03 (h1 e)
    have i12 : ids r1 ≠ ids r2 := fun e => n12 (h1 e)
    have i13 : ids r1 ≠ ids r3 := fun e => n13 (h1 e)
    have i23 : ids r2 ≠ ids r3 := fun e => n23 (h1 e)
    -- areas of both splits
    have areas : Proper c →
        area (c r0) (c r2) (c r1) + area (c r0) (c r2) (c r3) = quadArea (c r0) (c r1) (c r2) (c r3) ∧
        area (c r1) (c r3) (c r0) + area (c r1) (c r3) (c r2) = quadArea (c r0) (c r1) (c r2) (c r3) := by
      rintro ⟨hG, α, β, hαβ⟩
      have hGpos : 0 < gram (c 1 - c 0) (c 2 - c 0) := lt_of_le_of_ne (gram_nonneg _ _).1 (Ne.symm hG)
      have hsign : ∀ i j k, SignType.sign (val (project c) i j k) = SignType.sign (val (coef α β) i j k) := by
        intro i j k; rw [val_eq hαβ, sign_mul, sign_pos hGpos, mul_one]
      rw [hsign, hsign] at hs1 hs2
      rw [area_eq hαβ, area_eq hαβ, area_eq hαβ, area_eq hαβ, quadArea_eq hαβ]
      have e1 := abs_add_opposite hs1
      have e2 := abs_add_opposite hs2
      have e3 : val (coef α β) r1 r3 r2 - val (coef α β) r1 r3 r0 =
          -(val (coef α β) r0 r2 r3 - val (coef α β) r0 r2 r1) := by simp only [val]; ring
      rw [e3, abs_neg] at e2
      have e1' : |((val (coef α β) r0 r2 r1 : ℚ) : ℝ)| + |((val (coef α β) r0 r2 r3 : ℚ) : ℝ)| =
          |((val (coef α β) r0 r2 r3 - val (coef α β) r0 r2 r1 : ℚ) : ℝ)| := by exact_mod_cast e1
      have e2' : |((val (coef α β) r1 r3 r0 : ℚ) : ℝ)| + |((val (coef α β) r1 r3 r2 : ℚ) : ℝ)| =
          |((val (coef α β) r0 r2 r3 - val (coef α β) r0 r2 r1 : ℚ) : ℝ)| := by exact_mod_cast e2
      constructor
      · rw [← e1']; ring
      · rw [← e2']; ring
    by_cases hd : dist2 (c r0) (c r2) ≤ dist2 (c r1) (c r3)
    · have hcut : cut c ![r0, r1, r2, r3] = ([r0, r2, r1], [r0, r2, r3]) := if_pos hd
      rw [hcut] at h
      obtain ⟨rfl, rfl⟩ := h
      refine ⟨![r0, r1, r2, r3], hinj, rfl, rfl, ?_, ?_, ?_, ?_, hd, areas⟩
      · intro i
        rcases hsurj i with rfl | rfl | rfl | rfl <;> simp
      · intro v
        simp only [List.map_cons, List.map_nil, List.mem_cons, List.not_mem_nil, or_false]
        constructor
        · rintro ⟨h | h | h, h' | h' | h'⟩
          · exact .inl h
          · exact .inl h
          · exact .inl h
          · exact .inr h
          · exact .inr h
          · exact .inr h
          · exact .inl h'
          · exact .inr h'
          · exact absurd (h.symm.trans h') i13
        · rintro (h | h)
          · exact ⟨.inl h, .inl h⟩
          · exact ⟨.inr (.inl h), .inr (.inl h)⟩
      · simp [i02, i01, i12.symm]
      · simp [i02, i03, i23]
    · have hcut : cut c ![r0, r1, r2, r3] = ([r1, r3, r0], [r1, r3, r2]) := if_neg hd
      rw [hcut] at h
      obtain ⟨rfl, rfl⟩ := h
      refine ⟨![r1, r0, r3, r2], ?_, rfl, rfl, ?_, ?_, ?_, ?_, (not_le.1 hd).le, ?_⟩
      · intro i j hij
        fin_cases i <;> fin_cases j <;>
          first
          | rfl
          | exact absurd hij n01 | exact absurd hij n02 | exact absurd hij n03 | exact absurd hij n12
          | exact absurd hij n13 | exact absurd hij n23 | exact absurd hij n01.symm | exact absurd hij n02.symm
          | exact absurd hij n03.symm | exact absurd hij n12.symm | exact absurd hij n13.symm
          | exact absurd hij n23.symm
      · intro i
        rcases hsurj i with rfl | rfl | rfl | rfl <;> simp
      · intro v
        simp only [List.map_cons, List.map_nil, List.mem_cons, List.not_mem_nil, or_false]
        constructor
        · rintro ⟨h | h | h, h' | h' | h'⟩
          · exact .inl h
          · exact .inl h
          · exact .inl h
          · exact .inr h
          · exact .inr h
          · exact .inr h
          · exact .inl h'
          · exact .inr h'
          · exact absurd (h.symm.trans h') i02
        · rintro (h | h)
          · exact ⟨.inl h, .inl h⟩
          · exact ⟨.inr (.inl h), .inr (.inl h)⟩
      · simp [i13, i01.symm, i03.symm]
      · simp [i13, i12, i23.symm]
      · intro hP
        obtain ⟨a1, a2⟩ := areas hP
        have hq : quadArea (c r1) (c r0) (c r3) (c r2) = quadArea (c r0) (c r1) (c r2) (c r3) := by
          have : gram (c r3 - c r1) (c r2 - c r0) = gram (c r2 - c r0) (c r3 - c r1) := by
            unfold gram; rw [dot_comm (c r3 - c r1) (c r2 - c r0)]; ring
          unfold quadArea; rw [this]
        refine ⟨?_, ?_⟩
        · exact a2.trans hq.symm
        · exact a1.trans hq.symm

/-- No accepted quad makes the convexity test run out of bounds. -/
theorem C91_no_ub (ids : Fin 4 → ℕ) (c : Fin 4 → Pt d) : split ids c ≠ .ub := by
  obtain ⟨l, hl, -⟩ := hull_project c
  unfold split
  rw [hl]
  split_ifs <;> try simp
  split <;> simp_all

/-- The corners of a planar quad whose first three corners are not on a line. -/
theorem proper_two (c : Fin 4 → Pt 2) (h : gram (c 1 - c 0) (c 2 - c 0) ≠ 0) : Proper c := by
  refine ⟨h, ?_⟩
  set u := c 1 - c 0
  set v := c 2 - c 0
  set w := c 3 - c 0
  have hg : gram u v = (u 0 * v 1 - u 1 * v 0) ^ 2 := by
    simp only [gram, dot, Fin.sum_univ_two]; ring
  have hD : u 0 * v 1 - u 1 * v 0 ≠ 0 := fun e => h (by rw [hg, e]; ring)
  refine ⟨(w 0 * v 1 - w 1 * v 0) / (u 0 * v 1 - u 1 * v 0), (u 0 * w 1 - u 1 * w 0) / (u 0 * v 1 - u 1 * v 0), ?_⟩
  funext k
  fin_cases k
  · change w 0 = (w 0 * v 1 - w 1 * v 0) / (u 0 * v 1 - u 1 * v 0) * u 0 +
      (u 0 * w 1 - u 1 * w 0) / (u 0 * v 1 - u 1 * v 0) * v 0
    rw [div_mul_eq_mul_div, div_mul_eq_mul_div, ← add_div, eq_div_iff hD]; ring
  · change w 1 = (w 0 * v 1 - w 1 * v 0) / (u 0 * v 1 - u 1 * v 0) * u 1 +
      (u 0 * w 1 - u 1 * w 0) / (u 0 * v 1 - u 1 * v 0) * v 1
    rw [div_mul_eq_mul_div, div_mul_eq_mul_div, ← add_div, eq_div_iff hD]; ring

/-- In three dimensions the corners have to satisfy the planarity condition exactly. -/
theorem proper_three (c : Fin 4 → Pt 3) (h : gram (c 1 - c 0) (c 2 - c 0) ≠ 0)
    (ht : triple (c 1 - c 0) (c 2 - c 0) (c 3 - c 0) = 0) : Proper c := by
  refine ⟨h, ?_⟩
  set u := c 1 - c 0
  set v := c 2 - c 0
  set w := c 3 - c 0
  have ht' : (u 1 * v 2 - u 2 * v 1) * w 0 + (u 2 * v 0 - u 0 * v 2) * w 1 + (u 0 * v 1 - u 1 * v 0) * w 2 = 0 := ht
  have hg : gram u v = (u 1 * v 2 - u 2 * v 1) ^ 2 + (u 2 * v 0 - u 0 * v 2) ^ 2 + (u 0 * v 1 - u 1 * v 0) ^ 2 := by
    simp only [gram, dot, Fin.sum_univ_three]; ring
  refine ⟨((w 1 * v 2 - w 2 * v 1) * (u 1 * v 2 - u 2 * v 1) + (w 2 * v 0 - w 0 * v 2) * (u 2 * v 0 - u 0 * v 2) +
      (w 0 * v 1 - w 1 * v 0) * (u 0 * v 1 - u 1 * v 0)) / gram u v,
    ((u 1 * w 2 - u 2 * w 1) * (u 1 * v 2 - u 2 * v 1) + (u 2 * w 0 - u 0 * w 2) * (u 2 * v 0 - u 0 * v 2) +
      (u 0 * w 1 - u 1 * w 0) * (u 0 * v 1 - u 1 * v 0)) / gram u v, ?_⟩
  funext k
  simp only [Pi.add_apply, Pi.smul_apply, smul_eq_mul]
  rw [div_mul_eq_mul_div, div_mul_eq_mul_div, ← add_div, eq_div_iff h, hg]
  fin_cases k
  · change w 0 * _ = _ * u 0 + _ * v 0
    linear_combination (u 1 * v 2 - u 2 * v 1) * ht'
  · change w 1 * _ = _ * u 1 + _ * v 1
    linear_combination (u 2 * v 0 - u 0 * v 2) * ht'
  · change w 2 * _ = _ * u 2 + _ * v 2
    linear_combination (u 0 * v 1 - u 1 * v 0) * ht'

/-- A unit square given in a twisted order is untangled and cut. -/
example : let c : Fin 4 → Pt 2 := ![![0, 0], ![2, 2], ![2, 0], ![0, 1]]
    split ![7, 8, 9, 5] c = .triangles [9, 5, 7] [9, 5, 8] ∧ Proper c := by
  refine ⟨by decide +kernel, proper_two _ (by decide +kernel)⟩

/-- A concave quad is rejected. -/
example : split ![0, 1, 2, 3] (![![0, 0], ![4, 0], ![0, 4], ![1, 1]] : Fin 4 → Pt 2) = .error := by decide +kernel

/-- If the first three corners are on a line then everything is considered convex: this "quad" is accepted
and replaced by a degenerate triangle and one that covers only half of the area spanned by its corners. -/
theorem C91_collinear_corners_accepted :
    let c : Fin 4 → Pt 2 := ![![0, 0], ![0, 2], ![0, 1], ![1, 0]]
    split ![0, 1, 2, 3] c = .triangles [0, 2, 1] [0, 2, 3] ∧
      gram (c 2 - c 0) (c 1 - c 0) = 0 ∧ gram (c 2 - c 0) (c 3 - c 0) = 1 ∧ gram (c 1 - c 0) (c 3 - c 0) = 4 := by
  decide +kernel

end Verif.Quad
