import Verif.Mapping.RbfOrder
import Mathlib.Data.Fin.VecNotation
import Mathlib.Tactic.Linarith

/-!
The hypotheses of the theorems about radial basis functions can be met, and what happens without them (C95):
with fewer vertices than polynomial columns a separated polynomial neither reproduces constants nor conserves
the sum.
-/

set_option autoImplicit false

namespace Verif.Rbf
open Matrix

open Classical in
/-- A choice of condition numbers and pivots with the properties of `Eigen.Valid`. -/
noncomputable def someEigen : Eigen where
  ill := fun {n} {axes} Q => decide (Fintype.card (Poly axes) ≤ n ∧ ¬ LinearIndependent ℝ Qᵀ)
  pivots := fun Q =>
    if LinearIndependent ℝ Qᵀ then Finset.univ
    else if Q = 0 then ∅
    else {(Finset.exists_max_image (Finset.univ : Finset (Poly _)) (fun k => ∑ i, Q i k * Q i k) ⟨none, Finset.mem_univ _⟩).choose}

theorem card_poly (axes : Fin 3 → Bool) : Fintype.card (Poly axes) = (Finset.univ.filter fun d => axes d = true).card + 1 := by
  rw [Fintype.card_option, Fintype.card_subtype]

theorem constant_independent {n : ℕ} {axes : Fin 3 → Bool} (X : Fin n → Point) (hn : 1 ≤ n) (h : ∀ d, axes d = false) :
    LinearIndependent ℝ (polyMatrix axes X)ᵀ := by
  have : IsEmpty {d : Fin 3 // axes d = true} := ⟨fun d => by simpa [h d.1] using d.2⟩
  refine (linearIndependent_unique_iff (R := ℝ) (v := fun k : Poly axes => (polyMatrix axes X)ᵀ k)).2 fun h0 => ?_
  have := congrFun h0 ⟨0, hn⟩
  simp [polyMatrix, polyRow, Matrix.transpose_apply, default] at this

theorem someEigen_valid : someEigen.Valid where
  full X hn h := by
    simp only [someEigen, decide_eq_false_iff_not, not_and, not_not] at h
    exact h hn
  single {n} {axes} X h := by
    simp only [someEigen, decide_eq_false_iff_not, not_and, not_not]
    intro hc
    rw [card_poly] at hc
    refine constant_independent X (by omega) ?_
    rcases h with h | h
    · intro d
      have : (Finset.univ.filter fun d => axes d = true).card = 0 := by omega
      rw [Finset.card_eq_zero, Finset.filter_eq_empty_iff] at this
      simpa using this (Finset.mem_univ d)
    · exact h
  allColumns Q h := by simp only [someEigen, if_pos h]
  independent Q := by
    classical
    simp only [someEigen]
    by_cases h1 : LinearIndependent ℝ Qᵀ
    · rw [if_pos h1]
      exact h1.comp _ Subtype.val_injective
    · rw [if_neg h1]
      by_cases h2 : Q = 0
      · rw [if_pos h2]
        exact linearIndependent_empty_type
      · rw [if_neg h2]
        have hex := Finset.exists_max_image (Finset.univ : Finset (Poly _)) (fun k => ∑ i, Q i k * Q i k) ⟨none, Finset.mem_univ _⟩
        have hmax := hex.choose_spec.2
        set k := hex.choose
        have : Unique ({k} : Finset (Poly _)) := ⟨⟨⟨k, Finset.mem_singleton_self k⟩⟩, fun x => Subtype.ext (Finset.mem_singleton.1 x.2)⟩
        rw [linearIndependent_unique_iff]
        intro h0
        have hd : ((default : ({k} : Finset (Poly _))) : Poly _) = k := Finset.mem_singleton.1 (default : ({k} : Finset (Poly _))).2
        rw [hd] at h0
        refine h2 ?_
        ext i l
        have hs : ∑ i, Q i l * Q i l ≤ 0 := by
          refine (hmax l (Finset.mem_univ l)).trans (le_of_eq ?_)
          refine Finset.sum_eq_zero fun i _ => ?_
          have : Q i k = 0 := congrFun h0 i
          rw [this, mul_zero]
        have hz := (Finset.sum_eq_zero_iff_of_nonneg fun i _ => mul_self_nonneg (Q i l)).1
          (le_antisymm hs (Finset.sum_nonneg fun i _ => mul_self_nonneg (Q i l))) i (Finset.mem_univ i)
        exact mul_self_eq_zero.1 hz
  first Q h := by
    classical
    have hex := Finset.exists_max_image (Finset.univ : Finset (Poly _)) (fun k => ∑ i, Q i k * Q i k) ⟨none, Finset.mem_univ _⟩
    refine ⟨hex.choose, ?_, fun l => hex.choose_spec.2 l (Finset.mem_univ l)⟩
    simp only [someEigen]
    by_cases h1 : LinearIndependent ℝ Qᵀ
    · rw [if_pos h1]
      exact Finset.mem_univ _
    · rw [if_neg h1, if_neg h]
      exact Finset.mem_singleton_self _

/-- `CompactPolynomialC0` with support radius one, BasisFunctions.hpp:380-387 -/
noncomputable def compactC0 (r : ℝ) : ℝ := if 1 ≤ r then 0 else (1 - r) ^ 2

/-- The axes of a problem in two dimensions. -/
def planar : Fin 3 → Bool := ![true, true, false]

/-- Three input vertices in the plane. -/
def triangle : Fin 3 → Point := ![![0, 0, 0], ![2, 0, 0], ![0, 2, 0]]

theorem squaredDifference_planar (u v : Point) :
    squaredDifference planar u v = (u 0 - v 0) * (u 0 - v 0) + (u 1 - v 1) * (u 1 - v 1) := by
  simp [squaredDifference, planar, Fin.sum_univ_three]

theorem compactC0_zero : compactC0 √0 = 1 := by simp [compactC0]

theorem compactC0_far {q : ℝ} (h : 1 ≤ q) : compactC0 √q = 0 := by
  unfold compactC0
  rw [if_pos (Real.one_le_sqrt.2 h)]

theorem entry_triangle (i j : Fin 3) : entry compactC0 planar (triangle i) (triangle j) = if i = j then 1 else 0 := by
  unfold entry
  rw [squaredDifference_planar]
  fin_cases i <;> fin_cases j <;> simp [triangle] <;> first | exact compactC0_zero | exact compactC0_far (by norm_num) | simp [compactC0]

/-- The interpolation matrix of the three vertices is the identity, so the constructor succeeds for all
output vertices, with three polynomial columns for three vertices. -/
theorem triangle_constructs {m : ℕ} (Y : Fin m → Point) :
    (∃ s, construct someEigen true compactC0 .separate planar triangle Y = some s) ∧ Fintype.card (Poly planar) ≤ 3 := by
  have hC : buildCLU (pol := .separate) (active := planar) compactC0 triangle = 1 := by
    ext p q
    rcases p with i | k
    · rcases q with j | l
      · rw [clu_inl, entry_triangle, Matrix.one_apply]
        simp
      · exact absurd l.2 (by decide)
    · exact absurd k.2 (by decide)
  refine ⟨?_, by rw [card_poly]; decide⟩
  unfold construct
  have hd : decomposable true (buildCLU (pol := .separate) (active := planar) compactC0 triangle) = true := by
    rw [hC]
    simp [decomposable, Matrix.PosDef.one]
  rw [if_neg (by decide), hd, if_pos rfl, if_pos rfl]
  obtain ⟨a, ha⟩ := Option.isSome_iff_exists.1 (C95_axes_terminate someEigen someEigen_valid triangle planar)
  rw [ha]
  exact ⟨_, rfl⟩

example (c : ℝ) : ∃ s : Solver 3 1 .separate planar, construct someEigen true compactC0 .separate planar triangle (fun _ => ![1, 1, 0]) = some s ∧
    s.mapConsistent (fun _ => c) = fun _ => c := by
  obtain ⟨⟨s, hs⟩, hn⟩ := triangle_constructs fun _ : Fin 1 => ![1, 1, 0]
  exact ⟨s, hs, C95_constant_separated _ someEigen_valid _ _ _ _ s hs hn c⟩

example (f : Fin 3 → ℝ) : ∃ s : Solver 3 1 .separate planar, construct someEigen true compactC0 .separate planar triangle (fun _ => ![2, 0, 5]) = some s ∧
    s.mapConsistent f 0 = f 1 := by
  obtain ⟨⟨s, hs⟩, hn⟩ := triangle_constructs fun _ : Fin 1 => ![2, 0, 5]
  refine ⟨s, hs, C95_interpolates _ _ _ _ _ s hs f 0 1 fun d hd => ?_⟩
  fin_cases d <;> simp_all [planar, triangle]

/-- Only the first axis is active. -/
def line : Fin 3 → Bool := ![true, false, false]

/-- Two input vertices with volume splines and integrated polynomial: the matrix is invertible. -/
theorem line_constructs {m : ℕ} (Y : Fin m → Point) :
    ∃ s, construct someEigen false (fun r => |r|) .on line ![![0, 0, 0], ![2, 7, 0]] Y = some s := by
  set X : Fin 2 → Point := ![![0, 0, 0], ![2, 7, 0]] with hX
  set C := buildCLU (pol := .on) (active := line) (fun r => |r|) X with hC
  have hdiff : ∀ u v : Point, squaredDifference line u v = (u 0 - v 0) * (u 0 - v 0) := by
    intro u v
    simp [squaredDifference, line, Fin.sum_univ_three]
  have hent : ∀ u v : Point, entry (fun r => |r|) line u v = |u 0 - v 0| := by
    intro u v
    rw [entry, hdiff, Real.sqrt_mul_self_eq_abs, abs_abs]
  have hsum : ∀ F : {_k : Poly line // Polynomial.on = .on} → ℝ, ∑ k, F k = F ⟨none, rfl⟩ + F ⟨some ⟨0, rfl⟩, rfl⟩ := by
    intro F
    have : (Finset.univ : Finset {_k : Poly line // Polynomial.on = .on}) = {⟨none, rfl⟩, ⟨some ⟨0, rfl⟩, rfl⟩} := by decide
    rw [this, Finset.sum_pair (by decide)]
  have hu : IsUnit C.det := by
    rw [← Matrix.isUnit_iff_isUnit_det, ← Matrix.mulVec_injective_iff_isUnit]
    intro w w' hw
    have hrow : ∀ p, ∑ q, C p q * w q = ∑ q, C p q * w' q := fun p => congrFun hw p
    have key : ∀ p, ∑ q, C p q * (w q - w' q) = 0 := by
      intro p
      have := hrow p
      rw [← sub_eq_zero, ← Finset.sum_sub_distrib] at this
      rw [← this]
      exact Finset.sum_congr rfl fun q _ => mul_sub _ _ _
    have e0 := key (.inl 0)
    have e1 := key (.inl 1)
    have e2 := key (.inr ⟨none, rfl⟩)
    have e3 := key (.inr ⟨some ⟨0, rfl⟩, rfl⟩)
    rw [Fintype.sum_sum_type, hsum, Fin.sum_univ_two] at e0 e1 e2 e3
    simp only [hC, clu_inl, clu_inr, clu_inr', clu_inr_inr, hent, polyRow, hX] at e0 e1 e2 e3
    norm_num at e0 e1 e2 e3
    have a1 : w (.inl 1) = w' (.inl 1) := by linarith
    have a0 : w (.inl 0) = w' (.inl 0) := by linarith
    have an : w (.inr ⟨none, rfl⟩) = w' (.inr ⟨none, rfl⟩) := by rw [a1] at e0; linarith
    have as : w (.inr ⟨some ⟨0, rfl⟩, rfl⟩) = w' (.inr ⟨some ⟨0, rfl⟩, rfl⟩) := by rw [a0, an] at e1; linarith
    funext p
    rcases p with i | ⟨k, _⟩
    · fin_cases i
      · exact a0
      · exact a1
    · rcases k with _ | ⟨d, hd⟩
      · exact an
      · fin_cases d
        · exact as
        · exact absurd hd (by decide)
        · exact absurd hd (by decide)
  unfold construct
  have hd : decomposable false C = true := by
    simpa [decomposable] using hu
  rw [if_neg (by decide), hd, if_pos rfl, if_neg (by decide)]
  exact ⟨_, rfl⟩

example (c b : ℝ) : ∃ s : Solver 2 1 .on line, construct someEigen false (fun r => |r|) .on line ![![0, 0, 0], ![2, 7, 0]] (fun _ => ![5, 1, 0]) = some s ∧
    s.mapConsistent (fun i => affine line c ![b, 0, 0] ((![![0, 0, 0], ![2, 7, 0]] : Fin 2 → Point) i)) = fun _ => c + b * 5 := by
  obtain ⟨s, hs⟩ := line_constructs fun _ : Fin 1 => ![5, 1, 0]
  refine ⟨s, hs, ?_⟩
  rw [C95_affine_integrated _ _ _ _ _ s hs]
  simp [affine, line, Fin.sum_univ_three]

/-- Only one input vertex, in two dimensions. -/
def lonely : Fin 1 → Point := ![![10, 0, 0]]

/-- The pivot of the polynomial system with one vertex is the column of the first coordinate. -/
theorem lonely_pivots (e : Eigen) (he : e.Valid) : e.pivots (polyMatrix planar lonely) = {some ⟨0, rfl⟩} := by
  have hcard : (e.pivots (polyMatrix planar lonely)).card ≤ 1 := by
    have := (he.independent (polyMatrix planar lonely)).fintype_card_le_finrank
    rw [Module.finrank_pi, Fintype.card_coe, Fintype.card_fin] at this
    exact this
  have hne : polyMatrix planar lonely ≠ 0 := fun h => by
    have := congrFun (congrFun h 0) none
    simp [polyMatrix, polyRow] at this
  obtain ⟨k, hk, hmax⟩ := he.first _ hne
  have hk0 : k = some ⟨0, rfl⟩ := by
    have h0 := hmax (some ⟨0, rfl⟩)
    rcases k with _ | ⟨d, hd⟩
    · norm_num [polyMatrix, polyRow, lonely] at h0
    · fin_cases d
      · rfl
      · norm_num [polyMatrix, polyRow, lonely] at h0
      · exact absurd hd (by decide)
  rw [Finset.card_le_one] at hcard
  refine Finset.eq_singleton_iff_unique_mem.2 ⟨hk0 ▸ hk, fun x hx => hcard x hx _ (hk0 ▸ hk)⟩

/-- The solver for the polynomial with one vertex: only the coefficient of the first coordinate is used. -/
theorem lonely_inverse (e : Eigen) (he : e.Valid) (k : Poly planar) :
    basicInverse (polyMatrix planar lonely) (e.pivots (polyMatrix planar lonely)) k 0 = if k = some ⟨0, rfl⟩ then 1 / 10 else 0 := by
  have hi := he.independent (polyMatrix planar lonely)
  rw [lonely_pivots e he] at hi ⊢
  by_cases hk : k = some ⟨0, rfl⟩
  · rw [if_pos hk]
    have h := basicInverse_mul_pivots (polyMatrix planar lonely) {some ⟨0, rfl⟩} hi k (some ⟨0, rfl⟩) (by rw [hk]; exact Finset.mem_singleton_self _)
      (Finset.mem_singleton_self _)
    rw [Fin.sum_univ_one, if_pos hk] at h
    have h10 : polyMatrix planar lonely 0 (some ⟨0, rfl⟩) = 10 := rfl
    rw [h10] at h
    linarith
  · rw [if_neg hk]
    unfold basicInverse
    rw [dif_neg (by rw [Finset.mem_singleton]; exact hk)]

/-- **Disagreement with C95 for few vertices.** With one input vertex at (10, 0) a separated polynomial is
not reduced, because the condition number is computed from one singular value only. The constant 1 is mapped
to 11/10 at the output vertex (11, 0), and the load 1 at (11, 0) is mapped conservatively to a load with
sum 11/10. This holds for every basis function for which the constructor succeeds. -/
theorem C95_single_vertex (e : Eigen) (he : e.Valid) (spd : Bool) (φ : ℝ → ℝ) (s : Solver 1 1 .separate planar)
    (h : construct e spd φ .separate planar lonely ![![11, 0, 0]] = some s) :
    s.mapConsistent (fun _ => 1) 0 = 11 / 10 ∧ ∑ i, s.mapConservative (fun _ => 1) i = 11 / 10 := by
  have b := construct_built h
  have hval : s.mapConsistent (fun _ => 1) 0 = 11 / 10 := by
    have hax : s.axes = planar := by
      have := b.axes
      rw [if_pos rfl, chooseAxes, he.single lonely (Or.inl rfl)] at this
      exact (Option.some.inj this).symm
    rw [mapConsistent_eq b, hax]
    unfold valueAt
    rw [if_pos rfl]
    have hp : basicInverse (polyMatrix planar lonely) (e.pivots (polyMatrix planar lonely)) *ᵥ (fun _ => (1 : ℝ))
        = fun k => if k = some ⟨0, rfl⟩ then 1 / 10 else 0 := by
      funext k
      rw [Matrix.mulVec, dotProduct, Fin.sum_univ_one, lonely_inverse e he, mul_one]
    have hdot : ∀ r : Poly planar → ℝ, r ⬝ᵥ (fun k => if k = some ⟨0, rfl⟩ then 1 / 10 else 0) = r (some ⟨0, rfl⟩) / 10 := by
      intro r
      rw [dotProduct, Finset.sum_eq_single (some ⟨0, rfl⟩)]
      · rw [if_pos rfl]
        ring
      · intro k _ hk
        rw [if_neg hk, mul_zero]
      · simp
    simp only [hp]
    have hq : polyMatrix planar lonely *ᵥ (fun k => if k = some ⟨0, rfl⟩ then (1 / 10 : ℝ) else 0) = fun _ => 1 := by
      funext i
      rw [Matrix.mulVec, hdot]
      rw [Fin.fin_one_eq_zero i]
      norm_num [polyMatrix, polyRow, lonely]
    have hz : (Sum.elim ((fun _ => (1 : ℝ)) - fun _ => 1) 0 : Dof 1 .separate planar → ℝ) = 0 := by
      funext p
      rcases p with i | k <;> simp
    rw [hq, hz, Matrix.mulVec_zero, dotProduct_zero, zero_add, hdot]
    norm_num [polyRow]
  refine ⟨hval, ?_⟩
  have := C95_adjoint e spd φ lonely ![![11, 0, 0]] s h (fun _ => 1) fun _ => 1
  simpa [hval] using this.symm

/-- The constructor succeeds in this case, for instance with a compact polynomial of support radius one. -/
example : ∃ s, construct someEigen true compactC0 .separate planar lonely ![![11, 0, 0]] = some s := by
  have hC : buildCLU (pol := .separate) (active := planar) compactC0 lonely = 1 := by
    ext p q
    rcases p with i | k
    · rcases q with j | l
      · rw [clu_inl, Matrix.one_apply, Subsingleton.elim i j]
        norm_num [entry, squaredDifference, compactC0]
      · exact absurd l.2 (by decide)
    · exact absurd k.2 (by decide)
  unfold construct
  have hd : decomposable true (buildCLU (pol := .separate) (active := planar) compactC0 lonely) = true := by
    rw [hC]
    simp [decomposable, Matrix.PosDef.one]
  rw [if_neg (by decide), hd, if_pos rfl, if_pos rfl]
  obtain ⟨a, ha⟩ := Option.isSome_iff_exists.1 (C95_axes_terminate someEigen someEigen_valid lonely planar)
  rw [ha]
  exact ⟨_, rfl⟩

end Verif.Rbf
