import Verif.Mapping.BatchedProps
import Verif.Mapping.PumExamples
import Verif.Mapping.PetRbfUse

/-!
The hypotheses of the theorems about the partition of unity mapping on a device can be met; disagreements with C128.
-/

set_option autoImplicit false

namespace Verif.Batched
open Matrix Rbf Pum PetRbf

/-! ## A device and a team -/

/-- A choice of pivots with the properties of `Device.Valid` -/
noncomputable def someDevice : Device := ⟨fun Q => (someEigen.pivots Q).toList⟩

theorem someDevice_valid : someDevice.Valid where
  nodup Q := Finset.nodup_toList _
  spread Q h l := by
    change l ∈ (someEigen.pivots Q).toList
    rw [someEigen_valid.allColumns Q h.independent]
    simp
  independent Q := by
    change LinearIndependent ℝ fun l : (someEigen.pivots Q).toList.toFinset => Qᵀ l
    rw [Finset.toList_toFinset]
    exact someEigen_valid.independent Q
  first Q h := by
    obtain ⟨l, hl, hmax⟩ := someEigen_valid.first Q h
    refine ⟨l, by simpa [someDevice] using hl, fun l' => ?_⟩
    simpa only [sq] using hmax l'

/-- A team with one thread, which has time for all accesses -/
def solo (k l : ℕ) : Team k l := ⟨1, fun _ => 0, fun _ => 0, List.replicate (4 + 3 * k) 0⟩

theorem run_replicate (s : State 1) (N : ℕ) : (s.run (List.replicate N 0)).todo 0 = (s.todo 0).drop N := by
  induction N generalizing s with
  | zero => rfl
  | succ N ih =>
    rw [List.replicate_succ, State.run, ih]
    unfold State.step
    split
    · rename_i h
      rw [h]
      simp
    · rename_i h
      rw [h]
      simp
    · rename_i h
      rw [h]
      simp

theorem coordinates_length (active : Fin 3 → Bool) : (coordinates active).length ≤ 3 := by
  refine (List.length_filter_le _ _).trans ?_
  simp

theorem pivots_length {D : Device} (hD : D.Valid) {k : ℕ} {axes : Fin 3 → Bool} (Q : Matrix (Fin k) (Poly axes) ℝ) : (D.pivots Q).length ≤ 4 := by
  have h1 := (hD.nodup Q).length_le_card
  have h2 : Fintype.card (Poly axes) ≤ 4 := by
    rw [card_poly]
    have := Finset.card_filter_le (Finset.univ : Finset (Fin 3)) fun d => axes d = true
    simp at this
    omega
  omega

theorem rows_length {k : ℕ} (active : Fin 3 → Bool) (X : Fin k → Point) (l : List (Fin k)) : (l.flatMap (rowAccesses active X)).length ≤ 3 * l.length := by
  induction l with
  | nil => simp
  | cons i l ih =>
    rw [List.flatMap_cons, List.length_append, List.length_cons]
    have : (rowAccesses active X i).length = (coordinates active).length := by
      unfold rowAccesses
      exact List.length_mapIdx
    have := coordinates_length active
    omega

theorem solo_complete {D : Device} (hD : D.Valid) {k l : ℕ} (active : Fin 3 → Bool) (X : Fin k → Point) (f : Fin k → ℝ) : Complete active D X f (solo k l) := by
  intro t
  change Fin 1 at t
  obtain rfl : t = 0 := Subsingleton.elim _ _
  refine (run_replicate _ _).trans (List.drop_eq_nil_of_le ?_)
  change (program (D.pivots (polyMatrix active X)).length active X (solo k l) (0 : Fin 1)).length ≤ _
  unfold program
  rw [List.length_append, List.length_map, List.length_range]
  have h1 := pivots_length hD (polyMatrix active X)
  have h2 : ∀ L : List (Fin k), L.length ≤ k → (D.pivots (polyMatrix active X)).length + (L.flatMap (rowAccesses active X)).length ≤ 4 + 3 * k := by
    intro L hL
    have := rows_length active X L
    omega
  refine h2 _ ((List.length_filter_le _ _).trans ?_)
  rw [List.length_finRange]

theorem solo_orderly {n m : ℕ} {D : Device} (hD : D.Valid) (pol : Polynomial) (active : Fin 3 → Bool) (R : ℝ) (X : Fin n → Point) (Y : Fin m → Point) (cs : List Point) (f : Fin n → ℝ) :
    OrderlyTeams D pol active R X Y cs (fun _ => solo _ _) f :=
  C128_single_thread D R X Y cs _ f (fun _ => rfl) fun _ => solo_complete hD active _ _

/-! ## A mapping with two clusters -/

/-- Distances of `Spread` for three vertices in the plane -/
theorem spread_planar {X : Fin 3 → Point} (h : ∀ a b c : ℝ, a = 1 ∨ b = 1 ∨ c = 1 →
    1 / 10 ^ 8 < (a * X 0 0 + b * X 0 1 + c) ^ 2 + (a * X 1 0 + b * X 1 1 + c) ^ 2 + (a * X 2 0 + b * X 2 1 + c) ^ 2)
    (hb : ∀ i, 0 ≤ X i 0 ∧ X i 0 ≤ 2 ∧ 0 ≤ X i 1 ∧ X i 1 ≤ 2) : Spread (polyMatrix planar X) := by
  have hall : (Finset.univ : Finset (Poly planar)) = {none, some ⟨0, rfl⟩, some ⟨1, rfl⟩} := by decide
  have hsum : ∀ F : Poly planar → ℝ, ∑ l, F l = F none + (F (some ⟨0, rfl⟩) + F (some ⟨1, rfl⟩)) := by
    intro F
    rw [hall, Finset.sum_insert (by decide), Finset.sum_insert (by decide), Finset.sum_singleton]
  have hmem : ∀ l : Poly planar, l = none ∨ l = some ⟨0, rfl⟩ ∨ l = some ⟨1, rfl⟩ := by
    intro l
    have := Finset.mem_univ l
    rw [hall] at this
    simpa using this
  intro l l' c hc
  have h1 : (∑ i, polyMatrix planar X i l' ^ 2) ≤ 12 := by
    rw [Fin.sum_univ_three]
    have b0 := hb 0
    have b1 := hb 1
    have b2 := hb 2
    rcases hmem l' with rfl | rfl | rfl <;> simp only [polyMatrix, polyRow] <;> nlinarith
  have h2 : (∑ i, (polyMatrix planar X *ᵥ c) i ^ 2) = (c (some ⟨0, rfl⟩) * X 0 0 + c (some ⟨1, rfl⟩) * X 0 1 + c none) ^ 2 +
      (c (some ⟨0, rfl⟩) * X 1 0 + c (some ⟨1, rfl⟩) * X 1 1 + c none) ^ 2 + (c (some ⟨0, rfl⟩) * X 2 0 + c (some ⟨1, rfl⟩) * X 2 1 + c none) ^ 2 := by
    rw [Fin.sum_univ_three]
    simp only [Matrix.mulVec, dotProduct, hsum, polyMatrix, polyRow]
    ring
  rw [h2]
  refine lt_of_le_of_lt ?_ (h _ _ _ ?_)
  · calc (1 / 10 ^ 5 : ℝ) ^ 2 * ∑ i, polyMatrix planar X i l' ^ 2 ≤ (1 / 10 ^ 5) ^ 2 * 12 := by
          exact mul_le_mul_of_nonneg_left h1 (by positivity)
      _ ≤ 1 / 10 ^ 8 := by norm_num
  · rcases hmem l with rfl | rfl | rfl
    · exact Or.inr (Or.inr hc)
    · exact Or.inl hc
    · exact Or.inr (Or.inl hc)

theorem triangle_spread : Spread (polyMatrix planar triangle) := by
  refine spread_planar (fun a b c h => ?_) fun i => ?_
  · simp only [show triangle 0 = ![0, 0, 0] from rfl, show triangle 1 = ![2, 0, 0] from rfl, show triangle 2 = ![0, 2, 0] from rfl, Matrix.cons_val_zero, Matrix.cons_val_one]
    rcases h with rfl | rfl | rfl
    · nlinarith [sq_nonneg (c + 1), sq_nonneg (b * 2 + c)]
    · nlinarith [sq_nonneg (c + 1), sq_nonneg (a * 2 + c)]
    · nlinarith [sq_nonneg (a * 2 + 1), sq_nonneg (b * 2 + 1)]
  · fin_cases i <;> norm_num [triangle]

/-- Two centers -/
def pair : List Point := [![0, 0, 0], ![2, 0, 0]]

/-- A statement about the vertices of a cluster holds if the cluster has all vertices. -/
theorem of_all {n : ℕ} {P : {k : ℕ} → (Fin k → Point) → Prop} {X : Fin n → Point} {c : Point} {R : ℝ} (h : P X) (hw : within X c R = List.finRange n) : P (around R X c) := by
  have : ∀ (k : ℕ) (hk : k = n) (X' : Fin k → Point), (∀ i, X' i = X ⟨i, hk ▸ i.2⟩) → P X' := by
    rintro k rfl X' hX'
    have : X' = X := funext hX'
    rwa [this]
  refine this _ (by rw [hw, List.length_finRange]) _ fun i => ?_
  unfold around
  congr 1
  ext
  simp [hw]

theorem pair_within {c : Point} (hc : c ∈ pair) : within triangle c 3 = List.finRange 3 := within_triangle (by simpa [pair] using hc)

theorem pair_near {c : Point} (hc : c ∈ pair) : distance c ![1, 1, 0] < 3 / 2 := by
  refine distance_lt (by norm_num) ?_
  have : c = ![0, 0, 0] ∨ c = ![2, 0, 0] := by simpa [pair] using hc
  rcases this with rfl | rfl <;> norm_num [third]

theorem pair_weight {c : Point} (hc : c ∈ pair) : tolerance ≤ compactC2 3 (distance c ![1, 1, 0]) := by
  have h1 := pair_near hc
  have h0 := distance_nonneg c ![1, 1, 0]
  unfold compactC2 tolerance
  simp only
  rw [if_neg (by rw [ge_iff_le, not_le]; linarith)]
  set r := distance c ![1, 1, 0]
  have h2 : (1 / 2 : ℝ) ≤ 1 - r * (1 / 3) := by linarith
  have h3 : (1 / 2 : ℝ) ^ 4 ≤ (1 - r * (1 / 3)) ^ 4 := pow_le_pow_left₀ (by norm_num) h2 4
  have h4 : (1 : ℝ) ≤ 4 * (r * (1 / 3)) + 1 := by linarith
  have h5 : (1 / 2 : ℝ) ^ 4 * 1 ≤ (1 - r * (1 / 3)) ^ 4 * (4 * (r * (1 / 3)) + 1) := mul_le_mul h3 h4 (by norm_num) (by positivity)
  refine le_trans ?_ h5
  norm_num

theorem pair_computes : ∃ p, compute someEigen true compactC0 .separate planar 3 triangle (fun _ : Fin 1 => ![1, 1, 0]) pair = some p := by
  have hpop : populated 3 triangle pair = pair := by
    unfold populated
    rw [List.filter_eq_self]
    intro c hc
    rw [pair_within hc]
    rfl
  have ht := tolerance_small
  refine (C97_computes someEigen true compactC0 3 (by linarith) triangle _ pair (by decide)).2 ⟨fun c _ => ?_, fun j => ⟨![0, 0, 0], ?_, ?_⟩, fun j c hc => Or.inl ?_⟩
  · exact sub_constructs (by decide) _ (within_nodup _ _ _) _
  · rw [hpop]
    exact List.mem_cons_self ..
  · exact lt_trans (pair_near (c := ![0, 0, 0]) (List.mem_cons_self ..)) (by norm_num)
  · rw [hpop] at hc
    exact lt_trans (pair_near hc) (by linarith)

theorem triangle_apart : Apart compactC0 planar triangle := entry_triangle

/-- The device computes what the CPU computes, for all data. -/
theorem pair_executor (f : Fin 3 → ℝ) : ∃ p : Mapping 3 1 .separate planar, compute someEigen true compactC0 .separate planar 3 triangle (fun _ : Fin 1 => ![1, 1, 0]) pair = some p ∧
    ready true .separate 3 triangle (fun _ : Fin 1 => ![1, 1, 0]) pair = true ∧
    mapConsistent someDevice compactC0 .separate planar 3 triangle (fun _ : Fin 1 => ![1, 1, 0]) pair (fun _ => solo _ _) f = p.mapConsistent f := by
  obtain ⟨p, hp⟩ := pair_computes
  have ht := tolerance_small
  refine ⟨p, hp, C128_executor_partial someEigen someEigen_valid someDevice someDevice_valid compactC0 3 (by linarith) triangle _ (by decide) pair p hp (fun c hc => ?_)
    (fun c hc j _ => pair_weight hc) (fun _ c hc => ⟨?_, of_all (P := fun X => Spread (polyMatrix planar X)) triangle_spread (pair_within hc)⟩) _ f (solo_orderly someDevice_valid _ _ _ _ _ _ _)⟩
  · rw [pair_within hc]
    simp
  · refine of_all (P := fun X => someEigen.ill (polyMatrix planar X) = false) ?_ (pair_within hc)
    simp [someEigen, triangle_spread.independent]

theorem pair_ready : ready true .separate 3 triangle (fun _ : Fin 1 => ![1, 1, 0]) pair = true := (pair_executor 0).choose_spec.2.1

theorem kernel_apart {k : ℕ} {φ : ℝ → ℝ} {active : Fin 3 → Bool} {X : Fin k → Point} (h : Apart φ active X) : (kernelMatrix φ active X).PosDef := by
  have : kernelMatrix φ active X = 1 := by
    ext i j
    change entry φ active (X j) (X i) = _
    rw [h, Matrix.one_apply]
    by_cases hij : i = j
    · rw [if_pos hij, if_pos hij.symm]
    · rw [if_neg hij, if_neg (Ne.symm hij)]
  rw [this]
  exact Matrix.PosDef.one

example (a : ℝ) (b : Fin 3 → ℝ) : ∃ g, mapConsistent someDevice compactC0 .separate planar 3 triangle (fun _ : Fin 1 => ![1, 1, 0]) pair (fun _ => solo _ _)
    (fun i => affine planar a b (triangle i)) = some g ∧ g 0 = affine planar a b ![1, 1, 0] := by
  obtain ⟨g, hg, h⟩ := C128_affine_partial someDevice someDevice_valid true compactC0 3 triangle (fun _ : Fin 1 => ![1, 1, 0]) pair pair_ready (fun _ => solo _ _) a b
    (solo_orderly someDevice_valid _ _ _ _ _ _ _) (fun c hc => of_all (P := fun X => Spread (polyMatrix planar X)) triangle_spread (pair_within hc))
    fun c hc => of_all (P := fun X => (kernelMatrix compactC0 planar X).PosDef) (kernel_apart triangle_apart) (pair_within hc)
  exact ⟨g, hg, h 0⟩

example : (∑ c, if (0 : Fin 1) ∈ within (fun _ : Fin 1 => ![1, 1, 0]) (pair.get c) (3 - tolerance) then weight 3 pair (fun _ : Fin 1 => ![1, 1, 0]) c 0 else 0) = 1 :=
  (C128_unity true 3 triangle _ pair pair_ready 0).1

end Verif.Batched
