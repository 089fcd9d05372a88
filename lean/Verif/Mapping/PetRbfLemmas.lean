import Verif.Mapping.PetRbf
import Mathlib.Data.List.FinRange
import Mathlib.Data.List.Nodup
import Mathlib.LinearAlgebra.Matrix.Rank

/-!
The iterative radial basis function mapping: least squares, distribution of the rows, and the assembled matrices.
-/

set_option autoImplicit false

namespace Verif.PetRbf
open Matrix Verif.Rbf

/-! ## Least squares -/

section
variable {ι κ : Type} [Fintype ι] [Fintype κ]

theorem mulVec_zero_of_normal {Q : Matrix ι κ ℝ} {a : κ → ℝ} (h : Qᵀ *ᵥ (Q *ᵥ a) = 0) : Q *ᵥ a = 0 := by
  have h1 : (Q *ᵥ a) ⬝ᵥ (Q *ᵥ a) = 0 := by
    rw [Matrix.dotProduct_mulVec, ← Matrix.mulVec_transpose, h, zero_dotProduct]
  exact dotProduct_self_eq_zero.1 h1

/-- There is only one shortest least squares solution. -/
theorem Shortest.unique {Q : Matrix ι κ ℝ} {b : ι → ℝ} {a a' : κ → ℝ} (h : Shortest Q b a) (h' : Shortest Q b a') : a = a' := by
  obtain ⟨h1, z, hz⟩ := h
  obtain ⟨h2, z', hz'⟩ := h'
  have h3 : Q *ᵥ (a - a') = 0 := mulVec_zero_of_normal (by rw [Matrix.mulVec_sub, Matrix.mulVec_sub, h1, h2, sub_self])
  have h4 : (a - a') ⬝ᵥ (a - a') = 0 := by
    have h5 : a - a' = Qᵀ *ᵥ (z - z') := by rw [Matrix.mulVec_sub, hz, hz']
    nth_rewrite 1 [h5]
    rw [Matrix.mulVec_transpose, ← Matrix.dotProduct_mulVec, h3, dotProduct_zero]
  exact sub_eq_zero.1 (dotProduct_self_eq_zero.1 h4)

theorem lsqr_eq {Q : Matrix ι κ ℝ} {b : ι → ℝ} {a : κ → ℝ} (h : Shortest Q b a) : lsqr Q b = a := by
  unfold lsqr
  have he : ∃ a, Shortest Q b a := ⟨a, h⟩
  rw [dif_pos he]
  exact he.choose_spec.unique h

/-- It is a least squares solution, and no other one is shorter. -/
theorem Shortest.best {Q : Matrix ι κ ℝ} {b : ι → ℝ} {a : κ → ℝ} (h : Shortest Q b a) (a' : κ → ℝ) :
    (Q *ᵥ a - b) ⬝ᵥ (Q *ᵥ a - b) ≤ (Q *ᵥ a' - b) ⬝ᵥ (Q *ᵥ a' - b) ∧
    ((Q *ᵥ a' - b) ⬝ᵥ (Q *ᵥ a' - b) = (Q *ᵥ a - b) ⬝ᵥ (Q *ᵥ a - b) → a ⬝ᵥ a ≤ a' ⬝ᵥ a') := by
  obtain ⟨h1, z, hz⟩ := h
  have hnn : ∀ {τ : Type} [Fintype τ] (v : τ → ℝ), 0 ≤ v ⬝ᵥ v := fun v => Finset.sum_nonneg fun i _ => mul_self_nonneg _
  have horth : (Q *ᵥ (a' - a)) ⬝ᵥ (Q *ᵥ a - b) = 0 := by
    rw [dotProduct_comm, Matrix.dotProduct_mulVec, ← Matrix.mulVec_transpose, Matrix.mulVec_sub, h1, sub_self, zero_dotProduct]
  have hsplit : Q *ᵥ a' - b = Q *ᵥ (a' - a) + (Q *ᵥ a - b) := by rw [Matrix.mulVec_sub]; abel
  have hsq : (Q *ᵥ a' - b) ⬝ᵥ (Q *ᵥ a' - b) = (Q *ᵥ (a' - a)) ⬝ᵥ (Q *ᵥ (a' - a)) + (Q *ᵥ a - b) ⬝ᵥ (Q *ᵥ a - b) := by
    rw [hsplit, add_dotProduct, dotProduct_add, dotProduct_add, horth, dotProduct_comm (Q *ᵥ a - b), horth]
    ring
  refine ⟨by rw [hsq]; exact le_add_of_nonneg_left (hnn _), fun he => ?_⟩
  have h3 : Q *ᵥ (a' - a) = 0 := dotProduct_self_eq_zero.1 (by linarith [hsq, he])
  have h4 : (a' - a) ⬝ᵥ a = 0 := by
    have h6 : (Qᵀ *ᵥ z) ⬝ᵥ (a' - a) = 0 := by rw [Matrix.mulVec_transpose, ← Matrix.dotProduct_mulVec, h3, dotProduct_zero]
    rw [dotProduct_comm]
    exact (congrArg (· ⬝ᵥ (a' - a)) hz).trans h6
  have h5 : a' = (a' - a) + a := by abel
  have h6 : a' ⬝ᵥ a' = (a' - a) ⬝ᵥ (a' - a) + a ⬝ᵥ a := by
    nth_rewrite 1 2 [h5]
    rw [add_dotProduct, dotProduct_add, dotProduct_add, h4, dotProduct_comm a, h4]
    ring
  rw [h6]
  exact le_add_of_nonneg_left (hnn _)

/-- There always is one. -/
theorem exists_shortest [DecidableEq ι] [DecidableEq κ] (Q : Matrix ι κ ℝ) (b : ι → ℝ) : ∃ a, Shortest Q b a := by
  have h1 : ∀ {ι κ : Type} [Fintype ι] [Fintype κ] [DecidableEq ι] [DecidableEq κ] (R : Matrix ι κ ℝ) (c : κ → ℝ), ∃ w, R *ᵥ (Rᵀ *ᵥ w) = R *ᵥ c := by
    intro ι κ _ _ _ _ R c
    have hle : LinearMap.range (R * Rᵀ).mulVecLin ≤ LinearMap.range R.mulVecLin := by
      rw [Matrix.mulVecLin_mul]
      exact LinearMap.range_comp_le_range _ _
    have hrank : Module.finrank ℝ (LinearMap.range (R * Rᵀ).mulVecLin) = Module.finrank ℝ (LinearMap.range R.mulVecLin) :=
      Matrix.rank_self_mul_transpose R
    have heq := Submodule.eq_of_le_of_finrank_eq hle hrank
    have hc : R.mulVecLin c ∈ LinearMap.range (R * Rᵀ).mulVecLin := heq ▸ LinearMap.mem_range_self _ _
    obtain ⟨w, hw⟩ := hc
    refine ⟨w, ?_⟩
    rw [Matrix.mulVec_mulVec]
    exact hw
  obtain ⟨c, hc⟩ := h1 Qᵀ b
  rw [Matrix.transpose_transpose] at hc
  obtain ⟨w, hw⟩ := h1 Q c
  exact ⟨Qᵀ *ᵥ w, by rw [hw, hc], w, rfl⟩

variable [DecidableEq κ]

theorem gram_unit {Q : Matrix ι κ ℝ} (h : LinearIndependent ℝ Qᵀ) : IsUnit (Qᵀ * Q).det := by
  have hinj : Function.Injective Q.mulVec := by
    rw [Matrix.mulVec_injective_iff]
    exact h
  have hpd : (Qᵀ * Q).PosDef := by
    have := Matrix.PosDef.conjTranspose_mul_self Q hinj
    rwa [Matrix.conjTranspose_eq_transpose_of_trivial] at this
  exact isUnit_iff_ne_zero.2 hpd.det_pos.ne'

/-- With independent columns it is the usual least squares solution. -/
theorem shortest_gram {Q : Matrix ι κ ℝ} (h : LinearIndependent ℝ Qᵀ) (b : ι → ℝ) : Shortest Q b (((Qᵀ * Q)⁻¹ * Qᵀ) *ᵥ b) := by
  have hu := gram_unit h
  refine ⟨?_, Q *ᵥ ((Qᵀ * Q)⁻¹ *ᵥ (((Qᵀ * Q)⁻¹ * Qᵀ) *ᵥ b)), ?_⟩
  · rw [Matrix.mulVec_mulVec, Matrix.mulVec_mulVec, ← Matrix.mul_assoc, Matrix.mul_nonsing_inv _ hu, Matrix.one_mul]
  · generalize ((Qᵀ * Q)⁻¹ * Qᵀ) *ᵥ b = c
    rw [Matrix.mulVec_mulVec, Matrix.mulVec_mulVec, Matrix.mul_nonsing_inv _ hu, Matrix.one_mulVec]

theorem shortest_gram' {Q : Matrix ι κ ℝ} (h : LinearIndependent ℝ Qᵀ) (t : κ → ℝ) : Shortest Qᵀ t (((Qᵀ * Q)⁻¹ * Qᵀ)ᵀ *ᵥ t) := by
  have hu := gram_unit h
  refine ⟨?_, (Qᵀ * Q)⁻¹ᵀ *ᵥ t, ?_⟩
  · have h1 : Qᵀ * ((Qᵀ * Q)⁻¹ * Qᵀ)ᵀ = 1 := by
      have := congrArg Matrix.transpose (Matrix.nonsing_inv_mul _ hu)
      rw [← Matrix.mul_assoc, Matrix.transpose_mul, Matrix.transpose_one] at this
      exact this
    rw [Matrix.mulVec_mulVec (N := ((Qᵀ * Q)⁻¹ * Qᵀ)ᵀ), h1, Matrix.one_mulVec]
  · rw [Matrix.transpose_mul, Matrix.transpose_transpose, Matrix.mulVec_mulVec]

end

theorem basicInverse_univ {n : ℕ} {P : Type} [Fintype P] [DecidableEq P] (Q : Matrix (Fin n) P ℝ) :
    basicInverse Q Finset.univ = (Qᵀ * Q)⁻¹ * Qᵀ := by
  let e : (Finset.univ : Finset P) ≃ P := Equiv.subtypeUnivEquiv fun k => Finset.mem_univ k
  ext k i
  unfold basicInverse
  rw [dif_pos (Finset.mem_univ k)]
  have hB : (fun (i : Fin n) (k : (Finset.univ : Finset P)) => Q i k) = Q.submatrix id e := rfl
  have hBt : (Q.submatrix id e)ᵀ = Qᵀ.submatrix e id := rfl
  have h1 : Qᵀ.submatrix e id * Q.submatrix id e = (Qᵀ * Q).submatrix e e := by
    ext a b
    simp [Matrix.mul_apply]
  show (((Q.submatrix id e)ᵀ * Q.submatrix id e)⁻¹ * (Q.submatrix id e)ᵀ) ⟨k, _⟩ i = _
  rw [hBt, h1, Matrix.inv_submatrix_equiv, Matrix.submatrix_mul_equiv]
  rfl

/-! ## Distribution of rows -/

section
variable {n : ℕ} {α β : Type}

theorem take_finRange (r : Fin (n + 1)) : List.finRange (n + 1) = (List.finRange (n + 1)).take r ++ r :: (List.finRange (n + 1)).drop (r + 1) := by
  have h : (r : ℕ) < (List.finRange (n + 1)).length := by rw [List.length_finRange]; exact r.2
  conv_lhs => rw [← List.take_append_drop r (List.finRange (n + 1)), List.drop_eq_getElem_cons h]
  simp

theorem slice_gather (l : Fin (n + 1) → List α) (g : α → β) (r : Fin (n + 1)) :
    slice (fun r => (l r).length) ((gather l).map g) r = (l r).map g := by
  unfold slice gather
  have h : (List.finRange (n + 1)).flatMap l = ((List.finRange (n + 1)).take r).flatMap l ++ (l r ++ ((List.finRange (n + 1)).drop (r + 1)).flatMap l) := by
    conv_lhs => rw [take_finRange r]
    rw [List.flatMap_append, List.flatMap_cons]
  have hlen : (((List.finRange (n + 1)).take r).map fun r => (l r).length).sum = (((List.finRange (n + 1)).take r).flatMap l).length := by
    rw [List.length_flatMap]
  rw [h, hlen, List.map_append, List.map_append, List.drop_append_of_le_length (by simp), List.drop_of_length_le (by simp), List.nil_append,
    List.take_append_of_le_length (by simp), List.take_of_length_le (by simp)]

theorem ofFn_list (l : List α) (g : α → β) : List.ofFn (fun p : Fin l.length => g l[p]) = l.map g := by
  apply List.ext_getElem
  · simp
  · intro i h1 h2
    simp

theorem mem_gather {l : Fin (n + 1) → List α} {a : α} : a ∈ gather l ↔ ∃ r, a ∈ l r := by simp [gather]

end

variable {n : ℕ} {P : Fin (n + 1) → Part}

theorem mem_ownedRows {l : List Vertex} {v : Vertex} {i : ℕ} : (v, i) ∈ ownedRows l ↔ l[i]? = some v ∧ v.owner = true := by
  unfold ownedRows
  rw [List.mem_filter, List.mk_mem_zipIdx_iff_getElem?]

theorem mem_rows {x : Fin (n + 1) × Vertex × ℕ} : x ∈ rows P ↔ (P x.1).ins[x.2.2]? = some x.2.1 ∧ x.2.1.owner = true := by
  obtain ⟨r, v, i⟩ := x
  unfold rows
  rw [mem_gather]
  constructor
  · rintro ⟨r', hr⟩
    obtain ⟨vi, hm, he⟩ := List.mem_map.1 hr
    cases he
    exact mem_ownedRows.1 hm
  · intro h
    exact ⟨r, List.mem_map.2 ⟨⟨v, i⟩, mem_ownedRows.2 h, rfl⟩⟩

theorem mem_outRows {x : Fin (n + 1) × (ℕ × Point) × ℕ} : x ∈ outRows P ↔ (P x.1).outs[x.2.2]? = some x.2.1 := by
  obtain ⟨r, v, i⟩ := x
  unfold outRows
  rw [mem_gather]
  constructor
  · rintro ⟨r', hr⟩
    obtain ⟨vi, hm, he⟩ := List.mem_map.1 hr
    cases he
    exact List.mk_mem_zipIdx_iff_getElem?.1 hm
  · intro h
    exact ⟨r, List.mem_map.2 ⟨⟨v, i⟩, List.mk_mem_zipIdx_iff_getElem?.2 h, rfl⟩⟩

theorem column_some {g : ℕ} {q : Fin (rows P).length} (h : column P g = some q) : (rows P)[q].2.1.g = g := by
  unfold column at h
  simpa using List.find?_some h

theorem column_row (hn : ((rows P).map (·.2.1.g)).Nodup) (q : Fin (rows P).length) : column P (rows P)[q].2.1.g = some q := by
  cases h : column P (rows P)[q].2.1.g with
  | none =>
    unfold column at h
    rw [List.find?_eq_none] at h
    exact absurd (h q (List.mem_finRange q)) (by simp)
  | some q' =>
    have h1 := column_some h
    have h2 : ((rows P).map (·.2.1.g))[q'.1]'(by simp) = ((rows P).map (·.2.1.g))[q.1]'(by simp) := by
      simpa using h1
    have h3 := (List.Nodup.getElem_inj_iff hn).1 h2
    exact congrArg some (Fin.ext h3)

/-! ## What a correct distribution is -/

/-- The two meshes with all vertices (`X` and `Y`) have been distributed: every rank knows its vertices with their global
index, every vertex of `X` has exactly one owner, and each rank knows all vertices of `X` which are near to its own vertices
and to its vertices of `Y`. -/
structure Distributed {N M : ℕ} (P : Fin (n + 1) → Part) (X : Fin N → Point) (Y : Fin M → Point) (s : Option ℝ) : Prop where
  ins : ∀ r, ∀ v ∈ (P r).ins, ∃ h : v.g < N, v.x = X ⟨v.g, h⟩
  owned : ((rows P).map (·.2.1.g)).Perm (List.range N)
  outs : ∀ r, ∀ y ∈ (P r).outs, ∃ h : y.1 < M, y.2 = Y ⟨y.1, h⟩
  knows : ∀ r, ∀ v ∈ (P r).ins, v.owner = true → ∀ g, near s v.x (X g) → ∃ w ∈ (P r).ins, w.g = g
  sees : ∀ r, ∀ y ∈ (P r).outs, ∀ g, near s y.2 (X g) → ∃ w ∈ (P r).ins, w.g = g

/-- The vertices of `Y` are numbered rank by rank, as preCICE numbers the vertices of a mesh that the participant provides (C57). -/
def Numbered (P : Fin (n + 1) → Part) : Prop := ∀ k : Fin (outRows P).length, (outRows P)[k].2.1.1 = k

/-- The basis function vanishes from the support radius on. -/
def Supported (S : Setting) : Prop := ∀ R, S.support = some R → ∀ t, R ≤ t → S.φ t = 0

/-- If the basis function has compact support, the vertices do not differ along the dead axes. -/
def Level {N M : ℕ} (X : Fin N → Point) (Y : Fin M → Point) (S : Setting) : Prop :=
  S.support ≠ none → ∃ z : Point, ∀ d, S.active d = false → (∀ i, X i d = z d) ∧ ∀ k, Y k d = z d

variable {N M : ℕ} {X : Fin N → Point} {Y : Fin M → Point} {S : Setting}

namespace Distributed

theorem nodup {s : Option ℝ} (h : Distributed P X Y s) : ((rows P).map (·.2.1.g)).Nodup := h.owned.nodup_iff.2 List.nodup_range

theorem row_ins {s : Option ℝ} (h : Distributed P X Y s) (p : Fin (rows P).length) :
    ∃ hg : (rows P)[p].2.1.g < N, (rows P)[p].2.1.x = X ⟨(rows P)[p].2.1.g, hg⟩ := by
  have hm := mem_rows.1 (List.getElem_mem (l := rows P) p.2)
  exact h.ins _ _ (List.mem_of_getElem? hm.1)

/-- The global index of a row. -/
def index {s : Option ℝ} (h : Distributed P X Y s) (p : Fin (rows P).length) : Fin N := ⟨(rows P)[p].2.1.g, (h.row_ins p).1⟩

theorem index_bijective {s : Option ℝ} (h : Distributed P X Y s) : Function.Bijective h.index := by
  constructor
  · intro p q hpq
    have h1 : (rows P)[p].2.1.g = (rows P)[q].2.1.g := congrArg Fin.val hpq
    have h2 := column_row h.nodup p
    rw [h1, column_row h.nodup q] at h2
    exact (Option.some.inj h2).symm
  · intro g
    have hg : g.1 ∈ (rows P).map (·.2.1.g) := h.owned.mem_iff.2 (List.mem_range.2 g.2)
    obtain ⟨x, hx, hxg⟩ := List.mem_map.1 hg
    obtain ⟨i, hi, rfl⟩ := List.getElem_of_mem hx
    exact ⟨⟨i, hi⟩, Fin.ext hxg⟩

/-- The order in which PETSc numbers the vertices. -/
noncomputable def order {s : Option ℝ} (h : Distributed P X Y s) : Fin (rows P).length ≃ Fin N := Equiv.ofBijective h.index h.index_bijective

theorem order_val {s : Option ℝ} (h : Distributed P X Y s) (p : Fin (rows P).length) : (h.order p).1 = (rows P)[p].2.1.g := rfl

theorem row_x {s : Option ℝ} (h : Distributed P X Y s) (p : Fin (rows P).length) : (rows P)[p].2.1.x = X (h.order p) := (h.row_ins p).2

end Distributed

theorem full_eq (hl : Level X Y S) (hs : S.support ≠ none) {u v : Point} (hu : (∃ i, u = X i) ∨ ∃ k, u = Y k) (hv : ∃ i, v = X i) :
    squaredDifference (fun _ => true) u v = squaredDifference S.active u v := by
  obtain ⟨z, hz⟩ := hl hs
  obtain ⟨j, rfl⟩ := hv
  unfold squaredDifference
  refine Finset.sum_congr rfl fun d _ => ?_
  cases ha : S.active d with
  | true => rfl
  | false =>
    have hx := (hz d ha).1 j
    have hu' : u d = z d := by
      rcases hu with ⟨i, rfl⟩ | ⟨k, rfl⟩
      · exact (hz d ha).1 i
      · exact (hz d ha).2 k
    rw [hx, hu']
    simp

/-- The entry which a rank sets at a column, if it knows the near vertices. -/
theorem entry_value {s : Option ℝ} (hs : S.support = s) (hsup : Supported S) (hl : Level X Y S) (h : Distributed P X Y s) (r : Fin (n + 1)) (u : Point)
    (hu : (∃ i, u = X i) ∨ ∃ k, u = Y k) (hk : ∀ g, near s u (X g) → ∃ w ∈ (P r).ins, w.g = g) (q : Fin (rows P).length) :
    ((entryOf P s r u q).elim 0 fun w => entry S.φ S.active u w.x) = entry S.φ S.active u (X (h.order q)) := by
  classical
  cases he : entryOf P s r u q with
  | some w =>
    unfold entryOf at he
    have h1 := List.find?_some he
    have h2 : w ∈ (P r).ins := List.mem_reverse.1 (List.mem_of_find?_eq_some he)
    simp only [Bool.and_eq_true, decide_eq_true_eq] at h1
    obtain ⟨hg, hx⟩ := h.ins r w h2
    have h3 : h.order q = ⟨w.g, hg⟩ := Fin.ext ((h.order_val q).trans (column_some h1.2))
    rw [Option.elim_some, hx, h3]
  | none =>
    rw [Option.elim_none]
    by_cases hn : near s u (X (h.order q))
    · obtain ⟨w, hw, hwg⟩ := hk _ hn
      obtain ⟨hg, hx⟩ := h.ins r w hw
      have h3 : (⟨w.g, hg⟩ : Fin N) = h.order q := Fin.ext hwg
      unfold entryOf at he
      rw [List.find?_eq_none] at he
      have h4 := he w (List.mem_reverse.2 hw)
      have h5 : column P w.g = some q := by
        rw [hwg, h.order_val]
        exact column_row h.nodup q
      exact absurd (by rw [hx, h3]; simp [hn, h5]) h4
    · unfold near at hn
      push Not at hn
      obtain ⟨R, hR, hd⟩ := hn
      have hne : S.support ≠ none := by rw [hs, hR]; simp
      rw [full_eq hl hne hu ⟨_, rfl⟩] at hd
      exact (hsup R (hs.trans hR) _ hd).symm

/-- **The system matrix** is the one of the direct mapping, for the vertices in the order of PETSc. -/
theorem matrixC_eq (hsup : Supported S) (hl : Level X Y S) (h : Distributed P X Y S.support) : matrixC P S = buildCLU S.φ (X ∘ h.order) := by
  have hup : ∀ p q, upper P S p q = entry S.φ S.active (X (h.order p)) (X (h.order q)) := by
    intro p q
    have hm := mem_rows.1 (List.getElem_mem (l := rows P) p.2)
    have := entry_value rfl hsup hl h (rows P)[p].1 (rows P)[p].2.1.x (.inl ⟨_, h.row_x p⟩)
      (h.knows _ _ (List.mem_of_getElem? hm.1) hm.2) q
    unfold upper
    rw [this, h.row_x p]
  ext p q
  rcases p with p | k <;> rcases q with q | l
  · rw [clu_inl]
    show (if p ≤ q then upper P S p q else upper P S q p) = _
    split
    · exact hup p q
    · rw [hup q p]
      exact entry_comm _ _ _
  · rw [clu_inr]
    exact congrFun (congrArg (polyRow S.active) (h.row_x p)) l.1
  · rw [clu_inr']
    exact congrFun (congrArg (polyRow S.active) (h.row_x q)) k.1
  · rw [clu_inr_inr]
    rfl

/-- The positions of the rows of the output. -/
def outPoints (P : Fin (n + 1) → Part) (i : Fin (outRows P).length) : Point := (outRows P)[i].2.1.2

theorem outPoints_spec {s : Option ℝ} (h : Distributed P X Y s) (i : Fin (outRows P).length) : ∃ k, outPoints P i = Y k := by
  have hm := mem_outRows.1 (List.getElem_mem (l := outRows P) i.2)
  obtain ⟨hg, hy⟩ := h.outs _ _ (List.mem_of_getElem? hm)
  exact ⟨_, hy⟩

/-- **The evaluation matrix** is the one of the direct mapping. -/
theorem matrixA_eq (hsup : Supported S) (hl : Level X Y S) (h : Distributed P X Y S.support) :
    matrixA P S = buildA S.φ (X ∘ h.order) (outPoints P) := by
  ext i q
  rcases q with q | l
  · have hm := mem_outRows.1 (List.getElem_mem (l := outRows P) i.2)
    exact entry_value rfl hsup hl h (outRows P)[i].1 (outRows P)[i].2.1.2 (.inr (outPoints_spec h i))
      (h.sees _ _ (List.mem_of_getElem? hm)) q
  · rfl

theorem matrixQ_eq {s : Option ℝ} (h : Distributed P X Y s) : matrixQ P S = polyMatrix S.active (X ∘ h.order) := by
  ext i k
  exact congrFun (congrArg (polyRow S.active) (h.row_x i)) k

end Verif.PetRbf
