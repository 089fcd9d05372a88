import Verif.Accel.QNAffine
import Mathlib.Algebra.Order.BigOperators.Ring.Finset

/-!
# Secant updates of a Jacobian, and the pseudo inverse from a QR factorisation (C93)
-/

set_option autoImplicit false
set_option linter.unusedSectionVars false

namespace Verif.Accel

open Finset

variable {ι κ : Type} [Fintype ι]

/-- Specification of the multi-vector update: `J` maps the columns of `V` to those of `W` and agrees with `P` on all vectors that are orthogonal to the columns of `V`, in the inner product given
by the weights `w`. -/
structure SecantUpdate (w : ι → ℝ) (V : List (ι → ℝ)) (W : List (κ → ℝ)) (P J : κ → ι → ℝ) : Prop where
  secant : List.Forall₂ (fun v y => ∀ k, ip (J k) v = y k) V W
  same : ∀ x : ι → ℝ, (∀ v ∈ V, ∑ i, w i ^ 2 * v i * x i = 0) → ∀ k, ip (J k) x = ip (P k) x

/-- Specification: `J` is closest to `P` among the matrices that map `V` to `W`; the distance is the sum of squares of the entries with column `i` divided by `w i`, row by row. -/
def LeastChange (w : ι → ℝ) (V : List (ι → ℝ)) (W : List (κ → ℝ)) (P J : κ → ι → ℝ) : Prop :=
  ∀ J' : κ → ι → ℝ, List.Forall₂ (fun v y => ∀ k, ip (J' k) v = y k) V W →
    ∀ k, ∑ i, ((J k i - P k i) / w i) ^ 2 + ∑ i, ((J' k i - J k i) / w i) ^ 2 = ∑ i, ((J' k i - P k i) / w i) ^ 2

theorem ip_sub_left (a b x : ι → ℝ) : ip (fun i => a i - b i) x = ip a x - ip b x := by
  unfold ip
  rw [← Finset.sum_sub_distrib]
  exact Finset.sum_congr rfl fun _ _ => sub_mul _ _ _

/-- Rows that vanish on `V` are orthogonal, in the dual inner product, to the change of a secant update. -/
theorem SecantUpdate.orthogonal {w : ι → ℝ} {V : List (ι → ℝ)} {W : List (κ → ℝ)} {P J : κ → ι → ℝ} (h : SecantUpdate w V W P J) (hw : ∀ i, w i ≠ 0) (E : ι → ℝ)
    (hE : ∀ v ∈ V, ip E v = 0) (k : κ) : ∑ i, ((J k i - P k i) / w i) * (E i / w i) = 0 := by
  have h1 := h.same (fun i => E i / w i ^ 2) (fun v hv => by
    rw [← hE v hv]
    unfold ip
    refine Finset.sum_congr rfl fun i _ => ?_
    have := hw i
    field_simp) k
  have h2 := ip_sub_left (J k) (P k) fun i => E i / w i ^ 2
  rw [h1, sub_self] at h2
  rw [← h2]
  unfold ip
  refine Finset.sum_congr rfl fun i _ => ?_
  have := hw i
  field_simp

theorem secant_difference {V : List (ι → ℝ)} {W : List (κ → ℝ)} {J J' : κ → ι → ℝ} (h : List.Forall₂ (fun v y => ∀ k, ip (J k) v = y k) V W)
    (h' : List.Forall₂ (fun v y => ∀ k, ip (J' k) v = y k) V W) (k : κ) : ∀ v ∈ V, ip (fun i => J' k i - J k i) v = 0 := by
  induction h with
  | nil => simp
  | cons a _ ih =>
    rcases h' with _ | ⟨a', h'⟩
    intro v hv
    rw [List.mem_cons] at hv
    rcases hv with rfl | hv
    · rw [ip_sub_left, a k, a' k, sub_self]
    · exact ih h' v hv

/-- C93: a secant update is the change of least size that gives the secant equations. -/
theorem C93_least_change {w : ι → ℝ} {V : List (ι → ℝ)} {W : List (κ → ℝ)} {P J : κ → ι → ℝ} (h : SecantUpdate w V W P J) (hw : ∀ i, w i ≠ 0) : LeastChange w V W P J := by
  intro J' hJ k
  have key := h.orthogonal hw (fun i => J' k i - J k i) (secant_difference h.secant hJ k) k
  have e : ∑ i, ((J' k i - P k i) / w i) ^ 2 = ∑ i, ((J k i - P k i) / w i) ^ 2 + ∑ i, ((J' k i - J k i) / w i) ^ 2
      + 2 * ∑ i, ((J k i - P k i) / w i) * ((J' k i - J k i) / w i) := by
    rw [Finset.mul_sum, ← Finset.sum_add_distrib, ← Finset.sum_add_distrib]
    refine Finset.sum_congr rfl fun i _ => ?_
    have := hw i
    field_simp
    ring
  rw [e, key, mul_zero, add_zero]

/-- C93: the specification determines the update. -/
theorem C93_unique {w : ι → ℝ} {V : List (ι → ℝ)} {W : List (κ → ℝ)} {P J J' : κ → ι → ℝ} (h : SecantUpdate w V W P J) (h' : SecantUpdate w V W P J') (hw : ∀ i, w i ≠ 0) : J = J' := by
  funext k i
  have h1 := C93_least_change h hw J' h'.secant k
  have h2 := C93_least_change h' hw J h.secant k
  have h3 : ∑ i, ((J' k i - J k i) / w i) ^ 2 = 0 := by
    have e1 : 0 ≤ ∑ i, ((J' k i - J k i) / w i) ^ 2 := Finset.sum_nonneg fun _ _ => sq_nonneg _
    have e2 : 0 ≤ ∑ i, ((J k i - J' k i) / w i) ^ 2 := Finset.sum_nonneg fun _ _ => sq_nonneg _
    linarith
  have h4 := (Finset.sum_eq_zero_iff_of_nonneg fun i _ => sq_nonneg _).1 h3 i (mem_univ i)
  rw [sq_eq_zero_iff, div_eq_zero_iff] at h4
  have := h4.resolve_right (hw i)
  linarith

/-- C93: if some matrix `T` satisfies all secant equations, such as the inverse Jacobian of an affine problem, no update moves away from it. -/
theorem C93_never_worse {w : ι → ℝ} {V : List (ι → ℝ)} {W : List (κ → ℝ)} {P J T : κ → ι → ℝ} (h : SecantUpdate w V W P J) (hw : ∀ i, w i ≠ 0)
    (hT : List.Forall₂ (fun v y => ∀ k, ip (T k) v = y k) V W) (k : κ) : ∑ i, ((T k i - J k i) / w i) ^ 2 ≤ ∑ i, ((T k i - P k i) / w i) ^ 2 := by
  have h1 := C93_least_change h hw T hT k
  have e1 : 0 ≤ ∑ i, ((J k i - P k i) / w i) ^ 2 := Finset.sum_nonneg fun _ _ => sq_nonneg _
  linarith

/-- C93: the update with columns that the previous Jacobian already maps correctly changes nothing. -/
theorem C93_idle {w : ι → ℝ} {V : List (ι → ℝ)} {W : List (κ → ℝ)} {P J : κ → ι → ℝ} (h : SecantUpdate w V W P J) (hw : ∀ i, w i ≠ 0)
    (hP : List.Forall₂ (fun v y => ∀ k, ip (P k) v = y k) V W) : J = P :=
  C93_unique h ⟨hP, fun _ _ _ => rfl⟩ hw

/-! ## The pseudo inverse -/

theorem backLoop_sum {α : Type} (S : Finset α) (R : ℕ → ℕ → ℝ) (n : ℕ) (a : α → ℝ) (b : α → ℕ → ℝ) : ∀ (k : ℕ) (c : α → ℕ → ℝ),
    backLoop R (fun l => ∑ x ∈ S, a x * b x l) n k (fun l => ∑ x ∈ S, a x * c x l) = fun l => ∑ x ∈ S, a x * backLoop R (b x) n k (c x) l
  | 0, c => rfl
  | k + 1, c => by
    simp only [backLoop]
    rw [← backLoop_sum S R n a b k]
    congr 1
    funext i
    by_cases hi : i = k
    · simp only [if_pos hi]
      have e : ∑ j ∈ range n, (if k < j then R k j * ∑ x ∈ S, a x * c x j else 0) = ∑ x ∈ S, a x * ∑ j ∈ range n, if k < j then R k j * c x j else 0 := by
        simp only [Finset.mul_sum]
        rw [Finset.sum_comm]
        refine Finset.sum_congr rfl fun j _ => ?_
        split_ifs
        · exact Finset.sum_congr rfl fun x _ => by ring
        · simp
      rw [e, ← Finset.sum_sub_distrib, Finset.sum_div]
      exact Finset.sum_congr rfl fun x _ => by ring
    · simp only [if_neg hi]

theorem backSubstitution_sum {α : Type} (S : Finset α) (R : ℕ → ℕ → ℝ) (n : ℕ) (a : α → ℝ) (b : α → ℕ → ℝ) (j : ℕ) :
    backSubstitution R n (fun l => ∑ x ∈ S, a x * b x l) j = ∑ x ∈ S, a x * backSubstitution R n (b x) j := by
  have := congrFun (backLoop_sum S R n a b n fun _ _ => 0) j
  unfold backSubstitution
  rw [← this]
  congr 1
  funext l
  simp

/-- The pseudo inverse with the weights, as in `pseudoInverse` of the code -/
noncomputable def pinv (q : QR ι) (w : ι → ℝ) : ℕ → ι → ℝ := fun j i => backSubstitution q.R q.cols (fun l => q.Q l i) j * w i

/-- Applying the pseudo inverse is back substitution with the scaled vector. -/
theorem ip_pinv (q : QR ι) (w v : ι → ℝ) (j : ℕ) : ip (pinv q w j) v = q.coefficients (scaledCol w fun i => -v i) j := by
  unfold QR.coefficients pinv ip
  have e : (fun l => -∑ i, q.Q l i * scaledCol w (fun i => -v i) i) = fun l => ∑ i, (w i * v i) * q.Q l i := by
    funext l
    rw [← Finset.sum_neg_distrib]
    refine Finset.sum_congr rfl fun i _ => ?_
    unfold scaledCol
    ring
  rw [e, backSubstitution_sum]
  exact Finset.sum_congr rfl fun i _ => by ring

theorem combine_sub_zero {A : List (ι → ℝ)} (hr : FullRank A) {c d : ℕ → ℝ} (h : ∀ x, combine A c x = combine A d x) {j : ℕ} (hj : j < A.length) : c j = d j := by
  have := hr.combination (fun j => c j - d j) (fun x => by
    have := h x
    unfold combine at this
    rw [← sub_eq_zero, ← Finset.sum_sub_distrib] at this
    rw [← this]
    exact Finset.sum_congr rfl fun _ _ => sub_mul _ _ _)
  have h2 := congrFun this ⟨j, hj⟩
  simp only [Pi.zero_apply] at h2
  linarith

theorem combine_single {α : Type} (A : List (α → ℝ)) {j : ℕ} (hj : j < A.length) (x : α) : combine A (fun i => if i = j then 1 else 0) x = A[j] x := by
  unfold combine
  rw [Finset.sum_eq_single (⟨j, hj⟩ : Fin A.length)]
  · simp
  · intro b _ hb
    have : (b : ℕ) ≠ j := fun h => hb (Fin.ext h)
    simp [this]
  · simp

/-- The pseudo inverse maps column `j` to the unit vector `j`. -/
theorem pinv_column {q : QR ι} {w : ι → ℝ} {V : List (ι → ℝ)} (hf : Factorizes q (V.map (scaledCol w))) (hr : FullRank (V.map (scaledCol w))) {l : ℕ} (hl : l < V.length) {j : ℕ}
    (hj : j < V.length) : ip (pinv q w j) V[l] = if j = l then 1 else 0 := by
  rw [ip_pinv]
  refine combine_sub_zero hr (d := fun j => if j = l then 1 else 0) (fun x => ?_) (by rwa [List.length_map])
  have hl' : l < (V.map (scaledCol w)).length := by rwa [List.length_map]
  rw [combine_single _ hl']
  have h0 := C92_residual_in_span hf hr (r := scaledCol w fun i => -V[l] i) ⟨fun i => if i = l then 1 else 0, fun x => by
    rw [combine_single _ hl', List.getElem_map]
    unfold scaledCol
    ring⟩ x
  have : scaledCol w (fun i => -V[l] i) x = - (V.map (scaledCol w))[l] x := by
    rw [List.getElem_map]
    unfold scaledCol
    ring
  rw [this] at h0
  linarith

theorem combine_zero {α : Type} (A : List (α → ℝ)) {c : ℕ → ℝ} (h : ∀ j < A.length, c j = 0) (x : α) : combine A c x = 0 := by
  unfold combine
  exact Finset.sum_eq_zero fun j _ => by rw [h j j.2, zero_mul]

theorem ip_combine (A : List (ι → ℝ)) (c : ℕ → ℝ) (x : ι → ℝ) (h : ∀ a ∈ A, ip a x = 0) : ip (combine A c) x = 0 := by
  unfold ip combine
  simp only [Finset.sum_mul]
  rw [Finset.sum_comm]
  refine Finset.sum_eq_zero fun j _ => ?_
  have := h A[j] (List.getElem_mem j.2)
  unfold ip at this
  have e : ∀ i, c j * A[j] i * x i = c j * (A[j] i * x i) := fun i => mul_assoc _ _ _
  simp only [e]
  rw [← Finset.mul_sum, this, mul_zero]

/-- The pseudo inverse vanishes on vectors that are orthogonal to the columns. -/
theorem pinv_orthogonal {q : QR ι} {w : ι → ℝ} {V : List (ι → ℝ)} (hf : Factorizes q (V.map (scaledCol w))) (hr : FullRank (V.map (scaledCol w))) {x : ι → ℝ}
    (hx : ∀ v ∈ V, ∑ i, w i ^ 2 * v i * x i = 0) {j : ℕ} (hj : j < V.length) : ip (pinv q w j) x = 0 := by
  rw [ip_pinv]
  set r := scaledCol w fun i => -x i with hrdef
  have horth : ip (combine (V.map (scaledCol w)) (q.coefficients r)) r = 0 := by
    refine ip_combine _ _ _ fun a ha => ?_
    rw [List.mem_map] at ha
    obtain ⟨v, hv, rfl⟩ := ha
    have := hx v hv
    rw [← neg_eq_zero, ← this, hrdef]
    unfold ip scaledCol
    rw [← Finset.sum_neg_distrib]
    exact Finset.sum_congr rfl fun i _ => by ring
  have hle := C92_least_squares hf hr r fun _ => 0
  have e0 : (fun i => r i + combine (V.map (scaledCol w)) (fun _ => 0) i) = r := by
    funext i
    rw [combine_zero _ (fun _ _ => rfl), add_zero]
  rw [e0] at hle
  unfold l2 at hle
  rw [Real.sqrt_le_sqrt_iff (ip_self_nonneg _)] at hle
  set y := combine (V.map (scaledCol w)) (q.coefficients r) with hy
  have e1 : ip (fun i => r i + y i) (fun i => r i + y i) = ip r r + ip y y + 2 * ip y r := by
    unfold ip
    rw [Finset.mul_sum, ← Finset.sum_add_distrib, ← Finset.sum_add_distrib]
    exact Finset.sum_congr rfl fun i _ => by ring
  rw [e1, horth, mul_zero, add_zero] at hle
  have e2 : ip y y = 0 := le_antisymm (by linarith) (ip_self_nonneg _)
  have e3 : ∀ i, y i = 0 := fun i => by
    have := (Finset.sum_eq_zero_iff_of_nonneg fun i _ => mul_self_nonneg (y i)).1 e2 i (mem_univ i)
    exact mul_self_eq_zero.1 this
  exact combine_sub_zero hr (d := fun _ => 0) (fun i => by rw [combine_zero _ (fun _ _ => rfl), ← hy, e3 i]) (by rwa [List.length_map])

/-- The formula of the code, `P + (W - P V) Z`, satisfies the specification. -/
theorem secantUpdate_formula {q : QR ι} {w : ι → ℝ} {V : List (ι → ℝ)} {W : List (κ → ℝ)} (hlen : W.length = V.length) (hf : Factorizes q (V.map (scaledCol w)))
    (hr : FullRank (V.map (scaledCol w))) (P : κ → ι → ℝ) :
    SecantUpdate w V W P fun k i => combine (List.zipWith (fun v y => fun k => y k - ip (P k) v) V W) (fun j => pinv q w j i) k + P k i := by
  set T := List.zipWith (fun v y => fun k => y k - ip (P k) v) V W with hT
  have hTl : T.length = V.length := by rw [hT, List.length_zipWith, hlen, min_self]
  have key : ∀ (k : κ) (x : ι → ℝ), ip (fun i => combine T (fun j => pinv q w j i) k + P k i) x = combine T (fun j => ip (pinv q w j) x) k + ip (P k) x := by
    intro k x
    unfold ip combine
    simp only [add_mul, Finset.sum_add_distrib, Finset.sum_mul]
    rw [Finset.sum_comm]
    exact congrArg (· + _) (Finset.sum_congr rfl fun _ _ => Finset.sum_congr rfl fun _ _ => by ring)
  refine ⟨?_, ?_⟩
  · rw [List.forall₂_iff_get]
    refine ⟨hlen.symm, fun l h1 h2 k => ?_⟩
    simp only [List.get_eq_getElem]
    rw [key]
    have e : combine T (fun j => ip (pinv q w j) V[l]) k = combine T (fun j => if j = l then 1 else 0) k := by
      unfold combine
      refine Finset.sum_congr rfl fun j _ => ?_
      change ip (pinv q w j) V[l] * _ = _
      rw [pinv_column hf hr h1 (by have := j.2; omega)]
    rw [e, combine_single _ (by omega)]
    have e2 : T[l]'(by omega) = fun k => W[l] k - ip (P k) V[l] := by
      simp only [hT, List.getElem_zipWith]
    rw [e2]
    ring
  · intro x hx k
    rw [key, combine_zero _ (fun j hj => pinv_orthogonal hf hr hx (by omega)), zero_add]

end Verif.Accel
