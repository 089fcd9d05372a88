import Verif.Mapping.PumJit
import Verif.Mapping.RbfExamples

/-!
The hypotheses of the theorems about the partition of unity mapping can be met; disagreements with C97.
-/

set_option autoImplicit false

namespace Verif.Pum
open Matrix Rbf

/-! ## A mapping with two clusters -/

/-- Whatever vertices of the triangle a cluster has, the local problem can be solved. -/
theorem sub_constructs {m : ℕ} {pol : Polynomial} (hp : pol ≠ .on) (ins : List (Fin 3)) (hn : ins.Nodup) (Y : Fin m → Point) :
    ∃ s, construct someEigen true compactC0 pol planar (fun i => triangle (ins.get i)) Y = some s := by
  have hC : buildCLU (pol := pol) (active := planar) compactC0 (fun i => triangle (ins.get i)) = 1 := by
    ext p q
    rcases p with i | k
    · rcases q with j | l
      · rw [clu_inl, entry_triangle, Matrix.one_apply]
        by_cases hij : i = j
        · simp [hij]
        · rw [if_neg fun h => hij (List.nodup_iff_injective_get.1 hn h), if_neg]
          exact fun h => hij (Sum.inl.inj h)
      · exact absurd l.2 hp
    · exact absurd k.2 hp
  unfold construct
  have hd : decomposable true (buildCLU (pol := pol) (active := planar) compactC0 fun i => triangle (ins.get i)) = true := by
    rw [hC]
    simp [decomposable, Matrix.PosDef.one]
  rw [if_neg (fun h => hp h.2), hd, if_pos rfl]
  split
  · obtain ⟨a, ha⟩ := Option.isSome_iff_exists.1 (C95_axes_terminate someEigen someEigen_valid (fun i => triangle (ins.get i)) planar)
    rw [ha]
    exact ⟨_, rfl⟩
  · exact ⟨_, rfl⟩

theorem distance_lt {u v : Point} {r : ℝ} (hr : 0 < r) (h : (u 0 - v 0) ^ 2 + (u 1 - v 1) ^ 2 + (u 2 - v 2) ^ 2 < r ^ 2) : distance u v < r := by
  unfold distance
  rw [Real.sqrt_lt' hr]
  simpa [squaredDifference, Fin.sum_univ_three, ← sq] using h

theorem le_distance {u v : Point} {r : ℝ} (h : r ^ 2 ≤ (u 0 - v 0) ^ 2 + (u 1 - v 1) ^ 2 + (u 2 - v 2) ^ 2) : r ≤ distance u v := by
  unfold distance
  refine Real.le_sqrt_of_sq_le ?_
  simpa [squaredDifference, Fin.sum_univ_three, ← sq] using h

theorem third (a b c : ℝ) : (![a, b, c] : Fin 3 → ℝ) 2 = c := rfl

/-- Two centers near the triangle and one far away -/
def places : List Point := [![0, 0, 0], ![2, 0, 0], ![100, 0, 0]]

theorem within_triangle {c : Point} (hc : c = ![0, 0, 0] ∨ c = ![2, 0, 0]) : within triangle c 3 = List.finRange 3 := by
  unfold within
  rw [List.filter_eq_self]
  intro i _
  rw [decide_eq_true_eq]
  refine distance_lt (by norm_num) ?_
  rcases hc with rfl | rfl <;> fin_cases i <;> norm_num [triangle, third]

theorem populated_places : populated 3 triangle places = [![0, 0, 0], ![2, 0, 0]] := by
  have h3 : within triangle ![100, 0, 0] 3 = [] := by
    rw [List.eq_nil_iff_forall_not_mem]
    intro i hi
    refine absurd (mem_within.1 hi) (not_lt.2 (le_distance ?_))
    fin_cases i <;> norm_num [triangle, third]
  unfold populated places
  rw [List.filter_cons_of_pos, List.filter_cons_of_pos, List.filter_cons_of_neg, List.filter_nil]
  · simp [h3]
  · simp [within_triangle (Or.inr rfl), List.finRange_eq_nil_iff]
  · simp [within_triangle (Or.inl rfl), List.finRange_eq_nil_iff]

theorem tolerance_small : tolerance < 1 / 2 := by
  unfold tolerance
  norm_num

/-- The mapping to one output vertex between the two centers can be computed. -/
theorem between_computes {pol : Polynomial} (hp : pol ≠ .on) :
    ∃ p, compute someEigen true compactC0 pol planar 3 triangle (fun _ : Fin 1 => ![1, 1, 0]) places = some p := by
  have ht := tolerance_small
  have hnear : ∀ c ∈ populated 3 triangle places, distance c ![1, 1, 0] < 2 := by
    intro c hc
    rw [populated_places] at hc
    simp only [List.mem_cons, List.not_mem_nil, or_false] at hc
    refine distance_lt (by norm_num) ?_
    rcases hc with rfl | rfl <;> norm_num [third]
  refine (C97_computes someEigen true compactC0 3 (by linarith) triangle _ places hp).2 ⟨fun c _ => ?_, fun j => ⟨![0, 0, 0], ?_, ?_⟩, fun j c hc => Or.inl ?_⟩
  · exact sub_constructs hp _ (within_nodup _ _ _) _
  · rw [populated_places]
    exact List.mem_cons_self ..
  · exact lt_trans (hnear ![0, 0, 0] (by rw [populated_places]; exact List.mem_cons_self ..)) (by norm_num)
  · exact lt_trans (hnear c hc) (by linarith)

theorem between_ins {m : ℕ} {pol : Polynomial} {Y : Fin m → Point} {p : Mapping 3 m pol planar} (h : Computed someEigen true compactC0 3 triangle Y places p) (c : Fin p.clusters.length) :
    (p.clusters.get c).ins = List.finRange 3 := by
  have hm : (p.clusters.get c).center ∈ populated 3 triangle places := by
    rw [← h.hcenters]
    exact List.mem_map_of_mem (List.get_mem _ c)
  rw [populated_places] at hm
  rw [(h.made c).ins]
  exact within_triangle (by simpa using hm)

example (a : ℝ) (u : ℝ) : ∃ p, compute someEigen true compactC0 .separate planar 3 triangle (fun _ : Fin 1 => ![1, 1, 0]) places = some p ∧
    p.clusters.length = 2 ∧ p.mapConsistent (fun _ => a) = some (fun _ => a) ∧ ∃ v, p.mapConservative (fun _ => u) = some v ∧ ∑ i, v i = u := by
  obtain ⟨p, hp⟩ := between_computes (pol := .separate) (by decide)
  have hc := compute_spec (by norm_num) hp
  have hn : ∀ c, Fintype.card (Poly planar) ≤ (p.clusters.get c).ins.length := by
    intro c
    rw [between_ins hc, List.length_finRange]
    exact (triangle_constructs (fun _ : Fin 1 => ![1, 1, 0])).2
  refine ⟨p, hp, ?_, ?_, ?_⟩
  · rw [← List.length_map (f := Cluster.center), hc.hcenters, populated_places]
    rfl
  · rw [C97_value _ _ _ _ (by norm_num) _ _ _ p hp]
    congr 1
    funext j
    exact C97_constant _ someEigen_valid _ _ _ (by norm_num) _ _ _ p hp a _ (C97_value _ _ _ _ (by norm_num) _ _ _ p hp _) j fun c _ => hn c
  · obtain ⟨g, v, h1, h2, h3⟩ := C97_adjoint _ _ _ _ (by norm_num) _ _ _ p hp (fun _ => 1) fun _ => u
    refine ⟨v, h2, ?_⟩
    rw [C97_conserves _ someEigen_valid _ _ _ (by norm_num) _ _ _ p hp hn (fun _ => u) v h2]
    simp

/-- Reading just in time gives the same value. -/
example (f : Fin 3 → ℝ) : ∃ p, compute someEigen true compactC0 .separate planar 3 triangle (fun _ : Fin 1 => ![1, 1, 0]) places = some p ∧
    ∃ g, p.mapConsistent f = some g ∧ p.readAt compactC0 triangle f ![1, 1, 0] = some (g 0) := by
  obtain ⟨p, hp⟩ := between_computes (pol := .separate) (by decide)
  refine ⟨p, hp, _, C97_value _ _ _ _ (by norm_num) _ _ _ p hp f, C97_read_as_mesh _ _ _ _ (by norm_num) _ _ _ _ p p hp hp f _ (C97_value _ _ _ _ (by norm_num) _ _ _ p hp f) 0 ?_⟩
  intro i d hd
  fin_cases d
  · exact absurd hd (by decide)
  · exact absurd hd (by decide)
  · fin_cases i <;> rfl

/-! ## Written values -/

theorem fold_second {n m : ℕ} {pol : Polynomial} {active : Fin 3 → Bool} (φ : ℝ → ℝ) (X : Fin n → Point) (p : Mapping n m pol active) (v : Point) (load : ℝ) (F : Fin p.clusters.length → ℝ)
    (c : Fin p.clusters.length) (j : Fin (p.clusters.get c).ins.length) : ∀ (ids : List (Fin p.clusters.length)) (d : WriteCache p), ids.Nodup →
    (((ids.map fun c => (c, F c)).foldl (fun d q => addWrite φ X p v d q.1 (q.2 * load)) d) c).2 j
      = (d c).2 j + if c ∈ ids then entry φ (fun _ => true) v (X ((p.clusters.get c).ins.get j)) * (F c * load) else 0
  | [], d, _ => by simp
  | c' :: ids, d, hn => by
    obtain ⟨h1, h2⟩ := List.nodup_cons.1 hn
    rw [List.map_cons, List.foldl_cons, fold_second φ X p v load F c j ids _ h2]
    by_cases hc : c = c'
    · subst hc
      rw [if_neg h1, if_pos (List.mem_cons_self ..), add_zero]
      unfold addWrite
      rw [Function.update_self]
    · unfold addWrite
      rw [Function.update_of_ne hc]
      congr 1
      simp [List.mem_cons, hc]

/-- The second part of the cache after one write -/
theorem write_second {n m : ℕ} {pol : Polynomial} {active : Fin 3 → Bool} {φ : ℝ → ℝ} {X : Fin n → Point} {p : Mapping n m pol active} (hR : 0 < p.radius) {v : Point} {load : ℝ} {d : WriteCache p}
    (h : p.writeAll φ X (fun _ => (0, 0)) [(v, load)] = some d) (c : Fin p.clusters.length) (j : Fin (p.clusters.get c).ins.length) :
    (d c).2 j = if distance (centers p.clusters c) v < p.radius then
      entry φ (fun _ => true) v (X ((p.clusters.get c).ins.get j)) * (share (centers p.clusters) p.radius v c * load) else 0 := by
  unfold Mapping.writeAll at h
  rw [List.foldlM_cons, Option.bind_eq_bind, Option.bind_eq_some_iff] at h
  obtain ⟨d1, h1, h2⟩ := h
  obtain rfl := Option.some.inj h2
  unfold Mapping.writeAt at h1
  rw [Option.map_eq_some_iff] at h1
  obtain ⟨l, hl, rfl⟩ := h1
  rw [normalizedWeights_eq hR hl, fold_second φ X p v load _ c j _ _ (within_nodup _ _ _)]
  simp only [mem_within, distance_comm v, Pi.zero_apply, zero_add]

theorem between_writes {pol : Polynomial} {p : Mapping 3 1 pol planar} {v : Point} {load : ℝ}
    (hp : compute someEigen true compactC0 pol planar 3 triangle (fun _ : Fin 1 => ![1, 1, 0]) places = some p) (hv : distance ![0, 0, 0] v < 3) :
    ∃ d, p.writeAll compactC0 triangle (fun _ => (0, 0)) [(v, load)] = some d := by
  have : p.writeAt compactC0 triangle (fun _ => (0, 0)) v load ≠ none := by
    rw [Ne, C97_write_error _ _ _ _ (by norm_num) _ _ _ p hp]
    intro h
    exact absurd hv (not_lt.2 (h _ (by rw [populated_places]; exact List.mem_cons_self ..)))
  obtain ⟨d, hd⟩ := Option.ne_none_iff_exists'.1 this
  refine ⟨d, ?_⟩
  unfold Mapping.writeAll
  rw [List.foldlM_cons, hd]
  rfl

/-- The hypothesis on the clusters is met for a write at the first vertex, with polynomial. -/
example (f : Fin 3 → ℝ) : ∃ p, compute someEigen true compactC0 .separate planar 3 triangle (fun _ : Fin 1 => ![1, 1, 0]) places = some p ∧
    ∃ d a, p.writeAll compactC0 triangle (fun _ => (0, 0)) [(![0, 0, 0], 7)] = some d ∧ p.readAt compactC0 triangle f ![0, 0, 0] = some a ∧ ∑ i, p.complete d i * f i = 7 * a := by
  obtain ⟨p, hp⟩ := between_computes (pol := .separate) (by decide)
  have hc := compute_spec (by norm_num) hp
  obtain ⟨d, hd⟩ := between_writes (v := ![0, 0, 0]) (load := 7) hp (distance_lt (by norm_num) (by norm_num [third]))
  obtain ⟨r, hr, hsum⟩ := C97_write_at_partial _ _ _ _ (by norm_num) _ _ _ p hp _ d hd (fun _ c h0 => by
    exfalso
    have hin : (0 : Fin 3) ∈ (p.clusters.get c).ins := by
      rw [between_ins hc]
      exact List.mem_finRange 0
    obtain ⟨j, hj⟩ := List.get_of_mem hin
    have hnear : distance (centers p.clusters c) ![0, 0, 0] < 3 := by
      have := (hc.made c).ins ▸ hin
      have := mem_within.1 this
      exact this
    have h1 := h0 j
    rw [write_second (by rw [hc.radius]; norm_num) hd, hc.radius, if_pos hnear, hj] at h1
    have h2 := share_pos (by norm_num) hnear
    have h3 : entry compactC0 (fun _ => true) ![0, 0, 0] (triangle 0) = 1 := by
      simp [entry, squaredDifference, triangle, compactC0]
    rw [h3, one_mul] at h1
    linarith) f
  rw [List.mapM_cons] at hr
  cases ha : p.readAt compactC0 triangle f ![0, 0, 0] with
  | none =>
    simp only [ha] at hr
    exact absurd hr (by simp)
  | some a =>
    simp only [ha] at hr
    obtain rfl := Option.some.inj hr
    exact ⟨p, hp, d, a, hd, ha, by simpa using hsum⟩

/-- **Disagreement: lost loads.** A load which is written just in time at a location of a cluster is lost if all basis
functions of the cluster vanish there, because such clusters are skipped as if nothing had been written, although the
polynomial of the cluster has a contribution. The ordinary mapping conserves the same load at the same location. -/
theorem C97_write_lost : ∃ p, compute someEigen true compactC0 .separate planar 3 triangle (fun _ : Fin 1 => ![1, 1, 0]) places = some p ∧
    (∃ d, p.writeAll compactC0 triangle (fun _ => (0, 0)) [(![1, 1, 0], 1)] = some d ∧ ∀ i, p.complete d i = 0) ∧
    ∃ v, p.mapConservative (fun _ => 1) = some v ∧ ∑ i, v i = 1 := by
  obtain ⟨p, hp⟩ := between_computes (pol := .separate) (by decide)
  have hc := compute_spec (by norm_num) hp
  refine ⟨p, hp, ?_, ?_⟩
  · obtain ⟨d, hd⟩ := between_writes (v := ![1, 1, 0]) (load := 1) hp (distance_lt (by norm_num) (by norm_num [third]))
    refine ⟨d, hd, fun i => ?_⟩
    unfold Mapping.complete
    refine Finset.sum_eq_zero fun c _ => ?_
    refine (if_neg ?_).trans rfl
    have hz : ∀ j, (d c).2 j = 0 := by
      intro j
      rw [write_second (by rw [hc.radius]; norm_num) hd]
      split
      · have : ∀ k : Fin 3, entry compactC0 (fun _ => true) ![1, 1, 0] (triangle k) = 0 := by
          intro k
          unfold entry
          refine compactC0_far ?_
          fin_cases k <;> norm_num [squaredDifference, triangle, Fin.sum_univ_three, third]
        rw [this, zero_mul]
      · rfl
    simp [hz]
  · obtain ⟨g, v, h1, h2, h3⟩ := C97_adjoint _ _ _ _ (by norm_num) _ _ _ p hp (fun _ => 1) fun _ => 1
    refine ⟨v, h2, ?_⟩
    rw [C97_conserves _ someEigen_valid _ _ _ (by norm_num) _ _ _ p hp (fun c => by
      rw [between_ins hc, List.length_finRange]
      exact (triangle_constructs (fun _ : Fin 1 => ![1, 1, 0])).2) (fun _ => 1) v h2]
    simp

/-- The hypotheses of `C97_edge` can be met, by an output vertex which is well inside of another cluster: moving the vertex by less than
`1e-14` makes the mapping fail. -/
example : compute someEigen true compactC0 .separate planar 3 triangle (fun _ : Fin 1 => ![3 - tolerance / 2, 0, 0]) places = none ∧
    distance ![2, 0, 0] ![3 - tolerance / 2, 0, 0] < 1 := by
  have h0 := tolerance_pos
  have h1 := tolerance_small
  refine ⟨C97_edge _ _ _ _ (by norm_num) _ _ _ 0 ![0, 0, 0] (List.mem_cons_self ..) ⟨0, distance_lt (by norm_num) (by norm_num [triangle, third])⟩ (le_distance ?_) (distance_lt (by norm_num) ?_),
    distance_lt one_pos ?_⟩
  · norm_num [third]
    nlinarith
  · norm_num [third]
    nlinarith
  · norm_num [third]
    rw [abs_lt]
    constructor <;> linarith

/-- An output vertex which is in no cluster -/
example : compute someEigen true compactC0 .separate planar 3 triangle (fun _ : Fin 1 => ![100, 0, 0]) places = none := by
  refine C97_uncovered _ _ _ _ (by norm_num) _ _ _ 0 fun c hc ⟨i, hi⟩ => le_distance ?_
  simp only [places, List.mem_cons, List.not_mem_nil, or_false] at hc
  rcases hc with rfl | rfl | rfl
  · norm_num [third]
  · norm_num [third]
  · refine absurd hi (not_lt.2 (le_distance ?_))
    fin_cases i <;> norm_num [triangle, third]

end Verif.Pum
