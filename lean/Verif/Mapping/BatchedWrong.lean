import Verif.Mapping.BatchedUse

/-!
Disagreements with C128: where the executor changes the result.
-/

set_option autoImplicit false

namespace Verif.Batched
open Matrix Rbf Pum PetRbf

/-! ## A data race -/

/-- Three vertices at a corner -/
def corner : Fin 3 → Point := ![![1, 1, 0], ![1, 2, 0], ![2, 1, 0]]

theorem corner_apart : Apart compactC0 planar corner := by
  intro i j
  unfold entry
  rw [squaredDifference_planar]
  fin_cases i <;> fin_cases j <;> simp [corner] <;> first | exact compactC0_zero | exact compactC0_far (by norm_num) | norm_num [compactC0]

theorem corner_spread : Spread (polyMatrix planar corner) := by
  refine spread_planar (fun a b c h => ?_) fun i => ?_
  · simp only [show corner 0 = ![1, 1, 0] from rfl, show corner 1 = ![1, 2, 0] from rfl, show corner 2 = ![2, 1, 0] from rfl, Matrix.cons_val_zero, Matrix.cons_val_one]
    rcases h with rfl | rfl | rfl
    · nlinarith [sq_nonneg (1 * 1 + b * 1 + c), sq_nonneg (1 * 2 + b * 1 + c + (1 * 1 + b * 1 + c)), sq_nonneg (1 * 1 + b * 2 + c)]
    · nlinarith [sq_nonneg (a * 1 + 1 * 1 + c), sq_nonneg (a * 1 + 1 * 2 + c + (a * 1 + 1 * 1 + c)), sq_nonneg (a * 2 + 1 * 1 + c)]
    · nlinarith [sq_nonneg (a * 1 + b * 1 + 1 - 3 / 11), sq_nonneg (a * 1 + b * 2 + 1 + 1 / 11), sq_nonneg (a * 2 + b * 1 + 1 + 1 / 11)]
  · fin_cases i <;> norm_num [corner]

/-- Four threads, which take the vertices in turn. Three of them read the coefficients and store their vertices before
the fourth begins to read. -/
def four (k l : ℕ) : Team k l where
  threads := 4
  rowOf := fun i => ⟨i % 4, Nat.mod_lt _ (by decide)⟩
  outOf := fun j => ⟨j % 4, Nat.mod_lt _ (by decide)⟩
  schedule := [0, 0, 0, 1, 1, 1, 2, 2, 2, 0, 0, 1, 1, 2, 2, 3, 3, 3]

theorem get_finRange {n : ℕ} {l : List (Fin n)} (h : l = List.finRange n) (i : Fin l.length) : (l.get i : ℕ) = i := by
  subst h
  simp

theorem run_append {threads : ℕ} (s : State threads) (ts us : List (Fin threads)) : s.run (ts ++ us) = (s.run ts).run us := by
  induction ts generalizing s with
  | nil => rfl
  | cons t ts ih => exact ih _

theorem read_block {threads : ℕ} {s : State threads} {t : Fin threads} {w : List Access} (h : s.todo t = .read 0 :: .read 1 :: .read 2 :: w) :
    s.run [t, t, t] = ⟨s.memory, Function.update s.todo t w, Function.update s.registers t
      (Function.update (Function.update (Function.update (s.registers t) 0 (s.memory 0)) 1 (s.memory 1)) 2 (s.memory 2))⟩ := by
  simp only [State.run]
  rw [show s.step t = _ from by unfold State.step; rw [h]]
  simp only [State.step, Function.update_self, Function.update_idem]

theorem write_block {threads : ℕ} {s : State threads} {t : Fin threads} {a b : ℕ} {u v : ℝ} (h : s.todo t = [.write a u, .write b v]) :
    s.run [t, t] = ⟨Function.update (Function.update s.memory a u) b v, Function.update s.todo t [], s.registers⟩ := by
  simp only [State.run]
  rw [show s.step t = _ from by unfold State.step; rw [h]]
  simp only [State.step, Function.update_self, Function.update_idem]

theorem four_run (s : State 4) (h0 : s.todo 0 = [.read 0, .read 1, .read 2, .write 0 1, .write 1 1]) (h1 : s.todo 1 = [.read 0, .read 1, .read 2, .write 2 1, .write 3 2])
    (h2 : s.todo 2 = [.read 0, .read 1, .read 2, .write 4 2, .write 5 1]) (h3 : s.todo 3 = [.read 0, .read 1, .read 2])
    {ts : List (Fin 4)} (hts : ts = [0, 0, 0, 1, 1, 1, 2, 2, 2, 0, 0, 1, 1, 2, 2, 3, 3, 3]) :
    (∀ t, (s.run ts).todo t = []) ∧
    (∀ t, t ≠ 3 → ∀ r < 3, (s.run ts).registers t r = s.memory r) ∧
    ∀ r < 3, (s.run ts).registers 3 r = 1 := by
  subst hts
  rw [show ([0, 0, 0, 1, 1, 1, 2, 2, 2, 0, 0, 1, 1, 2, 2, 3, 3, 3] : List (Fin 4)) = [0, 0, 0] ++ ([1, 1, 1] ++ ([2, 2, 2] ++ ([0, 0] ++ ([1, 1] ++ ([2, 2] ++ [3, 3, 3]))))) from rfl]
  have n01 : (0 : Fin 4) ≠ 1 := by decide
  have n02 : (0 : Fin 4) ≠ 2 := by decide
  have n03 : (0 : Fin 4) ≠ 3 := by decide
  have n12 : (1 : Fin 4) ≠ 2 := by decide
  have n13 : (1 : Fin 4) ≠ 3 := by decide
  have n23 : (2 : Fin 4) ≠ 3 := by decide
  rw [run_append, read_block h0, run_append, read_block (by simp only [Function.update_of_ne n01.symm]; exact h1), run_append,
    read_block (by simp only [Function.update_of_ne n02.symm, Function.update_of_ne n12.symm]; exact h2), run_append,
    write_block (a := 0) (b := 1) (u := 1) (v := 1) (by simp only [Function.update_of_ne n01, Function.update_of_ne n02, Function.update_self]), run_append,
    write_block (a := 2) (b := 3) (u := 1) (v := 2) (by simp only [Function.update_of_ne n01.symm, Function.update_of_ne n12, Function.update_self]), run_append,
    write_block (a := 4) (b := 5) (u := 2) (v := 1) (by simp only [Function.update_of_ne n02.symm, Function.update_of_ne n12.symm, Function.update_self]),
    read_block (w := []) (by simp only [Function.update_of_ne n03.symm, Function.update_of_ne n13.symm, Function.update_of_ne n23.symm]; exact h3)]
  refine ⟨fun t => ?_, fun t ht r hr => ?_, fun r hr => ?_⟩
  · fin_cases t <;> simp
  · have hr' : r = 0 ∨ r = 1 ∨ r = 2 := by omega
    have ht' : t = 0 ∨ t = 1 ∨ t = 2 := by omega
    rcases hr' with rfl | rfl | rfl <;> rcases ht' with rfl | rfl | rfl <;> simp
  · have hr' : r = 0 ∨ r = 1 ∨ r = 2 := by omega
    rcases hr' with rfl | rfl | rfl <;> simp

theorem four_program (l : ℕ) : program 3 planar corner (four 3 l) (0 : Fin 4) = [.read 0, .read 1, .read 2, .write 0 1, .write 1 1] ∧
    program 3 planar corner (four 3 l) (1 : Fin 4) = [.read 0, .read 1, .read 2, .write 2 1, .write 3 2] ∧
    program 3 planar corner (four 3 l) (2 : Fin 4) = [.read 0, .read 1, .read 2, .write 4 2, .write 5 1] ∧
    program 3 planar corner (four 3 l) (3 : Fin 4) = [.read 0, .read 1, .read 2] :=
  ⟨rfl, rfl, rfl, rfl⟩

theorem pivots_three {D : Device} (hD : D.Valid) : (D.pivots (polyMatrix planar corner)).length = 3 := by
  have h1 := List.toFinset_card_of_nodup (hD.nodup (polyMatrix planar corner))
  rw [hD.all corner_spread] at h1
  rw [← h1]
  decide

theorem four_solve {D : Device} (hD : D.Valid) : ∀ (k l : ℕ) (hk : k = 3) (X : Fin k → Point) (Y : Fin l → Point), (∀ i, X i = corner ⟨i, hk ▸ i.2⟩) → (∀ i, Y i = ![1, 1, 0]) →
    Complete planar D X 0 (four k l) ∧ ∃ v, solveCluster D compactC0 .separate planar X Y (four k l) 0 = some v ∧ ∀ j : Fin l, (j : ℕ) = 3 → v j = 3 := by
  rintro k l rfl X Y hX hY
  obtain rfl : X = corner := funext hX
  have hmem : ∀ r, solution (active := planar) D corner (0 : Fin 3 → ℝ) r = 0 := by
    intro r
    unfold solution
    rw [Matrix.mulVec_zero]
    cases (D.pivots (polyMatrix planar corner))[r]? <;> rfl
  obtain ⟨s, hs⟩ : ∃ s, start (active := planar) D corner 0 (four 3 l) = s := ⟨_, rfl⟩
  have hm0 : ∀ r, s.memory r = 0 := by
    rw [← hs]
    exact hmem
  have hprog := four_program l
  have htodo : s.todo = program 3 planar corner (four 3 l) := by
    rw [← hs]
    exact congrArg (fun r => program r planar corner (four 3 l)) (pivots_three hD)
  have hrun := four_run s (by rw [htodo]; exact hprog.1) (by rw [htodo]; exact hprog.2.1) (by rw [htodo]; exact hprog.2.2.1) (by rw [htodo]; exact hprog.2.2.2) (ts := (four 3 l).schedule) rfl
  obtain ⟨s', hs'⟩ : ∃ s', s.run (four 3 l).schedule = s' := ⟨_, rfl⟩
  obtain ⟨r1, r2, r3⟩ := hrun
  have r1 : ∀ t, s'.todo t = [] := by
    rw [← hs']
    exact r1
  have r2 : ∀ t : Fin 4, t ≠ 3 → ∀ r < 3, s'.registers t r = s.memory r := by
    rw [← hs']
    exact r2
  have r3 : ∀ r < 3, s'.registers (3 : Fin 4) r = 1 := by
    rw [← hs']
    exact r3
  refine ⟨fun t => ?_, ?_⟩
  · rw [hs, hs']
    exact r1 t
  have hco : ∀ t : Fin 4, threadCoefficients .separate planar D corner 0 (four 3 l) t = fun _ => if t = 3 then 1 else 0 := by
    intro t
    funext a
    unfold threadCoefficients
    rw [if_pos rfl, place, if_pos (hD.spread _ corner_spread a), hs, hs']
    have hi : (D.pivots (polyMatrix planar corner)).idxOf a < 3 := lt_of_lt_of_eq (List.idxOf_lt_length_of_mem (hD.spread _ corner_spread a)) (pivots_three hD)
    by_cases ht : t = 3
    · rw [if_pos ht, ht]
      exact r3 _ hi
    · rw [if_neg ht]
      exact (r2 t ht _ hi).trans (hm0 _)
  obtain ⟨v, hv⟩ := solveCluster_some (D := D) (pol := .separate) (Y := Y) (team := four 3 l) (f := 0) (kernel_apart corner_apart)
  refine ⟨v, hv, fun j hj => ?_⟩
  unfold solveCluster at hv
  simp only at hv
  rw [Option.map_eq_some_iff] at hv
  obtain ⟨μ, hμ, rfl⟩ := hv
  have h1 := solveLU_spec hμ
  have h2 : (fun i => (0 : Fin 3 → ℝ) i - ∑ a, polyRow planar (corner i) a * threadCoefficients .separate planar D corner 0 (four 3 l) ((four 3 l).rowOf i) a) = 0 := by
    funext i
    have : (four 3 l).rowOf i ≠ (3 : Fin 4) := by fin_cases i <;> (simp only [four]; decide)
    have h0 : threadCoefficients .separate planar D corner 0 (four 3 l) ((four 3 l).rowOf i) = 0 := (hco _).trans (funext fun _ => if_neg this)
    rw [h0]
    simp
  rw [h2] at h1
  have hμ0 : μ = 0 := Matrix.eq_zero_of_mulVec_eq_zero (kernel_apart corner_apart).det_pos.ne' h1
  have hout : (four 3 l).outOf j = (3 : Fin 4) := by
    simp only [four]
    ext
    simp [hj]
  have h3 : threadCoefficients .separate planar D corner 0 (four 3 l) ((four 3 l).outOf j) = fun _ => 1 := (hco _).trans (funext fun _ => if_pos hout)
  simp only
  rw [hμ0, h3, hY j]
  have hall : (Finset.univ : Finset (Poly planar)) = {none, some ⟨0, rfl⟩, some ⟨1, rfl⟩} := by decide
  rw [hall, Finset.sum_insert (by decide), Finset.sum_insert (by decide), Finset.sum_singleton]
  simp [polyRow]
  norm_num

/-- The output vertices: four times the first vertex of the corner -/
def again (_ : Fin 4) : Point := ![1, 1, 0]

theorem corner_near {c : Point} (hc : c ∈ [(![1, 1, 0] : Point)]) : within corner c 3 = List.finRange 3 := by
  obtain rfl := List.mem_singleton.1 hc
  unfold within
  rw [List.filter_eq_self]
  intro i _
  rw [decide_eq_true_eq]
  refine distance_lt (by norm_num) ?_
  fin_cases i <;> norm_num [corner, third]

theorem again_near {c : Point} (hc : c ∈ [(![1, 1, 0] : Point)]) (j : Fin 4) : distance c (again j) < 1 := by
  obtain rfl := List.mem_singleton.1 hc
  exact distance_lt (by norm_num) (by norm_num [again, third])

theorem again_within {c : Point} (hc : c ∈ [(![1, 1, 0] : Point)]) : within again c (3 - tolerance) = List.finRange 4 := by
  unfold within
  rw [List.filter_eq_self]
  intro i _
  rw [decide_eq_true_eq]
  have := tolerance_small
  exact lt_trans (again_near hc i) (by linarith)

theorem apart_constructs {k l : ℕ} {pol : Polynomial} {φ : ℝ → ℝ} {active : Fin 3 → Bool} {X : Fin k → Point} (h : Apart φ active X) (hp : pol ≠ .on) (e : Eigen) (he : e.Valid) (Y : Fin l → Point) :
    ∃ s, construct e true φ pol active X Y = some s := by
  unfold construct
  have hd : decomposable true (buildCLU (pol := pol) (active := active) φ X) = true := by
    rw [h.clu hp]
    simp [decomposable, Matrix.PosDef.one]
  rw [if_neg (fun h => hp h.2), hd, if_pos rfl]
  split
  · obtain ⟨a, ha⟩ := Option.isSome_iff_exists.1 (C95_axes_terminate e he X active)
    rw [ha]
    exact ⟨_, rfl⟩
  · exact ⟨_, rfl⟩

theorem corner_computes (e : Eigen) (he : e.Valid) : ∃ p, compute e true compactC0 .separate planar 3 corner again [![1, 1, 0]] = some p := by
  have hpop : populated 3 corner [![1, 1, 0]] = [![1, 1, 0]] := by
    unfold populated
    rw [List.filter_eq_self]
    intro c hc
    rw [corner_near hc]
    rfl
  have ht := tolerance_small
  refine (C97_computes e true compactC0 3 (by linarith) corner _ _ (by decide)).2 ⟨fun c hc => ?_, fun j => ⟨![1, 1, 0], ?_, ?_⟩, fun j c hc => Or.inl ?_⟩
  · rw [hpop] at hc
    exact apart_constructs (of_all (P := fun X => Apart compactC0 planar X) corner_apart (corner_near hc)) (by decide) e he _
  · rw [hpop]
    exact List.mem_cons_self ..
  · exact lt_trans (again_near (List.mem_cons_self ..) j) (by norm_num)
  · rw [hpop] at hc
    exact lt_trans (again_near hc j) (by linarith)

theorem single_ready {n m : ℕ} {pol : Polynomial} (hp : pol ≠ .on) {R : ℝ} (hR : tolerance < R) {X : Fin n → Point} {Y : Fin m → Point} {c : Point} (hm : m ≠ 0)
    (hX : within X c R ≠ []) (hY : ∀ j, j ∈ within Y c (R - tolerance)) : ready true pol R X Y [c] = true := by
  unfold ready
  refine decide_eq_true ⟨hp, rfl, ?_, hm, by simp, hR, by simpa using hX, fun j => ?_⟩
  · rintro rfl
    obtain ⟨i, -⟩ := List.exists_mem_of_ne_nil _ hX
    exact i.elim0
  · unfold weightSum
    refine ne_of_gt (lt_of_lt_of_eq (rawWeight_pos R c (Y j)) ?_)
    refine Eq.symm ((Fin.sum_univ_one _).trans ?_)
    exact if_pos (hY j)

/-- **Disagreement: a data race.** All data is zero, three vertices span the plane, and an output vertex has the coordinates
of an input vertex. The CPU maps zero to it. On a device with four threads per team there is an execution which maps
three: there is no barrier between reading the coefficients of the polynomial and overwriting them with the coordinates
of the vertices, so the last thread takes coordinates for coefficients. -/
theorem C128_race (e : Eigen) (he : e.Valid) (D : Device) (hD : D.Valid) :
    (∃ p, compute e true compactC0 .separate planar 3 corner again [![1, 1, 0]] = some p ∧ ∃ g, p.mapConsistent 0 = some g ∧ g 3 = 0) ∧
    ready true .separate 3 corner again [![1, 1, 0]] = true ∧
    ∃ teams : Teams 3 corner again [![1, 1, 0]],
      (∀ c, Complete planar D (around 3 corner ([(![1, 1, 0] : Point)].get c)) 0 (teams c)) ∧
      ∃ g, mapConsistent D compactC0 .separate planar 3 corner again [![1, 1, 0]] teams 0 = some g ∧ g 3 = 3 := by
  have ht := tolerance_small
  refine ⟨?_, ?_, ?_⟩
  · obtain ⟨p, hp⟩ := corner_computes e he
    have hv := C97_value e true compactC0 3 (by norm_num) corner again _ p hp 0
    exact ⟨p, hp, _, hv, C97_interpolates e true compactC0 3 (by norm_num) corner again _ p hp 0 _ hv 0 3 rfl⟩
  · refine single_ready (by decide) (by linarith) (by decide) ?_ fun j => ?_
    · rw [corner_near (List.mem_cons_self ..)]
      simp
    · rw [again_within (List.mem_cons_self ..)]
      exact List.mem_finRange j
  · have hloc : ∀ c, Complete planar D (around 3 corner ([(![1, 1, 0] : Point)].get c)) 0 (four _ (within again ([(![1, 1, 0] : Point)].get c) (3 - tolerance)).length) ∧
        ∃ v, clusterValues D compactC0 .separate planar 3 corner again [![1, 1, 0]] (fun _ => four _ _) 0 c = some v ∧ ∀ j : Fin _, (j : ℕ) = 3 → v j = 3 := by
      intro c
      refine four_solve hD (within corner ([(![1, 1, 0] : Point)].get c) 3).length _ (by rw [corner_near (List.get_mem _ c), List.length_finRange]) _ _ (fun i => ?_) fun i => rfl
      unfold around
      congr 1
      exact Fin.ext (get_finRange (corner_near (List.get_mem _ c)) i)
    refine ⟨fun _ => four _ _, fun c => (hloc c).1, ?_⟩
    have hex : ∃ g, mapConsistent D compactC0 .separate planar 3 corner again [![1, 1, 0]] (fun _ => four _ _) 0 = some g := by
      unfold mapConsistent
      rw [if_pos fun c => Option.isSome_iff_exists.2 ((hloc c).2.imp fun _ h => h.1)]
      exact ⟨_, rfl⟩
    obtain ⟨g, hg⟩ := hex
    refine ⟨g, hg, ?_⟩
    refine value_of_agree (spd := true) ?_ hg fun c v i hv hi => ?_
    · refine single_ready (by decide) (by linarith) (by decide) ?_ fun j => ?_
      · rw [corner_near (List.mem_cons_self ..)]
        simp
      · rw [again_within (List.mem_cons_self ..)]
        exact List.mem_finRange j
    · obtain ⟨v', hv', h3⟩ := (hloc c).2
      rw [hv] at hv'
      obtain rfl := Option.some.inj hv'
      refine h3 i ?_
      exact (get_finRange (again_within (List.get_mem _ c)) i).symm.trans (congrArg Fin.val hi)

/-! ## Flat clusters -/

/-- Three vertices on a line away from the origin -/
def wall (i : Fin 3) : Point := ![10, (i : ℝ), 0]

/-- An output vertex beside the line -/
def beside (_ : Fin 1) : Point := ![11, 0, 0]

theorem wall_apart : Apart compactC0 planar wall := by
  intro i j
  unfold entry
  rw [squaredDifference_planar]
  fin_cases i <;> fin_cases j <;> simp [wall] <;> first | exact compactC0_zero | exact compactC0_far (by norm_num) | norm_num [compactC0]

theorem wall_near {c : Point} (hc : c ∈ [(![10, 1, 0] : Point)]) : within wall c 3 = List.finRange 3 := by
  obtain rfl := List.mem_singleton.1 hc
  unfold within
  rw [List.filter_eq_self]
  intro i _
  rw [decide_eq_true_eq]
  refine distance_lt (by norm_num) ?_
  fin_cases i <;> norm_num [wall, third]

theorem beside_near {c : Point} (hc : c ∈ [(![10, 1, 0] : Point)]) (j : Fin 1) : distance c (beside j) < 2 := by
  obtain rfl := List.mem_singleton.1 hc
  exact distance_lt (by norm_num) (by norm_num [beside, third])

theorem wall_computes (e : Eigen) (he : e.Valid) : ∃ p, compute e true compactC0 .separate planar 3 wall beside [![10, 1, 0]] = some p := by
  have hpop : populated 3 wall [![10, 1, 0]] = [![10, 1, 0]] := by
    unfold populated
    rw [List.filter_eq_self]
    intro c hc
    rw [wall_near hc]
    rfl
  have ht := tolerance_small
  refine (C97_computes e true compactC0 3 (by linarith) wall _ _ (by decide)).2 ⟨fun c hc => ?_, fun j => ⟨![10, 1, 0], ?_, ?_⟩, fun j c hc => Or.inl ?_⟩
  · rw [hpop] at hc
    exact apart_constructs (of_all (P := fun X => Apart compactC0 planar X) wall_apart (wall_near hc)) (by decide) e he _
  · rw [hpop]
    exact List.mem_cons_self ..
  · exact lt_trans (beside_near (List.mem_cons_self ..) j) (by norm_num)
  · rw [hpop] at hc
    exact lt_trans (beside_near hc j) (by linarith)

/-- The constant one is fitted by a tenth of the first coordinate. -/
theorem wall_fit {D : Device} (hD : D.Valid) : fit .separate planar D wall (fun _ => 1) = fun l => if l = some ⟨0, rfl⟩ then 1 / 10 else 0 := by
  set Q := polyMatrix planar wall with hQ
  have hx : ∀ i, Q i (some ⟨0, rfl⟩) = 10 := fun i => rfl
  have h1 : ∀ i, Q i none = 1 := fun i => rfl
  have hy : ∀ i, Q i (some ⟨1, rfl⟩) = (i : ℝ) := fun i => rfl
  have hmem : ∀ l : Poly planar, l = none ∨ l = some ⟨0, rfl⟩ ∨ l = some ⟨1, rfl⟩ := by decide
  have hne : Q ≠ 0 := fun h => by
    have := congrFun (congrFun h 0) none
    rw [h1] at this
    norm_num at this
  have hkeep : (some ⟨0, rfl⟩ : Poly planar) ∈ D.pivots Q := by
    obtain ⟨l, hl, hmax⟩ := hD.first Q hne
    have := hmax (some ⟨0, rfl⟩)
    rcases hmem l with rfl | rfl | rfl
    · simp only [hx, h1, Fin.sum_univ_three] at this
      norm_num at this
    · exact hl
    · simp only [hx, hy, Fin.sum_univ_three] at this
      norm_num at this
  have hdrop : (none : Poly planar) ∉ D.pivots Q := by
    intro h0
    have hi := hD.independent Q
    have hs : ∀ l ∈ D.pivots Q, l ∈ (D.pivots Q).toFinset := fun l hl => List.mem_toFinset.2 hl
    have := Fintype.linearIndependent_iff.1 hi (fun l => if l.1 = none then -10 else if l.1 = some ⟨0, rfl⟩ then 1 else 0) ?_ ⟨none, hs _ h0⟩
    · simp at this
    · funext i
      rw [Finset.sum_apply]
      have e1 := Finset.sum_coe_sort (D.pivots Q).toFinset (fun l : Poly planar => ((if l = none then (-10 : ℝ) else if l = some ⟨0, rfl⟩ then 1 else 0) • Qᵀ l) i)
      refine e1.trans ?_
      rw [Finset.sum_subset (Finset.subset_univ _)]
      · have hall : (Finset.univ : Finset (Poly planar)) = {none, some ⟨0, rfl⟩, some ⟨1, rfl⟩} := by decide
        rw [hall, Finset.sum_insert (by decide), Finset.sum_insert (by decide), Finset.sum_singleton]
        rw [if_pos rfl, if_neg (by decide), if_pos rfl, if_neg (by decide), if_neg (by decide)]
        simp only [Pi.smul_apply, Matrix.transpose_apply, hx, h1]
        simp
      · intro l _ hl
        have hl' : l ∉ D.pivots Q := fun h => hl (hs l h)
        rw [if_neg (fun h : l = none => hl' (h ▸ h0)), if_neg (fun h : l = some ⟨0, rfl⟩ => hl' (h ▸ hkeep)), zero_smul]
        rfl
  have hf : (fun _ => 1 : Fin 3 → ℝ) = fun i => Q i (some ⟨0, rfl⟩) * (1 / 10) := by
    funext i
    rw [hx]
    norm_num
  unfold fit
  rw [if_pos rfl, hf]
  funext l
  by_cases hl : l ∈ D.pivots Q
  · rw [Matrix.mulVec, dotProduct]
    have e1 : ∀ i, basicInverse Q (D.pivots Q).toFinset l i * (Q i (some ⟨0, rfl⟩) * (1 / 10)) = basicInverse Q (D.pivots Q).toFinset l i * Q i (some ⟨0, rfl⟩) * (1 / 10) :=
      fun i => (mul_assoc _ _ _).symm
    rw [Finset.sum_congr rfl fun i _ => e1 i, ← Finset.sum_mul,
      basicInverse_mul_pivots Q _ (hD.independent Q) l _ (List.mem_toFinset.2 hl) (List.mem_toFinset.2 hkeep)]
    split <;> simp
  · rw [if_neg (fun h : l = some ⟨0, rfl⟩ => hl (h ▸ hkeep)), Matrix.mulVec, dotProduct]
    refine Finset.sum_eq_zero fun i _ => ?_
    unfold basicInverse
    rw [dif_neg (by simpa using hl), zero_mul]

theorem wall_solve {D : Device} (hD : D.Valid) : ∀ (k l : ℕ) (hk : k = 3) (X : Fin k → Point) (Y : Fin l → Point), (∀ i, X i = wall ⟨i, hk ▸ i.2⟩) → (∀ i, Y i = ![11, 0, 0]) →
    ∃ v, solveCluster D compactC0 .separate planar X Y (solo k l) (fun _ => 1) = some v ∧ ∀ j : Fin l, v j = 11 / 10 := by
  rintro k l rfl X Y hX hY
  obtain rfl : X = wall := funext hX
  obtain ⟨v, hv⟩ := solveCluster_some (D := D) (pol := .separate) (Y := Y) (team := solo 3 l) (f := fun _ => 1) (kernel_apart wall_apart)
  refine ⟨v, hv, fun j => ?_⟩
  obtain ⟨μ, h1, h2⟩ := solveCluster_spec hv fun _ => ⟨single_orderly rfl, solo_complete hD _ _ _⟩
  have hall : (Finset.univ : Finset (Poly planar)) = {none, some ⟨0, rfl⟩, some ⟨1, rfl⟩} := by decide
  rw [wall_fit hD] at h1 h2
  have h0 : (fun i => (fun _ => 1 : Fin 3 → ℝ) i - ∑ a, polyRow planar (wall i) a * (fun l : Poly planar => if l = some ⟨0, rfl⟩ then (1 / 10 : ℝ) else 0) a) = 0 := by
    funext i
    rw [hall, Finset.sum_insert (by decide), Finset.sum_insert (by decide), Finset.sum_singleton]
    beta_reduce
    rw [if_neg (by decide), if_pos rfl, if_neg (by decide)]
    simp [polyRow, wall]
  rw [h0] at h1
  have hμ0 : μ = 0 := Matrix.eq_zero_of_mulVec_eq_zero (kernel_apart wall_apart).det_pos.ne' h1
  rw [h2 j, hμ0, hY j, hall, Finset.sum_insert (by decide), Finset.sum_insert (by decide), Finset.sum_singleton]
  beta_reduce
  rw [if_neg (by decide), if_pos rfl, if_neg (by decide)]
  simp [polyRow]
  norm_num

/-- **Disagreement: flat clusters.** The vertices of a cluster have the same first coordinate. The CPU drops an axis of the
polynomial and maps the constant one to one. A device keeps the first coordinate instead of the constant, and maps the
constant one to eleven tenths, in every team. -/
theorem C128_flat (e : Eigen) (he : e.Valid) (D : Device) (hD : D.Valid) :
    (∃ p, compute e true compactC0 .separate planar 3 wall beside [![10, 1, 0]] = some p ∧ ∃ g, p.mapConsistent (fun _ => 1) = some g ∧ g 0 = 1) ∧
    ready true .separate 3 wall beside [![10, 1, 0]] = true ∧
    ∃ g, mapConsistent D compactC0 .separate planar 3 wall beside [![10, 1, 0]] (fun _ => solo _ _) (fun _ => 1) = some g ∧ g 0 = 11 / 10 := by
  have ht := tolerance_small
  have hready : ready true .separate 3 wall beside [![10, 1, 0]] = true := by
    refine single_ready (by decide) (by linarith) (by decide) ?_ fun j => ?_
    · rw [wall_near (List.mem_cons_self ..)]
      simp
    · rw [mem_within]
      exact lt_trans (beside_near (List.mem_cons_self ..) j) (by linarith)
  refine ⟨?_, hready, ?_⟩
  · obtain ⟨p, hp⟩ := wall_computes e he
    have hv := C97_value e true compactC0 3 (by norm_num) wall beside _ p hp fun _ => 1
    have hc := compute_spec (by norm_num) hp
    refine ⟨p, hp, _, hv, C97_constant e he true compactC0 3 (by norm_num) wall beside _ p hp 1 _ hv 0 fun c _ => ?_⟩
    have hm : (p.clusters.get c).center ∈ populated 3 wall [![10, 1, 0]] := by
      rw [← hc.hcenters]
      exact List.mem_map_of_mem (List.get_mem _ c)
    rw [(hc.made c).ins, wall_near (List.mem_filter.1 hm).1, List.length_finRange, card_poly]
    decide
  · have hloc : ∀ c, ∃ v, clusterValues D compactC0 .separate planar 3 wall beside [![10, 1, 0]] (fun _ => solo _ _) (fun _ => 1) c = some v ∧ ∀ j, v j = 11 / 10 := by
      intro c
      refine wall_solve hD (within wall ([(![10, 1, 0] : Point)].get c) 3).length _ (by rw [wall_near (List.get_mem _ c), List.length_finRange]) _ _ (fun i => ?_) fun i => rfl
      congr 1
      exact Fin.ext (get_finRange (wall_near (List.get_mem _ c)) i)
    have hex : ∃ g, mapConsistent D compactC0 .separate planar 3 wall beside [![10, 1, 0]] (fun _ => solo _ _) (fun _ => 1) = some g := by
      unfold mapConsistent
      rw [if_pos fun c => Option.isSome_iff_exists.2 ((hloc c).imp fun _ h => h.1)]
      exact ⟨_, rfl⟩
    obtain ⟨g, hg⟩ := hex
    refine ⟨g, hg, value_of_agree hready hg fun c v i hv hi => ?_⟩
    obtain ⟨v', hv', h3⟩ := hloc c
    rw [hv] at hv'
    obtain rfl := Option.some.inj hv'
    exact h3 i

/-! ## Ranks without vertices -/

/-- **Disagreement: ranks without vertices.** A rank on which a mesh is empty is fine with the CPU, and an error with a
device. -/
theorem C128_empty_rank (e : Eigen) (spd : Bool) (φ : ℝ → ℝ) (pol : Polynomial) (hp : pol ≠ .on) (active : Fin 3 → Bool) (R : ℝ) :
    (∃ p, compute e spd φ pol active R (Fin.elim0 : Fin 0 → Point) (Fin.elim0 : Fin 0 → Point) [] = some p ∧ ∃ g, p.mapConsistent Fin.elim0 = some g) ∧
    ∀ (n m : ℕ) (X : Fin n → Point) (Y : Fin m → Point) (cs : List Point), n = 0 ∨ m = 0 → ready spd pol R X Y cs = false := by
  refine ⟨⟨⟨R, [], fun c => c.elim0⟩, ?_, _, if_pos fun c => c.elim0⟩, fun n m X Y cs h => ?_⟩
  · unfold compute
    rw [if_neg (by simp [hp])]
    simp [makeClusters]
    funext c
    exact c.elim0
  · rw [Bool.eq_false_iff]
    intro hr
    have := ready_spec hr
    rcases h with h | h
    · exact this.2.2.1 h
    · exact this.2.2.2.1 h

/-! ## Vertices with the same coordinates -/

/-- Two vertices at the origin -/
def twice (_ : Fin 2) : Point := 0

theorem twice_solve (φ : ℝ → ℝ) (active : Fin 3 → Bool) : ∀ (k : ℕ) (_ : k = 2) (X : Fin k → Point) (b : Fin k → ℝ), (∀ i, X i = 0) → solveLU (kernelMatrix φ active X) b = none := by
  rintro k rfl X b hX
  have hK : ∀ i j, kernelMatrix φ active X i j = entry φ active 0 0 := fun i j => by
    change entry φ active (X j) (X i) = _
    rw [hX, hX]
  rw [solveLU]
  split
  · rfl
  · rename_i h0
    rw [hK] at h0
    have : schur (kernelMatrix φ active X) 0 0 = 0 := by
      rw [schur_apply, hK, hK, hK, hK, div_self h0, one_mul, sub_self]
    rw [solveLU, if_pos this]
    rfl

/-- **Disagreement: vertices with the same coordinates** are an error message of the CPU. A device accepts them and computes
values which are not numbers, for every basis function, polynomial and data. -/
theorem C128_duplicate (e : Eigen) (D : Device) (φ : ℝ → ℝ) (pol : Polynomial) (hp : pol ≠ .on) (active : Fin 3 → Bool) (teams : Teams 3 twice twice [0]) (f : Fin 2 → ℝ) :
    compute e true φ pol active 3 twice twice [0] = none ∧ ready true pol 3 twice twice [0] = true ∧ mapConsistent D φ pol active 3 twice twice [0] teams f = none := by
  have ht := tolerance_small
  have hd : ∀ c ∈ [(0 : Point)], ∀ j, distance c (twice j) < 1 := by
    intro c hc j
    obtain rfl := List.mem_singleton.1 hc
    exact distance_lt (by norm_num) (by norm_num [twice])
  have hw : ∀ c ∈ [(0 : Point)], within twice c 3 = List.finRange 2 := by
    intro c hc
    unfold within
    rw [List.filter_eq_self]
    intro i _
    rw [decide_eq_true_eq]
    exact lt_trans (hd c hc i) (by norm_num)
  refine ⟨?_, ?_, ?_⟩
  · rw [Option.eq_none_iff_forall_ne_some]
    intro p h
    have hc := compute_spec (by norm_num) h
    obtain ⟨c, -⟩ := hc.covered 0
    have hm : (p.clusters.get c).center ∈ populated 3 twice [0] := by
      rw [← hc.hcenters]
      exact List.mem_map_of_mem (List.get_mem _ c)
    obtain ⟨x, hx⟩ := solveLU_positive (positive_of_posDef (kernel_posDef (made_posDef (hc.made c)))) 0
    exact absurd (hx.symm.trans (twice_solve φ active _ (by rw [hw _ (List.mem_filter.1 hm).1, List.length_finRange]) _ _ fun _ => rfl)) (by simp)
  · refine single_ready hp (by linarith) (by decide) ?_ fun j => ?_
    · rw [hw _ (List.mem_cons_self ..)]
      simp
    · rw [mem_within]
      exact lt_trans (hd _ (List.mem_cons_self ..) j) (by linarith)
  · unfold mapConsistent
    rw [if_neg]
    intro h
    have := h ⟨0, by decide⟩
    unfold clusterValues solveCluster at this
    simp only at this
    rw [Option.isSome_map, Option.isSome_iff_exists] at this
    obtain ⟨x, hx⟩ := this
    exact absurd (hx.symm.trans (twice_solve φ active _ (by rw [hw _ (List.get_mem _ _), List.length_finRange]) _ _ fun _ => rfl)) (by simp)

/-! ## Instances -/

example : (4 : ℝ) ≠ 0 ∧ mapConservative (n := 3) true (fun _ : Fin 2 => 2) = none := by
  refine ⟨by norm_num, (C128_conservative (n := 3) (fun _ : Fin 2 => (2 : ℝ)) ?_).1⟩
  simp

/-- A device interpolates at the corner if its teams are single threads. -/
example (f : Fin 3 → ℝ) : ∃ g, mapConsistent someDevice compactC0 .separate planar 3 corner again [![1, 1, 0]] (fun _ => solo _ _) f = some g ∧ g 3 = f 0 := by
  have ht := tolerance_small
  have hready : ready true .separate 3 corner again [![1, 1, 0]] = true := by
    refine single_ready (by decide) (by linarith) (by decide) ?_ fun j => ?_
    · rw [corner_near (List.mem_cons_self ..)]
      simp
    · rw [again_within (List.mem_cons_self ..)]
      exact List.mem_finRange j
  have hex : ∃ g, mapConsistent someDevice compactC0 .separate planar 3 corner again [![1, 1, 0]] (fun _ => solo _ _) f = some g := by
    have hsome : ∀ c, (clusterValues someDevice compactC0 .separate planar 3 corner again [![1, 1, 0]] (fun _ => solo _ _) f c).isSome := fun c =>
      Option.isSome_iff_exists.2 (solveCluster_some (of_all (P := fun X => (kernelMatrix compactC0 planar X).PosDef) (kernel_apart corner_apart) (corner_near (List.get_mem _ c))))
    unfold mapConsistent
    rw [if_pos hsome]
    exact ⟨_, rfl⟩
  obtain ⟨g, hg⟩ := hex
  exact ⟨g, hg, C128_interpolates_partial someDevice true compactC0 3 corner again _ hready _ f (solo_orderly someDevice_valid _ _ _ _ _ _ _) g hg 0 3 rfl⟩

end Verif.Batched
