import Verif.Waveform.Props

/-!
# Property C111: time interpolation is exact for polynomials and linear in the data
-/

set_option autoImplicit false

namespace Verif.Waveform

open Finset

/-! ### Specification -/

/-- the stored times -/
def times (w : Waveform) : List ℚ := w.samples.map (·.1)

/-- the stored value with index `k` -/
def value (w : Waveform) (k : ℕ) : ℚ := (w.samples.getD k (0, 0)).2

/-! ### Polynomials -/

theorem relative {l : List (ℚ × ℚ)} (h : Spaced l) (h2 : 2 ≤ l.length) :
    (l.getD 0 (0, 0)).1 < (l.getD (l.length - 1) (0, 0)).1 := by
  have htol := tol_pos
  rw [getD_lt (by omega), getD_lt (by omega)]
  unfold Spaced at h
  rw [List.pairwise_iff_getElem] at h
  have := h 0 (l.length - 1) (by omega) (by omega) (by omega)
  linarith

/-- the solver's spline has the data as values at the sites -/
theorem solved {q : Bspline.Solver} (hq : q.Exact) {l : List (ℚ × ℚ)} (h : Spaced l) {d : ℕ} (hd : 1 ≤ d)
    (hdl : d < l.length) : Bspline.Solves (Bspline.rel l) l.length d (Bspline.vals l)
      (q (Bspline.rel l) l.length d (Bspline.vals l)) :=
  hq _ _ _ _ (Bspline.solves_exists (h.sites (by omega)) hd hdl _)

/-- C24: the interpolant passes through all samples, so that the direct return of stored samples
agrees with it. -/
theorem C24_interpolant {q : Bspline.Solver} (hq : q.Exact) {w : Waveform} (h : Reachable q w)
    (hd : 1 ≤ w.usedDegree) {s : ℚ × ℚ} (hs : s ∈ w.samples) :
    (Bspline.build q w.samples w.usedDegree).at' s.1 = s.2 := by
  have hsp := h.spaced
  have hdl : w.usedDegree < w.samples.length := by unfold usedDegree at hd ⊢; omega
  have hsol := (Bspline.solves_iff (hsp.sites (by omega)) hd hdl).mp (solved hq hsp hd hdl)
  obtain ⟨k, hk, rfl⟩ := List.getElem_of_mem hs
  have := hsol k hk
  have hst := hsp.sites (l := w.samples) (by omega)
  have h0 : 0 ≤ Bspline.rel w.samples k := by rw [← hst.zero]; exact hst.le (by omega) hk
  have h1 : Bspline.rel w.samples k ≤ 1 := by rw [← hst.one]; exact hst.le (by omega) (by omega)
  unfold Bspline.at' Bspline.build
  dsimp only
  have e : (w.samples[k].1 - (w.samples.getD 0 (0, 0)).1) /
      ((w.samples.getD (w.samples.length - 1) (0, 0)).1 - (w.samples.getD 0 (0, 0)).1) = Bspline.rel w.samples k := by
    unfold Bspline.rel; rw [getD_lt hk]
  rw [e, min_eq_left h1, max_eq_right h0, this]
  unfold Bspline.vals
  rw [getD_lt hk]

/-- C111: samples of a polynomial of at most the used degree (the waveform degree, or one less than
the number of samples) are interpolated exactly: every read between the first and the last stored
time returns the value of the polynomial. Times within the tolerance of a stored time count as that
time. -/
theorem C111_polynomial {q : Bspline.Solver} (hq : q.Exact) {w : Waveform} (h : ReachableNoReset q w)
    {P : Polynomial ℚ} (hP : P.natDegree ≤ w.usedDegree) (hx : ∀ s ∈ w.samples, s.2 = P.eval s.1) {f : ℚ × ℚ}
    (hf : w.samples.head? = some f) {t : ℚ} (ht0 : f.1 ≤ t) (ht1 : t ≤ w.maxStoredTime)
    (hnear : ∀ s ∈ w.samples, equals s.1 t → s.1 = t) : w.read q t = some (P.eval t) := by
  have hne : w.samples ≠ [] := fun hx => by rw [hx] at hf; cases hf
  have hsp := h.reachable.spaced
  by_cases hd : w.usedDegree = 0
  · rw [hd] at hP
    have hc := Polynomial.eq_C_of_natDegree_le_zero hP
    rw [hc, Polynomial.eval_C]
    exact C27_constant hq h hne (fun s hs => by rw [hx s hs, hc, Polynomial.eval_C, Polynomial.coeff_C_zero]) ht1
  by_cases hst : ∃ s ∈ w.samples, equals s.1 t
  · obtain ⟨s, hs, he⟩ := hst
    rw [← hnear s hs he, C24_read_stored h.reachable hs, hx s hs]
  push Not at hst
  rw [read_spline h (by omega) hst]
  have hdl : w.usedDegree < w.samples.length := by unfold usedDegree at hd ⊢; omega
  have hsol := (Bspline.solves_iff (hsp.sites (by omega)) (by omega) hdl).mp (solved hq hsp (by omega) hdl)
  have hpos := relative hsp (by omega)
  have hlast : w.maxStoredTime = (w.samples.getD (w.samples.length - 1) (0, 0)).1 := by
    unfold maxStoredTime
    rw [List.getLast?_eq_getElem?, List.getD_eq_getElem?_getD, List.getElem?_eq_getElem (by omega)]
    rfl
  have hfirst : f = w.samples.getD 0 (0, 0) := by
    rw [List.head?_eq_getElem?] at hf
    rw [List.getD_eq_getElem?_getD, hf]; rfl
  unfold Bspline.at' Bspline.build
  dsimp only
  rw [hlast] at ht1
  rw [hfirst] at ht0
  have hvals : ∀ i, i < w.samples.length → Bspline.vals w.samples i = P.eval (w.samples.getD i (0, 0)).1 := by
    intro i hi
    unfold Bspline.vals
    rw [getD_lt hi]
    exact hx _ (List.getElem_mem hi)
  have hrel : ∀ i, Bspline.rel w.samples i = ((w.samples.getD i (0, 0)).1 - (w.samples.getD 0 (0, 0)).1) /
      ((w.samples.getD (w.samples.length - 1) (0, 0)).1 - (w.samples.getD 0 (0, 0)).1) := fun i => rfl
  generalize (w.samples.getD (w.samples.length - 1) (0, 0)).1 = b at *
  generalize (w.samples.getD 0 (0, 0)).1 = a at *
  have hb : b - a ≠ 0 := by intro hx; linarith
  have h0 : 0 ≤ (t - a) / (b - a) := div_nonneg (by linarith) (by linarith)
  have h1 : (t - a) / (b - a) ≤ 1 := by rw [div_le_one (by linarith)]; linarith
  rw [min_eq_left h1, max_eq_right h0]
  have hdeg : (P.comp (Polynomial.C (b - a) * Polynomial.X + Polynomial.C a)).natDegree ≤ w.usedDegree := by
    rw [Polynomial.natDegree_comp, Polynomial.natDegree_linear hb, mul_one]
    exact hP
  rw [Bspline.eval_eq_poly (hsp.sites (by omega)) (by omega) hdl hdeg _ h0 h1]
  · rw [Polynomial.eval_comp]
    simp only [Polynomial.eval_add, Polynomial.eval_mul, Polynomial.eval_C, Polynomial.eval_X]
    rw [mul_div_cancel₀ _ hb, sub_add_cancel]
  · intro i hi
    rw [hsol i hi, Polynomial.eval_comp, hvals i hi, hrel i]
    simp only [Polynomial.eval_add, Polynomial.eval_mul, Polynomial.eval_C, Polynomial.eval_X]
    rw [mul_div_cancel₀ _ hb, sub_add_cancel]

/-- C111: with degree 1 or more, a read before the first stored time returns the first sample. -/
theorem C111_before {q : Bspline.Solver} (hq : q.Exact) {w : Waveform} (h : ReachableNoReset q w)
    (hd : 1 ≤ w.usedDegree) {f : ℚ × ℚ} (hf : w.samples.head? = some f) {t : ℚ} (ht : t + tol < f.1) :
    w.read q t = some f.2 := by
  have htol := tol_pos
  have hsp := h.reachable.spaced
  have hdl : w.usedDegree < w.samples.length := by unfold usedDegree at hd ⊢; omega
  have hsol := (Bspline.solves_iff (hsp.sites (by omega)) (by omega) hdl).mp (solved hq hsp (by omega) hdl)
  have hpos := relative hsp (by omega)
  have hfirst : f = w.samples.getD 0 (0, 0) := by
    rw [List.head?_eq_getElem?] at hf
    rw [List.getD_eq_getElem?_getD, hf]; rfl
  have hno : ∀ s ∈ w.samples, ¬ equals s.1 t := by
    intro s hs he
    rw [equals_iff] at he
    obtain ⟨k, hk, rfl⟩ := List.getElem_of_mem hs
    rw [getD_lt (by omega)] at hfirst
    rcases Nat.eq_zero_or_pos k with rfl | hk0
    · rw [← hfirst] at he; linarith [he.1, he.2]
    · have := C23_times_increasing h.reachable 0 k hk0 hk
      rw [← hfirst] at this
      linarith [he.1, he.2]
  rw [read_spline h hd hno]
  unfold Bspline.at' Bspline.build
  dsimp only
  have hneg : (t - (w.samples.getD 0 (0, 0)).1) /
      ((w.samples.getD (w.samples.length - 1) (0, 0)).1 - (w.samples.getD 0 (0, 0)).1) ≤ 0 :=
    div_nonpos_of_nonpos_of_nonneg (by rw [← hfirst]; linarith) (by linarith)
  rw [min_eq_left (by linarith), max_eq_left hneg]
  have := hsol 0 (by omega)
  rw [(hsp.sites (l := w.samples) (by omega)).zero] at this
  rw [this]
  unfold Bspline.vals
  rw [← hfirst]

/-- C111: with degree 1 or more, a read after the last stored time returns the last sample. -/
theorem C111_after {q : Bspline.Solver} (hq : q.Exact) {w : Waveform} (h : ReachableNoReset q w)
    (hd : 1 ≤ w.usedDegree) {f : ℚ × ℚ} (hf : w.samples.getLast? = some f) {t : ℚ} (ht : f.1 + tol < t) :
    w.read q t = some f.2 := by
  have htol := tol_pos
  have hsp := h.reachable.spaced
  have hdl : w.usedDegree < w.samples.length := by unfold usedDegree at hd ⊢; omega
  have hsol := (Bspline.solves_iff (hsp.sites (by omega)) (by omega) hdl).mp (solved hq hsp (by omega) hdl)
  have hpos := relative hsp (by omega)
  have hlast : f = w.samples.getD (w.samples.length - 1) (0, 0) := by
    rw [List.getLast?_eq_getElem?] at hf
    rw [List.getD_eq_getElem?_getD, hf]; rfl
  have hno : ∀ s ∈ w.samples, ¬ equals s.1 t := by
    intro s hs he
    rw [equals_iff] at he
    obtain ⟨k, hk, rfl⟩ := List.getElem_of_mem hs
    rw [getD_lt (by omega)] at hlast
    by_cases hk0 : k = w.samples.length - 1
    · subst hk0; rw [← hlast] at he; linarith [he.1, he.2]
    · have := C23_times_increasing h.reachable k (w.samples.length - 1) (by omega) (by omega)
      rw [← hlast] at this
      linarith [he.1, he.2]
  rw [read_spline h hd hno]
  unfold Bspline.at' Bspline.build
  dsimp only
  have hge : 1 ≤ (t - (w.samples.getD 0 (0, 0)).1) /
      ((w.samples.getD (w.samples.length - 1) (0, 0)).1 - (w.samples.getD 0 (0, 0)).1) := by
    rw [le_div_iff₀ (by linarith), ← hlast]; linarith
  rw [min_eq_right hge, max_eq_right (by norm_num)]
  have := hsol (w.samples.length - 1) (by omega)
  rw [(hsp.sites (l := w.samples) (by omega)).one] at this
  rw [this]
  unfold Bspline.vals
  rw [← hlast]

/-! ### Linearity -/

/-- index of the stored sample at a time, as `findStored` -/
def storedIndex (t : ℚ) : List ℚ → Option ℕ
  | [] => none
  | a :: l => if equals a t then some 0 else if greater a t then none else (storedIndex t l).map (· + 1)

theorem findStored_eq (t : ℚ) (l : List (ℚ × ℚ)) :
    findStored t l = (storedIndex t (l.map (·.1))).map fun k => (l.getD k (0, 0)).2 := by
  induction l with
  | nil => rfl
  | cons a l ih =>
    rw [findStored, List.map_cons, storedIndex]
    split
    · rfl
    · split
      · rfl
      · rw [ih, Option.map_map]; rfl

theorem storedIndex_lt {t : ℚ} {l : List ℚ} {k : ℕ} (h : storedIndex t l = some k) : k < l.length := by
  induction l generalizing k with
  | nil => cases h
  | cons a l ih =>
    rw [storedIndex] at h
    split at h
    · cases h; simp
    · split at h
      · cases h
      · rw [Option.map_eq_some_iff] at h
        obtain ⟨j, hj, rfl⟩ := h
        have := ih hj
        rw [List.length_cons]; omega

/-- index of the sample at or after a time, as `atOrAfter` -/
def afterIndex (t : ℚ) (l : List ℚ) : Option ℕ :=
  if l.length = 1 then some 0 else l.findIdx? fun a => decide (greaterEquals a t)

theorem atOrAfter_eq (t : ℚ) (w : Waveform) : w.atOrAfter t = (afterIndex t w.times).map w.value := by
  unfold atOrAfter afterIndex times value
  split
  · next s hs => rw [hs]; rfl
  · next hl =>
    rw [if_neg]
    · generalize w.samples = l
      clear hl
      induction l with
      | nil => rfl
      | cons a l ih =>
        rw [List.find?_cons, List.map_cons, List.findIdx?_cons]
        by_cases hg : decide (greaterEquals a.1 t) = true
        · rw [hg]; rfl
        · rw [Bool.eq_false_iff.mpr hg]
          simp only [Bool.false_eq_true, if_false]
          rw [ih, Option.map_map]; rfl
    · intro hlen
      rw [List.length_map, List.length_eq_one_iff] at hlen
      obtain ⟨a, ha⟩ := hlen
      exact hl a ha

theorem afterIndex_lt {t : ℚ} {l : List ℚ} {k : ℕ} (h : afterIndex t l = some k) : k < l.length := by
  unfold afterIndex at h
  split at h
  · cases h; omega
  · rw [List.findIdx?_eq_some_iff_getElem] at h
    exact h.1

/-- the value at `u` of the spline that is one at the `k`-th site and zero at the others -/
noncomputable def cardinal (ts : ℕ → ℚ) (n d k : ℕ) (u : ℚ) : ℚ :=
  open Classical in
  if h : ∃ c, Bspline.Solves ts n d (fun i => if i = k then 1 else 0) c then Bspline.eval (Bspline.knot ts n d) n d h.choose u
  else 0

/-- the weight of sample `k` for a read -/
noncomputable def weight (l : List ℚ) (degree : ℕ) (t : ℚ) (k : ℕ) : ℚ :=
  if min degree (l.length - 1) = 0 then (if afterIndex t l = some k then 1 else 0)
  else match storedIndex t l with
    | some j => if j = k then 1 else 0
    | none => cardinal (Bspline.rel (l.map fun a => (a, 0))) l.length (min degree (l.length - 1)) k
      (max 0 (min ((t - l.getD 0 0) / (l.getD (l.length - 1) 0 - l.getD 0 0)) 1))

theorem getD_fst (l : List (ℚ × ℚ)) (k : ℕ) : (l.map (·.1)).getD k 0 = (l.getD k (0, 0)).1 := by
  rw [List.getD_eq_getElem?_getD, List.getD_eq_getElem?_getD, List.getElem?_map]
  cases l[k]? <;> rfl

theorem rel_times (l : List (ℚ × ℚ)) : Bspline.rel ((l.map (·.1)).map fun a => (a, 0)) = Bspline.rel l := by
  have e : ∀ k, (((l.map (·.1)).map fun a => (a, (0 : ℚ))).getD k (0, 0)).1 = (l.getD k (0, 0)).1 := by
    intro k
    rw [List.getD_eq_getElem?_getD, List.getD_eq_getElem?_getD, List.getElem?_map, List.getElem?_map]
    cases l[k]? <;> rfl
  funext k
  unfold Bspline.rel
  rw [e, e, e, List.length_map, List.length_map]

theorem sum_pick (n k : ℕ) (hk : k < n) (v : ℕ → ℚ) : ∑ j ∈ range n, (if k = j then 1 else 0) * v j = v k := by
  rw [sum_eq_single k]
  · simp
  · intro b _ hb; simp [Ne.symm hb]
  · intro hn; exact absurd (mem_range.mpr hk) hn

/-- C111: every read is a combination of the stored values with weights that depend only on the
stored times, the degree and the time of the read. -/
theorem C111_weights {q : Bspline.Solver} (hq : q.Exact) {w : Waveform} (h : ReachableNoReset q w) {t y : ℚ}
    (hy : w.read q t = some y) : y = ∑ k ∈ range w.times.length, weight w.times w.degree t k * w.value k := by
  have hlen : w.times.length = w.samples.length := List.length_map _
  have hsp := h.reachable.spaced
  have hu : w.usedDegree = min w.degree (w.times.length - 1) := by rw [hlen]; rfl
  unfold weight
  rw [← hu]
  by_cases hd : w.usedDegree = 0
  · simp only [if_pos hd]
    unfold read sample at hy
    split at hy
    · cases hy
    rw [Option.map_map, atOrAfter_eq] at hy
    cases ha : afterIndex t w.times with
    | none => rw [ha] at hy; cases hy
    | some k =>
      rw [ha] at hy
      simp only [Option.map_some, Function.comp, Option.some.injEq] at hy ⊢
      rw [sum_pick _ k (afterIndex_lt ha), hy]
  simp only [if_neg hd]
  cases hs : storedIndex t w.times with
  | some k =>
    have hf := findStored_eq t w.samples
    rw [show List.map (fun x => x.1) w.samples = w.times from rfl, hs] at hf
    unfold read sample at hy
    split at hy
    · cases hy
    rw [hf] at hy
    simp only [Option.map_some, Option.some.injEq] at hy
    simp only
    rw [sum_pick _ k (storedIndex_lt hs), ← hy]; rfl
  | none =>
    have hno : ∀ s ∈ w.samples, ¬ equals s.1 t := by
      intro s hmem he
      have hf := findStored_eq t w.samples
      rw [show List.map (fun x => x.1) w.samples = w.times from rfl, hs, Option.map_none] at hf
      clear hs hd hu hy h hq
      unfold times at *
      clear hlen
      generalize w.samples = l at *
      induction l with
      | nil => cases hmem
      | cons a l ih =>
        unfold Spaced at hsp
        rw [List.pairwise_cons] at hsp
        rw [findStored] at hf
        split at hf
        · cases hf
        · next hna =>
          rw [List.mem_cons] at hmem
          rcases hmem with rfl | hmem
          · exact hna he
          · split at hf
            · next hg =>
              have := hsp.1 s hmem
              unfold greater at hg
              rw [equals_iff] at he
              have := tol_pos
              linarith [he.1, he.2]
            · exact ih hsp.2 hmem hf
    rw [read_spline h (by omega) hno] at hy
    simp only
    have hdl : w.usedDegree < w.samples.length := by unfold usedDegree at hd ⊢; omega
    have st := hsp.sites (l := w.samples) (by omega)
    rw [show w.times = w.samples.map (·.1) from rfl] at hlen ⊢
    rw [rel_times, hlen, getD_fst, getD_fst]
    unfold Bspline.at' Bspline.build at hy
    simp only [Option.some.injEq] at hy
    rw [← hy]
    have hcl := clamp_range ((t - (w.samples.getD 0 (0, 0)).1) /
      ((w.samples.getD (w.samples.length - 1) (0, 0)).1 - (w.samples.getD 0 (0, 0)).1))
    generalize max 0 (min ((t - (w.samples.getD 0 (0, 0)).1) /
      ((w.samples.getD (w.samples.length - 1) (0, 0)).1 - (w.samples.getD 0 (0, 0)).1)) 1) = u at *
    have hex := fun k => Bspline.solves_exists st (show 1 ≤ w.usedDegree by omega) hdl (fun i => if i = k then 1 else 0)
    have hcard : ∀ k, cardinal (Bspline.rel w.samples) w.samples.length w.usedDegree k u =
        Bspline.eval (Bspline.knot (Bspline.rel w.samples) w.samples.length w.usedDegree) w.samples.length w.usedDegree
          (hex k).choose u := fun k => by unfold cardinal; rw [dif_pos (hex k)]
    simp only [hcard]
    rw [show ∀ f : ℕ → ℚ, (∑ k ∈ range w.samples.length, f k * w.value k) = ∑ k ∈ range w.samples.length, w.value k * f k from
      fun f => sum_congr rfl fun k _ => mul_comm _ _, ← Bspline.eval_sum]
    refine Bspline.eval_congr st (by omega) hdl hcl.1 hcl.2 ?_
    refine Bspline.solves_unique st (by omega) hdl (solved hq hsp (by omega) hdl) ?_
    rw [Bspline.solves_iff st (by omega) hdl]
    intro i hi
    rw [Bspline.eval_sum, sum_congr rfl fun k _ => by
      rw [(Bspline.solves_iff st (by omega) hdl).mp (hex k).choose_spec i hi]]
    rw [show (fun k => w.value k * if i = k then (1 : ℚ) else 0) = fun k => (if i = k then 1 else 0) * w.value k from
      funext fun k => mul_comm _ _, sum_pick _ i hi]
    rfl

/-- C111: reading commutes with linear maps of the data. If the samples of `w` are a combination of
the samples of other waveforms with the same times and degree, e.g. because they were mapped sample by
sample, every read of `w` is the same combination of the reads of those. -/
theorem C111_linear {q : Bspline.Solver} (hq : q.Exact) {ι : Type} {s : Finset ι} {A : ι → ℚ} {v : ι → Waveform}
    {w : Waveform} (hw : ReachableNoReset q w) (hv : ∀ m ∈ s, ReachableNoReset q (v m))
    (hdeg : ∀ m ∈ s, (v m).degree = w.degree) (htimes : ∀ m ∈ s, (v m).times = w.times)
    (hval : ∀ k, k < w.times.length → w.value k = ∑ m ∈ s, A m * (v m).value k) {t y : ℚ} {r : ι → ℚ}
    (hy : w.read q t = some y) (hr : ∀ m ∈ s, (v m).read q t = some (r m)) : y = ∑ m ∈ s, A m * r m := by
  have e1 : ∀ m ∈ s, A m * r m = A m * ∑ k ∈ range w.times.length, weight w.times w.degree t k * (v m).value k := by
    intro m hm
    rw [C111_weights hq (hv m hm) (hr m hm), hdeg m hm, htimes m hm]
  rw [C111_weights hq hw hy, sum_congr rfl e1, sum_congr rfl fun k hk => by rw [hval k (mem_range.mp hk)]]
  simp only [mul_sum]
  rw [sum_comm]
  exact sum_congr rfl fun m _ => sum_congr rfl fun k _ => by ring

/-! ### Examples -/

/-- a waveform of degree 2 with four samples of `t ^ 2` on a non-uniform grid -/
def squares : Waveform := ⟨[(0, 0), (1, 1), (3, 9), (4, 16)], 2, none⟩

theorem squares_reachable (q : Bspline.Solver) : ReachableNoReset q squares := by
  refine ⟨2, [.setSample 0 0, .setSample 1 1, .setSample 3 9, .setSample 4 16], by simp [Op.InPlace], ?_⟩
  with_unfolding_all rfl

/-- C111_polynomial on it -/
example {q : Bspline.Solver} (hq : q.Exact) : squares.read q 2 = some 4 := by
  have := C111_polynomial hq (squares_reachable q) (P := Polynomial.X ^ 2) (t := 2) (f := (0, 0))
    (by rw [Polynomial.natDegree_X_pow]; decide) (by simp [squares]; norm_num) rfl (by norm_num)
    (by simp [squares, maxStoredTime]; norm_num) (by
      intro s hs he
      exfalso
      simp only [squares, List.mem_cons, List.not_mem_nil, or_false] at hs
      rcases hs with rfl | rfl | rfl | rfl <;> revert he <;> decide +kernel)
  rw [this]
  norm_num

/-- C27, C24, C111_before and C111_after on waveforms of degree 2 -/
example {q : Bspline.Solver} (hq : q.Exact) : (Bspline.build q squares.samples 2).at' 3 = 9 ∧
    squares.read q (-1) = some 0 ∧ squares.read q 5 = some 16 := by
  refine ⟨?_, ?_, ?_⟩
  · exact C24_interpolant hq (squares_reachable q).reachable (s := (3, 9)) (by decide) (by simp [squares])
  · exact C111_before hq (squares_reachable q) (by decide) (f := (0, 0)) rfl (by decide +kernel)
  · exact C111_after hq (squares_reachable q) (by decide) (f := (4, 16)) rfl (by decide +kernel)

/-- a second waveform with the same times, and the difference of both -/
def ones : Waveform := ⟨[(0, 1), (1, 1), (3, 1), (4, 1)], 2, none⟩

def difference : Waveform := ⟨[(0, -2), (1, -1), (3, 7), (4, 14)], 2, none⟩

theorem ones_reachable (q : Bspline.Solver) : ReachableNoReset q ones := by
  refine ⟨2, [.setSample 0 1, .setSample 1 1, .setSample 3 1, .setSample 4 1], by simp [Op.InPlace], ?_⟩
  with_unfolding_all rfl

theorem difference_reachable (q : Bspline.Solver) : ReachableNoReset q difference := by
  refine ⟨2, [.setSample 0 (-2), .setSample 1 (-1), .setSample 3 7, .setSample 4 14], by simp [Op.InPlace], ?_⟩
  with_unfolding_all rfl

/-- C27_constant for degree 2 -/
example {q : Bspline.Solver} (hq : q.Exact) : ones.read q 2 = some 1 :=
  C27_constant hq (ones_reachable q) (by simp [ones]) (by simp [ones]) (by simp [ones, maxStoredTime]; norm_num)

/-- C111_linear on them -/
example {q : Bspline.Solver} (hq : q.Exact) {t a b y : ℚ} (ha : squares.read q t = some a) (hb : ones.read q t = some b)
    (hy : difference.read q t = some y) : y = a - 2 * b := by
  have := C111_linear hq (s := range 2) (A := fun m => if m = 0 then 1 else -2) (v := fun m => if m = 0 then squares else ones)
    (r := fun m => if m = 0 then a else b) (difference_reachable q)
    (by intro m _; split; exacts [squares_reachable q, ones_reachable q])
    (by intro m _; split <;> rfl) (by intro m _; split <;> rfl)
    (by
      intro k hk
      have : k < 4 := hk
      rw [sum_range_succ, sum_range_one]
      have hcases : k = 0 ∨ k = 1 ∨ k = 2 ∨ k = 3 := by omega
      rcases hcases with rfl | rfl | rfl | rfl <;> simp [value, squares, ones, difference] <;> norm_num)
    hy (by intro m _; split <;> assumption)
  rw [this, sum_range_succ, sum_range_one]
  simp
  ring

end Verif.Waveform
