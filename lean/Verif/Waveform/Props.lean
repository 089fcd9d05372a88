import Verif.Waveform.StoreLemmas
import Verif.Waveform.Interpolation

/-!
# Properties C23 - C30: sample storage and time interpolation
-/

set_option autoImplicit false

namespace Verif.Waveform

/-! ### Specification -/

/-- Reached from an empty storage by any operations that respect the assertions. -/
def Reachable (q : Bspline.Solver) (w : Waveform) : Prop :=
  ∃ d ops, applyAll q (empty d) ops = some w

/-- Same, but without operations that change values in place (`setAllSamples` and changes through `stamples()`). -/
def ReachableNoReset (q : Bspline.Solver) (w : Waveform) : Prop :=
  ∃ d ops, (∀ op ∈ ops, ¬ op.InPlace) ∧ applyAll q (empty d) ops = some w

theorem ReachableNoReset.reachable {q : Bspline.Solver} {w : Waveform} (h : ReachableNoReset q w) :
    Reachable q w := let ⟨d, ops, _, h⟩ := h; ⟨d, ops, h⟩

theorem Reachable.spaced {q : Bspline.Solver} {w : Waveform} (h : Reachable q w) : Spaced w.samples := by
  obtain ⟨d, ops, h⟩ := h
  exact applyAll_spaced (w := empty d) List.Pairwise.nil h

/-! ### C23 -/

/-- C23: stored times are always strictly increasing, by more than the tolerance. -/
theorem C23_times_increasing {q : Bspline.Solver} {w : Waveform} (h : Reachable q w)
    (i j : ℕ) (hij : i < j) (hj : j < w.samples.length) :
    w.samples[i].1 + tol < w.samples[j].1 := by
  have := h.spaced
  unfold Spaced at this
  rw [List.pairwise_iff_getElem] at this
  exact this i j (by omega) hj hij

/-- C23: writing at a stored time replaces the value of that sample and changes nothing else;
writing after the last stored time appends; every other write violates an assertion. -/
theorem C23_write {q : Bspline.Solver} {w : Waveform} (h : Reachable q w) (t v : ℚ) :
    ((∃ s ∈ w.samples, equals s.1 t ∧ ∀ a ∈ w.samples, equals a.1 t → a = s) →
      (w.setSample t v).map (·.samples) =
        some (w.samples.map fun s => if equals s.1 t then (s.1, v) else s)) ∧
    ((∀ s ∈ w.samples, s.1 + tol < t) → (w.setSample t v).map (·.samples) = some (w.samples ++ [(t, v)])) ∧
    (¬ (∃ s ∈ w.samples, equals s.1 t) → ¬ (∀ s ∈ w.samples, s.1 + tol < t) → w.setSample t v = none) := by
  have hs := h.spaced
  have htol := tol_pos
  refine ⟨?_, ?_, ?_⟩
  · rintro ⟨s, hmem, heq, huniq⟩
    have how : overwrite t v w.samples = w.samples.map fun s => if equals s.1 t then (s.1, v) else s := by
      have hu : ∀ a ∈ w.samples, ∀ b ∈ w.samples, equals a.1 t → equals b.1 t → a = b :=
        fun a ha b hb h1 h2 => (huniq a ha h1).trans (huniq b hb h2).symm
      clear huniq hmem heq h
      generalize w.samples = l at *
      induction l with
      | nil => rfl
      | cons a l ih =>
        unfold Spaced at hs
        rw [List.pairwise_cons] at hs
        unfold overwrite
        rw [List.map_cons]
        split
        · next ha =>
          congr 1
          symm
          rw [List.map_congr_left (g := id), List.map_id]
          intro b hb
          by_cases hbt : equals b.1 t
          · have := hu a List.mem_cons_self b (List.mem_cons_of_mem _ hb) ha hbt
            have h1 := hs.1 b hb
            rw [this] at h1; linarith
          · simp [hbt]
        · rw [ih hs.2 fun a ha b hb => hu a (List.mem_cons_of_mem _ ha) b (List.mem_cons_of_mem _ hb)]
    unfold setSample
    cases hw : w.samples with
    | nil => rw [hw] at hmem; simp at hmem
    | cons f l =>
      have h1 : smallerEquals f.1 t := by
        rw [hw] at hs hmem
        unfold Spaced at hs
        rw [List.pairwise_cons] at hs
        rw [equals_iff] at heq
        unfold smallerEquals
        rcases List.mem_cons.mp hmem with rfl | hm
        · linarith [heq.1, heq.2]
        · have := hs.1 s hm; linarith [heq.1, heq.2]
      rw [hw] at how
      dsimp only
      rw [if_pos h1, if_pos (by
        rw [List.any_eq_true]; exact ⟨s, hw ▸ hmem, by simpa using heq⟩)]
      rw [Option.map_some, ← how]
  · intro hall
    unfold setSample
    cases hw : w.samples with
    | nil => simp
    | cons f l =>
      have h1 : smallerEquals f.1 t := by
        have := hall f (by simp [hw])
        unfold smallerEquals; linarith
      dsimp only
      rw [if_pos h1, if_neg (by
        rw [List.any_eq_true]
        rintro ⟨a, ha, hx⟩
        have hx' : equals a.1 t := by simpa using hx
        rw [equals_iff] at hx'
        have := hall a (hw ▸ ha)
        linarith [hx'.1]), if_pos (by
        unfold maxStoredTime smaller
        rw [hw]
        cases hg : (f :: l).getLast? with
        | none => simp at hg
        | some a =>
          have := hall a (by rw [hw]; exact List.mem_of_getLast? hg)
          dsimp only
          linarith)]
      rfl
  · intro hno hnl
    by_contra hne
    obtain ⟨w', hw'⟩ := Option.ne_none_iff_exists'.mp hne
    obtain ⟨_, _, ⟨hex, _⟩ | ⟨_, e, hl⟩⟩ := setSample_cases hw'
    · exact hno hex
    · apply hnl
      have hsp := hs.snoc (v := v) hl
      unfold Spaced at hsp
      rw [List.pairwise_append] at hsp
      intro s hsm
      exact hsp.2.2 s hsm (t, v) (by simp)

/-- C23: writing at a stored time replaces the value of that sample and nothing else. -/
theorem C23_overwrite {q : Bspline.Solver} {w : Waveform} (h : Reachable q w) {s : ℚ × ℚ}
    (hs : s ∈ w.samples) (v : ℚ) :
    ∃ w', w.setSample s.1 v = some w' ∧ w'.samples.length = w.samples.length ∧
      ∀ a, a ∈ w'.samples ↔ a = (s.1, v) ∨ (a ∈ w.samples ∧ a ≠ s) := by
  have hsp := h.spaced
  have key := (C23_write h s.1 v).1 ⟨s, hs, equals_refl _, fun a ha e => hsp.eq_of_near ha hs e⟩
  obtain ⟨w', hw', e⟩ := Option.map_eq_some_iff.mp key
  refine ⟨w', hw', by rw [e, List.length_map], fun a => ?_⟩
  rw [e, List.mem_map]
  constructor
  · rintro ⟨b, hb, rfl⟩
    by_cases hbs : equals b.1 s.1
    · rw [hsp.eq_of_near hb hs hbs, if_pos (equals_refl _)]; exact Or.inl rfl
    · rw [if_neg hbs]; exact Or.inr ⟨hb, fun hx => hbs (hx ▸ equals_refl _)⟩
  · rintro (rfl | ⟨ha, hne⟩)
    · exact ⟨s, hs, if_pos (equals_refl _)⟩
    · exact ⟨a, ha, if_neg fun hx => hne (hsp.eq_of_near ha hs hx)⟩

/-! ### C24 -/

/-- C24: reading at a stored time returns the stored sample, for every degree, solver and cache. -/
theorem C24_read_stored {q q' : Bspline.Solver} {w : Waveform} (h : Reachable q w) {s : ℚ × ℚ}
    (hs : s ∈ w.samples) : w.read q' s.1 = some s.2 := by
  have htol := tol_pos
  have hsp := h.spaced
  have hne : w.samples ≠ [] := fun hx => by rw [hx] at hs; simp at hs
  unfold read sample
  rw [if_neg hne]
  split
  · have : w.atOrAfter s.1 = some s.2 := by
      unfold atOrAfter
      split
      · next a ha => rw [ha, List.mem_singleton] at hs; rw [hs]
      · rw [find_of_mem hsp hs (by linarith) fun a _ h => h]; rfl
    rw [this]; rfl
  · rw [findStored_of_mem hsp hs]; rfl

/-! ### C25 -/

/-- C25: with degree 0 and several samples, a read inside a step returns the sample at its end. -/
theorem C25_degree_zero {q q' : Bspline.Solver} {w : Waveform} (h : Reachable q w) (hd : w.degree = 0)
    {k : ℕ} (hk : k + 1 < w.samples.length) {t : ℚ} (h1 : w.samples[k].1 + tol < t)
    (h2 : t ≤ w.samples[k + 1].1) : w.read q' t = some w.samples[k + 1].2 := by
  have htol := tol_pos
  have hsp := h.spaced
  have hne : w.samples ≠ [] := fun hx => by rw [hx] at hk; simp at hk
  have hu : w.usedDegree = 0 := by unfold usedDegree; omega
  unfold read sample
  rw [if_neg hne, if_pos hu]
  have : w.atOrAfter t = some w.samples[k + 1].2 := by
    unfold atOrAfter
    split
    · next a ha =>
      have hl := congrArg List.length ha
      simp at hl; omega
    · rw [find_of_mem hsp (List.getElem_mem hk) (by linarith)]
      · rfl
      · intro a ha hlt
        obtain ⟨i, hi, rfl⟩ := List.getElem_of_mem ha
        have hik : i ≤ k := by
          by_contra hx
          rcases Nat.lt_or_ge (k + 1) i with h3 | h3
          · have := C23_times_increasing h (k + 1) i h3 hi; linarith
          · have h4 : i = k + 1 := by omega
            subst h4; linarith
        rcases hik.eq_or_lt with rfl | hik
        · exact h1
        · have := C23_times_increasing h i k hik (by omega); linarith
  rw [this]; rfl

/-- C25: a single sample is returned for every time, whatever the degree. -/
theorem C25_single_sample {q' : Bspline.Solver} {w : Waveform} {s : ℚ × ℚ} (hs : w.samples = [s])
    (t : ℚ) : w.read q' t = some s.2 := by
  have hu : w.usedDegree = 0 := by unfold usedDegree; rw [hs]; simp
  unfold read sample
  rw [if_neg (by rw [hs]; simp), if_pos hu]
  unfold atOrAfter
  rw [hs]; rfl

/-! ### C30 -/

/-- The cached spline is the one of the current samples. -/
def Coherent (q : Bspline.Solver) (w : Waveform) : Prop :=
  ∀ b, w.cache = some b → b = Bspline.build q w.samples w.usedDegree

theorem coherent_none {q : Bspline.Solver} {w : Waveform} (h : w.cache = none) : Coherent q w := by
  intro b hb; rw [h] at hb; cases hb

theorem sample_coherent {q : Bspline.Solver} {t : ℚ} {w : Waveform} (hw : Coherent q w)
    {r : ℚ × Waveform} (h : w.sample q t = some r) : Coherent q r.2 := by
  unfold sample at h
  split at h
  · cases h
  · split at h
    · rw [Option.map_eq_some_iff] at h
      obtain ⟨v, _, rfl⟩ := h
      exact hw
    · split at h
      · cases h; exact hw
      · cases h
        intro b hb
        simp only [Option.some.injEq] at hb
        subst hb
        cases hc : w.cache with
        | none => rfl
        | some b => exact hw b hc

theorem apply_coherent {q : Bspline.Solver} {w w' : Waveform} {op : Op} (hw : Coherent q w)
    (hop : ¬ op.InPlace) (h : apply q w op = some w') : Coherent q w' := by
  cases op with
  | setSample t v => exact coherent_none (setSample_cases h).2.1
  | setAll v => exact absurd trivial hop
  | modify f => exact absurd trivial hop
  | setDegree d => cases h; exact coherent_none rfl
  | move =>
    simp only [apply, move] at h
    split at h
    · cases h; exact coherent_none rfl
    · cases h
  | trim =>
    simp only [apply, trim] at h
    split at h
    · cases h
    · cases h; exact coherent_none rfl
  | clear => cases h; exact coherent_none rfl
  | clearExceptLast =>
    simp only [apply, clearExceptLast] at h
    split at h
    · cases h; exact hw
    · cases h; exact coherent_none rfl
  | trimBefore t => cases h; exact coherent_none rfl
  | trimAfter t => cases h; exact coherent_none rfl
  | assign o =>
    refine coherent_none ?_
    have : assign o w = some w' := h
    unfold assign at this
    exact foldlM_inv (P := fun w => w.cache = none) (fun b a b' _ hab => (setSample_cases hab).2.1) rfl this
  | sample t =>
    simp only [apply, Option.map_eq_some_iff] at h
    obtain ⟨r, hr, rfl⟩ := h
    exact sample_coherent hw hr

theorem ReachableNoReset.coherent {q : Bspline.Solver} {w : Waveform} (h : ReachableNoReset q w) :
    Coherent q w := by
  obtain ⟨d, ops, hno, h⟩ := h
  have : ∀ (ops : List Op) (w₀ : Waveform), Coherent q w₀ → (∀ op ∈ ops, ¬ op.InPlace) →
      applyAll q w₀ ops = some w → Coherent q w := by
    intro ops
    induction ops with
    | nil => intro w₀ h0 _ h; simp only [applyAll, List.foldlM_nil] at h; cases h; exact h0
    | cons op ops ih =>
      intro w₀ h0 hno h
      unfold applyAll at h
      rw [List.foldlM_cons, Option.bind_eq_bind, Option.bind_eq_some_iff] at h
      obtain ⟨w1, h1, h2⟩ := h
      exact ih w1 (apply_coherent h0 (hno op (by simp)) h1) (fun v hv => hno v (by simp [hv])) h2
  exact this ops _ (coherent_none rfl) hno h

/-- C30 (missing: histories with changes in place, see `C30_setAll_stale` and `C30_inPlace_stale`): reads depend on the current samples and degree only: two waveforms with equal samples and
degree give equal reads, whatever was read and stored before. -/
theorem C30_reads_from_current_samples_partial {q : Bspline.Solver} {w₁ w₂ : Waveform}
    (h1 : ReachableNoReset q w₁) (h2 : ReachableNoReset q w₂) (hs : w₁.samples = w₂.samples)
    (hd : w₁.degree = w₂.degree) (t : ℚ) : w₁.read q t = w₂.read q t := by
  have hu : w₁.usedDegree = w₂.usedDegree := by unfold usedDegree; rw [hs, hd]
  have key : ∀ w, ReachableNoReset q w →
      w.cache.getD (Bspline.build q w.samples w.usedDegree) = Bspline.build q w.samples w.usedDegree := by
    intro w hw
    cases hc : w.cache with
    | none => rfl
    | some b => exact hw.coherent b hc
  unfold read sample
  rw [key _ h1, key _ h2]
  unfold atOrAfter
  rw [hs, hu]
  split
  · rfl
  · split
    · rw [Option.map_map, Option.map_map]; rfl
    · split <;> rfl

/-! ### C26 -/

theorem getD_lt {l : List (ℚ × ℚ)} {k : ℕ} (hk : k < l.length) : l.getD k (0, 0) = l[k] := by
  rw [List.getD_eq_getElem?_getD, List.getElem?_eq_getElem hk]; rfl

/-- value of the degree-1 spline at a relative time -/
theorem read_spline {q : Bspline.Solver} {w : Waveform} (h : ReachableNoReset q w) {t : ℚ}
    (hd : 1 ≤ w.usedDegree) (hno : ∀ s ∈ w.samples, ¬ equals s.1 t) :
    w.read q t = some ((Bspline.build q w.samples w.usedDegree).at' t) := by
  have hne : w.samples ≠ [] := fun hx => by unfold usedDegree at hd; rw [hx] at hd; simp at hd
  unfold read sample
  rw [if_neg hne, if_neg (by omega), findStored_none hno]
  have : w.cache.getD (Bspline.build q w.samples w.usedDegree) = Bspline.build q w.samples w.usedDegree := by
    cases hc : w.cache with
    | none => rfl
    | some b => exact h.coherent b hc
  dsimp only
  rw [this]; rfl

/-- C26: with degree 1 (or with two samples and any higher degree) a read between two stored times
is the linear interpolation of the neighbouring samples. -/
theorem C26_linear {q : Bspline.Solver} (hq : q.Exact) {w : Waveform} (h : ReachableNoReset q w)
    (hd : w.usedDegree = 1) {k : ℕ} (hk : k + 1 < w.samples.length) {t : ℚ}
    (h1 : w.samples[k].1 + tol < t) (h2 : t + tol < w.samples[k + 1].1) :
    w.read q t = some ((w.samples[k].2 * (w.samples[k + 1].1 - t) + w.samples[k + 1].2 * (t - w.samples[k].1)) /
      (w.samples[k + 1].1 - w.samples[k].1)) := by
  have htol := tol_pos
  have hsp := h.reachable.spaced
  have st := hsp.sites (by omega)
  rw [read_spline h (by omega) (hsp.between hk h1 h2)]
  have hc := (Bspline.solves_one st).mp (hq _ _ 1 (Bspline.vals w.samples)
    ⟨Bspline.vals w.samples, (Bspline.solves_one st).mpr fun _ _ => rfl⟩)
  have hkk := C23_times_increasing h.reachable k (k + 1) (by omega) hk
  have hL : w.samples.length - 1 < w.samples.length := by omega
  have h0L := C23_times_increasing h.reachable 0 (w.samples.length - 1) (by omega) (by omega)
  have hpos : 0 < (w.samples.getD (w.samples.length - 1) (0, 0)).1 - (w.samples.getD 0 (0, 0)).1 := by
    rw [getD_lt hL, getD_lt (by omega)]; linarith
  have r1 : Bspline.rel w.samples k ≤ (t - (w.samples.getD 0 (0, 0)).1) /
      ((w.samples.getD (w.samples.length - 1) (0, 0)).1 - (w.samples.getD 0 (0, 0)).1) := by
    unfold Bspline.rel
    apply div_le_div_of_nonneg_right _ hpos.le
    rw [getD_lt (k := k) (by omega)]; linarith
  have r2 : (t - (w.samples.getD 0 (0, 0)).1) /
      ((w.samples.getD (w.samples.length - 1) (0, 0)).1 - (w.samples.getD 0 (0, 0)).1) ≤
      Bspline.rel w.samples (k + 1) := by
    unfold Bspline.rel
    apply div_le_div_of_nonneg_right _ hpos.le
    rw [getD_lt (k := k + 1) hk]; linarith
  have hr0 : 0 ≤ Bspline.rel w.samples k := by rw [← st.zero]; exact st.le (by omega) (by omega)
  have hr1 : Bspline.rel w.samples (k + 1) ≤ 1 := by
    have h := st.le (i := k + 1) (j := w.samples.length - 1) (by omega) (by omega)
    rwa [st.one] at h
  have hclamp : max 0 (min ((t - (w.samples.getD 0 (0, 0)).1) /
      ((w.samples.getD (w.samples.length - 1) (0, 0)).1 - (w.samples.getD 0 (0, 0)).1)) 1) =
      (t - (w.samples.getD 0 (0, 0)).1) /
      ((w.samples.getD (w.samples.length - 1) (0, 0)).1 - (w.samples.getD 0 (0, 0)).1) := by
    rw [min_eq_left (r2.trans hr1), max_eq_right (hr0.trans r1)]
  unfold Bspline.at' Bspline.build
  rw [hd]
  dsimp only
  rw [hclamp, Bspline.eval_linear st hk r1 r2, hc k (by omega), hc (k + 1) hk]
  unfold Bspline.vals Bspline.rel
  rw [getD_lt (k := k) (by omega), getD_lt (k := k + 1) hk]
  generalize (w.samples.getD (w.samples.length - 1) (0, 0)).1 = b at *
  generalize (w.samples.getD 0 (0, 0)).1 = a at *
  have hne1 : w.samples[k + 1].1 - w.samples[k].1 ≠ 0 := by intro hx; linarith
  have hne2 : (w.samples[k + 1].1 - a) / (b - a) - (w.samples[k].1 - a) / (b - a) ≠ 0 := by
    rw [← sub_div, sub_sub_sub_cancel_right]
    exact (div_pos (by linarith) hpos).ne'
  congr 1
  rw [← sub_div, sub_sub_sub_cancel_right, ← sub_div, sub_sub_sub_cancel_right, ← sub_div,
    sub_sub_sub_cancel_right]
  have hb : b - a ≠ 0 := hpos.ne'
  field_simp

/-! ### C27 -/

theorem clamp_range (x : ℚ) : 0 ≤ max 0 (min x 1) ∧ max 0 (min x 1) ≤ 1 :=
  ⟨le_max_left _ _, max_le (by norm_num) (min_le_right _ _)⟩

/-- The collocation system of the stored times has at most one solution. -/
def Regular (l : List (ℚ × ℚ)) (d : ℕ) : Prop :=
  ∀ xs c c', Bspline.Solves (Bspline.rel l) l.length d xs c → Bspline.Solves (Bspline.rel l) l.length d xs c' →
    ∀ k, k < l.length → c k = c' k

/-- C27 under the hypothesis that the interpolation problem has at most one solution. -/
theorem const_of_regular {q : Bspline.Solver} (hq : q.Exact) {w : Waveform} (h : ReachableNoReset q w)
    (hreg : 1 ≤ w.usedDegree → Regular w.samples w.usedDegree) (hne : w.samples ≠ []) {x : ℚ}
    (hx : ∀ s ∈ w.samples, s.2 = x) {t : ℚ} (ht : t ≤ w.maxStoredTime) : w.read q t = some x := by
  have htol := tol_pos
  have hsp := h.reachable.spaced
  by_cases hd : w.usedDegree = 0
  · -- degree 0
    unfold read sample
    rw [if_neg hne, if_pos hd]
    have hlast : ∃ s ∈ w.samples, t ≤ s.1 := by
      unfold maxStoredTime at ht
      cases hg : w.samples.getLast? with
      | none => rw [List.getLast?_eq_none_iff] at hg; exact absurd hg hne
      | some s => rw [hg] at ht; exact ⟨s, List.mem_of_getLast? hg, ht⟩
    have : w.atOrAfter t = some x := by
      unfold atOrAfter
      split
      · next a ha => rw [hx a (by rw [ha]; simp)]
      · obtain ⟨s, hs, hts⟩ := hlast
        cases hf : w.samples.find? (fun s => decide (greaterEquals s.1 t)) with
        | none =>
          rw [List.find?_eq_none] at hf
          exact absurd (hf s hs) (by
            have : greaterEquals s.1 t := by unfold greaterEquals; linarith
            simp [this])
        | some a => rw [Option.map_some, hx a (List.mem_of_find?_eq_some hf)]
    rw [this]; rfl
  · by_cases hstored : ∃ s ∈ w.samples, equals s.1 t
    · -- near a stored time: some stored value
      unfold read sample
      rw [if_neg hne, if_neg hd]
      cases hf : findStored t w.samples with
      | some v =>
        have : ∃ s ∈ w.samples, s.2 = v := by
          clear hx hstored hsp hd hne hreg h ht
          generalize w.samples = l at hf ⊢
          induction l with
          | nil => simp [findStored] at hf
          | cons a l ih =>
            unfold findStored at hf
            split at hf
            · cases hf; exact ⟨a, by simp, rfl⟩
            · split at hf
              · cases hf
              · obtain ⟨s, hs, e⟩ := ih hf; exact ⟨s, by simp [hs], e⟩
        obtain ⟨s, hs, rfl⟩ := this
        simp [hx s hs]
      | none =>
        exfalso
        obtain ⟨s, hs, heq⟩ := hstored
        clear hx hd hne hreg h ht
        generalize w.samples = l at hf hs hsp
        induction l with
        | nil => simp at hs
        | cons a l ih =>
          unfold Spaced at hsp
          rw [List.pairwise_cons] at hsp
          unfold findStored at hf
          split at hf
          · cases hf
          · next hna =>
            rw [List.mem_cons] at hs
            rcases hs with rfl | hs
            · exact hna heq
            · split at hf
              · next hg =>
                have := hsp.1 s hs
                unfold greater at hg
                rw [equals_iff] at heq
                linarith [heq.1, heq.2]
              · exact ih hf hs hsp.2
    · push Not at hstored
      rw [read_spline h (by omega) hstored]
      have hlen : 2 ≤ w.samples.length := by unfold usedDegree at hd; omega
      have hdn : w.usedDegree < w.samples.length := by unfold usedDegree; omega
      have st := hsp.sites hlen
      have hsol : Bspline.Solves (Bspline.rel w.samples) w.samples.length w.usedDegree
          (Bspline.vals w.samples) (fun _ => x) := by
        have hv : ∀ k, k < w.samples.length → Bspline.vals w.samples k = x := by
          intro k hk; unfold Bspline.vals; rw [getD_lt hk]; exact hx _ (List.getElem_mem hk)
        refine ⟨(hv 0 (by omega)).symm, (hv _ (by omega)).symm, fun i hi hin => ?_⟩
        rw [hv i (by omega)]
        have hl := st.le (i := 0) (j := i) (by omega) (by omega)
        have hr := st.le (i := i) (j := w.samples.length - 1) (by omega) (by omega)
        rw [st.zero] at hl; rw [st.one] at hr
        exact Bspline.eval_const st (by omega) hdn hl hr fun _ _ => rfl
      have hc := hreg (by omega) _ _ _ (hq _ _ _ _ ⟨_, hsol⟩) hsol
      unfold Bspline.at' Bspline.build
      dsimp only
      rw [Bspline.eval_const st (by omega) hdn (clamp_range _).1 (clamp_range _).2 hc]

theorem regular {l : List (ℚ × ℚ)} (h : Spaced l) {d : ℕ} (hd : 1 ≤ d) (hdl : d < l.length) : Regular l d :=
  fun _ _ _ h1 h2 => Bspline.solves_unique (h.sites (by omega)) hd hdl h1 h2

/-- C27: if all samples carry the same value, every read until the last stored time returns it, for
every degree and every time grid. -/
theorem C27_constant {q : Bspline.Solver} (hq : q.Exact) {w : Waveform}
    (h : ReachableNoReset q w) (hne : w.samples ≠ []) {x : ℚ}
    (hx : ∀ s ∈ w.samples, s.2 = x) {t : ℚ} (ht : t ≤ w.maxStoredTime) : w.read q t = some x :=
  const_of_regular hq h (fun hu => regular h.reachable.spaced hu (by unfold usedDegree at hu ⊢; omega)) hne hx ht

/-! ### C28, C29 -/

/-- C28: after the window is completed (`move`), every read until new samples arrive returns the
value that was read at the end of the completed window. -/
theorem C28_continuous {q q' : Bspline.Solver} {w w' : Waveform} (h : Reachable q w)
    (hm : w.move = some w') :
    ∃ s, w.maxStoredTime = s.1 ∧ w.read q' s.1 = some s.2 ∧ w'.samples = [s] ∧
      ∀ t, w'.read q' t = some s.2 := by
  unfold move at hm
  split at hm
  · next hlen =>
    cases hm
    obtain ⟨l, s, hl⟩ : ∃ l s, w.samples = l ++ [s] := by
      rcases List.eq_nil_or_concat w.samples with he | ⟨l, s, he⟩
      · rw [he] at hlen; simp at hlen
      · exact ⟨l, s, by rw [he, List.concat_eq_append]⟩
    have hs : ({ w with samples := w.samples.drop (w.samples.length - 1), cache := none } : Waveform).samples = [s] := by
      simp [hl]
    refine ⟨s, by simp [maxStoredTime, hl], C24_read_stored h (by simp [hl]), hs, ?_⟩
    exact fun t => C25_single_sample hs t
  · cases hm

/-- Storing samples after the window start keeps the sample at the start. -/
theorem start_kept {q : Bspline.Solver} {w w' : Waveform} {s : ℚ × ℚ}
    (hs : w.samples.head? = some s) {news : List (ℚ × ℚ)} (hn : ∀ n ∈ news, s.1 + tol < n.1)
    (hw : applyAll q w (news.map fun n => .setSample n.1 n.2) = some w') :
    w'.samples.head? = some s := by
  have htol := tol_pos
  induction news generalizing w with
  | nil => simp only [applyAll, List.map_nil, List.foldlM_nil] at hw; cases hw; exact hs
  | cons n news ih =>
    simp only [applyAll, List.map_cons, List.foldlM_cons, Option.bind_eq_bind, Option.bind_eq_some_iff] at hw
    obtain ⟨w1, h1, h2⟩ := hw
    simp only [List.mem_cons, forall_eq_or_imp] at hn
    refine ih ?_ hn.2 h2
    have h1' : w.setSample n.1 n.2 = some w1 := h1
    cases hw : w.samples with
    | nil => rw [hw] at hs; simp at hs
    | cons a l =>
      rw [hw] at hs
      simp only [List.head?_cons, Option.some.injEq] at hs
      subst hs
      obtain ⟨_, _, ⟨_, e⟩ | ⟨_, e, _⟩⟩ := setSample_cases h1'
      · rw [e, hw]
        unfold overwrite
        rw [if_neg (by rw [equals_iff]; rintro ⟨h3, _⟩; linarith [hn.1])]
        rfl
      · rw [e, hw]; rfl

/-- C28: the value at the start of the new window stays available while the data of the new window
is stored. -/
theorem C28_start_of_next_window {q q' : Bspline.Solver} {w w' w'' : Waveform} (h : Reachable q w)
    (hm : w.move = some w') {news : List (ℚ × ℚ)} (hn : ∀ n ∈ news, w.maxStoredTime + tol < n.1)
    (hw : applyAll q w' (news.map fun n => .setSample n.1 n.2) = some w'') :
    w''.read q' w.maxStoredTime = w.read q' w.maxStoredTime := by
  obtain ⟨s, h1, h2, h3, _⟩ := C28_continuous (q' := q') h hm
  rw [h1, h2]
  rw [h1] at hn
  have hs := start_kept (q := q) (by rw [h3]; rfl) hn hw
  have hr : Reachable q w'' := by
    obtain ⟨d, ops, hops⟩ := h
    refine ⟨d, ops ++ .move :: news.map fun n => .setSample n.1 n.2, ?_⟩
    unfold applyAll at hops hw ⊢
    rw [List.foldlM_append, hops, Option.bind_eq_bind, Option.bind_some, List.foldlM_cons,
      Option.bind_eq_bind, show apply q w .move = some w' from hm, Option.bind_some, hw]
  exact C24_read_stored hr (List.mem_of_head? hs)

/-- C29: received data: whatever is received for later times of the window, in however many
iterations, the value read at the start of the window is unchanged. -/
theorem C29_received_start_kept {q q' : Bspline.Solver} {w w' : Waveform} (h : Reachable q w)
    {s : ℚ × ℚ} (hs : w.samples.head? = some s) {news : List (ℚ × ℚ)}
    (hn : ∀ n ∈ news, s.1 + tol < n.1)
    (hw : applyAll q w (news.map fun n => .setSample n.1 n.2) = some w') :
    w'.read q' s.1 = w.read q' s.1 := by
  have hr : Reachable q w' := by
    obtain ⟨d, ops, hops⟩ := h
    refine ⟨d, ops ++ news.map fun n => .setSample n.1 n.2, ?_⟩
    unfold applyAll at hops hw ⊢
    rw [List.foldlM_append, hops, Option.bind_eq_bind, Option.bind_some, hw]
  rw [C24_read_stored h (List.mem_of_head? hs), C24_read_stored hr (List.mem_of_head? (start_kept hs hn hw))]

/-- C29: written data: when an iteration is repeated (`trimAfter` the window start), exactly the
samples after the window start are discarded, and the value at the start is still read. -/
theorem C29_written_trimmed {q q' : Bspline.Solver} {w : Waveform} (h : Reachable q w) (t₀ : ℚ) :
    (∀ s, s ∈ (w.trimAfter t₀).samples ↔ s ∈ w.samples ∧ s.1 ≤ t₀ + tol) ∧
    (∀ s ∈ w.samples, s.1 = t₀ → (w.trimAfter t₀).read q' t₀ = some s.2) := by
  have htol := tol_pos
  have h1 : ∀ s, s ∈ (w.trimAfter t₀).samples ↔ s ∈ w.samples ∧ s.1 ≤ t₀ + tol := by
    intro s
    unfold trimAfter greater
    rw [List.mem_filter]
    simp only [decide_eq_true_eq]
    refine and_congr Iff.rfl ⟨fun h => by linarith, fun h => by linarith⟩
  refine ⟨h1, fun s hs hst => ?_⟩
  have hr : Reachable q (w.trimAfter t₀) := by
    obtain ⟨d, ops, hops⟩ := h
    refine ⟨d, ops ++ [.trimAfter t₀], ?_⟩
    unfold applyAll at hops ⊢
    rw [List.foldlM_append, hops]; rfl
  have := C24_read_stored (q' := q') hr (s := s) ((h1 s).mpr ⟨hs, by linarith⟩)
  rwa [hst] at this

/-! ### Disagreement with C30 -/

/-- a solver that returns the data itself; exact for degree 1 -/
def trivialSolver : Bspline.Solver := fun _ _ _ xs => xs

/-- Two samples 0 and 2 with degree 1, one read in the middle, `setAllSamples 7`, and a read in the
middle again: the second read still interpolates the old samples. -/
theorem C30_setAll_stale :
    ∃ w : Waveform, Reachable trivialSolver w ∧ (∀ s ∈ w.samples, s.2 = 7) ∧
      w.read trivialSolver (1/2) = some 1 :=
  let ops := [Op.setSample 0 0, .setSample 1 2, .sample (1/2), .setAll 7]
  match h : applyAll trivialSolver (empty 1) ops with
  | some w => ⟨w, ⟨1, ops, h⟩, by
      have e : (applyAll trivialSolver (empty 1) ops).map (fun w => w.samples) = some [(0, 7), (1, 7)] := by
        decide +kernel
      rw [h] at e
      simp only [Option.map_some, Option.some.injEq] at e
      rw [e]; decide, by
      have e : (applyAll trivialSolver (empty 1) ops).bind (fun w => w.read trivialSolver (1/2)) = some 1 := by
        decide +kernel
      rw [h] at e
      exact e⟩
  | none => absurd h (by
      have : (applyAll trivialSolver (empty 1) ops).isSome = true := by decide +kernel
      intro hx; rw [hx] at this; cases this)

/-! ### The hypotheses are satisfiable -/

/-- three samples on a non-uniform grid, degree 1 -/
def exOps : List Op := [.setSample 0 1, .setSample 1 3, .setSample 4 5, .sample 2]

example : ∃ w, ReachableNoReset trivialSolver w ∧ w.degree = 1 ∧ w.samples = [(0, 1), (1, 3), (4, 5)] ∧
    w.cache.isSome := by
  cases h : applyAll trivialSolver (empty 1) exOps with
  | none =>
    have : (applyAll trivialSolver (empty 1) exOps).isSome = true := by decide +kernel
    rw [h] at this; cases this
  | some w =>
    have e : (applyAll trivialSolver (empty 1) exOps).map (fun w => (w.samples, w.degree, w.cache.isSome)) =
        some ([(0, 1), (1, 3), (4, 5)], 1, true) := by decide +kernel
    rw [h] at e
    simp only [Option.map_some, Option.some.injEq, Prod.mk.injEq] at e
    exact ⟨w, ⟨1, exOps, by simp [exOps, Op.InPlace], h⟩, e.2.1, e.1, e.2.2⟩

/-- the read of that example, computed by the model -/
example : (applyAll trivialSolver (empty 1) exOps).bind (fun w => w.read trivialSolver 2) = some (11/3) := by
  decide +kernel

/-- exact solvers exist -/
example : ∃ q : Bspline.Solver, q.Exact := by
  classical
  refine ⟨fun ts n d xs => if h : ∃ c, Bspline.Solves ts n d xs c then h.choose else xs, ?_⟩
  intro ts n d xs h
  dsimp only
  rw [dif_pos h]
  exact h.choose_spec

/-- `move`, `trimAfter` and receiving new samples on a concrete waveform -/
example : ((applyAll trivialSolver (empty 1) (exOps ++ [.move, .setSample 5 9])).bind
    (fun w => w.read trivialSolver 4)) = some 5 := by decide +kernel

end Verif.Waveform
