import Verif.Waveform.Props
import Mathlib.Tactic.Ring

/-!
# Relaxation of coupling data (C71)

Model of `/repo/src/acceleration/Acceleration.cpp` and `/repo/src/acceleration/ConstantRelaxationAcceleration.cpp`. As in `Verif.Waveform.Store` a sample is a single number, so that an entry
is one degree of freedom of one coupling data; the code treats all degrees of freedom of a sample alike. Gradients are not modelled.
-/

set_option autoImplicit false

namespace Verif.Accel

/-- One degree of freedom of `CouplingData`: the waveform of this iteration and the one stored by `storeIteration` for the previous iteration. -/
structure Entry where
  current : Waveform
  /-- `_previousTimeStepsStorage` -/
  previous : Waveform

/-- The loop over the samples, Acceleration.cpp:29-45. Sampling the previous iteration may build its spline. -/
def relaxSamples (q : Bspline.Solver) (ω start : ℚ) : List (ℚ × ℚ) → Waveform → Option (List (ℚ × ℚ) × Waveform)
  | [], p => some ([], p)
  | (t, v) :: l, p =>
    if ¬ greater t start then (relaxSamples q ω start l p).map fun r => ((t, v) :: r.1, r.2)
    else (p.sample q t).bind fun o => (relaxSamples q ω start l o.2).map fun r => ((t, v * ω + o.1 * (1 - ω)) :: r.1, r.2)

/-- The body of the loop over the data, Acceleration.cpp:19-46. The samples are changed in place. -/
def relaxEntry (q : Bspline.Solver) (ω start : ℚ) (e : Entry) : Option Entry :=
  if e.current.samples = [] then some e
  else (relaxSamples q ω start e.current.samples e.previous).map fun r => ⟨{ e.current with samples := r.1 }, r.2⟩

/-- `applyRelaxation`, Acceleration.cpp:17-47 -/
def applyRelaxation (q : Bspline.Solver) (ω start : ℚ) (data : List Entry) : Option (List Entry) := data.mapM (relaxEntry q ω start)

/-- `ConstantRelaxationAcceleration`: the check in the constructor, ConstantRelaxationAcceleration.cpp:15-26, and `performAcceleration`, 33-37 -/
def constantRelaxation (q : Bspline.Solver) (ω start : ℚ) (data : List Entry) : Option (List Entry) :=
  if 0 < ω ∧ ω ≤ 1 then applyRelaxation q ω start data else none

/-! ## Specification -/

/-- What relaxation shall do to one sample, given the previous iterate as a function of time. -/
def relaxedSample (ω start : ℚ) (old : ℚ → ℚ) (s : ℚ × ℚ) : ℚ × ℚ :=
  if start + tol < s.1 then (s.1, ω * s.2 + (1 - ω) * old s.1) else s

/-- `e'` is `e` relaxed: every sample after the window start is combined with the value of the previous iterate at the same time; nothing else that can be read changes. -/
structure Relaxed (q : Bspline.Solver) (ω start : ℚ) (e e' : Entry) : Prop where
  samples : ∃ old : ℚ → ℚ, (∀ s ∈ e.current.samples, start + tol < s.1 → e.previous.read q s.1 = some (old s.1)) ∧
    e'.current.samples = e.current.samples.map (relaxedSample ω start old)
  degree : e'.current.degree = e.current.degree
  previous : e'.previous.samples = e.previous.samples ∧ ∀ t, e'.previous.read q t = e.previous.read q t

/-! ## Lemmas -/

/-- Reading does not change what is read later. -/
theorem read_sample {q : Bspline.Solver} {t : ℚ} {w : Waveform} {r : ℚ × Waveform} (h : w.sample q t = some r) (t' : ℚ) : r.2.read q t' = w.read q t' := by
  unfold Waveform.sample at h
  split at h
  · cases h
  · split at h
    · rw [Option.map_eq_some_iff] at h
      obtain ⟨v, _, rfl⟩ := h
      rfl
    · split at h
      · cases h; rfl
      · cases h
        unfold Waveform.read Waveform.sample Waveform.usedDegree Waveform.atOrAfter
        simp only [Option.getD_some]
        split
        · rfl
        · split
          · rw [Option.map_map, Option.map_map]; rfl
          · split <;> rfl

theorem relaxSamples_spec {q : Bspline.Solver} {ω start : ℚ} : ∀ (l : List (ℚ × ℚ)) (p : Waveform) (r : List (ℚ × ℚ) × Waveform), relaxSamples q ω start l p = some r →
    (r.2.samples = p.samples ∧ ∀ t, r.2.read q t = p.read q t) ∧ (∀ s ∈ l, start + tol < s.1 → (p.read q s.1).isSome) ∧
    r.1 = l.map (relaxedSample ω start fun t => (p.read q t).getD 0) := by
  intro l
  induction l with
  | nil =>
    intro p r h
    cases h
    exact ⟨⟨rfl, fun _ => rfl⟩, by simp, rfl⟩
  | cons s l ih =>
    obtain ⟨t, v⟩ := s
    intro p r h
    unfold relaxSamples at h
    by_cases hg : start + tol < t
    · have hg' : greater t start := by unfold greater; linarith
      rw [if_neg (not_not.2 hg'), Option.bind_eq_some_iff] at h
      obtain ⟨o, ho, h⟩ := h
      rw [Option.map_eq_some_iff] at h
      obtain ⟨r', hr', rfl⟩ := h
      obtain ⟨⟨a, b⟩, c, d⟩ := ih _ _ hr'
      have hread := read_sample ho
      have hsam := Waveform.sample_samples ho
      have hro : p.read q t = some o.1 := by unfold Waveform.read; rw [ho]; rfl
      refine ⟨⟨a.trans hsam.1, fun t' => (b t').trans (hread t')⟩, ?_, ?_⟩
      · intro s hs hlt
        rcases List.mem_cons.1 hs with rfl | hs
        · rw [hro]; rfl
        · rw [← hread]; exact c s hs hlt
      · rw [List.map_cons, d]
        simp only [hread]
        refine congrArg₂ _ ?_ rfl
        unfold relaxedSample
        rw [if_pos hg]
        refine congrArg (Prod.mk t) ?_
        simp only [hro, Option.getD_some]
        ring
    · have hg' : ¬ greater t start := by unfold greater; intro hx; apply hg; linarith
      rw [if_pos hg', Option.map_eq_some_iff] at h
      obtain ⟨r', hr', rfl⟩ := h
      obtain ⟨ab, c, d⟩ := ih _ _ hr'
      refine ⟨ab, ?_, ?_⟩
      · intro s hs hlt
        rcases List.mem_cons.1 hs with rfl | hs
        · exact absurd hlt hg
        · exact c s hs hlt
      · rw [List.map_cons, d]
        refine congrArg₂ _ ?_ rfl
        unfold relaxedSample
        rw [if_neg hg]

theorem relaxEntry_spec {q : Bspline.Solver} {ω start : ℚ} {e e' : Entry} (h : relaxEntry q ω start e = some e') : Relaxed q ω start e e' := by
  unfold relaxEntry at h
  split at h
  · next he =>
    cases h
    exact ⟨⟨fun _ => 0, by rw [he]; simp, by rw [he]; rfl⟩, rfl, rfl, fun _ => rfl⟩
  · rw [Option.map_eq_some_iff] at h
    obtain ⟨r, hr, rfl⟩ := h
    obtain ⟨ab, c, d⟩ := relaxSamples_spec _ _ _ hr
    refine ⟨⟨fun t => (e.previous.read q t).getD 0, fun s hs hlt => ?_, d⟩, rfl, ab⟩
    have := c s hs hlt
    rw [Option.isSome_iff_exists] at this
    obtain ⟨v, hv⟩ := this
    simp only [hv, Option.getD_some]

theorem mapM_forall₂ {α β : Type} {f : α → Option β} : ∀ {l : List α} {l' : List β}, l.mapM f = some l' → List.Forall₂ (fun a b => f a = some b) l l'
  | [], l', h => by
    rw [List.mapM_nil] at h
    cases h
    exact .nil
  | a :: l, l', h => by
    rw [List.mapM_cons] at h
    simp only [Option.bind_eq_bind, Option.bind_eq_some_iff] at h
    obtain ⟨b, hb, bs, hbs, h⟩ := h
    cases h
    exact .cons hb (mapM_forall₂ hbs)

theorem relaxSamples_total {q : Bspline.Solver} {ω start : ℚ} : ∀ (l : List (ℚ × ℚ)) (p : Waveform),
    (∀ s ∈ l, start + tol < s.1 → (p.read q s.1).isSome) → (relaxSamples q ω start l p).isSome := by
  intro l
  induction l with
  | nil => exact fun p _ => rfl
  | cons s l ih =>
    obtain ⟨t, v⟩ := s
    intro p h
    unfold relaxSamples
    by_cases hg : start + tol < t
    · have hg' : greater t start := by unfold greater; linarith
      rw [if_neg (not_not.2 hg')]
      have := h (t, v) (by simp) hg
      unfold Waveform.read at this
      rw [Option.isSome_map, Option.isSome_iff_exists] at this
      obtain ⟨o, ho⟩ := this
      rw [ho, Option.bind_some, Option.isSome_map]
      refine ih _ fun s hs hlt => ?_
      rw [read_sample ho]
      exact h s (by simp [hs]) hlt
    · have hg' : ¬ greater t start := by unfold greater; intro hx; apply hg; linarith
      rw [if_pos hg', Option.isSome_map]
      exact ih p fun s hs => h s (by simp [hs])

/-! ## C71 -/

/-- C71: relaxation relaxes every entry of every data, samples after the window start by exactly the convex combination with the previous iterate, and changes nothing else. -/
theorem C71_relaxed {q : Bspline.Solver} {ω start : ℚ} {data data' : List Entry} (h : constantRelaxation q ω start data = some data') :
    List.Forall₂ (Relaxed q ω start) data data' := by
  unfold constantRelaxation at h
  split at h
  · exact (mapM_forall₂ h).imp fun _ _ => relaxEntry_spec
  · cases h

/-- C71: relaxation succeeds whenever the factor is in the allowed range and the previous iterate can be read at the times of the new one. -/
theorem C71_succeeds {q : Bspline.Solver} {ω start : ℚ} {data : List Entry} (h0 : 0 < ω) (h1 : ω ≤ 1)
    (h : ∀ e ∈ data, ∀ s ∈ e.current.samples, start + tol < s.1 → (e.previous.read q s.1).isSome) : (constantRelaxation q ω start data).isSome := by
  unfold constantRelaxation
  rw [if_pos ⟨h0, h1⟩]
  unfold applyRelaxation
  induction data with
  | nil => rfl
  | cons e data ih =>
    rw [List.mapM_cons]
    have he : (relaxEntry q ω start e).isSome := by
      unfold relaxEntry
      split
      · rfl
      · rw [Option.isSome_map]; exact relaxSamples_total _ _ (h e (by simp))
    obtain ⟨e', he⟩ := Option.isSome_iff_exists.1 he
    obtain ⟨d', hd⟩ := Option.isSome_iff_exists.1 (ih fun e he => h e (by simp [he]))
    rw [he, hd]
    rfl

/-- C71: factors outside the allowed range are rejected. -/
theorem C71_rejects {q : Bspline.Solver} {ω start : ℚ} {data : List Entry} (h : ω ≤ 0 ∨ 1 < ω) : constantRelaxation q ω start data = none := by
  unfold constantRelaxation
  rw [if_neg]
  rintro ⟨a, b⟩
  rcases h with h | h <;> linarith

/-- C71: the times stay, the window start (and everything before) is untouched, every value stays between the new value and the previous iterate, and data that equals the previous iterate is
not changed. -/
theorem C71_convex {q : Bspline.Solver} {ω start : ℚ} {data data' : List Entry} (h : constantRelaxation q ω start data = some data') :
    List.Forall₂ (fun e e' => List.Forall₂ (fun s s' => s'.1 = s.1 ∧ (s.1 ≤ start + tol → s' = s) ∧
      (start + tol < s.1 → ∃ old, e.previous.read q s.1 = some old ∧ min s.2 old ≤ s'.2 ∧ s'.2 ≤ max s.2 old ∧ (s.2 = old → s' = s)))
      e.current.samples e'.current.samples) data data' := by
  have hω : 0 < ω ∧ ω ≤ 1 := by
    by_contra hn
    unfold constantRelaxation at h
    rw [if_neg hn] at h
    cases h
  refine (C71_relaxed h).imp fun e e' hr => ?_
  obtain ⟨old, h1, h2⟩ := hr.samples
  rw [h2, List.forall₂_map_right_iff, List.forall₂_same]
  intro s hs
  unfold relaxedSample
  by_cases hg : start + tol < s.1
  · rw [if_pos hg]
    refine ⟨rfl, fun hx => absurd hx (not_le.2 hg), fun _ => ⟨old s.1, h1 s hs hg, ?_, ?_, ?_⟩⟩
    · have a := min_le_left s.2 (old s.1)
      have b := min_le_right s.2 (old s.1)
      have c := mul_le_mul_of_nonneg_left a hω.1.le
      have d := mul_le_mul_of_nonneg_left b (sub_nonneg.2 hω.2)
      have : ω * min s.2 (old s.1) + (1 - ω) * min s.2 (old s.1) = min s.2 (old s.1) := by ring
      linarith
    · have a := le_max_left s.2 (old s.1)
      have b := le_max_right s.2 (old s.1)
      have c := mul_le_mul_of_nonneg_left a hω.1.le
      have d := mul_le_mul_of_nonneg_left b (sub_nonneg.2 hω.2)
      have : ω * max s.2 (old s.1) + (1 - ω) * max s.2 (old s.1) = max s.2 (old s.1) := by ring
      linarith
    · intro hx
      refine Prod.ext rfl ?_
      simp only
      rw [← hx]
      ring
  · rw [if_neg hg]
    exact ⟨rfl, fun _ => rfl, fun hx => absurd hx hg⟩

/-- C71: on a common time grid the previous iterate is the value stored at that time: relaxation is `ω * new + (1 - ω) * old`, sample by sample. -/
theorem C71_same_grid {q q' : Bspline.Solver} {ω start : ℚ} {data data' : List Entry} (h : constantRelaxation q ω start data = some data') :
    List.Forall₂ (fun e e' => Waveform.Reachable q' e.previous → List.Forall₂ (fun s s' => ∀ old, (s.1, old) ∈ e.previous.samples → start + tol < s.1 →
      s' = (s.1, ω * s.2 + (1 - ω) * old)) e.current.samples e'.current.samples) data data' := by
  refine (C71_relaxed h).imp fun e e' hr hreach => ?_
  obtain ⟨old, h1, h2⟩ := hr.samples
  rw [h2, List.forall₂_map_right_iff, List.forall₂_same]
  intro s hs o ho hg
  unfold relaxedSample
  rw [if_pos hg]
  have := Waveform.C24_read_stored (q' := q) hreach ho
  rw [h1 s hs hg] at this
  cases this
  rfl

/-! ## The interpolant after relaxation -/

/-- A waveform with samples 0, 4 at times 0 and 1 that has been read in between. -/
def staleEntry : Option Entry :=
  (Waveform.applyAll Waveform.trivialSolver (Waveform.empty 1) [.setSample 0 0, .setSample 1 4, .sample (1/2)]).bind fun w =>
    (Waveform.applyAll Waveform.trivialSolver (Waveform.empty 1) [.setSample 0 0, .setSample 1 2]).map fun p => ⟨w, p⟩

/-- C30: relaxation changes the samples in place and keeps the spline that was built from the values before. Relaxing the value 4 at the window end with factor 1/2 towards 2 gives 3,
but a read in the middle of the window still returns 2 (from 0 and 4) instead of 3/2. -/
theorem C30_inPlace_stale :
    ∃ e e' : Entry, staleEntry = some e ∧ constantRelaxation Waveform.trivialSolver (1/2) 0 [e] = some [e'] ∧ e'.current.samples = [(0, 0), (1, 3)] ∧
      e'.current.read Waveform.trivialSolver (1/2) = some 2 := by
  have h1 : (staleEntry.bind fun e => constantRelaxation Waveform.trivialSolver (1/2) 0 [e]).map (fun l => l.map fun e => (e.current.samples, e.current.read Waveform.trivialSolver (1/2))) =
      some [([(0, 0), (1, 3)], some 2)] := by decide +kernel
  rw [Option.map_eq_some_iff] at h1
  obtain ⟨l, hl, h2⟩ := h1
  rw [Option.bind_eq_some_iff] at hl
  obtain ⟨e, he, hl⟩ := hl
  rw [List.map_eq_cons_iff] at h2
  obtain ⟨e', l', rfl, h3, h4⟩ := h2
  rw [List.map_eq_nil_iff] at h4
  subst h4
  rw [Prod.mk.injEq] at h3
  exact ⟨e, e', he, hl, h3.1, h3.2⟩

/-- Two entries, one with a longer grid than its previous iterate, are relaxed. -/
example : ((Waveform.applyAll Waveform.trivialSolver (Waveform.empty 1) [.setSample 0 1, .setSample 1 3, .setSample 2 5]).bind fun w =>
    (Waveform.applyAll Waveform.trivialSolver (Waveform.empty 1) [.setSample 0 1, .setSample 2 9]).bind fun p =>
      (constantRelaxation Waveform.trivialSolver (1/4) 0 [⟨w, p⟩, ⟨p, p⟩]).map (·.map (·.current.samples))) =
    some [[(0, 1), (1, 9/2), (2, 8)], [(0, 1), (2, 9)]] := by decide +kernel

end Verif.Accel
