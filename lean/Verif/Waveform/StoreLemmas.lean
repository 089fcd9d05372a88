import Verif.Waveform.Store

/-!
# Lemmas on the sample storage
-/

set_option autoImplicit false

namespace Verif.Waveform

/-- Times are strictly increasing, by more than the tolerance. -/
def Spaced (l : List (ℚ × ℚ)) : Prop := l.Pairwise fun a b => a.1 + tol < b.1

theorem overwrite_fst (t v : ℚ) (l : List (ℚ × ℚ)) : (overwrite t v l).map (·.1) = l.map (·.1) := by
  induction l with
  | nil => rfl
  | cons s l ih => unfold overwrite; split <;> simp [ih]

theorem spaced_iff_map {l : List (ℚ × ℚ)} : Spaced l ↔ (l.map (·.1)).Pairwise fun a b => a + tol < b := by
  unfold Spaced; rw [List.pairwise_map]

theorem Spaced.of_fst {l l' : List (ℚ × ℚ)} (h : Spaced l) (e : l'.map (·.1) = l.map (·.1)) : Spaced l' := by
  rw [spaced_iff_map] at *; rwa [e]

theorem Spaced.snoc {l : List (ℚ × ℚ)} (h : Spaced l) {t v : ℚ}
    (hl : ∀ s, l.getLast? = some s → s.1 + tol < t) : Spaced (l ++ [(t, v)]) := by
  have htol := tol_pos
  unfold Spaced at *
  rw [List.pairwise_append]
  refine ⟨h, List.pairwise_singleton _ _, ?_⟩
  intro a ha b hb
  rw [List.mem_singleton] at hb
  subst hb
  rcases List.eq_nil_or_concat l with rfl | ⟨l', s, rfl⟩
  · simp at ha
  · have hs := hl s (by simp)
    simp only [List.concat_eq_append] at ha h
    rw [List.mem_append, List.mem_singleton] at ha
    rcases ha with ha | rfl
    · have := (List.pairwise_append.mp h).2.2 a ha s (by simp)
      linarith
    · exact hs

theorem setSample_cases {t v : ℚ} {w w' : Waveform} (h : w.setSample t v = some w') :
    w'.degree = w.degree ∧ w'.cache = none ∧
    ((∃ s ∈ w.samples, equals s.1 t) ∧ w'.samples = overwrite t v w.samples ∨
     (∀ s ∈ w.samples, ¬ equals s.1 t) ∧ w'.samples = w.samples ++ [(t, v)] ∧
        ∀ s, w.samples.getLast? = some s → s.1 + tol < t) := by
  unfold setSample at h
  split at h
  · next he =>
    simp only [Option.some.injEq] at h
    subst h
    exact ⟨rfl, rfl, .inr (by simp [he])⟩
  · next f l he =>
    split at h
    · split at h
      · next hany =>
        simp only [Option.some.injEq] at h
        subst h
        refine ⟨rfl, rfl, .inl ⟨?_, rfl⟩⟩
        rw [List.any_eq_true] at hany
        simpa using hany
      · next hany =>
        split at h
        · next hsm =>
          simp only [Option.some.injEq] at h
          subst h
          refine ⟨rfl, rfl, .inr ⟨?_, rfl, ?_⟩⟩
          · intro s hs hx
            apply hany
            rw [List.any_eq_true]
            exact ⟨s, hs, by simpa using hx⟩
          · intro s hs
            unfold maxStoredTime smaller at hsm
            rw [hs] at hsm
            simp only at hsm
            linarith
        · cases h
    · cases h

theorem setSample_spaced {t v : ℚ} {w w' : Waveform} (hw : Spaced w.samples)
    (h : w.setSample t v = some w') : Spaced w'.samples := by
  obtain ⟨_, _, ⟨_, e⟩ | ⟨_, e, hl⟩⟩ := setSample_cases h
  · rw [e]; exact hw.of_fst (overwrite_fst _ _ _)
  · rw [e]; exact hw.snoc hl

theorem foldlM_inv {α β : Type} {P : β → Prop} {f : β → α → Option β}
    (hf : ∀ b a b', P b → f b a = some b' → P b') {l : List α} {b b' : β} (hb : P b)
    (h : l.foldlM f b = some b') : P b' := by
  induction l generalizing b with
  | nil => simp only [List.foldlM_nil] at h; cases h; exact hb
  | cons a l ih =>
    rw [List.foldlM_cons, Option.bind_eq_bind, Option.bind_eq_some_iff] at h
    obtain ⟨b1, h1, h2⟩ := h
    exact ih (hf _ _ _ hb h1) h2

theorem assign_spaced {o w w' : Waveform} (h : assign o w = some w') : Spaced w'.samples := by
  unfold assign at h
  refine foldlM_inv (P := fun w => Spaced w.samples) ?_ ?_ h
  · intro b a b' hb hab; exact setSample_spaced hb hab
  · show Spaced []
    exact List.Pairwise.nil

theorem sample_samples {q : Bspline.Solver} {t : ℚ} {w : Waveform} {r : ℚ × Waveform}
    (h : w.sample q t = some r) : r.2.samples = w.samples ∧ r.2.degree = w.degree := by
  unfold sample at h
  split at h
  · cases h
  · split at h
    · rw [Option.map_eq_some_iff] at h
      obtain ⟨v, _, rfl⟩ := h
      exact ⟨rfl, rfl⟩
    · split at h
      · cases h; exact ⟨rfl, rfl⟩
      · cases h; exact ⟨rfl, rfl⟩

theorem apply_spaced {q : Bspline.Solver} {w w' : Waveform} {op : Op} (hw : Spaced w.samples)
    (h : apply q w op = some w') : Spaced w'.samples := by
  cases op with
  | setSample t v => exact setSample_spaced hw h
  | setAll v => cases h; exact hw.of_fst (by simp [setAll, Function.comp_def])
  | modify f => cases h; exact hw.of_fst (by simp [modify, Function.comp_def])
  | setDegree d => cases h; exact hw
  | move =>
    simp only [apply, move] at h
    split at h
    · cases h; exact hw.sublist (List.drop_sublist _ _)
    · cases h
  | trim =>
    simp only [apply, trim] at h
    split at h
    · cases h
    · cases h; exact hw.sublist (List.take_sublist _ _)
  | clear => cases h; exact List.Pairwise.nil
  | clearExceptLast =>
    simp only [apply, clearExceptLast] at h
    split at h
    · cases h; exact hw
    · cases h; exact hw.sublist (List.drop_sublist _ _)
  | trimBefore t => cases h; exact hw.sublist List.filter_sublist
  | trimAfter t => cases h; exact hw.sublist List.filter_sublist
  | assign o => exact assign_spaced h
  | sample t =>
    simp only [apply, Option.map_eq_some_iff] at h
    obtain ⟨r, hr, rfl⟩ := h
    rw [(sample_samples hr).1]; exact hw

/-- at most one stored time matches a given time -/
theorem Spaced.eq_of_near {l : List (ℚ × ℚ)} (h : Spaced l) {a b : ℚ × ℚ} (ha : a ∈ l) (hb : b ∈ l)
    (hab : equals a.1 b.1) : a = b := by
  have htol := tol_pos
  rw [equals_iff] at hab
  induction l with
  | nil => simp at ha
  | cons x l ih =>
    unfold Spaced at h
    rw [List.pairwise_cons] at h
    rw [List.mem_cons] at ha hb
    rcases ha with rfl | ha <;> rcases hb with rfl | hb
    · rfl
    · have := h.1 b hb; linarith
    · have := h.1 a ha; linarith
    · exact ih h.2 ha hb

theorem findStored_none {l : List (ℚ × ℚ)} {t : ℚ} (h : ∀ s ∈ l, ¬ equals s.1 t) :
    findStored t l = none := by
  induction l with
  | nil => rfl
  | cons a l ih =>
    simp only [List.mem_cons, forall_eq_or_imp] at h
    unfold findStored
    rw [if_neg h.1]
    split
    · rfl
    · exact ih h.2

/-- no stored time is near a time strictly between neighbours -/
theorem Spaced.between {l : List (ℚ × ℚ)} (h : Spaced l) {k : ℕ} (hk : k + 1 < l.length) {t : ℚ}
    (h1 : l[k].1 + tol < t) (h2 : t + tol < l[k + 1].1) : ∀ s ∈ l, ¬ equals s.1 t := by
  have htol := tol_pos
  intro s hs
  obtain ⟨i, hi, rfl⟩ := List.getElem_of_mem hs
  unfold Spaced at h
  rw [List.pairwise_iff_getElem] at h
  rw [equals_iff]
  rintro ⟨a, b⟩
  rcases lt_trichotomy i k with hik | rfl | hik
  · have := h i k hi (by omega) hik; linarith
  · linarith
  · rcases Nat.lt_or_ge (k + 1) i with hlt | hge
    · have := h (k + 1) i hk hi hlt; linarith
    · have : i = k + 1 := by omega
      subst this; linarith

theorem Spaced.sites {l : List (ℚ × ℚ)} (h : Spaced l) (h2 : 2 ≤ l.length) :
    Bspline.Sites (Bspline.rel l) l.length := by
  have htol := tol_pos
  unfold Spaced at h
  rw [List.pairwise_iff_getElem] at h
  have hd : ∀ k (hk : k < l.length), (l.getD k (0, 0)) = l[k] := fun k hk => by
    rw [List.getD_eq_getElem?_getD, List.getElem?_eq_getElem hk]; rfl
  have hpos : 0 < (l.getD (l.length - 1) (0, 0)).1 - (l.getD 0 (0, 0)).1 := by
    rw [hd _ (by omega), hd 0 (by omega)]
    have := h 0 (l.length - 1) (by omega) (by omega) (by omega)
    linarith
  refine ⟨h2, ?_, ?_, ?_⟩
  · unfold Bspline.rel; rw [sub_self, zero_div]
  · unfold Bspline.rel; exact div_self hpos.ne'
  · intro i j hij hj
    unfold Bspline.rel
    apply div_lt_div_of_pos_right _ hpos
    rw [hd i (by omega), hd j hj]
    have := h i j (by omega) hj hij
    linarith

theorem applyAll_spaced {q : Bspline.Solver} {w w' : Waveform} {ops : List Op} (hw : Spaced w.samples)
    (h : applyAll q w ops = some w') : Spaced w'.samples :=
  foldlM_inv (P := fun w => Spaced w.samples) (fun _ _ _ hb hab => apply_spaced hb hab) hw h

theorem findStored_of_mem {l : List (ℚ × ℚ)} (h : Spaced l) {s : ℚ × ℚ} (hs : s ∈ l) :
    findStored s.1 l = some s.2 := by
  have htol := tol_pos
  induction l with
  | nil => simp at hs
  | cons a l ih =>
    unfold Spaced at h
    rw [List.pairwise_cons] at h
    rw [List.mem_cons] at hs
    unfold findStored
    rcases hs with rfl | hs
    · rw [if_pos (equals_refl _)]
    · have hlt := h.1 s hs
      rw [if_neg (by rw [equals_iff]; rintro ⟨h1, _⟩; linarith),
        if_neg (by unfold greater; linarith)]
      exact ih h.2 hs

theorem find_of_mem {l : List (ℚ × ℚ)} (h : Spaced l) {s : ℚ × ℚ} (hs : s ∈ l) {t : ℚ}
    (h1 : t ≤ s.1 + tol) (h2 : ∀ a ∈ l, a.1 + tol < s.1 → a.1 + tol < t) :
    l.find? (fun a => decide (greaterEquals a.1 t)) = some s := by
  have htol := tol_pos
  induction l with
  | nil => simp at hs
  | cons a l ih =>
    unfold Spaced at h
    rw [List.pairwise_cons] at h
    rw [List.mem_cons] at hs
    rw [List.find?_cons]
    rcases hs with rfl | hs
    · have : greaterEquals s.1 t := by unfold greaterEquals; linarith
      simp [this]
    · have hlt := h2 a List.mem_cons_self (h.1 s hs)
      have : ¬ greaterEquals a.1 t := by unfold greaterEquals; linarith
      simp only [this, decide_false]
      exact ih h.2 hs fun b hb => h2 b (List.mem_cons_of_mem _ hb)

end Verif.Waveform
