import Verif.Api.DataPath

/-!
# Lemmas on the path of coupling data (C104)
-/

set_option autoImplicit false

namespace Verif.DataPath

variable {V : Type}

/-- Times increase by more than twice the tolerance. -/
def Gap (l : Samples V) : Prop := l.Pairwise fun a b => a.1 + 2 * tol < b.1

theorem Gap.cons_iff {s : ℚ × V} {l : Samples V} : Gap (s :: l) ↔ (∀ b ∈ l, s.1 + 2 * tol < b.1) ∧ Gap l := List.pairwise_cons

theorem Gap.append_iff {l m : Samples V} : Gap (l ++ m) ↔ Gap l ∧ Gap m ∧ ∀ a ∈ l, ∀ b ∈ m, a.1 + 2 * tol < b.1 := List.pairwise_append

/-- The gap depends on the times only. -/
theorem Gap.congr {l m : Samples V} (h : l.map (·.1) = m.map (·.1)) : Gap l ↔ Gap m := by
  have key : ∀ l : Samples V, Gap l ↔ (l.map (·.1)).Pairwise fun a b => a + 2 * tol < b := by
    intro l
    unfold Gap
    rw [List.pairwise_map]
  rw [key, key, h]

/-! ## Storage -/

theorem setSample_append {t : ℚ} {v : V} {l : Samples V} (h : ∀ e ∈ l, e.1 + tol < t) : setSample t v l = .ok (l ++ [(t, v)]) := by
  have htol := tol_pos
  rcases List.eq_nil_or_concat l with rfl | ⟨m, b, rfl⟩
  · rfl
  · rw [List.concat_eq_append] at h ⊢
    obtain ⟨a, m', ham⟩ : ∃ a m', m ++ [b] = a :: m' := by cases m <;> simp
    unfold setSample
    have h1 : (m ++ [b]).head? = some a := by rw [ham]; rfl
    have h2 : (m ++ [b]).getLast? = some b := by simp
    simp only [h1, h2]
    have ha := h a (by rw [ham]; simp)
    have hb := h b (by simp)
    rw [if_pos (by unfold smallerEquals; linarith), if_neg, if_pos (by unfold smaller; linarith)]
    rw [List.any_eq_true]
    rintro ⟨e, he, heq⟩
    have := h e he
    rw [decide_eq_true_eq, equals_iff] at heq
    linarith [heq.1]

theorem overwrite_last {t : ℚ} {v x : V} {l : Samples V} (h : ∀ e ∈ l, e.1 + tol < t) : overwrite t v (l ++ [(t, x)]) = l ++ [(t, v)] := by
  induction l with
  | nil => simp [overwrite, equals_refl]
  | cons a l ih =>
    have ha := h a (by simp)
    rw [List.cons_append]
    unfold overwrite
    rw [if_neg (by rw [equals_iff]; intro hh; linarith [hh.1]), ih fun e he => h e (by simp [he])]
    rfl

theorem setSample_last {t : ℚ} {v x : V} {l : Samples V} (h : ∀ e ∈ l, e.1 + tol < t) :
    setSample t v (l ++ [(t, x)]) = .ok (l ++ [(t, v)]) := by
  have htol := tol_pos
  obtain ⟨a, m', ham⟩ : ∃ a m', l ++ [(t, x)] = a :: m' := by cases l <;> simp
  unfold setSample
  have h1 : (l ++ [(t, x)]).head? = some a := by rw [ham]; rfl
  have h2 : (l ++ [(t, x)]).getLast? = some (t, x) := by simp
  simp only [h1, h2]
  have ha : a.1 ≤ t := by
    have : a ∈ l ++ [(t, x)] := by rw [ham]; simp
    rw [List.mem_append, List.mem_singleton] at this
    rcases this with h' | rfl
    · linarith [h a h']
    · exact le_rfl
  rw [if_pos (by unfold smallerEquals; linarith), if_pos, overwrite_last h]
  exact List.any_eq_true.2 ⟨(t, x), by simp, by simpa using equals_refl t⟩

theorem setSamples_append {new l : Samples V} (h : Gap (l ++ new)) : setSamples new l = .ok (l ++ new) := by
  have htol := tol_pos
  induction new generalizing l with
  | nil => simp [setSamples, pure, Except.pure]
  | cons s new ih =>
    unfold setSamples
    rw [List.foldlM_cons, setSample_append fun e he => by have := (Gap.append_iff.1 h).2.2 e he s (by simp); linarith]
    change setSamples new (l ++ [(s.1, s.2)]) = _
    rw [ih (by simpa using h)]
    simp

/-- Relation to the model with the cached spline. -/
theorem overwrite_eq (t v : ℚ) (l : List (ℚ × ℚ)) : overwrite t v l = Waveform.overwrite t v l := by
  induction l with
  | nil => rfl
  | cons s l ih => simp only [overwrite, Waveform.overwrite, ih]

theorem setSample_eq (t v : ℚ) (w : Waveform) : (w.setSample t v).map (·.samples) = (setSample t v w.samples).toOption := by
  unfold Waveform.setSample setSample
  cases hw : w.samples with
  | nil => rfl
  | cons a l =>
    obtain ⟨b, hb⟩ : ∃ b, (a :: l).getLast? = some b := ⟨_, List.getLast?_eq_some_getLast (by simp)⟩
    simp only [List.head?_cons, hb, Waveform.maxStoredTime, hw, overwrite_eq]
    split_ifs <;> rfl

theorem trimAfter_start {T : ℚ} {s : ℚ × V} {l : Samples V} (hs : s.1 ≤ T + tol) (h : ∀ b ∈ l, T + tol < b.1) : trimAfter T (s :: l) = [s] := by
  unfold trimAfter
  rw [List.filter_cons_of_pos (by rw [decide_eq_true_eq]; unfold greater; linarith), List.filter_eq_nil_iff.2]
  intro b hb
  have := h b hb
  rw [decide_eq_true_eq, not_not]; unfold greater
  linarith

theorem trimBefore_end {T : ℚ} {s : ℚ × V} {l : Samples V} (hs : T ≤ s.1 + tol) (h : ∀ b ∈ l, b.1 + tol < T) : trimBefore T (l ++ [s]) = [s] := by
  unfold trimBefore
  rw [List.filter_append, List.filter_eq_nil_iff.2, List.filter_cons_of_pos (by rw [decide_eq_true_eq]; unfold smaller; linarith)]
  · rfl
  · intro b hb
    have := h b hb
    rw [decide_eq_true_eq, not_not]; unfold smaller
    linarith

theorem trimBefore_all {T : ℚ} {l : Samples V} (h : ∀ b ∈ l, T ≤ b.1 + tol) : trimBefore T l = l := by
  unfold trimBefore
  rw [List.filter_eq_self]
  intro b hb
  have := h b hb
  rw [decide_eq_true_eq]; unfold smaller
  linarith

theorem trimBefore_none {T : ℚ} {l : Samples V} (h : ∀ b ∈ l, b.1 + tol < T) : trimBefore T l = [] := by
  unfold trimBefore
  rw [List.filter_eq_nil_iff]
  intro b hb
  have := h b hb
  rw [decide_eq_true_eq, not_not]; unfold smaller
  linarith

theorem move_end (l : Samples V) (s : ℚ × V) : move (l ++ [s]) = [s] := by
  unfold move
  split
  · simp
  · next h =>
    rw [List.length_append, List.length_singleton] at h
    have : l = [] := List.length_eq_zero_iff.1 (by omega)
    simp [this]

theorem clearExceptLast_end (l : Samples V) (s : ℚ × V) : clearExceptLast (l ++ [s]) = [s] := by
  unfold clearExceptLast
  simp

/-! ## Mapping -/

/-- The sample of the target for a sample of the source. -/
def SampleMap.sample (m : SampleMap V) (skipZero : Bool) (s : ℚ × V) : ℚ × V := (s.1, m.value skipZero s.2)

/-- A sample that is not mapped. -/
def Skipped (after : Option ℚ) (times : List ℚ) (s : ℚ × V) : Prop := (∃ a, after = some a ∧ s.1 ≤ a + tol) ∨ ∃ t ∈ times, equals t s.1

theorem mapSample_skipped {m : SampleMap V} {after : Option ℚ} {z : Bool} {times : List ℚ} {dst : Samples V} {s : ℚ × V}
    (h : Skipped after times s) : mapSample m after z times dst s = .ok dst := by
  unfold mapSample
  rcases h with ⟨a, rfl, ha⟩ | ⟨t, ht, he⟩
  · rw [if_pos (by rw [decide_eq_true_eq]; unfold smallerEquals; linarith)]
  · rw [if_pos (c := (times.any fun t => decide (equals t s.1)) = true) (List.any_eq_true.2 ⟨t, ht, by simpa using he⟩)]
    exact ite_self _

theorem mapSample_wanted {m : SampleMap V} {after : Option ℚ} {z : Bool} {times : List ℚ} {dst : Samples V} {s : ℚ × V}
    (h : ¬ Skipped after times s) : mapSample m after z times dst s = setSample s.1 (m.value z s.2) dst := by
  unfold mapSample
  rw [if_neg, if_neg]
  · intro hany
    obtain ⟨t, ht, he⟩ := List.any_eq_true.1 hany
    exact h (.inr ⟨t, ht, by simpa using he⟩)
  · cases after with
    | none => simp
    | some a =>
      simp only [decide_eq_true_eq]
      intro hle
      unfold smallerEquals at hle
      exact h (.inl ⟨a, rfl, by linarith⟩)

theorem foldlM_skipped {m : SampleMap V} {after : Option ℚ} {z : Bool} {times : List ℚ} {dst : Samples V} (l : Samples V)
    (h : ∀ s ∈ l, Skipped after times s) : l.foldlM (mapSample m after z times) dst = .ok dst := by
  induction l with
  | nil => rfl
  | cons s l ih =>
    rw [List.foldlM_cons, mapSample_skipped (h s (by simp))]
    exact ih fun s hs => h s (by simp [hs])

theorem foldlM_wanted {m : SampleMap V} {after : Option ℚ} {z : Bool} {times : List ℚ} (l : Samples V) (dst : Samples V)
    (h : ∀ s ∈ l, ¬ Skipped after times s) (hg : Gap (dst ++ l)) :
    l.foldlM (mapSample m after z times) dst = .ok (dst ++ l.map (m.sample z)) := by
  have htol := tol_pos
  induction l generalizing dst with
  | nil => simp [pure, Except.pure]
  | cons s l ih =>
    rw [List.foldlM_cons, mapSample_wanted (h s (by simp)),
      setSample_append fun e he => by have := (Gap.append_iff.1 hg).2.2 e he s (by simp); linarith]
    change List.foldlM _ (dst ++ [m.sample z s]) l = _
    rw [ih _ (fun s hs => h s (by simp [hs]))]
    · simp
    · refine (Gap.congr ?_).1 hg
      simp [SampleMap.sample]

/-- The old samples are skipped, the new ones are mapped and appended. -/
theorem mapData_append {m : SampleMap V} {after : Option ℚ} {z : Bool} (old new dst : Samples V) (hne : old ++ new ≠ [])
    (hold : ∀ s ∈ old, Skipped after (dst.map (·.1)) s) (hnew : ∀ a, after = some a → ∀ s ∈ new, a + tol < s.1) (hg : Gap (dst ++ new)) :
    mapData m after z (old ++ new) dst = .ok (dst ++ new.map (m.sample z)) := by
  have htol := tol_pos
  unfold mapData
  rw [if_neg (by simpa using hne), List.foldlM_append, foldlM_skipped old hold]
  refine foldlM_wanted new dst ?_ hg
  rintro s hs (⟨a, ha, hle⟩ | ⟨t, ht, he⟩)
  · linarith [hnew a ha s hs]
  · obtain ⟨e, he', rfl⟩ := List.mem_map.1 ht
    have := (Gap.append_iff.1 hg).2.2 e he' s hs
    rw [equals_iff] at he
    linarith [he.1]

end Verif.DataPath
