import Verif.Api.Actions

/-!
# Lemmas about actions (C122)
-/

set_option autoImplicit false

namespace Verif.DataPath

variable {V : Type}

/-- A sample with the action applied once. -/
def acted (f : V → V) (s : ℚ × V) : ℚ × V := (s.1, f s.2)

theorem map_acted_times (f : V → V) (l : Samples V) : (l.map (acted f)).map (·.1) = l.map (·.1) := by
  simp [acted, Function.comp_def]

theorem overwrite_at {s : ℚ × V} {v : V} {D l : Samples V} (h : ∀ e ∈ D, e.1 + tol < s.1) : overwrite s.1 v (D ++ s :: l) = D ++ (s.1, v) :: l := by
  induction D with
  | nil =>
    change (if equals s.1 s.1 then (s.1, v) :: l else _) = _
    rw [if_pos (equals_refl _)]
    rfl
  | cons d D ih =>
    have hd := h d (by simp)
    have : ¬ equals d.1 s.1 := by
      rw [equals_iff]
      rintro ⟨_, h2⟩
      linarith
    change (if equals d.1 s.1 then _ else d :: overwrite s.1 v (D ++ s :: l)) = _
    rw [if_neg this, ih fun e he => h e (by simp [he])]
    rfl

theorem setSample_at {s : ℚ × V} {v : V} {D l : Samples V} (hg : Gap (D ++ s :: l)) : setSample s.1 v (D ++ s :: l) = .ok (D ++ (s.1, v) :: l) := by
  have htol := tol_pos
  obtain ⟨-, -, h3⟩ := Gap.append_iff.1 hg
  have hD : ∀ e ∈ D, e.1 + tol < s.1 := fun e he => by have := h3 e he s (by simp); linarith
  unfold setSample
  obtain ⟨a, ha⟩ : ∃ a, (D ++ s :: l).head? = some a := by cases D <;> simp
  obtain ⟨b, hb⟩ : ∃ b, (D ++ s :: l).getLast? = some b := ⟨_, List.getLast?_eq_getLast_of_ne_nil (by simp)⟩
  have hle : smallerEquals a.1 s.1 := by
    have : a.1 ≤ s.1 := by
      cases D with
      | nil =>
        simp only [List.nil_append, List.head?_cons, Option.some.injEq] at ha
        rw [← ha]
      | cons d D =>
        simp only [List.cons_append, List.head?_cons, Option.some.injEq] at ha
        have := hD d (by simp)
        rw [← ha]
        linarith
    unfold smallerEquals
    linarith
  have hany : (D ++ s :: l).any (fun e => decide (equals e.1 s.1)) = true := by
    rw [List.any_eq_true]
    exact ⟨s, by simp, by simpa using equals_refl _⟩
  rw [ha, hb]
  simp only [hle, if_true, hany]
  rw [overwrite_at hD]

theorem foldlM_perform (f : V → V) (l D : Samples V) (hg : Gap (D ++ l)) :
    (List.range' D.length l.length).foldlM (fun (l : Samples V) i => match l[i]? with
      | some s => setSample s.1 (f s.2) l
      | none => .error Err.assert) (D ++ l) = .ok (D ++ l.map (acted f)) := by
  induction l generalizing D with
  | nil => rfl
  | cons s l ih =>
    rw [List.length_cons, List.range'_succ, List.foldlM_cons]
    have h1 : (D ++ s :: l)[D.length]? = some s := by simp
    rw [h1]
    simp only
    rw [setSample_at hg]
    have := ih (D ++ [acted f s]) (by
      refine (Gap.congr ?_).1 hg
      simp [acted])
    rw [List.length_append] at this
    simp only [List.append_assoc, List.singleton_append, List.length_singleton] at this
    exact this

/-- All samples are changed once. -/
theorem perform_ok (f : V → V) {l : Samples V} (hg : Gap l) : perform f l = .ok (l.map (acted f)) := by
  have := foldlM_perform f l [] hg
  unfold perform
  rw [List.range_eq_range']
  exact this

theorem Covers.acted {t now : ℚ} {l : Samples V} (h : Covers t now l) (f : V → V) : Covers t now (l.map (acted f)) :=
  h.congr (map_acted_times f l)

end Verif.DataPath
