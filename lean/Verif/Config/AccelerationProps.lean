import Verif.Config.AccelerationEnd

/-!
# C123: Which accelerations are accepted and how they are set up
-/

set_option autoImplicit false

namespace Verif.Config.Accel

open Scheme (Err)

/-- A tag that conforms to the schema is accepted exactly if it is well-formed, whatever the order of its subtags, and otherwise rejected with an error message. The
acceleration is the expected one, except for the truncation threshold of IMVJ (`C123_default_truncation`). Aitken with a preconditioner is excluded
(`C123_aitken_preconditioner`). -/
theorem C123_accepted (known : String → String → Bool) {t : Tag} (hv : t.Valid) (hp : t.kind = .aitken → preconditioner? t.subs = none) :
    (t.WellFormed known → configure known [] [t] = .ok (some t.actual, (dataOf t.subs).map (·.1))) ∧
    (¬ t.WellFormed known → configure known [] [t] = .error .check) := by
  have hW : t.WellFormed known ↔ (DataFits known [] t.subs ∧ RestartFits t.builds t.subs) ∧ t.Numbers :=
    ⟨fun h => ⟨⟨h.data, h.restart⟩, h.relax, h.maxUsed, h.reused⟩, fun h => ⟨h.1.1, h.1.2, h.2.1, h.2.2.1, h.2.2.2⟩⟩
  have hs := subTags_eq (known := known) (t := t) (seen := []) t.subs hv.subs fun hk s hs hn => by
    cases s with
    | preconditioner p u f =>
      have := hp hk
      unfold preconditioner? at this
      rw [List.findSome?_eq_none_iff] at this
      exact absurd (this _ hs) (by simp)
    | _ => cases hn
  rw [hW]
  unfold configure
  simp only [accelerations, openTag_ok hv, bind, Except.bind, Option.isSome_none]
  by_cases h1 : DataFits known [] t.subs ∧ RestartFits t.builds t.subs
  · rw [hs.1 h1]
    have he := endTag_eq hv h1.1.1 hp
    by_cases h2 : t.Numbers
    · simp only [he.1 h2]
      exact ⟨fun _ => by simp, fun h => absurd ⟨h1, h2⟩ h⟩
    · simp only [he.2 h2]
      exact ⟨fun h => absurd h.2 h2, fun _ => trivial⟩
  · rw [hs.2 h1]
    exact ⟨fun h => absurd h.1 h1, fun _ => rfl⟩

/-- A tag that conforms to the schema yields the documented acceleration if it is well-formed, and is otherwise rejected with an error message.
Missing: Aitken with a preconditioner (`C123_aitken_preconditioner`) and IMVJ that neither has a restart mode nor always builds the Jacobian
(`C123_default_truncation`); the code violates the claim in both cases. -/
theorem C123_configure_partial (known : String → String → Bool) {t : Tag} (hv : t.Valid) (hp : t.kind = .aitken → preconditioner? t.subs = none)
    (hr : t.kind = .imvj → t.builds = false → restartMode? t.subs ≠ none) :
    (t.WellFormed known → configure known [] [t] = .ok (some t.expected, (dataOf t.subs).map (·.1))) ∧
    (¬ t.WellFormed known → configure known [] [t] = .error .check) := by
  have h : t.actual = t.expected := by
    unfold Tag.actual
    cases hk : t.kind with
    | imvj =>
      unfold Tag.actualRestart
      rw [if_neg fun h => hr hk h.2 h.1]
      simp [Tag.expected, hk]
    | _ => rfl
  rw [← h]
  exact C123_accepted known hv hp

/-- Aitken with a preconditioner is never accepted, although the schema has the tag: the callback reads an attribute that Aitken does not have. -/
theorem C123_aitken_preconditioner (known : String → String → Bool) (seen : List (String × String)) {t : Tag} {l : List Tag} (ht : t ∈ l) (hk : t.kind = .aitken)
    {p : PrecondType} {u : Option Bool} {f : Option ℤ} (hm : .preconditioner p u f ∈ t.subs) : ∀ r, configure known seen l ≠ .ok r := by
  intro r h
  rcases configure_shape h with ⟨rfl, -⟩ | ⟨t', rfl, d1, d2, h1⟩
  · cases ht
  · rw [List.mem_singleton] at ht
    subst ht
    rw [hk] at h1
    exact subTags_precond hm h1

/-- IMVJ without a restart mode is restarted with SVD as documented, but with truncation threshold 0 instead of the default 1e-4 of the restart mode: it is not the
acceleration that results from writing down the documented defaults. -/
theorem C123_default_truncation (known : String → String → Bool) {t : Tag} (hv : t.Valid) (hk : t.kind = .imvj) (hb : t.builds = false)
    (hr : restartMode? t.subs = none) (hw : t.WellFormed known) :
    configure known [] [t] = .ok (some (.imvj t.qn false (.svd 8 0)), (dataOf t.subs).map (·.1)) ∧ t.expected = .imvj t.qn false (.svd 8 (1 / 10 ^ 4)) ∧
      ∀ s, configure known [] [t] ≠ .ok (some t.expected, s) := by
  have h1 := (C123_accepted known hv (fun h => absurd (hk ▸ h) (by decide))).1 hw
  have h2 : t.actual = .imvj t.qn false (.svd 8 0) := by simp [Tag.actual, Tag.actualRestart, hk, hb, hr]
  have h3 : t.expected = .imvj t.qn false (.svd 8 (1 / 10 ^ 4)) := by simp [Tag.expected, Tag.restart, hk, hb, hr]
  refine ⟨by rw [h1, h2], h3, fun s hs => ?_⟩
  rw [h1, h2, h3] at hs
  simp only [Except.ok.injEq, Prod.mk.injEq, Option.some.injEq, Acceleration.imvj.injEq, Restart.svd.injEq] at hs
  exact absurd hs.1.2.2.2 (by norm_num)

/-- A coupling scheme has at most one acceleration. -/
theorem C123_one_acceleration (known : String → String → Bool) (seen : List (String × String)) {l : List Tag} (hl : 2 ≤ l.length) :
    ∀ r, configure known seen l ≠ .ok r := by
  intro r h
  rcases configure_shape h with ⟨rfl, -⟩ | ⟨t, rfl, -⟩ <;> simp at hl

/-- Data are accelerated at most once in the whole configuration: no configuration is accepted in which the accelerations of two coupling schemes have common data. -/
theorem C123_once (known : String → String → Bool) {s₁ s₂ : List Tag} {l₁ l₂ l₃ : List (List Tag)} {t₁ t₂ : Tag} (h₁ : t₁ ∈ s₁) (h₂ : t₂ ∈ s₂)
    {x : String × String} (hx₁ : x ∈ (dataOf t₁.subs).map (·.1)) (hx₂ : x ∈ (dataOf t₂.subs).map (·.1)) (seen : List (String × String)) :
    ∀ r, configureAll known (l₁ ++ s₁ :: l₂ ++ s₂ :: l₃) seen ≠ .ok r := by
  have second : ∀ (l₂ : List (List Tag)) (seen : List (String × String)) r, x ∈ seen → configureAll known (l₂ ++ s₂ :: l₃) seen ≠ .ok r := by
    intro l₂
    induction l₂ with
    | nil =>
      intro seen r hs h
      simp only [List.nil_append, configureAll, bind, Except.bind] at h
      split at h
      · cases h
      · rename_i q hq
        rcases configure_shape hq with ⟨rfl, -⟩ | ⟨t, rfl, d1, d2, h3⟩
        · cases h₂
        · rw [List.mem_singleton] at h₂
          subst h₂
          obtain ⟨e, he, rfl⟩ := List.mem_map.1 hx₂
          exact ((subTags_seen h3).2 e he).2 hs
    | cons s l₂ ih =>
      intro seen r hs h
      simp only [List.cons_append, configureAll, bind, Except.bind] at h
      split at h
      · cases h
      · rename_i q hq
        split at h
        · cases h
        · rename_i q' hq'
          refine ih q.2 q' ?_ hq'
          rcases configure_shape hq with ⟨-, h3⟩ | ⟨t, -, d1, d2, h3⟩
          · rw [h3]
            exact hs
          · exact (subTags_seen h3).1 _ hs
  induction l₁ generalizing seen with
  | nil =>
    intro r h
    simp only [List.nil_append, List.cons_append, configureAll, bind, Except.bind] at h
    split at h
    · cases h
    · rename_i q hq
      split at h
      · cases h
      · rename_i q' hq'
        refine second l₂ q.2 q' ?_ hq'
        rcases configure_shape hq with ⟨rfl, -⟩ | ⟨t, rfl, d1, d2, h3⟩
        · cases h₁
        · rw [List.mem_singleton] at h₁
          subst h₁
          obtain ⟨e, he, rfl⟩ := List.mem_map.1 hx₁
          exact ((subTags_seen h3).2 e he).1
  | cons s l₁ ih =>
    intro r h
    simp only [List.cons_append, configureAll, bind, Except.bind] at h
    split at h
    · cases h
    · rename_i q hq
      split at h
      · cases h
      · rename_i q' hq'
        exact ih q.2 q' hq'

end Verif.Config.Accel
