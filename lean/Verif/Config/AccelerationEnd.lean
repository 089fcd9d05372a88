import Verif.Config.AccelerationLemmas
import Mathlib.Tactic.SplitIfs

/-!
# The end of the tag of an acceleration (C123)
-/

set_option autoImplicit false

namespace Verif.Config.Accel

open Scheme (Err)

/-- The checks of the constructors. -/
def Tag.Numbers (t : Tag) : Prop :=
  (0 < t.relax ∧ t.relax ≤ 1) ∧ (t.kind.isQN = true → 0 < t.qn.maxIterationsUsed) ∧ (t.kind.isQN = true → 0 ≤ t.qn.timeWindowsReused)

theorem createQN_eq (q : QN) (P : Prop) (hP : P ↔ (0 < q.relaxation ∧ q.relaxation ≤ 1) ∧ 0 < q.maxIterationsUsed ∧ 0 ≤ q.timeWindowsReused) :
    (P → createQN q = .ok q) ∧ (¬ P → createQN q = .error .check) := by
  rw [hP]
  unfold createQN checkRelaxation
  by_cases h1 : 0 < q.relaxation ∧ q.relaxation ≤ 1
  · by_cases h2 : 0 < q.maxIterationsUsed
    · by_cases h3 : 0 ≤ q.timeWindowsReused <;> simp [h1, h2, h3, bind, Except.bind]
    · simp [h1, h2, bind, Except.bind]
  · simp only [h1, if_false, bind, Except.bind, false_and, not_false_eq_true, true_implies, false_implies, and_self]

/-- The end of the tag of IQN-ILS. -/
theorem endTag_ils {t : Tag} (hk : t.kind = .ils) (hd : ((dataOf t.subs).map (·.1)).Nodup) :
    (t.Numbers → endTag t.kind false (collect t.kind (opened t) t.subs) = .ok t.expected) ∧
    (¬ t.Numbers → endTag t.kind false (collect t.kind (opened t) t.subs) = .error .check) := by
  have hp : createPrecond (collect t.kind (opened t) t.subs) = .ok t.precond := by
    unfold createPrecond Tag.precond
    rw [factors_collect (by rw [hk]; rfl) hd]
    simp only [collect, Tag.freeze, hk]
    rcases hq : preconditioner? t.subs with _ | ⟨p, u, f⟩
    · rfl
    · cases p <;> rfl
  have hq : createQN t.qn = createQN
      { relaxation := if (collect t.kind (opened t) t.subs).definedRelaxationFactor then (collect t.kind (opened t) t.subs).relaxationFactor else 1 / 10
        force := (collect t.kind (opened t) t.subs).forceInitialRelaxation
        maxIterationsUsed := if (collect t.kind (opened t) t.subs).definedMaxIterationsUsed then (collect t.kind (opened t) t.subs).maxIterationsUsed else 100
        timeWindowsReused := if (collect t.kind (opened t) t.subs).definedTimeWindowsReused then (collect t.kind (opened t) t.subs).timeWindowsReused else 10
        filter := if (collect t.kind (opened t) t.subs).definedFilter then (collect t.kind (opened t) t.subs).filter else .qr3
        limit := if (collect t.kind (opened t) t.subs).definedFilter then (collect t.kind (opened t) t.subs).singularityLimit else 1 / 100
        data := (collect t.kind (opened t) t.subs).data
        onBound := (collect t.kind (opened t) t.subs).onBoundViolation
        precond := t.precond
        reducedTimeGrid := (collect t.kind (opened t) t.subs).reducedTimeGrid } := by
    congr 1
    simp only [Tag.qn, Tag.relax, collect, opened, hk, QN.mk.injEq, and_true]
    refine ⟨?_, by simp [Kind.isQN], ?_, ?_, ?_, ?_⟩
    · cases initialRelaxation? t.subs <;> rfl
    · cases maxUsedIterations? t.subs <;> rfl
    · cases timeWindowsReused? t.subs <;> rfl
    · cases filter? t.subs <;> rfl
    · cases filter? t.subs <;> rfl
  have hN := createQN_eq t.qn t.Numbers (by simp [Tag.Numbers, Tag.qn, hk, Kind.isQN])
  have he : t.expected = .ils t.qn := by simp [Tag.expected, hk]
  unfold endTag
  rw [hp, he]
  generalize collect t.kind (opened t) t.subs = d at hq ⊢
  simp only [hk, true_or, if_true, bind, Except.bind, Bool.false_eq_true, if_false]
  rw [← hq]
  refine ⟨fun h => ?_, fun h => ?_⟩
  · rw [hN.1 h]
  · rw [hN.2 h]

/-- The state before the creation of IMVJ. -/
def imvjData (d : Data) : Data :=
  { d with
    restartType := if d.alwaysBuildJacobian ∨ d.definedRestartType then d.restartType else .svd
    chunkSize := if d.alwaysBuildJacobian ∨ d.definedRestartType then d.chunkSize else 8
    freezeAfter :=
      if (if d.alwaysBuildJacobian ∨ d.definedRestartType then d.restartType else .svd) = .svd then
        min d.freezeAfter (if d.alwaysBuildJacobian ∨ d.definedRestartType then d.chunkSize else 8)
      else d.freezeAfter }

theorem imvjData_eq (d : Data) :
    (let d := if d.alwaysBuildJacobian then d
        else { d with restartType := if d.definedRestartType then d.restartType else .svd, chunkSize := if d.definedRestartType then d.chunkSize else 8 }
      if d.restartType = .svd ∧ d.chunkSize < d.freezeAfter then { d with freezeAfter := d.chunkSize } else d) = imvjData d := by
  have h : ∀ d : Data, (if d.restartType = .svd ∧ d.chunkSize < d.freezeAfter then { d with freezeAfter := d.chunkSize } else d) =
      { d with freezeAfter := if d.restartType = .svd then min d.freezeAfter d.chunkSize else d.freezeAfter } := by
    intro d
    by_cases h1 : d.restartType = .svd
    · by_cases h2 : d.chunkSize < d.freezeAfter
      · simp [h1, h2, min_eq_right h2.le]
      · rw [if_neg fun h => h2 h.2, if_pos h1, min_eq_left (not_lt.1 h2)]
    · rw [if_neg fun h => h1 h.1, if_neg h1]
  show (if (ite _ _ _ : Data).restartType = .svd ∧ _ then _ else _) = _
  rw [h]
  unfold imvjData
  cases h1 : d.alwaysBuildJacobian <;> cases h2 : d.definedRestartType <;> simp [h1, h2]

/-- The end of the tag of IQN-IMVJ. -/
theorem endTag_imvj {t : Tag} (hk : t.kind = .imvj) (hd : ((dataOf t.subs).map (·.1)).Nodup) :
    (t.Numbers → endTag t.kind false (collect t.kind (opened t) t.subs) = .ok t.actual) ∧
    (¬ t.Numbers → endTag t.kind false (collect t.kind (opened t) t.subs) = .error .check) := by
  have hp : createPrecond (imvjData (collect t.kind (opened t) t.subs)) = .ok t.precond := by
    have hF : factors (imvjData (collect t.kind (opened t) t.subs)) = .ok ((dataOf t.subs).map fun e => e.2.getD 1) :=
      (WellFormed_factors rfl rfl).trans (factors_collect (d := opened t) (by rw [hk]; rfl) hd)
    unfold createPrecond
    rw [hF]
    have hf : ∀ u f p, preconditioner? t.subs = some (p, u, f) → (imvjData (collect t.kind (opened t) t.subs)).freezeAfter = t.freeze f := by
      intro u f p h
      simp only [imvjData, collect, opened, Tag.freeze, Tag.restart, hk, h]
      rcases hm : restartMode? t.subs with _ | ⟨ty, c, r, e⟩
      · cases hb : t.builds <;> simp
      · cases hy : ty.getD .svd <;> simp [hy]
    have hP : (imvjData (collect t.kind (opened t) t.subs)).preconditioner = (preconditioner? t.subs).map (·.1) := rfl
    have hU : (imvjData (collect t.kind (opened t) t.subs)).updateOnThreshold = ((preconditioner? t.subs).bind (·.2.1)).getD true := rfl
    rw [hP, hU]
    unfold Tag.precond
    rcases hq : preconditioner? t.subs with _ | ⟨p, u, f⟩
    · rfl
    · rw [hf _ _ _ hq]
      cases p <;> rfl
  have hR : restartOf (imvjData (collect t.kind (opened t) t.subs)) = t.actualRestart := by
    unfold Tag.actualRestart Tag.restart restartOf
    rcases hm : restartMode? t.subs with _ | ⟨ty, c, r, e⟩
    · cases hb : t.builds <;> simp [imvjData, collect, opened, hm, hb]
    · cases hy : ty.getD .svd <;> simp [imvjData, collect, opened, hm, hy]
  have hB : (imvjData (collect t.kind (opened t) t.subs)).alwaysBuildJacobian = t.builds := rfl
  have hq : t.qn =
      { relaxation := if (imvjData (collect t.kind (opened t) t.subs)).definedRelaxationFactor then (imvjData (collect t.kind (opened t) t.subs)).relaxationFactor else 1 / 10
        force := (imvjData (collect t.kind (opened t) t.subs)).forceInitialRelaxation
        maxIterationsUsed := if (imvjData (collect t.kind (opened t) t.subs)).definedMaxIterationsUsed then (imvjData (collect t.kind (opened t) t.subs)).maxIterationsUsed else 20
        timeWindowsReused := if (imvjData (collect t.kind (opened t) t.subs)).definedTimeWindowsReused then (imvjData (collect t.kind (opened t) t.subs)).timeWindowsReused else 0
        filter := if (imvjData (collect t.kind (opened t) t.subs)).definedFilter then (imvjData (collect t.kind (opened t) t.subs)).filter else .qr3
        limit := if (imvjData (collect t.kind (opened t) t.subs)).definedFilter then (imvjData (collect t.kind (opened t) t.subs)).singularityLimit else 1 / 100
        data := (imvjData (collect t.kind (opened t) t.subs)).data
        onBound := (imvjData (collect t.kind (opened t) t.subs)).onBoundViolation
        precond := t.precond
        reducedTimeGrid := (imvjData (collect t.kind (opened t) t.subs)).reducedTimeGrid } := by
    simp only [Tag.qn, Tag.relax, imvjData, collect, opened, hk, QN.mk.injEq, and_true]
    refine ⟨?_, by simp [Kind.isQN], ?_, ?_, ?_, ?_⟩
    · cases initialRelaxation? t.subs <;> rfl
    · cases maxUsedIterations? t.subs <;> rfl
    · cases timeWindowsReused? t.subs <;> rfl
    · cases filter? t.subs <;> rfl
    · cases filter? t.subs <;> rfl
  have hN := createQN_eq t.qn t.Numbers (by simp [Tag.Numbers, Tag.qn, hk, Kind.isQN])
  have he : t.actual = .imvj t.qn t.builds t.actualRestart := by simp [Tag.actual, hk]
  have hE : endTag t.kind false (collect t.kind (opened t) t.subs) =
      (createPrecond (imvjData (collect t.kind (opened t) t.subs))).bind fun p => (createQN t.qn).bind fun q => .ok (.imvj q t.builds t.actualRestart) := by
    rw [hp, ← hR, ← hB]
    have hp' := hp
    rw [hq]
    rw [← imvjData_eq] at hp' ⊢
    unfold endTag
    simp only [hk, reduceCtorEq, or_self, if_false, bind, Except.bind, Bool.false_eq_true] at hp' ⊢
    rw [hp']
  rw [hE, hp, he]
  refine ⟨fun h => ?_, fun h => ?_⟩
  · rw [hN.1 h]
    rfl
  · rw [hN.2 h]
    rfl

theorem endTag_constant {t : Tag} (hv : t.Valid) (hk : t.kind = .constant) :
    (t.Numbers → endTag t.kind false (collect t.kind (opened t) t.subs) = .ok t.actual) ∧
    (¬ t.Numbers → endTag t.kind false (collect t.kind (opened t) t.subs) = .error .check) := by
  have h1 : initialRelaxation? t.subs = none := initialRelaxation_none fun a ha he => by
    have := hv.subs.2 a ha
    rw [he, hk] at this
    exact Bool.noConfusion this
  have h2 : (collect t.kind (opened t) t.subs).relaxationFactor = t.relax := by
    simp [collect, h1, Tag.relax, hk]
  have h3 : t.Numbers ↔ 0 < t.relax ∧ t.relax ≤ 1 := by simp [Tag.Numbers, hk, Kind.isQN]
  have h4 : t.actual = .constant t.relax := by simp [Tag.actual, Tag.expected, hk]
  rw [h3, h4, ← h2]
  unfold endTag checkRelaxation
  by_cases h : 0 < t.relax ∧ t.relax ≤ 1
  · rw [← h2] at h
    simp [hk, bind, Except.bind] at h ⊢
    simp [h]
  · rw [← h2] at h
    simp only [hk, reduceCtorEq, or_self, if_false, bind, Except.bind, Bool.false_eq_true] at h ⊢
    simp only [h, false_implies, not_false_eq_true, true_implies, if_false, and_self]

theorem endTag_aitken {t : Tag} (hk : t.kind = .aitken) (hp : preconditioner? t.subs = none) :
    (t.Numbers → endTag t.kind false (collect t.kind (opened t) t.subs) = .ok t.actual) ∧
    (¬ t.Numbers → endTag t.kind false (collect t.kind (opened t) t.subs) = .error .check) := by
  have h2 : (if (collect t.kind (opened t) t.subs).definedRelaxationFactor then (collect t.kind (opened t) t.subs).relaxationFactor else 1 / 2) = t.relax := by
    simp only [collect, Tag.relax, hk]
    cases initialRelaxation? t.subs <;> rfl
  have h3 : t.Numbers ↔ 0 < t.relax ∧ t.relax ≤ 1 := by simp [Tag.Numbers, hk, Kind.isQN]
  have h4 : t.actual = .aitken t.relax ((dataOf t.subs).map (·.1)) (.residualSum (-1) true) := by simp [Tag.actual, Tag.expected, hk, Tag.precond, hp]
  have h5 : createPrecond (collect t.kind (opened t) t.subs) = .ok (.residualSum (-1) true) := by
    simp [createPrecond, collect, hp]
  rw [h3, h4]
  have h6 : (collect t.kind (opened t) t.subs).data = (dataOf t.subs).map (·.1) := rfl
  rw [← h6]
  unfold endTag
  rw [h5]
  generalize collect t.kind (opened t) t.subs = d at h2 ⊢
  simp only [hk, or_true, if_true, bind, Except.bind, Bool.false_eq_true, if_false, h2, checkRelaxation]
  by_cases h : 0 < t.relax ∧ t.relax ≤ 1
  · simp [h]
  · simp only [h, false_implies, not_false_eq_true, true_implies, if_false, and_self]

/-- The end of the tag. -/
theorem endTag_eq {t : Tag} (hv : t.Valid) (hd : ((dataOf t.subs).map (·.1)).Nodup) (hp : t.kind = .aitken → preconditioner? t.subs = none) :
    (t.Numbers → endTag t.kind false (collect t.kind (opened t) t.subs) = .ok t.actual) ∧
    (¬ t.Numbers → endTag t.kind false (collect t.kind (opened t) t.subs) = .error .check) := by
  cases hk : t.kind with
  | constant => rw [← hk]; exact endTag_constant hv hk
  | aitken => rw [← hk]; exact endTag_aitken hk (hp hk)
  | ils =>
    have := endTag_ils hk hd
    have h : t.actual = t.expected := by simp [Tag.actual, hk]
    rw [← hk, h]
    exact this
  | imvj => rw [← hk]; exact endTag_imvj hk hd

/-! ## Sequences of tags -/

/-- The data of accepted subtags are remembered and were not remembered before. -/
theorem subTags_seen {known : String → String → Bool} {k : Kind} {l : List Sub} {d : Data} {seen : List (String × String)} {r : Data × List (String × String)}
    (h : subTags known k l d seen = .ok r) : (∀ x ∈ seen, x ∈ r.2) ∧ ∀ e ∈ dataOf l, e.1 ∈ r.2 ∧ e.1 ∉ seen := by
  induction l generalizing d seen with
  | nil =>
    simp only [subTags, Except.ok.injEq] at h
    subst h
    exact ⟨fun x hx => hx, fun e he => absurd he (by simp [dataOf])⟩
  | cons s l ih =>
    simp only [subTags, bind, Except.bind] at h
    split at h
    · cases h
    · rename_i q hq
      obtain ⟨h1, h2⟩ := ih h
      have h3 : (∀ x ∈ seen, x ∈ q.2) ∧ ∀ e ∈ dataOf [s], e.1 ∈ q.2 ∧ e.1 ∉ seen := by
        by_cases hf : SubFits known d.alwaysBuildJacobian s seen
        · cases s with
          | data n m sc =>
            unfold SubFits at hf
            simp only [subTag, hf.1, if_false, hf.2, if_true, bind, Except.bind] at hq
            have hd : ∀ e ∈ dataOf [Sub.data n m sc], e = ((n, m), sc) := fun e he => by simpa [dataOf] using he
            split at hq
            · cases hq
              exact ⟨fun x hx => by simp [hx], fun e he => by rw [hd e he]; exact ⟨by simp, hf.1⟩⟩
            · cases hq
              exact ⟨fun x hx => by simp [hx], fun e he => by rw [hd e he]; exact ⟨by simp, hf.1⟩⟩
          | relaxation v => cases hq; exact ⟨fun _ h => h, fun e he => absurd he (by simp [dataOf])⟩
          | maxUsedIterations v => cases hq; exact ⟨fun _ h => h, fun e he => absurd he (by simp [dataOf])⟩
          | timeWindowsReused v => cases hq; exact ⟨fun _ h => h, fun e he => absurd he (by simp [dataOf])⟩
          | filter t v => cases hq; exact ⟨fun _ h => h, fun e he => absurd he (by simp [dataOf])⟩
          | initialRelaxation v e =>
            refine ⟨fun x hx => ?_, fun e he => absurd he (by simp [dataOf])⟩
            cases hE : k.isQN <;> simp only [subTag, Kind.hasEnforce, hE, get, attr, bind, Except.bind, if_true, if_false, Bool.false_eq_true] at hq <;>
              cases hq <;> exact hx
          | preconditioner t u f =>
            simp only [subTag, bind, Except.bind] at hq
            split at hq
            · cases hq
            · split at hq
              · cases hq
              · cases hq; exact ⟨fun _ h => h, fun e he => absurd he (by simp [dataOf])⟩
          | restartMode t c r e =>
            unfold SubFits at hf
            simp only [subTag, bind, Except.bind, attr, get, if_true, hf] at hq
            refine ⟨fun x hx => ?_, fun e he => absurd he (by simp [dataOf])⟩
            cases ht : t.getD .svd <;> rw [ht] at hq <;> cases hq <;> exact hx
        · rw [subTag_error hf] at hq
          cases hq
      refine ⟨fun x hx => h1 x (h3.1 x hx), fun e he => ?_⟩
      have : e ∈ dataOf [s] ++ dataOf l := by
        rw [← dataOf_append]
        exact he
      rcases List.mem_append.1 this with he | he
      · exact ⟨h1 _ (h3.2 e he).1, (h3.2 e he).2⟩
      · exact ⟨(h2 e he).1, fun hm => (h2 e he).2 (h3.1 _ hm)⟩

/-- Aitken with a preconditioner is never accepted. -/
theorem subTags_precond {known : String → String → Bool} {l : List Sub} {d : Data} {seen : List (String × String)} {r : Data × List (String × String)}
    {p : PrecondType} {u : Option Bool} {f : Option ℤ} (hm : .preconditioner p u f ∈ l) : subTags known .aitken l d seen ≠ .ok r := by
  induction l generalizing d seen with
  | nil => cases hm
  | cons s l ih =>
    simp only [subTags, bind, Except.bind]
    rcases List.mem_cons.1 hm with rfl | hm
    · simp [subTag, Kind.hasUpdateOnThreshold, Kind.isQN, attr, get, bind, Except.bind]
    · split
      · exact fun h => by cases h
      · exact ih hm

theorem endTag_present (k : Kind) (d : Data) (a : Acceleration) : endTag k true d ≠ .ok a := by
  unfold endTag
  cases k <;> cases createPrecond d <;> simp [bind, Except.bind]

theorem accelerations_cons {known : String → String → Bool} {t : Tag} {l : List Tag} {d : Data} {seen : List (String × String)} {a : Option Acceleration}
    {r : Option Acceleration × List (String × String)} (h : accelerations known (t :: l) d seen a = .ok r) :
    ∃ d1 d2 b, openTag t d = .ok d1 ∧ subTags known t.kind t.subs d1 seen = .ok d2 ∧ endTag t.kind a.isSome d2.1 = .ok b ∧
      accelerations known l d2.1 d2.2 (some b) = .ok r := by
  simp only [accelerations, bind, Except.bind] at h
  split at h
  · cases h
  · rename_i d1 h1
    split at h
    · cases h
    · rename_i d2 h2
      split at h
      · cases h
      · rename_i b h3
        exact ⟨d1, d2, b, h1, h2, h3, h⟩

/-- At most one acceleration is accepted. -/
theorem configure_shape {known : String → String → Bool} {l : List Tag} {seen : List (String × String)} {r : Option Acceleration × List (String × String)}
    (h : configure known seen l = .ok r) : (l = [] ∧ r.2 = seen) ∨
      ∃ t, l = [t] ∧ ∃ d1 d2, subTags known t.kind t.subs d1 seen = .ok (d2, r.2) := by
  unfold configure at h
  match l with
  | [] =>
    cases h
    exact .inl ⟨rfl, rfl⟩
  | [t] =>
    obtain ⟨d1, d2, b, -, h2, -, h4⟩ := accelerations_cons h
    cases h4
    exact .inr ⟨t, rfl, d1, d2.1, h2⟩
  | t :: t' :: l =>
    obtain ⟨d1, d2, b, -, h2, -, h4⟩ := accelerations_cons h
    obtain ⟨_, _, _, -, -, h3, -⟩ := accelerations_cons h4
    exact absurd h3 (endTag_present _ _ _)

end Verif.Config.Accel
