import Verif.Config.AccelerationSpec
import Mathlib.Data.List.Induction
import Mathlib.Tactic.Common

/-!
# Lemmas about the configuration of accelerations (C123)
-/

set_option autoImplicit false

namespace Verif.Config.Accel

open Scheme (Err)

/-- The state after all subtags `l`. -/
def collect (k : Kind) (d : Data) (l : List Sub) : Data :=
  { d with
    data := (dataOf l).map (·.1)
    scalings := (dataOf l).map fun e => (e.1, if k.isQN then e.2.getD 1 else 1)
    relaxationFactor := ((initialRelaxation? l).map (·.1)).getD ((relaxation? l).getD 0)
    forceInitialRelaxation := k.isQN && ((initialRelaxation? l).bind (·.2)).getD false
    definedRelaxationFactor := (initialRelaxation? l).isSome
    maxIterationsUsed := (maxUsedIterations? l).getD 0
    definedMaxIterationsUsed := (maxUsedIterations? l).isSome
    timeWindowsReused := (timeWindowsReused? l).getD 0
    definedTimeWindowsReused := (timeWindowsReused? l).isSome
    filter := match filter? l with
      | none => .no
      | some f => f.1.getD .qr3
    singularityLimit := match filter? l with
      | none => 0
      | some f => f.2.getD (1 / 10 ^ 16)
    definedFilter := (filter? l).isSome
    preconditioner := (preconditioner? l).map (·.1)
    updateOnThreshold := ((preconditioner? l).bind (·.2.1)).getD true
    freezeAfter := ((preconditioner? l).bind (·.2.2)).getD (-1)
    definedRestartType := (restartMode? l).isSome
    restartType := match restartMode? l with
      | none => .no
      | some r => r.1.getD .svd
    chunkSize := match restartMode? l with
      | none => 0
      | some r => r.2.1.getD 8
    reusedAtRestart := match restartMode? l with
      | some (t, _, r, _) => if t.getD .svd = .ls then r.getD 8 else 0
      | none => 0
    truncation := match restartMode? l with
      | some (t, _, _, e) => if t.getD .svd = .svd then e.getD (1 / 10 ^ 4) else 0
      | none => 0 }

/-- What the open tag sets. -/
def opened (t : Tag) : Data :=
  { alwaysBuildJacobian := t.builds, reducedTimeGrid := t.reducedTimeGrid.getD true, onBoundViolation := t.onBoundViolation.getD .ignore }

theorem openTag_ok {t : Tag} (h : t.Valid) : openTag t {} = .ok (opened t) := by
  have hb := h.build
  have hr := h.reduced
  unfold openTag opened Tag.builds
  cases hk : t.kind
  · rw [hk] at hb hr
    rw [hb (by decide), (hr rfl).1, (hr rfl).2]
    rfl
  · rw [hk] at hb hr
    rw [hb (by decide), (hr rfl).1, (hr rfl).2]
    rfl
  · rw [hk] at hb
    rw [hb (by decide)]
    rfl
  · rfl

theorem subTags_append (known : String → String → Bool) (k : Kind) (l l' : List Sub) (d : Data) (seen : List (String × String)) :
    subTags known k (l ++ l') d seen = (subTags known k l d seen).bind fun r => subTags known k l' r.1 r.2 := by
  induction l generalizing d seen with
  | nil => rfl
  | cons s l ih =>
    simp only [List.cons_append, subTags, bind, Except.bind]
    cases subTag known k s d seen with
    | error e => rfl
    | ok r => exact ih r.1 r.2

theorem subTags_snoc (known : String → String → Bool) (k : Kind) (l : List Sub) (s : Sub) (d : Data) (seen : List (String × String)) :
    subTags known k (l ++ [s]) d seen = (subTags known k l d seen).bind fun r => subTag known k s r.1 r.2 := by
  rw [subTags_append]
  congr
  funext r
  simp only [subTags, bind, Except.bind]
  cases subTag known k s r.1 r.2 <;> rfl

theorem SubsValid.init {k : Kind} {l : List Sub} {s : Sub} (h : SubsValid k (l ++ [s])) : SubsValid k l ∧ k.has s.name = true ∧
    (s.name ≠ .data → ∀ a ∈ l, a.name ≠ s.name) := by
  obtain ⟨h1, h2⟩ := h
  obtain ⟨h3, -, h4⟩ := List.pairwise_append.1 h1
  refine ⟨⟨h3, fun a ha => h2 a (by simp [ha])⟩, h2 s (by simp), fun hs a ha hn => hs ?_⟩
  rw [← hn]
  exact h4 a ha s (by simp) hn

theorem findSome_none {β : Type} {l : List Sub} {f : Sub → Option β} {n : Name} (hl : ∀ a ∈ l, a.name ≠ n) (hf : ∀ a : Sub, a.name ≠ n → f a = none) :
    l.findSome? f = none := by
  rw [List.findSome?_eq_none_iff]
  exact fun a ha => hf a (hl a ha)

theorem relaxation_append (l l' : List Sub) : relaxation? (l ++ l') = (relaxation? l).or (relaxation? l') := List.findSome?_append

theorem relaxation_none {l : List Sub} (h : ∀ a ∈ l, a.name ≠ .relaxation) : relaxation? l = none :=
  findSome_none h fun a ha => by cases a <;> first | rfl | exact absurd rfl ha

theorem initialRelaxation_append (l l' : List Sub) : initialRelaxation? (l ++ l') = (initialRelaxation? l).or (initialRelaxation? l') := List.findSome?_append

theorem initialRelaxation_none {l : List Sub} (h : ∀ a ∈ l, a.name ≠ .initialRelaxation) : initialRelaxation? l = none :=
  findSome_none h fun a ha => by cases a <;> first | rfl | exact absurd rfl ha

theorem maxUsedIterations_append (l l' : List Sub) : maxUsedIterations? (l ++ l') = (maxUsedIterations? l).or (maxUsedIterations? l') := List.findSome?_append

theorem maxUsedIterations_none {l : List Sub} (h : ∀ a ∈ l, a.name ≠ .maxUsedIterations) : maxUsedIterations? l = none :=
  findSome_none h fun a ha => by cases a <;> first | rfl | exact absurd rfl ha

theorem timeWindowsReused_append (l l' : List Sub) : timeWindowsReused? (l ++ l') = (timeWindowsReused? l).or (timeWindowsReused? l') := List.findSome?_append

theorem timeWindowsReused_none {l : List Sub} (h : ∀ a ∈ l, a.name ≠ .timeWindowsReused) : timeWindowsReused? l = none :=
  findSome_none h fun a ha => by cases a <;> first | rfl | exact absurd rfl ha

theorem filter_append (l l' : List Sub) : filter? (l ++ l') = (filter? l).or (filter? l') := List.findSome?_append

theorem filter_none {l : List Sub} (h : ∀ a ∈ l, a.name ≠ .filter) : filter? l = none :=
  findSome_none h fun a ha => by cases a <;> first | rfl | exact absurd rfl ha

theorem preconditioner_append (l l' : List Sub) : preconditioner? (l ++ l') = (preconditioner? l).or (preconditioner? l') := List.findSome?_append

theorem preconditioner_none {l : List Sub} (h : ∀ a ∈ l, a.name ≠ .preconditioner) : preconditioner? l = none :=
  findSome_none h fun a ha => by cases a <;> first | rfl | exact absurd rfl ha

theorem restartMode_append (l l' : List Sub) : restartMode? (l ++ l') = (restartMode? l).or (restartMode? l') := List.findSome?_append

theorem restartMode_none {l : List Sub} (h : ∀ a ∈ l, a.name ≠ .restartMode) : restartMode? l = none :=
  findSome_none h fun a ha => by cases a <;> first | rfl | exact absurd rfl ha

theorem dataOf_append (l l' : List Sub) : dataOf (l ++ l') = dataOf l ++ dataOf l' := List.filterMap_append

/-- When the callback of a subtag accepts it. -/
def SubFits (known : String → String → Bool) (build : Bool) (s : Sub) (seen : List (String × String)) : Prop :=
  match s with
  | .data n m _ => (n, m) ∉ seen ∧ known m n = true
  | .restartMode type _ _ _ => type.getD .svd = .no ∨ build = false
  | _ => True

theorem subTag_error {known : String → String → Bool} {k : Kind} {s : Sub} {d : Data} {seen : List (String × String)}
    (h : ¬ SubFits known d.alwaysBuildJacobian s seen) : subTag known k s d seen = .error .check := by
  cases s with
  | data n m sc =>
    unfold SubFits at h
    unfold subTag
    by_cases h1 : (n, m) ∈ seen
    · simp [h1]
    · simp only [h1, not_false_eq_true, true_and, Bool.not_eq_true] at h
      cases hq : k.isQN <;> simp [h1, h, attr, get, bind, Except.bind]
  | restartMode t c r e =>
    unfold SubFits at h
    unfold subTag
    rw [not_or] at h
    simp [attr, get, bind, Except.bind, h.1, h.2]
  | _ => exact absurd trivial h

theorem subTag_ok {known : String → String → Bool} {k : Kind} {l : List Sub} {s : Sub} {d : Data} {seen : List (String × String)}
    (hv : SubsValid k (l ++ [s])) (hp : s.name = .preconditioner → k ≠ .aitken) (h : SubFits known d.alwaysBuildJacobian s seen) :
    subTag known k s (collect k d l) seen = .ok (collect k d (l ++ [s]), seen ++ (dataOf [s]).map (·.1)) := by
  obtain ⟨hv1, hk, hn⟩ := hv.init
  have no : ∀ n, k.has n = false → ∀ a ∈ l, a.name ≠ n := fun n h1 a ha he => by
    have := hv1.2 a ha
    rw [he, h1] at this
    exact Bool.noConfusion this
  unfold collect
  rw [relaxation_append, initialRelaxation_append, maxUsedIterations_append, timeWindowsReused_append, filter_append, preconditioner_append, restartMode_append,
    dataOf_append]
  cases s with
  | relaxation v =>
    have hk' : k = .constant := by simpa [Sub.name, Kind.has] using hk
    rw [relaxation_none (hn (by simp [Sub.name])), initialRelaxation_none (no _ (by rw [hk']; rfl))]
    simp [subTag, dataOf, relaxation?, initialRelaxation?, maxUsedIterations?, timeWindowsReused?, filter?, preconditioner?, restartMode?]
  | data n m sc =>
    unfold SubFits at h
    cases hq : k.isQN <;>
    simp [subTag, dataOf, relaxation?, initialRelaxation?, maxUsedIterations?, timeWindowsReused?, filter?, preconditioner?, restartMode?, h, get, attr, bind, Except.bind, hq]
  | initialRelaxation v e =>
    rw [initialRelaxation_none (hn (by simp [Sub.name]))]
    cases hq : k.isQN <;>
    simp [subTag, dataOf, relaxation?, initialRelaxation?, maxUsedIterations?, timeWindowsReused?, filter?, preconditioner?, restartMode?, get, attr, bind, Except.bind, hq,
      Kind.hasEnforce]
  | maxUsedIterations v =>
    rw [maxUsedIterations_none (hn (by simp [Sub.name]))]
    simp [subTag, dataOf, relaxation?, initialRelaxation?, maxUsedIterations?, timeWindowsReused?, filter?, preconditioner?, restartMode?]
  | timeWindowsReused v =>
    rw [timeWindowsReused_none (hn (by simp [Sub.name]))]
    simp [subTag, dataOf, relaxation?, initialRelaxation?, maxUsedIterations?, timeWindowsReused?, filter?, preconditioner?, restartMode?]
  | filter t v =>
    rw [filter_none (hn (by simp [Sub.name]))]
    simp [subTag, dataOf, relaxation?, initialRelaxation?, maxUsedIterations?, timeWindowsReused?, filter?, preconditioner?, restartMode?, get, attr, bind, Except.bind]
  | preconditioner t u f =>
    have hq : k.isQN = true := by
      have := hp rfl
      revert hk this
      cases k <;> simp [Sub.name, Kind.has, Kind.isQN]
    rw [preconditioner_none (hn (by simp [Sub.name]))]
    simp [subTag, dataOf, relaxation?, initialRelaxation?, maxUsedIterations?, timeWindowsReused?, filter?, preconditioner?, restartMode?, get, attr, bind, Except.bind,
      Kind.hasUpdateOnThreshold, hq]
  | restartMode t c r e =>
    unfold SubFits at h
    rw [restartMode_none (hn (by simp [Sub.name]))]
    simp only [subTag, dataOf, relaxation?, initialRelaxation?, maxUsedIterations?, timeWindowsReused?, filter?, preconditioner?, restartMode?, get, attr, bind, Except.bind,
      if_true, h]
    cases ht : t.getD .svd <;> simp [ht]

theorem collect_nil (k : Kind) (t : Tag) : collect k (opened t) [] = opened t := by
  simp [collect, opened, dataOf, relaxation?, initialRelaxation?, maxUsedIterations?, timeWindowsReused?, filter?, preconditioner?, restartMode?]

theorem DataFits_snoc {known : String → String → Bool} {build : Bool} {seen : List (String × String)} {l : List Sub} {s : Sub}
    (hr : s.name = .restartMode → ∀ a ∈ l, a.name ≠ .restartMode) :
    (DataFits known seen (l ++ [s]) ∧ RestartFits build (l ++ [s])) ↔
      (DataFits known seen l ∧ RestartFits build l) ∧ SubFits known build s (seen ++ (dataOf l).map (·.1)) := by
  unfold DataFits RestartFits
  rw [dataOf_append, restartMode_append]
  cases s with
  | data n m sc =>
    have e : dataOf [Sub.data n m sc] = [((n, m), sc)] := rfl
    have e' : restartMode? [Sub.data n m sc] = none := rfl
    rw [e, e', Option.or_none]
    simp only [SubFits, List.map_append, List.map_cons, List.map_nil, List.nodup_append, List.mem_append, List.mem_singleton, not_or, List.nodup_cons,
      List.not_mem_nil, not_false_eq_true, List.nodup_nil, and_true, true_and]
    constructor
    · rintro ⟨⟨⟨h1, h2⟩, h3⟩, h4⟩
      refine ⟨⟨⟨h1, fun e he => h3 e (.inl he)⟩, h4⟩, ⟨(h3 _ (.inr rfl)).1, fun hm => h2 _ hm _ rfl rfl⟩, (h3 _ (.inr rfl)).2⟩
    · rintro ⟨⟨⟨h1, h2⟩, h3⟩, ⟨h4, h5⟩, h6⟩
      refine ⟨⟨⟨h1, ?_⟩, ?_⟩, h3⟩
      · rintro a ha b rfl rfl
        exact h5 ha
      · rintro e (he | rfl)
        · exact h2 e he
        · exact ⟨h4, h6⟩
  | restartMode t c r e =>
    have e1 : dataOf [Sub.restartMode t c r e] = [] := rfl
    have e2 : restartMode? [Sub.restartMode t c r e] = some (t, c, r, e) := rfl
    rw [e1, e2, restartMode_none (hr rfl), List.append_nil]
    simp [SubFits]
  | _ =>
    simp [SubFits, dataOf, restartMode?]

/-- The subtags are accepted if they fit, and lead to `collect`. -/
theorem subTags_eq {known : String → String → Bool} {k : Kind} {t : Tag} {seen : List (String × String)} (l : List Sub) (hv : SubsValid k l)
    (hp : k = .aitken → ∀ s ∈ l, s.name ≠ .preconditioner) :
    (DataFits known seen l ∧ RestartFits t.builds l → subTags known k l (opened t) seen = .ok (collect k (opened t) l, seen ++ (dataOf l).map (·.1))) ∧
    (¬ (DataFits known seen l ∧ RestartFits t.builds l) → subTags known k l (opened t) seen = .error .check) := by
  induction l using List.reverseRecOn with
  | nil =>
    constructor
    · intro _
      rw [collect_nil]
      simp [subTags, dataOf]
    · intro h
      exact absurd ⟨by simp [DataFits, dataOf], by simp [RestartFits, restartMode?]⟩ h
  | append_singleton l s ih =>
    obtain ⟨hv1, hk, hn⟩ := hv.init
    obtain ⟨ih1, ih2⟩ := ih hv1 fun hk s hs => hp hk s (by simp [hs])
    rw [DataFits_snoc fun hs => by
      have := hn (by rw [hs]; decide)
      rwa [hs] at this]
    rw [subTags_snoc]
    by_cases h1 : DataFits known seen l ∧ RestartFits t.builds l
    · rw [ih1 h1]
      constructor
      · rintro ⟨-, h2⟩
        show subTag known k s _ _ = _
        rw [subTag_ok hv (fun hs hk => hp hk s (by simp) hs) h2, dataOf_append, List.map_append, List.append_assoc]
      · intro h2
        have h3 : ¬ SubFits known t.builds s (seen ++ (dataOf l).map (·.1)) := fun h => h2 ⟨h1, h⟩
        exact subTag_error h3
    · rw [ih2 h1]
      exact ⟨fun h => absurd h.1 h1, fun _ => rfl⟩

/-! ## The end of the tag -/

theorem find_key {es : List ((String × String) × ℚ)} (hn : (es.map (·.1)).Nodup) {e : (String × String) × ℚ} (he : e ∈ es) :
    (es.find? fun x => x.1 == e.1) = some e := by
  induction es with
  | nil => cases he
  | cons a es ih =>
    rw [List.map_cons, List.nodup_cons] at hn
    rw [List.find?_cons]
    rcases List.mem_cons.1 he with rfl | h
    · simp
    · have : a.1 ≠ e.1 := fun hq => hn.1 (hq ▸ List.mem_map_of_mem h)
      rw [beq_eq_false_iff_ne.2 this]
      exact ih hn.2 h

theorem mapM_keys {es l : List ((String × String) × ℚ)} (hn : (es.map (·.1)).Nodup) (hl : ∀ e ∈ l, e ∈ es) :
    ((l.map (·.1)).mapM fun i => match (es.find? fun e => e.1 == i) with
      | some e => (Except.ok e.2 : Except Err ℚ)
      | none => .error .assert) = .ok (l.map (·.2)) := by
  induction l with
  | nil => rfl
  | cons a l ih =>
    rw [List.map_cons, List.mapM_cons, find_key hn (hl a (by simp)), ih fun e he => hl e (by simp [he])]
    rfl

theorem factors_collect {k : Kind} {d : Data} {l : List Sub} (hk : k.isQN = true) (h : ((dataOf l).map (·.1)).Nodup) :
    factors (collect k d l) = .ok ((dataOf l).map fun e => e.2.getD 1) := by
  have h1 : (collect k d l).data = (collect k d l).scalings.map (·.1) := by
    simp [collect]
  unfold factors
  rw [h1]
  refine Eq.trans (mapM_keys (es := (collect k d l).scalings) (by rw [← h1]; exact h) fun e he => he) ?_
  simp [collect, hk]

theorem WellFormed_factors {d : Data} {d' : Data} (h1 : d'.data = d.data) (h2 : d'.scalings = d.scalings) : factors d' = factors d := by
  unfold factors
  rw [h1, h2]

end Verif.Config.Accel
