import Verif.Config.ActionSpec
import Mathlib.Tactic.Common

/-!
# C124: Configuration of actions, and Python actions
-/

set_option autoImplicit false

namespace Verif.Config.Act

open Scheme (Err)

theorem sourcesOf_eq (w : World) (mesh : String) (l : List String) :
    sourcesOf w mesh l = if ∀ n ∈ l, (w.dims mesh n).isSome = true then .ok l else .error .check := by
  induction l with
  | nil => simp [sourcesOf]
  | cons n l ih =>
    simp only [sourcesOf, ih, List.forall_mem_cons]
    by_cases h1 : (w.dims mesh n).isSome = true
    · by_cases h2 : ∀ n ∈ l, (w.dims mesh n).isSome = true
      · rw [if_pos h1, if_pos h2, if_pos ⟨h1, h2⟩]
        rfl
      · rw [if_pos h1, if_neg h2, if_neg fun h => h2 h.2]
        rfl
    · rw [if_neg h1, if_neg fun h => h1 h.1]

theorem targetOf_eq (w : World) (t : Tag) (hn : t.target ≠ some "") :
    targetOf w t = if ∀ n, t.target = some n → (w.dims t.mesh n).isSome = true then .ok t.target else .error .check := by
  unfold targetOf
  cases h : t.target with
  | none => simp
  | some n =>
    have : n ≠ "" := fun hq => hn (by rw [h, hq])
    simp [this]

theorem configure_one (w : World) (t : Tag) :
    configure w [t] = (createAction w t).bind fun a => if w.isUsed a.mesh then .ok [a] else .error .check := by
  unfold configure
  rw [List.mapM_cons, List.mapM_nil]
  cases createAction w t <;> simp [bind, Except.bind, pure, Except.pure]

/-- What is common to all kinds. -/
theorem createAction_common (w : World) (t : Tag) (hn : t.target ≠ some "") :
    (w.isMesh t.mesh = true ∧ (∀ n ∈ t.sources, (w.dims t.mesh n).isSome = true) ∧ (∀ n, t.target = some n → (w.dims t.mesh n).isSome = true) →
      createAction w t = match t.kind with
        | .multiplyByArea | .divideByArea =>
          match t.target with
          | none => .error .undef
          | some target => .ok (.scale t.timing t.mesh target (t.kind == .multiplyByArea))
        | .summation => summation w t.timing t.mesh t.sources t.target
        | .recorder => .ok (.recorder t.timing t.mesh)
        | .python =>
          match t.sources.getLast? with
          | none => .error .undef
          | some source => python w t.timing (t.path.getD "") t.modul t.mesh t.target (some source)) ∧
    (¬ (w.isMesh t.mesh = true ∧ (∀ n ∈ t.sources, (w.dims t.mesh n).isSome = true) ∧ (∀ n, t.target = some n → (w.dims t.mesh n).isSome = true)) →
      createAction w t = .error .check) := by
  unfold createAction
  rw [targetOf_eq w t hn, sourcesOf_eq]
  constructor
  · rintro ⟨h1, h2, h3⟩
    rw [if_pos h1, if_pos h2, if_pos h3]
    rfl
  · intro h
    by_cases h1 : w.isMesh t.mesh = true
    · rw [if_pos h1]
      by_cases h3 : ∀ n, t.target = some n → (w.dims t.mesh n).isSome = true
      · rw [if_pos h3, if_neg fun h2 => h ⟨h1, h2, h3⟩]
        rfl
      · rw [if_neg h3]
        rfl
    · rw [if_neg h1]

/-- A tag that conforms to the schema yields the documented action if it is well-formed, and is otherwise rejected with an error message.
Missing: Python actions without source (`C124_python_source`) or without path (`C124_python_path`), for which the code violates the claim, and an empty name of the
target (`C124_empty_target`). -/
theorem C124_configure_partial (w : World) {t : Tag} (hv : t.Valid) (hn : t.target ≠ some "") (hs : t.kind = .python → t.sources ≠ [])
    (hp : t.kind = .python → t.path ≠ none) :
    (t.WellFormed w → configure w [t] = .ok [t.expected]) ∧ (¬ t.WellFormed w → configure w [t] = .error .check) := by
  obtain ⟨c1, c2⟩ := createAction_common w t hn
  rw [configure_one]
  by_cases hc : w.isMesh t.mesh = true ∧ (∀ n ∈ t.sources, (w.dims t.mesh n).isSome = true) ∧ (∀ n, t.target = some n → (w.dims t.mesh n).isSome = true)
  · rw [c1 hc]
    unfold Tag.Valid at hv
    have hW : t.WellFormed w ↔ w.isUsed t.mesh = true ∧ (t.kind = .summation → ∀ n, t.target = some n → ∀ m ∈ t.sources, w.dims t.mesh m = w.dims t.mesh n) ∧
        (t.kind = .python → w.isDirectory (t.path.getD ".") = true) :=
      ⟨fun h => ⟨h.used, h.dims, h.path⟩, fun h => ⟨hc.1, h.1, hc.2.1, hc.2.2, h.2.1, h.2.2⟩⟩
    rw [hW]
    unfold Tag.expected
    cases hk : t.kind with
    | multiplyByArea =>
      rw [hk] at hv
      obtain ⟨n, ht⟩ := Option.isSome_iff_exists.1 hv.2
      by_cases hu : w.isUsed t.mesh = true <;> simp [ht, Except.bind, Action.mesh, hu]
    | divideByArea =>
      rw [hk] at hv
      obtain ⟨n, ht⟩ := Option.isSome_iff_exists.1 hv.2
      by_cases hu : w.isUsed t.mesh = true <;> simp [ht, Except.bind, Action.mesh, hu]
    | recorder => by_cases hu : w.isUsed t.mesh = true <;> simp [Except.bind, Action.mesh, hu]
    | summation =>
      rw [hk] at hv
      obtain ⟨n, ht⟩ := Option.isSome_iff_exists.1 hv.2
      simp only [ht, summation, Option.some.injEq, forall_eq', true_implies, reduceCtorEq, false_implies, and_true, List.all_eq_true, beq_iff_eq, Option.getD_some]
      by_cases hd : ∀ m ∈ t.sources, w.dims t.mesh m = w.dims t.mesh n
      · rw [if_pos hd]
        by_cases hu : w.isUsed t.mesh = true
        · simp only [Except.bind, Action.mesh, hu, if_true, true_and]
          exact ⟨fun _ => trivial, fun h => absurd hd h⟩
        · simp [Except.bind, Action.mesh, hu]
      · rw [if_neg hd]
        exact ⟨fun h => absurd h.2 hd, fun _ => rfl⟩
    | python =>
      rw [hk] at hv
      obtain ⟨p, hp⟩ := Option.ne_none_iff_exists'.1 (hp hk)
      obtain ⟨n, hn⟩ : ∃ n, t.sources = [n] := by
        have := hs hk
        match hl : t.sources with
        | [] => exact absurd hl this
        | [n] => exact ⟨n, rfl⟩
        | a :: b :: l =>
          rw [hl] at hv
          simp at hv
      by_cases hd : w.isDirectory p = true <;> by_cases hu : w.isUsed t.mesh = true <;> simp [hn, hp, python, hd, hu, Except.bind, Action.mesh]
  · rw [c2 hc]
    exact ⟨fun h => absurd ⟨h.mesh, h.source, h.target⟩ hc, fun _ => rfl⟩

/-- A Python action without source is documented as possible, but leads to undefined behaviour even if everything else is right. -/
theorem C124_python_source (w : World) {t : Tag} (hk : t.kind = .python) (hs : t.sources = []) (hn : t.target ≠ some "") (hw : t.WellFormed w) :
    configure w [t] = .error .undef := by
  rw [configure_one, (createAction_common w t hn).1 ⟨hw.mesh, hw.source, hw.target⟩]
  simp [hk, hs, Except.bind]

/-- A Python action without path is documented to use the current path, but is rejected: the empty path is not a directory. -/
theorem C124_python_path (w : World) (he : w.isDirectory "" = false) {t : Tag} (hk : t.kind = .python) (hs : t.sources ≠ []) (hp : t.path = none)
    (hn : t.target ≠ some "") : configure w [t] = .error .check := by
  rw [configure_one]
  by_cases hc : w.isMesh t.mesh = true ∧ (∀ n ∈ t.sources, (w.dims t.mesh n).isSome = true) ∧ (∀ n, t.target = some n → (w.dims t.mesh n).isSome = true)
  · rw [(createAction_common w t hn).1 hc]
    obtain ⟨n, hl⟩ := Option.ne_none_iff_exists'.1 (mt List.getLast?_eq_none_iff.1 hs)
    simp [hk, hl, hp, python, he, Except.bind]
  · rw [(createAction_common w t hn).2 hc]
    rfl

/-- An empty name of the target of a summation or scaling is not rejected but leads to undefined behaviour. -/
theorem C124_empty_target (w : World) {t : Tag} (hk : t.kind = .summation ∨ t.kind = .multiplyByArea ∨ t.kind = .divideByArea) (ht : t.target = some "")
    (hm : w.isMesh t.mesh = true) (hs : ∀ n ∈ t.sources, (w.dims t.mesh n).isSome = true) : configure w [t] = .error .undef := by
  rw [configure_one]
  unfold createAction
  rw [sourcesOf_eq, if_pos hm, if_pos hs]
  rcases hk with hk | hk | hk <;> simp [targetOf, ht, hk, summation, bind, Except.bind]

/-! ## Performing -/

variable {σ V : Type}

theorem Calls.length {f : UserFunction σ V} {s s' : σ} {l : List (ℚ × Option V × V)} {outs : List (Option V × V)} (h : Calls f s l s' outs) :
    outs.length = l.length := by
  induction h with
  | nil => rfl
  | cons _ _ ih => simp [ih]

theorem loopBoth_ok (f : UserFunction σ V) (s : σ) (src tgt : List (ℚ × V)) (hl : tgt.length = src.length) (r : σ × List (ℚ × V) × List (ℚ × V)) :
    loopBoth f s src tgt = .ok r ↔ List.Forall₂ (fun a b : ℚ × V => equals a.1 b.1) src tgt ∧
      ∃ outs, Calls f s (argsBoth src tgt) r.1 outs ∧ r.2.1 = newSource src outs ∧ r.2.2 = newTarget tgt outs := by
  induction src generalizing s tgt r with
  | nil =>
    cases tgt with
    | cons => simp at hl
    | nil =>
      obtain ⟨r1, r2, r3⟩ := r
      simp only [loopBoth, Except.ok.injEq, Prod.mk.injEq, List.Forall₂.nil, argsBoth, List.zipWith_nil_left, newSource, newTarget, true_and]
      constructor
      · rintro ⟨rfl, rfl, rfl⟩
        exact ⟨[], .nil _, rfl, rfl⟩
      · rintro ⟨outs, h, rfl, rfl⟩
        cases h
        exact ⟨rfl, rfl, rfl⟩
  | cons a src ih =>
    cases tgt with
    | nil => simp at hl
    | cons b tgt =>
      obtain ⟨ta, va⟩ := a
      obtain ⟨tb, vb⟩ := b
      obtain ⟨r1, r2, r3⟩ := r
      simp only [List.length_cons, Nat.add_right_cancel_iff] at hl
      simp only [loopBoth]
      by_cases he : equals ta tb
      · rw [if_pos he]
        constructor
        · intro h
          split at h
          · cases h
          · rename_i s1 vs' v' hf
            simp only [bind, Except.bind] at h
            split at h
            · cases h
            · rename_i q hq
              obtain ⟨h1, outs, h2, h3, h4⟩ := (ih s1 tgt hl q).1 hq
              cases h
              refine ⟨.cons he h1, (vs', v') :: outs, .cons hf h2, ?_, ?_⟩
              · simp [newSource] at h3 ⊢
                exact h3
              · simp [newTarget] at h4 ⊢
                exact h4
        · rintro ⟨h1, outs, h2, h3, h4⟩
          cases h1 with
          | cons _ h1 =>
            cases h2 with
            | cons hf h2 =>
              rw [hf]
              have := (ih _ tgt hl (r1, newSource src _, newTarget tgt _)).2 ⟨h1, _, h2, rfl, rfl⟩
              simp only [this, bind, Except.bind]
              rw [h3, h4]
              rfl
      · rw [if_neg he]
        constructor
        · intro h
          cases h
        · rintro ⟨h1, -⟩
          cases h1 with
          | cons h _ => exact absurd h he

theorem loopBoth_error (f : UserFunction σ V) (s : σ) (src tgt : List (ℚ × V)) (e : Err) (h : loopBoth f s src tgt = .error e) : e = .check := by
  induction src generalizing s tgt with
  | nil => cases tgt <;> cases h
  | cons a src ih =>
    cases tgt with
    | nil => cases h
    | cons b tgt =>
      simp only [loopBoth] at h
      split at h
      · split at h
        · cases h
          rfl
        · simp only [bind, Except.bind] at h
          split at h
          · rename_i e' h'
            cases h
            exact ih _ _ h'
          · cases h
      · cases h
        rfl

theorem loopTarget_ok (f : UserFunction σ V) (s : σ) (tgt : List (ℚ × V)) (r : σ × List (ℚ × V)) :
    loopTarget f s tgt = .ok r ↔ ∃ outs, Calls f s (argsTarget tgt) r.1 outs ∧ r.2 = newTarget tgt outs := by
  induction tgt generalizing s r with
  | nil =>
    obtain ⟨r1, r2⟩ := r
    simp only [loopTarget, Except.ok.injEq, Prod.mk.injEq, argsTarget, List.map_nil, newTarget, List.zipWith_nil_left]
    constructor
    · rintro ⟨rfl, rfl⟩
      exact ⟨[], .nil _, rfl⟩
    · rintro ⟨outs, h, rfl⟩
      cases h
      exact ⟨rfl, rfl⟩
  | cons b tgt ih =>
    obtain ⟨tb, vb⟩ := b
    obtain ⟨r1, r2⟩ := r
    simp only [loopTarget]
    constructor
    · intro h
      split at h
      · cases h
      · rename_i s1 vs' v' hf
        simp only [bind, Except.bind] at h
        split at h
        · cases h
        · rename_i q hq
          obtain ⟨outs, h2, h3⟩ := (ih s1 q).1 hq
          cases h
          refine ⟨(vs', v') :: outs, .cons hf h2, ?_⟩
          simp [newTarget] at h3 ⊢
          exact h3
    · rintro ⟨outs, h2, h3⟩
      cases h2 with
      | cons hf h2 =>
        rw [hf]
        have := (ih _ (r1, newTarget tgt _)).2 ⟨_, h2, rfl⟩
        simp only [this, bind, Except.bind]
        rw [h3]
        rfl

theorem loopTarget_error (f : UserFunction σ V) (s : σ) (tgt : List (ℚ × V)) (e : Err) (h : loopTarget f s tgt = .error e) : e = .check := by
  induction tgt generalizing s with
  | nil => cases h
  | cons b tgt ih =>
    simp only [loopTarget] at h
    split at h
    · cases h
      rfl
    · simp only [bind, Except.bind] at h
      split at h
      · rename_i e' h'
        cases h
        exact ih _ h'
      · cases h

/-- With source and target, the user's function is called once for every sample in the order of time, with the time and both values, and what it leaves in the arrays
is what is stored afterwards. This is so exactly if source and target have samples at the same times and no call raises an exception, otherwise there is an error
message. -/
theorem C124_perform (f : UserFunction σ V) (s : σ) (src tgt : List (ℚ × V)) (hne : tgt ≠ []) :
    (∀ r, perform f s (some src) (some tgt) = .ok r ↔ tgt.length = src.length ∧ List.Forall₂ (fun a b : ℚ × V => equals a.1 b.1) src tgt ∧
      ∃ outs, Calls f s (argsBoth src tgt) r.1 outs ∧ r.2 = (some (newSource src outs), some (newTarget tgt outs))) ∧
    ∀ e, perform f s (some src) (some tgt) = .error e → e = .check := by
  unfold perform
  dsimp only
  by_cases hl : tgt.length = src.length
  · rw [if_pos hl]
    have hE : ∀ outs : List (Option V × V), outs.length = tgt.length → (newTarget tgt outs).isEmpty = false := by
      intro outs ho
      cases tgt with
      | nil => exact absurd rfl hne
      | cons b tgt =>
        cases outs with
        | nil => simp at ho
        | cons o outs => rfl
    have hlen : ∀ {s' outs}, Calls f s (argsBoth src tgt) s' outs → outs.length = tgt.length := fun h => by
      rw [h.length, argsBoth, List.length_zipWith, hl, Nat.min_self]
    cases hq : loopBoth f s src tgt with
    | error e =>
      refine ⟨fun r => ⟨fun h => (by cases h), ?_⟩, fun e' h => ?_⟩
      · rintro ⟨-, h1, outs, h2, h3⟩
        have := (loopBoth_ok f s src tgt hl (r.1, newSource src outs, newTarget tgt outs)).2 ⟨h1, outs, h2, rfl, rfl⟩
        rw [hq] at this
        cases this
      · cases h
        exact loopBoth_error f s src tgt _ hq
    | ok q =>
      obtain ⟨h1, outs, h2, h3, h4⟩ := (loopBoth_ok f s src tgt hl q).1 hq
      obtain ⟨q1, q2, q3⟩ := q
      simp only at h2 h3 h4
      subst h3 h4
      simp only [bind, Except.bind, hE outs (hlen h2), Bool.false_eq_true, if_false]
      refine ⟨fun r => ⟨fun h => ?_, ?_⟩, fun e h => by cases h⟩
      · cases h
        exact ⟨hl, h1, outs, h2, rfl⟩
      · rintro ⟨-, -, outs', h2', h3'⟩
        have := (loopBoth_ok f s src tgt hl (r.1, newSource src outs', newTarget tgt outs')).2 ⟨h1, outs', h2', rfl, rfl⟩
        rw [hq] at this
        obtain ⟨r1, r2⟩ := r
        simp only at h3' this
        subst h3'
        simp only [Except.ok.injEq, Prod.mk.injEq] at this ⊢
        exact ⟨this.1, by rw [this.2.1], by rw [this.2.2]⟩
  · rw [if_neg hl]
    exact ⟨fun r => ⟨fun h => (by cases h), fun h => absurd h.1 hl⟩, fun e h => by cases h; rfl⟩

/-- Without source, the same holds for the samples of the target. (The configuration does not lead to this case, see `C124_python_source`.) -/
theorem C124_perform_target (f : UserFunction σ V) (s : σ) (tgt : List (ℚ × V)) (hne : tgt ≠ []) :
    (∀ r, perform f s none (some tgt) = .ok r ↔ ∃ outs, Calls f s (argsTarget tgt) r.1 outs ∧ r.2 = (none, some (newTarget tgt outs))) ∧
    ∀ e, perform f s none (some tgt) = .error e → e = .check := by
  unfold perform
  dsimp only
  have hE : ∀ outs : List (Option V × V), outs.length = tgt.length → (newTarget tgt outs).isEmpty = false := by
    intro outs ho
    cases tgt with
    | nil => exact absurd rfl hne
    | cons b tgt =>
      cases outs with
      | nil => simp at ho
      | cons o outs => rfl
  cases hq : loopTarget f s tgt with
  | error e =>
    refine ⟨fun r => ⟨fun h => (by cases h), ?_⟩, fun e' h => ?_⟩
    · rintro ⟨outs, h2, h3⟩
      have := (loopTarget_ok f s tgt (r.1, newTarget tgt outs)).2 ⟨outs, h2, rfl⟩
      rw [hq] at this
      cases this
    · cases h
      exact loopTarget_error f s tgt _ hq
  | ok q =>
    obtain ⟨outs, h2, h4⟩ := (loopTarget_ok f s tgt q).1 hq
    obtain ⟨q1, q3⟩ := q
    simp only at h2 h4
    subst h4
    simp only [bind, Except.bind, hE outs (by rw [h2.length, argsTarget, List.length_map]), Bool.false_eq_true, if_false]
    refine ⟨fun r => ⟨fun h => ?_, ?_⟩, fun e h => by cases h⟩
    · cases h
      exact ⟨outs, h2, rfl⟩
    · rintro ⟨outs', h2', h3'⟩
      have := (loopTarget_ok f s tgt (r.1, newTarget tgt outs')).2 ⟨outs', h2', rfl⟩
      rw [hq] at this
      obtain ⟨r1, r2⟩ := r
      simp only at h3' this
      subst h3'
      simp only [Except.ok.injEq, Prod.mk.injEq] at this ⊢
      exact ⟨this.1, trivial, by rw [this.2]⟩

/-- A Python action without target is documented as possible and accepted, but performing it is undefined. -/
theorem C124_python_target (w : World) {t : Tag} (hk : t.kind = .python) (ht : t.target = none) (hs : t.sources.length = 1) (hp : t.path ≠ none)
    (hw : t.WellFormed w) (f : UserFunction σ V) (s : σ) (src : Option (List (ℚ × V))) :
    configure w [t] = .ok [t.expected] ∧ perform f s src none = .error .undef := by
  refine ⟨(C124_configure_partial w ?_ (by simp [ht]) (fun _ h => by simp [h] at hs) fun _ => hp).1 hw, ?_⟩
  · unfold Tag.Valid
    rw [hk]
    exact hs.le
  · unfold perform
    cases src <;> rfl

end Verif.Config.Act
