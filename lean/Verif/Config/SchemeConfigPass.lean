import Verif.Config.SchemeConfigLemmas

/-!
# A coupling scheme from its tags: what passes, and what the end tag does (C109)
-/

set_option autoImplicit false

namespace Verif.Config.Scheme

/-! ## Valid tags pass -/

/-- What is needed for the remaining tags. -/
structure Rest (c : Cfg) (ts : List STag) : Prop where
  maxTime : ∀ v ∈ maxTimesOf ts, 0 < v
  maxWindows : ∀ v ∈ maxWindowsOf ts, 0 < v
  size : ∀ v, some v ∈ sizesOf ts → tol ≤ v
  minIter : ∀ v ∈ minItersOf ts, 0 < v
  maxIter : ∀ v ∈ maxItersOf ts, 0 < v
  limit : ∀ m ∈ measuresOf ts, m.limit.ok = true
  order : ∀ a ∈ c.minIterations :: minItersOf ts, ∀ b ∈ c.maxIterations :: maxItersOf ts, 0 < b → a ≤ b
  nodup : (c.participants ++ partsOf ts).Nodup
  member : ∀ n, c.controller = some n → n ∈ c.participants
  control : (c.controller.toList ++ controlsOf ts).length ≤ 1
  exchange : (c.exchanges ++ exchangesOf ts).Pairwise fun e f => ¬ (e.src = f.src ∧ e.dst = f.dst ∧ e.data = f.data)

theorem rest_tag {c : Cfg} {t : STag} {ts : List STag} (h : Rest c (t :: ts)) : TagOk c t ∧ consistent (apply c t) = true := by
  constructor
  · rcases t with ⟨f, s⟩ | ⟨n, control⟩ | v | v | ⟨v, _ | _⟩ | m | e | v | v
    · have := h.nodup
      unfold partsOf at this
      rw [List.flatMap_cons, List.nodup_append] at this
      have := this.2.1
      rw [List.nodup_append] at this
      have := this.1
      simpa [TagOk] using this
    · have h1 := h.nodup
      unfold partsOf at h1
      rw [List.flatMap_cons, List.nodup_append] at h1
      have h2 : n ∉ c.participants := fun hn => h1.2.2 n hn n (by simp) rfl
      refine ⟨?_, ?_⟩
      · rintro (hn | hn)
        · exact h2 hn
        · exact h2 (h.member n hn)
      · rintro rfl
        have h3 := h.control
        unfold controlsOf at h3
        rw [List.flatMap_cons] at h3
        simp only [List.length_append, List.length_singleton] at h3
        cases hc : c.controller with
        | none => rfl
        | some m =>
          rw [hc] at h3
          simp only [Option.toList_some, List.length_singleton] at h3
          omega
    · exact h.maxTime v (by simp [maxTimesOf])
    · exact h.maxWindows v (by simp [maxWindowsOf])
    · exact h.size v (by simp [sizesOf])
    · trivial
    · exact h.limit m (by simp [measuresOf])
    · have h1 := h.exchange
      unfold exchangesOf at h1
      rw [List.flatMap_cons, List.pairwise_append] at h1
      show hasExchange c.exchanges e = false
      unfold hasExchange
      rw [List.any_eq_false]
      intro x hx
      rw [decide_eq_true_eq]
      exact h1.2.2 x hx e (by simp)
    · exact h.minIter v (by simp [minItersOf])
    · exact h.maxIter v (by simp [maxItersOf])
  · have key : (apply c t).minIterations ∈ c.minIterations :: minItersOf (t :: ts) ∧ (apply c t).maxIterations ∈ c.maxIterations :: maxItersOf (t :: ts) := by
      rcases t with _ | ⟨_, _ | _⟩ | _ | _ | ⟨_, _ | _⟩ | _ | _ | _ | _ <;> simp [apply, minItersOf, maxItersOf]
    have := h.order _ key.1 _ key.2
    unfold consistent
    by_cases h1 : 0 < (apply c t).maxIterations
    · have := this h1
      simp [this]
    · simp [h1]

theorem rest_step {c : Cfg} {t : STag} {ts : List STag} (h : Rest c (t :: ts)) : Rest (apply c t) ts := by
  have sub : ∀ {α : Type} (f : STag → List α) (x : α), x ∈ ts.flatMap f → x ∈ (t :: ts).flatMap f := by
    intro α f x hx
    rw [List.flatMap_cons]
    exact List.mem_append_right _ hx
  refine ⟨fun v hv => h.maxTime v (sub _ _ hv), fun v hv => h.maxWindows v (sub _ _ hv), fun v hv => h.size v (sub _ _ hv), fun v hv => h.minIter v (sub _ _ hv),
    fun v hv => h.maxIter v (sub _ _ hv), fun v hv => h.limit v (sub _ _ hv), ?_, ?_, ?_, ?_, ?_⟩
  · intro a ha b hb
    refine h.order a ?_ b ?_
    · rcases t with _ | ⟨_, _ | _⟩ | _ | _ | ⟨_, _ | _⟩ | _ | _ | _ | _ <;> simp only [apply, minItersOf, List.flatMap_cons, List.mem_cons, List.mem_append, List.not_mem_nil] at ha ⊢ <;> tauto
    · rcases t with _ | ⟨_, _ | _⟩ | _ | _ | ⟨_, _ | _⟩ | _ | _ | _ | _ <;> simp only [apply, maxItersOf, List.flatMap_cons, List.mem_cons, List.mem_append, List.not_mem_nil] at hb ⊢ <;> tauto
  · have := h.nodup
    unfold partsOf at this ⊢
    rw [List.flatMap_cons, ← List.append_assoc] at this
    rcases t with _ | ⟨_, _ | _⟩ | _ | _ | ⟨_, _ | _⟩ | _ | _ | _ | _ <;> simp only [apply, List.append_nil] at this ⊢ <;> exact this
  · have := h.member
    rcases t with _ | ⟨_, _ | _⟩ | _ | _ | ⟨_, _ | _⟩ | _ | _ | _ | _ <;> simp only [apply] <;> intro n hn
    all_goals first
      | exact this n hn
      | exact List.mem_append_left _ (this n hn)
      | (rw [Option.some.injEq] at hn; subst hn; simp)
  · have := h.control
    unfold controlsOf at this ⊢
    rw [List.flatMap_cons] at this
    rcases t with _ | ⟨n, _ | _⟩ | _ | _ | ⟨_, _ | _⟩ | _ | _ | _ | _ <;> simp only [apply, List.nil_append] at this ⊢
    all_goals first
      | exact this
      | (simp only [List.length_append, List.length_singleton, Option.toList_some] at this ⊢; omega)
  · have := h.exchange
    unfold exchangesOf at this ⊢
    rw [List.flatMap_cons, ← List.append_assoc] at this
    rcases t with _ | ⟨_, _ | _⟩ | _ | _ | ⟨_, _ | _⟩ | _ | _ | _ | _ <;> simp only [apply, List.append_nil] at this ⊢ <;> exact this

theorem rest_pass {c : Cfg} {ts : List STag} (h : Rest c ts) : Pass c ts := by
  induction ts generalizing c with
  | nil => trivial
  | cons t ts ih => exact ⟨rest_tag h, ih (rest_step h)⟩

/-! ## Limits -/

theorem limit_ok (l : Limit) : l.ok = true ↔ l.Valid := by
  cases l <;> simp only [Limit.ok, Limit.Valid, greater, greaterEquals, Bool.and_eq_true, decide_eq_true_eq, sub_zero, gt_iff_lt, ge_iff_le] <;>
    constructor <;> intro h <;> (try refine ⟨?_, ?_⟩) <;> (try refine ⟨?_, ?_⟩) <;> linarith [h]

/-! ## The constructor -/

/-- The parameters of a scheme are fine. -/
structure Params (kind : Kind) (maxTime : ℚ) (maxTimeWindows : ℤ) (size : ℚ) (method : Method) (minIter maxIter : ℤ) : Prop where
  maxTime : maxTime = -1 ∨ 0 < maxTime
  maxWindows : maxTimeWindows = -1 ∨ 0 < maxTimeWindows
  size : (method = .fixed ∧ tol ≤ size) ∨ (method = .firstParticipant ∧ size = -1)
  iter : kind.implicit = true → 0 < minIter ∧ (maxIter = -2 ∨ (0 < maxIter ∧ minIter ≤ maxIter))
  noIter : kind.implicit = false → minIter = -1 ∧ maxIter = -1

theorem params_constructible {kind : Kind} {maxTime : ℚ} {maxTimeWindows : ℤ} {size : ℚ} {method : Method} {minIter maxIter : ℤ}
    (h : Params kind maxTime maxTimeWindows size method minIter maxIter) : constructible kind maxTime maxTimeWindows size method minIter maxIter = true := by
  have htol : tol = 1 / 10 ^ 14 := rfl
  unfold constructible
  simp only [Bool.and_eq_true, Bool.not_eq_true', Bool.or_eq_true, Bool.and_eq_false_iff, decide_eq_true_eq, decide_eq_false_iff_not, Bool.not_eq_false']
  refine ⟨⟨⟨⟨⟨?_, ?_⟩, ?_⟩, ?_⟩, ?_⟩, ?_⟩
  · rcases h.maxTime with h | h
    · exact .inl (by simp [h])
    · exact .inr (by linarith)
  · rcases h.maxWindows with h | h
    · exact .inl (by simp [h])
    · exact .inr (by omega)
  · rcases h.size with ⟨-, h⟩ | ⟨-, h⟩
    · right
      rw [htol] at h
      norm_num at h ⊢
      linarith
    · left
      unfold equals
      rw [h, htol]
      norm_num
  · rcases h.size with ⟨-, h⟩ | ⟨h, -⟩
    · right
      unfold equals
      rw [abs_le, not_and_or]
      right
      rw [htol] at h ⊢
      norm_num at h ⊢
      linarith
    · left
      rw [h]
      decide
  · cases hk : kind.implicit with
    | true =>
      obtain ⟨h1, h2⟩ := h.iter hk
      simp only [if_true, Bool.and_eq_true, Bool.or_eq_true, decide_eq_true_eq]
      omega
    | false =>
      obtain ⟨h1, h2⟩ := h.noIter hk
      simp [h1, h2]
  · rcases h.size with ⟨h, -⟩ | ⟨-, h⟩
    · left
      rw [h]
      decide
    · exact .inr h

/-! ## Measures and acceleration -/

theorem isExchanged_iff (exs : List Exchange) (d p : ℕ) : isExchanged exs d p = true ↔ Handles exs p d := by
  unfold isExchanged Handles
  rw [List.any_eq_true]
  constructor
  · rintro ⟨e, he, h⟩
    split at h
    · cases h
    · next hn =>
      refine ⟨e, he, of_decide_eq_true h, ?_⟩
      by_cases hp : e.src = p
      · exact .inl hp
      · exact .inr (by_contra fun hq => hn ⟨hp, hq⟩)
  · rintro ⟨e, he, hd, h⟩
    refine ⟨e, he, ?_⟩
    rw [if_neg]
    · exact decide_eq_true hd
    · rintro ⟨h1, h2⟩
      exact h.elim h1 h2

theorem measures_ok {exs : List Exchange} {p : ℕ} {all : List CplData} {ms l : List MeasureDef} (h : addMeasures exs p all ms = .ok l) :
    l = ms ∧ ∀ m ∈ ms, Handles exs p m.data ∧ ∃ x ∈ all, x.data = m.data := by
  induction ms generalizing l with
  | nil =>
    cases h
    simp
  | cons m ms ih =>
    rw [addMeasures] at h
    split at h
    · cases h
    · next h1 =>
      split at h
      · cases h
      · next h2 =>
        split at h
        · cases h
        · next l' h3 =>
          cases h
          obtain ⟨rfl, h4⟩ := ih h3
          refine ⟨rfl, ?_⟩
          intro x hx
          rw [List.mem_cons] at hx
          rcases hx with rfl | hx
          · refine ⟨(isExchanged_iff _ _ _).1 (by simpa using h1), ?_⟩
            simpa using h2
          · exact h4 x hx

theorem measures_accepts {exs : List Exchange} {p : ℕ} {all : List CplData} {ms : List MeasureDef} (h : ∀ m ∈ ms, Handles exs p m.data ∧ ∃ x ∈ all, x.data = m.data) :
    addMeasures exs p all ms = .ok ms := by
  induction ms with
  | nil => rfl
  | cons m ms ih =>
    obtain ⟨h1, h2⟩ := h m (by simp)
    rw [addMeasures, if_neg (by simp [(isExchanged_iff _ _ _).2 h1]), if_neg (by simpa using h2), ih fun x hx => h x (by simp [hx])]

theorem measures_error {exs : List Exchange} {p : ℕ} {all : List CplData} {ms : List MeasureDef} {x : Err} (hall : ∀ d, Handles exs p d → ∃ x ∈ all, x.data = d)
    (h : addMeasures exs p all ms = .error x) : x = .check := by
  induction ms with
  | nil => cases h
  | cons m ms ih =>
    rw [addMeasures] at h
    split at h
    · cases h; rfl
    · next h1 =>
      split at h
      · next h2 =>
        obtain ⟨y, hy, hd⟩ := hall m.data ((isExchanged_iff _ _ _).1 (by simpa using h1))
        rw [List.any_eq_false] at h2
        exact absurd hd (by simpa using h2 y hy)
      · split at h
        · next h3 =>
          cases h
          exact ih h3
        · cases h

theorem parallelAcc_ok {exs : List Exchange} {p : ℕ} {ds : List ℕ} : parallelAcc exs p ds = .ok () ↔ ∀ d ∈ ds, Handles exs p d := by
  induction ds with
  | nil => simp [parallelAcc]
  | cons d ds ih =>
    rw [parallelAcc]
    by_cases h : isExchanged exs d p = true
    · rw [if_pos h, ih]
      simp [(isExchanged_iff _ _ _).1 h]
    · rw [if_neg h]
      rw [isExchanged_iff] at h
      simp [h]

theorem parallelAcc_error {exs : List Exchange} {p : ℕ} {ds : List ℕ} {x : Err} (h : parallelAcc exs p ds = .error x) : x = .check := by
  induction ds with
  | nil => cases h
  | cons d ds ih =>
    rw [parallelAcc] at h
    split at h
    · exact ih h
    · cases h; rfl

theorem find_unique {exs : List Exchange} (hp : exs.Pairwise fun e f => e.data ≠ f.data) {e : Exchange} (he : e ∈ exs) : exs.find? (fun f => f.data = e.data) = some e := by
  induction exs with
  | nil => cases he
  | cons f r ih =>
    rw [List.pairwise_cons] at hp
    rw [List.mem_cons] at he
    rw [List.find?_cons]
    rcases he with rfl | he
    · simp
    · have := hp.1 e he
      simp only [decide_eq_false this]
      exact ih hp.2 he

theorem serialData_ok {exs : List Exchange} (hp : exs.Pairwise fun e f => e.data ≠ f.data) {q d : ℕ} :
    serialData exs q d = .ok () ↔ ∃ e ∈ exs, e.data = d ∧ e.src = q := by
  unfold serialData
  constructor
  · intro h
    split at h
    · cases h
    · split at h
      · cases h
      · next e he =>
        split at h
        · next hq => exact ⟨e, List.mem_of_find?_eq_some he, by simpa using List.find?_some he, hq.symm⟩
        · cases h
  · rintro ⟨e, he, rfl, rfl⟩
    rw [if_neg (by simp [(isExchanged_iff exs e.data e.src).2 ⟨e, he, rfl, .inl rfl⟩]), find_unique hp he]
    simp

theorem serialData_error {exs : List Exchange} {q d : ℕ} {x : Err} (h : serialData exs q d = .error x) : x = .check := by
  unfold serialData at h
  split at h
  · cases h; rfl
  · next h1 =>
    obtain ⟨e, he, hd, -⟩ := (isExchanged_iff exs d q).1 (by simpa using h1)
    split at h
    · next h2 =>
      rw [List.find?_eq_none] at h2
      exact absurd hd (by simpa using h2 e he)
    · split at h
      · cases h
      · cases h; rfl

theorem serialAcc_ok {exs : List Exchange} (hp : exs.Pairwise fun e f => e.data ≠ f.data) {q : ℕ} {ds : List ℕ} :
    serialAcc exs q ds = .ok () ↔ ∀ d ∈ ds, ∃ e ∈ exs, e.data = d ∧ e.src = q := by
  induction ds with
  | nil => simp [serialAcc]
  | cons d ds ih =>
    rw [serialAcc]
    cases h : serialData exs q d with
    | ok u =>
      have := (serialData_ok hp).1 h
      simp only [ih, List.mem_cons, forall_eq_or_imp, this, true_and]
    | error x =>
      simp only [reduceCtorEq, List.mem_cons, forall_eq_or_imp, false_iff]
      rintro ⟨h1, -⟩
      rw [(serialData_ok hp).2 h1] at h
      cases h

theorem serialAcc_error {exs : List Exchange} {q : ℕ} {ds : List ℕ} {x : Err} (h : serialAcc exs q ds = .error x) : x = .check := by
  induction ds with
  | nil => cases h
  | cons d ds ih =>
    rw [serialAcc] at h
    split at h
    · next h1 =>
      cases h
      exact serialData_error h1
    · exact ih h

end Verif.Config.Scheme
