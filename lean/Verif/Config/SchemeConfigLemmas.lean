import Verif.Config.SchemeConfig
import Verif.Config.SchemeProps

/-!
# A coupling scheme from its tags: specification and lemmas (C109)
-/

set_option autoImplicit false

namespace Verif.Config.Scheme

/-! ## Specification -/

/-- The participants in the order of their tags. -/
def partsOf (ts : List STag) : List ℕ :=
  ts.flatMap fun t => match t with
    | .participants f s => [f, s]
    | .participant n _ => [n]
    | _ => []

/-- The controllers. -/
def controlsOf (ts : List STag) : List ℕ :=
  ts.flatMap fun t => match t with
    | .participant n true => [n]
    | _ => []

/-- The exchanges. -/
def exchangesOf (ts : List STag) : List Exchange :=
  ts.flatMap fun t => match t with
    | .exchange e => [e]
    | _ => []

/-- The convergence measures. -/
def measuresOf (ts : List STag) : List MeasureDef :=
  ts.flatMap fun t => match t with
    | .measure m => [m]
    | _ => []

/-- The values of `max-time`. -/
def maxTimesOf (ts : List STag) : List ℚ :=
  ts.flatMap fun t => match t with
    | .maxTime v => [v]
    | _ => []

/-- The values of `max-time-windows`. -/
def maxWindowsOf (ts : List STag) : List ℤ :=
  ts.flatMap fun t => match t with
    | .maxTimeWindows v => [v]
    | _ => []

/-- The values of `time-window-size`; the first participant sets it if there is none. -/
def sizesOf (ts : List STag) : List (Option ℚ) :=
  ts.flatMap fun t => match t with
    | .timeWindowSize v .fixed => [some v]
    | .timeWindowSize _ .firstParticipant => [none]
    | _ => []

/-- The values of `min-iterations`. -/
def minItersOf (ts : List STag) : List ℤ :=
  ts.flatMap fun t => match t with
    | .minIterations v => [v]
    | _ => []

/-- The values of `max-iterations`. -/
def maxItersOf (ts : List STag) : List ℤ :=
  ts.flatMap fun t => match t with
    | .maxIterations v => [v]
    | _ => []

/-- The tag exists for this kind of scheme: `addTypespecifcSubtags`, CouplingSchemeConfiguration.cpp:429-478, and `addTransientLimitTags`, 480-515. -/
def Allowed (kind : Kind) : STag → Prop
  | .participants _ _ => kind ≠ .multi
  | .participant _ _ => kind = .multi
  | .timeWindowSize _ .firstParticipant => kind.serial = true
  | .measure _ => kind.implicit = true
  | .minIterations _ => kind.implicit = true
  | .maxIterations _ => kind.implicit = true
  | _ => True

/-- The tags fit to the schema of the kind of scheme, which is checked before (C107): 485, 493, 500, 521, 536, 550, 654, 666. -/
structure Fitting (kind : Kind) (ts : List STag) : Prop where
  allowed : ∀ t ∈ ts, Allowed kind t
  two : kind ≠ .multi → ∃ p q, partsOf ts = [p, q]
  maxTime : (maxTimesOf ts).length ≤ 1
  maxWindows : (maxWindowsOf ts).length ≤ 1
  size : (sizesOf ts).length = 1
  minIter : (minItersOf ts).length ≤ 1
  maxIter : (maxItersOf ts).length ≤ 1

/-- A limit is larger than the numerical zero, a relative one at most one (up to the numerical zero). -/
def Limit.Valid : Limit → Prop
  | .abs l => tol < l
  | .absOrRel a r => tol < a ∧ tol < r ∧ r ≤ 1 + tol
  | .rel l => tol < l ∧ l ≤ 1 + tol
  | .resRel l => tol < l ∧ l ≤ 1 + tol

/-- A participant sends or gets a data. -/
def Handles (exs : List Exchange) (p d : ℕ) : Prop := ∃ e ∈ exs, e.data = d ∧ (e.src = p ∨ e.dst = p)

/-- The values of all tags are valid, and both limits for iterations go together. -/
structure Values (ts : List STag) : Prop where
  maxTime : ∀ v ∈ maxTimesOf ts, 0 < v
  maxWindows : ∀ v ∈ maxWindowsOf ts, 0 < v
  size : ∀ v, some v ∈ sizesOf ts → tol ≤ v
  minIter : ∀ v ∈ minItersOf ts, 0 < v
  maxIter : ∀ v ∈ maxItersOf ts, 0 < v
  order : ∀ a ∈ minItersOf ts, ∀ b ∈ maxItersOf ts, a ≤ b
  limit : ∀ m ∈ measuresOf ts, m.limit.Valid
  ends : maxTimesOf ts ≠ [] ∨ maxWindowsOf ts ≠ []

/-- The exchanges of a scheme for two participants are fine. -/
structure Two (w : World) (kind : Kind) (acc : Option (List ℕ)) (exs : List Exchange) (ms : List MeasureDef) (p q : ℕ) : Prop where
  different : p ≠ q
  link : w.link p q = true
  each : ∀ e ∈ exs, Between [p, q] e ∧ w.direct e = false ∧ w.degree e = false
  once : exs.Pairwise fun e f => e.data ≠ f.data
  sends : kind.implicit = true → (∃ e ∈ exs, e.src = p) ∧ ∃ e ∈ exs, e.src = q
  measured : kind.implicit = true → ∀ m ∈ ms, Handles exs q m.data
  accelerated : kind = .parallelImplicit → ∀ d ∈ acc.getD [], Handles exs q d
  acceleratedSerial : kind = .serialImplicit → ∀ d ∈ acc.getD [], ∃ e ∈ exs, e.data = d ∧ e.src = q

/-- The exchanges of a scheme for several participants are fine. -/
structure Many (acc : Option (List ℕ)) (exs : List Exchange) (ms : List MeasureDef) (ps : List ℕ) (m : ℕ) : Prop where
  each : ∀ e ∈ exs, Between ps e
  compatible : exs.Pairwise Compatible
  sends : ∀ p ∈ ps, ∃ e ∈ exs, e.src = p
  measured : ∀ x ∈ ms, Handles exs m x.data
  accelerated : ∀ d ∈ acc.getD [], Handles exs m d

/-- The scheme makes sense. -/
structure WellPosed (w : World) (kind : Kind) (remeshing : Bool) (acc : Option (List ℕ)) (ts : List STag) : Prop where
  values : Values ts
  remesh : remeshing = true → kind = .parallelExplicit ∨ kind = .parallelImplicit
  two : kind ≠ .multi → ∀ p q, partsOf ts = [p, q] → Two w kind acc (exchangesOf ts) (measuresOf ts) p q
  many : kind = .multi → (partsOf ts).Nodup ∧ ∃ m, controlsOf ts = [m] ∧ Many acc (exchangesOf ts) (measuresOf ts) (partsOf ts) m

/-! ## Reading the tags -/

/-- What a tag changes. -/
def apply (c : Cfg) : STag → Cfg
  | .participants f s => { c with participants := c.participants ++ [f, s] }
  | .participant n true => { c with controller := some n, participants := c.participants ++ [n] }
  | .participant n false => { c with participants := c.participants ++ [n] }
  | .maxTime v => { c with maxTime := v }
  | .maxTimeWindows v => { c with maxTimeWindows := v }
  | .timeWindowSize v .fixed => { c with timeWindowSize := v, method := .fixed }
  | .timeWindowSize _ .firstParticipant => { c with timeWindowSize := -1, method := .firstParticipant }
  | .measure m => { c with measures := c.measures ++ [m] }
  | .exchange e => { c with exchanges := c.exchanges ++ [e] }
  | .minIterations v => { c with minIterations := v }
  | .maxIterations v => { c with maxIterations := v }

/-- What is checked for a tag. -/
def TagOk (c : Cfg) : STag → Prop
  | .participants f s => f ≠ s
  | .participant n control => ¬ (n ∈ c.participants ∨ c.controller = some n) ∧ (control = true → c.controller = none)
  | .maxTime v => 0 < v
  | .maxTimeWindows v => 0 < v
  | .timeWindowSize v .fixed => tol ≤ v
  | .timeWindowSize _ .firstParticipant => True
  | .measure m => m.limit.ok = true
  | .exchange e => hasExchange c.exchanges e = false
  | .minIterations v => 0 < v
  | .maxIterations v => 0 < v

theorem readTag_ok {kind : Kind} {c c' : Cfg} {t : STag} (h : readTag kind c t = .ok c') : c' = apply c t ∧ TagOk c t := by
  cases t with
  | participants f s =>
    simp only [readTag] at h
    split at h
    · cases h
    · next hn =>
      cases h
      exact ⟨rfl, hn⟩
  | participant n control =>
    simp only [readTag] at h
    split at h
    · cases h
    · split at h
      · cases h
      · next h1 =>
        cases control with
        | true =>
          simp only [if_true] at h
          split at h
          · cases h
          · next h2 =>
            cases h
            exact ⟨rfl, h1, fun _ => by simpa using h2⟩
        | false =>
          simp only [Bool.false_eq_true, if_false] at h
          cases h
          exact ⟨rfl, h1, fun h => by cases h⟩
  | maxTime v =>
    simp only [readTag] at h
    split at h
    · next hn =>
      cases h
      exact ⟨rfl, hn⟩
    · cases h
  | maxTimeWindows v =>
    simp only [readTag] at h
    split at h
    · next hn =>
      cases h
      exact ⟨rfl, hn⟩
    · cases h
  | timeWindowSize v m =>
    cases m with
    | fixed =>
      simp only [readTag] at h
      split at h
      · next hn =>
        cases h
        exact ⟨rfl, hn⟩
      · cases h
    | firstParticipant =>
      simp only [readTag] at h
      cases h
      exact ⟨rfl, trivial⟩
  | measure m =>
    simp only [readTag] at h
    split at h
    · cases h
    · split at h
      · next hn =>
        cases h
        exact ⟨rfl, hn⟩
      · cases h
  | exchange e =>
    simp only [readTag, addExchange] at h
    cases hh : hasExchange c.exchanges e with
    | true => simp [hh] at h
    | false =>
      simp only [hh, Bool.false_eq_true, if_false] at h
      cases h
      exact ⟨rfl, hh⟩
  | minIterations v =>
    simp only [readTag] at h
    split at h
    · cases h
    · split at h
      · next hn =>
        cases h
        exact ⟨rfl, hn⟩
      · cases h
  | maxIterations v =>
    simp only [readTag] at h
    split at h
    · cases h
    · split at h
      · next hn =>
        cases h
        exact ⟨rfl, hn⟩
      · cases h

theorem readTag_accepts {kind : Kind} {c : Cfg} {t : STag} (ha : Allowed kind t) (h : TagOk c t) : readTag kind c t = .ok (apply c t) := by
  cases t with
  | participants f s =>
    unfold TagOk at h
    simp only [readTag, if_neg h]
    rfl
  | participant n control =>
    obtain ⟨h1, h2⟩ := h
    unfold Allowed at ha
    subst ha
    simp only [readTag, ne_eq, not_true_eq_false, if_false, if_neg h1]
    cases control with
    | true =>
      rw [h2 rfl]
      rfl
    | false => rfl
  | maxTime v =>
    unfold TagOk at h
    simp only [readTag, if_pos h]
    rfl
  | maxTimeWindows v =>
    unfold TagOk at h
    simp only [readTag, if_pos h]
    rfl
  | timeWindowSize v m =>
    cases m with
    | fixed =>
      unfold TagOk at h
      simp only [readTag, if_pos h]
      rfl
    | firstParticipant => rfl
  | measure m =>
    unfold TagOk at h
    unfold Allowed at ha
    simp only [readTag, ha, Bool.true_eq_false, if_false, h, if_true]
    rfl
  | exchange e =>
    unfold TagOk at h
    simp only [readTag, addExchange, h, Bool.false_eq_true, if_false]
    rfl
  | minIterations v =>
    unfold TagOk at h
    unfold Allowed at ha
    simp only [readTag, ha, Bool.true_eq_false, if_false, if_pos h]
    rfl
  | maxIterations v =>
    unfold TagOk at h
    unfold Allowed at ha
    simp only [readTag, ha, Bool.true_eq_false, if_false, if_pos h]
    rfl

theorem readTag_error {kind : Kind} {c : Cfg} {t : STag} {x : Err} (ha : Allowed kind t) (h : readTag kind c t = .error x) : x = .check := by
  cases t with
  | participants f s =>
    simp only [readTag] at h
    split at h
    · cases h; rfl
    · cases h
  | participant n control =>
    unfold Allowed at ha
    subst ha
    simp only [readTag, ne_eq, not_true_eq_false, if_false] at h
    split at h
    · cases h; rfl
    · split at h
      · split at h
        · cases h; rfl
        · cases h
      · cases h
  | maxTime v =>
    simp only [readTag] at h
    split at h
    · cases h
    · cases h; rfl
  | maxTimeWindows v =>
    simp only [readTag] at h
    split at h
    · cases h
    · cases h; rfl
  | timeWindowSize v m =>
    cases m with
    | fixed =>
      simp only [readTag] at h
      split at h
      · cases h
      · cases h; rfl
    | firstParticipant => cases h
  | measure m =>
    unfold Allowed at ha
    simp only [readTag, ha, Bool.true_eq_false, if_false] at h
    split at h
    · cases h
    · cases h; rfl
  | exchange e =>
    simp only [readTag, addExchange] at h
    cases hh : hasExchange c.exchanges e with
    | true =>
      simp only [hh, if_true] at h
      cases h; rfl
    | false => simp [hh] at h
  | minIterations v =>
    unfold Allowed at ha
    simp only [readTag, ha, Bool.true_eq_false, if_false] at h
    split at h
    · cases h
    · cases h; rfl
  | maxIterations v =>
    unfold Allowed at ha
    simp only [readTag, ha, Bool.true_eq_false, if_false] at h
    split at h
    · cases h
    · cases h; rfl

/-- All tags pass. -/
def Pass : Cfg → List STag → Prop
  | _, [] => True
  | c, t :: ts => (TagOk c t ∧ consistent (apply c t) = true) ∧ Pass (apply c t) ts

theorem readTags_ok {kind : Kind} {c c' : Cfg} {ts : List STag} (h : readTags kind c ts = .ok c') : c' = ts.foldl apply c ∧ Pass c ts := by
  induction ts generalizing c with
  | nil =>
    cases h
    exact ⟨rfl, trivial⟩
  | cons t ts ih =>
    rw [readTags, readTagChecked] at h
    split at h
    · cases h
    · next c1 h1 =>
      split at h1
      · cases h1
      · next c2 h2 =>
        split at h1
        · next h3 =>
          cases h1
          obtain ⟨rfl, h4⟩ := readTag_ok h2
          obtain ⟨h5, h6⟩ := ih h
          exact ⟨h5, ⟨h4, h3⟩, h6⟩
        · cases h1

theorem readTags_accepts {kind : Kind} {c : Cfg} {ts : List STag} (ha : ∀ t ∈ ts, Allowed kind t) (h : Pass c ts) : readTags kind c ts = .ok (ts.foldl apply c) := by
  induction ts generalizing c with
  | nil => rfl
  | cons t ts ih =>
    obtain ⟨⟨h1, h2⟩, h3⟩ := h
    rw [readTags, readTagChecked, readTag_accepts (ha t (by simp)) h1]
    simp only [h2, if_true]
    exact ih (fun t ht => ha t (by simp [ht])) h3

theorem readTags_error {kind : Kind} {c : Cfg} {ts : List STag} {x : Err} (ha : ∀ t ∈ ts, Allowed kind t) (h : readTags kind c ts = .error x) : x = .check := by
  induction ts generalizing c with
  | nil => cases h
  | cons t ts ih =>
    rw [readTags, readTagChecked] at h
    split at h
    · next y h1 =>
      cases h
      split at h1
      · next h2 =>
        cases h1
        exact readTag_error (ha t (by simp)) h2
      · split at h1
        · cases h1
        · cases h1; rfl
    · exact ih (fun t ht => ha t (by simp [ht])) h

/-! ## The configuration that was read -/

theorem getLast_append {α : Type} (l m : List α) (d : α) : (l ++ m).getLastD d = m.getLastD (l.getLastD d) := by
  rcases List.eq_nil_or_concat m with rfl | ⟨m, x, rfl⟩
  · simp
  · simp [List.getLastD_eq_getLast?]

theorem fold_parts (c : Cfg) (ts : List STag) : (ts.foldl apply c).participants = c.participants ++ partsOf ts := by
  induction ts generalizing c with
  | nil => simp [partsOf]
  | cons t ts ih =>
    rw [List.foldl_cons, ih]
    unfold partsOf
    rw [List.flatMap_cons, ← List.append_assoc]
    congr 1
    rcases t with _ | ⟨_, _ | _⟩ | _ | _ | ⟨_, _ | _⟩ | _ | _ | _ | _ <;> simp [apply]

theorem fold_exchanges (c : Cfg) (ts : List STag) : (ts.foldl apply c).exchanges = c.exchanges ++ exchangesOf ts := by
  induction ts generalizing c with
  | nil => simp [exchangesOf]
  | cons t ts ih =>
    rw [List.foldl_cons, ih]
    unfold exchangesOf
    rw [List.flatMap_cons, ← List.append_assoc]
    congr 1
    rcases t with _ | ⟨_, _ | _⟩ | _ | _ | ⟨_, _ | _⟩ | _ | _ | _ | _ <;> simp [apply]

theorem fold_measures (c : Cfg) (ts : List STag) : (ts.foldl apply c).measures = c.measures ++ measuresOf ts := by
  induction ts generalizing c with
  | nil => simp [measuresOf]
  | cons t ts ih =>
    rw [List.foldl_cons, ih]
    unfold measuresOf
    rw [List.flatMap_cons, ← List.append_assoc]
    congr 1
    rcases t with _ | ⟨_, _ | _⟩ | _ | _ | ⟨_, _ | _⟩ | _ | _ | _ | _ <;> simp [apply]

theorem fold_maxTime (c : Cfg) (ts : List STag) : (ts.foldl apply c).maxTime = (maxTimesOf ts).getLastD c.maxTime := by
  induction ts generalizing c with
  | nil => simp [maxTimesOf]
  | cons t ts ih =>
    rw [List.foldl_cons, ih]
    unfold maxTimesOf
    rw [List.flatMap_cons, getLast_append]
    congr 1
    rcases t with _ | ⟨_, _ | _⟩ | _ | _ | ⟨_, _ | _⟩ | _ | _ | _ | _ <;> simp [apply]

theorem fold_maxWindows (c : Cfg) (ts : List STag) : (ts.foldl apply c).maxTimeWindows = (maxWindowsOf ts).getLastD c.maxTimeWindows := by
  induction ts generalizing c with
  | nil => simp [maxWindowsOf]
  | cons t ts ih =>
    rw [List.foldl_cons, ih]
    unfold maxWindowsOf
    rw [List.flatMap_cons, getLast_append]
    congr 1
    rcases t with _ | ⟨_, _ | _⟩ | _ | _ | ⟨_, _ | _⟩ | _ | _ | _ | _ <;> simp [apply]

theorem fold_minIter (c : Cfg) (ts : List STag) : (ts.foldl apply c).minIterations = (minItersOf ts).getLastD c.minIterations := by
  induction ts generalizing c with
  | nil => simp [minItersOf]
  | cons t ts ih =>
    rw [List.foldl_cons, ih]
    unfold minItersOf
    rw [List.flatMap_cons, getLast_append]
    congr 1
    rcases t with _ | ⟨_, _ | _⟩ | _ | _ | ⟨_, _ | _⟩ | _ | _ | _ | _ <;> simp [apply]

theorem fold_maxIter (c : Cfg) (ts : List STag) : (ts.foldl apply c).maxIterations = (maxItersOf ts).getLastD c.maxIterations := by
  induction ts generalizing c with
  | nil => simp [maxItersOf]
  | cons t ts ih =>
    rw [List.foldl_cons, ih]
    unfold maxItersOf
    rw [List.flatMap_cons, getLast_append]
    congr 1
    rcases t with _ | ⟨_, _ | _⟩ | _ | _ | ⟨_, _ | _⟩ | _ | _ | _ | _ <;> simp [apply]

/-- Size and method of the configuration. -/
def Cfg.size (c : Cfg) : Option ℚ := if c.method = .fixed then some c.timeWindowSize else none

theorem fold_size (c : Cfg) (ts : List STag) : (ts.foldl apply c).size = (sizesOf ts).getLastD c.size := by
  induction ts generalizing c with
  | nil => simp [sizesOf]
  | cons t ts ih =>
    rw [List.foldl_cons, ih]
    unfold sizesOf
    rw [List.flatMap_cons, getLast_append]
    congr 1
    rcases t with _ | ⟨_, _ | _⟩ | _ | _ | ⟨_, _ | _⟩ | _ | _ | _ | _ <;> rfl

theorem fold_undefined {c : Cfg} (h : c.method = .firstParticipant → c.timeWindowSize = -1) (ts : List STag) :
    (ts.foldl apply c).method = .firstParticipant → (ts.foldl apply c).timeWindowSize = -1 := by
  induction ts generalizing c with
  | nil => exact h
  | cons t ts ih =>
    rw [List.foldl_cons]
    refine ih ?_
    rcases t with _ | ⟨_, _ | _⟩ | _ | _ | ⟨_, _ | _⟩ | _ | _ | _ | _ <;> simp [apply] <;> exact h

/-! ## What passes -/

theorem pass_values {c : Cfg} {ts : List STag} (h : Pass c ts) :
    (∀ v ∈ maxTimesOf ts, 0 < v) ∧ (∀ v ∈ maxWindowsOf ts, 0 < v) ∧ (∀ v, some v ∈ sizesOf ts → tol ≤ v) ∧ (∀ v ∈ minItersOf ts, 0 < v) ∧ (∀ v ∈ maxItersOf ts, 0 < v)
      ∧ (∀ m ∈ measuresOf ts, m.limit.ok = true) := by
  induction ts generalizing c with
  | nil => simp [maxTimesOf, maxWindowsOf, sizesOf, minItersOf, maxItersOf, measuresOf]
  | cons t ts ih =>
    obtain ⟨⟨h1, -⟩, h2⟩ := h
    have := ih h2
    unfold maxTimesOf maxWindowsOf sizesOf minItersOf maxItersOf measuresOf at this ⊢
    simp only [List.flatMap_cons, List.mem_append, or_imp, forall_and]
    obtain ⟨g1, g2, g3, g4, g5, g6⟩ := this
    refine ⟨⟨?_, g1⟩, ⟨?_, g2⟩, ⟨?_, g3⟩, ⟨?_, g4⟩, ⟨?_, g5⟩, ?_, g6⟩ <;>
      rcases t with _ | ⟨_, _ | _⟩ | _ | _ | ⟨_, _ | _⟩ | _ | _ | _ | _ <;> simp <;> exact h1

theorem pass_consistent {c : Cfg} {ts : List STag} (hc : consistent c = true) (h : Pass c ts) : consistent (ts.foldl apply c) = true := by
  induction ts generalizing c with
  | nil => exact hc
  | cons t ts ih => exact ih h.1.2 h.2

theorem pass_multi {c : Cfg} {ts : List STag} (ha : ∀ t ∈ ts, Allowed .multi t) (hn : c.participants.Nodup) (h : Pass c ts) :
    (ts.foldl apply c).participants.Nodup ∧ (ts.foldl apply c).controller.toList = c.controller.toList ++ controlsOf ts := by
  induction ts generalizing c with
  | nil => simp [controlsOf, hn]
  | cons t ts ih =>
    rw [List.foldl_cons]
    obtain ⟨⟨h1, -⟩, h2⟩ := h
    have hb := ha t (by simp)
    obtain ⟨g1, g2⟩ := ih (c := apply c t) (fun t ht => ha t (by simp [ht])) (by
      rcases t with _ | ⟨_, _ | _⟩ | _ | _ | ⟨_, _ | _⟩ | _ | _ | _ | _
      · exact absurd rfl hb
      · unfold TagOk at h1
        simp only [apply]
        rw [List.nodup_append]
        refine ⟨hn, by simp, ?_⟩
        intro a hA b hB hab
        simp only [List.mem_singleton] at hB
        exact h1.1 (.inl (hB ▸ hab ▸ hA))
      · unfold TagOk at h1
        simp only [apply]
        rw [List.nodup_append]
        refine ⟨hn, by simp, ?_⟩
        intro a hA b hB hab
        simp only [List.mem_singleton] at hB
        exact h1.1 (.inl (hB ▸ hab ▸ hA))
      all_goals exact hn) h2
    refine ⟨g1, ?_⟩
    rw [g2]
    unfold controlsOf
    rw [List.flatMap_cons, ← List.append_assoc]
    congr 1
    rcases t with _ | ⟨_, _ | _⟩ | _ | _ | ⟨_, _ | _⟩ | _ | _ | _ | _ <;> simp [apply]
    have := h1.2 rfl
    simp [this]

end Verif.Config.Scheme
