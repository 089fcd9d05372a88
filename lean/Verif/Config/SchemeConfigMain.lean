import Verif.Config.SchemeConfigProps

/-!
# C109: which coupling schemes are accepted
-/

set_option autoImplicit false

namespace Verif.Config.Scheme

theorem lastD_cases {α : Type} (l : List α) (d : α) : (l = [] ∧ l.getLastD d = d) ∨ l.getLastD d ∈ l := by
  rcases List.eq_nil_or_concat l with rfl | ⟨m, x, rfl⟩
  · exact .inl ⟨rfl, rfl⟩
  · right
    simp [List.getLastD_eq_getLast?]

theorem lastD_single {α : Type} {l : List α} (h : l.length ≤ 1) (d : α) {x : α} (hx : x ∈ l) : l.getLastD d = x := by
  cases l with
  | nil => cases hx
  | cons y l =>
    cases l with
    | nil =>
      simp only [List.mem_singleton] at hx
      subst hx
      rfl
    | cons z l => simp at h

/-- The configuration given to the constructors. -/
def Cfg.final (kind : Kind) (c : Cfg) : Cfg := if kind.implicit then updateImplicit c else c

theorem final_same (kind : Kind) (c : Cfg) : (c.final kind).participants = c.participants ∧ (c.final kind).controller = c.controller ∧ (c.final kind).maxTime = c.maxTime
    ∧ (c.final kind).maxTimeWindows = c.maxTimeWindows ∧ (c.final kind).timeWindowSize = c.timeWindowSize ∧ (c.final kind).method = c.method
    ∧ (c.final kind).exchanges = c.exchanges ∧ (c.final kind).measures = c.measures ∧ (c.final kind).minIterations = c.minIterations := by
  unfold Cfg.final updateImplicit
  split
  · split <;> simp
  · simp

theorem final_max {kind : Kind} (hk : kind.implicit = true) (c : Cfg) : (c.final kind).maxIterations = if c.maxIterations = -1 then -2 else c.maxIterations := by
  unfold Cfg.final updateImplicit
  rw [if_pos hk]
  split <;> rfl

theorem fold_size_spec {kind : Kind} {ts : List STag} (hf : Fitting kind ts) :
    ∃ x, sizesOf ts = [x] ∧ (ts.foldl apply {}).size = x ∧ ((ts.foldl apply {}).method = .firstParticipant → (ts.foldl apply {}).timeWindowSize = -1) := by
  obtain ⟨x, hx⟩ := List.length_eq_one_iff.1 hf.size
  refine ⟨x, hx, ?_, fold_undefined (fun h => by cases h) ts⟩
  rw [fold_size, hx]
  rfl

theorem none_serial {kind : Kind} {ts : List STag} (ha : ∀ t ∈ ts, Allowed kind t) (h : none ∈ sizesOf ts) : kind.serial = true := by
  unfold sizesOf at h
  rw [List.mem_flatMap] at h
  obtain ⟨t, ht, hm⟩ := h
  rcases t with _ | ⟨_, _ | _⟩ | _ | _ | ⟨_, _ | _⟩ | _ | _ | _ | _ <;> simp at hm
  exact ha _ ht

theorem method_fixed {kind : Kind} {ts : List STag} (hf : Fitting kind ts) (hk : kind.serial = false) : (ts.foldl apply {}).method = .fixed := by
  obtain ⟨x, h1, h2, -⟩ := fold_size_spec hf
  cases x with
  | none =>
    have := none_serial hf.allowed (by rw [h1]; simp)
    rw [hk] at this
    cases this
  | some v =>
    unfold Cfg.size at h2
    split at h2
    · assumption
    · cases h2

theorem pass_params {kind : Kind} {ts : List STag} (hf : Fitting kind ts) (hp : Pass {} ts) :
    Params kind ((ts.foldl apply {}).final kind).maxTime ((ts.foldl apply {}).final kind).maxTimeWindows ((ts.foldl apply {}).final kind).timeWindowSize
      ((ts.foldl apply {}).final kind).method (((ts.foldl apply {}).final kind).minFor kind) (((ts.foldl apply {}).final kind).maxFor kind) := by
  obtain ⟨v1, v2, v3, v4, v5, v6⟩ := pass_values hp
  obtain ⟨-, -, f3, f4, f5, f6, -, -, f9⟩ := final_same kind (ts.foldl apply {})
  refine ⟨?_, ?_, ?_, ?_, ?_⟩
  · rw [f3, fold_maxTime]
    rcases lastD_cases (maxTimesOf ts) (-1) with ⟨-, h⟩ | h
    · exact .inl h
    · exact .inr (v1 _ h)
  · rw [f4, fold_maxWindows]
    rcases lastD_cases (maxWindowsOf ts) (-1) with ⟨-, h⟩ | h
    · exact .inl h
    · exact .inr (v2 _ h)
  · rw [f5, f6]
    obtain ⟨x, h1, h2, h3⟩ := fold_size_spec hf
    cases hm : (ts.foldl apply {}).method with
    | fixed =>
      left
      unfold Cfg.size at h2
      rw [if_pos hm] at h2
      exact ⟨rfl, v3 _ (by rw [h1, ← h2]; simp)⟩
    | firstParticipant => exact .inr ⟨rfl, h3 hm⟩
  · intro hk
    unfold Cfg.minFor Cfg.maxFor
    rw [if_pos hk, if_pos hk, f9, final_max hk]
    have hmin : 0 < (ts.foldl apply {}).minIterations := by
      rw [fold_minIter]
      rcases lastD_cases (minItersOf ts) 1 with ⟨-, h⟩ | h
      · rw [h]
        decide
      · exact v4 _ h
    refine ⟨hmin, ?_⟩
    split
    · exact .inl rfl
    · next hne =>
      have hmax : 0 < (ts.foldl apply {}).maxIterations := by
        rw [fold_maxIter] at hne ⊢
        rcases lastD_cases (maxItersOf ts) (-1) with ⟨-, h⟩ | h
        · exact absurd h hne
        · exact v5 _ h
      right
      refine ⟨hmax, ?_⟩
      have := pass_consistent (by decide) hp
      unfold consistent at this
      simpa [hmin, hmax] using this
  · intro hk
    unfold Cfg.minFor Cfg.maxFor
    simp [hk]

theorem pass_order {kind : Kind} {ts : List STag} (hf : Fitting kind ts) (hp : Pass {} ts) : ∀ a ∈ minItersOf ts, ∀ b ∈ maxItersOf ts, a ≤ b := by
  intro a ha b hb
  obtain ⟨v1, v2, v3, v4, v5, v6⟩ := pass_values hp
  have := pass_consistent (by decide) hp
  unfold consistent at this
  rw [fold_minIter, fold_maxIter, lastD_single hf.minIter _ ha, lastD_single hf.maxIter _ hb] at this
  simpa [v4 a ha, v5 b hb] using this

theorem ends_iff {ts : List STag} (h1 : ∀ v ∈ maxTimesOf ts, 0 < v) (h2 : ∀ v ∈ maxWindowsOf ts, 0 < v) :
    ¬ ((ts.foldl apply {}).maxTime = -1 ∧ (ts.foldl apply {}).maxTimeWindows = -1) ↔ maxTimesOf ts ≠ [] ∨ maxWindowsOf ts ≠ [] := by
  rw [fold_maxTime, fold_maxWindows]
  constructor
  · intro h
    by_contra hn
    push Not at hn
    rw [hn.1, hn.2] at h
    exact h ⟨rfl, rfl⟩
  · rintro h ⟨h3, h4⟩
    rcases h with h | h
    · rcases lastD_cases (maxTimesOf ts) (-1) with ⟨h5, -⟩ | h5
      · exact h h5
      · have h6 := h1 _ h5
        rw [show (maxTimesOf ts).getLastD (-1) = -1 from h3] at h6
        norm_num at h6
    · rcases lastD_cases (maxWindowsOf ts) (-1) with ⟨h5, -⟩ | h5
      · exact h h5
      · have h6 := h2 _ h5
        rw [show (maxWindowsOf ts).getLastD (-1) = -1 from h4] at h6
        norm_num at h6

theorem pass_different {kind : Kind} (hk : kind ≠ .multi) {c : Cfg} {ts : List STag} (ha : ∀ t ∈ ts, Allowed kind t) (hp : Pass c ts) {p q : ℕ} (h : partsOf ts = [p, q]) : p ≠ q := by
  induction ts generalizing c with
  | nil => cases h
  | cons t ts ih =>
    obtain ⟨⟨h1, -⟩, h2⟩ := hp
    have hb := ha t (by simp)
    rcases t with ⟨f, s⟩ | ⟨n, control⟩ | v | v | ⟨v, _ | _⟩ | m | e | v | v
    · unfold partsOf at h
      rw [List.flatMap_cons] at h
      simp only [List.cons_append, List.cons.injEq] at h
      obtain ⟨rfl, rfl, -⟩ := h
      exact h1
    · exact absurd hb hk
    all_goals
      refine ih (fun t ht => ha t (by simp [ht])) h2 ?_
      unfold partsOf at h
      rw [List.flatMap_cons] at h
      exact h

theorem controls_nil {kind : Kind} (hk : kind ≠ .multi) {ts : List STag} (ha : ∀ t ∈ ts, Allowed kind t) : controlsOf ts = [] := by
  unfold controlsOf
  rw [List.flatMap_eq_nil_iff]
  intro t ht
  rcases t with ⟨f, s⟩ | ⟨n, _ | _⟩ | v | v | ⟨v, _ | _⟩ | m | e | v | v <;> simp
  exact absurd (ha _ ht) hk

theorem wellPosed_rest {w : World} {kind : Kind} {remeshing : Bool} {acc : Option (List ℕ)} {ts : List STag} (hf : Fitting kind ts) (h : WellPosed w kind remeshing acc ts) : Rest {} ts := by
  obtain ⟨hv, -, h2, hm⟩ := h
  refine ⟨hv.maxTime, hv.maxWindows, hv.size, hv.minIter, hv.maxIter, fun m hm => (limit_ok _).2 (hv.limit m hm), ?_, ?_, fun n hn => (by cases hn), ?_, ?_⟩
  · intro a ha b hb h0
    rw [List.mem_cons] at ha hb
    rcases hb with rfl | hb
    · exact absurd h0 (by decide)
    · rcases ha with rfl | ha
      · show (1 : ℤ) ≤ b
        omega
      · exact hv.order a ha b hb
  · show (partsOf ts).Nodup
    by_cases hk : kind = .multi
    · exact (hm hk).1
    · obtain ⟨p, q, hpq⟩ := hf.two hk
      rw [hpq]
      simpa using (h2 hk p q hpq).different
  · show (controlsOf ts).length ≤ 1
    by_cases hk : kind = .multi
    · obtain ⟨-, m, h1, -⟩ := hm hk
      rw [h1]
      simp
    · rw [controls_nil hk hf.allowed]
      simp
  · show (exchangesOf ts).Pairwise _
    by_cases hk : kind = .multi
    · obtain ⟨-, m, -, h1⟩ := hm hk
      exact h1.compatible.imp fun hc hh => (hc hh.2.2).1 hh.2.1
    · obtain ⟨p, q, hpq⟩ := hf.two hk
      exact (h2 hk p q hpq).once.imp fun hc hh => hc hh.2.2

theorem finish_eq (w : World) (kind : Kind) (remeshing : Bool) (acc : Option (List ℕ)) (c : Cfg) : finish w kind remeshing acc c =
    if c.maxTime = -1 ∧ c.maxTimeWindows = -1 then .error .check
    else if remeshing = true ∧ (kind.serial = true ∨ kind = .multi) then .error .check
    else if kind = .multi then
      match c.controller with
      | none => .error .check
      | some m => createAll (createMulti (c.final kind) acc m) c.participants
    else
      match c.participants with
      | p :: q :: _ => createAll (createBi w kind (c.final kind) acc p q) [p, q]
      | _ => .error .undef := by
  obtain ⟨h1, h2, -⟩ := final_same kind c
  unfold finish
  simp only [← show c.final kind = if kind.implicit then updateImplicit c else c from rfl]
  rw [h2, h1]
  rfl

/-- What has been read. -/
theorem configure_ok {w : World} {kind : Kind} {remeshing : Bool} {acc : Option (List ℕ)} {ts : List STag} {bs : List Built} (h : configureScheme w kind remeshing acc ts = .ok bs) :
    Pass {} ts ∧ finish w kind remeshing acc (ts.foldl apply {}) = .ok bs := by
  unfold configureScheme at h
  split at h
  · cases h
  · next c hc =>
    obtain ⟨rfl, hp⟩ := readTags_ok hc
    exact ⟨hp, h⟩

/-- The schemes of both participants. -/
theorem finish_two {w : World} {kind : Kind} (hk : kind ≠ .multi) {remeshing : Bool} {acc : Option (List ℕ)} {c : Cfg} {p q : ℕ} (hc : c.participants = [p, q]) {bs : List Built}
    (h : finish w kind remeshing acc c = .ok bs) :
    ¬ (c.maxTime = -1 ∧ c.maxTimeWindows = -1) ∧ ¬ (remeshing = true ∧ (kind.serial = true ∨ kind = .multi))
      ∧ ∃ A B, bs = [A, B] ∧ createBi w kind (c.final kind) acc p q p = .ok A ∧ createBi w kind (c.final kind) acc p q q = .ok B := by
  rw [finish_eq, hc] at h
  split at h
  · cases h
  · next h1 =>
    split at h
    · cases h
    · next h2 =>
      have := createAll_ok h
      cases this with
      | cons hA h3 =>
        cases h3 with
        | cons hB h4 =>
          cases h4
          exact ⟨h1, h2, _, _, rfl, hA, hB⟩

/-- The schemes of all participants. -/
theorem finish_many {w : World} {remeshing : Bool} {acc : Option (List ℕ)} {c : Cfg} {bs : List Built} (h : finish w .multi remeshing acc c = .ok bs) :
    ¬ (c.maxTime = -1 ∧ c.maxTimeWindows = -1) ∧ ¬ remeshing = true ∧ ∃ m, c.controller = some m
      ∧ List.Forall₂ (fun p b => createMulti (c.final .multi) acc m p = .ok b) c.participants bs := by
  rw [finish_eq] at h
  split at h
  · cases h
  · next h1 =>
    split at h
    · cases h
    · next h2 =>
      rw [if_pos rfl] at h
      split at h
      · cases h
      · next m hm => exact ⟨h1, fun hr => h2 ⟨hr, .inr rfl⟩, m, hm, createAll_ok h⟩

/-- **C109** A coupling scheme whose tags fit to the schema is accepted exactly if it is well posed. -/
theorem C109_accepts (w : World) (kind : Kind) (remeshing : Bool) (acc : Option (List ℕ)) (ts : List STag) (hf : Fitting kind ts) :
    (∃ bs, configureScheme w kind remeshing acc ts = .ok bs) ↔ WellPosed w kind remeshing acc ts := by
  have hex : ((ts.foldl apply {}).final kind).exchanges = exchangesOf ts := by rw [(final_same kind _).2.2.2.2.2.2.1, fold_exchanges]; rfl
  have hms : ((ts.foldl apply {}).final kind).measures = measuresOf ts := by rw [(final_same kind _).2.2.2.2.2.2.2.1, fold_measures]; rfl
  have hps : ((ts.foldl apply {}).final kind).participants = partsOf ts := by rw [(final_same kind _).1, fold_parts]; rfl
  have hps0 : (ts.foldl apply {}).participants = partsOf ts := by rw [fold_parts]; rfl
  constructor
  · rintro ⟨bs, h⟩
    obtain ⟨hp, hfin⟩ := configure_ok h
    obtain ⟨v1, v2, v3, v4, v5, v6⟩ := pass_values hp
    by_cases hk : kind = .multi
    · subst hk
      obtain ⟨h1, h2, m, hm, hall⟩ := finish_many hfin
      obtain ⟨hn, hcon⟩ := pass_multi hf.allowed (by simp) hp
      rw [hm] at hcon
      have hcon' : controlsOf ts = [m] := hcon.symm
      have hmem : ∀ p ∈ partsOf ts, ∃ b, createMulti ((ts.foldl apply {}).final .multi) acc m p = .ok b := by
        intro p hpp
        rw [← hps0] at hpp
        obtain ⟨i, hi, rfl⟩ := List.mem_iff_getElem.1 hpp
        exact ⟨bs[i]'(hall.length_eq ▸ hi), (List.forall₂_iff_get.1 hall).2 i hi (hall.length_eq ▸ hi)⟩
      have hmp : m ∈ partsOf ts := by
        have : m ∈ controlsOf ts := by rw [hcon']; simp
        unfold controlsOf at this
        rw [List.mem_flatMap] at this
        obtain ⟨t, ht, hmt⟩ := this
        rcases t with ⟨f, s⟩ | ⟨n, _ | _⟩ | v | v | ⟨v, _ | _⟩ | x | e | v | v <;> simp at hmt
        subst hmt
        unfold partsOf
        rw [List.mem_flatMap]
        exact ⟨_, ht, by simp⟩
      have hacc : (∀ e ∈ exchangesOf ts, Between (partsOf ts) e) ∧ (exchangesOf ts).Pairwise Compatible := by
        refine (C108_many_accepts (partsOf ts) (List.ne_nil_of_mem hmp) (exchangesOf ts)).1 ?_
        intro p hpp
        obtain ⟨b, hb⟩ := hmem p hpp
        have := (createMulti_ok hb).2.1
        rwa [hps, hex] at this
      refine ⟨⟨v1, v2, v3, v4, v5, pass_order hf hp, fun m hm => (limit_ok _).1 (v6 m hm), (ends_iff v1 v2).1 h1⟩, fun hr => absurd hr h2, fun hk => absurd rfl hk, fun _ => ⟨?_, m, hcon', ?_⟩⟩
      · rwa [← hps0]
      · obtain ⟨bm, hbm⟩ := hmem m hmp
        obtain ⟨-, -, -, -, g5, g6⟩ := createMulti_ok hbm
        rw [hex] at g5 g6
        rw [hms] at g5
        refine ⟨hacc.1, hacc.2, ?_, g5 rfl, g6⟩
        intro p hpp
        obtain ⟨b, hb⟩ := hmem p hpp
        have := (createMulti_ok hb).2.2.2.1
        rwa [hex] at this
    · obtain ⟨p, q, hpq⟩ := hf.two hk
      obtain ⟨h1, h2, A, B, rfl, hA, hB⟩ := finish_two hk (hps0.trans hpq) hfin
      refine ⟨⟨v1, v2, v3, v4, v5, pass_order hf hp, fun m hm => (limit_ok _).1 (v6 m hm), (ends_iff v1 v2).1 h1⟩, ?_, ?_, fun h => absurd h hk⟩
      · intro hr
        have := fun hh => h2 ⟨hr, hh⟩
        cases kind <;> simp_all [Kind.serial]
      · intro _ p' q' hpq'
        rw [hpq] at hpq'
        simp only [List.cons.injEq, and_true] at hpq'
        obtain ⟨rfl, rfl⟩ := hpq'
        obtain ⟨a1, a2, -, a4, a5, a6⟩ := createBi_ok hk (.inl rfl) hA
        obtain ⟨b1, b2, -, b4, b5, b6⟩ := createBi_ok hk (.inr rfl) hB
        rw [hex] at a2 a4 a5 a6 b2 b4
        rw [hms] at a4
        obtain ⟨e1, e2⟩ := (C108_two_accepts w.toLookup p q (exchangesOf ts)).1 ⟨a2, b2⟩
        exact ⟨pass_different hk hf.allowed hp hpq, a1, e1, e2, fun hi => ⟨(a4 hi).1, (b4 hi).1⟩, fun hi => (a4 hi).2, a5, a6⟩
  · intro h
    have hp := rest_pass (wellPosed_rest hf h)
    have hpar := pass_params hf hp
    obtain ⟨hv, hr, h2, hm⟩ := h
    unfold configureScheme
    rw [readTags_accepts hf.allowed hp]
    simp only [finish_eq]
    rw [if_neg ((ends_iff hv.maxTime hv.maxWindows).2 hv.ends), if_neg (by
      rintro ⟨hrm, hh⟩
      rcases hr hrm with rfl | rfl <;> simp [Kind.serial] at hh)]
    by_cases hk : kind = .multi
    · subst hk
      obtain ⟨hn, m, hcon, hmany⟩ := hm rfl
      have hcon2 := (pass_multi hf.allowed (by simp) hp).2
      have hctl : (ts.foldl apply {}).controller = some m := by
        rw [hcon] at hcon2
        cases hc : (ts.foldl apply {}).controller with
        | none => rw [hc] at hcon2; cases hcon2
        | some x =>
          rw [hc] at hcon2
          simpa using hcon2
      rw [if_pos rfl, hctl]
      refine createAll_accepts ?_
      intro p hpp
      rw [hps0, ← hps] at hpp
      have hmeth : ((ts.foldl apply {}).final .multi).method = .fixed := by rw [(final_same .multi _).2.2.2.2.2.1]; exact method_fixed hf rfl
      refine createMulti_accepts hpp hmeth ?_ (by rw [hex, hms, hps]; exact hmany)
      rw [hmeth] at hpar
      exact hpar
    · obtain ⟨p, q, hpq⟩ := hf.two hk
      rw [if_neg hk, hps0, hpq]
      refine createAll_accepts ?_
      intro a ha
      refine createBi_accepts hk (by simpa using ha) ?_ hpar (by rw [hex, hms]; exact h2 hk p q hpq)
      intro hs
      rw [(final_same kind _).2.2.2.2.2.1]
      exact method_fixed hf hs

/-- **C109** Whatever the values of the tags: if they fit to the schema, no assertion fails and nothing undefined happens; a scheme is refused with an error message or accepted. -/
theorem C109_no_assert {w : World} {kind : Kind} {remeshing : Bool} {acc : Option (List ℕ)} {ts : List STag} (hf : Fitting kind ts) {x : Err}
    (h : configureScheme w kind remeshing acc ts = .error x) : x = .check := by
  unfold configureScheme at h
  split at h
  · next y hy =>
    cases h
    exact readTags_error hf.allowed hy
  · next c hc =>
    obtain ⟨rfl, hp⟩ := readTags_ok hc
    have hpar := pass_params hf hp
    have hps0 : (ts.foldl apply {}).participants = partsOf ts := by rw [fold_parts]; rfl
    have hmeth : kind.serial = false → ((ts.foldl apply {}).final kind).method = .fixed := by
      intro hs
      rw [(final_same kind _).2.2.2.2.2.1]
      exact method_fixed hf hs
    rw [finish_eq] at h
    split at h
    · cases h; rfl
    · split at h
      · cases h; rfl
      · by_cases hk : kind = .multi
        · subst hk
          rw [if_pos rfl] at h
          split at h
          · cases h; rfl
          · refine createAll_error ?_ h
            intro p _ y hy
            have := hmeth rfl
            rw [this] at hpar
            exact createMulti_error this hpar hy
        · obtain ⟨p, q, hpq⟩ := hf.two hk
          rw [if_neg hk, hps0, hpq] at h
          refine createAll_error ?_ h
          intro a ha y hy
          exact createBi_error (by simpa using ha) hmeth hpar hy

/-- What the scheme of a participant is to be: the values of the tags, or the defaults; only the schemes that decide have convergence measures, and the data of measures and of
the acceleration are among the data of the scheme that uses them. -/
structure AsConfigured (kind : Kind) (acc : Option (List ℕ)) (ts : List STag) (b : Built) : Prop where
  maxTime : (∀ v ∈ maxTimesOf ts, b.maxTime = v ∧ 0 < v) ∧ (maxTimesOf ts = [] → b.maxTime = -1)
  maxWindows : (∀ v ∈ maxWindowsOf ts, b.maxTimeWindows = v ∧ 0 < v) ∧ (maxWindowsOf ts = [] → b.maxTimeWindows = -1)
  ends : b.maxTime ≠ -1 ∨ b.maxTimeWindows ≠ -1
  size : (∀ v, some v ∈ sizesOf ts → b.timeWindowSize = v ∧ tol ≤ v) ∧ (none ∈ sizesOf ts → b.timeWindowSize = -1 ∧ b.method = .firstParticipant)
  minIter : kind.implicit = true → (∀ v ∈ minItersOf ts, b.minIterations = v) ∧ (minItersOf ts = [] → b.minIterations = 1) ∧ 0 < b.minIterations
  maxIter : kind.implicit = true → (∀ v ∈ maxItersOf ts, b.maxIterations = v ∧ b.minIterations ≤ v) ∧ (maxItersOf ts = [] → b.maxIterations = -2)
  measures : b.measures = [] ∨ b.measures = measuresOf ts
  deciding : kind.implicit = true → (kind = .multi → b.accessor ∈ controlsOf ts) → b.measures = measuresOf ts ∧ b.acc = acc
    ∧ (∀ m ∈ b.measures, ∃ x ∈ b.all, x.data = m.data)
    ∧ (kind = .multi ∨ kind = .parallelImplicit ∨ (partsOf ts).getLast? = some b.accessor → ∀ d ∈ acc.getD [], ∃ x ∈ b.all, x.data = d)

theorem describes_configured {kind : Kind} {acc : Option (List ℕ)} {ts : List STag} (hf : Fitting kind ts) (hp : Pass {} ts) {a : ℕ} {measuring : Bool} {b : Built}
    (he : ¬ ((ts.foldl apply {}).maxTime = -1 ∧ (ts.foldl apply {}).maxTimeWindows = -1))
    (hd : Describes kind ((ts.foldl apply {}).final kind) acc measuring a b)
    (hmeas : kind.implicit = true → (kind = .multi → a ∈ controlsOf ts) → measuring = true ∧ (∀ m ∈ measuresOf ts, ∃ x ∈ b.all, x.data = m.data)
      ∧ (kind = .multi ∨ kind = .parallelImplicit ∨ (partsOf ts).getLast? = some a → ∀ d ∈ acc.getD [], ∃ x ∈ b.all, x.data = d)) : AsConfigured kind acc ts b := by
  obtain ⟨v1, v2, v3, v4, v5, v6⟩ := pass_values hp
  obtain ⟨-, -, f3, f4, f5, f6, -, f8, f9⟩ := final_same kind (ts.foldl apply {})
  have hpar := pass_params hf hp
  obtain ⟨x, hx1, hx2, hx3⟩ := fold_size_spec hf
  have hms : ((ts.foldl apply {}).final kind).measures = measuresOf ts := by rw [f8, fold_measures]; rfl
  refine ⟨⟨?_, ?_⟩, ⟨?_, ?_⟩, ?_, ⟨?_, ?_⟩, ?_, ?_, ?_, ?_⟩
  · intro v hv
    rw [hd.maxTime, f3, fold_maxTime, lastD_single hf.maxTime _ hv]
    exact ⟨rfl, v1 v hv⟩
  · intro hv
    rw [hd.maxTime, f3, fold_maxTime, hv]
    rfl
  · intro v hv
    rw [hd.maxWindows, f4, fold_maxWindows, lastD_single hf.maxWindows _ hv]
    exact ⟨rfl, v2 v hv⟩
  · intro hv
    rw [hd.maxWindows, f4, fold_maxWindows, hv]
    rfl
  · rw [hd.maxTime, hd.maxWindows, f3, f4]
    by_contra hn
    push Not at hn
    exact he hn
  · intro v hv
    refine ⟨?_, v3 v hv⟩
    rw [hx1, List.mem_singleton] at hv
    rw [← hv] at hx2
    unfold Cfg.size at hx2
    split at hx2
    · rw [hd.size, f5]
      exact Option.some.inj hx2
    · cases hx2
  · intro hv
    rw [hx1, List.mem_singleton] at hv
    rw [← hv] at hx2
    unfold Cfg.size at hx2
    split at hx2
    · cases hx2
    · next hm =>
      rw [hd.size, f5, hd.method, f6]
      have : (ts.foldl apply {}).method = .firstParticipant := by
        cases hmm : (ts.foldl apply {}).method with
        | fixed => exact absurd hmm hm
        | firstParticipant => rfl
      exact ⟨hx3 this, this⟩
  · intro hk
    have h1 := (hpar.iter hk).1
    rw [hd.minIter]
    refine ⟨?_, ?_, h1⟩
    · intro v hv
      unfold Cfg.minFor
      rw [if_pos hk, f9, fold_minIter, lastD_single hf.minIter _ hv]
    · intro hv
      unfold Cfg.minFor
      rw [if_pos hk, f9, fold_minIter, hv]
      rfl
  · intro hk
    have h1 := (hpar.iter hk).2
    rw [hd.maxIter, hd.minIter]
    have hmax : ((ts.foldl apply {}).final kind).maxFor kind = if (maxItersOf ts).getLastD (-1) = -1 then -2 else (maxItersOf ts).getLastD (-1) := by
      unfold Cfg.maxFor
      rw [if_pos hk, final_max hk, fold_maxIter]
    refine ⟨?_, ?_⟩
    · intro v hv
      rw [lastD_single hf.maxIter _ hv, if_neg (by have := v5 v hv; omega)] at hmax
      refine ⟨hmax, ?_⟩
      rw [hmax] at h1
      have := v5 v hv
      rcases h1 with h1 | h1
      · omega
      · exact h1.2
    · intro hv
      rw [hmax, hv]
      rfl
  · rw [hd.measures, hms]
    split
    · exact .inr rfl
    · exact .inl rfl
  · intro hk hc
    rw [hd.accessor] at hc
    obtain ⟨rfl, h1, h2⟩ := hmeas hk hc
    have h3 : b.measures = measuresOf ts := by rw [hd.measures, hms]; simp [hk]
    rw [h3, hd.acc, if_pos hk, hd.accessor]
    exact ⟨rfl, rfl, h1, h2⟩

/-- **C109** An accepted coupling scheme gives one scheme for each participant, with the values of the tags or the defaults. -/
theorem C109_configured {w : World} {kind : Kind} {remeshing : Bool} {acc : Option (List ℕ)} {ts : List STag} (hf : Fitting kind ts) {bs : List Built}
    (h : configureScheme w kind remeshing acc ts = .ok bs) : bs.map Built.accessor = partsOf ts ∧ ∀ b ∈ bs, AsConfigured kind acc ts b := by
  have hex : ((ts.foldl apply {}).final kind).exchanges = exchangesOf ts := by rw [(final_same kind _).2.2.2.2.2.2.1, fold_exchanges]; rfl
  have hps0 : (ts.foldl apply {}).participants = partsOf ts := by rw [fold_parts]; rfl
  obtain ⟨hp, hfin⟩ := configure_ok h
  have hwp := (C109_accepts w kind remeshing acc ts hf).1 ⟨bs, h⟩
  by_cases hk : kind = .multi
  · subst hk
    obtain ⟨h1, h2, m, hm, hall⟩ := finish_many hfin
    obtain ⟨-, m', hcon, hmany⟩ := hwp.many rfl
    have hcon2 := (pass_multi hf.allowed (by simp) hp).2
    have hmm : m' = m := by
      rw [hcon, hm] at hcon2
      simpa using hcon2.symm
    subst hmm
    rw [hps0] at hall
    constructor
    · clear hwp hfin hmany h
      revert hall
      generalize partsOf ts = ps
      intro hall
      induction hall with
      | nil => rfl
      | cons hb _ ih =>
        rw [List.map_cons, ih, (createMulti_ok hb).2.2.1.accessor]
    · intro b hb
      obtain ⟨i, hi, rfl⟩ := List.mem_iff_getElem.1 hb
      have hcr := (List.forall₂_iff_get.1 hall).2 i (hall.length_eq ▸ hi) hi
      obtain ⟨-, -, hd, -, -, -⟩ := createMulti_ok hcr
      refine describes_configured hf hp h1 hd ?_
      intro _ hc
      have ham := hc rfl
      rw [hcon, List.mem_singleton] at ham
      have hdat : ∀ d, Handles (exchangesOf ts) m' d → ∃ x ∈ bs[i].all, x.data = d := by
        rintro d ⟨e, he, hed, hor⟩
        rw [← ham] at hor
        exact ⟨dataOf _ e, (hd.all.2 _).2 ⟨e, by rw [hex]; exact he, hor, rfl⟩, hed⟩
      exact ⟨by simpa using ham, fun x hx => hdat _ (hmany.measured x hx), fun _ d hdd => hdat d (hmany.accelerated d hdd)⟩
  · obtain ⟨p, q, hpq⟩ := hf.two hk
    obtain ⟨h1, h2, A, B, rfl, hA, hB⟩ := finish_two hk (hps0.trans hpq) hfin
    have htwo := hwp.two hk p q hpq
    have hdA := (createBi_ok hk (.inl rfl) hA).2.2.1
    have hdB := (createBi_ok hk (.inr rfl) hB).2.2.1
    have key : ∀ a b, (a = p ∨ a = q) → Describes kind ((ts.foldl apply {}).final kind) acc true a b → AsConfigured kind acc ts b := by
      intro a b hac hd
      refine describes_configured hf hp h1 hd ?_
      intro hi _
      have hdat : ∀ d, (∃ e ∈ exchangesOf ts, e.data = d) → ∃ x ∈ b.all, x.data = d := by
        rintro d ⟨e, he, hed⟩
        refine ⟨dataOf a e, (hd.all.2 _).2 ⟨e, by rw [hex]; exact he, ?_, rfl⟩, hed⟩
        obtain ⟨g1, g2, g3⟩ := (htwo.each e he).1
        simp only [List.mem_cons, List.not_mem_nil, or_false] at g1 g2
        unfold Takes
        rcases hac with rfl | rfl <;> rcases g1 with g1 | g1 <;> rcases g2 with g2 | g2 <;> simp_all
      refine ⟨rfl, ?_, ?_⟩
      · intro m hm
        obtain ⟨e, he, hed, -⟩ := htwo.measured hi m hm
        exact hdat _ ⟨e, he, hed⟩
      · intro _ d hdd
        cases kind with
        | parallelImplicit =>
          obtain ⟨e, he, hed, -⟩ := htwo.accelerated rfl d hdd
          exact hdat _ ⟨e, he, hed⟩
        | serialImplicit =>
          obtain ⟨e, he, hed, -⟩ := htwo.acceleratedSerial rfl d hdd
          exact hdat _ ⟨e, he, hed⟩
        | multi => exact absurd rfl hk
        | serialExplicit => cases hi
        | parallelExplicit => cases hi
    constructor
    · rw [hpq]
      simp [hdA.accessor, hdB.accessor]
    · intro b hb
      simp only [List.mem_cons, List.not_mem_nil, or_false] at hb
      rcases hb with rfl | rfl
      · exact key p _ (.inl rfl) hdA
      · exact key q _ (.inr rfl) hdB

/-- **C109, disagreement.** "Not defining convergence measures without providing a maximum iteration limit is forbidden", but such a scheme is accepted, and then no iteration ever
ends the time window. -/
theorem C109_unlimited {w : World} {kind : Kind} (hk : kind.implicit = true) {remeshing : Bool} {acc : Option (List ℕ)} {ts : List STag} (hf : Fitting kind ts) {bs : List Built}
    (h : configureScheme w kind remeshing acc ts = .ok bs) (hm : measuresOf ts = []) (hmax : maxItersOf ts = []) :
    ∀ b ∈ bs, b.measures = [] ∧ ∀ n : ℕ, 0 < n → Measure.hasConverged n b.minIterations b.maxIterations [] = some false := by
  intro b hb
  have hc := (C109_configured hf h).2 b hb
  refine ⟨?_, ?_⟩
  · rcases hc.measures with h | h
    · exact h
    · rw [h, hm]
  · intro n hn
    rw [(hc.maxIter hk).2 hmax]
    have : ¬ (n : ℤ) = -2 := by omega
    simp [Measure.hasConverged, Measure.measureConvergence, this]

theorem compatible_symm {e f : Exchange} (h : Compatible e f) : Compatible f e := by
  unfold Compatible at *
  grind

theorem parts_two {kind : Kind} (hk : kind ≠ .multi) {ts : List STag} (ha : ∀ t ∈ ts, Allowed kind t) {p q : ℕ} : partsOf ts = [p, q] → STag.participants p q ∈ ts := by
  induction ts with
  | nil => intro h; cases h
  | cons t ts ih =>
    intro h
    unfold partsOf at h
    rw [List.flatMap_cons] at h
    have ih := ih (fun t ht => ha t (by simp [ht]))
    have hb := ha t (by simp)
    rcases t with ⟨f, s⟩ | ⟨n, control⟩ | v | v | ⟨v, _ | _⟩ | m | e | v | v
    · simp only [List.cons_append, List.cons.injEq] at h
      obtain ⟨rfl, rfl, -⟩ := h
      simp
    · exact absurd hb hk
    all_goals exact List.mem_cons_of_mem _ (ih h)

theorem fitting_perm {kind : Kind} {ts ts' : List STag} (h : ts.Perm ts') (hf : Fitting kind ts) : Fitting kind ts' ∧ (kind ≠ .multi → partsOf ts' = partsOf ts) := by
  have ha : ∀ t ∈ ts', Allowed kind t := fun t ht => hf.allowed t (h.mem_iff.2 ht)
  have hp : kind ≠ .multi → partsOf ts' = partsOf ts := by
    intro hk
    obtain ⟨p, q, hpq⟩ := hf.two hk
    have hperm : (partsOf ts').Perm [p, q] := by
      rw [← hpq]
      exact (h.flatMap_right _).symm
    have hl := hperm.length_eq
    match hm : partsOf ts', hl with
    | [a, b], _ =>
      have h1 := h.mem_iff.1 (parts_two hk hf.allowed hpq)
      rw [hpq]
      obtain ⟨l, r, rfl⟩ := List.append_of_mem h1
      have h3 : partsOf (l ++ STag.participants p q :: r) = partsOf l ++ (p :: q :: partsOf r) := by
        unfold partsOf
        rw [List.flatMap_append, List.flatMap_cons]
        rfl
      rw [h3] at hm
      have hlen := congrArg List.length hm
      simp only [List.length_append, List.length_cons, List.length_nil] at hlen
      have : partsOf l = [] := List.length_eq_zero_iff.1 (by omega)
      rw [this] at hm
      simp only [List.nil_append, List.cons.injEq] at hm
      simp [hm]
  refine ⟨⟨ha, ?_, ?_, ?_, ?_, ?_, ?_⟩, hp⟩
  · intro hk
    rw [hp hk]
    exact hf.two hk
  · rw [← show (maxTimesOf ts).length = (maxTimesOf ts').length from (h.flatMap_right _).length_eq]; exact hf.maxTime
  · rw [← show (maxWindowsOf ts).length = (maxWindowsOf ts').length from (h.flatMap_right _).length_eq]; exact hf.maxWindows
  · rw [← show (sizesOf ts).length = (sizesOf ts').length from (h.flatMap_right _).length_eq]; exact hf.size
  · rw [← show (minItersOf ts).length = (minItersOf ts').length from (h.flatMap_right _).length_eq]; exact hf.minIter
  · rw [← show (maxItersOf ts).length = (maxItersOf ts').length from (h.flatMap_right _).length_eq]; exact hf.maxIter

theorem wellPosed_perm {w : World} {kind : Kind} {remeshing : Bool} {acc : Option (List ℕ)} {ts ts' : List STag} (h : ts.Perm ts') (hf : Fitting kind ts)
    (hw : WellPosed w kind remeshing acc ts) : WellPosed w kind remeshing acc ts' := by
  have e1 : (maxTimesOf ts').Perm (maxTimesOf ts) := (h.flatMap_right _).symm
  have e2 : (maxWindowsOf ts').Perm (maxWindowsOf ts) := (h.flatMap_right _).symm
  have e3 : (sizesOf ts').Perm (sizesOf ts) := (h.flatMap_right _).symm
  have e4 : (minItersOf ts').Perm (minItersOf ts) := (h.flatMap_right _).symm
  have e5 : (maxItersOf ts').Perm (maxItersOf ts) := (h.flatMap_right _).symm
  have e6 : (measuresOf ts').Perm (measuresOf ts) := (h.flatMap_right _).symm
  have e7 : (exchangesOf ts').Perm (exchangesOf ts) := (h.flatMap_right _).symm
  have e8 : (partsOf ts').Perm (partsOf ts) := (h.flatMap_right _).symm
  have e9 : (controlsOf ts').Perm (controlsOf ts) := (h.flatMap_right _).symm
  have hh : ∀ p d, Handles (exchangesOf ts) p d → Handles (exchangesOf ts') p d := by
    rintro p d ⟨e, he, h1⟩
    exact ⟨e, e7.mem_iff.2 he, h1⟩
  obtain ⟨hv, hr, h2, hm⟩ := hw
  refine ⟨⟨?_, ?_, ?_, ?_, ?_, ?_, ?_, ?_⟩, hr, ?_, ?_⟩
  · exact fun v hx => hv.maxTime v (e1.mem_iff.1 hx)
  · exact fun v hx => hv.maxWindows v (e2.mem_iff.1 hx)
  · exact fun v hx => hv.size v (e3.mem_iff.1 hx)
  · exact fun v hx => hv.minIter v (e4.mem_iff.1 hx)
  · exact fun v hx => hv.maxIter v (e5.mem_iff.1 hx)
  · exact fun a hx b hy => hv.order a (e4.mem_iff.1 hx) b (e5.mem_iff.1 hy)
  · exact fun m hx => hv.limit m (e6.mem_iff.1 hx)
  · refine hv.ends.imp (fun h1 h0 => h1 ?_) (fun h1 h0 => h1 ?_)
    · rw [h0] at e1; exact e1.symm.eq_nil
    · rw [h0] at e2; exact e2.symm.eq_nil
  · intro hk p q hpq
    rw [(fitting_perm h hf).2 hk] at hpq
    have ht := h2 hk p q hpq
    refine ⟨ht.different, ht.link, fun e he => ht.each e (e7.mem_iff.1 he), ?_, ?_, ?_, ?_, ?_⟩
    · exact (e7.pairwise_iff fun hx => hx.symm).2 ht.once
    · intro hi
      obtain ⟨⟨e, he, h3⟩, f, hf', h4⟩ := ht.sends hi
      exact ⟨⟨e, e7.mem_iff.2 he, h3⟩, f, e7.mem_iff.2 hf', h4⟩
    · exact fun hi m hm' => hh _ _ (ht.measured hi m (e6.mem_iff.1 hm'))
    · exact fun hi d hd => hh _ _ (ht.accelerated hi d hd)
    · intro hi d hd
      obtain ⟨e, he, h3⟩ := ht.acceleratedSerial hi d hd
      exact ⟨e, e7.mem_iff.2 he, h3⟩
  · intro hk
    obtain ⟨hn, m, h1, ht⟩ := hm hk
    rw [h1] at e9
    refine ⟨e8.nodup_iff.2 hn, m, List.perm_singleton.1 e9, ?_⟩
    refine ⟨?_, (e7.pairwise_iff fun hx => compatible_symm hx).2 ht.compatible, ?_, fun x hx => hh _ _ (ht.measured x (e6.mem_iff.1 hx)), fun d hd => hh _ _ (ht.accelerated d hd)⟩
    · intro e he
      obtain ⟨h3, h4, h5⟩ := ht.each e (e7.mem_iff.1 he)
      exact ⟨e8.mem_iff.2 h3, e8.mem_iff.2 h4, h5⟩
    · intro p hp
      obtain ⟨e, he, h3⟩ := ht.sends p (e8.mem_iff.1 hp)
      exact ⟨e, e7.mem_iff.2 he, h3⟩

/-- **C109** The order of the tags does not decide whether the scheme is accepted (and by `C109_configured` has no influence on the values of its schemes). -/
theorem C109_order {w : World} {kind : Kind} {remeshing : Bool} {acc : Option (List ℕ)} {ts ts' : List STag} (h : ts.Perm ts') (hf : Fitting kind ts) :
    (∃ bs, configureScheme w kind remeshing acc ts = .ok bs) ↔ ∃ bs, configureScheme w kind remeshing acc ts' = .ok bs := by
  have hf' := (fitting_perm h hf).1
  rw [C109_accepts _ _ _ _ _ hf, C109_accepts _ _ _ _ _ hf']
  exact ⟨wellPosed_perm h hf, wellPosed_perm h.symm hf'⟩

end Verif.Config.Scheme
