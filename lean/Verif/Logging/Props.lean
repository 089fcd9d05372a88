import Verif.Logging.Lemmas

/-!
# C132: log messages appear where the configuration says

The full claim is that for every configuration exactly the records that the filters of its enabled sinks accept are
written, in the configured format, and nothing if logging is disabled. Missing: `<log enabled="false">` with an enabled
sink (`C132_not_disabled`), enabled logging with disabled sinks only (`C132_all_disabled`), the text of warnings in the
default format (`C132_warning`), and the ranks in builds without MPI (`C132_rank`).
-/

set_option autoImplicit false

namespace Verif.Logging

/-- Exactly the records that the filters of the configured sinks accept are written to each destination, in their order,
and nothing to the console behind the back of the configuration. Files start empty. -/
theorem C132_records_partial {env : Env} {k0 k : Core} (hl : k0.locked = false)
    (ht : ∀ t, env.tag = some t → t.Plain) (h : configure env k0 = .ok k) {d : Dest} (hq : Quiet k0 d)
    (es : List Event) :
    ((logAll es k).out d).map Prod.fst =
      (k.out d).map Prod.fst ++ (es.map (record k)).flatMap (fun r => (linesAt env.wanted d r).map Prod.fst) ∧
    (d.isFile = true → (∃ c ∈ env.wanted, c.target = some d) → k.out d = []) := by
  obtain ⟨ss, m, ha, hn, hap, -, -, -, ho⟩ := configure_made hl ht h
  refine ⟨?_, ho d⟩
  have hq' : Quiet k d := by
    intro s hs
    rw [hap] at hs
    exact hq s hs
  rw [logAll_out m ha hn hq' es]
  simp [linesAt, List.map_flatMap, Function.comp_def]

/-- The lines have the configured format: warnings excepted, if a sink has the default format. -/
theorem C132_text_partial {env : Env} {k0 k : Core} (hl : k0.locked = false)
    (ht : ∀ t, env.tag = some t → t.Plain) (h : configure env k0 = .ok k) {d : Dest} (hq : Quiet k0 d)
    {es : List Event}
    (hw : (∀ e ∈ es, e.severity ≠ .warning) ∨ ∀ c ∈ env.wanted, c.format ≠ .default) :
    (logAll es k).out d = k.out d ++ (es.map (record k)).flatMap (linesAt env.wanted d) := by
  obtain ⟨ss, m, ha, hn, hap, -, -, -, ho⟩ := configure_made hl ht h
  have hq' : Quiet k d := by
    intro s hs
    rw [hap] at hs
    exact hq s hs
  rw [logAll_out m ha hn hq' es]
  congr 1
  apply List.flatMap_congr
  intro r hr
  unfold linesAt
  apply List.map_congr_left
  intro c hc
  have hc' := (List.mem_filter.1 hc).1
  congr 1
  unfold Cfg.codeText Cfg.lineOf
  cases hf : c.format with
  | default =>
    rcases hw with hw | hw
    · obtain ⟨e, he, rfl⟩ := List.mem_map.1 hr
      exact defaultFormatter_eq (hw e he)
    · exact absurd hf (hw c hc')
  | _ => rfl

/-- The attributes of the records: the name of the participant and, in builds with MPI, its rank -/
theorem C132_attributes {env : Env} {k0 k : Core} (hl : k0.locked = false)
    (ht : ∀ t, env.tag = some t → t.Plain) (h : configure env k0 = .ok k) (e : Event) :
    (record k e).participant = env.participant ∧ (env.mpi = true → (record k e).rank = env.rank) ∧
    (record k e).severity = e.severity ∧ (record k e).message = e.message := by
  obtain ⟨_, _, _, _, _, _, hr, hp, _⟩ := configure_made hl ht h
  refine ⟨hp, fun hm => ?_, rfl, rfl⟩
  show k.rank = _
  rw [hr, hm]
  rfl

/-- Without a configuration of the logging: errors and warnings of all ranks and infos of the first rank go to the standard
output, nothing else goes anywhere. -/
theorem C132_default {env : Env} {k0 k : Core} (hl : k0.locked = false) (hm : env.mpi = true) (ht : env.tag = none)
    (hc : env.conf = none) (h : configure env k0 = .ok k) (hq : ∀ d, Quiet k0 d) {e : Event} (he : e.preCICE = true) :
    ((log e k).out .stdout).map Prod.fst = (k.out .stdout).map Prod.fst ++
      (if e.severity = .error ∨ e.severity = .warning ∨ (e.severity = .info ∧ env.rank = 0) then [record k e] else []) ∧
    ∀ d, d ≠ .stdout → (log e k).out d = k.out d := by
  have hpl : ∀ t, env.tag = some t → t.Plain := by rw [ht]; simp
  have hw : env.wanted = [{}] := by unfold Env.wanted; rw [ht, hc]
  have hr := (C132_attributes hl hpl h e).2.1 hm
  constructor
  · have := (C132_records_partial hl hpl h (hq .stdout) [e]).1
    simp only [logAll, List.foldl_cons, List.foldl_nil] at this
    rw [this, hw]
    congr 1
    have hs : (record k e).severity = e.severity := rfl
    have hp : (record k e).preCICE = true := he
    by_cases hx : e.severity = .error ∨ e.severity = .warning ∨ (e.severity = .info ∧ env.rank = 0)
    · rw [if_pos hx]
      have : Cfg.shows {} (record k e) = true := by
        simp only [Cfg.shows, hp, hs, hr]
        rcases hx with hx | hx | ⟨hx, hx2⟩
        · simp [hx]
        · simp [hx]
        · simp [hx, hx2]
      simp [linesAt, Cfg.target, this]
    · rw [if_neg hx]
      have : Cfg.shows {} (record k e) = false := by
        simp only [not_or, not_and] at hx
        simp only [Cfg.shows, hp, hs, hr]
        simp [hx.1, hx.2.1]
        exact hx.2.2
      simp [linesAt, Cfg.target, this]
  · intro d hd
    obtain ⟨ss, m, ha, hn, hap, -, -, -, ho⟩ := configure_made hl hpl h
    have hq' : Quiet k d := by
      intro s hs
      rw [hap] at hs
      exact hq d s hs
    rw [(log_out m ha hn hq' e).1, hw]
    simp [Cfg.target, Ne.symm hd]

/-- The configuration succeeds if all enabled sinks make sense. -/
theorem C132_accepted {env : Env} (k0 : Core) (hc : ∀ cs, env.conf = some cs → ∀ c ∈ cs, c.Valid)
    (ht : ∀ t, env.tag = some t → ∀ c ∈ t.sinks, c.enabled = true → c.Valid) : ∃ k, configure env k0 = .ok k := by
  have hd : Cfg.Valid {} := ⟨by simp [Cfg.target], trivial, by simp⟩
  have hset : ∀ (cs : List Cfg) (b : Bool) (k : Core), (∀ c ∈ cs, c.enabled = true → c.Valid) →
      ∃ k', setupLogging cs b k = .ok k' := by
    intro cs b k hv
    unfold setupLogging
    by_cases hlk : k.locked = true
    · rw [if_pos hlk]; exact ⟨_, rfl⟩
    · rw [if_neg hlk]
      dsimp only
      by_cases hb : (!b && cs.all fun c => !c.enabled) = true
      · rw [if_pos hb]; exact ⟨_, rfl⟩
      · rw [if_neg hb]
        apply addSinks_valid
        cases cs with
        | nil => intro c hc _; simp at hc; subst hc; exact hd
        | cons c cs => simpa using hv
  unfold configure setupFromFile
  dsimp only
  obtain ⟨k1, h1⟩ := hset ((env.conf.getD []).map fun c => { c with enabled := true }) true
    { k0 with participant := env.participant } (by
      intro c hcm _
      obtain ⟨x, hx, rfl⟩ := List.mem_map.1 hcm
      cases hcf : env.conf with
      | none => rw [hcf] at hx; simp at hx
      | some cs =>
        rw [hcf] at hx
        exact hc cs hcf x hx)
  rw [h1]
  cases htag : env.tag with
  | none => exact ⟨_, rfl⟩
  | some t => exact hset t.sinks t.enabled _ (ht t htag)

/-- A locked configuration is not changed: `precice-tools check` shows its messages in its own format. -/
theorem C132_locked (cs : List Cfg) (b : Bool) {k : Core} (h : k.locked = true) : setupLogging cs b k = .ok k := by
  simp [setupLogging, h]

/-- `<log enabled="false">` with an enabled sink logs: the attribute is ignored. -/
theorem C132_not_disabled {env : Env} (k0 : Core) {cs : List Cfg} {c : Cfg} (hc : c ∈ cs) (he : c.enabled = true)
    (ht : env.tag = some ⟨false, cs⟩) : configure env k0 = configure { env with tag := some ⟨true, cs⟩ } k0 := by
  have hall : (cs.all fun c => !c.enabled) = false := by
    rw [List.all_eq_false]
    exact ⟨c, hc, by simp [he]⟩
  unfold configure
  rw [ht]
  dsimp only
  cases setupFromFile env.conf { k0 with participant := env.participant } with
  | error e => simp only
  | ok k1 => simp [setupLogging, hall]

/-- With enabled logging and disabled sinks only there is no sink at all. If the application has none either, the default
sink of Boost writes everything to the console, whatever its severity and rank. -/
theorem C132_all_disabled {env : Env} {k0 k : Core} (hl : k0.locked = false) {cs : List Cfg} (hn : cs ≠ [])
    (hd : ∀ c ∈ cs, c.enabled = false) (ht : env.tag = some ⟨true, cs⟩) (ha : k0.application = [])
    (h : configure env k0 = .ok k) (e : Event) :
    ((log e k).out .console).map Prod.fst = (k.out .console).map Prod.fst ++ [record k e] := by
  unfold configure at h
  dsimp only at h
  cases hs : setupFromFile env.conf { k0 with participant := env.participant } with
  | error e => rw [hs] at h; simp at h
  | ok k1 =>
    rw [hs] at h
    unfold setupFromFile setupLogging at hs
    simp only [hl, Bool.false_eq_true, if_false, Bool.not_true, Bool.false_and] at hs
    obtain ⟨ss1, m1, a1, b1, o1⟩ := addSinks_ok hs
    have hl1 : k1.locked = false := b1.locked
    rw [ht] at h
    dsimp only at h
    unfold setupLogging at h
    simp only [hl1, Bool.false_eq_true, if_false, Bool.not_true, Bool.false_and] at h
    obtain ⟨ss, m, a, b, -⟩ := addSinks_ok h
    have hfil : ((if cs.isEmpty then [{}] else cs).filter fun c => c.enabled) = [] := by
      have : cs.isEmpty = false := by cases cs with
        | nil => exact absurd rfl hn
        | cons _ _ => rfl
      rw [this]
      simp only [Bool.false_eq_true, if_false]
      rw [List.filter_eq_nil_iff]
      intro c hc
      simp [hd c hc]
    rw [hfil] at m
    cases m
    have hap : k.application = [] := by
      rw [b.application]
      show k1.application = []
      rw [b1.application]
      exact ha
    have hact : k.active = [] := by simpa using a
    unfold log
    simp [hap, hact]

/-- Warnings in the default format have a bracket that is not in the format. -/
theorem C132_warning {r : Record} (h : r.severity = .warning) : defaultFormatter r ≠ renderAll defaultPieces r :=
  defaultFormatter_warning h

/-- In builds without MPI all ranks of a parallel participant log as rank 0: with the default filter the infos of all ranks
are shown. -/
theorem C132_rank {env : Env} {k0 k : Core} (hl : k0.locked = false) (hm : env.mpi = false) (ht : env.tag = none)
    (hc : env.conf = none) (h : configure env k0 = .ok k) (hq : Quiet k0 .stdout) {e : Event} (he : e.preCICE = true)
    (hi : e.severity = .info) :
    (record k e).rank = 0 ∧
      ((log e k).out .stdout).map Prod.fst = (k.out .stdout).map Prod.fst ++ [record k e] := by
  have hpl : ∀ t, env.tag = some t → t.Plain := by rw [ht]; simp
  have hw : env.wanted = [{}] := by unfold Env.wanted; rw [ht, hc]
  obtain ⟨_, _, _, _, _, _, hr, _, _⟩ := configure_made hl hpl h
  have hr' : (record k e).rank = 0 := by
    show k.rank = 0
    rw [hr, hm]
    rfl
  refine ⟨hr', ?_⟩
  have := (C132_records_partial hl hpl h hq [e]).1
  simp only [logAll, List.foldl_cons, List.foldl_nil] at this
  rw [this, hw]
  have hs : Cfg.shows {} (record k e) = true := by
    have h1 : (record k e).severity = .info := hi
    have h2 : (record k e).preCICE = true := he
    simp [Cfg.shows, h1, h2, hr']
  simp [linesAt, Cfg.target, hs]

/-- A stream other than `stdout` and `stderr` is not reported: there is no backend. -/
theorem C132_stream {env : Env} {k0 : Core} (hl : k0.locked = false)
    (hcf : ∀ cs, env.conf = some cs → ∀ c ∈ cs, c.Valid) {c : Cfg} {cs : List Cfg} (he : c.enabled = true)
    (hk : c.kind = .stream) (h1 : c.output ≠ "stdout") (h2 : c.output ≠ "stderr")
    (ht : env.tag = some ⟨true, c :: cs⟩) : configure env k0 = .error .null := by
  obtain ⟨k1, hk1⟩ := C132_accepted (env := { env with tag := none }) k0 hcf (by simp)
  unfold configure at hk1 ⊢
  dsimp only at hk1 ⊢
  cases hs : setupFromFile env.conf { k0 with participant := env.participant } with
  | error e => rw [hs] at hk1; simp at hk1
  | ok k2 =>
    unfold setupFromFile setupLogging at hs
    simp only [hl, Bool.false_eq_true, if_false, Bool.not_true, Bool.false_and] at hs
    obtain ⟨ss1, m1, a1, b1, o1⟩ := addSinks_ok hs
    have hl2 : k2.locked = false := b1.locked
    rw [ht]
    dsimp only
    simp [setupLogging, hl2, addSinks, he, addSink, backend, hk, h1, h2]

/-- **C132, markers.** `%Severity%` marks errors and warnings, each with its own marker, and nothing else. -/
theorem C132_severity (r : Record) :
    (Piece.render r .severity = "ERROR: " ↔ r.severity = .error) ∧
      (Piece.render r .severity = "WARNING: " ↔ r.severity = .warning) ∧
      (Piece.render r .severity = "" ↔ r.severity ≠ .error ∧ r.severity ≠ .warning) := by
  simp only [Piece.render]
  cases r.severity <;> decide

end Verif.Logging
