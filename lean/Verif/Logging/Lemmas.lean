import Verif.Logging.Spec
import Mathlib.Logic.Function.Basic
import Mathlib.Data.List.Forall2

/-! # Lemmas about logging (C132) -/

set_option autoImplicit false

namespace Verif.Logging

/-- the text the code makes -/
def Cfg.codeText (c : Cfg) (r : Record) : String :=
  match c.format with
  | .default => defaultFormatter r
  | .custom ps => renderAll ps r
  | .invalid => ""

/-- A sink of the core belongs to a configuration. -/
structure Made (c : Cfg) (s : Sink) : Prop where
  dest : c.target = some s.dest
  accepts : ∀ r, s.accepts r = c.shows r
  text : ∀ r, s.text r = c.codeText r

theorem defaultFilter_eq (r : Record) :
    defaultFilter r = (r.preCICE &&
      (decide (r.severity = .error) || decide (r.severity = .warning) || decide (r.severity = .info ∧ r.rank = 0))) := by
  unfold defaultFilter
  rw [Bool.and_assoc]
  congr 1
  rcases r with ⟨sev, p, rank, _, _, _, _, _, _⟩
  by_cases h : rank = 0 <;> cases sev <;> simp [Severity.level, h]

/-- is it a file -/
def Dest.isFile : Dest → Bool
  | .file _ => true
  | _ => false

/-- what stays the same while sinks are added -/
structure SameBase (k k' : Core) : Prop where
  application : k'.application = k.application
  locked : k'.locked = k.locked
  rank : k'.rank = k.rank
  participant : k'.participant = k.participant

theorem SameBase.refl (k : Core) : SameBase k k := ⟨rfl, rfl, rfl, rfl⟩

theorem SameBase.trans {a b c : Core} (h : SameBase a b) (g : SameBase b c) : SameBase a c :=
  ⟨g.1.trans h.1, g.2.trans h.2, g.3.trans h.3, g.4.trans h.4⟩

theorem openFile_base (d : Dest) (k : Core) : SameBase k (openFile d k) ∧ (openFile d k).active = k.active := by
  cases d <;> exact ⟨⟨rfl, rfl, rfl, rfl⟩, rfl⟩

theorem openFile_out (d d' : Dest) (k : Core) :
    (openFile d k).out d' = if d = d' ∧ d.isFile = true then [] else k.out d' := by
  cases d with
  | file f =>
    by_cases h : d' = .file f
    · subst h
      simp [openFile, Dest.isFile]
    · simp [openFile, Function.update_of_ne h, Ne.symm h]
  | _ => simp [openFile, Dest.isFile]

theorem backend_ok {c : Cfg} {d : Dest} : backend c = .ok d ↔ c.target = some d := by
  unfold backend Cfg.target
  cases c.kind
  · dsimp only
    split_ifs <;> simp
  · simp
  · simp

theorem addSink_ok {c : Cfg} {k k' : Core} (h : addSink c k = .ok k') :
    ∃ s, Made c s ∧ k'.active = k.active ++ [s] ∧ SameBase k k' ∧
      ∀ d, k'.out d = if s.dest = d ∧ d.isFile = true then [] else k.out d := by
  unfold addSink at h
  cases hb : backend c with
  | error e => rw [hb] at h; simp at h
  | ok d =>
    rw [hb] at h
    dsimp only at h
    cases ht : formatter c with
    | error e => rw [ht] at h; simp at h
    | ok t =>
      rw [ht] at h
      dsimp only at h
      cases hf : filter c with
      | error e => rw [hf] at h; simp at h
      | ok a =>
        rw [hf] at h
        simp only [Except.ok.injEq] at h
        subst h
        refine ⟨⟨d, a, t⟩, ⟨backend_ok.1 hb, ?_, ?_⟩, ?_, ?_, ?_⟩
        · intro r
          unfold filter at hf
          unfold Cfg.shows
          cases hc : c.filter with
          | default => rw [hc] at hf; simp at hf; subst hf; exact defaultFilter_eq r
          | empty => rw [hc] at hf; simp at hf; subst hf; simp
          | custom p => rw [hc] at hf; simp at hf; subst hf; rfl
          | invalid => rw [hc] at hf; simp at hf
        · intro r
          unfold formatter at ht
          unfold Cfg.codeText
          cases hc : c.format with
          | default => rw [hc] at ht; simp at ht; subst ht; rfl
          | custom p => rw [hc] at ht; simp at ht; subst ht; rfl
          | invalid => rw [hc] at ht; simp at ht
        · rw [(openFile_base d k).2]
        · have := (openFile_base d k).1
          exact ⟨this.1, this.2, this.3, this.4⟩
        · intro d'
          show (openFile d k).out d' = _
          rw [openFile_out]
          by_cases hd : d = d'
          · subst hd; rfl
          · simp [hd]

theorem addSinks_ok {cs : List Cfg} {k k' : Core} (h : addSinks cs k = .ok k') :
    ∃ ss, List.Forall₂ Made (cs.filter fun c => c.enabled) ss ∧ k'.active = k.active ++ ss ∧ SameBase k k' ∧
      ∀ d, k'.out d = if (∃ s ∈ ss, s.dest = d) ∧ d.isFile = true then [] else k.out d := by
  induction cs generalizing k with
  | nil =>
    simp only [addSinks, Except.ok.injEq] at h
    subst h
    exact ⟨[], .nil, by simp, SameBase.refl k, fun d => by simp⟩
  | cons c cs ih =>
    unfold addSinks at h
    cases he : c.enabled with
    | false =>
      rw [he] at h
      obtain ⟨ss, h1, h2⟩ := ih h
      exact ⟨ss, by simpa [he] using h1, h2⟩
    | true =>
      rw [he, if_pos rfl] at h
      cases ha : addSink c k with
      | error e => rw [ha] at h; simp at h
      | ok k1 =>
        rw [ha] at h
        obtain ⟨s, m, hs, hb, ho⟩ := addSink_ok ha
        obtain ⟨ss, h1, h2, h3, h4⟩ := ih h
        refine ⟨s :: ss, by simpa [he] using ⟨m, h1⟩, by rw [h2, hs]; simp, hb.trans h3, fun d => ?_⟩
        rw [h4, ho]
        by_cases hf : d.isFile = true
        · by_cases hd : s.dest = d
          · simp [hf, hd]
          · simp [hf, hd]
        · simp [hf]

theorem addSink_valid {c : Cfg} (k : Core) (h : c.Valid) : ∃ k', addSink c k = .ok k' := by
  obtain ⟨h1, h2, h3⟩ := h
  obtain ⟨d, hd⟩ := Option.ne_none_iff_exists'.1 h1
  unfold addSink
  rw [backend_ok.2 hd]
  dsimp only
  cases hf : c.format with
  | invalid => exact absurd hf h3
  | _ =>
    simp only [formatter, hf]
    cases hg : c.filter with
    | invalid => rw [hg] at h2; exact absurd h2 id
    | _ => simp only [filter, hg]; exact ⟨_, rfl⟩

theorem addSinks_valid {cs : List Cfg} (k : Core) (h : ∀ c ∈ cs, c.enabled = true → c.Valid) :
    ∃ k', addSinks cs k = .ok k' := by
  induction cs generalizing k with
  | nil => exact ⟨k, rfl⟩
  | cons c cs ih =>
    have ih' := fun k => ih k fun x hx => h x (by simp [hx])
    unfold addSinks
    cases he : c.enabled with
    | false => exact ih' k
    | true =>
      obtain ⟨k1, h1⟩ := addSink_valid k (h c (by simp) he)
      rw [if_pos rfl, h1]
      exact ih' k1

/-! ### Records -/

theorem consume_base (r : Record) (k : Core) (s : Sink) :
    SameBase k (s.consume r k) ∧ (s.consume r k).active = k.active := by
  unfold Sink.consume
  split_ifs
  · exact ⟨⟨rfl, rfl, rfl, rfl⟩, rfl⟩
  · exact ⟨SameBase.refl k, rfl⟩

theorem consume_out (r : Record) (k : Core) (s : Sink) (d : Dest) :
    (s.consume r k).out d = k.out d ++ if s.accepts r ∧ s.dest = d then [(r, s.text r)] else [] := by
  unfold Sink.consume
  by_cases h : s.accepts r
  · by_cases hd : d = s.dest
    · subst hd
      simp [h]
    · simp [h, Function.update_of_ne hd, Ne.symm hd]
  · simp [h]

theorem foldl_out (r : Record) (ss : List Sink) (k : Core) (d : Dest) :
    (ss.foldl (Sink.consume r) k).out d =
      k.out d ++ (ss.filter fun s => s.accepts r && decide (s.dest = d)).map (fun s => (r, s.text r)) ∧
    SameBase k (ss.foldl (Sink.consume r) k) ∧ (ss.foldl (Sink.consume r) k).active = k.active := by
  induction ss generalizing k with
  | nil => exact ⟨by simp, SameBase.refl k, rfl⟩
  | cons s ss ih =>
    obtain ⟨h1, h2, h3⟩ := ih (s.consume r k)
    have hb := consume_base r k s
    refine ⟨?_, hb.1.trans h2, by rw [List.foldl_cons, h3, hb.2]⟩
    rw [List.foldl_cons, h1, consume_out, List.append_assoc]
    congr 1
    by_cases h : s.accepts r = true ∧ s.dest = d
    · simp [h.1, h.2]
    · rw [if_neg h]
      have : (s.accepts r && decide (s.dest = d)) = false := by
        rcases not_and_or.1 h with h | h
        · simp [h]
        · simp [h]
      simp [this]

theorem made_lines {cs : List Cfg} {ss : List Sink} (h : List.Forall₂ Made cs ss) (r : Record) (d : Dest) :
    (ss.filter fun s => s.accepts r && decide (s.dest = d)).map (fun s => (r, s.text r)) =
      (cs.filter fun c => decide (c.target = some d) && c.shows r).map fun c => (r, c.codeText r) := by
  induction h with
  | nil => rfl
  | @cons c s cs ss m _ ih =>
    have h1 : (s.accepts r && decide (s.dest = d)) = (decide (c.target = some d) && c.shows r) := by
      rw [m.accepts, m.dest, Bool.and_comm]
      simp
    by_cases hb : (decide (c.target = some d) && c.shows r) = true
    · simp only [List.filter_cons, h1, hb, if_true, List.map_cons, ih, m.text]
    · simp only [List.filter_cons, h1, hb, Bool.false_eq_true, if_false, ih]

/-- one record -/
theorem log_out {k : Core} {cs : List Cfg} {ss : List Sink} (hm : List.Forall₂ Made cs ss)
    (ha : k.active = ss ∨ (cs = [] ∧ k.active = [⟨.console, fun _ => false, fun _ => ""⟩])) (hn : k.active ≠ [])
    {d : Dest} (hq : Quiet k d) (e : Event) :
    (log e k).out d = k.out d ++
      ((cs.filter fun c => decide (c.target = some d) && c.shows (record k e)).map fun c =>
        (record k e, c.codeText (record k e))) ∧
    SameBase k (log e k) ∧ (log e k).active = k.active := by
  have hne : (k.application ++ k.active).isEmpty = false := by
    cases h : k.active with
    | nil => exact absurd h hn
    | cons a l => simp
  unfold log
  simp only [hne, Bool.false_eq_true, if_false]
  obtain ⟨h1, h2, h3⟩ := foldl_out (record k e) (k.application ++ k.active) k d
  refine ⟨?_, h2, h3⟩
  rw [h1, List.filter_append]
  have : (k.application.filter fun s => s.accepts (record k e) && decide (s.dest = d)) = [] := by
    rw [List.filter_eq_nil_iff]
    intro s hs
    simp [hq s hs]
  rw [this, List.nil_append]
  congr 1
  rcases ha with ha | ⟨rfl, ha⟩
  · rw [ha]
    exact made_lines hm _ _
  · rw [ha]
    simp

/-- all records -/
theorem logAll_out {k : Core} {cs : List Cfg} {ss : List Sink} (hm : List.Forall₂ Made cs ss)
    (ha : k.active = ss ∨ (cs = [] ∧ k.active = [⟨.console, fun _ => false, fun _ => ""⟩])) (hn : k.active ≠ [])
    {d : Dest} (hq : Quiet k d) (es : List Event) :
    (logAll es k).out d = k.out d ++ (es.map (record k)).flatMap fun r =>
      (cs.filter fun c => decide (c.target = some d) && c.shows r).map fun c => (r, c.codeText r) := by
  have hrec : ∀ {k k' : Core}, SameBase k k' → record k' = record k := by
    intro k k' h
    funext e
    simp [record, h.rank, h.participant]
  induction es generalizing k with
  | nil => simp [logAll]
  | cons e es ih =>
    obtain ⟨h1, h2, h3⟩ := log_out hm ha hn hq e
    have hq' : Quiet (log e k) d := by
      intro s hs
      rw [h2.application] at hs
      exact hq s hs
    have := ih (k := log e k) (by rw [h3]; exact ha) (by rw [h3]; exact hn) hq'
    rw [hrec h2] at this
    show (logAll es (log e k)).out d = _
    rw [this, h1]
    simp [List.append_assoc]

/-! ### The default format -/

theorem render_colorized (r : Record) : Piece.render r .colorized = (if r.severity = .error then red ++ "ERROR: " else "") ++
      (if r.severity = .warning then cyan ++ "WARNING: " else "") ++ noColor := rfl

theorem defaultFormatter_eq {r : Record} (h : r.severity ≠ .warning) :
    defaultFormatter r = renderAll defaultPieces r := by
  unfold defaultFormatter renderAll defaultPieces
  simp only [List.foldr_cons, List.foldr_nil]
  have e1 : ∀ s, Piece.render r (.text s) = s := fun s => rfl
  have e2 : Piece.render r .rank = toString r.rank := rfl
  have e3 : Piece.render r .time = r.time := rfl
  have e4 : Piece.render r .module = r.module := rfl
  have e5 : Piece.render r .line = toString r.line := rfl
  have e6 : Piece.render r .function = r.function := rfl
  have e7 : Piece.render r .message = r.message := rfl
  rw [e1, e1, e1, e1, e1, e1, e2, e3, e4, e5, e6, e7, render_colorized, if_neg h, if_neg h]
  simp only [String.append_assoc, String.append_empty]

theorem defaultFormatter_warning {r : Record} (h : r.severity = .warning) : defaultFormatter r ≠ renderAll defaultPieces r := by
  intro he
  have hs : ¬ (r.severity = .error) := by rw [h]; simp
  unfold defaultFormatter renderAll defaultPieces at he
  simp only [List.foldr_cons, List.foldr_nil] at he
  have e1 : ∀ s, Piece.render r (.text s) = s := fun s => rfl
  have e2 : Piece.render r .rank = toString r.rank := rfl
  have e3 : Piece.render r .time = r.time := rfl
  have e4 : Piece.render r .module = r.module := rfl
  have e5 : Piece.render r .line = toString r.line := rfl
  have e6 : Piece.render r .function = r.function := rfl
  have e7 : Piece.render r .message = r.message := rfl
  rw [e1, e1, e1, e1, e1, e1, e2, e3, e4, e5, e6, e7, render_colorized, if_neg hs, if_pos h, if_pos h] at he
  have := congrArg String.length he
  simp only [String.length_append] at this
  rw [show "WARNING: ]".length = 10 from rfl, show "WARNING: ".length = 9 from rfl, show "".length = 0 from rfl] at this
  generalize (toString r.rank).length = a at this
  generalize (toString r.line).length = b at this
  generalize red.length = x at this
  generalize cyan.length = y at this
  generalize noColor.length = z at this
  omega

/-! ### The configuration -/

/-- what the configuration gives -/
theorem configure_made {env : Env} {k0 k : Core} (hl : k0.locked = false)
    (ht : ∀ t, env.tag = some t → t.Plain) (h : configure env k0 = .ok k) :
    ∃ ss, List.Forall₂ Made env.wanted ss ∧
      (k.active = ss ∨ (env.wanted = [] ∧ k.active = [⟨.console, fun _ => false, fun _ => ""⟩])) ∧ k.active ≠ [] ∧
      k.application = k0.application ∧ k.locked = false ∧
      k.rank = (if env.mpi then env.rank else 0) ∧ k.participant = env.participant ∧
      ∀ d, d.isFile = true → (∃ c ∈ env.wanted, c.target = some d) → k.out d = [] := by
  unfold configure at h
  dsimp only at h
  cases hs : setupFromFile env.conf { k0 with participant := env.participant } with
  | error e => rw [hs] at h; simp at h
  | ok k1 =>
    rw [hs] at h
    dsimp only at h
    unfold setupFromFile setupLogging at hs
    simp only [hl, Bool.false_eq_true, if_false, Bool.not_true, Bool.false_and] at hs
    obtain ⟨ss1, m1, a1, b1, o1⟩ := addSinks_ok hs
    have hdest : ∀ {cs : List Cfg} {ss : List Sink}, List.Forall₂ Made cs ss → ∀ d,
        (∃ c ∈ cs, c.target = some d) → ∃ s ∈ ss, s.dest = d := by
      intro cs ss hm d
      induction hm with
      | nil => simp
      | @cons c s cs ss m _ ih =>
        rintro ⟨x, hx, hd⟩
        rcases List.mem_cons.1 hx with rfl | hx
        · rw [m.dest] at hd
          exact ⟨s, by simp, by simpa using hd⟩
        · obtain ⟨y, hy, hyd⟩ := ih ⟨x, hx, hd⟩
          exact ⟨y, by simp [hy], hyd⟩
    have hne : ∀ {cs : List Cfg} {ss : List Sink}, List.Forall₂ Made cs ss → cs ≠ [] → ss ≠ [] := by
      intro cs ss hm hc
      cases hm with
      | nil => exact absurd rfl hc
      | cons _ _ => simp
    cases htag : env.tag with
    | none =>
      rw [htag] at h
      simp only [Except.ok.injEq] at h
      subst h
      have hw : ((if (((env.conf.getD []).map fun c => { c with enabled := true }) : List Cfg).isEmpty then [{}]
          else ((env.conf.getD []).map fun c => { c with enabled := true }) : List Cfg).filter fun c => c.enabled) =
          env.wanted.map fun c => { c with enabled := true } := by
        unfold Env.wanted
        rw [htag]
        cases hc : env.conf with
        | none => rfl
        | some cs =>
          cases cs with
          | nil => rfl
          | cons c cs => simp [List.filter_map, Function.comp_def]
      rw [hw] at m1
      have m1' : List.Forall₂ Made env.wanted ss1 := by
        rw [List.forall₂_map_left_iff] at m1
        exact m1.imp fun c s m => ⟨m.dest, m.accepts, m.text⟩
      have hwn : env.wanted ≠ [] := by
        unfold Env.wanted
        rw [htag]
        cases hc : env.conf with
        | none => simp
        | some cs => cases cs <;> simp
      have a1' : k1.active = ss1 := by simpa using a1
      have han : k1.active ≠ [] := by
        rw [a1']
        exact hne m1' hwn
      refine ⟨ss1, m1', .inl a1', han, b1.application, b1.locked, rfl, b1.participant, ?_⟩
      intro d hf hd
      show k1.out d = []
      rw [o1, if_pos ⟨hdest m1' d hd, hf⟩]
    | some t =>
      rw [htag] at h
      dsimp only at h
      have hl1 : k1.locked = false := b1.locked
      have hw : env.wanted = t.wanted := by unfold Env.wanted; rw [htag]
      rw [hw]
      unfold setupLogging at h
      simp only [hl1, Bool.false_eq_true, if_false] at h
      rcases ht t htag with ⟨he, hs'⟩ | ⟨he, hs'⟩
      · have hall : (t.sinks.all fun c => !c.enabled) = true := by
          rw [List.all_eq_true]
          intro c hc
          rw [hs' c hc]
          rfl
        simp only [he, hall, Bool.not_false, Bool.and_self, if_true, Except.ok.injEq] at h
        subst h
        have hwn : t.wanted = [] := by unfold Tag.wanted; rw [he]; rfl
        rw [hwn]
        exact ⟨[], .nil, .inr ⟨rfl, rfl⟩, by simp, b1.application, rfl, rfl, b1.participant, fun d _ hd => by simp at hd⟩
      · simp only [he, Bool.not_true, Bool.false_and, Bool.false_eq_true, if_false] at h
        obtain ⟨ss, m, a, b, o⟩ := addSinks_ok h
        have hw2 : ((if t.sinks.isEmpty then [{}] else t.sinks).filter fun c => c.enabled) = t.wanted := by
          unfold Tag.wanted
          rw [he, if_pos rfl]
          split_ifs with hi
          · rfl
          · rfl
        rw [hw2] at m
        have hwn : t.wanted ≠ [] := by
          unfold Tag.wanted
          rw [he, if_pos rfl]
          rcases hs' with hs' | ⟨c, hc, hce⟩
          · rw [hs']; simp
          · have : t.sinks.isEmpty = false := by cases hts : t.sinks with
              | nil => rw [hts] at hc; simp at hc
              | cons a l => rfl
            rw [this]
            simp only [Bool.false_eq_true, if_false]
            exact List.ne_nil_of_mem (List.mem_filter.2 ⟨hc, hce⟩)
        have a' : k.active = ss := by simpa using a
        refine ⟨ss, m, .inl a', by rw [a']; exact hne m hwn, b.application.trans b1.application,
          b.locked, b.rank, b.participant.trans b1.participant, ?_⟩
        intro d hf hd
        rw [o, if_pos ⟨hdest m d hd, hf⟩]

end Verif.Logging
