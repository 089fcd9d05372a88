import Verif.Api.DataPathLemmas

/-!
# One iteration of the writer and of the reader (C104)
-/

set_option autoImplicit false

namespace Verif.DataPath

variable {V : Type}

/-- The sample with the mapped value; nothing is mapped if there is no mapping. -/
def mapped (m : Option (SampleMap V)) (s : ℚ × V) : ℚ × V := (s.1, match m with | none => s.2 | some m => m.map s.2)

/-- A sample `y` shows the sample `s`: same time and the mapped value. A sample that counts as zero may be shown as zero. -/
def Shows (m : Option (SampleMap V)) (s y : ℚ × V) : Prop :=
  y.1 = s.1 ∧ (y = mapped m s ∨ ∃ m', m = some m' ∧ m'.isZero s.2 = true ∧ y.2 = m'.zero)

theorem shows_mapped (m : Option (SampleMap V)) (s : ℚ × V) : Shows m s (mapped m s) := ⟨rfl, .inl rfl⟩

theorem shows_sample (m : SampleMap V) (z : Bool) (s : ℚ × V) : Shows (some m) s (m.sample z s) := by
  refine ⟨rfl, ?_⟩
  unfold SampleMap.sample SampleMap.value
  split
  · next h =>
    rw [Bool.and_eq_true] at h
    exact .inr ⟨m, rfl, h.2, rfl⟩
  · exact .inl rfl

theorem forall₂_shows_times {m : Option (SampleMap V)} {l k : Samples V} (h : List.Forall₂ (Shows m) l k) : k.map (·.1) = l.map (·.1) := by
  induction h with
  | nil => rfl
  | cons h _ ih => simp [h.1, ih]

theorem forall₂_map (m : SampleMap V) (z : Bool) (l : Samples V) : List.Forall₂ (Shows (some m)) l (l.map (m.sample z)) := by
  induction l with
  | nil => exact .nil
  | cons s l ih => exact .cons (shows_sample m z s) ih

theorem forall₂_refl (l : Samples V) : List.Forall₂ (Shows none) l l := by
  induction l with
  | nil => exact .nil
  | cons s l ih => exact .cons ⟨rfl, .inl rfl⟩ ih

/-- Samples after a window start at `t`, up to the time `now`, spaced. -/
def Covers (t now : ℚ) (l : Samples V) : Prop := (∀ b ∈ l, t + 2 * tol < b.1) ∧ Gap l ∧ ∃ ini v, l = ini ++ [(now, v)]

theorem Covers.gap {p : ℚ × V} {now : ℚ} {l : Samples V} (h : Covers p.1 now l) : Gap (p :: l) := Gap.cons_iff.2 ⟨h.1, h.2.1⟩

theorem Covers.congr {t now : ℚ} {l k : Samples V} (h : Covers t now l) (e : k.map (·.1) = l.map (·.1)) : Covers t now k := by
  obtain ⟨h1, h2, ini, v, rfl⟩ := h
  refine ⟨fun b hb => ?_, (Gap.congr e).2 h2, ?_⟩
  · have : b.1 ∈ k.map (·.1) := List.mem_map_of_mem hb
    rw [e] at this
    obtain ⟨a, ha, hab⟩ := List.mem_map.1 this
    rw [← hab]
    exact h1 a ha
  · rcases List.eq_nil_or_concat k with rfl | ⟨k', b, rfl⟩
    · simp at e
    · rw [List.concat_eq_append] at e ⊢
      refine ⟨k', b.2, ?_⟩
      rw [List.map_append, List.map_append] at e
      have := List.append_inj_right' e rfl
      simp only [List.map_cons, List.map_nil, List.cons.injEq, and_true] at this
      rw [← this]

theorem Covers.lt {t now : ℚ} {l : Samples V} (h : Covers t now l) : t + 2 * tol < now := by
  obtain ⟨h1, -, ini, v, rfl⟩ := h
  exact h1 (now, v) (by simp)

theorem covers_single {t now : ℚ} (h : t + 2 * tol < now) (v : V) : Covers t now [(now, v)] :=
  ⟨by simpa using h, List.pairwise_singleton _ _, [], v, rfl⟩

/-- The part of a list of samples that a message carries. -/
def exchanged (substeps : Bool) (now : ℚ) (l : Samples V) : Samples V :=
  if substeps then l else l.getLast?.toList.map fun s => (now, s.2)

theorem Covers.exchanged {t now : ℚ} {l : Samples V} (h : Covers t now l) (b : Bool) : Covers t now (exchanged b now l) := by
  have hlt := h.lt
  obtain ⟨h1, h2, ini, v, rfl⟩ := h
  cases b
  · simp only [DataPath.exchanged, Bool.false_eq_true, if_false, List.getLast?_append, List.getLast?_singleton, Option.some_or, Option.toList_some,
      List.map_cons, List.map_nil]
    exact covers_single hlt v
  · exact ⟨h1, h2, ini, v, rfl⟩

/-- The message carries the new samples after the sample `p` at the window start. -/
def Delivers (substeps : Bool) (now : ℚ) (p : ℚ × V) (msg : Msg V) (new : Samples V) : Prop :=
  match substeps, msg with
  | true, .samples l => l = p :: new
  | false, .value v => new = [(now, v)]
  | _, _ => False

theorem message_delivers {t now : ℚ} (b : Bool) (p : ℚ × V) (l : Samples V) (h : Covers t now l) :
    ∃ msg, message b (p :: l) = .ok msg ∧ ∀ at', Delivers b at' p msg (exchanged b at' l) := by
  obtain ⟨-, -, ini, v, rfl⟩ := h
  unfold message
  have : (p :: (ini ++ [(now, v)])).getLast? = some (now, v) := by rw [← List.cons_append, List.getLast?_append]; rfl
  rw [this]
  cases b
  · exact ⟨_, rfl, fun at' => by simp [Delivers, exchanged]⟩
  · exact ⟨_, rfl, fun at' => by simp [Delivers, exchanged]⟩

/-! ## The writer -/

/-- At the start of an iteration in a window starting at `T`: one sample is stored, `p` on the exchanged mesh. -/
structure Writer.At (c : Writer V) (T : ℚ) (v : V) (p : ℚ × V) (s : WriterState V) : Prop where
  lower : T ≤ p.1 + tol
  upper : p.1 ≤ T + tol
  prov : s.prov = [(p.1, v)]
  sent : c.map.isSome = true → s.sent = [p]
  same : c.map = none → v = p.2

/-- The samples of one iteration on the exchanged mesh. -/
def Writer.produced (c : Writer V) (steps : Samples V) : Samples V := (c.kept steps).map (mapped c.map)

theorem Writer.kept_covers (c : Writer V) {t now : ℚ} {steps : Samples V} (h : Covers t now steps) : Covers t now (c.kept steps) := by
  unfold Writer.kept
  split
  · exact h
  · have hlt := h.lt
    obtain ⟨-, -, ini, v, rfl⟩ := h
    simpa using covers_single hlt v

theorem Writer.produced_covers (c : Writer V) {t now : ℚ} {steps : Samples V} (h : Covers t now steps) : Covers t now (c.produced steps) :=
  (c.kept_covers h).congr (by simp [Writer.produced, mapped, Function.comp_def])

/-- The storages after the samples of an iteration are stored and mapped. -/
theorem Writer.store_ok {c : Writer V} {T now : ℚ} {v : V} {p : ℚ × V} {s : WriterState V} {steps : Samples V} (h : c.At T v p s)
    (hs : Covers p.1 now steps) :
    setSamples (c.kept steps) s.prov = .ok ((p.1, v) :: c.kept steps) ∧
    (∀ m, c.map = some m → mapData m (some T) false ((p.1, v) :: c.kept steps) s.sent = .ok (p :: c.produced steps)) := by
  have htol := tol_pos
  have hk := c.kept_covers hs
  constructor
  · rw [h.prov]
    exact setSamples_append (l := [(p.1, v)]) (Covers.gap (p := (p.1, v)) hk)
  · intro m hm
    rw [h.sent (by simp [hm])]
    have := mapData_append (m := m) (after := some T) (z := false) [(p.1, v)] (c.kept steps) [p] (by simp)
      (by
        intro s hs
        rw [List.mem_singleton] at hs
        subst hs
        exact .inl ⟨T, rfl, h.upper⟩)
      (by
        intro a ha s hs
        cases ha
        have := hk.1 s hs
        have := h.lower
        linarith)
      hk.gap
    rw [List.singleton_append] at this
    rw [this, List.singleton_append]
    congr 2
    unfold Writer.produced
    rw [hm]
    rfl

/-- After acceleration, the part after the window start. -/
def Writer.sentSamples (c : Writer V) (steps : Samples V) (acc : Option (Samples V)) : Samples V := acc.getD (c.produced steps)

theorem Writer.iterate_ok {c : Writer V} {T now : ℚ} {v : V} {p : ℚ × V} {s : WriterState V} {steps : Samples V} {acc : Option (Samples V)}
    (h : c.At T v p s) (hs : Covers p.1 now steps) (ha : ∀ new, acc = some new → Covers p.1 now new) :
    ∃ s' msg, c.iterate T steps acc s = .ok (s', msg) ∧ c.out s' = p :: c.sentSamples steps acc ∧
      (c.map.isSome = true → s'.prov = (p.1, v) :: c.kept steps) ∧
      ∀ at', Delivers c.substeps at' p msg (exchanged c.substeps at' (c.sentSamples steps acc)) := by
  have htol := tol_pos
  obtain ⟨h1, h2⟩ := Writer.store_ok h hs
  have hp := c.produced_covers hs
  have hS : Covers p.1 now (c.sentSamples steps acc) := by
    unfold Writer.sentSamples
    cases acc with
    | none => exact hp
    | some new => exact ha new rfl
  obtain ⟨msg, hmsg, hdel⟩ := message_delivers c.substeps p _ hS
  have hacc : ∀ new l : Samples V, Covers p.1 now l → accelerate T new (p :: l) = p :: new := by
    intro new l hl
    unfold accelerate
    rw [trimAfter_start h.upper fun b hb => by have := hl.1 b hb; have := h.lower; linarith]
    rfl
  unfold Writer.iterate
  rw [h1]
  cases hm : c.map with
  | none =>
    have hv : (p.1, v) = p := by rw [h.same hm]
    have hprod : c.produced steps = c.kept steps := by
      unfold Writer.produced
      rw [hm]
      exact List.map_id _
    cases acc with
    | none =>
      refine ⟨⟨p :: c.kept steps, s.sent⟩, msg, ?_, ?_, by simp, hdel⟩
      · simp only [hv, Except.bind, bind, Writer.out, hm, Option.isSome_none, Bool.false_eq_true, if_false]
        rw [← hprod]
        have : message c.substeps (p :: c.produced steps) = .ok msg := hmsg
        rw [this]
      · simp [Writer.out, hm, Writer.sentSamples, hprod]
    | some new =>
      refine ⟨⟨p :: new, s.sent⟩, msg, ?_, ?_, by simp, hdel⟩
      · simp only [hv, Except.bind, bind, Writer.out, Writer.setOut, hm, Option.isSome_none, Bool.false_eq_true, if_false]
        rw [hacc new _ (c.kept_covers hs)]
        have : message c.substeps (p :: new) = .ok msg := hmsg
        rw [this]
      · simp [Writer.out, hm, Writer.sentSamples]
  | some m =>
    have h2 := h2 m hm
    cases acc with
    | none =>
      refine ⟨⟨(p.1, v) :: c.kept steps, p :: c.produced steps⟩, msg, ?_, ?_, fun _ => rfl, hdel⟩
      · simp only [Except.bind, bind, h2, Writer.out, hm, Option.isSome_some, if_true]
        have : message c.substeps (p :: c.produced steps) = .ok msg := hmsg
        rw [this]
      · simp [Writer.out, hm, Writer.sentSamples]
    | some new =>
      refine ⟨⟨(p.1, v) :: c.kept steps, p :: new⟩, msg, ?_, ?_, fun _ => rfl, hdel⟩
      · simp only [Except.bind, bind, h2, Writer.out, Writer.setOut, hm, Option.isSome_some, if_true]
        rw [hacc new _ hp]
        have : message c.substeps (p :: new) = .ok msg := hmsg
        rw [this]
      · simp [Writer.out, hm, Writer.sentSamples]

/-- Repeating the window restores the state at its start. -/
theorem Writer.finish_repeat {c : Writer V} {T now next : ℚ} {v : V} {p : ℚ × V} {s s' : WriterState V} {steps new : Samples V}
    (h : c.At T v p s) (hs : Covers p.1 now steps) (hn : Covers p.1 now new) (ho : c.out s' = p :: new)
    (hp : c.map.isSome = true → s'.prov = (p.1, v) :: c.kept steps) : c.At T v p (c.finish T next false s') := by
  have htol := tol_pos
  have hcut : ∀ l : Samples V, ∀ w : V, Covers p.1 now l → trimAfter T ((p.1, w) :: l) = [(p.1, w)] := by
    intro l w hl
    exact trimAfter_start h.upper fun b hb => by have := hl.1 b hb; have := h.lower; linarith
  unfold Writer.finish
  simp only [Bool.false_eq_true, if_false]
  unfold Writer.out at ho
  cases hm : c.map with
  | none =>
    rw [hm] at ho
    simp only [Option.isSome_none, Bool.false_eq_true, if_false] at ho
    refine ⟨h.lower, h.upper, ?_, by simp [hm], h.same⟩
    change trimAfter T s'.prov = _
    rw [ho, h.same hm]
    exact hcut new p.2 hn
  | some m =>
    rw [hm] at ho
    simp only [Option.isSome_some, if_true] at ho
    refine ⟨h.lower, h.upper, ?_, fun _ => ?_, h.same⟩
    · change trimAfter T s'.prov = _
      rw [hp (by simp [hm])]
      exact hcut _ v (c.kept_covers hs)
    · change trimAfter T s'.sent = _
      rw [ho]
      exact hcut new p.2 hn

/-- Completing the window leaves the last sample. -/
theorem Writer.finish_complete {c : Writer V} {T now next : ℚ} {v : V} {p : ℚ × V} {s' : WriterState V} {ini : Samples V} {x : V}
    (hs : Covers p.1 now (ini ++ [(now, x)])) (hnext : |now - next| ≤ tol)
    (ho : c.out s' = p :: c.produced (ini ++ [(now, x)]))
    (hp : c.map.isSome = true → s'.prov = (p.1, v) :: c.kept (ini ++ [(now, x)])) :
    c.At next x (mapped c.map (now, x)) (c.finish T next true s') := by
  have htol := tol_pos
  obtain ⟨hn1, hn2⟩ := abs_le.1 hnext
  obtain ⟨k, hk⟩ : ∃ k, c.kept (ini ++ [(now, x)]) = k ++ [(now, x)] := by
    unfold Writer.kept
    split
    · exact ⟨ini, rfl⟩
    · exact ⟨[], by simp⟩
  have hkc := c.kept_covers hs
  rw [hk] at hkc
  have hprod : c.produced (ini ++ [(now, x)]) = k.map (mapped c.map) ++ [mapped c.map (now, x)] := by
    unfold Writer.produced
    rw [hk, List.map_append]
    rfl
  have hmove : move (c.out s') = [mapped c.map (now, x)] := by
    rw [ho, hprod, ← List.cons_append, move_end]
  have hlast : ∀ w : V, trimBefore next [(now, w)] = [(now, w)] := by
    intro w
    exact trimBefore_all fun b hb => by
      rw [List.mem_singleton] at hb
      subst hb
      change next ≤ now + tol
      linarith
  unfold Writer.finish
  simp only [if_true]
  rw [hmove]
  cases hm : c.map with
  | none =>
    simp only [Writer.setOut, hm, Option.isSome_none, Bool.false_eq_true, if_false, mapped]
    refine ⟨?_, ?_, hlast x, by simp [hm], fun _ => rfl⟩
    · change next ≤ now + tol
      linarith
    · change now ≤ next + tol
      linarith
  | some m =>
    simp only [Writer.setOut, hm, Option.isSome_some, if_true, mapped]
    refine ⟨?_, ?_, ?_, fun _ => hlast _, by simp [hm]⟩
    · change next ≤ now + tol
      linarith
    · change now ≤ next + tol
      linarith
    · change trimBefore next s'.prov = _
      rw [hp (by simp [hm]), hk, ← List.cons_append]
      refine trimBefore_end (by change next ≤ now + tol; linarith) ?_
      intro b hb
      rw [List.mem_cons] at hb
      rcases hb with rfl | hb
      · have := hs.lt
        change p.1 + tol < next
        linarith
      · have : b.1 + 2 * tol < now := (Gap.append_iff.1 hkc.2.1).2.2 b hb (now, x) (by simp)
        linarith

/-! ## The reader -/

/-- At the start of an iteration in a window starting at `T`: the samples `p :: rest` were received, and they are what can be read. -/
structure Reader.At (c : Reader V) (T : ℚ) (p : ℚ × V) (rest : Samples V) (s : ReaderState V) : Prop where
  lower : T ≤ p.1 + tol
  upper : p.1 ≤ T + tol
  recv : s.recv = p :: rest
  gap : Gap (p :: rest)
  shown : List.Forall₂ (Shows c.map) (p :: rest) (c.readable s)

/-- A value without time replaces the one received before. -/
def Fits (substeps : Bool) (now : ℚ) (rest : Samples V) : Prop := substeps = true ∨ rest = [] ∨ ∃ z, rest = [(now, z)]

theorem receive_ok {b : Bool} {now : ℚ} {p : ℚ × V} {rest new : Samples V} {msg : Msg V} (hf : Fits b now rest) (hd : Delivers b now p msg new)
    (hg : Gap (p :: new)) : receive b now msg (p :: rest) = .ok (p :: new) := by
  have htol := tol_pos
  unfold Delivers at hd
  unfold receive
  split at hd
  · subst hd
    exact setSamples_append (l := []) hg
  · subst hd
    have hlt : ∀ e ∈ [p], e.1 + tol < now := by
      intro e he
      rw [List.mem_singleton] at he
      subst he
      have : e.1 + 2 * tol < now := (Gap.cons_iff.1 hg).1 _ (List.mem_singleton.2 rfl)
      linarith
    rcases hf with hf | rfl | ⟨z, rfl⟩
    · cases hf
    · exact setSample_append hlt
    · exact setSample_last (l := [p]) hlt
  · cases hd

/-- Mapping what was received: samples at times that are already there are kept, the others are appended. -/
theorem mapRead_ok {c : Reader V} {z : Bool} {old new : Samples V} {s : ReaderState V} (hr : s.recv = old ++ new) (hne : old ++ new ≠ [])
    (hg : Gap (old ++ new)) (hm : c.map.isSome = true → List.Forall₂ (Shows c.map) old s.prov) :
    ∃ s', c.mapRead z s = .ok s' ∧ s'.recv = old ++ new ∧ List.Forall₂ (Shows c.map) (old ++ new) (c.readable s') := by
  unfold Reader.mapRead
  cases hc : c.map with
  | none =>
    refine ⟨s, rfl, hr, ?_⟩
    simp only [Reader.readable, hc, Option.isSome_none, Bool.false_eq_true, if_false, hr]
    exact forall₂_refl _
  | some m =>
    have hm := hm (by simp [hc])
    have ht := forall₂_shows_times hm
    have := mapData_append (m := m) (after := none) (z := z) old new s.prov hne
      (by
        intro a ha
        refine .inr ⟨a.1, ?_, equals_refl _⟩
        rw [ht]
        exact List.mem_map_of_mem ha)
      (by intro a h; cases h)
      ((Gap.congr (by simp [ht])).1 hg)
    simp only [hr, this, bind, Except.bind]
    refine ⟨_, rfl, rfl, ?_⟩
    simp only [Reader.readable, hc, Option.isSome_some, if_true]
    rw [hc] at hm
    exact List.rel_append hm (forall₂_map m z new)

theorem forall₂_cons_left {m : Option (SampleMap V)} {p : ℚ × V} {l k : Samples V} (h : List.Forall₂ (Shows m) (p :: l) k) :
    ∃ y k', k = y :: k' ∧ Shows m p y ∧ List.Forall₂ (Shows m) l k' := by
  cases h with
  | cons h1 h2 => exact ⟨_, _, rfl, h1, h2⟩

/-- An iteration that has to be repeated: afterwards the window start and the new samples can be read. -/
theorem Reader.iterate_repeat {c : Reader V} {T now stamp next : ℚ} {p : ℚ × V} {rest new : Samples V} {s : ReaderState V} {msg : Msg V}
    {acc : Option (Samples V)} (h : c.At T p rest s) (hi : c.implicit = true) (hf : Fits c.substeps now rest)
    (hd : Delivers c.substeps now p msg new) (hn : Covers p.1 now new) (ha : ∀ l, acc = some l → Covers p.1 now l)
    (hsec : c.second = true → acc = none) :
    ∃ s', c.iterate T now stamp next false (some msg) acc s = .ok s' ∧ c.At T p (acc.getD new) s' := by
  have htol := tol_pos
  have hrec := receive_ok hf hd hn.gap
  have hnew : Covers p.1 now (acc.getD new) := by
    cases acc with
    | none => exact hn
    | some l => exact ha l rfl
  have hex : c.exchange T now stamp false (some msg) acc s.recv = .ok (p :: acc.getD new) := by
    unfold Reader.exchange
    rw [h.recv]
    cases hc : c.second with
    | true =>
      simp only [if_true, Bool.false_eq_true, if_false]
      rw [hrec, hsec hc]
      rfl
    | false =>
      simp only [Bool.false_eq_true, if_false]
      rw [hrec]
      cases acc with
      | none => rfl
      | some l =>
        simp only [bind, Except.bind, accelerate, Option.getD_some]
        rw [trimAfter_start h.upper fun b hb => by have := hn.1 b hb; have := h.lower; linarith]
        rfl
  unfold Reader.iterate
  rw [hex]
  simp only [bind, Except.bind, Bool.false_eq_true, if_false, Reader.trimMapped, hi, if_true]
  have hmap : c.map.isSome = true → List.Forall₂ (Shows c.map) [p] (trimAfter T s.prov) := by
    intro hm
    have hsh := h.shown
    simp only [Reader.readable, hm, if_true] at hsh
    obtain ⟨y, k, hy, hpy, hk⟩ := forall₂_cons_left hsh
    rw [hy, trimAfter_start (by rw [hpy.1]; exact h.upper)]
    · exact .cons hpy .nil
    · intro b hb
      have : b.1 ∈ rest.map (·.1) := by
        rw [← forall₂_shows_times hk]
        exact List.mem_map_of_mem hb
      obtain ⟨a, ha', hab⟩ := List.mem_map.1 this
      have := (Gap.cons_iff.1 h.gap).1 a ha'
      have := h.lower
      linarith
  obtain ⟨s', h1, h2, h3⟩ := mapRead_ok (c := c) (z := false) (old := [p]) (new := acc.getD new)
    (s := ⟨p :: acc.getD new, trimAfter T s.prov⟩) rfl (by simp) hnew.gap hmap
  exact ⟨s', h1, h.lower, h.upper, h2, hnew.gap, h3⟩

/-- A complete window of a reader that receives the data at the end of the window: afterwards the value at the end can be read. -/
theorem Reader.iterate_behind {c : Reader V} {T now stamp next : ℚ} {p : ℚ × V} {rest new ini : Samples V} {x : V} {s : ReaderState V}
    {msg : Msg V} (h : c.At T p rest s) (hsec : c.second = false) (hi : c.implicit = true ∨ rest = []) (hf : Fits c.substeps now rest)
    (hd : Delivers c.substeps now p msg new) (hn : Covers p.1 now new) (hnew : new = ini ++ [(now, x)]) (hnext : |now - next| ≤ tol) :
    ∃ s', c.iterate T now stamp next true (some msg) none s = .ok s' ∧ c.At next (now, x) [] s' := by
  have htol := tol_pos
  obtain ⟨hn1, hn2⟩ := abs_le.1 hnext
  have hrec := receive_ok hf hd hn.gap
  have hex : c.exchange T now stamp true (some msg) none s.recv = .ok [(now, x)] := by
    unfold Reader.exchange
    rw [h.recv, hsec]
    simp only [Bool.false_eq_true, if_false, if_true]
    rw [hrec]
    simp only [bind, Except.bind]
    rw [hnew, ← List.cons_append, move_end]
  have htrim : trimBefore next [(now, x)] = [(now, x)] := trimBefore_all fun b hb => by
    rw [List.mem_singleton] at hb
    subst hb
    change next ≤ now + tol
    linarith
  have hprov : c.map.isSome = true → c.trimMapped T true (trimBefore next s.prov) = [] := by
    intro hm
    unfold Reader.trimMapped
    rw [hsec]
    simp only [if_true, Bool.false_eq_true, if_false]
    split
    · rfl
    · next hni =>
      have hr : rest = [] := by
        rcases hi with hi | hi
        · exact absurd hi hni
        · exact hi
      have hsh := h.shown
      simp only [Reader.readable, hm, if_true, hr] at hsh
      obtain ⟨y, k, hy, hpy, hk⟩ := forall₂_cons_left hsh
      cases hk
      rw [hy]
      refine trimBefore_none fun b hb => ?_
      rw [List.mem_singleton] at hb
      subst hb
      have := hn.lt
      have := hpy.1
      linarith
  unfold Reader.iterate
  rw [hex]
  simp only [bind, Except.bind, if_true]
  obtain ⟨s', h1, h2, h3⟩ := mapRead_ok (c := c) (z := false) (old := []) (new := [(now, x)])
    (s := ⟨trimBefore next [(now, x)], c.trimMapped T true (trimBefore next s.prov)⟩) htrim (by simp) (List.pairwise_singleton _ _)
    (fun hm => by
      have := hprov hm
      change List.Forall₂ _ [] (c.trimMapped T true (trimBefore next s.prov))
      rw [this]
      exact .nil)
  refine ⟨s', h1, ?_, ?_, h2, List.pairwise_singleton _ _, h3⟩
  · change next ≤ now + tol
    linarith
  · change now ≤ next + tol
    linarith

theorem forall₂_snoc_left {m : Option (SampleMap V)} {p : ℚ × V} {l k : Samples V} (h : List.Forall₂ (Shows m) (l ++ [p]) k) :
    ∃ y k', k = k' ++ [y] ∧ Shows m p y ∧ List.Forall₂ (Shows m) l k' := by
  induction l generalizing k with
  | nil =>
    obtain ⟨y, k', rfl, hy, hk⟩ := forall₂_cons_left h
    cases hk
    exact ⟨y, [], rfl, hy, .nil⟩
  | cons a l ih =>
    obtain ⟨y, k', rfl, hy, hk⟩ := forall₂_cons_left h
    obtain ⟨z, k'', rfl, hz, hk'⟩ := ih hk
    exact ⟨z, y :: k'', rfl, hz, .cons hy hk'⟩

/-- A complete window of the second participant of a serial scheme, which receives the data of the next window: afterwards the value at the end and
the new samples can be read. -/
theorem Reader.iterate_ahead {c : Reader V} {T now stamp next : ℚ} {p : ℚ × V} {rest new ini : Samples V} {x : V} {s : ReaderState V}
    {msg : Msg V} (h : c.At T p rest s) (hsec : c.second = true) (hr : rest = ini ++ [(now, x)])
    (hd : Delivers c.substeps stamp (now, x) msg new) (hn : Covers now stamp new) (hnext : |now - next| ≤ tol) :
    ∃ s', c.iterate T now stamp next true (some msg) none s = .ok s' ∧ c.At next (now, x) new s' := by
  have htol := tol_pos
  obtain ⟨hn1, hn2⟩ := abs_le.1 hnext
  have hgap : Gap ((now, x) :: new) := Covers.gap (p := (now, x)) hn
  have hrec := receive_ok (rest := []) (.inr (.inl rfl)) hd hgap
  have hex : c.exchange T now stamp true (some msg) none s.recv = .ok ((now, x) :: new) := by
    unfold Reader.exchange
    rw [h.recv, hsec]
    simp only [if_true]
    rw [hr, ← List.cons_append, move_end, hrec]
  have htrim : trimBefore next ((now, x) :: new) = (now, x) :: new := trimBefore_all fun b hb => by
    rw [List.mem_cons] at hb
    rcases hb with rfl | hb
    · change next ≤ now + tol
      linarith
    · have := hn.1 b hb
      linarith
  have hprov : c.map.isSome = true → List.Forall₂ (Shows c.map) [(now, x)] (c.trimMapped T true (trimBefore next s.prov)) := by
    intro hm
    have hsh := h.shown
    simp only [Reader.readable, hm, if_true, hr] at hsh
    rw [← List.cons_append] at hsh
    obtain ⟨y, k, hy, hpy, hk⟩ := forall₂_snoc_left hsh
    have hcut : trimBefore next s.prov = [y] := by
      rw [hy]
      refine trimBefore_end (by rw [hpy.1]; change next ≤ now + tol; linarith) ?_
      intro b hb
      have : b.1 ∈ (p :: ini).map (·.1) := by
        rw [← forall₂_shows_times hk]
        exact List.mem_map_of_mem hb
      obtain ⟨a, ha', hab⟩ := List.mem_map.1 this
      have hg := h.gap
      rw [hr, ← List.cons_append] at hg
      have : a.1 + 2 * tol < now := (Gap.append_iff.1 hg).2.2 a ha' (now, x) (by simp)
      linarith
    unfold Reader.trimMapped
    rw [hsec, hcut]
    simp only [if_true]
    split
    · rw [show [y] = [] ++ [y] from rfl, clearExceptLast_end]
      exact .cons hpy .nil
    · exact .cons hpy .nil
  unfold Reader.iterate
  rw [hex]
  simp only [bind, Except.bind, if_true]
  obtain ⟨s', h1, h2, h3⟩ := mapRead_ok (c := c) (z := false) (old := [(now, x)]) (new := new)
    (s := ⟨trimBefore next ((now, x) :: new), c.trimMapped T true (trimBefore next s.prov)⟩) htrim (by simp) hgap hprov
  refine ⟨s', h1, ?_, ?_, h2, hgap, h3⟩
  · change next ≤ now + tol
    linarith
  · change now ≤ next + tol
    linarith

end Verif.DataPath
