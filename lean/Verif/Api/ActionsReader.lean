import Verif.Api.ActionsLemmas

/-!
# The reader with a read mapping and an action (C122)
-/

set_option autoImplicit false

namespace Verif.DataPath

variable {V : Type}

/-! ## Specification -/

/-- The samples after the window start in a message; a value without time belongs to the time `stop`. -/
def Msg.content (stop : ℚ) : Msg V → Samples V
  | .samples l => l.tail
  | .value v => [(stop, v)]

/-- With substeps, the message starts with a sample at the window start `t`. -/
def Msg.FitsStart (substeps : Bool) (t : ℚ) (msg : Msg V) : Prop :=
  match substeps, msg with
  | true, .samples l => ∃ p, p.1 = t ∧ l = p :: l.tail
  | false, .value _ => True
  | _, _ => False

/-- The new samples of an iteration: for the next window if the reader is the second participant of a serial scheme and the window is complete. -/
def RIter.fresh (c : Reader V) (i : RIter V) : Samples V := i.acc.getD (i.msg.content (if c.second && i.complete then i.stamp else i.now))

/-- What can be read after each iteration if `cur` can be read before: the new samples, mapped, with the action applied once; and before them the sample at the
start of the window, if it is still needed, with the action applied once more. -/
def expectRead (c : Reader V) (m : SampleMap V) (f : V → V) (cur : Samples V) : List (RIter V) → List (Samples V)
  | [] => []
  | i :: l =>
    let fresh := (i.fresh c).map fun s => acted f (mapped (some m) s)
    let shown :=
      if i.complete then
        if c.second then (cur.drop (cur.length - 1)).map (acted f) ++ fresh else fresh.drop (fresh.length - 1)
      else (cur.take 1).map (acted f) ++ fresh
    shown :: expectRead c m f shown l

/-- The times of the iterations fit together: a window starts at `T`, its first sample is at `t`, and `rest` are the later samples received for it. -/
def RSchedule (c : Reader V) (t T : ℚ) (rest : Samples V) : List (RIter V) → Prop
  | [] => True
  | i :: l => i.start = T ∧
    (i.complete = false → c.implicit = true ∧ (c.second = true → i.acc = none) ∧ Fits c.substeps i.now rest ∧ i.msg.FitsStart c.substeps t ∧
      Covers t i.now (i.msg.content i.now) ∧ (∀ n, i.acc = some n → Covers t i.now n) ∧ RSchedule c t T (i.fresh c) l) ∧
    (i.complete = true → i.acc = none ∧ |i.now - i.next| ≤ tol ∧
      (c.second = false → (c.implicit = true ∨ rest = []) ∧ Fits c.substeps i.now rest ∧ i.msg.FitsStart c.substeps t ∧
        Covers t i.now (i.msg.content i.now) ∧ RSchedule c i.now i.next [] l) ∧
      (c.second = true → (∃ ini x, rest = ini ++ [(i.now, x)]) ∧ i.msg.FitsStart c.substeps i.now ∧
        Covers i.now i.stamp (i.msg.content i.stamp) ∧ RSchedule c i.now i.next (i.fresh c) l))

/-! ## Steps -/

/-- Before an iteration: the samples `p :: rest` were received, and samples at the same times can be read. -/
structure Reader.Holds (c : Reader V) (T : ℚ) (p : ℚ × V) (rest : Samples V) (q : ℚ × V) (qs : Samples V) (s : ReaderState V) : Prop where
  lower : T ≤ p.1 + tol
  upper : p.1 ≤ T + tol
  recv : s.recv = p :: rest
  gap : Gap (p :: rest)
  prov : s.prov = q :: qs
  times : (q :: qs).map (·.1) = (p :: rest).map (·.1)

theorem Msg.FitsStart.delivers {b : Bool} {t stop : ℚ} {msg : Msg V} (h : msg.FitsStart b t) : ∃ p, p.1 = t ∧ Delivers b stop p msg (msg.content stop) ∨
    b = false ∧ ∃ v, msg = .value v := by
  unfold Msg.FitsStart at h
  split at h
  · obtain ⟨p, hp, hl⟩ := h
    exact ⟨p, .inl ⟨hp, hl⟩⟩
  · next v => exact ⟨(0, v), .inr ⟨rfl, _, rfl⟩⟩
  · cases h

theorem receive_fresh {b : Bool} {t stop : ℚ} {p : ℚ × V} {rest : Samples V} {msg : Msg V} (hf : Fits b stop rest) (hm : msg.FitsStart b t) (hp : p.1 = t)
    (hn : Covers t stop (msg.content stop)) : ∃ p', p'.1 = t ∧ receive b stop msg (p :: rest) = .ok (p' :: msg.content stop) := by
  have htol := tol_pos
  obtain ⟨p', ⟨hp', hd⟩ | ⟨rfl, v, rfl⟩⟩ := hm.delivers (stop := stop)
  · cases b with
    | true =>
      refine ⟨p', hp', ?_⟩
      cases msg with
      | value v => cases hd
      | samples l =>
        have hd : l = p' :: Msg.content stop (.samples l) := hd
        have hg : Gap (p' :: Msg.content stop (.samples l)) := by
          subst hp'
          exact hn.gap
        rw [← hd] at hg ⊢
        exact setSamples_append (l := []) hg
    | false =>
      cases msg with
      | samples l => cases hd
      | value v =>
        subst hp
        exact ⟨p, rfl, receive_ok hf (by exact rfl) hn.gap⟩
  · subst hp
    exact ⟨p, rfl, receive_ok hf (by exact rfl) hn.gap⟩

/-- Mapping what was received, then the action on everything that can be read. -/
theorem mapAct_ok {c : Reader V} {m : SampleMap V} {f : V → V} {old new k : Samples V} (hc : c.map = some m) (hne : old ++ new ≠ [])
    (hg : Gap (old ++ new)) (ht : k.map (·.1) = old.map (·.1)) :
    (do let s ← c.mapRead false ⟨old ++ new, k⟩; c.act f s) =
      .ok ⟨old ++ new, k.map (acted f) ++ new.map fun s => acted f (mapped (some m) s)⟩ := by
  have hgk : Gap (k ++ new) := (Gap.congr (by simp [ht])).1 hg
  have h1 := mapData_append (m := m) (after := none) (z := false) old new k hne
    (by
      intro a ha
      refine .inr ⟨a.1, ?_, equals_refl _⟩
      rw [ht]
      exact List.mem_map_of_mem ha)
    (by intro a h; cases h) hgk
  have h2 : new.map (m.sample false) = new.map (mapped (some m)) := rfl
  have hg2 : Gap (k ++ new.map (mapped (some m))) := (Gap.congr (by simp [mapped, Function.comp_def])).1 hgk
  unfold Reader.mapRead Reader.act
  rw [hc]
  simp only [bind, Except.bind, h1, h2, Reader.readable, Reader.setReadable, hc, Option.isSome_some, if_true, perform_ok f hg2]
  simp [Function.comp_def]

theorem Reader.iterateAct_repeat {c : Reader V} {m : SampleMap V} {f : V → V} {T : ℚ} {p q : ℚ × V} {rest qs : Samples V} {s : ReaderState V} {i : RIter V}
    (hc : c.map = some m) (h : c.Holds T p rest q qs s) (hst : i.start = T) (hco : i.complete = false) (hi : c.implicit = true) (hf : Fits c.substeps i.now rest)
    (hm : i.msg.FitsStart c.substeps p.1) (hn : Covers p.1 i.now (i.msg.content i.now)) (ha : ∀ l, i.acc = some l → Covers p.1 i.now l)
    (hsec : c.second = true → i.acc = none) :
    ∃ s' p', p'.1 = p.1 ∧ c.iterateAct f i.start i.now i.stamp i.next i.complete (some i.msg) i.acc s = .ok s' ∧
      c.Holds T p' (i.fresh c) (acted f q) ((i.fresh c).map fun s => acted f (mapped (some m) s)) s' := by
  have htol := tol_pos
  subst hst
  obtain ⟨p', hp', hrec⟩ := receive_fresh hf hm rfl hn
  have hfr : i.fresh c = i.acc.getD (i.msg.content i.now) := by simp [RIter.fresh, hco]
  have hnew : Covers p.1 i.now (i.fresh c) := by
    rw [hfr]
    cases hacc : i.acc with
    | none => exact hn
    | some l => exact ha l hacc
  have hgap : Gap (p' :: i.fresh c) := by
    rw [← hp'] at hnew
    exact hnew.gap
  have hex : c.exchange i.start i.now i.stamp false (some i.msg) i.acc s.recv = .ok (p' :: i.fresh c) := by
    unfold Reader.exchange
    rw [h.recv, hfr]
    cases hcs : c.second with
    | true =>
      simp only [if_true, Bool.false_eq_true, if_false]
      rw [hrec, hsec hcs]
      rfl
    | false =>
      simp only [Bool.false_eq_true, if_false]
      rw [hrec]
      cases hacc : i.acc with
      | none => rfl
      | some l =>
        simp only [bind, Except.bind, accelerate, Option.getD_some]
        rw [trimAfter_start (by rw [hp']; exact h.upper) fun b hb => by have := hn.1 b hb; have := h.lower; linarith]
        rfl
  have hq : q.1 = p.1 := by simpa using congrArg List.head? h.times
  have hqs : qs.map (·.1) = rest.map (·.1) := by simpa using congrArg List.tail h.times
  have htrim : trimAfter i.start s.prov = [q] := by
    rw [h.prov, trimAfter_start (by rw [hq]; exact h.upper)]
    intro b hb
    have : b.1 ∈ rest.map (·.1) := by
      rw [← hqs]
      exact List.mem_map_of_mem hb
    obtain ⟨a, ha', hab⟩ := List.mem_map.1 this
    have := (Gap.cons_iff.1 h.gap).1 a ha'
    have := h.lower
    linarith
  have hmap := mapAct_ok (c := c) (m := m) (f := f) (old := [p']) (new := i.fresh c) (k := [q]) hc (by simp) hgap (by simp [hq, hp'])
  unfold Reader.iterateAct Reader.iterate
  rw [hco, hex]
  simp only [bind, Except.bind, Bool.false_eq_true, if_false, Reader.trimMapped, hi, if_true, htrim] at hmap ⊢
  refine ⟨_, p', hp', hmap, by rw [hp']; exact h.lower, by rw [hp']; exact h.upper, rfl, hgap, rfl, ?_⟩
  simp [acted, mapped, hq, hp', Function.comp_def]

theorem Reader.iterateAct_behind {c : Reader V} {m : SampleMap V} {f : V → V} {T : ℚ} {p q : ℚ × V} {rest qs : Samples V} {s : ReaderState V} {i : RIter V}
    (hc : c.map = some m) (h : c.Holds T p rest q qs s) (hst : i.start = T) (hco : i.complete = true) (hsec : c.second = false)
    (hi : c.implicit = true ∨ rest = []) (hf : Fits c.substeps i.now rest) (hacc : i.acc = none)
    (hm : i.msg.FitsStart c.substeps p.1) (hn : Covers p.1 i.now (i.msg.content i.now)) (hnext : |i.now - i.next| ≤ tol) :
    ∃ s' ini x, i.fresh c = ini ++ [(i.now, x)] ∧ c.iterateAct f i.start i.now i.stamp i.next i.complete (some i.msg) i.acc s = .ok s' ∧
      c.Holds i.next (i.now, x) [] (acted f (mapped (some m) (i.now, x))) [] s' := by
  have htol := tol_pos
  subst hst
  obtain ⟨hn1, hn2⟩ := abs_le.1 hnext
  obtain ⟨p', hp', hrec⟩ := receive_fresh hf hm rfl hn
  have hfr : i.fresh c = i.msg.content i.now := by simp [RIter.fresh, hsec, hacc]
  have hlt := hn.lt
  obtain ⟨-, -, ini, x, hx⟩ := hn
  have hex : c.exchange i.start i.now i.stamp true (some i.msg) none s.recv = .ok [(i.now, x)] := by
    unfold Reader.exchange
    rw [h.recv, hsec]
    simp only [Bool.false_eq_true, if_false, if_true]
    rw [hrec]
    simp only [bind, Except.bind]
    rw [hx, ← List.cons_append, move_end]
  have htrim : trimBefore i.next [(i.now, x)] = [(i.now, x)] := trimBefore_all fun b hb => by
    rw [List.mem_singleton] at hb
    subst hb
    change i.next ≤ i.now + tol
    linarith
  have hq : q.1 = p.1 := by simpa using congrArg List.head? h.times
  have hprov : c.trimMapped i.start true (trimBefore i.next s.prov) = [] := by
    unfold Reader.trimMapped
    rw [hsec]
    simp only [if_true, Bool.false_eq_true, if_false]
    split
    · rfl
    · next hni =>
      have hr : rest = [] := by
        rcases hi with hi | hi
        · exact absurd hi hni
        · exact hi
      have hqs : qs = [] := by
        have := congrArg List.length h.times
        simpa [hr] using this
      rw [h.prov, hqs]
      refine trimBefore_none fun b hb => ?_
      rw [List.mem_singleton] at hb
      subst hb
      linarith
  have hmap := mapAct_ok (c := c) (m := m) (f := f) (old := []) (new := [(i.now, x)]) (k := []) hc (by simp) (List.pairwise_singleton _ _) rfl
  unfold Reader.iterateAct Reader.iterate
  rw [hco, hacc, hex]
  simp only [bind, Except.bind, if_true, htrim, hprov, List.nil_append, List.map_nil, List.map_cons] at hmap ⊢
  refine ⟨_, ini, x, by rw [hfr, hx], hmap, ?_, ?_, rfl, List.pairwise_singleton _ _, rfl, rfl⟩
  · change i.next ≤ i.now + tol
    linarith
  · change i.now ≤ i.next + tol
    linarith

theorem Reader.iterateAct_ahead {c : Reader V} {m : SampleMap V} {f : V → V} {T : ℚ} {p q : ℚ × V} {rest qs : Samples V} {s : ReaderState V} {i : RIter V}
    (hc : c.map = some m) (h : c.Holds T p rest q qs s) (hst : i.start = T) (hco : i.complete = true) (hsec : c.second = true)
    (hacc : i.acc = none) (hr : ∃ ini x, rest = ini ++ [(i.now, x)])
    (hm : i.msg.FitsStart c.substeps i.now) (hn : Covers i.now i.stamp (i.msg.content i.stamp)) (hnext : |i.now - i.next| ≤ tol) :
    ∃ s' p' y, p'.1 = i.now ∧ (q :: qs).drop ((q :: qs).length - 1) = [y] ∧ c.iterateAct f i.start i.now i.stamp i.next i.complete (some i.msg) i.acc s = .ok s' ∧
      c.Holds i.next p' (i.fresh c) (acted f y) ((i.fresh c).map fun s => acted f (mapped (some m) s)) s' := by
  have htol := tol_pos
  subst hst
  obtain ⟨hn1, hn2⟩ := abs_le.1 hnext
  obtain ⟨ini, x, rfl⟩ := hr
  obtain ⟨p', hp', hrec⟩ := receive_fresh (p := (i.now, x)) (rest := []) (.inr (.inl rfl)) hm rfl hn
  have hfr : i.fresh c = i.msg.content i.stamp := by simp [RIter.fresh, hsec, hco, hacc]
  rw [← hfr] at hn hrec
  have hgap : Gap (p' :: i.fresh c) := by
    rw [← hp'] at hn
    exact hn.gap
  have hex : c.exchange i.start i.now i.stamp true (some i.msg) none s.recv = .ok (p' :: i.fresh c) := by
    unfold Reader.exchange
    rw [h.recv, hsec]
    simp only [if_true]
    rw [← List.cons_append, move_end, hrec]
  have htrim : trimBefore i.next (p' :: i.fresh c) = p' :: i.fresh c := trimBefore_all fun b hb => by
    rw [List.mem_cons] at hb
    rcases hb with rfl | hb
    · rw [hp']
      linarith
    · have := hn.1 b hb
      linarith
  obtain ⟨k, y, hky⟩ : ∃ k y, q :: qs = k ++ [y] := ⟨_, _, (List.dropLast_append_getLast (List.cons_ne_nil q qs)).symm⟩
  have htimes := h.times
  rw [hky, ← List.cons_append, List.map_append, List.map_append] at htimes
  obtain ⟨ht1, ht2⟩ := List.append_inj' htimes rfl
  have hy : y.1 = i.now := by simpa using ht2
  have hcut : trimBefore i.next s.prov = [y] := by
    rw [h.prov, hky]
    refine trimBefore_end (by rw [hy]; linarith) ?_
    intro b hb
    have : b.1 ∈ (p :: ini).map (·.1) := by
      rw [← ht1]
      exact List.mem_map_of_mem hb
    obtain ⟨a, ha', hab⟩ := List.mem_map.1 this
    have hg := h.gap
    rw [← List.cons_append] at hg
    have : a.1 + 2 * tol < i.now := (Gap.append_iff.1 hg).2.2 a ha' (i.now, x) (by simp)
    linarith
  have hprov : c.trimMapped i.start true (trimBefore i.next s.prov) = [y] := by
    unfold Reader.trimMapped
    rw [hsec, hcut]
    simp only [if_true]
    split
    · exact clearExceptLast_end [] y
    · rfl
  have hmap := mapAct_ok (c := c) (m := m) (f := f) (old := [p']) (new := i.fresh c) (k := [y]) hc (by simp) hgap (by simp [hy, hp'])
  unfold Reader.iterateAct Reader.iterate
  rw [hco, hacc, hex]
  simp only [bind, Except.bind, if_true, htrim, hprov] at hmap ⊢
  refine ⟨_, p', y, hp', by rw [hky]; simp, hmap, ?_, ?_, rfl, hgap, rfl, ?_⟩
  · rw [hp']
    linarith
  · rw [hp']
    linarith
  · simp [acted, mapped, hy, hp', Function.comp_def]

theorem readRun_ok {c : Reader V} {m : SampleMap V} {f : V → V} (hc : c.map = some m) (l : List (RIter V)) {T : ℚ} {p q : ℚ × V} {rest qs : Samples V}
    {s : ReaderState V} (hsch : RSchedule c p.1 T rest l) (h : c.Holds T p rest q qs s) : readRun c f l s = .ok (expectRead c m f (q :: qs) l) := by
  induction l generalizing T p q rest qs s with
  | nil => rfl
  | cons i l ih =>
    obtain ⟨hst, hrep, hcomp⟩ := hsch
    unfold readRun expectRead
    have hread : ∀ s' : ReaderState V, c.readable s' = s'.prov := fun s' => by simp [Reader.readable, hc]
    cases hco : i.complete with
    | false =>
      obtain ⟨hi, hsec, hf, hm, hn, ha, hsch'⟩ := hrep hco
      obtain ⟨s', p', hp', h1, h2⟩ := Reader.iterateAct_repeat (f := f) hc h hst hco hi hf hm hn ha hsec
      rw [hco] at h1
      rw [h1]
      simp only [bind, Except.bind]
      rw [← hp'] at hsch'
      rw [ih hsch' h2, hread, h2.prov]
      simp
    | true =>
      obtain ⟨hacc, hnext, hb, had⟩ := hcomp hco
      cases hsec : c.second with
      | false =>
        obtain ⟨hi, hf, hm, hn, hsch'⟩ := hb hsec
        obtain ⟨s', ini, x, hfr, h1, h2⟩ := Reader.iterateAct_behind (f := f) hc h hst hco hsec hi hf hacc hm hn hnext
        rw [hco] at h1
        rw [h1]
        simp only [bind, Except.bind]
        rw [ih hsch' h2, hread, h2.prov, hfr]
        simp
      | true =>
        obtain ⟨hr, hm, hn, hsch'⟩ := had hsec
        obtain ⟨s', p', y, hp', hy, h1, h2⟩ := Reader.iterateAct_ahead (f := f) hc h hst hco hsec hacc hr hm hn hnext
        rw [hco] at h1
        rw [h1]
        simp only [bind, Except.bind]
        rw [← hp'] at hsch'
        rw [ih hsch' h2, hread, h2.prov, hy]
        simp

end Verif.DataPath
