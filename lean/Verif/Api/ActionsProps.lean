import Verif.Api.ActionsWriter
import Verif.Api.ActionsReader
import Verif.Api.DataPathProps
import Mathlib.Logic.Function.Iterate

/-!
# C122: how often an action is applied to a sample
-/

set_option autoImplicit false

namespace Verif.DataPath

variable {V : Type}

/-! ## What the property asks for: every sample gets the action once -/

/-- As `expectSent`, but the sample at the start of the window, which got the action when it was sent for the first time, is sent as it is. -/
def onceSent (c : Writer V) (f : V → V) (p : ℚ × V) : List (WIter V) → List ((ℚ × V) × Samples V)
  | [] => []
  | i :: l => (p, i.acc.getD ((c.produced i.steps).map fun s => (s.1, f s.2))) ::
      onceSent c f (if i.complete then (i.acc.getD ((c.produced i.steps).map fun s => (s.1, f s.2))).getLastD p else p) l

/-- As `expectRead`, but the sample at the start of the window, which got the action when it could be read for the first time, stays as it is. -/
def onceRead (c : Reader V) (m : SampleMap V) (f : V → V) (cur : Samples V) : List (RIter V) → List (Samples V)
  | [] => []
  | i :: l =>
    let fresh := (i.fresh c).map fun s => (s.1, f (m.map s.2))
    let shown :=
      if i.complete then
        if c.second then cur.drop (cur.length - 1) ++ fresh else fresh.drop (fresh.length - 1)
      else cur.take 1 ++ fresh
    shown :: onceRead c m f shown l

/-! ## The writer -/

/-- What a writer with an action sends, for every run from `initialize` on: in each iteration the new samples with the action applied once, after the sample at
the window start to which the action is applied again. -/
theorem C122_sent (c : Writer V) (f : V → V) (v : V) (l : List (WIter V)) (h : WSchedule 0 0 l) :
    ∃ s p msgs, c.initAct f v = .ok s ∧ Shows c.map (0, v) p ∧ c.out s = [(0, f p.2)] ∧ sendRun c f l s = .ok msgs ∧
      List.Forall₂ (Carries c.substeps) (expectSent c f (0, f p.2) l) msgs := by
  obtain ⟨s, p, v', h1, h2, h3, h4⟩ := c.initAct_ok f v
  have hp : p.1 = 0 := h4.1
  have ha : acted f p = (0, f p.2) := by unfold acted; rw [hp]
  rw [ha] at h2 h3
  obtain ⟨msgs, h5, h6⟩ := sendRun_ok (f := f) l h rfl h2
  exact ⟨s, p, msgs, h1, h4, h3, h5, h6⟩

theorem expectSent_idempotent {c : Writer V} {f : V → V} (hf : ∀ v, f (f v) = f v) (l : List (WIter V)) (p : ℚ × V) (hp : f p.2 = p.2)
    (ha : ∀ i ∈ l, ∀ n, i.acc = some n → ∀ s ∈ n, f s.2 = s.2) : expectSent c f p l = onceSent c f p l := by
  induction l generalizing p with
  | nil => rfl
  | cons i l ih =>
    have hpp : acted f p = p := by unfold acted; rw [hp]
    unfold expectSent onceSent
    rw [hpp]
    have hlast : f ((c.actedSamples f i.steps i.acc).getLastD p).2 = ((c.actedSamples f i.steps i.acc).getLastD p).2 := by
      rcases List.eq_nil_or_concat (c.actedSamples f i.steps i.acc) with h0 | ⟨k, z, hz⟩
      · rw [h0]
        exact hp
      · have hmem : z ∈ c.actedSamples f i.steps i.acc := by rw [hz]; simp
        have : (c.actedSamples f i.steps i.acc).getLastD p = z := by rw [hz]; simp
        rw [this]
        unfold Writer.actedSamples at hmem
        cases hacc : i.acc with
        | none =>
          rw [hacc] at hmem
          obtain ⟨y, -, rfl⟩ := List.mem_map.1 hmem
          exact hf _
        | some n =>
          rw [hacc] at hmem
          exact ha i (by simp) n hacc z hmem
    refine congrArg₂ _ rfl ?_
    change expectSent c f (if i.complete then (c.actedSamples f i.steps i.acc).getLastD p else p) l =
      onceSent c f (if i.complete then (c.actedSamples f i.steps i.acc).getLastD p else p) l
    refine ih _ ?_ fun j hj => ha j (by simp [hj])
    split
    · exact hlast
    · exact hp

theorem carries_value {e e' : (ℚ × V) × Samples V} {msg : Msg V} (he : e.2 = e'.2) (h : Carries false e msg) : Carries false e' msg := by
  intro t
  have := h t
  rw [he] at this
  cases msg <;> exact this

/-- The new samples do not depend on the sample at the window start. -/
theorem forall₂_expectSent_once {c : Writer V} {f : V → V} (l : List (WIter V)) (p p' : ℚ × V) :
    List.Forall₂ (fun e e' : (ℚ × V) × Samples V => e.2 = e'.2) (expectSent c f p l) (onceSent c f p' l) := by
  induction l generalizing p p' with
  | nil => exact .nil
  | cons i l ih => exact .cons rfl (ih _ _)

/-- Without substeps, or with an action that can be repeated without effect on unaccelerated data, the partner gets every sample with the action applied once.
Missing: any other action with substeps, where the sample at the window start is changed again (`C122_start_sent_again`). -/
theorem C122_sent_once_partial (c : Writer V) (f : V → V) (v : V) (l : List (WIter V)) (h : WSchedule 0 0 l)
    (hf : c.substeps = false ∨ (∀ v, f (f v) = f v) ∧ ∀ i ∈ l, i.acc = none) :
    ∃ s p msgs, c.initAct f v = .ok s ∧ Shows c.map (0, v) p ∧ sendRun c f l s = .ok msgs ∧
      List.Forall₂ (Carries c.substeps) (onceSent c f (0, f p.2) l) msgs := by
  obtain ⟨s, p, msgs, h1, h2, -, h4, h5⟩ := C122_sent c f v l h
  refine ⟨s, p, msgs, h1, h2, h4, ?_⟩
  rcases hf with hf | ⟨hf, ha⟩
  · rw [hf] at h5 ⊢
    clear h4
    have := forall₂_expectSent_once (c := c) (f := f) l (0, f p.2) (0, f p.2)
    generalize expectSent c f (0, f p.2) l = E at this h5
    generalize onceSent c f (0, f p.2) l = O at this
    induction this generalizing msgs with
    | nil => cases h5; exact .nil
    | cons he _ ih =>
      cases h5 with
      | cons hm hms => exact .cons (carries_value he hm) (ih _ hms)
  · rw [← expectSent_idempotent hf l _ (hf _) fun i hi n hn => by rw [ha i hi] at hn; cases hn]
    exact h5

theorem expectSent_repeats {c : Writer V} {f : V → V} (l : List (WIter V)) (i : WIter V) (k : List (WIter V)) (p : ℚ × V) (h : ∀ j ∈ l, j.complete = false) :
    (expectSent c f p (l ++ i :: k))[l.length]? = some ((p.1, f^[l.length + 1] p.2), c.actedSamples f i.steps i.acc) := by
  induction l generalizing p with
  | nil => rfl
  | cons j l ih =>
    rw [List.cons_append]
    unfold expectSent
    rw [h j (by simp)]
    simp only [Bool.false_eq_true, if_false, List.length_cons, List.getElem?_cons_succ]
    rw [ih _ fun j hj => h j (by simp [hj])]
    rfl

/-- With substeps, after `n` repeated iterations of the first window the sample at its start, which got the action in `initialize`, arrives with the action applied
`n + 2` times. -/
theorem C122_start_sent_again (c : Writer V) (f : V → V) (v : V) (l k : List (WIter V)) (i : WIter V) (h : WSchedule 0 0 (l ++ i :: k))
    (hs : c.substeps = true) (hl : ∀ j ∈ l, j.complete = false) :
    ∃ s p msgs new, c.initAct f v = .ok s ∧ Shows c.map (0, v) p ∧ sendRun c f (l ++ i :: k) s = .ok msgs ∧
      msgs[l.length]? = some (.samples ((0, f^[l.length + 2] p.2) :: new)) := by
  obtain ⟨s, p, msgs, h1, h2, -, h4, h5⟩ := C122_sent c f v (l ++ i :: k) h
  have h6 := expectSent_repeats (c := c) (f := f) l i k (0, f p.2) hl
  have hlt : l.length < msgs.length := by
    rw [← h5.length_eq]
    exact (List.getElem?_eq_some_iff.1 h6).1
  have h7 := h5.get (by rw [h5.length_eq]; exact hlt) hlt
  simp only [List.get_eq_getElem] at h7
  rw [(List.getElem?_eq_some_iff.1 h6).2, hs] at h7
  refine ⟨s, p, msgs, c.actedSamples f i.steps i.acc, h1, h2, h4, ?_⟩
  rw [List.getElem?_eq_getElem hlt]
  have h8 := h7 0
  generalize msgs[l.length] = msg at h8
  cases msg with
  | value v => cases h8
  | samples n =>
    have h8 : n = (0, f^[l.length + 1] (f p.2)) :: _ := h8
    rw [h8]
    simp [exchanged, Function.iterate_succ_apply]

/-! ## The reader -/

/-- After `initialize` the action was applied once to everything that can be read. -/
theorem initAct_holds {c : Reader V} {m : SampleMap V} {f : V → V} (hc : c.map = some m) {initial first : Option (Msg V)} {stamp : ℚ} {s₀ : ReaderState V}
    {p : ℚ × V} {rest : Samples V} (h0 : c.init initial stamp first = .ok s₀) (hAt : c.At 0 p rest s₀) :
    ∃ s q qs, c.initAct f initial stamp first = .ok s ∧ c.readable s = (c.readable s₀).map (acted f) ∧ c.readable s = q :: qs ∧ c.Holds 0 p rest q qs s := by
  have hr : ∀ s : ReaderState V, c.readable s = s.prov := fun s => by simp [Reader.readable, hc]
  have hsh := hAt.shown
  have ht := forall₂_shows_times hsh
  obtain ⟨y, ys, hy, -, -⟩ := forall₂_cons_left hsh
  rw [hr] at hy ht
  have hg : Gap s₀.prov := (Gap.congr ht.symm).1 hAt.gap
  unfold Reader.initAct
  rw [h0]
  simp only [bind, Except.bind, Reader.act, hr, perform_ok f hg, Reader.setReadable, hc, Option.isSome_some, if_true]
  refine ⟨_, acted f y, ys.map (acted f), rfl, rfl, by rw [hy]; rfl, hAt.lower, hAt.upper, hAt.recv, hAt.gap, by rw [hy]; rfl, ?_⟩
  rw [← ht, hy]
  simp [acted, Function.comp_def]

/-- What can be read at a reader with a read mapping and an action, for every run from `initialize` on: after each iteration the new samples with the action
applied once, after the sample at the window start, if it is kept, to which the action is applied again. -/
theorem C122_read (c : Reader V) (m : SampleMap V) (f : V → V) (hc : c.map = some m) (initial first : Option (Msg V)) (stamp : ℚ) (s₀ : ReaderState V)
    (p : ℚ × V) (rest : Samples V) (h0 : c.init initial stamp first = .ok s₀) (hAt : c.At 0 p rest s₀) (l : List (RIter V))
    (hsch : RSchedule c p.1 0 rest l) :
    ∃ s, c.initAct f initial stamp first = .ok s ∧ c.readable s = (c.readable s₀).map (fun x => (x.1, f x.2)) ∧
      readRun c f l s = .ok (expectRead c m f (c.readable s) l) := by
  obtain ⟨s, q, qs, h1, h2, h3, h4⟩ := initAct_holds (f := f) hc h0 hAt
  refine ⟨s, h1, h2, ?_⟩
  rw [h3]
  exact readRun_ok hc l hsch h4

theorem map_acted_fixed {f : V → V} {l : Samples V} (h : ∀ s ∈ l, f s.2 = s.2) : l.map (acted f) = l := by
  conv_rhs => rw [← List.map_id l]
  refine List.map_congr_left fun s hs => ?_
  unfold acted
  rw [h s hs]
  rfl

theorem expectRead_once {c : Reader V} {m : SampleMap V} {f : V → V} (l : List (RIter V)) (cur : Samples V)
    (h : (∀ v, f (f v) = f v) ∧ (∀ s ∈ cur, f s.2 = s.2) ∨ c.second = false ∧ ∀ i ∈ l, i.complete = true) :
    expectRead c m f cur l = onceRead c m f cur l := by
  induction l generalizing cur with
  | nil => rfl
  | cons i l ih =>
    have hfresh : (fun s : ℚ × V => acted f (mapped (some m) s)) = fun s => (s.1, f (m.map s.2)) := rfl
    unfold expectRead onceRead
    simp only [hfresh]
    have hshow : (if i.complete = true then if c.second = true then (cur.drop (cur.length - 1)).map (acted f) ++ (i.fresh c).map fun s => (s.1, f (m.map s.2))
          else ((i.fresh c).map fun s => (s.1, f (m.map s.2))).drop (((i.fresh c).map fun s => (s.1, f (m.map s.2))).length - 1)
        else (cur.take 1).map (acted f) ++ (i.fresh c).map fun s => (s.1, f (m.map s.2))) =
        (if i.complete = true then if c.second = true then cur.drop (cur.length - 1) ++ (i.fresh c).map fun s => (s.1, f (m.map s.2))
          else ((i.fresh c).map fun s => (s.1, f (m.map s.2))).drop (((i.fresh c).map fun s => (s.1, f (m.map s.2))).length - 1)
        else cur.take 1 ++ (i.fresh c).map fun s => (s.1, f (m.map s.2))) := by
      rcases h with ⟨hf, hcur⟩ | ⟨hsec, hall⟩
      · rw [map_acted_fixed fun s hs => hcur s (List.mem_of_mem_drop hs), map_acted_fixed fun s hs => hcur s (List.mem_of_mem_take hs)]
      · rw [hsec, hall i (by simp)]
        rfl
    rw [hshow]
    refine congrArg _ (ih _ ?_)
    rcases h with ⟨hf, hcur⟩ | ⟨hsec, hall⟩
    · refine .inl ⟨hf, ?_⟩
      have hfr : ∀ s ∈ (i.fresh c).map (fun s => (s.1, f (m.map s.2))), f s.2 = s.2 := by
        intro s hs
        obtain ⟨y, -, rfl⟩ := List.mem_map.1 hs
        exact hf _
      intro s hs
      split at hs
      · split at hs
        · rw [List.mem_append] at hs
          exact hs.elim (fun hs => hcur s (List.mem_of_mem_drop hs)) (hfr s)
        · exact hfr s (List.mem_of_mem_drop hs)
      · rw [List.mem_append] at hs
        exact hs.elim (fun hs => hcur s (List.mem_of_mem_take hs)) (hfr s)
    · exact .inr ⟨hsec, fun j hj => hall j (by simp [hj])⟩

/-- If no window is repeated and the reader is not the second participant of a serial scheme, or if the action can be repeated without effect, every sample
that can be read got the action once. Missing: repeated windows and the second participant (`C122_start_read_again`). -/
theorem C122_read_once_partial (c : Reader V) (m : SampleMap V) (f : V → V) (hc : c.map = some m) (initial first : Option (Msg V)) (stamp : ℚ)
    (s₀ : ReaderState V) (p : ℚ × V) (rest : Samples V) (h0 : c.init initial stamp first = .ok s₀) (hAt : c.At 0 p rest s₀) (l : List (RIter V))
    (hsch : RSchedule c p.1 0 rest l) (hf : (∀ v, f (f v) = f v) ∨ c.second = false ∧ ∀ i ∈ l, i.complete = true) :
    ∃ s, c.initAct f initial stamp first = .ok s ∧ c.readable s = (c.readable s₀).map (fun x => (x.1, f x.2)) ∧
      readRun c f l s = .ok (onceRead c m f (c.readable s) l) := by
  obtain ⟨s, h1, h2, h3⟩ := C122_read c m f hc initial first stamp s₀ p rest h0 hAt l hsch
  refine ⟨s, h1, h2, ?_⟩
  rw [h3, expectRead_once l]
  rcases hf with hf | hf
  · refine .inl ⟨hf, ?_⟩
    rw [h2]
    intro s hs
    obtain ⟨y, -, rfl⟩ := List.mem_map.1 hs
    exact hf _
  · exact .inr hf

theorem expectRead_last {c : Reader V} {m : SampleMap V} {f : V → V} (l k : List (RIter V)) (i : RIter V) (cur : Samples V) (ini : Samples V) (t : ℚ) (x : V)
    (h : i.fresh c = ini ++ [(t, x)]) : ∃ shown, (expectRead c m f cur (l ++ i :: k))[l.length]? = some shown ∧ shown.getLast? = some (t, f (m.map x)) := by
  induction l generalizing cur with
  | nil =>
    refine ⟨_, rfl, ?_⟩
    simp only [h]
    split_ifs <;> simp [acted, mapped]
  | cons j l ih =>
    obtain ⟨shown, h1, h2⟩ := ih (if j.complete then
        if c.second then (cur.drop (cur.length - 1)).map (acted f) ++ (j.fresh c).map (fun s => acted f (mapped (some m) s))
        else ((j.fresh c).map (fun s => acted f (mapped (some m) s))).drop (((j.fresh c).map fun s => acted f (mapped (some m) s)).length - 1)
      else (cur.take 1).map (acted f) ++ (j.fresh c).map (fun s => acted f (mapped (some m) s)))
    refine ⟨shown, ?_, h2⟩
    simpa [expectRead] using h1

/-- The value at the end of the window gets the action once, in every iteration of every scheme. -/
theorem C122_end_once (c : Reader V) (m : SampleMap V) (f : V → V) (hc : c.map = some m) (initial first : Option (Msg V)) (stamp : ℚ) (s₀ : ReaderState V)
    (p : ℚ × V) (rest : Samples V) (h0 : c.init initial stamp first = .ok s₀) (hAt : c.At 0 p rest s₀) (l k : List (RIter V)) (i : RIter V)
    (hsch : RSchedule c p.1 0 rest (l ++ i :: k)) (ini : Samples V) (t : ℚ) (x : V) (hx : i.fresh c = ini ++ [(t, x)]) :
    ∃ s obs shown, c.initAct f initial stamp first = .ok s ∧ readRun c f (l ++ i :: k) s = .ok obs ∧ obs[l.length]? = some shown ∧
      shown.getLast? = some (t, f (m.map x)) := by
  obtain ⟨s, h1, -, h3⟩ := C122_read c m f hc initial first stamp s₀ p rest h0 hAt (l ++ i :: k) hsch
  obtain ⟨shown, h4, h5⟩ := expectRead_last (c := c) (m := m) (f := f) l k i (c.readable s) ini t x hx
  exact ⟨s, _, shown, h1, h3, h4, h5⟩

theorem expectRead_repeats {c : Reader V} {m : SampleMap V} {f : V → V} (l : List (RIter V)) (i : RIter V) (k : List (RIter V)) (q : ℚ × V) (qs : Samples V)
    (h : ∀ j ∈ l ++ [i], j.complete = false) : ∃ new, (expectRead c m f (q :: qs) (l ++ i :: k))[l.length]? = some ((q.1, f^[l.length + 1] q.2) :: new) := by
  induction l generalizing q qs with
  | nil =>
    refine ⟨(i.fresh c).map fun s => acted f (mapped (some m) s), ?_⟩
    simp [expectRead, h i (by simp), acted]
  | cons j l ih =>
    obtain ⟨new, hn⟩ := ih (acted f q) ((j.fresh c).map fun s => acted f (mapped (some m) s)) fun a ha => h a (by simp at ha ⊢; tauto)
    refine ⟨new, ?_⟩
    simpa [expectRead, h j (by simp), Function.iterate_succ_apply, acted] using hn

/-- After `n + 1` iterations of the first window that are repeated, the value at its start, which got the action in `initialize`, is read with the action applied
`n + 2` times. -/
theorem C122_start_read_again (c : Reader V) (m : SampleMap V) (f : V → V) (hc : c.map = some m) (initial first : Option (Msg V)) (stamp : ℚ)
    (s₀ : ReaderState V) (p y : ℚ × V) (rest ys : Samples V) (h0 : c.init initial stamp first = .ok s₀) (hAt : c.At 0 p rest s₀)
    (hy : c.readable s₀ = y :: ys) (l k : List (RIter V)) (i : RIter V) (hsch : RSchedule c p.1 0 rest (l ++ i :: k))
    (hl : ∀ j ∈ l ++ [i], j.complete = false) :
    ∃ s obs new, c.initAct f initial stamp first = .ok s ∧ c.readable s = (y.1, f y.2) :: ys.map (fun x => (x.1, f x.2)) ∧
      readRun c f (l ++ i :: k) s = .ok obs ∧ obs[l.length]? = some ((y.1, f^[l.length + 2] y.2) :: new) := by
  obtain ⟨s, h1, h2, h3⟩ := C122_read c m f hc initial first stamp s₀ p rest h0 hAt (l ++ i :: k) hsch
  rw [hy, List.map_cons] at h2
  rw [h2] at h3
  obtain ⟨new, h4⟩ := expectRead_repeats (c := c) (m := m) (f := f) l i k (y.1, f y.2) (ys.map fun x => (x.1, f x.2)) hl
  exact ⟨s, _, new, h1, h2, h3, by rw [h4]; simp [Function.iterate_succ_apply]⟩

end Verif.DataPath
