import Verif.Export.Names
import Verif.Export.Spec
import Mathlib.Data.List.Nodup
import Mathlib.Data.List.Induction
import Mathlib.Tactic.SplitIfs
import Mathlib.Tactic.Ring

/-!
# Runs of an exporter

Helper lemmas: the writes of an exporter as a function of its history.
-/

set_option autoImplicit false

namespace Verif.Export

variable {σ : Type}

theorem after_eq (f : Files σ) (ws : List (Write σ)) (p : Path) :
    f.after ws p = match (ws.filter fun w => w.path = p).getLast? with
      | some w => some w.content
      | none => f p := by
  induction ws using List.reverseRecOn with
  | nil => rfl
  | append_singleton ws w ih =>
    rw [Files.after, List.foldl_append, List.filter_append]
    by_cases h : w.path = p
    · simp [h]
    · have h' : p ≠ w.path := fun hh => h hh.symm
      simp only [List.foldl_cons, List.foldl_nil, Function.update_of_ne h', List.filter_cons,
        h, decide_false, List.filter_nil, Bool.false_eq_true, if_false, List.append_nil]
      exact ih

theorem after_congr (f : Files σ) {ws ws' : List (Write σ)} {p : Path}
    (h : (ws.filter fun w => w.path = p) = ws'.filter fun w => w.path = p) :
    f.after ws p = f.after ws' p := by
  rw [after_eq, after_eq, h]

theorem after_none (f : Files σ) {ws : List (Write σ)} {p : Path} (h : ∀ w ∈ ws, w.path ≠ p) :
    f.after ws p = f p := by
  rw [after_eq, List.filter_eq_nil_iff.2 (by simpa using h)]
  rfl

theorem after_last (f : Files σ) {ws ws' : List (Write σ)} {w : Write σ}
    (h : ∀ v ∈ ws', v.path ≠ w.path) : f.after (ws ++ w :: ws') w.path = some w.content := by
  rw [after_eq, List.filter_append, List.filter_cons,
    List.filter_eq_nil_iff (l := ws').2 (by simpa using h)]
  simp

/-- Only the writes of one owner matter for a file that nobody else writes. -/
theorem after_owner {α : Type} [DecidableEq α] (f : Files σ) {log : List (α × Write σ)} {a : α}
    {p : Path} (h : ∀ w ∈ log, w.2.path = p → w.1 = a) :
    f.after (log.map (·.2)) p = f.after ((log.filter fun w => w.1 = a).map (·.2)) p := by
  apply after_congr
  rw [List.filter_map, List.filter_map, List.filter_filter]
  congr 1
  apply List.filter_congr
  intro w hw
  by_cases hp : w.2.path = p
  · simp [hp, h w hw hp]
  · simp [hp]

variable (e : Exporter)

/-- The exports of an exporter during calls of `exportIntermediate`. -/
def history (xs : List (Exp σ)) : List (ℕ × ℚ × Instant σ) :=
  xs.filterMap fun x =>
    if e.everyIteration then some (x.iteration, x.time, x.inst)
    else if x.complete && e.keepExport x.timewindow then some (x.timewindow, x.time, x.inst)
    else none

def data (h : List (ℕ × ℚ × Instant σ)) : List (Write σ) := h.flatMap fun h => e.outs h.1 h.2.2

def records (h : List (ℕ × ℚ × Instant σ)) : Records :=
  h.flatMap fun h => (e.recorded h.1).map fun n => (n, h.2.1)

theorem exportSeries_path {recs : Records} {w : Write σ} (h : w ∈ e.exportSeries recs) :
    w.path = e.seriesPath ∧ e.format ≠ .csv ∧ (e.isParallel = true → e.rank = 0) ∧
      w.content = .series recs := by
  unfold Exporter.exportSeries at h
  have key : ∀ {l : List (Write σ)}, l = (if e.isParallel && decide (0 < e.rank) then []
      else if recs.isEmpty then [] else [⟨e.seriesPath, .series recs⟩]) → w ∈ l →
      w.path = e.seriesPath ∧ (e.isParallel = true → e.rank = 0) ∧ w.content = .series recs := by
    intro l hl hw
    subst hl
    split_ifs at hw with h1 h2
    · simp at hw
    · simp at hw
    · simp only [List.mem_singleton] at hw
      subst hw
      refine ⟨rfl, fun hp => ?_, rfl⟩
      simp only [hp, Bool.true_and, decide_eq_true_eq] at h1
      omega
  cases hf : e.format <;> simp only [hf] at h
  · have := key rfl h; exact ⟨this.1, by simp, this.2⟩
  · have := key rfl h; exact ⟨this.1, by simp, this.2⟩
  · have := key rfl h; exact ⟨this.1, by simp, this.2⟩
  · simp at h

theorem doExport_eq (index : ℕ) (t : ℚ) (i : Instant σ) (recs : Records) :
    e.doExport index t i recs = if e.keepExport index then
      (recs ++ records e [(index, t, i)], data e [(index, t, i)]) else (recs, []) := by
  simp [Exporter.doExport, records, data]

theorem intermediate_records (x : Exp σ) (recs : Records) :
    (e.exportIntermediate x recs).1 = recs ++ records e (history e [x]) := by
  unfold Exporter.exportIntermediate history
  by_cases he : e.everyIteration = true
  · simp [he, doExport_eq, Exporter.keepExport]
  · simp only [he, Bool.false_eq_true, if_false]
    cases hc : x.complete
    · simp [records, hc]
    · cases hk : e.keepExport x.timewindow <;> simp [doExport_eq, hk, hc, records]

theorem intermediate_writes (x : Exp σ) (recs : Records) :
    (e.exportIntermediate x recs).2 = data e (history e [x]) ++
      if !e.everyIteration && (x.final || (x.complete && e.updateSeries)) then
        e.exportSeries (recs ++ records e (history e [x])) else [] := by
  rw [← intermediate_records]
  unfold Exporter.exportIntermediate history
  by_cases he : e.everyIteration = true
  · simp [he, doExport_eq, Exporter.keepExport]
  · simp only [he, Bool.false_eq_true, if_false, Bool.not_false, Bool.true_and]
    congr 1
    cases hc : x.complete
    · simp [data, hc]
    · cases hk : e.keepExport x.timewindow <;> simp [doExport_eq, hk, hc, data]

theorem history_cons (x : Exp σ) (xs : List (Exp σ)) :
    history e (x :: xs) = history e [x] ++ history e xs := by
  unfold history
  rw [← List.filterMap_append]; rfl

theorem records_append (a b : List (ℕ × ℚ × Instant σ)) :
    records e (a ++ b) = records e a ++ records e b := List.flatMap_append ..

theorem data_append (a b : List (ℕ × ℚ × Instant σ)) :
    data e (a ++ b) = data e a ++ data e b := List.flatMap_append ..

theorem run_append (recs : Records) (xs ys : List (Exp σ)) :
    e.run recs (xs ++ ys) = e.run recs xs ++ e.run (recs ++ records e (history e xs)) ys := by
  induction xs generalizing recs with
  | nil => simp [Exporter.run, history, records]
  | cons x xs ih =>
    rw [List.cons_append, Exporter.run, Exporter.run, ih, intermediate_records, List.append_assoc]
    rw [history_cons e x xs, records_append, List.append_assoc]

/-- Apart from the series file, only `outs` of the history is written. -/
theorem run_data (recs : Records) (xs : List (Exp σ)) {p : Path} (hp : p ≠ e.seriesPath) :
    ((e.run recs xs).filter fun w => w.path = p) =
      (data e (history e xs)).filter fun w => w.path = p := by
  induction xs generalizing recs with
  | nil => rfl
  | cons x xs ih =>
    rw [Exporter.run, List.filter_append, ih, history_cons, data_append, List.filter_append,
      intermediate_writes, List.filter_append]
    congr 1
    rw [List.append_right_eq_self, List.filter_eq_nil_iff]
    intro w hw
    split_ifs at hw
    · have := (exportSeries_path e hw).1
      simp only [decide_eq_true_eq]
      rw [this]; exact fun h => hp h.symm
    · simp at hw

theorem outs_tail (h : Accepted e) {index : ℕ} {i : Instant σ} {w : Write σ}
    (hw : w ∈ e.outs index i) : ∃ l x, w.path = e.path l x ∧ Tail e e.rank l x ∧
      x ≠ ['s', 'e', 'r', 'i', 'e', 's'] := by
  unfold Exporter.outs at hw
  have hser : e.isParallel = false → w ∈ [(⟨e.serialPath index, .snapshot (i.part e.rank)⟩ : Write σ)] →
      ∃ l x, w.path = e.path l x ∧ Tail e e.rank l x ∧ x ≠ ['s', 'e', 'r', 'i', 'e', 's'] := by
    intro hp hw
    simp only [List.mem_singleton] at hw
    subst hw
    exact ⟨_, _, rfl, .serial index hp, (series_ne_ext e).symm⟩
  have hxml : e.format ≠ .csv → e.isParallel = true → w ∈
      (if e.rank = 0 then
        [(⟨e.parallelPath index, .pieces (((List.range e.size).filter fun r =>
          !isPartitionEmpty i.offsets r).map fun r => (e.piecePath index r).2)⟩ : Write σ)]
      else []) ++
      (if isPartitionEmpty i.offsets e.rank then []
      else [⟨e.piecePath index e.rank, .snapshot (i.part e.rank)⟩]) →
      ∃ l x, w.path = e.path l x ∧ Tail e e.rank l x ∧ x ≠ ['s', 'e', 'r', 'i', 'e', 's'] := by
    intro hf hp hw
    rw [List.mem_append] at hw
    rcases hw with hw | hw
    · split_ifs at hw with h0
      · simp only [List.mem_singleton] at hw
        subst hw
        exact ⟨_, _, rfl, .parallel index hp hf h0, (series_ne_parallelExt e).symm⟩
      · simp at hw
    · split_ifs at hw
      · simp at hw
      · simp only [List.mem_singleton] at hw
        subst hw
        exact ⟨_, _, rfl, .piece index hp hf, (series_ne_ext e).symm⟩
  have hvtk : e.format = .vtk → e.isParallel = false := by
    intro hf; simp [Exporter.isParallel, h.2 hf]
  cases hf : e.format <;> simp only [hf] at hw
  · exact hser (hvtk hf) hw
  · cases hp : e.isParallel <;> simp only [hp, Bool.false_eq_true, if_false, if_true] at hw
    · exact hser hp hw
    · exact hxml (by simp [hf]) hp hw
  · cases hp : e.isParallel <;> simp only [hp, Bool.false_eq_true, if_false, if_true] at hw
    · exact hser hp hw
    · exact hxml (by simp [hf]) hp hw
  · cases hp : e.isParallel <;> simp only [hp, Bool.false_eq_true, if_false, if_true] at hw
    · exact hser hp hw
    · simp only [List.mem_singleton] at hw
      subst hw
      exact ⟨_, _, rfl, .csv index hp hf, (series_ne_ext e).symm⟩

theorem seriesPath_noDot : '.' ∉ (if e.isParallel then e.parallelExt else e.ext) := by
  split_ifs
  exacts [parallelExt_noDot e, ext_noDot e]

theorem outs_ne_series (h : Accepted e) {index : ℕ} {i : Instant σ} {w : Write σ}
    (hw : w ∈ e.outs index i) : w.path ≠ e.seriesPath := by
  obtain ⟨l, x, hp, ht, hx⟩ := outs_tail e h hw
  rw [hp]
  intro hh
  exact hx (path_inj e ht.noDot (seriesPath_noDot e) hh).2

theorem after_append (f : Files σ) (a b : List (Write σ)) : f.after (a ++ b) = (f.after a).after b :=
  List.foldl_append ..

/-- A file determines the number of the exported state. -/
theorem outs_index (h : Accepted e) {k k' : ℕ} {i i' : Instant σ} {w w' : Write σ}
    (hw : w ∈ e.outs k i) (hw' : w' ∈ e.outs k' i') (hp : w.path = w'.path) : k = k' := by
  have forms : ∀ {k : ℕ} {i : Instant σ} {w : Write σ}, w ∈ e.outs k i →
      (e.isParallel = false ∧ w.path = e.serialPath k) ∨
      (e.isParallel = true ∧ w.path = e.parallelPath k) ∨
      (e.isParallel = true ∧ e.format ≠ .csv ∧ w.path = e.piecePath k e.rank) ∨
      (e.isParallel = true ∧ e.format = .csv ∧ w.path = e.csvPath k e.rank) := by
    intro k i w hw
    unfold Exporter.outs at hw
    have hvtk : e.format = .vtk → e.isParallel = false := by
      intro hf; simp [Exporter.isParallel, h.2 hf]
    cases hf : e.format <;> simp only [hf] at hw
    · simp only [List.mem_singleton] at hw
      exact .inl ⟨hvtk hf, by rw [hw]⟩
    · cases hp : e.isParallel <;> simp only [hp, Bool.false_eq_true, if_false, if_true] at hw
      · simp only [List.mem_singleton] at hw
        exact .inl ⟨rfl, by rw [hw]⟩
      · rw [List.mem_append] at hw
        rcases hw with hw | hw <;> split_ifs at hw <;> simp at hw
        · exact .inr (.inl ⟨rfl, by rw [hw]⟩)
        · exact .inr (.inr (.inl ⟨rfl, by simp, by rw [hw]⟩))
    · cases hp : e.isParallel <;> simp only [hp, Bool.false_eq_true, if_false, if_true] at hw
      · simp only [List.mem_singleton] at hw
        exact .inl ⟨rfl, by rw [hw]⟩
      · rw [List.mem_append] at hw
        rcases hw with hw | hw <;> split_ifs at hw <;> simp at hw
        · exact .inr (.inl ⟨rfl, by rw [hw]⟩)
        · exact .inr (.inr (.inl ⟨rfl, by simp, by rw [hw]⟩))
    · cases hp : e.isParallel <;> simp only [hp, Bool.false_eq_true, if_false, if_true] at hw
      · simp only [List.mem_singleton] at hw
        exact .inl ⟨rfl, by rw [hw]⟩
      · simp only [List.mem_singleton] at hw
        exact .inr (.inr (.inr ⟨rfl, by simp, by rw [hw]⟩))
  rcases forms hw with ⟨h1, h2⟩ | ⟨h1, h2⟩ | ⟨h1, hf, h2⟩ | ⟨h1, hf, h2⟩ <;>
  rcases forms hw' with ⟨h1', h2'⟩ | ⟨h1', h2'⟩ | ⟨h1', hf', h2'⟩ | ⟨h1', hf', h2'⟩ <;>
  rw [h2, h2'] at hp
  · exact formatIndex_inj e (path_inj e (formatIndex_noDot e _) (formatIndex_noDot e _) hp).1
  · simp [h1] at h1'
  · simp [h1] at h1'
  · simp [h1] at h1'
  · simp [h1] at h1'
  · exact formatIndex_inj e (path_inj e (formatIndex_noDot e _) (formatIndex_noDot e _) hp).1
  · exact absurd (path_inj e (formatIndex_noDot e _) (pieceLabel_noDot e _ _) hp).2.symm
      (ext_ne_parallelExt e e)
  · exact absurd (path_inj e (formatIndex_noDot e _) (csvLabel_noDot e _ _) hp).2.symm
      (ext_ne_parallelExt e e)
  · simp [h1] at h1'
  · exact absurd (path_inj e (pieceLabel_noDot e _ _) (formatIndex_noDot e _) hp).2
      (ext_ne_parallelExt e e)
  · exact (pieceLabel_inj e (path_inj e (pieceLabel_noDot e _ _) (pieceLabel_noDot e _ _) hp).1).1
  · exact absurd hf' hf
  · simp [h1] at h1'
  · exact absurd (path_inj e (csvLabel_noDot e _ _) (formatIndex_noDot e _) hp).2
      (ext_ne_parallelExt e e)
  · exact absurd hf hf'
  · exact (csvLabel_inj e (path_inj e (csvLabel_noDot e _ _) (csvLabel_noDot e _ _) hp).1).1

/-- The exports of `exportInitial`. -/
def initial (start : Instant σ) : List (ℕ × ℚ × Instant σ) :=
  if e.freq < 1 then [] else [(0, 0, start)]

theorem keep_zero (h : ¬ e.freq < 1) : e.keepExport 0 = true := by
  simp [Exporter.keepExport]; right; omega

theorem initial_records (start : Instant σ) :
    (e.exportInitial start).1 = records e (initial e start) := by
  unfold Exporter.exportInitial initial
  by_cases h : e.freq < 1
  · simp [h, records]
  · simp [h, doExport_eq, keep_zero e h]

theorem initial_writes (start : Instant σ) :
    (e.exportInitial start).2 = data e (initial e start) ++
      if e.updateSeries ∧ ¬ e.freq < 1 then e.exportSeries (records e (initial e start)) else [] := by
  rw [← initial_records]
  unfold Exporter.exportInitial initial
  by_cases h : e.freq < 1
  · simp [h, data]
  · cases hu : e.updateSeries <;> simp [h, doExport_eq, keep_zero e h]

theorem keep_iff (he : e.everyIteration = false) (hf : ¬ e.freq < 1) (k : ℕ) :
    e.keepExport k = decide (e.freq ∣ (k : ℤ)) := by
  have h0 : 0 < e.freq := by omega
  simp only [Exporter.keepExport, he, Bool.false_or, h0, decide_true, Bool.true_and]
  exact decide_eq_decide.2 Int.dvd_iff_emod_eq_zero.symm

theorem keep_false (he : e.everyIteration = false) (hf : e.freq < 1) (k : ℕ) :
    e.keepExport k = false := by
  simp only [Exporter.keepExport, he, Bool.false_or]
  have : ¬ 0 < e.freq := by omega
  simp [this]

/-- Calls of a participant with one coupling scheme. -/
def Single (as : List (Advance σ)) : Prop :=
  ∀ a ∈ as, a.done.length = 1 ∧ (a.complete = true → a.reached = true)

theorem history_window (he : e.everyIteration = false) :
    ∀ (as : List (Advance σ)) (n w : ℕ), 1 ≤ w → Single as →
    history e (exps n [w] as) = ((((as.filter (·.complete)).map fun a => (a.time, a.inst)).zipIdx
      w).filter fun x => e.keepExport x.2).map fun x => (x.2, x.1)
  | [], _, _, _, _ => rfl
  | a :: as, n, w, hw, hs => by
    have hsa := hs a (by simp)
    have hst : Single as := fun b hb => hs b (by simp [hb])
    obtain ⟨d, hd⟩ := List.length_eq_one_iff.1 hsa.1
    have hc : a.complete = d := by simp [Advance.complete, hd]
    have hw' : windowsAfter [w] a.done = [if d then w + 1 else w] := by
      simp [windowsAfter, hd]
    rw [exps]
    simp only [hw']
    cases hdd : d
    · have ih := history_window he as (n + 1) w hw hst
      have hc' : a.complete = false := by rw [hc, hdd]
      simp only [Bool.false_eq_true, if_false, List.filter_cons, hc']
      rw [← ih]
      split_ifs
      · rw [List.singleton_append, history_cons]
        simp [history, he]
      · rfl
    · have ih := history_window he as (n + 1) (w + 1) (by omega) hst
      have hc' : a.complete = true := by rw [hc, hdd]
      have hr := hsa.2 hc'
      simp only [if_true, hr, hc', List.filter_cons, List.map_cons, List.zipIdx_cons,
        List.singleton_append]
      rw [history_cons, ih]
      simp only [history, he, timeWindows, Nat.add_sub_cancel, Bool.false_eq_true, if_false,
        Bool.true_and, List.filterMap_cons, List.filterMap_nil]
      cases hk : e.keepExport w <;> simp

theorem history_iteration (he : e.everyIteration = true) :
    ∀ (as : List (Advance σ)) (n : ℕ) (ws : List ℕ),
    history e (exps n ws as) =
      ((as.zipIdx (n + 1)).filter (·.1.reached)).map fun x => (x.2, x.1.time, x.1.inst)
  | [], _, _ => rfl
  | a :: as, n, ws => by
    have ih := history_iteration he as (n + 1) (windowsAfter ws a.done)
    rw [exps]
    simp only [List.zipIdx_cons, List.filter_cons]
    cases hr : a.reached
    · simpa using ih
    · simp only [if_true, List.singleton_append, List.map_cons]
      rw [history_cons, ih]
      simp [history, he]

/-- What an exporter exports is what is expected. -/
theorem exported_eq {schemes : ℕ} (start : Instant σ) (as : List (Advance σ))
    (h : e.everyIteration = true ∨ (schemes = 1 ∧ Single as)) :
    initial e start ++ history e (exps 0 (List.replicate schemes 1) as) = exported e start as := by
  unfold exported initial
  cases he : e.everyIteration
  · obtain ⟨rfl, hs⟩ : schemes = 1 ∧ Single as := by simpa [he] using h
    rw [show List.replicate 1 1 = [1] from rfl, history_window e he as 0 1 (le_refl 1) hs]
    by_cases hf : e.freq < 1
    · simp [hf, keep_false e he hf]
    · simp only [hf, if_false, Bool.false_eq_true, marks, List.zipIdx_cons, List.filter_cons]
      simp [keep_iff e he hf]
  · rw [history_iteration e he]
    simp

theorem exported_nodup (start : Instant σ) (as : List (Advance σ)) :
    ((exported e start as).map (·.1)).Nodup := by
  have sub : ∀ {α β : Type} (l : List α) (m : ℕ) (p : α × ℕ → Bool) (g : α × ℕ → ℕ × β)
      (_ : ∀ x, (g x).1 = x.2), List.Sublist ((((l.zipIdx m).filter p).map g).map (·.1))
        (List.range' m l.length) := by
    intro α β l m p g hg
    rw [List.map_map, show ((·.1) ∘ g) = (·.2) from funext hg, ← List.zipIdx_map_snd m l]
    exact List.Sublist.map _ List.filter_sublist
  unfold exported
  split_ifs with h1 h2 h2
  · exact (sub as 1 _ _ (fun _ => rfl)).nodup List.nodup_range'
  · simp only [List.singleton_append, List.map_cons, List.nodup_cons]
    refine ⟨fun hm => ?_, (sub as 1 _ _ (fun _ => rfl)).nodup List.nodup_range'⟩
    have := (sub as 1 _ _ (fun _ => rfl)).subset hm
    simp at this
  · simp
  · exact (sub (marks start as) 0 _ _ (fun _ => rfl)).nodup List.nodup_range'

end Verif.Export
