import Verif.Export.Runs

/-!
# C117: when exports are written, under which names, and what series and parallel files refer to
-/

set_option autoImplicit false

namespace Verif.Export

variable {σ : Type}

theorem isPartitionEmpty_eq {size : ℕ} {counts : ℕ → ℕ} {i : Instant σ}
    (h : Distributed size counts i) {r : ℕ} (hr : r < size) :
    isPartitionEmpty i.offsets r = decide (counts r = 0) := by
  have hget : ∀ s < size, i.offsets.getD s 0 = ((List.range (s + 1)).map counts).sum := by
    intro s hs
    rw [List.getD_eq_getElem?_getD, h.2 s hs, Option.getD_some]
  have hne : i.offsets.isEmpty = false := by
    rw [List.isEmpty_eq_false_iff, ← List.length_pos_iff, h.1]; omega
  unfold isPartitionEmpty
  rw [hne]
  simp only [Bool.false_eq_true, if_false]
  split_ifs with h0
  · subst h0
    rw [hget 0 hr]
    simp
  · rw [hget r hr, hget (r - 1) (by omega)]
    obtain ⟨s, rfl⟩ := Nat.exists_eq_succ_of_ne_zero h0
    simp only [Nat.succ_eq_add_one, Nat.add_sub_cancel]
    rw [List.range_succ (n := s + 1)]
    simp

theorem exps_snoc (a : Advance σ) (hr : a.reached = true) : ∀ (as : List (Advance σ)) (n : ℕ)
    (ws : List ℕ), ∃ x : Exp σ, exps n ws (as ++ [a]) = exps n ws as ++ [x] ∧ x.final = !a.ongoing
  | [], n, ws => ⟨_, by simp only [exps, List.nil_append, hr, if_true, List.append_nil]; rfl, rfl⟩
  | b :: as, n, ws => by
    obtain ⟨x, hx, hf⟩ := exps_snoc a hr as (n + 1) (windowsAfter ws b.done)
    exact ⟨x, by simp only [List.cons_append, exps, hx, List.append_assoc], hf⟩

/-- A participant, its exporters and its calls: any number of exporters that do not write the same
files, all ranks, any order of their writes. -/
structure Exports (es : List Exporter) (schemes size : ℕ) (start : Instant σ)
    (as : List (Advance σ)) (log : List ((ℕ × ℕ) × Write σ)) : Prop where
  log : Log es schemes size start as log
  apart : Apart es
  accepted : ∀ e ∈ es, Accepted e

variable {es : List Exporter} {schemes size : ℕ} {start : Instant σ} {as : List (Advance σ)}
  {log : List ((ℕ × ℕ) × Write σ)}

/-- The file is what the responsible rank wrote. -/
theorem Exports.file (h : Exports es schemes size start as log) (f : Files σ) {e : Exporter}
    (he : e ∈ es) (hs : e.everyIteration = true ∨ (schemes = 1 ∧ Single as)) {k : ℕ} {t : ℚ}
    {i : Instant σ} (hk : (k, t, i) ∈ exported e start as) {r : ℕ} (hr : r < e.size) {w : Write σ}
    (hw : w ∈ (e.on r).outs k i) : f.after (log.map (·.2)) w.path = some w.content := by
  obtain ⟨j, hj, rfl⟩ := List.getElem_of_mem he
  have := writes_outs (es[j].on r) (h.accepted es[j] he) (schemes := schemes) hs f
    (show (k, t, i) ∈ exported (es[j].on r) start as from hk) hw
  rw [log_after h.log h.apart h.accepted f hj hr ⟨w, this.1, rfl⟩]
  exact this.2

/-- **C117, files.** Exactly the states that are to be exported can be found in the files, each
under its own name and unchanged until the end: for exports every n time windows the state at the
end of the windows 0, n, 2n, …; for exports every iteration the state after each call that was no
subcycling step. In parallel, the parallel file refers exactly to the pieces of the ranks that have
vertices, and those pieces exist. -/
theorem C117_files (h : Exports es schemes size start as log) (f : Files σ) {e : Exporter}
    (he : e ∈ es) (hs : e.everyIteration = true ∨ (schemes = 1 ∧ Single as)) {k : ℕ} {t : ℚ}
    {i : Instant σ} (hk : (k, t, i) ∈ exported e start as) {counts : ℕ → ℕ}
    (hd : Distributed e.size counts i) : Stored e k counts i (f.after (log.map (·.2))) := by
  have hacc := h.accepted e he
  have file := fun (r : ℕ) (hr : r < e.size) (w : Write σ) (hw : w ∈ (e.on r).outs k i) =>
    h.file f he hs hk hr hw
  unfold Stored
  split_ifs with h1 h2
  · have hp : (e.on 0).isParallel = false := by simp [Exporter.isParallel, Exporter.on, h1]
    refine file 0 (by omega) ⟨e.serialPath k, .snapshot (i.part 0)⟩ ?_
    unfold Exporter.outs
    have : ((e.on 0).serialPath k, i.part (e.on 0).rank) = (e.serialPath k, i.part 0) := rfl
    cases hf : (e.on 0).format <;> simp only [hp, Bool.false_eq_true, if_false, List.mem_singleton] <;> rfl
  · intro r hr
    have hp : (e.on r).isParallel = true := by
      have := hacc.1
      show decide (1 < e.size) = true
      exact decide_eq_true (by omega)
    refine file r hr ⟨e.csvPath k r, .snapshot (i.part r)⟩ ?_
    unfold Exporter.outs
    have hf : (e.on r).format = .csv := h2
    simp only [hf, hp, if_true, List.mem_singleton]
    rfl
  · have hxml : e.format = .vtu ∨ e.format = .vtp := by
      cases hf : e.format
      · exact absurd (hacc.2 hf) h1
      · exact .inl rfl
      · exact .inr rfl
      · exact absurd hf h2
    have hpar : ∀ r, (e.on r).isParallel = true := by
      intro r
      have := hacc.1
      show decide (1 < e.size) = true
      exact decide_eq_true (by omega)
    have houts : ∀ r, (e.on r).outs k i =
        (if r = 0 then
          [⟨e.parallelPath k, .pieces (((List.range e.size).filter fun s =>
            !isPartitionEmpty i.offsets s).map fun s => (e.piecePath k s).2)⟩]
        else []) ++
        (if isPartitionEmpty i.offsets r then []
        else [⟨e.piecePath k r, .snapshot (i.part r)⟩]) := by
      intro r
      have hp := hpar r
      unfold Exporter.outs
      rcases hxml with hf | hf
      · have hf : (e.on r).format = .vtu := hf
        simp only [hf, hp, if_true]; rfl
      · have hf : (e.on r).format = .vtp := hf
        simp only [hf, hp, if_true]; rfl
    constructor
    · refine ⟨_, file 0 hacc.1 ⟨e.parallelPath k, _⟩ (by rw [houts]; simp only [if_true]; exact List.mem_append_left _ (List.mem_singleton.2 rfl)), ?_, ?_⟩
      · refine List.Nodup.map_on ?_ (List.Nodup.filter _ List.nodup_range)
        intro r _ s _ hrs
        exact (pieceLabel_inj e (name_inj e (pieceLabel_noDot e _ _) (pieceLabel_noDot e _ _) hrs).1).2
      · intro n
        simp only [List.mem_map, List.mem_filter, List.mem_range]
        constructor
        · rintro ⟨r, ⟨hr, hc⟩, rfl⟩
          rw [isPartitionEmpty_eq hd hr] at hc
          exact ⟨r, hr, by simpa using hc, rfl⟩
        · rintro ⟨r, hr, hc, rfl⟩
          exact ⟨r, ⟨hr, by rw [isPartitionEmpty_eq hd hr]; simpa using hc⟩, rfl⟩
    · intro r hr hc
      refine file r hr ⟨e.piecePath k r, .snapshot (i.part r)⟩ ?_
      rw [houts, isPartitionEmpty_eq hd hr]
      simp [hc]

/-- The files an export of state `k` may consist of. -/
theorem outs_fileOf (e : Exporter) (hr : e.rank < e.size) {k : ℕ} {i : Instant σ} {w : Write σ}
    (hw : w ∈ e.outs k i) : fileOf e k w.path := by
  unfold Exporter.outs at hw
  unfold fileOf
  cases hf : e.format <;> simp only [hf] at hw
  · simp only [List.mem_singleton] at hw
    exact .inl (by rw [hw])
  · split_ifs at hw <;> simp at hw
    · rcases hw with rfl
      exact .inr (.inl rfl)
    · rcases hw with rfl | rfl
      · exact .inr (.inl rfl)
      · exact .inr (.inr ⟨e.rank, hr, .inl rfl⟩)
    · rcases hw with rfl
      exact .inr (.inr ⟨e.rank, hr, .inl rfl⟩)
    · exact .inl (by rw [hw])
  · split_ifs at hw <;> simp at hw
    · rcases hw with rfl
      exact .inr (.inl rfl)
    · rcases hw with rfl | rfl
      · exact .inr (.inl rfl)
      · exact .inr (.inr ⟨e.rank, hr, .inl rfl⟩)
    · rcases hw with rfl
      exact .inr (.inr ⟨e.rank, hr, .inl rfl⟩)
    · exact .inl (by rw [hw])
  · split_ifs at hw <;> simp only [List.mem_singleton] at hw
    · exact .inr (.inr ⟨e.rank, hr, .inr (by rw [hw])⟩)
    · exact .inl (by rw [hw])

/-- **C117, nothing else.** A file that was not there before is the series file of an exporter or
belongs to a state that was to be exported. All other files are left alone. -/
theorem C117_nothing_else (h : Exports es schemes size start as log)
    (hs : (∀ e ∈ es, e.everyIteration = true) ∨ (schemes = 1 ∧ Single as)) (f : Files σ) (p : Path)
    (hp : f.after (log.map (·.2)) p ≠ f p) :
    ∃ e ∈ es, p = e.seriesPath ∨ ∃ k t i, (k, t, i) ∈ exported e start as ∧ fileOf e k p := by
  have hex : ∃ w ∈ log, w.2.path = p := by
    by_contra hno
    push Not at hno
    exact hp (after_none f (by simpa using fun w a b hw => hno ((a, b), w) hw))
  obtain ⟨w, hw, rfl⟩ := hex
  obtain ⟨hj, hr, hmem⟩ := log_mem h.log hw
  refine ⟨es[w.1.1], List.getElem_mem hj, ?_⟩
  rcases writes_mem _ start as hmem with ⟨recs, hx⟩ | hx
  · exact .inl (exportSeries_path _ hx).1
  · right
    rw [exported_eq (es[w.1.1].on w.1.2) start as
      (hs.imp_left fun h => h es[w.1.1] (List.getElem_mem hj))] at hx
    obtain ⟨⟨k, t, i⟩, hk, ho⟩ := mem_data _ hx
    exact ⟨k, t, i, hk, outs_fileOf (es[w.1.1].on w.1.2) hr ho⟩

theorem records_eq (e : Exporter) (ha : Accepted e) (hf : e.format ≠ .csv)
    (hr : e.isParallel = true → e.rank = 0) (l : List (ℕ × ℚ × Instant σ)) :
    records e l = l.map fun x => ((seriesEntry e x.1).2, x.2.1) := by
  have : ∀ k, e.recorded k = [(seriesEntry e k).2] := by
    intro k
    have h1 := ha.1
    unfold Exporter.recorded seriesEntry
    cases hff : e.format
    · simp [ha.2 hff]
    · cases hp : e.isParallel
      · have : e.size = 1 := by simp [Exporter.isParallel] at hp; omega
        simp [this]
      · have : e.size ≠ 1 := by simp [Exporter.isParallel] at hp; omega
        simp [this, hr hp]
    · cases hp : e.isParallel
      · have : e.size = 1 := by simp [Exporter.isParallel] at hp; omega
        simp [this]
      · have : e.size ≠ 1 := by simp [Exporter.isParallel] at hp; omega
        simp [this, hr hp]
    · exact absurd hff hf
  unfold records
  induction l with
  | nil => rfl
  | cons x l ih => simp [this] at ih ⊢; exact ih

/-- **C117, series.** For exports every n time windows in a format other than CSV, the series file
lists exactly the exported states in order with their times, and refers to their files: always with
`update-series`, and otherwise once the coupling has ended. -/
theorem C117_series (h : Exports es 1 size start as log) (f : Files σ) {e : Exporter} (he : e ∈ es)
    (hs : Single as) (hw : e.everyIteration = false) (hn : 1 ≤ e.freq) (hf : e.format ≠ .csv)
    (hu : e.updateSeries = true ∨ ∃ bs a, as = bs ++ [a] ∧ a.reached = true ∧ a.ongoing = false) :
    f.after (log.map (·.2)) e.seriesPath =
      some (.series ((exported e start as).map fun x => ((seriesEntry e x.1).2, x.2.1))) ∧
    (0, 0, start) ∈ exported e start as := by
  obtain ⟨j, hj, rfl⟩ := List.getElem_of_mem he
  have hacc := h.accepted _ he
  set e0 := es[j].on 0 with he0
  have hr0 : e0.isParallel = true → e0.rank = 0 := fun _ => rfl
  have hfreq : ¬ e0.freq < 1 := by have : e0.freq = es[j].freq := rfl; omega
  have hinit : initial e0 start = [(0, 0, start)] := by simp [initial, hfreq]
  have hne : records e0 (initial e0 start) ≠ [] := by
    rw [records_eq e0 hacc hf hr0, hinit]; simp
  have hexp := exported_eq e0 (schemes := 1) start as (.inr ⟨rfl, hs⟩)
  have hmem : (0, 0, start) ∈ exported e0 start as := by rw [← hexp, hinit]; simp
  refine ⟨?_, hmem⟩
  have hrec : records e0 (initial e0 start) ++
      records e0 (history e0 (exps 0 (List.replicate 1 1) as)) =
      (exported e0 start as).map fun x => ((seriesEntry es[j] x.1).2, x.2.1) := by
    rw [← records_append, hexp, records_eq e0 hacc hf hr0]; rfl
  have hval : ∀ g : Files σ, g.after (e0.writes 1 start as) e0.seriesPath =
      some (.series ((exported e0 start as).map fun x => ((seriesEntry es[j] x.1).2, x.2.1))) := by
    intro g
    rw [Exporter.writes, after_append, initial_records, ← hrec]
    rcases hu with hu | ⟨bs, a, rfl, hr, ho⟩
    · apply run_series_update e0 hw hu hf hr0 _ _ hne
      rw [initial_writes, if_pos ⟨hu, hfreq⟩, exportSeries_eq e0 hf hr0 hne]
      exact after_last g (by simp)
    · obtain ⟨x, hx, hfin⟩ := exps_snoc a hr bs 0 (List.replicate 1 1)
      rw [hx]
      exact run_series_final e0 hw hf hr0 _ _ x (by rw [hfin, ho]; rfl) hne _
  have hex : ∃ w ∈ e0.writes 1 start as, w.path = es[j].seriesPath := by
    by_contra hno
    push Not at hno
    have h1 := (hval (fun _ => none)).symm.trans (after_none _ hno)
    simp at h1
  rw [log_after h.log h.apart h.accepted f hj (r := 0) hacc.1 hex]
  exact hval f

/-- **C117, exporting nothing.** With `every-n-time-windows` below one nothing is written. -/
theorem C117_disabled (e : Exporter) (hw : e.everyIteration = false) (hn : e.freq < 1) :
    (e.writes schemes start as : List (Write σ)) = [] := by
  have hh : ∀ xs : List (Exp σ), history e xs = [] := by
    intro xs
    simp [history, hw, keep_false e hw hn]
  have key : ∀ (xs : List (Exp σ)), e.run [] xs = [] := by
    intro xs
    induction xs with
    | nil => rfl
    | cons x xs ih =>
      rw [Exporter.run, intermediate_records, hh, intermediate_writes, hh]
      simp only [records, data, List.flatMap_nil, List.append_nil, ih, List.nil_append]
      have : (e.exportSeries [] : List (Write σ)) = [] := by
        unfold Exporter.exportSeries; cases e.format <;> simp
      rw [this]; simp
  simp [Exporter.writes, Exporter.exportInitial, hn, key]

/-- The full series claim holds for exports every n time windows only. An exporter for every
iteration never completes a series file: at the end there is none, or, with `update-series`, one
that lists nothing but the initial state. -/
theorem C117_iteration_series (e : Exporter) (ha : Accepted e) (hw : e.everyIteration = true)
    (hf : e.format ≠ .csv) (hr : e.rank = 0) (f : Files σ) :
    f.after (e.writes schemes start as) e.seriesPath =
      if e.updateSeries = true ∧ 1 ≤ e.freq then some (.series [((seriesEntry e 0).2, 0)])
      else f e.seriesPath := by
  rw [Exporter.writes, after_append, after_none _ (run_series_iteration e ha hw _ _), initial_writes]
  by_cases hfr : e.freq < 1
  · have h1 : ¬ 1 ≤ e.freq := by omega
    simp [hfr, h1, initial, data, Files.after]
  · have h1 : 1 ≤ e.freq := by omega
    have hd : ∀ w ∈ data e (initial e start), w.path ≠ e.seriesPath := by
      intro w hw
      obtain ⟨y, -, hy⟩ := mem_data e hw
      exact outs_ne_series e ha hy
    cases hu : e.updateSeries
    · simp only [Bool.false_eq_true, false_and, if_false, List.append_nil]
      exact after_none f hd
    · simp only [hfr, not_false_eq_true, h1, and_self, if_true]
      have hrec : records e (initial e start) = [((seriesEntry e 0).2, 0)] := by
        rw [records_eq e ha hf (fun _ => hr), initial, if_neg hfr]; rfl
      rw [hrec, exportSeries_eq e hf (fun _ => hr) (by simp)]
      exact after_last f (by simp)

/-- Exporters do not disturb each other if their file names tell them apart: no `-` in names of
meshes, no `.` in names of participants, and a different location, mesh, participant or format. -/
theorem C117_apart (es : List Exporter) (hm : ∀ e ∈ es, '-' ∉ e.mesh) (hp : ∀ e ∈ es, '.' ∉ e.participant)
    (hd : ∀ i (hi : i < es.length) j (hj : j < es.length),
      (es[i].location, es[i].mesh, es[i].participant, es[i].format) =
        (es[j].location, es[j].mesh, es[j].participant, es[j].format) → i = j) : Apart es := by
  have forms : ∀ (e : Exporter) (p : Path), belongs e p → ∃ l x, p = e.path l x ∧ '.' ∉ l ∧
      ((x = e.ext ∨ x = e.parallelExt) ∨
        ((l = e.ext ∨ l = e.parallelExt) ∧ x = ['s', 'e', 'r', 'i', 'e', 's'])) := by
    rintro e p (rfl | ⟨k, rfl | rfl | ⟨r, -, rfl | rfl⟩⟩)
    · refine ⟨_, _, rfl, seriesPath_noDot e, .inr ⟨?_, rfl⟩⟩
      split_ifs
      exacts [.inr rfl, .inl rfl]
    · exact ⟨_, _, rfl, formatIndex_noDot e k, .inl (.inl rfl)⟩
    · exact ⟨_, _, rfl, formatIndex_noDot e k, .inl (.inr rfl)⟩
    · exact ⟨_, _, rfl, pieceLabel_noDot e k r, .inl (.inl rfl)⟩
    · exact ⟨_, _, rfl, csvLabel_noDot e k r, .inl (.inl rfl)⟩
  have same : ∀ {e e' : Exporter} {x : Name}, (x = e.ext ∨ x = e.parallelExt) →
      (x = e'.ext ∨ x = e'.parallelExt) → e.format = e'.format := by
    intro e e' x h h'
    rcases h with rfl | rfl <;> rcases h' with h' | h'
    · exact ext_inj e h'
    · exact absurd h' (ext_ne_parallelExt e e')
    · exact absurd h'.symm (ext_ne_parallelExt e' e)
    · simp only [Exporter.parallelExt, List.cons.injEq, true_and] at h'
      exact ext_inj e h'
  have noser : ∀ (e : Exporter), ¬ (['s', 'e', 'r', 'i', 'e', 's'] = e.ext ∨
      ['s', 'e', 'r', 'i', 'e', 's'] = e.parallelExt) := by
    rintro e (h | h)
    exacts [series_ne_ext e h, series_ne_parallelExt e h]
  intro i hi j hj p hpi hpj
  obtain ⟨l, x, h1, h2, h3⟩ := forms _ _ hpi
  obtain ⟨l', x', h1', h2', h3'⟩ := forms _ _ hpj
  have mi := List.getElem_mem hi
  have mj := List.getElem_mem hj
  obtain ⟨hloc, hmesh, hpart, rfl, rfl⟩ := path_inj₂ (hm _ mi) (hm _ mj) (hp _ mi) (hp _ mj) h2 h2'
    (h1.symm.trans h1')
  apply hd i hi j hj
  have hfmt : es[i].format = es[j].format := by
    rcases h3 with h3 | ⟨h3, h4⟩ <;> rcases h3' with h3' | ⟨h3', h4'⟩
    · exact same h3 h3'
    · subst h4'; exact absurd h3 (noser _)
    · subst h4; exact absurd h3' (noser _)
    · exact same h3 h3'
  rw [hloc, hmesh, hpart, hfmt]

end Verif.Export
