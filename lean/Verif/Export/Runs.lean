import Verif.Export.Lemmas

/-!
# Runs of all exporters on all ranks

Helper lemmas.
-/

set_option autoImplicit false

namespace Verif.Export

variable {σ : Type} (e : Exporter)

theorem writes_data {schemes : ℕ} (start : Instant σ) (as : List (Advance σ))
    (h : e.everyIteration = true ∨ (schemes = 1 ∧ Single as)) {p : Path} (hp : p ≠ e.seriesPath) :
    ((e.writes schemes start as).filter fun w => w.path = p) =
      (data e (exported e start as)).filter fun w => w.path = p := by
  rw [← exported_eq e start as h, data_append, Exporter.writes]
  simp only [List.filter_append]
  rw [run_data e _ _ hp, initial_writes, List.filter_append]
  congr 1
  rw [List.append_right_eq_self, List.filter_eq_nil_iff]
  intro w hw
  split_ifs at hw
  · have := (exportSeries_path e hw).1
    simp only [decide_eq_true_eq]
    rw [this]; exact fun h => hp h.symm
  · simp at hw

theorem exportSeries_tail {recs : Records} {w : Write σ} (h : w ∈ e.exportSeries recs) :
    ∃ l x, w.path = e.path l x ∧ Tail e e.rank l x := by
  obtain ⟨hp, hf, hr, -⟩ := exportSeries_path e h
  exact ⟨_, _, hp, .series hf hr⟩

/-- Everything an exporter writes is its series file or belongs to an exported state. -/
theorem writes_mem {schemes : ℕ} (start : Instant σ) (as : List (Advance σ)) {w : Write σ}
    (hw : w ∈ e.writes schemes start as) :
    (∃ recs, w ∈ (e.exportSeries recs : List (Write σ))) ∨
      w ∈ data e (initial e start ++ history e (exps 0 (List.replicate schemes 1) as)) := by
  rw [Exporter.writes, List.mem_append, initial_writes] at hw
  rw [data_append, List.mem_append]
  rcases hw with hw | hw
  · rw [List.mem_append] at hw
    rcases hw with hw | hw
    · exact .inr (.inl hw)
    · split_ifs at hw
      · exact .inl ⟨_, hw⟩
      · simp at hw
  · by_cases hp : w.path = e.seriesPath
    · have key : ∀ (xs : List (Exp σ)) (recs : Records), w ∈ e.run recs xs →
          (∃ recs, w ∈ (e.exportSeries recs : List (Write σ))) ∨ w ∈ data e (history e xs) := by
        intro xs
        induction xs with
        | nil => intro recs hw; simp [Exporter.run] at hw
        | cons x xs ih =>
          intro recs hw
          rw [Exporter.run, List.mem_append, intermediate_writes, List.mem_append] at hw
          rw [history_cons, data_append, List.mem_append]
          rcases hw with (hw | hw) | hw
          · exact .inr (.inl hw)
          · split_ifs at hw
            · exact .inl ⟨_, hw⟩
            · simp at hw
          · rcases ih _ hw with h | h
            · exact .inl h
            · exact .inr (.inr h)
      rcases key _ _ hw with h | h
      · exact .inl h
      · exact .inr (.inr h)
    · have : w ∈ (e.run (e.exportInitial start).1 (exps 0 (List.replicate schemes 1) as)).filter
          fun v => v.path = w.path := by simp [hw]
      rw [run_data e _ _ hp] at this
      exact .inr (.inr (List.mem_of_mem_filter this))

theorem mem_data {h : List (ℕ × ℚ × Instant σ)} {w : Write σ} (hw : w ∈ data e h) :
    ∃ x ∈ h, w ∈ e.outs x.1 x.2.2 := by
  simpa [data, List.mem_flatMap] using hw

theorem writes_tail (ha : Accepted e) {schemes : ℕ} (start : Instant σ) (as : List (Advance σ))
    {w : Write σ} (hw : w ∈ e.writes schemes start as) :
    ∃ l x, w.path = e.path l x ∧ Tail e e.rank l x := by
  rcases writes_mem e start as hw with ⟨recs, h⟩ | h
  · exact exportSeries_tail e h
  · obtain ⟨x, -, hx⟩ := mem_data e h
    obtain ⟨l, y, h1, h2, -⟩ := outs_tail e ha hx
    exact ⟨l, y, h1, h2⟩

theorem Tail.belongs {e : Exporter} {r : ℕ} (hr : r < e.size) {l x : Name} (h : Tail e r l x) :
    belongs e (e.path l x) := by
  cases h with
  | series => exact .inl rfl
  | serial k => exact .inr ⟨k, .inl rfl⟩
  | parallel k => exact .inr ⟨k, .inr (.inl rfl)⟩
  | piece k => exact .inr ⟨k, .inr (.inr ⟨r, hr, .inl rfl⟩)⟩
  | csv k => exact .inr ⟨k, .inr (.inr ⟨r, hr, .inr rfl⟩)⟩

theorem Tail.on {e : Exporter} {r s : ℕ} {l x : Name} (h : Tail (e.on s) r l x) : Tail e r l x := by
  cases h with
  | series h1 h2 => exact .series (e := e) h1 h2
  | serial k h1 => exact .serial (e := e) k h1
  | parallel k h1 h2 h3 => exact .parallel (e := e) k h1 h2 h3
  | piece k h1 h2 => exact .piece (e := e) k h1 h2
  | csv k h1 h2 => exact .csv (e := e) k h1 h2

theorem log_mem {es : List Exporter} {schemes size : ℕ} {start : Instant σ} {as : List (Advance σ)}
    {log : List ((ℕ × ℕ) × Write σ)} (hlog : Log es schemes size start as log)
    {w : (ℕ × ℕ) × Write σ} (hw : w ∈ log) : ∃ h : w.1.1 < es.length, w.1.2 < es[w.1.1].size ∧
      w.2 ∈ (es[w.1.1].on w.1.2).writes schemes start as := by
  obtain ⟨h, hr⟩ := hlog.labels w hw
  refine ⟨h, hr, ?_⟩
  rw [← hlog.order w.1.1 h w.1.2 hr, List.mem_map]
  exact ⟨w, by simp [hw], rfl⟩

/-- The content of a file that one rank writes for one exporter depends on that rank and exporter
only. -/
theorem log_after {es : List Exporter} {schemes size : ℕ} {start : Instant σ} {as : List (Advance σ)}
    {log : List ((ℕ × ℕ) × Write σ)} (hlog : Log es schemes size start as log) (hapart : Apart es)
    (hacc : ∀ e ∈ es, Accepted e) (f : Files σ) {i : ℕ} (hi : i < es.length) {r : ℕ}
    (hr : r < es[i].size) {p : Path} (hp : ∃ w ∈ (es[i].on r).writes schemes start as, w.path = p) :
    f.after (log.map (·.2)) p = f.after ((es[i].on r).writes schemes start as) p := by
  rw [← hlog.order i hi r hr]
  apply after_owner
  intro w hw hwp
  obtain ⟨hj, hs, hw'⟩ := log_mem hlog hw
  obtain ⟨v, hv, hvp⟩ := hp
  have acc : ∀ (j : ℕ) (hj : j < es.length) (s : ℕ), Accepted (es[j].on s) := fun j hj s =>
    hacc es[j] (List.getElem_mem hj)
  obtain ⟨l, x, h1, h2⟩ := writes_tail _ (acc _ hj _) start as hw'
  obtain ⟨l', x', h1', h2'⟩ := writes_tail _ (acc i hi r) start as hv
  have t := Tail.on h2
  have t' := Tail.on h2'
  have e1 : w.2.path = es[w.1.1].path l x := h1
  have e2 : v.path = es[i].path l' x' := h1'
  have hij : w.1.1 = i := by
    refine hapart w.1.1 hj i hi p ?_ ?_
    · rw [← hwp, e1]; exact t.belongs hs
    · rw [← hvp, e2]; exact t'.belongs hr
  obtain ⟨⟨j, s⟩, w⟩ := w
  simp only at hij
  subst hij
  have hsame : es[j].path l x = es[j].path l' x' := by rw [← e1, ← e2, hwp, hvp]
  obtain ⟨rfl, rfl⟩ := path_inj es[j] t.noDot t'.noDot hsame
  have hsr : s = r := by
    by_cases hpar : es[j].isParallel = true
    · exact Tail.rank (e := es[j]) (r := s) (s := r) t t' hpar
    · have h1 : es[j].size = 1 := by
        have h1 := (hacc es[j] (List.getElem_mem hj)).1
        simp only [Exporter.isParallel, decide_eq_true_eq] at hpar
        omega
      simp only at hs
      omega
  simp [hsr]

theorem outs_split {k : ℕ} {i : Instant σ} {w : Write σ} (hw : w ∈ e.outs k i) :
    ∃ u v, e.outs k i = u ++ w :: v ∧ ∀ x ∈ v, x.path ≠ w.path := by
  have hne : e.piecePath k e.rank ≠ e.parallelPath k := fun h =>
    ext_ne_parallelExt e e (path_inj e (pieceLabel_noDot e _ _) (formatIndex_noDot e _) h).2
  have hone : ∀ x : Write σ, e.outs k i = [x] → ∃ u v, e.outs k i = u ++ w :: v ∧
      ∀ x ∈ v, x.path ≠ w.path := by
    intro x hx
    rw [hx] at hw ⊢
    simp only [List.mem_singleton] at hw
    subst hw
    exact ⟨[], [], rfl, by simp⟩
  have hxml : ∀ (a : Write σ) (b : Write σ), e.outs k i = [a, b] → b.path ≠ a.path →
      ∃ u v, e.outs k i = u ++ w :: v ∧ ∀ x ∈ v, x.path ≠ w.path := by
    intro a b hab hne
    rw [hab] at hw ⊢
    simp only [List.mem_cons, List.not_mem_nil, or_false] at hw
    rcases hw with rfl | rfl
    · exact ⟨[], [b], rfl, by simpa using hne⟩
    · exact ⟨[a], [], rfl, by simp⟩
  have hnil : e.outs k i = [] → ∃ u v, e.outs k i = u ++ w :: v ∧ ∀ x ∈ v, x.path ≠ w.path := by
    intro h; rw [h] at hw; simp at hw
  cases hf : e.format
  · exact hone _ (by simp only [Exporter.outs, hf]; rfl)
  · cases hp : e.isParallel
    · exact hone _ (by simp only [Exporter.outs, hf, hp, Bool.false_eq_true, if_false]; rfl)
    · by_cases h0 : e.rank = 0 <;> cases h1 : isPartitionEmpty i.offsets e.rank
      · exact hxml _ _ (by simp only [Exporter.outs, hf, hp, if_true, h0] at *; simp [h1]; exact ⟨rfl, rfl⟩)
          (by simpa [h0] using hne)
      · exact hone _ (by simp only [Exporter.outs, hf, hp, if_true, h0] at *; simp [h1]; rfl)
      · exact hone _ (by simp only [Exporter.outs, hf, hp, if_true, h0] at *; simp [h1]; rfl)
      · exact hnil (by simp [Exporter.outs, hf, hp, h0, h1])
  · cases hp : e.isParallel
    · exact hone _ (by simp only [Exporter.outs, hf, hp, Bool.false_eq_true, if_false]; rfl)
    · by_cases h0 : e.rank = 0 <;> cases h1 : isPartitionEmpty i.offsets e.rank
      · exact hxml _ _ (by simp only [Exporter.outs, hf, hp, if_true, h0] at *; simp [h1]; exact ⟨rfl, rfl⟩)
          (by simpa [h0] using hne)
      · exact hone _ (by simp only [Exporter.outs, hf, hp, if_true, h0] at *; simp [h1]; rfl)
      · exact hone _ (by simp only [Exporter.outs, hf, hp, if_true, h0] at *; simp [h1]; rfl)
      · exact hnil (by simp [Exporter.outs, hf, hp, h0, h1])
  · cases hp : e.isParallel
    · exact hone _ (by simp only [Exporter.outs, hf, hp, Bool.false_eq_true, if_false]; rfl)
    · exact hone _ (by simp only [Exporter.outs, hf, hp, if_true]; rfl)

/-- Every file of an exported state stays as it was written. -/
theorem writes_outs (ha : Accepted e) {schemes : ℕ} {start : Instant σ} {as : List (Advance σ)}
    (h : e.everyIteration = true ∨ (schemes = 1 ∧ Single as)) (f : Files σ) {k : ℕ} {t : ℚ}
    {i : Instant σ} (hk : (k, t, i) ∈ exported e start as) {w : Write σ} (hw : w ∈ e.outs k i) :
    w ∈ e.writes schemes start as ∧
    f.after (e.writes schemes start as) w.path = some w.content := by
  have hfil := writes_data e start as h (outs_ne_series e ha hw)
  obtain ⟨u, v, huv, hv⟩ := outs_split e hw
  obtain ⟨a, b, hab⟩ := List.append_of_mem hk
  have hnd := exported_nodup e start as
  rw [hab] at hnd
  have hdata : data e (exported e start as) = (data e a ++ u) ++ w :: (v ++ data e b) := by
    rw [hab, data_append]
    simp [data, huv]
  constructor
  · have : w ∈ (data e (exported e start as)).filter fun x => x.path = w.path := by
      rw [hdata]; simp
    rw [← hfil] at this
    exact List.mem_of_mem_filter this
  · rw [after_congr f hfil, hdata]
    apply after_last
    intro x hx
    rw [List.mem_append] at hx
    rcases hx with hx | hx
    · exact hv x hx
    · obtain ⟨y, hy, hxy⟩ := mem_data e hx
      intro hp
      have hky := outs_index e ha hxy hw hp
      rw [List.map_append, List.map_cons, List.nodup_append] at hnd
      have h2 := (List.nodup_cons.1 hnd.2.1).1
      exact h2 (List.mem_map.2 ⟨y, hy, hky⟩)

/-! ### Series files -/

theorem exportSeries_eq (hf : e.format ≠ .csv) (hr : e.isParallel = true → e.rank = 0) {recs : Records}
    (hne : recs ≠ []) : (e.exportSeries recs : List (Write σ)) = [⟨e.seriesPath, .series recs⟩] := by
  have h1 : (e.isParallel && decide (0 < e.rank)) = false := by
    cases hp : e.isParallel
    · rfl
    · simp [hr hp]
  have h2 : recs.isEmpty = false := by simpa using hne
  unfold Exporter.exportSeries
  cases hff : e.format <;> simp_all

/-- After the last call has ended the coupling, the series file is complete. -/
theorem run_series_final (he : e.everyIteration = false) (hf : e.format ≠ .csv)
    (hr : e.isParallel = true → e.rank = 0) (recs : Records) (xs : List (Exp σ)) (x : Exp σ)
    (hx : x.final = true) (hne : recs ≠ []) (f : Files σ) :
    f.after (e.run recs (xs ++ [x])) e.seriesPath =
      some (.series (recs ++ records e (history e (xs ++ [x])))) := by
  have hh : history e (xs ++ [x]) = history e xs ++ history e [x] := List.filterMap_append
  rw [run_append, Exporter.run, Exporter.run, List.append_nil, intermediate_writes, hh, records_append,
    ← List.append_assoc]
  simp only [he, hx, Bool.not_false, Bool.true_or, Bool.and_self, if_true]
  rw [exportSeries_eq e hf hr (by simp [hne]), ← List.append_assoc]
  exact after_last f (by simp)

/-- With `update-series` the series file is always complete. -/
theorem run_series_update (he : e.everyIteration = false) (hu : e.updateSeries = true)
    (hf : e.format ≠ .csv) (hr : e.isParallel = true → e.rank = 0) (xs : List (Exp σ)) :
    ∀ (recs : Records) (_ : recs ≠ []) (f : Files σ), f e.seriesPath = some (.series recs) →
    f.after (e.run recs xs) e.seriesPath = some (.series (recs ++ records e (history e xs))) := by
  induction xs with
  | nil => intro recs _ f hf; simpa [Exporter.run, history, records, Files.after] using hf
  | cons x xs ih =>
    intro recs hne f hfs
    rw [Exporter.run, after_append, intermediate_records, history_cons e x xs, records_append,
      ← List.append_assoc]
    apply ih _ (by simp [hne])
    rw [intermediate_writes, he, hu]
    by_cases hc : (x.final || x.complete) = true
    · simp only [Bool.not_false, Bool.and_true, hc, if_true]
      rw [exportSeries_eq e hf hr (by simp [hne])]
      exact after_last f (by simp)
    · simp only [Bool.not_false, Bool.true_and, Bool.and_true, hc, Bool.false_eq_true, if_false,
        List.append_nil]
      have hx : x.complete = false := by
        rw [Bool.not_eq_true, Bool.or_eq_false_iff] at hc; exact hc.2
      have : history e [x] = [] := by simp [history, he, hx]
      rw [this]
      simpa [data, records, Files.after] using hfs

/-- Exporting every iteration never writes a series file. -/
theorem run_series_iteration (ha : Accepted e) (he : e.everyIteration = true) (xs : List (Exp σ))
    (recs : Records) : ∀ w ∈ e.run recs xs, w.path ≠ e.seriesPath := by
  induction xs generalizing recs with
  | nil => intro w hw; simp [Exporter.run] at hw
  | cons x xs ih =>
    intro w hw
    rw [Exporter.run, List.mem_append, intermediate_writes] at hw
    rcases hw with hw | hw
    · simp only [he, Bool.not_true, Bool.false_and, Bool.false_eq_true, if_false,
        List.append_nil] at hw
      obtain ⟨y, -, hy⟩ := mem_data e hw
      exact outs_ne_series e ha hy
    · exact ih _ w hw

end Verif.Export
