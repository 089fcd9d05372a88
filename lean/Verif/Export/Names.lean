import Verif.Export.Model

/-!
# File names of exporters

Helper lemmas: what the name of an exported file determines.
-/

set_option autoImplicit false

namespace Verif.Export

theorem split_inj {c : Char} : ∀ {a b x y : Name}, c ∉ a → c ∉ b → a ++ c :: x = b ++ c :: y →
    a = b ∧ x = y
  | [], [], _, _, _, _, h => by simpa using h
  | [], d :: b, _, _, _, hb, h => by
    simp only [List.nil_append, List.cons_append, List.cons.injEq] at h
    exact absurd (by simp [h.1]) hb
  | d :: a, [], _, _, ha, _, h => by
    simp only [List.nil_append, List.cons_append, List.cons.injEq] at h
    exact absurd (by simp [h.1]) ha
  | d :: a, d' :: b, x, y, ha, hb, h => by
    simp only [List.cons_append, List.cons.injEq] at h
    have := split_inj (a := a) (b := b) (fun hh => ha (by simp [hh])) (fun hh => hb (by simp [hh]))
      h.2
    exact ⟨by rw [h.1, this.1], this.2⟩

theorem digits_inj {m n : ℕ} (h : digits m = digits n) : m = n := by
  have := congrArg (fun l => Nat.ofDigitChars 10 l 0) h
  simpa [digits, Nat.ofDigitChars_ten_toDigits] using this

theorem digits_isDigit {n : ℕ} {c : Char} (h : c ∈ digits n) : c.isDigit :=
  Nat.isDigit_of_mem_toDigits (by decide) (by decide) h

theorem not_mem_digits {n : ℕ} {c : Char} (hc : c.isDigit = false) : c ∉ digits n := fun h => by
  have := digits_isDigit h
  simp [hc] at this

variable (e : Exporter)

theorem not_mem_formatIndex {index : ℕ} {c : Char} (hc : c.isDigit = false)
    (h : c ∉ ['i', 'n', 't', 'd']) : c ∉ e.formatIndex index := by
  unfold Exporter.formatIndex
  have := not_mem_digits (n := index) hc
  simp only [List.mem_cons, List.not_mem_nil, or_false, not_or] at h
  obtain ⟨h1, h2, h3, h4⟩ := h
  split_ifs <;> simp_all

theorem formatIndex_inj {i j : ℕ} (h : e.formatIndex i = e.formatIndex j) : i = j := by
  unfold Exporter.formatIndex at h
  by_cases hi : i = 0 <;> by_cases hj : j = 0 <;> simp only [hi, hj, if_true, if_false] at h
  · omega
  · cases hev : e.everyIteration <;> simp [hev] at h
  · cases hev : e.everyIteration <;> simp [hev] at h
  · have := List.append_cancel_left h
    exact digits_inj this

theorem ext_noDot : '.' ∉ e.ext := by
  unfold Exporter.ext
  cases e.format <;> decide

theorem parallelExt_noDot : '.' ∉ e.parallelExt := by
  unfold Exporter.parallelExt Exporter.ext
  cases e.format <;> decide

theorem formatIndex_noDot (i : ℕ) : '.' ∉ e.formatIndex i :=
  not_mem_formatIndex e (by decide) (by decide)

theorem pieceLabel_noDot (i r : ℕ) : '.' ∉ e.pieceLabel i r := by
  have h1 := formatIndex_noDot e i
  have h2 := not_mem_digits (n := r) (c := '.') (by decide)
  simp [Exporter.pieceLabel, h1, h2]

theorem csvLabel_noDot (i r : ℕ) : '.' ∉ e.csvLabel i r := by
  have h1 := formatIndex_noDot e i
  have h2 := not_mem_digits (n := r) (c := '.') (by decide)
  simp [Exporter.csvLabel, h1, h2]

theorem formatIndex_noUnderscore (i : ℕ) : '_' ∉ e.formatIndex i :=
  not_mem_formatIndex e (by decide) (by decide)

theorem pieceLabel_inj {i j r s : ℕ} (h : e.pieceLabel i r = e.pieceLabel j s) : i = j ∧ r = s := by
  have := split_inj (formatIndex_noUnderscore e i) (formatIndex_noUnderscore e j) h
  exact ⟨formatIndex_inj e this.1, digits_inj this.2⟩

theorem csvLabel_inj {i j r s : ℕ} (h : e.csvLabel i r = e.csvLabel j s) : i = j ∧ r = s := by
  have := split_inj (not_mem_digits (by decide)) (not_mem_digits (by decide)) h
  exact ⟨formatIndex_inj e this.2, digits_inj this.1⟩

theorem name_inj {l l' x x' : Name} (hl : '.' ∉ l) (hl' : '.' ∉ l') (h : e.name l x = e.name l' x') :
    l = l' ∧ x = x' := by
  unfold Exporter.name at h
  have h := List.append_cancel_left h
  rw [List.cons.injEq] at h
  have h := List.append_cancel_left h.2
  rw [List.cons.injEq] at h
  exact split_inj hl hl' h.2

theorem path_inj {l l' x x' : Name} (hl : '.' ∉ l) (hl' : '.' ∉ l') (h : e.path l x = e.path l' x') :
    l = l' ∧ x = x' := name_inj e hl hl' (Prod.ext_iff.1 h).2

/-- Mesh and participant can be told from the file name if the mesh has no `-` and the participant
no `.` in its name. -/
theorem path_inj₂ {e e' : Exporter} {l l' x x' : Name} (hm : '-' ∉ e.mesh) (hm' : '-' ∉ e'.mesh)
    (hp : '.' ∉ e.participant) (hp' : '.' ∉ e'.participant) (hl : '.' ∉ l) (hl' : '.' ∉ l')
    (h : e.path l x = e'.path l' x') :
    e.location = e'.location ∧ e.mesh = e'.mesh ∧ e.participant = e'.participant ∧ l = l' ∧ x = x' := by
  have h1 := (Prod.ext_iff.1 h).1
  have h2 := (Prod.ext_iff.1 h).2
  simp only [Exporter.path, Exporter.name] at h1 h2
  obtain ⟨hmesh, h2⟩ := split_inj hm hm' h2
  obtain ⟨hpart, h2⟩ := split_inj hp hp' h2
  obtain ⟨hlab, hext⟩ := split_inj hl hl' h2
  exact ⟨h1, hmesh, hpart, hlab, hext⟩

theorem series_ne_ext : ['s', 'e', 'r', 'i', 'e', 's'] ≠ e.ext := by
  unfold Exporter.ext; cases e.format <;> decide

theorem series_ne_parallelExt : ['s', 'e', 'r', 'i', 'e', 's'] ≠ e.parallelExt := by
  unfold Exporter.parallelExt Exporter.ext; cases e.format <;> decide

theorem ext_ne_parallelExt (e' : Exporter) : e.ext ≠ e'.parallelExt := by
  unfold Exporter.parallelExt Exporter.ext; cases e.format <;> cases e'.format <;> decide

theorem ext_inj {e' : Exporter} (h : e.ext = e'.ext) : e.format = e'.format := by
  unfold Exporter.ext at h; cases hf : e.format <;> cases hf' : e'.format <;> simp_all

/-- The files an exporter may write on one rank. -/
inductive Tail (e : Exporter) (r : ℕ) : Name → Name → Prop
  | series (h : e.format ≠ .csv) (hr : e.isParallel = true → r = 0) :
      Tail e r (if e.isParallel then e.parallelExt else e.ext) ['s', 'e', 'r', 'i', 'e', 's']
  | serial (index : ℕ) (h : e.isParallel = false) : Tail e r (e.formatIndex index) e.ext
  | parallel (index : ℕ) (h : e.isParallel = true) (hf : e.format ≠ .csv) (hr : r = 0) :
      Tail e r (e.formatIndex index) e.parallelExt
  | piece (index : ℕ) (h : e.isParallel = true) (hf : e.format ≠ .csv) :
      Tail e r (e.pieceLabel index r) e.ext
  | csv (index : ℕ) (h : e.isParallel = true) (hf : e.format = .csv) :
      Tail e r (e.csvLabel index r) e.ext

theorem Tail.noDot {e : Exporter} {r : ℕ} {l x : Name} (h : Tail e r l x) : '.' ∉ l := by
  cases h with
  | series => split_ifs; exacts [parallelExt_noDot e, ext_noDot e]
  | serial i => exact formatIndex_noDot e i
  | parallel i => exact formatIndex_noDot e i
  | piece i => exact pieceLabel_noDot e i r
  | csv i => exact csvLabel_noDot e i r

/-- Two ranks write the same file only in a serial run. -/
theorem Tail.rank {e : Exporter} {r s : ℕ} {l x : Name} (h : Tail e r l x) (h' : Tail e s l x)
    (hp : e.isParallel = true) : r = s := by
  generalize hl : l = l' at h'
  generalize hx : x = x' at h'
  have hu : ∀ i : ℕ, '_' ∉ e.formatIndex i := formatIndex_noUnderscore e
  cases h with
  | series hf hr =>
    cases h' with
    | series hf' hr' => rw [hr hp, hr' hp]
    | serial i h => exact absurd hx (series_ne_ext e)
    | parallel i h => exact absurd hx (series_ne_parallelExt e)
    | piece i h => exact absurd hx (series_ne_ext e)
    | csv i h => exact absurd hx (series_ne_ext e)
  | serial i h => simp [h] at hp
  | parallel i h hf hr =>
    cases h' with
    | series hf' hr' => exact absurd hx.symm (series_ne_parallelExt e)
    | serial i h => simp [h] at hp
    | parallel j h hf' hr' => rw [hr, hr']
    | piece j h => exact absurd hx.symm (ext_ne_parallelExt e e)
    | csv j h hf' => exact absurd hf' hf
  | piece i h hf =>
    cases h' with
    | series hf' hr' => exact absurd hx.symm (series_ne_ext e)
    | serial i h => simp [h] at hp
    | parallel j h hf' hr' => exact absurd hx (ext_ne_parallelExt e e)
    | piece j h => exact (pieceLabel_inj e hl).2
    | csv j h hf' => exact absurd hf' hf
  | csv i h hf =>
    cases h' with
    | series hf' hr' => exact absurd hx.symm (series_ne_ext e)
    | serial i h => simp [h] at hp
    | parallel j h hf' hr' => exact absurd hf hf'
    | piece j h hf' => exact absurd hf hf'
    | csv j h hf' => exact (csvLabel_inj e hl).2

/-- The format can be told from the file name. -/
theorem Tail.format {e e' : Exporter} {r s : ℕ} {l x : Name} (h : Tail e r l x)
    (h' : Tail e' s l x) : e.format = e'.format := by
  generalize hl : l = l' at h'
  generalize hx : x = x' at h'
  have hpe : ∀ {a b : Exporter}, a.parallelExt = b.parallelExt → a.format = b.format := by
    intro a b h
    simp only [Exporter.parallelExt, List.cons.injEq, true_and] at h
    exact ext_inj a h
  cases h with
  | series hf hr =>
    cases h' with
    | series hf' hr' =>
      split_ifs at hl
      · exact hpe hl
      · exact absurd hl.symm (ext_ne_parallelExt e' e)
      · exact absurd hl (ext_ne_parallelExt e e')
      · exact ext_inj e hl
    | serial i h => exact absurd hx (series_ne_ext e')
    | parallel i h => exact absurd hx (series_ne_parallelExt e')
    | piece i h => exact absurd hx (series_ne_ext e')
    | csv i h => exact absurd hx (series_ne_ext e')
  | serial i h =>
    cases h' with
    | series hf' hr' => exact absurd hx.symm (series_ne_ext e)
    | serial i h => exact ext_inj e hx
    | parallel j h hf' hr' => exact absurd hx (ext_ne_parallelExt e e')
    | piece j h => exact ext_inj e hx
    | csv j h hf' => exact ext_inj e hx
  | parallel i h hf hr =>
    cases h' with
    | series hf' hr' => exact absurd hx.symm (series_ne_parallelExt e)
    | serial i h => exact absurd hx.symm (ext_ne_parallelExt e' e)
    | parallel j h hf' hr' => exact hpe hx
    | piece j h => exact absurd hx.symm (ext_ne_parallelExt e' e)
    | csv j h hf' => exact absurd hx.symm (ext_ne_parallelExt e' e)
  | piece i h hf =>
    cases h' with
    | series hf' hr' => exact absurd hx.symm (series_ne_ext e)
    | serial i h => exact ext_inj e hx
    | parallel j h hf' hr' => exact absurd hx (ext_ne_parallelExt e e')
    | piece j h => exact ext_inj e hx
    | csv j h hf' => exact ext_inj e hx
  | csv i h hf =>
    cases h' with
    | series hf' hr' => exact absurd hx.symm (series_ne_ext e)
    | serial i h => exact ext_inj e hx
    | parallel j h hf' hr' => exact absurd hx (ext_ne_parallelExt e e')
    | piece j h => exact ext_inj e hx
    | csv j h hf' => exact ext_inj e hx

end Verif.Export
