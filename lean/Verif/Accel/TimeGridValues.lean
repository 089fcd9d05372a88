import Verif.Accel.TimeGridProps

/-!
# Quasi-Newton acceleration: values at the times of the grid (C105)
-/

set_option autoImplicit false

namespace Verif.TimeGrid

open DataPath

/-! ## Specification -/

/-- The values of a field at the times of its grid, one after the other. -/
def blocks (q : Bspline.Solver) (old : Bool) (start : ℚ) (f : Field) : List (Option (List ℚ)) :=
  (gridAfter start f.grid).map (sampleAt q f.size f.degree (if old then f.previous else f.samples))

/-- Where the values of the `k`th field start in the long vector. -/
def offsetOf (start : ℚ) (l : List Field) (k : ℕ) : ℕ := unknowns start (l.take k)

/-- The samples that a field gets from the long vector: its part begins at `offset`. -/
def part (start : ℚ) (v : List ℚ) (f : Field) (offset : ℕ) : Samples (List ℚ) :=
  (gridAfter start f.grid).mapIdx fun i t => (t, (v.drop (offset + i * f.size)).take f.size)

/-! ## Sampling -/

theorem mapM_length {α β : Type} {f : α → Option β} {l : List α} {r : List β} (h : l.mapM f = some r) : r.length = l.length := by
  induction l generalizing r with
  | nil => simp at h; simp [← h]
  | cons a l ih =>
    rw [List.mapM_cons] at h
    cases ha : f a with
    | none => simp [ha] at h
    | some b =>
      cases hl : l.mapM f with
      | none => simp [ha, hl] at h
      | some r' =>
        simp only [ha, hl, Option.pure_def, Option.bind_eq_bind, Option.bind_some, Option.some.injEq] at h
        rw [← h, List.length_cons, ih hl, List.length_cons]

theorem mapM_some {α β : Type} {f : α → Option β} {g : α → β} {l : List α} (h : ∀ a ∈ l, f a = some (g a)) : l.mapM f = some (l.map g) := by
  induction l with
  | nil => rfl
  | cons a l ih => rw [List.mapM_cons, h a (by simp), ih fun x hx => h x (by simp [hx])]; rfl

theorem sampleAt_length {q : Bspline.Solver} {size degree : ℕ} {l : Samples (List ℚ)} {t : ℚ} {x : List ℚ}
    (h : sampleAt q size degree l t = some x) : x.length = size := by
  have := mapM_length h
  simpa using this

/-- Sampling succeeds up to the last sample. -/
theorem sampleAt_ok (q : Bspline.Solver) (size degree : ℕ) {l : Samples (List ℚ)} {t : ℚ} (hne : l ≠ [])
    (h : (∃ s, l = [s]) ∨ ∃ s ∈ l, t ≤ s.1) : ∃ x, sampleAt q size degree l t = some x := by
  have htol := tol_pos
  have hr : ∀ j, ∃ y, (component degree j l).read q t = some y := by
    intro j
    unfold Waveform.read Waveform.sample component
    rw [if_neg (by simpa using hne)]
    dsimp only
    split
    · rcases h with ⟨s, rfl⟩ | ⟨s, hs, hts⟩
      · exact ⟨_, rfl⟩
      · unfold Waveform.atOrAfter
        dsimp only
        split
        · exact ⟨_, rfl⟩
        · obtain ⟨a, ha⟩ : ∃ a, (l.map fun s => (s.1, s.2.getD j 0)).find? (fun s => decide (greaterEquals s.1 t)) = some a := by
            rw [← Option.isSome_iff_exists, List.find?_isSome]
            refine ⟨(s.1, s.2.getD j 0), List.mem_map_of_mem hs, ?_⟩
            rw [decide_eq_true_eq]
            unfold greaterEquals
            linarith
          rw [ha]
          exact ⟨_, rfl⟩
    · split
      · exact ⟨_, rfl⟩
      · exact ⟨_, rfl⟩
  choose g hg using hr
  exact ⟨_, mapM_some fun j _ => hg j⟩

theorem component_spaced {degree j : ℕ} {l : Samples (List ℚ)} (h : l.Pairwise fun a b => a.1 + tol < b.1) :
    Waveform.Spaced (component degree j l).samples := by
  unfold Waveform.Spaced component
  rw [List.pairwise_map]
  exact h

/-- At the time of a sample its values are returned. -/
theorem sampleAt_stored (q : Bspline.Solver) {size : ℕ} (degree : ℕ) {l : Samples (List ℚ)} (h : l.Pairwise fun a b => a.1 + tol < b.1)
    {s : ℚ × List ℚ} (hs : s ∈ l) (hl : s.2.length = size) : sampleAt q size degree l s.1 = some s.2 := by
  have htol := tol_pos
  have hr : ∀ j, (component degree j l).read q s.1 = some (s.2.getD j 0) := by
    intro j
    have hsp := component_spaced (degree := degree) (j := j) h
    have hm : ((s.1, s.2.getD j 0) : ℚ × ℚ) ∈ (component degree j l).samples := List.mem_map.2 ⟨s, hs, rfl⟩
    unfold Waveform.read Waveform.sample
    rw [if_neg (List.ne_nil_of_mem hm)]
    split
    · have : (component degree j l).atOrAfter s.1 = some (s.2.getD j 0) := by
        unfold Waveform.atOrAfter
        split
        · next a ha => rw [ha, List.mem_singleton] at hm; rw [← hm]
        · rw [Waveform.find_of_mem hsp hm (by linarith) fun a _ h => h]; rfl
      rw [this]; rfl
    · rw [Waveform.findStored_of_mem hsp hm]; rfl
  unfold sampleAt
  rw [mapM_some fun j _ => hr j]
  congr 1
  apply List.ext_getElem
  · simp [hl]
  · intro i h1 h2
    simp [List.getElem?_eq_getElem h2]

/-! ## Gathering -/

theorem put_append {a x b c : List ℚ} (hb : x.length = b.length) : put a.length x (a ++ b ++ c) = some (a ++ x ++ c) := by
  unfold put
  rw [if_pos (by simp [hb])]
  have h1 : (a ++ b ++ c).take a.length = a := by rw [List.append_assoc, List.take_left]
  have h2 : (a ++ b ++ c).drop (a.length + x.length) = c := by rw [hb, ← List.length_append, List.drop_left]
  rw [h1, h2]

theorem gatherTimes_ok {sample : ℚ → Option (List ℚ)} {times : List ℚ} {xs : List (List ℚ)} (h : times.map sample = xs.map some)
    (a b c : List ℚ) (hb : b.length = xs.flatten.length) :
    gatherTimes sample times (a ++ b ++ c, a.length) = some (a ++ xs.flatten ++ c, a.length + b.length) := by
  induction times generalizing xs a b with
  | nil =>
    cases xs with
    | cons x xs => simp at h
    | nil =>
      have : b = [] := by simpa using hb
      subst this
      rfl
  | cons t times ih =>
    cases xs with
    | nil => simp at h
    | cons x xs =>
      simp only [List.map_cons, List.cons.injEq] at h
      have hlen : b.length = x.length + xs.flatten.length := by simpa using hb
      have hsplit : a ++ b ++ c = a ++ b.take x.length ++ (b.drop x.length ++ c) := by
        rw [List.append_assoc, List.append_assoc, ← List.append_assoc (b.take _), List.take_append_drop]
      unfold gatherTimes
      rw [h.1, hsplit]
      simp only [bind, Option.bind]
      rw [put_append (by rw [List.length_take]; omega)]
      have e : a ++ x ++ (b.drop x.length ++ c) = (a ++ x) ++ b.drop x.length ++ c := by simp
      have := ih h.2 (a ++ x) (b.drop x.length) (by rw [List.length_drop]; omega)
      rw [e]
      simp only [← List.length_append]
      rw [this]
      simp only [List.flatten_cons, List.append_assoc, List.length_append, List.length_drop]
      congr 2
      omega

theorem flatten_length {xs : List (List ℚ)} {n : ℕ} (h : ∀ x ∈ xs, x.length = n) : xs.flatten.length = xs.length * n := by
  induction xs with
  | nil => simp
  | cons x xs ih =>
    rw [List.flatten_cons, List.length_append, h x (by simp), ih fun y hy => h y (by simp [hy]), List.length_cons]
    ring

theorem gather_ok {q : Bspline.Solver} {old : Bool} {start : ℚ} {l : List Field} {xs : List (List (List ℚ))}
    (h : l.map (blocks q old start) = xs.map fun b => b.map some) (a b c : List ℚ) (hb : b.length = unknowns start l) :
    gather q old start l (a ++ b ++ c, a.length) = some (a ++ xs.flatten.flatten ++ c, a.length + b.length) ∧
      xs.flatten.flatten.length = unknowns start l := by
  induction l generalizing xs a b with
  | nil =>
    cases xs with
    | cons x xs => simp at h
    | nil =>
      have : b = [] := by simpa [unknowns] using hb
      subst this
      exact ⟨rfl, rfl⟩
  | cons f l ih =>
    cases xs with
    | nil => simp at h
    | cons x xs =>
      simp only [List.map_cons, List.cons.injEq] at h
      have hx : ∀ y ∈ x, y.length = f.size := by
        intro y hy
        have : some y ∈ blocks q old start f := by rw [h.1]; exact List.mem_map_of_mem hy
        unfold blocks at this
        obtain ⟨t, -, ht⟩ := List.mem_map.1 this
        exact sampleAt_length ht
      have hn : x.flatten.length = (gridAfter start f.grid).length * f.size := by
        rw [flatten_length hx]
        congr 1
        have := congrArg List.length h.1
        simpa [blocks] using this.symm
      have hu : unknowns start (f :: l) = x.flatten.length + unknowns start l := by
        unfold unknowns
        rw [List.map_cons, List.sum_cons, hn]
      rw [hu] at hb
      have hsplit : a ++ b ++ c = a ++ b.take x.flatten.length ++ (b.drop x.flatten.length ++ c) := by
        rw [List.append_assoc, List.append_assoc, ← List.append_assoc (b.take _), List.take_append_drop]
      have h1 := gatherTimes_ok (sample := sampleAt q f.size f.degree (if old then f.previous else f.samples)) h.1 a (b.take x.flatten.length)
        (b.drop x.flatten.length ++ c) (by rw [List.length_take]; omega)
      have h2 := ih h.2 (a ++ x.flatten) (b.drop x.flatten.length) (by rw [List.length_drop]; omega)
      refine ⟨?_, by rw [hu, ← h2.2]; simp⟩
      unfold gather
      rw [hsplit, h1]
      simp only [bind, Option.bind]
      have e : a ++ x.flatten ++ (b.drop x.flatten.length ++ c) = (a ++ x.flatten) ++ b.drop x.flatten.length ++ c := by simp
      have e' : a.length + (b.take x.flatten.length).length = (a ++ x.flatten).length := by
        rw [List.length_append, List.length_take]; omega
      rw [e, e', h2.1]
      simp only [List.flatten_cons, List.flatten_append, List.append_assoc, List.length_append, List.length_drop]
      congr 2
      omega

/-! ## Storing -/

theorem storeTimes_ok {size : ℕ} {v : List ℚ} {times : List ℚ} {s : Samples (List ℚ)} {offset : ℕ}
    (hg : times.Pairwise fun a b => a + tol < b) (hs : ∀ e ∈ s, ∀ t ∈ times, e.1 + tol < t) (hlen : offset + times.length * size ≤ v.length) :
    storeTimes size v times (s, offset) =
      .ok (s ++ times.mapIdx fun i t => (t, (v.drop (offset + i * size)).take size), offset + times.length * size) := by
  induction times generalizing s offset with
  | nil => simp [storeTimes]
  | cons t times ih =>
    rw [List.length_cons] at hlen
    rw [List.pairwise_cons] at hg
    have h0 : offset + size + times.length * size ≤ v.length := by
      calc offset + size + times.length * size = offset + (times.length + 1) * size := by ring
        _ ≤ _ := hlen
    unfold storeTimes
    rw [if_pos (by omega), setSample_append fun e he => hs e he t (by simp)]
    simp only [bind, Except.bind]
    rw [ih hg.2 (by
      intro e he x hx
      rcases List.mem_append.1 he with he | he
      · exact hs e he x (by simp [hx])
      · rw [List.mem_singleton] at he
        subst he
        exact hg.1 x hx) h0]
    simp only [List.mapIdx_cons, List.append_assoc, List.singleton_append, Nat.zero_mul, Nat.add_zero, List.length_cons]
    have e1 : (fun (i : ℕ) (x : ℚ) => (x, (v.drop (offset + size + i * size)).take size)) =
        fun i x => (x, (v.drop (offset + (i + 1) * size)).take size) := by
      funext i x
      rw [show offset + size + i * size = offset + (i + 1) * size by ring]
    have e2 : offset + size + times.length * size = offset + (times.length + 1) * size := by ring
    rw [e1, e2]

/-- The times of the grid of a field are spaced and its samples of the window start come before them. -/
def Spread (start : ℚ) (f : Field) : Prop :=
  (gridAfter start f.grid).Pairwise (fun a b => a + tol < b) ∧
    ∀ e ∈ trimAfter start f.samples, ∀ t ∈ gridAfter start f.grid, e.1 + tol < t

theorem update_ok {start : ℚ} {v : List ℚ} {l : List Field} {offset : ℕ} (hs : ∀ f ∈ l, Spread start f)
    (hlen : offset + unknowns start l ≤ v.length) :
    ∃ r : List Field, update start v l offset = .ok r ∧ r.length = l.length ∧
      ∀ (k : ℕ) (f : Field), l[k]? = some f →
        r[k]? = some { f with samples := trimAfter start f.samples ++ part start v f (offset + offsetOf start l k) } := by
  induction l generalizing offset with
  | nil => exact ⟨[], rfl, rfl, by simp⟩
  | cons f l ih =>
    have hu : unknowns start (f :: l) = (gridAfter start f.grid).length * f.size + unknowns start l := by
      unfold unknowns
      rw [List.map_cons, List.sum_cons]
    rw [hu] at hlen
    obtain ⟨r, h1, h2, h3⟩ := ih (offset := offset + (gridAfter start f.grid).length * f.size) (fun x hx => hs x (by simp [hx])) (by omega)
    have hf := hs f (by simp)
    refine ⟨{ f with samples := trimAfter start f.samples ++ part start v f offset } :: r, ?_, ?_, ?_⟩
    · unfold update
      rw [storeTimes_ok hf.1 hf.2 (by omega)]
      simp only [bind, Except.bind, h1]
      rfl
    · simp [h2]
    · intro k x hk
      cases k with
      | zero =>
        simp only [List.getElem?_cons_zero, Option.some.injEq] at hk
        subst hk
        simp [part, offsetOf, unknowns]
      | succ k =>
        rw [List.getElem?_cons_succ] at hk
        rw [List.getElem?_cons_succ, h3 k x hk]
        have : offsetOf start (f :: l) (k + 1) = (gridAfter start f.grid).length * f.size + offsetOf start l k := by
          unfold offsetOf
          rw [List.take_succ_cons]
          unfold unknowns
          rw [List.map_cons, List.sum_cons]
        rw [this, Nat.add_assoc]

/-! ## Theorems -/

/-- The storages of a field that are sampled have a sample at or after every time of the grid, or just one sample. -/
def Samplable (old : Bool) (start : ℚ) (f : Field) : Prop :=
  (∃ s, (if old then f.previous else f.samples) = [s]) ∨
    ∀ t ∈ gridAfter start f.grid, ∃ s ∈ (if old then f.previous else f.samples), t ≤ s.1

/-- **C105, sampled values.** The vector of unknowns consists of the values of all data at the times of their grids, in order; it has room for exactly these. -/
theorem C105_gathered (q : Bspline.Solver) {old : Bool} {start : ℚ} {l : List Field} (h : ∀ f ∈ l, Samplable old start f) :
    ∃ xs : List (List (List ℚ)), l.map (blocks q old start) = xs.map (fun b => b.map some) ∧
      concatenate q old start (unknowns start l) l = some xs.flatten.flatten ∧ xs.flatten.flatten.length = unknowns start l := by
  have hb : ∀ f ∈ l, ∃ x : List (List ℚ), blocks q old start f = x.map some := by
    intro f hf
    have hall : ∀ t ∈ gridAfter start f.grid, ∃ x, sampleAt q f.size f.degree (if old then f.previous else f.samples) t = some x := by
      intro t ht
      rcases h f hf with ⟨s, hs⟩ | hs
      · exact sampleAt_ok q _ _ (by rw [hs]; simp) (.inl ⟨s, hs⟩)
      · obtain ⟨s, hs, hts⟩ := hs t ht
        exact sampleAt_ok q _ _ (List.ne_nil_of_mem hs) (.inr ⟨s, hs, hts⟩)
    unfold blocks
    clear h
    revert hall
    induction gridAfter start f.grid with
    | nil => exact fun _ => ⟨[], rfl⟩
    | cons t times ih =>
      intro hall
      obtain ⟨x, hx⟩ := hall t (by simp)
      obtain ⟨xs, hxs⟩ := ih fun t ht => hall t (by simp [ht])
      exact ⟨x :: xs, by simp [hx, hxs]⟩
  obtain ⟨xs, hxs⟩ : ∃ xs : List (List (List ℚ)), l.map (blocks q old start) = xs.map fun b => b.map some := by
    clear h
    induction l with
    | nil => exact ⟨[], rfl⟩
    | cons f l ih =>
      obtain ⟨x, hx⟩ := hb f (by simp)
      obtain ⟨xs, hxs⟩ := ih fun f hf => hb f (by simp [hf])
      exact ⟨x :: xs, by simp [hx, hxs]⟩
  have hg := gather_ok hxs [] (List.replicate (unknowns start l) 0) [] (by simp)
  refine ⟨xs, hxs, ?_, hg.2⟩
  unfold concatenate
  have e : ([] : List ℚ) ++ List.replicate (unknowns start l) 0 ++ [] = List.replicate (unknowns start l) 0 := by simp
  rw [e] at hg
  rw [show (0 : ℕ) = ([] : List ℚ).length from rfl, hg.1]
  simp

/-- **C105, stored values.** Each data gets its part of the accelerated vector, at the times of its grid, behind the start of the window; no access is outside
the vector and no sample is refused. -/
theorem C105_stored {start : ℚ} {v : List ℚ} {l : List Field} (hs : ∀ f ∈ l, Spread start f) (hlen : v.length = unknowns start l) :
    ∃ r : List Field, update start v l 0 = .ok r ∧ r.length = l.length ∧
      ∀ (k : ℕ) (f : Field), l[k]? = some f →
        r[k]? = some { f with samples := trimAfter start f.samples ++ part start v f (offsetOf start l k) } := by
  obtain ⟨r, h1, h2, h3⟩ := update_ok (v := v) (offset := 0) hs (by omega)
  exact ⟨r, h1, h2, fun k f hk => by simpa using h3 k f hk⟩

theorem part_block {size : ℕ} {times : List ℚ} {x : List (List ℚ)} {v : List ℚ} (a c : List ℚ) (hx : ∀ y ∈ x, y.length = size)
    (hl : times.length = x.length) (hv : v = a ++ x.flatten ++ c) :
    (times.mapIdx fun i t => (t, (v.drop (a.length + i * size)).take size)) = times.zip x := by
  subst hv
  induction times generalizing x a with
  | nil => simp
  | cons t times ih =>
    cases x with
    | nil => simp at hl
    | cons y x =>
      have hy := hx y (by simp)
      have := ih (x := x) (a ++ y) (fun z hz => hx z (by simp [hz])) (by simpa using hl)
      rw [List.mapIdx_cons, List.zip_cons_cons]
      congr 1
      · simp [← hy]
      · rw [← this]
        have e1 : a ++ (y :: x).flatten ++ c = a ++ y ++ x.flatten ++ c := by simp
        rw [e1]
        congr 1
        funext i s
        rw [List.length_append, hy, show a.length + (i + 1) * size = a.length + size + i * size by ring]

theorem gathered_part {q : Bspline.Solver} {old : Bool} {start : ℚ} {l : List Field} {xs : List (List (List ℚ))}
    (h : l.map (blocks q old start) = xs.map fun b => b.map some) {k : ℕ} {f : Field} {x : List (List ℚ)} (hk : l[k]? = some f)
    (hx : xs[k]? = some x) : part start xs.flatten.flatten f (offsetOf start l k) = (gridAfter start f.grid).zip x := by
  have hkl : k < l.length := (List.getElem?_eq_some_iff.1 hk).1
  have hkx : k < xs.length := (List.getElem?_eq_some_iff.1 hx).1
  have hb : blocks q old start f = x.map some := by
    have := congrArg (fun l => l[k]?) h
    simpa [hk, hx] using this
  have hsz : ∀ y ∈ x, y.length = f.size := by
    intro y hy
    have : some y ∈ blocks q old start f := by rw [hb]; exact List.mem_map_of_mem hy
    unfold blocks at this
    obtain ⟨t, -, ht⟩ := List.mem_map.1 this
    exact sampleAt_length ht
  have hlen : (gridAfter start f.grid).length = x.length := by
    have := congrArg List.length hb
    simpa [blocks] using this
  have hoff : offsetOf start l k = (xs.take k).flatten.flatten.length := by
    have ht : (l.take k).map (blocks q old start) = (xs.take k).map fun b => b.map some := by
      rw [List.map_take, List.map_take, h]
    exact ((gather_ok ht [] (List.replicate (unknowns start (l.take k)) 0) [] (by simp)).2).symm
  have hsplit : xs.flatten.flatten = (xs.take k).flatten.flatten ++ x.flatten ++ (xs.drop (k + 1)).flatten.flatten := by
    conv_lhs => rw [← List.take_append_drop k xs, List.drop_eq_getElem_cons hkx]
    have : xs[k] = x := by rw [List.getElem?_eq_getElem hkx, Option.some.injEq] at hx; exact hx
    rw [this]
    simp
  unfold part
  rw [hoff]
  exact part_block _ _ hsz hlen hsplit

/-- Values that the method does not change are stored as they were sampled, each at its own time in its own data. -/
theorem C105_round_trip (q : Bspline.Solver) {start : ℚ} {l : List Field} (hs : ∀ f ∈ l, Spread start f) (h : ∀ f ∈ l, Samplable false start f) :
    ∃ v r, concatenate q false start (unknowns start l) l = some v ∧ update start v l 0 = .ok r ∧ r.length = l.length ∧
      ∀ (k : ℕ) (f : Field), l[k]? = some f → ∃ x : List (List ℚ),
        (gridAfter start f.grid).map (sampleAt q f.size f.degree f.samples) = x.map some ∧
        r[k]? = some { f with samples := trimAfter start f.samples ++ (gridAfter start f.grid).zip x } := by
  obtain ⟨xs, h1, h2, h3⟩ := C105_gathered q h
  obtain ⟨r, h4, h5, h6⟩ := C105_stored hs h3
  refine ⟨_, r, h2, h4, h5, fun k f hk => ?_⟩
  have hkl : k < l.length := (List.getElem?_eq_some_iff.1 hk).1
  have hkx : k < xs.length := by
    have := congrArg List.length h1
    simp only [List.length_map] at this
    omega
  have hx : xs[k]? = some xs[k] := List.getElem?_eq_getElem hkx
  refine ⟨xs[k], ?_, by rw [h6 k f hk, gathered_part h1 hk hx]⟩
  have := congrArg (fun l => l[k]?) h1
  simp only [List.getElem?_map, hk, hx, Option.map_some, Option.some.injEq] at this
  exact this

theorem split_at {start : ℚ} {l : Samples (List ℚ)} (h : l.Pairwise fun a b => a.1 + tol < b.1) :
    trimAfter start l ++ l.filter (fun s => decide (greater s.1 start)) = l := by
  have htol := tol_pos
  unfold trimAfter
  induction l with
  | nil => rfl
  | cons a l ih =>
    rw [List.pairwise_cons] at h
    by_cases ha : greater a.1 start
    · have : ∀ b ∈ l, greater b.1 start := fun b hb => by
        have := h.1 b hb
        unfold greater at ha ⊢
        linarith
      rw [List.filter_eq_nil_iff.2, List.filter_eq_self.2]
      · rfl
      · intro b hb
        rcases List.mem_cons.1 hb with rfl | hb
        · simpa using ha
        · simpa using this b hb
      · intro b hb
        rcases List.mem_cons.1 hb with rfl | hb
        · simpa using ha
        · simpa using this b hb
    · rw [List.filter_cons_of_pos (by simpa using ha), List.filter_cons_of_neg (by simpa using ha), List.cons_append, ih h.2]

/-- **C105, no loss.** If the data have samples at the times of the grid, the method gets the samples themselves and a vector that it does not change leaves the data
as they were. -/
theorem C105_unchanged (q : Bspline.Solver) {start : ℚ} {l : List Field} (hsp : ∀ f ∈ l, f.samples.Pairwise fun a b => a.1 + tol < b.1)
    (hsize : ∀ f ∈ l, ∀ s ∈ f.samples, s.2.length = f.size)
    (hgrid : ∀ f ∈ l, gridAfter start f.grid = (f.samples.filter fun s => decide (greater s.1 start)).map (·.1)) :
    ∃ v, concatenate q false start (unknowns start l) l = some v ∧ update start v l 0 = .ok l := by
  have hmem : ∀ f ∈ l, ∀ t ∈ gridAfter start f.grid, ∃ s ∈ f.samples, s.1 = t := by
    intro f hf t ht
    rw [hgrid f hf] at ht
    obtain ⟨s, hs, rfl⟩ := List.mem_map.1 ht
    exact ⟨s, (List.mem_filter.1 hs).1, rfl⟩
  obtain ⟨v, r, h1, h2, h3, h4⟩ := C105_round_trip q (start := start) (l := l)
    (by
      intro f hf
      unfold Spread
      have hp := hsp f hf
      rw [← split_at (start := start) hp, List.pairwise_append] at hp
      rw [hgrid f hf]
      refine ⟨by rw [List.pairwise_map]; exact hp.2.1, ?_⟩
      intro e he t ht
      obtain ⟨s, hs, rfl⟩ := List.mem_map.1 ht
      exact hp.2.2 e he s hs)
    (fun f hf => .inr fun t ht => by
      obtain ⟨s, hs, rfl⟩ := hmem f hf t ht
      exact ⟨s, hs, le_rfl⟩)
  refine ⟨v, h1, ?_⟩
  rw [h2]
  congr 1
  apply List.ext_getElem? fun k => ?_
  by_cases hk : k < l.length
  · have hl : l[k]? = some l[k] := List.getElem?_eq_getElem hk
    have hf : l[k] ∈ l := List.getElem_mem hk
    obtain ⟨x, hx, hr⟩ := h4 k l[k] hl
    rw [hr, hl]
    congr 1
    have hz : (gridAfter start l[k].grid).zip x = l[k].samples.filter fun s => decide (greater s.1 start) := by
      have hx' : x = (l[k].samples.filter fun s => decide (greater s.1 start)).map (·.2) := by
        have : (gridAfter start l[k].grid).map (sampleAt q l[k].size l[k].degree l[k].samples) =
            ((l[k].samples.filter fun s => decide (greater s.1 start)).map (·.2)).map some := by
          rw [hgrid _ hf, List.map_map, List.map_map]
          refine List.map_congr_left fun s hs => ?_
          have hs' := (List.mem_filter.1 hs).1
          exact sampleAt_stored q _ (hsp _ hf) hs' (hsize _ hf s hs')
        rw [hx] at this
        exact List.map_injective_iff.2 (Option.some_injective _) this
      rw [hx', hgrid _ hf, List.zip_map']
      exact List.map_id _
    rw [hz, split_at (hsp _ hf)]
  · rw [List.getElem?_eq_none (by omega), List.getElem?_eq_none (by omega)]

theorem part_times (start : ℚ) (v : List ℚ) (f : Field) (offset : ℕ) : (part start v f offset).map (·.1) = gridAfter start f.grid := by
  unfold part
  apply List.ext_getElem?
  intro i
  rw [List.getElem?_map, List.getElem?_mapIdx]
  cases (gridAfter start f.grid)[i]? <;> rfl

/-- The samples stored by the acceleration are those that C104 expects from an acceleration: spaced, and up to the end of the window. -/
theorem C105_covers {ref w : Window} {t : ℚ} {v : List ℚ} {f : Field} (offset : ℕ) (hr : Valid ref) (hw : w.start < w.stop)
    (hg : gridAfter w.start f.grid = expected ref w) (hgap : (expected ref w).Pairwise fun a b => a + 2 * tol < b)
    (ht : ∀ b ∈ expected ref w, t + 2 * tol < b) : Covers t w.stop (part w.start v f offset) := by
  have hp := part_times w.start v f offset
  rw [hg] at hp
  refine ⟨fun b hb => ht _ (by rw [← hp]; exact List.mem_map_of_mem hb), ?_, ?_⟩
  · have : ((part w.start v f offset).map (·.1)).Pairwise fun a b => a + 2 * tol < b := by rw [hp]; exact hgap
    exact List.pairwise_map.1 this
  · have hl := (C105_inside hr hw).2.2
    rw [← hp] at hl
    rcases List.eq_nil_or_concat (part w.start v f offset) with h | ⟨k, b, h⟩
    · rw [h] at hl; simp at hl
    · rw [h, List.concat_eq_append] at hl ⊢
      simp only [List.map_append, List.map_cons, List.map_nil, List.getLast?_append, List.getLast?_singleton, Option.some_or,
        Option.some.injEq] at hl
      exact ⟨k, b.2, by rw [← hl]⟩

end Verif.TimeGrid
