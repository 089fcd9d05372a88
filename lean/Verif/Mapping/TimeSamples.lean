import Verif.Mapping.Props
import Verif.Waveform.StoreLemmas
import Verif.Net.Prog

/-!
# Mapping of time samples and just-in-time mapping (C52, C53, C54)

Model of `DataContext::mapData` (`/repo/src/precice/impl/DataContext.cpp:110-174`), of the cache of just-in-time
mappings (`/repo/src/mapping/impl/MappingDataCache.hpp`) and of `mapConsistentAt`/`mapConservativeAt`
(`/repo/src/mapping/NearestNeighborMapping.cpp:29-48`).
-/

set_option autoImplicit false

namespace Verif.Mapping

open Geometry

/-! ## mapData -/

/-- One iteration of the loop over the samples, DataContext.cpp:133-171. `times` are the times of the target before
the loop, `f` is the mapping of one sample. A sample has one degree of freedom, so its l2-norm is the absolute value. -/
def mapSample (f : ℚ → ℚ) (after : Option ℚ) (skipZero : Bool) (times : List ℚ) (dst : Waveform) (s : ℚ × ℚ) : Option Waveform :=
  if (match after with | some a => decide (smallerEquals s.1 a) | none => false) then some dst
  else if times.any fun t => decide (equals t s.1) then some dst
  else
    let skipMapping := skipZero && decide (|s.2| < tol)
    dst.setSample s.1 (if skipMapping then 0 else f s.2)

/-- `mapData` for one mapping context, DataContext.cpp:110-174: an error if the source is empty; an assertion of the
storage may fail. -/
def mapData (f : ℚ → ℚ) (after : Option ℚ) (skipZero : Bool) (src dst : Waveform) : Except Err Waveform :=
  if src.samples.isEmpty then .error .check
  else
    match src.samples.foldlM (mapSample f after skipZero (dst.samples.map (·.1))) dst with
    | some w => .ok w
    | none => .error .assert

/-- The samples to be mapped: later than the given time and not yet present in the target. -/
def Wanted (after : Option ℚ) (dst : Waveform) (s : ℚ × ℚ) : Prop :=
  (∀ a, after = some a → a + tol < s.1) ∧ ∀ e ∈ dst.samples, tol < |e.1 - s.1|

instance (after : Option ℚ) (dst : Waveform) (s : ℚ × ℚ) : Decidable (Wanted after dst s) := by
  unfold Wanted
  cases after with
  | none => exact decidable_of_iff (∀ e ∈ dst.samples, tol < |e.1 - s.1|) (by simp)
  | some a => exact decidable_of_iff (a + tol < s.1 ∧ ∀ e ∈ dst.samples, tol < |e.1 - s.1|) (by simp)

theorem mapSample_skip {f : ℚ → ℚ} {after : Option ℚ} {z : Bool} {dst0 dst : Waveform} {s : ℚ × ℚ} (h : ¬ Wanted after dst0 s) :
    mapSample f after z (dst0.samples.map (·.1)) dst s = some dst := by
  have key : (∃ a, after = some a ∧ smallerEquals s.1 a) ∨ ∃ e ∈ dst0.samples, equals e.1 s.1 := by
    by_contra hcon
    push Not at hcon
    refine h ⟨fun a ha => ?_, fun e he => not_le.1 (hcon.2 e he)⟩
    have := hcon.1 a ha
    unfold smallerEquals at this
    linarith
  unfold mapSample
  rcases key with ⟨a, rfl, ha⟩ | ⟨e, he, heq⟩
  · simp [ha]
  · have : ((dst0.samples.map (·.1)).any fun t => decide (equals t s.1)) = true :=
      List.any_eq_true.2 ⟨e.1, List.mem_map_of_mem he, by simpa using heq⟩
    rw [this]
    simp

theorem mapSample_wanted {f : ℚ → ℚ} {after : Option ℚ} {z : Bool} {dst0 dst : Waveform} {s : ℚ × ℚ} (h : Wanted after dst0 s) :
    mapSample f after z (dst0.samples.map (·.1)) dst s =
      dst.setSample s.1 (if z && decide (|s.2| < tol) then 0 else f s.2) := by
  unfold mapSample
  rw [if_neg, if_neg]
  · intro h2
    rw [List.any_eq_true] at h2
    obtain ⟨t, ht, he⟩ := h2
    obtain ⟨e, he', rfl⟩ := List.mem_map.1 ht
    have := h.2 e he'
    simp only [decide_eq_true_eq] at he
    unfold equals at he
    linarith
  · cases after with
    | none => simp
    | some a =>
      have := h.1 a rfl
      simp only [decide_eq_true_eq]
      unfold smallerEquals
      linarith

/-- The value stored for a source sample. -/
def mappedValue (f : ℚ → ℚ) (z : Bool) (s : ℚ × ℚ) : ℚ × ℚ := (s.1, if z && decide (|s.2| < tol) then 0 else f s.2)

theorem fold_exact {f : ℚ → ℚ} {after : Option ℚ} {z : Bool} {dst0 : Waveform} (l : List (ℚ × ℚ)) (hl : Waveform.Spaced l)
    (dst w : Waveform) (done : List (ℚ × ℚ)) (hd : dst.samples = dst0.samples ++ done)
    (hdone : ∀ a ∈ done, ∀ b ∈ l, a.1 + tol < b.1)
    (h : l.foldlM (mapSample f after z (dst0.samples.map (·.1))) dst = some w) :
    w.samples = dst0.samples ++ done ++ (l.filter fun s => Wanted after dst0 s).map (mappedValue f z) ∧ w.degree = dst.degree := by
  induction l generalizing dst done with
  | nil =>
    simp only [List.foldlM_nil, Option.pure_def, Option.some.injEq] at h
    subst h
    simp [hd]
  | cons s l ih =>
    have hsl : ∀ b ∈ l, s.1 + tol < b.1 := (List.pairwise_cons.1 hl).1
    have hl' : Waveform.Spaced l := (List.pairwise_cons.1 hl).2
    rw [List.foldlM_cons] at h
    by_cases hw : Wanted after dst0 s
    · rw [mapSample_wanted hw] at h
      obtain ⟨dst', h1, h2⟩ := Option.bind_eq_some_iff.1 h
      obtain ⟨hdeg, -, hcase⟩ := Waveform.setSample_cases h1
      have hnew : ∀ e ∈ dst.samples, ¬ equals e.1 s.1 := by
        intro e he heq
        rw [hd, List.mem_append] at he
        rcases he with he | he
        · have := hw.2 e he
          unfold equals at heq
          linarith
        · have := hdone e he s (by simp)
          rw [equals_iff] at heq
          linarith [heq.1]
      have happ : dst'.samples = dst.samples ++ [mappedValue f z s] := by
        rcases hcase with ⟨⟨e, he, heq⟩, -⟩ | ⟨-, e, -⟩
        · exact absurd heq (hnew e he)
        · exact e
      have := ih hl' dst' (done ++ [mappedValue f z s]) (by rw [happ, hd, List.append_assoc]) (by
        intro a ha b hb
        rw [List.mem_append, List.mem_singleton] at ha
        rcases ha with ha | rfl
        · exact hdone a ha b (List.mem_cons_of_mem _ hb)
        · exact hsl b hb) h2
      refine ⟨?_, this.2.trans hdeg⟩
      rw [this.1, List.filter_cons_of_pos (by simpa using hw), List.map_cons]
      simp only [List.append_assoc, List.singleton_append]
    · rw [mapSample_skip hw] at h
      simp only [Option.bind_eq_bind, Option.bind_some] at h
      have := ih hl' dst done hd (fun a ha b hb => hdone a ha b (List.mem_cons_of_mem _ hb)) h
      rw [List.filter_cons_of_neg (by simpa using hw)]
      exact this

/-- Whenever mapping succeeds, exactly the wanted samples are mapped, once each and in order, behind the samples that
were already there, which are unchanged. -/
theorem C53_exactly (f : ℚ → ℚ) (after : Option ℚ) (skipZero : Bool) (src dst w : Waveform) (hsrc : Waveform.Spaced src.samples)
    (h : mapData f after skipZero src dst = .ok w) :
    w.samples = dst.samples ++ (src.samples.filter fun s => Wanted after dst s).map (mappedValue f skipZero) := by
  unfold mapData at h
  split at h
  · cases h
  · split at h
    · rename_i w' hw
      cases h
      have := (fold_exact src.samples hsrc dst w [] (by simp) (by simp) hw).1
      simpa using this
    · cases h

/-- Afterwards the target has a sample at each source time that is later than the given time. -/
theorem C53_complete (f : ℚ → ℚ) (after : Option ℚ) (skipZero : Bool) (src dst w : Waveform) (hsrc : Waveform.Spaced src.samples)
    (h : mapData f after skipZero src dst = .ok w) (s : ℚ × ℚ) (hs : s ∈ src.samples) (ha : ∀ a, after = some a → a + tol < s.1) :
    ∃ e ∈ w.samples, |e.1 - s.1| ≤ tol := by
  rw [C53_exactly f after skipZero src dst w hsrc h]
  by_cases hw : Wanted after dst s
  · refine ⟨mappedValue f skipZero s, List.mem_append_right _ (List.mem_map_of_mem (List.mem_filter.2 ⟨hs, by simpa using hw⟩)), ?_⟩
    unfold mappedValue
    simp [tol_pos.le]
  · have : ∃ e ∈ dst.samples, |e.1 - s.1| ≤ tol := by
      by_contra hcon
      push Not at hcon
      exact hw ⟨ha, hcon⟩
    obtain ⟨e, he, h⟩ := this
    exact ⟨e, List.mem_append_left _ he, h⟩

theorem setSample_ok {w : Waveform} (t v : ℚ) (h : ∀ e ∈ w.samples, e.1 + tol < t) : ∃ w', w.setSample t v = some w' := by
  unfold Waveform.setSample
  cases hs : w.samples with
  | nil => exact ⟨_, rfl⟩
  | cons a l =>
    simp only
    have ht := tol_pos
    have ha := h a (by simp [hs])
    rw [if_pos (by unfold smallerEquals; linarith)]
    split
    · exact ⟨_, rfl⟩
    · refine ⟨_, if_pos ?_⟩
      unfold Waveform.maxStoredTime
      rw [hs]
      obtain ⟨e, he⟩ : ∃ e, (a :: l).getLast? = some e := ⟨_, List.getLast?_eq_some_getLast (by simp)⟩
      rw [he]
      have := h e (hs ▸ List.mem_of_getLast? he)
      unfold smaller
      simp only
      linarith

/-- Mapping succeeds if there is something in the source and the samples to be mapped are later than those in the target. -/
theorem C53_succeeds (f : ℚ → ℚ) (after : Option ℚ) (skipZero : Bool) (src dst : Waveform) (hsrc : Waveform.Spaced src.samples)
    (hne : src.samples ≠ []) (hlate : ∀ s ∈ src.samples, Wanted after dst s → ∀ e ∈ dst.samples, e.1 + tol < s.1) :
    ∃ w, mapData f after skipZero src dst = .ok w := by
  unfold mapData
  rw [if_neg (by simpa using hne)]
  suffices h : ∀ (l : List (ℚ × ℚ)), Waveform.Spaced l → (∀ s ∈ l, s ∈ src.samples) → ∀ (cur : Waveform) (done : List (ℚ × ℚ)),
      cur.samples = dst.samples ++ done → (∀ a ∈ done, ∀ b ∈ l, a.1 + tol < b.1) →
      ∃ w, l.foldlM (mapSample f after skipZero (dst.samples.map (·.1))) cur = some w by
    obtain ⟨w, hw⟩ := h src.samples hsrc (fun s h => h) dst [] (by simp) (by simp)
    exact ⟨w, by rw [hw]⟩
  intro l
  induction l with
  | nil => intro _ _ cur _ _ _; exact ⟨cur, rfl⟩
  | cons s l ih =>
    intro hl hsub cur done hc hd
    have hsl : ∀ b ∈ l, s.1 + tol < b.1 := (List.pairwise_cons.1 hl).1
    have hl' : Waveform.Spaced l := (List.pairwise_cons.1 hl).2
    rw [List.foldlM_cons]
    by_cases hw : Wanted after dst s
    · rw [mapSample_wanted hw]
      have hlt : ∀ e ∈ cur.samples, e.1 + tol < s.1 := by
        intro e he
        rw [hc, List.mem_append] at he
        rcases he with he | he
        · exact hlate s (hsub s (by simp)) hw e he
        · exact hd e he s (by simp)
      obtain ⟨w', hw'⟩ := setSample_ok s.1 (if skipZero && decide (|s.2| < tol) then 0 else f s.2) hlt
      rw [hw']
      simp only [Option.bind_eq_bind, Option.bind_some]
      obtain ⟨-, -, hcase⟩ := Waveform.setSample_cases hw'
      have happ : w'.samples = cur.samples ++ [mappedValue f skipZero s] := by
        rcases hcase with ⟨⟨e, he, heq⟩, -⟩ | ⟨-, e, -⟩
        · rw [equals_iff] at heq
          linarith [hlt e he, heq.1, tol_pos]
        · exact e
      refine ih hl' (fun s' h => hsub s' (List.mem_cons_of_mem _ h)) w' (done ++ [mappedValue f skipZero s])
        (by rw [happ, hc, List.append_assoc]) ?_
      intro a ha b hb
      rw [List.mem_append, List.mem_singleton] at ha
      rcases ha with ha | rfl
      · exact hd a ha b (List.mem_cons_of_mem _ hb)
      · exact hsl b hb
    · rw [mapSample_skip hw]
      simp only [Option.bind_eq_bind, Option.bind_some]
      exact ih hl' (fun s' h => hsub s' (List.mem_cons_of_mem _ h)) cur done hc
        (fun a ha b hb => hd a ha b (List.mem_cons_of_mem _ hb))

/-- One sample before the cut-off, one present, two new ones. -/
example : (mapData (fun v => 2 * v) (some 0) false ⟨[(0, 1), (1, 2), (2, 3), (3, 4)], 1, none⟩ ⟨[(1, 7)], 1, none⟩).toOption.map (·.samples) =
    some [(1, 7), (2, 6), (3, 8)] := by decide +kernel

example : Waveform.Spaced [((0 : ℚ), (1 : ℚ)), (1, 2), (2, 3), (3, 4)] := by
  unfold Waveform.Spaced tol
  norm_num

/-- Skipping numerically zero samples in a linear mapping changes the stored values by less than the tolerance times
the gain of the mapping, and does not change them at all for exact zeros. -/
theorem C52_skip (f : ℚ → ℚ) (L : ℚ) (hL : ∀ v, |f v| ≤ L * |v|) (s : ℚ × ℚ) :
    |(mappedValue f true s).2 - (mappedValue f false s).2| ≤ L * tol ∧
      (s.2 = 0 → mappedValue f true s = mappedValue f false s) := by
  have h0 : 0 ≤ L := by
    have := hL 1
    rw [abs_one, mul_one] at this
    exact (abs_nonneg _).trans this
  unfold mappedValue
  constructor
  · simp only [Bool.true_and, decide_eq_true_eq, Bool.false_and]
    split
    · rename_i h
      simp only [Bool.false_eq_true, if_false, zero_sub, abs_neg]
      exact (hL _).trans (mul_le_mul_of_nonneg_left h.le h0)
    · simp only [Bool.false_eq_true, if_false, sub_self, abs_zero]
      exact mul_nonneg h0 tol_pos.le
  · intro e
    have hf : f s.2 = 0 := by
      have := hL s.2
      rw [e, abs_zero, mul_zero] at this
      rw [e]
      exact abs_eq_zero.1 (le_antisymm this (abs_nonneg _))
    simp only [hf, ite_self]

/-! ## Just-in-time mapping -/

/-- `mapConsistentAt`, NearestNeighborMapping.cpp:29-39 -/
def mapConsistentAt {d : ℕ} (q : Query d) (input : Mesh d) (n : ℕ) (coords : List (Pt d)) (x out : Data) : Data :=
  (List.range coords.length).foldl (fun o i => setCol n i (col n (q.closestVertex input (coords[i]?.getD 0)) x) o) out

/-- `mapConservativeAt`, NearestNeighborMapping.cpp:41-48 -/
def mapConservativeAt {d : ℕ} (q : Query d) (output : Mesh d) (n : ℕ) (coords : List (Pt d)) (x out : Data) : Data :=
  (List.range coords.length).foldl (fun o i => addCol n (q.closestVertex output (coords[i]?.getD 0)) (col n i x) o) out

/-- The part of `MappingDataCache` used by nearest-neighbor mappings: time stamp and data. -/
structure Cache where
  stamp : ℚ
  data : Data

/-- The cache after `resetTimeStamp`, MappingDataCache.hpp:115-119 -/
def Cache.invalidate (c : Cache) : Cache := { c with stamp := -1 }

/-- `mapAndReadValues`, ReadDataContext.cpp:43-61; `sample` is the waveform. -/
def mapAndRead {d : ℕ} (q : Query d) (input : Mesh d) (n : ℕ) (sample : ℚ → Data) (c : Cache) (coords : List (Pt d)) (t : ℚ)
    (out : Data) : Data × Cache :=
  let c := if equals c.stamp t then c else ⟨t, sample t⟩
  (mapConsistentAt q input n coords c.data out, c)

/-- A sequence of reads, without a change of the stored samples in between. -/
def readAll {d : ℕ} (q : Query d) (input : Mesh d) (n : ℕ) (sample : ℚ → Data) (c : Cache) :
    List (List (Pt d) × ℚ) → List Data × Cache
  | [] => ([], c)
  | (coords, t) :: l =>
    let (v, c) := mapAndRead q input n sample c coords t 0
    let (vs, c) := readAll q input n sample c l
    (v :: vs, c)

/-- A mesh with vertices at the given coordinates. -/
def pointsMesh {d : ℕ} (coords : List (Pt d)) : Mesh d := ⟨coords.map fun x => { coords := x }, [], [], []⟩

theorem coordsOf_points {d : ℕ} (coords : List (Pt d)) (i : ℕ) : coordsOf (pointsMesh coords) i = coords[i]?.getD 0 := by
  unfold coordsOf pointsMesh
  rw [List.getElem?_map]
  cases coords[i]? <;> rfl

theorem points_length {d : ℕ} (coords : List (Pt d)) : (pointsMesh coords).verts.length = coords.length := by
  simp [pointsMesh]

theorem consistentAt_eq {d : ℕ} (q : Query d) (input : Mesh d) (n : ℕ) (hn : 0 < n) (coords : List (Pt d)) (x : Data) :
    mapConsistentAt q input n coords x 0 = mapNN q .consistent input (pointsMesh coords) n x := by
  refine all_idx hn fun i k hk => ?_
  unfold mapConsistentAt mapNN
  rw [foldl_setCol hk]
  simp only [reduceCtorEq, if_false]
  rw [nnConsistent_apply hk, points_length]
  split
  · rename_i h
    rw [nnIndices_consistent q (by decide) input _ (by rwa [points_length]), coordsOf_points]
    rfl
  · rfl

/-- `writeAndMapData` distributes values like the regular conservative mapping from a mesh with vertices at the given
coordinates, added to what has been written before. -/
theorem C54_write {d : ℕ} (q : Query d) (output : Mesh d) (n : ℕ) (hn : 0 < n) (coords : List (Pt d)) (x out : Data) :
    mapConservativeAt q output n coords x out = out + mapNN q .conservative (pointsMesh coords) output n x := by
  refine all_idx hn fun i k hk => ?_
  unfold mapConservativeAt mapNN
  rw [foldl_addCol hk, Pi.add_apply]
  simp only [if_true]
  rw [nnConservative_apply hk, Pi.zero_apply, zero_add, points_length]
  congr 2
  refine List.map_congr_left fun j hj => ?_
  rw [nnIndices_conservative q _ output (by rw [points_length]; exact List.mem_range.1 hj), coordsOf_points]
  rfl

/-- Writing in several calls is the same as writing everything at once. -/
theorem C54_write_twice {d : ℕ} (q : Query d) (output : Mesh d) (n : ℕ) (hn : 0 < n) (c₁ c₂ : List (Pt d)) (x out : Data) :
    mapConservativeAt q output n c₂ (fun j => x (c₁.length * n + j)) (mapConservativeAt q output n c₁ x out) =
      mapConservativeAt q output n (c₁ ++ c₂) x out := by
  refine all_idx hn fun i k hk => ?_
  unfold mapConservativeAt
  rw [foldl_addCol hk, foldl_addCol hk, foldl_addCol hk, add_assoc, List.length_append, List.range_add, List.map_append,
    List.sum_append, List.map_map]
  congr 3
  · refine List.map_congr_left fun j hj => ?_
    rw [List.getElem?_append_left (List.mem_range.1 hj)]
  · refine List.map_congr_left fun j hj => ?_
    simp only [Function.comp_def]
    rw [List.getElem?_append_right (by omega), Nat.add_sub_cancel_left]
    unfold col
    congr 1
    rw [Nat.add_mul, Nat.add_assoc]

/-- What the cache contains: nothing, or the waveform at its time stamp. -/
def Cache.Current (c : Cache) (sample : ℚ → Data) : Prop := c.stamp = -1 ∨ c.data = sample c.stamp

/-- `mapAndReadData` returns what the regular consistent mapping to vertices at the coordinates delivers for the waveform
sampled at the requested time (up to the tolerance in the comparison of times). -/
theorem C54_read {d : ℕ} (q : Query d) (input : Mesh d) (n : ℕ) (hn : 0 < n) (sample : ℚ → Data) (c : Cache)
    (hc : c.Current sample) (coords : List (Pt d)) (t : ℚ) (ht : 0 ≤ t) :
    (mapAndRead q input n sample c coords t 0).2.Current sample ∧
    ∃ t', |t' - t| ≤ tol ∧
      (mapAndRead q input n sample c coords t 0).1 = mapNN q .consistent input (pointsMesh coords) n (sample t') := by
  unfold mapAndRead
  by_cases h : equals c.stamp t
  · simp only [if_pos h]
    refine ⟨hc, c.stamp, h, ?_⟩
    rcases hc with hc | hc
    · rw [hc, equals_iff] at h
      have : tol < 1 := by norm_num [tol]
      linarith [h.1]
    · rw [consistentAt_eq q input n hn, hc]
  · simp only [if_neg h]
    refine ⟨.inr rfl, t, by rw [sub_self, abs_zero]; exact tol_pos.le, ?_⟩
    rw [consistentAt_eq q input n hn]

/-- Any number of reads: each gets the regularly mapped values. -/
theorem C54_reads {d : ℕ} (q : Query d) (input : Mesh d) (n : ℕ) (hn : 0 < n) (sample : ℚ → Data) (c : Cache)
    (hc : c.Current sample) (l : List (List (Pt d) × ℚ)) (hl : ∀ r ∈ l, 0 ≤ r.2) :
    List.Forall₂ (fun r v => ∃ t', |t' - r.2| ≤ tol ∧ v = mapNN q .consistent input (pointsMesh r.1) n (sample t')) l
      (readAll q input n sample c l).1 := by
  induction l generalizing c with
  | nil => exact .nil
  | cons r l ih =>
    obtain ⟨coords, t⟩ := r
    obtain ⟨h1, h2⟩ := C54_read q input n hn sample c hc coords t (hl (coords, t) (by simp))
    exact .cons h2 (ih _ h1 fun r hr => hl r (List.mem_cons_of_mem _ hr))

/-- Reads with the same time use the same data: the second of two reads at the same coordinates and time returns the
same values, even if the first one used cached data. -/
theorem C54_repeat {d : ℕ} (q : Query d) (input : Mesh d) (n : ℕ) (sample : ℚ → Data) (c : Cache) (coords : List (Pt d)) (t : ℚ) :
    (mapAndRead q input n sample (mapAndRead q input n sample c coords t 0).2 coords t 0).1 =
      (mapAndRead q input n sample c coords t 0).1 := by
  unfold mapAndRead
  by_cases h : equals c.stamp t
  · simp only [if_pos h]
  · simp only [if_neg h, equals_refl, if_true]

/-- After the samples have changed and the cache was invalidated, the new samples are used. -/
theorem C54_invalidate {d : ℕ} (q : Query d) (input : Mesh d) (n : ℕ) (sample : ℚ → Data) (c : Cache) (coords : List (Pt d)) (t : ℚ)
    (ht : 0 ≤ t) : (mapAndRead q input n sample c.invalidate coords t 0).1 = mapConsistentAt q input n coords (sample t) 0 := by
  unfold mapAndRead Cache.invalidate
  have : ¬ equals (-1 : ℚ) t := by
    rw [equals_iff]
    have : tol < 1 := by norm_num [tol]
    intro h; linarith [h.1]
  simp only [this, if_false]

example : (mapAndRead (bruteForce 2) inMesh 1 (fun t j => t + j) ⟨-1, 0⟩ [![3, 0]] 2 0).1 0 = 3 := by decide +kernel

end Verif.Mapping
