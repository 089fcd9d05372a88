import Verif.Config.DatasetSpec
import Mathlib.Data.List.Induction
import Mathlib.Data.List.Forall2

/-!
Lemmas for C129
-/

set_option autoImplicit false

namespace Verif.Config.Dataset

open Verif.Config.Scheme (Err)
open Verif.Config.MapMethod (Dbl)

theorem le_iff (l u : Dbl) : le l u = true ↔ NotAbove l u := by
  cases l <;> cases u <;> simp [le, NotAbove]

theorem componentOk_iff (l u : Dbl) : componentOk (bound l) (bound u) = true ↔ ∀ a b, l = .fin a → u = .fin b → a ≤ b := by
  cases l <;> cases u <;> simp [componentOk, bound]

theorem boundsOk_iff (t : DataTag) : boundsOk t = true ↔ (t.kind = .scalar → NotAbove (t.lower 0) (t.upper 0)) ∧
    (t.kind = .vector → ∀ c a b, t.lower c = .fin a → t.upper c = .fin b → a ≤ b) := by
  unfold boundsOk
  split
  · rename_i h
    rw [h, le_iff]
    simp
  · rename_i h
    rw [h]
    simp only [Bool.and_eq_true, componentOk_iff, forall_const]
    constructor
    · rintro ⟨h0, h1, h2⟩
      refine ⟨fun h => Kind.noConfusion h, fun c => ?_⟩
      match c with
      | 0 => exact h0
      | 1 => exact h1
      | 2 => exact h2
    · rintro ⟨-, h⟩
      exact ⟨h 0, h 1, h 2⟩

/-- what a data tag becomes -/
def conf (t : DataTag) : Configured := ⟨t.name, t.kind, t.degree, bounds t.kind t.lower, bounds t.kind t.upper⟩

theorem dataTag_ok (ds ds' : List Configured) (t : DataTag) : dataTag ds t = .ok ds' ↔
    0 ≤ t.degree ∧ boundsOk t = true ∧ (∀ c ∈ ds, c.name ≠ t.name) ∧ ds' = ds ++ [conf t] := by
  unfold dataTag addData
  by_cases h1 : t.degree < 0
  · rw [if_pos h1]
    simp [not_le.2 h1]
  rw [if_neg h1]
  by_cases h2 : boundsOk t = true
  · rw [if_pos h2]
    by_cases h3 : (ds.any fun e => e.name == t.name) = true
    · rw [if_pos h3]
      rw [List.any_eq_true] at h3
      obtain ⟨c, hc, hn⟩ := h3
      constructor
      · rintro h
        exact absurd h (by simp)
      · rintro ⟨-, -, h, -⟩
        exact absurd (by simpa using hn) (h c hc)
    · rw [if_neg h3]
      have h4 : ∀ c ∈ ds, c.name ≠ t.name := by
        intro c hc hn
        exact h3 (List.any_eq_true.2 ⟨c, hc, by simpa using hn⟩)
      simp only [Except.ok.injEq]
      constructor
      · rintro rfl
        exact ⟨not_lt.1 h1, h2, h4, rfl⟩
      · rintro ⟨-, -, -, rfl⟩
        rfl
  · rw [if_neg h2]
    simp [h2]

/-- what `use-data` makes of configured data -/
def made (ds : List Configured) (dims comp k : ℕ) (u : String) : Data :=
  let c := (ds.find? fun c => c.name == u).getD ⟨u, .scalar, 0, [], []⟩
  ⟨c.name, k, components c.kind comp, dims, c.degree, resize c.lower (components c.kind comp), resize c.upper (components c.kind comp)⟩

def madeAll (ds : List Configured) (dims comp : ℕ) : ℕ → List String → List Data
  | _, [] => []
  | k, u :: us => made ds dims comp k u :: madeAll ds dims comp (k + 1) us

theorem made_name (ds : List Configured) (dims comp k : ℕ) (u : String) : (made ds dims comp k u).name = u := by
  unfold made
  cases h : ds.find? fun c => c.name == u with
  | none => rfl
  | some c => simpa using List.find?_some h

theorem useTag_ok (s s' : State) (ms : List Mesh) (m : Mesh) (hm : s.meshes = ms ++ [m]) (D : ℕ) (hD : s.dims.lookup m.name = some D) (u : String) :
    useTag s u = .ok s' ↔ (∃ c ∈ s.data, c.name = u) ∧ (∀ d ∈ m.data, d.name ≠ u) ∧
      s' = { s with meshes := ms ++ [{ m with data := m.data ++ [made s.data m.dims D s.nextData u] }], nextData := s.nextData + 1 } := by
  unfold useTag
  rw [hm, List.getLast?_append]
  simp only [List.getLast?_singleton, Option.some_or]
  cases h : s.data.find? fun c => c.name == u with
  | none =>
    rw [List.find?_eq_none] at h
    constructor
    · rintro h'
      exact absurd h' (by simp)
    · rintro ⟨⟨c, hc, hn⟩, -⟩
      exact absurd (by simpa using hn) (h c hc)
  | some c =>
    have hn : c.name = u := by simpa using List.find?_some h
    have hdim : dataDimensions s.dims m.name c.kind = some (components c.kind D) := by
      unfold dataDimensions components
      cases c.kind
      · rfl
      · exact hD
    simp only [hdim]
    unfold createData
    by_cases h3 : (m.data.any fun d => d.name == c.name) = true
    · rw [if_pos h3]
      rw [List.any_eq_true] at h3
      obtain ⟨d, hd, he⟩ := h3
      constructor
      · rintro h'
        exact absurd h' (by simp)
      · rintro ⟨-, h', -⟩
        exact absurd ((by simpa using he : d.name = c.name).trans hn) (h' d hd)
    · rw [if_neg h3]
      have h4 : ∀ d ∈ m.data, d.name ≠ u := by
        intro d hd he
        exact h3 (List.any_eq_true.2 ⟨d, hd, by simpa [hn] using he⟩)
      simp only [Except.ok.injEq, List.dropLast_concat]
      have hmade : made s.data m.dims D s.nextData u = ⟨c.name, s.nextData, components c.kind D, m.dims, c.degree, resize c.lower (components c.kind D), resize c.upper (components c.kind D)⟩ := by
        unfold made
        rw [h]
        rfl
      rw [hmade]
      constructor
      · rintro rfl
        exact ⟨⟨c, List.mem_of_find?_eq_some h, hn⟩, h4, rfl⟩
      · rintro ⟨-, -, rfl⟩
        rfl

theorem uses_ok (us : List String) : ∀ (s s' : State) (ms : List Mesh) (m : Mesh) (_ : s.meshes = ms ++ [m]) (D : ℕ) (_ : s.dims.lookup m.name = some D),
    us.foldlM useTag s = .ok s' ↔ (∀ u ∈ us, ∃ c ∈ s.data, c.name = u) ∧ us.Nodup ∧ (∀ u ∈ us, ∀ d ∈ m.data, d.name ≠ u) ∧
      s' = { s with meshes := ms ++ [{ m with data := m.data ++ madeAll s.data m.dims D s.nextData us }], nextData := s.nextData + us.length } := by
  induction us with
  | nil =>
    intro s s' ms m hm D hD
    change Except.ok s = Except.ok s' ↔ _
    have : ({ s with meshes := ms ++ [{ m with data := m.data ++ madeAll s.data m.dims D s.nextData [] }], nextData := s.nextData + ([] : List String).length } : State) = s := by
      obtain ⟨a, b, c, d, e⟩ := s
      obtain ⟨n, o, p, q⟩ := m
      simp only at hm
      simp [madeAll, hm]
    rw [this]
    simp only [Except.ok.injEq, List.not_mem_nil, false_implies, implies_true, List.nodup_nil, true_and]
    exact eq_comm
  | cons u us ih =>
    intro s s' ms m hm D hD
    rw [List.foldlM_cons]
    change (useTag s u).bind _ = _ ↔ _
    constructor
    · intro h
      cases hu : useTag s u with
      | error e =>
        rw [hu] at h
        exact absurd h (by simp [Except.bind])
      | ok s1 =>
        rw [hu] at h
        change us.foldlM useTag s1 = .ok s' at h
        obtain ⟨h1, h2, rfl⟩ := (useTag_ok s s1 ms m hm D hD u).1 hu
        obtain ⟨h3, h4, h5, rfl⟩ := (ih { s with meshes := ms ++ [{ m with data := m.data ++ [made s.data m.dims D s.nextData u] }], nextData := s.nextData + 1 } s' ms { m with data := m.data ++ [made s.data m.dims D s.nextData u] } rfl D hD).1 h
        refine ⟨?_, ?_, ?_, ?_⟩
        · intro v hv
          rcases List.mem_cons.1 hv with rfl | hv
          · exact h1
          · exact h3 v hv
        · rw [List.nodup_cons]
          refine ⟨fun hu => ?_, h4⟩
          exact h5 u hu (made s.data m.dims D s.nextData u) (by simp) (made_name ..)
        · intro v hv d hd
          rcases List.mem_cons.1 hv with rfl | hv
          · exact h2 d hd
          · exact h5 v hv d (by simp [hd])
        · simp [madeAll, Nat.add_assoc, Nat.add_comm 1]
    · rintro ⟨h1, h2, h3, rfl⟩
      rw [List.nodup_cons] at h2
      rw [(useTag_ok s _ ms m hm D hD u).2 ⟨h1 u (by simp), h3 u (by simp), rfl⟩]
      change us.foldlM useTag _ = _
      refine (ih { s with meshes := ms ++ [{ m with data := m.data ++ [made s.data m.dims D s.nextData u] }], nextData := s.nextData + 1 } _ ms { m with data := m.data ++ [made s.data m.dims D s.nextData u] } rfl D hD).2 ⟨fun v hv => h1 v (by simp [hv]), h2.2, fun v hv d hd => ?_, ?_⟩
      · rcases List.mem_append.1 hd with hd | hd
        · exact h3 v (by simp [hv]) d hd
        · rw [List.mem_singleton] at hd
          subst hd
          rw [made_name]
          rintro rfl
          exact h2.1 hv
      · simp [madeAll, Nat.add_assoc, Nat.add_comm 1]

theorem insertDims_lookup (dims : List (String × ℕ)) (name : String) (d : ℕ) (n : String) :
    (insertDims dims name d).lookup n = (dims.lookup n).or (if n = name then some d else none) := by
  unfold insertDims
  split
  · rename_i h
    by_cases hn : n = name
    · subst hn
      obtain ⟨a, ha⟩ := Option.isSome_iff_exists.1 h
      rw [ha]
      rfl
    · rw [if_neg hn, Option.or_none]
  · rw [List.lookup_append]
    by_cases hn : n = name
    · subst hn
      simp
    · have : (n == name) = false := by simpa using hn
      simp [List.lookup, this, hn]

/-- The dimensions of the first mesh tag with a name -/
def firstDims (ms : List MeshTag) (n : String) : Option ℕ := (ms.find? fun i => i.name == n).map MeshTag.dims

/-- What is known after a part of the document -/
structure Inv (debug : Bool) (doc : List Item) (s : State) : Prop where
  data : s.data = (tags doc).map conf
  dims : ∀ n, s.dims.lookup n = firstDims (meshTags doc) n
  meshes : List.Forall₂ (fun i m => MeshMatches (tags doc) ((firstDims (meshTags doc) i.name).getD 0) i m) (meshTags doc) s.meshes
  meshIds : s.meshes.map Mesh.id = List.range s.nextMesh
  dataIds : (s.meshes.flatMap Mesh.data).map Data.id = List.range s.nextData

theorem tags_append (a b : List Item) : tags (a ++ b) = tags a ++ tags b := List.filterMap_append ..
theorem meshTags_append (a b : List Item) : meshTags (a ++ b) = meshTags a ++ meshTags b := List.filterMap_append ..

theorem madeAll_ids (ds : List Configured) (dims comp : ℕ) : ∀ (us : List String) (k : ℕ), (madeAll ds dims comp k us).map Data.id = List.range' k us.length
  | [], _ => rfl
  | u :: us, k => by
    rw [madeAll, List.map_cons, madeAll_ids ds dims comp us (k + 1), List.length_cons, List.range'_succ]
    rfl

theorem resize_length (l : List (Option ℚ)) (n : ℕ) : (resize l n).length = n := by
  unfold resize
  simp
  omega

theorem resize_get (l : List (Option ℚ)) (n c : ℕ) (hc : c < n) (hl : c < l.length) : (resize l n)[c]? = l[c]? := by
  unfold resize
  rw [List.getElem?_append_left (by simp; omega), List.getElem?_take]
  simp [hc]

theorem bounds_get (k : Kind) (b : Fin 3 → Dbl) (comp : ℕ) (c : Fin 3) (hc : (c : ℕ) < components k comp) : (bounds k b)[(c : ℕ)]? = some (bound (b c)) := by
  cases k with
  | scalar =>
    have : c = 0 := by
      ext
      simp [components] at hc
      simp [hc]
    subst this
    rfl
  | vector =>
    match c with
    | 0 => rfl
    | 1 => rfl
    | 2 => rfl

theorem bounds_long (k : Kind) (b : Fin 3 → Dbl) (comp : ℕ) (c : Fin 3) (hc : (c : ℕ) < components k comp) : (c : ℕ) < (bounds k b).length := by
  have := bounds_get k b comp c hc
  by_contra h
  rw [List.getElem?_eq_none (not_lt.1 h)] at this
  exact absurd this (by simp)

theorem made_matches (ts : List DataTag) (dims comp k : ℕ) (u : String) (h : ∃ c ∈ ts.map conf, c.name = u) : ∃ t ∈ ts, t.name = u ∧ Matches t dims comp (made (ts.map conf) dims comp k u) := by
  cases hf : (ts.map conf).find? fun c => c.name == u with
  | none =>
    rw [List.find?_eq_none] at hf
    obtain ⟨c, hc, hn⟩ := h
    exact absurd (by simpa using hn) (hf c hc)
  | some c =>
    obtain ⟨t, ht, rfl⟩ := List.mem_map.1 (List.mem_of_find?_eq_some hf)
    have hn : t.name = u := by simpa [conf] using List.find?_some hf
    refine ⟨t, ht, hn, ?_⟩
    unfold made
    rw [hf]
    refine ⟨rfl, rfl, rfl, rfl, resize_length _ _, resize_length _ _, fun c hc => ?_, fun c hc => ?_⟩
    · exact (resize_get _ _ _ hc (bounds_long _ _ _ c hc)).trans (bounds_get _ _ _ c hc)
    · exact (resize_get _ _ _ hc (bounds_long _ _ _ c hc)).trans (bounds_get _ _ _ c hc)

theorem madeAll_matches (ts : List DataTag) (dims comp : ℕ) : ∀ (us : List String) (k : ℕ), (∀ u ∈ us, ∃ c ∈ ts.map conf, c.name = u) →
    List.Forall₂ (fun u d => ∃ t ∈ ts, t.name = u ∧ Matches t dims comp d) us (madeAll (ts.map conf) dims comp k us)
  | [], _, _ => .nil
  | u :: us, k, h => .cons (made_matches ts dims comp k u (h u (by simp))) (madeAll_matches ts dims comp us (k + 1) fun v hv => h v (by simp [hv]))

theorem MeshMatches.mono {ts ts' : List DataTag} {comp : ℕ} {i : MeshTag} {m : Mesh} (h : MeshMatches ts comp i m) (hs : ∀ t ∈ ts, t ∈ ts') : MeshMatches ts' comp i m :=
  ⟨h.name, h.dims, h.data.imp fun _ _ ⟨t, ht, h1, h2⟩ => ⟨t, hs t ht, h1, h2⟩⟩

end Verif.Config.Dataset
