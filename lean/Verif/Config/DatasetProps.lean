import Verif.Config.DatasetLemmas
import Verif.Accel.Bounds

/-!
# Data and meshes are the ones described by the configuration (C129)
-/

set_option autoImplicit false

namespace Verif.Config.Dataset

open Verif.Config.Scheme (Err)
open Verif.Config.MapMethod (Dbl)

theorem split_last {α : Type} {l pre post : List α} {i x : α} (h : l ++ [i] = pre ++ x :: post) :
    (post = [] ∧ i = x ∧ pre = l) ∨ ∃ post', post = post' ++ [i] ∧ l = pre ++ x :: post' := by
  rcases List.eq_nil_or_concat post with rfl | ⟨q, y, rfl⟩
  · obtain ⟨rfl, h'⟩ := List.append_inj' h rfl
    exact Or.inl ⟨rfl, List.head_eq_of_cons_eq h', rfl⟩
  · rw [show pre ++ x :: q.concat y = (pre ++ x :: q) ++ [y] by simp] at h
    obtain ⟨rfl, h'⟩ := List.append_inj' h rfl
    obtain rfl := List.head_eq_of_cons_eq h'
    exact Or.inr ⟨q, by simp, rfl⟩

theorem configure_concat (debug : Bool) (doc : List Item) (i : Item) : configure debug (doc ++ [i]) = (configure debug doc).bind fun s => item debug s i := by
  unfold configure
  rw [List.foldlM_append]
  congr 1
  funext s
  change (item debug s i).bind _ = _
  cases item debug s i <;> rfl

theorem bind_ok {α β : Type} {x : Except Err α} {f : α → Except Err β} {b : β} (h : x.bind f = .ok b) : ∃ a, x = .ok a ∧ f a = .ok b := by
  cases x with
  | error e => exact absurd h (by simp [Except.bind])
  | ok a => exact ⟨a, rfl, h⟩

theorem firstDims_isSome (ms : List MeshTag) (n : String) : (firstDims ms n).isSome = true ↔ n ∈ ms.map MeshTag.name := by
  unfold firstDims
  rw [Option.isSome_map, List.find?_isSome, List.mem_map]
  simp

theorem firstDims_append (ms : List MeshTag) (i : MeshTag) (n : String) : firstDims (ms ++ [i]) n = (firstDims ms n).or (if n = i.name then some i.dims else none) := by
  unfold firstDims
  rw [List.find?_append]
  cases ms.find? fun i => i.name == n with
  | some j => rfl
  | none =>
    by_cases h : n = i.name
    · subst h
      simp
    · have : ¬ i.name = n := fun h' => h h'.symm
      simp [h, this]

theorem meshTag_ok (debug : Bool) (s s' : State) (n : String) (d : ℕ) : meshTag debug s n d = .ok s' ↔
    (debug = true → (s.dims.lookup n).isSome = false ∧ n ≠ "") ∧
      s' = { s with dims := insertDims s.dims n d, meshes := s.meshes ++ [⟨n, d, s.nextMesh, []⟩], nextMesh := s.nextMesh + 1 } := by
  unfold meshTag
  cases debug
  · simp only [Bool.false_and, Bool.false_eq_true, if_false, false_implies, true_and, Except.ok.injEq]
    exact eq_comm
  · by_cases h : ((s.dims.lookup n).isSome || n == "") = true
    · rw [Bool.true_and, if_pos h]
      constructor
      · intro h'
        exact absurd h' (by simp)
      · rintro ⟨h', -⟩
        obtain ⟨h1, h2⟩ := h' rfl
        simp [h1, h2] at h
    · rw [Bool.true_and, if_neg h]
      simp only [Bool.or_eq_true, not_or, Bool.not_eq_true, beq_eq_false_iff_ne] at h
      simp only [forall_const, h, Except.ok.injEq, true_and, ne_eq, not_false_eq_true, and_self]
      exact eq_comm

/-- what the tag of a mesh does -/
theorem mesh_ok (debug : Bool) (s s' : State) (n : String) (d : ℕ) (us : List String) : item debug s (.mesh n d us) = .ok s' ↔
    (debug = true → (s.dims.lookup n).isSome = false ∧ n ≠ "") ∧ (∀ u ∈ us, ∃ c ∈ s.data, c.name = u) ∧ us.Nodup ∧
      s' = { s with dims := insertDims s.dims n d, nextMesh := s.nextMesh + 1, nextData := s.nextData + us.length,
                    meshes := s.meshes ++ [⟨n, d, s.nextMesh, madeAll s.data d (((insertDims s.dims n d).lookup n).getD 0) s.nextData us⟩] } := by
  have hlook : ∃ D, (insertDims s.dims n d).lookup n = some D := by
    rw [insertDims_lookup, if_pos rfl]
    cases s.dims.lookup n <;> exact ⟨_, rfl⟩
  obtain ⟨D, hD⟩ := hlook
  have key := fun s' => uses_ok us { s with dims := insertDims s.dims n d, meshes := s.meshes ++ [⟨n, d, s.nextMesh, []⟩], nextMesh := s.nextMesh + 1 } s' s.meshes ⟨n, d, s.nextMesh, []⟩ rfl D hD
  rw [hD]
  change (meshTag debug s n d).bind (fun s => us.foldlM useTag s) = .ok s' ↔ _
  constructor
  · intro h
    obtain ⟨s1, h1, h2⟩ := bind_ok h
    obtain ⟨h3, rfl⟩ := (meshTag_ok debug s s1 n d).1 h1
    obtain ⟨h4, h5, -, rfl⟩ := (key s').1 h2
    exact ⟨h3, h4, h5, by simp⟩
  · rintro ⟨h3, h4, h5, rfl⟩
    rw [(meshTag_ok debug s _ n d).2 ⟨h3, rfl⟩]
    refine (key _).2 ⟨h4, h5, by simp, by simp⟩

theorem data_ok (debug : Bool) (s s' : State) (t : DataTag) : item debug s (.data t) = .ok s' ↔
    0 ≤ t.degree ∧ boundsOk t = true ∧ (∀ c ∈ s.data, c.name ≠ t.name) ∧ s' = { s with data := s.data ++ [conf t] } := by
  change (dataTag s.data t).map (fun ds => { s with data := ds }) = .ok s' ↔ _
  constructor
  · intro h
    cases hd : dataTag s.data t with
    | error e =>
      rw [hd] at h
      exact absurd h (by simp [Except.map])
    | ok ds =>
      rw [hd] at h
      obtain ⟨h1, h2, h3, rfl⟩ := (dataTag_ok _ _ _).1 hd
      exact ⟨h1, h2, h3, (Except.ok.inj h).symm⟩
  · rintro ⟨h1, h2, h3, rfl⟩
    rw [(dataTag_ok _ _ _).2 ⟨h1, h2, h3, rfl⟩]
    rfl

theorem Valid.data {debug : Bool} {doc : List Item} {t : DataTag} : Valid debug (doc ++ [.data t]) ↔
    Valid debug doc ∧ 0 ≤ t.degree ∧ boundsOk t = true ∧ ∀ t' ∈ tags doc, t'.name ≠ t.name := by
  have ht : tags (doc ++ [.data t]) = tags doc ++ [t] := tags_append _ _
  have hm : meshTags (doc ++ [.data t]) = meshTags doc := (meshTags_append _ _).trans (List.append_nil _)
  have hmem : ∀ {P : DataTag → Prop}, (∀ t' ∈ tags (doc ++ [.data t]), P t') ↔ (∀ t' ∈ tags doc, P t') ∧ P t := by
    intro P
    rw [ht]
    simp only [List.mem_append, List.mem_singleton]
    exact ⟨fun h => ⟨fun t' h' => h t' (Or.inl h'), h t (Or.inr rfl)⟩, fun h t' h' => h'.elim (h.1 t') fun e => e ▸ h.2⟩
  have hnodup : ((tags (doc ++ [.data t])).map DataTag.name).Nodup ↔ ((tags doc).map DataTag.name).Nodup ∧ ∀ t' ∈ tags doc, t'.name ≠ t.name := by
    rw [ht, List.map_append, List.nodup_append]
    simp only [List.map_cons, List.map_nil, List.nodup_singleton, true_and, List.mem_singleton, List.mem_map, forall_exists_index, and_imp, forall_apply_eq_imp_iff₂, forall_eq]
  constructor
  · rintro ⟨h1, h2, h3, h4, h5, h6⟩
    rw [hnodup] at h1
    rw [hmem] at h2 h3 h4
    refine ⟨⟨h1.1, h2.1, h3.1, h4.1, fun pre n d us post h => ?_, by rwa [hm] at h6⟩, h2.2, (boundsOk_iff t).2 ⟨h3.2, h4.2⟩, h1.2⟩
    exact h5 pre n d us (post ++ [.data t]) (by rw [h]; simp)
  · rintro ⟨⟨h1, h2, h3, h4, h5, h6⟩, h7, h8, h9⟩
    rw [boundsOk_iff] at h8
    refine ⟨hnodup.2 ⟨h1, h9⟩, hmem.2 ⟨h2, h7⟩, hmem.2 ⟨h3, h8.1⟩, hmem.2 ⟨h4, h8.2⟩, fun pre n d us post h => ?_, by rwa [hm]⟩
    rcases split_last h with ⟨-, h, -⟩ | ⟨post', -, h⟩
    · exact Item.noConfusion h
    · exact h5 pre n d us post' h

theorem Valid.mesh {debug : Bool} {doc : List Item} {n : String} {d : ℕ} {us : List String} : Valid debug (doc ++ [.mesh n d us]) ↔
    Valid debug doc ∧ us.Nodup ∧ (∀ u ∈ us, ∃ t ∈ tags doc, t.name = u) ∧ (debug = true → n ∉ (meshTags doc).map MeshTag.name ∧ n ≠ "") := by
  have ht : tags (doc ++ [.mesh n d us]) = tags doc := (tags_append _ _).trans (List.append_nil _)
  have hm : (meshTags (doc ++ [.mesh n d us])).map MeshTag.name = (meshTags doc).map MeshTag.name ++ [n] := by
    rw [meshTags_append, List.map_append]
    rfl
  constructor
  · rintro ⟨h1, h2, h3, h4, h5, h6⟩
    rw [ht] at h1 h2 h3 h4
    rw [hm] at h6
    refine ⟨⟨h1, h2, h3, h4, fun pre n' d' us' post h => ?_, fun hd => ?_⟩, (h5 doc n d us [] rfl).1, (h5 doc n d us [] rfl).2, fun hd => ?_⟩
    · exact h5 pre n' d' us' (post ++ [.mesh n d us]) (by rw [h]; simp)
    · obtain ⟨a, b⟩ := h6 hd
      rw [List.nodup_append] at a
      exact ⟨a.1, fun h => b (List.mem_append_left _ h)⟩
    · obtain ⟨a, b⟩ := h6 hd
      rw [List.nodup_append] at a
      exact ⟨fun h => a.2.2 n h n (by simp) rfl, fun h => b (by simp [h])⟩
  · rintro ⟨⟨h1, h2, h3, h4, h5, h6⟩, h7, h8, h9⟩
    refine ⟨by rwa [ht], by rwa [ht], by rwa [ht], by rwa [ht], fun pre n' d' us' post h => ?_, fun hd => ?_⟩
    · rcases split_last h with ⟨-, h', rfl⟩ | ⟨post', -, h⟩
      · obtain ⟨rfl, rfl, rfl⟩ := Item.mesh.inj h'
        exact ⟨h7, h8⟩
      · exact h5 pre n' d' us' post' h
    · rw [hm]
      obtain ⟨a, b⟩ := h6 hd
      obtain ⟨c, e⟩ := h9 hd
      refine ⟨List.nodup_append.2 ⟨a, by simp, fun x hx y hy hxy => ?_⟩, fun h => ?_⟩
      · rw [List.mem_singleton] at hy
        subst hy
        exact c (hxy ▸ hx)
      · rcases List.mem_append.1 h with h | h
        · exact b h
        · rw [List.mem_singleton] at h
          exact e h.symm

theorem used_iff (ts : List DataTag) (u : String) : (∃ c ∈ ts.map conf, c.name = u) ↔ ∃ t ∈ ts, t.name = u := by
  constructor
  · rintro ⟨c, hc, hn⟩
    obtain ⟨t, ht, rfl⟩ := List.mem_map.1 hc
    exact ⟨t, ht, hn⟩
  · rintro ⟨t, ht, hn⟩
    exact ⟨conf t, List.mem_map_of_mem ht, hn⟩

/-- both directions by induction over the document -/
theorem configure_main (debug : Bool) (doc : List Item) : (∀ s, configure debug doc = .ok s → Valid debug doc ∧ Inv debug doc s) ∧ (Valid debug doc → ∃ s, configure debug doc = .ok s) := by
  induction doc using List.reverseRecOn with
  | nil =>
    refine ⟨fun s h => ?_, fun _ => ⟨_, rfl⟩⟩
    obtain rfl : init = s := Except.ok.inj h
    refine ⟨⟨by simp [tags], by simp [tags], by simp [tags], by simp [tags], fun pre n d us post h => ?_, by simp [meshTags]⟩, rfl, fun n => rfl, .nil, rfl, rfl⟩
    exact absurd h.symm (by simp)
  | append_singleton doc i ih =>
    obtain ⟨ih1, ih2⟩ := ih
    rw [configure_concat]
    cases i with
    | data t =>
      have ht : tags (doc ++ [.data t]) = tags doc ++ [t] := tags_append _ _
      have hm : meshTags (doc ++ [.data t]) = meshTags doc := (meshTags_append _ _).trans (List.append_nil _)
      have hnames : ∀ s : State, s.data = (tags doc).map conf → ((∀ c ∈ s.data, c.name ≠ t.name) ↔ ∀ t' ∈ tags doc, t'.name ≠ t.name) := by
        intro s hs
        rw [hs]
        simp [conf]
      constructor
      · intro s h
        obtain ⟨s0, h0, h1⟩ := bind_ok h
        obtain ⟨hv, hi⟩ := ih1 s0 h0
        obtain ⟨a, b, c, rfl⟩ := (data_ok debug s0 s t).1 h1
        refine ⟨Valid.data.2 ⟨hv, a, b, (hnames s0 hi.data).1 c⟩, ?_, ?_, ?_, hi.meshIds, hi.dataIds⟩
        · simp [ht, hi.data]
        · rw [hm]
          exact hi.dims
        · rw [hm, ht]
          exact hi.meshes.imp fun _ _ h => h.mono fun t' h' => List.mem_append_left _ h'
      · intro h
        obtain ⟨hv, a, b, c⟩ := Valid.data.1 h
        obtain ⟨s0, h0⟩ := ih2 hv
        rw [h0]
        exact ⟨_, (data_ok debug s0 _ t).2 ⟨a, b, (hnames s0 (ih1 s0 h0).2.data).2 c, rfl⟩⟩
    | mesh n d us =>
      have ht : tags (doc ++ [.mesh n d us]) = tags doc := (tags_append _ _).trans (List.append_nil _)
      have hm : meshTags (doc ++ [.mesh n d us]) = meshTags doc ++ [⟨n, d, us⟩] := meshTags_append _ _
      have hfresh : ∀ s : State, (∀ n, s.dims.lookup n = firstDims (meshTags doc) n) → ((s.dims.lookup n).isSome = false ↔ n ∉ (meshTags doc).map MeshTag.name) := by
        intro s hs
        rw [hs, ← firstDims_isSome, Bool.not_eq_true]
      constructor
      · intro s h
        obtain ⟨s0, h0, h1⟩ := bind_ok h
        obtain ⟨hv, hi⟩ := ih1 s0 h0
        obtain ⟨a, b, c, rfl⟩ := (mesh_ok debug s0 s n d us).1 h1
        rw [hi.data] at b
        refine ⟨Valid.mesh.2 ⟨hv, c, fun u hu => (used_iff _ u).1 (b u hu), fun hd => ⟨(hfresh s0 hi.dims).1 (a hd).1, (a hd).2⟩⟩, ?_, ?_, ?_, ?_, ?_⟩
        · rw [ht]
          exact hi.data
        · intro n'
          rw [hm, firstDims_append]
          exact (insertDims_lookup _ _ _ _).trans (by rw [hi.dims])
        · rw [hm, ht]
          refine List.rel_append ?_ (.cons ⟨rfl, rfl, ?_⟩ .nil)
          · refine List.Forall₂.imp ?_ (List.forall₂_iff_zip.2 ⟨hi.meshes.length_eq, fun {i m} him => ⟨(List.of_mem_zip him).1, (List.forall₂_iff_zip.1 hi.meshes).2 him⟩⟩ :
              List.Forall₂ (fun i m => i ∈ meshTags doc ∧ MeshMatches (tags doc) ((firstDims (meshTags doc) i.name).getD 0) i m) (meshTags doc) s0.meshes)
            rintro i m ⟨hmem, hmm⟩
            have : (firstDims (meshTags doc) i.name).isSome = true := (firstDims_isSome _ _).2 (List.mem_map_of_mem hmem)
            obtain ⟨D, hD⟩ := Option.isSome_iff_exists.1 this
            rw [firstDims_append, hD]
            rw [hD] at hmm
            exact hmm
          · have : (insertDims s0.dims n d).lookup n = firstDims (meshTags doc ++ [⟨n, d, us⟩]) n := by
              rw [insertDims_lookup, firstDims_append, hi.dims]
            rw [this, hi.data]
            exact madeAll_matches _ _ _ _ _ b
        · rw [List.map_append, hi.meshIds, List.range_succ]
          rfl
        · rw [List.flatMap_append, List.map_append, hi.dataIds]
          simp only [List.flatMap_cons, List.flatMap_nil, List.append_nil]
          rw [madeAll_ids, List.range_eq_range', List.range_eq_range']
          simpa using List.range'_append_1 (s := 0) (m := s0.nextData) (n := us.length)
      · intro h
        obtain ⟨hv, a, b, c⟩ := Valid.mesh.1 h
        obtain ⟨s0, h0⟩ := ih2 hv
        have hi := (ih1 s0 h0).2
        rw [h0]
        refine ⟨_, (mesh_ok debug s0 _ n d us).2 ⟨fun hd => ⟨(hfresh s0 hi.dims).2 (c hd).1, (c hd).2⟩, fun u hu => ?_, a, rfl⟩⟩
        rw [hi.data]
        exact (used_iff _ u).2 (b u hu)

/-! ## Theorems -/

/-- **Which documents are accepted.** Exactly those with data of different names, degrees which are not negative, ordered
bounds, and meshes which use data that is defined before and at most once. Meshes with the same name are only noticed by
builds with assertions. -/
theorem C129_accepts (debug : Bool) (doc : List Item) : (∃ s, configure debug doc = .ok s) ↔ Valid debug doc :=
  ⟨fun ⟨s, h⟩ => ((configure_main debug doc).1 s h).1, (configure_main debug doc).2⟩

theorem firstDims_nodup {ms : List MeshTag} (hn : (ms.map MeshTag.name).Nodup) {i : MeshTag} (hi : i ∈ ms) : firstDims ms i.name = some i.dims := by
  unfold firstDims
  have : ms.find? (fun j => j.name == i.name) = some i := by
    induction ms with
    | nil => exact absurd hi (by simp)
    | cons j ms ih =>
      rw [List.map_cons, List.nodup_cons] at hn
      rcases List.mem_cons.1 hi with rfl | hi
      · simp
      · rw [List.find?_cons_of_neg, ih hn.2 hi]
        intro h
        have h' : j.name = i.name := by simpa using h
        exact hn.1 (h' ▸ List.mem_map_of_mem hi)
  rw [this]
  rfl

/-- **Meshes and data are the ones of the tags**, in their order: a mesh has the dimensions of its tag and exactly the data it
uses, and this has the degree, the bounds and the number of components of its data tag. Missing: names of meshes must
differ, which is not checked without assertions (`C129_duplicate_mesh`), and bounds of components which a mesh does not have
are not noticed (`C129_dropped_bound`). -/
theorem C129_describes_partial (debug : Bool) (doc : List Item) (hn : ((meshTags doc).map MeshTag.name).Nodup) (s : State) (h : configure debug doc = .ok s) :
    List.Forall₂ (fun i m => MeshMatches (tags doc) i.dims i m) (meshTags doc) s.meshes := by
  have hi := ((configure_main debug doc).1 s h).2.meshes
  refine List.forall₂_iff_zip.2 ⟨hi.length_eq, fun {i m} him => ?_⟩
  have := (List.forall₂_iff_zip.1 hi).2 him
  rwa [firstDims_nodup hn (List.of_mem_zip him).1] at this

/-- **Identifiers**: no two meshes and no two data of any meshes have the same identifier. -/
theorem C129_ids (debug : Bool) (doc : List Item) (s : State) (h : configure debug doc = .ok s) :
    (s.meshes.map Mesh.id).Nodup ∧ ((s.meshes.flatMap Mesh.data).map Data.id).Nodup := by
  have hi := ((configure_main debug doc).1 s h).2
  rw [hi.meshIds, hi.dataIds]
  exact ⟨List.nodup_range, List.nodup_range⟩

theorem forall₂_mem_left {α β : Type} {R : α → β → Prop} {l : List α} {l' : List β} (h : List.Forall₂ R l l') {a : α} (ha : a ∈ l) : ∃ b ∈ l', R a b := by
  induction h with
  | nil => exact absurd ha (by simp)
  | cons hr _ ih =>
    rcases List.mem_cons.1 ha with rfl | ha
    · exact ⟨_, by simp, hr⟩
    · obtain ⟨b, hb, hr⟩ := ih ha
      exact ⟨b, by simp [hb], hr⟩

theorem find_key {α : Type} {l : List α} {key : α → String} (hn : (l.map key).Nodup) {a : α} (ha : a ∈ l) : l.find? (fun b => key b == key a) = some a := by
  induction l with
  | nil => exact absurd ha (by simp)
  | cons b l ih =>
    rw [List.map_cons, List.nodup_cons] at hn
    rcases List.mem_cons.1 ha with rfl | ha
    · simp
    · rw [List.find?_cons_of_neg, ih hn.2 ha]
      intro h
      have h' : key b = key a := by simpa using h
      exact hn.1 (h' ▸ List.mem_map_of_mem ha)

/-- **Names find what they name.** With the name of a mesh tag one gets its mesh, and with a name it uses the data of the tag
with this name. -/
theorem C129_lookup (debug : Bool) (doc : List Item) (hn : ((meshTags doc).map MeshTag.name).Nodup) (s : State) (h : configure debug doc = .ok s) (i : MeshTag) (hi : i ∈ meshTags doc) :
    ∃ m, s.getMesh i.name = some m ∧ m.dims = i.dims ∧ (∀ u ∈ i.uses, ∃ t ∈ tags doc, t.name = u ∧ ∃ d, m.getData u = some d ∧ Matches t i.dims i.dims d) ∧
      ∀ u ∉ i.uses, m.getData u = none := by
  have hd := C129_describes_partial debug doc hn s h
  have hv := ((configure_main debug doc).1 s h).1
  obtain ⟨m, hm, hmm⟩ := forall₂_mem_left hd hi
  have hnames : s.meshes.map Mesh.name = (meshTags doc).map MeshTag.name := by
    have : List.Forall₂ (fun (i : MeshTag) (m : Mesh) => m.name = i.name) (meshTags doc) s.meshes := hd.imp fun _ _ h => h.name
    clear hd hi hm hmm hn
    generalize meshTags doc = l at this
    generalize s.meshes = l' at this
    induction this with
    | nil => rfl
    | cons e _ ih => rw [List.map_cons, List.map_cons, e, ih]
  have hdnames : m.data.map Data.name = i.uses := by
    have := hmm.data
    clear hmm hm
    generalize m.data = l at this
    generalize i.uses = us at this
    induction this with
    | nil => rfl
    | cons e _ ih =>
      obtain ⟨t, -, e1, e2⟩ := e
      rw [List.map_cons, ih, e2.name, e1]
  have hus : i.uses.Nodup := by
    unfold meshTags at hi
    obtain ⟨x, hx, hxi⟩ := List.mem_filterMap.1 hi
    obtain ⟨pre, post, hp⟩ := List.append_of_mem hx
    cases x with
    | data t => exact absurd hxi (by simp)
    | mesh n d us =>
      obtain rfl := Option.some.inj hxi
      exact (hv.uses pre n d us post hp).1
  refine ⟨m, ?_, hmm.dims, fun u hu => ?_, fun u hu => ?_⟩
  · unfold State.getMesh
    rw [← hmm.name]
    exact find_key (key := Mesh.name) (hnames ▸ hn) hm
  · obtain ⟨d, hdm, t, ht, e1, e2⟩ := forall₂_mem_left hmm.data hu
    refine ⟨t, ht, e1, d, ?_, e2⟩
    unfold Mesh.getData
    rw [← e1, ← e2.name]
    exact find_key (key := Data.name) (hdnames ▸ hus) hdm
  · unfold Mesh.getData
    rw [List.find?_eq_none]
    intro d hd' he
    have he' : d.name = u := by simpa using he
    exact hu (hdnames ▸ he' ▸ List.mem_map_of_mem hd')

theorem forall₂_mem_right {α β : Type} {R : α → β → Prop} {l : List α} {l' : List β} (h : List.Forall₂ R l l') {b : β} (hb : b ∈ l') : ∃ a ∈ l, R a b := by
  obtain ⟨a, ha, hr⟩ := forall₂_mem_left h.flip hb
  exact ⟨a, ha, hr⟩

/-- The data as the acceleration sees it -/
def Data.bounded (d : Data) (vertices steps : ℕ) : Verif.Accel.BoundedData := ⟨d.dim, d.dim * vertices, steps, d.lower, d.upper⟩

/-- **Bounds are consistent**: no lower bound of data on a mesh is above its upper bound, which is what keeping values in
their bounds relies on (C76). -/
theorem C129_bounds (debug : Bool) (doc : List Item) (hdims : ∀ i ∈ meshTags doc, i.dims = 2 ∨ i.dims = 3) (s : State) (h : configure debug doc = .ok s) (m : Mesh) (hm : m ∈ s.meshes)
    (d : Data) (hd : d ∈ m.data) (vertices steps : ℕ) : (d.bounded vertices steps).Ordered := by
  obtain ⟨hv, hi⟩ := (configure_main debug doc).1 s h
  obtain ⟨i, him, hmm⟩ := forall₂_mem_right hi.meshes hm
  obtain ⟨u, -, t, ht, -, hmt⟩ := forall₂_mem_right hmm.data hd
  have hcomp : components t.kind ((firstDims (meshTags doc) i.name).getD 0) ≤ 3 ∧ 0 < components t.kind ((firstDims (meshTags doc) i.name).getD 0) := by
    obtain ⟨D, hD⟩ := Option.isSome_iff_exists.1 ((firstDims_isSome (meshTags doc) i.name).2 (List.mem_map_of_mem him))
    rw [hD]
    unfold firstDims at hD
    rw [Option.map_eq_some_iff] at hD
    obtain ⟨j, hj, rfl⟩ := hD
    have := hdims j (List.mem_of_find?_eq_some hj)
    unfold components
    cases t.kind
    · simp
    · simp only [Option.getD_some]
      omega
  intro k a b ha hb
  rw [← hmt.dim] at hcomp
  have hk : k % d.dim < d.dim := Nat.mod_lt _ hcomp.2
  have hk3 : k % d.dim < 3 := lt_of_lt_of_le hk hcomp.1
  have e1 := hmt.lower ⟨k % d.dim, hk3⟩ hk
  have e2 := hmt.upper ⟨k % d.dim, hk3⟩ hk
  unfold Verif.Accel.BoundedData.lo Data.bounded at ha
  unfold Verif.Accel.BoundedData.hi Data.bounded at hb
  simp only [List.getD_eq_getElem?_getD, e1, e2, Option.getD_some] at ha hb
  generalize hc : (⟨k % d.dim, hk3⟩ : Fin 3) = c at ha hb
  have ha' : t.lower c = .fin a := by
    cases hl : t.lower c <;> rw [hl] at ha <;> simp [bound] at ha
    rw [ha]
  have hb' : t.upper c = .fin b := by
    cases hl : t.upper c <;> rw [hl] at hb <;> simp [bound] at hb
    rw [hb]
  cases hkind : t.kind with
  | vector => exact hv.vector t ht hkind c a b ha' hb'
  | scalar =>
    have hdim : d.dim = 1 := by rw [hmt.dim, hkind]; rfl
    have hc0 : c = 0 := by
      rw [← hc]
      ext
      simp only [hdim, Nat.mod_one]
      rfl
    subst hc0
    obtain ⟨-, -, hh⟩ := hv.scalar t ht hkind
    rw [ha', hb'] at hh
    simpa using hh

end Verif.Config.Dataset
