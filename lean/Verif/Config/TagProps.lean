import Verif.Config.TagLemmas
import Verif.Config.Value

/-!
# The configuration is validated and handed over element by element (C107)
-/

set_option autoImplicit false

namespace Verif.Config

variable {V : Type}

/-! ## One element -/

/-- The tags and their names are as expected. -/
structure Ready (ts : List (Tag V)) : Prop where
  sized : ∀ t ∈ ts, t.Sized
  distinct : Distinct ts
  schema : ∀ t ∈ ts, t.schema.WellFormed

theorem Ready.after {names : List String} {ts us : List (Tag V)} (h : Ready ts) (ha : List.Forall₂ (After names) ts us) : Ready us := by
  have hm := forall₂_names ha
  refine ⟨forall₂_sized ha, ?_, ?_⟩
  · rw [distinct_iff, hm, ← distinct_iff]
    exact h.distinct
  · intro u hu
    have : u.schema ∈ us.map Tag.schema := List.mem_map_of_mem hu
    rw [hm, List.mem_map] at this
    obtain ⟨t, ht, he⟩ := this
    rw [← he]
    exact h.schema t ht

theorem Ready.inner {ts : List (Tag V)} (h : Ready ts) {t : Tag V} (ht : t ∈ ts) : Ready t.reset.subs := by
  have hw := h.schema t ht
  have hs := h.sized t ht
  have hm : t.reset.subs.map Tag.schema = t.schema.subs := by rw [← reset_schema, schema_subs]
  cases hsch : t.schema with
  | mk info subs =>
    rw [hsch] at hw hm
    cases hw with
    | mk names required read inner =>
      refine ⟨?_, ?_, ?_⟩
      · have := reset_sized t hs
        cases hr : t.reset with
        | mk i c s v l =>
          rw [hr] at this
          cases this with
          | mk _ inner => exact inner
      · rw [distinct_iff, hm]
        exact names
      · intro u hu
        have : u.schema ∈ t.reset.subs.map Tag.schema := List.mem_map_of_mem hu
        rw [hm] at this
        exact inner _ this

theorem Ready.eq_of_name {ts : List (Tag V)} (h : Ready ts) {t u : Tag V} (ht : t ∈ ts) (hu : u ∈ ts) (hn : t.info.name = u.info.name) : t = u := by
  have h1 := findTag_mem h.distinct ht
  rw [hn, findTag_mem h.distinct hu] at h1
  exact (Option.some.inj h1).symm

theorem subtags_ok {names : List String} {l m : List (Tag V)} (ha : List.Forall₂ (After names) l m) (hf : ∀ t ∈ l, t.configured = false)
    (hn : ∀ t ∈ l, Required t.info.occurrence → t.info.ns = "") (spaces : String → Bool) :
    m.all (subtagConfigured spaces) = true ↔ ∀ t ∈ l, Required t.info.occurrence → t.info.name ∈ names := by
  induction ha with
  | nil => simp
  | @cons t u l m h _ ih =>
    have hu : subtagConfigured spaces u = true ↔ (Required t.info.occurrence → t.info.name ∈ names) := by
      have hc : u.configured = decide (t.info.name ∈ names) := by rw [h.2.2, hf t (by simp)]; simp
      unfold subtagConfigured
      rw [after_info h]
      by_cases hr : Required t.info.occurrence
      · have hns := hn t (by simp) hr
        have hr' : (decide (t.info.occurrence = .once) || decide (t.info.occurrence = .onceOrMore)) = true := by
          rcases hr with h | h <;> simp [h]
        simp [hns, hr', hr, hc]
      · have h1 : t.info.occurrence ≠ .once := fun h => hr (.inl h)
        have h2 : t.info.occurrence ≠ .onceOrMore := fun h => hr (.inr h)
        simp [h1, h2, hr]
    rw [List.all_cons, Bool.and_eq_true, hu, ih (fun x hx => hf x (by simp [hx])) fun x hx => hn x (by simp [hx])]
    simp

theorem accepted_name {s : Schema V} {n : Node} {e : List (Event V)} (h : Accepted s n e) : s.info.name = n.name := by
  cases h
  rfl

theorem required_ns {ts : List (Tag V)} (hts : Ready ts) {t : Tag V} (ht : t ∈ ts) :
    ∀ u ∈ t.reset.subs, Required u.info.occurrence → u.info.ns = "" := by
  have hw := hts.schema t ht
  have hm : t.reset.subs.map Tag.schema = t.schema.subs := by rw [← reset_schema, schema_subs]
  cases hsch : t.schema with
  | mk info subs =>
    rw [hsch] at hw hm
    cases hw with
    | mk names required read inner =>
      intro u hu
      have := required u.schema (by
        have : u.schema ∈ t.reset.subs.map Tag.schema := List.mem_map_of_mem hu
        rw [hm] at this
        exact this)
      rw [schema_info] at this
      exact this

theorem reset_subs_configured (t : Tag V) : ∀ u ∈ t.reset.subs, u.configured = false := by
  intro u hu
  rw [reset_subs, List.mem_map] at hu
  obtain ⟨v, _, rfl⟩ := hu
  exact reset_configured v

/-- How often the tags may still occur. -/
def Allowed (ts : List (Tag V)) (used : List String) (l : List Node) : Prop :=
  ∀ t ∈ ts, Single t.info.occurrence → count t.info.name l ≤ 1 ∧ (t.info.name ∈ used → count t.info.name l = 0)

theorem count_cons (name : String) (n : Node) (l : List Node) : count name (n :: l) = count name l + if n.name = name then 1 else 0 := by
  unfold count
  rw [List.countP_cons]
  simp

theorem allowed_cons {ts us : List (Tag V)} (hts : Ready ts) {t : Tag V} (ht : t ∈ ts) {used : List String} {n : Node} {l : List Node} (hn : t.info.name = n.name)
    (ha : List.Forall₂ (After [n.name]) ts us) :
    Allowed ts used (n :: l) ↔ (Single t.info.occurrence → n.name ∉ used) ∧ Allowed us (if Single t.info.occurrence then n.name :: used else used) l := by
  have hus : ∀ P : Info V → Prop, (∀ u ∈ us, P u.info) ↔ ∀ u ∈ ts, P u.info := by
    intro P
    have hm := forall₂_names ha
    have : us.map Tag.info = ts.map Tag.info := by
      have h1 : ∀ m : List (Tag V), m.map Tag.info = (m.map Tag.schema).map Schema.info := by
        intro m
        rw [List.map_map]
        simp only [Function.comp_def, schema_info]
      rw [h1, h1, hm]
    rw [← List.forall_mem_map, this, List.forall_mem_map]
  unfold Allowed
  rw [hus fun i => Single i.occurrence → count i.name l ≤ 1 ∧ (i.name ∈ (if Single t.info.occurrence then n.name :: used else used) → count i.name l = 0)]
  constructor
  · intro h
    refine ⟨?_, ?_⟩
    · intro hs hu
      have := (h t ht hs).2 (by rw [hn]; exact hu)
      rw [count_cons, hn, if_pos rfl] at this
      omega
    · intro u hu hs
      have h1 := h u hu hs
      rw [count_cons] at h1
      refine ⟨by omega, ?_⟩
      intro hin
      by_cases hsame : n.name = u.info.name
      · rw [if_pos hsame] at h1
        omega
      · rw [if_neg hsame] at h1
        refine h1.2 ?_
        split at hin
        · rw [List.mem_cons] at hin
          rcases hin with hin | hin
          · exact absurd hin.symm hsame
          · exact hin
        · exact hin
  · rintro ⟨h1, h2⟩ u hu hs
    rw [count_cons]
    have h3 := h2 u hu hs
    by_cases hsame : n.name = u.info.name
    · have hut : u = t := hts.eq_of_name hu ht (by rw [hn, hsame])
      subst hut
      rw [if_pos hs] at h3
      rw [if_pos hsame]
      have h4 := h3.2 (by rw [hsame]; simp)
      refine ⟨by omega, fun h => ?_⟩
      rw [← hsame] at h
      exact absurd h (h1 hs)
    · rw [if_neg hsame]
      refine ⟨by omega, fun h => ?_⟩
      have h4 := h3.2 (by split <;> simp [h])
      omega

variable [DecidableEq V]

theorem count_pos {name : String} {l : List Node} : 1 ≤ count name l ↔ name ∈ l.map Node.name := by
  unfold count
  rw [Nat.one_le_iff_ne_zero, ← Nat.pos_iff_ne_zero, List.countP_pos_iff, List.mem_map]
  simp

/-- What `connectNode` does when the attributes are read and the inner elements are accepted. -/
theorem connectNode_ok {ts : List (Tag V)} (hts : Ready ts) {used used' : List String} {name : String} {given : List (String × String)} {kids : List Node}
    {us : List (Tag V)} {events : List (Event V)} :
    connectNode ts used (.mk name given kids) = .ok (us, used', events) ↔
      ∃ t ∈ ts, t.info.name = name ∧ name ≠ "solver-interface" ∧ ((Single t.info.occurrence → name ∉ used) ∧
        used' = if Single t.info.occurrence then name :: used else used) ∧
        ∃ values, ((∀ g ∈ given, g.1 ∈ t.info.attrs.map Attr.name) ∧ List.Forall₂ (Gives given) t.info.attrs values) ∧
          ∃ subs inner, connectNodes t.reset.subs [] kids = .ok (subs, inner) ∧
            subs.all (subtagConfigured fun s => if s = t.info.ns then true else t.reset.spaces s) = true ∧
            us = storeTag (.mk t.info true (fun s => if s = t.info.ns then true else t.reset.spaces s) values subs) ts ∧
            events = .start name values :: (inner ++ [.stop name]) := by
  rw [connectNode]
  by_cases hsi : name = "solver-interface"
  · rw [if_pos hsi]
    constructor
    · rintro ⟨⟩
    · rintro ⟨t, _, _, h, _⟩
      exact absurd hsi h
  rw [if_neg hsi]
  cases hf : findTag name ts with
  | none =>
    simp only
    constructor
    · rintro ⟨⟩
    · rintro ⟨t, ht, rfl, _⟩
      rw [findTag_mem hts.distinct ht] at hf
      cases hf
  | some t =>
    obtain ⟨ht, hn⟩ := findTag_some hf
    have key : ∀ P : Tag V → Prop, (∃ t ∈ ts, t.info.name = name ∧ P t) ↔ P t := by
      intro P
      constructor
      · rintro ⟨u, hu, hun, h⟩
        rw [hts.eq_of_name ht hu (hn.trans hun.symm)]
        exact h
      · exact fun h => ⟨t, ht, hn, h⟩
    rw [key]
    simp only [reset_info]
    have hread : ∀ vs, readAttributes given t.info.attrs t.reset.values = .ok vs ↔
        (∀ g ∈ given, g.1 ∈ t.info.attrs.map Attr.name) ∧ List.Forall₂ (Gives given) t.info.attrs vs := by
      intro vs
      refine readAttributes_ok ?_ ?_ vs
      · have := hts.schema t ht
        cases t with
        | mk i c s v l =>
          rw [Tag.schema] at this
          cases this with
          | mk _ _ read _ => exact read
      · have := hts.sized t ht
        cases t with
        | mk i c s v l =>
          cases this with
          | mk len _ => exact len
    cases hu : useTag t.info used with
    | error e =>
      simp only
      constructor
      · rintro ⟨⟩
      · rintro ⟨_, h, _⟩
        rw [← hn, ← useTag_ok, hu] at h
        cases h
    | ok used'' =>
      simp only
      have hu' := useTag_ok.1 hu
      rw [hn] at hu'
      cases hr : readAttributes given t.info.attrs t.reset.values with
      | error e =>
        simp only
        constructor
        · rintro ⟨⟩
        · rintro ⟨_, _, vs, h, _⟩
          rw [← hread, hr] at h
          cases h
      | ok values =>
        simp only
        have hr' := (hread values).1 hr
        cases hc : connectNodes t.reset.subs [] kids with
        | error e =>
          simp only
          constructor
          · rintro ⟨⟩
          · rintro ⟨_, _, _, _, _, _, h, _⟩
            cases h
        | ok p =>
          obtain ⟨subs, inner⟩ := p
          simp only
          split
          · next hall =>
            rw [Except.ok.injEq, Prod.mk.injEq, Prod.mk.injEq]
            constructor
            · rintro ⟨rfl, rfl, rfl⟩
              exact ⟨hsi, hu', values, hr', subs, inner, rfl, hall, rfl, rfl⟩
            · rintro ⟨_, h1, vs, h2, s', i', h3, h4, h5, h6⟩
              have hvs : vs = values := by
                rw [← hread, hr] at h2
                exact (Except.ok.inj h2).symm
              cases h3
              subst hvs
              exact ⟨h5.symm, hu'.2.trans h1.2.symm, h6.symm⟩
          · next hall =>
            constructor
            · rintro ⟨⟩
            · rintro ⟨_, _, vs, _, s', i', h3, h4, _⟩
              cases h3
              exact absurd h4 hall

mutual

theorem sound_node : ∀ (n : Node) {ts us : List (Tag V)} {used used' : List String} {events : List (Event V)}, Ready ts →
    connectNode ts used n = .ok (us, used', events) →
    ∃ t ∈ ts, t.info.name = n.name ∧ Accepted t.schema n events ∧ (Single t.info.occurrence → n.name ∉ used) ∧
      used' = (if Single t.info.occurrence then n.name :: used else used) ∧ List.Forall₂ (After [n.name]) ts us
  | .mk name given kids, ts, us, used, used', events, hts, h => by
    rw [connectNode_ok hts] at h
    obtain ⟨t, ht, hn, hsi, ⟨hu1, hu2⟩, values, ⟨hk, hv⟩, subs, inner, hc, hall, rfl, rfl⟩ := h
    obtain ⟨hin, haft, hocc⟩ := sound_nodes kids (hts.inner ht) hc
    rw [subtags_ok haft (reset_subs_configured t) (required_ns hts ht)] at hall
    have hm : t.reset.subs.map Tag.schema = t.subs.map Tag.schema := by rw [← schema_subs, reset_schema, schema_subs]
    have hsch : t.schema = .mk t.info (t.subs.map Tag.schema) := by
      cases t
      rw [Tag.schema, schemas_eq]
      rfl
    refine ⟨t, ht, hn, ?_, hu1, hu2, ?_⟩
    · rw [hsch, ← hn]
      refine .mk (by rw [hn]; exact hsi) hk hv (by rw [← hm]; exact hin) ?_
      rw [← hm]
      intro s hs
      rw [List.mem_map] at hs
      obtain ⟨u, hu, rfl⟩ := hs
      rw [schema_info, occurs_iff]
      exact ⟨fun h => (hocc u hu h).1, fun h => count_pos.2 (hall u hu h)⟩
    · rw [Node.name, ← hn]
      refine store_after hts.sized hts.distinct ht ?_ ?_ rfl
      · rw [hsch, Tag.schema, schemas_eq, forall₂_names haft, hm]
      · refine .mk ?_ (forall₂_sized haft)
        exact hv.length_eq.symm

theorem sound_nodes : ∀ (l : List Node) {ts us : List (Tag V)} {used : List String} {events : List (Event V)}, Ready ts →
    connectNodes ts used l = .ok (us, events) →
    AcceptedAll (ts.map Tag.schema) l events ∧ List.Forall₂ (After (l.map Node.name)) ts us ∧ Allowed ts used l
  | [], ts, us, used, events, hts, h => by
    rw [connectNodes, Except.ok.injEq, Prod.mk.injEq] at h
    obtain ⟨rfl, rfl⟩ := h
    exact ⟨.nil, after_refl hts.sized, fun t _ _ => ⟨by simp [count], by simp [count]⟩⟩
  | n :: l, ts, us, used, events, hts, h => by
    rw [connectNodes] at h
    cases h1 : connectNode ts used n with
    | error e => rw [h1] at h; cases h
    | ok r =>
      obtain ⟨us1, used1, e1⟩ := r
      rw [h1] at h
      simp only at h
      cases h2 : connectNodes us1 used1 l with
      | error e => rw [h2] at h; cases h
      | ok r2 =>
        obtain ⟨us2, e2⟩ := r2
        rw [h2] at h
        simp only [Except.ok.injEq, Prod.mk.injEq] at h
        obtain ⟨rfl, rfl⟩ := h
        obtain ⟨t, ht, hn, hacc, hu1, hu2, haft⟩ := sound_node n hts h1
        obtain ⟨hall, haft2, hallow⟩ := sound_nodes l (hts.after haft) h2
        rw [forall₂_names haft] at hall
        refine ⟨.cons (List.mem_map_of_mem ht) hacc hall, forall₂_trans haft haft2, ?_⟩
        rw [allowed_cons hts ht hn haft, ← hu2]
        exact ⟨hu1, hallow⟩

end

mutual

theorem complete_node : ∀ (n : Node) {ts : List (Tag V)} {used : List String} {events : List (Event V)}, Ready ts → ∀ t ∈ ts,
    Accepted t.schema n events → (Single t.info.occurrence → n.name ∉ used) → ∃ us used', connectNode ts used n = .ok (us, used', events)
  | .mk name given kids, ts, used, events, hts, t, ht, hacc, hu => by
    have hsch : t.schema = .mk t.info (t.subs.map Tag.schema) := by
      cases t
      rw [Tag.schema, schemas_eq]
      rfl
    have hm : t.reset.subs.map Tag.schema = t.subs.map Tag.schema := by rw [← schema_subs, reset_schema, schema_subs]
    rw [hsch] at hacc
    generalize hi : t.info = info at hacc
    generalize hs : t.subs.map Tag.schema = subs at hacc hm
    cases hacc with
    | mk current known attrs inner occurs =>
      have hallow : Allowed t.reset.subs [] kids := by
        intro u hu hsing
        have := occurs u.schema (by rw [← hm]; exact List.mem_map_of_mem hu)
        rw [schema_info, occurs_iff] at this
        exact ⟨this.1 hsing, by simp⟩
      obtain ⟨subs', hc⟩ := complete_nodes kids (hts.inner ht) (by rw [hm]; exact inner) hallow
      obtain ⟨_, haft, _⟩ := sound_nodes kids (hts.inner ht) hc
      have hall : subs'.all (subtagConfigured fun s => if s = t.info.ns then true else t.reset.spaces s) = true := by
        rw [subtags_ok haft (reset_subs_configured t) (required_ns hts ht)]
        intro u hu hreq
        have := occurs u.schema (by rw [← hm]; exact List.mem_map_of_mem hu)
        rw [schema_info, occurs_iff] at this
        exact count_pos.1 (this.2 hreq)
      refine ⟨_, _, (connectNode_ok hts).2 ⟨t, ht, by rw [hi], current, ⟨hu, rfl⟩, _, ⟨by rw [hi]; exact known, by rw [hi]; exact attrs⟩, subs', _, hc, hall, rfl, rfl⟩⟩

theorem complete_nodes : ∀ (l : List Node) {ts : List (Tag V)} {used : List String} {events : List (Event V)}, Ready ts →
    AcceptedAll (ts.map Tag.schema) l events → Allowed ts used l → ∃ us, connectNodes ts used l = .ok (us, events)
  | [], ts, used, events, hts, h, _ => by
    generalize ts.map Tag.schema = ss at h
    cases h
    exact ⟨ts, rfl⟩
  | n :: l, ts, used, events, hts, h, ha => by
    generalize hss : ts.map Tag.schema = ss at h
    cases h with
    | cons mem head tail =>
      rw [← hss, List.mem_map] at mem
      obtain ⟨t, ht, rfl⟩ := mem
      have hn : t.info.name = n.name := by
        rw [← schema_info]
        exact accepted_name head
      have hused : Single t.info.occurrence → n.name ∉ used := by
        intro hs hu
        have := (ha t ht hs).2 (by rw [hn]; exact hu)
        rw [count_cons, hn, if_pos rfl] at this
        omega
      obtain ⟨us, used', h1⟩ := complete_node n hts t ht head hused
      obtain ⟨t', ht', hn', _, _, hu2, haft⟩ := sound_node n hts h1
      have htt : t' = t := hts.eq_of_name ht' ht (hn'.trans hn.symm)
      subst htt
      rw [allowed_cons hts ht hn haft, ← hu2] at ha
      obtain ⟨vs, h2⟩ := complete_nodes l (hts.after haft) (by rw [forall₂_names haft, hss]; exact tail) ha.2
      refine ⟨vs, ?_⟩
      rw [connectNodes, h1]
      simp only
      rw [h2]

end

/-! ## The property -/

/-- **C107.** A configuration is accepted exactly if it fits the schema: all tags and attributes are known, required ones are there, tags that may occur once do not
occur twice, all values are readable and one of the options. The listeners then get exactly the elements of the file, in its order and nested as in the file, each with
its own attributes or their defaults. Nothing depends on what flags and values the tags have from earlier elements. -/
theorem C107_accepts {t : Tag V} (ht : t.Sized) (hw : t.schema.WellFormed) (n : Node) (events : List (Event V)) :
    configure t n = .ok events ↔ Accepted t.schema n events := by
  have hr : Ready [t] := ⟨by simpa using ht, by simp [Distinct], by simpa using hw⟩
  unfold configure
  constructor
  · intro h
    cases hc : connectNodes [t] [] [n] with
    | error e => rw [hc] at h; cases h
    | ok r =>
      obtain ⟨us, e⟩ := r
      rw [hc] at h
      simp only [Except.ok.injEq] at h
      subst h
      have h1 := (sound_nodes [n] hr hc).1
      generalize hss : [t].map Tag.schema = ss at h1
      cases h1 with
      | cons mem head tail =>
        cases tail
        rw [← hss] at mem
        simp only [List.map_cons, List.map_nil, List.mem_singleton] at mem
        subst mem
        rw [List.append_nil]
        exact head
  · intro h
    obtain ⟨us, h1⟩ := complete_nodes (used := []) [n] hr (events := events) (by
      rw [← List.append_nil events]
      exact .cons (by simp) h .nil) (by
      intro u _ _
      rw [count_cons]
      exact ⟨by simp only [count, List.countP_nil]; split <;> omega, by simp⟩)
    rw [h1]

/-- **C107, no leftovers.** The same file gives the same result whatever state the tags are in. -/
theorem C107_state_free {t u : Tag V} (ht : t.Sized) (hu : u.Sized) (hs : t.schema = u.schema) (hw : t.schema.WellFormed) (n : Node) (events : List (Event V)) :
    configure t n = .ok events ↔ configure u n = .ok events := by
  rw [C107_accepts ht hw, C107_accepts hu (hs ▸ hw), hs]

end Verif.Config
