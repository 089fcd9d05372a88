import Verif.Doc.Lemmas

/-!
# The reference of the configuration: theorems (C136)
-/

set_option autoImplicit false

namespace Verif.Doc

open Verif.Config

variable {V : Type}

/-- What is valid according to the printed DTD is accepted, provided that values can be read and that what is printed is a
DTD at all: no two tags have the same name. -/
theorem C136_dtd_sound_partial {s : Schema V} (hd : ValidDTD (decls s)) (hc : "solver-interface" ∉ declared (decls s)) {n : Node}
    (hn : n.name = s.info.name) (hv : Valid (decls s) n) (ho : ValuesOk s n) : ∃ events, Accepted s n events := by
  suffices h : ∀ m, Valid (decls s) m → ∀ t ∈ tags s, m.name = t.info.name → ValuesOk t m → ∃ e, Accepted t m e from
    h n hv s (self_tags s) hn ho
  intro m hm
  induction hm with
  | @mk name given kids content element matched known required inner ih =>
    rintro ⟨info, subs⟩ ht hname (⟨values, hvals⟩)
    have hname : name = info.name := hname
    subst hname
    have hcont : content = subs.map fun u => (u.info.name, u.info.occurrence) := (element_mem hd ht).1 element
    subst hcont
    have hfst : (subs.map fun u => (u.info.name, u.info.occurrence)).map Prod.fst = subs.map fun u => u.info.name := by simp
    have hnod : (subs.map fun u => u.info.name).Nodup := subs_nodup hd ht
    obtain ⟨h1, -⟩ := matches_count matched (hfst ▸ hnod)
    have hmem := matches_mem matched
    rw [hfst] at hmem
    obtain ⟨es, hes⟩ := acceptedAll_of (subs := subs) (kids := kids) (by
      intro k hk
      obtain ⟨u, hu, hun⟩ := List.mem_map.1 (hmem _ (List.mem_map_of_mem hk))
      exact ⟨u, hu, ih k hk u (tags_sub s ht hu) hun.symm (hvals u hu k hk hun)⟩)
    obtain ⟨vs, hvs⟩ := gives_all (given := given) (attrs := info.attrs) (by
      intro a ha
      unfold Gives
      cases hl : given.lookup a.name with
      | some raw => exact values a ha raw hl
      | none =>
        cases hdef : a.default with
        | some v => exact ⟨v, rfl⟩
        | none =>
          have hr : Decl.attlist info.name a.name true ∈ decls s := (attlist_mem hd ht).2 ⟨a, ha, rfl, by simp [hdef]⟩
          exact absurd (required a.name hr) (lookup_none hl))
    refine ⟨_, .mk ?_ ?_ hvs hes ?_⟩
    · intro he
      exact hc (by rw [declared_eq, List.mem_map]; exact ⟨_, ht, he⟩)
    · intro g hg
      obtain ⟨b, hb⟩ := known g hg
      obtain ⟨a, ha, hag, -⟩ := (attlist_mem hd ht).1 hb
      exact hag ▸ List.mem_map_of_mem ha
    · intro u hu
      rw [← count_names]
      exact h1 _ (List.mem_map_of_mem hu)

/-- What is accepted is valid according to the printed DTD, provided that elements are in the order of the schema and that
no two tags have the same name. -/
theorem C136_dtd_complete_partial {s : Schema V} (hd : ValidDTD (decls s)) {n : Node} {events : List (Event V)} (ha : Accepted s n events)
    (ho : InOrder s n) : Valid (decls s) n := by
  suffices h : ∀ (t : Schema V) (m : Node), InOrder t m → t ∈ tags s → ∀ e, Accepted t m e → Valid (decls s) m from
    h s n ho (self_tags s) events ha
  intro t m hm
  induction hm with
  | @mk info subs name given kids order inner ih =>
    rintro ht e (⟨current, known, attrs, hin, occurs⟩)
    refine .mk (content := subs.map fun u => (u.info.name, u.info.occurrence)) ((element_mem hd ht).2 rfl) ?_ ?_ ?_ ?_
    · have := matches_of_order (c := subs.map fun u => (u.info.name, u.info.occurrence)) (fun n => count n kids) (by
        intro x hx
        obtain ⟨u, hu, rfl⟩ := List.mem_map.1 hx
        exact occurs u hu)
      rw [List.flatMap_map] at this
      rw [order]
      exact this
    · intro g hg
      obtain ⟨a, ha, hag⟩ := List.mem_map.1 (known g hg)
      exact ⟨_, (attlist_mem hd ht).2 ⟨a, ha, hag, rfl⟩⟩
    · intro x hx
      obtain ⟨a, ha, rfl, hb⟩ := (attlist_mem hd ht).1 hx
      obtain ⟨v, hv⟩ := gives_mem attrs ha
      cases hl : given.lookup a.name with
      | some raw => exact lookup_some hl
      | none =>
        rw [Gives, hl] at hv
        simp [show a.default = some v from hv] at hb
    · intro k hk
      obtain ⟨u, hu, e', he'⟩ := acceptedAll_mem hin k hk
      have hun : u.info.name = k.name := by cases he'; rfl
      exact ih u hu k hk hun (tags_sub s ht hu) e' he'

/-- The printed DTD prescribes the order of elements: that of the schema, with equal elements next to each other. -/
theorem C136_dtd_order {s : Schema V} (hd : ValidDTD (decls s)) {t : Schema V} (ht : t ∈ tags s) {given : List (String × String)} {kids : List Node}
    (hv : Valid (decls s) (.mk t.info.name given kids)) :
    kids.map Node.name = t.subs.flatMap fun u => List.replicate (count u.info.name kids) u.info.name := by
  cases hv with
  | mk element matched known required inner =>
    have hcont := (element_mem hd ht).1 element
    subst hcont
    have h := (matches_count matched (by rw [List.map_map]; exact subs_nodup hd ht)).2
    rw [List.flatMap_map] at h
    simpa only [count_names] using h

/-- Two tags of the same name: what is printed is no DTD. -/
theorem C136_dtd_twice {info : Info V} {subs : List (Schema V)} {t u : Schema V} (h : [t, u].Sublist (tags (.mk info subs)))
    (hn : t.info.name = u.info.name) : ¬ ValidDTD (decls (.mk info subs)) := by
  intro hd
  rw [ValidDTD, declared_eq] at hd
  have := hd.sublist (h.map fun t => t.info.name)
  simp [hn] at this

/-- If no two headings are equal there is one link to each heading but the first, and it leads to the heading. -/
theorem C136_links_partial {s : Schema V} (h : (headings s).Nodup) : (reference s).Perm (anchors [] (headings s)).tail := by
  rw [anchors_nodup _ _ h (by simp)]
  rw [headings_eq] at h ⊢
  obtain ⟨info, subs⟩ := s
  simp only [tags, List.map_cons, plain, List.tail_cons] at h ⊢
  exact (links_fresh (.mk info subs) (List.nodup_cons.1 h).2 (by simp)).1

/-- No link leads to the third heading of a name, nor to later ones. -/
theorem C136_links_third {s : Schema V} {n : String} {k : ℕ} (h2 : 2 ≤ k) (h : k < (headings s).count n) :
    (n, some k) ∈ anchors [] (headings s) ∧ (n, some k) ∉ reference s := by
  refine ⟨anchors_mem _ _ _ _ (by omega) (by simp) (by simpa using h), ?_⟩
  intro hr
  have := (links_ones s (seen := []) (by simp [Ones])).1 _ hr k rfl
  omega

end Verif.Doc
