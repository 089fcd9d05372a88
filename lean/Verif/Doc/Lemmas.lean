import Verif.Doc.Spec
import Mathlib.Data.List.Nodup
import Mathlib.Data.List.Count
import Mathlib.Data.List.Forall2

/-!
# The reference of the configuration: lemmas (C136)
-/

set_option autoImplicit false

namespace Verif.Doc

open Verif.Config

variable {V : Type}

/-! ## Tags of a schema -/

mutual

/-- The tags of a schema in the order in which they are printed. -/
def tags : Schema V → List (Schema V)
  | .mk info subs => .mk info subs :: tagsAll subs

/-- The tags of several schemas. -/
def tagsAll : List (Schema V) → List (Schema V)
  | [] => []
  | t :: l => tags t ++ tagsAll l

end

theorem tagsAll_eq (l : List (Schema V)) : tagsAll l = l.flatMap tags := by
  induction l with
  | nil => simp [tagsAll]
  | cons t l ih => simp [tagsAll, ih]

/-- The declarations of one tag. -/
def declsOf (t : Schema V) : List Decl :=
  .element t.info.name (t.subs.map fun u => (u.info.name, u.info.occurrence)) :: t.info.attrs.map (attrDecl t.info.name)

mutual

theorem decls_eq : ∀ s : Schema V, decls s = (tags s).flatMap declsOf
  | .mk info subs => by
    simp [decls, tags, declsOf, Schema.info, Schema.subs, declsAll_eq subs]

theorem declsAll_eq : ∀ l : List (Schema V), declsAll l = (tagsAll l).flatMap declsOf
  | [] => by simp [declsAll, tagsAll]
  | t :: l => by simp [declsAll, tagsAll, decls_eq t, declsAll_eq l]

end

mutual

theorem headings_eq : ∀ s : Schema V, headings s = (tags s).map fun t => t.info.name
  | .mk info subs => by simp [headings, tags, Schema.info, headingsAll_eq subs]

theorem headingsAll_eq : ∀ l : List (Schema V), headingsAll l = (tagsAll l).map fun t => t.info.name
  | [] => by simp [headingsAll, tagsAll]
  | t :: l => by simp [headingsAll, tagsAll, headings_eq t, headingsAll_eq l]

end

theorem self_tags (s : Schema V) : s ∈ tags s := by cases s; simp [tags]

mutual

theorem tags_sub : ∀ (s : Schema V) {t u : Schema V}, t ∈ tags s → u ∈ t.subs → u ∈ tags s
  | .mk info subs, t, u, ht, hu => by
    simp only [tags, List.mem_cons] at ht ⊢
    rcases ht with rfl | ht
    · refine Or.inr ?_
      rw [tagsAll_eq, List.mem_flatMap]
      exact ⟨u, hu, self_tags u⟩
    · exact Or.inr (tagsAll_sub subs ht hu)

theorem tagsAll_sub : ∀ (l : List (Schema V)) {t u : Schema V}, t ∈ tagsAll l → u ∈ t.subs → u ∈ tagsAll l
  | [], t, u, ht, _ => by simp [tagsAll] at ht
  | a :: l, t, u, ht, hu => by
    simp only [tagsAll, List.mem_append] at ht ⊢
    rcases ht with ht | ht
    · exact Or.inl (tags_sub a ht hu)
    · exact Or.inr (tagsAll_sub l ht hu)

end

theorem declared_append (a b : List Decl) : declared (a ++ b) = declared a ++ declared b := by
  induction a with
  | nil => rfl
  | cons x a ih => cases x <;> simp [declared, ih]

theorem declared_attrs (n : String) (l : List (Attr V)) : declared (l.map (attrDecl n)) = [] := by
  induction l with
  | nil => rfl
  | cons a l ih => simpa [attrDecl, declared] using ih

theorem declared_eq (s : Schema V) : declared (decls s) = (tags s).map fun t => t.info.name := by
  rw [decls_eq]
  induction tags s with
  | nil => rfl
  | cons t l ih =>
    rw [List.flatMap_cons, declared_append, ih]
    simp [declsOf, declared, declared_attrs]

theorem tag_unique {s t u : Schema V} (hd : ValidDTD (decls s)) (ht : t ∈ tags s) (hu : u ∈ tags s) (h : t.info.name = u.info.name) :
    t = u := by
  rw [ValidDTD, declared_eq] at hd
  exact List.inj_on_of_nodup_map hd ht hu h

mutual

theorem tags_sublist : ∀ (s : Schema V) {t : Schema V}, t ∈ tags s → (t.subs.map fun u => u.info.name).Sublist ((tags s).map fun u => u.info.name)
  | .mk info subs, t, ht => by
    simp only [tags, List.mem_cons] at ht
    rcases ht with rfl | ht
    · simp only [tags, List.map_cons, Schema.subs]
      exact (subs_sublist subs).cons _
    · simp only [tags, List.map_cons]
      exact (tagsAll_sublist subs ht).cons _

theorem tagsAll_sublist : ∀ (l : List (Schema V)) {t : Schema V}, t ∈ tagsAll l → (t.subs.map fun u => u.info.name).Sublist ((tagsAll l).map fun u => u.info.name)
  | [], t, ht => by simp [tagsAll] at ht
  | a :: l, t, ht => by
    simp only [tagsAll, List.mem_append] at ht
    simp only [tagsAll, List.map_append]
    rcases ht with ht | ht
    · exact (tags_sublist a ht).trans (List.sublist_append_left _ _)
    · exact (tagsAll_sublist l ht).trans (List.sublist_append_right _ _)

theorem subs_sublist : ∀ l : List (Schema V), (l.map fun u => u.info.name).Sublist ((tagsAll l).map fun u => u.info.name)
  | [] => by simp [tagsAll]
  | .mk i subs :: l => by
    simp only [tagsAll, tags, List.map_cons, List.cons_append, List.map_append]
    exact ((subs_sublist l).trans (List.sublist_append_right _ _)).cons_cons _

end

theorem subs_nodup {s t : Schema V} (hd : ValidDTD (decls s)) (ht : t ∈ tags s) : (t.subs.map fun u => u.info.name).Nodup := by
  rw [ValidDTD, declared_eq] at hd
  exact hd.sublist (tags_sublist s ht)

/-! ## Declarations -/

theorem mem_decls {s : Schema V} {d : Decl} : d ∈ decls s ↔ ∃ t ∈ tags s, d ∈ declsOf t := by
  rw [decls_eq, List.mem_flatMap]

theorem element_mem {s : Schema V} (hd : ValidDTD (decls s)) {t : Schema V} (ht : t ∈ tags s) {c : List (String × Occurrence)} :
    Decl.element t.info.name c ∈ decls s ↔ c = t.subs.map fun u => (u.info.name, u.info.occurrence) := by
  rw [mem_decls]
  constructor
  · rintro ⟨u, hu, h⟩
    simp only [declsOf, List.mem_cons, Decl.element.injEq, List.mem_map, attrDecl, reduceCtorEq, and_false, exists_false, or_false] at h
    rw [tag_unique hd ht hu h.1]
    exact h.2
  · rintro rfl
    exact ⟨t, ht, by simp [declsOf]⟩

theorem attlist_mem {s : Schema V} (hd : ValidDTD (decls s)) {t : Schema V} (ht : t ∈ tags s) {n : String} {b : Bool} :
    Decl.attlist t.info.name n b ∈ decls s ↔ ∃ a ∈ t.info.attrs, a.name = n ∧ b = a.default.isNone := by
  rw [mem_decls]
  constructor
  · rintro ⟨u, hu, h⟩
    simp only [declsOf, List.mem_cons, reduceCtorEq, List.mem_map, attrDecl, Decl.attlist.injEq, false_or] at h
    obtain ⟨a, ha, h1, h2, h3⟩ := h
    have := tag_unique hd ht hu h1.symm
    subst this
    exact ⟨a, ha, h2, h3.symm⟩
  · rintro ⟨a, ha, rfl, rfl⟩
    refine ⟨t, ht, ?_⟩
    simp only [declsOf, List.mem_cons, List.mem_map, reduceCtorEq, false_or]
    exact ⟨a, ha, rfl⟩

/-! ## Sequences -/

theorem matches_mem {c : List (String × Occurrence)} {l : List String} (h : Matches c l) : ∀ x ∈ l, x ∈ c.map Prod.fst := by
  induction h with
  | nil => simp
  | @cons n o c l k _ _ ih =>
    intro x hx
    rcases List.mem_append.1 hx with hx | hx
    · simp [(List.mem_replicate.1 hx).2]
    · exact List.mem_cons_of_mem _ (ih x hx)

theorem matches_count {c : List (String × Occurrence)} {l : List String} (h : Matches c l) (hn : (c.map Prod.fst).Nodup) :
    (∀ x ∈ c, Occurs x.2 (l.count x.1)) ∧ l = c.flatMap fun x => List.replicate (l.count x.1) x.1 := by
  induction h with
  | nil => simp
  | @cons n o c l k hk t ih =>
    simp only [List.map_cons, List.nodup_cons] at hn
    obtain ⟨h1, h2⟩ := ih hn.2
    have h0 : l.count n = 0 := List.count_eq_zero.2 fun h => hn.1 (matches_mem t n h)
    have hne : ∀ x ∈ c, x.1 ≠ n := fun x hx he => hn.1 (he ▸ List.mem_map_of_mem hx)
    have hc : ∀ x ∈ c, (List.replicate k n ++ l).count x.1 = l.count x.1 := by
      intro x hx
      rw [List.count_append, List.count_replicate, if_neg (by simpa using (hne x hx).symm)]
      omega
    have hs : (List.replicate k n ++ l).count n = k := by simp [h0]
    refine ⟨?_, ?_⟩
    · intro x hx
      rcases List.mem_cons.1 hx with rfl | hx
      · rw [hs]; exact hk
      · rw [hc x hx]; exact h1 x hx
    · rw [List.flatMap_cons, hs]
      congr 1
      rw [List.flatMap_congr (g := fun x => List.replicate (l.count x.1) x.1) (fun x hx => by rw [hc x hx])]
      exact h2

theorem matches_of_order {c : List (String × Occurrence)} (f : String → ℕ) (h : ∀ x ∈ c, Occurs x.2 (f x.1)) :
    Matches c (c.flatMap fun x => List.replicate (f x.1) x.1) := by
  induction c with
  | nil => exact .nil
  | cons x c ih =>
    exact .cons _ (h x (by simp)) (ih fun y hy => h y (by simp [hy]))

theorem count_names (n : String) (l : List Node) : (l.map Node.name).count n = count n l := by
  induction l with
  | nil => rfl
  | cons k l ih =>
    simp only [count] at ih
    simp [count, List.count_cons, List.countP_cons, ih]

/-! ## Building acceptance -/

theorem acceptedAll_of {subs : List (Schema V)} : ∀ {kids : List Node}, (∀ k ∈ kids, ∃ s ∈ subs, ∃ e, Accepted s k e) → ∃ es, AcceptedAll subs kids es
  | [], _ => ⟨[], .nil⟩
  | k :: l, h => by
    obtain ⟨s, hs, e, he⟩ := h k (by simp)
    obtain ⟨es, hes⟩ := acceptedAll_of (kids := l) fun x hx => h x (by simp [hx])
    exact ⟨e ++ es, .cons hs he hes⟩

theorem acceptedAll_mem {subs : List (Schema V)} : ∀ {kids : List Node} {es : List (Event V)}, AcceptedAll subs kids es →
    ∀ k ∈ kids, ∃ s ∈ subs, ∃ e, Accepted s k e
  | [], _, _, k, hk => by simp at hk
  | a :: l, _, .cons hs he ht, k, hk => by
    rcases List.mem_cons.1 hk with rfl | hk
    · exact ⟨_, hs, _, he⟩
    · exact acceptedAll_mem ht k hk

theorem gives_all {given : List (String × String)} : ∀ {attrs : List (Attr V)}, (∀ a ∈ attrs, ∃ v, Gives given a v) →
    ∃ vs, List.Forall₂ (Gives given) attrs vs
  | [], _ => ⟨[], .nil⟩
  | a :: l, h => by
    obtain ⟨v, hv⟩ := h a (by simp)
    obtain ⟨vs, hvs⟩ := gives_all (attrs := l) fun x hx => h x (by simp [hx])
    exact ⟨v :: vs, .cons hv hvs⟩

theorem gives_mem {given : List (String × String)} {attrs : List (Attr V)} {vs : List V} (h : List.Forall₂ (Gives given) attrs vs) {a : Attr V}
    (ha : a ∈ attrs) : ∃ v, Gives given a v := by
  induction h with
  | nil => simp at ha
  | cons hv _ ih =>
    rcases List.mem_cons.1 ha with rfl | ha
    · exact ⟨_, hv⟩
    · exact ih ha

theorem lookup_none {given : List (String × String)} {n : String} (h : given.lookup n = none) : n ∉ given.map Prod.fst := by
  induction given with
  | nil => simp
  | cons g l ih =>
    rw [List.lookup_cons] at h
    split at h
    · simp at h
    · rename_i hne
      have : n ≠ g.1 := by simpa using hne
      simp only [List.map_cons, List.mem_cons, not_or]
      exact ⟨this, ih h⟩

theorem lookup_some {given : List (String × String)} {n raw : String} (h : given.lookup n = some raw) : n ∈ given.map Prod.fst := by
  induction given with
  | nil => simp at h
  | cons g l ih =>
    rw [List.lookup_cons] at h
    split at h
    · rename_i he
      simp [show n = g.1 by simpa using he]
    · exact List.mem_cons_of_mem _ (ih h)

/-! ## Links -/

/-- The numbers that are kept are all one. -/
def Ones (seen : Seen) : Prop := ∀ x ∈ seen, x.2 = 1

theorem lookup_mem {seen : Seen} {n : String} {k : ℕ} (h : seen.lookup n = some k) : (n, k) ∈ seen := by
  induction seen with
  | nil => simp at h
  | cons g l ih =>
    rw [List.lookup_cons] at h
    split at h
    · rename_i he
      have h1 : n = g.1 := by simpa using he
      have h2 : g.2 = k := by simpa using h
      subst h1 h2
      simp
    · exact List.mem_cons_of_mem _ (ih h)

theorem link_ones {seen : Seen} (h : Ones seen) (n : String) : (∀ k, (link seen n).1 = some k → k = 1) ∧ Ones (link seen n).2 := by
  unfold link
  split
  · rename_i k hk
    refine ⟨?_, ?_⟩
    · intro j hj
      have : k = j := by simpa using hj
      exact this ▸ h _ (lookup_mem hk)
    · intro x hx
      obtain ⟨y, hy, rfl⟩ := List.mem_map.1 hx
      split <;> simp [h y hy]
  · refine ⟨by simp, ?_⟩
    intro x hx
    rcases List.mem_cons.1 hx with rfl | hx
    · rfl
    · exact h x hx

theorem linkAll_ones : ∀ (l : List String) {seen : Seen}, Ones seen → (∀ x ∈ (linkAll seen l).1, ∀ k, x.2 = some k → k = 1) ∧ Ones (linkAll seen l).2
  | [], seen, h => by simpa [linkAll] using h
  | n :: l, seen, h => by
    obtain ⟨h1, h2⟩ := link_ones h n
    obtain ⟨h3, h4⟩ := linkAll_ones l h2
    refine ⟨?_, h4⟩
    intro x hx
    rcases List.mem_cons.1 hx with rfl | hx
    · exact h1
    · exact h3 x hx

mutual

theorem links_ones : ∀ (s : Schema V) {seen : Seen}, Ones seen → (∀ x ∈ (links seen s).1, ∀ k, x.2 = some k → k = 1) ∧ Ones (links seen s).2
  | .mk info subs, seen, h => by
    obtain ⟨h1, h2⟩ := linkAll_ones (subs.map fun t => t.info.name) h
    obtain ⟨h3, h4⟩ := linksAll_ones subs h2
    refine ⟨?_, h4⟩
    intro x hx
    rcases List.mem_append.1 hx with hx | hx
    · exact h1 x hx
    · exact h3 x hx

theorem linksAll_ones : ∀ (l : List (Schema V)) {seen : Seen}, Ones seen →
    (∀ x ∈ (linksAll seen l).1, ∀ k, x.2 = some k → k = 1) ∧ Ones (linksAll seen l).2
  | [], seen, h => by simpa [linksAll] using h
  | t :: l, seen, h => by
    obtain ⟨h1, h2⟩ := links_ones t h
    obtain ⟨h3, h4⟩ := linksAll_ones l h2
    refine ⟨?_, h4⟩
    intro x hx
    rcases List.mem_append.1 hx with hx | hx
    · exact h1 x hx
    · exact h3 x hx

end

/-- Links without numbers. -/
def plain (l : List String) : List (String × Option ℕ) := l.map fun n => (n, none)

theorem lookup_fresh {seen : Seen} {n : String} (h : n ∉ seen.map Prod.fst) : seen.lookup n = none := by
  cases hl : seen.lookup n with
  | none => rfl
  | some k => exact absurd (List.mem_map_of_mem (f := Prod.fst) (lookup_mem hl)) h

theorem linkAll_fresh : ∀ (l : List String) {seen : Seen}, l.Nodup → (∀ n ∈ l, n ∉ seen.map Prod.fst) →
    (linkAll seen l).1 = plain l ∧ ∀ n ∈ (linkAll seen l).2.map Prod.fst, n ∈ seen.map Prod.fst ∨ n ∈ l
  | [], seen, _, _ => by simp [linkAll, plain]
  | n :: l, seen, hn, hf => by
    have hl : link seen n = (none, (n, 1) :: seen) := by
      unfold link
      rw [lookup_fresh (hf n (by simp))]
    obtain ⟨hn1, hn2⟩ := List.nodup_cons.1 hn
    obtain ⟨h1, h2⟩ := linkAll_fresh l (seen := (n, 1) :: seen) hn2 (by
      intro m hm
      simp only [List.map_cons, List.mem_cons, not_or]
      exact ⟨fun he => hn1 (he ▸ hm), hf m (by simp [hm])⟩)
    simp only [linkAll, hl]
    refine ⟨by rw [h1]; rfl, ?_⟩
    intro m hm
    rcases h2 m hm with h | h
    · simp only [List.map_cons, List.mem_cons] at h ⊢
      tauto
    · simp [h]

/-- The names of the tags inside of tags. -/
def deep (l : List (Schema V)) : List String := l.flatMap fun t => (tagsAll t.subs).map fun u => u.info.name

theorem tagsAll_perm (l : List (Schema V)) : ((tagsAll l).map fun u => u.info.name).Perm ((l.map fun u => u.info.name) ++ deep l) := by
  induction l with
  | nil => simp [tagsAll, deep]
  | cons t l ih =>
    obtain ⟨i, subs⟩ := t
    simp only [tagsAll, tags, List.map_append, List.map_cons, List.cons_append, deep, List.flatMap_cons, Schema.subs, Schema.info]
    refine List.Perm.cons _ ?_
    refine (List.Perm.append_left _ ih).trans ?_
    rw [← List.append_assoc, ← List.append_assoc]
    exact List.Perm.append_right _ List.perm_append_comm

mutual

theorem links_fresh : ∀ (s : Schema V) {seen : Seen}, ((tagsAll s.subs).map fun u => u.info.name).Nodup →
    (∀ n ∈ (tagsAll s.subs).map fun u => u.info.name, n ∉ seen.map Prod.fst) →
    (links seen s).1.Perm (plain ((tagsAll s.subs).map fun u => u.info.name)) ∧
      ∀ n ∈ (links seen s).2.map Prod.fst, n ∈ seen.map Prod.fst ∨ n ∈ (tagsAll s.subs).map fun u => u.info.name
  | .mk info subs, seen, hn, hf => by
    have hp := tagsAll_perm subs
    simp only [Schema.subs] at hn hf ⊢
    have hn' := hp.nodup_iff.1 hn
    obtain ⟨ha, hb, hab⟩ := List.nodup_append.1 hn'
    obtain ⟨h1, h2⟩ := linkAll_fresh (subs.map fun t => t.info.name) (seen := seen) ha
      fun n h => hf n (hp.mem_iff.2 (List.mem_append_left _ h))
    obtain ⟨h3, h4⟩ := linksAll_fresh subs (seen := (linkAll seen (subs.map fun t => t.info.name)).2) hb (by
      intro n h hc
      rcases h2 n hc with hc | hc
      · exact hf n (hp.mem_iff.2 (List.mem_append_right _ h)) hc
      · exact hab n hc n h rfl)
    refine ⟨?_, ?_⟩
    · show ((linkAll seen _).1 ++ (linksAll _ subs).1).Perm _
      rw [h1]
      refine (List.Perm.append_left _ h3).trans ?_
      rw [plain, plain, ← List.map_append]
      exact (hp.map _).symm
    · intro n h
      rcases h4 n h with h | h
      · rcases h2 n h with h | h
        · exact Or.inl h
        · exact Or.inr (hp.mem_iff.2 (List.mem_append_left _ h))
      · exact Or.inr (hp.mem_iff.2 (List.mem_append_right _ h))

theorem linksAll_fresh : ∀ (l : List (Schema V)) {seen : Seen}, (deep l).Nodup → (∀ n ∈ deep l, n ∉ seen.map Prod.fst) →
    (linksAll seen l).1.Perm (plain (deep l)) ∧ ∀ n ∈ (linksAll seen l).2.map Prod.fst, n ∈ seen.map Prod.fst ∨ n ∈ deep l
  | [], seen, _, _ => by simp [linksAll, plain, deep]
  | t :: l, seen, hn, hf => by
    have hd : deep (t :: l) = ((tagsAll t.subs).map fun u => u.info.name) ++ deep l := rfl
    rw [hd] at hn hf ⊢
    obtain ⟨ha, hb, hab⟩ := List.nodup_append.1 hn
    obtain ⟨h1, h2⟩ := links_fresh t (seen := seen) ha fun n h => hf n (List.mem_append_left _ h)
    obtain ⟨h3, h4⟩ := linksAll_fresh l (seen := (links seen t).2) hb (by
      intro n h hc
      rcases h2 n hc with hc | hc
      · exact hf n (List.mem_append_right _ h) hc
      · exact hab n hc n h rfl)
    refine ⟨?_, ?_⟩
    · show ((links seen t).1 ++ (linksAll _ l).1).Perm _
      rw [plain, List.map_append]
      exact h1.append h3
    · intro n h
      rcases h4 n h with h | h
      · rcases h2 n h with h | h
        · exact Or.inl h
        · exact Or.inr (List.mem_append_left _ h)
      · exact Or.inr (List.mem_append_right _ h)

end

theorem anchors_nodup : ∀ (l before : List String), l.Nodup → (∀ n ∈ l, n ∉ before) → anchors before l = plain l
  | [], _, _, _ => rfl
  | n :: l, before, hn, hf => by
    obtain ⟨h1, h2⟩ := List.nodup_cons.1 hn
    rw [anchors, if_pos (List.count_eq_zero.2 (hf n (by simp))), anchors_nodup l _ h2 ?_]
    · rfl
    · intro m hm hc
      rcases List.mem_append.1 hc with hc | hc
      · exact hf m (by simp [hm]) hc
      · exact h1 ((List.mem_singleton.1 hc) ▸ hm)

theorem anchors_mem : ∀ (l before : List String) (n : String) (k : ℕ), 1 ≤ k → before.count n ≤ k → k < before.count n + l.count n →
    (n, some k) ∈ anchors before l
  | [], before, n, k, _, h1, h2 => by simp at h2; omega
  | m :: l, before, n, k, h0, h1, h2 => by
    rw [anchors]
    by_cases hm : m = n
    · subst hm
      rw [List.count_cons_self] at h2
      by_cases hk : before.count m = k
      · rw [if_neg (by omega), hk]
        simp
      · exact List.mem_cons_of_mem _ (anchors_mem l _ m k h0 (by simp; omega) (by simp; omega))
    · rw [List.count_cons_of_ne hm] at h2
      have hc : (before ++ [m]).count n = before.count n := by simp [List.count_append, hm]
      exact List.mem_cons_of_mem _ (anchors_mem l _ n k h0 (by omega) (by omega))

end Verif.Doc
