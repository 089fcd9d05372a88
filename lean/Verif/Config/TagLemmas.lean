import Verif.Config.Tag

/-!
# The configuration is validated: specification and lemmas (C107)
-/

set_option autoImplicit false

namespace Verif.Config

variable {V : Type}

/-! ## Specification -/

/-- The schema: what a tag is without its state. -/
inductive Schema (V : Type) where
  | mk (info : Info V) (subs : List (Schema V))

namespace Schema

def info : Schema V → Info V
  | .mk i _ => i

def subs : Schema V → List (Schema V)
  | .mk _ l => l

end Schema

namespace Node

def name : Node → String
  | .mk n _ _ => n

end Node

/-- May a tag occur that often in its parent? -/
def Occurs : Occurrence → ℕ → Prop
  | .notOrOnce, n => n ≤ 1
  | .once, n => n = 1
  | .onceOrMore, n => 1 ≤ n
  | .arbitrary, _ => True

/-- The value of an attribute: the given one, which must be readable and one of the options, or the default. -/
def Gives (given : List (String × String)) (a : Attr V) (v : V) : Prop :=
  match given.lookup a.name with
  | none => a.default = some v
  | some raw => (∀ old, a.read raw old = some v) ∧ ∀ o, a.options = some o → v ∈ o

/-- How often the name occurs among the elements. -/
def count (name : String) (l : List Node) : ℕ := l.countP fun n => n.name = name

mutual

/-- An element that fits the tag, and the calls it leads to. -/
inductive Accepted : Schema V → Node → List (Event V) → Prop where
  | mk {info : Info V} {subs : List (Schema V)} {given : List (String × String)} {kids : List Node} {values : List V} {events : List (Event V)}
      (current : info.name ≠ "solver-interface")
      (known : ∀ g ∈ given, g.1 ∈ info.attrs.map Attr.name)
      (attrs : List.Forall₂ (Gives given) info.attrs values)
      (inner : AcceptedAll subs kids events)
      (occurs : ∀ t ∈ subs, Occurs t.info.occurrence (count t.info.name kids)) :
      Accepted (.mk info subs) (.mk info.name given kids) (.start info.name values :: (events ++ [.stop info.name]))

/-- Elements each of which fits one of the tags. -/
inductive AcceptedAll : List (Schema V) → List Node → List (Event V) → Prop where
  | nil {subs : List (Schema V)} : AcceptedAll subs [] []
  | cons {subs : List (Schema V)} {s : Schema V} {n : Node} {l : List Node} {e es : List (Event V)} (mem : s ∈ subs) (head : Accepted s n e)
      (tail : AcceptedAll subs l es) : AcceptedAll subs (n :: l) (e ++ es)

end

/-- The tag must occur. -/
def Required (o : Occurrence) : Prop := o = .once ∨ o = .onceOrMore

/-- What is expected of a schema: subtags have different names, required ones have no namespace, and what is read does not depend on the value before. -/
inductive Schema.WellFormed : Schema V → Prop where
  | mk {info : Info V} {subs : List (Schema V)} (names : (subs.map fun s => s.info.name).Nodup)
      (required : ∀ s ∈ subs, Required s.info.occurrence → s.info.ns = "")
      (read : ∀ a ∈ info.attrs, ∀ raw v w, a.read raw v = a.read raw w) (inner : ∀ s ∈ subs, s.WellFormed) : WellFormed (.mk info subs)

mutual

/-- A tag without its state. -/
def Tag.schema : Tag V → Schema V
  | .mk i _ _ _ l => .mk i (Tag.schemas l)

def Tag.schemas : List (Tag V) → List (Schema V)
  | [] => []
  | t :: l => t.schema :: Tag.schemas l

end

/-- There is a value for each attribute. -/
inductive Tag.Sized : Tag V → Prop where
  | mk {i : Info V} {c : Bool} {s : String → Bool} {v : List V} {l : List (Tag V)} (len : v.length = i.attrs.length) (inner : ∀ t ∈ l, t.Sized) :
      Sized (.mk i c s v l)

/-! ## Lemmas -/

theorem schemas_eq (l : List (Tag V)) : Tag.schemas l = l.map Tag.schema := by
  induction l with
  | nil => rfl
  | cons t l ih => rw [Tag.schemas, ih]; rfl

theorem resetAll_eq (l : List (Tag V)) : Tag.resetAll l = l.map Tag.reset := by
  induction l with
  | nil => rfl
  | cons t l ih => rw [Tag.resetAll, ih]; rfl

theorem schema_info (t : Tag V) : t.schema.info = t.info := by
  cases t
  rfl

theorem schema_subs (t : Tag V) : t.schema.subs = t.subs.map Tag.schema := by
  cases t
  rw [Tag.schema, schemas_eq]
  rfl

mutual

theorem reset_schema : ∀ t : Tag V, t.reset.schema = t.schema
  | .mk i c s v l => by
    rw [Tag.reset, Tag.schema, Tag.schema, resetAll_schemas l]

theorem resetAll_schemas : ∀ l : List (Tag V), Tag.schemas (Tag.resetAll l) = Tag.schemas l
  | [] => rfl
  | t :: l => by rw [Tag.resetAll, Tag.schemas, Tag.schemas, reset_schema t, resetAll_schemas l]

end

mutual

theorem reset_sized : ∀ t : Tag V, t.Sized → t.reset.Sized
  | .mk i c s v l, h => by
    cases h with
    | mk len inner =>
      rw [Tag.reset]
      exact .mk len (resetAll_sized l inner)

theorem resetAll_sized : ∀ l : List (Tag V), (∀ t ∈ l, t.Sized) → ∀ t ∈ Tag.resetAll l, t.Sized
  | [], _ => by simp [Tag.resetAll]
  | t :: l, h => by
    intro u hu
    rw [Tag.resetAll, List.mem_cons] at hu
    rcases hu with rfl | hu
    · exact reset_sized t (h t (by simp))
    · exact resetAll_sized l (fun x hx => h x (by simp [hx])) u hu

end

theorem reset_info (t : Tag V) : t.reset.info = t.info := by cases t; rfl

theorem reset_configured (t : Tag V) : t.reset.configured = false := by cases t; rfl

theorem reset_spaces (t : Tag V) (s : String) : t.reset.spaces s = false := by cases t; rfl

theorem reset_subs (t : Tag V) : t.reset.subs = t.subs.map Tag.reset := by
  cases t
  rw [Tag.reset]
  exact resetAll_eq _

/-- The tag may occur at most once. -/
def Single (o : Occurrence) : Prop := o = .once ∨ o = .notOrOnce

instance (o : Occurrence) : Decidable (Single o) := by unfold Single; infer_instance

theorem occurs_iff (o : Occurrence) (n : ℕ) : Occurs o n ↔ (Single o → n ≤ 1) ∧ (Required o → 1 ≤ n) := by
  cases o <;> simp [Occurs, Single, Required]
  omega

/-! ### Attributes -/

section

variable [DecidableEq V]

theorem readAttr_ok {given : List (String × String)} {a : Attr V} (hr : ∀ raw v w, a.read raw v = a.read raw w) (old v : V) :
    readAttr given a old = .ok v ↔ Gives given a v := by
  unfold readAttr Gives
  split
  · next h =>
    rw [h]
    cases a.default with
    | none => simp
    | some d => simp
  · next raw h =>
    rw [h]
    have he : (∀ o, a.read raw o = some v) ↔ a.read raw old = some v := ⟨fun h => h old, fun h o => by rw [hr raw o old, h]⟩
    simp only [he]
    cases a.read raw old with
    | none => simp
    | some w =>
      cases a.options with
      | none => simp
      | some o =>
        by_cases hw : w ∈ o
        · simp only [if_pos hw, Except.ok.injEq, Option.some.injEq]
          constructor
          · rintro rfl
            exact ⟨rfl, by rintro _ rfl; exact hw⟩
          · exact fun h => h.1
        · simp only [if_neg hw, Option.some.injEq]
          constructor
          · rintro ⟨⟩
          · rintro ⟨rfl, h⟩
            exact absurd (h o rfl) hw

theorem readAll_ok {given : List (String × String)} {attrs : List (Attr V)} (hr : ∀ a ∈ attrs, ∀ raw v w, a.read raw v = a.read raw w) {old : List V}
    (hl : old.length = attrs.length) (vs : List V) : readAll given attrs old = .ok vs ↔ List.Forall₂ (Gives given) attrs vs := by
  induction attrs generalizing old vs with
  | nil =>
    cases old with
    | nil =>
      rw [readAll, Except.ok.injEq]
      exact ⟨fun h => h ▸ .nil, fun h => by cases h; rfl⟩
    | cons o old => cases hl
  | cons a attrs ih =>
    cases old with
    | nil => cases hl
    | cons o old =>
      rw [readAll]
      have ha := readAttr_ok (given := given) (hr a (by simp)) o
      have iha := fun vs => ih (fun b hb => hr b (by simp [hb])) (old := old) (by simpa using hl) vs
      cases h1 : readAttr given a o with
      | error e =>
        simp only
        constructor
        · rintro ⟨⟩
        · rintro (_ | ⟨h, _⟩)
          rw [← ha, h1] at h
          cases h
      | ok v =>
        simp only
        cases h2 : readAll given attrs old with
        | error e =>
          simp only
          constructor
          · rintro ⟨⟩
          · rintro (_ | ⟨_, h⟩)
            rw [← iha, h2] at h
            cases h
        | ok ws =>
          simp only [Except.ok.injEq]
          constructor
          · rintro rfl
            exact .cons ((ha v).1 h1) ((iha ws).1 h2)
          · rintro (_ | ⟨h, h'⟩)
            rw [← ha, h1] at h
            rw [← iha, h2] at h'
            cases h
            cases h'
            rfl

theorem readAttributes_ok {given : List (String × String)} {attrs : List (Attr V)} (hr : ∀ a ∈ attrs, ∀ raw v w, a.read raw v = a.read raw w) {old : List V}
    (hl : old.length = attrs.length) (vs : List V) :
    readAttributes given attrs old = .ok vs ↔ (∀ g ∈ given, g.1 ∈ attrs.map Attr.name) ∧ List.Forall₂ (Gives given) attrs vs := by
  unfold readAttributes
  split
  · next h => rw [readAll_ok hr hl]; exact ⟨fun h' => ⟨h, h'⟩, fun h' => h'.2⟩
  · next h => exact ⟨fun h' => (by cases h'), fun h' => absurd h'.1 h⟩

end

/-! ### Tags -/

/-- The tags after some elements with the given names were read. -/
def After (names : List String) (t u : Tag V) : Prop :=
  u.schema = t.schema ∧ u.Sized ∧ u.configured = (t.configured || decide (t.info.name ∈ names))

theorem after_info {names : List String} {t u : Tag V} (h : After names t u) : u.info = t.info := by
  rw [← schema_info, ← schema_info, h.1]

theorem After.trans {a b : List String} {t u v : Tag V} (h1 : After a t u) (h2 : After b u v) : After (a ++ b) t v := by
  refine ⟨h2.1.trans h1.1, h2.2.1, ?_⟩
  rw [h2.2.2, h1.2.2, after_info h1]
  simp [Bool.or_assoc]

theorem forall₂_trans {a b : List String} {l m n : List (Tag V)} (h1 : List.Forall₂ (After a) l m) (h2 : List.Forall₂ (After b) m n) :
    List.Forall₂ (After (a ++ b)) l n := by
  induction h1 generalizing n with
  | nil => cases h2; exact .nil
  | cons h _ ih =>
    cases h2 with
    | cons h' t => exact .cons (h.trans h') (ih t)

theorem after_refl {l : List (Tag V)} (h : ∀ t ∈ l, t.Sized) : List.Forall₂ (After []) l l := by
  induction l with
  | nil => exact .nil
  | cons t l ih => exact .cons ⟨rfl, h t (by simp), by simp⟩ (ih fun x hx => h x (by simp [hx]))

theorem forall₂_names {names : List String} {l m : List (Tag V)} (h : List.Forall₂ (After names) l m) : m.map Tag.schema = l.map Tag.schema := by
  induction h with
  | nil => rfl
  | cons h _ ih => rw [List.map_cons, List.map_cons, h.1, ih]

theorem forall₂_sized {names : List String} {l m : List (Tag V)} (h : List.Forall₂ (After names) l m) : ∀ t ∈ m, t.Sized := by
  induction h with
  | nil => simp
  | cons h _ ih =>
    intro t ht
    rw [List.mem_cons] at ht
    rcases ht with rfl | ht
    · exact h.2.1
    · exact ih t ht

/-- The names of the tags differ. -/
def Distinct (l : List (Tag V)) : Prop := (l.map fun t => t.info.name).Nodup

theorem distinct_iff (l : List (Tag V)) : Distinct l ↔ ((l.map Tag.schema).map fun s => s.info.name).Nodup := by
  unfold Distinct
  rw [List.map_map]
  simp only [Function.comp_def, schema_info]

theorem store_after {l : List (Tag V)} (hs : ∀ t ∈ l, t.Sized) (hd : Distinct l) {t u : Tag V} (ht : t ∈ l) (h1 : u.schema = t.schema) (h2 : u.Sized)
    (h3 : u.configured = true) : List.Forall₂ (After [t.info.name]) l (storeTag u l) := by
  have hi : u.info = t.info := by rw [← schema_info, ← schema_info, h1]
  induction l with
  | nil => cases ht
  | cons v l ih =>
    unfold Distinct at hd
    rw [List.map_cons, List.nodup_cons] at hd
    rw [storeTag]
    split
    · next h =>
      rw [hi] at h
      have hv : t = v := by
        rw [List.mem_cons] at ht
        rcases ht with rfl | ht
        · rfl
        · exact absurd (List.mem_map.2 ⟨t, ht, h.symm⟩) hd.1
      subst hv
      refine .cons ⟨h1, h2, by simp [h3]⟩ ?_
      have : ∀ m : List (Tag V), (∀ x ∈ m, x.Sized) → t.info.name ∉ m.map (fun t => t.info.name) → List.Forall₂ (After [t.info.name]) m m := by
        intro m
        induction m with
        | nil => intro _ _; exact .nil
        | cons x m ihm =>
          intro h h'
          rw [List.map_cons, List.mem_cons, not_or] at h'
          refine .cons ⟨rfl, h x (by simp), ?_⟩ (ihm (fun y hy => h y (by simp [hy])) h'.2)
          have : x.info.name ≠ t.info.name := fun h => h'.1 h.symm
          simp [this]
      exact this l (fun x hx => hs x (by simp [hx])) hd.1
    · next h =>
      rw [hi] at h
      rw [List.mem_cons] at ht
      rcases ht with rfl | ht
      · exact absurd rfl h
      · exact .cons ⟨rfl, hs v (by simp), by simp [h]⟩ (ih (fun x hx => hs x (by simp [hx])) hd.2 ht)

theorem findTag_some {l : List (Tag V)} {name : String} {t : Tag V} (h : findTag name l = some t) : t ∈ l ∧ t.info.name = name := by
  unfold findTag at h
  exact ⟨List.mem_of_find?_eq_some h, by simpa using List.find?_some h⟩

theorem findTag_mem {l : List (Tag V)} (hd : Distinct l) {t : Tag V} (ht : t ∈ l) : findTag t.info.name l = some t := by
  unfold findTag
  induction l with
  | nil => cases ht
  | cons v l ih =>
    unfold Distinct at hd
    rw [List.map_cons, List.nodup_cons] at hd
    rw [List.mem_cons] at ht
    by_cases h : v.info.name = t.info.name
    · rw [List.find?_cons_of_pos (by simpa using h)]
      rcases ht with rfl | ht
      · rfl
      · exact absurd (List.mem_map.2 ⟨t, ht, h.symm⟩) hd.1
    · rw [List.find?_cons_of_neg (by simpa using h)]
      rcases ht with rfl | ht
      · exact absurd rfl h
      · exact ih hd.2 ht

theorem useTag_ok {i : Info V} {used used' : List String} :
    useTag i used = .ok used' ↔ (Single i.occurrence → i.name ∉ used) ∧ used' = if Single i.occurrence then i.name :: used else used := by
  unfold useTag
  by_cases h : Single i.occurrence
  · have h' : i.occurrence = .once ∨ i.occurrence = .notOrOnce := h
    rw [if_pos h', if_pos h]
    split
    · next hu => exact ⟨fun h => (by cases h), fun h'' => absurd hu (h''.1 h)⟩
    · next hu =>
      rw [Except.ok.injEq]
      exact ⟨fun h => ⟨fun _ => hu, h.symm⟩, fun h => h.2.symm⟩
  · have h' : ¬ (i.occurrence = .once ∨ i.occurrence = .notOrOnce) := h
    rw [if_neg h', if_neg h, Except.ok.injEq]
    exact ⟨fun h'' => ⟨fun hs => absurd hs h, h''.symm⟩, fun h => h.2.symm⟩

end Verif.Config
