import Verif.Compositional.NetworkRun
import Mathlib.Data.Prod.Lex
import Mathlib.Data.List.Pairwise

/-!
# Ranks of the communication operations of a network of compositions
-/

set_option autoImplicit false

namespace Verif

open Prog Script

variable {ι D : Type} [DecidableEq ι]

/-- Ranks, ordered lexicographically. -/
abbrev Rank := ℕ ×ₗ ℕ ×ₗ ℕ ×ₗ ℕ ×ₗ ℕ

def rank (a b c d e : ℕ) : Rank := toLex (a, toLex (b, toLex (c, toLex (d, e))))

theorem rank_lt {a b c d e a' b' c' d' e' : ℕ} : rank a b c d e < rank a' b' c' d' e' ↔
    a < a' ∨ a = a' ∧ (b < b' ∨ b = b' ∧ (c < c' ∨ c = c' ∧ (d < d' ∨ d = d' ∧ e < e'))) := by
  unfold rank
  simp only [Prod.Lex.toLex_lt_toLex]

namespace Comp

/-- Before its `j`-th scheme, `p` has had to wait for the first message of a serial scheme. -/
def late (links : List (Link ι)) (p : ι) (j : ℕ) : Bool :=
  (links.take j).any fun l => l.serial && decide (l.second = p)

theorem late_mono {links : List (Link ι)} {p : ι} {j j' : ℕ} (h : j ≤ j') (hl : late links p j = true) :
    late links p j' = true := by
  unfold late at hl ⊢
  rw [List.any_eq_true] at hl ⊢
  obtain ⟨l, hm, hl⟩ := hl
  exact ⟨l, (List.take_subset_take_left links h) hm, hl⟩

theorem late_succ {links : List (Link ι)} {l : Link ι} {j : ℕ} (h : links[j]? = some l) (hs : l.serial = true) :
    late links l.second (j + 1) = true := by
  unfold late
  rw [List.any_eq_true]
  refine ⟨l, ?_, by simp [hs]⟩
  rw [List.take_add_one, h]
  simp

variable (links : List (Link ι)) (d : ι → ℕ)

/-- the rank of an operation in `initialize` -/
def initRank (p : ι) (j s : ℕ) : Rank := if late links p j then rank 1 (d p) 0 j s else rank 0 0 0 j s

def initR (p : ι) (x : Link ι × ℕ) : List (Rank × Act ι) :=
  if x.1.serial then
    if p = x.1.first then
      (if x.1.initSF then [(initRank links d p x.2 1, .recv x.1.second)] else []) ++
        (if x.1.initFS then [(initRank links d p x.2 2, .send x.1.second)] else [])
    else
      (if x.1.initSF then [(rank 0 0 0 x.2 0, .send x.1.first)] else []) ++
        (if x.1.initFS then [(rank 1 (d p) 0 x.2 3, .recv x.1.first)] else []) ++
        [(rank 1 (d p) 0 x.2 4, .recv x.1.first)]
  else
    if p = x.1.first then
      (if x.1.initFS then [(initRank links d p x.2 0, .send x.1.second)] else []) ++
        (if x.1.initSF then [(initRank links d p x.2 3, .recv x.1.second)] else [])
    else
      (if x.1.initFS then [(initRank links d p x.2 1, .recv x.1.first)] else []) ++
        (if x.1.initSF then [(initRank links d p x.2 2, .send x.1.first)] else [])

def firstR (p : ι) (m : ℕ) (x : Link ι × ℕ) : List (Rank × Act ι) :=
  if p = x.1.first then [(rank (m + 1) (d p) 1 x.2 0, .send x.1.second)]
  else if x.1.serial then [(rank (m + 1) (d p) 1 x.2 0, .send x.1.first)]
  else [(rank (m + 1) (d p) 1 x.2 1, .recv x.1.first)]

def secondR (p : ι) (m : ℕ) (more : Bool) (x : Link ι × ℕ) : List (Rank × Act ι) :=
  if p = x.1.first then [(rank (m + 2) (d p) 0 x.2 4, .recv x.1.second)]
  else if x.1.serial then (if more then [(rank (m + 2) (d p) 0 x.2 4, .recv x.1.first)] else [])
  else [(rank (m + 2) (d p) 0 x.2 0, .send x.1.first)]

/-- operations of `p` for all its schemes -/
def own (p : ι) (f : Link ι × ℕ → List (Rank × Act ι)) : List (Rank × Act ι) :=
  links.zipIdx.flatMap fun x => if x.1.has p then f x else []

/-- the ranked operations of `p` -/
def script (g : Common) (K : ℕ) (p : ι) : List (Rank × Act ι) :=
  own links p (initR links d p) ++ (List.range K).flatMap fun m =>
    own links p (firstR d p m) ++ own links p (secondR d p m (decide (Live g (m + 1))))

variable {links d}

theorem own_acts {p : ι} {f : Link ι × ℕ → List (Rank × Act ι)} {a : Link ι → List (Act ι)}
    (h : ∀ x, (f x).map (·.2) = a x.1) :
    (own links p f).map (·.2) = (links.filter (·.has p)).flatMap a := by
  unfold own
  have : ∀ n, ((links.zipIdx n).flatMap fun x => if x.1.has p then f x else []).map (·.2) =
      (links.filter (·.has p)).flatMap a := by
    induction links with
    | nil => intro n; rfl
    | cons l links ih =>
      intro n
      rw [List.zipIdx_cons, List.flatMap_cons, List.map_append, ih, List.filter_cons]
      cases l.has p with
      | false => simp
      | true => simp [h]
  exact this 0

theorem script_acts {g : Common} {K : ℕ} {p : ι} :
    (script links d g K p).map (·.2) = runActs g p (links.filter (·.has p)) K := by
  unfold script runActs windowActs
  rw [List.map_append, own_acts (a := (·.initActs p)), List.map_flatMap]
  · congr 1
    refine List.flatMap_congr fun m hm => ?_
    rw [List.map_append, own_acts (a := (·.acts1 p)), own_acts (a := (·.acts2 (decide (Live g (m + 1))) p))]
    · intro x; unfold secondR Link.acts2; split_ifs <;> rfl
    · intro x; unfold firstR Link.acts1; split_ifs <;> rfl
  · intro x; unfold initR Link.initActs; split_ifs <;> rfl

/-- Configurations for which the coupling is free of deadlocks: the participants have levels such
that a serial scheme leads from a lower to a higher level and a parallel scheme stays on a level, and
initial data is not delayed by an earlier serial scheme of its sender. -/
structure Ordered (links : List (Link ι)) (d : ι → ℕ) : Prop where
  serial : ∀ l ∈ links, l.serial = true → d l.first < d l.second
  parallel : ∀ l ∈ links, l.serial = false → d l.first = d l.second
  initSerial : ∀ l j, links[j]? = some l → l.serial = true → l.initSF = true → late links l.second j = false
  initFS : ∀ l j, links[j]? = some l → l.serial = false → l.initFS = true →
    late links l.first j = true → late links l.second j = true
  initSF : ∀ l j, links[j]? = some l → l.serial = false → l.initSF = true →
    late links l.second j = true → late links l.first j = true

omit [DecidableEq ι] in
theorem mem_zipIdx {l : Link ι} {j : ℕ} (h : (l, j) ∈ links.zipIdx) : links[j]? = some l := by
  have := List.mem_zipIdx' h
  rw [List.getElem?_eq_getElem this.1]
  exact congrArg some this.2.symm

theorem second_of_has {l : Link ι} {p : ι} (h : l.has p = true) (hp : p ≠ l.first) : p = l.second := by
  unfold Link.has at h
  simp only [Bool.or_eq_true, decide_eq_true_eq] at h
  exact h.resolve_left hp

theorem initR_rank (ho : Ordered links d) {p : ι} {l : Link ι} {j : ℕ} (hj : links[j]? = some l)
    (hp : l.has p = true) : ∀ y ∈ initR links d p (l, j),
      (late links p j = false ∧ ∃ s, y.1 = rank 0 0 0 j s) ∨
      (late links p (j + 1) = true ∧ ∃ s, y.1 = rank 1 (d p) 0 j s) := by
  have hin : ∀ s, (late links p j = false ∧ ∃ s', initRank links d p j s = rank 0 0 0 j s') ∨
      (late links p (j + 1) = true ∧ ∃ s', initRank links d p j s = rank 1 (d p) 0 j s') := by
    intro s
    unfold initRank
    cases hl : late links p j with
    | true => exact Or.inr ⟨late_mono (by omega) hl, s, rfl⟩
    | false => exact Or.inl ⟨rfl, s, rfl⟩
  intro y hy
  unfold initR at hy
  simp only at hy
  split at hy
  · next hs =>
    split at hy
    · simp only [List.mem_append] at hy
      rcases hy with hy | hy <;> split at hy <;> simp at hy <;> subst hy <;> exact hin _
    · next hf =>
      have h2 := second_of_has hp hf
      have hlt : late links p (j + 1) = true := by rw [h2]; exact late_succ hj hs
      simp only [List.mem_append, List.mem_singleton] at hy
      rcases hy with (hy | hy) | hy
      · split at hy
        · next hi =>
          simp at hy; subst hy
          exact Or.inl ⟨by rw [h2]; exact ho.initSerial l j hj hs hi, 0, rfl⟩
        · simp at hy
      · split at hy
        · simp at hy; subst hy; exact Or.inr ⟨hlt, 3, rfl⟩
        · simp at hy
      · subst hy; exact Or.inr ⟨hlt, 4, rfl⟩
  · split at hy <;>
    · simp only [List.mem_append] at hy
      rcases hy with hy | hy <;> split at hy <;> simp at hy <;> subst hy <;> exact hin _

theorem initR_sorted {p : ι} {x : Link ι × ℕ} :
    (initR links d p x).Pairwise fun a b => a.1 < b.1 := by
  have h0 : ∀ s s', s < s' → initRank links d p x.2 s < initRank links d p x.2 s' := by
    intro s s' h; unfold initRank; split <;> rw [rank_lt] <;> omega
  unfold initR
  split_ifs <;> simp [rank_lt, h0]

theorem firstR_rank {p : ι} {m : ℕ} {x : Link ι × ℕ} : ∀ y ∈ firstR d p m x, ∃ s, y.1 = rank (m + 1) (d p) 1 x.2 s := by
  intro y hy
  unfold firstR at hy
  split_ifs at hy <;> simp at hy <;> subst hy <;> exact ⟨_, rfl⟩

theorem secondR_rank {p : ι} {m : ℕ} {more : Bool} {x : Link ι × ℕ} :
    ∀ y ∈ secondR d p m more x, ∃ s, y.1 = rank (m + 2) (d p) 0 x.2 s := by
  intro y hy
  unfold secondR at hy
  split_ifs at hy <;> simp at hy <;> subst hy <;> exact ⟨_, rfl⟩

omit [DecidableEq ι] in
theorem zipIdx_pairwise : links.zipIdx.Pairwise fun a b => a.2 < b.2 := by
  rw [List.pairwise_iff_getElem]
  intro i j hi hj hij
  simp only [List.getElem_zipIdx]
  omega

theorem own_sorted {p : ι} {f : Link ι × ℕ → List (Rank × Act ι)}
    (h1 : ∀ x, (f x).Pairwise fun a b => a.1 < b.1)
    (h2 : ∀ x ∈ links.zipIdx, ∀ y ∈ links.zipIdx, x.1.has p = true → y.1.has p = true → x.2 < y.2 →
      ∀ a ∈ f x, ∀ b ∈ f y, a.1 < b.1) : (own links p f).Pairwise fun a b => a.1 < b.1 := by
  unfold own
  rw [List.pairwise_flatMap]
  refine ⟨fun x _ => ?_, ?_⟩
  · split
    · exact h1 x
    · exact List.Pairwise.nil
  · refine List.Pairwise.imp_of_mem ?_ zipIdx_pairwise
    intro x y hx hy hxy a ha b hb
    split at ha
    · next hpx =>
      split at hb
      · next hpy => exact h2 x hx y hy hpx hpy hxy a ha b hb
      · cases hb
    · cases ha

theorem mem_own {p : ι} {f : Link ι × ℕ → List (Rank × Act ι)} {a : Rank × Act ι} (h : a ∈ own links p f) :
    ∃ x ∈ links.zipIdx, x.1.has p = true ∧ a ∈ f x := by
  unfold own at h
  obtain ⟨x, hx, ha⟩ := List.mem_flatMap.mp h
  split at ha
  · next hp => exact ⟨x, hx, hp, ha⟩
  · cases ha

theorem script_sorted (ho : Ordered links d) {g : Common} {K : ℕ} {p : ι} :
    (script links d g K p).Pairwise fun a b => a.1 < b.1 := by
  unfold script
  have hwin : ∀ m more, ∀ a ∈ own links p (firstR d p m) ++ own links p (secondR d p m more),
      ∃ c j s, a.1 = rank (m + 1 + c) (d p) (1 - c) j s ∧ c ≤ 1 := by
    intro m more a ha
    rcases List.mem_append.mp ha with ha | ha
    · obtain ⟨x, _, _, hx⟩ := mem_own ha
      obtain ⟨s, hs⟩ := firstR_rank a hx
      exact ⟨0, x.2, s, hs, by omega⟩
    · obtain ⟨x, _, _, hx⟩ := mem_own ha
      obtain ⟨s, hs⟩ := secondR_rank a hx
      exact ⟨1, x.2, s, hs, le_refl _⟩
  rw [List.pairwise_append]
  refine ⟨?_, ?_, ?_⟩
  · refine own_sorted (fun x => initR_sorted) ?_
    rintro ⟨l, j⟩ hx ⟨l', j'⟩ hy hpx hpy hlt a ha b hb
    rcases initR_rank ho (mem_zipIdx hx) hpx a ha with ⟨h1, s, h2⟩ | ⟨h1, s, h2⟩ <;>
    rcases initR_rank ho (mem_zipIdx hy) hpy b hb with ⟨h3, s', h4⟩ | ⟨h3, s', h4⟩
    · rw [h2, h4, rank_lt]; simp only at hlt; omega
    · rw [h2, h4, rank_lt]; omega
    · have := late_mono (show j + 1 ≤ j' from hlt) h1
      rw [h3] at this; cases this
    · rw [h2, h4, rank_lt]; simp only at hlt; omega
  · rw [List.pairwise_flatMap]
    refine ⟨fun m _ => ?_, ?_⟩
    · rw [List.pairwise_append]
      refine ⟨own_sorted (fun x => ?_) ?_, own_sorted (fun x => ?_) ?_, ?_⟩
      · unfold firstR; split_ifs <;> exact List.pairwise_singleton _ _
      · intro x _ y _ _ _ hlt a ha b hb
        obtain ⟨s, hs⟩ := firstR_rank a ha
        obtain ⟨s', hs'⟩ := firstR_rank b hb
        rw [hs, hs', rank_lt]; omega
      · unfold secondR; split_ifs <;> first | exact List.pairwise_singleton _ _ | exact List.Pairwise.nil
      · intro x _ y _ _ _ hlt a ha b hb
        obtain ⟨s, hs⟩ := secondR_rank a ha
        obtain ⟨s', hs'⟩ := secondR_rank b hb
        rw [hs, hs', rank_lt]; omega
      · intro a ha b hb
        obtain ⟨x, _, _, hx⟩ := mem_own ha
        obtain ⟨y, _, _, hy⟩ := mem_own hb
        obtain ⟨s, hs⟩ := firstR_rank a hx
        obtain ⟨s', hs'⟩ := secondR_rank b hy
        rw [hs, hs', rank_lt]; omega
    · refine List.Pairwise.imp ?_ List.pairwise_lt_range
      intro m m' hmm a ha b hb
      obtain ⟨c, j, s, hs, hc⟩ := hwin _ _ a ha
      obtain ⟨c', j', s', hs', hc'⟩ := hwin _ _ b hb
      rw [hs, hs', rank_lt]; omega
  · intro a ha b hb
    obtain ⟨⟨l, j⟩, hx, hpx, hax⟩ := mem_own ha
    obtain ⟨m, _, hb⟩ := List.mem_flatMap.mp hb
    obtain ⟨c', j', s', hs', hc'⟩ := hwin _ _ b hb
    rcases initR_rank ho (mem_zipIdx hx) hpx a hax with ⟨h1, s, h2⟩ | ⟨h1, s, h2⟩
    · rw [h2, hs', rank_lt]; omega
    · rw [h2, hs', rank_lt]; omega

/-! ### The two ends of a channel -/

/-- Two schemes are between the same participants. -/
def SamePair (a b : Link ι) : Prop :=
  (a.first = b.first ∧ a.second = b.second) ∨ (a.first = b.second ∧ a.second = b.first)

/-- The schemes are between different participants, at most one per pair of participants. -/
structure Simple (links : List (Link ι)) : Prop where
  ne : ∀ l ∈ links, l.first ≠ l.second
  pairs : links.Pairwise fun a b => ¬ SamePair a b

omit [DecidableEq ι] in
theorem SamePair.symm {a b : Link ι} (h : SamePair a b) : SamePair b a := by
  rcases h with ⟨h1, h2⟩ | ⟨h1, h2⟩
  · exact Or.inl ⟨h1.symm, h2.symm⟩
  · exact Or.inr ⟨h2.symm, h1.symm⟩

/-- `l` connects `p` and `q` -/
def Joins (l : Link ι) (p q : ι) : Prop := (p = l.first ∧ q = l.second) ∨ (p = l.second ∧ q = l.first)

theorem joins_of_has {l : Link ι} {p : ι} (h : l.has p = true) : Joins l p (l.peer p) := by
  by_cases hp : p = l.first
  · left; exact ⟨hp, by simp [Link.peer, hp]⟩
  · right; exact ⟨second_of_has h hp, by simp [Link.peer, hp]⟩

theorem Joins.has {l : Link ι} {p q : ι} (h : Joins l p q) : l.has p = true := by
  unfold Link.has
  rcases h with ⟨h, _⟩ | ⟨h, _⟩ <;> simp [h]

theorem Joins.peer {l : Link ι} {p q : ι} (h : Joins l p q) (hne : l.first ≠ l.second) : l.peer p = q := by
  unfold Link.peer
  rcases h with ⟨h, h'⟩ | ⟨h, h'⟩
  · rw [if_pos h, h']
  · rw [if_neg (by rw [h]; exact hne.symm), h']

omit [DecidableEq ι] in
theorem Joins.symm {l : Link ι} {p q : ι} (h : Joins l p q) : Joins l q p := by
  rcases h with ⟨h, h'⟩ | ⟨h, h'⟩
  · exact Or.inr ⟨h', h⟩
  · exact Or.inl ⟨h', h⟩

omit [DecidableEq ι] in
theorem Joins.same {a b : Link ι} {p q : ι} (h : Joins a p q) (h' : Joins b p q) : SamePair a b := by
  rcases h with ⟨h1, h2⟩ | ⟨h1, h2⟩ <;> rcases h' with ⟨h3, h4⟩ | ⟨h3, h4⟩
  · exact Or.inl ⟨h1.symm.trans h3, h2.symm.trans h4⟩
  · exact Or.inr ⟨h1.symm.trans h3, h2.symm.trans h4⟩
  · exact Or.inr ⟨h2.symm.trans h4, h1.symm.trans h3⟩
  · exact Or.inl ⟨h2.symm.trans h4, h1.symm.trans h3⟩

omit [DecidableEq ι] in
theorem Simple.unique (hs : Simple links) {x y : Link ι × ℕ} {p q : ι} (hx : x ∈ links.zipIdx)
    (hy : y ∈ links.zipIdx) (h1 : Joins x.1 p q) (h2 : Joins y.1 p q) : x = y := by
  obtain ⟨l, j⟩ := x
  obtain ⟨l', j'⟩ := y
  obtain ⟨hj, rfl⟩ := List.getElem?_eq_some_iff.mp (mem_zipIdx hx)
  obtain ⟨hj', rfl⟩ := List.getElem?_eq_some_iff.mp (mem_zipIdx hy)
  have hp := List.pairwise_iff_getElem.mp hs.pairs
  rcases lt_trichotomy j j' with h | h | h
  · exact absurd (h1.same h2) (hp j j' hj hj' h)
  · subst h; rfl
  · exact absurd (h2.same h1) (hp j' j hj' hj h)

omit [DecidableEq ι] in
theorem zipIdx_nodup : links.zipIdx.Nodup :=
  zipIdx_pairwise.imp fun h e => absurd (congrArg Prod.snd e) (by omega)

/-- the partner of an operation -/
def _root_.Verif.Act.target : Act ι → ι
  | .send q => q
  | .recv q => q

theorem sends_other {q : ι} {l : List (Rank × Act ι)} (h : ∀ a ∈ l, a.2.target ≠ q) :
    sends q l = [] ∧ recvs q l = [] := by
  unfold sends recvs
  constructor <;>
  · rw [List.filterMap_eq_nil_iff]
    rintro ⟨r, a⟩ hm
    have := h _ hm
    cases a <;> simp_all [Act.target]

theorem initR_target {p : ι} {x : Link ι × ℕ} : ∀ a ∈ initR links d p x, a.2.target = x.1.peer p := by
  intro a ha
  unfold initR at ha
  unfold Link.peer
  split_ifs at ha with h1 h2 <;> simp only [List.mem_append, List.mem_cons, List.not_mem_nil, or_false] at ha <;>
    (try rcases ha with (ha | ha) | ha) <;> (try rcases ha with ha | ha) <;> simp_all [Act.target]

theorem firstR_target {p : ι} {m : ℕ} {x : Link ι × ℕ} : ∀ a ∈ firstR d p m x, a.2.target = x.1.peer p := by
  intro a ha
  unfold firstR at ha
  unfold Link.peer
  split_ifs at ha <;> simp at ha <;> subst ha <;> simp_all [Act.target]

theorem secondR_target {p : ι} {m : ℕ} {more : Bool} {x : Link ι × ℕ} :
    ∀ a ∈ secondR d p m more x, a.2.target = x.1.peer p := by
  intro a ha
  unfold secondR at ha
  unfold Link.peer
  split_ifs at ha <;> simp at ha <;> subst ha <;> simp_all [Act.target]

theorem sends_flatMap (q : ι) {α : Type} (f : α → List (Rank × Act ι)) (l : List α) :
    sends q (l.flatMap f) = l.flatMap fun x => sends q (f x) := by
  induction l with
  | nil => rfl
  | cons a l ih => rw [List.flatMap_cons, sends_append, ih, List.flatMap_cons]

theorem recvs_flatMap (q : ι) {α : Type} (f : α → List (Rank × Act ι)) (l : List α) :
    recvs q (l.flatMap f) = l.flatMap fun x => recvs q (f x) := by
  induction l with
  | nil => rfl
  | cons a l ih => rw [List.flatMap_cons, recvs_append, ih, List.flatMap_cons]

theorem own_channel (hs : Simple links) {p q : ι} {f : Link ι × ℕ → List (Rank × Act ι)}
    (hf : ∀ x, ∀ a ∈ f x, a.2.target = x.1.peer p) {x : Link ι × ℕ} (hx : x ∈ links.zipIdx) (hj : Joins x.1 p q) :
    sends q (own links p f) = sends q (f x) ∧ recvs q (own links p f) = recvs q (f x) := by
  have h0 : ∀ y ∈ links.zipIdx, y ≠ x → sends q (if y.1.has p then f y else []) = [] ∧
      recvs q (if y.1.has p then f y else []) = [] := by
    intro y hy hne
    split
    · next hp =>
      refine sends_other fun a ha e => hne ?_
      rw [hf y a ha] at e
      exact hs.unique hy hx (e ▸ joins_of_has hp) hj
    · exact ⟨rfl, rfl⟩
  unfold own
  rw [sends_flatMap, recvs_flatMap, flatMap_single zipIdx_nodup hx fun y hy hne => (h0 y hy hne).1,
    flatMap_single zipIdx_nodup hx fun y hy hne => (h0 y hy hne).2, if_pos hj.has]
  exact ⟨rfl, rfl⟩

theorem own_none {p q : ι} {f : Link ι × ℕ → List (Rank × Act ι)}
    (hf : ∀ x, ∀ a ∈ f x, a.2.target = x.1.peer p) (h : ∀ x ∈ links.zipIdx, ¬ Joins x.1 p q) :
    sends q (own links p f) = [] ∧ recvs q (own links p f) = [] := by
  refine sends_other fun a ha e => ?_
  obtain ⟨x, hx, hp, ha⟩ := mem_own ha
  rw [hf x a ha] at e
  exact h x hx (e ▸ joins_of_has hp)

theorem script_none {g : Common} {K : ℕ} {p q : ι} (h : ∀ x ∈ links.zipIdx, ¬ Joins x.1 p q) :
    sends q (script links d g K p) = [] ∧ recvs q (script links d g K p) = [] := by
  unfold script
  rw [sends_append, recvs_append, (own_none (fun x => initR_target) h).1, (own_none (fun x => initR_target) h).2,
    sends_flatMap, recvs_flatMap]
  constructor <;> rw [List.nil_append, List.flatMap_eq_nil_iff] <;> intro m _
  · rw [sends_append, (own_none (fun x => firstR_target) h).1, (own_none (fun x => secondR_target) h).1]; rfl
  · rw [recvs_append, (own_none (fun x => firstR_target) h).2, (own_none (fun x => secondR_target) h).2]; rfl

theorem script_channel (hs : Simple links) {g : Common} {K : ℕ} {p q : ι} {x : Link ι × ℕ} (hx : x ∈ links.zipIdx)
    (hj : Joins x.1 p q) :
    sends q (script links d g K p) = sends q (initR links d p x) ++ (List.range K).flatMap (fun m =>
      sends q (firstR d p m x) ++ sends q (secondR d p m (decide (Live g (m + 1))) x)) ∧
    recvs q (script links d g K p) = recvs q (initR links d p x) ++ (List.range K).flatMap (fun m =>
      recvs q (firstR d p m x) ++ recvs q (secondR d p m (decide (Live g (m + 1))) x)) := by
  unfold script
  rw [sends_append, recvs_append, (own_channel hs (fun x => initR_target) hx hj).1,
    (own_channel hs (fun x => initR_target) hx hj).2, sends_flatMap, recvs_flatMap]
  constructor <;> congr 1 <;> refine List.flatMap_congr fun m _ => ?_
  · rw [sends_append, (own_channel hs (fun x => firstR_target) hx hj).1,
      (own_channel hs (fun x => secondR_target) hx hj).1]
  · rw [recvs_append, (own_channel hs (fun x => firstR_target) hx hj).2,
      (own_channel hs (fun x => secondR_target) hx hj).2]

theorem sends_nil (q : ι) : sends q ([] : List (Rank × Act ι)) = [] := rfl
theorem recvs_nil (q : ι) : recvs q ([] : List (Rank × Act ι)) = [] := rfl

omit [DecidableEq ι] in
theorem forall₂_map {K : ℕ} {F G : ℕ → Rank} (h : ∀ m < K, F m < G m) :
    List.Forall₂ (· < ·) ((List.range K).map F) ((List.range K).map G) := by
  rw [List.forall₂_map_left_iff, List.forall₂_map_right_iff, List.forall₂_same]
  exact fun m hm => h m (List.mem_range.mp hm)

omit [DecidableEq ι] in
theorem forall₂_append {A B C D : List Rank} (h : List.Forall₂ (· < ·) A B) (h' : List.Forall₂ (· < ·) C D) :
    List.Forall₂ (· < ·) (A ++ C) (B ++ D) := List.rel_append h h'

theorem script_forward (hs : Simple links) (ho : Ordered links d) {g : Common} {K : ℕ} (hK : 1 ≤ K)
    (hP : ∀ m < K, decide (Live g (m + 1)) = decide (m + 1 < K)) {l : Link ι} {j : ℕ} (hx : (l, j) ∈ links.zipIdx) :
    List.Forall₂ (· < ·) (sends l.second (script links d g K l.first))
      (recvs l.first (script links d g K l.second)) := by
  have hl := mem_zipIdx hx
  have hm : l ∈ links := List.mem_of_getElem? hl
  have hne := hs.ne l hm
  rw [(script_channel hs hx (Or.inl ⟨rfl, rfl⟩)).1, (script_channel hs hx (Or.inr ⟨rfl, rfl⟩)).2]
  cases hser : l.serial with
  | true =>
    have hd := ho.serial l hm hser
    have h1 : sends l.second (initR links d l.first (l, j)) =
        if l.initFS then [initRank links d l.first j 2] else [] := by
      unfold initR
      simp only [hser, if_true]
      cases l.initSF <;> cases l.initFS <;> simp [sends_cons_send, sends_cons_recv, sends_nil]
    have h2 : recvs l.first (initR links d l.second (l, j)) =
        (if l.initFS then [rank 1 (d l.second) 0 j 3] else []) ++ [rank 1 (d l.second) 0 j 4] := by
      unfold initR
      simp only [hser, if_true, hne.symm, if_false]
      cases l.initSF <;> cases l.initFS <;> simp [recvs_cons_send, recvs_cons_recv, recvs_nil]
    rw [h1, h2, List.append_assoc]
    refine forall₂_append ?_ ?_
    · split
      · refine List.Forall₂.cons ?_ List.Forall₂.nil
        unfold initRank
        split <;> rw [rank_lt] <;> omega
      · exact List.Forall₂.nil
    · have e1 : ((List.range K).flatMap fun m => sends l.second (firstR d l.first m (l, j)) ++
          sends l.second (secondR d l.first m (decide (Live g (m + 1))) (l, j))) =
          (List.range K).map fun m => rank (m + 1) (d l.first) 1 j 0 := by
        rw [List.map_eq_flatMap]
        refine List.flatMap_congr fun m _ => ?_
        simp [firstR, secondR, sends_cons_send, sends_cons_recv, sends_nil]
      have e2 : [rank 1 (d l.second) 0 j 4] ++ ((List.range K).flatMap fun m => recvs l.first (firstR d l.second m (l, j)) ++
          recvs l.first (secondR d l.second m (decide (Live g (m + 1))) (l, j))) =
          (List.range K).map fun m => rank (m + 1) (d l.second) 0 j 4 := by
        rw [← range_shift (fun m => rank (m + 1) (d l.second) 0 j 4) (fun m => decide (Live g m)) hK hP]
        congr 1
        refine List.flatMap_congr fun m _ => ?_
        simp only [firstR, secondR, hser, hne.symm, if_false, if_true, recvs_cons_send, recvs_nil, List.nil_append]
        cases decide (Live g (m + 1)) <;> simp [recvs_cons_recv, recvs_nil]
      rw [e1, e2]
      exact forall₂_map fun m _ => by rw [rank_lt]; omega
  | false =>
    have hd := ho.parallel l hm hser
    have h1 : sends l.second (initR links d l.first (l, j)) =
        if l.initFS then [initRank links d l.first j 0] else [] := by
      unfold initR
      simp only [hser, Bool.false_eq_true, if_false, if_true]
      cases l.initSF <;> cases l.initFS <;> simp [sends_cons_send, sends_cons_recv, sends_nil]
    have h2 : recvs l.first (initR links d l.second (l, j)) =
        if l.initFS then [initRank links d l.second j 1] else [] := by
      unfold initR
      simp only [hser, Bool.false_eq_true, hne.symm, if_false]
      cases l.initSF <;> cases l.initFS <;> simp [recvs_cons_send, recvs_cons_recv, recvs_nil]
    rw [h1, h2]
    refine forall₂_append ?_ ?_
    · split
      · next hi =>
        refine List.Forall₂.cons ?_ List.Forall₂.nil
        have := ho.initFS l j hl hser hi
        unfold initRank
        cases h3 : late links l.first j with
        | true => rw [h3] at this; rw [if_pos rfl, if_pos (this rfl), rank_lt]; omega
        | false => rw [if_neg (by simp)]; split <;> rw [rank_lt] <;> omega
      · exact List.Forall₂.nil
    · have e1 : ((List.range K).flatMap fun m => sends l.second (firstR d l.first m (l, j)) ++
          sends l.second (secondR d l.first m (decide (Live g (m + 1))) (l, j))) =
          (List.range K).map fun m => rank (m + 1) (d l.first) 1 j 0 := by
        rw [List.map_eq_flatMap]
        refine List.flatMap_congr fun m _ => ?_
        simp [firstR, secondR, sends_cons_send, sends_cons_recv, sends_nil]
      have e2 : ((List.range K).flatMap fun m => recvs l.first (firstR d l.second m (l, j)) ++
          recvs l.first (secondR d l.second m (decide (Live g (m + 1))) (l, j))) =
          (List.range K).map fun m => rank (m + 1) (d l.second) 1 j 1 := by
        rw [List.map_eq_flatMap]
        refine List.flatMap_congr fun m _ => ?_
        simp [firstR, secondR, hser, hne.symm, recvs_cons_send, recvs_cons_recv, recvs_nil]
      rw [e1, e2]
      exact forall₂_map fun m _ => by rw [rank_lt]; omega

theorem script_backward (hs : Simple links) (ho : Ordered links d) {g : Common} {K : ℕ}
    {l : Link ι} {j : ℕ} (hx : (l, j) ∈ links.zipIdx) :
    List.Forall₂ (· < ·) (sends l.first (script links d g K l.second))
      (recvs l.second (script links d g K l.first)) := by
  have hl := mem_zipIdx hx
  have hm : l ∈ links := List.mem_of_getElem? hl
  have hne := hs.ne l hm
  rw [(script_channel hs hx (Or.inr ⟨rfl, rfl⟩)).1, (script_channel hs hx (Or.inl ⟨rfl, rfl⟩)).2]
  have e2 : ((List.range K).flatMap fun m => recvs l.second (firstR d l.first m (l, j)) ++
      recvs l.second (secondR d l.first m (decide (Live g (m + 1))) (l, j))) =
      (List.range K).map fun m => rank (m + 2) (d l.first) 0 j 4 := by
    rw [List.map_eq_flatMap]
    refine List.flatMap_congr fun m _ => ?_
    simp [firstR, secondR, recvs_cons_send, recvs_cons_recv, recvs_nil]
  cases hser : l.serial with
  | true =>
    have hd := ho.serial l hm hser
    have h1 : sends l.first (initR links d l.second (l, j)) =
        if l.initSF then [rank 0 0 0 j 0] else [] := by
      unfold initR
      simp only [hser, if_true, hne.symm, if_false]
      cases l.initSF <;> cases l.initFS <;> simp [sends_cons_send, sends_cons_recv, sends_nil]
    have h2 : recvs l.second (initR links d l.first (l, j)) =
        if l.initSF then [initRank links d l.first j 1] else [] := by
      unfold initR
      simp only [hser, if_true]
      cases l.initSF <;> cases l.initFS <;> simp [recvs_cons_send, recvs_cons_recv, recvs_nil]
    rw [h1, h2]
    refine forall₂_append ?_ ?_
    · split
      · refine List.Forall₂.cons ?_ List.Forall₂.nil
        unfold initRank
        split <;> rw [rank_lt] <;> omega
      · exact List.Forall₂.nil
    · have e1 : ((List.range K).flatMap fun m => sends l.first (firstR d l.second m (l, j)) ++
          sends l.first (secondR d l.second m (decide (Live g (m + 1))) (l, j))) =
          (List.range K).map fun m => rank (m + 1) (d l.second) 1 j 0 := by
        rw [List.map_eq_flatMap]
        refine List.flatMap_congr fun m _ => ?_
        simp only [firstR, secondR, hser, hne.symm, if_false, if_true]
        cases decide (Live g (m + 1)) <;> simp [sends_cons_send, sends_cons_recv, sends_nil]
      rw [e1, e2]
      exact forall₂_map fun m _ => by rw [rank_lt]; omega
  | false =>
    have hd := ho.parallel l hm hser
    have h1 : sends l.first (initR links d l.second (l, j)) =
        if l.initSF then [initRank links d l.second j 2] else [] := by
      unfold initR
      simp only [hser, Bool.false_eq_true, hne.symm, if_false]
      cases l.initSF <;> cases l.initFS <;> simp [sends_cons_send, sends_cons_recv, sends_nil]
    have h2 : recvs l.second (initR links d l.first (l, j)) =
        if l.initSF then [initRank links d l.first j 3] else [] := by
      unfold initR
      simp only [hser, Bool.false_eq_true, if_false, if_true]
      cases l.initSF <;> cases l.initFS <;> simp [recvs_cons_send, recvs_cons_recv, recvs_nil]
    rw [h1, h2]
    refine forall₂_append ?_ ?_
    · split
      · next hi =>
        refine List.Forall₂.cons ?_ List.Forall₂.nil
        have := ho.initSF l j hl hser hi
        unfold initRank
        cases h3 : late links l.second j with
        | true => rw [h3] at this; rw [if_pos rfl, if_pos (this rfl), rank_lt]; omega
        | false => rw [if_neg (by simp)]; split <;> rw [rank_lt] <;> omega
      · exact List.Forall₂.nil
    · have e1 : ((List.range K).flatMap fun m => sends l.first (firstR d l.second m (l, j)) ++
          sends l.first (secondR d l.second m (decide (Live g (m + 1))) (l, j))) =
          (List.range K).map fun m => rank (m + 2) (d l.second) 0 j 0 := by
        rw [List.map_eq_flatMap]
        refine List.flatMap_congr fun m _ => ?_
        simp [firstR, secondR, hser, hne.symm, sends_cons_send, sends_cons_recv, sends_nil]
      rw [e1, e2]
      exact forall₂_map fun m _ => by rw [rank_lt]; omega

theorem script_order (hs : Simple links) (ho : Ordered links d) {g : Common} {K : ℕ} (hK : 1 ≤ K)
    (hP : ∀ m < K, decide (Live g (m + 1)) = decide (m + 1 < K)) (p q : ι) :
    List.Forall₂ (· < ·) (sends q (script links d g K p)) (recvs p (script links d g K q)) := by
  by_cases h : ∃ x ∈ links.zipIdx, Joins x.1 p q
  · obtain ⟨⟨l, j⟩, hx, hj | hj⟩ := h
    · obtain ⟨rfl, rfl⟩ := hj
      exact script_forward hs ho hK hP hx
    · obtain ⟨rfl, rfl⟩ := hj
      exact script_backward hs ho hx
  · push Not at h
    rw [(script_none h).1, (script_none fun x hx hj => h x hx hj.symm).2]
    exact List.Forall₂.nil

end Comp
end Verif
