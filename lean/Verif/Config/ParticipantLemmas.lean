import Verif.Config.ParticipantSpec
import Mathlib.Data.List.Induction
import Mathlib.Data.List.Pairwise
import Mathlib.Data.List.Nodup
import Mathlib.Tactic.Tauto
import Mathlib.Tactic.SplitIfs

/-!
# Lemmas for C119
-/

set_option autoImplicit false
set_option linter.unusedSectionVars false

namespace Verif.Config.Part

open Verif.Config.Scheme (Err)

variable {ν : Type} [DecidableEq ν]

/-- A computation that succeeds with `v` exactly if `P`, and else reports an error to the user. -/
def Decides {α : Type} (x : Except Err α) (P : Prop) (v : α) : Prop :=
  (P → x = .ok v) ∧ (¬ P → x = .error .check)

theorem Decides.congr {α : Type} {x : Except Err α} {P Q : Prop} {v : α} (h : Decides x P v)
    (hpq : P ↔ Q) : Decides x Q v := by rwa [← hpq]

/-! ### One tag -/

theorem checkMapping_decides (k : Setup ν) (c : Conf ν) : Decides (checkMapping k c) (Possible k c) () := by
  unfold checkMapping
  split
  · rename_i h1
    exact ⟨fun h => absurd h1.2 (h.readsJit h1.1).1, fun _ => rfl⟩
  rename_i h1
  split
  · rename_i h2
    exact ⟨fun h => absurd (h.readsJit h2.1).2 h2.2, fun _ => rfl⟩
  rename_i h2
  split
  · rename_i h3
    exact ⟨fun h => absurd (h.writesJit h3.1).2 h3.2, fun _ => rfl⟩
  rename_i h3
  split
  · rename_i h4
    refine ⟨fun h => ?_, fun _ => rfl⟩
    have := h.experimental (by simpa using h4.1)
    rw [h4.2] at this; cases this
  rename_i h4
  split
  · rename_i h5
    refine ⟨fun h => ?_, fun _ => rfl⟩
    have := h.serial (by simpa using h5.1)
    omega
  rename_i h5
  have hexp : c.kind ∈ [Kind.axial, .radial, .coarseGraining] → k.experimental = true := by
    intro h
    cases he : k.experimental
    · exact absurd ⟨by simpa using h, he⟩ h4
    · rfl
  have hser : c.kind ∈ [Kind.axial, .radial] → k.size ≤ 1 := by
    intro h
    by_contra hs
    exact h5 ⟨by simpa using h, by omega⟩
  have href : c.kind.refuses c.constraint = true ↔
      c.constraint = .conservative ∧ c.kind ∈ [Kind.gradient, .axial, .radial] := by
    cases hk : c.kind <;> cases hc : c.constraint <;> simp [Kind.refuses]
  obtain ⟨w, src, dst, con, kind⟩ := c
  cases src with
  | none =>
    cases dst with
    | none => exact absurd ⟨rfl, rfl⟩ h1
    | some b =>
      simp only [Option.map_none, Option.map_some]
      cases hb : k.mesh b with
      | none => exact ⟨fun h => absurd hb (h.known.2 b rfl), fun _ => rfl⟩
      | some y =>
        simp only
        split_ifs with h6 h7
        · exact ⟨fun h => absurd (href.1 h7).2 (h.method (href.1 h7).1), fun _ => rfl⟩
        · refine ⟨fun _ => rfl, fun h => absurd ?_ h⟩
          exact ⟨⟨by simp, by simp [hb]⟩, by simp, by simp, fun _ => ⟨by simp, not_not.1 fun h => h3 ⟨rfl, h⟩⟩,
            fun _ => by simpa using h6, fun hc hk => h7 (href.2 ⟨hc, hk⟩), hexp, hser⟩
        · exact ⟨fun h => absurd (by simpa using h.jit (.inl rfl)) h6, fun _ => rfl⟩
  | some a =>
    cases dst with
    | none =>
      simp only [Option.map_none, Option.map_some]
      cases ha : k.mesh a with
      | none => exact ⟨fun h => absurd ha (h.known.1 a rfl), fun _ => rfl⟩
      | some y =>
        simp only
        split_ifs with h6 h7
        · exact ⟨fun h => absurd (href.1 h7).2 (h.method (href.1 h7).1), fun _ => rfl⟩
        · refine ⟨fun _ => rfl, fun h => absurd ?_ h⟩
          exact ⟨⟨by simp [ha], by simp⟩, by simp, fun _ => ⟨by simp, not_not.1 fun h => h2 ⟨rfl, h⟩⟩, by simp,
            fun _ => by simpa using h6, fun hc hk => h7 (href.2 ⟨hc, hk⟩), hexp, hser⟩
        · exact ⟨fun h => absurd (by simpa using h.jit (.inr rfl)) h6, fun _ => rfl⟩
    | some b =>
      simp only [Option.map_some]
      cases ha : k.mesh a with
      | none => exact ⟨fun h => absurd ha (h.known.1 a rfl), fun _ => rfl⟩
      | some x =>
        cases hb : k.mesh b with
        | none => exact ⟨fun h => absurd hb (h.known.2 b rfl), fun _ => rfl⟩
        | some y =>
          simp only
          split_ifs with h6 h7
          · exact ⟨fun h => absurd (h.dims a b x y rfl rfl ha hb) h6, fun _ => rfl⟩
          · exact ⟨fun h => absurd (href.1 h7).2 (h.method (href.1 h7).1), fun _ => rfl⟩
          · refine ⟨fun _ => rfl, fun h => absurd ?_ h⟩
            refine ⟨⟨by simp [ha], by simp [hb]⟩, ?_, by simp, by simp, by simp,
              fun hc hk => h7 (href.2 ⟨hc, hk⟩), hexp, hser⟩
            intro a' b' x' y' h1 h2 h3 h4
            cases h1; cases h2
            rw [ha] at h3; rw [hb] at h4
            cases h3; cases h4
            exact not_not.1 h6

theorem checkDuplicates_decides (c : Conf ν) (l : List (Conf ν)) :
    Decides (checkDuplicates c l) ((∀ x ∈ l, ¬ (x.src = c.src ∧ x.dst = c.dst)) ∧
      ∀ x ∈ l, ¬ (x.write = true ∧ c.write = true ∧ x.dst = c.dst ∧ (x.src = none ∨ c.src = none))) () := by
  unfold checkDuplicates
  split_ifs with h1 h2
  · refine ⟨fun h => ?_, fun _ => rfl⟩
    obtain ⟨x, hx, hd⟩ := List.any_eq_true.1 h1
    have := of_decide_eq_true hd
    exact absurd ⟨this.2.symm, this.1.symm⟩ (h.1 x hx)
  · refine ⟨fun h => ?_, fun _ => rfl⟩
    obtain ⟨x, hx, hd⟩ := List.any_eq_true.1 h2
    have := of_decide_eq_true hd
    exact absurd ⟨this.2.1.2, this.2.1.1, this.1.symm, this.2.2.symm⟩ (h.2 x hx)
  · refine ⟨fun _ => rfl, fun h => absurd ⟨?_, ?_⟩ h⟩
    · intro x hx hd
      exact h1 (List.any_eq_true.2 ⟨x, hx, decide_eq_true ⟨hd.2.symm, hd.1.symm⟩⟩)
    · intro x hx hd
      exact h2 (List.any_eq_true.2 ⟨x, hx, decide_eq_true ⟨hd.2.2.1.symm, ⟨hd.2.1, hd.1⟩, hd.2.2.2.symm⟩⟩)

/-- The state after tags that are in order. -/
def stateOf (ts : List (Tag ν)) : State ν := ⟨provides ts, receives ts, writes ts, reads ts, mappings ts⟩

theorem isProvided_iff (s : State ν) (m : ν) : s.isProvided m = true ↔ m ∈ s.provided := by
  simp [State.isProvided]

theorem isReceived_iff (s : State ν) (m : ν) : s.isReceived m = true ↔ m ∈ s.received.map (·.1) := by
  simp [State.isReceived]

theorem isUsed_iff (s : State ν) (m : ν) :
    s.isUsed m = true ↔ m ∈ s.provided ∨ m ∈ s.received.map (·.1) := by
  rw [State.isUsed, Bool.or_eq_true, isProvided_iff, isReceived_iff]

theorem knowsData_iff (s : State ν) (d : ν × ν) : s.knowsData d = true ↔ d ∈ s.writes ∨ d ∈ s.reads := by
  simp [State.knowsData]

theorem pairwise_snoc {α : Type} {R : α → α → Prop} {l : List α} {a : α} :
    (l ++ [a]).Pairwise R ↔ l.Pairwise R ∧ ∀ x ∈ l, R x a := by
  simp [List.pairwise_append]

theorem nodup_snoc {α : Type} {l : List α} {a : α} : (l ++ [a]).Nodup ↔ l.Nodup ∧ a ∉ l := by
  unfold List.Nodup
  rw [pairwise_snoc]
  constructor
  · rintro ⟨h, h'⟩; exact ⟨h, fun ha => h' a ha rfl⟩
  · rintro ⟨h, h'⟩; exact ⟨h, fun x hx he => h' (he ▸ hx)⟩

/-- Projections of a list with one more tag. -/
theorem proj_provide (ts : List (Tag ν)) (m : ν) : stateOf (ts ++ [.provide m]) =
    { stateOf ts with provided := provides ts ++ [m] } := by
  simp [stateOf, provides, receives, writes, reads, mappings]

theorem proj_receive (ts : List (Tag ν)) (m : ν) (src : Option ν) (q : ℚ) (a : Bool) :
    stateOf (ts ++ [.receive m src q a]) = { stateOf ts with received := receives ts ++ [(m, a)] } := by
  simp [stateOf, provides, receives, writes, reads, mappings]

theorem proj_write (ts : List (Tag ν)) (d m : ν) : stateOf (ts ++ [.write d m]) =
    { stateOf ts with writes := writes ts ++ [(m, d)] } := by
  simp [stateOf, provides, receives, writes, reads, mappings]

theorem proj_read (ts : List (Tag ν)) (d m : ν) : stateOf (ts ++ [.read d m]) =
    { stateOf ts with reads := reads ts ++ [(m, d)] } := by
  simp [stateOf, provides, receives, writes, reads, mappings]

theorem proj_mapping (ts : List (Tag ν)) (c : Conf ν) : stateOf (ts ++ [.mapping c]) =
    { stateOf ts with maps := mappings ts ++ [c] } := by
  simp [stateOf, provides, receives, writes, reads, mappings]

theorem tagsOk_prefix {k : Setup ν} {ts us : List (Tag ν)} (h : TagsOk k (ts ++ us)) : TagsOk k ts := by
  have e1 : provides (ts ++ us) = provides ts ++ provides us := by simp [provides]
  have e2 : receives (ts ++ us) = receives ts ++ receives us := by simp [receives]
  have e3 : writes (ts ++ us) = writes ts ++ writes us := by simp [writes]
  have e4 : reads (ts ++ us) = reads ts ++ reads us := by simp [reads]
  have e5 : mappings (ts ++ us) = mappings ts ++ mappings us := by simp [mappings]
  obtain ⟨h1, ⟨h2, h2', h2''⟩, h3, h4, ⟨h5, h5', h5''⟩, h6, h7, h8⟩ := h
  rw [e1, e2, List.map_append] at h1
  rw [e1] at h2
  rw [e2, List.map_append] at h2'
  rw [e1, e2, List.map_append] at h2''
  rw [e3, e4] at h4
  rw [e3] at h5
  rw [e4] at h5'
  rw [e3, e4] at h5''
  rw [e5] at h6 h7 h8
  refine ⟨fun m hm => h1 m (hm.imp (List.mem_append_left _) (List.mem_append_left _)),
    ⟨(List.nodup_append.1 h2).1, (List.nodup_append.1 h2').1, fun m hm hm' =>
      h2'' m (List.mem_append_left _ hm) (List.mem_append_left _ hm')⟩,
    fun m s q a hm => h3 m s q a (List.mem_append_left _ hm),
    fun d hd => h4 d (hd.imp (List.mem_append_left _) (List.mem_append_left _)),
    ⟨(List.nodup_append.1 h5).1, (List.nodup_append.1 h5').1, fun m hm hm' =>
      h5'' m (List.mem_append_left _ hm) (List.mem_append_left _ hm')⟩,
    fun c hc => h6 c (List.mem_append_left _ hc), (List.pairwise_append.1 h7).1,
    (List.pairwise_append.1 h8).1⟩

theorem hasData_iff {k : Setup ν} {m d : ν} {x : Mesh ν} (h : k.mesh m = some x) :
    HasData k m d ↔ d ∈ x.data := by
  unfold HasData
  constructor
  · rintro ⟨y, hy, hd⟩; rw [h] at hy; cases hy; exact hd
  · intro hd; exact ⟨x, h, hd⟩

/-- The condition a tag adds. -/
def Fits (k : Setup ν) (s : State ν) : Tag ν → Prop
  | .provide m => k.mesh m ≠ none ∧ ¬ (m ∈ s.provided ∨ m ∈ s.received.map (·.1))
  | .receive m src q _ => k.mesh m ≠ none ∧ (src ≠ none ∧ src ≠ some k.name ∧ 0 ≤ q) ∧
      ¬ (m ∈ s.provided ∨ m ∈ s.received.map (·.1))
  | .write d m => HasData k m d ∧ ¬ ((m, d) ∈ s.writes ∨ (m, d) ∈ s.reads)
  | .read d m => HasData k m d ∧ ¬ ((m, d) ∈ s.writes ∨ (m, d) ∈ s.reads)
  | .mapping c => Possible k c ∧ (∀ x ∈ s.maps, ¬ (x.src = c.src ∧ x.dst = c.dst)) ∧
      ∀ x ∈ s.maps, ¬ (x.write = true ∧ c.write = true ∧ x.dst = c.dst ∧ (x.src = none ∨ c.src = none))

/-- The state after the tag. -/
def State.add (s : State ν) : Tag ν → State ν
  | .provide m => { s with provided := s.provided ++ [m] }
  | .receive m _ _ a => { s with received := s.received ++ [(m, a)] }
  | .write d m => { s with writes := s.writes ++ [(m, d)] }
  | .read d m => { s with reads := s.reads ++ [(m, d)] }
  | .mapping c => { s with maps := s.maps ++ [c] }

theorem stateOf_snoc (ts : List (Tag ν)) (t : Tag ν) : stateOf (ts ++ [t]) = (stateOf ts).add t := by
  cases t
  exacts [proj_provide _ _, proj_receive _ _ _ _ _, proj_write _ _ _, proj_read _ _ _, proj_mapping _ _]

theorem step_decides (k : Setup ν) (s : State ν) (t : Tag ν) : Decides (step k s t) (Fits k s t) (s.add t) := by
  cases t with
  | provide m =>
    simp only [step, Fits]
    split_ifs with h1 h2
    · exact ⟨fun h => absurd h1 h.1, fun _ => rfl⟩
    · exact ⟨fun h => absurd ((isUsed_iff _ _).1 h2) h.2, fun _ => rfl⟩
    · exact ⟨fun _ => rfl, fun h => absurd ⟨h1, fun h' => h2 ((isUsed_iff _ _).2 h')⟩ h⟩
  | receive m src q a =>
    simp only [step, Fits]
    split_ifs with h1 h2 h3 h4 h5
    · exact ⟨fun h => absurd h1 h.1, fun _ => rfl⟩
    · exact ⟨fun h => absurd h2 h.2.1.1, fun _ => rfl⟩
    · exact ⟨fun h => absurd h3.symm h.2.1.2.1, fun _ => rfl⟩
    · exact ⟨fun h => absurd h4 (not_lt.2 h.2.1.2.2), fun _ => rfl⟩
    · exact ⟨fun h => absurd ((isUsed_iff _ _).1 h5) h.2.2, fun _ => rfl⟩
    · exact ⟨fun _ => rfl, fun h => absurd ⟨h1, ⟨h2, fun h' => h3 h'.symm, not_lt.1 h4⟩,
        fun h' => h5 ((isUsed_iff _ _).2 h')⟩ h⟩
  | write d m =>
    simp only [step, Fits]
    cases hm : k.mesh m with
    | none =>
      refine ⟨fun h => ?_, fun _ => rfl⟩
      obtain ⟨⟨x, hx, -⟩, -⟩ := h
      rw [hm] at hx
      cases hx
    | some x =>
      rw [hasData_iff hm]
      simp only
      split_ifs with h1 h2
      · exact ⟨fun h => absurd ((knowsData_iff _ _).1 h2) h.2, fun _ => rfl⟩
      · exact ⟨fun _ => rfl, fun h => absurd ⟨h1, fun h' => h2 ((knowsData_iff _ _).2 h')⟩ h⟩
      · exact ⟨fun h => absurd h.1 h1, fun _ => rfl⟩
  | read d m =>
    simp only [step, Fits]
    cases hm : k.mesh m with
    | none =>
      refine ⟨fun h => ?_, fun _ => rfl⟩
      obtain ⟨⟨x, hx, -⟩, -⟩ := h
      rw [hm] at hx
      cases hx
    | some x =>
      rw [hasData_iff hm]
      simp only
      split_ifs with h1 h2
      · exact ⟨fun h => absurd ((knowsData_iff _ _).1 h2) h.2, fun _ => rfl⟩
      · exact ⟨fun _ => rfl, fun h => absurd ⟨h1, fun h' => h2 ((knowsData_iff _ _).2 h')⟩ h⟩
      · exact ⟨fun h => absurd h.1 h1, fun _ => rfl⟩
  | mapping c =>
    simp only [step, Fits]
    obtain ⟨a1, a2⟩ := checkMapping_decides k c
    obtain ⟨b1, b2⟩ := checkDuplicates_decides c s.maps
    by_cases hp : Possible k c
    · rw [a1 hp]
      simp only
      by_cases hd : (∀ x ∈ s.maps, ¬ (x.src = c.src ∧ x.dst = c.dst)) ∧
          ∀ x ∈ s.maps, ¬ (x.write = true ∧ c.write = true ∧ x.dst = c.dst ∧ (x.src = none ∨ c.src = none))
      · rw [b1 hd]; exact ⟨fun _ => rfl, fun h => absurd ⟨hp, hd⟩ h⟩
      · rw [b2 hd]; exact ⟨fun h => absurd h.2 hd, fun _ => rfl⟩
    · rw [a2 hp]; exact ⟨fun h => absurd h.1 hp, fun _ => rfl⟩

theorem tagsOk_nil (k : Setup ν) : TagsOk k [] := by
  constructor <;> simp [provides, receives, writes, reads, mappings]

theorem tagsOk_snoc (k : Setup ν) (ts : List (Tag ν)) (t : Tag ν) :
    TagsOk k (ts ++ [t]) ↔ TagsOk k ts ∧ Fits k (stateOf ts) t := by
  have hs := stateOf_snoc ts t
  have e1 : provides (ts ++ [t]) = ((stateOf ts).add t).provided := congrArg State.provided hs
  have e2 : receives (ts ++ [t]) = ((stateOf ts).add t).received := congrArg State.received hs
  have e3 : writes (ts ++ [t]) = ((stateOf ts).add t).writes := congrArg State.writes hs
  have e4 : reads (ts ++ [t]) = ((stateOf ts).add t).reads := congrArg State.reads hs
  have e5 : mappings (ts ++ [t]) = ((stateOf ts).add t).maps := congrArg State.maps hs
  constructor
  · intro h
    refine ⟨tagsOk_prefix h, ?_⟩
    obtain ⟨h1, ⟨h2, h2', h2''⟩, h3, h4, ⟨h5, h5', h5''⟩, h6, h7, h8⟩ := h
    rw [e1] at h2 h2''
    rw [e2] at h2' h2''
    rw [e1, e2] at h1
    rw [e3, e4] at h4
    rw [e3] at h5 h5''
    rw [e4] at h5' h5''
    rw [e5] at h6 h7 h8
    cases t with
    | provide m =>
      simp only [State.add] at *
      refine ⟨h1 m (.inl (by simp)), ?_⟩
      rintro (h | h)
      · exact (nodup_snoc.1 h2).2 h
      · exact h2'' m (by simp) h
    | receive m src q a =>
      simp only [State.add, List.map_append, List.map_cons, List.map_nil] at *
      refine ⟨h1 m (.inr (by simp)), h3 m src q a (by simp), ?_⟩
      rintro (h | h)
      · exact h2'' m h (by simp)
      · exact (nodup_snoc.1 h2').2 h
    | write d m =>
      simp only [State.add] at *
      refine ⟨h4 (m, d) (.inl (by simp)), ?_⟩
      rintro (h | h)
      · exact (nodup_snoc.1 h5).2 h
      · exact h5'' (m, d) (by simp) h
    | read d m =>
      simp only [State.add] at *
      refine ⟨h4 (m, d) (.inr (by simp)), ?_⟩
      rintro (h | h)
      · exact h5'' (m, d) h (by simp)
      · exact (nodup_snoc.1 h5').2 h
    | mapping c =>
      simp only [State.add] at *
      exact ⟨h6 c (by simp), (pairwise_snoc.1 h7).2, (pairwise_snoc.1 h8).2⟩
  · rintro ⟨⟨h1, ⟨h2, h2', h2''⟩, h3, h4, ⟨h5, h5', h5''⟩, h6, h7, h8⟩, hf⟩
    cases t with
    | provide m =>
      simp only [State.add] at e1 e2 e3 e4 e5
      obtain ⟨f1, f2⟩ := hf
      push Not at f2
      constructor
      · rw [e1, e2]
        rintro x (hx | hx)
        · rcases List.mem_append.1 hx with hx | hx
          · exact h1 x (.inl hx)
          · rw [List.mem_singleton.1 hx]; exact f1
        · exact h1 x (.inr hx)
      · rw [e1, e2]
        refine ⟨nodup_snoc.2 ⟨h2, f2.1⟩, h2', fun x hx => ?_⟩
        rcases List.mem_append.1 hx with hx | hx
        · exact h2'' x hx
        · rw [List.mem_singleton.1 hx]; exact f2.2
      · intro m' s' q' a' hm
        rcases List.mem_append.1 hm with hm | hm
        · exact h3 _ _ _ _ hm
        · cases List.mem_singleton.1 hm
      · rw [e3, e4]; exact h4
      · rw [e3, e4]; exact ⟨h5, h5', h5''⟩
      · rw [e5]; exact h6
      · rw [e5]; exact h7
      · rw [e5]; exact h8
    | receive m src q a =>
      simp only [State.add] at e1 e2 e3 e4 e5
      obtain ⟨f1, f2, f3⟩ := hf
      push Not at f3
      have e2' : (receives (ts ++ [Tag.receive m src q a])).map (·.1) = (receives ts).map (·.1) ++ [m] := by
        rw [e2]; simp [stateOf]
      constructor
      · rw [e1, e2']
        rintro x (hx | hx)
        · exact h1 x (.inl hx)
        · rcases List.mem_append.1 hx with hx | hx
          · exact h1 x (.inr hx)
          · rw [List.mem_singleton.1 hx]; exact f1
      · rw [e1, e2']
        refine ⟨h2, nodup_snoc.2 ⟨h2', f3.2⟩, fun x hx hx' => ?_⟩
        rcases List.mem_append.1 hx' with hx' | hx'
        · exact h2'' x hx hx'
        · rw [List.mem_singleton.1 hx'] at hx; exact f3.1 hx
      · intro m' s' q' a' hm
        rcases List.mem_append.1 hm with hm | hm
        · exact h3 _ _ _ _ hm
        · cases List.mem_singleton.1 hm; exact f2
      · rw [e3, e4]; exact h4
      · rw [e3, e4]; exact ⟨h5, h5', h5''⟩
      · rw [e5]; exact h6
      · rw [e5]; exact h7
      · rw [e5]; exact h8
    | write d m =>
      simp only [State.add] at e1 e2 e3 e4 e5
      obtain ⟨f1, f2⟩ := hf
      push Not at f2
      constructor
      · rw [e1, e2]; exact h1
      · rw [e1, e2]; exact ⟨h2, h2', h2''⟩
      · intro m' s' q' a' hm
        rcases List.mem_append.1 hm with hm | hm
        · exact h3 _ _ _ _ hm
        · cases List.mem_singleton.1 hm
      · rw [e3, e4]
        rintro x (hx | hx)
        · rcases List.mem_append.1 hx with hx | hx
          · exact h4 x (.inl hx)
          · rw [List.mem_singleton.1 hx]; exact f1
        · exact h4 x (.inr hx)
      · rw [e3, e4]
        refine ⟨nodup_snoc.2 ⟨h5, f2.1⟩, h5', fun x hx => ?_⟩
        rcases List.mem_append.1 hx with hx | hx
        · exact h5'' x hx
        · rw [List.mem_singleton.1 hx]; exact f2.2
      · rw [e5]; exact h6
      · rw [e5]; exact h7
      · rw [e5]; exact h8
    | read d m =>
      simp only [State.add] at e1 e2 e3 e4 e5
      obtain ⟨f1, f2⟩ := hf
      push Not at f2
      constructor
      · rw [e1, e2]; exact h1
      · rw [e1, e2]; exact ⟨h2, h2', h2''⟩
      · intro m' s' q' a' hm
        rcases List.mem_append.1 hm with hm | hm
        · exact h3 _ _ _ _ hm
        · cases List.mem_singleton.1 hm
      · rw [e3, e4]
        rintro x (hx | hx)
        · exact h4 x (.inl hx)
        · rcases List.mem_append.1 hx with hx | hx
          · exact h4 x (.inr hx)
          · rw [List.mem_singleton.1 hx]; exact f1
      · rw [e3, e4]
        refine ⟨h5, nodup_snoc.2 ⟨h5', f2.2⟩, fun x hx hx' => ?_⟩
        rcases List.mem_append.1 hx' with hx' | hx'
        · exact h5'' x hx hx'
        · rw [List.mem_singleton.1 hx'] at hx; exact f2.1 hx
      · rw [e5]; exact h6
      · rw [e5]; exact h7
      · rw [e5]; exact h8
    | mapping c =>
      simp only [State.add] at e1 e2 e3 e4 e5
      obtain ⟨f1, f2, f3⟩ := hf
      constructor
      · rw [e1, e2]; exact h1
      · rw [e1, e2]; exact ⟨h2, h2', h2''⟩
      · intro m' s' q' a' hm
        rcases List.mem_append.1 hm with hm | hm
        · exact h3 _ _ _ _ hm
        · cases List.mem_singleton.1 hm
      · rw [e3, e4]; exact h4
      · rw [e3, e4]; exact ⟨h5, h5', h5''⟩
      · rw [e5]
        intro x hx
        rcases List.mem_append.1 hx with hx | hx
        · exact h6 x hx
        · rw [List.mem_singleton.1 hx]; exact f1
      · rw [e5]; exact pairwise_snoc.2 ⟨h7, f2⟩
      · rw [e5]; exact pairwise_snoc.2 ⟨h8, f3⟩

theorem collect_append (k : Setup ν) (s : State ν) (ts us : List (Tag ν)) :
    collect k s (ts ++ us) = match collect k s ts with
      | .error e => .error e
      | .ok s => collect k s us := by
  induction ts generalizing s with
  | nil => rfl
  | cons t ts ih =>
    rw [List.cons_append, collect, collect]
    cases step k s t with
    | error e => rfl
    | ok s => exact ih s

theorem collect_decides (k : Setup ν) (ts : List (Tag ν)) :
    Decides (collect k .empty ts) (TagsOk k ts) (stateOf ts) := by
  induction ts using List.reverseRecOn with
  | nil => exact ⟨fun _ => rfl, fun h => absurd (tagsOk_nil k) h⟩
  | append_singleton ts t ih =>
    obtain ⟨i1, i2⟩ := ih
    rw [collect_append]
    by_cases h : TagsOk k ts
    · rw [i1 h]
      obtain ⟨s1, s2⟩ := step_decides k (stateOf ts) t
      simp only [collect]
      by_cases hf : Fits k (stateOf ts) t
      · rw [s1 hf]
        exact ⟨fun _ => by rw [stateOf_snoc], fun h' => absurd ((tagsOk_snoc k ts t).2 ⟨h, hf⟩) h'⟩
      · rw [s2 hf]
        exact ⟨fun h' => absurd ((tagsOk_snoc k ts t).1 h').2 hf, fun _ => rfl⟩
    · rw [i2 h]
      exact ⟨fun h' => absurd (tagsOk_prefix h') h, fun _ => rfl⟩

end Verif.Config.Part
