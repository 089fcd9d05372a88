import Verif.Startup.Model

/-!
# C110: to whom a provider gives its mesh with two-level initialization
-/

set_option autoImplicit false

namespace Verif.Startup

variable {ι : Type}

/-- What each receiver waits for (ReceivedPartition::communicate, partition/ReceivedPartition.cpp:50-80). -/
def awaited (l : List (ι × Bool)) : List (ι × Gift) := l.map fun x => (x.1, if x.2 then .parts else .whole)

theorem targetsFrom_false (first : ι) : ∀ (used : Bool) (l : List (ι × Bool)), (∀ x ∈ l, x.2 = false) → targetsFrom first used l = some (awaited l)
  | _, [], _ => rfl
  | used, (q, b) :: l, h => by
    have hb : b = false := h (q, b) (by simp)
    subst hb
    rw [targetsFrom, targetsFrom_false first used l fun x hx => h x (by simp [hx])]
    rfl

theorem targetsFrom_used (first : ι) : ∀ (l : List (ι × Bool)), (∃ x ∈ l, x.2 = true) → targetsFrom first true l = none
  | [], h => by simp at h
  | (q, true) :: l, _ => by rw [targetsFrom, if_pos rfl]
  | (q, false) :: l, h => by
    rw [targetsFrom, targetsFrom_used first l (by simpa using h)]
    rfl

theorem targetsFrom_wrong (first : ι) : ∀ (l : List (ι × Bool)) (t : List (ι × Gift)), (∀ x ∈ l, x.1 ≠ first) → (∃ x ∈ l, x.2 = true) →
    targetsFrom first false l = some t → (first, Gift.parts) ∈ t ∧ ∀ x ∈ l, x.2 = true → (x.1, Gift.parts) ∉ t
  | [], _, _, h, _ => by simp at h
  | (q, true) :: l, t, hd, _, ht => by
    have hl : ∀ x ∈ l, x.2 = false := by
      intro x hx
      by_contra hb
      rw [targetsFrom, if_neg (by simp), targetsFrom_used first l ⟨x, hx, by simpa using hb⟩] at ht
      cases ht
    rw [targetsFrom, if_neg (by simp), targetsFrom_false first true l hl] at ht
    cases ht
    refine ⟨by simp, ?_⟩
    intro x hx hxt
    rcases List.mem_cons.1 hx with rfl | hx
    · intro hm
      rcases List.mem_cons.1 hm with he | hm
      · cases he
        exact hd (q, true) (by simp) rfl
      · obtain ⟨y, hy, he⟩ := List.mem_map.1 hm
        rw [hl y hy] at he
        cases he
    · rw [hl x hx] at hxt
      cases hxt
  | (q, false) :: l, t, hd, he, ht => by
    rw [targetsFrom] at ht
    obtain ⟨t', ht', rfl⟩ := Option.map_eq_some_iff.1 ht
    obtain ⟨h1, h2⟩ := targetsFrom_wrong first l t' (fun x hx => hd x (by simp [hx])) (by simpa using he) ht'
    refine ⟨by simp [h1], ?_⟩
    intro x hx hxt hm
    rcases List.mem_cons.1 hx with rfl | hx
    · cases hxt
    · rcases List.mem_cons.1 hm with he | hm
      · cases he
      · exact h2 x hx hxt hm

/-- A mesh is refused only if two receivers use two-level initialization. -/
theorem C110_two_level_checked (l : List (ι × Bool)) : targets l = none ↔ 2 ≤ l.countP (·.2) := by
  have key : ∀ (first : ι) (l : List (ι × Bool)), targetsFrom first false l = none ↔ 2 ≤ l.countP (·.2) := by
    intro first l
    induction l with
    | nil => simp [targetsFrom]
    | cons x l ih =>
      obtain ⟨q, b⟩ := x
      cases b
      · rw [targetsFrom, Option.map_eq_none_iff, ih, List.countP_cons_of_neg (by simp)]
      · rw [targetsFrom, if_neg (by simp), Option.map_eq_none_iff, List.countP_cons_of_pos (by simp)]
        by_cases h : ∃ x ∈ l, x.2 = true
        · have : 0 < l.countP (·.2) := List.countP_pos_iff.2 h
          rw [targetsFrom_used first l h]
          simp only [true_iff]
          omega
        · push Not at h
          rw [targetsFrom_false first true l fun x hx => by simpa using h x hx]
          have : l.countP (·.2) = 0 := List.countP_eq_zero.2 fun x hx => by simpa using h x hx
          simp [this]
  cases l with
  | nil => simp [targets]
  | cons x l => exact key x.1 (x :: l)

/-- **C110.** With two-level initialization each receiver of a provided mesh is given what it waits for exactly if nobody but the first receiver uses two-level initialization; this is
what the code does, not what it should do: the order of receivers is the order of participants in the configuration. -/
theorem C110_two_level (l : List (ι × Bool)) (hd : (l.map (·.1)).Nodup) (t : List (ι × Gift)) (ht : targets l = some t) : t = awaited l ↔ ∀ x ∈ l.tail, x.2 = false := by
  cases l with
  | nil => cases ht; simp [awaited]
  | cons x l =>
    obtain ⟨q, b⟩ := x
    rw [List.map_cons, List.nodup_cons] at hd
    have hq : ∀ x ∈ l, x.1 ≠ q := fun x hx he => hd.1 (List.mem_map.2 ⟨x, hx, he⟩)
    show _ ↔ ∀ x ∈ l, x.2 = false
    have ht : targetsFrom q false ((q, b) :: l) = some t := ht
    constructor
    · intro he x hx
      by_contra hb
      have hb : x.2 = true := by simpa using hb
      cases b
      · rw [targetsFrom] at ht
        obtain ⟨t', ht', rfl⟩ := Option.map_eq_some_iff.1 ht
        have := (targetsFrom_wrong q l t' hq ⟨x, hx, hb⟩ ht').2 x hx hb
        have he' : t' = awaited l := (List.cons.inj he).2
        rw [he'] at this
        exact this (List.mem_map.2 ⟨x, hx, by rw [if_pos hb]⟩)
      · rw [targetsFrom, if_neg (by simp), targetsFrom_used q l ⟨x, hx, hb⟩] at ht
        cases ht
    · intro h
      cases b
      · rw [targetsFrom, targetsFrom_false q false l h] at ht
        cases ht
        rfl
      · rw [targetsFrom, if_neg (by simp), targetsFrom_false q true l h] at ht
        cases ht
        rfl

/-- **C110, disagreement.** The second receiver uses two-level initialization, the first one does not: the first one is sent the whole mesh and in addition the parts,
the second one nothing. -/
theorem C110_two_level_wrong_receiver : targets [("Fluid", false), ("Solid", true)] = some [("Fluid", .whole), ("Fluid", .parts)] := rfl

example : targets [("Solid", true), ("Fluid", false)] = some (awaited [("Solid", true), ("Fluid", false)]) := rfl

example : targets [("Solid", true), ("Fluid", true)] = none := rfl

end Verif.Startup
