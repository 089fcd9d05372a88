import Verif.Net.Ordered

/-!
# Networks given by a global sequence of transfers

If every participant follows its part of one global sequence of transfers, the network completes even with blocking sends.
-/

set_option autoImplicit false

namespace Verif.Ordered

open Function (update)

variable {ι M α β : Type} [DecidableEq ι]

/-- Transfers one after the other: from, to and what. -/
abbrev Choreo (ι M : Type) := List (ι × ι × M)

/-- The part of `i` in a sequence of transfers. -/
def part (i : ι) : Choreo ι M → List (Act ι M)
  | [] => []
  | x :: c => if x.1 = i then .send x.2.1 x.2.2 :: part i c else if x.2.1 = i then .recv x.1 x.2.2 :: part i c else part i c

theorem part_append (i : ι) (a b : Choreo ι M) : part i (a ++ b) = part i a ++ part i b := by
  induction a with
  | nil => rfl
  | cons x a ih =>
    simp only [List.cons_append, part, ih]
    split
    · rfl
    · split <;> rfl

theorem part_nil (i : ι) : part i ([] : Choreo ι M) = [] := rfl

theorem part_flatMap (i : ι) (f : β → Choreo ι M) (l : List β) : part i (l.flatMap f) = l.flatMap fun x => part i (f x) := by
  induction l with
  | nil => rfl
  | cons x l ih => rw [List.flatMap_cons, List.flatMap_cons, part_append, ih]

/-- Somebody who takes no part. -/
theorem part_none {i : ι} {c : Choreo ι M} (h : ∀ x ∈ c, x.1 ≠ i ∧ x.2.1 ≠ i) : part i c = [] := by
  induction c with
  | nil => rfl
  | cons x c ih =>
    obtain ⟨h1, h2⟩ := h x (by simp)
    simp only [part, if_neg h1, if_neg h2]
    exact ih fun y hy => h y (by simp [hy])

/-- Somebody who sends to each of a list. -/
theorem part_sends (c : ι) (g : β → ι) (f : β → M) (l : List β) : part c (l.map fun x => (c, g x, f x)) = l.map fun x => .send (g x) (f x) := by
  induction l with
  | nil => rfl
  | cons x l ih => simp only [List.map_cons, part, if_true, ih]

/-- Somebody who receives from each of a list. -/
theorem part_recvs (c : ι) (g : β → ι) (f : β → M) (l : List β) (h : ∀ x ∈ l, g x ≠ c) : part c (l.map fun x => (g x, c, f x)) = l.map fun x => .recv (g x) (f x) := by
  induction l with
  | nil => rfl
  | cons x l ih =>
    simp only [List.map_cons, part, if_true, if_neg (h x (by simp))]
    rw [ih fun y hy => h y (by simp [hy])]

/-- One of those somebody receives from. -/
theorem part_one_send {c : ι} {g : β → ι} (hg : Function.Injective g) (f : β → M) {l : List β} (hl : l.Nodup) {x : β} (hx : x ∈ l) (hc : g x ≠ c) :
    part (g x) (l.map fun x => (g x, c, f x)) = [.send c (f x)] := by
  obtain ⟨a, b, rfl⟩ := List.append_of_mem hx
  rw [List.nodup_append] at hl
  obtain ⟨-, hb, hab⟩ := hl
  rw [List.nodup_cons] at hb
  rw [List.map_append, List.map_cons, part_append, part_none, part, if_pos rfl, part_none]
  · rfl
  · rintro y hy
    obtain ⟨z, hz, rfl⟩ := List.mem_map.1 hy
    exact ⟨fun e => hb.1 (hg e ▸ hz), Ne.symm hc⟩
  · rintro y hy
    obtain ⟨z, hz, rfl⟩ := List.mem_map.1 hy
    exact ⟨fun e => hab z hz x (by simp) (hg e), Ne.symm hc⟩

/-- One of those somebody sends to. -/
theorem part_one_recv {c : ι} {g : β → ι} (hg : Function.Injective g) (f : β → M) {l : List β} (hl : l.Nodup) {x : β} (hx : x ∈ l) (hc : g x ≠ c) :
    part (g x) (l.map fun x => (c, g x, f x)) = [.recv c (f x)] := by
  obtain ⟨a, b, rfl⟩ := List.append_of_mem hx
  rw [List.nodup_append] at hl
  obtain ⟨-, hb, hab⟩ := hl
  rw [List.nodup_cons] at hb
  rw [List.map_append, List.map_cons, part_append, part_none, part, if_neg (Ne.symm hc), if_pos rfl, part_none]
  · rfl
  · rintro y hy
    obtain ⟨z, hz, rfl⟩ := List.mem_map.1 hy
    exact ⟨Ne.symm hc, fun e => hb.1 (hg e ▸ hz)⟩
  · rintro y hy
    obtain ⟨z, hz, rfl⟩ := List.mem_map.1 hy
    exact ⟨Ne.symm hc, fun e => hab z hz x (by simp) (hg e)⟩

theorem choreo_steps : ∀ (c : Choreo ι M) (p : ι → Prog ι M α) (r : ι → α), (∀ x ∈ c, x.1 ≠ x.2.1) → (∀ i, Follows (p i) (part i c) (r i)) →
    ∃ k, RNet.Steps k p fun i => .ret (r i)
  | [], p, r, _, hf => by
    have : p = fun i => .ret (r i) := by
      funext i
      have h := hf i
      revert h
      generalize p i = q
      intro h
      cases h
      rfl
    rw [← this]
    exact ⟨0, .refl _⟩
  | (i, j, m) :: c, p, r, hne, hf => by
    have hij : i ≠ j := hne (i, j, m) (by simp)
    have fi := hf i
    have fj := hf j
    simp only [part, if_true] at fi
    simp only [part, if_neg hij, if_true] at fj
    obtain ⟨ki, hpi, hki⟩ : ∃ ki, p i = .send j m ki ∧ Follows ki (part i c) (r i) := by
      revert fi
      generalize p i = pi
      intro fi
      cases fi with
      | send _ _ h => exact ⟨_, rfl, h⟩
    obtain ⟨kj, hpj, hkj⟩ : ∃ kj, p j = .recv i kj ∧ Follows (kj m) (part j c) (r j) := by
      revert fj
      generalize p j = pj
      intro fj
      cases fj with
      | recv _ _ h => exact ⟨_, rfl, h⟩
    have hx : ∀ x, Follows (update (update p i ki) j (kj m) x) (part x c) (r x) := by
      intro x
      by_cases h2 : x = j
      · subst h2
        simpa using hkj
      · by_cases h1 : x = i
        · subst h1
          simpa [hij] using hki
        · have := hf x
          simp only [part, if_neg (Ne.symm h1), if_neg (Ne.symm h2)] at this
          simpa [h1, h2] using this
    obtain ⟨n, hn⟩ := choreo_steps c _ r (fun x hx => hne x (by simp [hx])) hx
    exact ⟨n + 1, .head ⟨i, j, m, ki, kj, hpi, hpj, rfl⟩ hn⟩

/-- Participants that follow their parts of a sequence of transfers always complete, with blocking sends too. -/
theorem choreo_completes {c : Choreo ι M} {p : ι → Prog ι M α} {r : ι → α} (hne : ∀ x ∈ c, x.1 ≠ x.2.1) (hf : ∀ i, Follows (p i) (part i c) (r i)) :
    RNet.AlwaysCompletes p r := by
  obtain ⟨k, h⟩ := choreo_steps c p r hne hf
  exact RNet.alwaysCompletes_of_steps h fun _ => rfl

end Verif.Ordered
