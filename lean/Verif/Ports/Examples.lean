import Verif.Ports.Props

/-!
# Examples: the hypotheses of the theorems are met
-/

set_option autoImplicit false

namespace Verif.Ports

/-- Two ranks on each side. The first rank of the acceptor has vertices 0 to 2, the second one 3. -/
def ex : Conf where
  nA := 2
  nR := 2
  vA := fun a => if a = 0 then [0, 1, 2] else [3]
  vR := fun r => if r = 0 then [0, 1] else [2, 3]

example : ex.partnersA 0 = [0, 1] ∧ ex.partnersA 1 = [1] ∧ ex.partnersR 0 = [0] ∧ ex.partnersR 1 = [0, 1] := by decide

/-- A complete run: five steps. -/
def exEnd : State := connect (connect (publish (connect (publish (init ex) 0) 1 0 [1]) 1) 0 0 []) 1 1 []

theorem exRun : Run ex 5 exEnd :=
  .step (.step (.step (.step (.step .init (.publish (a := 0) (by decide) (by decide) rfl))
    (.connect (r := 1) (a := 0) (l := [1]) (by decide) (by decide) rfl (by decide)))
    (.publish (a := 1) (by decide) (by decide) (by decide)))
    (.connect (r := 0) (a := 0) (l := []) (by decide) (by decide) (by decide) (by decide)))
    (.connect (r := 1) (a := 1) (l := []) (by decide) (by decide) (by decide) (by decide))

example : Done ex exEnd := by
  constructor <;> decide

/-- The hypothesis of `C135_right`. -/
example : ∀ t, ¬Step ex exEnd t := by
  intro t h
  cases h with
  | @publish a ha hp hn =>
    have : ∀ a < ex.nA, exEnd.pub a = true := by decide
    rw [this a ha] at hn
    exact absurd hn (by decide)
  | @connect r a l hr ht hp hl =>
    have : ∀ r < ex.nR, exEnd.todo r = [] := by decide
    rw [this r hr] at ht
    exact absurd ht (by simp)

/-- The second connection of the first acceptor is the one that the first requester has for it. -/
example : at? (exEnd.connA 0) 0 = some 1 ∧ at? (exEnd.connR 0) 0 = some 1 ∧ at? (exEnd.connA 1) 0 = none := by decide

/-- All connections at the end of the run, from both sides: `Right` on this run. -/
example : (∀ a < 2, ∀ r < 2, at? (exEnd.connA a) r = at? (exEnd.connR r) a) ∧ exEnd.connA 0 = [(1, 0), (0, 1)] ∧
    exEnd.connA 1 = [(1, 2)] ∧ exEnd.connR 0 = [(0, 1)] ∧ exEnd.connR 1 = [(0, 0), (1, 2)] := by decide

/-- One rank and three ranks: partners are ranks of the other participant. -/
example : let c : Conf := ⟨1, 3, fun _ => [0, 1, 2], fun r => [r]⟩
    c.partnersA 0 = [0, 1, 2] ∧ c.partnersR 2 = [0] := by decide

/-- The hypothesis of `C135_single_partial`. -/
example : AllShare ex := by
  constructor
  · intro a ha
    have : a = 0 ∨ a = 1 := by have : a < 2 := ha; omega
    rcases this with rfl | rfl
    · exact ⟨0, by decide, 0, by decide, by decide⟩
    · exact ⟨1, by decide, 3, by decide, by decide⟩
  · intro r hr
    have : r = 0 ∨ r = 1 := by have : r < 2 := hr; omega
    rcases this with rfl | rfl
    · exact ⟨0, by decide, 0, by decide, by decide⟩
    · exact ⟨1, by decide, 3, by decide, by decide⟩

/-- A participant whose second rank is not at the interface. -/
def exHang : Conf := { ex with vA := fun a => if a = 0 then [0, 1, 2, 3] else [] }

/-- The hypotheses of `C135_single_hangs`. -/
example : exHang.valid (true, 1) ∧ ¬HasPartner exHang (true, 1) ∧ HasPartner exHang (true, 0) := by
  refine ⟨by show 1 < 2; decide, ?_, 0, by decide, 0, by decide, by decide⟩
  rintro ⟨r, _, g, hg, _⟩
  simp [exHang] at hg

/-- All ranks with a partner have called, nobody else will. -/
example : ∃ s, SingleRun exHang 3 s ∧ ∀ t, ¬SingleStep exHang s t := by
  refine ⟨_, .step (.step (.step .init (.call (x := (true, 0)) (by show 0 < 2; decide) (by decide) rfl))
    (.call (x := (false, 0)) (by show 0 < 2; decide) (by decide) (by decide)))
    (.call (x := (false, 1)) (by show 1 < 2; decide) (by decide) (by decide)), ?_⟩
  intro t h
  cases h with
  | @call x hx hp hn =>
    obtain ⟨b, i⟩ := x
    have hi : i < 2 := by cases b <;> exact hx
    have : i = 0 ∨ i = 1 := by omega
    rcases this with rfl | rfl <;> cases b
    · simp at hn
    · simp at hn
    · simp at hn
    · exact hp (by decide)

end Verif.Ports
