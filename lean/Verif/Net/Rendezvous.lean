import Verif.Net.Network

/-!
# Rendezvous semantics

Every send blocks until the receiver executes the matching receive (the strictest implementation of
a blocking send). A network that completes in this semantics also completes with buffered channels.
-/

set_option autoImplicit false

namespace Verif

open Function (update)

variable {ι M α β : Type} [DecidableEq ι]

namespace RNet

/-- One communication: some `i` sends to `j` while `j` receives from `i`. -/
def Step (p p' : ι → Prog ι M α) : Prop :=
  ∃ i j m k k', p i = .send j m k ∧ p j = .recv i k' ∧ p' = update (update p i k) j (k' m)

inductive Steps : ℕ → (ι → Prog ι M α) → (ι → Prog ι M α) → Prop where
  | refl (p : ι → Prog ι M α) : Steps 0 p p
  | head {k : ℕ} {p p' p'' : ι → Prog ι M α} : Step p p' → Steps k p' p'' → Steps (k + 1) p p''

def Done (r : ι → α) (p : ι → Prog ι M α) : Prop := ∀ i, p i = .ret (r i)

theorem Steps.trans {k l : ℕ} {a b c : ι → Prog ι M α} (h1 : Steps k a b) (h2 : Steps l b c) :
    Steps (k + l) a c := by
  induction h1 with
  | refl n => simpa using h2
  | head h _ ih => rw [Nat.add_right_comm]; exact .head h (ih h2)

theorem Steps.single {a b : ι → Prog ι M α} (h : Step a b) : Steps 1 a b := .head h (.refl _)

/-- Programs continue as they did before a sequential composition. -/
theorem Steps.bind {k : ℕ} {p p' : ι → Prog ι M α} (h : Steps k p p')
    (f : ι → α → Prog ι M β) : Steps k (fun i => (p i).bind (f i)) (fun i => (p' i).bind (f i)) := by
  induction h with
  | refl p => exact .refl _
  | head hs _ ih =>
    refine .head ?_ ih
    obtain ⟨i, j, m, k, k', hi, hj, rfl⟩ := hs
    refine ⟨i, j, m, k.bind (f i), fun m => (k' m).bind (f j), by simp [hi], by simp [hj], ?_⟩
    funext x
    by_cases hxj : x = j
    · subst hxj; simp
    · by_cases hxi : x = i
      · subst hxi; simp [hxj]
      · simp [hxj, hxi]

/-- Two different communications are independent. -/
theorem step_comm {p a b : ι → Prog ι M α} (ha : Step p a) (hb : Step p b) :
    a = b ∨ ∃ c, Step a c ∧ Step b c := by
  obtain ⟨i, j, m, k, k', hi, hj, rfl⟩ := ha
  obtain ⟨i', j', m', l, l', hi', hj', rfl⟩ := hb
  by_cases h1 : i = i'
  · subst h1
    rw [hi] at hi'; cases hi'
    rw [hj] at hj'; cases hj'
    exact Or.inl rfl
  · have h2 : j ≠ j' := by rintro rfl; rw [hj] at hj'; cases hj'; exact h1 rfl
    have h3 : i ≠ j' := by rintro rfl; rw [hi] at hj'; cases hj'
    have h4 : i' ≠ j := by rintro rfl; rw [hi'] at hj; cases hj
    have h5 : i ≠ j := by rintro rfl; rw [hi] at hj; cases hj
    have h6 : i' ≠ j' := by rintro rfl; rw [hi'] at hj'; cases hj'
    refine Or.inr ⟨update (update (update (update p i k) j (k' m)) i' l) j' (l' m'), ?_, ?_⟩
    · exact ⟨i', j', m', l, l', by simp [h4, Ne.symm h1, hi'], by simp [h2.symm, h3.symm, hj'], rfl⟩
    · refine ⟨i, j, m, k, k', by simp [h3, h1, hi], by simp [h2, h4.symm, hj], ?_⟩
      funext x
      simp only [Function.update_apply]
      by_cases x1 : x = i <;> by_cases x2 : x = j <;> by_cases x3 : x = i' <;>
        by_cases x4 : x = j' <;> simp_all

/-- No communication is possible. -/
def Stuck (p : ι → Prog ι M α) : Prop := ∀ p', ¬ Step p p'

theorem Done.stuck {r : ι → α} {p : ι → Prog ι M α} (h : Done r p) : Stuck p := by
  rintro p' ⟨i, j, m, k, k', hi, _⟩
  rw [h i] at hi; cases hi

theorem steps_after_step {k : ℕ} {n f : ι → Prog ι M α} (h : Steps k n f) (hf : Stuck f) :
    ∀ {a : ι → Prog ι M α}, Step n a → ∃ k', k = k' + 1 ∧ Steps k' a f := by
  induction h with
  | refl n => intro a ha; exact absurd ha (hf a)
  | @head k n n' f hs hrest ih =>
    intro a ha
    rcases step_comm ha hs with rfl | ⟨c, h1, h2⟩
    · exact ⟨k, rfl, hrest⟩
    · obtain ⟨k', rfl, hk'⟩ := ih hf h2
      exact ⟨k' + 1, rfl, .head h1 hk'⟩

theorem steps_confluent {k l : ℕ} {n f a : ι → Prog ι M α} (h : Steps k n f) (hf : Stuck f)
    (ha : Steps l n a) : ∃ r, k = l + r ∧ Steps r a f := by
  induction ha generalizing k with
  | refl n => exact ⟨k, by omega, h⟩
  | head hs _ ih =>
    obtain ⟨k', rfl, hk'⟩ := steps_after_step h hf hs
    obtain ⟨r, rfl, hr⟩ := ih hk'
    exact ⟨r, by omega, hr⟩

theorem fail_persists {k : ℕ} {a f : ι → Prog ι M α} (h : Steps k a f) {i : ι} {e : Err}
    (hi : a i = .fail e) : f i = .fail e := by
  induction h with
  | refl n => exact hi
  | head hs _ ih =>
    apply ih
    obtain ⟨x, y, m, k, k', hx, hy, rfl⟩ := hs
    have h1 : i ≠ x := by rintro rfl; rw [hi] at hx; cases hx
    have h2 : i ≠ y := by rintro rfl; rw [hi] at hy; cases hy
    simp [h1, h2, hi]

/-- Every schedule of blocking sends terminates with results `r`, none deadlocks or fails. -/
def AlwaysCompletes (n : ι → Prog ι M α) (r : ι → α) : Prop :=
  ∃ k f, Done r f ∧ Steps k n f ∧
    ∀ l a, Steps l n a → l ≤ k ∧ (Stuck a → a = f) ∧ Steps (k - l) a f ∧ ∀ i e, a i ≠ .fail e

theorem alwaysCompletes_of_steps {k : ℕ} {n f : ι → Prog ι M α} {r : ι → α} (h : Steps k n f)
    (hd : Done r f) : AlwaysCompletes n r := by
  refine ⟨k, f, hd, h, fun l a ha => ?_⟩
  obtain ⟨r', rfl, hr'⟩ := steps_confluent h hd.stuck ha
  refine ⟨by omega, fun hs => ?_, by simpa using hr', fun i e hi => ?_⟩
  · cases hr' with
    | refl => rfl
    | head hstep _ => exact absurd hstep (hs _)
  · have := fail_persists hr' hi
    rw [hd i] at this; cases this

/-- The buffered network with empty channels. -/
def toNet (p : ι → Prog ι M α) : Net ι M α := ⟨p, fun _ => []⟩

theorem step_buffered {p p' : ι → Prog ι M α} (h : Step p p') :
    Net.Steps 2 (toNet p) (toNet p') := by
  obtain ⟨i, j, m, k, k', hi, hj, rfl⟩ := h
  have hij : i ≠ j := by rintro rfl; rw [hi] at hj; cases hj
  refine .head (n' := ⟨update p i k, update (fun _ => []) (i, j) [m]⟩) ⟨i, ?_⟩
    (.head ⟨j, ?_⟩ (.refl _))
  · simp [Net.stepAt, toNet, hi]
  · simp only [Net.stepAt, toNet, Function.update_of_ne hij.symm, hj, Function.update_self]
    congr 2
    simp

theorem steps_buffered {k : ℕ} {p p' : ι → Prog ι M α} (h : Steps k p p') :
    Net.Steps (2 * k) (toNet p) (toNet p') := by
  induction h with
  | refl p => exact .refl _
  | @head k _ _ _ hs _ ih =>
    rw [show 2 * (k + 1) = 2 + 2 * k by omega]
    exact (step_buffered hs).trans ih

/-- Completion with blocking sends implies completion with buffered channels. -/
theorem AlwaysCompletes.buffered {p : ι → Prog ι M α} {r : ι → α} (h : AlwaysCompletes p r) :
    Net.AlwaysCompletes (toNet p) r := by
  obtain ⟨k, f, hd, hs, _⟩ := h
  exact Net.alwaysCompletes_of_steps (steps_buffered hs) ⟨fun i => hd i, fun _ => rfl⟩

end RNet

/-! ### Two participants -/

/-- `Meet p q a b`: programs of participants `true` and `false` run together with blocking sends and
return `a` and `b`. -/
inductive Meet {M α β : Type} : Prog Bool M α → Prog Bool M β → α → β → Prop where
  | ret (a : α) (b : β) : Meet (.ret a) (.ret b) a b
  | fwd {m : M} {k : Prog Bool M α} {k' : M → Prog Bool M β} {a : α} {b : β} :
      Meet k (k' m) a b → Meet (.send false m k) (.recv true k') a b
  | bwd {m : M} {k : M → Prog Bool M α} {k' : Prog Bool M β} {a : α} {b : β} :
      Meet (k m) k' a b → Meet (.recv false k) (.send true m k') a b

theorem Meet.bind {M α β γ δ : Type} {p : Prog Bool M α} {q : Prog Bool M β} {a : α} {b : β}
    (h : Meet p q a b) {f : α → Prog Bool M γ} {g : β → Prog Bool M δ} {c : γ} {d : δ}
    (h' : Meet (f a) (g b) c d) : Meet (p.bind f) (q.bind g) c d := by
  induction h with
  | ret a b => exact h'
  | fwd _ ih => exact .fwd (ih h')
  | bwd _ ih => exact .bwd (ih h')

/-- A pair of programs as a network. -/
def pair {M α : Type} (p q : Prog Bool M α) : Bool → Prog Bool M α := fun b => bif b then p else q

theorem Meet.steps {M α : Type} {p q : Prog Bool M α} {a b : α} (h : Meet p q a b) :
    ∃ k, RNet.Steps k (pair p q) (pair (.ret a) (.ret b)) := by
  induction h with
  | ret a b => exact ⟨0, .refl _⟩
  | @fwd m k k' a b _ ih =>
    obtain ⟨n, ih⟩ := ih
    refine ⟨n + 1, .head ⟨true, false, m, k, k', rfl, rfl, ?_⟩ ih⟩
    funext x; cases x <;> rfl
  | @bwd m k k' a b _ ih =>
    obtain ⟨n, ih⟩ := ih
    refine ⟨n + 1, .head ⟨false, true, m, k', k, rfl, rfl, ?_⟩ ih⟩
    funext x; cases x <;> rfl

theorem Meet.alwaysCompletes {M α : Type} {p q : Prog Bool M α} {a b : α} (h : Meet p q a b) :
    RNet.AlwaysCompletes (pair p q) (fun x => bif x then a else b) := by
  obtain ⟨k, hk⟩ := h.steps
  exact RNet.alwaysCompletes_of_steps hk (fun x => by cases x <;> rfl)

end Verif
