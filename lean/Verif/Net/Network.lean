import Verif.Net.Prog
import Mathlib.Tactic.Tauto

/-!
# Networks of communicating programs

Buffered semantics: every ordered pair of participants is connected by a reliable FIFO channel,
`send` never blocks, `recv` blocks while the channel is empty. All interleavings are allowed.

Rendezvous semantics: `send` blocks until the partner executes the matching `recv`.

The central result is schedule independence: if *one* schedule runs the network to completion,
then *every* schedule does, with the same results and in the same number of steps; in particular
no schedule deadlocks or fails.
-/

set_option autoImplicit false

namespace Verif

/-- A network: one program per participant plus channel contents (`chan (i, j)` : from `i` to `j`,
oldest message first). -/
structure Net (ι M α : Type) where
  procs : ι → Prog ι M α
  chan : ι × ι → List M

namespace Net

variable {ι M α : Type} [DecidableEq ι]

open Function (update)

/-- One step of participant `i`, if it can make one (buffered semantics). -/
def stepAt (i : ι) (n : Net ι M α) : Option (Net ι M α) :=
  match n.procs i with
  | .ret _ => none
  | .fail _ => none
  | .send dst m k =>
    some ⟨update n.procs i k, update n.chan (i, dst) (n.chan (i, dst) ++ [m])⟩
  | .recv src k =>
    match n.chan (src, i) with
    | [] => none
    | m :: rest => some ⟨update n.procs i (k m), update n.chan (src, i) rest⟩

/-- One step of some participant. -/
def Step (n n' : Net ι M α) : Prop := ∃ i, stepAt i n = some n'

/-- `k` steps. -/
inductive Steps : ℕ → Net ι M α → Net ι M α → Prop where
  | refl (n : Net ι M α) : Steps 0 n n
  | head {k : ℕ} {n n' n'' : Net ι M α} : Step n n' → Steps k n' n'' → Steps (k + 1) n n''

/-- No participant can make a step. -/
def Stuck (n : Net ι M α) : Prop := ∀ i, stepAt i n = none

/-- All participants returned normally with results `r` and no message is left over. -/
def Done (r : ι → α) (n : Net ι M α) : Prop :=
  (∀ i, n.procs i = .ret (r i)) ∧ ∀ c, n.chan c = []

theorem Done.stuck {r : ι → α} {n : Net ι M α} (h : Done r n) : Stuck n := by
  intro i; simp [stepAt, h.1 i]

theorem Steps.trans {k l : ℕ} {a b c : Net ι M α} (h1 : Steps k a b) (h2 : Steps l b c) :
    Steps (k + l) a c := by
  induction h1 with
  | refl n => simpa using h2
  | head h _ ih => rw [Nat.add_right_comm]; exact .head h (ih h2)

theorem Steps.single {a b : Net ι M α} (h : Step a b) : Steps 1 a b := .head h (.refl _)

/-- Steps of different participants commute. -/
theorem step_comm {i j : ι} (hij : i ≠ j) {n a b : Net ι M α}
    (ha : stepAt i n = some a) (hb : stepAt j n = some b) :
    ∃ c, stepAt j a = some c ∧ stepAt i b = some c := by
  have hji : j ≠ i := Ne.symm hij
  unfold stepAt at ha hb
  cases hpi : n.procs i with
  | ret x => simp [hpi] at ha
  | fail e => simp [hpi] at ha
  | send dst m k =>
    simp only [hpi, Option.some.injEq] at ha
    subst ha
    cases hpj : n.procs j with
    | ret x => simp [hpj] at hb
    | fail e => simp [hpj] at hb
    | send dst' m' k' =>
      simp only [hpj, Option.some.injEq] at hb
      subst hb
      refine ⟨⟨update (update n.procs i k) j k',
        update (update n.chan (i, dst) (n.chan (i, dst) ++ [m])) (j, dst')
          (n.chan (j, dst') ++ [m'])⟩, ?_, ?_⟩
      · simp [stepAt, hpj, Function.update_of_ne, hji]
      · simp only [stepAt, Function.update_of_ne hij, hpi]
        congr 2
        · exact Function.update_comm hij.symm _ _ _
        · rw [Function.update_of_ne (by simp [hij])]
          exact Function.update_comm (by simp [hji]) _ _ _
    | recv src' k' =>
      simp only [hpj] at hb
      cases hc : n.chan (src', j) with
      | nil => simp [hc] at hb
      | cons m' rest =>
        simp only [hc, Option.some.injEq] at hb
        subst hb
        by_cases hcell : (i, dst) = (src', j)
        · have h1 : src' = i := by simpa using (congrArg Prod.fst hcell).symm
          have h2 : dst = j := by simpa using (congrArg Prod.snd hcell)
          subst h1 h2
          refine ⟨⟨update (update n.procs src' k) dst (k' m'),
            update n.chan (src', dst) (rest ++ [m])⟩, ?_, ?_⟩
          · simp [stepAt, hpj, Function.update_of_ne, hji, hc]
          · simp only [stepAt, Function.update_of_ne hij, hpi]
            congr 2
            · exact Function.update_comm hij.symm _ _ _
            · simp
        · have hcell' : (src', j) ≠ (i, dst) := fun h => hcell h.symm
          refine ⟨⟨update (update n.procs i k) j (k' m'),
            update (update n.chan (i, dst) (n.chan (i, dst) ++ [m])) (src', j) rest⟩, ?_, ?_⟩
          · simp [stepAt, hpj, Function.update_of_ne, hji, hc, hcell']
          · simp only [stepAt, Function.update_of_ne hij, hpi]
            congr 2
            · exact Function.update_comm hij.symm _ _ _
            · rw [Function.update_of_ne hcell]
              exact Function.update_comm hcell' _ _ _
  | recv src k =>
    simp only [hpi] at ha
    cases hc : n.chan (src, i) with
    | nil => simp [hc] at ha
    | cons m rest =>
      simp only [hc, Option.some.injEq] at ha
      subst ha
      cases hpj : n.procs j with
      | ret x => simp [hpj] at hb
      | fail e => simp [hpj] at hb
      | send dst' m' k' =>
        simp only [hpj, Option.some.injEq] at hb
        subst hb
        by_cases hcell : (j, dst') = (src, i)
        · have h1 : src = j := by simpa using (congrArg Prod.fst hcell).symm
          have h2 : dst' = i := by simpa using (congrArg Prod.snd hcell)
          subst h1 h2
          refine ⟨⟨update (update n.procs dst' (k m)) src k',
            update n.chan (src, dst') (rest ++ [m'])⟩, ?_, ?_⟩
          · simp [stepAt, hpj, Function.update_of_ne, hji]
          · simp only [stepAt, Function.update_of_ne hij, hpi]
            simp only [hc, Function.update_self, List.cons_append]
            congr 2
            · exact Function.update_comm hij.symm _ _ _
            · simp
        · have hcell' : (src, i) ≠ (j, dst') := fun h => hcell h.symm
          refine ⟨⟨update (update n.procs i (k m)) j k',
            update (update n.chan (src, i) rest) (j, dst') (n.chan (j, dst') ++ [m'])⟩, ?_, ?_⟩
          · simp [stepAt, hpj, Function.update_of_ne, hji, hcell]
          · simp only [stepAt, Function.update_of_ne hij, hpi]
            simp only [hc, Function.update_of_ne hcell']
            congr 2
            · exact Function.update_comm hij.symm _ _ _
            · exact Function.update_comm hcell _ _ _
      | recv src' k' =>
        simp only [hpj] at hb
        cases hc' : n.chan (src', j) with
        | nil => simp [hc'] at hb
        | cons m' rest' =>
          simp only [hc', Option.some.injEq] at hb
          subst hb
          have hcell : (src, i) ≠ (src', j) := fun h => hij (congrArg Prod.snd h)
          refine ⟨⟨update (update n.procs i (k m)) j (k' m'),
            update (update n.chan (src, i) rest) (src', j) rest'⟩, ?_, ?_⟩
          · simp [stepAt, hpj, Function.update_of_ne, hji, hcell.symm, hc']
          · simp only [stepAt, Function.update_of_ne hij, hpi]
            simp only [hc, Function.update_of_ne hcell]
            congr 2
            · exact Function.update_comm hij.symm _ _ _
            · exact Function.update_comm hcell.symm _ _ _

/-- If some schedule ends in a stuck state after `k` steps, then after any first step the same
end state is reached in `k - 1` steps. -/
theorem steps_after_step {k : ℕ} {n f : Net ι M α} (h : Steps k n f) (hf : Stuck f) :
    ∀ {a : Net ι M α}, Step n a → ∃ k', k = k' + 1 ∧ Steps k' a f := by
  induction h with
  | refl n => rintro a ⟨i, hi⟩; rw [hf i] at hi; cases hi
  | @head k n n' f hs hrest ih =>
    rintro a ⟨i, hi⟩
    obtain ⟨j, hj⟩ := hs
    by_cases hij : i = j
    · subst hij
      rw [hi] at hj; cases hj
      exact ⟨k, rfl, hrest⟩
    · obtain ⟨c, hc1, hc2⟩ := step_comm hij hi hj
      obtain ⟨k', rfl, hk'⟩ := ih hf ⟨i, hc2⟩
      exact ⟨k' + 1, rfl, .head ⟨j, hc1⟩ hk'⟩

/-- Schedule independence: if one schedule runs to a stuck state `f` in `k` steps then every
schedule is at most `k` steps long and can be continued to `f` using exactly `k` steps in total. -/
theorem steps_confluent {k l : ℕ} {n f a : Net ι M α} (h : Steps k n f) (hf : Stuck f)
    (ha : Steps l n a) : ∃ r, k = l + r ∧ Steps r a f := by
  induction ha generalizing k with
  | refl n => exact ⟨k, by omega, h⟩
  | head hs _ ih =>
    obtain ⟨k', rfl, hk'⟩ := steps_after_step h hf hs
    obtain ⟨r, rfl, hr⟩ := ih hk'
    exact ⟨r, by omega, hr⟩

/-- The network always completes with results `r`: every schedule terminates after exactly `k`
steps, no reachable state is deadlocked or failed, and all messages are consumed. -/
def AlwaysCompletes (n : Net ι M α) (r : ι → α) : Prop :=
  ∃ k f, Done r f ∧ Steps k n f ∧
    ∀ l a, Steps l n a → l ≤ k ∧ (Stuck a → a = f) ∧ Steps (k - l) a f ∧
      ∀ i e, a.procs i ≠ .fail e

theorem fail_persists {k : ℕ} {a f : Net ι M α} (h : Steps k a f) {i : ι} {e : Err}
    (hi : a.procs i = .fail e) : f.procs i = .fail e := by
  induction h with
  | refl n => exact hi
  | head hs _ ih =>
    apply ih
    obtain ⟨j, hj⟩ := hs
    rename_i n n' n'' _
    have hne : i ≠ j := by
      rintro rfl; simp [stepAt, hi] at hj
    unfold stepAt at hj
    cases hpj : n.procs j with
    | ret x => simp [hpj] at hj
    | fail e => simp [hpj] at hj
    | send dst m k => simp only [hpj, Option.some.injEq] at hj; subst hj; simp [hne, hi]
    | recv src k =>
      simp only [hpj] at hj
      cases hc : n.chan (src, j) with
      | nil => simp [hc] at hj
      | cons m rest => simp only [hc, Option.some.injEq] at hj; subst hj; simp [hne, hi]

/-- One completed schedule suffices. -/
theorem alwaysCompletes_of_steps {k : ℕ} {n f : Net ι M α} {r : ι → α} (h : Steps k n f)
    (hd : Done r f) : AlwaysCompletes n r := by
  refine ⟨k, f, hd, h, fun l a ha => ?_⟩
  obtain ⟨r', rfl, hr'⟩ := steps_confluent h hd.stuck ha
  refine ⟨by omega, fun hs => ?_, by simpa using hr', fun i e hi => ?_⟩
  · cases hr' with
    | refl => rfl
    | head hstep _ => obtain ⟨j, hj⟩ := hstep; rw [hs j] at hj; cases hj
  · have := fail_persists hr' hi
    rw [hd.1 i] at this; cases this

end Net
end Verif
