import Verif.Compositional.NetworkProps
import Mathlib.Tactic.FinCases

/-!
# C101: why the conditions on the configuration are there
-/

set_option autoImplicit false

namespace Verif

open Prog Function

variable {ι D M α β : Type} [DecidableEq ι]

/-! ### Cycles of serial schemes -/

namespace Prog

/-- The program sends nothing, neither returns, before it receives a message from `S`. -/
def Blocked (S : ι → Prop) : Prog ι M α → Prop
  | ret _ => False
  | fail _ => True
  | send _ _ _ => False
  | recv s k => S s ∨ ∀ m, (k m).Blocked S

/-- The program sends nothing. -/
def Quiet : Prog ι M α → Prop
  | ret _ => True
  | fail _ => True
  | send _ _ _ => False
  | recv _ k => ∀ m, (k m).Quiet

omit [DecidableEq ι] in
theorem Blocked.bind {S : ι → Prop} {p : Prog ι M α} (h : p.Blocked S) (f : α → Prog ι M β) :
    (p.bind f).Blocked S := by
  induction p with
  | ret a => cases h
  | fail e => trivial
  | send d m k _ => cases h
  | recv s k ih =>
    rcases h with h | h
    · exact Or.inl h
    · exact Or.inr fun m => ih m (h m)

omit [DecidableEq ι] in
theorem Quiet.bind_blocked {S : ι → Prop} {p : Prog ι M α} (h : p.Quiet) {f : α → Prog ι M β}
    (hf : ∀ a, (f a).Blocked S) : (p.bind f).Blocked S := by
  induction p with
  | ret a => exact hf a
  | fail e => trivial
  | send d m k _ => cases h
  | recv s k ih => exact Or.inr fun m => ih m (h m)

end Prog

/-- Participants in `S` wait for each other. -/
structure Deadlocked (S : ι → Prop) (n : Net ι M α) : Prop where
  blocked : ∀ i, S i → (n.procs i).Blocked S
  empty : ∀ i j, S i → S j → n.chan (i, j) = []

theorem Deadlocked.step {S : ι → Prop} {n n' : Net ι M α} (h : Deadlocked S n) (hs : Net.Step n n') :
    Deadlocked S n' := by
  obtain ⟨i, hi⟩ := hs
  unfold Net.stepAt at hi
  split at hi
  · cases hi
  · cases hi
  · next dst m k hp =>
    have hS : ¬ S i := fun hS => by have := h.blocked i hS; rw [hp] at this; exact this
    obtain rfl := Option.some.inj hi
    refine ⟨fun j hj => ?_, fun j j' hj hj' => ?_⟩
    · have hne : j ≠ i := fun e => hS (e ▸ hj)
      show (update n.procs i k j).Blocked S
      rw [update_of_ne hne]
      exact h.blocked j hj
    · show update n.chan (i, dst) _ (j, j') = []
      rw [update_of_ne fun e => hS (by rw [← (Prod.mk.inj e).1]; exact hj)]
      exact h.empty j j' hj hj'
  · next src k hp =>
    split at hi
    · cases hi
    · next m ms hc =>
      obtain rfl := Option.some.inj hi
      refine ⟨fun j hj => ?_, fun j j' hj hj' => ?_⟩
      · show (update n.procs i (k m) j).Blocked S
        by_cases hji : j = i
        · subst hji
          rw [update_self]
          have := h.blocked j hj
          rw [hp] at this
          rcases this with hs | hs
          · rw [h.empty src j hs hj] at hc; cases hc
          · exact hs m
        · rw [update_of_ne hji]
          exact h.blocked j hj
      · show update n.chan (src, i) ms (j, j') = []
        by_cases he : (j, j') = (src, i)
        · obtain ⟨rfl, rfl⟩ := Prod.mk.inj he
          rw [h.empty j j' hj hj'] at hc; cases hc
        · rw [update_of_ne he]
          exact h.empty j j' hj hj'

theorem Deadlocked.steps {S : ι → Prop} {k : ℕ} {n n' : Net ι M α} (hs : Net.Steps k n n')
    (h : Deadlocked S n) : Deadlocked S n' := by
  induction hs with
  | refl => exact h
  | head hs _ ih => exact ih (h.step hs)

namespace Comp

omit [DecidableEq ι] in
theorem forEach_blocked {S : ι → Prop} {f : Member ι D → State D → Prog ι (Msg D) (State D)} :
    ∀ {l : List (Member ι D × State D)}, (∀ x ∈ l, (f x.1 x.2).Quiet) →
    (∃ x ∈ l, (f x.1 x.2).Blocked S) → (forEach f l).Blocked S
  | [], _, h => by obtain ⟨x, hx, _⟩ := h; cases hx
  | (m, s) :: l, hq, h => by
    unfold forEach
    obtain ⟨x, hx, hb⟩ := h
    rcases List.mem_cons.mp hx with rfl | hx
    · exact hb.bind _
    · exact (hq _ List.mem_cons_self).bind_blocked fun a =>
        (forEach_blocked (fun y hy => hq y (List.mem_cons_of_mem _ hy)) ⟨x, hx, hb⟩).bind _

theorem quiet_init {g : Common} {p : ι} {l : Link ι} {s : State D} (h1 : l.initFS = false) (h2 : l.initSF = false) :
    (initScheme (l.member (D := D) g p).cfg (l.member (D := D) g p).hooks s).Quiet := by
  obtain ⟨ser, f, sc, ifs, isf⟩ := l
  simp only at h1 h2
  subst h1 h2
  by_cases hp : p = f <;> cases ser <;>
    simp only [initScheme, Link.member, Link.cfg, Hooks.rename, Serial.hooks, Parallel.hooks, Serial.initial,
        Parallel.initial, hp, if_true, if_false, decide_true, decide_false, ite_self, Bool.false_eq_true,
        Serial.receiveSize, recvData, Prog.mapPeer, Prog.Quiet]
  intro m
  cases m <;> simp [Prog.mapPeer, Prog.Quiet, notify, ensure]

theorem blocked_init {g : Common} {S : ι → Prop} {l : Link ι} {s : State D} (hs : l.serial = true)
    (hne : l.first ≠ l.second) (h1 : l.initFS = false) (h2 : l.initSF = false) (hS : S l.first) :
    (initScheme (l.member (D := D) g l.second).cfg (l.member (D := D) g l.second).hooks s).Blocked S := by
  obtain ⟨ser, f, sc, ifs, isf⟩ := l
  simp only at h1 h2 hs hne hS
  subst h1 h2 hs
  simp only [initScheme, Link.member, Link.cfg, Hooks.rename, Serial.hooks, Serial.initial,
        hne.symm, if_true, if_false, decide_false, Bool.false_eq_true,
        Serial.receiveSize, recvData, Prog.mapPeer, Prog.Blocked, Link.name]
  exact Or.inl hS

/-- **C101**, cycles: if, without initial data, every participant of some group is the second
participant of a serial scheme with the first one in the group, then the coupling never gets beyond
`initialize`, whatever the solvers do. -/
theorem C101_cycle_deadlocks {links : List (Link ι)} (hinit : ∀ l ∈ links, l.initFS = false ∧ l.initSF = false)
    (S : ι → Prop) (hne : ∃ p, S p)
    (hcyc : ∀ p, S p → ∃ l ∈ links, l.serial = true ∧ l.second = p ∧ l.first ≠ p ∧ S l.first)
    (g : Common) (plan : ι → Solver ι D) (d : ι → D) (fuel : ℕ) {k : ℕ} {n : Net ι (Msg D) (List (Comp ι D))}
    (h : Net.Steps k ⟨fun p => composed g links (d p) (plan p) fuel p, fun _ => []⟩ n) :
    ¬ ∃ r, Net.Done r n := by
  have h0 : Deadlocked S (⟨fun p => composed g links (d p) (plan p) fuel p, fun _ => []⟩ :
      Net ι (Msg D) (List (Comp ι D))) := by
    refine ⟨fun p hp => ?_, fun _ _ _ _ => rfl⟩
    show (composed g links (d p) (plan p) fuel p).Blocked S
    unfold composed initExpl
    refine Blocked.bind (Blocked.bind (forEach_blocked ?_ ?_) _) _
    · intro x hx
      obtain ⟨l, hl, rfl⟩ := List.mem_map.mp hx
      have := hinit l (List.mem_of_mem_filter hl)
      exact quiet_init this.1 this.2
    · obtain ⟨l, hl, hs, hl2, hl1, hS⟩ := hcyc p hp
      subst hl2
      refine ⟨_, List.mem_map.mpr ⟨l, List.mem_filter.mpr ⟨hl, by simp [Link.has]⟩, rfl⟩, ?_⟩
      exact blocked_init hs hl1 (hinit l hl).1 (hinit l hl).2 hS
  have h1 := h0.steps h
  rintro ⟨r, hr, _⟩
  obtain ⟨p, hp⟩ := hne
  have := h1.blocked p hp
  rw [hr p] at this
  exact this

end Comp
end Verif
