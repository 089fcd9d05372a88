import Verif.Mpi.Spec
import Mathlib.Tactic.SplitIfs

/-!
# Lemmas for C133
-/

set_option autoImplicit false

namespace Verif.Mpi

/-- States never own anything but the world. -/
def Owns (p : Proc) : Prop := ∀ s ∈ p.cur, s.owning = true → s.comm = .world

theorem foldl_destroy {w : Who} : ∀ {l : List CommState} {p : Proc},
    (∀ s ∈ l, s.owning = true → s.comm = .world) → l.foldl (Proc.destroy w) p = p
  | [], _, _ => rfl
  | s :: l, p, h => by
    have hs : Proc.destroy w p s = p := by
      unfold Proc.destroy
      by_cases ho : s.owning = true
      · rw [h s (by simp) ho]
        simp
      · simp [ho]
    rw [List.foldl_cons, hs]
    exact foldl_destroy fun s' hs' => h s' (by simp [hs'])

theorem assign_eq {p : Proc} (h : Owns p) (w : Who) (new : List CommState) : p.assign w new = { p with cur := new } := by
  unfold Proc.assign
  rw [foldl_destroy h]

/-- The calls of preCICE are balanced; `k` finalizations are still owed besides that of a managed environment. -/
structure Inv (k : ℕ) (p : Proc) : Prop where
  own : Owns p
  free : ∀ e ∈ p.env.trace, e.byLib = true → ∀ c, e.call ≠ .free c
  pre : ∀ l, l <+: p.env.trace → fins l ≤ inits l
  owed : fins p.env.trace + (if p.mode = .managed then 1 else 0) + k ≤ inits p.env.trace
  one : inits p.env.trace ≤ 1
  ini : p.env.initialized = false → inits p.env.trace = 0

theorem Env.call_trace (e : Env) (w : Who) (c : Call) : (e.call w c).trace = e.trace ++ [⟨w, c, e.allows c⟩] := by
  cases c <;> rfl

theorem Env.call_initialized (e : Env) (w : Who) (c : Call) :
    (e.call w c).initialized = (e.initialized || c == .init) := by
  cases c <;> simp [Env.call]

theorem inits_snoc (l : List Event) (e : Event) :
    inits (l ++ [e]) = inits l + (if (e.byLib && e.call == .init) = true then 1 else 0) := by
  simp [inits, List.countP_append, List.countP_cons]

theorem fins_snoc (l : List Event) (e : Event) :
    fins (l ++ [e]) = fins l + (if (e.byLib && e.call == .finalize) = true then 1 else 0) := by
  simp [fins, List.countP_append, List.countP_cons]

theorem prefix_snoc {l t : List Event} {e : Event} (h : l <+: t ++ [e]) : l = t ++ [e] ∨ l <+: t := by
  rcases List.prefix_concat_iff.1 h with h | h
  · exact Or.inl h
  · exact Or.inr h

/-- A call that neither initializes, nor finalizes, nor frees, or that the application makes. -/
theorem Inv.call {k : ℕ} {p : Proc} (h : Inv k p) {w : Who} {c : Call}
    (hc : w = .app ∨ (c ≠ .init ∧ c ≠ .finalize ∧ ∀ d, c ≠ .free d)) : Inv k (p.call w c) := by
  have hi : inits (p.call w c).env.trace = inits p.env.trace := by
    show inits (p.env.call w c).trace = _
    rw [Env.call_trace, inits_snoc]
    rcases hc with rfl | ⟨h1, h2, h3⟩ <;> simp [Event.byLib, *]
  have hf : fins (p.call w c).env.trace = fins p.env.trace := by
    show fins (p.env.call w c).trace = _
    rw [Env.call_trace, fins_snoc]
    rcases hc with rfl | ⟨h1, h2, h3⟩ <;> simp [Event.byLib, *]
  refine ⟨h.own, ?_, ?_, ?_, ?_, ?_⟩
  · intro e he hl d
    rw [show (p.call w c).env.trace = _ from Env.call_trace p.env w c] at he
    rcases List.mem_append.1 he with he | he
    · exact h.free e he hl d
    · rw [List.mem_singleton.1 he] at hl ⊢
      rcases hc with rfl | ⟨h1, h2, h3⟩
      · simp [Event.byLib] at hl
      · exact h3 d
  · intro l hl
    rw [show (p.call w c).env.trace = _ from Env.call_trace p.env w c] at hl
    rcases prefix_snoc hl with rfl | hl
    · rw [show p.env.trace ++ [⟨w, c, p.env.allows c⟩] = (p.call w c).env.trace from
        (Env.call_trace p.env w c).symm, hi, hf]
      have := h.owed
      omega
    · exact h.pre l hl
  · rw [hi, hf]
    exact h.owed
  · rw [hi]
    exact h.one
  · intro hn
    rw [hi]
    apply h.ini
    rw [show (p.call w c).env.initialized = _ from Env.call_initialized p.env w c] at hn
    simp only [Bool.or_eq_false_iff] at hn
    exact hn.1

/-- preCICE initializes MPI. -/
theorem Inv.init {p : Proc} (h : Inv 0 p) (hn : p.env.initialized = false) (i : Option ℕ) :
    Inv 1 (p.call (.lib i) .init) ∧ p.mode ≠ .managed := by
  have h0 := h.ini hn
  have how := h.owed
  have hm : p.mode ≠ .managed := by
    intro hm
    rw [if_pos hm] at how
    omega
  rw [if_neg hm] at how
  have ht : (p.call (.lib i) .init).env.trace = _ := Env.call_trace p.env (.lib i) .init
  have hi : inits (p.call (.lib i) .init).env.trace = 1 := by
    rw [ht, inits_snoc, h0]
    simp [Event.byLib]
  have hf : fins (p.call (.lib i) .init).env.trace = 0 := by
    rw [ht, fins_snoc]
    simp [Event.byLib]
    omega
  refine ⟨⟨h.own, ?_, ?_, ?_, by omega, ?_⟩, hm⟩
  · intro e he hl d
    rw [ht] at he
    rcases List.mem_append.1 he with he | he
    · exact h.free e he hl d
    · rw [List.mem_singleton.1 he]
      simp
  · intro l hl
    rw [ht] at hl
    rcases prefix_snoc hl with rfl | hl
    · rw [← ht, hi, hf]
      omega
    · exact h.pre l hl
  · rw [hi, hf, if_neg (show (p.call (.lib i) .init).mode ≠ .managed from hm)]
    omega
  · intro hn'
    simp [Proc.call, Env.call] at hn'

/-- preCICE finalizes MPI, which it owed. -/
theorem Inv.fin {p : Proc} (h : Inv 1 p) (i : Option ℕ) : Inv 0 (p.call (.lib i) .finalize) := by
  have how := h.owed
  have ht : (p.call (.lib i) .finalize).env.trace = _ := Env.call_trace p.env (.lib i) .finalize
  have hi : inits (p.call (.lib i) .finalize).env.trace = inits p.env.trace := by
    rw [ht, inits_snoc]
    simp [Event.byLib]
  have hf : fins (p.call (.lib i) .finalize).env.trace = fins p.env.trace + 1 := by
    rw [ht, fins_snoc]
    simp [Event.byLib]
  refine ⟨h.own, ?_, ?_, ?_, ?_, ?_⟩
  · intro e he hl d
    rw [ht] at he
    rcases List.mem_append.1 he with he | he
    · exact h.free e he hl d
    · rw [List.mem_singleton.1 he]
      simp
  · intro l hl
    rw [ht] at hl
    rcases prefix_snoc hl with rfl | hl
    · rw [← ht, hi, hf]
      omega
    · exact h.pre l hl
  · show fins _ + (if p.mode = .managed then 1 else 0) + 0 ≤ _
    rw [hi, hf]
    omega
  · rw [hi]
    exact h.one
  · intro hn
    rw [hi]
    exact h.ini hn

theorem Inv.weaken {k : ℕ} {p : Proc} (h : Inv k p) : Inv 0 p :=
  ⟨h.own, h.free, h.pre, by have := h.owed; omega, h.one, h.ini⟩

theorem Inv.setCur {k : ℕ} {p : Proc} (h : Inv k p) {l : List CommState}
    (hl : ∀ s ∈ l, s.owning = true → s.comm = .world) : Inv k { p with cur := l } :=
  ⟨hl, h.free, h.pre, h.owed, h.one, h.ini⟩

theorem owns_world : ∀ s ∈ [CommState.world], s.owning = true → s.comm = .world := by
  simp [CommState.world, CommState.fromComm]

theorem Inv.current {k : ℕ} {p : Proc} (h : Inv k p) : Inv k p.current := by
  unfold Proc.current
  cases hc : p.cur with
  | nil => exact h.setCur owns_world
  | cons s l => exact h

theorem Inv.use {k : ℕ} {p : Proc} (h : Inv k p) (w : Who) : Inv k (p.use w) :=
  h.current.call (Or.inr (by simp))

theorem Inv.setWe {k : ℕ} {p : Proc} (h : Inv k p) (b : Bool) : Inv k { p with weInit := b } :=
  ⟨h.own, h.free, h.pre, h.owed, h.one, h.ini⟩

theorem Inv.setAlive {k : ℕ} {p : Proc} (h : Inv k p) (l : List ℕ) : Inv k { p with alive := l } :=
  ⟨h.own, h.free, h.pre, h.owed, h.one, h.ini⟩

theorem Inv.petscInit {k : ℕ} {p : Proc} (h : Inv k p) (w : Who) (c : Comm) : Inv k (p.petscInit w c) := by
  unfold Proc.petscInit
  split_ifs
  · exact h
  · exact (h.call (Or.inr (by simp))).setWe true

theorem Inv.petscFinalize {k : ℕ} {p : Proc} (h : Inv k p) (w : Who) : Inv k (p.petscFinalize w) := by
  unfold Proc.petscFinalize
  split_ifs
  · exact h
  · exact h.call (Or.inr (by simp))
  · exact h

theorem Inv.readConfig {k : ℕ} {p : Proc} (h : Inv k p) (w : Who) (cfg : Config) : Inv k (p.readConfig w cfg) := by
  unfold Proc.readConfig
  split_ifs
  · exact h.current.petscInit w _
  · exact h

theorem Inv.setMode {k : ℕ} {p : Proc} (h : Inv k p) {m : Mode} (hm : m ≠ .managed) : Inv k { p with mode := m } := by
  refine ⟨h.own, h.free, h.pre, ?_, h.one, h.ini⟩
  have := h.owed
  show fins p.env.trace + (if m = .managed then 1 else 0) + k ≤ inits p.env.trace
  rw [if_neg hm]
  omega

theorem Inv.detect {b : Bool} {p q : Proc} (h : Inv 0 p) {i : Option ℕ} {u : Option Comm}
    (hq : p.initializeOrDetect b (.lib i) u = some q) : Inv 0 q := by
  unfold Proc.initializeOrDetect at hq
  cases u with
  | some c =>
    simp only at hq
    split_ifs at hq
    obtain rfl := Option.some.inj hq
    refine Inv.setMode (p := p.pushState (.fromExtern c)) (h.setCur ?_) (by simp)
    intro s hs ho
    rcases List.mem_cons.1 hs with rfl | hs
    · simp [CommState.fromExtern] at ho
    · exact h.own s hs ho
  | none =>
    simp only at hq
    split_ifs at hq with h0 h1 h2
    · obtain rfl := Option.some.inj hq
      obtain ⟨h', hm⟩ := h.init (by simpa using h1) i
      rw [assign_eq h'.own]
      refine ⟨owns_world, h'.free, h'.pre, ?_, h'.one, h'.ini⟩
      have := h'.owed
      rw [if_neg (show (p.call (.lib i) .init).mode ≠ .managed from hm)] at this
      simpa using this
    · obtain rfl := Option.some.inj hq
      exact (h.setCur owns_world).setMode (by simp)
    · obtain rfl := Option.some.inj hq
      exact h.setMode (by simp)

theorem Inv.cleanup {p : Proc} (h : Inv 0 p) (i : Option ℕ) : Inv 0 (p.finalizeOrCleanup (.lib i)) := by
  unfold Proc.finalizeOrCleanup Proc.resetCommState
  rw [assign_eq h.own, assign_eq h.own]
  by_cases hm : p.mode = .managed
  · have ht : p.mode ≠ .testing := by
      rw [hm]
      simp
    simp only [if_neg ht, if_pos hm]
    have h1 : Inv 1 { p with cur := [], mode := Mode.uninitialized } := by
      refine ⟨by simp [Owns], h.free, h.pre, ?_, h.one, h.ini⟩
      have := h.owed
      rw [if_pos hm] at this
      simpa using this
    exact h1.fin i
  · simp only [if_neg hm]
    apply Inv.setMode _ (by simp)
    split_ifs
    · exact h.setCur owns_world
    · exact h.setCur (by simp)

theorem Inv.construct {b : Build} {p : Proc} (h : Inv 0 p) (i : ℕ) (a : Args) : Inv 0 (p.construct b i a).2 := by
  unfold Proc.construct
  simp only
  split
  · exact h
  cases hq : p.initializeOrDetect b.asserts (.lib (some i)) a.comm with
  | none => exact h
  | some q =>
    have h1 := h.detect hq
    simp only
    split
    · exact h1.use _
    split
    · exact (h1.use _).use _
    split
    · exact (((h1.use _).use _).use _).readConfig _ _
    · exact ((((h1.use _).use _).use _).readConfig _ _).setAlive _

theorem Inv.check {p : Proc} (h : Inv 0 p) (cfg : Config) : Inv 0 (p.check cfg).2 := by
  unfold Proc.check
  simp only
  by_cases hi : p.env.initialized = true
  · simp only [hi, if_true]
    split
    · exact h.readConfig _ _
    · exact h.readConfig _ _
  · simp only [hi]
    obtain ⟨h1, hm⟩ := h.init (by simpa using hi) none
    have h2 : Inv 1 (p.initializeTesting (.lib none)) := by
      unfold Proc.initializeTesting
      rw [assign_eq h1.own]
      exact h1.setCur owns_world
    split
    · exact (h2.readConfig _ _).weaken
    · have h3 := (h2.readConfig (.lib none) cfg).petscFinalize (.lib none)
      simp only [Proc.finalizeTesting, Proc.resetCommState]
      rw [if_neg (by simp)]
      rw [if_neg (by simp)] 
      rw [assign_eq h3.own]
      exact (h3.setCur owns_world).fin none

theorem Inv.step {b : Build} {p : Proc} (h : Inv 0 p) (op : Op) : Inv 0 (p.step b op).2 := by
  cases op with
  | app c => exact h.call (Or.inl rfl)
  | construct i a => exact h.construct i a
  | work i =>
    unfold Proc.step
    simp only
    split_ifs
    · exact h.use _
    · exact h
  | finalize i =>
    unfold Proc.step Proc.finalize
    simp only
    split_ifs
    · exact ((h.petscFinalize _).cleanup _).setAlive _
    · exact h
  | check cfg => exact h.check cfg

theorem Inv.run {b : Build} : ∀ {ops : List Op} {p : Proc}, Inv 0 p → Inv 0 (p.run b ops).2
  | [], _, h => h
  | op :: ops, p, h => by
    have h1 := h.step (b := b) op
    unfold Proc.run
    generalize p.step b op = r at h1
    obtain ⟨st, q⟩ := r
    cases st with
    | abort => exact h1
    | ok => exact Inv.run (ops := ops) h1
    | error => exact Inv.run (ops := ops) h1

theorem Inv.start : Inv 0 {} := by
  refine ⟨by simp [Owns], by simp, ?_, by simp [fins, inits], by simp [inits], by simp [inits]⟩
  intro l hl
  rw [List.prefix_nil.1 hl]
  simp [fins, inits]

/-- MPI is initialized, and no participant is going to finalize it. -/
structure Left (p : Proc) : Prop where
  ini : p.env.initialized = true
  mode : p.mode = .managed → p.alive = []

/-- The counts of initializations and finalizations are the same. -/
def Same (p q : Proc) : Prop := inits q.env.trace = inits p.env.trace ∧ fins q.env.trace = fins p.env.trace

theorem Same.trans {p q r : Proc} (h1 : Same p q) (h2 : Same q r) : Same p r :=
  ⟨h2.1.trans h1.1, h2.2.trans h1.2⟩

/-- A step that neither initializes nor finalizes. -/
structure Quiet (p q : Proc) : Prop where
  ini : p.env.initialized = true → q.env.initialized = true
  mode : q.mode = p.mode
  alive : q.alive = p.alive
  same : Same p q

theorem Quiet.refl (p : Proc) : Quiet p p := ⟨id, rfl, rfl, rfl, rfl⟩

theorem Quiet.trans {p q r : Proc} (h1 : Quiet p q) (h2 : Quiet q r) : Quiet p r :=
  ⟨h2.ini ∘ h1.ini, h2.mode.trans h1.mode, h2.alive.trans h1.alive, h1.same.trans h2.same⟩

theorem quiet_call {p : Proc} {w : Who} {c : Call} (hc : w = .app ∨ (c ≠ .init ∧ c ≠ .finalize)) :
    Quiet p (p.call w c) := by
  refine ⟨fun h => ?_, rfl, rfl, ?_, ?_⟩
  · rw [show (p.call w c).env.initialized = _ from Env.call_initialized p.env w c, h]
    rfl
  · rw [show (p.call w c).env.trace = _ from Env.call_trace p.env w c, inits_snoc]
    rcases hc with rfl | ⟨h1, h2⟩ <;> simp [Event.byLib, *]
  · rw [show (p.call w c).env.trace = _ from Env.call_trace p.env w c, fins_snoc]
    rcases hc with rfl | ⟨h1, h2⟩ <;> simp [Event.byLib, *]

theorem quiet_foldl {w : Who} : ∀ (l : List CommState) (p : Proc), Quiet p (l.foldl (Proc.destroy w) p)
  | [], p => .refl p
  | s :: l, p => by
    refine Quiet.trans ?_ (quiet_foldl l (Proc.destroy w p s))
    unfold Proc.destroy
    split_ifs
    · exact quiet_call (Or.inr (by simp))
    · exact .refl p

theorem quiet_assign (p : Proc) (w : Who) (new : List CommState) : Quiet p (p.assign w new) := by
  have h := quiet_foldl (w := w) p.cur p
  exact ⟨h.ini, h.mode, h.alive, h.same⟩

theorem quiet_current (p : Proc) : Quiet p p.current := by
  unfold Proc.current
  split
  · exact ⟨id, rfl, rfl, rfl, rfl⟩
  · exact .refl p

theorem quiet_use (p : Proc) (w : Who) : Quiet p (p.use w) :=
  (quiet_current p).trans (quiet_call (Or.inr (by simp)))

theorem quiet_petscInit (p : Proc) (w : Who) (c : Comm) : Quiet p (p.petscInit w c) := by
  unfold Proc.petscInit
  split_ifs
  · exact .refl p
  · have h : Quiet p (p.call w (.petscInit c)) := quiet_call (Or.inr (by simp))
    exact ⟨h.ini, h.mode, h.alive, h.same⟩

theorem quiet_petscFinalize (p : Proc) (w : Who) : Quiet p (p.petscFinalize w) := by
  unfold Proc.petscFinalize
  split_ifs
  · exact .refl p
  · exact quiet_call (Or.inr (by simp))
  · exact .refl p

theorem quiet_readConfig (p : Proc) (w : Who) (cfg : Config) : Quiet p (p.readConfig w cfg) := by
  unfold Proc.readConfig
  split_ifs
  · exact (quiet_current p).trans (quiet_petscInit _ w _)
  · exact .refl p

theorem Left.quiet {p q : Proc} (h : Left p) (hq : Quiet p q) : Left q :=
  ⟨hq.ini h.ini, by rw [hq.mode, hq.alive]; exact h.mode⟩

/-- In an initialized environment a construction neither initializes nor finalizes. -/
theorem detect_left {b : Bool} {p q : Proc} {w : Who} {u : Option Comm} (hi : p.env.initialized = true)
    (hq : p.initializeOrDetect b w u = some q) :
    q.env = p.env ∧ q.mode ≠ .managed ∧ q.alive = p.alive := by
  unfold Proc.initializeOrDetect at hq
  cases u with
  | some c =>
    simp only at hq
    split_ifs at hq
    obtain rfl := Option.some.inj hq
    exact ⟨rfl, by simp, rfl⟩
  | none =>
    simp only [hi] at hq
    split_ifs at hq with h0 h1 h2
    · simp at h1
    · obtain rfl := Option.some.inj hq
      exact ⟨rfl, by simp, rfl⟩
    · obtain rfl := Option.some.inj hq
      exact ⟨rfl, by simp, rfl⟩

theorem detect_none {b : Bool} {p : Proc} {w : Who} {u : Option Comm} (h : p.initializeOrDetect b w u = none) :
    b = true := by
  cases b with
  | true => rfl
  | false =>
    unfold Proc.initializeOrDetect at h
    cases u <;> simp at h
    split_ifs at h

theorem construct_left {b : Build} {p : Proc} (hi : p.env.initialized = true) (i : ℕ) (a : Args) :
    (p.construct b i a).2.env.initialized = true ∧ Same p (p.construct b i a).2 ∧
    ((p.construct b i a).2 = p ∧ (a.plausible = true → a.rank < a.size → b.asserts = true) ∨
      (p.construct b i a).2.mode ≠ .managed) := by
  unfold Proc.construct
  simp only
  split
  · next hc =>
    refine ⟨hi, ⟨rfl, rfl⟩, Or.inl ⟨rfl, fun h1 h2 => ?_⟩⟩
    simp [h1] at hc
    omega
  cases hq : p.initializeOrDetect b.asserts (.lib (some i)) a.comm with
  | none => exact ⟨hi, ⟨rfl, rfl⟩, Or.inl ⟨rfl, fun _ _ => detect_none hq⟩⟩
  | some q =>
    obtain ⟨he, hm, -⟩ := detect_left hi hq
    have key : ∀ r, Quiet q r → r.env.initialized = true ∧ Same p r ∧
        (r = p ∧ (a.plausible = true → a.rank < a.size → b.asserts = true) ∨ r.mode ≠ .managed) := by
      intro r hr
      refine ⟨hr.ini (by rw [he]; exact hi), ?_, Or.inr (by rw [hr.mode]; exact hm)⟩
      have := hr.same
      unfold Same at this ⊢
      rw [he] at this
      exact this
    simp only
    have q1 := quiet_use q (.lib (some i))
    have q2 := q1.trans (quiet_use _ (.lib (some i)))
    have q3 := (q2.trans (quiet_use _ (.lib (some i)))).trans (quiet_readConfig _ (.lib (some i)) a.cfg)
    split
    · exact key _ q1
    split
    · exact key _ q2
    split
    · exact key _ q3
    · have := key _ q3
      refine ⟨this.1, this.2.1, Or.inr ?_⟩
      rw [show ∀ (r : Proc) l, ({ r with alive := l } : Proc).mode = r.mode from fun _ _ => rfl, q3.mode]
      exact hm

theorem Left.step {b : Build} {p : Proc} (h : Left p) (op : Op) :
    Left (p.step b op).2 ∧ Same p (p.step b op).2 := by
  cases op with
  | app c => exact ⟨h.quiet (quiet_call (Or.inl rfl)), (quiet_call (Or.inl rfl)).same⟩
  | construct i a =>
    obtain ⟨h1, h2, h3⟩ := construct_left (b := b) h.ini i a
    refine ⟨⟨h1, ?_⟩, h2⟩
    rcases h3 with ⟨h3, -⟩ | h3
    · show _ → (p.construct b i a).2.alive = []
      rw [show p.step b (.construct i a) = p.construct b i a from rfl, h3]
      exact h.mode
    · exact fun hm => absurd hm h3
  | work i =>
    unfold Proc.step
    simp only
    split_ifs
    · exact ⟨h.quiet (quiet_use _ _), (quiet_use _ _).same⟩
    · exact ⟨h, rfl, rfl⟩
  | finalize i =>
    unfold Proc.step Proc.finalize
    simp only
    split_ifs with hi
    · have hm : p.mode ≠ .managed := by
        intro hm
        rw [h.mode hm] at hi
        simp at hi
      have q1 := quiet_petscFinalize p (.lib (some i))
      have hm' : (p.petscFinalize (.lib (some i))).mode ≠ .managed := by
        rw [q1.mode]
        exact hm
      unfold Proc.finalizeOrCleanup Proc.resetCommState
      simp only [if_neg hm']
      have key : ∀ r, Quiet p r → Left { r with mode := .uninitialized, alive := p.alive.erase i } ∧
          Same p { r with mode := .uninitialized, alive := p.alive.erase i } :=
        fun r hr => ⟨⟨hr.ini h.ini, by simp⟩, hr.same⟩
      split_ifs
      · exact key _ (q1.trans (quiet_assign _ _ _))
      · exact key _ (q1.trans (quiet_assign _ _ _))
    · exact ⟨h, rfl, rfl⟩
  | check cfg =>
    unfold Proc.step Proc.check
    simp only [h.ini, if_true]
    split
    · exact ⟨h.quiet (quiet_readConfig _ _ _), (quiet_readConfig _ _ _).same⟩
    · exact ⟨h.quiet (quiet_readConfig _ _ _), (quiet_readConfig _ _ _).same⟩

theorem Left.run {b : Build} : ∀ {ops : List Op} {p : Proc}, Left p → Same p (p.run b ops).2
  | [], _, _ => ⟨rfl, rfl⟩
  | op :: ops, p, h => by
    obtain ⟨h1, h2⟩ := h.step (b := b) op
    unfold Proc.run
    generalize p.step b op = r at h1 h2
    obtain ⟨st, q⟩ := r
    cases st with
    | abort => exact h2
    | ok => exact h2.trans (Left.run (ops := ops) h1)
    | error => exact h2.trans (Left.run (ops := ops) h1)

theorem run_cons_ok {b : Build} {p q : Proc} {op : Op} {ops : List Op} (h : p.step b op = (.ok, q)) :
    p.run b (op :: ops) = q.run b ops := by
  rw [Proc.run, h]

theorem run_append_ok {b : Build} : ∀ {l : List Op} {p q : Proc} {ops : List Op}, p.run b l = (.ok, q) →
    p.run b (l ++ ops) = q.run b ops
  | [], p, q, ops, h => by
    rw [show p = q from (Prod.mk.inj h).2]
    rfl
  | op :: l, p, q, ops, h => by
    rw [List.cons_append, Proc.run]
    rw [Proc.run] at h
    generalize p.step b op = r at h ⊢
    obtain ⟨st, p'⟩ := r
    cases st with
    | abort => simp at h
    | ok => exact run_append_ok (l := l) (p := p') (q := q) (ops := ops) h
    | error => exact run_append_ok (l := l) (p := p') (q := q) (ops := ops) h

/-- A participant works on the communicator at the top of the stack. -/
theorem run_work {b : Build} {s : CommState} {l : List CommState} {i : ℕ} {f : Bool} {m : Mode} {we pe : Bool}
    (hn : s.comm ≠ .null) : ∀ (n : ℕ) (t : List Event),
    (⟨⟨true, false, pe, t⟩, s :: l, f, m, we, [i]⟩ : Proc).run b (List.replicate n (.work i)) =
      (.ok, ⟨⟨true, false, pe, t ++ List.replicate n ⟨.lib (some i), .use s.comm, true⟩⟩, s :: l, f, m, we, [i]⟩)
  | 0, t => by simp [Proc.run]
  | n + 1, t => by
    rw [List.replicate_succ]
    rw [run_cons_ok (q := ⟨⟨true, false, pe, t ++ [⟨.lib (some i), .use s.comm, true⟩]⟩, s :: l, f, m, we, [i]⟩)]
    · rw [run_work hn n, List.replicate_succ]
      simp
    · simp [Proc.step, Proc.use, Proc.current, Proc.call, Env.call, Proc.comm, Env.allows, Env.active, hn]

/-- The construction of a participant once the communicator is at the top of the stack. -/
theorem construct_ok {b : Build} {s : Session} (g : s.Good b) {p : Proc} {c : CommState} {l : List CommState}
    {f : Bool} {m : Mode} {we : Bool} {t : List Event} (hc : c.comm = s.comm)
    (hd : p.initializeOrDetect b.asserts (.lib (some s.id)) s.args.comm =
      some ⟨⟨true, false, false, t⟩, c :: l, f, m, we, []⟩) :
    p.construct b s.id s.args = (.ok, ⟨⟨true, false, s.args.cfg.petsc,
      t ++ (List.replicate 3 ⟨.lib (some s.id), .use s.comm, true⟩ ++
        (if s.args.cfg.petsc then [⟨.lib (some s.id), .petscInit s.comm, true⟩] else []))⟩,
      c :: l, f, m, we || s.args.cfg.petsc, [s.id]⟩) := by
  have hn := g.comm
  have hlt : ¬ s.args.size ≤ s.args.rank := by
    have := g.lt
    omega
  have hn' : (s.comm != .null) = true := by simpa using hn
  unfold Proc.construct
  simp only [g.plausible, hd]
  cases hp : s.args.cfg.petsc <;>
  simp [Proc.use, Proc.current, Proc.call, Env.call, Proc.comm, Env.allows, Env.active, hc, hn', g.shape, g.ok,
    Proc.readConfig, Proc.petscInit, hp, hlt, List.replicate_succ]

/-- The end of a participant. -/
theorem finalize_ok {i : ℕ} {c : CommState} {f pe : Bool} {m : Mode} {we : Bool} {t : List Event}
    (hw : pe = true → we = true) (ho : c.owning = true → c.comm = .world) (hm : m ≠ .testing) :
    (⟨⟨true, false, pe, t⟩, [c], f, m, we, [i]⟩ : Proc).finalize i =
      (.ok, ⟨⟨true, decide (m = .managed), false,
        t ++ ((if pe then [⟨.lib (some i), .petscFinalize, true⟩] else []) ++
          (if m = .managed then [⟨.lib (some i), .finalize, true⟩] else []))⟩, [], f, .uninitialized, we, []⟩) := by
  unfold Proc.finalize
  simp only [List.mem_singleton, if_true]
  have hp : (⟨⟨true, false, pe, t⟩, [c], f, m, we, [i]⟩ : Proc).petscFinalize (.lib (some i)) =
      ⟨⟨true, false, false, t ++ (if pe then [⟨.lib (some i), .petscFinalize, true⟩] else [])⟩, [c], f, m, we, [i]⟩ := by
    cases pe
    · cases we <;> simp [Proc.petscFinalize]
    · simp [Proc.petscFinalize, hw rfl, Proc.call, Env.call, Env.allows, Env.active]
  rw [hp]
  unfold Proc.finalizeOrCleanup
  rw [if_neg hm, assign_eq (by simpa [Owns] using ho)]
  by_cases hmm : m = .managed
  · simp [hmm, Proc.call, Env.call, Env.allows, Env.active]
  · simp [hmm]

end Verif.Mpi
