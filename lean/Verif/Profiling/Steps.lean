import Verif.Profiling.Calls
import Mathlib.Logic.Relation

/-!
# Profiling: lemmas for all settings (C130)
-/

set_option autoImplicit false

namespace Verif.Profiling

/-- What the code does to the registry while a participant is alive -/
inductive Step (clk : ℕ → ℤ) : Reg → Reg → Prop
  | tick (r : Reg) : Step clk r { r with reads := r.reads + 1 }
  | record (r : Reg) (e : Entry) (h : ∃ k, k + 1 = r.reads ∧ e.time = some (clk k)) : Step clk r (push e r)
  | name (r : Reg) (n : String) (h : n ∉ r.dict) :
      Step clk r (push (.name n r.dict.length) { r with dict := r.dict ++ [n] })
  | flush (r : Reg) : Step clk r (flush r)

/-- several steps -/
abbrev Steps (clk : ℕ → ℤ) : Reg → Reg → Prop := Relation.ReflTransGen (Step clk)

variable {clk : ℕ → ℤ}

theorem flush_reads (r : Reg) : (flush r).reads = r.reads := by
  unfold flush
  split_ifs <;> rfl

theorem steps_put (e : Entry) (r : Reg) (h : ∃ k, k + 1 = r.reads ∧ e.time = some (clk k)) :
    Steps clk r (put e r) := by
  unfold put
  dsimp only
  split_ifs
  · exact (Relation.ReflTransGen.single (.record r e h)).tail (.flush _)
  · exact .single (.record r e h)

theorem put_reads (e : Entry) (r : Reg) : (put e r).reads = r.reads := by
  unfold put
  dsimp only
  split_ifs
  · rw [flush_reads]; rfl
  · rfl

theorem steps_name (n : String) (r : Reg) : Steps clk r (nameToID n r).2 := by
  unfold nameToID
  split_ifs with h
  · exact .refl
  · exact .single (.name r n h)

theorem name_reads (n : String) (r : Reg) : (nameToID n r).2.reads = r.reads := by
  unfold nameToID
  split_ifs <;> rfl

theorem steps_start (e : Event) (r : Reg) : Steps clk r (e.start clk r).2 := by
  unfold Event.start
  dsimp only
  split_ifs
  · exact .refl
  · split
    · exact .refl
    · rename_i sid _
      have s1 : Steps clk r (now clk r).2 := .single (.tick r)
      have s2 : Steps clk (now clk r).2 (putCritical (.start sid (now clk r).1) (now clk r).2) :=
        .single (.record _ _ ⟨r.reads, rfl, rfl⟩)
      generalize hr1 : putCritical (.start sid (now clk r).1) (now clk r).2 = r1 at s2
      have s3 : Steps clk r1 (now clk r1).2 := .single (.tick r1)
      have s4 : Steps clk (now clk r1).2 (putCritical (.stop sid (now clk r1).1) (now clk r1).2) :=
        .single (.record _ _ ⟨r1.reads, rfl, rfl⟩)
      exact ((s1.trans s2).trans (s3.trans s4)).trans (steps_put _ _ ⟨r1.reads, rfl, rfl⟩)
  · exact Relation.ReflTransGen.trans (.single (.tick r)) (steps_put _ _ ⟨r.reads, rfl, rfl⟩)

theorem steps_create (n : String) (g : Group) (s : Bool) (r : Reg) : Steps clk r (Event.create clk n g s r).2 := by
  unfold Event.create
  dsimp only
  split_ifs
  · exact ((steps_name n r).trans (steps_name _ _)).trans (steps_start _ _)
  · exact (steps_name n r).trans (steps_start _ _)

theorem steps_stop (e : Event) (r : Reg) : Steps clk r (e.stop clk r).2 := by
  unfold Event.stop
  dsimp only
  split_ifs
  · exact Relation.ReflTransGen.trans (.single (.tick r)) (steps_put _ _ ⟨r.reads, rfl, rfl⟩)
  · exact .single (.tick r)

theorem steps_destroy (e : Event) (r : Reg) : Steps clk r (e.destroy clk r) := by
  unfold Event.destroy
  split_ifs
  · exact steps_stop e r
  · exact .refl

theorem steps_addData (e : Event) (kv : String × ℤ) (r : Reg) : Steps clk r (e.addData clk kv r) := by
  unfold Event.addData
  dsimp only
  split_ifs
  · exact (Relation.ReflTransGen.trans (.single (.tick r)) (steps_name _ _)).trans
      (steps_put _ _ ⟨r.reads, (name_reads kv.1 (now clk r).2).symm, rfl⟩)
  · exact .single (.tick r)

theorem steps_foldl {α : Type} (f : Reg → α → Reg) (hf : ∀ r a, Steps clk r (f r a)) (l : List α) (r : Reg) :
    Steps clk r (l.foldl f r) := by
  induction l generalizing r with
  | nil => exact .refl
  | cons a l ih => exact (hf r a).trans (ih _)

theorem steps_forest (f : Forest) (r : Reg) : Steps clk r (runForest clk f r) := by
  induction f generalizing r with
  | nil => exact .refl
  | node n g s data inner rest ih1 ih2 =>
    unfold runForest
    dsimp only
    exact (((steps_create n g s r).trans (steps_foldl _ (fun r kv => steps_addData _ kv r) data _)).trans
      (ih1 _)).trans ((steps_stop _ _).trans (ih2 _))

theorem steps_reset (e : Option Event) (r : Reg) : Steps clk r (reset clk e r) := by
  cases e with
  | none => exact .refl
  | some e => exact steps_destroy e r

theorem steps_call {p p' : Participant} (c : Call) (hc : c ≠ .finalize) (hp : call clk c p = .ok p') :
    Steps clk p.reg p'.reg := by
  cases c with
  | startSection n =>
    simp only [call] at hp
    split_ifs at hp
    simp only [Except.ok.injEq] at hp
    subst hp
    exact steps_create _ _ _ _
  | stopSection =>
    simp only [call] at hp
    split at hp
    · cases hp
    · simp only [Except.ok.injEq] at hp
      subst hp
      exact steps_destroy _ _
  | api f =>
    simp only [call, Except.ok.injEq] at hp
    subst hp
    exact steps_forest _ _
  | «initialize» data inner =>
    simp only [call] at hp
    split_ifs at hp
    simp only [Except.ok.injEq] at hp
    subst hp
    exact ((steps_reset _ _).trans (steps_forest _ _)).trans (steps_create _ _ _ _)
  | advance inner =>
    simp only [call] at hp
    by_cases h1 : p.userEvents ≠ []
    · rw [if_pos h1] at hp; cases hp
    rw [if_neg h1] at hp
    split at hp
    · cases hp
    · by_cases h2 : p.phase ≠ .initialized
      · rw [if_pos h2] at hp; cases hp
      rw [if_neg h2] at hp
      simp only [Except.ok.injEq] at hp
      subst hp
      exact ((steps_stop _ _).trans (steps_forest _ _)).trans (steps_start _ _)
  | finalize => exact absurd rfl hc

theorem steps_calls (cs : List Call) (hc : Call.finalize ∉ cs) {p p' : Participant}
    (hp : calls clk cs p = .ok p') : Steps clk p.reg p'.reg := by
  induction cs generalizing p with
  | nil =>
    simp only [calls, Except.ok.injEq] at hp
    subst hp
    exact .refl
  | cons c cs ih =>
    simp only [calls] at hp
    rcases hcall : call clk c p with e | p1
    · rw [hcall] at hp; cases hp
    · rw [hcall] at hp
      exact (steps_call c (fun h => hc (h ▸ List.mem_cons_self)) hcall).trans
        (ih (fun h => hc (List.mem_cons_of_mem _ h)) hp)

/-- the registry before the file is closed -/
theorem call_finalize {p p' : Participant} (hp : call clk .finalize p = .ok p') :
    ∃ r, Steps clk p.reg r ∧ p'.reg = finalizeRegistry clk r := by
  simp only [call] at hp
  split_ifs at hp
  simp only [Except.ok.injEq] at hp
  subst hp
  refine ⟨_, ?_, rfl⟩
  unfold popAll
  exact ((steps_foldl _ (fun r e => steps_destroy e r) _ _).trans (steps_reset _ _)).trans (steps_forest _ _)

/-- What no step changes -/
structure Same (r r' : Reg) : Prop where
  mode : r'.mode = r.mode
  globalId : r'.globalId = r.globalId
  initialized : r'.initialized = r.initialized
  finalized : r'.finalized = r.finalized
  running : r'.running = r.running
  isOpen : r'.isOpen = r.isOpen
  closed : r'.closed = r.closed
  queueMax : r'.queueMax = r.queueMax

theorem same_step {r r' : Reg} (h : Step clk r r') : Same r r' := by
  cases h with
  | tick => exact ⟨rfl, rfl, rfl, rfl, rfl, rfl, rfl, rfl⟩
  | record => exact ⟨rfl, rfl, rfl, rfl, rfl, rfl, rfl, rfl⟩
  | name => exact ⟨rfl, rfl, rfl, rfl, rfl, rfl, rfl, rfl⟩
  | flush =>
    unfold flush
    split_ifs <;> exact ⟨rfl, rfl, rfl, rfl, rfl, rfl, rfl, rfl⟩

theorem same_steps {r r' : Reg} (h : Steps clk r r') : Same r r' := by
  induction h with
  | refl => exact ⟨rfl, rfl, rfl, rfl, rfl, rfl, rfl, rfl⟩
  | tail _ h ih =>
    have := same_step h
    exact ⟨this.mode.trans ih.mode, this.globalId.trans ih.globalId, this.initialized.trans ih.initialized,
      this.finalized.trans ih.finalized, this.running.trans ih.running, this.isOpen.trans ih.isOpen,
      this.closed.trans ih.closed, this.queueMax.trans ih.queueMax⟩

/-- The first id has no name in the file. -/
def Nameless (r : Reg) : Prop := r.dict ≠ [] ∧ ∀ n, .name n 0 ∉ r.file ++ r.queue

theorem mem_flush {r : Reg} {e : Entry} (h : e ∈ (flush r).file ++ (flush r).queue) : e ∈ r.file ++ r.queue := by
  unfold flush at h
  split_ifs at h
  · exact h
  · simpa using h
  · have h : e ∈ r.file ++ [] := h
    rw [List.append_nil] at h
    exact List.mem_append_left _ h

theorem nameless_step {r r' : Reg} (h : Step clk r r') (hn : Nameless r) : Nameless r' := by
  obtain ⟨h1, h2⟩ := hn
  cases h with
  | tick => exact ⟨h1, h2⟩
  | record e he =>
    refine ⟨h1, fun n hm => ?_⟩
    change _ ∈ r.file ++ (r.queue ++ [e]) at hm
    rw [← List.append_assoc, List.mem_append] at hm
    rcases hm with hm | hm
    · exact h2 n hm
    · simp only [List.mem_singleton] at hm
      subst hm
      obtain ⟨k, -, hk⟩ := he
      cases hk
  | name n h =>
    refine ⟨by simp [push], fun n' hm => ?_⟩
    change _ ∈ r.file ++ (r.queue ++ [.name n r.dict.length]) at hm
    rw [← List.append_assoc, List.mem_append] at hm
    rcases hm with hm | hm
    · exact h2 n' hm
    · simp only [List.mem_singleton, Entry.name.injEq] at hm
      exact h1 (List.length_eq_zero_iff.1 hm.2.symm)
  | flush => exact ⟨by rw [flush_dict]; exact h1, fun n hm => h2 n (mem_flush hm)⟩

theorem nameless_steps {r r' : Reg} (h : Steps clk r r') (hn : Nameless r) : Nameless r' := by
  induction h with
  | refl => exact hn
  | tail _ h ih => exact nameless_step h ih

theorem nameless_decode {es : List Entry} (h : ∀ n, .name n 0 ∉ es) {t : ℤ} (ht : .stop 0 t ∈ es) :
    decode es = none := by
  unfold decode
  suffices H : ∀ s : Reader, s.names 0 = none → s.readAll es = none by rw [H _ rfl]; rfl
  intro s hs
  induction es generalizing s with
  | nil => cases ht
  | cons e es ih =>
    simp only [Reader.readAll]
    rcases hr : s.read e with _ | s1
    · rfl
    · have hs1 : s1.names 0 = none := by
        cases e with
        | name n i =>
          simp only [Reader.read] at hr
          split at hr
          · simp only [Option.some.injEq] at hr
            subst hr
            have : i ≠ 0 := fun h0 => h n (h0 ▸ List.mem_cons_self)
            simp only [if_neg this.symm, hs]
          · cases hr
        | start i t =>
          simp only [Reader.read, Option.map_eq_some_iff] at hr
          obtain ⟨_, -, rfl⟩ := hr
          exact hs
        | stop i t =>
          simp only [Reader.read, Option.map_eq_some_iff] at hr
          obtain ⟨_, -, rfl⟩ := hr
          exact hs
        | data i t k v =>
          simp only [Reader.read] at hr
          split at hr
          · simp only [Option.some.injEq] at hr
            subst hr
            exact hs
          · cases hr
      rcases List.mem_cons.1 ht with he | he
      · subst he
        simp [Reader.read, hs] at hr
      · exact ih (fun n hm => h n (List.mem_cons_of_mem _ hm)) he s1 hs1

/-- Closing the file: all records are written, and the end. -/
theorem finalize_file {r : Reg} (hi : r.initialized = true) (hf : r.finalized = false) (hr : r.running = true)
    (ho : r.isOpen = true) (hm : r.mode ≠ .off) :
    (finalizeRegistry clk r).closed = r.closed ++ [r.file ++ r.queue ++ [.stop r.globalId (clk r.reads)]] := by
  unfold finalizeRegistry
  rw [if_neg (by simp [hi, hf])]
  unfold stopBackend
  rw [if_neg (by simp [hm, hr])]
  dsimp only
  obtain ⟨r1, hr1⟩ : ∃ r1, push (.stop r.globalId (clk r.reads)) (now clk r).2 = r1 := ⟨_, rfl⟩
  have hput : put (.stop r.globalId (now clk r).1) (now clk r).2 = r1
      ∨ put (.stop r.globalId (now clk r).1) (now clk r).2 = flush r1 := by
    unfold put
    dsimp only
    split_ifs
    · exact Or.inr (by rw [← hr1]; rfl)
    · exact Or.inl (by rw [← hr1]; rfl)
  have hflush : flush r1 = { r1 with file := r.file ++ r.queue ++ [.stop r.globalId (clk r.reads)], queue := [] } := by
    unfold flush
    subst hr1
    rw [if_neg (by simp [push, now, hm]), if_pos (by simpa [push, now] using ho)]
    simp [push, now]
  have hff : flush (flush r1) = flush r1 := by
    rw [hflush]
    unfold flush
    rw [if_pos (Or.inr rfl)]
  have : flush (put (.stop r.globalId (now clk r).1) (now clk r).2)
      = { r1 with file := r.file ++ r.queue ++ [.stop r.globalId (clk r.reads)], queue := [] } := by
    rcases hput with h | h
    · rw [h, hflush]
    · rw [h, hff, hflush]
  rw [this]
  subst hr1
  rfl

/-- The times of the records are in order and have been read from the clock. -/
def Timed (clk : ℕ → ℤ) (r : Reg) : Prop :=
  (r.file ++ r.queue).Pairwise (fun a b => ∀ s t, a.time = some s → b.time = some t → s ≤ t)
    ∧ ∀ e ∈ r.file ++ r.queue, ∀ t, e.time = some t → ∃ k, k < r.reads ∧ t = clk k

theorem timed_step (hclk : Monotone clk) {r r' : Reg} (h : Step clk r r') (ht : Timed clk r) : Timed clk r' := by
  obtain ⟨h1, h2⟩ := ht
  cases h with
  | tick =>
    exact ⟨h1, fun e he t het => by
      obtain ⟨k, hk, e⟩ := h2 e he t het
      exact ⟨k, Nat.lt_succ_of_lt hk, e⟩⟩
  | record e he =>
    obtain ⟨k, hk, hek⟩ := he
    have hl : (push e r).file ++ (push e r).queue = (r.file ++ r.queue) ++ [e] := by simp [push]
    refine ⟨?_, ?_⟩
    · rw [hl, List.pairwise_append]
      refine ⟨h1, List.pairwise_singleton _ _, fun a ha b hb s t hs ht => ?_⟩
      simp only [List.mem_singleton] at hb
      subst hb
      rw [hek, Option.some.injEq] at ht
      subst ht
      obtain ⟨j, hj, rfl⟩ := h2 a ha s hs
      exact hclk (by omega)
    · intro e' he' t ht
      rw [hl, List.mem_append] at he'
      rcases he' with he' | he'
      · exact h2 e' he' t ht
      · simp only [List.mem_singleton] at he'
        subst he'
        rw [hek, Option.some.injEq] at ht
        exact ⟨k, by change k < r.reads; omega, ht.symm⟩
  | name n hn =>
    have hl : (push (.name n r.dict.length) { r with dict := r.dict ++ [n] }).file
        ++ (push (.name n r.dict.length) { r with dict := r.dict ++ [n] }).queue
        = (r.file ++ r.queue) ++ [.name n r.dict.length] := by simp [push]
    refine ⟨?_, ?_⟩
    · rw [hl, List.pairwise_append]
      refine ⟨h1, List.pairwise_singleton _ _, fun a ha b hb s t hs ht => ?_⟩
      simp only [List.mem_singleton] at hb
      subst hb
      cases ht
    · intro e' he' t ht
      rw [hl, List.mem_append] at he'
      rcases he' with he' | he'
      · exact h2 e' he' t ht
      · simp only [List.mem_singleton] at he'
        subst he'
        cases ht
  | flush =>
    unfold flush
    split_ifs
    · exact ⟨h1, h2⟩
    · exact ⟨by simpa using h1, by simpa using h2⟩
    · refine ⟨?_, fun e he t ht => h2 e ?_ t ht⟩
      · change (r.file ++ []).Pairwise _
        rw [List.append_nil]
        exact (List.pairwise_append.1 h1).1
      · have he : e ∈ r.file ++ [] := he
        rw [List.append_nil] at he
        exact List.mem_append_left _ he

theorem timed_steps (hclk : Monotone clk) {r r' : Reg} (h : Steps clk r r') (ht : Timed clk r) : Timed clk r' := by
  induction h with
  | refl => exact ht
  | tail _ h ih => exact timed_step hclk h ih

theorem construct_steps (env : Env) (r : Reg) (hr : r.running = false) {p : Participant}
    (h : construct env r = some p) :
    ∃ r1, Steps env.clk ((confEvent env).stop env.clk (confReg env r)).2 r1
      ∧ Steps env.clk (startBackend r1) p.reg := by
  rw [construct_eq env r hr] at h
  split_ifs at h with h0
  simp only [Option.some.injEq] at h
  subst h
  refine ⟨(Event.create env.clk "startProfilingBackend" .other false
    ((confEvent env).stop env.clk (confReg env r)).2).2, steps_create _ _ _ _, ?_⟩
  unfold afterConfigure
  dsimp only
  generalize startBackend (Event.create env.clk "startProfilingBackend" .other false
    ((confEvent env).stop env.clk (confReg env r)).2).2 = r1
  have h1 := steps_stop (clk := env.clk) (backendEvent env) r1
  generalize ((backendEvent env).stop env.clk r1).2 = r2 at h1 ⊢
  have h2 : Steps env.clk r2 (if env.parallel then
      runForest env.clk (.node "com.initializeIntraCom" .fundamental false [] .nil .nil) r2 else r2) := by
    split_ifs
    · exact steps_forest _ _
    · exact .refl
  exact ((h1.trans h2).trans (steps_stop _ _)).trans (steps_create _ _ _ _)

/-- The registry in use: from the constructor to `finalize` -/
theorem used (env : Env) (r : Reg) (hr : Idle r) {p p' : Participant} (h : construct env r = some p)
    (cs : List Call) (hc : Call.finalize ∉ cs) (hp : calls env.clk (cs ++ [.finalize]) p = .ok p') :
    ∃ r1 r2, Steps env.clk (confReg env r) r1 ∧ Steps env.clk ((confEvent env).stop env.clk (confReg env r)).2 r1
      ∧ Steps env.clk (startBackend r1) r2 ∧ p'.reg = finalizeRegistry env.clk r2 := by
  obtain ⟨r1, h1, h2⟩ := construct_steps env r hr.running h
  rw [calls_append] at hp
  rcases hcs : calls env.clk cs p with e | p1
  · rw [hcs] at hp; cases hp
  · rw [hcs] at hp
    have hp : (match call env.clk .finalize p1 with
      | .error e => .error e
      | .ok p => .ok p) = Except.ok p' := hp
    rcases hfin : call env.clk .finalize p1 with e | p2
    · rw [hfin] at hp; cases hp
    · rw [hfin] at hp
      simp only [Except.ok.injEq] at hp
      subst hp
      obtain ⟨r2, hs, he⟩ := call_finalize hfin
      exact ⟨r1, r2, (steps_stop _ _).trans h1, h1, (h2.trans (steps_calls cs hc hcs)).trans hs, he⟩

theorem startBackend_on {r : Reg} (h : r.mode ≠ .off) :
    startBackend r = { r with isOpen := true, file := [], running := true } := if_neg h

theorem startBackend_off {r : Reg} (h : r.mode = .off) : startBackend r = r := if_pos h

/-- The file that is closed -/
theorem used_file {env : Env} {r r1 r2 : Reg} (hm : env.settings.mode ≠ .off)
    (h1 : Steps env.clk (confReg env r) r1) (h2 : Steps env.clk (startBackend r1) r2) :
    (finalizeRegistry env.clk r2).closed = r.closed ++ [r2.file ++ r2.queue ++ [.stop 0 (env.clk r2.reads)]] := by
  have s1 := same_steps h1
  have s2 := same_steps h2
  have hm1 : r1.mode ≠ .off := by rw [s1.mode]; exact hm
  rw [startBackend_on hm1] at s2
  rw [finalize_file (s2.initialized.trans s1.initialized) (s2.finalized.trans s1.finalized) s2.running s2.isOpen
    (by rw [s2.mode]; exact hm1)]
  rw [show r2.closed = r.closed from s2.closed.trans s1.closed,
    show r2.globalId = 0 from s2.globalId.trans s1.globalId]

theorem conf_timed (env : Env) (hclk : Monotone env.clk) (r : Reg) (hr : Idle r) : Timed env.clk (confReg env r) := by
  obtain ⟨clk, mpi, par, tag⟩ := env
  have hf : (confReg ⟨clk, mpi, par, tag⟩ r).file ++ (confReg ⟨clk, mpi, par, tag⟩ r).queue
      = earlyQueue ⟨clk, mpi, par, tag⟩ r.reads := by
    change r.file ++ _ = _
    rw [hr.file]
    rfl
  unfold Timed
  rw [hf]
  change (earlyQueue ⟨clk, mpi, par, tag⟩ r.reads).Pairwise _ ∧ ∀ e ∈ earlyQueue ⟨clk, mpi, par, tag⟩ r.reads,
    ∀ t, e.time = some t → ∃ k, k < r.reads + (if mpi then 7 else 5) ∧ t = clk k
  have hmono : ∀ {a b : ℕ}, a ≤ b → clk a ≤ clk b := fun h => hclk h
  cases mpi
  · refine ⟨?_, ?_⟩
    · simp only [earlyQueue, Bool.false_eq_true, if_false, List.pairwise_cons, List.mem_cons, List.not_mem_nil, or_false, forall_eq_or_imp,
        forall_eq, Entry.time, Option.some.injEq, reduceCtorEq, implies_true, and_true, true_and,
        List.Pairwise.nil, and_self, IsEmpty.forall_iff]
      refine ⟨?_, ?_, ?_, ?_⟩ <;> (try refine ⟨?_, ?_⟩) <;> (try refine ⟨?_, ?_⟩) <;> (try refine ⟨?_, ?_⟩) <;>
        (intro s t hs ht; subst hs; subst ht; exact hmono (by omega))
    · intro e he t ht
      simp only [earlyQueue, Bool.false_eq_true, if_false, List.mem_cons, List.not_mem_nil, or_false] at he
      rcases he with rfl | rfl | rfl | rfl | rfl | rfl | rfl | rfl | rfl <;>
        simp only [Entry.time, Option.some.injEq, reduceCtorEq] at ht <;>
        exact ⟨_, by simp only [Bool.false_eq_true, if_false]; omega, ht.symm⟩
  · refine ⟨?_, ?_⟩
    · simp only [earlyQueue, if_true, List.pairwise_cons, List.mem_cons, List.not_mem_nil, or_false, forall_eq_or_imp,
        forall_eq, Entry.time, Option.some.injEq, reduceCtorEq, implies_true, and_true, true_and,
        List.Pairwise.nil, and_self, IsEmpty.forall_iff]
      refine ⟨?_, ?_, ?_, ?_, ?_, ?_⟩ <;> (try refine ⟨?_, ?_⟩) <;> (try refine ⟨?_, ?_⟩) <;>
        (try refine ⟨?_, ?_⟩) <;> (try refine ⟨?_, ?_⟩) <;> (try refine ⟨?_, ?_⟩) <;>
        (intro s t hs ht; subst hs; subst ht; exact hmono (by omega))
    · intro e he t ht
      simp only [earlyQueue, if_true, List.mem_cons, List.not_mem_nil, or_false] at he
      rcases he with rfl | rfl | rfl | rfl | rfl | rfl | rfl | rfl | rfl | rfl | rfl | rfl <;>
        simp only [Entry.time, Option.some.injEq, reduceCtorEq] at ht <;>
        exact ⟨_, by simp only [if_true]; omega, ht.symm⟩

theorem put_length {e : Entry} {r : Reg} (he : e.isStart = false) (hm : r.mode ≠ .off) (h0 : 0 < r.queueMax) :
    (put e r).queue.length ≤ r.queueMax := by
  by_cases h : r.queueMax < r.queue.length + 1
  · rw [put_flush e r (Or.inr he) h0 h]
    unfold flush
    rw [if_neg (by simp [push, hm])]
    split_ifs <;> simp
  · rw [put_push e r (Or.inr (by omega))]
    simp only [push, List.length_append, List.length_singleton]
    omega

/-- The events of the sections of a user are running. -/
def UserEvents (p : Participant) : Prop := ∀ e ∈ p.userEvents, e.running = true ∧ e.group = .fundamental

theorem start_group (clk : ℕ → ℤ) (e : Event) (r : Reg) :
    (e.start clk r).1.running = true ∧ (e.start clk r).1.group = e.group := by
  rw [start_fst]
  exact ⟨rfl, rfl⟩

theorem create_group (clk : ℕ → ℤ) (n : String) (g : Group) (s : Bool) (r : Reg) :
    (Event.create clk n g s r).1.running = true ∧ (Event.create clk n g s r).1.group = g := by
  unfold Event.create
  dsimp only
  split_ifs
  · exact start_group _ _ _
  · exact start_group _ _ _

theorem user_call {clk : ℕ → ℤ} {p p' : Participant} (c : Call) (h : UserEvents p) (hp : call clk c p = .ok p') :
    UserEvents p' := by
  cases c with
  | startSection n =>
    simp only [call] at hp
    split_ifs at hp
    simp only [Except.ok.injEq] at hp
    subst hp
    intro e he
    rcases List.mem_append.1 he with he | he
    · exact h e he
    · simp only [List.mem_singleton] at he
      subst he
      exact create_group _ _ _ _ _
  | stopSection =>
    simp only [call] at hp
    split at hp
    · cases hp
    · simp only [Except.ok.injEq] at hp
      subst hp
      exact fun e he => h e (List.dropLast_subset _ he)
  | api f =>
    simp only [call, Except.ok.injEq] at hp
    subst hp
    exact h
  | «initialize» data inner =>
    simp only [call] at hp
    split_ifs at hp
    simp only [Except.ok.injEq] at hp
    subst hp
    intro e he
    cases he
  | advance inner =>
    simp only [call] at hp
    by_cases h1 : p.userEvents ≠ []
    · rw [if_pos h1] at hp; cases hp
    rw [if_neg h1] at hp
    split at hp
    · cases hp
    · by_cases h2 : p.phase ≠ .initialized
      · rw [if_pos h2] at hp; cases hp
      rw [if_neg h2] at hp
      simp only [Except.ok.injEq] at hp
      subst hp
      exact h
  | finalize =>
    simp only [call] at hp
    split_ifs at hp
    simp only [Except.ok.injEq] at hp
    subst hp
    intro e he
    cases he

theorem user_calls {clk : ℕ → ℤ} {p p' : Participant} (cs : List Call) (h : UserEvents p)
    (hp : calls clk cs p = .ok p') : UserEvents p' := by
  induction cs generalizing p with
  | nil =>
    simp only [calls, Except.ok.injEq] at hp
    subst hp
    exact h
  | cons c cs ih =>
    simp only [calls] at hp
    rcases hcall : call clk c p with e | p1
    · rw [hcall] at hp; cases hp
    · rw [hcall] at hp
      exact ih (user_call c h hcall) hp

end Verif.Profiling
