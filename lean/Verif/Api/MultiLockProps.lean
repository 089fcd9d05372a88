import Verif.Api.MultiLock

/-! # Properties of named locks (C85) -/

set_option autoImplicit false

namespace Verif.MultiLock

variable {K : Type} [DecidableEq K]

/-- The specification of a lock table: a partial function from names to states. -/
def specStep (f : K → Option Bool) : Op K → K → Option Bool
  | .add k b => fun k' => if k' = k then some ((f k).getD b) else f k'
  | .lock k => fun k' => if k' = k then (f k).map (fun _ => true) else f k'
  | .unlock k => fun k' => if k' = k then (f k).map (fun _ => false) else f k'
  | .lockAll => fun k' => (f k').map (fun _ => true)
  | .unlockAll => fun k' => (f k').map (fun _ => false)
  | .clear => fun _ => none

/-- The state of every name after a history of operations. -/
def spec (ops : List (Op K)) : K → Option Bool := ops.foldl specStep (fun _ => none)

@[simp] theorem find_nil (k : K) : find ([] : MultiLock K) k = none := rfl

@[simp] theorem find_cons (e : K × Bool) (l : MultiLock K) (k : K) :
    find (e :: l) k = if e.1 = k then some e.2 else find l k := by
  unfold find
  by_cases h : e.1 = k <;> simp [h]

theorem find_append (l l' : MultiLock K) (k : K) : find (l ++ l') k = (find l k).or (find l' k) := by
  induction l with
  | nil => simp
  | cons e l ih => by_cases h : e.1 = k <;> simp [h, ih]

theorem find_assign (l : MultiLock K) (k k' : K) (b : Bool) :
    find (l.assign k b) k' = if k' = k then (find l k).map (fun _ => b) else find l k' := by
  induction l with
  | nil => simp [assign]
  | cons e l ih =>
    simp only [assign, List.map_cons] at ih ⊢
    by_cases h : e.1 = k
    · by_cases h' : k' = k
      · subst h'; simp [h]
      · have h2 : ¬ k = k' := fun h => h' h.symm
        simp [h, h2, h', ih]
    · by_cases h' : e.1 = k'
      · subst h'; simp [h]
      · simp [h, h', ih]

theorem find_mapConst (l : MultiLock K) (b : Bool) (k : K) :
    find (l.map (fun e => (e.1, b))) k = (find l k).map (fun _ => b) := by
  induction l with
  | nil => simp
  | cons e l ih => by_cases h : e.1 = k <;> simp [h, ih]

theorem find_eq_none (l : MultiLock K) (k : K) : find l k = none ↔ k ∉ l.map (·.1) := by
  induction l with
  | nil => simp
  | cons e l ih => by_cases h : e.1 = k
                   · simp [h]
                   · have h' : ¬ k = e.1 := fun x => h x.symm
                     simp [h, h', ih]

theorem step_find (l : MultiLock K) (o : Op K) (k : K) : find (l.step o).1 k = specStep (find l) o k := by
  cases o with
  | add k' b =>
    cases h : find l k' with
    | some c => by_cases hk : k = k' <;> simp_all [step, add, specStep]
    | none =>
      by_cases hk : k = k'
      · subst hk; simp [step, add, specStep, find_append, h]
      · have hk' : ¬ k' = k := fun x => hk x.symm
        simp [step, add, specStep, find_append, h, hk, hk']
  | lock k' =>
    cases h : find l k' with
    | some c => simp [step, lock, specStep, find_assign, h]
    | none => by_cases hk : k = k' <;> simp_all [step, lock, specStep]
  | unlock k' =>
    cases h : find l k' with
    | some c => simp [step, unlock, specStep, find_assign, h]
    | none => by_cases hk : k = k' <;> simp_all [step, unlock, specStep]
  | lockAll => simp [step, lockAll, specStep, find_mapConst]
  | unlockAll => simp [step, unlockAll, specStep, find_mapConst]
  | clear => simp [step, specStep]

theorem assign_keys (l : MultiLock K) (k : K) (b : Bool) : (l.assign k b).map (·.1) = l.map (·.1) := by
  simp only [assign, List.map_map]
  refine List.map_congr_left fun e _ => ?_
  by_cases h : e.1 = k <;> simp [h]

theorem step_nodup (l : MultiLock K) (o : Op K) (h : (l.map (·.1)).Nodup) :
    ((l.step o).1.map (·.1)).Nodup := by
  cases o with
  | add k b =>
    cases hf : find l k with
    | some c => simpa [step, add, hf] using h
    | none =>
      have := (find_eq_none l k).1 hf
      simp only [step, add, hf, List.map_append, List.map_cons, List.map_nil]
      exact h.append (by simp) (fun a ha hb => this (List.mem_singleton.1 hb ▸ ha))
  | lock k => cases hf : find l k <;> simp [step, lock, hf, assign_keys, h]
  | unlock k => cases hf : find l k <;> simp [step, unlock, hf, assign_keys, h]
  | lockAll => simpa [step, lockAll, List.map_map, Function.comp_def] using h
  | unlockAll => simpa [step, unlockAll, List.map_map, Function.comp_def] using h
  | clear => simp [step]

theorem run_concat (ops : List (Op K)) (o : Op K) : run (ops ++ [o]) = ((run ops).step o).1 := by
  simp [run]

/-- For every history the table is the partial function of the specification, and every name occurs
at most once. -/
theorem C85_refines (ops : List (Op K)) :
    (∀ k, (run ops).check k = spec ops k) ∧ (∀ k, (run ops).contains k = (spec ops k).isSome) ∧
      ((run ops).map (·.1)).Nodup := by
  have key : ∀ (ops : List (Op K)) (l : MultiLock K) (f : K → Option Bool), (∀ k, find l k = f k) →
      (l.map (·.1)).Nodup → (∀ k, find (ops.foldl (fun l o => (l.step o).1) l) k = ops.foldl specStep f k) ∧
        ((ops.foldl (fun l o => (l.step o).1) l).map (·.1)).Nodup := by
    intro ops
    induction ops with
    | nil => intro l f h1 h2; exact ⟨h1, h2⟩
    | cons o ops ih =>
      intro l f h1 h2
      refine ih _ _ (fun k => ?_) (step_nodup l o h2)
      rw [step_find, show find l = f from funext h1]
  obtain ⟨h1, h2⟩ := key ops [] (fun _ => none) (fun _ => rfl) (by simp)
  exact ⟨h1, fun k => by simp only [contains]; rw [show find (run ops) k = _ from h1 k]; rfl, h2⟩

/-- The number of locked plus unlocked entries is the number of entries. -/
theorem C85_counts (ops : List (Op K)) :
    (run ops).countLocked + (run ops).countUnlocked = (run ops).size := by
  generalize run ops = l
  unfold countLocked countUnlocked size
  have := List.length_eq_countP_add_countP (fun e : K × Bool => e.2) (l := l)
  rw [this]; congr 1; refine List.countP_congr fun e _ => by simp

/-- An operation on a name fails exactly if the name is unknown; then nothing changes. -/
theorem C85_unknown (ops : List (Op K)) (k : K) :
    (((run ops).step (.lock k)).2 = (spec ops k).isSome) ∧ (((run ops).step (.unlock k)).2 = (spec ops k).isSome) ∧
      (spec ops k = none → ((run ops).step (.lock k)).1 = run ops ∧ ((run ops).step (.unlock k)).1 = run ops ∧
        (run ops).check k = none) := by
  have h := (C85_refines ops).1 k
  rw [← h]
  unfold check
  cases hf : find (run ops) k <;> simp [step, lock, unlock, hf]

/-- All locks are closed exactly if every known name is locked; after `lockAll` this is the case and
the set of names is unchanged. -/
theorem C85_all (ops : List (Op K)) :
    ((run ops).checkAll = true ↔ ∀ k b, spec ops k = some b → b = true) ∧
      (run (ops ++ [.lockAll])).checkAll = true ∧
      (run (ops ++ [.lockAll])).countLocked = (run ops).size ∧
      (run (ops ++ [.unlockAll])).countUnlocked = (run ops).size := by
  obtain ⟨h1, -, h3⟩ := C85_refines ops
  refine ⟨?_, ?_, ?_, ?_⟩
  · simp only [checkAll, List.all_eq_true]
    constructor
    · intro h k b hb
      rw [← h1, check, find] at hb
      cases hf : (run ops).find? (fun e => e.1 = k) with
      | none => simp [hf] at hb
      | some e =>
        simp only [hf, Option.map_some, Option.some.injEq] at hb
        rw [← hb]; exact h e (List.mem_of_find?_eq_some hf)
    · intro h e he
      refine h e.1 e.2 ?_
      rw [← h1, check]
      clear h h1
      generalize run ops = l at he h3
      induction l with
      | nil => simp at he
      | cons x l ih =>
        rcases List.mem_cons.1 he with rfl | he'
        · simp
        · have hne : ¬ x.1 = e.1 := by
            intro hx
            simp only [List.map_cons, List.nodup_cons] at h3
            exact h3.1 (hx ▸ List.mem_map_of_mem he')
          rw [find_cons, if_neg hne]
          exact ih he' (by simp only [List.map_cons, List.nodup_cons] at h3; exact h3.2)
  · simp [run_concat, step, checkAll, lockAll]
  · simp [run_concat, step, countLocked, lockAll, size, List.countP_map, Function.comp_def]
  · simp [run_concat, step, countUnlocked, unlockAll, size, List.countP_map, Function.comp_def]

example : let l := run [.add "A" true, .add "B" false, .add "A" false, .unlockAll, .lock "B", .lock "C"]
    l.check "A" = some false ∧ l.check "B" = some true ∧ l.check "C" = none ∧ l.countLocked = 1 ∧
      l.countUnlocked = 1 ∧ l.checkAll = false := by decide

end Verif.MultiLock
