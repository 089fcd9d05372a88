import Mathlib.Data.List.Perm.Subperm
import Mathlib.Data.List.Nodup
import Mathlib.Data.List.Range

/-!
# Generation of unique ids

Model of `/repo/src/utils/ManageUniqueIDs.{hpp,cpp}`, used for ids of meshes, data, accessors and
dynamically created objects. Ids are unbounded (`int` in the code; overflow is not modelled).
-/

set_option autoImplicit false

namespace Verif

/-- `utils::ManageUniqueIDs`, ManageUniqueIDs.hpp:25-30 -/
structure UniqueIds where
  /-- `_ids` -/
  ids : List ℕ
  /-- `_lowerLimit` -/
  lower : ℕ

namespace UniqueIds

/-- the default constructed object -/
def empty : UniqueIds := ⟨[], 0⟩

/-- The search loop of `getFreeID`, ManageUniqueIDs.cpp:8-14, returning the value of `_lowerLimit` before its last increment. The
loop has no bound in the code; `fuel` is shown to suffice in `search_free`. -/
def search (ids : List ℕ) : ℕ → ℕ → Option ℕ
  | 0, _ => none
  | fuel + 1, n => if n ∈ ids then search ids fuel (n + 1) else some n

/-- `getFreeID`, ManageUniqueIDs.cpp:6-17 -/
def getFree (s : UniqueIds) : Option (ℕ × UniqueIds) :=
  (search s.ids (s.ids.length + 1) s.lower).map fun n => (n, ⟨n :: s.ids, n + 1⟩)

/-- `insertID`, ManageUniqueIDs.cpp:19-27 -/
def insertId (n : ℕ) (s : UniqueIds) : Bool × UniqueIds :=
  if n ∈ s.ids then (false, s) else (true, ⟨n :: s.ids, s.lower⟩)

/-- `resetIDs`, ManageUniqueIDs.cpp:29-33 -/
def reset (_ : UniqueIds) : UniqueIds := ⟨[], 0⟩

/-- a request of the user -/
inductive Request where
  | free
  | insert (n : ℕ)
  | reset

/-- what the user sees -/
inductive Answer where
  | got (n : ℕ)
  | inserted
  | refused
  | cleared
  deriving DecidableEq

/-- one request; `none` would be a search which does not end -/
def step (s : UniqueIds) : Request → Option (Answer × UniqueIds)
  | .free => s.getFree.map fun r => (.got r.1, r.2)
  | .insert n => some (if (s.insertId n).1 then .inserted else .refused, (s.insertId n).2)
  | .reset => some (.cleared, s.reset)

/-- a history of requests with their answers, most recent first -/
def run (s : UniqueIds) : List Request → Option (List (Request × Answer) × UniqueIds)
  | [] => some ([], s)
  | r :: rs => do
    let (h, s) ← run s rs
    let (a, s) ← s.step r
    some ((r, a) :: h, s)

/-! ## Specification -/

/-- The ids in use according to the history: those assigned or reserved since the last reset. -/
def inUse : List (Request × Answer) → List ℕ
  | [] => []
  | (.reset, _) :: _ => []
  | (.insert n, .inserted) :: h => n :: inUse h
  | (.free, .got n) :: h => n :: inUse h
  | _ :: h => inUse h

/-! ## Lemmas -/

theorem search_spec {ids : List ℕ} {fuel n k : ℕ} (h : search ids fuel n = some k) :
    k ∉ ids ∧ n ≤ k ∧ ∀ j, n ≤ j → j < k → j ∈ ids := by
  induction fuel generalizing n with
  | zero => simp [search] at h
  | succ fuel ih =>
    rw [search] at h
    split at h
    · rename_i hn
      obtain ⟨h1, h2, h3⟩ := ih h
      refine ⟨h1, by omega, fun j hj hk => ?_⟩
      rcases Nat.eq_or_lt_of_le hj with rfl | hj
      · exact hn
      · exact h3 j hj hk
    · rename_i hn
      cases h
      exact ⟨hn, le_rfl, fun j hj hk => by omega⟩

theorem search_none {ids : List ℕ} {fuel n : ℕ} (h : search ids fuel n = none) :
    ∀ j, n ≤ j → j < n + fuel → j ∈ ids := by
  induction fuel generalizing n with
  | zero => intro j h1 h2; omega
  | succ fuel ih =>
    rw [search] at h
    split at h
    · rename_i hn
      intro j h1 h2
      rcases Nat.eq_or_lt_of_le h1 with rfl | h1
      · exact hn
      · exact ih h j h1 (by omega)
    · cases h

/-- The search ends. -/
theorem search_free (ids : List ℕ) (n : ℕ) : ∃ k, search ids (ids.length + 1) n = some k := by
  cases h : search ids (ids.length + 1) n with
  | some k => exact ⟨k, rfl⟩
  | none =>
    have := search_none h
    have hs : List.range' n (ids.length + 1) ⊆ ids := by
      intro j hj
      rw [List.mem_range'_1] at hj
      exact this j hj.1 hj.2
    have := (List.subperm_of_subset List.nodup_range' hs).length_le
    rw [List.length_range'] at this
    omega

theorem inUse_ids {rs : List Request} {h : List (Request × Answer)} {s' : UniqueIds}
    (hr : run empty rs = some (h, s')) : s'.ids = inUse h := by
  induction rs generalizing h s' with
  | nil => simp only [run, Option.some.injEq, Prod.mk.injEq] at hr; rw [← hr.1, ← hr.2]; rfl
  | cons r rs ih =>
    rw [run] at hr
    cases hp : run empty rs with
    | none => rw [hp] at hr; simp at hr
    | some p =>
      rw [hp] at hr
      have hi := ih hp
      simp only [Option.bind_eq_bind, Option.bind_some] at hr
      cases r with
      | free =>
        rw [step, getFree] at hr
        cases hk : search p.2.ids (p.2.ids.length + 1) p.2.lower with
        | none => rw [hk] at hr; simp at hr
        | some k =>
          rw [hk] at hr
          simp only [Option.map_some, Option.bind_some, Option.some.injEq, Prod.mk.injEq] at hr
          rw [← hr.1, ← hr.2, inUse, hi]
      | insert n =>
        rw [step, insertId] at hr
        split at hr
        · simp only [Option.bind_some, Option.some.injEq, Prod.mk.injEq] at hr
          rw [← hr.1, ← hr.2, hi]; rfl
        · simp only [Option.bind_some, Option.some.injEq, Prod.mk.injEq] at hr
          rw [← hr.1, ← hr.2]; simp [inUse, hi]
      | reset =>
        simp only [step, reset, Option.bind_some, Option.some.injEq, Prod.mk.injEq] at hr
        rw [← hr.1, ← hr.2]; rfl

/-! ## Theorems -/

/-- Every history of requests is answered: the search for a free id always ends. -/
theorem C86_total (rs : List Request) : ∃ r, run empty rs = some r := by
  induction rs with
  | nil => exact ⟨_, rfl⟩
  | cons r rs ih =>
    obtain ⟨p, hp⟩ := ih
    cases r with
    | free =>
      obtain ⟨k, hk⟩ := search_free p.2.ids p.2.lower
      exact ⟨_, by simp only [run, hp, Option.bind_eq_bind, Option.bind_some, step, getFree, hk, Option.map_some]; rfl⟩
    | insert n => exact ⟨_, by simp only [run, hp, step]; rfl⟩
    | reset => exact ⟨_, by simp only [run, hp, step]; rfl⟩

/-- Whatever the history of requests, an assigned id differs from all ids in use. A reservation is accepted exactly if the id is not in
use. -/
theorem C86_fresh {rs : List Request} {r : Request} {a : Answer} {h : List (Request × Answer)}
    {s' : UniqueIds} (hr : run empty (r :: rs) = some ((r, a) :: h, s')) :
    (r = .free → ∃ n, a = .got n ∧ n ∉ inUse h) ∧
    ∀ n, r = .insert n → ((a = .inserted ↔ n ∉ inUse h) ∧ (a = .refused ↔ n ∈ inUse h)) := by
  rw [run] at hr
  cases hp : run empty rs with
  | none => rw [hp] at hr; simp at hr
  | some p =>
    rw [hp] at hr
    simp only [Option.bind_eq_bind, Option.bind_some] at hr
    have hi : p.2.ids = inUse p.1 := inUse_ids hp
    refine ⟨fun e => ?_, fun n e => ?_⟩
    · subst e
      rw [step, getFree] at hr
      cases hk : search p.2.ids (p.2.ids.length + 1) p.2.lower with
      | none => rw [hk] at hr; simp at hr
      | some k =>
        rw [hk] at hr
        simp only [Option.map_some, Option.bind_some, Option.some.injEq, Prod.mk.injEq, List.cons.injEq, true_and] at hr
        refine ⟨k, hr.1.1.symm, ?_⟩
        rw [← hr.1.2, ← hi]
        exact (search_spec hk).1
    · subst e
      rw [step, insertId] at hr
      split at hr
      · rename_i hn
        simp only [Option.bind_some, Option.some.injEq, Prod.mk.injEq, List.cons.injEq, true_and] at hr
        rw [← hr.1.1, ← hr.1.2, ← hi]
        simp [hn]
      · rename_i hn
        simp only [Option.bind_some, Option.some.injEq, Prod.mk.injEq, List.cons.injEq, true_and] at hr
        rw [← hr.1.1, ← hr.1.2, ← hi]
        simp [hn]

/-- Hence all ids in use are different from each other after any history. -/
theorem C86_distinct {rs : List Request} {h : List (Request × Answer)} {s' : UniqueIds}
    (hr : run empty rs = some (h, s')) : (inUse h).Nodup := by
  induction rs generalizing h s' with
  | nil => simp only [run, Option.some.injEq, Prod.mk.injEq] at hr; rw [← hr.1]; exact List.nodup_nil
  | cons r rs ih =>
    have hr' := hr
    rw [run] at hr'
    cases hp : run empty rs with
    | none => rw [hp] at hr'; simp at hr'
    | some p =>
      rw [hp] at hr'
      simp only [Option.bind_eq_bind, Option.bind_some] at hr'
      cases hs : p.2.step r with
      | none => rw [hs] at hr'; simp at hr'
      | some q =>
        rw [hs] at hr'
        simp only [Option.bind_some, Option.some.injEq, Prod.mk.injEq] at hr'
        obtain ⟨e1, e2⟩ := hr'
        have hp' := ih hp
        rw [← e1] at hr ⊢
        have hf := C86_fresh hr
        cases r with
        | free =>
          obtain ⟨n, ha, hn⟩ := hf.1 rfl
          rw [ha, inUse]; exact List.nodup_cons.2 ⟨hn, hp'⟩
        | insert n =>
          cases ha : q.1 with
          | inserted => rw [inUse]; exact List.nodup_cons.2 ⟨((hf.2 n rfl).1.1 ha), hp'⟩
          | got k => exact hp'
          | refused => exact hp'
          | cleared => exact hp'
        | reset => exact List.nodup_nil

theorem run_free (k : ℕ) : ∃ h, run empty (List.replicate k .free) = some (h, ⟨(List.range k).reverse, k⟩) ∧
    h.map (·.2) = ((List.range k).map Answer.got).reverse := by
  induction k with
  | zero => exact ⟨[], rfl, rfl⟩
  | succ k ih =>
    obtain ⟨h, hr, ha⟩ := ih
    refine ⟨(.free, .got k) :: h, ?_, ?_⟩
    · rw [List.replicate_succ, run, hr]
      have : search (List.range k).reverse ((List.range k).reverse.length + 1) k = some k := by
        rw [search]; simp
      simp only [Option.bind_eq_bind, Option.bind_some, step, getFree, this, Option.map_some]
      simp [List.range_succ]
    · rw [List.map_cons, ha, List.range_succ]; simp

/-- Without reservations the ids are `0, 1, 2, …` in the order of the requests. -/
theorem C86_consecutive (k : ℕ) : ∃ h s', run empty (List.replicate k .free) = some (h, s') ∧
    (h.map (·.2)).reverse = (List.range k).map Answer.got := by
  obtain ⟨h, hr, ha⟩ := run_free k
  exact ⟨h, _, hr, by rw [ha, List.reverse_reverse]⟩

/-- reserved ids are skipped; after a reset they are handed out again -/
example : (run empty [.free, .reset, .free, .insert 1, .free, .insert 1, .insert 0]).map (·.1.reverse.map (·.2)) =
    some [.inserted, .inserted, .got 2, .refused, .got 3, .cleared, .got 0] := by decide +kernel

end UniqueIds
end Verif
