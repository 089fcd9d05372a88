import Verif.Waveform.StoreLemmas
import Verif.Waveform.Props

/-!
# Summation action

Model of `performAction` (`/repo/src/action/SummationAction.cpp`:31-48). As in the model of the sample storage, a sample is one number; the action treats all
entries alike. The dimensions of sources and target are compared in the constructor (25-27).
-/

set_option autoImplicit false

namespace Verif
namespace Summation

open Waveform (Spaced)

/-- how an operation ends -/
inductive Outcome (α : Type) where
  | ok (a : α)
  /-- an error message -/
  | rejected
  /-- access out of range or violated assertion -/
  | undefined

/-- sequencing -/
def Outcome.bind {α β : Type} (x : Outcome α) (f : α → Outcome β) : Outcome β :=
  match x with
  | .ok a => f a
  | .rejected => .rejected
  | .undefined => .undefined

/-- SummationAction.cpp:40-45: add up sample `k` of the sources, starting with `v`. `stamples()[k]` is not checked. -/
def sumAt (k : ℕ) (time : ℚ) : List (List (ℚ × ℚ)) → ℚ → Outcome ℚ
  | [], v => .ok v
  | src :: srcs, v =>
    match src[k]? with
    | none => .undefined
    | some s => if equals s.1 time then sumAt k time srcs (v + s.2) else .rejected

/-- `setSampleAtTime` with its assertions -/
def store (t v : ℚ) (w : Waveform) : Outcome Waveform :=
  match w.setSample t v with
  | some w => .ok w
  | none => .undefined

/-- SummationAction.cpp:37-47: the loop over the samples of the reference, from sample `k` on -/
def loop (srcs : List (List (ℚ × ℚ))) : ℕ → List (ℚ × ℚ) → Waveform → Outcome Waveform
  | _, [], w => .ok w
  | k, s :: rest, w => (sumAt k s.1 srcs 0).bind fun v => (store s.1 v w).bind (loop srcs (k + 1) rest)

/-- `performAction`, SummationAction.cpp:31-48. The first source is the reference; the configuration requires at least one. -/
def perform (srcs : List (List (ℚ × ℚ))) (target : Waveform) : Outcome Waveform :=
  match srcs with
  | [] => .undefined
  | ref :: _ => loop srcs 0 ref target

/-! ## Specification -/

/-- sum of the `k`-th values -/
def total (srcs : List (List (ℚ × ℚ))) (k : ℕ) : ℚ := (srcs.map fun src => ((src[k]?).map (·.2)).getD 0).sum

/-- All sources have samples at the times of the first one. -/
def Matching (srcs : List (List (ℚ × ℚ))) (ref : List (ℚ × ℚ)) : Prop :=
  ∀ src ∈ srcs, ∀ (k : ℕ) (s : ℚ × ℚ), ref[k]? = some s → ∃ s' : ℚ × ℚ, src[k]? = some s' ∧ equals s'.1 s.1

/-! ## Lemmas -/

theorem sumAt_ok {k : ℕ} {time : ℚ} {srcs : List (List (ℚ × ℚ))} {v r : ℚ} (h : sumAt k time srcs v = .ok r) :
    r = v + total srcs k ∧ ∀ src ∈ srcs, ∃ s, src[k]? = some s ∧ equals s.1 time := by
  induction srcs generalizing v with
  | nil => cases h; simp [total]
  | cons src srcs ih =>
    rw [sumAt] at h
    cases hs : src[k]? with
    | none => rw [hs] at h; cases h
    | some s =>
      rw [hs] at h
      simp only at h
      split at h
      · rename_i he
        obtain ⟨h1, h2⟩ := ih h
        refine ⟨?_, ?_⟩
        · rw [h1, total, total, List.map_cons, List.sum_cons, hs]; simp [add_assoc]
        · intro x hx
          rcases List.mem_cons.1 hx with rfl | hx
          · exact ⟨s, hs, he⟩
          · exact h2 x hx
      · cases h

theorem sumAt_of {k : ℕ} {time : ℚ} {srcs : List (List (ℚ × ℚ))}
    (h : ∀ src ∈ srcs, ∃ s, src[k]? = some s ∧ equals s.1 time) (v : ℚ) : sumAt k time srcs v = .ok (v + total srcs k) := by
  induction srcs generalizing v with
  | nil => simp [sumAt, total]
  | cons src srcs ih =>
    obtain ⟨s, hs, he⟩ := h src (by simp)
    rw [sumAt, hs]
    simp only [if_pos he]
    rw [ih fun x hx => h x (List.mem_cons_of_mem _ hx), total, total, List.map_cons, List.sum_cons, hs]
    simp [add_assoc]

theorem overwrite_at {t v : ℚ} {l r : List (ℚ × ℚ)} {s : ℚ × ℚ} (hl : ∀ x ∈ l, ¬ equals x.1 t) (hs : equals s.1 t) :
    Waveform.overwrite t v (l ++ s :: r) = l ++ (s.1, v) :: r := by
  induction l with
  | nil => simp [Waveform.overwrite, hs]
  | cons a l ih =>
    rw [List.cons_append, Waveform.overwrite, if_neg (hl a (by simp)), ih fun x hx => hl x (List.mem_cons_of_mem _ hx)]
    rfl

theorem equals_self (t : ℚ) : equals t t := by
  unfold equals
  rw [sub_self, abs_zero]
  exact le_of_lt (by unfold tol; norm_num)

theorem not_equals_of_lt {a b : ℚ} (h : a + tol < b) : ¬ equals a b := by
  unfold equals
  rw [abs_le]
  intro ⟨h', _⟩
  linarith

/-- Writing a sample whose time is the next one of the target. -/
theorem store_overwrite {done rest : List (ℚ × ℚ)} {s : ℚ × ℚ} {v : ℚ} {w : Waveform} (hw : w.samples = done ++ s :: rest)
    (hd : ∀ x ∈ done, x.1 + tol < s.1) :
    store s.1 v w = .ok { w with samples := done ++ (s.1, v) :: rest, cache := none } := by
  have hne : ∀ x ∈ done, ¬ equals x.1 s.1 := fun x hx => not_equals_of_lt (hd x hx)
  have hany : w.samples.any (fun x => decide (equals x.1 s.1)) = true := by
    rw [hw, List.any_eq_true]
    exact ⟨s, by simp, by simpa using equals_self s.1⟩
  have hset : w.setSample s.1 v = some { w with samples := done ++ (s.1, v) :: rest, cache := none } := by
    unfold Waveform.setSample
    split
    · rename_i h0; rw [hw] at h0; simp at h0
    · rename_i first tl h0
      have hf : smallerEquals first.1 s.1 := by
        unfold smallerEquals
        rw [hw] at h0
        have ht : 0 < tol := by unfold tol; norm_num
        cases done with
        | nil => cases h0; linarith
        | cons a l => cases h0; have := hd first (by simp); linarith
      rw [if_pos hf, if_pos hany, hw, overwrite_at hne (equals_self s.1)]
  unfold store
  rw [hset]

/-- Writing a sample later than all samples of the target. -/
theorem store_append {t v : ℚ} {w : Waveform} (hd : ∀ x ∈ w.samples, x.1 + tol < t) :
    store t v w = .ok { w with samples := w.samples ++ [(t, v)], cache := none } := by
  have hset : w.setSample t v = some { w with samples := w.samples ++ [(t, v)], cache := none } := by
    unfold Waveform.setSample
    split
    · rename_i h0; simp [h0]
    · rename_i first tl h0
      have ht : 0 < tol := by unfold tol; norm_num
      have hf : smallerEquals first.1 t := by
        have := hd first (by rw [h0]; simp)
        unfold smallerEquals
        linarith
      have hany : ¬ (w.samples.any (fun x => decide (equals x.1 t)) = true) := by
        rw [List.any_eq_true]
        rintro ⟨x, hx, he⟩
        exact not_equals_of_lt (hd x hx) (by simpa using he)
      have hmax : smaller w.maxStoredTime t := by
        unfold Waveform.maxStoredTime
        split
        · rename_i h1; rw [List.getLast?_eq_none_iff] at h1; rw [h1] at h0; cases h0
        · rename_i s h1
          have := hd s (List.mem_of_getLast? h1)
          unfold smaller
          linarith
      rw [if_pos hf, if_neg hany, if_pos hmax]
  unfold store
  rw [hset]

/-- The loop, from sample `k` on: `done` has been written, `old` are the remaining old samples of the target, whose times are a prefix of the
times still to be written, or the other way round. -/
theorem loop_spec {srcs : List (List (ℚ × ℚ))} (rest : List (ℚ × ℚ)) :
    ∀ (k : ℕ) (done old : List (ℚ × ℚ)) (w : Waveform), w.samples = done ++ old → Spaced (done ++ rest) →
    (∀ i s, rest[i]? = some s → ∀ src ∈ srcs, ∃ s', src[k + i]? = some s' ∧ equals s'.1 s.1) →
    (old.map (·.1) <+: rest.map (·.1)) →
    ∃ w', loop srcs k rest w = .ok w' ∧ w'.degree = w.degree ∧
      w'.samples = done ++ rest.mapIdx fun i s => (s.1, total srcs (k + i)) := by
  induction rest with
  | nil =>
    intro k done old w hw _ _ hp
    have : old = [] := by simpa using hp
    exact ⟨w, rfl, rfl, by rw [hw, this]; simp⟩
  | cons s rest ih =>
    intro k done old w hw hsp hm hp
    have hd : ∀ x ∈ done, x.1 + tol < s.1 := by
      intro x hx
      exact (List.pairwise_append.1 hsp).2.2 x hx s (by simp)
    have hsum : sumAt k s.1 srcs 0 = .ok (total srcs k) := by
      rw [sumAt_of (k := k) (hm 0 s rfl) 0, zero_add]
    have hsp' : Spaced ((done ++ [(s.1, total srcs k)]) ++ rest) := by
      refine Waveform.Spaced.of_fst hsp ?_
      simp
    have hm' : ∀ i s', rest[i]? = some s' → ∀ src ∈ srcs, ∃ s'', src[k + 1 + i]? = some s'' ∧ equals s''.1 s'.1 := by
      intro i s' hi src hsrc
      have := hm (i + 1) s' (by simpa using hi) src hsrc
      rwa [show k + 1 + i = k + (i + 1) by omega]
    have hfin : ∀ w1 : Waveform, ∀ w' : Waveform, w1.degree = w.degree →
        (w'.degree = w1.degree ∧ w'.samples = (done ++ [(s.1, total srcs k)]) ++ rest.mapIdx fun i s => (s.1, total srcs (k + 1 + i))) →
        w'.degree = w.degree ∧ w'.samples = done ++ (s :: rest).mapIdx fun i s => (s.1, total srcs (k + i)) := by
      intro w1 w' e1 ⟨e2, e3⟩
      refine ⟨e2.trans e1, ?_⟩
      rw [e3, List.mapIdx_cons, List.append_assoc]
      simp only [List.singleton_append, Nat.add_zero]
      congr 3
      funext i x
      rw [show k + 1 + i = k + (i + 1) by omega]
    cases old with
    | nil =>
      have hst := store_append (t := s.1) (v := total srcs k) (w := w) (by rw [hw]; simpa using hd)
      obtain ⟨w', h1, h2, h3⟩ := ih (k + 1) (done ++ [(s.1, total srcs k)]) []
        { w with samples := w.samples ++ [(s.1, total srcs k)], cache := none } (by simp [hw]) hsp' hm' (by simp)
      refine ⟨w', ?_, hfin _ w' rfl ⟨h2, h3⟩⟩
      rw [loop, hsum]
      simp only [Outcome.bind, hst]
      exact h1
    | cons o old =>
      rw [List.map_cons, List.map_cons, List.cons_prefix_cons] at hp
      have ho : o = (s.1, o.2) := by rw [← hp.1]
      have hst := store_overwrite (s := o) (v := total srcs k) hw (by rw [hp.1]; exact hd)
      rw [hp.1] at hst
      obtain ⟨w', h1, h2, h3⟩ := ih (k + 1) (done ++ [(s.1, total srcs k)]) old
        { w with samples := done ++ (s.1, total srcs k) :: old, cache := none } (by simp) hsp' hm' hp.2
      refine ⟨w', ?_, hfin _ w' rfl ⟨h2, h3⟩⟩
      rw [loop, hsum]
      simp only [Outcome.bind, hst]
      exact h1

theorem loop_ok {srcs : List (List (ℚ × ℚ))} (rest : List (ℚ × ℚ)) :
    ∀ (k : ℕ) (w w' : Waveform), loop srcs k rest w = .ok w' →
    ∀ i s, rest[i]? = some s → ∀ src ∈ srcs, ∃ s', src[k + i]? = some s' ∧ equals s'.1 s.1 := by
  induction rest with
  | nil => intro k w w' _ i s hi; simp at hi
  | cons s rest ih =>
    intro k w w' h i x hi src hsrc
    rw [loop] at h
    cases hs : sumAt k s.1 srcs 0 with
    | rejected => rw [hs] at h; cases h
    | undefined => rw [hs] at h; cases h
    | ok v =>
      rw [hs] at h
      simp only [Outcome.bind] at h
      cases hst : store s.1 v w with
      | rejected => rw [hst] at h; cases h
      | undefined => rw [hst] at h; cases h
      | ok w1 =>
        rw [hst] at h
        cases i with
        | zero => cases hi; exact (sumAt_ok hs).2 src hsrc
        | succ i =>
          have := ih (k + 1) w1 w' h i x (by simpa using hi) src hsrc
          rwa [show k + 1 + i = k + (i + 1) by omega] at this

/-! ## Theorems -/

/-- If all sources have samples at the times of the first one (up to the tolerance) and the target holds nothing or samples at the first of these times, the
target holds afterwards exactly one sample per time, which is the sum of the samples of all sources. -/
theorem C83_sum {ref : List (ℚ × ℚ)} {srcs : List (List (ℚ × ℚ))} {target : Waveform}
    (href : Spaced ref) (hm : Matching (ref :: srcs) ref) (ht : target.samples.map (·.1) <+: ref.map (·.1)) :
    ∃ w', perform (ref :: srcs) target = .ok w' ∧ w'.degree = target.degree ∧
      w'.samples = ref.mapIdx fun k s => (s.1, ((ref :: srcs).map fun src => ((src[k]?).map (·.2)).getD 0).sum) := by
  obtain ⟨w', h1, h2, h3⟩ := loop_spec (srcs := ref :: srcs) ref 0 [] target.samples target (by simp) (by simpa using href)
    (by intro i s hi src hsrc; simpa using hm src hsrc i s hi) ht
  refine ⟨w', h1, h2, ?_⟩
  rw [h3]
  simp only [List.nil_append, Nat.zero_add]
  rfl

/-- Reading the target at the time of a sample gives the sum of the samples of the sources. -/
theorem C83_read {ref : List (ℚ × ℚ)} {srcs : List (List (ℚ × ℚ))} {target : Waveform}
    (href : Spaced ref) (hm : Matching (ref :: srcs) ref) (ht : target.samples.map (·.1) <+: ref.map (·.1)) :
    ∃ w', perform (ref :: srcs) target = .ok w' ∧ ∀ (k : ℕ) (s : ℚ × ℚ), ref[k]? = some s →
      Waveform.findStored s.1 w'.samples = some ((ref :: srcs).map fun src => ((src[k]?).map (·.2)).getD 0).sum := by
  obtain ⟨w', h1, -, h3⟩ := C83_sum href hm ht
  refine ⟨w', h1, fun k s hk => ?_⟩
  have hsp : Spaced w'.samples := by
    refine Waveform.Spaced.of_fst href ?_
    rw [h3]
    refine List.ext_getElem? fun i => ?_
    simp only [List.getElem?_map, List.getElem?_mapIdx, Option.map_map]
    rfl
  have hmem : (s.1, ((ref :: srcs).map fun src => ((src[k]?).map (·.2)).getD 0).sum) ∈ w'.samples := by
    rw [h3, List.mem_mapIdx]
    obtain ⟨hk', e⟩ := List.getElem?_eq_some_iff.1 hk
    exact ⟨k, hk', by rw [e]⟩
  exact Waveform.findStored_of_mem hsp hmem

/-- Sample times which do not match are never accepted: if the action succeeds, every source has a sample at every time of the first source,
at the same position. -/
theorem C83_mismatch_rejected {ref : List (ℚ × ℚ)} {srcs : List (List (ℚ × ℚ))} {target w' : Waveform}
    (h : perform (ref :: srcs) target = .ok w') : Matching (ref :: srcs) ref := by
  intro src hsrc k s hk
  have := loop_ok ref 0 target w' h k s hk src hsrc
  simpa using this

/-- A source with fewer samples than the first one is read out of range, there is no error message. -/
theorem C83_fewer_undefined (w : Waveform) (hw : w.samples = []) :
    perform [[(0, 1), (1, 2)], [(0, 10)]] w = .undefined := by
  have h := store_append (t := 0) (v := 11) (w := w) (by simp [hw])
  have e : equals (0 : ℚ) 0 := equals_self 0
  norm_num [perform, loop, sumAt, Outcome.bind, e, equals_self 1, h]

/-- Samples of other sources beyond those of the first one are ignored without an error message, although the sample times do not agree. -/
theorem C83_more_ignored (w : Waveform) (hw : w.samples = []) :
    ∃ w', perform [[(0, 1)], [(0, 10), (1, 20)]] w = .ok w' ∧ w'.samples = [(0, 11)] := by
  have h := store_append (t := 0) (v := 11) (w := w) (by simp [hw])
  have e : equals (0 : ℚ) 0 := equals_self 0
  refine ⟨{ w with samples := w.samples ++ [(0, 11)], cache := none }, ?_, by simp [hw]⟩
  norm_num [perform, loop, sumAt, Outcome.bind, e, h]

/-- two sources with two samples; the target has an old sample at the first time -/
example : ∃ w', perform [[(0, 1), (1, 2)], [(0, 10), (1, 20)]] ⟨[(0, 7)], 1, none⟩ = .ok w' ∧ w'.degree = 1 ∧
    w'.samples = [(0, 11), (1, 22)] := by
  have h := C83_sum (ref := [(0, 1), (1, 2)]) (srcs := [[(0, 10), (1, 20)]]) (target := ⟨[(0, 7)], 1, none⟩)
    (by unfold Spaced; norm_num [tol]) (by
      intro src hsrc k s hk
      have hs : src = [(0, 1), (1, 2)] ∨ src = [(0, 10), (1, 20)] := by simpa using hsrc
      have hk2 : k < 2 := (List.getElem?_eq_some_iff.1 hk).1
      have : k = 0 ∨ k = 1 := by omega
      rcases hs with rfl | rfl <;> rcases this with rfl | rfl <;> cases hk <;> exact ⟨_, rfl, equals_self _⟩)
    (by simp)
  norm_num [List.mapIdx_cons] at h
  exact h

end Summation
end Verif
