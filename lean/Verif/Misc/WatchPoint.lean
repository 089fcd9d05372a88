import Verif.Net.Star
import Mathlib.Algebra.Order.Ring.Rat
import Mathlib.Data.Fin.VecNotation

/-!
# Watch points in parallel

Model of `/repo/src/precice/impl/WatchPoint.cpp`: `initialize` 56-89 and the part of `exportPointData` 91-134 and `getValue` 136-163 which decides
who writes what. Rank 0 of `n + 1` ranks is the primary one. Distances and values are rational; `maxDouble` is
`std::numeric_limits<double>::max()`, the initial value of `_shortestDistance` (WatchPoint.hpp:57). The interpolation found by the search in the
mesh (property C49) is an input.
-/

set_option autoImplicit false

namespace Verif
namespace WatchPoint

/-- `mapping::Polation`: distance of the watch point and weighted vertices -/
structure Local where
  distance : ℚ
  elements : List (ℕ × ℚ)

/-- what travels between the ranks: a distance or a flag -/
inductive Msg where
  | distance (d : ℚ)
  | flag (b : Bool)

/-- `_shortestDistance` after WatchPoint.cpp:60-64: only ranks with vertices search -/
def shortest (maxDouble : ℚ) : Option Local → ℚ
  | none => maxDouble
  | some p => p.distance

/-- body of the loop of the primary rank, WatchPoint.cpp:75-81: closest rank and distance so far -/
def compare {n : ℕ} (s : Fin (n + 1) × ℚ) (r : Fin (n + 1)) : Msg → Fin (n + 1) × ℚ
  | .distance d => if d < s.2 then (r, d) else s
  | .flag _ => s

/-- reading a flag -/
def readFlag {n : ℕ} : Msg → Prog (Fin (n + 1)) Msg Bool
  | .flag b => .ret b
  | .distance _ => .ret true

/-- `initialize`, WatchPoint.cpp:56-89; the result is `_isClosest`. In a serial participant (`n = 0`) nothing is communicated and the
initial value `true` (WatchPoint.hpp:59) is kept, as in the code. -/
def start (maxDouble : ℚ) {n : ℕ} (r : Fin (n + 1)) (found : Option Local) : Prog (Fin (n + 1)) Msg Bool :=
  if n = 0 then .ret true
  else if r = 0 then
    gather compare (fun s => scatter (fun r => .flag (decide (s.1 = r))) (.ret (decide (s.1 = 0))) (secondaries n))
      (secondaries n) (0, shortest maxDouble found)
  else .send 0 (.distance (shortest maxDouble found)) (.recv 0 readFlag)

/-- what a rank does in `exportPointData` for one scalar data -/
inductive Written where
  | nothing
  | value (v : ℚ)
  /-- `_interpolation` is a null pointer and dereferenced -/
  | undefined
  deriving DecidableEq

/-- `exportPointData`, WatchPoint.cpp:91-134 with `getValue` 154-163 -/
def exportPoint (isClosest : Bool) (found : Option Local) (sample : ℕ → ℚ) : Written :=
  if ¬ isClosest then .nothing
  else match found with
    | none => .undefined
    | some p => .value (p.elements.foldl (fun v e => v + e.2 * sample e.1) 0)

/-! ## Lemmas -/

/-- the comparison done by the primary rank -/
def best {n : ℕ} (d : Fin (n + 1) → ℚ) : Fin (n + 1) × ℚ :=
  (secondaries n).foldl (fun s r => compare s r (.distance (d r))) (0, d 0)

theorem best_spec {n : ℕ} (d : Fin (n + 1) → ℚ) :
    (∀ r, d (best d).1 ≤ d r) ∧ ∀ r, r < (best d).1 → d (best d).1 < d r := by
  have key : ∀ k, k ≤ n → ∀ s, s = ((secondaries n).take k).foldl (fun s r => compare s r (.distance (d r))) (0, d 0) →
      s.2 = d s.1 ∧ s.1.val ≤ k ∧ (∀ r : Fin (n + 1), r.val ≤ k → d s.1 ≤ d r) ∧ ∀ r, r < s.1 → d s.1 < d r := by
    intro k hk
    induction k with
    | zero =>
      rintro s rfl
      refine ⟨rfl, le_rfl, fun r hr => ?_, fun r hr => ?_⟩
      · obtain rfl : r = 0 := Fin.ext (by simpa using hr)
        exact le_rfl
      · exact absurd hr (Fin.not_lt_zero r)
    | succ k ih =>
      have hl : (secondaries n)[k]? = some (Fin.succ ⟨k, hk⟩) := by
        have hk' : k < n := hk
        simp [secondaries, hk']
      rw [List.take_add_one, List.foldl_append, hl]
      obtain ⟨h1, h2, h3, h4⟩ := ih (by omega) _ rfl
      generalize ((secondaries n).take k).foldl (fun s r => compare s r (.distance (d r))) (0, d 0) = p at h1 h2 h3 h4
      rintro s rfl
      simp only [Option.toList_some, List.foldl_cons, List.foldl_nil, compare]
      by_cases hlt : d (Fin.succ ⟨k, hk⟩) < p.2
      · rw [if_pos hlt]
        rw [h1] at hlt
        refine ⟨rfl, by simp, fun r hr => ?_, fun r hr => ?_⟩
        · by_cases hr' : r.val ≤ k
          · exact hlt.le.trans (h3 r hr')
          · have : r = Fin.succ ⟨k, hk⟩ := Fin.ext (by simp; omega)
            rw [this]
        · have hr' : r.val ≤ k := by
            have : r.val < (Fin.succ (⟨k, hk⟩ : Fin n)).val := hr
            simp at this; omega
          exact hlt.trans_le (h3 r hr')
      · rw [if_neg hlt]
        rw [h1] at hlt
        refine ⟨h1, by omega, fun r hr => ?_, h4⟩
        by_cases hr' : r.val ≤ k
        · exact h3 r hr'
        · have : r = Fin.succ ⟨k, hk⟩ := Fin.ext (by simp; omega)
          rw [this]
          exact le_of_not_gt hlt
  have hall : (secondaries n).take n = secondaries n := List.take_of_length_le (by simp [secondaries])
  obtain ⟨_, _, h3, h4⟩ := key n le_rfl _ rfl
  rw [hall] at h3 h4
  exact ⟨fun r => h3 r (by omega), h4⟩

theorem start_completes (maxDouble : ℚ) {n : ℕ} (found : Fin (n + 1) → Option Local) :
    RNet.AlwaysCompletes (fun r => start maxDouble r (found r))
      fun r => decide ((best fun i => shortest maxDouble (found i)).1 = r) := by
  by_cases hn : n = 0
  · subst hn
    refine RNet.alwaysCompletes_of_steps (.refl _) fun r => ?_
    have h : (best fun i => shortest maxDouble (found i)).1 = r := Fin.ext (by omega)
    simp [start, h]
  · obtain ⟨k, hk⟩ := star_gather (c := (0 : Fin (n + 1))) compare
      (fun s => scatter (fun r => .flag (decide (s.1 = r))) (.ret (decide (s.1 = 0))) (secondaries n))
      (fun r => .distance (shortest maxDouble (found r))) (fun _ => .recv 0 readFlag)
      (secondaries n) (secondaries_nodup n) (zero_notMem_secondaries n) (0, shortest maxDouble (found 0))
      (fun r => start maxDouble r (found r)) (by simp only [start, if_neg hn, if_true]) (by
        intro r hr
        simp only [start, if_neg hn, if_neg ((mem_secondaries r).1 hr)])
    have hb : (secondaries n).foldl (fun s r => compare s r (.distance (shortest maxDouble (found r))))
        (0, shortest maxDouble (found 0)) = best fun i => shortest maxDouble (found i) := rfl
    rw [hb] at hk
    generalize (best fun i => shortest maxDouble (found i)) = s at hk
    obtain ⟨k', hk'⟩ := star_scatter (c := (0 : Fin (n + 1))) (fun r => .flag (decide (s.1 = r))) (.ret (decide (s.1 = 0)))
      (fun _ => readFlag) (secondaries n) (secondaries_nodup n) (zero_notMem_secondaries n)
      (fun i => if i = 0 then scatter (fun r => .flag (decide (s.1 = r))) (.ret (decide (s.1 = 0))) (secondaries n) else
        if i ∈ secondaries n then .recv 0 readFlag else start maxDouble i (found i)) (by simp only [if_true]) (by
        intro r hr
        simp only [if_neg ((mem_secondaries r).1 hr), if_pos hr])
    refine RNet.alwaysCompletes_of_steps (hk.trans hk') fun r => ?_
    by_cases h : r = 0
    · simp only [h, if_true]
    · simp only [h, if_false, if_pos ((mem_secondaries r).2 h), readFlag]

/-! ## Theorems -/

/-- All ranks come back from the selection with every schedule of blocking sends, exactly one rank considers itself closest, no rank is
nearer to the watch point, and among the nearest ones it is the one with the lowest number. -/
theorem C81_one_rank (maxDouble : ℚ) {n : ℕ} (found : Fin (n + 1) → Option Local) :
    ∃ w : Fin (n + 1), RNet.AlwaysCompletes (fun r => start maxDouble r (found r)) (fun r => decide (w = r)) ∧
      (∀ r, shortest maxDouble (found w) ≤ shortest maxDouble (found r)) ∧
      ∀ r, r < w → shortest maxDouble (found w) < shortest maxDouble (found r) :=
  ⟨_, start_completes maxDouble found, best_spec _⟩

/-- If some rank has vertices at a representable distance, exactly one rank writes, the value is interpolated on that rank, and no vertex,
edge, triangle or tetrahedron found by another rank is nearer. -/
theorem C81_written_partial (maxDouble : ℚ) {n : ℕ} (found : Fin (n + 1) → Option Local)
    (hsome : ∃ r p, found r = some p ∧ p.distance < maxDouble) (sample : Fin (n + 1) → ℕ → ℚ) :
    ∃ closest : Fin (n + 1) → Bool, RNet.AlwaysCompletes (fun r => start maxDouble r (found r)) closest ∧
    ∃ w p, found w = some p ∧ (∀ r q, found r = some q → p.distance ≤ q.distance) ∧
      exportPoint (closest w) (found w) (sample w) = .value ((p.elements.map fun e => e.2 * sample w e.1).sum) ∧
      ∀ r, r ≠ w → exportPoint (closest r) (found r) (sample r) = .nothing := by
  obtain ⟨w, hc, hmin, -⟩ := C81_one_rank maxDouble found
  refine ⟨_, hc, w, ?_⟩
  obtain ⟨r, q, hr, hq⟩ := hsome
  have h := hmin r
  rw [hr] at h
  cases hw : found w with
  | none => rw [hw] at h; exact absurd hq (not_lt.2 h)
  | some p =>
    refine ⟨p, rfl, fun r q hr => ?_, ?_, fun r hne => ?_⟩
    · have := hmin r
      rw [hw, hr] at this
      exact this
    · have : ∀ (l : List (ℕ × ℚ)) (a : ℚ), l.foldl (fun v e => v + e.2 * sample w e.1) a =
          a + (l.map fun e => e.2 * sample w e.1).sum := by
        intro l
        induction l with
        | nil => simp
        | cons e l ih => intro a; rw [List.foldl_cons, ih, List.map_cons, List.sum_cons, add_assoc]
      simp only [exportPoint, decide_true, not_true_eq_false, if_false, this, zero_add]
    · simp [exportPoint, hne.symm]

/-- If no rank has vertices of the mesh, rank 0 is selected nevertheless and dereferences a null pointer when it writes. -/
theorem C81_no_vertices_undefined (maxDouble : ℚ) {n : ℕ} (sample : Fin (n + 1) → ℕ → ℚ) :
    ∃ closest : Fin (n + 1) → Bool, RNet.AlwaysCompletes (fun r => start maxDouble r none) closest ∧
      exportPoint (closest 0) none (sample 0) = .undefined := by
  obtain ⟨w, hc, -, hlt⟩ := C81_one_rank maxDouble (n := n) fun _ => none
  have hw : w = 0 := by
    by_contra h
    exact lt_irrefl _ (hlt 0 (Fin.pos_iff_ne_zero.2 h))
  exact ⟨_, hc, by simp [exportPoint, hw]⟩

/-- three ranks; the first has no vertices, the other two are equally near: the second one writes -/
example : ∃ closest : Fin 3 → Bool, RNet.AlwaysCompletes
      (fun r => start 1000 r (![none, some ⟨1, [(0, 1/2), (1, 1/2)]⟩, some ⟨1, [(2, 1)]⟩] r)) closest ∧
      exportPoint (closest 1) (some ⟨1, [(0, 1/2), (1, 1/2)]⟩) (fun i => i) = .value (1/2) ∧
      exportPoint (closest 2) (some ⟨1, [(2, 1)]⟩) (fun i => i) = .nothing := by
  refine ⟨_, start_completes 1000 _, ?_, ?_⟩ <;> decide +kernel

end WatchPoint
end Verif
