import Verif.Net.Star
import Mathlib.Algebra.BigOperators.Fin
import Mathlib.Algebra.Order.BigOperators.Group.Finset
import Mathlib.Data.Fin.VecNotation
import Mathlib.Tactic.Linarith

/-!
# Global vertex ids of provided meshes (C57)

Model of `ProvidedPartition::prepare` (`/repo/src/partition/ProvidedPartition.cpp:117-230`). All communicated values are lists of numbers;
the broadcast of a vector (size and items) is one message.
-/

set_option autoImplicit false

namespace Verif.Dist

/-- What a rank knows about the mesh after `prepare`: global indices of its vertices by local id, global number of vertices, vertex
offsets; and the vertex distribution, on the primary rank (and for a serial participant). -/
structure Prepared where
  ids : List ℕ
  total : ℕ
  offsets : List ℕ
  distribution : ℕ → List ℕ

/-- `std::iota`-like range of indices. -/
def idsFrom (first count : ℕ) : List ℕ := (List.range count).map (first + ·)

/-- The vertex distribution computed from the offsets, ProvidedPartition.cpp:166-184. -/
def distributionOf (offsets : List ℕ) (rank : ℕ) : List ℕ :=
  if rank = 0 then List.range (offsets[0]?.getD 0)
  else idsFrom (offsets[rank - 1]?.getD 0) (offsets[rank]?.getD 0 - offsets[rank - 1]?.getD 0)

/-- The loop of the primary rank over the secondary ranks, ProvidedPartition.cpp:144-150; state: offsets and global number so far. -/
def primaryLoop {n : ℕ} (K : List ℕ × ℕ → Prog (Fin (n + 1)) (List ℕ) Prepared) :
    List (Fin (n + 1)) → List ℕ × ℕ → Prog (Fin (n + 1)) (List ℕ) Prepared
  | [], s => K s
  | r :: l, s => .recv r fun m =>
      let number := m.headD 0
      .send r [s.2] (primaryLoop K l (s.1 ++ [number + s.1.getLastD 0], s.2 + number))

/-- `prepare` with `count` vertices on this rank. The final assertion is that there is a vertex at all. -/
def prepare {n : ℕ} (r : Fin (n + 1)) (count : ℕ) : Prog (Fin (n + 1)) (List ℕ) Prepared :=
  if r = 0 then
    primaryLoop (fun s =>
      scatter (fun _ => [s.2]) (scatter (fun _ => s.1)
        (Prog.ensure .assert (0 < s.2) (.ret ⟨List.range count, s.2, s.1, distributionOf s.1⟩)) (secondaries n)) (secondaries n))
      (secondaries n) ([count], count)
  else
    .send 0 [count] (.recv 0 fun m =>
      let ids := idsFrom (m.headD 0) count
      .recv 0 fun g => .recv 0 fun o => Prog.ensure .assert (0 < g.headD 0) (.ret ⟨ids, g.headD 0, o, fun _ => []⟩))

/-! ## Specification -/

/-- Number of vertices on the ranks before `r`. -/
def before {n : ℕ} (count : Fin n → ℕ) (r : ℕ) : ℕ := ∑ i : Fin n, if i.val < r then count i else 0

theorem before_zero {n : ℕ} (count : Fin n → ℕ) : before count 0 = 0 := by simp [before]

theorem before_succ {n : ℕ} (count : Fin n → ℕ) (r : Fin n) : before count (r.val + 1) = before count r.val + count r := by
  unfold before
  have : ∀ i : Fin n, (if i.val < r.val + 1 then count i else 0) = (if i.val < r.val then count i else 0) + if i = r then count i else 0 := by
    intro i
    by_cases h1 : i = r
    · subst h1; simp
    · have : i.val ≠ r.val := fun e => h1 (Fin.ext e)
      by_cases h2 : i.val < r.val
      · rw [if_pos (by omega), if_pos h2, if_neg h1, add_zero]
      · rw [if_neg (by omega), if_neg h2, if_neg h1]
  rw [Finset.sum_congr rfl fun i _ => this i, Finset.sum_add_distrib, Finset.sum_ite_eq' Finset.univ r]
  simp

theorem before_all {n : ℕ} (count : Fin n → ℕ) : before count n = ∑ i, count i := by
  unfold before
  exact Finset.sum_congr rfl fun i _ => if_pos i.isLt

theorem before_mono {n : ℕ} (count : Fin n → ℕ) {a b : ℕ} (h : a ≤ b) : before count a ≤ before count b := by
  unfold before
  refine Finset.sum_le_sum fun i _ => ?_
  split
  · rw [if_pos (by omega)]
  · exact Nat.zero_le _

/-- The state of the primary rank after the first `k` ranks. -/
def offsetsOf {n : ℕ} (count : Fin n → ℕ) (k : ℕ) : List ℕ := (List.range k).map fun i => before count (i + 1)

theorem offsets_get {n : ℕ} (count : Fin n → ℕ) {k i : ℕ} (h : i < k) : (offsetsOf count k)[i]? = some (before count (i + 1)) := by
  unfold offsetsOf
  rw [List.getElem?_map, List.getElem?_range h]
  rfl

theorem offsets_last {n : ℕ} (count : Fin n → ℕ) (k : ℕ) : (offsetsOf count (k + 1)).getLastD 0 = before count (k + 1) := by
  unfold offsetsOf
  rw [List.range_succ, List.map_append, List.map_singleton, List.getLastD_concat]

/-- What one iteration of the loop does with the state. -/
def nextState {n : ℕ} (count : Fin (n + 1) → ℕ) (s : List ℕ × ℕ) (r : Fin (n + 1)) : List ℕ × ℕ :=
  (s.1 ++ [count r + s.1.getLastD 0], s.2 + count r)

theorem finRange_take_succ {n : ℕ} {k : ℕ} (hk : k < n) :
    ((secondaries n).take (k + 1)) = (secondaries n).take k ++ [⟨k + 1, by omega⟩] := by
  unfold secondaries
  rw [List.take_add_one, List.getElem?_map, List.getElem?_eq_getElem (by simpa using hk)]
  simp

theorem fold_state {n : ℕ} (count : Fin (n + 1) → ℕ) {k : ℕ} (hk : k ≤ n) :
    ((secondaries n).take k).foldl (nextState count) ([count 0], count 0) = (offsetsOf count (k + 1), before count (k + 1)) := by
  induction k with
  | zero =>
    have h0 : before count (0 + 1) = count 0 := by
      have := before_succ count 0
      simpa [before_zero] using this
    simp [offsetsOf, h0]
  | succ k ih =>
    rw [finRange_take_succ (by omega), List.foldl_append, ih (by omega), List.foldl_cons, List.foldl_nil]
    unfold nextState
    have hb := before_succ count ⟨k + 1, by omega⟩
    simp only at hb
    rw [offsets_last]
    simp only [Prod.mk.injEq]
    refine ⟨?_, by omega⟩
    conv_rhs => unfold offsetsOf
    rw [List.range_succ, List.map_append, List.map_singleton]
    congr 2
    omega

theorem visit_state {n : ℕ} (count : Fin (n + 1) → ℕ) (r : Fin (n + 1)) (hr : r ≠ 0) :
    (visit (nextState count) ([count 0], count 0) (secondaries n) r).2 = before count r.val := by
  have hrv : r.val ≠ 0 := fun e => hr (Fin.ext e)
  have : (secondaries n).takeWhile (· ≠ r) = (secondaries n).take (r.val - 1) := by
    have hlen : (secondaries n).length = n := by simp [secondaries]
    have hget : ∀ i (h : i < (secondaries n).length), (secondaries n)[i] = ⟨i + 1, by omega⟩ := by
      intro i h
      simp [secondaries]
    have hsplit : secondaries n = (secondaries n).take (r.val - 1) ++ r :: (secondaries n).drop r.val := by
      conv_lhs => rw [← List.take_append_drop (r.val - 1) (secondaries n)]
      congr 1
      rw [List.drop_eq_getElem_cons (by omega), hget]
      congr 1
      · exact Fin.ext (by simp; omega)
      · congr 1; omega
    conv_lhs => rw [hsplit]
    rw [List.takeWhile_append_of_pos]
    · simp
    · intro a ha
      simp only [ne_eq, decide_not, Bool.not_eq_eq_eq_not, Bool.not_true, decide_eq_false_iff_not]
      rintro rfl
      have hnd := secondaries_nodup n
      rw [hsplit] at hnd
      exact (List.disjoint_of_nodup_append hnd) ha (by simp)
  unfold visit
  rw [this, fold_state count (by omega)]
  simp only
  congr 1
  omega

/-- What the ranks end up with. -/
def prepared {n : ℕ} (count : Fin (n + 1) → ℕ) (r : Fin (n + 1)) : Prepared :=
  ⟨idsFrom (before count r.val) (count r), ∑ i, count i, offsetsOf count (n + 1),
    if r = 0 then distributionOf (offsetsOf count (n + 1)) else fun _ => []⟩

theorem prepare_completes {n : ℕ} (count : Fin (n + 1) → ℕ) (hpos : 0 < ∑ i, count i) :
    RNet.AlwaysCompletes (fun r => prepare r (count r)) (prepared count) := by
  set final : Prog (Fin (n + 1)) (List ℕ) Prepared :=
    Prog.ensure .assert (0 < ∑ i, count i) (.ret ⟨List.range (count 0), ∑ i, count i, offsetsOf count (n + 1), distributionOf (offsetsOf count (n + 1))⟩)
  have hstate : (secondaries n).foldl (nextState count) ([count 0], count 0) = (offsetsOf count (n + 1), ∑ i, count i) := by
    have := fold_state count (le_refl n)
    rw [List.take_of_length_le (by simp [secondaries]), before_all] at this
    exact this
  set tail2 : Fin (n + 1) → Prog (Fin (n + 1)) (List ℕ) Prepared := fun r => .recv 0 fun o =>
    Prog.ensure .assert (0 < ∑ i, count i) (.ret ⟨idsFrom (before count r.val) (count r), ∑ i, count i, o, fun _ => []⟩)
  set tail1 : Fin (n + 1) → Prog (Fin (n + 1)) (List ℕ) Prepared := fun r => .recv 0 fun g => .recv 0 fun o =>
    Prog.ensure .assert (0 < g.headD 0) (.ret ⟨idsFrom (before count r.val) (count r), g.headD 0, o, fun _ => []⟩)
  obtain ⟨k1, hk1⟩ := star_loop (c := (0 : Fin (n + 1))) (nextState count)
    (primaryLoop (fun s => scatter (fun _ => [s.2]) (scatter (fun _ => s.1)
        (Prog.ensure .assert (0 < s.2) (.ret ⟨List.range (count 0), s.2, s.1, distributionOf s.1⟩)) (secondaries n)) (secondaries n)))
    (fun r => .send 0 [count r] (.recv 0 fun m => .recv 0 fun g => .recv 0 fun o =>
      Prog.ensure .assert (0 < g.headD 0) (.ret ⟨idsFrom (m.headD 0) (count r), g.headD 0, o, fun _ => []⟩)))
    (fun r s => .recv 0 fun g => .recv 0 fun o =>
      Prog.ensure .assert (0 < g.headD 0) (.ret ⟨idsFrom s.2 (count r), g.headD 0, o, fun _ => []⟩))
    (fun r l s => .bwd (.fwd (.refl _ _)))
    (secondaries n) (secondaries_nodup n) (zero_notMem_secondaries n) ([count 0], count 0) (fun r => prepare r (count r)) rfl (by
      intro r hr
      simp only [prepare, if_neg ((mem_secondaries r).1 hr)])
  rw [hstate] at hk1
  have e1 : (fun i : Fin (n + 1) => if i = 0 then
        primaryLoop (fun s => scatter (fun _ => [s.2]) (scatter (fun _ => s.1)
          (Prog.ensure .assert (0 < s.2) (.ret ⟨List.range (count 0), s.2, s.1, distributionOf s.1⟩)) (secondaries n)) (secondaries n)) []
          (offsetsOf count (n + 1), ∑ i, count i)
      else if i ∈ secondaries n then
        .recv 0 fun g => .recv 0 fun o => Prog.ensure .assert (0 < g.headD 0) (.ret ⟨idsFrom
          (visit (nextState count) ([count 0], count 0) (secondaries n) i).2 (count i), g.headD 0, o, fun _ => []⟩)
      else prepare i (count i)) =
      fun i => if i = 0 then scatter (fun _ => [∑ i, count i]) (scatter (fun _ => offsetsOf count (n + 1)) final (secondaries n)) (secondaries n)
        else tail1 i := by
    funext i
    by_cases h : i = 0
    · simp only [h, if_true]
      rfl
    · simp only [h, if_false, if_pos ((mem_secondaries i).2 h), visit_state count i h]
      rfl
  rw [e1] at hk1
  obtain ⟨k2, hk2⟩ := star_scatter (c := (0 : Fin (n + 1))) (fun _ => [∑ i, count i])
    (scatter (fun _ => offsetsOf count (n + 1)) final (secondaries n))
    (fun r g => .recv 0 fun o => Prog.ensure .assert (0 < g.headD 0) (.ret ⟨idsFrom (before count r.val) (count r), g.headD 0, o, fun _ => []⟩))
    (secondaries n) (secondaries_nodup n) (zero_notMem_secondaries n)
    (fun i => if i = 0 then scatter (fun _ => [∑ i, count i]) (scatter (fun _ => offsetsOf count (n + 1)) final (secondaries n)) (secondaries n)
        else tail1 i) (by simp only [if_true]) (by
      intro r hr
      simp only [if_neg ((mem_secondaries r).1 hr)]
      rfl)
  have e2 : (fun i : Fin (n + 1) => if i = 0 then scatter (fun _ => offsetsOf count (n + 1)) final (secondaries n)
      else if i ∈ secondaries n then
        .recv 0 fun o => Prog.ensure .assert (0 < [∑ i, count i].headD 0)
          (.ret ⟨idsFrom (before count i.val) (count i), [∑ i, count i].headD 0, o, fun _ => []⟩)
      else (if i = 0 then scatter (fun _ => [∑ i, count i]) (scatter (fun _ => offsetsOf count (n + 1)) final (secondaries n)) (secondaries n)
        else tail1 i)) = fun i => if i = 0 then scatter (fun _ => offsetsOf count (n + 1)) final (secondaries n) else tail2 i := by
    funext i
    by_cases h : i = 0
    · simp only [h, if_true]
    · simp only [h, if_false, if_pos ((mem_secondaries i).2 h)]
      rfl
  rw [e2] at hk2
  obtain ⟨k3, hk3⟩ := star_scatter (c := (0 : Fin (n + 1))) (fun _ => offsetsOf count (n + 1)) final
    (fun r o => Prog.ensure .assert (0 < ∑ i, count i) (.ret ⟨idsFrom (before count r.val) (count r), ∑ i, count i, o, fun _ => []⟩))
    (secondaries n) (secondaries_nodup n) (zero_notMem_secondaries n)
    (fun i => if i = 0 then scatter (fun _ => offsetsOf count (n + 1)) final (secondaries n) else tail2 i) (by simp only [if_true]) (by
      intro r hr
      simp only [if_neg ((mem_secondaries r).1 hr)]
      rfl)
  refine RNet.alwaysCompletes_of_steps ((hk1.trans hk2).trans hk3) fun r => ?_
  by_cases h : r = 0
  · subst h
    simp only [if_true, final, Prog.ensure, if_pos hpos, prepared]
    simp [idsFrom, before_zero]
  · simp only [h, if_false, if_pos ((mem_secondaries r).2 h), Prog.ensure, if_pos hpos, prepared]

/-- Global ids are a numbering `0..N-1` of all vertices of all ranks: every rank has one id per vertex, ids are unique over all ranks and
positions, below the global number of vertices, every number is used, and ids increase with the rank. -/
structure Numbering {n : ℕ} (count : Fin (n + 1) → ℕ) (res : Fin (n + 1) → Prepared) : Prop where
  length : ∀ r, (res r).ids.length = count r
  total : ∀ r, (res r).total = ∑ i, count i
  range : ∀ r, ∀ g ∈ (res r).ids, g < ∑ i, count i
  nodup : ∀ r, (res r).ids.Nodup
  disjoint : ∀ r s, r < s → ∀ g ∈ (res r).ids, ∀ g' ∈ (res s).ids, g < g'
  all : ∀ g < ∑ i, count i, ∃ r, g ∈ (res r).ids
  offsets : ∀ r s : Fin (n + 1), (res r).offsets[s.val]? = some (∑ i, if i ≤ s then count i else 0)
  offsets_length : ∀ r, (res r).offsets.length = n + 1
  distribution : ∀ r : Fin (n + 1), (res 0).distribution r.val = (res r).ids

theorem mem_idsFrom {a c g : ℕ} : g ∈ idsFrom a c ↔ a ≤ g ∧ g < a + c := by
  unfold idsFrom
  rw [List.mem_map]
  constructor
  · rintro ⟨i, hi, rfl⟩
    have := List.mem_range.1 hi
    omega
  · rintro ⟨h1, h2⟩
    exact ⟨g - a, List.mem_range.2 (by omega), by omega⟩

theorem exists_block {n : ℕ} (count : Fin n → ℕ) (g : ℕ) : ∀ k, k ≤ n → g < before count k →
    ∃ r : Fin n, before count r.val ≤ g ∧ g < before count r.val + count r := by
  intro k
  induction k with
  | zero => intro _ h; rw [before_zero] at h; omega
  | succ k ih =>
    intro hk h
    by_cases h' : g < before count k
    · exact ih (by omega) h'
    · have := before_succ count ⟨k, by omega⟩
      simp only at this
      exact ⟨⟨k, by omega⟩, by simp only; omega, by simp only; omega⟩

/-- After a provided mesh was prepared, its vertices are numbered globally, for any numbers of ranks and vertices, also with empty ranks;
no schedule of the communication gets stuck. -/
theorem C57_global_ids {n : ℕ} (count : Fin (n + 1) → ℕ) (hpos : 0 < ∑ i, count i) :
    ∃ res, RNet.AlwaysCompletes (fun r => prepare r (count r)) res ∧ Numbering count res := by
  refine ⟨prepared count, prepare_completes count hpos, ?_⟩
  have hids : ∀ r g, g ∈ (prepared count r).ids ↔ before count r.val ≤ g ∧ g < before count r.val + count r := fun r g => mem_idsFrom
  have hle : ∀ r : Fin (n + 1), before count r.val + count r ≤ ∑ i, count i := by
    intro r
    rw [← before_succ, ← before_all]
    exact before_mono count r.isLt
  refine ⟨?_, fun _ => rfl, ?_, ?_, ?_, ?_, ?_, ?_, ?_⟩
  · intro r
    simp [prepared, idsFrom]
  · intro r g hg
    exact lt_of_lt_of_le ((hids r g).1 hg).2 (hle r)
  · intro r
    exact (List.nodup_range).map (fun a b h => Nat.add_left_cancel h)
  · intro r s hrs g hg g' hg'
    have h1 := ((hids r g).1 hg).2
    have h2 := ((hids s g').1 hg').1
    rw [← before_succ] at h1
    have := before_mono count (a := r.val + 1) (b := s.val) hrs
    omega
  · intro g hg
    rw [← before_all] at hg
    obtain ⟨r, h1, h2⟩ := exists_block count g (n + 1) (le_refl _) hg
    exact ⟨r, (hids r g).2 ⟨h1, h2⟩⟩
  · intro r s
    change (offsetsOf count (n + 1))[s.val]? = _
    rw [offsets_get count s.isLt]
    congr 1
    unfold before
    refine Finset.sum_congr rfl fun i _ => ?_
    have : i.val < s.val + 1 ↔ i ≤ s := by rw [Fin.le_def]; omega
    simp only [this]
  · intro r
    simp [prepared, offsetsOf]
  · intro r
    change distributionOf (offsetsOf count (n + 1)) r.val = idsFrom (before count r.val) (count r)
    unfold distributionOf
    have hr := offsets_get count r.isLt
    rw [hr]
    have hs := before_succ count r
    by_cases h : r.val = 0
    · rw [if_pos h, ← h, hr, h, before_zero]
      rw [h, before_zero] at hs
      simp [idsFrom, hs]
    · rw [if_neg h, offsets_get count (by omega : r.val - 1 < n + 1)]
      rw [Nat.sub_add_cancel (by omega)]
      simp only [Option.getD_some]
      congr 1
      omega

/-- Without any vertex, an assertion fails on all ranks. -/
example : prepare (n := 0) 0 0 = .fail .assert := by
  simp [prepare, primaryLoop, secondaries, scatter, Prog.ensure]

example : (prepared ![2, 0, 3] 2).ids = [2, 3, 4] ∧ (prepared ![2, 0, 3] 1).offsets = [2, 2, 5] := by decide

end Verif.Dist
