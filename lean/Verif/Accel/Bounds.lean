import Mathlib.Data.Rat.Defs
import Mathlib.Algebra.Order.Field.Basic
import Mathlib.Algebra.Order.Ring.Rat
import Mathlib.Tactic.Ring
import Mathlib.Tactic.FieldSimp
import Mathlib.Tactic.Linarith
import Mathlib.Tactic.NormNum

/-!
# Bounds of data in the quasi-Newton methods (C76)

Model of the bound handling in `/repo/src/acceleration/BaseQNAcceleration.cpp`. The data of all ranks are given; numbers are exact.
-/

set_option autoImplicit false

namespace Verif.Accel

/-! ## Model -/

/-- One coupling data on one rank: number of components, number of values of one time step (`values().size()`), number of time steps on the time grid, bounds per component. The three vectors of
bounds are the ones of DataConfiguration.cpp:107-154; missing entries are unbounded. -/
structure BoundedData where
  dim : ℕ
  size : ℕ
  steps : ℕ
  lower : List (Option ℚ)
  upper : List (Option ℚ)

/-- The bounds of the value at position `i` of a time step; components are stored per vertex. -/
def BoundedData.lo (d : BoundedData) (i : ℕ) : Option ℚ := d.lower.getD (i % d.dim) none

@[inherit_doc BoundedData.lo]
def BoundedData.hi (d : BoundedData) (i : ℕ) : Option ℚ := d.upper.getD (i % d.dim) none

/-- `_idsWithBounds`, BaseQNAcceleration.cpp:104-109 -/
def BoundedData.hasBounds (d : BoundedData) : Bool := d.lower.any Option.isSome || d.upper.any Option.isSome

/-- the comparison with a bound -/
def belowBound (l : Option ℚ) (x : ℚ) : Bool := l.any fun b => decide (x < b)

@[inherit_doc belowBound]
def aboveBound (u : Option ℚ) (x : ℚ) : Bool := u.any fun b => decide (x > b)

/-- Some value violates its bound, BaseQNAcceleration.cpp:136-142; the loop over components is written as one over the values. -/
def BoundedData.violated (d : BoundedData) (xs : List ℚ) : Bool := xs.zipIdx.any fun p => belowBound (d.lo p.2) p.1 || aboveBound (d.hi p.2) p.1

/-- `segment(offset, size)` -/
def seg {α : Type} (xs : List α) (offset size : ℕ) : List α := (xs.drop offset).take size

/-- `checkBoundViolation`, BaseQNAcceleration.cpp:117-149: one flag per data. The offset grows by the size of one time step. -/
def checkBounds (xs : List ℚ) : List BoundedData → ℕ → List Bool
  | [], _ => []
  | d :: ds, offset => (d.hasBounds && d.violated (seg xs offset d.size)) :: checkBounds xs ds (offset + d.size)

/-- one value of `clampToBounds`, BaseQNAcceleration.cpp:225-235: first the lower, then the upper bound. -/
def clampValue (l u : Option ℚ) (x : ℚ) : ℚ :=
  let x := match l with
    | some b => max x b
    | none => x
  match u with
    | some b => min x b
    | none => x

/-- `onBoundViolationsClamp`, BaseQNAcceleration.cpp:151-177 -/
def clampBounds : List (BoundedData × Bool) → ℕ → List ℚ → List ℚ
  | [], _, xs => xs
  | (d, v) :: ds, offset, xs =>
    clampBounds ds (offset + d.size) (if v then xs.mapIdx fun i x => if offset ≤ i ∧ i < offset + d.size then clampValue (d.lo (i - offset)) (d.hi (i - offset)) x else x else xs)

/-- The factors of one value, BaseQNAcceleration.cpp:241-254 -/
def shortening (l u : Option ℚ) (x upd : ℚ) : ℚ :=
  let a := match l with
    | some b => if -|upd| ≠ 0 then (x - b) / -|upd| else 0
    | none => 0
  let b := match u with
    | some b => if |upd| ≠ 0 then (x - b) / |upd| else 0
    | none => 0
  max a b

/-- `computeShorteningFactor`, BaseQNAcceleration.cpp:237-258 -/
def BoundedData.factor (d : BoundedData) (xs us : List ℚ) : ℚ := ((xs.zip us).zipIdx.map fun p => shortening (d.lo p.2) (d.hi p.2) p.1.1 p.1.2).foldl max 0

/-- The loop of `onBoundViolationsScale`, BaseQNAcceleration.cpp:184-204, with the assertion that a factor is at most one. -/
def scaleStep (xs us : List ℚ) : List (BoundedData × Bool) → ℕ → ℚ → Option ℚ
  | [], _, s => some s
  | (d, v) :: ds, offset, s =>
    if v then
      if d.factor (seg xs offset d.size) (seg us offset d.size) ≤ 1 then scaleStep xs us ds (offset + d.size) (max s (d.factor (seg xs offset d.size) (seg us offset d.size))) else none
    else scaleStep xs us ds (offset + d.size) s

/-- One rank: its data, `_values` after the update has been added, and the update. -/
structure BoundRank where
  datas : List BoundedData
  values : List ℚ
  update : List ℚ

/-- The flags of a rank. -/
def BoundRank.flags (r : BoundRank) : List Bool := checkBounds r.values r.datas 0

/-- `data -= xUpdate * s` -/
def BoundRank.shorten (r : BoundRank) (s : ℚ) : List ℚ := List.zipWith (fun x u => x - u * s) r.values r.update

/-- The modes. -/
inductive OnViolation where
  | ignore
  | clamp
  | discard
  | scaleToBound

/-- The values of all ranks after the bound handling, BaseQNAcceleration.cpp:492-518. `none`: an assertion fails on some rank. The factor is the maximum over the ranks, lines 206-221; the number of
violations is summed over the ranks, line 506. -/
def handleBounds (mode : OnViolation) (ranks : List BoundRank) : Option (List (List ℚ)) :=
  match mode with
  | .ignore => some (ranks.map BoundRank.values)
  | .clamp => some (ranks.map fun r => clampBounds (r.datas.zip r.flags) 0 r.values)
  | .discard => if ranks.any fun r => r.flags.any id then some (ranks.map fun r => r.shorten 1) else some (ranks.map BoundRank.values)
  | .scaleToBound =>
    if ranks.any fun r => r.flags.any id then do
      let fs ← ranks.mapM fun r => scaleStep r.values r.update (r.datas.zip r.flags) 0 0
      some (ranks.map fun r => r.shorten (fs.foldl max 0))
    else some (ranks.map BoundRank.values)

/-! ## Specification -/

/-- A value respects its bounds. -/
def InBounds (l u : Option ℚ) (x : ℚ) : Prop := (∀ b, l = some b → b ≤ x) ∧ ∀ b, u = some b → x ≤ b

/-- The stored values of all data and all time steps, one after the other (`concatenateCouplingData`, BaseQNAcceleration.cpp:825-849), respect their bounds. -/
def AllInBounds : List BoundedData → List ℚ → Prop
  | [], _ => True
  | d :: ds, xs =>
    (∀ t < d.steps, ∀ i < d.size, ∀ x, xs[t * d.size + i]? = some x → InBounds (d.lo i) (d.hi i) x) ∧ AllInBounds ds (xs.drop (d.steps * d.size))

/-! ## One time step per window -/

/-- The bounds at a position, if every data has one time step. -/
def boundsAt : List BoundedData → ℕ → Option ℚ × Option ℚ
  | [], _ => (none, none)
  | d :: ds, i => if i < d.size then (d.lo i, d.hi i) else boundsAt ds (i - d.size)

theorem allInBounds_iff : ∀ {ds : List BoundedData} {xs : List ℚ}, (∀ d ∈ ds, d.steps = 1) →
    (AllInBounds ds xs ↔ ∀ i x, xs[i]? = some x → InBounds (boundsAt ds i).1 (boundsAt ds i).2 x)
  | [], xs, _ => by simp [AllInBounds, boundsAt, InBounds]
  | d :: ds, xs, hs => by
    have ih := allInBounds_iff (ds := ds) (xs := xs.drop d.size) fun d' h => hs d' (List.mem_cons_of_mem _ h)
    have h1 : d.steps = 1 := hs d List.mem_cons_self
    unfold AllInBounds
    rw [h1, one_mul, ih]
    constructor
    · rintro ⟨ha, hb⟩ i x hx
      unfold boundsAt
      split_ifs with hi
      · exact ha 0 (by omega) i hi x (by rw [zero_mul, zero_add]; exact hx)
      · refine hb (i - d.size) x ?_
        rw [List.getElem?_drop, Nat.add_sub_cancel' (by omega)]
        exact hx
    · intro h
      refine ⟨fun t ht i hi x hx => ?_, fun i x hx => ?_⟩
      · obtain rfl : t = 0 := by omega
        rw [zero_mul, zero_add] at hx
        have := h i x hx
        unfold boundsAt at this
        rwa [if_pos hi] at this
      · rw [List.getElem?_drop] at hx
        have := h (d.size + i) x hx
        unfold boundsAt at this
        rwa [if_neg (by omega), Nat.add_sub_cancel_left] at this

theorem not_hasBounds {d : BoundedData} (h : d.hasBounds = false) (i : ℕ) : d.lo i = none ∧ d.hi i = none := by
  unfold BoundedData.hasBounds at h
  rw [Bool.or_eq_false_iff] at h
  have key : ∀ (l : List (Option ℚ)) (k : ℕ), l.any Option.isSome = false → l.getD k none = none := by
    intro l k hl
    rw [List.getD_eq_getElem?_getD]
    cases hk : l[k]? with
    | none => rfl
    | some v =>
      have := List.mem_of_getElem? hk
      rw [List.any_eq_false] at hl
      have := hl v this
      cases v with
      | none => rfl
      | some w => simp at this
  exact ⟨key _ _ h.1, key _ _ h.2⟩

theorem inBounds_iff (l u : Option ℚ) (x : ℚ) : InBounds l u x ↔ belowBound l x = false ∧ aboveBound u x = false := by
  unfold InBounds belowBound aboveBound
  cases l <;> cases u <;> simp [not_lt]

theorem violated_iff (d : BoundedData) (xs : List ℚ) : d.violated xs = false ↔ ∀ i x, xs[i]? = some x → InBounds (d.lo i) (d.hi i) x := by
  unfold BoundedData.violated
  rw [List.any_eq_false]
  constructor
  · intro h i x hx
    have := h (x, i) (List.mk_mem_zipIdx_iff_getElem?.2 hx)
    rw [Bool.not_eq_true, Bool.or_eq_false_iff] at this
    exact (inBounds_iff _ _ _).2 this
  · rintro h ⟨x, i⟩ hp
    have := (inBounds_iff _ _ _).1 (h i x (List.mk_mem_zipIdx_iff_getElem?.1 hp))
    rw [Bool.not_eq_true, Bool.or_eq_false_iff]
    exact this

theorem seg_getElem? {α : Type} (xs : List α) (o n i : ℕ) : (seg xs o n)[i]? = if i < n then xs[o + i]? else none := by
  unfold seg
  rw [List.getElem?_take, List.getElem?_drop]

/-- The flag of the data a position belongs to. -/
def flagAt : List BoundedData → List Bool → ℕ → Bool
  | d :: ds, f :: fs, i => if i < d.size then f else flagAt ds fs (i - d.size)
  | _, _, _ => false

theorem checkBounds_length (xs : List ℚ) : ∀ (ds : List BoundedData) (o : ℕ), (checkBounds xs ds o).length = ds.length
  | [], _ => rfl
  | d :: ds, o => by rw [checkBounds, List.length_cons, List.length_cons, checkBounds_length xs ds]

/-- Values of data without flag are in their bounds. -/
theorem unflagged (xs : List ℚ) : ∀ (ds : List BoundedData) (o i : ℕ) {x : ℚ}, flagAt ds (checkBounds xs ds o) i = false → xs[o + i]? = some x → InBounds (boundsAt ds i).1 (boundsAt ds i).2 x
  | [], _, _, x, _, _ => by simp [boundsAt, InBounds]
  | d :: ds, o, i, x, h, hx => by
    rw [checkBounds, flagAt] at h
    unfold boundsAt
    split_ifs at h ⊢ with hi
    · rw [Bool.and_eq_false_iff] at h
      rcases h with h | h
      · obtain ⟨h1, h2⟩ := not_hasBounds h i
        rw [h1, h2]
        simp [InBounds]
      · exact (violated_iff d _).1 h i x (by rw [seg_getElem?, if_pos hi, hx])
    · exact unflagged xs ds (o + d.size) (i - d.size) h (by rw [Nat.add_assoc, Nat.add_sub_cancel' (by omega)]; exact hx)

/-- If all values are in their bounds, no data is flagged. -/
theorem no_flags (xs : List ℚ) : ∀ (ds : List BoundedData) (o : ℕ), (∀ i x, xs[o + i]? = some x → InBounds (boundsAt ds i).1 (boundsAt ds i).2 x) → (checkBounds xs ds o).any id = false
  | [], _, _ => rfl
  | d :: ds, o, h => by
    rw [checkBounds, List.any_cons, no_flags xs ds (o + d.size) fun i x hx => ?_, Bool.or_false, id, Bool.and_eq_false_iff]
    · right
      rw [violated_iff]
      intro i x hx
      rw [seg_getElem?] at hx
      split_ifs at hx with hi
      have := h i x hx
      unfold boundsAt at this
      rwa [if_pos hi] at this
    · have := h (d.size + i) x (by rw [← Nat.add_assoc]; exact hx)
      unfold boundsAt at this
      rwa [if_neg (by omega), Nat.add_sub_cancel_left] at this

/-! ## Clamping -/

theorem clampBounds_getElem? : ∀ (ds : List BoundedData) (fs : List Bool) (o : ℕ) (xs : List ℚ) (i : ℕ),
    (clampBounds (ds.zip fs) o xs)[i]? = xs[i]?.map fun x => if o ≤ i ∧ flagAt ds fs (i - o) = true then clampValue (boundsAt ds (i - o)).1 (boundsAt ds (i - o)).2 x else x
  | [], fs, o, xs, i => by simp [clampBounds, flagAt]
  | d :: ds, [], o, xs, i => by simp [clampBounds, flagAt]
  | d :: ds, f :: fs, o, xs, i => by
    rw [List.zip_cons_cons, clampBounds, clampBounds_getElem? ds fs]
    have h1 : (if f then xs.mapIdx fun i x => if o ≤ i ∧ i < o + d.size then clampValue (d.lo (i - o)) (d.hi (i - o)) x else x else xs)[i]? =
        xs[i]?.map fun x => if f = true ∧ o ≤ i ∧ i < o + d.size then clampValue (d.lo (i - o)) (d.hi (i - o)) x else x := by
      cases f with
      | false => simp
      | true => simp [List.getElem?_mapIdx]
    rw [h1, Option.map_map]
    congr 1
    funext x
    simp only [Function.comp_apply]
    have e1 : flagAt (d :: ds) (f :: fs) (i - o) = if i - o < d.size then f else flagAt ds fs (i - o - d.size) := rfl
    have e2 : boundsAt (d :: ds) (i - o) = if i - o < d.size then (d.lo (i - o), d.hi (i - o)) else boundsAt ds (i - o - d.size) := rfl
    rw [e1, e2]
    by_cases ho : o ≤ i
    · by_cases hi : i < o + d.size
      · rw [if_neg (by omega), if_pos (show i - o < d.size by omega)]
        cases f <;> simp [ho, hi, show i - o < d.size by omega]
      · rw [if_neg (show ¬ i - o < d.size by omega), if_neg (show ¬ (f = true ∧ o ≤ i ∧ i < o + d.size) by omega), if_neg (show ¬ i - o < d.size by omega), Nat.sub_sub]
        congr 1
        rw [eq_iff_iff]
        exact ⟨fun h => ⟨ho, h.2⟩, fun h => ⟨by omega, h.2⟩⟩
    · rw [if_neg (by omega), if_neg (by tauto), if_neg (by tauto)]

theorem clampValue_inBounds {l u : Option ℚ} (h : ∀ a b, l = some a → u = some b → a ≤ b) (x : ℚ) : InBounds l u (clampValue l u x) := by
  unfold clampValue InBounds
  cases l with
  | none =>
    cases u with
    | none => simp
    | some b => simp
  | some a =>
    cases u with
    | none => simp
    | some b =>
      have hab := h a b rfl rfl
      simp [hab]

/-- lower bounds are not above upper bounds, as checked in DataConfiguration.cpp:116, 138-152 -/
def BoundedData.Ordered (d : BoundedData) : Prop := ∀ i a b, d.lo i = some a → d.hi i = some b → a ≤ b

theorem boundsAt_ordered : ∀ {ds : List BoundedData}, (∀ d ∈ ds, d.Ordered) → ∀ i a b, (boundsAt ds i).1 = some a → (boundsAt ds i).2 = some b → a ≤ b
  | [], _, i, a, b, h, _ => by simp [boundsAt] at h
  | d :: ds, ho, i, a, b, ha, hb => by
    unfold boundsAt at ha hb
    split_ifs at ha hb
    · exact ho d List.mem_cons_self i a b ha hb
    · exact boundsAt_ordered (fun d' h => ho d' (List.mem_cons_of_mem _ h)) _ a b ha hb

/-! ## Shortening -/

theorem shortening_le_one {l u : Option ℚ} {x upd : ℚ} (h : InBounds l u (x - upd)) : shortening l u x upd ≤ 1 := by
  have h0 := neg_abs_le upd
  have h1 := le_abs_self upd
  unfold shortening
  refine max_le ?_ ?_
  · cases l with
    | none => simp
    | some b =>
      have := h.1 b rfl
      simp only
      split_ifs with hu
      · have hp : 0 < |upd| := lt_of_le_of_ne (abs_nonneg _) fun e => hu (by rw [← e]; simp)
        rw [div_neg, ← neg_div, div_le_one hp]
        linarith
      · exact zero_le_one
  · cases u with
    | none => simp
    | some b =>
      have := h.2 b rfl
      simp only
      split_ifs with hu
      · have hp : 0 < |upd| := lt_of_le_of_ne (abs_nonneg _) fun e => hu e.symm
        rw [div_le_one hp]
        linarith
      · exact zero_le_one

/-- A shortened update keeps the bounds that the value without update respects. -/
theorem shorten_inBounds {l u : Option ℚ} {x upd s : ℚ} (h : InBounds l u (x - upd)) (h0 : 0 ≤ s) (h1 : s ≤ 1) (hs : shortening l u x upd ≤ s ∨ InBounds l u x) : InBounds l u (x - upd * s) := by
  have hin : InBounds l u x → InBounds l u (x - upd * s) := fun hx => by
    constructor
    · intro b hb
      have e1 := h.1 b hb
      have e2 := hx.1 b hb
      nlinarith [mul_nonneg h0 (sub_nonneg.2 e1), mul_nonneg (sub_nonneg.2 h1) (sub_nonneg.2 e2)]
    · intro b hb
      have e1 := h.2 b hb
      have e2 := hx.2 b hb
      nlinarith [mul_nonneg h0 (sub_nonneg.2 e1), mul_nonneg (sub_nonneg.2 h1) (sub_nonneg.2 e2)]
  rcases hs with hs | hs
  · unfold shortening at hs
    rw [max_le_iff] at hs
    constructor
    · rintro b rfl
      have e1 := h.1 b rfl
      by_cases hx : b ≤ x
      · nlinarith [mul_nonneg h0 (sub_nonneg.2 e1), mul_nonneg (sub_nonneg.2 h1) (sub_nonneg.2 hx)]
      · have hneg : upd < 0 := by linarith
        have h2 := hs.1
        simp only at h2
        rw [abs_of_neg hneg, neg_neg, if_pos hneg.ne, div_le_iff_of_neg hneg] at h2
        linarith
    · rintro b rfl
      have e1 := h.2 b rfl
      by_cases hx : x ≤ b
      · nlinarith [mul_nonneg h0 (sub_nonneg.2 e1), mul_nonneg (sub_nonneg.2 h1) (sub_nonneg.2 hx)]
      · have hpos : 0 < upd := by linarith
        have h2 := hs.2
        simp only at h2
        rw [abs_of_pos hpos, if_pos hpos.ne', div_le_iff₀ hpos] at h2
        linarith
  · exact hin hs

theorem foldl_max_le : ∀ (l : List ℚ) (a b : ℚ), l.foldl max a ≤ b ↔ a ≤ b ∧ ∀ x ∈ l, x ≤ b
  | [], a, b => by simp
  | x :: l, a, b => by
    rw [List.foldl_cons, foldl_max_le l, max_le_iff]
    simp [and_assoc]

theorem zip_getElem? {α β : Type} (xs : List α) (ys : List β) (i : ℕ) (x : α) (y : β) : (xs.zip ys)[i]? = some (x, y) ↔ xs[i]? = some x ∧ ys[i]? = some y := by
  rw [List.getElem?_zip_eq_some]

theorem factor_le_iff (d : BoundedData) (xs us : List ℚ) {s : ℚ} : d.factor xs us ≤ s ↔ 0 ≤ s ∧ ∀ i x u, xs[i]? = some x → us[i]? = some u → shortening (d.lo i) (d.hi i) x u ≤ s := by
  unfold BoundedData.factor
  rw [foldl_max_le]
  refine and_congr_right fun _ => ?_
  constructor
  · intro h i x u hx hu
    refine h _ (List.mem_map.2 ⟨((x, u), i), List.mk_mem_zipIdx_iff_getElem?.2 ((zip_getElem? xs us i x u).2 ⟨hx, hu⟩), rfl⟩)
  · intro h y hy
    obtain ⟨⟨⟨x, u⟩, i⟩, hp, rfl⟩ := List.mem_map.1 hy
    obtain ⟨h1, h2⟩ := (zip_getElem? xs us i x u).1 (List.mk_mem_zipIdx_iff_getElem?.1 hp)
    exact h i x u h1 h2

/-- The loop over the data succeeds if the values without the update are in their bounds, and gives a factor that is enough for all flagged data. -/
theorem scaleStep_some {xs us : List ℚ} : ∀ (ds : List BoundedData) (fs : List Bool) (o : ℕ) {s : ℚ}, 0 ≤ s → s ≤ 1 →
    (∀ i x u, xs[o + i]? = some x → us[o + i]? = some u → InBounds (boundsAt ds i).1 (boundsAt ds i).2 (x - u)) →
    ∃ s', scaleStep xs us (ds.zip fs) o s = some s' ∧ s ≤ s' ∧ s' ≤ 1 ∧
      ∀ i x u, flagAt ds fs i = true → xs[o + i]? = some x → us[o + i]? = some u → shortening (boundsAt ds i).1 (boundsAt ds i).2 x u ≤ s'
  | [], fs, o, s, h0, h1, _ => ⟨s, by simp [scaleStep], le_rfl, h1, fun i x u h => by simp [flagAt] at h⟩
  | d :: ds, [], o, s, h0, h1, _ => ⟨s, by simp [scaleStep], le_rfl, h1, fun i x u h => by simp [flagAt] at h⟩
  | d :: ds, f :: fs, o, s, h0, h1, h => by
    have hd : ∀ i x u, (seg xs o d.size)[i]? = some x → (seg us o d.size)[i]? = some u → InBounds (d.lo i) (d.hi i) (x - u) := fun i x u hx hu => by
      rw [seg_getElem?] at hx hu
      split_ifs at hx hu with hi
      have := h i x u hx hu
      unfold boundsAt at this
      rwa [if_pos hi] at this
    have hrest : ∀ i x u, xs[o + d.size + i]? = some x → us[o + d.size + i]? = some u → InBounds (boundsAt ds i).1 (boundsAt ds i).2 (x - u) := fun i x u hx hu => by
      have := h (d.size + i) x u (by rw [← Nat.add_assoc]; exact hx) (by rw [← Nat.add_assoc]; exact hu)
      unfold boundsAt at this
      rwa [if_neg (by omega), Nat.add_sub_cancel_left] at this
    have hle : d.factor (seg xs o d.size) (seg us o d.size) ≤ 1 := (factor_le_iff _ _ _).2 ⟨zero_le_one, fun i x u hx hu => shortening_le_one (hd i x u hx hu)⟩
    rw [List.zip_cons_cons, scaleStep]
    cases f with
    | false =>
      obtain ⟨s', e, e1, e2, e3⟩ := scaleStep_some ds fs (o + d.size) h0 h1 hrest
      refine ⟨s', by simpa using e, e1, e2, fun i x u hf hx hu => ?_⟩
      rw [flagAt] at hf
      unfold boundsAt
      split_ifs at hf ⊢ with hi
      exact e3 (i - d.size) x u hf (by rw [Nat.add_assoc, Nat.add_sub_cancel' (by omega)]; exact hx) (by rw [Nat.add_assoc, Nat.add_sub_cancel' (by omega)]; exact hu)
    | true =>
      obtain ⟨s', e, e1, e2, e3⟩ := scaleStep_some ds fs (o + d.size) (s := max s (d.factor (seg xs o d.size) (seg us o d.size))) (le_max_of_le_left h0) (max_le h1 hle) hrest
      rw [if_pos rfl, if_pos hle]
      refine ⟨s', e, (le_max_left _ _).trans e1, e2, fun i x u hf hx hu => ?_⟩
      rw [flagAt] at hf
      unfold boundsAt
      split_ifs at hf ⊢ with hi
      · exact ((factor_le_iff d _ _).1 ((le_max_right _ _).trans e1)).2 i x u (by rw [seg_getElem?, if_pos hi]; exact hx) (by rw [seg_getElem?, if_pos hi]; exact hu)
      · exact e3 (i - d.size) x u hf (by rw [Nat.add_assoc, Nat.add_sub_cancel' (by omega)]; exact hx) (by rw [Nat.add_assoc, Nat.add_sub_cancel' (by omega)]; exact hu)

/-! ## C76 -/

/-- One time step per window for all data, as many values as the update has. -/
structure BoundRank.OneStep (r : BoundRank) : Prop where
  steps : ∀ d ∈ r.datas, d.steps = 1
  length : r.update.length = r.values.length

theorem shorten_getElem? (r : BoundRank) (s : ℚ) (i : ℕ) (y : ℚ) : (r.shorten s)[i]? = some y ↔ ∃ x u, r.values[i]? = some x ∧ r.update[i]? = some u ∧ x - u * s = y := by
  unfold BoundRank.shorten
  rw [List.getElem?_zipWith]
  cases r.values[i]? <;> cases r.update[i]? <;> simp

/-- C76, `clamp`, for data with one time step per window: afterwards all values on all ranks are in their bounds. Missing: several time steps per window, see `C76_substeps`. -/
theorem C76_clamp_partial {ranks : List BoundRank} (h1 : ∀ r ∈ ranks, r.OneStep) (ho : ∀ r ∈ ranks, ∀ d ∈ r.datas, d.Ordered) :
    ∃ ys, handleBounds .clamp ranks = some ys ∧ List.Forall₂ (fun r y => y.length = r.values.length ∧ AllInBounds r.datas y) ranks ys := by
  refine ⟨_, rfl, ?_⟩
  rw [List.forall₂_map_right_iff, List.forall₂_same]
  intro r hr
  constructor
  · have key : ∀ (l : List (BoundedData × Bool)) (o : ℕ) (xs : List ℚ), (clampBounds l o xs).length = xs.length := by
      intro l
      induction l with
      | nil => intro o xs; rfl
      | cons p l ih =>
        intro o xs
        rw [clampBounds, ih]
        split_ifs <;> simp
    exact key _ _ _
  · rw [allInBounds_iff (h1 r hr).steps]
    intro i y hy
    rw [clampBounds_getElem?] at hy
    obtain ⟨x, hx, rfl⟩ := Option.map_eq_some_iff.1 hy
    simp only [Nat.zero_le, true_and, Nat.sub_zero]
    split_ifs with hf
    · exact clampValue_inBounds (boundsAt_ordered (ho r hr) i) x
    · exact unflagged r.values r.datas 0 i (Bool.eq_false_iff.2 hf) (by rw [zero_add]; exact hx)

/-- C76, `scale-to-bound`, for data with one time step per window: if the output of the solvers (the values without the update) is in the bounds on all ranks, no assertion fails, the update is
shortened by the same factor on all ranks, and the values are in their bounds. -/
theorem C76_scale_partial {ranks : List BoundRank} (h1 : ∀ r ∈ ranks, r.OneStep) (hin : ∀ r ∈ ranks, AllInBounds r.datas (r.shorten 1)) :
    ∃ s, 0 ≤ s ∧ s ≤ 1 ∧ handleBounds .scaleToBound ranks = some (ranks.map fun r => r.shorten s) ∧ ∀ r ∈ ranks, AllInBounds r.datas (r.shorten s) := by
  have hxu : ∀ r ∈ ranks, ∀ i x u, r.values[i]? = some x → r.update[i]? = some u → InBounds (boundsAt r.datas i).1 (boundsAt r.datas i).2 (x - u) := by
    intro r hr i x u hx hu
    exact (allInBounds_iff (h1 r hr).steps).1 (hin r hr) i _ ((shorten_getElem? r 1 i _).2 ⟨x, u, hx, hu, by ring⟩)
  have hzero : ∀ r ∈ ranks, r.shorten 0 = r.values := by
    intro r hr
    refine List.ext_getElem? fun i => ?_
    ext y
    rw [shorten_getElem?]
    constructor
    · rintro ⟨x, u, hx, -, rfl⟩
      rw [mul_zero, sub_zero]
      exact hx
    · intro hy
      have hi : i < r.update.length := by
        rw [(h1 r hr).length]
        exact (List.getElem?_eq_some_iff.1 hy).1
      exact ⟨y, r.update[i], hy, List.getElem?_eq_getElem hi, by ring⟩
  by_cases hv : (ranks.any fun r => r.flags.any id) = true
  · have hm : ∀ l : List BoundRank, (∀ r ∈ l, r ∈ ranks) → ∃ fs, l.mapM (fun r => scaleStep r.values r.update (r.datas.zip r.flags) 0 0) = some fs ∧ (∀ f ∈ fs, f ≤ 1) ∧
        ∀ s, (∀ f ∈ fs, f ≤ s) → ∀ r ∈ l, ∀ i x u, flagAt r.datas r.flags i = true → r.values[i]? = some x → r.update[i]? = some u → shortening (boundsAt r.datas i).1 (boundsAt r.datas i).2 x u ≤ s := by
      intro l hl
      induction l with
      | nil => exact ⟨[], rfl, by simp, by simp⟩
      | cons r l ih =>
        obtain ⟨fs, e1, e2, e3⟩ := ih fun r' h => hl r' (List.mem_cons_of_mem _ h)
        obtain ⟨f, g1, -, g3, g4⟩ := scaleStep_some (xs := r.values) (us := r.update) r.datas r.flags 0 le_rfl zero_le_one (by simpa using hxu r (hl r List.mem_cons_self))
        refine ⟨f :: fs, ?_, ?_, ?_⟩
        · rw [List.mapM_cons, g1, e1]
          rfl
        · rintro f' hf'
          rcases List.mem_cons.1 hf' with rfl | hf'
          · exact g3
          · exact e2 f' hf'
        · intro s hs r' hr' i x u hf hx hu
          rcases List.mem_cons.1 hr' with rfl | hr'
          · exact (g4 i x u hf (by simpa using hx) (by simpa using hu)).trans (hs f List.mem_cons_self)
          · exact e3 s (fun f' h => hs f' (List.mem_cons_of_mem _ h)) r' hr' i x u hf hx hu
    obtain ⟨fs, e1, e2, e3⟩ := hm ranks fun r h => h
    have hs := (foldl_max_le fs 0 (fs.foldl max 0)).1 le_rfl
    have hs1 := (foldl_max_le fs 0 1).2 ⟨zero_le_one, e2⟩
    refine ⟨fs.foldl max 0, hs.1, hs1, ?_, fun r hr => ?_⟩
    · unfold handleBounds
      simp only
      rw [if_pos hv, e1]
      rfl
    · rw [allInBounds_iff (h1 r hr).steps]
      intro i y hy
      obtain ⟨x, u, hx, hu, rfl⟩ := (shorten_getElem? _ _ _ _).1 hy
      refine shorten_inBounds (hxu r hr i x u hx hu) hs.1 hs1 ?_
      cases hf : flagAt r.datas r.flags i with
      | true => exact Or.inl (e3 _ hs.2 r hr i x u hf hx hu)
      | false => exact Or.inr (unflagged r.values r.datas 0 i hf (by rw [zero_add]; exact hx))
  · refine ⟨0, le_rfl, zero_le_one, ?_, fun r hr => ?_⟩
    · unfold handleBounds
      simp only
      rw [if_neg hv]
      congr 1
      exact (List.map_congr_left hzero).symm
    · rw [hzero r hr, allInBounds_iff (h1 r hr).steps]
      intro i x hx
      refine unflagged r.values r.datas 0 i ?_ (by rw [zero_add]; exact hx)
      have hfl : ∀ b ∈ r.flags, b = false := by
        intro b hb
        by_contra hb'
        exact hv (List.any_eq_true.2 ⟨r, hr, List.any_eq_true.2 ⟨b, hb, by simpa using hb'⟩⟩)
      have key : ∀ (ds : List BoundedData) (fs : List Bool) (i : ℕ), (∀ b ∈ fs, b = false) → flagAt ds fs i = false := by
        intro ds
        induction ds with
        | nil => intro fs i _; rfl
        | cons d ds ih =>
          intro fs i hfs
          cases fs with
          | nil => rfl
          | cons f fs =>
            rw [flagAt]
            split_ifs
            · exact hfs f List.mem_cons_self
            · exact ih fs _ fun b hb => hfs b (List.mem_cons_of_mem _ hb)
      exact key _ _ _ hfl

/-- C76, `discard`, for data with one time step per window: if the output of the solvers is in the bounds on all ranks, the values are. -/
theorem C76_discard_partial {ranks : List BoundRank} (h1 : ∀ r ∈ ranks, r.OneStep) (hin : ∀ r ∈ ranks, AllInBounds r.datas (r.shorten 1)) :
    ∃ ys, handleBounds .discard ranks = some ys ∧ (ys = ranks.map BoundRank.values ∨ ys = ranks.map fun r => r.shorten 1) ∧ List.Forall₂ (fun r y => AllInBounds r.datas y) ranks ys := by
  by_cases hv : (ranks.any fun r => r.flags.any id) = true
  · have e : handleBounds .discard ranks = some (ranks.map fun r => r.shorten 1) := if_pos hv
    refine ⟨_, e, Or.inr rfl, ?_⟩
    rw [List.forall₂_map_right_iff, List.forall₂_same]
    exact hin
  · obtain ⟨s, h0, hs1, hs, hall⟩ := C76_scale_partial h1 hin
    have e : handleBounds .scaleToBound ranks = some (ranks.map BoundRank.values) := if_neg hv
    refine ⟨ranks.map BoundRank.values, if_neg hv, Or.inl rfl, ?_⟩
    rw [e] at hs
    rw [Option.some.inj hs, List.forall₂_map_right_iff, List.forall₂_same]
    exact hall

/-- C76: values in their bounds are not touched by any mode, for data with one time step per window. -/
theorem C76_untouched_partial (mode : OnViolation) {ranks : List BoundRank} (h1 : ∀ r ∈ ranks, r.OneStep) (hin : ∀ r ∈ ranks, AllInBounds r.datas r.values) :
    handleBounds mode ranks = some (ranks.map BoundRank.values) := by
  have hfl : ∀ r ∈ ranks, r.flags.any id = false := fun r hr => no_flags r.values r.datas 0 (by simpa using (allInBounds_iff (h1 r hr).steps).1 (hin r hr))
  have hv : ¬ (ranks.any fun r => r.flags.any id) = true := by
    rw [Bool.not_eq_true, List.any_eq_false]
    intro r hr
    rw [hfl r hr]
    simp
  cases mode with
  | ignore => rfl
  | discard => exact if_neg hv
  | scaleToBound => exact if_neg hv
  | clamp =>
    unfold handleBounds
    simp only
    congr 1
    refine List.map_congr_left fun r hr => ?_
    have key : ∀ (ds : List BoundedData) (fs : List Bool) (o : ℕ) (xs : List ℚ), fs.any id = false → clampBounds (ds.zip fs) o xs = xs := by
      intro ds
      induction ds with
      | nil => intro fs o xs _; simp [clampBounds]
      | cons d ds ih =>
        intro fs o xs hfs
        cases fs with
        | nil => simp [clampBounds]
        | cons f fs =>
          rw [List.any_cons, Bool.or_eq_false_iff] at hfs
          rw [List.zip_cons_cons, clampBounds, show f = false from hfs.1]
          exact ih fs _ _ hfs.2
    exact key _ _ _ _ (hfl r hr)

/-- The hypotheses are satisfiable with a violation: a pressure with bounds 0 and 1 on two vertices, on two ranks; the update overshoots on the first one. -/
example : let d : BoundedData := ⟨1, 2, 1, [some 0], [some 1]⟩
    let ranks : List BoundRank := [⟨[d], [3, 1 / 2], [5 / 2, 1 / 4]⟩, ⟨[d], [1, 1 / 2], [1, 0]⟩]
    (∀ r ∈ ranks, ∀ d ∈ r.datas, d.steps = 1) ∧ (∀ r ∈ ranks, r.update.length = r.values.length) ∧
    handleBounds .scaleToBound ranks = some [[1, 3 / 10], [1 / 5, 1 / 2]] ∧ handleBounds .clamp ranks = some [[1, 1 / 2], [1, 1 / 2]] := by
  decide +kernel

/-- C76 fails with several time steps per window: only the first time step is checked. A value of 5 at the end of the window with upper bound 1 is left as it is. -/
theorem C76_substeps : let d : BoundedData := ⟨1, 1, 2, [none], [some 1]⟩
    handleBounds .clamp [⟨[d], [0, 5], [0, 0]⟩] = some [[0, 5]] ∧ ¬ AllInBounds [d] [0, 5] := by
  refine ⟨by decide +kernel, ?_⟩
  rintro ⟨h, -⟩
  have := (h 1 (by norm_num) 0 (by norm_num) 5 rfl).2 1 rfl
  norm_num at this

/-- C76 fails with several time steps per window: the bounds are applied to values of other data. A data without bounds and with two time steps is followed by one with the upper bound 1; the second
value of the first data is changed, the value of the second one is not. -/
theorem C76_substeps_wrong_data : let a : BoundedData := ⟨1, 1, 2, [none], [none]⟩
    let b : BoundedData := ⟨1, 1, 1, [none], [some 1]⟩
    handleBounds .clamp [⟨[a, b], [5, 7, 3], [0, 0, 0]⟩] = some [[5, 1, 3]] ∧ ¬ AllInBounds [a, b] [5, 1, 3] := by
  refine ⟨by decide +kernel, ?_⟩
  rintro ⟨-, h, -⟩
  have := (h 0 (by norm_num) 0 (by norm_num) 3 rfl).2 1 rfl
  norm_num at this

/-- C76, `scale-to-bound`, needs that the output of the solvers is in the bounds: otherwise an assertion fails. -/
theorem C76_scale_needs_output : handleBounds .scaleToBound [⟨[⟨1, 1, 1, [none], [some 1]⟩], [3], [1]⟩] = none := by decide +kernel

end Verif.Accel
