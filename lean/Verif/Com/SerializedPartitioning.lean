import Verif.Com.SerializedMesh
import Mathlib.Tactic.Ring

/-!
# Transfer of partitioning information (C67)

Model of `/repo/src/com/SerializedPartitioning.cpp`. A `std::map` is the list of its entries in ascending order of the keys.
-/

set_option autoImplicit false

namespace Verif.Com

variable {d : ℕ} {α β : Type}

/-- `std::map::emplace`: keeps an existing entry. -/
def emplace (k : ℤ) (v : β) : List (ℤ × β) → List (ℤ × β)
  | [] => [(k, v)]
  | x :: l => if k < x.1 then (k, v) :: x :: l else if k = x.1 then x :: l else x :: emplace k v l

/-- What the type `std::map` guarantees. -/
def IsMap (l : List (ℤ × β)) : Prop := l.Pairwise fun a b => a.1 < b.1

/-! ## Connection maps -/

abbrev ConnectionMap := List (ℤ × List ℤ)

/-- `SerializedConnectionMap::serialize`, SerializedPartitioning.cpp:15-38, without the assertion. -/
def serializeConnections (cm : ConnectionMap) : List ℤ :=
  (cm.length : ℤ) :: (cm.map fun x => x.1 :: (x.2.length : ℤ) :: x.2).flatten

/-- The loop of `assertValid`, SerializedPartitioning.cpp:76-92 -/
def validEntries : ℕ → List ℤ → Bool
  | 0, rest => rest.isEmpty
  | n + 1, r :: sz :: rest => decide (0 ≤ r) && decide (0 ≤ sz) && decide (sz.toNat ≤ rest.length) && decide (rest.take sz.toNat).Nodup &&
      validEntries n (rest.drop sz.toNat)
  | _ + 1, _ => false

/-- `assertValid`, SerializedPartitioning.cpp:68-93 -/
def validConnections : List ℤ → Bool
  | [] => false
  | n :: rest => decide (1 < (n :: rest).length) && decide (0 ≤ n) && validEntries n.toNat rest

/-- The loop of `toConnectionMap`, SerializedPartitioning.cpp:51-64 -/
def readEntries : ℕ → List ℤ → ConnectionMap → ConnectionMap
  | n + 1, r :: sz :: rest, cm => readEntries n (rest.drop sz.toNat) (emplace r (rest.take sz.toNat) cm)
  | _, _, cm => cm

/-- `toConnectionMap`, SerializedPartitioning.cpp:40-66 -/
def toConnections : List ℤ → ConnectionMap
  | [] => []
  | n :: rest => if n = 0 then [] else readEntries n.toNat rest []

/-- `sendConnectionMap` and `receiveConnectionMap`, Extra.cpp:28-36, SerializedPartitioning.cpp:95-107 -/
def transferConnections (cm : ConnectionMap) : Bool → Prog Bool Msg ConnectionMap :=
  pair (Prog.ensure .assert (validConnections (serializeConnections cm) = true) (.send false (.ints (serializeConnections cm)) (.ret cm)))
    (recvInts fun c => Prog.ensure .assert (validConnections c = true) (.ret (toConnections c)))

/-! ## Bounding boxes -/

/-- `SerializedBoundingBox::serialize`, SerializedPartitioning.cpp:124-144 -/
def serializeBox (b : Box d) : List ℚ := (d : ℚ) :: (List.ofFn b.lo ++ List.ofFn b.hi)

/-- `assertValid`, SerializedPartitioning.cpp:164-170; the dimension is an integer that is sent as a floating point number. -/
def validBox (c : List ℚ) : Bool :=
  match c with
  | [] => false
  | x :: _ => (decide (x = 2) && decide (c.length = 5)) || (decide (x = 3) && decide (c.length = 7))

/-- The buffer with minimum and maximum per dimension, SerializedPartitioning.cpp:155-160, 235-240. -/
def interleave (d off : ℕ) (c : List ℚ) : List ℚ := ((List.range d).map fun k => [c.getD (off + k) 0, c.getD (off + k + d) 0]).flatten

/-- The constructor `BoundingBox(std::vector<double>)`, BoundingBox.cpp:26-38 -/
def boxOfBounds (d : ℕ) (b : List ℚ) : Box d := ⟨fun k => b.getD (2 * k) 0, fun k => b.getD (2 * k + 1) 0⟩

/-- `toBoundingBox`, SerializedPartitioning.cpp:146-162, for a receiver that expects dimension `d`. -/
def toBox (d : ℕ) (c : List ℚ) : Option (Box d) := if c.getD 0 0 = d then some (boxOfBounds d (interleave d 1 c)) else none

/-- `sendBoundingBox` and `receiveBoundingBox`, SerializedPartitioning.cpp:172-183 -/
def transferBox (b : Box d) : Bool → Prog Bool Msg (Box d) :=
  pair (Prog.ensure .assert (validBox (serializeBox b) = true) (.send false (.reals (serializeBox b)) (.ret b)))
    (recvReals fun c => Prog.ensure .assert (validBox c = true) (match toBox d c with
      | some b => .ret b
      | none => .fail .assert))

/-! ## Maps of bounding boxes -/

abbrev BoxMap (d : ℕ) := List (ℤ × Box d)

/-- `SerializedBoundingBoxMap::serialize`, SerializedPartitioning.cpp:187-217: info and coordinates -/
def serializeBoxMap (m : BoxMap d) : List ℤ × List ℚ :=
  if m = [] then ([0], [])
  else ((m.length : ℤ) :: (d : ℤ) :: m.map (·.1), (m.map fun x => List.ofFn x.2.lo ++ List.ofFn x.2.hi).flatten)

/-- `assertValid`, SerializedPartitioning.cpp:252-270 -/
def validBoxMap (info : List ℤ) (coords : List ℚ) : Bool :=
  if info = [] then false
  else if info.length = 1 then decide (info.getD 0 0 = 0) && coords.isEmpty
  else decide (info.getD 0 0 + 2 = info.length) && (decide (info.getD 1 0 = 2) || decide (info.getD 1 0 = 3)) &&
    decide ((coords.length : ℤ) = info.getD 0 0 * info.getD 1 0 * 2) && (info.drop 2).all fun r => decide (0 ≤ r)

/-- `toBoundingBoxMap`, SerializedPartitioning.cpp:219-250 -/
def toBoxMap (d : ℕ) (info : List ℤ) (coords : List ℚ) : Option (BoxMap d) :=
  if info.length = 1 then some []
  else if info.getD 1 0 ≠ d then none
  else some ((List.range (info.getD 0 0).toNat).foldl (fun m j => emplace (info.getD (2 + j) 0) (boxOfBounds d (interleave d (2 * d * j) coords)) m) [])

/-- `sendBoundingBoxMap` and `receiveBoundingBoxMap`, SerializedPartitioning.cpp:272-290 -/
def transferBoxMap (m : BoxMap d) : Bool → Prog Bool Msg (BoxMap d) :=
  let s := serializeBoxMap m
  let finish (info : List ℤ) (coords : List ℚ) : Prog Bool Msg (BoxMap d) :=
    Prog.ensure .assert (validBoxMap info coords = true) (match toBoxMap d info coords with
      | some m => .ret m
      | none => .fail .assert)
  pair (Prog.ensure .assert (m ≠ [] → validBoxMap s.1 s.2 = true)
      (.send false (.ints s.1) (if s.1.length > 1 then .send false (.reals s.2) (.ret m) else .ret m)))
    (recvInts fun info => if info.length > 1 then recvReals fun coords => finish info coords else finish info [])

/-! ## Lemmas -/

theorem emplace_last (k : ℤ) (v : β) (l : List (ℤ × β)) (h : ∀ x ∈ l, x.1 < k) : emplace k v l = l ++ [(k, v)] := by
  induction l with
  | nil => rfl
  | cons x l ih =>
    have hx := h x (by simp)
    unfold emplace
    rw [if_neg (by omega), if_neg (by omega), ih fun y hy => h y (by simp [hy])]
    rfl

theorem IsMap.emplace {l : List (ℤ × β)} {x : ℤ × β} {l' : List (ℤ × β)} (h : IsMap (l ++ x :: l')) : Com.emplace x.1 x.2 l = l ++ [x] := by
  refine emplace_last _ _ _ fun y hy => ?_
  exact (List.pairwise_append.1 h).2.2 y hy x (by simp)

theorem readEntries_eq (cm done : ConnectionMap) (h : IsMap (done ++ cm)) :
    readEntries cm.length ((cm.map fun x => x.1 :: (x.2.length : ℤ) :: x.2).flatten) done = done ++ cm := by
  induction cm generalizing done with
  | nil => simp [readEntries]
  | cons x cm ih =>
    simp only [List.length_cons, List.map_cons, List.flatten_cons, List.cons_append, readEntries, Int.toNat_natCast, List.take_left, List.drop_left]
    rw [h.emplace, ih (done ++ [x]) (by simpa using h)]
    simp

theorem validEntries_eq (cm : ConnectionMap) (h : ∀ x ∈ cm, 0 ≤ x.1 ∧ x.2.Nodup) :
    validEntries cm.length ((cm.map fun x => x.1 :: (x.2.length : ℤ) :: x.2).flatten) = true := by
  induction cm with
  | nil => rfl
  | cons x cm ih =>
    obtain ⟨h1, h2⟩ := h x (by simp)
    simp only [List.length_cons, List.map_cons, List.flatten_cons, List.cons_append, validEntries, Int.toNat_natCast, List.take_left, List.drop_left,
      ih fun y hy => h y (by simp [hy])]
    simp [h1, h2]

theorem interleave_get (d off : ℕ) (c : List ℚ) (k : ℕ) (hk : k < d) :
    (interleave d off c).getD (2 * k) 0 = c.getD (off + k) 0 ∧ (interleave d off c).getD (2 * k + 1) 0 = c.getD (off + k + d) 0 := by
  have hl : ∀ x ∈ (List.range d).map fun k => [c.getD (off + k) 0, c.getD (off + k + d) 0], x.length = 2 := by
    intro x hx
    obtain ⟨y, -, rfl⟩ := List.mem_map.1 hx
    rfl
  constructor
  · have := flatten_get _ 2 hl k 0 (by omega)
    rw [Nat.add_zero] at this
    unfold interleave
    rw [List.getD_eq_getElem?_getD, this, List.getElem?_map, List.getElem?_range hk]
    rfl
  · unfold interleave
    rw [List.getD_eq_getElem?_getD, flatten_get _ 2 hl k 1 (by omega), List.getElem?_map, List.getElem?_range hk]
    rfl

/-- Reading back the two corners at any position of the buffer. -/
theorem box_at (b : Box d) (pre post : List ℚ) : boxOfBounds d (interleave d pre.length (pre ++ (List.ofFn b.lo ++ List.ofFn b.hi) ++ post)) = b := by
  have hl : ∀ k : Fin d, (pre ++ (List.ofFn b.lo ++ List.ofFn b.hi) ++ post).getD (pre.length + k) 0 = b.lo k := by
    intro k
    rw [List.getD_eq_getElem?_getD, List.append_assoc, List.getElem?_append_right (by omega), Nat.add_sub_cancel_left,
      List.getElem?_append_left (by simp; omega), List.getElem?_append_left (by simp)]
    simp
  have hh : ∀ k : Fin d, (pre ++ (List.ofFn b.lo ++ List.ofFn b.hi) ++ post).getD (pre.length + k + d) 0 = b.hi k := by
    intro k
    rw [List.getD_eq_getElem?_getD, List.append_assoc, List.getElem?_append_right (by omega),
      List.getElem?_append_left (by simp; omega), List.getElem?_append_right (by simp; omega)]
    have : pre.length + k + d - pre.length - (List.ofFn b.lo).length = k := by rw [List.length_ofFn]; omega
    rw [this]
    simp
  obtain ⟨lo, hi⟩ := b
  unfold boxOfBounds
  congr 1
  · funext k
    rw [(interleave_get d _ _ k k.2).1]
    exact hl k
  · funext k
    rw [(interleave_get d _ _ k k.2).2]
    exact hh k

/-! ## Main theorems -/

/-- A connection map with at least one entry arrives unchanged. (The callers never send an empty one, see ReceivedPartition.cpp:456-462.) -/
theorem C67_connections_partial (cm : ConnectionMap) (hm : IsMap cm) (hne : cm ≠ []) (h : ∀ x ∈ cm, 0 ≤ x.1 ∧ x.2.Nodup) :
    RNet.AlwaysCompletes (transferConnections cm) fun _ => cm := by
  have hv : validConnections (serializeConnections cm) = true := by
    obtain ⟨x, l, rfl⟩ := List.exists_cons_of_ne_nil hne
    simp only [validConnections, serializeConnections, Int.toNat_natCast, validEntries_eq _ h]
    simp
    omega
  have hr : toConnections (serializeConnections cm) = cm := by
    have h0 : (cm.length : ℤ) ≠ 0 := by simpa using hne
    simp only [toConnections, serializeConnections, if_neg h0, Int.toNat_natCast]
    rw [readEntries_eq cm [] hm]
    rfl
  have : Meet (Prog.ensure .assert (validConnections (serializeConnections cm) = true) (.send false (.ints (serializeConnections cm)) (.ret cm)))
      (recvInts fun c => Prog.ensure .assert (validConnections c = true) (.ret (toConnections c))) cm cm := by
    simp only [Prog.ensure, if_pos hv, recvInts]
    refine .fwd ?_
    simp only [if_pos hv, hr]
    exact .ret _ _
  have h2 := this.alwaysCompletes
  have he : (fun x : Bool => bif x then cm else cm) = fun _ => cm := by funext x; cases x <;> rfl
  rw [he] at h2
  exact h2

/-- An empty connection map cannot be sent: the serialized form `{0}` violates the assertion that it has more than one entry (in builds with assertions). -/
theorem C67_empty_connections_rejected : transferConnections [] true = .fail .assert := rfl

/-- A bounding box arrives unchanged, also the "illegal" default one. -/
theorem C67_box (b : Box d) (hd : d = 2 ∨ d = 3) : RNet.AlwaysCompletes (transferBox b) fun _ => b := by
  have hv : validBox (serializeBox b) = true := by
    rcases hd with rfl | rfl <;> simp [validBox, serializeBox]
  have hr : toBox d (serializeBox b) = some b := by
    unfold toBox
    rw [if_pos (show (serializeBox b).getD 0 0 = d from rfl)]
    have := box_at b [(d : ℚ)] []
    rw [List.append_nil] at this
    exact congrArg some this
  have : Meet (Prog.ensure .assert (validBox (serializeBox b) = true) (.send false (.reals (serializeBox b)) (.ret b)))
      (recvReals fun c => Prog.ensure .assert (validBox c = true) (match toBox d c with
        | some b => .ret b
        | none => .fail .assert)) b b := by
    simp only [Prog.ensure, if_pos hv, recvReals]
    refine .fwd ?_
    simp only [if_pos hv, hr]
    exact .ret _ _
  have h2 := this.alwaysCompletes
  have he : (fun x : Bool => bif x then b else b) = fun _ => b := by funext x; cases x <;> rfl
  rw [he] at h2
  exact h2

theorem toBoxMap_serialize (m : BoxMap d) (hm : IsMap m) : toBoxMap d (serializeBoxMap m).1 (serializeBoxMap m).2 = some m := by
  unfold serializeBoxMap toBoxMap
  by_cases h0 : m = []
  · simp [h0]
  · rw [if_neg h0]
    have hl : ((m.length : ℤ) :: (d : ℤ) :: m.map (·.1)).length ≠ 1 := by simp
    rw [if_neg hl, if_neg (not_not.2 (show (((m.length : ℤ) :: (d : ℤ) :: m.map (·.1)).getD 1 0) = d from rfl))]
    congr 1
    have hn : (((m.length : ℤ) :: (d : ℤ) :: m.map (·.1)).getD 0 0).toNat = m.length := by simp
    rw [hn]
    have key : ∀ n ≤ m.length, (List.range n).foldl (fun r j => emplace (((m.length : ℤ) :: (d : ℤ) :: m.map (·.1)).getD (2 + j) 0)
        (boxOfBounds d (interleave d (2 * d * j) ((m.map fun x => List.ofFn x.2.lo ++ List.ofFn x.2.hi).flatten))) r) [] = m.take n := by
      intro n
      induction n with
      | zero => intro _; rfl
      | succ n ih =>
        intro hn
        have hn' : n < m.length := by omega
        rw [List.range_succ, List.foldl_append, ih (by omega), List.foldl_cons, List.foldl_nil, List.take_add_one, List.getElem?_eq_getElem hn']
        have h1 : ((m.length : ℤ) :: (d : ℤ) :: m.map (·.1)).getD (2 + n) 0 = m[n].1 := by
          rw [Nat.add_comm, List.getD_eq_getElem?_getD, List.getElem?_cons_succ, List.getElem?_cons_succ, List.getElem?_map, List.getElem?_eq_getElem hn']
          rfl
        have hsplit : m = m.take n ++ m[n] :: m.drop (n + 1) := by
          rw [List.getElem_cons_drop, List.take_append_drop]
        have h2 : boxOfBounds d (interleave d (2 * d * n) ((m.map fun x => List.ofFn x.2.lo ++ List.ofFn x.2.hi).flatten)) = m[n].2 := by
          have hlen : (((m.take n).map fun x => List.ofFn x.2.lo ++ List.ofFn x.2.hi).flatten).length = 2 * d * n := by
            rw [flatten_length _ (2 * d) (by
              intro x hx
              obtain ⟨y, -, rfl⟩ := List.mem_map.1 hx
              simp
              omega), List.length_map, List.length_take, min_eq_left hn'.le, Nat.mul_comm]
          have := box_at m[n].2 (((m.take n).map fun x => List.ofFn x.2.lo ++ List.ofFn x.2.hi).flatten)
            (((m.drop (n + 1)).map fun x => List.ofFn x.2.lo ++ List.ofFn x.2.hi).flatten)
          rw [hlen] at this
          rw [← this]
          congr 2
          have := congrArg (fun l => (List.map (fun x : ℤ × Box d => List.ofFn x.2.lo ++ List.ofFn x.2.hi) l).flatten) hsplit
          simp only [List.map_append, List.map_cons, List.flatten_append, List.flatten_cons] at this
          rw [this]
          simp
        rw [h1, h2]
        refine IsMap.emplace (l' := m.drop (n + 1)) ?_
        rw [← hsplit]
        exact hm
    rw [key _ le_rfl, List.take_length]

/-- A map of bounding boxes arrives unchanged, also an empty one. -/
theorem C67_box_map (m : BoxMap d) (hm : IsMap m) (hd : d = 2 ∨ d = 3) (h : ∀ x ∈ m, 0 ≤ x.1) :
    RNet.AlwaysCompletes (transferBoxMap m) fun _ => m := by
  have hr := toBoxMap_serialize m hm
  have hv : validBoxMap (serializeBoxMap m).1 (serializeBoxMap m).2 = true := by
    unfold serializeBoxMap
    by_cases h0 : m = []
    · simp [h0, validBoxMap]
    · rw [if_neg h0]
      unfold validBoxMap
      have hl : ((m.length : ℤ) :: (d : ℤ) :: m.map (·.1)).length ≠ 1 := by simp
      rw [if_neg (by simp), if_neg hl]
      have hlen : (((m.map fun x => List.ofFn x.2.lo ++ List.ofFn x.2.hi).flatten).length : ℤ) = m.length * d * 2 := by
        rw [flatten_length _ (2 * d) (by
          intro x hx
          obtain ⟨y, -, rfl⟩ := List.mem_map.1 hx
          simp
          omega), List.length_map]
        push_cast
        ring
      have hd' : (d : ℤ) = 2 ∨ (d : ℤ) = 3 := by omega
      simp only [List.getD_cons_zero, List.getD_cons_succ, hlen, decide_true, Bool.and_true, List.drop_succ_cons, List.drop_zero, Bool.and_eq_true,
        Bool.or_eq_true, decide_eq_true_eq, List.all_map, List.all_eq_true, Function.comp]
      refine ⟨⟨by simp; omega, hd'⟩, fun x hx => h x hx⟩
  have he : (fun x : Bool => bif x then m else m) = fun _ => m := by funext x; cases x <;> rfl
  rw [← he]
  refine Meet.alwaysCompletes ?_
  simp only [Prog.ensure, recvInts, recvReals]
  rw [if_pos fun _ => hv]
  refine .fwd ?_
  simp only []
  by_cases hl : (serializeBoxMap m).1.length > 1
  · rw [if_pos hl, if_pos hl]
    refine .fwd ?_
    simp only [if_pos hv, hr]
    exact .ret _ _
  · rw [if_neg hl, if_neg hl]
    have h0 : m = [] := by
      by_contra h0
      unfold serializeBoxMap at hl
      rw [if_neg h0] at hl
      simp at hl
    subst h0
    exact .ret _ _

/-- Non-vacuity -/
example : IsMap ([(0, [3, 1]), (4, []), (7, [2])] : ConnectionMap) ∧ ∀ x ∈ ([(0, [3, 1]), (4, []), (7, [2])] : ConnectionMap), 0 ≤ x.1 ∧ x.2.Nodup := by
  unfold IsMap
  decide

example : IsMap ([(1, ⟨![0, 0], ![1, 2]⟩), (3, Box.default 2)] : BoxMap 2) := by
  simp [IsMap]

end Verif.Com
