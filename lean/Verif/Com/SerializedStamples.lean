import Verif.Com.SerializedMesh
import Verif.Dist.PointToPoint
import Verif.Time.Differences

/-!
# Transfer of all samples of a time window (C65)

Model of `/repo/src/com/SerializedStamples.cpp` and of its use in `BaseCouplingScheme::sendData` and `receiveData`
(`/repo/src/cplscheme/BaseCouplingScheme.cpp:112-204`) with substeps. `dims` is the number of components of the data, `meshDims` the dimension of the mesh.
-/

set_option autoImplicit false

namespace Verif.Com

variable {V : Type}

/-- `Stample`: a sample with its time; the gradients are the column-major storage of the matrix (empty without gradients). -/
structure Stample (V : Type) where
  time : ℚ
  values : List V
  grads : List V

/-! ## The buffers -/

/-- The inner loop of `serializeValues` and `serializeGradients`, SerializedStamples.cpp:53-55, 65-67. -/
def writeSlice (T : ℕ) (slice : List V) (t : ℕ) (dflt : V) (buf : ℕ → V) : ℕ → V :=
  (List.range slice.length).foldl (fun b i => Function.update b (i * T + t) (slice.getD i dflt)) buf

/-- The outer loop, SerializedStamples.cpp:51-57, 63-69. -/
def writeSlices (T : ℕ) (dflt : V) : List (List V) → ℕ → (ℕ → V) → ℕ → V
  | [], _, buf => buf
  | s :: l, t, buf => writeSlices T dflt l (t + 1) (writeSlice T s t dflt buf)

/-- Reading back one time, SerializedStamples.cpp:83-86, 93-97. -/
def readSlice (T n : ℕ) (buf : ℕ → V) (t : ℕ) : List V := (List.range n).map fun i => buf (i * T + t)

/-- `SerializedStamples` after `serialize`, SerializedStamples.cpp:7-18, 38-70: `garbage` is the uninitialised memory of the buffers. The gradients are allocated with one factor
`dims` too many. -/
def serializeStamples (dims meshDims : ℕ) (hasGrad : Bool) (nVerts : ℕ) (dflt : V) (garbage : ℕ → V) (l : List (Stample V)) : Dist.Arr V × Dist.Arr V :=
  (⟨l.length * (nVerts * dims), writeSlices l.length dflt (l.map (·.values)) 0 garbage⟩,
   if hasGrad then ⟨l.length * (nVerts * dims) * meshDims * dims, writeSlices l.length dflt (l.map (·.grads)) 0 garbage⟩ else ⟨0, garbage⟩)

/-- `Waveform::setSampleAtTime`, Waveform.cpp:29-52, on samples with any content. -/
def setStample (s : Stample V) (w : List (Stample V)) : Option (List (Stample V)) :=
  match w with
  | [] => some [s]
  | first :: _ =>
    if smallerEquals first.time s.time then
      if w.any (fun x => decide (equals x.time s.time)) then
        some (w.mapIdx fun i x => if w.findIdx? (fun x => decide (equals x.time s.time)) = some i then { s with time := x.time } else x)
      else if smaller ((w.getLast?.map (·.time)).getD (-1)) s.time then some (w ++ [s]) else none
    else none

/-- `deserialize`, SerializedStamples.cpp:72-100, into a cleared waveform. -/
def deserializeStamples (times : List ℚ) (n ng : ℕ) (hasGrad : Bool) (values grads : ℕ → V) : Option (List (Stample V)) :=
  (List.range times.length).foldlM (fun w t => setStample ⟨times.getD t 0, readSlice times.length n values t, if hasGrad then readSlice times.length ng grads t else []⟩ w) []

/-! ## Specification -/

/-- The times are ascending by more than the tolerance, which every waveform guarantees (C23). -/
def TimesSpaced (l : List (Stample V)) : Prop := l.Pairwise fun a b => a.time + tol < b.time

/-- All samples have the size of the data. -/
def Sized (nVerts dims meshDims : ℕ) (hasGrad : Bool) (l : List (Stample V)) : Prop :=
  ∀ s ∈ l, s.values.length = nVerts * dims ∧ s.grads.length = if hasGrad then nVerts * dims * meshDims else 0

/-! ## Lemmas -/

theorem writeSlice_at (T : ℕ) (slice : List V) (t : ℕ) (ht : t < T) (dflt : V) (buf : ℕ → V) (i u : ℕ) (hu : u < T) :
    writeSlice T slice t dflt buf (i * T + u) = if u = t ∧ i < slice.length then slice.getD i dflt else buf (i * T + u) := by
  unfold writeSlice
  have key : ∀ n, (List.range n).foldl (fun b i => Function.update b (i * T + t) (slice.getD i dflt)) buf (i * T + u) =
      if u = t ∧ i < n then slice.getD i dflt else buf (i * T + u) := by
    intro n
    induction n with
    | zero => simp
    | succ n ih =>
      rw [List.range_succ, List.foldl_append, List.foldl_cons, List.foldl_nil, Function.update_apply]
      have hiff : i * T + u = n * T + t ↔ i = n ∧ u = t := by
        constructor
        · intro h
          have h1 : (i * T + u) / T = (n * T + t) / T := by rw [h]
          rw [Nat.mul_comm i, Nat.mul_comm n, Nat.mul_add_div (by omega), Nat.mul_add_div (by omega), Nat.div_eq_of_lt hu, Nat.div_eq_of_lt ht] at h1
          have : i = n := by omega
          subst this
          exact ⟨rfl, by omega⟩
        · rintro ⟨rfl, rfl⟩; rfl
      by_cases h : i = n ∧ u = t
      · rw [if_pos (hiff.2 h), if_pos ⟨h.2, by omega⟩, h.1]
      · rw [if_neg fun e => h (hiff.1 e), ih]
        by_cases h2 : u = t ∧ i < n
        · rw [if_pos h2, if_pos ⟨h2.1, by omega⟩]
        · rw [if_neg h2, if_neg fun e => h ⟨by
            have := e.2
            have : ¬ i < n := fun hi => h2 ⟨e.1, hi⟩
            omega, e.1⟩]
  exact key _

theorem writeSlices_at (T : ℕ) (dflt : V) (l : List (List V)) (t0 : ℕ) (hT : t0 + l.length ≤ T) (buf : ℕ → V) (i u : ℕ) (hu : u < T) :
    writeSlices T dflt l t0 buf (i * T + u) = match (if t0 ≤ u then l[u - t0]? else none) with
      | some s => if i < s.length then s.getD i dflt else buf (i * T + u)
      | none => buf (i * T + u) := by
  induction l generalizing t0 buf with
  | nil => simp [writeSlices]
  | cons s l ih =>
    rw [List.length_cons] at hT
    unfold writeSlices
    rw [ih (t0 + 1) (by omega)]
    have hw := writeSlice_at T s t0 (by omega) dflt buf i u hu
    rcases Nat.lt_trichotomy u t0 with h | h | h
    · rw [if_neg (by omega), if_neg (by omega), hw, if_neg (by omega)]
    · subst h
      rw [if_neg (by omega), if_pos le_rfl, Nat.sub_self, List.getElem?_cons_zero, hw]
      simp only [true_and]
    · rw [if_pos (by omega), if_pos (by omega), hw, if_neg (by omega)]
      obtain ⟨e, rfl⟩ : ∃ e, u = t0 + 1 + e := ⟨u - (t0 + 1), by omega⟩
      have h1 : t0 + 1 + e - (t0 + 1) = e := by omega
      have h2 : t0 + 1 + e - t0 = e + 1 := by omega
      rw [h1, h2, List.getElem?_cons_succ]

/-- What is in the buffer for value `i` of time `t`. -/
theorem writeSlices_get (dflt : V) (l : List (List V)) (buf : ℕ → V) (i t : ℕ) (s : List V) (hs : l[t]? = some s) (hi : i < s.length) :
    writeSlices l.length dflt l 0 buf (i * l.length + t) = s.getD i dflt := by
  rw [writeSlices_at l.length dflt l 0 (by omega) buf i t (List.getElem?_eq_some_iff.1 hs).1, if_pos (by omega), Nat.sub_zero, hs]
  simp only [if_pos hi]

theorem readSlice_writeSlices (dflt : V) (l : List (List V)) (buf : ℕ → V) (n t : ℕ) (s : List V) (hs : l[t]? = some s) (hn : s.length = n) :
    readSlice l.length n (writeSlices l.length dflt l 0 buf) t = s := by
  subst hn
  unfold readSlice
  refine List.ext_getElem? fun i => ?_
  rw [List.getElem?_map]
  by_cases hi : i < s.length
  · rw [List.getElem?_range hi, Option.map_some, writeSlices_get dflt l buf i t s hs hi, List.getElem?_eq_getElem hi, List.getD_eq_getElem?_getD,
      List.getElem?_eq_getElem hi, Option.getD_some]
  · rw [List.getElem?_eq_none (by simp; omega), List.getElem?_eq_none (by omega), Option.map_none]

theorem setStample_append (w : List (Stample V)) (s : Stample V) (h : ∀ x ∈ w, x.time + tol < s.time) : setStample s w = some (w ++ [s]) := by
  have htol := tol_pos
  cases w with
  | nil => rfl
  | cons first w =>
    unfold setStample
    have h1 : smallerEquals first.time s.time := by
      have := h first (by simp)
      unfold smallerEquals; linarith
    have h2 : ¬ ((first :: w).any fun x => decide (equals x.time s.time)) = true := by
      simp only [List.any_eq_true, decide_eq_true_eq, not_exists, not_and]
      intro x hx he
      have := h x hx
      rw [equals_iff] at he
      linarith [he.1]
    have h3 : smaller (((first :: w).getLast?.map (·.time)).getD (-1)) s.time := by
      have := h _ (List.getLast_mem (List.cons_ne_nil first w))
      rw [List.getLast?_eq_some_getLast (List.cons_ne_nil first w), Option.map_some, Option.getD_some]
      unfold smaller
      linarith
    simp only [if_pos h1, if_neg h2, if_pos h3]

theorem foldlM_setStample (l : List (Stample V)) (hs : TimesSpaced l) (f : ℕ → Stample V) (hf : ∀ t s, l[t]? = some s → f t = s) :
    (List.range l.length).foldlM (fun w t => setStample (f t) w) [] = some l := by
  have key : ∀ n ≤ l.length, (List.range n).foldlM (fun w t => setStample (f t) w) [] = some (l.take n) := by
    intro n
    induction n with
    | zero => intro _; rfl
    | succ n ih =>
      intro hn
      have hn' : n < l.length := by omega
      rw [List.range_succ, List.foldlM_append, ih (by omega)]
      simp only [Option.bind_eq_bind, Option.bind_some, List.foldlM_cons, List.foldlM_nil]
      rw [hf n l[n] (List.getElem?_eq_getElem hn'), setStample_append]
      · rw [List.take_add_one, List.getElem?_eq_getElem hn']; rfl
      · intro x hx
        obtain ⟨i, hi, rfl⟩ := List.mem_iff_getElem.1 hx
        rw [List.length_take] at hi
        rw [List.getElem_take]
        exact List.pairwise_iff_getElem.1 hs i n (by omega) hn' (by omega)
  rw [key _ le_rfl, List.take_length]

/-! ## One rank on each side -/

/-- What is received into a buffer of known size must have this size. -/
def recvSized {α : Type} (n : ℕ) (K : List ℚ → Prog Bool Msg α) : Prog Bool Msg α := recvReals fun l => Prog.ensure .assert (l.length = n) (K l)

/-- The buffer as a message. -/
def Arr.toList (a : Dist.Arr ℚ) : List ℚ := (List.range a.size).map a.get

/-- `sendData` and `receiveData`, BaseCouplingScheme.cpp:102-204, of one data set with substeps between two serial participants that use only the primary communication. -/
def transferStamples (nVerts dims meshDims : ℕ) (hasGrad : Bool) (garbage : ℕ → ℚ) (l : List (Stample ℚ)) : Bool → Prog Bool Msg (List (Stample ℚ)) :=
  let s := serializeStamples dims meshDims hasGrad nVerts 0 garbage l
  pair
    (Prog.ensure .assert (l ≠ [])
      (.send false (.ints [(l.length : ℤ)]) (.send false (.reals (l.map (·.time))) (.send false (.reals (Arr.toList s.1))
        (if hasGrad then .send false (.reals (Arr.toList s.2)) (.ret l) else .ret l)))))
    (recvInts fun ns => Prog.ensure .assert (0 < ns.getD 0 0)
      (recvSized (ns.getD 0 0).toNat fun times => recvSized ((ns.getD 0 0).toNat * (nVerts * dims)) fun values =>
        let finish (grads : List ℚ) : Prog Bool Msg (List (Stample ℚ)) :=
          match deserializeStamples times (nVerts * dims) (nVerts * dims * meshDims) hasGrad (fun i => values.getD i 0) (fun i => grads.getD i 0) with
          | some w => .ret w
          | none => .fail .assert
        if hasGrad then recvSized ((ns.getD 0 0).toNat * (nVerts * dims) * meshDims * dims) finish else finish []))

theorem toList_getD (a : Dist.Arr ℚ) (i : ℕ) (hi : i < a.size) : (Arr.toList a).getD i 0 = a.get i := by
  unfold Arr.toList
  simp [hi]

theorem toList_length (a : Dist.Arr ℚ) : (Arr.toList a).length = a.size := by simp [Arr.toList]

theorem readSlice_toList (T n : ℕ) (a : Dist.Arr ℚ) (h : n * T ≤ a.size) (t : ℕ) (ht : t < T) :
    readSlice T n (fun i => (Arr.toList a).getD i 0) t = readSlice T n a.get t := by
  unfold readSlice
  refine List.map_congr_left fun i hi => toList_getD a _ ?_
  have : i < n := List.mem_range.1 hi
  calc i * T + t < i * T + T := by omega
    _ = (i + 1) * T := by ring
    _ ≤ n * T := Nat.mul_le_mul_right _ this
    _ ≤ a.size := h

/-- The samples of a data set arrive unchanged: the same times, values and gradients, whatever was in the freshly allocated buffers. -/
theorem C65_lossless (nVerts dims meshDims : ℕ) (hd : 0 < dims) (hasGrad : Bool) (garbage : ℕ → ℚ) (l : List (Stample ℚ)) (hne : l ≠ []) (hs : TimesSpaced l)
    (hz : Sized nVerts dims meshDims hasGrad l) : RNet.AlwaysCompletes (transferStamples nVerts dims meshDims hasGrad garbage l) fun _ => l := by
  have he : (fun x : Bool => bif x then l else l) = fun _ => l := by funext x; cases x <;> rfl
  rw [← he]
  refine Meet.alwaysCompletes ?_
  simp only [Prog.ensure, recvInts, recvSized, recvReals, if_pos hne]
  refine .fwd ?_
  have hpos : (0 : ℤ) < ([(l.length : ℤ)] : List ℤ).getD 0 0 := by
    have := List.length_pos_iff.2 hne
    simpa using this
  have hn : (([(l.length : ℤ)] : List ℤ).getD 0 0).toNat = l.length := by simp
  simp only [if_pos hpos, hn]
  refine .fwd ?_
  simp only [if_pos (List.length_map (f := fun s : Stample ℚ => s.time) (as := l))]
  refine .fwd ?_
  have h1 : (Arr.toList (serializeStamples dims meshDims hasGrad nVerts 0 garbage l).1).length = l.length * (nVerts * dims) := toList_length _
  simp only [if_pos h1]
  have main : ∀ grads : List ℚ, (hasGrad = true → grads = Arr.toList (serializeStamples dims meshDims hasGrad nVerts 0 garbage l).2) →
      deserializeStamples (l.map (·.time)) (nVerts * dims) (nVerts * dims * meshDims) hasGrad
        (fun i => (Arr.toList (serializeStamples dims meshDims hasGrad nVerts 0 garbage l).1).getD i 0) (fun i => grads.getD i 0) = some l := by
    intro grads hg
    unfold deserializeStamples
    rw [List.length_map]
    refine foldlM_setStample l hs _ ?_
    intro t s hts
    have ht : t < l.length := (List.getElem?_eq_some_iff.1 hts).1
    obtain ⟨hv, hgr⟩ := hz s (List.mem_of_getElem? hts)
    have e1 : (l.map (·.time)).getD t 0 = s.time := by simp [List.getD_eq_getElem?_getD, hts]
    have hlv : (l.map (·.values)).length = l.length := by simp
    have hlg : (l.map (·.grads)).length = l.length := by simp
    have e2 : readSlice l.length (nVerts * dims) (fun i => (Arr.toList (serializeStamples dims meshDims hasGrad nVerts 0 garbage l).1).getD i 0) t = s.values := by
      rw [readSlice_toList _ _ _ (by simp only [serializeStamples]; rw [Nat.mul_comm]) t ht]
      simp only [serializeStamples]
      have := readSlice_writeSlices 0 (l.map (·.values)) garbage (nVerts * dims) t s.values (by simp [hts]) hv
      rw [hlv] at this
      exact this
    cases hasGrad with
    | false =>
      have : s.grads = [] := by simpa using hgr
      simp only [e1, e2, Bool.false_eq_true, if_false, ← this]
    | true =>
      have e3 : readSlice l.length (nVerts * dims * meshDims) (fun i => grads.getD i 0) t = s.grads := by
        rw [hg rfl, readSlice_toList _ _ _ (by
          simp only [serializeStamples, if_true]
          calc nVerts * dims * meshDims * l.length = l.length * (nVerts * dims) * meshDims * 1 := by ring
            _ ≤ l.length * (nVerts * dims) * meshDims * dims := Nat.mul_le_mul_left _ hd) t ht]
        simp only [serializeStamples, if_true]
        have := readSlice_writeSlices 0 (l.map (·.grads)) garbage (nVerts * dims * meshDims) t s.grads (by simp [hts]) (by simpa using hgr)
        rw [hlg] at this
        exact this
      simp only [e1, e2, e3, if_true]
  cases hasGrad with
  | false =>
    simp only [Bool.false_eq_true, if_false]
    rw [main [] (by simp)]
    exact .ret _ _
  | true =>
    simp only [if_true]
    refine .fwd ?_
    have h2 : (Arr.toList (serializeStamples dims meshDims true nVerts 0 garbage l).2).length = l.length * (nVerts * dims) * meshDims * dims := toList_length _
    simp only [if_pos h2]
    rw [main _ fun _ => rfl]
    exact .ret _ _

/-! ## Parallel participants -/

variable {n m : ℕ}

/-- The values of all samples, gathered and scattered with blocks of `dims` times the number of samples: every rank of the receiving participant can read back, for each time, the
value of each of its vertices. All ranks of the sending participant have samples at the same times. -/
theorem C65_parallel_partial [AddCommMonoid V] (T dims meshDims total : ℕ) (hT : 0 < T) (hd : 0 < dims) (dist : Fin (n + 1) → List ℕ) (dist' : Fin (m + 1) → List ℕ)
    (samples : Fin (n + 1) → List (Stample V)) (hlen : ∀ r, (samples r).length = T) (hz : ∀ r, Sized (dist r).length dims meshDims false (samples r))
    (garbage : Fin (n + 1) → ℕ → V) (buf : Fin (m + 1) → Dist.Arr V) (hbuf : ∀ r, (buf r).size = T * ((dist' r).length * dims)) :
    ∃ res, RNet.AlwaysCompletes (Dist.gsTransfer (dims * T) total dist dist' (fun r => (serializeStamples dims meshDims false (dist r).length 0 (garbage r) (samples r)).1) buf) res ∧
      ∀ s t i g c, t < T → (dist' s)[i]? = some g → c < dims →
        (readSlice T ((dist' s).length * dims) (res (.inr s)).get t)[dims * i + c]? =
          some (Dist.globalValue dims dist (fun r j => (((samples r)[t]?.map (·.values)).getD []).getD j 0) g c) := by
  obtain ⟨res, h1, -, h3⟩ := Dist.C60_gather_scatter (dims * T) total (Nat.mul_pos hd hT) dist dist'
    (fun r => (serializeStamples dims meshDims false (dist r).length 0 (garbage r) (samples r)).1) buf
    (fun r => by simp only [serializeStamples, hlen]; ring) (fun r => by rw [hbuf]; ring)
  refine ⟨res, h1, fun s t i g c ht hg hc => ?_⟩
  have hi : i < (dist' s).length := (List.getElem?_eq_some_iff.1 hg).1
  have hlt : ∀ {L j : ℕ}, j < L → dims * j + c < L * dims := by
    intro L j hj
    calc dims * j + c < dims * j + dims := by omega
      _ = (j + 1) * dims := by ring
      _ ≤ L * dims := Nat.mul_le_mul_right _ hj
  have hct : c * T + t < dims * T := by
    calc c * T + t < c * T + T := by omega
      _ = (c + 1) * T := by ring
      _ ≤ dims * T := Nat.mul_le_mul_right _ hc
  unfold readSlice
  rw [List.getElem?_map, List.getElem?_range (hlt hi), Option.map_some]
  congr 1
  have hidx : ∀ j, (dims * j + c) * T + t = dims * T * j + (c * T + t) := by intro j; ring
  rw [hidx, (h3 s).2 i g (c * T + t) hg hct]
  unfold Dist.globalValue
  refine Finset.sum_congr rfl fun r _ => Finset.sum_congr rfl fun j hj => ?_
  have hj : j < (dist r).length := Finset.mem_range.1 hj
  split
  · have htr : t < (samples r).length := by rw [hlen]; exact ht
    have hv := (hz r _ (List.getElem_mem htr)).1
    have := writeSlices_get 0 ((samples r).map (·.values)) (garbage r) (dims * j + c) t ((samples r)[t]).values (by simp [htr]) (by rw [hv]; exact hlt hj)
    rw [List.length_map, hlen r, hidx] at this
    simp only [serializeStamples, hlen r]
    rw [this, List.getElem?_eq_getElem htr, Option.map_some, Option.getD_some]
  · rfl

/-- The buffer for the gradients of vector data is larger than what gather-scatter communication expects from a secondary rank; together with `Dist.C60_wrong_size`, gradients of vector
data cannot be sent with substeps from a parallel participant that uses gather-scatter communication. (Point-to-point communication only reads the part of the buffer that is used.) -/
theorem C65_gradient_buffer_too_large (T dims meshDims nVerts : ℕ) (hT : 0 < T) (hd : 1 < dims) (hm : 0 < meshDims) (hn : 0 < nVerts) (dflt : V) (garbage : ℕ → V)
    (l : List (Stample V)) (hl : l.length = T) :
    nVerts * (dims * meshDims * T) < (serializeStamples dims meshDims true nVerts dflt garbage l).2.size := by
  simp only [serializeStamples, if_true, hl]
  have : 0 < T * (nVerts * dims) * meshDims := by positivity
  calc nVerts * (dims * meshDims * T) = T * (nVerts * dims) * meshDims * 1 := by ring
    _ < T * (nVerts * dims) * meshDims * dims := Nat.mul_lt_mul_of_pos_left hd this

/-- The consequence: the primary rank of the sending participant fails when it receives the gradients of its secondary rank. -/
theorem C65_gradient_gather_fails [AddCommMonoid V] (dims meshDims total : ℕ) (hd : 1 < dims) (hm : 0 < meshDims) (dist : Fin 2 → List ℕ) (h : dist 1 ≠ [])
    (l : List (Stample V)) (hl : l ≠ []) (items : Dist.Arr V) (garbage : ℕ → V) :
    ∃ K, Dist.gsSend (n := 1) (m := m) (dims * meshDims * l.length) total dist 0 items = .recv (.inl 1) K ∧
      K (serializeStamples dims meshDims true (dist 1).length 0 garbage l).2 = .fail .assert := by
  refine Dist.C60_wrong_size _ total dist items _ h ?_
  have := C65_gradient_buffer_too_large l.length dims meshDims (dist 1).length (List.length_pos_iff.2 hl) hd hm (List.length_pos_iff.2 h) (0 : V) garbage l rfl
  omega

/-- Non-vacuity: two samples of vector data with gradients. -/
example : TimesSpaced ([⟨0, [1, 2], [0, 0, 0, 1]⟩, ⟨1 / 2, [3, 4], [1, 2, 3, 4]⟩] : List (Stample ℚ)) ∧
    Sized 1 2 2 true ([⟨0, [1, 2], [0, 0, 0, 1]⟩, ⟨1 / 2, [3, 4], [1, 2, 3, 4]⟩] : List (Stample ℚ)) := by
  constructor
  · simp [TimesSpaced, tol]
    norm_num
  · intro s hs
    simp at hs
    rcases hs with rfl | rfl <;> simp

end Verif.Com
