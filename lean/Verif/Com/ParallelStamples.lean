import Verif.Com.SerializedStamples
import Verif.Dist.PointToPoint

/-!
# C65: waveforms and gradients between parallel participants

The buffers of `SerializedStamples` (values and gradients) over gather-scatter and point-to-point communication, `/repo/src/cplscheme/BaseCouplingScheme.cpp:130-137, 180-187`. The
gradients of a vertex are `dims * meshDims` consecutive numbers of the matrix of gradients (one column for each component).
-/

set_option autoImplicit false

namespace Verif.Com

variable {V : Type} {n m : ℕ}

/-- Reading back what was added up from the serialised slices of all ranks. -/
theorem read_back [AddCommMonoid V] (B T : ℕ) (dist : Fin (n + 1) → List ℕ) (mine : List ℕ) (l : Fin (n + 1) → List (List V)) (hlen : ∀ r, (l r).length = T)
    (hz : ∀ r, ∀ x ∈ l r, x.length = (dist r).length * B) (garbage : Fin (n + 1) → ℕ → V) (get : ℕ → V)
    (h : ∀ i g k, mine[i]? = some g → k < B * T → get (B * T * i + k) = Dist.globalValue (B * T) dist (fun r => writeSlices T 0 (l r) 0 (garbage r)) g k)
    {t i g c : ℕ} (ht : t < T) (hg : mine[i]? = some g) (hc : c < B) :
    (readSlice T (mine.length * B) get t)[B * i + c]? = some (Dist.globalValue B dist (fun r j => ((l r)[t]?.getD []).getD j 0) g c) := by
  have hi : i < mine.length := (List.getElem?_eq_some_iff.1 hg).1
  have hlt : ∀ {L j : ℕ}, j < L → B * j + c < L * B := by
    intro L j hj
    calc B * j + c < B * j + B := by omega
      _ = (j + 1) * B := by ring
      _ ≤ L * B := Nat.mul_le_mul_right _ hj
  have hct : c * T + t < B * T := by
    calc c * T + t < c * T + T := by omega
      _ = (c + 1) * T := by ring
      _ ≤ B * T := Nat.mul_le_mul_right _ hc
  unfold readSlice
  rw [List.getElem?_map, List.getElem?_range (hlt hi), Option.map_some]
  congr 1
  have hidx : ∀ j, (B * j + c) * T + t = B * T * j + (c * T + t) := by intro j; ring
  rw [hidx, h i g (c * T + t) hg hct]
  unfold Dist.globalValue
  refine Finset.sum_congr rfl fun r _ => Finset.sum_congr rfl fun j hj => ?_
  have hj : j < (dist r).length := Finset.mem_range.1 hj
  split
  · have htr : t < (l r).length := by rw [hlen]; exact ht
    have hv := hz r _ (List.getElem_mem htr)
    have := writeSlices_get 0 (l r) (garbage r) (B * j + c) t (l r)[t] (by simp [htr]) (by rw [hv]; exact hlt hj)
    rw [hlen r, hidx] at this
    dsimp only
    rw [this, List.getElem?_eq_getElem htr, Option.getD_some]
  · rfl

/-- What rank `s` reads back at each time for each of its vertices is the value of the samples of the sending ranks at this time: `get` is the received buffer, `part` the values
or the gradients of a sample, with `B` numbers per vertex. -/
def ReadsBack [AddCommMonoid V] (B T : ℕ) (dist : Fin (n + 1) → List ℕ) (mine : List ℕ) (samples : Fin (n + 1) → List (Stample V)) (part : Stample V → List V)
    (get : ℕ → V) : Prop :=
  ∀ t i g c, t < T → mine[i]? = some g → c < B →
    (readSlice T (mine.length * B) get t)[B * i + c]? = some (Dist.globalValue B dist (fun r j => (((samples r)[t]?.map part).getD []).getD j 0) g c)

section

variable [AddCommMonoid V] (T dims meshDims : ℕ) (dist : Fin (n + 1) → List ℕ) (dist' : Fin (m + 1) → List ℕ) (samples : Fin (n + 1) → List (Stample V))
  (garbage : Fin (n + 1) → ℕ → V) (buf : Fin (m + 1) → Dist.Arr V)

/-- The values arrive over point-to-point communication at every rank with a partner. -/
theorem C65_parallel_p2p (hasGrad : Bool) (hT : 0 < T) (hd : 0 < dims) (hs : ∀ r, Dist.Ascending (dist r)) (hs' : ∀ r, Dist.Ascending (dist' r))
    (hlen : ∀ r, (samples r).length = T) (hz : ∀ r, Sized (dist r).length dims meshDims hasGrad (samples r)) (hbuf : ∀ r, (buf r).size = T * ((dist' r).length * dims)) :
    ∃ res, Net.AlwaysCompletes (RNet.toNet (Dist.p2pTransfer (dims * T) dist dist'
        (fun r => (serializeStamples dims meshDims hasGrad (dist r).length 0 (garbage r) (samples r)).1) buf)) res ∧
      ∀ s, (∃ r, ∃ a ∈ dist' s, a ∈ dist r) → ReadsBack dims T dist (dist' s) samples (·.values) (res (.inr s)).get := by
  refine ⟨_, Dist.p2p_completes (dims * T) (Nat.mul_pos hd hT) dist dist' _ buf hs hs' (fun r => by simp only [serializeStamples, hlen]; ring)
    (fun r => by rw [hbuf]; ring), ?_⟩
  rintro s ⟨r, a, ha, hr⟩ t i g c ht hg hc
  have hne : Dist.partners (dist' s) dist ≠ [] := by
    intro e
    have := (Dist.mem_partners (hs' s) hs r).2 ⟨a, ha, hr⟩
    rw [e] at this
    simp at this
  have := read_back dims T dist (dist' s) (fun r => (samples r).map (·.values)) (fun r => by rw [List.length_map, hlen])
    (fun r x hx => by
      obtain ⟨y, hy, rfl⟩ := List.mem_map.1 hx
      exact (hz r y hy).1) garbage (Dist.p2pResult (dims * T) dist dist'
        (fun r => (serializeStamples dims meshDims hasGrad (dist r).length 0 (garbage r) (samples r)).1) buf (.inr s)).get
    (fun i g k hg hk => by
      simp only [Dist.p2pResult, if_neg hne]
      rw [Dist.p2p_value (dims * T) dist dist' _ hs hs' s hg hk]
      simp only [serializeStamples, hlen]) ht hg hc
  simpa only [List.getElem?_map] using this

/-- The gradients arrive over point-to-point communication at every rank with a partner, for any number of components and samples. The buffers are larger than needed. -/
theorem C65_gradients_p2p (hT : 0 < T) (hd : 0 < dims) (hm : 0 < meshDims) (hs : ∀ r, Dist.Ascending (dist r)) (hs' : ∀ r, Dist.Ascending (dist' r))
    (hlen : ∀ r, (samples r).length = T) (hz : ∀ r, Sized (dist r).length dims meshDims true (samples r))
    (hbuf : ∀ r, (buf r).size = T * ((dist' r).length * dims) * meshDims * dims) :
    ∃ res, Net.AlwaysCompletes (RNet.toNet (Dist.p2pTransfer (dims * meshDims * T) dist dist'
        (fun r => (serializeStamples dims meshDims true (dist r).length 0 (garbage r) (samples r)).2) buf)) res ∧
      ∀ s, (∃ r, ∃ a ∈ dist' s, a ∈ dist r) → ReadsBack (dims * meshDims) T dist (dist' s) samples (·.grads) (res (.inr s)).get := by
  have hle : ∀ k : ℕ, k * (dims * meshDims * T) ≤ T * (k * dims) * meshDims * dims := fun k => by
    calc k * (dims * meshDims * T) = T * (k * dims) * meshDims * 1 := by ring
      _ ≤ T * (k * dims) * meshDims * dims := Nat.mul_le_mul_left _ hd
  refine ⟨_, Dist.p2p_completes_le (dims * meshDims * T) (Nat.mul_pos (Nat.mul_pos hd hm) hT) dist dist' _ buf hs hs'
    (fun r => by simp only [serializeStamples, hlen, if_true]; exact hle _) (fun r => by rw [hbuf]; exact hle _), ?_⟩
  rintro s ⟨r, a, ha, hr⟩ t i g c ht hg hc
  have hne : Dist.partners (dist' s) dist ≠ [] := by
    intro e
    have := (Dist.mem_partners (hs' s) hs r).2 ⟨a, ha, hr⟩
    rw [e] at this
    simp at this
  have := read_back (dims * meshDims) T dist (dist' s) (fun r => (samples r).map (·.grads)) (fun r => by rw [List.length_map, hlen])
    (fun r x hx => by
      obtain ⟨y, hy, rfl⟩ := List.mem_map.1 hx
      rw [(hz r y hy).2, if_pos rfl, Nat.mul_assoc]) garbage (Dist.p2pResult (dims * meshDims * T) dist dist'
        (fun r => (serializeStamples dims meshDims true (dist r).length 0 (garbage r) (samples r)).2) buf (.inr s)).get
    (fun i g k hg hk => by
      simp only [Dist.p2pResult, if_neg hne]
      rw [Dist.p2p_value (dims * meshDims * T) dist dist' _ hs hs' s hg hk]
      simp only [serializeStamples, hlen, if_true]) ht hg hc
  simpa only [List.getElem?_map] using this

/-- The gradients of scalar data arrive over gather-scatter communication. Vector data: `C65_gradient_gather_fails`. -/
theorem C65_gradients_gather_scatter (total : ℕ) (hT : 0 < T) (hm : 0 < meshDims) (hlen : ∀ r, (samples r).length = T)
    (hz : ∀ r, Sized (dist r).length 1 meshDims true (samples r)) (hbuf : ∀ r, (buf r).size = T * (dist' r).length * meshDims) :
    ∃ res, RNet.AlwaysCompletes (Dist.gsTransfer (meshDims * T) total dist dist'
        (fun r => (serializeStamples 1 meshDims true (dist r).length 0 (garbage r) (samples r)).2) buf) res ∧
      ∀ s, ReadsBack meshDims T dist (dist' s) samples (·.grads) (res (.inr s)).get := by
  obtain ⟨res, h1, -, h3⟩ := Dist.C60_gather_scatter (meshDims * T) total (Nat.mul_pos hm hT) dist dist'
    (fun r => (serializeStamples 1 meshDims true (dist r).length 0 (garbage r) (samples r)).2) buf
    (fun r => by simp only [serializeStamples, hlen, if_true]; ring) (fun r => by rw [hbuf]; ring)
  refine ⟨res, h1, fun s t i g c ht hg hc => ?_⟩
  have := read_back meshDims T dist (dist' s) (fun r => (samples r).map (·.grads)) (fun r => by rw [List.length_map, hlen])
    (fun r x hx => by
      obtain ⟨y, hy, rfl⟩ := List.mem_map.1 hx
      rw [(hz r y hy).2, if_pos rfl, Nat.mul_one]) garbage (res (.inr s)).get
    (fun i g k hg hk => by
      rw [(h3 s).2 i g k hg hk]
      simp only [serializeStamples, hlen, if_true]) ht hg hc
  simpa only [List.getElem?_map] using this

end

/-- Hypotheses of the theorems: two sending ranks with vector data in two dimensions, two samples, and a vertex on both. -/
example : let dist : Fin 2 → List ℕ := fun r => if r = 0 then [0, 2] else [2]
    let samples : Fin 2 → List (Stample ℚ) := fun r => if r = 0 then [⟨0, [1, 2, 3, 4], [1, 2, 3, 4, 5, 6, 7, 8]⟩, ⟨1, [5, 6, 7, 8], [0, 1, 0, 1, 0, 1, 0, 1]⟩]
      else [⟨0, [1, 2], [1, 2, 3, 4]⟩, ⟨1, [5, 6], [0, 1, 0, 1]⟩]
    (∀ r, Dist.Ascending (dist r)) ∧ (∀ r, (samples r).length = 2) ∧ ∀ r, Sized (dist r).length 2 2 true (samples r) := by
  refine ⟨fun r => ?_, fun r => ?_, fun r => ?_⟩ <;> by_cases h : r = 0 <;> simp [h, Dist.Ascending, Sized]

end Verif.Com
