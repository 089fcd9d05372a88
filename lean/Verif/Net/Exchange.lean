import Verif.Net.Rounds
import Verif.Net.Star

/-!
# All programs send, then all receive

With sends that do not block, which is how asynchronous sends or posted asynchronous receives behave.
-/

set_option autoImplicit false

namespace Verif

open Function

variable {ι M α σ : Type} [DecidableEq ι]

/-- Everybody sends some messages and then receives what the others have sent. -/
structure Exchange (p p' : ι → Prog ι M α) where
  /-- what is sent -/
  l : ι → List (ι × M)
  /-- after sending -/
  x : ι → Prog ι M α
  /-- sources to receive from -/
  r : ι → List ι
  /-- what is received -/
  m : ι → List M
  send : ∀ i, p i = sendL (l i) (x i)
  recv : ∀ i, Recvs (x i) (r i) (m i) (p' i)
  take : ∀ i, take (r i) (fun j => toward i (l j)) = some (m i, fun _ => [])

theorem Exchange.buffered {p p' : ι → Prog ι M α} (h : Exchange p p') (all : List ι) (hnd : all.Nodup) (hall : ∀ i, i ∈ all) :
    ∃ k, Net.Steps k (RNet.toNet p) (RNet.toNet p') := by
  have ph1 : ∀ L : List ι, L.Nodup → ∃ k, Net.Steps k (RNet.toNet p)
      ⟨fun i => if i ∈ L then h.x i else p i, fun x => if x.1 ∈ L then toward x.2 (h.l x.1) else []⟩ := by
    intro L
    induction L with
    | nil => intro _; exact ⟨0, .refl _⟩
    | cons i L ih =>
      intro hnd
      rw [List.nodup_cons] at hnd
      obtain ⟨k, hk⟩ := ih hnd.2
      obtain ⟨k2, hk2⟩ := Net.steps_sendL (i := i) (l := h.l i) (k := h.x i)
        (n := ⟨fun i => if i ∈ L then h.x i else p i, fun x => if x.1 ∈ L then toward x.2 (h.l x.1) else []⟩)
        (by simp only [if_neg hnd.1]; exact h.send i)
      refine ⟨k + k2, Net.steps_mk (hk.trans hk2) ?_⟩
      congr 1
      · funext x
        by_cases hx : x = i
        · subst hx; simp
        · simp [List.mem_cons, hx]
      · funext ⟨a, b⟩
        by_cases ha : a = i
        · subst ha; simp [hnd.1]
        · simp [ha, List.mem_cons]
  obtain ⟨k1, hk1⟩ := ph1 all hnd
  have ph2 : ∀ L : List ι, L.Nodup → ∃ k, Net.Steps k (RNet.toNet p)
      ⟨fun i => if i ∈ L then p' i else h.x i, fun x => if x.2 ∈ L then [] else toward x.2 (h.l x.1)⟩ := by
    intro L
    induction L with
    | nil =>
      intro _
      refine ⟨k1, Net.steps_mk hk1 ?_⟩
      congr 1
      · funext i; simp [hall]
      · funext x; simp [hall]
    | cons i L ih =>
      intro hnd
      rw [List.nodup_cons] at hnd
      obtain ⟨k, hk⟩ := ih hnd.2
      obtain ⟨k2, hk2⟩ := Net.steps_recvL (i := i) (ch' := fun _ => []) (h.recv i)
        (n := ⟨fun i => if i ∈ L then p' i else h.x i, fun x => if x.2 ∈ L then [] else toward x.2 (h.l x.1)⟩)
        (by simp only [if_neg hnd.1]) (by simp only [hnd.1, if_false]; exact h.take i)
      refine ⟨_, Net.steps_mk (hk.trans hk2) ?_⟩
      congr 1
      · funext x
        by_cases hx : x = i
        · subst hx; simp
        · simp [List.mem_cons, hx]
      · funext ⟨a, b⟩
        by_cases hb : b = i
        · subst hb; simp
        · simp [hb, List.mem_cons]
  obtain ⟨k2, hk2⟩ := ph2 all hnd
  refine ⟨k2, Net.steps_mk hk2 ?_⟩
  unfold RNet.toNet
  congr 1
  · funext x; simp [hall]
  · funext x; simp [hall]

omit [DecidableEq ι] in
theorem scatter_eq (m : ι → M) (K : Prog ι M α) (l : List ι) : scatter m K l = sendL (l.map fun r => (r, m r)) K := by
  induction l with
  | nil => rfl
  | cons r l ih => rw [scatter, ih]; rfl

omit [DecidableEq ι] in
theorem recvs_gather (f : σ → ι → M → σ) (K : σ → Prog ι M α) (m : ι → M) (l : List ι) : ∀ s,
    Recvs (gather f K l s) l (l.map m) (K (l.foldl (fun s r => f s r (m r)) s)) := by
  induction l with
  | nil => intro s; exact .nil _
  | cons r l ih => intro s; exact .cons (ih _)

theorem toward_targets (m : ι → M) (b : ι) (l : List ι) (hl : l.Nodup) :
    toward b (l.map fun r => (r, m r)) = if b ∈ l then [m b] else [] := by
  induction l with
  | nil => rfl
  | cons r l ih =>
    rw [List.nodup_cons] at hl
    rw [List.map_cons, toward, ih hl.2]
    by_cases h : r = b
    · subst h; simp [hl.1]
    · simp [h, Ne.symm h]

theorem take_targets (m : ι → M) (l : List ι) (hl : l.Nodup) :
    take l (fun j => if j ∈ l then [m j] else []) = some (l.map m, fun _ => []) := by
  induction l with
  | nil => rfl
  | cons r l ih =>
    rw [List.nodup_cons] at hl
    have : update (fun j => if j ∈ r :: l then [m j] else []) r [] = fun j => if j ∈ l then [m j] else [] := by
      funext j
      by_cases h : j = r
      · subst h; simp [hl.1]
      · simp [h]
    simp only [take, List.mem_cons, true_or, if_true]
    simp only [List.mem_cons] at this
    rw [this, ih hl.2]
    rfl

/-- Everybody sends one message to each of their neighbours and then receives one from each of them. -/
theorem exchange_neighbours (nb : ι → List ι) (hnd : ∀ i, (nb i).Nodup) (hsym : ∀ i j, j ∈ nb i → i ∈ nb j)
    (m : ι → ι → M) (f : ι → σ → ι → M → σ) (K : ι → σ → Prog ι M α) (s : ι → σ) (all : List ι) (hall : all.Nodup) (hmem : ∀ i, i ∈ all) :
    ∃ k, Net.Steps k (RNet.toNet fun i => scatter (m i) (gather (f i) (K i) (nb i) (s i)) (nb i))
      (RNet.toNet fun i => K i ((nb i).foldl (fun t j => f i t j (m j i)) (s i))) := by
  refine Exchange.buffered (p := fun i => scatter (m i) (gather (f i) (K i) (nb i) (s i)) (nb i)) ?_ all hall hmem
  refine ⟨fun i => (nb i).map fun r => (r, m i r), fun i => gather (f i) (K i) (nb i) (s i), nb, fun i => (nb i).map fun j => m j i,
    fun i => scatter_eq .., fun i => recvs_gather (f i) (K i) (fun j => m j i) (nb i) (s i), fun i => ?_⟩
  have : (fun j => toward i ((nb j).map fun r => (r, m j r))) = fun j => if j ∈ nb i then [m j i] else [] := by
    funext j
    rw [toward_targets _ _ _ (hnd j)]
    exact if_congr ⟨hsym j i, hsym i j⟩ rfl rfl
  rw [this]
  exact take_targets (fun j => m j i) (nb i) (hnd i)

end Verif
