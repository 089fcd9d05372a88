import Verif.Mapping.RbfParallelRun
import Verif.Mapping.RbfRenumber
import Mathlib.Data.List.NodupEquivFin

/-!
A radial basis function mapping with several ranks computes what one rank computes (C96).
-/

set_option autoImplicit false

namespace Verif.Rbf
open Matrix

variable {n b N m : ℕ}

/-! ## Helpers -/

theorem owned_map {α β : Type} (f : α → β) (l : List (α × Bool)) : owned (l.map fun x => (f x.1, x.2)) = (owned l).map f := by
  induction l with
  | nil => rfl
  | cons x l ih =>
    obtain ⟨a, o⟩ := x
    cases o
    · simpa [owned] using ih
    · simpa [owned] using ih

theorem owned_values {α β : Type} (P : α → Point) (F : α → β) (l : List (α × Bool)) :
    owned ((l.map fun x => F x.1).zip ((l.map fun x => (P x.1, x.2)).map (·.2))) = (owned l).map F := by
  rw [← owned_map]
  congr 1
  induction l with
  | nil => rfl
  | cons x l ih =>
    rw [List.map_cons, List.map_cons, List.map_cons, List.map_cons, List.zip_cons_cons, ih]

theorem mem_owned {α : Type} {l : List (α × Bool)} {a : α} : a ∈ owned l ↔ (a, true) ∈ l := by
  simp [owned]

theorem owned_nodup {α : Type} : ∀ {l : List (α × Bool)}, (∀ (a : α) (i j : ℕ), l[i]? = some (a, true) → l[j]? = some (a, true) → i = j) → (owned l).Nodup
  | [], _ => by simp [owned]
  | (a, o) :: l, h => by
    have ih : (owned l).Nodup := owned_nodup fun a i j hi hj => by
      have := h a (i + 1) (j + 1) (by simpa using hi) (by simpa using hj)
      omega
    cases o
    · simpa [owned] using ih
    · have hcons : owned ((a, true) :: l) = a :: owned l := by simp [owned]
      rw [hcons, List.nodup_cons]
      refine ⟨fun hm => ?_, ih⟩
      obtain ⟨j, hj⟩ := List.mem_iff_getElem?.1 (mem_owned.1 hm)
      have := h a 0 (j + 1) (by simp) (by simpa using hj)
      omega

/-- Vertices which occur once are listed once. -/
theorem flatMap_nodup {α : Type} (f : Fin (n + 1) → List α) (h1 : ∀ r, (f r).Nodup) (h2 : ∀ r r' a, a ∈ f r → a ∈ f r' → r = r') :
    ((allRanks n).flatMap f).Nodup := by
  rw [List.nodup_flatMap]
  refine ⟨fun r _ => h1 r, ?_⟩
  exact (List.nodup_finRange (n + 1)).imp fun hne a ha ha' => hne (h2 _ _ a ha ha')

theorem numbering {L : List (Fin N)} (hn : L.Nodup) (hc : ∀ g, g ∈ L) {k : ℕ} (hk : k = L.length) :
    ∃ σ : Fin k ≃ Fin N, ∀ i : Fin k, L[i.1]? = some (σ i) := by
  subst hk
  refine ⟨List.Nodup.getEquivOfForallMemList L hn hc, fun i => ?_⟩
  rw [List.getElem?_eq_getElem i.2]
  rfl

variable {g : Setting}

/-- The gathered meshes in place of the ones of the serial run, consistent direction. -/
theorem consistent_gathered (he : g.e.Valid) (ho : g.e.OrderFree) {G : Fin N → Point} {Y : Fin m → Point} {s : Solver N m g.pol g.active}
    (h : construct g.e g.spd g.φ g.pol g.active G Y = some s) (hsep : g.pol = .separate → Fintype.card (Poly g.active) ≤ N)
    {n' m' : ℕ} (σ : Fin n' ≃ Fin N) (X' : Fin n' → Point) (hX : ∀ i, X' i = G (σ i)) (Y' : Fin m' → Point) :
    ∃ s' : Solver n' m' g.pol g.active, construct g.e g.spd g.φ g.pol g.active X' Y' = some s' ∧
      ∀ f k k', (∀ d, g.active d = true → Y' k' d = Y k d) → s'.mapConsistent (f ∘ σ) k' = s.mapConsistent f k := by
  have hn : n' = N := by simpa using Fintype.card_congr σ
  subst hn
  have : X' = G ∘ σ := funext hX
  subst this
  exact consistent_renumber he ho σ h hsep Y'

/-- The same for the conservative direction. -/
theorem conservative_gathered (he : g.e.Valid) (ho : g.e.OrderFree) {G : Fin N → Point} {Y : Fin m → Point} {s : Solver N m g.pol g.active}
    (h : construct g.e g.spd g.φ g.pol g.active G Y = some s) (hsep : g.pol = .separate → Fintype.card (Poly g.active) ≤ N)
    {n' m' : ℕ} (σ : Fin n' ≃ Fin N) (X' : Fin n' → Point) (hX : ∀ i, X' i = G (σ i)) (τ : Fin m' ≃ Fin m) (Y' : Fin m' → Point) (hY : ∀ k, Y' k = Y (τ k)) :
    ∃ s' : Solver n' m' g.pol g.active, construct g.e g.spd g.φ g.pol g.active X' Y' = some s' ∧
      ∀ u i, s'.mapConservative (u ∘ τ) i = s.mapConservative u (σ i) := by
  have hn : n' = N := by simpa using Fintype.card_congr σ
  have hm : m' = m := by simpa using Fintype.card_congr τ
  subst hn hm
  have : X' = G ∘ σ := funext hX
  subst this
  have : Y' = Y ∘ τ := funext hY
  subst this
  exact conservative_renumber he ho σ τ h hsep

/-- Every vertex of the mesh is owned by exactly one rank, which holds it once. -/
def OwnedOnce (ids : Fin (n + 1) → List (Fin N × Bool)) : Prop := ∀ v, ∃! x : Fin (n + 1) × ℕ, (ids x.1)[x.2]? = some (v, true)

/-- Every vertex is held by exactly one rank, once. -/
def HeldOnce (ids : Fin (n + 1) → List (Fin N)) : Prop := ∀ v, ∃! x : Fin (n + 1) × ℕ, (ids x.1)[x.2]? = some v

theorem OwnedOnce.list {ids : Fin (n + 1) → List (Fin N × Bool)} (h : OwnedOnce ids) :
    ((allRanks n).flatMap fun r => owned (ids r)).Nodup ∧ ∀ v, v ∈ (allRanks n).flatMap fun r => owned (ids r) := by
  refine ⟨flatMap_nodup _ (fun r => owned_nodup fun v i j hi hj => ?_) fun r r' v hv hv' => ?_, fun v => ?_⟩
  · exact congrArg Prod.snd ((h v).unique (y₁ := (r, i)) (y₂ := (r, j)) hi hj)
  · obtain ⟨i, hi⟩ := List.mem_iff_getElem?.1 (mem_owned.1 hv)
    obtain ⟨j, hj⟩ := List.mem_iff_getElem?.1 (mem_owned.1 hv')
    exact congrArg Prod.fst ((h v).unique (y₁ := (r, i)) (y₂ := (r', j)) hi hj)
  · obtain ⟨⟨r, i⟩, hi, -⟩ := h v
    exact List.mem_flatMap.2 ⟨r, List.mem_finRange r, mem_owned.2 (List.mem_of_getElem? hi)⟩

theorem HeldOnce.list {ids : Fin (n + 1) → List (Fin N)} (h : HeldOnce ids) :
    ((allRanks n).flatMap ids).Nodup ∧ ∀ v, v ∈ (allRanks n).flatMap ids := by
  refine ⟨flatMap_nodup _ (fun r => ?_) fun r r' v hv hv' => ?_, fun v => ?_⟩
  · rw [List.nodup_iff_getElem?_ne_getElem?]
    intro i j hij hj heq
    rw [List.getElem?_eq_getElem hj] at heq
    have := congrArg Prod.snd ((h (ids r)[j]).unique (y₁ := (r, i)) (y₂ := (r, j)) heq (List.getElem?_eq_getElem hj))
    simp only at this
    omega
  · obtain ⟨i, hi⟩ := List.mem_iff_getElem?.1 hv
    obtain ⟨j, hj⟩ := List.mem_iff_getElem?.1 hv'
    exact congrArg Prod.fst ((h v).unique (y₁ := (r, i)) (y₂ := (r', j)) hi hj)
  · obtain ⟨⟨r, i⟩, hi, -⟩ := h v
    exact List.mem_flatMap.2 ⟨r, List.mem_finRange r, List.mem_of_getElem? hi⟩

/-- The slices of rank `r` begin after the ones of the ranks before. -/
theorem flatMap_at {α : Type} (p : Fin (n + 1) → List α) (r : Fin (n + 1)) {j : ℕ} (hj : j < (p r).length) :
    ((allRanks n).flatMap p)[offset (fun r => (p r).length) r + j]? = (p r)[j]? := by
  have := congrArg (·[j]?) (slice_flatMap p (l := allRanks n) (List.mem_finRange r))
  simp only [List.getElem?_take, if_pos hj, List.getElem?_drop] at this
  exact this

theorem sum_length {α : Type} (p : Fin (n + 1) → List α) : ((allRanks n).map fun r => (p r).length).sum = ((allRanks n).flatMap p).length := by
  rw [List.length_flatMap]

theorem offset_zero (size : Fin (n + 1) → ℕ) : offset size 0 = 0 := by
  unfold offset
  rw [allRanks_eq]
  simp

theorem offset_le {α : Type} (p : Fin (n + 1) → List α) (r : Fin (n + 1)) :
    offset (fun r => (p r).length) r + (p r).length ≤ ((allRanks n).flatMap p).length := by
  have := congrArg List.length (slice_flatMap p (l := allRanks n) (List.mem_finRange r))
  rw [List.length_take, List.length_drop] at this
  change min _ (_ - offset (fun r => (p r).length) r) = _ at this
  by_cases h0 : (p r).length = 0
  · rw [h0, Nat.add_zero, ← sum_length]
    unfold offset
    exact List.Sublist.sum_le_sum ((List.takeWhile_sublist _).map _) (by simp)
  · omega

/-- The parts of the meshes on the ranks: `ids` numbers the vertices of the global mesh `G`. -/
def parts (G : Fin N → Point) (ids : Fin (n + 1) → List (Fin N × Bool)) (outs : Fin (n + 1) → List Point) (r : Fin (n + 1)) : Part :=
  ⟨(ids r).map fun x => (G x.1, x.2), outs r⟩

theorem fill_owned (W : Fin N → Row b) (G : Fin N → Point) : ∀ (ids : List (Fin N × Bool)) (old rest : List (Row b)), old.length = ids.length →
    fill (ids.map fun x => (G x.1, x.2)) old ((owned ids).map W ++ rest) = some (ids.zipWith (fun x y => if x.2 then W x.1 else y) old)
  | [], _, _, _ => by simp [fill]
  | x :: ids, [], _, h => by simp at h
  | (v, o) :: ids, y :: old, rest, h => by
    have ih := fill_owned W G ids old rest (by simpa using h)
    cases o
    · have : owned ((v, false) :: ids) = owned ids := by simp [owned]
      rw [this, List.map_cons, fill, ih]
      rfl
    · have : owned ((v, true) :: ids) = v :: owned ids := by simp [owned]
      rw [this, List.map_cons, List.map_cons, List.cons_append, fill, ih]
      rfl

/-! ## The properties -/

/-- **Consistent mapping with several ranks.** Every vertex of the input mesh `G` is owned by exactly one rank (other ranks
may hold copies). Then the mapping completes in every execution, also with blocking sends, and every rank gets at each of
its output vertices exactly the value which a serial run computes there, for every component of the data. The output
vertices may be distributed in any way, ranks may be empty. -/
theorem C96_consistent (g : Setting) (he : g.e.Valid) (ho : g.e.OrderFree) (G : Fin N → Point) (Y : Fin m → Point) (s : Solver N m g.pol g.active)
    (h : construct g.e g.spd g.φ g.pol g.active G Y = some s) (hsep : g.pol = .separate → Fintype.card (Poly g.active) ≤ N)
    (ids : Fin (n + 1) → List (Fin N × Bool)) (hown : OwnedOnce ids) (outs : Fin (n + 1) → List Point) (F : Fin N → Row b) :
    ∃ res, RNet.AlwaysCompletes (consistentJob g N (parts G ids outs) fun r => (ids r).map fun x => F x.1) res ∧
      ∀ r, (res r).length = (outs r).length ∧
        ∀ (j : ℕ) (k : Fin m) (y : Point), (outs r)[j]? = some y → (∀ d, g.active d = true → y d = Y k d) →
          (res r)[j]? = some fun c => s.mapConsistent (fun i => F i c) k := by
  obtain ⟨hnd, hall⟩ := hown.list
  set L := (allRanks n).flatMap fun r => owned (ids r) with hL
  have hLN : L.length = N := by
    obtain ⟨σ, -⟩ := numbering hnd hall rfl
    simpa using Fintype.card_congr σ
  set share : Fin (n + 1) → Share b := fun r => ⟨owned (parts G ids outs r).ins, (parts G ids outs r).outs,
    owned (((ids r).map fun x => F x.1).zip ((parts G ids outs r).ins.map (·.2))), (parts G ids outs r).outs.length⟩ with hshare
  have hin : ((allRanks n).flatMap fun r => (share r).own) = L.map G := by
    rw [hL, List.map_flatMap]
    congr 1
    funext r
    exact owned_map G (ids r)
  have hdata : ((allRanks n).flatMap fun r => (share r).data) = L.map F := by
    rw [hL, List.map_flatMap]
    congr 1
    funext r
    exact owned_values G F (ids r)
  have hout : ((allRanks n).flatMap fun r => (share r).outs) = (allRanks n).flatMap outs := rfl
  set Out := (allRanks n).flatMap outs with hOut
  obtain ⟨σ, hσ⟩ := numbering hnd hall (k := (L.map G).length) (List.length_map ..)
  obtain ⟨s', hs', hv⟩ := consistent_gathered he ho h hsep σ (L.map G).get (fun i => by
    have := hσ i
    rw [List.getElem?_eq_getElem (by simpa using i.2)] at this
    rw [List.get_eq_getElem, List.getElem_map, Option.some.inj this]) Out.get
  set out : List (Row b) := List.ofFn fun k c => s'.solveConsistent (Sum.elim (fun i => if i.1 < N then ((L.map F).getD i 0) c else 0) 0) k with hout'
  have hval : ∀ c : Fin b, (fun i : Fin (L.map G).length => if i.1 < N then ((L.map F).getD i 0) c else 0) = (fun v => F v c) ∘ σ := by
    intro c
    funext i
    have hi : i.1 < N := by simpa [hLN] using i.2
    rw [if_pos hi, List.getD_eq_getElem?_getD, List.getElem?_map, hσ i]
    rfl
  have houtlen : out.length = Out.length := by rw [hout', List.length_ofFn]
  have hmain := jobs_complete (share := share) (limit := some N) (solve := solveConsistent g N)
    (fin0 := fun k out => if k ≤ out.length then some (out.take k) else none) (fin := fun _ => some)
    (fun v => if N ≤ inputSize g (L.map G).length then
      some (List.ofFn fun k c => s'.solveConsistent (Sum.elim (fun i => if i.1 < N then (v.getD i 0) c else 0) 0) k) else none) out
    (fun r => (out.drop (offset (fun r => (outs r).length) r)).take (outs r).length)
    (by rw [hin, hout, solveConsistent, hs']; rfl)
    (by
      intro k hk
      rw [hdata, List.length_map, hLN]
      exact le_of_eq (Option.some.inj hk))
    (by rw [hdata, if_pos (by rw [List.length_map, hLN]; exact Nat.le_add_right _ _)])
    (by rw [houtlen]; exact le_of_eq (sum_length outs))
    (by
      rw [offset_zero, List.drop_zero]
      refine if_pos ?_
      rw [houtlen]
      have := offset_le outs 0
      rw [offset_zero, Nat.zero_add] at this
      exact this)
    (fun r _ => rfl)
  have hjob : (consistentJob g N (parts G ids outs) fun r => (ids r).map fun x => F x.1)
      = jobs share (some N) (solveConsistent g N) (fun k out => if k ≤ out.length then some (out.take k) else none) fun _ => some := by
    funext r
    unfold consistentJob jobs
    by_cases hr : r = 0
    · subst hr
      rfl
    · rw [if_neg hr, if_neg hr]
  rw [hjob]
  refine ⟨_, hmain, fun r => ⟨?_, fun j k y hj hy => ?_⟩⟩
  · rw [List.length_take, List.length_drop, houtlen]
    have := offset_le outs r
    rw [← hOut] at this
    omega
  · have hjl : j < (outs r).length := (List.getElem?_eq_some_iff.1 hj).1
    have hat := flatMap_at outs r hjl
    rw [← hOut, hj] at hat
    obtain ⟨hlt, hget⟩ := List.getElem?_eq_some_iff.1 hat
    rw [List.getElem?_take, if_pos hjl, List.getElem?_drop, List.getElem?_eq_getElem (by rw [houtlen]; exact hlt)]
    refine congrArg some ?_
    rw [List.getElem_ofFn]
    funext c
    rw [hval c]
    exact hv (fun v => F v c) k ⟨_, hlt⟩ fun d hd => by rw [← hy d hd, List.get_eq_getElem, hget]

/-- **Conservative mapping with several ranks.** Every vertex of the output mesh `G` is owned by exactly one rank, every
vertex of the input mesh `Y` is held by exactly one rank. Then the mapping completes in every execution, also with blocking
sends; at an owned vertex a rank gets exactly the value of a serial run, and values at vertices which it does not own keep
their value. -/
theorem C96_conservative (g : Setting) (he : g.e.Valid) (ho : g.e.OrderFree) (G : Fin N → Point) (Y : Fin m → Point) (s : Solver N m g.pol g.active)
    (h : construct g.e g.spd g.φ g.pol g.active G Y = some s) (hsep : g.pol = .separate → Fintype.card (Poly g.active) ≤ N)
    (ids : Fin (n + 1) → List (Fin N × Bool)) (hown : OwnedOnce ids) (oids : Fin (n + 1) → List (Fin m)) (hheld : HeldOnce oids)
    (U : Fin m → Row b) (old : Fin (n + 1) → List (Row b)) (hold : ∀ r, (old r).length = (ids r).length) :
    ∃ res, RNet.AlwaysCompletes (conservativeJob g N (parts G ids fun r => (oids r).map Y) (fun r => (oids r).map U) old) res ∧
      ∀ r, (res r).length = (ids r).length ∧
        ∀ (j : ℕ) (v : Fin N), ((ids r)[j]? = some (v, true) → (res r)[j]? = some fun c => s.mapConservative (fun k => U k c) v) ∧
          ((ids r)[j]? = some (v, false) → (res r)[j]? = (old r)[j]?) := by
  obtain ⟨hnd, hall⟩ := hown.list
  obtain ⟨hnd', hall'⟩ := hheld.list
  set L := (allRanks n).flatMap fun r => owned (ids r) with hL
  set M := (allRanks n).flatMap oids with hM
  have hLN : L.length = N := by
    obtain ⟨σ, -⟩ := numbering hnd hall rfl
    simpa using Fintype.card_congr σ
  set share : Fin (n + 1) → Share b := fun r => ⟨owned (parts G ids (fun r => (oids r).map Y) r).ins, (oids r).map Y, (oids r).map U,
    (owned (parts G ids (fun r => (oids r).map Y) r).ins).length⟩ with hshare
  have hin : ((allRanks n).flatMap fun r => (share r).own) = L.map G := by
    rw [hL, List.map_flatMap]
    congr 1
    funext r
    exact owned_map G (ids r)
  have hdata : ((allRanks n).flatMap fun r => (share r).data) = M.map U := by rw [hM, List.map_flatMap]
  have hout : ((allRanks n).flatMap fun r => (share r).outs) = M.map Y := by rw [hM, List.map_flatMap]
  have hsize : (fun r => (share r).size) = fun r => ((owned (ids r)).map fun v c => s.mapConservative (fun k => U k c) v).length := by
    funext r
    rw [List.length_map, ← List.length_map (f := G), ← owned_map]
    rfl
  obtain ⟨σ, hσ⟩ := numbering hnd hall (k := (L.map G).length) (List.length_map ..)
  obtain ⟨τ, hτ⟩ := numbering hnd' hall' (k := (M.map Y).length) (List.length_map ..)
  obtain ⟨s', hs', hv⟩ := conservative_gathered he ho h hsep σ (L.map G).get (fun i => by
    have := hσ i
    rw [List.getElem?_eq_getElem (by simpa using i.2)] at this
    rw [List.get_eq_getElem, List.getElem_map, Option.some.inj this]) τ (M.map Y).get (fun i => by
    have := hτ i
    rw [List.getElem?_eq_getElem (by simpa using i.2)] at this
    rw [List.get_eq_getElem, List.getElem_map, Option.some.inj this])
  have hval : ∀ c : Fin b, (fun k : Fin (M.map Y).length => ((M.map U).getD k 0) c) = (fun v => U v c) ∘ τ := by
    intro c
    funext i
    rw [List.getD_eq_getElem?_getD, List.getElem?_map, hτ i]
    rfl
  have hres : (List.ofFn fun (i : Fin (L.map G).length) (c : Fin b) => s'.solveConservative (fun k => ((M.map U).getD k 0) c) (.inl i)).take N
      = L.map fun v c => s.mapConservative (fun k => U k c) v := by
    rw [List.take_of_length_le (by simp [hLN])]
    refine List.ext_getElem (by simp) fun i h1 h2 => ?_
    rw [List.getElem_ofFn, List.getElem_map]
    funext c
    rw [hval c]
    have hi : i < (L.map G).length := by simpa using h1
    refine (hv (fun v => U v c) ⟨i, hi⟩).trans ?_
    have := hσ ⟨i, hi⟩
    rw [List.getElem?_eq_getElem (by simpa using hi)] at this
    rw [← Option.some.inj this]
  have hsplit : (L.map fun v c => s.mapConservative (fun k => U k c) v)
      = (allRanks n).flatMap fun r => (owned (ids r)).map fun v c => s.mapConservative (fun k => U k c) v := by
    rw [hL, List.map_flatMap]
  have hmain := jobs_complete (share := share) (limit := none) (solve := solveConservative g N)
    (fin0 := fun _ out => fill (parts G ids (fun r => (oids r).map Y) 0).ins (old 0) out)
    (fin := fun r => fill (parts G ids (fun r => (oids r).map Y) r).ins (old r))
    (fun v => if N ≤ inputSize g (L.map G).length ∧ (M.map Y).length ≤ v.length then
      some ((List.ofFn fun i c => s'.solveConservative (fun k => (v.getD k 0) c) (.inl i)).take N) else none)
    (L.map fun v c => s.mapConservative (fun k => U k c) v)
    (fun r => (ids r).zipWith (fun x y => if x.2 then (fun c => s.mapConservative (fun k => U k c) x.1) else y) (old r))
    (by rw [hin, hout, solveConservative, hs']; rfl) (by simp)
    (by rw [hdata, if_pos ⟨by rw [List.length_map, hLN]; exact Nat.le_add_right _ _, by simp⟩, hres])
    (by rw [hsize, hsplit]; exact le_of_eq (sum_length _))
    (by
      rw [hsplit, allRanks_eq, List.flatMap_cons]
      exact fill_owned (fun v c => s.mapConservative (fun k => U k c) v) G (ids 0) (old 0) _ (hold 0))
    (by
      intro r _
      have := slice_flatMap (fun r => (owned (ids r)).map fun v c => s.mapConservative (fun k => U k c) v) (l := allRanks n) (List.mem_finRange r)
      rw [hsplit, hsize, show (share r).size = _ from congrFun hsize r]
      unfold offset
      rw [this]
      have := fill_owned (fun v c => s.mapConservative (fun k => U k c) v) G (ids r) (old r) [] (hold r)
      rw [List.append_nil] at this
      exact this)
  have hjob : (conservativeJob g N (parts G ids fun r => (oids r).map Y) (fun r => (oids r).map U) old)
      = jobs share none (solveConservative g N) (fun _ out => fill (parts G ids (fun r => (oids r).map Y) 0).ins (old 0) out)
        fun r => fill (parts G ids (fun r => (oids r).map Y) r).ins (old r) := by
    funext r
    unfold conservativeJob jobs
    by_cases hr : r = 0
    · subst hr
      rfl
    · rw [if_neg hr, if_neg hr]
      rfl
  rw [hjob]
  refine ⟨_, hmain, fun r => ⟨?_, fun j v => ⟨fun hj => ?_, fun hj => ?_⟩⟩⟩
  · rw [List.length_zipWith, hold r, Nat.min_self]
  · have hjl : j < (old r).length := by rw [hold r]; exact (List.getElem?_eq_some_iff.1 hj).1
    rw [List.getElem?_zipWith, hj, List.getElem?_eq_getElem hjl]
    rfl
  · have hjl : j < (old r).length := by rw [hold r]; exact (List.getElem?_eq_some_iff.1 hj).1
    rw [List.getElem?_zipWith, hj, List.getElem?_eq_getElem hjl]
    rfl

/-- **Vertices without an owner break the mapping.** If the number of owned vertices differs from the global number of
vertices of the mesh and the polynomial is not integrated, the primary rank accesses memory outside of its buffer or
matrix. -/
theorem C96_unowned (g : Setting) (hpol : g.pol ≠ .on) (total : ℕ) (part : Fin (n + 1) → Part) (vals : Fin (n + 1) → List (Row b))
    (hvals : ∀ r, (vals r).length = (part r).ins.length)
    (s : Solver ((allRanks n).flatMap fun r => owned (part r).ins).length ((allRanks n).flatMap fun r => (part r).outs).length g.pol g.active)
    (h : construct g.e g.spd g.φ g.pol g.active ((allRanks n).flatMap fun r => owned (part r).ins).get ((allRanks n).flatMap fun r => (part r).outs).get = some s)
    (hne : ((allRanks n).flatMap fun r => owned (part r).ins).length ≠ total) :
    (∃ k p, RNet.Steps k (consistentJob g total part vals) p ∧ p 0 = .fail .assert) ∧
      ¬ ∃ res, RNet.AlwaysCompletes (consistentJob g total part vals) res := by
  set share : Fin (n + 1) → Share b := fun r => ⟨owned (part r).ins, (part r).outs, owned ((vals r).zip ((part r).ins.map (·.2))), (part r).outs.length⟩ with hshare
  have hzip : ∀ (l : List (Point × Bool)) (v : List (Row b)), v.length = l.length → (owned (v.zip (l.map (·.2)))).length = (owned l).length := by
    intro l
    induction l with
    | nil => intro v hv; simp [owned]
    | cons x l ih =>
      intro v hv
      cases v with
      | nil => simp at hv
      | cons y v =>
        obtain ⟨x, o⟩ := x
        have := ih v (by simpa using hv)
        cases o <;> simpa [owned] using this
  have hlen : ((allRanks n).flatMap fun r => (share r).data).length = ((allRanks n).flatMap fun r => owned (part r).ins).length := by
    rw [List.length_flatMap, List.length_flatMap]
    congr 1
    refine List.map_congr_left fun r _ => hzip _ _ (hvals r)
  obtain ⟨k, p, hk, hp⟩ := jobs_fail (share := share) (limit := some total) (solve := solveConsistent g total)
    (fin0 := fun k out => if k ≤ out.length then some (out.take k) else none) (fin := fun _ => some)
    (fun v => if total ≤ inputSize g ((allRanks n).flatMap fun r => owned (part r).ins).length then
      some (List.ofFn fun k c => s.solveConsistent (Sum.elim (fun i => if i.1 < total then (v.getD i 0) c else 0) 0) k) else none)
    (by
      change (construct g.e g.spd g.φ g.pol g.active ((allRanks n).flatMap fun r => owned (part r).ins).get ((allRanks n).flatMap fun r => (part r).outs).get).map _ = _
      rw [h]
      rfl)
    (by
      rcases Nat.lt_or_ge total ((allRanks n).flatMap fun r => owned (part r).ins).length with hlt | hge
      · exact .inl ⟨total, rfl, by rw [hlen]; exact hlt⟩
      · refine .inr (if_neg ?_)
        unfold inputSize
        rw [if_neg hpol]
        omega)
  have hjob : jobs share (some total) (solveConsistent g total) (fun k out => if k ≤ out.length then some (out.take k) else none) (fun _ => some)
      = consistentJob g total part vals := by
    funext r
    unfold consistentJob jobs
    by_cases hr : r = 0
    · subst hr
      rfl
    · rw [if_neg hr, if_neg hr]
  rw [hjob] at hk
  refine ⟨⟨k, p, hk, hp⟩, ?_⟩
  rintro ⟨res, k', f, -, -, hall⟩
  exact (hall k p hk).2.2.2 0 _ hp

end Verif.Rbf
