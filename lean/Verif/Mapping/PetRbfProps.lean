import Verif.Mapping.PetRbfLemmas

/-!
The iterative radial basis function mapping compared with the direct one (C127).
-/

set_option autoImplicit false

namespace Verif.PetRbf
open Matrix Verif.Rbf

variable {n N M : ℕ} {P : Fin (n + 1) → Part} {X : Fin N → Point} {Y : Fin M → Point} {S : Setting}

/-! ## Specification -/

/-- `w` is `v`, except that values below 1e-9 are replaced by zero. -/
def Chopped (w v : ℝ) : Prop := (1e-9 ≤ |v| → w = v) ∧ (|v| < 1e-9 → w = 0)

/-- The ranks hold the values `F` at the vertices they own. -/
def Holds (P : Fin (n + 1) → Part) (vals : Fin (n + 1) → ℕ → ℝ) (F : Fin N → ℝ) : Prop :=
  ∀ r i v (hg : v.g < N), (P r).ins[i]? = some v → v.owner = true → vals r i = F ⟨v.g, hg⟩

/-- The ranks hold the loads `U` at their vertices. -/
def Loaded (P : Fin (n + 1) → Part) (vals : Fin (n + 1) → ℕ → ℝ) (U : Fin M → ℝ) : Prop :=
  ∀ r j y (hg : y.1 < M), (P r).outs[j]? = some y → vals r j = U ⟨y.1, hg⟩

/-! ## Lemmas -/

theorem filter_chopped (v : ℝ) : Chopped (filter 1e-9 v) v := by
  unfold filter
  exact ⟨fun h => if_neg (not_lt.2 h), fun h => if_pos h⟩

theorem Chopped.close {w v : ℝ} (h : Chopped w v) : |w - v| < 1e-9 := by
  rcases lt_or_ge |v| 1e-9 with hv | hv
  · rw [h.2 hv, zero_sub, abs_neg]
    exact hv
  · rw [h.1 hv, sub_self, abs_zero]
    norm_num

theorem consistent_renumber' {e : Eigen} (he : e.Valid) (ho : e.OrderFree) {spd : Bool} {φ : ℝ → ℝ} {pol : Polynomial} {active : Fin 3 → Bool} {L K : ℕ}
    {X : Fin N → Point} {Y : Fin M → Point} (σ : Fin L ≃ Fin N) {s : Solver N M pol active} (h : construct e spd φ pol active X Y = some s)
    (hsep : pol = .separate → Fintype.card (Poly active) ≤ N) (Y' : Fin K → Point) :
    ∃ s' : Solver L K pol active, construct e spd φ pol active (X ∘ σ) Y' = some s' ∧ s'.axes = s.axes ∧
      ∀ f k k', (∀ d, active d = true → Y' k' d = Y k d) → s'.mapConsistent (f ∘ σ) k' = s.mapConsistent f k := by
  have hL : L = N := by simpa using Fintype.card_congr σ
  subst hL
  obtain ⟨s', h1, h2⟩ := consistent_renumber he ho σ h hsep Y'
  obtain ⟨s'', h3, h4⟩ := construct_renumber ho σ h Y'
  rw [h1] at h3
  cases h3
  exact ⟨s', h1, h4, h2⟩

theorem conservative_renumber' {e : Eigen} (he : e.Valid) (ho : e.OrderFree) {spd : Bool} {φ : ℝ → ℝ} {pol : Polynomial} {active : Fin 3 → Bool} {L K : ℕ}
    {X : Fin N → Point} {Y : Fin M → Point} (σ : Fin L ≃ Fin N) (τ : Fin K ≃ Fin M) {s : Solver N M pol active} (h : construct e spd φ pol active X Y = some s)
    (hsep : pol = .separate → Fintype.card (Poly active) ≤ N) :
    ∃ s' : Solver L K pol active, construct e spd φ pol active (X ∘ σ) (Y ∘ τ) = some s' ∧ s'.axes = s.axes ∧
      ∀ u i, s'.mapConservative (u ∘ τ) i = s.mapConservative u (σ i) := by
  have hL : L = N := by simpa using Fintype.card_congr σ
  have hK : K = M := by simpa using Fintype.card_congr τ
  subst hL hK
  obtain ⟨s', h1, h2⟩ := conservative_renumber he ho σ τ h hsep
  obtain ⟨s'', h3, h4⟩ := construct_renumber ho σ h (Y ∘ τ)
  rw [h1] at h3
  cases h3
  exact ⟨s', h1, h4, h2⟩

/-- What a rank finds in its part of the output. -/
theorem slice_outs (v : Fin (outRows P).length → ℝ) (G : Fin (n + 1) × (ℕ × Point) × ℕ → ℝ) (h : ∀ k : Fin (outRows P).length, v k = G (outRows P)[k])
    (r : Fin (n + 1)) (j : ℕ) :
    (slice (fun r => (P r).outs.length) (List.ofFn v) r)[j]? = ((P r).outs[j]?).map fun y => G (r, y, j) := by
  have h1 : List.ofFn v = (outRows P).map G := by
    rw [← ofFn_list]
    exact congrArg List.ofFn (funext h)
  have h2 : (fun r => (P r).outs.length) = fun r => ((P r).outs.zipIdx.map fun x => (r, x)).length := by
    funext r
    simp
  rw [h1, h2]
  unfold outRows
  rw [slice_gather (fun r => (P r).outs.zipIdx.map fun x => (r, x)) G r]
  simp only [List.map_map, List.getElem?_map, List.getElem?_zipIdx, Option.map_map]
  cases (P r).outs[j]? <;> simp

theorem spread_eq : ∀ (l : List Vertex) (k : ℕ) (G : Vertex × ℕ → ℝ) (i : ℕ),
    (spread l (((l.zipIdx k).filter (·.1.owner)).map G))[i]? = (l[i]?).map fun v => if v.owner then G (v, k + i) else 0
  | [], _, _, i => by simp [spread]
  | v :: l, k, G, i => by
    rw [List.zipIdx_cons, spread]
    cases hv : v.owner with
    | true =>
      rw [if_pos rfl, List.filter_cons_of_pos (by simpa using hv), List.map_cons, List.headD_cons, List.tail_cons]
      cases i with
      | zero => simp [hv]
      | succ i =>
        rw [List.getElem?_cons_succ, List.getElem?_cons_succ, spread_eq l (k + 1) G i]
        simp only [show k + 1 + i = k + (i + 1) by omega]
    | false =>
      rw [if_neg (by simp), List.filter_cons_of_neg (by simpa using hv)]
      cases i with
      | zero => simp [hv]
      | succ i =>
        rw [List.getElem?_cons_succ, List.getElem?_cons_succ, spread_eq l (k + 1) G i]
        simp only [show k + 1 + i = k + (i + 1) by omega]

/-- What a rank writes to its vertices. -/
theorem spread_ins (v : Fin (rows P).length → ℝ) (G : Fin (n + 1) × Vertex × ℕ → ℝ) (h : ∀ p : Fin (rows P).length, v p = G (rows P)[p]) (r : Fin (n + 1)) (i : ℕ) :
    (spread (P r).ins (slice (fun r => (ownedRows (P r).ins).length) (List.ofFn v) r))[i]?
      = ((P r).ins[i]?).map fun w => if w.owner then G (r, w, i) else 0 := by
  have h1 : List.ofFn v = (rows P).map G := by
    rw [← ofFn_list]
    exact congrArg List.ofFn (funext h)
  have h2 : (fun r => (ownedRows (P r).ins).length) = fun r => ((ownedRows (P r).ins).map fun x => (r, x)).length := by
    funext r
    simp
  rw [h1, h2]
  unfold rows
  rw [slice_gather (fun r => (ownedRows (P r).ins).map fun x => (r, x)) G r, List.map_map]
  have := spread_eq (P r).ins 0 (G ∘ fun x => (r, x)) i
  rw [zero_add] at this
  exact this

/-- The input vector contains the values of the owners. -/
theorem input_eq {s : Option ℝ} (h : Distributed P X Y s) {vals : Fin (n + 1) → ℕ → ℝ} {F : Fin N → ℝ} (hv : Holds P vals F) :
    (fun p : Fin (rows P).length => vals (rows P)[p].1 (rows P)[p].2.2) = F ∘ h.order := by
  funext p
  have hm := mem_rows.1 (List.getElem_mem (l := rows P) p.2)
  exact hv _ _ _ (h.row_ins p).1 hm.1 hm.2

/-- The rows of the output in the order of the global indices. -/
def numbering (hM : (outRows P).length = M) : Fin (outRows P).length ≃ Fin M := finCongr hM

theorem loads_eq (hn : Numbered P) (hM : (outRows P).length = M) {vals : Fin (n + 1) → ℕ → ℝ} {U : Fin M → ℝ} (hv : Loaded P vals U) :
    loads P vals = U ∘ numbering hM := by
  funext k
  have hm := mem_outRows.1 (List.getElem_mem (l := outRows P) k.2)
  unfold loads
  cases hf : (P (outRows P)[k].1).outs.zipIdx.reverse.find? fun y => y.1.1 == k.1 with
  | none =>
    rw [List.find?_eq_none] at hf
    have := hf ((outRows P)[k].2.1, (outRows P)[k].2.2) (List.mem_reverse.2 (List.mk_mem_zipIdx_iff_getElem?.2 hm))
    exact absurd (by simpa using hn k) this
  | some y =>
    have h1 : y.1.1 = k.1 := by simpa using List.find?_some hf
    have h2 := List.mk_mem_zipIdx_iff_getElem?.1 (List.mem_reverse.1 (List.mem_of_find?_eq_some hf))
    rw [Option.elim_some]
    have h3 : y.1.1 < M := by rw [h1, ← hM]; exact k.2
    rw [hv _ _ _ h3 h2]
    exact congrArg U (Fin.ext h1)

theorem outPoints_numbering {s : Option ℝ} (h : Distributed P X Y s) (hn : Numbered P) (hM : (outRows P).length = M) : outPoints P = Y ∘ numbering hM := by
  funext k
  have hm := mem_outRows.1 (List.getElem_mem (l := outRows P) k.2)
  obtain ⟨hg, hy⟩ := h.outs _ _ (List.mem_of_getElem? hm)
  exact hy.trans (congrArg Y (Fin.ext (hn k)))

/-! ## Consistent mapping -/

theorem solve_direct (hsup : Supported S) (hl : Level X Y S) (h : Distributed P X Y S.support) {e : Eigen} {spd : Bool}
    {s' : Solver (rows P).length (outRows P).length S.pol S.active} (hs : construct e spd S.φ S.pol S.active (X ∘ h.order) (outPoints P) = some s')
    (hp : S.pol ≠ .separate) (f : Fin (rows P).length → ℝ) (i : Fin (outRows P).length) :
    solveConsistent P S f i = filter 1e-9 (s'.mapConsistent f i) := by
  have b := construct_built hs
  unfold solveConsistent Solver.mapConsistent Solver.solveConsistent
  rw [if_neg hp, if_neg hp, matrixC_eq hsup hl h, matrixA_eq hsup hl h, b.C, b.A]

/-- **The iterative mapping computes the values of the direct one** (polynomial integrated or off), on every rank and for
every distribution of the meshes, except that values below 1e-9 are replaced by zero. -/
theorem C127_consistent_partial (e : Eigen) (he : e.Valid) (ho : e.OrderFree) (spd : Bool) (hp : S.pol ≠ .separate) (s : Solver N M S.pol S.active)
    (hs : construct e spd S.φ S.pol S.active X Y = some s) (hsup : Supported S) (hl : Level X Y S) (h : Distributed P X Y S.support)
    (vals : Fin (n + 1) → ℕ → ℝ) (F : Fin N → ℝ) (hv : Holds P vals F) (r : Fin (n + 1)) :
    (mapConsistent P S vals r).length = (P r).outs.length ∧
    ∀ (j : ℕ) (y : ℕ × Point) (k : Fin M), (P r).outs[j]? = some y → y.1 = k →
      ∃ w, (mapConsistent P S vals r)[j]? = some w ∧ Chopped w (s.mapConsistent F k) := by
  obtain ⟨s', hs', -, hval⟩ := consistent_renumber' he ho h.order hs (fun h => absurd h hp) (outPoints P)
  let G : Fin (n + 1) × (ℕ × Point) × ℕ → ℝ := fun x => if hx : x.2.1.1 < M then filter 1e-9 (s.mapConsistent F ⟨x.2.1.1, hx⟩) else 0
  have hG : ∀ x (hx : x.2.1.1 < M), G x = filter 1e-9 (s.mapConsistent F ⟨x.2.1.1, hx⟩) := fun x hx => dif_pos hx
  have key : ∀ j, (mapConsistent P S vals r)[j]? = ((P r).outs[j]?).map fun y => G (r, y, j) := by
    intro j
    refine slice_outs _ G (fun k => ?_) r j
    rw [input_eq h hv, solve_direct hsup hl h hs' hp]
    have hm := mem_outRows.1 (List.getElem_mem (l := outRows P) k.2)
    obtain ⟨hg, hy⟩ := h.outs _ _ (List.mem_of_getElem? hm)
    rw [hval F ⟨_, hg⟩ k fun d _ => congrFun hy d]
    exact (hG _ hg).symm
  constructor
  · have h1 : ∀ j, (mapConsistent P S vals r)[j]? = none ↔ (P r).outs[j]? = none := fun j => by rw [key j, Option.map_eq_none_iff]
    have h2 := (h1 (P r).outs.length).2 (by simp)
    have h3 := (h1 (mapConsistent P S vals r).length).1 (by simp)
    rw [List.getElem?_eq_none_iff] at h2 h3
    omega
  · intro j y k hy hk
    refine ⟨filter 1e-9 (s.mapConsistent F k), ?_, filter_chopped _⟩
    rw [key j, hy, Option.map_some]
    have hx : y.1 < M := hk ▸ k.2
    have : G (r, y, j) = filter 1e-9 (s.mapConsistent F ⟨y.1, hx⟩) := dif_pos hx
    rw [this, show (⟨y.1, hx⟩ : Fin M) = k from Fin.ext hk]

/-! ## Conservative mapping -/

theorem solver_G {e : Eigen} (he : e.Valid) {φ : ℝ → ℝ} {active : Fin 3 → Bool} {L K : ℕ} {X : Fin L → Point} {Y : Fin K → Point} {s : Solver L K .separate active}
    (b : Built e φ X Y s) (hn : Fintype.card (Poly active) ≤ L) : s.G = (s.Qᵀ * s.Q)⁻¹ * s.Qᵀ := by
  have hi := b.independent he hn
  rw [b.G, he.allColumns _ hi, basicInverse_univ]

theorem solve_direct_conservative (hsup : Supported S) (hl : Level X Y S) (h : Distributed P X Y S.support) {e : Eigen} (he : e.Valid) {spd : Bool}
    {s' : Solver (rows P).length (outRows P).length S.pol S.active} (hs : construct e spd S.φ S.pol S.active (X ∘ h.order) (outPoints P) = some s')
    (hsep : S.pol = .separate → Fintype.card (Poly S.active) ≤ N ∧ s'.axes = S.active) (u : Fin (outRows P).length → ℝ) (p : Fin (rows P).length) :
    solveConservative P S u p = filter 1e-9 (s'.mapConservative u p) := by
  have b := construct_built hs
  have hC := matrixC_eq hsup hl h
  have hA := matrixA_eq hsup hl h
  have hQ := matrixQ_eq (S := S) h
  have hN : (rows P).length = N := by simpa using Fintype.card_congr h.order
  have hV : matrixV P S = polyMatrix S.active (outPoints P) := rfl
  obtain ⟨φ, sup, pol, active⟩ := S
  by_cases hp : pol = .separate
  · obtain ⟨hcard, hax⟩ := hsep hp
    subst hp
    unfold solveConservative Solver.mapConservative Solver.solveConservative
    simp only [if_pos]
    obtain ⟨C, A, axes, Q, V, G⟩ := s'
    dsimp only at hax
    subst hax
    have bC := b.C
    have bA := b.A
    have bQ := b.Q
    have bV := b.V
    have hG := solver_G he b (hcard.trans hN.symm.le)
    have hi := b.independent he (hcard.trans hN.symm.le)
    dsimp only at bC bA bQ bV hG hi hC hA hQ hV
    rw [hC, hA, hQ, hV, ← bC, ← bA, ← bQ, ← bV]
    rw [lsqr_eq (shortest_gram' hi _), ← hG]
    rw [Pi.sub_apply, Sum.elim_inl, neg_sub]
  · unfold solveConservative Solver.mapConservative Solver.solveConservative
    dsimp only at hC hA
    simp only [if_neg hp]
    rw [hC, hA, b.C, b.A]

/-- **The conservative iterative mapping computes the values of the direct one** (with all three treatments of the polynomial, if the direct mapping keeps
all axes that are not dead), on every rank and for every distribution of the meshes, except that values below 1e-9 are replaced by zero. Vertices which a
rank does not own get zero. -/
theorem C127_conservative_partial (e : Eigen) (he : e.Valid) (ho : e.OrderFree) (spd : Bool) (s : Solver N M S.pol S.active)
    (hs : construct e spd S.φ S.pol S.active X Y = some s) (hsep : S.pol = .separate → Fintype.card (Poly S.active) ≤ N ∧ s.axes = S.active)
    (hsup : Supported S) (hl : Level X Y S) (h : Distributed P X Y S.support) (hn : Numbered P) (hM : (outRows P).length = M)
    (vals : Fin (n + 1) → ℕ → ℝ) (U : Fin M → ℝ) (hv : Loaded P vals U) (r : Fin (n + 1)) :
    (mapConservative P S vals r).length = (P r).ins.length ∧
    ∀ (i : ℕ) (v : Vertex) (g : Fin N), (P r).ins[i]? = some v → v.g = g →
      ∃ w, (mapConservative P S vals r)[i]? = some w ∧ if v.owner then Chopped w (s.mapConservative U g) else w = 0 := by
  obtain ⟨s', hs', hax, hval⟩ := conservative_renumber' he ho h.order (numbering hM) hs fun h => (hsep h).1
  rw [← outPoints_numbering h hn hM] at hs'
  let G : Fin (n + 1) × Vertex × ℕ → ℝ := fun x => if hx : x.2.1.g < N then filter 1e-9 (s.mapConservative U ⟨x.2.1.g, hx⟩) else 0
  have hG : ∀ x (hx : x.2.1.g < N), G x = filter 1e-9 (s.mapConservative U ⟨x.2.1.g, hx⟩) := fun x hx => dif_pos hx
  have key : ∀ i, (mapConservative P S vals r)[i]? = ((P r).ins[i]?).map fun w => if w.owner then G (r, w, i) else 0 := by
    intro i
    refine spread_ins _ G (fun p => ?_) r i
    rw [solve_direct_conservative hsup hl h he hs' (fun hp => ⟨(hsep hp).1, hax.trans (hsep hp).2⟩), loads_eq hn hM hv, hval]
    exact (hG _ (h.row_ins p).1).symm
  constructor
  · have h1 : ∀ j, (mapConservative P S vals r)[j]? = none ↔ (P r).ins[j]? = none := fun j => by rw [key j, Option.map_eq_none_iff]
    have h2 := (h1 (P r).ins.length).2 (by simp)
    have h3 := (h1 (mapConservative P S vals r).length).1 (by simp)
    rw [List.getElem?_eq_none_iff] at h2 h3
    omega
  · intro i v g hvi hg
    have hx : v.g < N := hg ▸ g.2
    refine ⟨if v.owner then filter 1e-9 (s.mapConservative U g) else 0, ?_, ?_⟩
    · rw [key i, hvi, Option.map_some]
      have : G (r, v, i) = filter 1e-9 (s.mapConservative U ⟨v.g, hx⟩) := dif_pos hx
      rw [this, show (⟨v.g, hx⟩ : Fin N) = g from Fin.ext hg]
    · cases v.owner
      · simp
      · simpa using filter_chopped _

end Verif.PetRbf
