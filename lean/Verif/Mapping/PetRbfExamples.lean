import Verif.Mapping.PetRbfSeparate
import Mathlib.Tactic.FinCases

/-!
The hypotheses of the theorems about the iterative radial basis function mapping can be met, and where it differs from the direct one (C127).
-/

set_option autoImplicit false

namespace Verif.PetRbf
open Matrix Verif.Rbf

variable {n N M : ℕ}

/-! ## Distributions -/

/-- All ranks know all vertices of the input, `o` tells who owns them; the output is on the first rank. -/
def everywhere (o : Fin N → Fin (n + 1)) (X : Fin N → Point) (Y : Fin M → Point) (r : Fin (n + 1)) : Part :=
  ⟨List.ofFn fun i => ⟨i, X i, o i == r⟩, if r = 0 then List.ofFn fun k => (k.1, Y k) else []⟩

theorem everywhere_owned (o : Fin N → Fin (n + 1)) (X : Fin N → Point) (Y : Fin M → Point) :
    ((rows (everywhere o X Y)).map (·.2.1.g)).Perm (List.range N) := by
  have hrow : ∀ r, (ownedRows (everywhere o X Y r).ins).map (fun x => x.1.g) = ((List.finRange N).filter fun i => o i == r).map Fin.val := by
    intro r
    have h1 : (List.ofFn fun i : Fin N => (⟨i, X i, o i == r⟩ : Vertex)).zipIdx = (List.finRange N).map fun i => (⟨i, X i, o i == r⟩, i.1) := by
      apply List.ext_getElem
      · simp
      · intro i h1 h2
        simp
    unfold ownedRows everywhere
    dsimp only
    rw [h1, List.filter_map, List.map_map]
    rfl
  have hall : (rows (everywhere o X Y)).map (·.2.1.g) = (List.finRange (n + 1)).flatMap fun r => ((List.finRange N).filter fun i => o i == r).map Fin.val := by
    unfold rows gather
    rw [List.map_flatMap]
    refine congrArg (fun f => List.flatMap f _) (funext fun r => ?_)
    rw [List.map_map, ← hrow r]
    rfl
  rw [hall]
  refine (List.perm_ext_iff_of_nodup ?_ List.nodup_range).2 fun g => ?_
  · rw [List.nodup_flatMap]
    refine ⟨fun r _ => ((List.nodup_finRange N).filter _).map Fin.val_injective, ?_⟩
    refine (List.nodup_finRange (n + 1)).imp fun {a b} hab => ?_
    intro g ha hb
    obtain ⟨i, hi, rfl⟩ := List.mem_map.1 ha
    obtain ⟨i', hi', he⟩ := List.mem_map.1 hb
    have h1 := (List.mem_filter.1 hi).2
    have h2 := (List.mem_filter.1 hi').2
    rw [Fin.ext he] at h2
    simp only [beq_iff_eq] at h1 h2
    exact hab (h1.symm.trans h2)
  · simp only [List.mem_flatMap, List.mem_finRange, true_and, List.mem_map, List.mem_filter, beq_iff_eq, List.mem_range]
    constructor
    · rintro ⟨r, i, -, rfl⟩
      exact i.2
    · intro hg
      exact ⟨o ⟨g, hg⟩, ⟨g, hg⟩, rfl, rfl⟩

theorem everywhere_distributed (o : Fin N → Fin (n + 1)) (X : Fin N → Point) (Y : Fin M → Point) (s : Option ℝ) : Distributed (everywhere o X Y) X Y s where
  ins r v hv := by
    obtain ⟨i, rfl⟩ := (List.mem_ofFn' _ _).1 hv
    exact ⟨i.2, rfl⟩
  owned := everywhere_owned o X Y
  outs r y hy := by
    unfold everywhere at hy
    dsimp only at hy
    split at hy
    · obtain ⟨k, rfl⟩ := (List.mem_ofFn' _ _).1 hy
      exact ⟨k.2, rfl⟩
    · simp at hy
  knows r v _ _ g _ := ⟨_, (List.mem_ofFn' _ _).2 ⟨g, rfl⟩, rfl⟩
  sees r y _ g _ := ⟨_, (List.mem_ofFn' _ _).2 ⟨g, rfl⟩, rfl⟩

theorem everywhere_outRows (o : Fin N → Fin (n + 1)) (X : Fin N → Point) (Y : Fin M → Point) :
    outRows (everywhere o X Y) = List.ofFn fun k : Fin M => ((0 : Fin (n + 1)), (k.1, Y k), k.1) := by
  have h0 : ∀ l : List (Fin (n + 1)), (∀ r ∈ l, r ≠ 0) → l.flatMap (fun r => (everywhere o X Y r).outs.zipIdx.map (r, ·)) = [] := by
    intro l hl
    rw [List.flatMap_eq_nil_iff]
    intro r hr
    simp [everywhere, hl r hr]
  unfold outRows gather
  rw [List.finRange_succ, List.flatMap_cons, h0 _ (by intro r hr; obtain ⟨q, -, rfl⟩ := List.mem_map.1 hr; exact Fin.succ_ne_zero q), List.append_nil]
  apply List.ext_getElem
  · simp [everywhere]
  · intro i h1 h2
    simp [everywhere]

theorem everywhere_length (o : Fin N → Fin (n + 1)) (X : Fin N → Point) (Y : Fin M → Point) : (outRows (everywhere o X Y)).length = M := by
  rw [everywhere_outRows, List.length_ofFn]

theorem everywhere_numbered (o : Fin N → Fin (n + 1)) (X : Fin N → Point) (Y : Fin M → Point) : Numbered (everywhere o X Y) := by
  intro k
  have h : ∀ (l : List (Fin (n + 1) × (ℕ × Point) × ℕ)) (k : Fin l.length), l = (List.ofFn fun k : Fin M => ((0 : Fin (n + 1)), (k.1, Y k), k.1)) → l[k].2.1.1 = k := by
    rintro _ k rfl
    simp
  exact h _ k (everywhere_outRows o X Y)

theorem everywhere_holds (o : Fin N → Fin (n + 1)) (X : Fin N → Point) (Y : Fin M → Point) (F : ℕ → ℝ) : Holds (everywhere o X Y) (fun _ i => F i) fun i : Fin N => F i := by
  intro r i v hg hv _
  unfold everywhere at hv
  dsimp only at hv
  obtain ⟨hi, hv⟩ := List.getElem?_eq_some_iff.1 hv
  show F i = F v.g
  rw [← hv]
  simp

theorem everywhere_loaded (o : Fin N → Fin (n + 1)) (X : Fin N → Point) (Y : Fin M → Point) (U : ℕ → ℝ) : Loaded (everywhere o X Y) (fun _ i => U i) fun i : Fin M => U i := by
  intro r i y hg hy
  unfold everywhere at hy
  dsimp only at hy
  split at hy
  · obtain ⟨hi, hy⟩ := List.getElem?_eq_some_iff.1 hy
    show U i = U y.1
    rw [← hy]
    simp
  · simp at hy

theorem everywhere_out (o : Fin N → Fin (n + 1)) (X : Fin N → Point) (Y : Fin M → Point) (k : Fin M) : (everywhere o X Y 0).outs[k.1]? = some (k.1, Y k) := by
  unfold everywhere
  rw [if_pos rfl, List.getElem?_eq_some_iff]
  exact ⟨by simp, by simp⟩

/-! ## Small values -/

variable {P : Fin (n + 1) → Part} {X : Fin N → Point} {Y : Fin M → Point} {S : Setting}

/-- **Small values are lost**: the direct mapping with integrated polynomial reproduces constants, the iterative one replaces a constant below 1e-9 by zero. -/
theorem C127_small_constant (e : Eigen) (he : e.Valid) (ho : e.OrderFree) (spd : Bool) (hp : S.pol = .on) (s : Solver N M S.pol S.active)
    (hs : construct e spd S.φ S.pol S.active X Y = some s) (hsup : Supported S) (hl : Level X Y S) (h : Distributed P X Y S.support)
    (vals : Fin (n + 1) → ℕ → ℝ) (c : ℝ) (hc : |c| < 1e-9) (hv : Holds P vals fun _ : Fin N => c) (r : Fin (n + 1)) (j : ℕ) (y : ℕ × Point) (k : Fin M)
    (hy : (P r).outs[j]? = some y) (hk : y.1 = k) :
    s.mapConsistent (fun _ => c) k = c ∧ (mapConsistent P S vals r)[j]? = some 0 := by
  have hdir : s.mapConsistent (fun _ => c) k = c := by
    obtain ⟨φ, sup, pol, active⟩ := S
    dsimp only at hp
    subst hp
    have := congrFun (C95_affine_integrated e spd φ X Y s hs c 0) k
    simpa [affine] using this
  refine ⟨hdir, ?_⟩
  obtain ⟨w, hw, hch⟩ := (C127_consistent_partial e he ho spd (by rw [hp]; decide) s hs hsup hl h vals _ hv r).2 j y k hy hk
  rw [hdir] at hch
  rw [hw, hch.2 hc]

/-- **Small loads are lost**: if the direct mapping gives every vertex less than 1e-9, nothing arrives, although their sum may be anything. -/
theorem C127_small_loads (e : Eigen) (he : e.Valid) (ho : e.OrderFree) (spd : Bool) (s : Solver N M S.pol S.active)
    (hs : construct e spd S.φ S.pol S.active X Y = some s) (hsep : S.pol = .separate → Fintype.card (Poly S.active) ≤ N ∧ s.axes = S.active)
    (hsup : Supported S) (hl : Level X Y S) (h : Distributed P X Y S.support) (hn : Numbered P) (hM : (outRows P).length = M)
    (vals : Fin (n + 1) → ℕ → ℝ) (U : Fin M → ℝ) (hv : Loaded P vals U) (hsmall : ∀ g, |s.mapConservative U g| < 1e-9) (r : Fin (n + 1)) :
    mapConservative P S vals r = List.replicate (P r).ins.length 0 := by
  obtain ⟨hlen, hall⟩ := C127_conservative_partial e he ho spd s hs hsep hsup hl h hn hM vals U hv r
  refine List.eq_replicate_iff.2 ⟨hlen, fun b hb => ?_⟩
  obtain ⟨i, hi, rfl⟩ := List.getElem_of_mem hb
  have hi' : i < (P r).ins.length := hlen ▸ hi
  obtain ⟨hg, -⟩ := h.ins r _ (List.getElem_mem hi')
  obtain ⟨w, hw, hch⟩ := hall i _ ⟨_, hg⟩ (List.getElem?_eq_getElem hi') rfl
  rw [List.getElem?_eq_getElem hi, Option.some.injEq] at hw
  rw [hw]
  split at hch
  · exact hch.2 (hsmall _)
  · exact hch

/-! ## Dead axes -/

/-- **Dead axes are not ignored** by basis functions with compact support: a vertex of the output that coincides with a vertex of the input in all axes that are not dead
gets the value zero (instead of the value of this vertex), if all vertices which its rank knows are further away than the support radius when the dead axes are counted. -/
theorem C127_dead_axis (e : Eigen) (spd : Bool) (hp : S.pol = .off) (s : Solver N M S.pol S.active) (hs : construct e spd S.φ S.pol S.active X Y = some s)
    (vals : Fin (n + 1) → ℕ → ℝ) (F : Fin N → ℝ) (r : Fin (n + 1)) (j : ℕ) (y : ℕ × Point) (k : Fin M)
    (hy : (P r).outs[j]? = some y) (i : Fin N) (hki : ∀ d, S.active d = true → Y k d = X i d) (hfar : ∀ v ∈ (P r).ins, ¬ near S.support y.2 v.x) :
    s.mapConsistent F k = F i ∧ (mapConsistent P S vals r)[j]? = some 0 := by
  refine ⟨C95_interpolates e spd S.φ X Y s hs F k i hki, ?_⟩
  classical
  unfold mapConsistent
  rw [slice_outs _ (fun x => if x = (r, y, j) then 0 else
    if hx : ∃ k : Fin (outRows P).length, (outRows P)[k] = x then solveConsistent P S (fun p => vals (rows P)[p].1 (rows P)[p].2.2) hx.choose else 0) ?_ r j, hy]
  · simp
  · intro k
    have hpair : ∀ k : Fin (outRows P).length, (outRows P)[k] = (r, y, j) → solveConsistent P S (fun p => vals (rows P)[p].1 (rows P)[p].2.2) k = 0 := by
      intro k hk
      have hrow : matrixA P S k = 0 := by
        funext q
        rcases q with q | l
        · show Option.elim (entryOf P S.support (outRows P)[k].1 (outRows P)[k].2.1.2 q) 0 _ = 0
          rw [hk]
          have : entryOf P S.support r y.2 q = none := by
            unfold entryOf
            rw [List.find?_eq_none]
            intro w hw
            simp [hfar w (List.mem_reverse.1 hw)]
          rw [this]
          rfl
        · exact absurd l.2 (by rw [hp]; decide)
      unfold solveConsistent
      rw [if_neg (by rw [hp]; decide)]
      have h0 : ∀ v, (matrixA P S *ᵥ v) k = 0 := fun v => by
        show matrixA P S k ⬝ᵥ v = 0
        rw [hrow, zero_dotProduct]
      rw [h0]
      unfold filter
      simp
    split
    · rename_i hk
      exact hpair k hk
    · have hx : ∃ k' : Fin (outRows P).length, (outRows P)[k'] = (outRows P)[k] := ⟨k, rfl⟩
      rw [dif_pos hx]
      have hc : ∀ k k' : Fin (outRows P).length, (outRows P)[k'] = (outRows P)[k] → matrixA P S k' = matrixA P S k := by
        intro k k' h1
        funext q
        rcases q with q | l
        · show Option.elim (entryOf P S.support (outRows P)[k'].1 (outRows P)[k'].2.1.2 q) 0 _ = Option.elim (entryOf P S.support (outRows P)[k].1 (outRows P)[k].2.1.2 q) 0 _
          rw [h1]
        · exact absurd l.2 (by rw [hp]; decide)
      unfold solveConsistent
      rw [if_neg (by rw [hp]; decide), if_neg (by rw [hp]; decide)]
      refine congrArg (filter 1e-9) ?_
      exact congrArg (· ⬝ᵥ _) (hc _ _ hx.choose_spec).symm

end Verif.PetRbf
