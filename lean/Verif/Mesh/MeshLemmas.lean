import Verif.Mesh.Mesh
import Mathlib.Data.List.Perm.Subperm
import Mathlib.Data.List.Sublists
import Mathlib.Algebra.Order.BigOperators.Group.Finset

/-!
# Lemmas on meshes
-/

set_option autoImplicit false

namespace Verif.Mesh

variable {d : ℕ}

/-! ### Filtering -/

theorem mkCell_sorted {c : Cell} (h : c.Pairwise (· ≤ ·)) : mkCell c = c :=
  List.Pairwise.insertionSort_eq h

theorem mkCell_perm (c : Cell) : (mkCell c).Perm c := List.perm_insertionSort _ c

theorem mkCell_pairwise (c : Cell) : (mkCell c).Pairwise (· ≤ ·) := List.pairwise_insertionSort _ c

/-- the map computed by the vertex loop -/
def selMap (p : Vertex d → Bool) (vs : List (Vertex d)) (k n : ℕ) (f : VMap) : VMap := fun i =>
  if k ≤ i ∧ (vs[i - k]?).any p = true then some (n + (vs.take (i - k)).countP p) else f i

theorem filterVerts_eq (p : Vertex d → Bool) (vs : List (Vertex d)) (k : ℕ) (m : Mesh d) (f : VMap) :
    filterVerts p vs k (m, f) =
      ({ m with verts := m.verts ++ vs.filter p }, selMap p vs k m.verts.length f) := by
  induction vs generalizing k m f with
  | nil =>
    unfold filterVerts
    have : selMap p [] k m.verts.length f = f := by funext i; simp [selMap]
    rw [this]; simp
  | cons v vs ih =>
    unfold filterVerts
    by_cases hv : p v = true
    · rw [if_pos hv]
      simp only [createVertex]
      rw [ih]
      congr 1
      · simp [hv]
      · funext i
        unfold selMap
        rcases lt_trichotomy i k with h | rfl | h
        · rw [if_neg (by omega), if_neg (by omega), Function.update_of_ne (by omega)]
        · rw [if_neg (by omega), if_pos (by simp [hv])]
          simp
        · obtain ⟨e, rfl⟩ : ∃ e, i = k + 1 + e := ⟨i - (k + 1), by omega⟩
          have h1 : k + 1 + e - (k + 1) = e := by omega
          have h2 : k + 1 + e - k = e + 1 := by omega
          rw [h1, h2, Function.update_of_ne (by omega)]
          simp only [List.getElem?_cons_succ, List.take_succ_cons, List.countP_cons, hv, if_true,
            List.length_append, List.length_singleton]
          by_cases hs : (vs[e]?).any p = true
          · rw [if_pos ⟨by omega, hs⟩, if_pos ⟨by omega, hs⟩]; congr 1; omega
          · rw [if_neg (fun h => hs h.2), if_neg (fun h => hs h.2)]
    · rw [if_neg hv, ih]
      congr 1
      · simp [hv]
      · funext i
        unfold selMap
        rcases lt_trichotomy i k with h | rfl | h
        · rw [if_neg (by omega), if_neg (by omega)]
        · rw [if_neg (by omega), if_neg (by simp [hv])]
        · obtain ⟨e, rfl⟩ : ∃ e, i = k + 1 + e := ⟨i - (k + 1), by omega⟩
          have h1 : k + 1 + e - (k + 1) = e := by omega
          have h2 : k + 1 + e - k = e + 1 := by omega
          rw [h1, h2]
          simp only [List.getElem?_cons_succ, List.take_succ_cons, List.countP_cons, hv]
          by_cases hs : (vs[e]?).any p = true
          · rw [if_pos ⟨by omega, hs⟩, if_pos ⟨by omega, hs⟩]; simp
          · rw [if_neg (fun h => hs h.2), if_neg (fun h => hs h.2)]

theorem filterCells_edges (f : VMap) (cs : List Cell) (m : Mesh d) :
    filterCells createEdge f cs m =
      { m with edges := m.edges ++ ((cs.filter fun c => c.all fun i => (f i).isSome).map fun c => mkCell (c.filterMap f)) } := by
  induction cs generalizing m with
  | nil => simp [filterCells]
  | cons c cs ih =>
    unfold filterCells
    split
    · next h => rw [ih]; simp [createEdge, h]
    · next h => rw [ih]; rw [List.filter_cons_of_neg (by simpa using h)]

theorem filterCells_tris (f : VMap) (cs : List Cell) (m : Mesh d) :
    filterCells createTriangle f cs m =
      { m with tris := m.tris ++ ((cs.filter fun c => c.all fun i => (f i).isSome).map fun c => mkCell (c.filterMap f)) } := by
  induction cs generalizing m with
  | nil => simp [filterCells]
  | cons c cs ih =>
    unfold filterCells
    split
    · next h => rw [ih]; simp [createTriangle, h]
    · next h => rw [ih]; rw [List.filter_cons_of_neg (by simpa using h)]

theorem filterCells_tets (f : VMap) (cs : List Cell) (m : Mesh d) :
    filterCells createTetrahedron f cs m =
      { m with tets := m.tets ++ ((cs.filter fun c => c.all fun i => (f i).isSome).map fun c => mkCell (c.filterMap f)) } := by
  induction cs generalizing m with
  | nil => simp [filterCells]
  | cons c cs ih =>
    unfold filterCells
    split
    · next h => rw [ih]; simp [createTetrahedron, h]
    · next h => rw [ih]; rw [List.filter_cons_of_neg (by simpa using h)]

theorem addCells_eq (create : Mesh d → List ℕ → Mesh d) (f : VMap) (cs : List Cell) (m : Mesh d) :
    addCells create f cs m =
      if cs.all (fun c => c.all fun i => (f i).isSome) then some (filterCells create f cs m) else none := by
  induction cs generalizing m with
  | nil => rfl
  | cons c cs ih =>
    unfold addCells filterCells
    rw [List.all_cons]
    by_cases h : (c.all fun i => (f i).isSome) = true
    · rw [if_pos h, ih, h, Bool.true_and, if_pos rfl]
    · rw [if_neg h, if_neg (by simp [h])]

/-! ### Deduplication -/

theorem cellLe_total (a b : Cell) : (cellLe a b || cellLe b a) = true := by
  induction a generalizing b with
  | nil => rfl
  | cons x a ih =>
    cases b with
    | nil => simp [cellLe]
    | cons y b =>
      rcases lt_trichotomy x y with h | rfl | h
      · simp [cellLe, h]
      · have := ih b; simpa [cellLe] using this
      · simp [cellLe, h]

theorem cellLe_trans {a b c : Cell} (h1 : cellLe a b = true) (h2 : cellLe b c = true) : cellLe a c = true := by
  induction a generalizing b c with
  | nil => rfl
  | cons x a ih =>
    cases b with
    | nil => simp [cellLe] at h1
    | cons y b =>
      cases c with
      | nil => simp [cellLe] at h2
      | cons z c =>
        simp only [cellLe, Bool.or_eq_true, decide_eq_true_eq, Bool.and_eq_true] at h1 h2 ⊢
        rcases h1 with h1 | ⟨rfl, h1⟩ <;> rcases h2 with h2 | ⟨rfl, h2⟩
        · left; omega
        · left; omega
        · left; omega
        · right; exact ⟨rfl, ih h1 h2⟩

theorem cellLe_antisymm {a b : Cell} (h1 : cellLe a b = true) (h2 : cellLe b a = true) : a = b := by
  induction a generalizing b with
  | nil => cases b with
    | nil => rfl
    | cons y b => simp [cellLe] at h2
  | cons x a ih =>
    cases b with
    | nil => simp [cellLe] at h1
    | cons y b =>
      simp only [cellLe, Bool.or_eq_true, decide_eq_true_eq, Bool.and_eq_true] at h1 h2
      rcases h1 with h1 | ⟨rfl, h1⟩ <;> rcases h2 with h2 | ⟨h2, h3⟩
      · omega
      · omega
      · omega
      · rw [ih h1 h3]

instance : IsTrans Cell fun a b => cellLe a b = true := ⟨fun _ _ _ h1 h2 => cellLe_trans h1 h2⟩

instance : Std.Total fun a b : Cell => cellLe a b = true :=
  ⟨fun a b => by have := cellLe_total a b; rwa [Bool.or_eq_true] at this⟩

theorem sorted_cells (l : List Cell) :
    (l.insertionSort fun a b => cellLe a b = true).Pairwise fun a b => cellLe a b = true :=
  List.pairwise_insertionSort _ l

theorem uniqueFrom_subset (eq : Cell → Cell → Bool) (x : Cell) (l : List Cell) :
    ∀ z ∈ uniqueFrom eq x l, z ∈ x :: l := by
  induction l generalizing x with
  | nil => intro z hz; simpa [uniqueFrom] using hz
  | cons y l ih =>
    intro z hz
    unfold uniqueFrom at hz
    split at hz
    · rcases List.mem_cons.mp (ih x z hz) with h | h
      · simp [h]
      · simp [h]
    · rcases List.mem_cons.mp hz with rfl | hz
      · simp
      · exact List.mem_cons_of_mem _ (ih y z hz)

theorem unique_subset (eq : Cell → Cell → Bool) (l : List Cell) : ∀ z ∈ unique eq l, z ∈ l := by
  cases l with
  | nil => simp [unique]
  | cons x l => exact uniqueFrom_subset eq x l

theorem uniqueFrom_nodup (eq : Cell → Cell → Bool) (x : Cell) (l : List Cell)
    (hr : ∀ c ∈ x :: l, eq c c = true) (hs : (x :: l).Pairwise fun a b => cellLe a b = true) :
    (uniqueFrom eq x l).Nodup := by
  induction l generalizing x with
  | nil => simp [uniqueFrom]
  | cons y l ih =>
    rw [List.pairwise_cons, List.pairwise_cons] at hs
    unfold uniqueFrom
    split
    · refine ih x (fun c hc => hr c ?_) (List.pairwise_cons.mpr ⟨fun z hz => hs.1 z (by simp [hz]), hs.2.2⟩)
      rcases List.mem_cons.mp hc with h | h <;> simp [h]
    · next hne =>
      rw [List.nodup_cons]
      refine ⟨fun hx => ?_, ih y (fun c hc => hr c (List.mem_cons_of_mem _ hc)) (List.pairwise_cons.mpr hs.2)⟩
      rcases List.mem_cons.mp (uniqueFrom_subset eq y l x hx) with h | h
      · subst h; exact hne (hr x (by simp))
      · have h1 := hs.2.1 x h
        have h2 := hs.1 y (by simp)
        have := cellLe_antisymm h1 h2
        subst this; exact hne (hr y (by simp))

theorem unique_nodup (eq : Cell → Cell → Bool) (l : List Cell)
    (hr : ∀ c ∈ l, eq c c = true) (hs : l.Pairwise fun a b => cellLe a b = true) :
    (unique eq l).Nodup := by
  cases l with
  | nil => simp [unique]
  | cons x l => exact uniqueFrom_nodup eq x l hr hs

theorem uniqueFrom_keeps (eq : Cell → Cell → Bool) (x : Cell) (l : List Cell)
    (he : ∀ a ∈ x :: l, ∀ b ∈ x :: l, eq a b = true → a = b) :
    ∀ z ∈ x :: l, z ∈ uniqueFrom eq x l := by
  induction l generalizing x with
  | nil => intro z hz; simpa [uniqueFrom] using hz
  | cons y l ih =>
    intro z hz
    unfold uniqueFrom
    split
    · next h =>
      have hxy := he x (by simp) y (by simp) h
      refine ih x (fun a ha b hb => he a ?_ b ?_) z ?_
      · rcases List.mem_cons.mp ha with h | h <;> simp [h]
      · rcases List.mem_cons.mp hb with h | h <;> simp [h]
      · rcases List.mem_cons.mp hz with h | h
        · simp [h]
        · rcases List.mem_cons.mp h with h | h
          · simp [h, hxy]
          · simp [h]
    · rcases List.mem_cons.mp hz with rfl | hz
      · simp
      · exact List.mem_cons_of_mem _ (ih y (fun a ha b hb => he a (List.mem_cons_of_mem _ ha) b
          (List.mem_cons_of_mem _ hb)) z hz)

theorem unique_keeps (eq : Cell → Cell → Bool) (l : List Cell)
    (he : ∀ a ∈ l, ∀ b ∈ l, eq a b = true → a = b) : ∀ z ∈ l, z ∈ unique eq l := by
  cases l with
  | nil => simp
  | cons x l => exact uniqueFrom_keeps eq x l he

theorem _root_.Verif.Vertex.same_refl (v : Vertex d) : v.same v := by
  unfold Vertex.same
  simp only [sub_self, min_self]
  have h : (0 : ℚ) ≤ ∑ i, v.coords i ^ 2 := Finset.sum_nonneg fun i _ => sq_nonneg _
  have h2 : ∑ i : Fin d, (0 : ℚ) ^ 2 = 0 := by simp
  rw [h2]
  exact mul_nonneg (sq_nonneg _) h

theorem vertEq_self {m : Mesh d} {i : ℕ} (h : i < m.verts.length) : vertEq m i i = true := by
  unfold vertEq
  rw [List.getElem?_eq_getElem h]
  exact decide_eq_true (Vertex.same_refl _)

theorem isPerm_self {m : Mesh d} {c : Cell} (h : ∀ i ∈ c, i < m.verts.length) : isPerm m c c = true := by
  induction c with
  | nil => rfl
  | cons i c ih =>
    unfold isPerm
    rw [List.find?_cons_of_pos (vertEq_self (h i (by simp)))]
    dsimp only
    rw [List.erase_cons_head]
    exact ih fun j hj => h j (by simp [hj])

theorem isPerm_perm {m : Mesh d} (hv : ∀ i j, vertEq m i j = true → i = j) {a b : Cell}
    (h : isPerm m a b = true) : a.Perm b := by
  induction a generalizing b with
  | nil => unfold isPerm at h; rw [List.isEmpty_iff] at h; rw [h]
  | cons i a ih =>
    unfold isPerm at h
    split at h
    · next j hj =>
      have e := hv i j (List.find?_some hj)
      subst e
      exact (List.Perm.cons i (ih h)).trans (List.perm_cons_erase (List.mem_of_find?_eq_some hj)).symm
    · cases h

/-! ### Completion -/

section
variable {ptr : ℕ → ℕ}

theorem sortedPtrs_perm (c : Cell) : (sortedPtrs ptr c).Perm c := List.perm_insertionSort _ _

theorem sortedPtrs_pairwise (c : Cell) : (sortedPtrs ptr c).Pairwise fun i j => ptr i ≤ ptr j := by
  haveI : IsTrans ℕ fun i j => ptr i ≤ ptr j := ⟨fun _ _ _ h1 h2 => h1.trans h2⟩
  haveI : Std.Total fun i j => ptr i ≤ ptr j := ⟨fun i j => le_total _ _⟩
  exact List.pairwise_insertionSort _ c

theorem eq_of_perm_sorted (hp : Function.Injective ptr) {a b : List ℕ} (h : a.Perm b)
    (ha : a.Pairwise fun i j => ptr i ≤ ptr j) (hb : b.Pairwise fun i j => ptr i ≤ ptr j) : a = b :=
  List.Perm.eq_of_pairwise (fun _ _ _ _ h1 h2 => hp (le_antisymm h1 h2)) ha hb h

theorem sortedPtrs_eq_iff (hp : Function.Injective ptr) {a b : Cell} :
    sortedPtrs ptr a = sortedPtrs ptr b ↔ a.Perm b := by
  constructor
  · intro h
    exact (sortedPtrs_perm a).symm.trans ((List.Perm.of_eq h).trans (sortedPtrs_perm b))
  · intro h
    exact eq_of_perm_sorted hp ((sortedPtrs_perm a).trans (h.trans (sortedPtrs_perm b).symm))
      (sortedPtrs_pairwise a) (sortedPtrs_pairwise b)

/-- Invariant of the completion loops; `extra` are the elements that may have been added. -/
structure CompInv (ptr : ℕ → ℕ) (cells : List Cell) (extra : List (List ℕ)) (st : List (List ℕ) × List Cell) : Prop where
  keys : ∀ x, x ∈ st.1 ↔ ∃ c ∈ st.2, sortedPtrs ptr c = x
  pre : cells <+: st.2
  nodup : cells.Pairwise (fun a b => ¬ a.Perm b) → st.2.Pairwise fun a b => ¬ a.Perm b
  only : ∀ c ∈ st.2, c ∈ cells ∨ ∃ s ∈ extra, c = mkCell s
  all : ∀ s ∈ extra, ∃ c ∈ st.2, c.Perm s

theorem createIfMissing_inv (hp : Function.Injective ptr) {cells : List Cell} {extra : List (List ℕ)}
    {st : List (List ℕ) × List Cell} (h : CompInv ptr cells extra st) {s : List ℕ}
    (hs : s.Pairwise fun i j => ptr i ≤ ptr j) : CompInv ptr cells (s :: extra) (createIfMissing st s) := by
  have hkey : sortedPtrs ptr (mkCell s) = s :=
    eq_of_perm_sorted hp ((sortedPtrs_perm _).trans (mkCell_perm s)) (sortedPtrs_pairwise _) hs
  unfold createIfMissing
  split
  · next hm =>
    obtain ⟨c, hc, e⟩ := (h.keys s).mp hm
    refine ⟨h.keys, h.pre, h.nodup, fun c hc => ?_, fun t ht => ?_⟩
    · rcases h.only c hc with h1 | ⟨t, ht, e⟩
      · exact Or.inl h1
      · exact Or.inr ⟨t, by simp [ht], e⟩
    · rcases List.mem_cons.mp ht with rfl | ht
      · exact ⟨c, hc, e ▸ (sortedPtrs_perm c).symm⟩
      · exact h.all t ht
  · next hm =>
    refine ⟨fun x => ?_, h.pre.trans (List.prefix_append _ _), fun hn => ?_, fun c hc => ?_, fun t ht => ?_⟩
    · simp only [List.mem_cons, List.mem_append, List.not_mem_nil, or_false]
      rw [h.keys x]
      constructor
      · rintro (rfl | ⟨c, hc, e⟩)
        · exact ⟨mkCell x, Or.inr rfl, hkey⟩
        · exact ⟨c, Or.inl hc, e⟩
      · rintro ⟨c, hc | rfl, e⟩
        · exact Or.inr ⟨c, hc, e⟩
        · exact Or.inl (e ▸ hkey)
    · rw [List.pairwise_append]
      refine ⟨h.nodup hn, by simp, fun a ha b hb => ?_⟩
      rw [List.mem_singleton] at hb
      subst hb
      intro hperm
      exact hm ((h.keys s).mpr ⟨a, ha, by
        rw [(sortedPtrs_eq_iff hp).mpr hperm, hkey]⟩)
    · simp only [List.mem_append, List.mem_singleton] at hc
      rcases hc with hc | rfl
      · rcases h.only c hc with h1 | ⟨t, ht, e⟩
        · exact Or.inl h1
        · exact Or.inr ⟨t, by simp [ht], e⟩
      · exact Or.inr ⟨s, by simp, rfl⟩
    · rcases List.mem_cons.mp ht with rfl | ht
      · exact ⟨mkCell t, by simp, mkCell_perm t⟩
      · obtain ⟨c, hc, hperm⟩ := h.all t ht
        exact ⟨c, by simp [hc], hperm⟩

theorem CompInv.congr {cells : List Cell} {e e' : List (List ℕ)} {st : List (List ℕ) × List Cell}
    (h : CompInv ptr cells e st) (he : ∀ s, s ∈ e ↔ s ∈ e') : CompInv ptr cells e' st :=
  ⟨h.keys, h.pre, h.nodup, fun c hc => (h.only c hc).imp id fun ⟨s, hs, e⟩ => ⟨s, (he s).mp hs, e⟩,
    fun s hs => h.all s ((he s).mpr hs)⟩

theorem foldl_createIfMissing_inv (hp : Function.Injective ptr) {cells : List Cell} (l : List (List ℕ))
    {extra : List (List ℕ)} {st : List (List ℕ) × List Cell} (h : CompInv ptr cells extra st)
    (hs : ∀ s ∈ l, s.Pairwise fun i j => ptr i ≤ ptr j) :
    CompInv ptr cells (l ++ extra) (l.foldl createIfMissing st) := by
  induction l generalizing extra st with
  | nil => exact h
  | cons s l ih =>
    refine (ih (createIfMissing_inv hp h (hs s (by simp))) fun t ht => hs t (by simp [ht])).congr fun t => ?_
    simp only [List.mem_append, List.mem_cons]
    tauto

theorem complete_inv (hp : Function.Injective ptr) (sub : List ℕ → List (List ℕ))
    (hsub : ∀ l, ∀ s ∈ sub l, s.Sublist l) (parents cells : List Cell) :
    ∃ st : List (List ℕ) × List Cell, complete ptr sub parents cells = st.2 ∧
      CompInv ptr cells (parents.flatMap fun t => sub (sortedPtrs ptr t)) st := by
  refine ⟨_, rfl, ?_⟩
  have h0 : CompInv ptr cells [] (cells.map (sortedPtrs ptr), cells) :=
    ⟨fun x => by simp, List.prefix_rfl, id, fun c hc => Or.inl hc, fun s hs => by simp at hs⟩
  have key : ∀ (ps : List Cell) (extra : List (List ℕ)) (st : List (List ℕ) × List Cell),
      CompInv ptr cells extra st →
      CompInv ptr cells ((ps.flatMap fun t => sub (sortedPtrs ptr t)) ++ extra)
        (ps.foldl (fun st t => (sub (sortedPtrs ptr t)).foldl createIfMissing st) st) := by
    intro ps
    induction ps with
    | nil => intro extra st h; simpa using h
    | cons t ps ih =>
      intro extra st h
      refine (ih _ _ (foldl_createIfMissing_inv hp _ h fun s hs =>
        (sortedPtrs_pairwise t).sublist (hsub _ s hs))).congr fun s => ?_
      simp only [List.flatMap_cons, List.mem_append]
      tauto
  have := key parents [] _ h0
  simpa using this

theorem facesOf_sublist (l : List ℕ) : ∀ s ∈ facesOf l, s.Sublist l := by
  intro s hs
  unfold facesOf at hs
  split at hs
  · next a b c d =>
    simp only [List.mem_cons, List.not_mem_nil, or_false] at hs
    rcases hs with rfl | rfl | rfl | rfl
    · exact (List.sublist_append_left [a, b, c] [d])
    · exact ((List.Sublist.refl [d]).cons c).cons_cons b |>.cons_cons a
    · exact ((List.Sublist.refl [c, d]).cons b).cons_cons a
    · exact (List.Sublist.refl [b, c, d]).cons a
  · simp at hs

theorem edgesOf_sublist (l : List ℕ) : ∀ s ∈ edgesOf l, s.Sublist l := by
  intro s hs
  unfold edgesOf at hs
  split at hs
  · next a b c =>
    simp only [List.mem_cons, List.not_mem_nil, or_false] at hs
    rcases hs with rfl | rfl | rfl
    · exact (List.sublist_append_left [a, b] [c])
    · exact ((List.Sublist.refl [c]).cons b).cons_cons a
    · exact (List.Sublist.refl [b, c]).cons a
  · simp at hs

theorem mem_facesOf {l s : List ℕ} (hl : l.length = 4) (h : s.Sublist l) (hs : s.length = 3) : s ∈ facesOf l := by
  match l, hl with
  | [a, b, c, d], _ =>
    have := List.mem_sublistsLen.mpr ⟨h, hs⟩
    simp [List.sublistsLen_succ_cons] at this
    simp only [facesOf, List.mem_cons, List.not_mem_nil, or_false]
    tauto

theorem mem_edgesOf {l s : List ℕ} (hl : l.length = 3) (h : s.Sublist l) (hs : s.length = 2) : s ∈ edgesOf l := by
  match l, hl with
  | [a, b, c], _ =>
    have := List.mem_sublistsLen.mpr ⟨h, hs⟩
    simp [List.sublistsLen_succ_cons] at this
    simp only [edgesOf, List.mem_cons, List.not_mem_nil, or_false]
    tauto

end
end Verif.Mesh
