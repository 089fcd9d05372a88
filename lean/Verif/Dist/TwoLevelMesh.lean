import Verif.Dist.TwoLevelInit

/-!
# Parts of a mesh in the boxes of ranks

Lemmas for C116: filtering a mesh that was put together is the same as putting filtered meshes together.
-/

set_option autoImplicit false

namespace Verif.TwoLevelInit

open Verif.Dist Verif.Com Verif.Repartition

variable {d p n : ℕ}

theorem appended_ok {a b : Mesh d} (ha : a.Ok) (hb : b.Ok) : (appended a b).Ok := by
  have aux : ∀ {k : ℕ} {cs cs' : List Cell}, Mesh.CellsOk a.verts.length k cs → Mesh.CellsOk b.verts.length k cs' →
      Mesh.CellsOk (appended a b).verts.length k (cs ++ cs'.map fun c => c.map (a.verts.length + ·)) := by
    intro k cs cs' ha hb c hc
    simp only [appended, List.length_append, List.length_map]
    rw [List.mem_append, List.mem_map] at hc
    rcases hc with hc | ⟨c, hc, rfl⟩
    · have := ha c hc
      exact ⟨this.1, this.2.1, this.2.2.1, fun i hi => (this.2.2.2 i hi).trans_le (by omega)⟩
    · have := hb c hc
      refine ⟨by rw [List.length_map]; exact this.1, this.2.1.map fun a b h => by simpa using h,
        this.2.2.1.map _ fun a b h => by simpa using h, fun i hi => ?_⟩
      obtain ⟨j, hj, rfl⟩ := List.mem_map.mp hi
      have := this.2.2.2 j hj
      omega
  exact ⟨aux ha.edges hb.edges, aux ha.tris hb.tris, aux ha.tets hb.tets⟩

theorem foldl_ok {l : List (Mesh d)} (hl : ∀ m ∈ l, m.Ok) {a : Mesh d} (ha : a.Ok) : (l.foldl appended a).Ok := by
  induction l generalizing a with
  | nil => exact ha
  | cons m l ih => exact ih (fun m' hm' => hl m' (by simp [hm'])) (appended_ok ha (hl m (by simp)))

theorem empty_ok : (Mesh.empty d).Ok := ⟨fun _ h => by simp [Mesh.empty] at h, fun _ h => by simp [Mesh.empty] at h, fun _ h => by simp [Mesh.empty] at h⟩

theorem core_core (v : Vertex d) : core (core v) = core v := rfl

/-- The vertices of what was put together. -/
theorem foldl_verts (l : List (Mesh d)) (a : Mesh d) : (l.foldl appended a).verts = a.verts ++ l.flatMap fun m => m.verts.map core := by
  induction l generalizing a with
  | nil => simp
  | cons m l ih =>
    rw [List.foldl_cons, ih, List.flatMap_cons]
    simp only [appended, List.append_assoc]

theorem selected_left {a b : Mesh d} (P : Vertex d → Bool) {i : ℕ} (hi : i < a.verts.length) : Mesh.Selected (appended a b) P i ↔ Mesh.Selected a P i := by
  unfold Mesh.Selected appended
  rw [List.getElem?_append_left hi]

theorem selected_right {a b : Mesh d} (P : Vertex d → Bool) (hP : ∀ v, P (core v) = P v) (i : ℕ) : Mesh.Selected (appended a b) P (a.verts.length + i) ↔ Mesh.Selected b P i := by
  unfold Mesh.Selected appended
  simp only
  rw [List.getElem?_append_right (by omega), Nat.add_sub_cancel_left, List.getElem?_map]
  constructor
  · rintro ⟨v, hv, hp⟩
    obtain ⟨w, hw, rfl⟩ := Option.map_eq_some_iff.1 hv
    exact ⟨w, hw, by rwa [← hP]⟩
  · rintro ⟨v, hv, hp⟩
    exact ⟨core v, by rw [hv]; rfl, by rwa [hP]⟩

theorem newId_left {a b : Mesh d} (P : Vertex d → Bool) {i : ℕ} (hi : i < a.verts.length) :
    Mesh.newId (Mesh.empty d) (appended a b) P i = Mesh.newId (Mesh.empty d) a P i := by
  unfold Mesh.newId appended
  simp only
  rw [List.take_append_of_le_length hi.le]

theorem newId_right {a b : Mesh d} (P : Vertex d → Bool) (hP : ∀ v, P (core v) = P v) (i : ℕ) :
    Mesh.newId (Mesh.empty d) (appended a b) P (a.verts.length + i) = (a.verts.filter P).length + Mesh.newId (Mesh.empty d) b P i := by
  unfold Mesh.newId appended
  simp only
  rw [List.take_append, List.take_of_length_le (by omega), Nat.add_sub_cancel_left, List.filter_append, List.length_append, ← List.map_take, List.filter_map, List.length_map]
  have : (P ∘ core : Vertex d → Bool) = P := funext hP
  rw [this, show (Mesh.empty d).verts.length = 0 from rfl]
  omega

theorem filter_appended {a b : Mesh d} (ha : a.Ok) (hb : b.Ok) (P : Vertex d → Bool) (hP : ∀ v, P (core v) = P v) :
    Mesh.filter (Mesh.empty d) (appended a b) P = appended (Mesh.filter (Mesh.empty d) a P) (Mesh.filter (Mesh.empty d) b P) := by
  obtain ⟨h1, h2, h3, h4, -⟩ := Mesh.C41_filter (Mesh.empty d) (appended a b) (appended_ok ha hb) P
  obtain ⟨a1, a2, a3, a4, -⟩ := Mesh.C41_filter (Mesh.empty d) a ha P
  obtain ⟨b1, b2, b3, b4, -⟩ := Mesh.C41_filter (Mesh.empty d) b hb P
  rw [show (Mesh.empty d).verts = [] from rfl, List.nil_append] at h1 a1 b1
  rw [show (Mesh.empty d).edges = [] from rfl, List.nil_append] at h2 a2 b2
  rw [show (Mesh.empty d).tris = [] from rfl, List.nil_append] at h3 a3 b3
  rw [show (Mesh.empty d).tets = [] from rfl, List.nil_append] at h4 a4 b4
  have key : ∀ {k : ℕ} {cs cs' : List Cell}, Mesh.CellsOk a.verts.length k cs → Mesh.CellsOk b.verts.length k cs' →
      ((cs ++ cs'.map fun c => c.map (a.verts.length + ·)).filter fun c => decide (∀ i ∈ c, Mesh.Selected (appended a b) P i)).map
          (fun c => c.map (Mesh.newId (Mesh.empty d) (appended a b) P)) =
        (cs.filter fun c => decide (∀ i ∈ c, Mesh.Selected a P i)).map (fun c => c.map (Mesh.newId (Mesh.empty d) a P)) ++
        ((cs'.filter fun c => decide (∀ i ∈ c, Mesh.Selected b P i)).map (fun c => c.map (Mesh.newId (Mesh.empty d) b P))).map
          fun c => c.map ((a.verts.filter P).length + ·) := by
    intro k cs cs' hcs hcs'
    rw [List.filter_append, List.map_append, List.filter_map, List.map_map, List.map_map]
    congr 1
    · rw [List.filter_congr (q := fun c => decide (∀ i ∈ c, Mesh.Selected a P i)) fun c hc => by
        rw [decide_eq_decide]
        exact forall₂_congr fun i hi => selected_left P ((hcs c hc).2.2.2 i hi)]
      refine List.map_congr_left fun c hc => List.map_congr_left fun i hi => ?_
      exact newId_left P ((hcs c (List.mem_of_mem_filter hc)).2.2.2 i hi)
    · rw [List.filter_congr (q := fun c => decide (∀ i ∈ c, Mesh.Selected b P i)) fun c _ => by
        simp only [Function.comp_apply, decide_eq_decide, List.forall_mem_map]
        exact forall₂_congr fun i _ => selected_right P hP i]
      refine List.map_congr_left fun c _ => ?_
      simp only [Function.comp_apply, List.map_map]
      exact List.map_congr_left fun i _ => newId_right P hP i
  have hv : (appended a b).verts.filter P = a.verts.filter P ++ (b.verts.filter P).map core := by
    unfold appended
    simp only
    rw [List.filter_append, List.filter_map, show (P ∘ core : Vertex d → Bool) = P from funext hP]
  have ext : ∀ {x y : Mesh d}, x.verts = y.verts → x.edges = y.edges → x.tris = y.tris → x.tets = y.tets → x = y := by
    rintro ⟨_, _, _, _⟩ ⟨_, _, _, _⟩ h1 h2 h3 h4
    simp_all
  refine ext ?_ ?_ ?_ ?_
  · rw [h1, hv]
    simp only [appended, a1, b1]
  · rw [h2]
    refine (key ha.edges hb.edges).trans ?_
    simp only [appended, a1, a2, b2]
  · rw [h3]
    refine (key ha.tris hb.tris).trans ?_
    simp only [appended, a1, a3, b3]
  · rw [h4]
    refine (key ha.tets hb.tets).trans ?_
    simp only [appended, a1, a4, b4]

/-- Nothing is left of a mesh without selected vertices. -/
theorem filter_none {a : Mesh d} (ha : a.Ok) (P : Vertex d → Bool) (h : ∀ v ∈ a.verts, P v = false) : Mesh.filter (Mesh.empty d) a P = Mesh.empty d := by
  obtain ⟨h1, h2, h3, h4, -⟩ := Mesh.C41_filter (Mesh.empty d) a ha P
  have hs : ∀ i, ¬ Mesh.Selected a P i := by
    rintro i ⟨v, hv, hp⟩
    rw [h v (List.mem_of_getElem? hv)] at hp
    exact Bool.false_ne_true hp
  have key : ∀ {k : ℕ} {cs : List Cell}, 0 < k → Mesh.CellsOk a.verts.length k cs → (cs.filter fun c => decide (∀ i ∈ c, Mesh.Selected a P i)) = [] := by
    intro k cs hk hcs
    rw [List.filter_eq_nil_iff]
    intro c hc
    rw [decide_eq_true_eq]
    intro hall
    obtain ⟨i, hi⟩ := List.exists_mem_of_length_pos (l := c) (by rw [(hcs c hc).1]; exact hk)
    exact hs i (hall i hi)
  have hv : a.verts.filter P = [] := by
    rw [List.filter_eq_nil_iff]
    intro v hv
    rw [h v hv]
    exact Bool.false_ne_true
  rw [key (by decide) ha.edges] at h2
  rw [key (by decide) ha.tris] at h3
  rw [key (by decide) ha.tets] at h4
  rw [hv] at h1
  generalize Mesh.filter (Mesh.empty d) a P = x at *
  obtain ⟨_, _, _, _⟩ := x
  simp_all [Mesh.empty]

theorem appended_none (a : Mesh d) : appended a (Mesh.empty d) = a := by
  obtain ⟨_, _, _, _⟩ := a
  simp [appended, Mesh.empty]

theorem filter_foldl (P : Vertex d → Bool) (hP : ∀ v, P (core v) = P v) (l : List (Mesh d)) (hl : ∀ m ∈ l, m.Ok) {a : Mesh d} (ha : a.Ok) :
    Mesh.filter (Mesh.empty d) (l.foldl appended a) P = (l.map fun m => Mesh.filter (Mesh.empty d) m P).foldl appended (Mesh.filter (Mesh.empty d) a P) := by
  induction l generalizing a with
  | nil => rfl
  | cons m l ih =>
    rw [List.foldl_cons, List.map_cons, List.foldl_cons, ih (fun m' hm' => hl m' (by simp [hm'])) (appended_ok ha (hl m (by simp))), filter_appended ha (hl m (by simp)) P hP]

/-- Parts without selected vertices may be missing. -/
theorem filter_foldl_sub {β : Type} (P : Vertex d → Bool) (hP : ∀ v, P (core v) = P v) (m : β → Mesh d) (hm : ∀ x, (m x).Ok) (c : β → Bool)
    (hc : ∀ x, c x = false → ∀ v ∈ (m x).verts, P v = false) (l : List β) :
    Mesh.filter (Mesh.empty d) (((l.filter c).map m).foldl appended (Mesh.empty d)) P = Mesh.filter (Mesh.empty d) ((l.map m).foldl appended (Mesh.empty d)) P := by
  have hok : ∀ (l : List β), ∀ x ∈ l.map m, x.Ok := by
    intro l x hx
    obtain ⟨y, -, rfl⟩ := List.mem_map.1 hx
    exact hm y
  rw [filter_foldl P hP _ (hok _) empty_ok, filter_foldl P hP _ (hok _) empty_ok]
  generalize Mesh.filter (Mesh.empty d) (Mesh.empty d) P = a
  induction l generalizing a with
  | nil => rfl
  | cons x l ih =>
    rw [List.map_cons, List.map_cons, List.foldl_cons]
    cases hx : c x with
    | true => rw [List.filter_cons_of_pos hx, List.map_cons, List.map_cons, List.foldl_cons, ih]
    | false =>
      rw [List.filter_cons_of_neg (by rw [hx]; exact Bool.false_ne_true), ih, filter_none (hm x) P (hc x hx), appended_none]

/-- Boxes with a common point overlap. -/
theorem overlapping_of_common {a b : Box d} {x : Pt d} (h1 : a.contains x = true) (h2 : b.contains x = true) : a.overlapping b = true := by
  rw [Box.C39_contains] at h1 h2
  unfold Box.overlapping
  rw [List.all_eq_true]
  intro i _
  have := h1 i
  have := h2 i
  simp only [Bool.not_eq_true', Bool.or_eq_false_iff, Bool.and_eq_false_iff, decide_eq_false_iff_not, not_lt]
  constructor
  · exact .inr (by linarith)
  · exact .inr (by linarith)

end Verif.TwoLevelInit
