import Verif.Config.Scheme

/-!
# Exchanged data of coupling schemes: specification and lemmas (C108)
-/

set_option autoImplicit false

namespace Verif.Config.Scheme

/-! ## Specification -/

/-- What goes from one participant to the other: a data, whether there are initial values, and whether there are substeps. -/
structure Item where
  data : ℕ
  init : Bool
  substeps : Bool
deriving DecidableEq

/-- The item of a configured exchange. -/
def Exchange.item (e : Exchange) : Item := ⟨e.data, e.init, e.substeps⟩

/-- The item of data of a scheme. -/
def CplData.item (d : CplData) : Item := ⟨d.data, d.init, d.substeps⟩

/-- An exchange of this item is configured. -/
def Carried (exs : List Exchange) (p q : ℕ) (x : Item) : Prop := ∃ e ∈ exs, e.src = p ∧ e.dst = q ∧ e.item = x

/-- Each data once, in the order of their IDs. -/
def Ascending (l : List Item) : Prop := l.Pairwise fun x y => x.data < y.data

/-- An exchange is between two different participants of the scheme. -/
def Between (ps : List ℕ) (e : Exchange) : Prop := e.src ∈ ps ∧ e.dst ∈ ps ∧ e.dst ≠ e.src

/-- Two exchanges do not contradict each other: the same data is not received twice, not sent by its receiver, and sent with the same settings. -/
def Compatible (e f : Exchange) : Prop :=
  e.data = f.data → e.dst ≠ f.dst ∧ e.src ≠ f.dst ∧ e.dst ≠ f.src ∧ (e.src = f.src → e.item = f.item)

/-! ## Sorted maps -/

/-- Keys ascend. -/
def Keys (l : List CplData) : Prop := l.Pairwise fun x y => x.data < y.data

theorem keys_item (l : List CplData) : Ascending (l.map CplData.item) ↔ Keys l := by
  unfold Ascending Keys
  rw [List.pairwise_map]
  rfl

theorem emplace_mem {d : CplData} {l : List CplData} (hd : ∀ y ∈ l, y.data = d.data → y = d) (x : CplData) : x ∈ emplace d l ↔ x ∈ l ∨ x = d := by
  induction l with
  | nil => simp [emplace]
  | cons e l ih =>
    rw [emplace]
    split
    · simp only [List.mem_cons]
      tauto
    · split
      · next h =>
        have := hd e (by simp) h.symm
        subst this
        simp only [List.mem_cons]
        tauto
      · rw [List.mem_cons, ih fun y hy => hd y (by simp [hy]), List.mem_cons]
        tauto

theorem emplace_data {d : CplData} {l : List CplData} {x : CplData} (h : x ∈ emplace d l) : x ∈ l ∨ x = d := by
  induction l with
  | nil => simpa [emplace] using h
  | cons e l ih =>
    rw [emplace] at h
    split at h
    · simp only [List.mem_cons] at h ⊢
      tauto
    · split at h
      · exact .inl h
      · rw [List.mem_cons] at h
        rcases h with rfl | h
        · exact .inl (by simp)
        · rcases ih h with h | h
          · exact .inl (by simp [h])
          · exact .inr h

theorem emplace_keys {d : CplData} {l : List CplData} (h : Keys l) : Keys (emplace d l) := by
  induction l with
  | nil => simp [emplace, Keys]
  | cons e l ih =>
    unfold Keys at h
    rw [List.pairwise_cons] at h
    rw [emplace]
    split
    · next hlt =>
      unfold Keys
      rw [List.pairwise_cons, List.pairwise_cons]
      refine ⟨?_, h⟩
      intro x hx
      rw [List.mem_cons] at hx
      rcases hx with rfl | hx
      · exact hlt
      · exact hlt.trans (h.1 x hx)
    · split
      · unfold Keys
        rw [List.pairwise_cons]
        exact h
      · next h1 h2 =>
        unfold Keys
        rw [List.pairwise_cons]
        refine ⟨?_, ih h.2⟩
        intro x hx
        rcases emplace_data hx with hx | rfl
        · exact h.1 x hx
        · omega

theorem keys_eq {l : List CplData} (h : Keys l) {x y : CplData} (hx : x ∈ l) (hy : y ∈ l) (he : x.data = y.data) : x = y := by
  induction l with
  | nil => cases hx
  | cons e l ih =>
    unfold Keys at h
    rw [List.pairwise_cons] at h
    rw [List.mem_cons] at hx hy
    rcases hx with rfl | hx <;> rcases hy with rfl | hy
    · rfl
    · exact absurd (h.1 y hy) (by omega)
    · exact absurd (h.1 x hx) (by omega)
    · exact ih h.2 hx hy

/-- Two ascending lists with the same items are equal. -/
theorem ascending_eq {l m : List Item} (hl : Ascending l) (hm : Ascending m) (h : ∀ x, x ∈ l ↔ x ∈ m) : l = m := by
  induction l generalizing m with
  | nil =>
    cases m with
    | nil => rfl
    | cons y m => exact absurd ((h y).2 (by simp)) (by simp)
  | cons x l ih =>
    cases m with
    | nil => exact absurd ((h x).1 (by simp)) (by simp)
    | cons y m =>
      unfold Ascending at hl hm
      rw [List.pairwise_cons] at hl hm
      have hxy : x = y := by
        have h1 := (h x).1 (by simp)
        have h2 := (h y).2 (by simp)
        rw [List.mem_cons] at h1 h2
        rcases h1 with h1 | h1
        · exact h1
        · rcases h2 with h2 | h2
          · exact h2.symm
          · have := hl.1 y h2
            have := hm.1 x h1
            omega
      subst hxy
      congr 1
      refine ih hl.2 hm.2 ?_
      intro z
      have hz := h z
      rw [List.mem_cons, List.mem_cons] at hz
      constructor
      · intro hzl
        rcases hz.1 (.inr hzl) with rfl | h
        · exact absurd (hl.1 z hzl) (by omega)
        · exact h
      · intro hzm
        rcases hz.2 (.inr hzm) with rfl | h
        · exact absurd (hm.1 z hzm) (by omega)
        · exact h

/-! ## All data of a scheme -/

theorem add_ok {all all' : List CplData} {d d' : CplData} (hk : Keys all) (h : addCouplingData all d = .ok (d', all')) :
    d' = d ∧ Keys all' ∧ (∀ x, x ∈ all' ↔ x ∈ all ∨ x = d) ∧ (∀ x ∈ all, x.data = d.data → x = d ∧ d.sent = true) := by
  unfold addCouplingData at h
  split at h
  · next hf =>
    rw [Except.ok.injEq, Prod.mk.injEq] at h
    obtain ⟨rfl, rfl⟩ := h
    have hn : ∀ y ∈ all, y.data ≠ d.data := by simpa using hf
    exact ⟨rfl, emplace_keys hk, emplace_mem fun y hy he => absurd he (hn y hy), fun x hx he => absurd he (hn x hx)⟩
  · next x hf =>
    split at h
    · next hc =>
      rw [Except.ok.injEq, Prod.mk.injEq] at h
      obtain ⟨rfl, rfl⟩ := h
      have hx := List.mem_of_find?_eq_some hf
      have he : x.data = d.data := by simpa using List.find?_some hf
      have hxd : x = d := by
        cases x
        cases d
        simp only [CplData.mk.injEq]
        simp only at hc he
        exact ⟨he, hc.2.2.2, hc.2.2.1, hc.1⟩
      subst hxd
      refine ⟨rfl, hk, ?_, ?_⟩
      · intro y
        constructor
        · exact .inl
        · rintro (h | rfl)
          · exact h
          · exact hx
      · intro y hy hyd
        exact ⟨keys_eq hk hy hx hyd, hc.2.1⟩
    · cases h

theorem add_accepts {all : List CplData} {d : CplData} (h : ∀ x ∈ all, x.data = d.data → x = d ∧ d.sent = true) : ∃ r, addCouplingData all d = .ok r := by
  unfold addCouplingData
  split
  · exact ⟨_, rfl⟩
  · next x hf =>
    have hx := List.mem_of_find?_eq_some hf
    have he : x.data = d.data := by simpa using List.find?_some hf
    obtain ⟨rfl, hs⟩ := h x hx he
    rw [if_pos ⟨rfl, hs, rfl, rfl⟩]
    exact ⟨_, rfl⟩

theorem add_error {all : List CplData} {d : CplData} {x : Err} (h : addCouplingData all d = .error x) : x = .check := by
  unfold addCouplingData at h
  split at h
  · cases h
  · split at h
    · cases h
    · cases h; rfl

/-! ## The maps of a scheme describe the exchanges read so far -/

/-- The data a participant gets from an exchange. -/
def dataOf (a : ℕ) (e : Exchange) : CplData := ⟨e.data, e.init, e.substeps, decide (e.src = a)⟩

/-- The participant takes part in the exchange. -/
def Takes (a : ℕ) (e : Exchange) : Prop := e.src = a ∨ e.dst = a

/-- All data are those of the exchanges. -/
def AllData (a : ℕ) (es : List Exchange) (all : List CplData) : Prop := Keys all ∧ ∀ x, x ∈ all ↔ ∃ e ∈ es, Takes a e ∧ x = dataOf a e

/-- The new exchange fits to the ones before, for the participant. -/
def Fits (a : ℕ) (es : List Exchange) (e : Exchange) : Prop :=
  ∀ f ∈ es, Takes a f → Takes a e → f.data = e.data → dataOf a f = dataOf a e ∧ e.src = a

theorem allData_step {a : ℕ} {es : List Exchange} {e : Exchange} {all all' : List CplData} {d : CplData} (h : AllData a es all) (ht : Takes a e)
    (ha : addCouplingData all (dataOf a e) = .ok (d, all')) : d = dataOf a e ∧ AllData a (es ++ [e]) all' ∧ Fits a es e := by
  obtain ⟨h1, h2, h3, h4⟩ := add_ok h.1 ha
  refine ⟨h1, ⟨h2, ?_⟩, ?_⟩
  · intro x
    rw [h3, h.2]
    constructor
    · rintro (⟨f, hf, hx⟩ | rfl)
      · exact ⟨f, by simp [hf], hx⟩
      · exact ⟨e, by simp, ht, rfl⟩
    · rintro ⟨f, hf, htf, rfl⟩
      rw [List.mem_append, List.mem_singleton] at hf
      rcases hf with hf | rfl
      · exact .inl ⟨f, hf, htf, rfl⟩
      · exact .inr rfl
  · intro f hf htf _ hd
    obtain ⟨h5, h6⟩ := h4 (dataOf a f) ((h.2 _).2 ⟨f, hf, htf, rfl⟩) hd
    exact ⟨h5, by simpa [dataOf] using h6⟩

theorem allData_accepts {a : ℕ} {es : List Exchange} {e : Exchange} {all : List CplData} (h : AllData a es all) (ht : Takes a e) (hf : Fits a es e) :
    ∃ r, addCouplingData all (dataOf a e) = .ok r := by
  refine add_accepts ?_
  intro x hx hd
  obtain ⟨f, hfe, htf, rfl⟩ := (h.2 x).1 hx
  obtain ⟨h1, h2⟩ := hf f hfe htf ht hd
  exact ⟨h1, by simpa [dataOf] using h2⟩

theorem allData_skip {a : ℕ} {es : List Exchange} {e : Exchange} {all : List CplData} (h : AllData a es all) (ht : ¬ Takes a e) : AllData a (es ++ [e]) all := by
  refine ⟨h.1, fun x => ?_⟩
  rw [h.2]
  constructor
  · rintro ⟨f, hf, hx⟩
    exact ⟨f, by simp [hf], hx⟩
  · rintro ⟨f, hf, htf, rfl⟩
    rw [List.mem_append, List.mem_singleton] at hf
    rcases hf with hf | rfl
    · exact ⟨f, hf, htf, rfl⟩
    · exact absurd htf ht

/-- One map of a scheme: the data of the exchanges with a property. -/
def MapOf (a : ℕ) (es : List Exchange) (P : Exchange → Prop) (l : List CplData) : Prop := Keys l ∧ ∀ x, x ∈ l ↔ ∃ e ∈ es, P e ∧ x = dataOf a e

theorem mapOf_step {a : ℕ} {es : List Exchange} {P : Exchange → Prop} {l : List CplData} (h : MapOf a es P l) {e : Exchange} (he : P e)
    (hf : ∀ f ∈ es, P f → f.data = e.data → dataOf a f = dataOf a e) : MapOf a (es ++ [e]) P (emplace (dataOf a e) l) := by
  refine ⟨emplace_keys h.1, fun x => ?_⟩
  rw [emplace_mem, h.2]
  · constructor
    · rintro (⟨f, hf, hx⟩ | rfl)
      · exact ⟨f, by simp [hf], hx⟩
      · exact ⟨e, by simp, he, rfl⟩
    · rintro ⟨f, hf, hP, rfl⟩
      rw [List.mem_append, List.mem_singleton] at hf
      rcases hf with hf | rfl
      · exact .inl ⟨f, hf, hP, rfl⟩
      · exact .inr rfl
  · intro y hy hd
    obtain ⟨f, hfe, hP, rfl⟩ := (h.2 y).1 hy
    exact hf f hfe hP hd

theorem mapOf_skip {a : ℕ} {es : List Exchange} {P : Exchange → Prop} {l : List CplData} (h : MapOf a es P l) {e : Exchange} (he : ¬ P e) :
    MapOf a (es ++ [e]) P l := by
  refine ⟨h.1, fun x => ?_⟩
  rw [h.2]
  constructor
  · rintro ⟨f, hf, hx⟩
    exact ⟨f, by simp [hf], hx⟩
  · rintro ⟨f, hf, htf, rfl⟩
    rw [List.mem_append, List.mem_singleton] at hf
    rcases hf with hf | rfl
    · exact ⟨f, hf, htf, rfl⟩
    · exact absurd htf he

theorem mapOf_items {a : ℕ} {es : List Exchange} {P : Exchange → Prop} {l : List CplData} (h : MapOf a es P l) (x : Item) :
    x ∈ l.map CplData.item ↔ ∃ e ∈ es, P e ∧ e.item = x := by
  rw [List.mem_map]
  constructor
  · rintro ⟨d, hd, rfl⟩
    obtain ⟨e, he, hP, rfl⟩ := (h.2 d).1 hd
    exact ⟨e, he, hP, rfl⟩
  · rintro ⟨e, he, hP, rfl⟩
    exact ⟨dataOf a e, (h.2 _).2 ⟨e, he, hP, rfl⟩, rfl⟩

theorem mapOf_init {a : ℕ} {es : List Exchange} {P : Exchange → Prop} {l : List CplData} (h : MapOf a es P l) :
    l.any CplData.init = true ↔ ∃ e ∈ es, P e ∧ e.init = true := by
  rw [List.any_eq_true]
  constructor
  · rintro ⟨d, hd, hi⟩
    obtain ⟨e, he, hP, rfl⟩ := (h.2 d).1 hd
    exact ⟨e, he, hP, hi⟩
  · rintro ⟨e, he, hP, hi⟩
    exact ⟨dataOf a e, (h.2 _).2 ⟨e, he, hP, rfl⟩, hi⟩

end Verif.Config.Scheme
