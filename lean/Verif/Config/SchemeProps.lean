import Verif.Config.SchemeLemmas

/-!
# C108: both sides of a coupling scheme agree on what is exchanged
-/

set_option autoImplicit false

namespace Verif.Config.Scheme

/-! ## Two participants -/

/-- The scheme of participant `a` describes the exchanges `es`. -/
structure BiInv (a : ℕ) (es : List Exchange) (s : Bi) : Prop where
  all : AllData a es s.all
  send : MapOf a es (fun e => e.src = a) s.send
  recv : MapOf a es (fun e => e.src ≠ a ∧ e.dst = a) s.recv

theorem biInv_init (a : ℕ) : BiInv a [] ⟨[], [], []⟩ := by
  refine ⟨⟨List.Pairwise.nil, ?_⟩, ⟨List.Pairwise.nil, ?_⟩, ⟨List.Pairwise.nil, ?_⟩⟩ <;> simp

theorem any_data {a : ℕ} {es : List Exchange} {P : Exchange → Prop} {l : List CplData} (h : MapOf a es P l) (n : ℕ) :
    (l.any fun x => decide (x.data = n)) = true ↔ ∃ e ∈ es, P e ∧ e.data = n := by
  rw [List.any_eq_true]
  constructor
  · rintro ⟨d, hd, hn⟩
    obtain ⟨e, he, hP, rfl⟩ := (h.2 d).1 hd
    exact ⟨e, he, hP, of_decide_eq_true hn⟩
  · rintro ⟨e, he, hP, hn⟩
    exact ⟨dataOf a e, (h.2 _).2 ⟨e, he, hP, rfl⟩, decide_eq_true hn⟩

/-- What is needed of the next exchange. -/
structure BiNext (k : Lookup) (ps : List ℕ) (a : ℕ) (es : List Exchange) (e : Exchange) : Prop where
  between : Between ps e
  direct : k.direct e = false
  degree : e.dst = a → k.degree e = false
  fresh : ∀ f ∈ es, f.data ≠ e.data

theorem bi_send {a : ℕ} {es : List Exchange} {s s' : Bi} {e : Exchange} (h : BiInv a es s) (ha : e.src = a) (hr : s.addSend e = .ok s') :
    BiInv a (es ++ [e]) s' ∧ ∀ f ∈ es, Takes a f → f.data ≠ e.data := by
  have hd : dataOf a e = ⟨e.data, e.init, e.substeps, true⟩ := by simp [dataOf, ha]
  have ht : Takes a e := .inl ha
  unfold Bi.addSend at hr
  rw [← hd] at hr
  split at hr
  · cases hr
  · next d all hc =>
    obtain ⟨rfl, h1, h2⟩ := allData_step h.all ht hc
    split at hr
    · cases hr
    · next hn =>
      cases hr
      rw [any_data h.send] at hn
      have hno : ∀ f ∈ es, Takes a f → f.data ≠ e.data := by
        intro f hf htf hfd
        have h3 := (h2 f hf htf ht hfd).1
        have h4 : f.src = a := by
          have := congrArg CplData.sent h3
          simpa [dataOf, ha] using this
        exact hn ⟨f, hf, h4, hfd⟩
      refine ⟨⟨h1, ?_, ?_⟩, hno⟩
      · exact mapOf_step h.send ha fun f hf hP hfd => absurd hfd (hno f hf (.inl hP))
      · exact mapOf_skip h.recv fun hP => hP.1 ha

theorem bi_recv {a : ℕ} {es : List Exchange} {s s' : Bi} {e : Exchange} (h : BiInv a es s) (ha : e.src ≠ a) (hb : e.dst = a) (hr : s.addRecv e = .ok s') :
    BiInv a (es ++ [e]) s' ∧ ∀ f ∈ es, Takes a f → f.data ≠ e.data := by
  have hd : dataOf a e = ⟨e.data, e.init, e.substeps, false⟩ := by simp [dataOf, ha]
  have ht : Takes a e := .inr hb
  unfold Bi.addRecv at hr
  rw [← hd] at hr
  split at hr
  · cases hr
  · next d all hc =>
    obtain ⟨rfl, h1, h2⟩ := allData_step h.all ht hc
    split at hr
    · cases hr
    · cases hr
      have hno : ∀ f ∈ es, Takes a f → f.data ≠ e.data := fun f hf htf hfd => ha (h2 f hf htf ht hfd).2
      refine ⟨⟨h1, ?_, ?_⟩, hno⟩
      · exact mapOf_skip h.send ha
      · exact mapOf_step h.recv ⟨ha, hb⟩ fun f hf hP hfd => absurd hfd (hno f hf (.inr hP.2))

theorem bi_step {k : Lookup} {p q a : ℕ} (hac : a = p ∨ a = q) {es : List Exchange} (hes : ∀ f ∈ es, Between [p, q] f) {s s' : Bi} {e : Exchange} (h : BiInv a es s)
    (hr : s.addOne k [p, q] a e = .ok s') : BiInv a (es ++ [e]) s' ∧ BiNext k [p, q] a es e := by
  have htakes : ∀ f, Between [p, q] f → Takes a f := by
    intro f hf
    obtain ⟨h1, h2, h3⟩ := hf
    simp only [List.mem_cons, List.not_mem_nil, or_false] at h1 h2
    unfold Takes
    rcases hac with rfl | rfl <;> rcases h1 with h1 | h1 <;> rcases h2 with h2 | h2 <;> simp_all
  unfold Bi.addOne at hr
  split at hr
  · cases hr
  · next h1 =>
    split at hr
    · cases hr
    · next h2 =>
      split at hr
      · cases hr
      · next h3 =>
        push Not at h2
        have hbt : Between [p, q] e := ⟨h2.1, h2.2, h1⟩
        have h3' : k.direct e = false := by simpa using h3
        split at hr
        · next h4 =>
          obtain ⟨h5, h6⟩ := bi_send h h4 hr
          exact ⟨h5, hbt, h3', fun hd => absurd (hd.trans h4.symm) h1, fun f hf => h6 f hf (htakes f (hes f hf))⟩
        · next h4 =>
          split at hr
          · next h5 =>
            split at hr
            · cases hr
            · next h6 =>
              obtain ⟨h7, h8⟩ := bi_recv h h4 h5 hr
              exact ⟨h7, hbt, h3', fun _ => by simpa using h6, fun f hf => h8 f hf (htakes f (hes f hf))⟩
          · cases hr

theorem bi_step_accepts {k : Lookup} {p q a : ℕ} (hac : a = p ∨ a = q) {es : List Exchange} {s : Bi} {e : Exchange} (h : BiInv a es s)
    (hn : BiNext k [p, q] a es e) : ∃ s', s.addOne k [p, q] a e = .ok s' := by
  obtain ⟨⟨h1, h2, h3⟩, h4, h5, h6⟩ := hn
  have hfit : Fits a es e := fun f hf _ _ hd => absurd hd (h6 f hf)
  unfold Bi.addOne
  rw [if_neg h3, if_neg (by push Not; exact ⟨h1, h2⟩), if_neg (by simp [h4])]
  split
  · next ha =>
    obtain ⟨⟨d, all⟩, hr⟩ := allData_accepts h.all (.inl ha) hfit
    have hd : dataOf a e = ⟨e.data, e.init, e.substeps, true⟩ := by simp [dataOf, ha]
    rw [hd] at hr
    unfold Bi.addSend
    rw [hr]
    have hno : ¬ (s.send.any fun x => decide (x.data = e.data)) = true := by
      rw [any_data h.send]
      rintro ⟨f, hf, _, hfd⟩
      exact h6 f hf hfd
    simp only [hno, Bool.false_eq_true, if_false]
    exact ⟨_, rfl⟩
  · next ha =>
    have hb : e.dst = a := by
      simp only [List.mem_cons, List.not_mem_nil, or_false] at h1 h2
      rcases hac with rfl | rfl <;> rcases h1 with h1 | h1 <;> rcases h2 with h2 | h2 <;> simp_all
    rw [if_pos hb, if_neg (by simp [h5 hb])]
    obtain ⟨⟨d, all⟩, hr⟩ := allData_accepts h.all (.inr hb) hfit
    have hd : dataOf a e = ⟨e.data, e.init, e.substeps, false⟩ := by simp [dataOf, ha]
    rw [hd] at hr
    unfold Bi.addRecv
    rw [hr]
    have hno : ¬ (s.recv.any fun x => decide (x.data = e.data)) = true := by
      rw [any_data h.recv]
      rintro ⟨f, hf, _, hfd⟩
      exact h6 f hf hfd
    simp only [hno, Bool.false_eq_true, if_false]
    exact ⟨_, rfl⟩

/-- What is needed of exchanges after those in `es`. -/
def BiRest (k : Lookup) (ps : List ℕ) (a : ℕ) : List Exchange → List Exchange → Prop
  | _, [] => True
  | es, e :: r => BiNext k ps a es e ∧ BiRest k ps a (es ++ [e]) r

theorem bi_all {k : Lookup} {p q a : ℕ} (hac : a = p ∨ a = q) {es : List Exchange} (hes : ∀ f ∈ es, Between [p, q] f) {s s' : Bi} (h : BiInv a es s) (r : List Exchange)
    (hr : Bi.addAll k [p, q] a s r = .ok s') : BiInv a (es ++ r) s' ∧ BiRest k [p, q] a es r := by
  induction r generalizing es s with
  | nil =>
    cases hr
    exact ⟨by simpa using h, trivial⟩
  | cons e r ih =>
    rw [Bi.addAll] at hr
    split at hr
    · cases hr
    · next s1 h1 =>
      obtain ⟨h2, h3⟩ := bi_step hac hes h h1
      have hes' : ∀ f ∈ es ++ [e], Between [p, q] f := by
        intro f hf
        rw [List.mem_append, List.mem_singleton] at hf
        rcases hf with hf | rfl
        · exact hes f hf
        · exact h3.between
      obtain ⟨h4, h5⟩ := ih hes' h2 hr
      exact ⟨by simpa using h4, h3, h5⟩

theorem bi_all_accepts {k : Lookup} {p q a : ℕ} (hac : a = p ∨ a = q) {es : List Exchange} (hes : ∀ f ∈ es, Between [p, q] f) {s : Bi} (h : BiInv a es s) (r : List Exchange)
    (hn : BiRest k [p, q] a es r) : ∃ s', Bi.addAll k [p, q] a s r = .ok s' := by
  induction r generalizing es s with
  | nil => exact ⟨s, rfl⟩
  | cons e r ih =>
    obtain ⟨s1, h1⟩ := bi_step_accepts hac h hn.1
    obtain ⟨h2, h3⟩ := bi_step hac hes h h1
    rw [Bi.addAll, h1]
    refine ih ?_ h2 hn.2
    intro f hf
    rw [List.mem_append, List.mem_singleton] at hf
    rcases hf with hf | rfl
    · exact hes f hf
    · exact h3.between

theorem biRest_iff {k : Lookup} {ps : List ℕ} {a : ℕ} (es r : List Exchange) :
    BiRest k ps a es r ↔ (∀ e ∈ r, Between ps e ∧ k.direct e = false ∧ (e.dst = a → k.degree e = false)) ∧ (r.Pairwise fun e f => e.data ≠ f.data) ∧ ∀ f ∈ es, ∀ e ∈ r, f.data ≠ e.data := by
  induction r generalizing es with
  | nil => simp [BiRest]
  | cons e r ih =>
    rw [BiRest, ih, List.pairwise_cons]
    constructor
    · rintro ⟨⟨h1, h2, h3, h4⟩, h5, h6, h7⟩
      refine ⟨?_, ⟨fun f hf => h7 e (by simp) f hf, h6⟩, ?_⟩
      · intro f hf
        rw [List.mem_cons] at hf
        rcases hf with rfl | hf
        · exact ⟨h1, h2, h3⟩
        · exact h5 f hf
      · intro f hf g hg
        rw [List.mem_cons] at hg
        rcases hg with rfl | hg
        · exact h4 f hf
        · exact h7 f (by simp [hf]) g hg
    · rintro ⟨h1, ⟨h2, h3⟩, h4⟩
      obtain ⟨h5, h6, h7⟩ := h1 e (by simp)
      refine ⟨⟨h5, h6, h7, fun f hf => h4 f hf e (by simp)⟩, fun f hf => h1 f (by simp [hf]), h3, ?_⟩
      intro f hf g hg
      rw [List.mem_append, List.mem_singleton] at hf
      rcases hf with hf | rfl
      · exact h4 f hf g (by simp [hg])
      · exact h2 g hg

/-- **C108** If both participants of a coupling scheme accept its exchanges, then one of them sends exactly the data, with the same settings and in the same order, that the
other one receives; these are exactly the configured exchanges, each data once; and both agree on whether there is initial data to be sent. -/
theorem C108_two {k k' : Lookup} {p q : ℕ} (hpq : p ≠ q) {exs : List Exchange} {A B : Bi} (hA : Bi.build k p q p exs = .ok A) (hB : Bi.build k' p q q exs = .ok B) :
    A.send.map CplData.item = B.recv.map CplData.item ∧ B.send.map CplData.item = A.recv.map CplData.item
      ∧ (∀ x, x ∈ A.send.map CplData.item ↔ Carried exs p q x) ∧ (∀ x, x ∈ B.send.map CplData.item ↔ Carried exs q p x)
      ∧ Ascending (A.send.map CplData.item) ∧ Ascending (B.send.map CplData.item)
      ∧ A.sendsInitial = B.recvsInitial ∧ B.sendsInitial = A.recvsInitial := by
  obtain ⟨iA, rA⟩ := bi_all (.inl rfl) (by simp) (biInv_init p) exs hA
  obtain ⟨iB, rB⟩ := bi_all (.inr rfl) (by simp) (biInv_init q) exs hB
  rw [List.nil_append] at iA iB
  rw [biRest_iff] at rA
  have hbt : ∀ e ∈ exs, Between [p, q] e := fun e he => (rA.1 e he).1
  have h1 : ∀ e ∈ exs, e.src = p ↔ e.src ≠ q ∧ e.dst = q := by
    intro e he
    obtain ⟨h1, h2, h3⟩ := hbt e he
    simp only [List.mem_cons, List.not_mem_nil, or_false] at h1 h2
    rcases h1 with h1 | h1 <;> rcases h2 with h2 | h2 <;> simp_all; exact fun h => hpq h.symm
  have h2 : ∀ e ∈ exs, e.src = q ↔ e.src ≠ p ∧ e.dst = p := by
    intro e he
    obtain ⟨h1, h2, h3⟩ := hbt e he
    simp only [List.mem_cons, List.not_mem_nil, or_false] at h1 h2
    rcases h1 with h1 | h1 <;> rcases h2 with h2 | h2 <;> simp_all; exact fun h => hpq h.symm
  have s1 : A.send.map CplData.item = B.recv.map CplData.item := by
    refine ascending_eq ((keys_item _).2 iA.send.1) ((keys_item _).2 iB.recv.1) fun x => ?_
    rw [mapOf_items iA.send, mapOf_items iB.recv]
    constructor
    · rintro ⟨e, he, hP, hx⟩
      exact ⟨e, he, (h1 e he).1 hP, hx⟩
    · rintro ⟨e, he, hP, hx⟩
      exact ⟨e, he, (h1 e he).2 hP, hx⟩
  have s2 : B.send.map CplData.item = A.recv.map CplData.item := by
    refine ascending_eq ((keys_item _).2 iB.send.1) ((keys_item _).2 iA.recv.1) fun x => ?_
    rw [mapOf_items iB.send, mapOf_items iA.recv]
    constructor
    · rintro ⟨e, he, hP, hx⟩
      exact ⟨e, he, (h2 e he).1 hP, hx⟩
    · rintro ⟨e, he, hP, hx⟩
      exact ⟨e, he, (h2 e he).2 hP, hx⟩
  have hany : ∀ l : List CplData, l.any CplData.init = (l.map CplData.item).any Item.init := by
    intro l
    rw [List.any_map]
    rfl
  refine ⟨s1, s2, ?_, ?_, (keys_item _).2 iA.send.1, (keys_item _).2 iB.send.1, ?_, ?_⟩
  · intro x
    rw [mapOf_items iA.send]
    constructor
    · rintro ⟨e, he, hP, hx⟩
      exact ⟨e, he, hP, ((h1 e he).1 hP).2, hx⟩
    · rintro ⟨e, he, hP, _, hx⟩
      exact ⟨e, he, hP, hx⟩
  · intro x
    rw [mapOf_items iB.send]
    constructor
    · rintro ⟨e, he, hP, hx⟩
      exact ⟨e, he, hP, ((h2 e he).1 hP).2, hx⟩
    · rintro ⟨e, he, hP, _, hx⟩
      exact ⟨e, he, hP, hx⟩
  · unfold Bi.sendsInitial Bi.recvsInitial
    rw [hany, hany, s1]
  · unfold Bi.sendsInitial Bi.recvsInitial
    rw [hany, hany, s2]

/-- **C108** Both participants accept the exchanges exactly if each is between the two, no data occurs twice, none is refused for direct access, and none for the waveform
degree of its receiver. So one data cannot go back and forth within a scheme. -/
theorem C108_two_accepts (k : Lookup) (p q : ℕ) (exs : List Exchange) :
    ((∃ A, Bi.build k p q p exs = .ok A) ∧ ∃ B, Bi.build k p q q exs = .ok B)
      ↔ (∀ e ∈ exs, Between [p, q] e ∧ k.direct e = false ∧ k.degree e = false) ∧ exs.Pairwise fun e f => e.data ≠ f.data := by
  constructor
  · rintro ⟨⟨A, hA⟩, B, hB⟩
    obtain ⟨-, rA⟩ := bi_all (.inl rfl) (by simp) (biInv_init p) exs hA
    obtain ⟨-, rB⟩ := bi_all (.inr rfl) (by simp) (biInv_init q) exs hB
    rw [biRest_iff] at rA rB
    refine ⟨fun e he => ?_, rA.2.1⟩
    obtain ⟨h1, h2, h3⟩ := rA.1 e he
    obtain ⟨-, -, h4⟩ := rB.1 e he
    refine ⟨h1, h2, ?_⟩
    have := h1.2.1
    simp only [List.mem_cons, List.not_mem_nil, or_false] at this
    exact this.elim h3 h4
  · rintro ⟨h1, h2⟩
    have h (a : ℕ) : BiRest k [p, q] a [] exs := by
      rw [biRest_iff]
      exact ⟨fun e he => ⟨(h1 e he).1, (h1 e he).2.1, fun _ => (h1 e he).2.2⟩, h2, by simp⟩
    exact ⟨bi_all_accepts (.inl rfl) (by simp) (biInv_init p) exs (h p), bi_all_accepts (.inr rfl) (by simp) (biInv_init q) exs (h q)⟩

/-- **C108** The assertion on the type of the scheme never fails. -/
theorem C108_two_no_assert {k : Lookup} {p q a : ℕ} (hac : a = p ∨ a = q) {exs : List Exchange} {x : Err} (h : Bi.build k p q a exs = .error x) : x = .check := by
  unfold Bi.build at h
  generalize (⟨[], [], []⟩ : Bi) = s at h
  induction exs generalizing s with
  | nil => cases h
  | cons e r ih =>
    rw [Bi.addAll] at h
    split at h
    · next y hy =>
      cases h
      unfold Bi.addOne at hy
      split at hy
      · cases hy; rfl
      · next h1 =>
        split at hy
        · cases hy; rfl
        · next h2 =>
          split at hy
          · cases hy; rfl
          · split at hy
            · unfold Bi.addSend at hy
              split at hy
              · next hx =>
                cases hy
                exact add_error hx
              · split at hy
                · cases hy; rfl
                · cases hy
            · next h4 =>
              split at hy
              · split at hy
                · cases hy; rfl
                · unfold Bi.addRecv at hy
                  split at hy
                  · next hx =>
                    cases hy
                    exact add_error hx
                  · split at hy
                    · cases hy; rfl
                    · cases hy
              · next h5 =>
                exfalso
                push Not at h2
                simp only [List.mem_cons, List.not_mem_nil, or_false] at h2
                obtain ⟨h6, h7⟩ := h2
                rcases hac with rfl | rfl <;> rcases h6 with h6 | h6 <;> rcases h7 with h7 | h7 <;> simp_all
    · exact ih _ h

/-! ## Several participants -/

/-- The scheme of participant `a` describes the exchanges `es`. -/
structure MultiInv (a : ℕ) (es : List Exchange) (s : Multi) : Prop where
  all : AllData a es s.all
  send : ∀ b, MapOf a es (fun e => e.src = a ∧ e.dst = b) (s.send b)
  recv : ∀ b, MapOf a es (fun e => e.src = b ∧ e.src ≠ a ∧ e.dst = a) (s.recv b)
  sendInitial : ∀ b, s.sendInitial b = true ↔ ∃ e ∈ es, (e.src = a ∧ e.dst = b) ∧ e.init = true
  recvInitial : ∀ b, s.recvInitial b = true ↔ ∃ e ∈ es, (e.src = b ∧ e.src ≠ a ∧ e.dst = a) ∧ e.init = true

theorem multiInv_init (a : ℕ) : MultiInv a [] ⟨[], fun _ => [], fun _ => [], fun _ => false, fun _ => false⟩ := by
  refine ⟨⟨List.Pairwise.nil, ?_⟩, fun b => ⟨List.Pairwise.nil, ?_⟩, fun b => ⟨List.Pairwise.nil, ?_⟩, ?_, ?_⟩ <;> simp

theorem initial_step {es : List Exchange} {e : Exchange} {P : Exchange → Prop} {v : Bool} (h : v = true ↔ ∃ f ∈ es, P f ∧ f.init = true) (hn : ¬ (P e ∧ e.init = true)) :
    v = true ↔ ∃ f ∈ es ++ [e], P f ∧ f.init = true := by
  rw [h]
  constructor
  · rintro ⟨f, hf, hx⟩
    exact ⟨f, by simp [hf], hx⟩
  · rintro ⟨f, hf, hx⟩
    rw [List.mem_append, List.mem_singleton] at hf
    rcases hf with hf | rfl
    · exact ⟨f, hf, hx⟩
    · exact absurd hx hn

theorem initial_set {es : List Exchange} {e : Exchange} {P : Exchange → Prop} (hn : P e ∧ e.init = true) : True ↔ ∃ f ∈ es ++ [e], P f ∧ f.init = true :=
  ⟨fun _ => ⟨e, by simp, hn⟩, fun _ => trivial⟩

theorem multi_skip {a : ℕ} {es : List Exchange} {s : Multi} {e : Exchange} (h : MultiInv a es s) (ht : ¬ Takes a e) : MultiInv a (es ++ [e]) s := by
  unfold Takes at ht
  push Not at ht
  refine ⟨allData_skip h.all (by unfold Takes; push Not; exact ht), fun b => mapOf_skip (h.send b) fun hP => ht.1 hP.1, fun b => mapOf_skip (h.recv b) fun hP => ht.2 hP.2.2,
    fun b => initial_step (h.sendInitial b) fun hP => ht.1 hP.1.1, fun b => initial_step (h.recvInitial b) fun hP => ht.2 hP.1.2.2⟩

theorem multi_send {a : ℕ} {es : List Exchange} {s s' : Multi} {e : Exchange} (h : MultiInv a es s) (ha : e.src = a) (hb : e.dst ≠ a) (hr : s.addSend e = .ok s') :
    MultiInv a (es ++ [e]) s' ∧ Fits a es e := by
  have hd : dataOf a e = ⟨e.data, e.init, e.substeps, true⟩ := by simp [dataOf, ha]
  have ht : Takes a e := .inl ha
  unfold Multi.addSend at hr
  rw [← hd] at hr
  split at hr
  · cases hr
  · next d all hc =>
    obtain ⟨rfl, h1, h2⟩ := allData_step h.all ht hc
    cases hr
    refine ⟨⟨h1, ?_, fun b => mapOf_skip (h.recv b) fun hP => hb hP.2.2, ?_, fun b => initial_step (h.recvInitial b) fun hP => hb hP.1.2.2⟩, h2⟩
    · intro b
      by_cases hbe : b = e.dst
      · subst hbe
        simp only [update, if_true]
        exact mapOf_step (h.send e.dst) ⟨ha, rfl⟩ fun f hf hP hfd => (h2 f hf (.inl hP.1) ht hfd).1
      · simp only [update, if_neg hbe]
        exact mapOf_skip (h.send b) fun hP => hbe hP.2.symm
    · intro b
      cases hi : e.init with
      | false =>
        simp only [Bool.false_eq_true, if_false]
        exact initial_step (h.sendInitial b) (by simp [hi])
      | true =>
        simp only [if_true]
        by_cases hbe : b = e.dst
        · subst hbe
          simp only [update, if_true]
          exact initial_set (P := fun f => f.src = a ∧ f.dst = e.dst) ⟨⟨ha, rfl⟩, hi⟩
        · simp only [update, if_neg hbe]
          exact initial_step (h.sendInitial b) fun hP => hbe hP.1.2.symm

theorem multi_recv {a : ℕ} {es : List Exchange} {s s' : Multi} {e : Exchange} (h : MultiInv a es s) (ha : e.src ≠ a) (hb : e.dst = a) (hr : s.addRecv e = .ok s') :
    MultiInv a (es ++ [e]) s' ∧ Fits a es e := by
  have hd : dataOf a e = ⟨e.data, e.init, e.substeps, false⟩ := by simp [dataOf, ha]
  have ht : Takes a e := .inr hb
  unfold Multi.addRecv at hr
  rw [← hd] at hr
  split at hr
  · cases hr
  · next d all hc =>
    obtain ⟨rfl, h1, h2⟩ := allData_step h.all ht hc
    cases hr
    refine ⟨⟨h1, fun b => mapOf_skip (h.send b) fun hP => ha hP.1, ?_, fun b => initial_step (h.sendInitial b) fun hP => ha hP.1.1, ?_⟩, h2⟩
    · intro b
      by_cases hbe : b = e.src
      · subst hbe
        simp only [update, if_true]
        exact mapOf_step (h.recv e.src) ⟨rfl, ha, hb⟩ fun f hf hP hfd => (h2 f hf (.inr hP.2.2) ht hfd).1
      · simp only [update, if_neg hbe]
        exact mapOf_skip (h.recv b) fun hP => hbe hP.1.symm
    · intro b
      cases hi : e.init with
      | false =>
        simp only [Bool.false_eq_true, if_false]
        exact initial_step (h.recvInitial b) (by simp [hi])
      | true =>
        simp only [if_true]
        by_cases hbe : b = e.src
        · subst hbe
          simp only [update, if_true]
          exact initial_set (P := fun f => f.src = e.src ∧ f.src ≠ a ∧ f.dst = a) ⟨⟨rfl, ha, hb⟩, hi⟩
        · simp only [update, if_neg hbe]
          exact initial_step (h.recvInitial b) fun hP => hbe hP.1.1.symm

theorem multi_step {ps : List ℕ} {a : ℕ} {es : List Exchange} {s s' : Multi} {e : Exchange} (h : MultiInv a es s) (hr : s.addOne ps a e = .ok s') :
    MultiInv a (es ++ [e]) s' ∧ Between ps e ∧ Fits a es e := by
  unfold Multi.addOne at hr
  split at hr
  · cases hr
  · next h1 =>
    split at hr
    · cases hr
    · next h2 =>
      push Not at h2
      have hbt : Between ps e := ⟨h2.1, h2.2, h1⟩
      split at hr
      · next h3 =>
        obtain ⟨h4, h5⟩ := multi_send h h3 (fun hd => h1 (hd.trans h3.symm)) hr
        exact ⟨h4, hbt, h5⟩
      · next h3 =>
        split at hr
        · next h4 =>
          obtain ⟨h5, h6⟩ := multi_recv h h3 h4 hr
          exact ⟨h5, hbt, h6⟩
        · next h4 =>
          cases hr
          have ht : ¬ Takes a e := by
            rintro (h | h)
            · exact h3 h
            · exact h4 h
          exact ⟨multi_skip h ht, hbt, fun f _ _ hte => absurd hte ht⟩

theorem multi_step_accepts {ps : List ℕ} {a : ℕ} {es : List Exchange} {s : Multi} {e : Exchange} (h : MultiInv a es s) (hb : Between ps e) (hf : Fits a es e) :
    ∃ s', s.addOne ps a e = .ok s' := by
  obtain ⟨h1, h2, h3⟩ := hb
  unfold Multi.addOne
  rw [if_neg h3, if_neg (by push Not; exact ⟨h1, h2⟩)]
  split
  · next ha =>
    obtain ⟨⟨d, all⟩, hr⟩ := allData_accepts h.all (.inl ha) hf
    have hd : dataOf a e = ⟨e.data, e.init, e.substeps, true⟩ := by simp [dataOf, ha]
    rw [hd] at hr
    unfold Multi.addSend
    rw [hr]
    exact ⟨_, rfl⟩
  · next ha =>
    split
    · next hb =>
      obtain ⟨⟨d, all⟩, hr⟩ := allData_accepts h.all (.inr hb) hf
      have hd : dataOf a e = ⟨e.data, e.init, e.substeps, false⟩ := by simp [dataOf, ha]
      rw [hd] at hr
      unfold Multi.addRecv
      rw [hr]
      exact ⟨_, rfl⟩
    · exact ⟨_, rfl⟩

/-- What is needed of exchanges after those in `es`. -/
def MultiRest (ps : List ℕ) (a : ℕ) : List Exchange → List Exchange → Prop
  | _, [] => True
  | es, e :: r => Between ps e ∧ Fits a es e ∧ MultiRest ps a (es ++ [e]) r

theorem multi_all {ps : List ℕ} {a : ℕ} {es : List Exchange} {s s' : Multi} (h : MultiInv a es s) (r : List Exchange) (hr : Multi.addAll ps a s r = .ok s') :
    MultiInv a (es ++ r) s' ∧ MultiRest ps a es r := by
  induction r generalizing es s with
  | nil =>
    cases hr
    exact ⟨by simpa using h, trivial⟩
  | cons e r ih =>
    rw [Multi.addAll] at hr
    split at hr
    · cases hr
    · next s1 h1 =>
      obtain ⟨h2, h3, h4⟩ := multi_step h h1
      obtain ⟨h5, h6⟩ := ih h2 hr
      exact ⟨by simpa using h5, h3, h4, h6⟩

theorem multi_all_accepts {ps : List ℕ} {a : ℕ} {es : List Exchange} {s : Multi} (h : MultiInv a es s) (r : List Exchange) (hn : MultiRest ps a es r) :
    ∃ s', Multi.addAll ps a s r = .ok s' := by
  induction r generalizing es s with
  | nil => exact ⟨s, rfl⟩
  | cons e r ih =>
    obtain ⟨s1, h1⟩ := multi_step_accepts h hn.1 hn.2.1
    rw [Multi.addAll, h1]
    exact ih (multi_step h h1).1 hn.2.2

theorem multiRest_iff {ps : List ℕ} {a : ℕ} (es r : List Exchange) :
    MultiRest ps a es r ↔ (∀ e ∈ r, Between ps e) ∧ (r.Pairwise fun f e => Fits a [f] e) ∧ ∀ e ∈ r, Fits a es e := by
  have happ : ∀ (l m : List Exchange) e, Fits a (l ++ m) e ↔ Fits a l e ∧ Fits a m e := by
    intro l m e
    unfold Fits
    constructor
    · intro h
      exact ⟨fun f hf => h f (by simp [hf]), fun f hf => h f (by simp [hf])⟩
    · rintro ⟨h1, h2⟩ f hf
      rw [List.mem_append] at hf
      exact hf.elim (h1 f) (h2 f)
  induction r generalizing es with
  | nil => simp [MultiRest]
  | cons e r ih =>
    have ih := ih (es ++ [e])
    rw [MultiRest, List.pairwise_cons]
    constructor
    · rintro ⟨h1, h2, hr⟩
      obtain ⟨h3, h4, h5⟩ := ih.1 hr
      refine ⟨?_, ⟨fun f hf => ((happ _ _ _).1 (h5 f hf)).2, h4⟩, ?_⟩
      · intro f hf
        rw [List.mem_cons] at hf
        exact hf.elim (fun h => h ▸ h1) (h3 f)
      · intro f hf
        rw [List.mem_cons] at hf
        exact hf.elim (fun h => h ▸ h2) fun h => ((happ _ _ _).1 (h5 f h)).1
    · rintro ⟨h1, ⟨h2, h3⟩, h4⟩
      exact ⟨h1 e (by simp), h4 e (by simp), ih.2 ⟨fun f hf => h1 f (by simp [hf]), h3, fun f hf => (happ _ _ _).2 ⟨h4 f (by simp [hf]), h2 f hf⟩⟩⟩

/-- **C108** If two participants of a scheme for several accept its exchanges, then one of them sends exactly the data, with the same settings and in the same order, that the
other one receives from it; these are exactly the configured exchanges, each data once; and both agree on whether there is initial data to be sent. -/
theorem C108_many {ps : List ℕ} {p q : ℕ} (hpq : p ≠ q) {exs : List Exchange} {A B : Multi} (hA : Multi.build ps p exs = .ok A) (hB : Multi.build ps q exs = .ok B) :
    (A.send q).map CplData.item = (B.recv p).map CplData.item
      ∧ (∀ x, x ∈ (A.send q).map CplData.item ↔ Carried exs p q x) ∧ Ascending ((A.send q).map CplData.item)
      ∧ A.sendInitial q = B.recvInitial p ∧ (A.sendInitial q = true ↔ ∃ x, Carried exs p q x ∧ x.init = true) := by
  obtain ⟨iA, -⟩ := multi_all (multiInv_init p) exs hA
  obtain ⟨iB, -⟩ := multi_all (multiInv_init q) exs hB
  rw [List.nil_append] at iA iB
  have hiff : ∀ e : Exchange, (e.src = p ∧ e.dst = q) ↔ (e.src = p ∧ e.src ≠ q ∧ e.dst = q) := by
    intro e
    constructor
    · rintro ⟨h1, h2⟩
      exact ⟨h1, fun h => hpq (h1.symm.trans h), h2⟩
    · rintro ⟨h1, _, h2⟩
      exact ⟨h1, h2⟩
  refine ⟨?_, ?_, (keys_item _).2 (iA.send q).1, ?_, ?_⟩
  · refine ascending_eq ((keys_item _).2 (iA.send q).1) ((keys_item _).2 (iB.recv p).1) fun x => ?_
    rw [mapOf_items (iA.send q), mapOf_items (iB.recv p)]
    simp only [hiff]
  · intro x
    rw [mapOf_items (iA.send q)]
    simp only [and_assoc]
    rfl
  · rw [Bool.eq_iff_iff, iA.sendInitial, iB.recvInitial]
    simp only [hiff]
  · rw [iA.sendInitial]
    constructor
    · rintro ⟨e, he, ⟨h1, h2⟩, h3⟩
      exact ⟨e.item, ⟨e, he, h1, h2, rfl⟩, h3⟩
    · rintro ⟨x, ⟨e, he, h1, h2, rfl⟩, h3⟩
      exact ⟨e, he, ⟨h1, h2⟩, h3⟩

theorem fits_iff (f e : Exchange) (a : ℕ) :
    Fits a [f] e ↔ (Takes a f → Takes a e → f.data = e.data → f.src = a ∧ e.src = a ∧ f.item = e.item) := by
  unfold Fits
  simp only [List.mem_singleton, forall_eq]
  constructor
  · intro h h1 h2 h3
    obtain ⟨h4, h5⟩ := h h1 h2 h3
    simp only [dataOf, CplData.mk.injEq] at h4
    obtain ⟨h6, h7, h8, h9⟩ := h4
    refine ⟨by simpa [h5] using h9, h5, ?_⟩
    unfold Exchange.item
    rw [h6, h7, h8]
  · intro h h1 h2 h3
    obtain ⟨h4, h5, h6⟩ := h h1 h2 h3
    simp only [Exchange.item, Item.mk.injEq] at h6
    obtain ⟨h6, h7, h8⟩ := h6
    refine ⟨?_, h5⟩
    unfold dataOf
    rw [h6, h7, h8, h4, h5]

/-- **C108** All participants of a scheme for several accept the exchanges exactly if each is between two different participants of the scheme and no two contradict each
other. -/
theorem C108_many_accepts (ps : List ℕ) (hne : ps ≠ []) (exs : List Exchange) :
    (∀ p ∈ ps, ∃ A, Multi.build ps p exs = .ok A) ↔ (∀ e ∈ exs, Between ps e) ∧ exs.Pairwise Compatible := by
  constructor
  · intro h
    obtain ⟨p, hp⟩ := List.exists_mem_of_ne_nil ps hne
    have hR (a : ℕ) (ha : a ∈ ps) : (∀ e ∈ exs, Between ps e) ∧ (exs.Pairwise fun f e => Fits a [f] e) ∧ ∀ e ∈ exs, Fits a [] e := by
      obtain ⟨A, hA⟩ := h a ha
      exact (multiRest_iff _ _).1 (multi_all (multiInv_init a) exs hA).2
    have hbt := (hR p hp).1
    refine ⟨hbt, ?_⟩
    have hall : exs.Pairwise fun f e => ∀ a ∈ ps, Fits a [f] e := by
      have : ∀ a ∈ ps, exs.Pairwise fun f e => Fits a [f] e := fun a ha => (hR a ha).2.1
      clear hR h hbt
      induction exs with
      | nil => exact List.Pairwise.nil
      | cons e r ih =>
        rw [List.pairwise_cons]
        exact ⟨fun f hf a ha => (List.pairwise_cons.1 (this a ha)).1 f hf, ih fun a ha => (List.pairwise_cons.1 (this a ha)).2⟩
    refine hall.imp_of_mem ?_
    intro f e hf he hfit hd
    obtain ⟨f1, f2, f3⟩ := hbt f hf
    obtain ⟨e1, e2, e3⟩ := hbt e he
    have key : ∀ a ∈ ps, Takes a f → Takes a e → f.src = a ∧ e.src = a ∧ f.item = e.item := fun a ha h1 h2 => (fits_iff f e a).1 (hfit a ha) h1 h2 hd
    refine ⟨?_, ?_, ?_, ?_⟩
    · intro hdd
      exact f3 (key f.dst f2 (.inr rfl) (.inr hdd.symm)).1.symm
    · intro hdd
      obtain ⟨h1, h2, -⟩ := key f.src f1 (.inl rfl) (.inr hdd.symm)
      exact e3 (hdd.symm.trans h2.symm)
    · intro hdd
      exact f3 (key f.dst f2 (.inr rfl) (.inl hdd.symm)).1.symm
    · intro hss
      exact (key f.src f1 (.inl rfl) (.inl hss.symm)).2.2
  · rintro ⟨hbt, hc⟩ a ha
    refine multi_all_accepts (multiInv_init a) exs ?_
    rw [multiRest_iff]
    refine ⟨hbt, ?_, fun e _ f hf => by simp at hf⟩
    refine hc.imp_of_mem ?_
    intro f e _ _ hcomp
    rw [fits_iff]
    rintro h1 h2 hd
    obtain ⟨c1, c2, c3, c4⟩ := hcomp hd
    rcases h1 with h1 | h1 <;> rcases h2 with h2 | h2
    · exact ⟨h1, h2, c4 (h1.trans h2.symm)⟩
    · exact absurd (h1.trans h2.symm) c2
    · exact absurd (h1.trans h2.symm) c3
    · exact absurd (h1.trans h2.symm) c1

end Verif.Config.Scheme
