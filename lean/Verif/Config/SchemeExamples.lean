import Verif.Config.SchemeConfigMain

/-!
# C108, C109: concrete schemes, several schemes of a participant, and what is not checked
-/

set_option autoImplicit false

namespace Verif.Config.Scheme

/-! ## Several schemes of a participant -/

theorem addSchemes_ok {remeshing : Bool} {l bs l' : List Bool} (h : addSchemes remeshing l bs = .ok l') :
    l' = l ++ bs ∧ (l.count true ≤ 1 → (l ++ bs).count true ≤ 1) ∧ (remeshing = true → l.length ≤ 1 → (l ++ bs).length ≤ 1) := by
  induction bs generalizing l with
  | nil =>
    cases h
    simp
  | cons b bs ih =>
    rw [addSchemes] at h
    split at h
    · cases h
    · next l1 h1 =>
      obtain ⟨i1, i2, i3⟩ := ih h
      unfold addScheme at h1
      split at h1
      · next he =>
        cases h1
        rw [List.isEmpty_iff] at he
        subst he
        refine ⟨by simpa using i1, fun _ => ?_, fun hr _ => ?_⟩
        · exact i2 (by cases b <;> simp)
        · exact i3 hr (by simp)
      · split at h1
        · cases h1
        · next hr =>
          split at h1
          · cases h1
          · next hi =>
            cases h1
            refine ⟨by simpa using i1, fun hc => ?_, fun hr' => absurd hr' hr⟩
            have := i2 (by
              rw [List.count_append]
              cases b with
              | false => simpa using hc
              | true =>
                simp only [Bool.true_and, Bool.not_eq_true] at hi
                have h0 : l.count true = 0 := by
                  rw [List.count_eq_zero]
                  intro hm
                  have : l.any id = true := List.any_eq_true.2 ⟨true, hm, rfl⟩
                  rw [hi] at this
                  cases this
                simp [h0])
            simpa using this

theorem addSchemes_accepts {l bs : List Bool} (h : (l ++ bs).count true ≤ 1) : addSchemes false l bs = .ok (l ++ bs) := by
  induction bs generalizing l with
  | nil => simp [addSchemes]
  | cons b bs ih =>
    rw [addSchemes]
    have h1 : addScheme false l b = .ok (l ++ [b]) := by
      unfold addScheme
      split
      · next he =>
        rw [List.isEmpty_iff] at he
        subst he
        rfl
      · rw [if_neg (by simp)]
        rw [if_neg]
        intro hb
        rw [Bool.and_eq_true, List.any_eq_true] at hb
        obtain ⟨rfl, x, hx, rfl⟩ := hb
        have := List.count_pos_iff.2 hx
        simp only [List.count_append, List.count_cons_self] at h
        have h2 : 0 < l.count true := this
        omega
    rw [h1]
    simp only
    rw [ih (by simpa using h)]
    simp

/-- **C109** A participant may have any number of coupling schemes, but at most one implicit one, and with remeshing only one at all. The schemes keep their order. -/
theorem C109_one_implicit (remeshing : Bool) (bs : List Bool) :
    (∃ l, addSchemes remeshing [] bs = .ok l) ↔ bs.count true ≤ 1 ∧ (remeshing = true → bs.length ≤ 1) := by
  constructor
  · rintro ⟨l, h⟩
    obtain ⟨-, h2, h3⟩ := addSchemes_ok h
    exact ⟨h2 (by simp), fun hr => h3 hr (by simp)⟩
  · rintro ⟨h1, h2⟩
    cases remeshing with
    | false => exact ⟨_, addSchemes_accepts h1⟩
    | true =>
      have := h2 rfl
      match bs, this with
      | [], _ => exact ⟨_, rfl⟩
      | [b], _ => exact ⟨_, rfl⟩
      | a :: b :: r, h => simp at h

/-- Three schemes, the second of them implicit, and two implicit schemes, which are refused. -/
example : (∃ l, addSchemes false [] [false, true, false] = .ok l) ∧ ¬ ∃ l, addSchemes false [] [true, true] = .ok l := by
  rw [C109_one_implicit, C109_one_implicit]
  decide

/-! ## Two participants -/

/-- Nothing is refused because of direct access or the waveform degree, and everyone is linked. -/
def free : World := { direct := fun _ => false, degree := fun _ => false, link := fun _ _ => true }

/-- Data 3 and 1 from participant 0 to participant 1, data 2 back with initial values. -/
def twoExs : List Exchange := [⟨3, 0, 1, false, true⟩, ⟨2, 1, 0, true, true⟩, ⟨1, 0, 1, false, false⟩]

/-- The hypotheses of `C108_two` and its conclusion. -/
example : (∃ A B, Bi.build free.toLookup 0 1 0 twoExs = .ok A ∧ Bi.build free.toLookup 0 1 1 twoExs = .ok B ∧ A.send.map CplData.data = [1, 3] ∧ B.recv.map CplData.data = [1, 3]
    ∧ A.recvsInitial = true) :=
  ⟨_, _, rfl, rfl, rfl, rfl, rfl⟩

/-- The hypothesis of `C108_two_no_assert`: a data in both directions. -/
example : ∃ x, Bi.build free.toLookup 0 1 0 (⟨3, 1, 0, false, true⟩ :: twoExs) = .error x := ⟨_, rfl⟩

/-- Data 5 of participant 0 goes to participants 1 and 2, data 6 from 1 to 2. -/
def manyExs : List Exchange := [⟨5, 0, 1, true, true⟩, ⟨5, 0, 2, true, true⟩, ⟨6, 1, 2, false, true⟩]

/-- The hypotheses of `C108_many`. -/
example : ∃ A B, Multi.build [0, 1, 2] 0 manyExs = .ok A ∧ Multi.build [0, 1, 2] 2 manyExs = .ok B ∧ (A.send 2).map CplData.data = [5] ∧ (B.recv 0).map CplData.data = [5]
    ∧ B.recvInitial 0 = true ∧ B.recvInitial 1 = false :=
  ⟨_, _, rfl, rfl, rfl, rfl, rfl, rfl⟩

/-- **C108, disagreement.** With two participants, a data that the receiver cannot interpolate in time or that cannot have initial values is refused; in a multi coupling scheme of
the same participants the same exchanges are accepted. -/
theorem C108_many_unchecked (k : Lookup) (e : Exchange) (hne : e.src ≠ e.dst) (hk : k.direct e = true ∨ k.degree e = true) :
    ¬ ((∃ A, Bi.build k e.src e.dst e.src [e] = .ok A) ∧ ∃ B, Bi.build k e.src e.dst e.dst [e] = .ok B)
      ∧ ∀ p ∈ [e.src, e.dst], ∃ A, Multi.build [e.src, e.dst] p [e] = .ok A := by
  constructor
  · rw [C108_two_accepts]
    rintro ⟨h, -⟩
    obtain ⟨-, h1, h2⟩ := h e (by simp)
    rw [h1, h2] at hk
    simp at hk
  · refine (C108_many_accepts _ (by simp) _).2 ⟨?_, by simp⟩
    intro f hf
    rw [List.mem_singleton] at hf
    subst hf
    exact ⟨by simp, by simp, hne.symm⟩

/-- The hypotheses of `C108_many_unchecked`. -/
example : ∃ (k : Lookup) (e : Exchange), e.src ≠ e.dst ∧ (k.direct e = true ∨ k.degree e = true) := ⟨⟨fun _ => false, fun e => !e.substeps⟩, ⟨0, 0, 1, false, false⟩, by decide, by decide⟩

/-! ## Schemes -/

/-- A parallel implicit scheme with all tags. -/
def fullTags : List STag :=
  [.timeWindowSize (1 / 10) .fixed, .participants 0 1, .maxTimeWindows 5, .exchange ⟨3, 0, 1, false, true⟩, .maxIterations 30, .measure ⟨3, .rel (1 / 100), false, true⟩,
    .exchange ⟨2, 1, 0, true, true⟩, .minIterations 2, .maxTime 1, .measure ⟨2, .absOrRel (1 / 10) (1 / 1000), true, false⟩]

theorem fullTags_fitting : Fitting .parallelImplicit fullTags := by
  refine ⟨?_, fun _ => ⟨0, 1, rfl⟩, by decide, by decide, by decide, by decide, by decide⟩
  intro t ht
  simp only [fullTags, List.mem_cons, List.not_mem_nil, or_false] at ht
  rcases ht with rfl | rfl | rfl | rfl | rfl | rfl | rfl | rfl | rfl | rfl <;> simp [Allowed, Kind.implicit]

/-- It is accepted: the hypotheses of `C109_configured`. -/
theorem fullTags_accepted : ∃ A B, configureScheme free .parallelImplicit true (some [3, 2]) fullTags = .ok [A, B] ∧ A.accessor = 0 ∧ B.maxIterations = 30 ∧ A.timeWindowSize = 1 / 10
    ∧ B.all.map CplData.data = [2, 3] := by
  have h : (match configureScheme free .parallelImplicit true (some [3, 2]) fullTags with
      | .ok [A, B] => decide (A.accessor = 0 ∧ B.maxIterations = 30 ∧ A.timeWindowSize = 1 / 10 ∧ B.all.map CplData.data = [2, 3])
      | _ => false) = true := by decide +kernel
  split at h
  · next A B hb => exact ⟨A, B, hb, of_decide_eq_true h⟩
  · cases h

/-- So it is well posed: `C109_accepts` is not empty. -/
example : WellPosed free .parallelImplicit true (some [3, 2]) fullTags := by
  obtain ⟨A, B, h, -⟩ := fullTags_accepted
  exact (C109_accepts _ _ _ _ _ fullTags_fitting).1 ⟨_, h⟩

/-- Also in the reverse order. -/
example : ∃ bs, configureScheme free .parallelImplicit true (some [3, 2]) fullTags.reverse = .ok bs := by
  obtain ⟨A, B, h, -⟩ := fullTags_accepted
  exact (C109_order (List.reverse_perm _).symm fullTags_fitting).1 ⟨_, h⟩

/-- One that is refused: with acceleration for data that the second participant does not have, the hypothesis of `C109_no_assert`. -/
example : configureScheme free .parallelImplicit true (some [7]) fullTags = .error .check := by
  cases h : configureScheme free .parallelImplicit true (some [7]) fullTags with
  | error x => rw [C109_no_assert fullTags_fitting h]
  | ok bs =>
    exfalso
    have := ((C109_accepts _ _ _ _ _ fullTags_fitting).1 ⟨_, h⟩).two (by decide) 0 1 rfl
    obtain ⟨e, he, hd, -⟩ := this.accelerated rfl 7 (by simp)
    rw [show exchangesOf fullTags = [⟨3, 0, 1, false, true⟩, ⟨2, 1, 0, true, true⟩] from rfl] at he
    simp only [List.mem_cons, List.not_mem_nil, or_false] at he
    rcases he with rfl | rfl <;> simp at hd

/-- No measures and no limit for the iterations. -/
def endlessTags : List STag := [.participants 0 1, .timeWindowSize 1 .fixed, .maxTime 1, .exchange ⟨3, 0, 1, false, true⟩, .exchange ⟨2, 1, 0, true, true⟩]

theorem endlessTags_fitting : Fitting .serialImplicit endlessTags := by
  refine ⟨?_, fun _ => ⟨0, 1, rfl⟩, by decide, by decide, by decide, by decide, by decide⟩
  intro t ht
  simp only [endlessTags, List.mem_cons, List.not_mem_nil, or_false] at ht
  rcases ht with rfl | rfl | rfl | rfl | rfl <;> simp [Allowed]

theorem accepted_of {w : World} {kind : Kind} {remeshing : Bool} {acc : Option (List ℕ)} {ts : List STag}
    (h : (match configureScheme w kind remeshing acc ts with | .ok _ => true | _ => false) = true) : ∃ bs, configureScheme w kind remeshing acc ts = .ok bs := by
  split at h
  · next bs hb => exact ⟨bs, hb⟩
  · cases h

/-- **C109, disagreement.** An implicit scheme without convergence measures and without a limit for the iterations is accepted, though the code means to refuse it, and in no
iteration does it ever converge. -/
theorem C109_endless_accepted : ∃ bs, configureScheme free .serialImplicit false none endlessTags = .ok bs ∧ bs ≠ [] ∧ ∀ b ∈ bs, b.measures = []
    ∧ ∀ n : ℕ, 0 < n → Measure.hasConverged n b.minIterations b.maxIterations [] = some false := by
  obtain ⟨bs, hb⟩ := accepted_of (w := free) (kind := .serialImplicit) (remeshing := false) (acc := none) (ts := endlessTags) (by decide +kernel)
  refine ⟨bs, hb, ?_, C109_unlimited rfl endlessTags_fitting hb rfl rfl⟩
  intro h0
  have := (C109_configured endlessTags_fitting hb).1
  rw [h0] at this
  cases this

/-- **C109, disagreement.** A strict measure without a limit for the iterations is accepted; the first iteration in which it does not converge is a failed assertion. -/
theorem C109_strict_unlimited : ∃ bs, configureScheme free .serialImplicit false none (.measure ⟨3, .abs 1, false, true⟩ :: endlessTags) = .ok bs
    ∧ ∃ b ∈ bs, b.measures = [⟨3, .abs 1, false, true⟩] ∧ Measure.hasConverged 1 b.minIterations b.maxIterations (b.measures.map fun m => ⟨m.suff, m.strict, false⟩) = none := by
  have h : (match configureScheme free .serialImplicit false none (.measure ⟨3, .abs 1, false, true⟩ :: endlessTags) with
      | .ok (A :: _) => decide (A.measures = [⟨3, .abs 1, false, true⟩] ∧ Measure.hasConverged 1 A.minIterations A.maxIterations (A.measures.map fun m => ⟨m.suff, m.strict, false⟩) = none)
      | _ => false) = true := by decide +kernel
  split at h
  · next A l hb => exact ⟨_, hb, A, by simp, of_decide_eq_true h⟩
  · cases h

/-- A multi coupling scheme of three participants, controlled by participant 1. -/
def multiTags : List STag :=
  [.participant 0 false, .participant 1 true, .participant 2 false, .timeWindowSize 1 .fixed, .maxTime 1, .maxIterations 4, .exchange ⟨5, 0, 1, true, true⟩, .exchange ⟨6, 1, 2, false, true⟩,
    .exchange ⟨7, 2, 1, false, true⟩, .measure ⟨5, .abs 1, false, false⟩]

theorem multiTags_fitting : Fitting .multi multiTags := by
  refine ⟨?_, fun h => absurd rfl h, by decide, by decide, by decide, by decide, by decide⟩
  intro t ht
  simp only [multiTags, List.mem_cons, List.not_mem_nil, or_false] at ht
  rcases ht with rfl | rfl | rfl | rfl | rfl | rfl | rfl | rfl | rfl | rfl <;> simp [Allowed, Kind.implicit]

/-- **C109, disagreement.** Two participants of an accepted scheme are connected by an m2n, otherwise the configuration is refused; a multi coupling scheme is accepted though no
m2n is configured at all, because it just leaves out the partners without one. -/
theorem C109_missing_link : (∀ (w : World) (kind : Kind) (remeshing : Bool) (acc : Option (List ℕ)) (ts : List STag) (bs : List Built), Fitting kind ts → kind ≠ .multi →
      configureScheme w kind remeshing acc ts = .ok bs → ∃ p q, partsOf ts = [p, q] ∧ w.link p q = true)
    ∧ ∃ bs, configureScheme { free with link := fun _ _ => false } .multi false none multiTags = .ok bs := by
  constructor
  · intro w kind remeshing acc ts bs hf hk h
    obtain ⟨p, q, hpq⟩ := hf.two hk
    exact ⟨p, q, hpq, (((C109_accepts w kind remeshing acc ts hf).1 ⟨_, h⟩).two hk p q hpq).link⟩
  · exact accepted_of (by decide +kernel)

end Verif.Config.Scheme
