import Verif.Config.SchemeConfigPass
import Verif.Scheme.MeasureProps

/-!
# C109: coupling schemes that are accepted
-/

set_option autoImplicit false

namespace Verif.Config.Scheme

/-! ## Creating schemes -/

/-- What a scheme has. -/
structure Describes (kind : Kind) (c : Cfg) (acc : Option (List ℕ)) (measuring : Bool) (a : ℕ) (b : Built) : Prop where
  accessor : b.accessor = a
  maxTime : b.maxTime = c.maxTime
  maxWindows : b.maxTimeWindows = c.maxTimeWindows
  size : b.timeWindowSize = c.timeWindowSize
  method : b.method = c.method
  minIter : b.minIterations = c.minFor kind
  maxIter : b.maxIterations = c.maxFor kind
  measures : b.measures = if kind.implicit && measuring then c.measures else []
  acc : b.acc = if kind.implicit then acc else none
  all : AllData a c.exchanges b.all

theorem createBi_ok {w : World} {kind : Kind} (hk : kind ≠ .multi) {c : Cfg} {acc : Option (List ℕ)} {p q a : ℕ} (hac : a = p ∨ a = q) {b : Built}
    (h : createBi w kind c acc p q a = .ok b) :
    w.link p q = true ∧ (∃ s, Bi.build w.toLookup p q a c.exchanges = .ok s) ∧ Describes kind c acc true a b
      ∧ (kind.implicit = true → (∃ e ∈ c.exchanges, e.src = a) ∧ ∀ m ∈ c.measures, Handles c.exchanges q m.data)
      ∧ (kind = .parallelImplicit → ∀ d ∈ acc.getD [], Handles c.exchanges q d)
      ∧ (kind = .serialImplicit → ∀ d ∈ acc.getD [], ∃ e ∈ c.exchanges, e.data = d ∧ e.src = q) := by
  unfold createBi at h
  split at h
  · cases h
  · split at h
    · cases h
    · next h2 =>
      split at h
      · cases h
      · split at h
        · cases h
        · next s hs =>
          obtain ⟨inv, rest⟩ := bi_all hac (by simp) (biInv_init a) c.exchanges hs
          rw [List.nil_append] at inv
          rw [biRest_iff] at rest
          have hl : w.link p q = true := by simpa using h2
          split at h
          · next hi =>
            split at h
            · cases h
            · next h3 =>
              split at h
              · cases h
              · split at h
                · cases h
                · next ms hms =>
                  obtain ⟨rfl, hm⟩ := measures_ok hms
                  split at h
                  · cases h
                  · next hacc =>
                    split at h
                    · cases h
                    · cases h
                      refine ⟨hl, ⟨s, hs⟩, ⟨rfl, rfl, rfl, rfl, rfl, by simp [Cfg.minFor, hi], by simp [Cfg.maxFor, hi], by simp [hi], by simp [hi], inv.all⟩, fun _ => ⟨?_, fun m hmm => (hm m hmm).1⟩, ?_, ?_⟩
                      · obtain ⟨x, hx⟩ := List.exists_mem_of_ne_nil s.send (by simpa using h3)
                        obtain ⟨e, he, hP, -⟩ := (inv.send.2 x).1 hx
                        exact ⟨e, he, hP⟩
                      · rintro rfl
                        exact parallelAcc_ok.1 hacc
                      · rintro rfl
                        exact (serialAcc_ok rest.2.1).1 hacc
          · next hi =>
            cases h
            refine ⟨hl, ⟨s, hs⟩, ⟨rfl, rfl, rfl, rfl, rfl, by simp [Cfg.minFor, hi], by simp [Cfg.maxFor, hi], by simp [hi], by simp [hi], inv.all⟩, fun hh => absurd hh hi, ?_, ?_⟩
            · rintro rfl
              exact absurd rfl hi
            · rintro rfl
              exact absurd rfl hi

theorem serialLast_ok {exs : List Exchange} {p q a : ℕ} (hpq : p ≠ q) (hp : exs.Pairwise fun e f => e.data ≠ f.data) {s : Bi} (inv : BiInv a exs s) {acc : Option (List ℕ)}
    (hacc : ∀ d ∈ acc.getD [], ∃ e ∈ exs, e.data = d ∧ e.src = q) : serialLast p a s.send acc = true := by
  unfold serialLast
  split
  · next d ds =>
    by_cases ha : a = p
    · have : (s.send.any fun x => decide (x.data = d)) = false := by
        rw [← Bool.not_eq_true, any_data inv.send]
        rintro ⟨e, he, h1, h2⟩
        obtain ⟨f, hf, h3, h4⟩ := hacc d (by simp)
        have h5 := find_unique hp he
        have h6 := find_unique hp hf
        rw [h2] at h5
        rw [h3, h5, Option.some.injEq] at h6
        subst h6
        exact hpq (ha.symm.trans (h1.symm.trans h4))
      rw [this]
      simp
    · simp [ha]
  · rfl

theorem createBi_accepts {w : World} {kind : Kind} (hk : kind ≠ .multi) {c : Cfg} {acc : Option (List ℕ)} {p q a : ℕ} (hac : a = p ∨ a = q) (hm : kind.serial = false → c.method = .fixed)
    (hpar : Params kind c.maxTime c.maxTimeWindows c.timeWindowSize c.method (c.minFor kind) (c.maxFor kind))
    (h : Two w kind acc c.exchanges c.measures p q) : ∃ b, createBi w kind c acc p q a = .ok b := by
  unfold createBi
  rw [if_neg (by rintro ⟨h1, h2⟩; exact h2 (hm h1)), if_neg (by simp [h.link]), if_neg (by simp [params_constructible hpar])]
  obtain ⟨s, hs⟩ : ∃ s, Bi.build w.toLookup p q a c.exchanges = .ok s := by
    obtain ⟨h1, h2⟩ := (C108_two_accepts w.toLookup p q c.exchanges).2 ⟨h.each, h.once⟩
    rcases hac with rfl | rfl
    · exact h1
    · exact h2
  obtain ⟨inv, -⟩ := bi_all hac (by simp) (biInv_init a) c.exchanges hs
  rw [List.nil_append] at inv
  rw [hs]
  cases hi : kind.implicit with
  | false =>
    simp only [Bool.false_eq_true, if_false]
    exact ⟨_, rfl⟩
  | true =>
    obtain ⟨e, he, hea⟩ : ∃ e ∈ c.exchanges, e.src = a := by
      rcases hac with rfl | rfl
      · exact (h.sends hi).1
      · exact (h.sends hi).2
    have hse : ¬ s.send.isEmpty = true := by
      have := (inv.send.2 (dataOf a e)).2 ⟨e, he, hea, rfl⟩
      intro hh
      rw [List.isEmpty_iff] at hh
      rw [hh] at this
      cases this
    have hlim : iterationLimits c = true := by
      have := (hpar.iter hi).2
      simp only [Cfg.maxFor, Cfg.minFor, hi, if_true] at this
      unfold iterationLimits
      have : c.maxIterations ≠ -1 := by omega
      simp [this]
    have htakes : ∀ e ∈ c.exchanges, Takes a e := by
      intro e he
      obtain ⟨h1, h2, h3⟩ := (h.each e he).1
      simp only [List.mem_cons, List.not_mem_nil, or_false] at h1 h2
      unfold Takes
      rcases hac with rfl | rfl <;> rcases h1 with h1 | h1 <;> rcases h2 with h2 | h2 <;> simp_all
    have hms : addMeasures c.exchanges q s.all c.measures = .ok c.measures := by
      refine measures_accepts ?_
      intro m hmm
      obtain ⟨e, he, hd, hor⟩ := h.measured hi m hmm
      exact ⟨⟨e, he, hd, hor⟩, dataOf a e, (inv.all.2 _).2 ⟨e, he, htakes e he, rfl⟩, hd⟩
    simp only [if_true, hlim, Bool.true_eq_false, if_false, hms, hse]
    cases kind with
    | serialImplicit =>
      have hacc := h.acceleratedSerial rfl
      simp only [setAcc, Kind.serial, if_true, (serialAcc_ok h.once).2 hacc, serialLast_ok h.different h.once inv hacc, Bool.not_true, Bool.and_false, Bool.false_eq_true, if_false]
      exact ⟨_, rfl⟩
    | parallelImplicit =>
      have hacc := h.accelerated rfl
      simp only [setAcc, Kind.serial, Bool.false_eq_true, if_false, parallelAcc_ok.2 hacc, Bool.false_and]
      exact ⟨_, rfl⟩
    | multi => exact absurd rfl hk
    | serialExplicit => cases hi
    | parallelExplicit => cases hi

theorem createBi_error {w : World} {kind : Kind} {c : Cfg} {acc : Option (List ℕ)} {p q a : ℕ} (hac : a = p ∨ a = q) (hm : kind.serial = false → c.method = .fixed)
    (hpar : Params kind c.maxTime c.maxTimeWindows c.timeWindowSize c.method (c.minFor kind) (c.maxFor kind))
    {x : Err} (h : createBi w kind c acc p q a = .error x) : x = .check := by
  unfold createBi at h
  rw [if_neg (by rintro ⟨h1, h2⟩; exact h2 (hm h1)), params_constructible hpar] at h
  split at h
  · cases h; rfl
  · simp only [Bool.true_eq_false, if_false] at h
    split at h
    · next hb =>
      cases h
      exact C108_two_no_assert hac hb
    · next s hs =>
      obtain ⟨inv, rest⟩ := bi_all hac (by simp) (biInv_init a) c.exchanges hs
      rw [List.nil_append] at inv
      rw [biRest_iff] at rest
      split at h
      · split at h
        · cases h; rfl
        · split at h
          · cases h; rfl
          · split at h
            · next hms =>
              cases h
              refine measures_error ?_ hms
              rintro d ⟨e, he, hd, -⟩
              refine ⟨dataOf a e, (inv.all.2 _).2 ⟨e, he, ?_, rfl⟩, hd⟩
              obtain ⟨h1, h2, h3⟩ := (rest.1 e he).1
              simp only [List.mem_cons, List.not_mem_nil, or_false] at h1 h2
              unfold Takes
              rcases hac with rfl | rfl <;> rcases h1 with h1 | h1 <;> rcases h2 with h2 | h2 <;> simp_all
            · split at h
              · next hacc =>
                cases h
                unfold setAcc at hacc
                split at hacc
                · exact serialAcc_error hacc
                · exact parallelAcc_error hacc
              · split at h
                · cases h; rfl
                · cases h
      · cases h

theorem multi_error {ps : List ℕ} {a : ℕ} {exs : List Exchange} {x : Err} (h : Multi.build ps a exs = .error x) : x = .check := by
  unfold Multi.build at h
  generalize (⟨[], fun _ => [], fun _ => [], fun _ => false, fun _ => false⟩ : Multi) = s at h
  induction exs generalizing s with
  | nil => cases h
  | cons e r ih =>
    rw [Multi.addAll] at h
    split at h
    · next y hy =>
      cases h
      unfold Multi.addOne at hy
      split at hy
      · cases hy; rfl
      · split at hy
        · cases hy; rfl
        · split at hy
          · unfold Multi.addSend at hy
            split at hy
            · next hx =>
              cases hy
              exact add_error hx
            · cases hy
          · split at hy
            · unfold Multi.addRecv at hy
              split at hy
              · next hx =>
                cases hy
                exact add_error hx
              · cases hy
            · cases hy
    · exact ih _ h

theorem multi_data {a : ℕ} {exs : List Exchange} {s : Multi} (inv : MultiInv a exs s) {d : ℕ} (h : Handles exs a d) : ∃ x ∈ s.all, x.data = d := by
  obtain ⟨e, he, hd, hor⟩ := h
  exact ⟨dataOf a e, (inv.all.2 _).2 ⟨e, he, hor, rfl⟩, hd⟩

theorem createMulti_ok {c : Cfg} {acc : Option (List ℕ)} {m a : ℕ} {b : Built} (h : createMulti c acc m a = .ok b) :
    c.method = .fixed ∧ (∃ s, Multi.build c.participants a c.exchanges = .ok s) ∧ Describes .multi c acc (decide (a = m)) a b
      ∧ (∃ e ∈ c.exchanges, e.src = a) ∧ (a = m → ∀ x ∈ c.measures, Handles c.exchanges m x.data) ∧ ∀ d ∈ acc.getD [], Handles c.exchanges m d := by
  unfold createMulti at h
  split at h
  · cases h
  · next h1 =>
    split at h
    · cases h
    · split at h
      · cases h
      · next s hs =>
        obtain ⟨inv, -⟩ := multi_all (multiInv_init a) c.exchanges hs
        rw [List.nil_append] at inv
        split at h
        · cases h
        · next h3 =>
          split at h
          · cases h
          · split at h
            · cases h
            · next ms hms =>
              split at h
              · cases h
              · next hacc =>
                cases h
                have hmeth : c.method = .fixed := by simpa using h1
                have hmm : ms = (if a = m then c.measures else []) ∧ (a = m → ∀ x ∈ c.measures, Handles c.exchanges m x.data) := by
                  unfold controllerMeasures at hms
                  by_cases ham : a = m
                  · rw [if_pos ham] at hms
                    obtain ⟨rfl, h5⟩ := measures_ok hms
                    exact ⟨by simp [ham], fun _ x hx => (h5 x hx).1⟩
                  · rw [if_neg ham] at hms
                    cases hms
                    exact ⟨by simp [ham], fun h => absurd h ham⟩
                refine ⟨hmeth, ⟨s, hs⟩, ⟨rfl, rfl, rfl, rfl, hmeth.symm, rfl, rfl, ?_, rfl, inv.all⟩, ?_, hmm.2, parallelAcc_ok.1 hacc⟩
                · simp [hmm.1, Kind.implicit]
                · rw [List.all_eq_true] at h3
                  push Not at h3
                  obtain ⟨q, -, hq⟩ := h3
                  obtain ⟨x, hx⟩ := List.exists_mem_of_ne_nil (s.send q) (by simpa using hq)
                  obtain ⟨e, he, hP, -⟩ := ((inv.send q).2 x).1 hx
                  exact ⟨e, he, hP.1⟩

theorem createMulti_accepts {c : Cfg} {acc : Option (List ℕ)} {m a : ℕ} (ha : a ∈ c.participants) (hm : c.method = .fixed)
    (hpar : Params .multi c.maxTime c.maxTimeWindows c.timeWindowSize .fixed c.minIterations c.maxIterations)
    (h : Many acc c.exchanges c.measures c.participants m) : ∃ b, createMulti c acc m a = .ok b := by
  unfold createMulti
  rw [if_neg (by simp [hm]), if_neg (by simp [params_constructible hpar])]
  obtain ⟨s, hs⟩ := (C108_many_accepts c.participants (List.ne_nil_of_mem ha) c.exchanges).2 ⟨h.each, h.compatible⟩ a ha
  obtain ⟨inv, -⟩ := multi_all (multiInv_init a) c.exchanges hs
  rw [List.nil_append] at inv
  rw [hs]
  have hse : ¬ (c.participants.all fun q => (s.send q).isEmpty) = true := by
    obtain ⟨e, he, hea⟩ := h.sends a ha
    rw [List.all_eq_true]
    intro hh
    have h1 := hh e.dst (h.each e he).2.1
    have h2 := ((inv.send e.dst).2 (dataOf a e)).2 ⟨e, he, ⟨hea, rfl⟩, rfl⟩
    rw [List.isEmpty_iff] at h1
    rw [h1] at h2
    cases h2
  have hlim : iterationLimits c = true := by
    have := (hpar.iter rfl).2
    unfold iterationLimits
    have : c.maxIterations ≠ -1 := by omega
    simp [this]
  have hms : ∃ ms, controllerMeasures c m a s.all = .ok ms := by
    unfold controllerMeasures
    by_cases ham : a = m
    · subst ham
      rw [if_pos rfl, measures_accepts fun x hx => ⟨h.measured x hx, multi_data inv (h.measured x hx)⟩]
      exact ⟨_, rfl⟩
    · rw [if_neg ham]
      exact ⟨_, rfl⟩
  obtain ⟨ms, hms⟩ := hms
  simp only [hse, if_false, hlim, Bool.true_eq_false, hms, parallelAcc_ok.2 h.accelerated, Bool.false_eq_true]
  exact ⟨_, rfl⟩

theorem createMulti_error {c : Cfg} {acc : Option (List ℕ)} {m a : ℕ} (hm : c.method = .fixed)
    (hpar : Params .multi c.maxTime c.maxTimeWindows c.timeWindowSize .fixed c.minIterations c.maxIterations) {x : Err} (h : createMulti c acc m a = .error x) : x = .check := by
  unfold createMulti at h
  rw [if_neg (by simp [hm]), if_neg (by simp [params_constructible hpar])] at h
  split at h
  · next hb =>
    cases h
    exact multi_error hb
  · next s hs =>
    obtain ⟨inv, -⟩ := multi_all (multiInv_init a) c.exchanges hs
    rw [List.nil_append] at inv
    split at h
    · cases h; rfl
    · split at h
      · cases h; rfl
      · split at h
        · next hms =>
          cases h
          unfold controllerMeasures at hms
          by_cases ham : a = m
          · subst ham
            rw [if_pos rfl] at hms
            exact measures_error (fun d hd => multi_data inv hd) hms
          · rw [if_neg ham] at hms
            cases hms
        · split at h
          · next hacc =>
            cases h
            exact parallelAcc_error hacc
          · cases h

theorem createAll_ok {f : ℕ → Except Err Built} {ps : List ℕ} {bs : List Built} (h : createAll f ps = .ok bs) : List.Forall₂ (fun p b => f p = .ok b) ps bs := by
  induction ps generalizing bs with
  | nil =>
    cases h
    exact .nil
  | cons p ps ih =>
    rw [createAll] at h
    split at h
    · cases h
    · next b hb =>
      split at h
      · cases h
      · next l hl =>
        cases h
        exact .cons hb (ih hl)

theorem createAll_accepts {f : ℕ → Except Err Built} {ps : List ℕ} (h : ∀ p ∈ ps, ∃ b, f p = .ok b) : ∃ bs, createAll f ps = .ok bs := by
  induction ps with
  | nil => exact ⟨[], rfl⟩
  | cons p ps ih =>
    obtain ⟨b, hb⟩ := h p (by simp)
    obtain ⟨l, hl⟩ := ih fun q hq => h q (by simp [hq])
    rw [createAll, hb, hl]
    exact ⟨_, rfl⟩

theorem createAll_error {f : ℕ → Except Err Built} {ps : List ℕ} {x : Err} (hf : ∀ p ∈ ps, ∀ x, f p = .error x → x = .check) (h : createAll f ps = .error x) : x = .check := by
  induction ps with
  | nil => cases h
  | cons p ps ih =>
    rw [createAll] at h
    split at h
    · next y hy =>
      cases h
      exact hf p (by simp) _ hy
    · split at h
      · next y hy =>
        cases h
        exact ih (fun q hq => hf q (by simp [hq])) hy
      · cases h

end Verif.Config.Scheme
