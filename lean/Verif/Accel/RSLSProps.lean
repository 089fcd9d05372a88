import Verif.Accel.RSLS
import Verif.Accel.IMVJRestart
import Verif.Accel.QNReuse

/-!
# What the restart with a least-squares problem gives (C103)
-/

set_option autoImplicit false
set_option linter.unusedSectionVars false

namespace Verif.Accel

open Finset

variable {ι κ : Type} [Fintype ι] [Fintype κ]

/-! ## The restart -/

theorem QNSystem.shorten_spec {rows : ℕ} : ∀ (n : ℕ) {m m' : QNSystem ι κ}, m.shorten rows n = some m' → m.W.length = m.V.length →
    (∃ is, m.removeColumns is = some m') ∧ m'.V.length * 2 < rows ∧ m'.V = m.V.take m'.V.length ∧ m'.W = m.W.take m'.V.length ∧ m'.W.length = m'.V.length
  | 0, m, m', h, hl => by
    unfold QNSystem.shorten at h
    split_ifs at h with h1
    obtain rfl := Option.some.inj h
    exact ⟨⟨[], rfl⟩, by omega, by simp, by rw [← hl]; simp, hl⟩
  | n + 1, m, m', h, hl => by
    unfold QNSystem.shorten at h
    split_ifs at h with h1
    · rw [Option.bind_eq_some_iff] at h
      obtain ⟨m1, h2, h3⟩ := h
      have h2' := h2
      unfold QNSystem.removeColumn at h2
      split_ifs at h2 with h4
      obtain rfl := Option.some.inj h2
      have eV : m.V.eraseIdx (m.V.length - 1) = m.V.dropLast := List.eraseIdx_length_sub_one
      have eW : m.W.eraseIdx (m.V.length - 1) = m.W.dropLast := by rw [← hl]; exact List.eraseIdx_length_sub_one
      obtain ⟨⟨is, g1⟩, g2, g3, g4, g5⟩ := QNSystem.shorten_spec n h3 (by simp only [eV, eW, List.length_dropLast, hl])
      have hle : m'.V.length ≤ m.V.length - 1 := by
        have := congrArg List.length g3
        simp only [eV, List.length_take, List.length_dropLast] at this
        omega
      refine ⟨⟨(m.V.length - 1) :: is, ?_⟩, g2, ?_, ?_, g5⟩
      · unfold QNSystem.removeColumns at g1 ⊢
        rw [List.foldlM_cons, h2']
        exact g1
      · simp only [eV] at g3
        rw [List.dropLast_eq_take, List.take_take, min_eq_left hle] at g3
        exact g3
      · simp only [eW] at g4
        rw [List.dropLast_eq_take, List.take_take, min_eq_left (by omega)] at g4
        exact g4
    · obtain rfl := Option.some.inj h
      exact ⟨⟨[], rfl⟩, by omega, by simp, by rw [← hl]; simp, hl⟩

theorem keptBelow_lt {dels : List ℕ} {a b : ℕ} (h : a < b) (hd : ∀ d ∈ dels, d < a) : keptBelow dels a < keptBelow dels b := by
  have h1 := keptBelow_succ dels a
  rw [if_neg fun hm => lt_irrefl _ (hd a hm)] at h1
  have h2 := keptBelow_mono dels (show a + 1 ≤ b from h)
  omega

/-- If the numbers of columns agree after the filter, the factorisation is the one of the scaled matrix. -/
theorem QNSystem.factorise_exact {c : QNConfig} {w : ι → ℝ} {m : QNSystem ι κ} {t : QN ι κ} (h : (m.factorise c w).applyFilter c = some t) (hl : m.W.length = m.V.length)
    (he : t.sys.V.length = t.qr.cols) : t.Exact ∧ t.weights = w := by
  by_cases h2 : c.filter = .qr2
  · have e : m.factorise c w = { QN.init w with sys := m } := by unfold QNSystem.factorise; rw [if_pos h2]
    rw [e] at h
    obtain ⟨e1, -, e2⟩ := QN.applyFilter_fits h hl (Or.inl h2)
    exact ⟨QN.exact_of_filter (Or.inl h2) e2, e1⟩
  · have e : m.factorise c w = { QN.init w with sys := m, qr := (QR.resetFilter 0 (scaled w m.V)).1, needQR2 := !(QR.resetFilter 0 (scaled w m.V)).2.isEmpty } := by
      unfold QNSystem.factorise; rw [if_neg h2]
    rw [e] at h
    have hreg := regular_resetFilter 0 (scaled w m.V)
    obtain ⟨-, b1, b2⟩ := C75_resetFilter 0 (scaled w m.V)
    set q := (QR.resetFilter 0 (scaled w m.V)).1 with hq
    set dels := (QR.resetFilter 0 (scaled w m.V)).2 with hd
    by_cases hz : dels = []
    · rw [hz] at h hreg
      rw [without_nil] at hreg
      obtain ⟨e1, -, e2⟩ := QN.applyFilter_fits h hl (Or.inr (Or.inr hreg))
      refine ⟨?_, e1⟩
      rcases e2 with e2 | ⟨e2, -, e3⟩
      · exact e2
      · exfalso
        unfold QN.applyFilter at h
        cases hf : c.filter with
        | none => rw [hf] at h; obtain rfl := Option.some.inj h; simp at e2
        | qr1 a =>
          rw [hf] at h
          simp only [Option.bind_eq_bind, Option.bind_eq_some_iff] at h
          obtain ⟨m', -, h⟩ := h
          split_ifs at h
          obtain rfl := Option.some.inj h
          simp at e2
        | qr2 => exact h2 hf
        | qr3 => exact e3 hf
    · have hne : (!dels.isEmpty) = true := by
        cases hdd : dels with
        | nil => exact absurd hdd hz
        | cons _ _ => rfl
      obtain ⟨e1, -, e2⟩ := QN.applyFilter_fits h hl (Or.inr (Or.inl hne))
      refine ⟨?_, e1⟩
      rcases e2 with e2 | ⟨-, -, e3⟩
      · exact e2
      · exfalso
        set A := without dels (scaled w m.V) with hA
        have hsl : (scaled w m.V).length = m.V.length := by unfold scaled; rw [List.length_map]
        have hlt : A.length < m.V.length := by
          obtain ⟨d, ds, hdd⟩ := List.exists_cons_of_ne_nil hz
          have hdm : d < m.V.length := by rw [← hsl]; exact b1 d (by rw [hdd]; simp)
          rw [hA, without_length, hsl]
          have hle : ∀ n, keptBelow dels n ≤ n := fun n => by
            unfold keptBelow
            exact (List.length_filter_le _ _).trans (by simp)
          obtain ⟨k, hk⟩ : ∃ k, m.V.length = d + 1 + k := ⟨m.V.length - (d + 1), by omega⟩
          have h3 : ∀ k, keptBelow dels (d + 1 + k) ≤ d + k := fun k => by
            induction k with
            | zero =>
              have := keptBelow_succ dels d
              rw [if_pos (by rw [hdd]; simp)] at this
              have := hle d
              rw [Nat.add_zero]
              omega
            | succ k ih =>
              have := keptBelow_succ dels (d + 1 + k)
              rw [show d + 1 + (k + 1) = d + 1 + k + 1 by omega, this]
              split_ifs <;> omega
          have := h3 k
          rw [hk]
          omega
        unfold QN.applyFilter at h
        cases hf : c.filter with
        | none =>
          rw [hf] at h
          obtain rfl := Option.some.inj h
          have := hreg.1.length
          simp only at he
          omega
        | qr1 a =>
          rw [hf] at h
          simp only [Option.bind_eq_bind, Option.bind_eq_some_iff] at h
          obtain ⟨m', hm, h⟩ := h
          split_ifs at h
          obtain rfl := Option.some.inj h
          obtain ⟨f1, f2, f3⟩ := C75_qr1 a c.limit hreg.1
          obtain ⟨g1, -, -⟩ := QNSystem.removeColumns_reverse f3 hl hm
          have hcols := f1.length
          simp only at he
          rw [g1, without_length, ← hcols, without_length] at he
          have := keptBelow_lt hlt f2
          omega
        | qr2 => exact h2 hf
        | qr3 => exact e3 hf

theorem QNSystem.factorise_sys (c : QNConfig) (w : ι → ℝ) (m : QNSystem ι κ) : (m.factorise c w).sys = m := by
  unfold QNSystem.factorise
  split_ifs <;> rfl

theorem zipWith_second {α β γ : Type} (f : β → γ) : ∀ {l : List α} {l' : List β}, l'.length = l.length → List.zipWith (fun _ b => f b) l l' = l'.map f
  | [], [], _ => rfl
  | _ :: _, [], h => absurd h (by simp)
  | [], _ :: _, h => absurd h (by simp)
  | _ :: l, _ :: l', h => by rw [List.zipWith_cons_cons, List.map_cons, zipWith_second f (by simpa using h)]

theorem QNSystem.removeColumns_append {m m' m'' : QNSystem ι κ} {is js : List ℕ} (h : m.removeColumns is = some m') (h' : m'.removeColumns js = some m'') : m.removeColumns (is ++ js) = some m'' := by
  unfold QNSystem.removeColumns at *
  rw [List.foldlM_append, h]
  exact h'

/-- What the restart gives: the Jacobian is determined by the columns that are kept. -/
theorem QNSystem.restart_spec {c : QNConfig} {w : ι → ℝ} {m : QNSystem ι κ} {p : QNSystem ι κ × List (Factor ι κ)} {n : ℕ} (h : m.restart c w = some p) (hc : m.Consistent n) :
    (∃ is, m.removeColumns is = some p.1) ∧ SecantUpdate w (p.1.V.map QNCol.val) (p.1.W.map QNCol.val) (fun _ _ => 0) (fun k i => (p.2.map fun f => product f.W f.Z k i).sum) ∧
    (p.1.V = [] ∨ 2 * p.1.V.length < Fintype.card ι) ∧ p.2.length ≤ 1 := by
  unfold QNSystem.restart at h
  split_ifs at h with h0
  · obtain rfl := Option.some.inj h
    have hW : m.W = [] := List.eq_nil_of_length_eq_zero (by rw [hc.length, h0]; rfl)
    refine ⟨⟨[], rfl⟩, ⟨?_, fun x _ k => rfl⟩, Or.inl h0, Nat.zero_le _⟩
    rw [h0, hW]
    exact List.Forall₂.nil
  · simp only [Option.bind_eq_bind, Option.bind_eq_some_iff] at h
    obtain ⟨m1, h1, t, h2, h⟩ := h
    split_ifs at h with h3
    obtain rfl := Option.some.inj h
    obtain ⟨⟨is, g1⟩, g2, -, -, g5⟩ := QNSystem.shorten_spec _ h1 hc.length
    obtain ⟨e1, e2⟩ := QNSystem.factorise_exact h2 g5 h3
    obtain ⟨js, hj⟩ := QN.applyFilter_sys h2
    rw [QNSystem.factorise_sys] at hj
    have hall := QNSystem.removeColumns_append g1 hj
    have hlen : t.sys.W.length = t.sys.V.length := (QNSystem.removeColumns_spec _ hall hc).length
    refine ⟨⟨is ++ js, hall⟩, ?_, Or.inr ?_, le_rfl⟩
    · unfold QN.Exact at e1
      rw [e2] at e1
      have hf : Factorizes t.qr ((t.sys.V.map QNCol.val).map (scaledCol w)) := by rw [List.map_map]; exact e1.1
      have hr : FullRank ((t.sys.V.map QNCol.val).map (scaledCol w)) := by rw [List.map_map]; exact e1.2
      have key := secantUpdate_formula (W := t.sys.W.map QNCol.val) (by simpa using hlen) hf hr fun _ _ => 0
      have e : ∀ v : ι → ℝ, ip (fun _ => (0 : ℝ)) v = 0 := fun v => by unfold ip; simp
      simp only [e, sub_zero, add_zero] at key
      rw [zipWith_second (fun y : κ → ℝ => fun k => y k) (by simpa using hlen)] at key
      simp only [List.map_id'] at key
      simp only [List.map_cons, List.map_nil, List.sum_cons, List.sum_nil, add_zero, product]
      exact key
    · have := (QNSystem.removeColumns_subset js hj).1.length_le
      simp only
      omega

/-! ## Reachable states -/

/-- The cases of a call. -/
theorem RSLS.step_cases {c : IMVJConfig} {size reused : ℕ} {s s' : RSLS ι κ} {a : QNCall ι κ} (h : s.step c size reused a = some s') :
    (a.conv = false ∧ s.add a.residual a.values = some s'.ls ∧ s.imvj.step c a [] = some s'.imvj) ∨
    (a.conv = true ∧ ∃ m m1, s.add a.residual a.values = some m ∧ m.trim reused = some m1 ∧
      ((size ≤ s.imvj.chunk.length ∧ ∃ p, m1.restart c.qn s.imvj.base.weights = some p ∧ s.imvj.step c a p.2 = some s'.imvj ∧ s'.ls = p.1) ∨
        (s.imvj.chunk.length < size ∧ s.imvj.step c a [] = some s'.imvj ∧ s'.ls = m1))) := by
  unfold RSLS.step at h
  by_cases hv : a.conv = true
  · rw [if_pos hv] at h
    right
    unfold RSLS.converged at h
    simp only [Option.bind_eq_bind, Option.bind_eq_some_iff] at h
    obtain ⟨m, hm, m1, hm1, h⟩ := h
    refine ⟨hv, m, m1, hm, hm1, ?_⟩
    by_cases hc : s.imvj.chunk.length ≥ size
    · rw [if_pos hc] at h
      simp only [Option.bind_eq_some_iff] at h
      obtain ⟨p, hp, i, hi, h⟩ := h
      obtain rfl := Option.some.inj h
      exact Or.inl ⟨hc, p, hp, hi, rfl⟩
    · rw [if_neg hc] at h
      simp only [Option.bind_eq_some_iff] at h
      obtain ⟨i, hi, h⟩ := h
      obtain rfl := Option.some.inj h
      exact Or.inr ⟨by omega, hi, rfl⟩
  · rw [if_neg hv] at h
    left
    simp only [Option.bind_eq_bind, Option.bind_eq_some_iff] at h
    obtain ⟨m, hm, i, hi, h⟩ := h
    obtain rfl := Option.some.inj h
    exact ⟨by simpa using hv, hm, hi⟩

theorem RSLS.step_imvj {c : IMVJConfig} {size reused : ℕ} {s s' : RSLS ι κ} {a : QNCall ι κ} (h : s.step c size reused a = some s') : ∃ other, s.imvj.step c a other = some s'.imvj := by
  rcases RSLS.step_cases h with ⟨-, -, h⟩ | ⟨-, m, m1, -, -, ⟨-, p, -, h, -⟩ | ⟨-, h, -⟩⟩
  all_goals exact ⟨_, h⟩

/-- The rest of the state is one of the multi-vector method of C93, so what is shown there holds. -/
theorem RSLS.Reachable.imvj {c : IMVJConfig} {size reused : ℕ} {s : RSLS ι κ} (h : RSLS.Reachable c size reused s) : IMVJ.Reachable c s.imvj := by
  induction h with
  | init w => exact .init w
  | step _ hw h ih =>
    obtain ⟨other, h⟩ := RSLS.step_imvj h
    exact ih.step hw h

theorem QN.dropWindow_window {c : QNConfig} {s s' : QN ι κ} (h : s.dropWindow c = some s') : s'.window = s.window := by
  have hd : ∀ (n : ℕ) {s s' : QN ι κ}, s.dropColumns n = some s' → s'.window = s.window := by
    intro n
    induction n with
    | zero => intro s s' h; obtain rfl := Option.some.inj h; rfl
    | succ n ih =>
      intro s s' h
      unfold QN.dropColumns at h
      simp only [Option.bind_eq_bind, Option.bind_eq_some_iff] at h
      obtain ⟨s1, h1, h⟩ := h
      exact (ih h).trans (QN.popQR_other h1).1
  unfold QN.dropWindow at h
  split_ifs at h with h1 h2 h3
  · obtain rfl := Option.some.inj h; rfl
  · obtain rfl := Option.some.inj h; rfl
  · split at h
    · cases h
    · split_ifs at h
      simp only [Option.bind_eq_bind, Option.bind_eq_some_iff] at h
      obtain ⟨s1, h4, h⟩ := h
      have h5 := hd _ h4
      obtain rfl := Option.some.inj h
      exact h5
  · obtain rfl := Option.some.inj h; rfl

theorem QN.updateDifferences_window {c : QNConfig} {s s' : QN ι κ} {r : ι → ℝ} {x : κ → ℝ} (h : s.updateDifferences c r x = some s') : s'.window = s.window := by
  unfold QN.updateDifferences at h
  split_ifs at h with h1 h2
  · obtain rfl := Option.some.inj h; rfl
  · obtain rfl := Option.some.inj h; rfl
  · rw [Option.map_eq_some_iff] at h
    obtain ⟨u, hu, rfl⟩ := h
    exact (QN.addColumn_head hu).2.1

/-- The counter of windows in the model. -/
theorem IMVJ.step_window {c : IMVJConfig} {s s' : IMVJ ι κ} {a : QNCall ι κ} {other : List (Factor ι κ)} (h : s.step c a other = some s') (hc : s.base.Counts c.qn) :
    if a.conv then s'.base.window = s.base.window + 1 ∧ s'.base.firstIteration = true else s'.base.window = s.base.window ∧ s'.base.firstIteration = false := by
  unfold IMVJ.step at h
  split_ifs at h ⊢ with hv
  · unfold IMVJ.converged at h
    simp only [Option.bind_eq_bind, Option.bind_eq_some_iff] at h
    obtain ⟨s1, h1, s2, h2, b, hb, h⟩ := h
    obtain rfl := Option.some.inj h
    unfold IMVJ.lastDifferences at h1
    rw [Option.map_eq_some_iff] at h1
    obtain ⟨s0, h0, rfl⟩ := h1
    have w0 : s0.base.window = s.base.window := QN.updateDifferences_window (IMVJ.updateDifferences_base h0).1
    have w2 : s2.base.window = s.base.window := by
      by_cases hm : c.mode = .always
      · unfold IMVJ.specialized at h2
        rw [if_pos hm] at h2
        obtain rfl := Option.some.inj h2
        exact w0
      · obtain ⟨t1, t2, t3, g1, g2, g3, rfl⟩ := IMVJ.specialized_eq hm h2
        have e1 : t1.base.window = s0.base.window := by
          have := (IMVJ.lift_base g1).1
          unfold QN.renew at this
          split_ifs at this with k1 k2
          · rw [Option.map_some] at this; rw [← Option.some.inj this]
          · rw [Option.map_eq_some_iff] at this
            obtain ⟨u, hu, e⟩ := this
            rw [← e]
            exact (QN.reset_other hu).1
          · rw [← Option.some.inj this]
        have e2 : t2.base.window = t1.base.window := (QN.applyFilter_other (IMVJ.lift_base g2).1).1
        have e3 : t3.base = t2.base := IMVJ.store_base g3
        change t3.base.window = _
        rw [e3, e2, e1, w0]
    unfold QN.finishWindow at hb
    simp only [Option.bind_eq_bind, Option.bind_eq_some_iff] at hb
    obtain ⟨u, hu, hb⟩ := hb
    obtain rfl := Option.some.inj hb
    have := QN.dropWindow_window hu
    refine ⟨?_, rfl⟩
    change u.window + 1 = _
    rw [this, w2]
  · unfold IMVJ.accelerate at h
    split_ifs at h with h1
    · obtain rfl := Option.some.inj h
      exact ⟨rfl, rfl⟩
    · simp only [Option.bind_eq_bind, Option.bind_eq_some_iff] at h
      obtain ⟨s1, h2, h⟩ := h
      obtain rfl := Option.some.inj h
      refine ⟨?_, rfl⟩
      obtain ⟨u1, u2, g1, g2, g3, -⟩ := QN.prepare_eq (IMVJ.prepare_base h2) hc (IMVJ.noRelax h1)
      have e : s1.base.window = s.base.window := (QN.applyFilter_other g3).1.trans ((QN.precondition_other g2).1.trans (QN.updateDifferences_window g1))
      have b1 : ((s1.compute c).pendingTil c).base = s1.base := (IMVJ.pendingTil_base c _).1.trans (IMVJ.compute_base c _).1
      have b2 : (((s1.compute c).pendingTil c).pending c).base = s1.base.pending c.qn := by
        unfold IMVJ.pending
        rw [b1]
      have b3 : (s1.base.pending c.qn).window = s1.base.window := by
        unfold QN.pending
        simp only
        split_ifs <;> rfl
      change ((((s1.compute c).pendingTil c).pending c).base).window = _
      rw [b2, b3, e]

/-- Where the columns for the restart come from. -/
structure RSLS.Inv (reused : ℕ) (s : RSLS ι κ) : Prop where
  cons : s.ls.Consistent s.ls.V.length
  origin : ∃ ws, s.ls.From s.imvj.base.window ws ∧ ws.length ≤ reused
  fresh : s.imvj.base.firstIteration = true → s.ls.fresh

theorem QNSystem.Consistent.any {m : QNSystem ι κ} {n k : ℕ} (h : m.Consistent n) (hk : m.V.length ≤ k) : m.Consistent k := ⟨h.tags, h.sum, hk, h.pos⟩

theorem RSLS.add_spec {reused : ℕ} {s : RSLS ι κ} {r : ι → ℝ} {x : κ → ℝ} {m : QNSystem ι κ} (h : s.add r x = some m) (hi : s.Inv reused) :
    m.Consistent m.V.length ∧ ∃ ws, m.From s.imvj.base.window ws ∧ ws.length ≤ reused := by
  unfold RSLS.add at h
  split_ifs at h with h1
  · obtain rfl := Option.some.inj h
    exact ⟨hi.cons, hi.origin⟩
  · rw [Option.map_eq_some_iff] at h
    obtain ⟨b, hb, rfl⟩ := h
    obtain ⟨x0, bs, e1, rfl⟩ := incFront_eq hb
    refine ⟨⟨?_, ?_, le_rfl, ?_⟩, ?_⟩
    · simp only [List.map_cons, hi.cons.tags]
      rfl
    · have := hi.cons.sum
      rw [e1] at this
      simp only [List.sum_cons, List.length_cons] at this ⊢
      omega
    · have := hi.cons.pos
      rw [e1] at this
      exact this
    · obtain ⟨ws, o1, o2⟩ := hi.origin
      refine ⟨ws, ?_, o2⟩
      unfold QNSystem.From at o1 ⊢
      rw [e1] at o1
      refine ⟨by simpa using o1.length, ?_, o1.desc⟩
      have := o1.eq
      rw [flat] at this
      simp only [List.map_cons, this, flat, List.replicate_succ, List.cons_append]
      rfl

theorem QNSystem.trim_spec {reused w : ℕ} {m m' : QNSystem ι κ} {ws : List ℕ} (h : m.trim reused = some m') (hc : m.Consistent m.V.length) (hf : m.From w ws) (hw : ws.length ≤ reused) :
    m'.Consistent m'.V.length ∧ (∃ ws', m'.From (w + 1) ws' ∧ ws'.length ≤ reused) ∧ m'.fresh := by
  have hpz := popZero_spec hc.pos
  have hdesc : ∀ y ∈ w :: ws, y < w + 1 := fun y hy => by
    rcases List.mem_cons.1 hy with rfl | hy
    · omega
    · have := (List.pairwise_cons.1 hf.desc).1 y hy
      omega
  obtain ⟨us, hus, hL⟩ : ∃ us, us.Sublist (w :: ws) ∧ Labeled (popZero m.blocks) us (m.V.map fun v => v.tag.1) := by
    rcases popZero_labeled hf hc.pos with ⟨-, h⟩ | ⟨h1, h⟩
    · exact ⟨ws, List.sublist_cons_self _ _, h⟩
    · exact ⟨w :: ws, List.Sublist.refl _, by rw [h1]; exact h⟩
  unfold QNSystem.trim at h
  split_ifs at h with h0 h1 h2
  · obtain rfl := Option.some.inj h
    exact ⟨⟨rfl, rfl, le_rfl, by simp⟩, ⟨[], ⟨rfl, rfl, by simp⟩, Nat.zero_le _⟩, rfl⟩
  · split at h
    · cases h
    · rename_i n hn
      split_ifs at h with h3
      obtain rfl := Option.some.inj h
      obtain ⟨d1, -⟩ := hL.dropWindow hn
      obtain ⟨bs, hbs⟩ := List.getLast?_eq_some_iff.1 hn
      have hsum : (popZero m.blocks).dropLast.sum = m.V.length - n := by
        have := hpz.1
        rw [hbs, List.sum_append, hc.sum] at this
        rw [hbs, List.dropLast_concat]
        simp at this
        omega
      refine ⟨⟨?_, ?_, ?_, ?_⟩, ⟨us.dropLast, ⟨?_, ?_, ?_⟩, ?_⟩, rfl⟩
      · rw [List.map_take, List.map_take, hc.tags, hc.length]
      · simp only [List.sum_cons, List.length_take, hsum]
        omega
      · exact le_rfl
      · intro b hb
        exact hpz.2 b (List.mem_of_mem_dropLast hb)
      · simp only [List.length_cons, d1.length]
      · rw [flat]
        simp only [List.replicate_zero, List.nil_append]
        rw [← d1.eq, List.map_take, List.length_map]
      · rw [List.pairwise_cons]
        exact ⟨fun y hy => hdesc y (hus.subset (List.mem_of_mem_dropLast hy)), d1.desc⟩
      · have := hus.length_le
        rw [List.length_cons] at this
        rw [List.length_dropLast]
        omega
  · obtain rfl := Option.some.inj h
    refine ⟨⟨hc.tags, by simpa using hpz.1.trans hc.sum, le_rfl, hpz.2⟩, ⟨us, ⟨by simpa using hL.length, ?_, ?_⟩, ?_⟩, rfl⟩
    · rw [flat]
      simpa using hL.eq
    · rw [List.pairwise_cons]
      exact ⟨fun y hy => hdesc y (hus.subset hy), hL.desc⟩
    · have := hL.length
      omega

theorem QNSystem.removed_inv {w reused : ℕ} {m m' : QNSystem ι κ} {is : List ℕ} (h : m.removeColumns is = some m') (hc : m.Consistent m.V.length) (hf : m.fresh)
    (ho : ∃ ws, m.From w ws ∧ ws.length ≤ reused) : m'.Consistent m'.V.length ∧ (∃ ws, m'.From w ws ∧ ws.length ≤ reused) ∧ m'.fresh := by
  obtain ⟨ws, o1, o2⟩ := ho
  obtain ⟨ws', g1, g2, g3⟩ := QNSystem.removeColumns_from is h hc o1 (Or.inl hf)
  exact ⟨(QNSystem.removeColumns_spec is h hc).any le_rfl, ⟨ws', g1, g2.length_le.trans o2⟩, g3 hf⟩

theorem RSLS.step_inv {c : IMVJConfig} (hs : c.Sound ι κ) {size reused : ℕ} {s s' : RSLS ι κ} {a : QNCall ι κ} (hr : RSLS.Reachable c size reused s) (h : s.step c size reused a = some s')
    (hi : s.Inv reused) : s'.Inv reused := by
  obtain ⟨other, hst⟩ := RSLS.step_imvj h
  have hwin := IMVJ.step_window hst (hr.imvj.inv hs).counts
  rcases RSLS.step_cases h with ⟨hv, hm, -⟩ | ⟨hv, m, m1, hm, hm1, h⟩
  · rw [if_neg (by simp [hv])] at hwin
    obtain ⟨a1, a2⟩ := RSLS.add_spec hm hi
    exact ⟨a1, by rw [hwin.1]; exact a2, fun hf => by rw [hwin.2] at hf; exact absurd hf (by simp)⟩
  · rw [if_pos hv] at hwin
    obtain ⟨a1, ws, a2, a3⟩ := RSLS.add_spec hm hi
    obtain ⟨b1, b2, b3⟩ := QNSystem.trim_spec hm1 a1 a2 a3
    rcases h with ⟨-, p, hp, -, e⟩ | ⟨-, -, e⟩
    · obtain ⟨⟨is, his⟩, -⟩ := QNSystem.restart_spec hp b1
      obtain ⟨d1, d2, d3⟩ := QNSystem.removed_inv his b1 b3 b2
      rw [← e] at d1 d2 d3
      exact ⟨d1, by rw [hwin.1]; exact d2, fun _ => d3⟩
    · rw [← e] at b1 b2 b3
      exact ⟨b1, by rw [hwin.1]; exact b2, fun _ => b3⟩

theorem RSLS.Reachable.inv {c : IMVJConfig} (hs : c.Sound ι κ) {size reused : ℕ} {s : RSLS ι κ} (h : RSLS.Reachable c size reused s) : s.Inv reused := by
  induction h with
  | init w => exact ⟨⟨rfl, rfl, le_rfl, by simp [RSLS.init]⟩, ⟨[], ⟨rfl, rfl, by simp⟩, Nat.zero_le _⟩, fun _ => rfl⟩
  | step hr _ h ih => exact RSLS.step_inv hs hr h ih

end Verif.Accel
