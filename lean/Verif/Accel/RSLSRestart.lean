import Verif.Accel.RSLSProps
import Verif.Accel.IMVJAffine

/-!
# The Jacobian after a least-squares restart (C103)
-/

set_option autoImplicit false
set_option linter.unusedSectionVars false

namespace Verif.Accel

open Finset

variable {ι κ : Type} [Fintype ι] [Fintype κ]

/-- A window that ends with a restart. -/
theorem RSLS.restarted {c : IMVJConfig} (hs : c.Sound ι κ) {size reused : ℕ} (hm : c.mode = .restart size .other) {s s' : RSLS ι κ} {a : QNCall ι κ} (hr : RSLS.Reachable c size reused s)
    (h : s.step c size reused a = some s') (ha : a.conv = true) (hfull : size ≤ s.imvj.chunk.length) :
    SecantUpdate s.imvj.base.weights (s'.ls.V.map QNCol.val) (s'.ls.W.map QNCol.val) (fun _ _ => 0) (s'.imvj.kept c) ∧
      (s'.ls.V = [] ∨ 2 * s'.ls.V.length < Fintype.card ι) ∧ s'.imvj.chunk.length ≤ 1 := by
  rcases RSLS.step_cases h with ⟨hv, -, -⟩ | ⟨-, m, m1, hm1, hm2, ⟨-, p, hp, hi, e⟩ | ⟨hlt, -, -⟩⟩
  · rw [ha] at hv; exact absurd hv (by simp)
  · obtain ⟨a1, ws, a2, a3⟩ := RSLS.add_spec hm1 (hr.inv hs)
    obtain ⟨b1, -, -⟩ := QNSystem.trim_spec hm2 a1 a2 a3
    obtain ⟨-, r2, r3, r4⟩ := QNSystem.restart_spec hp b1
    unfold IMVJ.step at hi
    rw [if_pos ha] at hi
    obtain ⟨V, f, hc⟩ := IMVJ.converged_chunk hm hi
    rw [if_pos hfull] at hc
    have hc : s'.imvj.chunk = p.2 := (Option.some.inj hc).symm
    rw [e, hc]
    refine ⟨?_, r3, r4⟩
    have ek : s'.imvj.kept c = fun k i => (p.2.map fun f => product f.W f.Z k i).sum := by
      unfold IMVJ.kept IMVJConfig.restarts
      rw [hm, hc]
      rfl
    rw [ek]
    exact r2
  · omega

/-- C103: after a restart the Jacobian maps every stored residual difference to the stored difference of values, and is zero on everything orthogonal to them. There are fewer than half as many
differences as unknowns. -/
theorem C103_restart {c : IMVJConfig} (hs : c.Sound ι κ) {size reused : ℕ} (hm : c.mode = .restart size .other) {s s' : RSLS ι κ} {a : QNCall ι κ} (hr : RSLS.Reachable c size reused s)
    (h : s.step c size reused a = some s') (ha : a.conv = true) (hfull : size ≤ s.imvj.chunk.length) :
    SecantUpdate s.imvj.base.weights (s'.ls.V.map QNCol.val) (s'.ls.W.map QNCol.val) (fun _ _ => 0) (s'.imvj.kept c) ∧ (s'.ls.V = [] ∨ 2 * s'.ls.V.length < Fintype.card ι) :=
  ⟨(RSLS.restarted hs hm hr h ha hfull).1, (RSLS.restarted hs hm hr h ha hfull).2.1⟩

/-- C103: among all matrices that map the stored differences correctly, the Jacobian after a restart is the smallest one, in every row. -/
theorem C103_smallest {c : IMVJConfig} (hs : c.Sound ι κ) {size reused : ℕ} (hm : c.mode = .restart size .other) {s s' : RSLS ι κ} {a : QNCall ι κ} (hr : RSLS.Reachable c size reused s)
    (h : s.step c size reused a = some s') (ha : a.conv = true) (hfull : size ≤ s.imvj.chunk.length) (hw : ∀ i, s.imvj.base.weights i ≠ 0) {J : κ → ι → ℝ}
    (hJ : List.Forall₂ (fun v y => ∀ k, ip (J k) v = y k) (s'.ls.V.map QNCol.val) (s'.ls.W.map QNCol.val)) (k : κ) :
    ∑ i, (s'.imvj.kept c k i / s.imvj.base.weights i) ^ 2 ≤ ∑ i, (J k i / s.imvj.base.weights i) ^ 2 := by
  have := C93_least_change (C103_restart hs hm hr h ha hfull).1 hw J hJ k
  simp only [sub_zero] at this
  have h0 : 0 ≤ ∑ i, ((J k i - s'.imvj.kept c k i) / s.imvj.base.weights i) ^ 2 := Finset.sum_nonneg fun _ _ => sq_nonneg _
  linarith

/-- C103: the stored differences come in pairs from the same two iterations. Apart from the current window, they come from at most `reused-time-windows-at-restart` earlier windows, and those of
later windows come first. -/
theorem C103_columns {c : IMVJConfig} (hs : c.Sound ι κ) {size reused : ℕ} {s : RSLS ι κ} (hr : RSLS.Reachable c size reused s) :
    s.ls.V.map QNCol.tag = s.ls.W.map QNCol.tag ∧ (∃ ws : List ℕ, ws.length ≤ reused ∧ ∀ v ∈ s.ls.V, v.tag.1 = s.imvj.base.window ∨ v.tag.1 ∈ ws) ∧
      s.ls.V.Pairwise fun v v' => v.tag.1 ≥ v'.tag.1 := by
  have hi := hr.inv hs
  obtain ⟨ws, o1, o2⟩ := hi.origin
  refine ⟨hi.cons.tags, ⟨ws, o2, fun v hv => ?_⟩, ?_⟩
  · have : v.tag.1 ∈ s.ls.V.map fun v => v.tag.1 := List.mem_map.2 ⟨v, hv, rfl⟩
    rw [o1.eq] at this
    simpa using mem_flat this
  · have := flat_sorted (bs := s.ls.blocks) o1.desc
    rw [← o1.eq, List.pairwise_map] at this
    exact this

/-- C103: there are never more stored factors than the configured chunk size. -/
theorem C103_bounded {c : IMVJConfig} (hs : c.Sound ι κ) {size reused : ℕ} (hm : c.mode = .restart size .other) (h1 : 1 ≤ size) {s : RSLS ι κ} (hr : RSLS.Reachable c size reused s) :
    s.imvj.chunk.length ≤ size := by
  induction hr with
  | init w => exact Nat.zero_le _
  | @step s s' a hr hw h ih =>
    by_cases ha : a.conv = true
    · by_cases hfull : size ≤ s.imvj.chunk.length
      · exact (RSLS.restarted hs hm hr h ha hfull).2.2.trans h1
      · obtain ⟨other, h⟩ := RSLS.step_imvj h
        unfold IMVJ.step at h
        rw [if_pos ha] at h
        obtain ⟨V, f, hc⟩ := IMVJ.converged_chunk hm h
        rw [if_neg hfull] at hc
        have hc := Option.some.inj hc
        rw [← hc, List.length_append, List.length_singleton]
        omega
    · obtain ⟨other, h⟩ := RSLS.step_imvj h
      unfold IMVJ.step at h
      rw [if_neg ha] at h
      unfold IMVJ.accelerate at h
      split_ifs at h with h2
      · obtain h := Option.some.inj h
        rw [← h]
        exact ih
      · simp only [Option.bind_eq_bind, Option.bind_eq_some_iff] at h
        obtain ⟨s1, hp, h⟩ := h
        have h := Option.some.inj h
        have e1 := (IMVJ.prepare_jac hp (hr.imvj.inv hs).counts (IMVJ.noRelax h2)).2.2.1
        have e2 := (IMVJ.compute_base c s1).2.2
        have e3 := (IMVJ.pendingTil_base c (s1.compute c)).2.2
        rw [← h]
        show ((((s1.compute c).pendingTil c).pending c).chunk).length ≤ size
        rw [show (((s1.compute c).pendingTil c).pending c).chunk = ((s1.compute c).pendingTil c).chunk from rfl, e3, e2, e1]
        exact ih

/-! ## Affine problems -/

/-- States reached with calls that come from the affine problem. -/
inductive RSLS.AffineReachable (H : AffineProblem ι κ) (c : IMVJConfig) (size reused : ℕ) : RSLS ι κ → Prop
  | init (w : ι → ℝ) : RSLS.AffineReachable H c size reused (RSLS.init w)
  | step {s s' : RSLS ι κ} {a : QNCall ι κ} (x : ι → ℝ) : RSLS.AffineReachable H c size reused s → a.values = H.apply x → a.residual = H.residual x →
      (a.weights ≠ s.imvj.base.weights → a.newQR = true) → s.step c size reused a = some s' → RSLS.AffineReachable H c size reused s'

theorem RSLS.AffineReachable.reachable {H : AffineProblem ι κ} {c : IMVJConfig} {size reused : ℕ} {s : RSLS ι κ} (h : RSLS.AffineReachable H c size reused s) : RSLS.Reachable c size reused s := by
  induction h with
  | init w => exact .init w
  | step x _ _ _ hw h ih => exact .step ih hw h

theorem RSLS.AffineReachable.imvj {H : AffineProblem ι κ} {c : IMVJConfig} {size reused : ℕ} {s : RSLS ι κ} (h : RSLS.AffineReachable H c size reused s) : IMVJ.AffineReachable H c s.imvj := by
  induction h with
  | init w => exact .init w
  | step x _ hv hr hw h ih =>
    obtain ⟨other, h⟩ := RSLS.step_imvj h
    exact .step x ih hv hr hw h

theorem QN.newPair {H : AffineProblem ι κ} {s : QN ι κ} {x y : ι → ℝ} (h1 : s.oldXTilde = H.apply y) (h2 : s.oldResidual = H.residual y) :
    H.Pair (s.newV (H.residual x)) (s.newW (H.apply x)) := by
  have key : ∀ k, H.apply x k - H.apply y k = ∑ j, H.M k j * (x j - y j) := fun k => by
    unfold AffineProblem.apply
    simp only [mul_sub, Finset.sum_sub_distrib]
    ring
  refine ⟨fun j => x j - y j, fun i => ?_, fun k => ?_⟩
  · change H.residual x i - s.oldResidual i = _
    rw [h2, ← key]
    unfold AffineProblem.residual
    ring
  · change H.apply x k - s.oldXTilde k = _
    rw [h1, key]

theorem RSLS.add_pairs {H : AffineProblem ι κ} {s : RSLS ι κ} {x : ι → ℝ} {m : QNSystem ι κ} (h : s.add (H.residual x) (H.apply x) = some m) (hf : s.imvj.base.FromAffine H)
    (hp : List.Forall₂ H.Pair s.ls.V s.ls.W) : List.Forall₂ H.Pair m.V m.W := by
  unfold RSLS.add at h
  split_ifs at h with h1
  · obtain rfl := Option.some.inj h
    exact hp
  · rw [Option.map_eq_some_iff] at h
    obtain ⟨b, -, rfl⟩ := h
    obtain ⟨y, h1, h2⟩ := hf.old (by simpa using h1)
    exact .cons (QN.newPair h1 h2) hp

theorem QNSystem.trim_pairs {P : QNCol ι → QNCol κ → Prop} {reused : ℕ} {m m' : QNSystem ι κ} (h : m.trim reused = some m') (hp : List.Forall₂ P m.V m.W) : List.Forall₂ P m'.V m'.W := by
  unfold QNSystem.trim at h
  split_ifs at h with h0 h1 h2
  · obtain rfl := Option.some.inj h
    exact .nil
  · split at h
    · cases h
    · split_ifs at h with h3
      obtain rfl := Option.some.inj h
      simp only
      rw [hp.length_eq]
      exact List.forall₂_take _ hp
  · obtain rfl := Option.some.inj h
    exact hp

theorem RSLS.AffineReachable.pairs {H : AffineProblem ι κ} {c : IMVJConfig} (hs : c.Sound ι κ) {size reused : ℕ} {s : RSLS ι κ} (h : RSLS.AffineReachable H c size reused s) :
    List.Forall₂ H.Pair s.ls.V s.ls.W := by
  induction h with
  | init w => exact .nil
  | @step s s' a x hr hv hres hw h ih =>
    have hf := hr.imvj.fromAffine hs
    rcases RSLS.step_cases h with ⟨-, hm, -⟩ | ⟨-, m, m1, hm, hm1, h⟩
    · rw [hv, hres] at hm
      exact RSLS.add_pairs hm hf ih
    · obtain ⟨a1, ws, a2, a3⟩ := RSLS.add_spec hm (hr.reachable.inv hs)
      rw [hv, hres] at hm
      have p1 := QNSystem.trim_pairs hm1 (RSLS.add_pairs hm hf ih)
      rcases h with ⟨-, p, hp, -, e⟩ | ⟨-, -, e⟩
      · obtain ⟨b1, -, -⟩ := QNSystem.trim_spec hm1 a1 a2 a3
        obtain ⟨⟨is, his⟩, -⟩ := QNSystem.restart_spec hp b1
        rw [e]
        exact QNSystem.removeColumns_pairs is his p1
      · rw [e]
        exact p1

/-- C103: for an affine problem the Jacobian after a restart is, in every row, at least as close to the exact one as the zero matrix is. -/
theorem C103_better_than_zero {H : AffineProblem ι κ} {T : κ → ι → ℝ} (hT : H.Inverse T) {c : IMVJConfig} (hs : c.Sound ι κ) {size reused : ℕ} (hm : c.mode = .restart size .other) {s s' : RSLS ι κ}
    {a : QNCall ι κ} {x : ι → ℝ} (hr : RSLS.AffineReachable H c size reused s) (hv : a.values = H.apply x) (hres : a.residual = H.residual x)
    (hnew : a.weights ≠ s.imvj.base.weights → a.newQR = true) (h : s.step c size reused a = some s') (ha : a.conv = true) (hfull : size ≤ s.imvj.chunk.length)
    (hw : ∀ i, s.imvj.base.weights i ≠ 0) (k : κ) : ∑ i, ((T k i - s'.imvj.kept c k i) / s.imvj.base.weights i) ^ 2 ≤ ∑ i, (T k i / s.imvj.base.weights i) ^ 2 := by
  have hp := (RSLS.AffineReachable.step x hr hv hres hnew h).pairs hs
  have := C93_never_worse (C103_restart hs hm hr.reachable h ha hfull).1 hw (hT.secant hp) k
  simpa using this

/-! ## When the restart is defined -/

theorem popZero_ne {l : List ℕ} (hpos : ∀ b ∈ l.tail, 0 < b) : ∀ b ∈ popZero l, 0 < b := (popZero_spec hpos).2

/-- C103: dropping the oldest window is always defined. -/
theorem C103_trim_defined {c : IMVJConfig} (hs : c.Sound ι κ) {size reused : ℕ} {s : RSLS ι κ} {r : ι → ℝ} {x : κ → ℝ} (hr : RSLS.Reachable c size reused s) :
    ∃ m m', s.add r x = some m ∧ m.trim reused = some m' := by
  have hi := hr.inv hs
  obtain ⟨ws, o1, -⟩ := hi.origin
  have hb : ∃ b bs, s.ls.blocks = b :: bs := by
    cases hbl : s.ls.blocks with
    | nil =>
      have := o1.length
      rw [hbl] at this
      exact absurd this (by simp)
    | cons b bs => exact ⟨b, bs, rfl⟩
  obtain ⟨m, hm⟩ : ∃ m, s.add r x = some m := by
    obtain ⟨b, bs, hb⟩ := hb
    unfold RSLS.add
    split_ifs
    · exact ⟨_, rfl⟩
    · rw [hb]
      exact ⟨_, rfl⟩
  refine ⟨m, ?_⟩
  obtain ⟨a1, ws1, a2, a3⟩ := RSLS.add_spec hm hi
  have hne : m.blocks ≠ [] := fun h0 => by
    have := a2.length
    rw [h0] at this
    exact absurd this (by simp)
  have hpz := popZero_spec a1.pos
  unfold QNSystem.trim
  rw [if_neg hne]
  by_cases h1 : reused = 0
  · rw [if_pos h1]
    exact ⟨_, hm, rfl⟩
  · rw [if_neg h1]
    by_cases h2 : (popZero m.blocks).length > reused
    · rw [if_pos h2]
      cases hlast : (popZero m.blocks).getLast? with
      | none =>
        rw [List.getLast?_eq_none_iff] at hlast
        rw [hlast] at h2
        exact absurd h2 (by simp)
      | some n =>
        obtain ⟨bs, hbs⟩ := List.getLast?_eq_some_iff.1 hlast
        have hn : 0 < n := hpz.2 n (by rw [hbs]; simp)
        have hlen : bs ≠ [] := fun h0 => by
          rw [hbs, h0] at h2
          simp at h2
          omega
        obtain ⟨b, bs', rfl⟩ := List.exists_cons_of_ne_nil hlen
        have hb0 : 0 < b := hpz.2 b (by rw [hbs]; simp)
        have hsum := hpz.1
        rw [hbs, a1.sum] at hsum
        simp at hsum
        simp only
        rw [if_pos ⟨hn, by omega⟩]
        exact ⟨_, hm, rfl⟩
    · rw [if_neg h2]
      exact ⟨_, hm, rfl⟩

theorem QNSystem.shorten_defined {rows : ℕ} (h3 : 3 ≤ rows) : ∀ (n : ℕ) (m : QNSystem ι κ), m.V.length ≤ n → m.V ≠ [] → ∃ m', m.shorten rows n = some m' ∧ m'.V.head? = m.V.head? ∧ m'.V ≠ []
  | 0, m, h, hne => absurd (List.eq_nil_of_length_eq_zero (by omega)) hne
  | n + 1, m, h, hne => by
    unfold QNSystem.shorten
    by_cases hc : m.V.length * 2 ≥ rows
    · rw [if_pos hc]
      unfold QNSystem.removeColumn
      rw [if_pos (by omega), Option.bind_some]
      have e : m.V.eraseIdx (m.V.length - 1) = m.V.dropLast := List.eraseIdx_length_sub_one
      have hl : m.V.dropLast ≠ [] := fun h0 => by
        have := congrArg List.length h0
        simp at this
        omega
      obtain ⟨m', h1, h2, h4⟩ := QNSystem.shorten_defined h3 n ⟨m.V.eraseIdx (m.V.length - 1), m.W.eraseIdx (m.V.length - 1), decBlock (m.V.length - 1) m.blocks⟩ (by simp only [e, List.length_dropLast]; omega)
        (by simp only [e]; exact hl)
      refine ⟨m', h1, ?_, h4⟩
      rw [h2]
      simp only [e]
      obtain ⟨v, l, hV⟩ := List.exists_cons_of_ne_nil hne
      rw [hV] at hl ⊢
      obtain ⟨v', l', hl'⟩ : ∃ v' l', l = v' :: l' := by
        cases l with
        | nil => simp at hl
        | cons v' l' => exact ⟨v', l', rfl⟩
      rw [hl']
      rfl
    · rw [if_neg hc]
      exact ⟨m, rfl, rfl, hne⟩

/-- Columns other than the first can be removed in descending order. -/
theorem QNSystem.removeColumns_defined : ∀ (dels : List ℕ) (m : QNSystem ι κ), m.W.length = m.V.length → dels.Pairwise (· < ·) → (∀ d ∈ dels, d < m.V.length) → 0 ∉ dels →
    ∃ m', m.removeColumns dels.reverse = some m'
  | [], m, _, _, _, _ => ⟨m, rfl⟩
  | d :: ds, m, hl, hp, hb, h0 => by
    rw [List.pairwise_cons] at hp
    obtain ⟨m1, h1⟩ := QNSystem.removeColumns_defined ds m hl hp.2 (fun e he => hb e (List.mem_cons_of_mem _ he)) (fun he => h0 (List.mem_cons_of_mem _ he))
    obtain ⟨g1, -, -⟩ := QNSystem.removeColumns_reverse hp.2 hl h1
    have hd : d < m.V.length := hb d (by simp)
    have hlen : d < m1.V.length := by
      rw [g1, without_length]
      have e := keptBelow_above (dels := ds) (i := d + 1) fun e he => hp.1 e he
      have := keptBelow_mono ds (show d + 1 ≤ m.V.length from hd)
      omega
    have hd0 : d ≠ 0 := fun h => h0 (by rw [h]; simp)
    unfold QNSystem.removeColumns at h1 ⊢
    rw [List.reverse_cons, List.foldlM_append, h1]
    refine ⟨⟨m1.V.eraseIdx d, m1.W.eraseIdx d, decBlock d m1.blocks⟩, ?_⟩
    simp only [Option.bind_eq_bind, Option.bind_some, List.foldlM_cons, List.foldlM_nil]
    unfold QNSystem.removeColumn
    rw [if_pos ⟨by omega, hlen⟩]
    rfl

theorem QN.filterRebuild_defined {c : QNConfig} {s : QN ι κ} (hl : s.sys.W.length = s.sys.V.length) (hlim : c.limit ≤ 1) {v : QNCol ι} (hv : s.sys.V.head? = some v)
    (hn : dblMin < l2 (scaledCol s.weights v.val)) : ∃ s', s.filterRebuild c = some s' ∧ s'.sys.V.length = s'.qr.cols := by
  obtain ⟨hf, b1, b2⟩ := C75_resetFilter c.limit (scaled s.weights s.sys.V)
  have h0 : 0 ∉ (QR.resetFilter c.limit (scaled s.weights s.sys.V)).2 := by
    cases hV : s.sys.V with
    | nil => rw [hV] at hv; exact absurd hv (by simp)
    | cons v' V =>
      rw [hV] at hv
      obtain rfl : v' = v := by simpa using hv
      exact C75_latest_kept hlim hn _
  have hsl : (scaled s.weights s.sys.V).length = s.sys.V.length := by unfold scaled; rw [List.length_map]
  obtain ⟨m, hm⟩ := QNSystem.removeColumns_defined _ s.sys hl b2 (fun d hd => by rw [← hsl]; exact b1 d hd) h0
  obtain ⟨g1, -, -⟩ := QNSystem.removeColumns_reverse b2 hl hm
  have hlen : m.V.length = (QR.resetFilter c.limit (scaled s.weights s.sys.V)).1.cols := by
    rw [g1, without_length, ← hf.length, without_length, hsl]
  unfold QN.filterRebuild
  simp only [hm, Option.bind_eq_bind, Option.bind_some]
  rw [if_pos hlen]
  exact ⟨_, rfl, hlen⟩

/-- C103: with the filter QR2 or QR3, a limit of at most one, at least three unknowns, and a newest difference that is not zero, the restart succeeds. -/
theorem C103_defined {c : QNConfig} (hf : c.filter = .qr2 ∨ c.filter = .qr3) (hlim : c.limit ≤ 1) (h3 : 3 ≤ Fintype.card ι) {w : ι → ℝ} {m : QNSystem ι κ} (hl : m.W.length = m.V.length) {v : QNCol ι}
    (hv : m.V.head? = some v) (hn : dblMin < l2 (scaledCol w v.val)) : ∃ p, m.restart c w = some p := by
  have hne : m.V ≠ [] := fun h => by rw [h] at hv; exact absurd hv (by simp)
  obtain ⟨m1, h1, h2, -⟩ := QNSystem.shorten_defined h3 m.V.length m le_rfl hne
  obtain ⟨-, -, -, -, g5⟩ := QNSystem.shorten_spec _ h1 hl
  rw [hv] at h2
  have key : ∃ t, (m1.factorise c w).applyFilter c = some t ∧ t.sys.V.length = t.qr.cols := by
    rcases hf with hf | hf
    · have e : m1.factorise c w = { QN.init w with sys := m1 } := by unfold QNSystem.factorise; rw [if_pos hf]
      unfold QN.applyFilter
      rw [e, hf]
      exact QN.filterRebuild_defined (s := { QN.init w with sys := m1 }) g5 hlim h2 hn
    · have e : m1.factorise c w = { QN.init w with sys := m1, qr := (QR.resetFilter 0 (scaled w m1.V)).1, needQR2 := !(QR.resetFilter 0 (scaled w m1.V)).2.isEmpty } := by
        unfold QNSystem.factorise; rw [if_neg (by rw [hf]; simp)]
      obtain ⟨hfac, b1, b2⟩ := C75_resetFilter 0 (scaled w m1.V)
      have hsl : (scaled w m1.V).length = m1.V.length := by unfold scaled; rw [List.length_map]
      have h0 : 0 ∉ (QR.resetFilter 0 (scaled w m1.V)).2 := by
        cases hV : m1.V with
        | nil => rw [hV] at h2; exact absurd h2 (by simp)
        | cons v' V =>
          rw [hV] at h2
          obtain rfl : v' = v := by simpa using h2
          exact C75_latest_kept (by norm_num) hn _
      have hcols : (QR.resetFilter 0 (scaled w m1.V)).1.cols ≠ 0 := by
        rw [← hfac.length, without_length, hsl]
        have hpos : 1 ≤ m1.V.length := by
          cases hV : m1.V with
          | nil => rw [hV] at h2; exact absurd h2 (by simp)
          | cons => simp
        have e1 := keptBelow_mono (QR.resetFilter 0 (scaled w m1.V)).2 hpos
        have e2 := keptBelow_succ (QR.resetFilter 0 (scaled w m1.V)).2 0
        rw [if_neg h0] at e2
        rw [Nat.zero_add] at e2
        omega
      unfold QN.applyFilter
      rw [e, hf]
      simp only [Option.bind_eq_bind]
      have hneed : ∃ b, (QR.resetFilter 0 (scaled w m1.V)).1.needsQR2 c.limit (scaled w m1.V) = some b := by
        unfold QR.needsQR2
        rw [if_neg hcols]
        exact ⟨_, rfl⟩
      obtain ⟨b, hb⟩ := hneed
      have hb' : (QR.resetFilter 0 (scaled w m1.V)).1.needsQR2 c.limit (scaled (QN.init (κ := κ) w).weights m1.V) = some b := hb
      rw [hb', Option.bind_some]
      unfold QN.filterChecked
      split_ifs with hx hy
      · obtain ⟨t, t1, t2⟩ := QN.filterRebuild_defined (c := c)
          (s := { QN.init (κ := κ) w with sys := m1, qr := (QR.resetFilter 0 (scaled w m1.V)).1, needQR2 := !(QR.resetFilter 0 (scaled w m1.V)).2.isEmpty }) g5 hlim h2 hn
        rw [t1, Option.bind_some]
        exact ⟨_, rfl, t2⟩
      · exact ⟨_, rfl, hy⟩
      · exfalso
        apply hy
        simp only [Bool.or_eq_true, Bool.not_eq_true', not_or] at hx
        have hd : (QR.resetFilter 0 (scaled w m1.V)).2 = [] := by simpa using hx.2
        rw [hd, without_nil] at hfac
        simp only
        rw [← hfac.length, hsl]
  obtain ⟨t, t1, t2⟩ := key
  unfold QNSystem.restart
  rw [if_neg hne]
  simp only [Option.bind_eq_bind, h1, Option.bind_some, t1]
  rw [if_pos t2]
  exact ⟨_, rfl⟩

/-! ## When it is not -/

/-- Shortening fails if there are at most two unknowns. -/
theorem QNSystem.shorten_small {rows : ℕ} (h2 : rows ≤ 2) : ∀ (n : ℕ) (m : QNSystem ι κ), m.V ≠ [] → m.shorten rows n = none
  | 0, m, hne => by
    have := List.length_pos_of_ne_nil hne
    unfold QNSystem.shorten
    rw [if_pos (by omega)]
  | n + 1, m, hne => by
    have := List.length_pos_of_ne_nil hne
    unfold QNSystem.shorten
    rw [if_pos (by omega)]
    unfold QNSystem.removeColumn
    split_ifs with h
    · rw [Option.bind_some]
      refine QNSystem.shorten_small h2 n _ fun h0 => ?_
      have := congrArg List.length h0
      rw [List.length_eraseIdx_of_lt h.2] at this
      simp at this
      omega
    · rfl

/-- C103: with one or two unknowns every restart with stored differences fails: the last column is to be removed, which violates an assertion. -/
theorem C103_small_interface (h2 : Fintype.card ι ≤ 2) (c : QNConfig) (w : ι → ℝ) (m : QNSystem ι κ) (hm : m.V ≠ []) : m.restart c w = none := by
  unfold QNSystem.restart
  rw [if_neg hm, QNSystem.shorten_small h2 _ m hm]
  rfl

theorem keptBelow_less {dels : List ℕ} (hne : dels ≠ []) {n : ℕ} (h : ∀ d ∈ dels, d < n) : keptBelow dels n < n := by
  obtain ⟨d, ds, hd⟩ := List.exists_cons_of_ne_nil hne
  have hdm : d ∈ dels := by rw [hd]; simp
  have hle : ∀ n, keptBelow dels n ≤ n := fun n => by
    unfold keptBelow
    exact (List.length_filter_le _ _).trans (by simp)
  obtain ⟨k, hk⟩ : ∃ k, n = d + 1 + k := ⟨n - (d + 1), by have := h d hdm; omega⟩
  have h3 : ∀ k, keptBelow dels (d + 1 + k) ≤ d + k := fun k => by
    induction k with
    | zero =>
      have := keptBelow_succ dels d
      rw [if_pos hdm] at this
      have := hle d
      rw [Nat.add_zero]
      omega
    | succ k ih =>
      have := keptBelow_succ dels (d + 1 + k)
      rw [show d + 1 + (k + 1) = d + 1 + k + 1 by omega, this]
      split_ifs <;> omega
  have := h3 k
  rw [hk]
  omega

/-- C103: without filter, or with the filter QR1, a restart with linearly dependent differences fails: one of them is missing in the factorisation, but not in the matrices. -/
theorem C103_dependent {c : QNConfig} (hf : c.filter = .none ∨ ∃ a, c.filter = .qr1 a) {w : ι → ℝ} {m : QNSystem ι κ} (hl : m.W.length = m.V.length) (hm : 2 * m.V.length < Fintype.card ι)
    (hdep : ¬ FullRank (scaled w m.V)) : m.restart c w = none := by
  have hne : m.V ≠ [] := fun h => hdep (by rw [h]; exact fullRank_nil)
  have h2 : c.filter ≠ .qr2 := by rcases hf with h | ⟨a, h⟩ <;> rw [h] <;> simp
  have hsh : m.shorten (Fintype.card ι) m.V.length = some m := by
    obtain ⟨n, hn⟩ : ∃ n, m.V.length = n + 1 := ⟨m.V.length - 1, by have := List.length_pos_of_ne_nil hne; omega⟩
    rw [hn, QNSystem.shorten, if_neg (by omega)]
  obtain ⟨hfac, b1, b2⟩ := C75_resetFilter 0 (scaled w m.V)
  have hsl : (scaled w m.V).length = m.V.length := by unfold scaled; rw [List.length_map]
  have hd : (QR.resetFilter 0 (scaled w m.V)).2 ≠ [] := fun h => by
    have := C75_rebuilt 0 (scaled w m.V)
    rw [h, without_nil] at this
    exact hdep this
  have hlt : (without (QR.resetFilter 0 (scaled w m.V)).2 (scaled w m.V)).length < m.V.length := by
    rw [without_length, ← hsl]
    exact keptBelow_less hd b1
  have e : m.factorise c w = { QN.init w with sys := m, qr := (QR.resetFilter 0 (scaled w m.V)).1, needQR2 := !(QR.resetFilter 0 (scaled w m.V)).2.isEmpty } := by
    unfold QNSystem.factorise; rw [if_neg h2]
  unfold QNSystem.restart
  rw [if_neg hne]
  simp only [Option.bind_eq_bind, hsh, Option.bind_some, Option.bind_eq_none_iff]
  intro t ht
  unfold QN.applyFilter at ht
  rw [e] at ht
  rcases hf with h | ⟨a, h⟩
  · rw [h] at ht
    obtain rfl := Option.some.inj ht
    rw [if_neg]
    have := hfac.length
    simp only
    omega
  · rw [h] at ht
    simp only [Option.bind_eq_bind, Option.bind_eq_some_iff] at ht
    obtain ⟨m', hm', ht⟩ := ht
    split_ifs at ht with heq
    exfalso
    obtain ⟨f1, f2, f3⟩ := C75_qr1 a c.limit hfac
    obtain ⟨g1, -, -⟩ := QNSystem.removeColumns_reverse f3 hl hm'
    rw [g1, without_length, ← f1.length, without_length] at heq
    have := keptBelow_lt hlt f2
    omega

end Verif.Accel
