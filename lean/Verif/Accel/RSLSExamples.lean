import Verif.Accel.RSLSRestart
import Verif.Accel.IMVJExamples
import Mathlib.Tactic.FinCases

/-!
# A run with a least-squares restart (C103)

Three unknowns, the problem `x ↦ x / 2`, chunk size one. The first window takes two iterations, the second converges at once and ends with a restart.
-/

set_option autoImplicit false
set_option linter.unusedSectionVars false

namespace Verif.Accel

open Finset

/-- The problem `x ↦ x / 2` with three unknowns. -/
noncomputable def halving3 : AffineProblem (Fin 3) (Fin 3) := ⟨fun k i => if k = i then 1 / 2 else 0, fun _ => 0, id⟩

theorem halving3_apply (t : ℝ) : halving3.apply (fun _ => t) = fun _ => t / 2 := by
  funext i
  simp [halving3, AffineProblem.apply]
  ring

theorem halving3_residual (t : ℝ) : halving3.residual (fun _ => t) = fun _ => -(t / 2) := by
  funext i
  simp [halving3, AffineProblem.residual, AffineProblem.apply]
  ring

/-- The configuration: restart mode with chunk size one -/
noncomputable def rsls1 : IMVJConfig := plain (.restart 1 .other)

/-- A call with the values for `x = t` -/
noncomputable def call3 (conv : Bool) (t : ℝ) : QNCall (Fin 3) (Fin 3) := ⟨conv, halving3.residual fun _ => t, halving3.apply fun _ => t, fun _ => 1, false⟩

/-- After the relaxation with `x = 4` -/
noncomputable def ls1 : RSLS (Fin 3) (Fin 3) :=
  ⟨{ IMVJ.init (fun _ => 1) with base := { QN.init (fun _ => 1) with oldResidual := halving3.residual fun _ => 4, oldXTilde := halving3.apply fun _ => 4, firstIteration := false, iteration := 1 } },
    ⟨[], [], [0]⟩⟩

theorem ls1_reachable : RSLS.AffineReachable halving3 rsls1 1 1 ls1 := by
  refine .step (a := call3 false 4) (fun _ => 4) (.init fun _ => 1) rfl rfl (fun h => absurd rfl h) ?_
  unfold RSLS.step IMVJ.step IMVJ.accelerate
  rw [if_neg (by simp [call3]), if_neg (by simp [call3]), if_pos ⟨rfl, Or.inl rfl⟩]
  rfl

/-- The differences of the first window -/
noncomputable def lsV : List (QNCol (Fin 3)) := [⟨(0, 1), fun _ => 1 / 2⟩]
noncomputable def lsW : List (QNCol (Fin 3)) := [⟨(0, 1), fun _ => -(1 / 2)⟩]

noncomputable def lsBase (q : QR (Fin 3)) : QN (Fin 3) (Fin 3) :=
  { ls1.imvj.base with
    sys := ⟨lsV, lsW, [1]⟩
    qr := q
    oldResidual := halving3.residual fun _ => 3
    oldXTilde := halving3.apply fun _ => 3 }

theorem ls_newV : ls1.imvj.base.newV (halving3.residual fun _ => 3) = ⟨(0, 1), fun _ => 1 / 2⟩ := by
  unfold QN.newV
  have e : ls1.imvj.base.oldResidual = halving3.residual fun _ => 4 := rfl
  rw [e, halving3_residual, halving3_residual]
  refine congrArg₂ QNCol.mk rfl ?_
  funext i
  norm_num

theorem ls_newW : ls1.imvj.base.newW (halving3.apply fun _ => 3) = ⟨(0, 1), fun _ => -(1 / 2)⟩ := by
  unfold QN.newW
  have e : ls1.imvj.base.oldXTilde = halving3.apply fun _ => 4 := rfl
  rw [e, halving3_apply, halving3_apply]
  refine congrArg₂ QNCol.mk rfl ?_
  funext i
  norm_num

theorem ls_updateDifferences {q : QR (Fin 3)} (hq : (QR.empty : QR (Fin 3)).insertColumn 0 (fun _ => 1 / 2) 0 = some q) :
    ls1.imvj.base.updateDifferences rsls1.qn (halving3.residual fun _ => 3) (halving3.apply fun _ => 3) = some (lsBase q) := by
  have hv : scaledCol ls1.imvj.base.weights (fun i => halving3.residual (fun _ => 3) i - ls1.imvj.base.oldResidual i) = fun _ => 1 / 2 := by
    have e : ls1.imvj.base.oldResidual = halving3.residual fun _ => 4 := rfl
    have ew : ls1.imvj.base.weights = fun _ => 1 := rfl
    rw [e, ew, halving3_residual, halving3_residual]
    funext i
    simp only [scaledCol]
    norm_num
  have hadd := QN.addColumn_pushed (c := rsls1.qn) (s := ls1.imvj.base) (r := halving3.residual fun _ => 3) (x := halving3.apply fun _ => 3) (b := 0) (bs := []) rfl (by simp [rsls1, plain]) hv hq
  rw [QN.updateDifferences_add rfl hadd, ls_newV, ls_newW]
  rfl

theorem ls_lastDifferences {q : QR (Fin 3)} (hq : (QR.empty : QR (Fin 3)).insertColumn 0 (fun _ => 1 / 2) 0 = some q) :
    ls1.imvj.lastDifferences rsls1 (halving3.residual fun _ => 3) (halving3.apply fun _ => 3) = some { ls1.imvj with base := lsBase q, til := [fun _ => -(1 / 2)] } := by
  unfold IMVJ.lastDifferences IMVJ.updateDifferences
  rw [ls_updateDifferences hq]
  simp only [Option.bind_eq_bind, Option.bind_some]
  rw [if_pos ⟨by simp [rsls1, plain], rfl⟩]
  have : ({ ls1.imvj with base := lsBase q } : IMVJ (Fin 3) (Fin 3)).addTil rsls1 = some { ls1.imvj with base := lsBase q, til := [fun _ => -(1 / 2)] } := by
    have e : ({ ls1.imvj with base := lsBase q } : IMVJ (Fin 3) (Fin 3)).tilColumn rsls1 ⟨(0, 1), fun _ => 1 / 2⟩ ⟨(0, 1), fun _ => -(1 / 2)⟩ = fun _ => -(1 / 2) := by
      funext k
      unfold IMVJ.tilColumn IMVJ.prev
      split_ifs
      · simp [ls1, IMVJ.init]
      · simp [ls1, IMVJ.init, ip]
    change ({ ls1.imvj with base := lsBase q } : IMVJ (Fin 3) (Fin 3)).pushTil rsls1 _ = _
    rw [e]
    unfold IMVJ.pushTil
    rw [if_pos (by simp [ls1, IMVJ.init, rsls1, plain])]
    rfl
  rw [this]
  rfl

/-- The first window has ended; the second one begins. -/
noncomputable def ls2 (q : QR (Fin 3)) : RSLS (Fin 3) (Fin 3) :=
  ⟨{ ls1.imvj with
      base := { lsBase q with sys := ⟨lsV, lsW, [0, 1]⟩, firstWindow := false, firstIteration := true, window := 1, iteration := 0 }
      til := [fun _ => -(1 / 2)]
      chunk := [⟨[fun _ => -(1 / 2)], (lsBase q).pseudoInverse⟩] },
    ⟨lsV, lsW, [0, 1]⟩⟩

theorem IMVJ.specialized_one {ι κ : Type} [Fintype ι] [Fintype κ] {c : IMVJConfig} {s t : IMVJ ι κ} {other : List (Factor ι κ)} (hm : c.mode ≠ .always) (hf : c.qn.filter = .qr3)
    (hq : s.base.qr.cols = 1) (hV : s.base.sys.V.length = 1) (hn : s.base.needQR2 = false) (hnew : s.base.newQR = false) (hst : s.store c other = some t) :
    s.specialized c other = some { t with resetLS := t.resetLS || decide (c.qn.reused > 0 ∨ c.qn.force = true) } := by
  unfold IMVJ.specialized
  rw [if_neg hm]
  have e1 : s.lift c (QN.renew c.qn) (s.base.renewDels c.qn) = some s := by
    have : s.base.renewDels c.qn = [] := by unfold QN.renewDels; rw [if_neg (by simp [hnew])]
    rw [this]
    refine IMVJ.lift_nil ?_
    unfold QN.renew
    rw [if_neg (by simp [hnew])]
  rw [e1]
  simp only [Option.bind_eq_bind, Option.bind_some]
  rw [IMVJ.applyFilter_one hf hq hV hn]
  simp only [Option.bind_some]
  rw [hst]
  rfl

theorem ls2_reachable {q : QR (Fin 3)} (hq : (QR.empty : QR (Fin 3)).insertColumn 0 (fun _ => 1 / 2) 0 = some q) (hc : q.cols = 1) : RSLS.AffineReachable halving3 rsls1 1 1 (ls2 q) := by
  refine .step (a := call3 true 3) (fun _ => 3) ls1_reachable rfl rfl (fun h => absurd rfl h) ?_
  unfold RSLS.step RSLS.converged
  rw [if_pos (show (call3 true 3).conv = true from rfl)]
  have e1 : ls1.add (call3 true 3).residual (call3 true 3).values = some ⟨lsV, lsW, [1]⟩ := by
    unfold RSLS.add
    rw [if_neg (by simp [ls1])]
    change some (⟨[ls1.imvj.base.newV (halving3.residual fun _ => 3)], [ls1.imvj.base.newW (halving3.apply fun _ => 3)], [1]⟩ : QNSystem (Fin 3) (Fin 3)) = _
    rw [ls_newV, ls_newW]
    rfl
  have e2 : (⟨lsV, lsW, [1]⟩ : QNSystem (Fin 3) (Fin 3)).trim 1 = some ⟨lsV, lsW, [0, 1]⟩ := rfl
  have e3 : ls1.imvj.step rsls1 (call3 true 3) [] = some (ls2 q).imvj := by
    unfold IMVJ.step IMVJ.converged
    rw [if_pos (show (call3 true 3).conv = true from rfl)]
    change (ls1.imvj.lastDifferences rsls1 (halving3.residual fun _ => 3) (halving3.apply fun _ => 3)).bind _ = _
    rw [ls_lastDifferences hq]
    simp only [Option.bind_some]
    rw [IMVJ.specialized_one (t := { ls1.imvj with base := lsBase q, til := [fun _ => -(1 / 2)], chunk := [⟨[fun _ => -(1 / 2)], (lsBase q).pseudoInverse⟩] }) (by simp [rsls1, plain]) rfl hc rfl rfl rfl (by
      unfold IMVJ.store
      simp only [rsls1, plain]
      rw [if_neg (by simp [ls1, IMVJ.init])]
      rfl)]
    simp only [Option.bind_eq_bind, Option.bind_some]
    have : (rsls1.qn.reused > 0 ∨ rsls1.qn.force = true) = False := by simp [rsls1, plain]
    simp only [this]
    rfl
  rw [e1]
  simp only [Option.bind_eq_bind, Option.bind_some]
  rw [e2]
  simp only [Option.bind_some]
  rw [if_neg (by simp [ls1, IMVJ.init]), e3]
  rfl

theorem l2_half3 : (1 : ℝ) / 1000 ≤ l2 (fun _ : Fin 3 => (1 / 2 : ℝ)) := by
  unfold l2 ip
  rw [Fin.sum_univ_three]
  exact Real.le_sqrt_of_sq_le (by norm_num)

theorem insert_three : ∃ q, (QR.empty : QR (Fin 3)).insertColumn 0 (fun _ => 1 / 2) 0 = some q ∧ q.cols = 1 := by
  have hne : (QR.empty : QR (Fin 3)).insertColumn 0 (fun _ => 1 / 2) 0 ≠ none := by
    rw [Ne, C79_insert_fails_iff factorizes_empty, show (QR.empty : QR (Fin 3)).cols = 0 from rfl, project_empty]
    rintro (h | h | h)
    · simp at h
    · exact absurd (dblMin_lt l2_half3) (not_lt.2 h)
    · exact absurd h.1 (by simp)
  obtain ⟨q, hq⟩ := Option.ne_none_iff_exists'.1 hne
  have := C79_insert factorizes_empty (Nat.zero_le _) hq
  exact ⟨q, hq, by have := this.length; simpa using this.symm⟩

/-- The hypotheses of the theorems of C103 can be met: a run over two windows, the second of which ends with a restart with a stored difference. -/
theorem rsls_run : rsls1.Sound (Fin 3) (Fin 3) ∧ ∃ s s' : RSLS (Fin 3) (Fin 3), RSLS.AffineReachable halving3 rsls1 1 1 s ∧ s.step rsls1 1 1 (call3 true 3) = some s' ∧ 1 ≤ s.imvj.chunk.length ∧
    s.imvj.base.weights = (fun _ => 1) ∧ s'.ls.V.length = 1 := by
  refine ⟨⟨Or.inr rfl, le_rfl⟩, ?_⟩
  obtain ⟨q, hq, hc⟩ := insert_three
  have hr := ls2_reachable hq hc
  obtain ⟨p, hp⟩ := C103_defined (ι := Fin 3) (κ := Fin 3) (c := rsls1.qn) (w := fun _ => 1) (m := ⟨lsV, lsW, [0, 1]⟩) (v := ⟨(0, 1), fun _ => 1 / 2⟩) (Or.inr rfl) (by simp [rsls1, plain]; norm_num)
    (by simp) rfl rfl (by
      have e : scaledCol (fun _ : Fin 3 => (1 : ℝ)) (fun _ => 1 / 2) = fun _ => 1 / 2 := by funext i; simp [scaledCol]
      simp only
      rw [e]
      exact dblMin_lt l2_half3)
  obtain ⟨s', hs'⟩ : ∃ s', (ls2 q).imvj.step rsls1 (call3 true 3) p.2 = some s' := by
    unfold IMVJ.step IMVJ.converged
    rw [if_pos (show (call3 true 3).conv = true from rfl)]
    have e1 : (ls2 q).imvj.lastDifferences rsls1 (call3 true 3).residual (call3 true 3).values = some { (ls2 q).imvj with base := { (ls2 q).imvj.base with sys := ⟨lsV, lsW, [1]⟩ } } := by
      unfold IMVJ.lastDifferences IMVJ.updateDifferences QN.updateDifferences
      rw [if_neg (by simp [ls2, rsls1, plain]), if_pos (by simp [ls2]), Option.map_some, Option.bind_eq_bind, Option.bind_some, if_neg (by simp [ls2])]
      rfl
    rw [e1]
    simp only [Option.bind_eq_bind, Option.bind_some]
    rw [IMVJ.specialized_one (t := { (ls2 q).imvj with base := { (ls2 q).imvj.base with sys := ⟨lsV, lsW, [1]⟩ }, chunk := p.2 }) (by simp [rsls1, plain]) rfl hc rfl rfl rfl (by
      unfold IMVJ.store
      simp only [rsls1, plain]
      rw [if_pos (by simp [ls2])]
      rfl)]
    exact ⟨_, rfl⟩
  refine ⟨ls2 q, ⟨s', p.1⟩, hr, ?_, by simp [ls2], rfl, ?_⟩
  · unfold RSLS.step RSLS.converged
    rw [if_pos (show (call3 true 3).conv = true from rfl)]
    have e1 : (ls2 q).add (call3 true 3).residual (call3 true 3).values = some ⟨lsV, lsW, [0, 1]⟩ := by
      unfold RSLS.add
      rw [if_pos (by simp [ls2])]
      rfl
    have e2 : (⟨lsV, lsW, [0, 1]⟩ : QNSystem (Fin 3) (Fin 3)).trim 1 = some ⟨lsV, lsW, [0, 1]⟩ := rfl
    rw [e1]
    simp only [Option.bind_eq_bind, Option.bind_some]
    rw [e2]
    simp only [Option.bind_some]
    rw [if_pos (by simp [ls2])]
    have e3 : (ls2 q).imvj.base.weights = fun _ => 1 := rfl
    rw [e3, hp]
    simp only [Option.bind_some]
    rw [hs']
    rfl
  · have hcons : (⟨lsV, lsW, [0, 1]⟩ : QNSystem (Fin 3) (Fin 3)).Consistent 1 := ⟨rfl, rfl, le_rfl, by simp⟩
    obtain ⟨⟨is, his⟩, -⟩ := QNSystem.restart_spec hp hcons
    cases is with
    | nil =>
      obtain h := Option.some.inj his
      rw [← h]
      rfl
    | cons i is => 
      rw [QNSystem.removeColumns, List.foldlM_cons] at his
      unfold QNSystem.removeColumn at his
      rw [if_neg (by simp [lsV])] at his
      exact absurd his (by simp)

/-- In this run the Jacobian after the restart is the one of the theorems, with the exact Jacobian `-1`. -/
example : halving3.Inverse (fun k i => if k = i then -1 else 0) := by
  intro d k
  simp [halving3, ip]
  ring

/-- Two columns of three unknowns are one too many, so the older one is dropped; see `C103_restart`. -/
example : ∃ m', (⟨[⟨(1, 1), fun _ => 1⟩, ⟨(0, 1), fun _ => 2⟩], [⟨(1, 1), fun _ => 3⟩, ⟨(0, 1), fun _ => 4⟩], [0, 1, 1]⟩ : QNSystem (Fin 3) (Fin 3)).shorten 3 2 = some m' ∧
    m'.V = [⟨(1, 1), fun _ => 1⟩] ∧ m'.blocks = [0, 1] := ⟨_, rfl, rfl, rfl⟩

/-- The hypotheses of `C103_dependent` can be met: twice the same difference, five unknowns. -/
example : ¬ FullRank (scaled (fun _ => 1) [⟨(0, 2), fun _ => 1⟩, ⟨(0, 1), fun _ => 1⟩] : List (Fin 5 → ℝ)) ∧ 2 * 2 < Fintype.card (Fin 5) := by
  refine ⟨fun h => ?_, by simp⟩
  have := h.1
  simp [scaled] at this

end Verif.Accel
