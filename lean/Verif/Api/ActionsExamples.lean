import Verif.Api.ActionsProps
import Verif.Api.DataPathExamples

/-!
# Examples for actions (C122)
-/

set_option autoImplicit false

namespace Verif.DataPath

/-- Multiplication by an area of 10. -/
def tenfold (v : ℚ) : ℚ := 10 * v

/-- An action that can be repeated without effect. -/
def clip (v : ℚ) : ℚ := max v 0

/-! ## The writer -/

/-- The samples of a message. -/
def Msg.list : Msg ℚ → Samples ℚ
  | .samples l => l
  | .value _ => []

/-- The first window is repeated once. -/
def wIters : List (WIter ℚ) := [⟨0, 1, false, [(1 / 2, 1), (1, 2)], none⟩, ⟨0, 1, true, [(1 / 2, 3), (1, 4)], none⟩, ⟨1, 2, true, [(2, 5)], none⟩]

theorem wIters_schedule : WSchedule 0 0 wIters := by
  refine ⟨rfl, 1, covers_pair _ _ (by norm_num [tol]) (by norm_num [tol]) rfl, by simp, by simp, fun _ => ?_⟩
  refine ⟨rfl, 1, covers_pair _ _ (by norm_num [tol]) (by norm_num [tol]) rfl, by simp, fun _ => ⟨by norm_num [tol], ?_⟩, by simp⟩
  exact ⟨rfl, 2, covers_single (by norm_num [tol]) _, by simp, fun _ => ⟨by norm_num [tol], trivial⟩, by simp⟩

/-- The hypotheses of `C122_sent`. -/
example : ∃ s p msgs, doubling.initAct tenfold 7 = .ok s ∧ Shows doubling.map (0, 7) p ∧ doubling.out s = [(0, tenfold p.2)] ∧ sendRun doubling tenfold wIters s = .ok msgs ∧
    List.Forall₂ (Carries doubling.substeps) (expectSent doubling tenfold (0, tenfold p.2) wIters) msgs :=
  C122_sent doubling tenfold 7 wIters wIters_schedule

/-- The hypotheses of `C122_sent_once_partial`. -/
example : ∃ s p msgs, doubling.initAct clip 7 = .ok s ∧ Shows doubling.map (0, 7) p ∧ sendRun doubling clip wIters s = .ok msgs ∧
    List.Forall₂ (Carries doubling.substeps) (onceSent doubling clip (0, clip p.2) wIters) msgs :=
  C122_sent_once_partial doubling clip 7 wIters wIters_schedule (.inr ⟨fun v => by simp [clip], by simp [wIters]⟩)

/-- The hypotheses of `C122_start_sent_again`. -/
example : ∃ s p msgs new, doubling.initAct tenfold 7 = .ok s ∧ Shows doubling.map (0, 7) p ∧ sendRun doubling tenfold wIters s = .ok msgs ∧
    msgs[1]? = some (.samples ((0, tenfold^[3] p.2) :: new)) :=
  C122_start_sent_again doubling tenfold 7 (wIters.take 1) (wIters.drop 2) ⟨0, 1, true, [(1 / 2, 3), (1, 4)], none⟩ wIters_schedule rfl (by simp [wIters])

/-- The samples of the messages of this run. The writer wrote 7, which is 14 on the partner's mesh and 140 after one multiplication; the partner gets 1400 and
14000 for the start of the first window. At time 1 it gets 80 at the end of the first window and 800 at the start of the second. -/
theorem C122_sent_wrong : (do
    let s ← doubling.initAct tenfold 7
    let msgs ← sendRun doubling tenfold wIters s
    Except.ok (msgs.map Msg.list)) =
    .ok [[(0, 1400), (1 / 2, 20), (1, 40)], [(0, 14000), (1 / 2, 60), (1, 80)], [(1, 800), (2, 100)]] := by
  decide +kernel

/-! ## The reader -/

deriving instance DecidableEq for ReaderState

/-- The first window is repeated twice; without substeps. -/
def rIters : List (RIter ℚ) := [⟨0, 1, 2, 1, false, .value 2, none⟩, ⟨0, 1, 2, 1, false, .value 3, none⟩, ⟨0, 1, 2, 1, true, .value 4, none⟩, ⟨1, 2, 3, 2, true, .value 5, none⟩]

/-- A participant of a parallel-implicit scheme with a read mapping, without substeps. -/
def triplingEnd : Reader ℚ := ⟨some (times 3), true, false, false, 0⟩

theorem triplingEnd_at : triplingEnd.At 0 (0, 7) [] ⟨[(0, 7)], [(0, 21)]⟩ := by
  have := tol_pos
  refine ⟨by change (0 : ℚ) ≤ 0 + tol; linarith, by change (0 : ℚ) ≤ 0 + tol; linarith, rfl, List.pairwise_singleton _ _, ?_⟩
  refine .cons ⟨rfl, .inl ?_⟩ .nil
  norm_num [triplingEnd, mapped, times]

theorem rIters_schedule : RSchedule triplingEnd 0 0 [] rIters := by
  have h1 : ∀ v : ℚ, Covers (0 : ℚ) 1 [(1, v)] := fun v => covers_single (by norm_num [tol]) v
  have h2 : ∀ v : ℚ, Covers (1 : ℚ) 2 [(2, v)] := fun v => covers_single (by norm_num [tol]) v
  refine ⟨rfl, fun _ => ⟨rfl, by simp, .inr (.inl rfl), trivial, h1 2, by simp, ?_⟩, by simp⟩
  refine ⟨rfl, fun _ => ⟨rfl, by simp, .inr (.inr ⟨2, rfl⟩), trivial, h1 3, by simp, ?_⟩, by simp⟩
  refine ⟨rfl, by simp, fun _ => ⟨rfl, by norm_num [tol], fun _ => ⟨.inl rfl, .inr (.inr ⟨3, rfl⟩), trivial, h1 4, ?_⟩, by simp [triplingEnd]⟩⟩
  exact ⟨rfl, by simp, fun _ => ⟨rfl, by norm_num [tol], fun _ => ⟨.inl rfl, .inr (.inl rfl), trivial, h2 5, trivial⟩, by simp [triplingEnd]⟩⟩

theorem triplingEnd_init : triplingEnd.init (some (.value 7)) 0 none = .ok ⟨[(0, 7)], [(0, 21)]⟩ := by decide +kernel

/-- The hypotheses of `C122_read`. -/
example : ∃ s, triplingEnd.initAct tenfold (some (.value 7)) 0 none = .ok s ∧ triplingEnd.readable s = [((0 : ℚ), (21 : ℚ))].map (fun x => (x.1, tenfold x.2)) ∧
    readRun triplingEnd tenfold rIters s = .ok (expectRead triplingEnd (times 3) tenfold (triplingEnd.readable s) rIters) :=
  C122_read triplingEnd (times 3) tenfold rfl (some (.value 7)) none 0 ⟨[(0, 7)], [(0, 21)]⟩ (0, 7) [] triplingEnd_init triplingEnd_at rIters rIters_schedule

/-- The hypotheses of `C122_read_once_partial`. -/
example : ∃ s, triplingEnd.initAct clip (some (.value 7)) 0 none = .ok s ∧ triplingEnd.readable s = [((0 : ℚ), (21 : ℚ))].map (fun x => (x.1, clip x.2)) ∧
    readRun triplingEnd clip rIters s = .ok (onceRead triplingEnd (times 3) clip (triplingEnd.readable s) rIters) :=
  C122_read_once_partial triplingEnd (times 3) clip rfl (some (.value 7)) none 0 ⟨[(0, 7)], [(0, 21)]⟩ (0, 7) [] triplingEnd_init triplingEnd_at rIters rIters_schedule
    (.inl fun v => by simp [clip])

/-- The hypotheses of `C122_end_once`. -/
example : ∃ s obs shown, triplingEnd.initAct tenfold (some (.value 7)) 0 none = .ok s ∧ readRun triplingEnd tenfold rIters s = .ok obs ∧ obs[1]? = some shown ∧
    shown.getLast? = some (1, tenfold ((times 3).map 3)) :=
  C122_end_once triplingEnd (times 3) tenfold rfl (some (.value 7)) none 0 ⟨[(0, 7)], [(0, 21)]⟩ (0, 7) [] triplingEnd_init triplingEnd_at (rIters.take 1) (rIters.drop 2)
    ⟨0, 1, 2, 1, false, .value 3, none⟩ rIters_schedule [] 1 3 rfl

/-- The hypotheses of `C122_start_read_again`. -/
example : ∃ s obs new, triplingEnd.initAct tenfold (some (.value 7)) 0 none = .ok s ∧ triplingEnd.readable s = [(0, tenfold 21)] ∧
    readRun triplingEnd tenfold rIters s = .ok obs ∧ obs[1]? = some ((0, tenfold^[3] 21) :: new) :=
  C122_start_read_again triplingEnd (times 3) tenfold rfl (some (.value 7)) none 0 ⟨[(0, 7)], [(0, 21)]⟩ (0, 7) (0, 21) [] [] triplingEnd_init triplingEnd_at rfl
    (rIters.take 1) (rIters.drop 2) ⟨0, 1, 2, 1, false, .value 3, none⟩ rIters_schedule (by simp [rIters])

/-- What can be read in this run: the value at the window start is 210 after `initialize`, 2100 in the second iteration, and 21000 in the third. -/
theorem C122_read_wrong : (do
    let s ← triplingEnd.initAct tenfold (some (.value 7)) 0 none
    let obs ← readRun triplingEnd tenfold rIters s
    Except.ok (triplingEnd.readable s, obs)) =
    .ok ([(0, 210)], [[(0, 2100), (1, 60)], [(0, 21000), (1, 90)], [(1, 120)], [(2, 150)]]) := by
  decide +kernel

/-- The second participant of a serial-explicit scheme: no window is repeated, and yet the value 60 read at the end of the first window is 600 when read at the
start of the second. -/
theorem C122_second_wrong : (do
    let s ← (⟨some (times 3), false, true, false, 0⟩ : Reader ℚ).initAct tenfold none 1 (some (.value 2))
    let obs ← readRun ⟨some (times 3), false, true, false, 0⟩ tenfold [⟨0, 1, 2, 1, true, .value 3, none⟩] s
    Except.ok ((⟨some (times 3), false, true, false, 0⟩ : Reader ℚ).readable s, obs)) =
    .ok ([(0, 0), (1, 60)], [[(1, 600), (2, 90)]]) := by
  decide +kernel

end Verif.DataPath
