import Verif.Config.MethodSpec

/-!
# The steps of the configuration of a mapping method
-/

set_option autoImplicit false

namespace Verif.Config.MapMethod

open Verif.Config.Scheme (Err)
open Verif.Config.Part (Constraint Kind)

theorem bind_ok {α β : Type} {x : Except Err α} {f : α → Except Err β} {v : β} :
    (x >>= f) = .ok v ↔ ∃ a, x = .ok a ∧ f a = .ok v := by
  cases x with
  | error e =>
    constructor
    · intro h; exact absurd h (by intro h; cases h)
    · rintro ⟨a, h, _⟩; cases h
  | ok a =>
    constructor
    · intro h; exact ⟨a, rfl, h⟩
    · rintro ⟨a', h, h'⟩; cases h; exact h'

theorem attr_ok {α : Type} {d : Bool} {dflt : Option α} {fb v : α} {g : Option α} :
    attr d dflt fb g = .ok v ↔
      (d = true ∧ (g = some v ∨ g = none ∧ dflt = some v)) ∨ (d = false ∧ g = none ∧ fb = v) := by
  unfold attr
  cases d <;> cases g <;> cases dflt <;> simp

theorem attr_default {α : Type} {d : Bool} {x fb v : α} {g : Option α} :
    attr d (some x) fb g = .ok v ↔ (g ≠ none → d = true) ∧ v = g.getD (if d then x else fb) := by
  unfold attr
  cases d <;> cases g <;> simp [eq_comm]

theorem attr_required {α : Type} {d : Bool} {fb v : α} {g : Option α} :
    attr d none fb g = .ok v ↔ (g ≠ none ↔ d = true) ∧ v = g.getD fb := by
  unfold attr
  cases d <;> cases g <;> simp [eq_comm]

theorem given_iff {o : Option Dbl} : Given o ↔ (o.getD .nan).isFinite = true := by
  unfold Given
  cases o with
  | none => simp [Dbl.isFinite]
  | some v => cases v <;> simp [Dbl.isFinite]

theorem ite_ok {α : Type} {c : Bool} {x y : α} {e : Err} :
    (if c = true then Except.ok x else Except.error e) = Except.ok y ↔ c = true ∧ x = y := by
  cases c <;> simp

theorem describes_gaussian {b : Build} {r c : Option Dbl} {g : Basis}
    (h : DescribesBasis b ⟨.gaussian, r, c⟩ g) : ∃ x y, g = .gaussian x y := by
  cases g with
  | gaussian x y => exact ⟨x, y, rfl⟩
  | compact f x => obtain ⟨h, h', _⟩ := h; cases h'; simp [compactFunctions] at h
  | shaped f x => obtain ⟨h, h', _⟩ := h; cases h'; simp at h
  | plain f => obtain ⟨h, h'⟩ := h; cases h'; simp at h

theorem construct_gaussian {b : Build} {r c : Dbl} {g : Basis} :
    constructRbf b .gaussian r c = .ok g ↔ c.greaterZero = true ∧ g = .gaussian c (Dbl.divides b.k c) := by
  simp only [constructRbf, ite_ok]
  exact and_congr_right fun _ => eq_comm

theorem basis_iff (b : Build) (t : BasisTag) (g : Basis) :
    (∃ v, readBasis b t = .ok v ∧ constructRbf b v.1 v.2.1 v.2.2 = .ok g) ↔
      BasisAttributes t ∧ DescribesBasis b t g ∧ Sensible g := by
  obtain ⟨f, r, c⟩ := t
  by_cases hf : f = .gaussian
  · subst hf
    have hr : (r.getD .nan).isFinite = true ↔ Given r := given_iff.symm
    have hc : (c.getD .nan).isFinite = true ↔ Given c := given_iff.symm
    have e : readBasis b ⟨.gaussian, r, c⟩ =
        if ((r.getD .nan).isFinite && !(c.getD .nan).isFinite) || ((c.getD .nan).isFinite && !(r.getD .nan).isFinite) then
          if (r.getD .nan).isFinite && !(c.getD .nan).isFinite then
            .ok (.gaussian, r.getD .nan, Dbl.divides b.k (r.getD .nan))
          else .ok (.gaussian, r.getD .nan, c.getD .nan)
        else .error .check := by
      cases r <;> cases c <;> rfl
    rw [e]
    have ha : BasisAttributes ⟨.gaussian, r, c⟩ := by simp [BasisAttributes]
    rw [and_iff_right ha]
    by_cases h1 : (r.getD .nan).isFinite = true <;> by_cases h2 : (c.getD .nan).isFinite = true
    · have g1 := hr.mp h1
      have g2 := hc.mp h2
      rw [if_neg (by simp [h1, h2])]
      constructor
      · rintro ⟨v, hv, _⟩; cases hv
      · rintro ⟨h, _⟩
        obtain ⟨x, y, rfl⟩ := describes_gaussian h
        obtain ⟨_, _, ⟨_, _, h⟩ | ⟨_, _, _, h, _⟩⟩ := h
        · exact absurd g1 h
        · exact absurd g2 h
    · have g1 := hr.mp h1
      have g2 : ¬ Given c := fun h => h2 (hc.mpr h)
      rw [if_pos (by simp [h1, h2]), if_pos (by simp [h1, h2])]
      obtain ⟨q, hq⟩ := id g1
      constructor
      · rintro ⟨v, hv, hg⟩
        cases hv
        obtain ⟨hz, rfl⟩ := construct_gaussian.mp hg
        refine ⟨⟨rfl, rfl, .inr ⟨_, ?_, g1, g2, rfl⟩⟩, hz⟩
        rw [hq]; rfl
      · rintro ⟨h, hz⟩
        obtain ⟨x, y, rfl⟩ := describes_gaussian h
        obtain ⟨_, rfl, ⟨_, h, _⟩ | ⟨x', hx, _, _, rfl⟩⟩ := h
        · exact absurd h g2
        · refine ⟨_, rfl, construct_gaussian.mpr ?_⟩
          have hx : r = some x' := hx
          rw [hx]
          exact ⟨hz, rfl⟩
    · have g1 : ¬ Given r := fun h => h1 (hr.mpr h)
      have g2 := hc.mp h2
      rw [if_pos (by simp [h1, h2]), if_neg (by simp [h1])]
      obtain ⟨q, hq⟩ := id g2
      constructor
      · rintro ⟨v, hv, hg⟩
        cases hv
        obtain ⟨hz, rfl⟩ := construct_gaussian.mp hg
        refine ⟨⟨rfl, rfl, .inl ⟨?_, g2, g1⟩⟩, hz⟩
        rw [hq]; rfl
      · rintro ⟨h, hz⟩
        obtain ⟨x, y, rfl⟩ := describes_gaussian h
        obtain ⟨_, rfl, ⟨hx, _, _⟩ | ⟨x', hx, h, _, rfl⟩⟩ := h
        · refine ⟨_, rfl, construct_gaussian.mpr ?_⟩
          have hx : c = some x := hx
          rw [hx]
          exact ⟨hz, rfl⟩
        · exact absurd h g1
    · have g1 : ¬ Given r := fun h => h1 (hr.mpr h)
      have g2 : ¬ Given c := fun h => h2 (hc.mpr h)
      rw [if_neg (by simp [h1, h2])]
      constructor
      · rintro ⟨v, hv, _⟩; cases hv
      · rintro ⟨h, _⟩
        obtain ⟨x, y, rfl⟩ := describes_gaussian h
        obtain ⟨_, _, ⟨_, h, _⟩ | ⟨_, _, h, _, _⟩⟩ := h
        · exact absurd h g2
        · exact absurd h g1
  · cases f <;> cases r <;> cases c <;>
      first
      | exact absurd rfl hf
      | (cases g <;> simp [readBasis, hasRadius, hasShape, attr, bind, Except.bind, constructRbf, BasisAttributes,
          DescribesBasis, compactFunctions, Sensible, ite_ok] <;>
          first
          | done
          | (rintro rfl; simp)
          | (rintro (rfl | rfl) <;> simp)
          | (constructor
             · rintro ⟨h, rfl, rfl⟩; simp [h]
             · rintro ⟨⟨_, rfl, rfl⟩, h⟩; simp [h])
          | (constructor
             · rintro ⟨rfl, rfl⟩; simp
             · rintro ⟨⟨_, rfl, rfl⟩, h⟩; simp))


theorem knows_iff (k : Kind) (e : Executor) : knowsExecutor k e = true ↔
    (k = .rbfDirect ∧ e ∈ [.cpu, .cuda, .hip] ∨ k = .rbfIterative ∧ e ∈ [.cpu, .cuda, .hip, .omp] ∨
      k = .rbfPum) := by
  cases k <;> cases e <;> decide

theorem deviceId_zero : deviceId "0".toList = .ok 0 := by decide +kernel

theorem readExec_iff (k : Kind) (t : ExecutorTag) (x : Exec) :
    (knowsExecutor k t.executor = true ∧ readExec k t = .ok x) ↔
      ExecutorOk k t ∧ x.executor = t.executor ∧ deviceId (t.device.getD "0".toList) = .ok x.device ∧
        x.threads = t.threads.getD 0 ∧
        x.offline = t.compute.getD (if k = .rbfPum ∧ t.executor ≠ .cpu then false else true) := by
  have hg : (decide (t.executor = .cuda) || decide (t.executor = .hip) || decide (t.executor = .sycl)) = true ↔
      t.executor ∈ [.cuda, .hip, .sycl] := by
    cases t.executor <;> decide
  have hp : (decide (k = .rbfPum) && !decide (t.executor = .cpu)) = true ↔ k = .rbfPum ∧ t.executor ≠ .cpu := by
    simp
  unfold readExec
  simp only [bind_ok, attr_default, hg, decide_eq_true_eq]
  constructor
  · rintro ⟨hk, d, ⟨hd, rfl⟩, v, hv, th, ⟨ht, rfl⟩, o, ⟨ho, rfl⟩, hx⟩
    cases hx
    refine ⟨⟨(knows_iff _ _).mp hk, ?_, ht, fun h => hp.mp (ho h)⟩, rfl, ?_, ?_, ?_⟩
    · intro l hl
      refine ⟨hd (by rw [hl]; simp), v, ?_⟩
      rw [hl] at hv
      exact hv
    · revert hv; split_ifs <;> exact id
    · simp
    · simp only [hp]
  · rintro ⟨h, he, hd, ht, ho⟩
    refine ⟨(knows_iff _ _).mpr h.known, _, ⟨?_, rfl⟩, x.device, ?_, _, ⟨h.threads, rfl⟩, _, ⟨?_, rfl⟩, ?_⟩
    · intro hn
      cases hdd : t.device with
      | none => exact absurd hdd hn
      | some l => exact (h.device l hdd).1
    · split_ifs <;> exact hd
    · exact fun hn => hp.mpr (h.mode hn)
    · obtain ⟨xe, xd, xt, xo⟩ := x
      dsimp only at he ht ho
      subst he ht ho
      simp only [hp, ite_self]

end Verif.Config.MapMethod
