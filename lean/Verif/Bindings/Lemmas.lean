import Verif.Bindings.Spec
import Mathlib.Data.List.Basic
import Mathlib.Tactic.Ring
import Mathlib.Tactic.Linarith

/-! # Lemmas about the bindings (C131) -/

set_option autoImplicit false

namespace Verif.Bindings

variable {σ α β : Type}

theorem andThen_ok {x : M σ α} {f : α → M σ β} {s s' : Option σ} {a : α} (h : x s = .ok (a, s')) :
    andThen x f s = f a s' := by
  simp [andThen, h]

theorem checked_ok (s : σ) : checked (some s) = .ok ((), some s) := rfl

theorem imul_ok {a b k : ℤ} (s : Option σ) (h : a * b = k) (h0 : 0 ≤ k) (h1 : k < 2 ^ 31) :
    imul a b s = .ok (k, s) := by
  subst h
  unfold imul
  rw [if_pos ⟨le_trans (by norm_num) h0, h1⟩]
  rfl

theorem ulong_ok {a : ℤ} (h0 : 0 ≤ a) (h1 : a < 2 ^ 31) : ulong a = a :=
  Int.emod_eq_of_lt h0 (lt_trans h1 (by norm_num))

theorem umul_ok {a b k : ℤ} (h : a * b = k) (h0 : 0 ≤ k) (h1 : k < 2 ^ 64) : umul a b = k := by
  subst h
  exact Int.emod_eq_of_lt h0 h1

theorem span_ok {l : List α} {k : ℤ} (s : Option σ) (h : (l.length : ℤ) = k) : span l k s = .ok (l, s) := by
  subst h
  unfold span
  rw [if_pos ⟨Int.natCast_nonneg _, le_refl _⟩]
  simp [ret]

theorem outSpan_ok {l : ℕ} {k : ℤ} (s : Option σ) (h : (l : ℤ) = k) : outSpan l k s = .ok (l, s) := by
  subst h
  unfold outSpan
  rw [if_pos ⟨Int.natCast_nonneg _, le_refl _⟩]
  simp [ret]

section
variable {A : Api σ} {D : Dims} (h : Sound A D)
include h

theorem meshDims_ok {m : String} {d : ℕ} (s : σ) (hd : D.mesh m = some d) :
    meshDims A m (some s) = .ok ((d : ℤ), some s) := by
  simp [meshDims, andThen, api, h.mesh, hd, asInt, ret]

theorem meshDims_none {m : String} (s : σ) (hd : D.mesh m = none) :
    meshDims A m (some s) = .error .abort := by
  simp [meshDims, andThen, api, h.mesh, hd]

theorem dataDims_ok {m d : String} {k : ℕ} (s : σ) (hd : D.data m d = some k) :
    dataDims A m d (some s) = .ok ((k : ℤ), some s) := by
  simp [dataDims, andThen, api, h.data, hd, asInt, ret]

theorem dataDims_none {m d : String} (s : σ) (hd : D.data m d = none) :
    dataDims A m d (some s) = .error .abort := by
  simp [dataDims, andThen, api, h.data, hd]

theorem api_plain {c : Call String} {r : Request String} (s : σ) (hr : meant c = r) (hf : isFlag r = false)
    (hc : c ≠ .finalize) : api A r (some s) = expected A c s := by
  subst hr
  unfold expected api
  cases hx : A.call s (meant c) with
  | none => simp only [hx]
  | some p =>
    obtain ⟨x, s'⟩ := p
    have hn := h.flag s _ x s' hx
    simp only [hx, if_neg hc]
    cases x with
    | bool b => rw [hf] at hn; exact absurd (hn.2 ⟨b, rfl⟩) (by simp)
    | _ => rfl

theorem api_flag {c : Call String} {r : Request String} (s : σ) (hr : meant c = r) (hf : isFlag r = true)
    (hc : c ≠ .finalize) : andThen (api A r) asFlag (some s) = expected A c s := by
  subst hr
  unfold expected andThen api
  cases hx : A.call s (meant c) with
  | none => simp only [hx]
  | some p =>
    obtain ⟨x, s'⟩ := p
    obtain ⟨b, rfl⟩ := (h.flag s _ x s' hx).1 hf
    simp only [hx, if_neg hc]
    cases b <;> rfl

end

end Verif.Bindings
