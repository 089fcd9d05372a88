import Verif.Bindings.Calls
import Mathlib.Data.List.Forall2

/-!
# C131: the bindings for C and Fortran behave like the C++ API

The full claim is that every function of the bindings does what the function of the C++ API does, and that errors in the
use of the bindings are reported. Missing: large arrays (`C131_overflow`), calls without a participant
(`C131_unchecked`), a second participant (`C131_replaced`) and names of blanks (`C131_blank`).
-/

set_option autoImplicit false

namespace Verif.Bindings

variable {σ : Type}

/-- A function of the C binding with arrays of the documented sizes does what the function of the C++ API does with these
arrays. -/
theorem C131_c_partial {A : Api σ} {D : Dims} (h : Sound A D) {c : Call String} (hd : Documented D c)
    (hl : largest c < 2 ^ 31) (s : σ) : cCall A c (some s) = expected A c s :=
  cCall_expected h hd hl s

/-- A function of the Fortran binding, whose names are filled up with blanks, does what the function of the C++ API does
with the names. -/
theorem C131_fortran_partial {A : Api σ} {D : Dims} (h : Sound A D) {f : Call (List Char)} {c : Call String}
    (hp : PaddedCall f c) (hd : Documented D c) (hl : largest c < 2 ^ 31) (s : σ) :
    fCall A f (some s) = expected A c s := by
  rw [fCall_cCall h hp, cCall_expected h hd hl]

/-- The two bindings do the same, for arrays of all sizes. -/
theorem C131_same {A : Api σ} {D : Dims} (h : Sound A D) {f : Call (List Char)} {c : Call String}
    (hp : PaddedCall f c) (s : σ) : fCall A f (some s) = cCall A c (some s) :=
  fCall_cCall h hp s

/-- If the mesh or the data do not exist, a call that needs their dimensions ends the program, whatever the arrays are. -/
theorem C131_unknown {A : Api σ} {D : Dims} (h : Sound A D) (s : σ) {m : String} (hm : D.mesh m = none) :
    (∀ p, cCall A (.setMeshVertex m p) (some s) = .error .abort) ∧
    (∀ n p ids, cCall A (.setMeshVertices m n p ids) (some s) = .error .abort) ∧
    (∀ d n x v, cCall A (.writeAndMapData m d n x v) (some s) = .error .abort) ∧
    (∀ d n x t v, cCall A (.mapAndReadData m d n x t v) (some s) = .error .abort) ∧
    (∀ b, cCall A (.setMeshAccessRegion m b) (some s) = .error .abort) ∧
    (∀ n ids x, cCall A (.getMeshVertexIDsAndCoordinates m n ids x) (some s) = .error .abort) ∧
    ∀ d, D.data m d = none →
      (∀ n ids v, cCall A (.writeData m d n ids v) (some s) = .error .abort) ∧
      (∀ n ids t v, cCall A (.readData m d n ids t v) (some s) = .error .abort) ∧
      ∀ n ids g, cCall A (.writeGradientData m d n ids g) (some s) = .error .abort := by
  refine ⟨fun p => ?_, fun n p ids => ?_, fun d n x v => ?_, fun d n x t v => ?_, fun b => ?_, fun n ids x => ?_,
    fun d hd => ⟨fun n ids v => ?_, fun n ids t v => ?_, fun n ids g => ?_⟩⟩
  all_goals
    simp only [cCall, andThen_ok (checked_ok s)]
    first
    | exact andThen_error (meshDims_none h s hm)
    | exact andThen_error (dataDims_none h s hd)

/-- A program with the C binding has the results of the program with the C++ API, up to an error, which ends it. After
`finalize` there is no participant. -/
theorem C131_program_partial {A : Api σ} {D : Dims} (h : Sound A D) {cs : List (Call String)}
    (hd : ∀ c ∈ cs, Documented D c ∧ largest c < 2 ^ 31) (hf : .finalize ∉ cs) (s : σ) :
    runBinding (cCall A) cs (some s) =
      ((runApi A (cs.map meant) s).1.map plain, ended false (runApi A (cs.map meant) s).2) ∧
    runBinding (cCall A) (cs ++ [.finalize]) (some s) =
      ((runApi A ((cs ++ [Call.finalize]).map meant) s).1.map plain,
        ended true (runApi A ((cs ++ [Call.finalize]).map meant) s).2) := by
  induction cs generalizing s with
  | nil =>
    refine ⟨rfl, ?_⟩
    have hx := cCall_expected (A := A) h (c := .finalize) (by trivial) (by simp [largest]) s
    simp only [List.nil_append, List.map_cons, List.map_nil, runBinding, runApi, hx, expected]
    cases A.call s (meant (.finalize : Call String)) with
    | none => rfl
    | some p => rfl
  | cons c cs ih =>
    have hc := hd c (by simp)
    have hn : c ≠ .finalize := by
      rintro rfl
      exact hf (by simp)
    have ih' := fun s => ih (fun x hx => hd x (by simp [hx])) (fun hx => hf (by simp [hx])) s
    have hx := cCall_expected (A := A) h hc.1 hc.2 s
    constructor
    · simp only [List.map_cons, runBinding, runApi, hx, expected, if_neg hn]
      cases A.call s (meant c) with
      | none => rfl
      | some p =>
        simp only [List.map_cons]
        rw [(ih' p.2).1]
    · simp only [List.cons_append, List.map_cons, runBinding, runApi, hx, expected, if_neg hn]
      cases A.call s (meant c) with
      | none => rfl
      | some p =>
        simp only [List.map_cons]
        rw [(ih' p.2).2]

/-- The same program with the Fortran binding -/
theorem C131_program_fortran_partial {A : Api σ} {D : Dims} (h : Sound A D) {fs : List (Call (List Char))}
    {cs : List (Call String)} (hp : List.Forall₂ PaddedCall fs cs)
    (hd : ∀ c ∈ cs, Documented D c ∧ largest c < 2 ^ 31) (hf : .finalize ∉ cs) (s : σ) :
    runBinding (fCall A) fs (some s) = runBinding (cCall A) cs (some s) ∧
    runBinding (fCall A) (fs ++ [.finalize]) (some s) = runBinding (cCall A) (cs ++ [.finalize]) (some s) := by
  induction hp generalizing s with
  | nil => exact ⟨rfl, rfl⟩
  | @cons f c fs cs h1 h2 ih =>
    have hc := hd c (by simp)
    have hn : c ≠ .finalize := by
      rintro rfl
      exact hf (by simp)
    have ih' := fun s => ih (fun x hx => hd x (by simp [hx])) (fun hx => hf (by simp [hx])) s
    have hx := cCall_expected (A := A) h hc.1 hc.2 s
    constructor
    · simp only [runBinding, fCall_cCall h h1, hx, expected, if_neg hn]
      cases A.call s (meant c) with
      | none => rfl
      | some p =>
        simp only
        rw [(ih' p.2).1]
    · simp only [List.cons_append, runBinding, fCall_cCall h h1, hx, expected, if_neg hn]
      cases A.call s (meant c) with
      | none => rfl
      | some p =>
        simp only
        rw [(ih' p.2).2]

/-- Without a participant every function of the Fortran binding and every function of the C binding with a check ends the
program. -/
theorem C131_none (A : Api σ) :
    (∀ f, fCall A f none = .error .abort) ∧ ∀ c, unchecked c = false → cCall A c none = .error .abort := by
  constructor
  · intro f
    cases f <;> rfl
  · intro c hc
    cases c <;> first | rfl | exact absurd hc (by simp [unchecked])

/-- The other five functions of the C binding are undefined without a participant: before it is created, and after
`finalize`. -/
theorem C131_unchecked (A : Api σ) {c : Call String} (hc : unchecked c = true) :
    cCall A c none = .error .undef ∧
    ∀ s x s', A.call s .finalize = some (x, s') →
      (runBinding (cCall A) [.finalize, c] (some s)).2 = .error .undef := by
  have h1 : cCall A c none = .error .undef := by
    cases c <;> first | rfl | exact absurd hc (by simp [unchecked])
  refine ⟨h1, fun s x s' hs => ?_⟩
  have : cCall A (.finalize : Call String) (some s) = .ok (x, none) := by
    simp [cCall, andThen, checked, api, hs, resetImpl, ret]
  simp only [runBinding, this, h1]

/-- Creating a participant: the C binding accepts one at a time, and another one after `finalize`. -/
theorem C131_create (A : Api σ) (c : Create String) :
    (∀ s, cCreate A c (some s) = .error .abort) ∧
    (A.create c = none → cCreate A c none = .error .abort) ∧
    (∀ s, A.create c = some s → cCreate A c none = .ok ((), some s)) ∧
    ∀ f : Create (List Char), Padded f.name c.name → Padded f.config c.config → f.rank = c.rank → f.size = c.size →
      f.communicator = c.communicator → fCreate A f none = cCreate A c none := by
  refine ⟨fun s => rfl, fun h => by simp [cCreate, h], fun s h => by simp [cCreate, h], ?_⟩
  intro f h1 h2 h3 h4 h5
  unfold fCreate cCreate
  rw [andThen_ok (stripped_padded h1 none), andThen_ok (stripped_padded h2 none), h3, h4, h5]

/-- The Fortran binding does not notice that there is a participant already: the second one takes its place. -/
theorem C131_replaced (A : Api σ) {f : Create (List Char)} {n g : String} (hn : Padded f.name n)
    (hg : Padded f.config g) {t : σ} (ht : A.create ⟨n, g, f.rank, f.size, f.communicator⟩ = some t) (s : σ) :
    fCreate A f (some s) = .ok ((), some t) := by
  unfold fCreate
  rw [andThen_ok (stripped_padded hn (some s)), andThen_ok (stripped_padded hg (some s))]
  simp [ht]

theorem stripped_blank {l : List Char} (hl : ∀ c ∈ l, isBlank c = true) (s : Option σ) :
    stripped l s = .error .undef := by
  have := strippedReverse_blanks (b := l.reverse) (by simpa using hl) []
  rw [List.append_nil] at this
  simp [stripped, this, strippedReverse, stop]

/-- A name that consists of blanks, or of no characters, is undefined in Fortran instead of an unknown name. -/
theorem C131_blank (A : Api σ) {f : Call (List Char)} {l : List Char} {ls : List (List Char)}
    (hn : f.names = l :: ls) (hl : ∀ c ∈ l, isBlank c = true) (s : σ) : fCall A f (some s) = .error .undef := by
  cases f <;> simp only [Call.names, List.cons.injEq, reduceCtorEq] at hn <;>
    · obtain ⟨rfl, -⟩ := hn
      simp only [fCall, andThen_ok (checked_ok s), andThen_error (stripped_blank hl (some s))]

theorem imul_overflow {a b : ℤ} (s : Option σ) (h : 2 ^ 31 ≤ a * b) : imul a b s = .error .undef := by
  unfold imul
  rw [if_neg fun hh => absurd hh.2 (not_lt.2 h)]
  rfl

/-- Arrays with 2³¹ or more numbers are undefined in C, also if the number of vertices is a number of type `int` and the
arrays have the documented sizes. -/
theorem C131_overflow {A : Api σ} {D : Dims} (h : Sound A D) (s : σ) {m : String} {n : ℤ} :
    (∀ k p ids, D.mesh m = some k → 2 ^ 31 ≤ n * k → cCall A (.setMeshVertices m n p ids) (some s) = .error .undef) ∧
    (∀ d k ids v, D.data m d = some k → 2 ^ 31 ≤ n * k →
      cCall A (.writeData m d n ids v) (some s) = .error .undef) ∧
    ∀ d k ids t v, D.data m d = some k → 2 ^ 31 ≤ n * k →
      cCall A (.readData m d n ids t v) (some s) = .error .undef := by
  refine ⟨fun k p ids hk hn => ?_, fun d k ids v hk hn => ?_, fun d k ids t v hk hn => ?_⟩
  · simp only [cCall, andThen_ok (checked_ok s), andThen_ok (meshDims_ok h s hk),
      andThen_error (imul_overflow (some s) (by rwa [mul_comm] at hn : (2 : ℤ) ^ 31 ≤ (k : ℤ) * n))]
  · simp only [cCall, andThen_ok (checked_ok s), andThen_ok (dataDims_ok h s hk),
      andThen_error (imul_overflow (some s) hn)]
  · simp only [cCall, andThen_ok (checked_ok s), andThen_ok (dataDims_ok h s hk),
      andThen_error (imul_overflow (some s) hn)]

end Verif.Bindings
