import Verif.Bindings.Props

/-! # Examples for C131 -/

set_option autoImplicit false

namespace Verif.Bindings.Examples

open Verif.Bindings

/-- One mesh with three dimensions and a vector on it -/
def dims : Dims where
  mesh m := if m = "Mesh" then some 3 else none
  data m d := if m = "Mesh" ∧ d = "Force" then some 3 else none

/-- A small API: its state is the list of what was written, vertices are numbered from 0 on, the coupling lasts as long as
nothing was written. -/
def toy : Api (List ℚ) where
  create c := if c.name = "Solver" then some [] else none
  call s
    | .getMeshDimensions m => (dims.mesh m).map fun (d : ℕ) => (.int (d : ℤ), s)
    | .getDataDimensions m d => (dims.data m d).map fun (k : ℕ) => (.int (k : ℤ), s)
    | .isCouplingOngoing => some (.bool (decide (s = [])), s)
    | .isTimeWindowComplete | .requiresInitialData | .requiresWritingCheckpoint | .requiresReadingCheckpoint
    | .requiresMeshConnectivityFor _ | .requiresGradientDataFor _ _ => some (.bool false, s)
    | .setMeshVertices m p ids =>
      if m = "Mesh" ∧ p.length = 3 * ids then some (.ints ((List.range ids).map fun (i : ℕ) => (i : ℤ)), s) else none
    | .writeData m _ ids v => if m = "Mesh" ∧ v.length = 3 * ids.length then some (.unit, s ++ v) else none
    | .finalize => some (.unit, s)
    | _ => none

theorem toy_sound : Sound toy dims where
  mesh _ _ := rfl
  data _ _ _ := rfl
  meshSmall m k h := by
    simp only [dims] at h
    split_ifs at h
    simp at h; omega
  dataSmall m d k h := by
    simp only [dims] at h
    split_ifs at h
    simp at h; omega
  flag s r x s' h := by
    cases r with
    | getMeshDimensions m =>
      cases hm : dims.mesh m <;> simp [toy, hm] at h
      obtain ⟨rfl, -⟩ := h
      simp [isFlag]
    | getDataDimensions m d =>
      cases hm : dims.data m d <;> simp [toy, hm] at h
      obtain ⟨rfl, -⟩ := h
      simp [isFlag]
    | setMeshVertices | writeData =>
      simp only [toy] at h
      split_ifs at h
      simp only [Option.some.injEq, Prod.mk.injEq] at h
      obtain ⟨rfl, -⟩ := h
      simp [isFlag]
    | finalize | isCouplingOngoing | isTimeWindowComplete | requiresInitialData | requiresWritingCheckpoint
    | requiresReadingCheckpoint | requiresMeshConnectivityFor | requiresGradientDataFor =>
      simp only [toy, Option.some.injEq, Prod.mk.injEq] at h
      obtain ⟨rfl, -⟩ := h
      simp [isFlag]
    | _ => simp [toy] at h

/-- Two vertices -/
def two : Call String := .setMeshVertices "Mesh" 2 [0, 0, 0, 1, 0, 0] 2

/-- A vector at each of the vertices -/
def write : Call String := .writeData "Mesh" "Force" 2 [0, 1] [1, 2, 3, 4, 5, 6]

theorem two_ok : Documented dims two ∧ largest two < 2 ^ 31 :=
  ⟨⟨3, rfl, by norm_num, by norm_num⟩, by decide⟩

theorem write_ok : Documented dims write ∧ largest write < 2 ^ 31 :=
  ⟨⟨3, rfl, by norm_num, by norm_num⟩, by decide⟩

/-- `C131_c_partial`: the vertices get their numbers, -/
example : cCall toy two (some []) = .ok (.ints [0, 1], some []) := by
  rw [C131_c_partial toy_sound two_ok.1 two_ok.2]
  rfl

/-- the values arrive, -/
example : cCall toy write (some []) = .ok (.unit, some [1, 2, 3, 4, 5, 6]) := by
  rw [C131_c_partial toy_sound write_ok.1 write_ok.2]
  rfl

/-- and the question whether the coupling is ongoing is answered with 1. -/
example : cCall toy .isCouplingOngoing (some []) = .ok (.int 1, some []) := by
  rw [C131_c_partial toy_sound (by trivial) (by decide)]
  rfl

/-- The same in Fortran, with names of eight characters -/
def fWrite : Call (List Char) :=
  .writeData ['M', 'e', 's', 'h', ' ', ' ', ' ', ' '] ['F', 'o', 'r', 'c', 'e', ' ', ' ', ' '] 2 [0, 1]
    [1, 2, 3, 4, 5, 6]

theorem mesh_padded : Padded ['M', 'e', 's', 'h', ' ', ' ', ' ', ' '] "Mesh" :=
  ⟨[' ', ' ', ' ', ' '], by decide, by decide, 'h', by decide, by decide⟩

theorem force_padded : Padded ['F', 'o', 'r', 'c', 'e', ' ', ' ', ' '] "Force" :=
  ⟨[' ', ' ', ' '], by decide, by decide, 'e', by decide, by decide⟩

theorem fWrite_padded : PaddedCall fWrite write := by
  refine ⟨fun l => if l.head? = some 'M' then "Mesh" else "Force", rfl, ?_⟩
  intro l hl
  simp only [fWrite, Call.names, List.mem_cons, List.not_mem_nil, or_false] at hl
  rcases hl with rfl | rfl
  · exact mesh_padded
  · exact force_padded

/-- `C131_fortran_partial`, `C131_same` -/
example : fCall toy fWrite (some []) = .ok (.unit, some [1, 2, 3, 4, 5, 6]) := by
  rw [C131_fortran_partial toy_sound fWrite_padded write_ok.1 write_ok.2]
  rfl

example : fCall toy fWrite (some []) = cCall toy write (some []) := C131_same toy_sound fWrite_padded []

/-- `C131_program_partial`: a whole program, -/
example : runBinding (cCall toy) [two, .isCouplingOngoing, write, .isCouplingOngoing, .finalize] (some []) =
    ([.ints [0, 1], .int 1, .unit, .int 0, .unit], .ok none) := by
  have h := (C131_program_partial toy_sound (cs := [two, .isCouplingOngoing, write, .isCouplingOngoing])
    (by
      intro c hc
      simp only [List.mem_cons, List.not_mem_nil, or_false] at hc
      rcases hc with rfl | rfl | rfl | rfl
      · exact two_ok
      · exact ⟨trivial, by decide⟩
      · exact write_ok
      · exact ⟨trivial, by decide⟩)
    (by simp [two, write]) []).2
  simp only [List.cons_append, List.nil_append] at h
  rw [h]
  rfl

/-- and one in Fortran -/
example : runBinding (fCall toy) [fWrite, .finalize] (some []) = ([.unit, .unit], .ok none) := by
  have h := (C131_program_fortran_partial toy_sound (fs := [fWrite]) (cs := [write])
    (.cons fWrite_padded .nil)
    (by
      intro c hc
      simp only [List.mem_cons, List.not_mem_nil, or_false] at hc
      subst hc
      exact write_ok)
    (by simp [write]) []).2
  simp only [List.cons_append, List.nil_append] at h
  rw [h]
  rfl

/-- `C131_unknown` -/
example : cCall toy (.setMeshVertex "Mash" [1]) (some []) = .error .abort :=
  (C131_unknown toy_sound [] (by decide)).1 [1]

/-- `C131_none`, `C131_unchecked` -/
example : fCall toy .getMaxTimeStepSize none = .error .abort ∧ cCall toy .getMaxTimeStepSize none = .error .undef :=
  ⟨(C131_none toy).1 _, (C131_unchecked toy rfl).1⟩

example : (runBinding (cCall toy) [.finalize, .stopLastProfilingSection] (some [])).2 = .error .undef :=
  (C131_unchecked toy rfl).2 [] .unit [] rfl

/-- `C131_create` -/
example : cCreate toy ⟨"Solver", "c.xml", 0, 1, none⟩ none = .ok ((), some []) ∧
    cCreate toy ⟨"Solver", "c.xml", 0, 1, none⟩ (some [1]) = .error .abort :=
  ⟨(C131_create toy _).2.2.1 _ rfl, (C131_create toy _).1 _⟩

/-- `C131_replaced`: the values that were written with the first participant are lost. -/
example : fCreate toy ⟨['S', 'o', 'l', 'v', 'e', 'r', ' '], ['c', '.', 'x', 'm', 'l'], 0, 1, none⟩ (some [1, 2, 3]) =
    .ok ((), some []) :=
  C131_replaced toy (n := "Solver") (g := "c.xml") ⟨[' '], by decide, by decide, 'r', by decide, by decide⟩
    ⟨[], by decide, by decide, 'l', by decide, by decide⟩ rfl _

/-- `C131_blank` -/
example : fCall toy (.resetMesh [' ', ' ']) (some []) = .error .undef :=
  C131_blank toy (l := [' ', ' ']) (ls := []) rfl (by decide) []

/-- `C131_overflow`: 715 827 883 vertices in three dimensions, with arrays of the documented sizes -/
example : Documented dims (.setMeshVertices "Mesh" 715827883 (List.replicate 2147483649 0) 715827883) ∧
    cCall toy (.setMeshVertices "Mesh" 715827883 (List.replicate 2147483649 0) 715827883) (some []) =
      .error .undef := by
  refine ⟨⟨3, rfl, ?_, by norm_num⟩, (C131_overflow toy_sound []).1 3 _ _ rfl (by norm_num)⟩
  rw [List.length_replicate]
  norm_num

end Verif.Bindings.Examples
