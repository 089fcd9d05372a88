import Verif.Config.DatasetProps
import Mathlib.Tactic.NormNum

/-!
Disagreements with C129 and instances of its theorems
-/

set_option autoImplicit false

namespace Verif.Config.Dataset

open Verif.Config.MapMethod (Dbl)

/-- a data tag without bounds -/
def plain (n : String) (k : Kind) : DataTag := ⟨n, k, 1, fun _ => .ninf, fun _ => .pinf⟩

/-- **Disagreement: bounds of vectors.** A lower bound which is infinite and an upper bound of zero are refused for a scalar.
For a vector they are accepted, and the data has only the upper bound. The same holds for bounds which are not numbers. -/
theorem C129_vector_bounds (debug : Bool) (l : Dbl) (hl : l = .pinf ∨ l = .nan) :
    (∀ s, configure debug [.data ⟨"D", .scalar, 1, fun _ => l, fun _ => .fin 0⟩] ≠ .ok s) ∧
    ∃ s, configure debug [.data ⟨"D", .vector, 1, fun _ => l, fun _ => .fin 0⟩, .mesh "A" 2 ["D"]] = .ok s ∧
      ∃ m d, s.getMesh "A" = some m ∧ m.getData "D" = some d ∧ d.lower = [none, none] ∧ d.upper = [some 0, some 0] := by
  constructor
  · intro s h
    have hv := (C129_accepts debug _).1 ⟨s, h⟩
    obtain ⟨h1, -, h2⟩ := hv.scalar ⟨"D", .scalar, 1, fun _ => l, fun _ => .fin 0⟩ (by simp [tags]) rfl
    rcases hl with rfl | rfl
    · simp at h2
    · exact h1 rfl
  · cases debug <;> rcases hl with rfl | rfl <;> exact ⟨_, rfl, _, _, rfl, rfl, rfl, rfl⟩

/-- **Disagreement: bounds of components which do not exist.** A bound of the third component is accepted for data of a mesh
in two dimensions; whatever it is, the data on the mesh is the one without this bound. -/
theorem C129_dropped_bound (debug : Bool) (q : ℚ) :
    ∃ s, configure debug [.data ⟨"D", .vector, 1, fun _ => .ninf, fun c => if c = 2 then .fin q else .pinf⟩, .mesh "A" 2 ["D"]] = .ok s ∧
    ∃ s', configure debug [.data (plain "D" .vector), .mesh "A" 2 ["D"]] = .ok s' ∧ s.meshes = s'.meshes := by
  cases debug <;> exact ⟨_, rfl, _, rfl, rfl⟩

/-- **Disagreement: meshes with the same name.** Without assertions they are accepted. Vectors on the second mesh have the
dimensions of the first one, and the second mesh is never found. -/
theorem C129_duplicate_mesh : (∀ s, configure true [.data (plain "D" .vector), .mesh "A" 2 [], .mesh "A" 3 ["D"]] ≠ .ok s) ∧
    ∃ s, configure false [.data (plain "D" .vector), .mesh "A" 2 [], .mesh "A" 3 ["D"]] = .ok s ∧
      (∃ m ∈ s.meshes, m.dims = 3 ∧ ∃ d ∈ m.data, d.dim = 2) ∧ ∀ n m, s.getMesh n = some m → m.dims = 2 ∧ m.data = [] := by
  constructor
  · intro s h
    have hv := (C129_accepts true _).1 ⟨s, h⟩
    have := (hv.meshes rfl).1
    simp [meshTags] at this
  · refine ⟨_, rfl, ⟨⟨"A", 3, 1, _⟩, List.mem_cons_of_mem _ (List.mem_cons_self ..), rfl, _, List.mem_cons_self .., rfl⟩, fun n m h => ?_⟩
    by_cases hn : n = "A"
    · subst hn
      obtain rfl := Option.some.inj h
      exact ⟨rfl, rfl⟩
    · have hname : m.name = n := by simpa using List.find?_some h
      refine absurd ?_ hn
      rcases List.mem_cons.1 (List.mem_of_find?_eq_some h) with rfl | h'
      · exact hname.symm
      · obtain rfl := List.mem_singleton.1 h'
        exact hname.symm

/-- Two data, a mesh in two and one in three dimensions -/
def sample : List Item :=
  [.data ⟨"T", .scalar, 0, fun _ => .fin 0, fun _ => .pinf⟩, .mesh "A" 2 ["T"], .data ⟨"V", .vector, 3, fun c => if c = 1 then .fin (-1) else .ninf, fun c => if c = 1 then .fin 1 else .pinf⟩,
    .mesh "B" 3 ["V", "T"]]

theorem sample_configures : ∃ s, configure true sample = .ok s := ⟨_, rfl⟩

example : Valid true sample := (C129_accepts true sample).1 sample_configures

theorem sample_names : ((meshTags sample).map MeshTag.name).Nodup := by decide

example : ∃ s m d, configure true sample = .ok s ∧ s.getMesh "B" = some m ∧ m.getData "V" = some d ∧ d.dim = 3 ∧ d.degree = 3 ∧ d.lower = [none, some (-1), none] :=
  ⟨_, _, _, rfl, rfl, rfl, rfl, rfl, rfl⟩

example : ∃ s, configure true sample = .ok s ∧ List.Forall₂ (fun i m => MeshMatches (tags sample) i.dims i m) (meshTags sample) s.meshes ∧
    (∀ m ∈ s.meshes, ∀ d ∈ m.data, (d.bounded 5 1).Ordered) ∧ ((s.meshes.flatMap Mesh.data).map Data.id).Nodup ∧ ∃ m, s.getMesh "B" = some m ∧ m.dims = 3 := by
  obtain ⟨s, h⟩ := sample_configures
  obtain ⟨m, hm, hd, -⟩ := C129_lookup true sample sample_names s h ⟨"B", 3, ["V", "T"]⟩ (by simp [meshTags, sample])
  exact ⟨s, h, C129_describes_partial true sample sample_names s h, fun m hm d hd => C129_bounds true sample (by simp [meshTags, sample]) s h m hm d hd 5 1,
    (C129_ids true sample s h).2, m, hm, hd⟩

end Verif.Config.Dataset
