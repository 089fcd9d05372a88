import Verif.Config.ParticipantProps
import Verif.Api.DataPath

/-!
# C119: examples, and what is accepted or refused against expectations
-/

set_option autoImplicit false

namespace Verif.Config.Part

open Verif.Config.Scheme (Err)

/-- Meshes 0 and 1 are three-dimensional with the data 10 and 11, mesh 2 has the data 10 only, mesh 3
has the data 11 only, mesh 4 has no data. -/
def meshes : ℕ → Option (Mesh ℕ)
  | 0 => some ⟨3, [10, 11]⟩
  | 1 => some ⟨3, [10, 11]⟩
  | 2 => some ⟨3, [10]⟩
  | 3 => some ⟨3, [11]⟩
  | 4 => some ⟨3, []⟩
  | _ => none

def serial : Setup ℕ := ⟨meshes, 100, true, 1, true, false⟩

def conf (write : Bool) (src dst : Option ℕ) : Conf ℕ :=
  ⟨write, src, dst, if write then .conservative else .consistent, .nearestNeighbor⟩

/-- A fluid with one mesh that writes forces and reads displacements, and the mesh of the solid. -/
def fluid : List (Tag ℕ) :=
  [.provide 0, .receive 1 (some 101) (1 / 2) false, .write 10 0, .read 11 0,
   .mapping (conf true (some 0) (some 1)), .mapping (conf false (some 1) (some 0))]

example : configure serial fluid = .ok
    ⟨[0], [(1, false)],
      [⟨0, 10, [⟨conf true (some 0) (some 1), (0, 10), (1, 10)⟩], none⟩],
      [⟨0, 11, [⟨conf false (some 1) (some 0), (1, 11), (0, 11)⟩], none⟩]⟩ := by decide +kernel

/-- So the hypothesis of `C119_accepts` is met by it. -/
example : WellFormed serial fluid := by
  by_contra h
  have := (C119_accepts serial fluid).2 h
  revert this
  decide +kernel

/-- Two read mappings from meshes that both have the data are refused. -/
example : configure serial
    [.provide 0, .receive 1 (some 101) 0 false, .receive 2 (some 101) 0 false, .read 10 0,
     .mapping (conf false (some 1) (some 0)), .mapping (conf false (some 2) (some 0))] = .error .check := by
  decide +kernel

/-- Two read mappings for two data are fine. -/
def twoReads : List (Tag ℕ) :=
  [.provide 0, .receive 2 (some 101) 0 false, .receive 3 (some 101) 0 false, .read 10 0, .read 11 0,
   .mapping (conf false (some 2) (some 0)), .mapping (conf false (some 3) (some 0))]

example : configure serial twoReads = .ok
    ⟨[0], [(2, false), (3, false)], [],
      [⟨0, 10, [⟨conf false (some 2) (some 0), (2, 10), (0, 10)⟩], none⟩,
       ⟨0, 11, [⟨conf false (some 3) (some 0), (3, 11), (0, 11)⟩], none⟩]⟩ := by decide +kernel

/-- Just-in-time reading and writing. -/
def justInTime : List (Tag ℕ) :=
  [.receive 1 (some 101) 0 true, .write 10 1, .read 11 1,
   .mapping (conf true none (some 1)), .mapping (conf false (some 1) none)]

example : configure serial justInTime = .ok
    ⟨[], [(1, true)], [⟨1, 10, [], some (conf true none (some 1))⟩],
      [⟨1, 11, [], some (conf false (some 1) none)⟩]⟩ := by decide +kernel

/-! ### Against expectations -/

/-- **C119, negative.** A mapping between two meshes that is for no data is refused (`C119_useful`), but
a just-in-time mapping is accepted: any data of that direction counts, on whichever mesh. -/
theorem C119_just_in_time_without_data :
    ∃ (k : Setup ℕ) (ts : List (Tag ℕ)) (r : Result ℕ) (m : Conf ℕ), configure k ts = .ok r ∧
      m ∈ mappings ts ∧ m.src = none ∧ (∀ c ∈ r.writes, c.jit = none ∧ ∀ a ∈ c.maps, a.conf ≠ m) ∧
      (∀ d, (4, d) ∉ writes ts) ∧ m.dst = some 4 := by
  refine ⟨serial, fluid ++ [.receive 4 (some 101) 0 true, .mapping (conf true none (some 4))], _,
    conf true none (some 4), (?_ : _ = Except.ok
    ⟨[0], [(1, false), (4, true)],
      [⟨0, 10, [⟨conf true (some 0) (some 1), (0, 10), (1, 10)⟩], none⟩],
      [⟨0, 11, [⟨conf false (some 1) (some 0), (1, 11), (0, 11)⟩], none⟩]⟩), ?_, rfl, ?_, ?_, rfl⟩
  · decide +kernel
  · decide +kernel
  · decide +kernel
  · intro d hd
    simp [writes, fluid] at hd

/-- **C119, negative.** A participant may write a data directly on a received mesh and at the same time
map data to it: the mapped values are then dropped. When data is mapped at the end of a time step, the
values written directly are already stored (ParticipantImpl.cpp:481-491, `samplizeWriteData` before
`mapWrittenData`), and a sample at the same time is not mapped again. -/
theorem C119_direct_write_and_mapping :
    ∃ (k : Setup ℕ) (ts : List (Tag ℕ)) (r : Result ℕ) (c c' : Ctx ℕ) (a : Attached ℕ),
      configure k ts = .ok r ∧ c ∈ r.writes ∧ c' ∈ r.writes ∧ a ∈ c.maps ∧ a.toData = (c'.mesh, c'.data) ∧
      ∀ (V : Type) (m : DataPath.SampleMap V) (after : Option ℚ) (skipZero : Bool) (t : ℚ) (mapped direct : V),
        DataPath.mapData m after skipZero [(t, mapped)] [(t, direct)] = .ok [(t, direct)] := by
  refine ⟨serial, [.provide 0, .receive 1 (some 101) 0 true, .write 10 0, .write 10 1,
      .mapping (conf true (some 0) (some 1))], _,
    ⟨0, 10, [⟨conf true (some 0) (some 1), (0, 10), (1, 10)⟩], none⟩, ⟨1, 10, [], none⟩,
    ⟨conf true (some 0) (some 1), (0, 10), (1, 10)⟩, (?_ : _ = Except.ok
    ⟨[0], [(1, true)],
      [⟨0, 10, [⟨conf true (some 0) (some 1), (0, 10), (1, 10)⟩], none⟩, ⟨1, 10, [], none⟩], []⟩),
    List.mem_cons_self, List.mem_cons_of_mem _ List.mem_cons_self, List.mem_cons_self, rfl, ?_⟩
  · decide +kernel
  · intro V m after skipZero t mapped direct
    have he : equals t t := by simp [equals, tol]
    simp only [DataPath.mapData, List.isEmpty_cons, Bool.false_eq_true, if_false, List.foldlM_cons,
      List.foldlM_nil, DataPath.mapSample, List.map_cons, List.map_nil, List.any_cons, List.any_nil, he,
      decide_true, Bool.true_or, if_true, ite_self]
    rfl

/-- Mesh 0 has the data 10, 11 and 12, mesh 1 the data 10 and 12, mesh 2 the data 11 and 12. -/
def sharing : ℕ → Option (Mesh ℕ)
  | 0 => some ⟨3, [10, 11, 12]⟩
  | 1 => some ⟨3, [10, 12]⟩
  | 2 => some ⟨3, [11, 12]⟩
  | _ => none

/-- The data 10 and 11 are read on mesh 0 through mappings from meshes 1 and 2. The data 12, which both
have, is read directly on mesh 1. -/
def unambiguous : List (Tag ℕ) :=
  [.provide 0, .receive 1 (some 101) 0 true, .receive 2 (some 101) 0 false, .read 10 0, .read 11 0,
   .read 12 1, .mapping (conf false (some 1) (some 0)), .mapping (conf false (some 2) (some 0))]

/-- **C119, negative.** Mappings are refused as unclear although each data read has exactly one mapping
that can serve it, or is read on a received mesh: the data both source meshes have is read, but on
another mesh than the one mapped to. Without that tag, the participant is accepted. -/
theorem C119_refuses_unambiguous :
    configure ⟨sharing, 100, true, 1, false, false⟩ unambiguous = .error .check ∧
    (∀ x ∈ reads unambiguous, ((mappings unambiguous).filter fun c =>
      c.dst = some x.1 ∧ x.2 ∈ Setup.dataOf ⟨sharing, 100, true, 1, false, false⟩ c.src).length ≤ 1) ∧
    (configure ⟨sharing, 100, true, 1, false, false⟩ (unambiguous.eraseIdx 5)).isOk = true := by
  refine ⟨?_, ?_, ?_⟩ <;> decide +kernel

/-- **C119, negative.** A participant with a multiscale mapping, which only works in serial, cannot be
coupled to a participant that runs in parallel: that one refuses the configuration of its serial
partner, because it compares with its own number of ranks. -/
theorem C119_multiscale_of_serial_partner :
    ∃ (k : Setup ℕ) (ts : List (Tag ℕ)), k.running = false ∧ 1 < k.size ∧
      configure k ts = .error .check ∧ (configure { k with size := 1 } ts).isOk = true := by
  refine ⟨⟨meshes, 100, false, 2, true, false⟩, [.provide 0, .receive 1 (some 101) 0 false, .read 10 0,
    .mapping ⟨false, some 1, some 0, .consistent, .axial⟩], rfl, by decide, ?_, ?_⟩ <;> decide +kernel

/-- **C119, negative.** Whether a participant is accepted depends on the participant that reads the
configuration: with a mapping that is not possible in parallel, it is refused by itself on two ranks
and accepted by its partners. -/
theorem C119_refused_by_itself_only :
    ∃ (k : Setup ℕ) (ts : List (Tag ℕ)), k.running = true ∧ configure k ts = .error .check ∧
      (configure { k with running := false } ts).isOk = true := by
  refine ⟨⟨meshes, 100, true, 2, false, false⟩, [.provide 0, .receive 1 (some 101) 0 false, .read 10 0,
    .mapping ⟨false, some 1, some 0, .conservative, .nearestNeighbor⟩], rfl, ?_, ?_⟩ <;> decide +kernel

end Verif.Config.Part
