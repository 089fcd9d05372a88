import Verif.Config.MethodMain
import Mathlib.Tactic.FieldSimp
import Mathlib.Tactic.Positivity

/-!
# The method of a mapping is the one described (C126)

The full claim is that a mapping is accepted exactly if its method and parameters make sense, and that it
then has exactly the parameters its tag gives it. The theorems with the suffix `_partial` hold for `Valid`
and `Describes` as they are; what is missing is what the last theorems of the file refute: the alias
`mapping:rbf` reads dead axes and ignores them, of several executors all but the last are ignored, and a
negative number of vertices, a support radius of zero of a Gaussian and any shape parameter of
multiquadrics are accepted.
-/

set_option autoImplicit false

namespace Verif.Config.MapMethod

open Verif.Config.Scheme (Err)
open Verif.Config.Part (Constraint Kind)

theorem tags_sound (b : Build) (ts : List Tag) : ∀ (s s' : State), s.exec = none →
    mappingTags b s ts = .ok s' →
    (∀ t ∈ ts, Valid b t) ∧ ∃ l, s'.done = s.done ++ l ∧
      List.Forall₂ (fun t m => m.constraint = t.constraint ∧ m.dim = t.dim ∧ Describes b t m.method) ts l := by
  induction ts with
  | nil =>
    intro s s' _ h
    cases h
    exact ⟨by simp, [], by simp, .nil⟩
  | cons t r ih =>
    intro s s' hs h
    simp only [mappingTags, bind_ok] at h
    obtain ⟨s1, h1, h2⟩ := h
    obtain ⟨hv, he, m, hm, hd⟩ := mappingTag_sound hs h1
    obtain ⟨hr, l, hl, hf⟩ := ih s1 s' he h2
    refine ⟨?_, ⟨t.constraint, t.dim, m⟩ :: l, ?_, .cons ⟨rfl, rfl, hm⟩ hf⟩
    · intro x hx
      rcases List.mem_cons.mp hx with rfl | hx
      · exact hv
      · exact hr x hx
    · rw [hl, hd, List.append_assoc]; rfl

theorem tags_complete (b : Build) (ts : List Tag) : ∀ (s : State), s.exec = none → (∀ t ∈ ts, Valid b t) →
    ∃ s', mappingTags b s ts = .ok s' := by
  induction ts with
  | nil => intro s _ _; exact ⟨s, rfl⟩
  | cons t r ih =>
    intro s hs h
    obtain ⟨s1, h1⟩ := mappingTag_complete hs (h t (by simp))
    obtain ⟨s', h2⟩ := ih s1 (mappingTag_sound hs h1).2.1 fun x hx => h x (by simp [hx])
    exact ⟨s', by simp only [mappingTags, bind_ok]; exact ⟨s1, h1, h2⟩⟩

/-- C126: the mappings of a participant are accepted exactly if each of them is possible, whatever the
others are. -/
theorem C126_accepts_partial (b : Build) (ts : List Tag) :
    (∃ s, mappingTags b .init ts = .ok s) ↔ ∀ t ∈ ts, Valid b t :=
  ⟨fun ⟨_, h⟩ => (tags_sound b ts _ _ rfl h).1, tags_complete b ts _ rfl⟩

/-- C126: there is one mapping per tag, in the order of the tags, and each is the one its tag describes. -/
theorem C126_methods_partial (b : Build) (ts : List Tag) (s : State) (h : mappingTags b .init ts = .ok s) :
    List.Forall₂ (fun t m => m.constraint = t.constraint ∧ m.dim = t.dim ∧ Describes b t m.method) ts s.done := by
  obtain ⟨l, hl, hf⟩ := (tags_sound b ts _ _ rfl h).2
  rw [hl]
  exact hf

/-- The four groups of basis functions. -/
def groupOf : Function → ℕ
  | .gaussian => 1
  | .multiquadrics | .inverseMultiquadrics => 2
  | .thinPlateSplines | .volumeSplines => 3
  | _ => 0

@[simp] def groupOfBasis : Basis → ℕ
  | .compact _ _ => 0
  | .gaussian _ _ => 1
  | .shaped _ _ => 2
  | .plain _ => 3

theorem describesBasis_group {b : Build} {t : BasisTag} {g : Basis} (h : DescribesBasis b t g) :
    groupOf t.function = groupOfBasis g := by
  cases g with
  | compact f r =>
    obtain ⟨h, hf, _⟩ := h
    rw [hf]
    simp only [compactFunctions, List.mem_cons, List.not_mem_nil, or_false] at h
    rcases h with rfl | rfl | rfl | rfl | rfl | rfl <;> rfl
  | gaussian c r => rw [h.1]; rfl
  | shaped f c =>
    obtain ⟨h, hf, _⟩ := h
    rw [hf]
    simp only [List.mem_cons, List.not_mem_nil, or_false] at h
    rcases h with rfl | rfl <;> rfl
  | plain f =>
    obtain ⟨h, hf⟩ := h
    rw [hf]
    simp only [List.mem_cons, List.not_mem_nil, or_false] at h
    rcases h with rfl | rfl <;> rfl

theorem describesBasis_unique {b : Build} {t : BasisTag} {g g' : Basis} (h : DescribesBasis b t g)
    (h' : DescribesBasis b t g') : g = g' := by
  have hg := (describesBasis_group h).symm.trans (describesBasis_group h')
  cases g <;> cases g' <;> simp [groupOfBasis] at hg <;>
    simp only [DescribesBasis, compactFunctions, List.mem_cons, List.not_mem_nil, or_false] at h h'
  case compact.compact =>
    obtain ⟨_, h1, h2⟩ := h
    obtain ⟨_, h1', h2'⟩ := h'
    rw [← h1, ← h1', Option.some.inj (h2.symm.trans h2')]
  case shaped.shaped =>
    obtain ⟨_, h1, h2⟩ := h
    obtain ⟨_, h1', h2'⟩ := h'
    rw [← h1, ← h1', Option.some.inj (h2.symm.trans h2')]
  case plain.plain => rw [← h.2, ← h'.2]
  case gaussian.gaussian =>
    obtain ⟨_, h1, h2⟩ := h
    obtain ⟨_, h1', h2'⟩ := h'
    rcases h2 with ⟨a1, a2, a3⟩ | ⟨x, a1, a2, a3, a4⟩ <;> rcases h2' with ⟨b1, b2, b3⟩ | ⟨y, b1, b2, b3, b4⟩
    · cases Option.some.inj (a1.symm.trans b1); rw [h1, h1']
    · exact absurd a2 b3
    · exact absurd b2 a3
    · cases Option.some.inj (a1.symm.trans b1)
      cases a4.trans b4.symm
      rw [h1, h1']

theorem describes_unique {b : Build} {t : Tag} {m m' : Method} (h : Describes b t m) (h' : Describes b t m') :
    m = m' := by
  have hb : ∀ {g g'}, (∃ x, bases t.subs = [x] ∧ DescribesBasis b x g) →
      (∃ x, bases t.subs = [x] ∧ DescribesBasis b x g') → g = g' := by
    rintro g g' ⟨x, hx, hg⟩ ⟨y, hy, hg'⟩
    cases hx.symm.trans hy
    exact describesBasis_unique hg hg'
  cases m <;> cases m' <;> simp only [Describes] at h h' <;>
    first
    | rfl
    | (rw [h] at h'; simp at h'; done)
    | (rw [h'] at h; simp at h; done)
    | (rw [h.1] at h'; simp at h'; done)
    | (rw [h'.1] at h; simp at h; done)
    | skip
  case coarseGraining.coarseGraining =>
    rw [Option.some.inj (h.2.symm.trans h'.2)]
  case axial.axial =>
    obtain ⟨_, a1, a2, a3, a4, rfl, rfl⟩ := h
    obtain ⟨_, b1, b2, b3, b4, rfl, rfl⟩ := h'
    cases a1.symm.trans b1
    cases a2.symm.trans b2
    cases a3.symm.trans b3
    cases a4.symm.trans b4
    rfl
  case radial.radial =>
    obtain ⟨_, a1, a2⟩ := h
    obtain ⟨_, b1, b2⟩ := h'
    cases a1.symm.trans b1
    cases a2.symm.trans b2
    rfl
  case direct.direct =>
    obtain ⟨_, _, a1, rfl, rfl⟩ := h
    obtain ⟨_, _, b1, rfl, rfl⟩ := h'
    rw [hb a1 b1]
  case petsc.petsc =>
    obtain ⟨_, _, a1, rfl, rfl, rfl⟩ := h
    obtain ⟨_, _, b1, rfl, rfl, rfl⟩ := h'
    rw [hb a1 b1]
  case ginkgo.ginkgo =>
    obtain ⟨rfl, _, a1, a2, rfl, rfl, rfl, rfl⟩ := h
    obtain ⟨rfl, _, b1, b2, rfl, rfl, rfl, rfl⟩ := h'
    rw [hb a2 b2]
    rcases a1 with ⟨k, rfl⟩ | ⟨k, rfl⟩ <;> rcases b1 with ⟨k', rfl⟩ | ⟨k', rfl⟩
    · rfl
    · rw [k] at k'; cases k'
    · rw [k] at k'; cases k'
    · rfl
  case pum.pum =>
    obtain ⟨a1, rfl, a2, a3⟩ := h
    obtain ⟨b1, rfl, b2, b3⟩ := h'
    rw [hb a1 b1]
    by_cases hc : (executorOf t).executor = .cpu
    · obtain ⟨rfl, rfl, rfl⟩ := a2 hc
      obtain ⟨rfl, rfl, rfl⟩ := b2 hc
      rcases a3 with ⟨k, rfl, rfl, rfl, rfl, _⟩ | ⟨k, _, rfl, rfl, rfl, rfl⟩ <;>
        rcases b3 with ⟨k', rfl, rfl, rfl, rfl, _⟩ | ⟨k', _, rfl, rfl, rfl, rfl⟩
      · rfl
      · rw [k] at k'; cases k'
      · rw [k] at k'; cases k'
      · rfl
    · rcases a3 with ⟨k, rfl, rfl, rfl, rfl, a⟩ | ⟨_, k, _⟩
      · rcases b3 with ⟨k', rfl, rfl, rfl, rfl, b⟩ | ⟨_, k', _⟩
        · obtain ⟨rfl, rfl, rfl⟩ := a hc
          obtain ⟨rfl, rfl, rfl⟩ := b hc
          rfl
        · exact absurd k' hc
      · exact absurd k hc
  case direct.ginkgo => exact absurd (h'.1.symm.trans h.2.1) h'.2.1
  case petsc.ginkgo => exact absurd (h'.1.symm.trans h.2.1) h'.2.1
  case ginkgo.direct => exact absurd (h.1.symm.trans h'.2.1) h.2.1
  case ginkgo.petsc => exact absurd (h.1.symm.trans h'.2.1) h.2.1
  case ginkgo.pum =>
    rcases h.2.2.1 with ⟨k, _⟩ | ⟨k, _⟩ <;> rcases h'.2.2.2 with ⟨k', _⟩ | ⟨k', _⟩ <;> rw [k] at k' <;> cases k'
  case pum.ginkgo =>
    rcases h'.2.2.1 with ⟨k, _⟩ | ⟨k, _⟩ <;> rcases h.2.2.2 with ⟨k', _⟩ | ⟨k', _⟩ <;> rw [k] at k' <;> cases k'

/-- C126: a mapping does not depend on the tags before it and after it. -/
theorem C126_independent (b : Build) (l r : List Tag) (t : Tag) (s : State)
    (h : mappingTags b .init (l ++ t :: r) = .ok s) :
    ∃ m s', mappingTags b .init [t] = .ok s' ∧ s'.done = [m] ∧ s.done[l.length]? = some m := by
  obtain ⟨s', h'⟩ := (C126_accepts_partial b [t]).mpr fun x hx => (C126_accepts_partial b _).mp ⟨s, h⟩ x (by
    rw [List.mem_singleton.mp hx]; simp)
  have hf := C126_methods_partial b _ _ h'
  have hF := C126_methods_partial b _ _ h
  obtain ⟨m, l', hm, hn, hd⟩ : ∃ m l', (m.constraint = t.constraint ∧ m.dim = t.dim ∧ Describes b t m.method) ∧
      List.Forall₂ (fun t m => m.constraint = t.constraint ∧ m.dim = t.dim ∧ Describes b t m.method) [] l' ∧
      s'.done = m :: l' := by
    cases hd : s'.done with
    | nil => rw [hd] at hf; cases hf
    | cons m l' => rw [hd] at hf; cases hf with | cons a c => exact ⟨m, l', a, c, rfl⟩
  cases hn
  refine ⟨m, s', h', hd, ?_⟩
  have hlen := hF.length_eq
  have hlt : l.length < s.done.length := by rw [← hlen]; simp
  have := List.Forall₂.get hF (i := l.length) (by simp) hlt
  simp only [List.get_eq_getElem, List.getElem_append_right (Nat.le_refl _), Nat.sub_self, List.getElem_cons_zero] at this
  rw [List.getElem?_eq_getElem hlt]
  obtain ⟨c1, c2, c3⟩ := this
  obtain ⟨d1, d2, d3⟩ := hm
  generalize s.done[l.length] = w at c1 c2 c3
  cases w with
  | mk w1 w2 w3 =>
    cases m with
    | mk m1 m2 m3 =>
      simp only at c1 c2 c3 d1 d2 d3
      rw [c1, c2, d1, d2, describes_unique c3 d3]

/-- C126: a Gaussian given by a positive support radius has this support radius. -/
theorem C126_gaussian_radius (b : Build) (t : BasisTag) (g : Basis) (r : ℚ) (hr : 0 < r)
    (hf : t.function = .gaussian) (hs : t.supportRadius = some (.fin r)) (hd : DescribesBasis b t g) :
    ∃ c, g = .gaussian c (.fin r) := by
  have hg := describesBasis_group hd
  rw [hf] at hg
  cases g <;> simp [groupOf, groupOfBasis] at hg
  rename_i c x
  obtain ⟨_, rfl, h⟩ := hd
  rcases h with ⟨_, _, h⟩ | ⟨y, hy, _, _, rfl⟩
  · exact absurd ⟨r, hs⟩ h
  · rw [hs] at hy
    cases hy
    refine ⟨Dbl.divides b.k (.fin r), ?_⟩
    have hk := b.kPos
    have h1 : r ≠ 0 := hr.ne'
    have h2 : b.k / r ≠ 0 := (div_pos hk hr).ne'
    simp only [Dbl.divides, h1, h2, if_false]
    congr 2
    field_simp

/-- Disagreement with C126: the alias `mapping:rbf` knows the attributes for dead axes, but they change
nothing. -/
theorem C126_alias_ignores_dead (b : Build) (t : Tag) (x y z : Option Bool) (s : State)
    (hk : t.kind = .rbfAlias) (h : mappingTags b .init [t] = .ok s) :
    ∃ s', mappingTags b .init [{ t with xDead := x, yDead := y, zDead := z }] = .ok s' ∧ s'.done = s.done := by
  have hv := (C126_accepts_partial b [t]).mp ⟨s, h⟩ t (by simp)
  have hv' : Valid b { t with xDead := x, yDead := y, zDead := z } :=
    { hv with
      dead := fun _ => by rw [hk]; simp
      alive := fun h => by
        simp only [hk] at h
        simp at h }
  obtain ⟨s', h'⟩ := (C126_accepts_partial b [{ t with xDead := x, yDead := y, zDead := z }]).mpr
    fun u hu => by rw [List.mem_singleton.mp hu]; exact hv'
  refine ⟨s', h', ?_⟩
  have hf := C126_methods_partial b _ _ h
  have hf' := C126_methods_partial b _ _ h'
  generalize s.done = d at hf
  generalize s'.done = d' at hf'
  cases hf with
  | cons a c =>
    cases c
    cases hf' with
    | cons a' c' =>
      cases c'
      rename_i m m'
      obtain ⟨a1, a2, a3⟩ := a
      obtain ⟨b1, b2, b3⟩ := a'
      have : Describes b t m'.method := by
        cases hm : m'.method <;> rw [hm] at b3
        case pum => exact b3
        case ginkgo =>
          rcases b3.2.2.1 with ⟨k, _⟩ | ⟨k, _⟩ <;> rw [hk] at k <;> cases k
        case nearestNeighbor => exact absurd (hk.symm.trans b3) (by simp)
        case nearestProjection => exact absurd (hk.symm.trans b3) (by simp)
        case gradient => exact absurd (hk.symm.trans b3) (by simp)
        case linearCell => exact absurd (hk.symm.trans b3) (by simp)
        all_goals exact absurd (hk.symm.trans b3.1) (by simp)
      have hm := describes_unique this a3
      cases m
      cases m'
      simp only at a1 a2 b1 b2 hm
      rw [a1, a2, b1, b2, hm]

/-- A build without optional dependencies. -/
def plainBuild : Build := ⟨false, false, false, false, false, false, false, 455 / 100, by decide +kernel⟩
/-- A build with everything. -/
def fullBuild : Build := ⟨true, true, true, true, true, true, true, 455 / 100, by decide +kernel⟩

/-- A consistent mapping between meshes in space with given subtags and no attributes. -/
def tag (k : Kind) (l : List Sub) : Tag where
  kind := k
  constraint := .consistent
  jit := false
  dim := 3
  subs := l

/-- Disagreement with C126: with the same subtags the alias and the method it stands for by default have
clusters of different sizes. -/
theorem C126_alias_differs :
    let l := [Sub.basis ⟨.volumeSplines, none, none⟩]
    (mappingTags plainBuild .init [tag .rbfAlias l]).map
        (·.done.map (·.method)) =
      .ok [.pum (.plain .volumeSplines) .separate 100 (.fin (3 / 10)) true .cpu 0 0 true] ∧
    (mappingTags plainBuild .init [tag .rbfPum l]).map
        (·.done.map (·.method)) =
      .ok [.pum (.plain .volumeSplines) .separate 50 (.fin (15 / 100)) true .cpu 0 0 true] := by
  decide +kernel

/-- Disagreement with C126: of several executors the last one counts, without a message. -/
theorem C126_last_executor :
    (mappingTags fullBuild .init [tag .rbfDirect [.basis ⟨.volumeSplines, none, none⟩, .executor ⟨.cuda, some "1".toList, none, none⟩,
          .executor ⟨.cpu, none, none, none⟩]]).map (·.done.map (·.method)) =
      .ok [.direct (.plain .volumeSplines) [false, false, false] .separate] := by
  decide +kernel

/-- Disagreement with C126: a Gaussian of support radius zero is accepted, and is zero everywhere but in
its centre; the other functions refuse this radius. -/
theorem C126_zero_radius :
    (mappingTags plainBuild .init [tag .rbfDirect [.basis ⟨.gaussian, some (.fin 0), none⟩]]).map (·.done.map (·.method)) =
      .ok [.direct (.gaussian .pinf (.fin 0)) [false, false, false] .separate] ∧
    ∀ f ∈ compactFunctions,
      (mappingTags plainBuild .init [tag .rbfDirect [.basis ⟨f, some (.fin 0), none⟩]]).map (·.done.map (·.method)) = .error .check := by
  decide +kernel

/-- Disagreement with C126: a negative number of vertices per cluster is accepted as a huge one. -/
theorem C126_negative_vertices :
    (mappingTags plainBuild .init [{ tag .rbfPum [.basis ⟨.volumeSplines, none, none⟩] with vertices := some (-1) }]).map (·.done.map (·.method)) =
      .ok [.pum (.plain .volumeSplines) .separate 4294967295 (.fin (15 / 100)) true .cpu 0 0 true] := by
  decide +kernel

/-- Disagreement with C126: clusters without vertices and clusters that overlap completely are no errors
of the configuration but assertions, which exist in debug builds only. -/
theorem C126_clusters_asserted :
    (mappingTags plainBuild .init [{ tag .rbfPum [.basis ⟨.volumeSplines, none, none⟩] with vertices := some 0 }]).map (·.done.map (·.method)) =
      .error .assert ∧
    (mappingTags plainBuild .init [{ tag .rbfPum [.basis ⟨.volumeSplines, none, none⟩] with overlap := some (.fin 1) }]).map (·.done.map (·.method)) =
      .error .assert := by
  decide +kernel

/-- Disagreement with C126: multiquadrics have any shape parameter, even none that is a number. -/
theorem C126_any_multiquadrics (b : Build) (c : Dbl) :
    ∃ s, mappingTags b .init [tag .rbfDirect [.basis ⟨.multiquadrics, none, some c⟩]] = .ok s ∧
      s.done.map (·.method) = [.direct (.shaped .multiquadrics c) [false, false, false] .separate] :=
  ⟨_, rfl, rfl⟩

/-- Disagreement with C126: text after the number of a device is ignored. -/
theorem C126_device_text :
    (mappingTags fullBuild .init [tag .rbfDirect [.basis ⟨.volumeSplines, none, none⟩,
          .executor ⟨.cuda, some "1 or 2".toList, none, none⟩]]).map (·.done.map (·.method)) =
      .ok [.ginkgo (.plain .volumeSplines) [false, false, false] .separate none .cuda 1 0] := by
  decide +kernel

/-- Disagreement with C126: coarse graining is accepted for every constraint and also if it is not
just-in-time, although only just-in-time conservative mappings of it are implemented (C100). -/
theorem C126_coarse_graining (b : Build) (c : Constraint) (jit : Bool) (dim : ℕ) (r : ℚ) (hr : 0 < r) :
    ∃ s, mappingTags b .init [{ kind := .coarseGraining, constraint := c, jit := jit, dim := dim, radius := some (.fin r) }] = .ok s := by
  refine (C126_accepts_partial b _).mpr fun t ht => ?_
  rw [List.mem_singleton.mp ht]
  constructor <;> simp [rbfKinds, bases, execs, Dbl.positive, hr]

end Verif.Config.MapMethod
