import Verif.Config.MethodSteps

/-!
# The attributes of a tag of a mapping
-/

set_option autoImplicit false

namespace Verif.Config.MapMethod

open Verif.Config.Scheme (Err)
open Verif.Config.Part (Constraint Kind)

/-- The part of `Valid` about the attributes. -/
structure Attributes (t : Tag) : Prop where
  dead : t.xDead ≠ none ∨ t.yDead ≠ none ∨ t.zDead ≠ none → t.kind ∈ [.rbfDirect, .rbfIterative, .rbfAlias]
  rtol : t.rtol ≠ none → t.kind = .rbfIterative
  polynomial : t.polynomial ≠ none → t.kind ∈ [.rbfDirect, .rbfIterative, .rbfPum]
  clusters : t.vertices ≠ none ∨ t.overlap ≠ none ∨ t.project ≠ none → t.kind = .rbfPum
  radius : t.radius ≠ none → t.kind = .coarseGraining
  profile : t.msProfile ≠ none ∨ t.msSection ≠ none → t.kind = .axial
  dimension : t.msDimension ≠ none ↔ t.kind = .axial
  type : t.msType ≠ none ↔ t.kind ∈ [.axial, .radial]
  axis : t.msAxis ≠ none ↔ t.kind ∈ [.axial, .radial]
  msRadius : t.msRadius ≠ none ↔ t.kind ∈ [.axial, .radial]
  integrated : t.polynomial = some .on → t.kind ≠ .rbfPum

/-- The values of the attributes. -/
def rbfOf (t : Tag) : Rbf :=
  configureRbf t.kind (t.polynomial.getD .separate) (t.xDead.getD false, t.yDead.getD false, t.zDead.getD false)
    (t.rtol.getD (.fin (1 / 1000000000))) (t.vertices.getD (if t.kind = .rbfPum then 50 else 100))
    (t.overlap.getD (if t.kind = .rbfPum then .fin (15 / 100) else .fin (3 / 10))) (t.project.getD true)

/-- The mapping before its subtags. -/
def createOf (t : Tag) : Except Err (Option Method) :=
  createMapping t.kind t.constraint (t.radius.getD (.fin 0)) t.msDimension t.msType t.msAxis
    (t.msRadius.getD (.fin 1)) (if t.kind = .axial then some (t.msProfile.getD .uniform) else none)
    (if t.kind = .axial then some (t.msSection.getD .circle) else none)

theorem polynomialOption_ok {k : Kind} {p : Option Poly} {u : Unit} :
    polynomialOption k p = .ok u ↔ (p = some .on → k ≠ .rbfPum) := by
  cases p with
  | none => simp [polynomialOption]
  | some p => cases p <;> simp [polynomialOption]

theorem getD_map_some {α : Type} (o : Option α) : (o.map some).getD none = o := by cases o <;> rfl

theorem hasDead_iff {k : Kind} : hasDead k = true ↔ k ∈ [Kind.rbfDirect, .rbfIterative, .rbfAlias] := by
  cases k <;> decide

theorem hasPolynomial_iff {k : Kind} : hasPolynomial k = true ↔ k ∈ [Kind.rbfDirect, .rbfIterative, .rbfPum] := by
  cases k <;> decide

theorem isMultiscale_iff {k : Kind} :
    (decide (k = .axial) || decide (k = .radial)) = true ↔ k ∈ [Kind.axial, .radial] := by
  cases k <;> decide

theorem getD_axial {α : Type} {o : Option α} {p : Prop} [Decidable p] {d : α} (h : ¬ o = none → p) :
    (o.map some).getD (if p then some d else none) = if p then some (o.getD d) else none := by
  cases o with
  | none => simp
  | some v => simp [h (by simp)]

theorem openTag_iff (s s' : State) (t : Tag) :
    openTag s t = .ok s' ↔ Attributes t ∧ ∃ m, createOf t = .ok m ∧
      s' = { s with current := some (t.kind, t.dim, t.jit, m), constraint := t.constraint, rbf := rbfOf t } := by
  unfold openTag
  simp only [bind_ok, attr_default, attr_required, polynomialOption_ok, and_assoc, exists_and_left,
    exists_eq_left, getD_map_some, ite_self, Option.map_eq_none_iff, ne_eq, hasDead_iff, hasPolynomial_iff,
    isMultiscale_iff, decide_eq_true_eq]
  constructor
  · rintro ⟨h1, h2, h3, h4, h5, h6, h7, h8, h9, h10, h11, h12, h13, h14, h15, h16, _, m, hm, hs⟩
    rw [getD_axial h12, getD_axial h13] at hm
    refine ⟨⟨?_, h5, h7, ?_, h4, ?_, h8, h9, h10, h11, h6⟩, m, hm, ?_⟩
    · rintro (h | h | h)
      · exact h1 h
      · exact h2 h
      · exact h3 h
    · rintro (h | h | h)
      · exact h14 h
      · exact h15 h
      · exact h16 h
    · rintro (h | h)
      · exact h12 h
      · exact h13 h
    · cases hs
      rfl
  · rintro ⟨h, m, hm, rfl⟩
    refine ⟨fun x => h.dead (.inl x), fun x => h.dead (.inr (.inl x)), fun x => h.dead (.inr (.inr x)),
      h.radius, h.rtol, h.integrated, h.polynomial, h.dimension, h.type, h.axis, h.msRadius,
      fun x => h.profile (.inl x), fun x => h.profile (.inr x), fun x => h.clusters (.inl x),
      fun x => h.clusters (.inr (.inl x)), fun x => h.clusters (.inr (.inr x)), (), m, ?_, rfl⟩
    rw [getD_axial fun x => h.profile (.inl x), getD_axial fun x => h.profile (.inr x)]
    exact hm

theorem bases_none {l : List Sub} (h : bases l = []) (h' : execs l = []) : l = [] := by
  cases l with
  | nil => rfl
  | cons x r => cases x <;> simp [bases, execs] at h h'

/-- The names of the subtags are different. -/
theorem names_nodup (l : List Sub) : (l.map Sub.name).Nodup ↔
    ((bases l).map (·.function)).Nodup ∧ ((execs l).map (·.executor)).Nodup := by
  induction l with
  | nil => simp [bases, execs]
  | cons x r ih =>
    cases x with
    | basis t =>
      have e1 : bases (.basis t :: r) = t :: bases r := rfl
      have e2 : execs (.basis t :: r) = execs r := rfl
      rw [e1, e2, List.map_cons, List.nodup_cons, ih, List.map_cons, List.nodup_cons, and_assoc]
      refine and_congr_left fun _ => not_congr ?_
      simp only [List.mem_map, bases, List.mem_filterMap]
      constructor
      · rintro ⟨y, hy, h⟩
        cases y with
        | basis y => exact ⟨y, ⟨_, hy, rfl⟩, by simpa [Sub.name] using h⟩
        | executor y => simp [Sub.name] at h
      · rintro ⟨y, ⟨z, hz, h⟩, h'⟩
        cases z with
        | basis z => cases h; exact ⟨_, hz, by simpa [Sub.name] using h'⟩
        | executor z => cases h
    | executor t =>
      have e1 : bases (.executor t :: r) = bases r := rfl
      have e2 : execs (.executor t :: r) = t :: execs r := rfl
      rw [e1, e2, List.map_cons, List.nodup_cons, ih, List.map_cons, List.nodup_cons, and_left_comm]
      refine and_congr_right fun _ => and_congr_left fun _ => not_congr ?_
      simp only [List.mem_map, execs, List.mem_filterMap]
      constructor
      · rintro ⟨y, hy, h⟩
        cases y with
        | executor y => exact ⟨y, ⟨_, hy, rfl⟩, by simpa [Sub.name] using h⟩
        | basis y => simp [Sub.name] at h
      · rintro ⟨y, ⟨z, hz, h⟩, h'⟩
        cases z with
        | executor z => cases h; exact ⟨_, hz, by simpa [Sub.name] using h'⟩
        | basis z => cases h

end Verif.Config.MapMethod
