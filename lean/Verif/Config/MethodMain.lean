import Verif.Config.MethodOpen
import Mathlib.Tactic.Tauto

/-!
# The method made of a tag
-/

set_option autoImplicit false

namespace Verif.Config.MapMethod

open Verif.Config.Scheme (Err)
open Verif.Config.Part (Constraint Kind)

theorem deadAxes_ok {dim : ℕ} {d : Bool × Bool × Bool} {l : List Bool} :
    deadAxes dim d = .ok l ↔ false ∈ [d.1, d.2.1, d.2.2].take dim ∧ l = [d.1, d.2.1, d.2.2].take dim := by
  unfold deadAxes
  simp only
  rw [ite_ok]
  have : (List.take dim [d.1, d.2.1, d.2.2]).any (fun a => decide (a = false)) = true ↔
      false ∈ List.take dim [d.1, d.2.1, d.2.2] := by
    simp only [List.any_eq_true, decide_eq_true_eq]
    constructor
    · rintro ⟨x, hx, rfl⟩; exact hx
    · intro h; exact ⟨false, h, rfl⟩
  rw [this]
  exact and_congr_right fun _ => eq_comm

theorem makePum_ok {g : Basis} {p : Poly} {v : ℕ} {o : Dbl} {pr : Bool} {e : Executor} {d th : ℕ} {off : Bool}
    {m : Method} : makePum g p v o pr e d th off = .ok m ↔
      p ≠ .on ∧ o.belowOne = true ∧ v ≠ 0 ∧ m = .pum g p v o pr e d th off := by
  unfold makePum
  split_ifs with h1 h2 h3
  · simp [h1]
  · simp [h2]
  · simp [h3]
  · simp only [Except.ok.injEq]
    constructor
    · rintro rfl; exact ⟨h1, by simpa using h2, h3, rfl⟩
    · rintro ⟨_, _, _, rfl⟩; rfl

/-- What is known of the executor when a tag is closed. -/
structure ExecIs (t : Tag) (e : Exec) : Prop where
  executor : e.executor = (executorOf t).executor
  device : toUnsigned e.device = deviceOf (executorOf t)
  threads : e.threads = (executorOf t).threads.getD 0
  onlyOmp : e.executor ≠ .omp → e.threads = 0
  offline : t.kind = .rbfPum → e.executor ≠ .cpu → e.offline = (executorOf t).compute.getD false

theorem deviceOf_eq {e : ExecutorTag} {v : ℤ} (h : deviceId (e.device.getD "0".toList) = .ok v) :
    toUnsigned v = deviceOf e := by
  unfold deviceOf
  cases hd : e.device with
  | none =>
    rw [hd, Option.getD_none, deviceId_zero] at h
    cases h
    rfl
  | some l =>
    rw [hd, Option.getD_some] at h
    simp only [h]

theorem exec_is {t : Tag} {o : Option Exec} (h : execAfter t.kind none o (execs t.subs)) :
    (∀ e ∈ execs t.subs, ExecutorOk t.kind e) ∧ ExecIs t (o.getD {}) := by
  rw [execAfter_iff] at h
  obtain ⟨h1, h2⟩ := h
  refine ⟨h1, ?_⟩
  cases hl : (execs t.subs).getLast? with
  | none =>
    rw [hl] at h2
    have h2 : o = none := h2
    subst h2
    have he : executorOf t = ⟨.cpu, none, none, none⟩ := by unfold executorOf; rw [hl]; rfl
    exact ⟨by rw [he]; rfl, by rw [he]; rfl, by rw [he]; rfl, fun _ => rfl, fun _ h => absurd rfl h⟩
  | some x =>
    rw [hl] at h2
    obtain ⟨y, hy, rfl⟩ := h2
    have hm : x ∈ execs t.subs := List.mem_of_getLast? hl
    have he : executorOf t = x := by unfold executorOf; rw [hl]; rfl
    have hk := h1 x hm
    obtain ⟨_, a1, a2, a3, a4⟩ := (readExec_iff t.kind x y).mp ⟨(knows_iff _ _).mpr hk.known, hy⟩
    refine ⟨by rw [he]; exact a1, by rw [he]; exact deviceOf_eq a2, by rw [he]; exact a3, ?_, ?_⟩
    · intro hn
      have hn : y.executor ≠ .omp := hn
      show y.threads = 0
      rw [a3]
      cases ht : x.threads with
      | none => rfl
      | some v => exact absurd (a1.trans (hk.threads (by rw [ht]; simp))) hn
    · intro hp hc
      have hc : y.executor ≠ .cpu := hc
      show y.offline = _
      rw [he, a4, if_pos ⟨hp, by rw [← a1]; exact hc⟩]

theorem exec_exists {t : Tag} (h : ∀ e ∈ execs t.subs, ExecutorOk t.kind e) :
    ∃ o, execAfter t.kind none o (execs t.subs) := by
  cases hl : (execs t.subs).getLast? with
  | none =>
    refine ⟨none, (execAfter_iff _ _ _ _).mpr ⟨h, ?_⟩⟩
    rw [hl]
  | some x =>
    have hk := h x (List.mem_of_getLast? hl)
    have : ∃ v, deviceId (x.device.getD "0".toList) = .ok v := by
      cases hd : x.device with
      | none => exact ⟨0, deviceId_zero⟩
      | some d => exact (hk.device d hd).2
    obtain ⟨v, hv⟩ := this
    have := (readExec_iff t.kind x ⟨_, v, _, _⟩).mpr ⟨hk, rfl, hv, rfl, rfl⟩
    obtain ⟨y, hy⟩ : ∃ y, readExec t.kind x = .ok y := ⟨_, this.2⟩
    refine ⟨some y, (execAfter_iff _ _ _ _).mpr ⟨h, ?_⟩⟩
    rw [hl]
    exact ⟨y, hy, rfl⟩

/-- The part of `Valid` about the backends. -/
structure Backend (b : Build) (t : Tag) : Prop where
  alive : t.kind ∈ [.rbfDirect, .rbfIterative] → false ∈ deadOf t
  overlap : t.kind = .rbfPum → (t.overlap.getD (.fin (15 / 100))).belowOne = true
  vertices : t.kind = .rbfPum → toUnsigned (t.vertices.getD 50) ≠ 0
  available : t.kind ∈ rbfKinds → Available b t.kind (executorOf t).executor
  jit : t.kind = .rbfPum → (executorOf t).executor ≠ .cpu → t.jit = false

theorem threads_eq {t : Tag} {e : Exec} (he : ExecIs t e) :
    (if e.executor = .omp then toUnsigned e.threads else 0) = toUnsigned ((executorOf t).threads.getD 0) := by
  rw [← he.threads]
  split_ifs with h
  · rfl
  · rw [he.onlyOmp h]; rfl

theorem ite_err {α : Type} {c : Bool} {x : Except Err α} {y : α} {e : Err} :
    (if c = true then x else Except.error e) = Except.ok y ↔ c = true ∧ x = .ok y := by
  cases c <;> simp

theorem err_ite {α : Type} {c : Bool} {x : Except Err α} {y : α} {e : Err} :
    (if c = true then Except.error e else x) = Except.ok y ↔ c = false ∧ x = .ok y := by
  cases c <;> simp

theorem err_ite_false {α : Type} {c : Bool} {x : Except Err α} {y : α} {e : Err} :
    (if c = false then Except.error e else x) = Except.ok y ↔ c = true ∧ x = .ok y := by
  cases c <;> simp

theorem ok_eq {α : Type} {x y : α} : (Except.ok x : Except Err α) = .ok y ↔ y = x := by
  rw [Except.ok.injEq, eq_comm]

/-- `finishRBFConfiguration` of the values of a tag. -/
theorem finishRbf_eq (b : Build) (t : Tag) (e : Exec) (v : Function × Dbl × Dbl) (m : Method)
    (ha : Attributes t) (hk : t.kind ∈ rbfKinds) (he : ExecIs t e)
    (hkn : t.kind = .rbfAlias → e.executor = .cpu) :
    finishRbf b { rbfOf t with basis := some v } e t.dim t.jit = .ok m ↔
      ∃ g, constructRbf b v.1 v.2.1 v.2.2 = .ok g ∧ Backend b t ∧
        (t.kind = .rbfDirect ∧ e.executor = .cpu ∧ m = .direct g (deadOf t) (t.polynomial.getD .separate) ∨
         t.kind = .rbfIterative ∧ e.executor = .cpu ∧
          m = .petsc g (deadOf t) (t.polynomial.getD .separate) (t.rtol.getD (.fin (1 / 1000000000))) ∨
         t.kind = .rbfDirect ∧ e.executor ≠ .cpu ∧
          m = .ginkgo g (deadOf t) (t.polynomial.getD .separate) none e.executor (deviceOf (executorOf t))
            (toUnsigned ((executorOf t).threads.getD 0)) ∨
         t.kind = .rbfIterative ∧ e.executor ≠ .cpu ∧
          m = .ginkgo g (deadOf t) (t.polynomial.getD .separate) (some (t.rtol.getD (.fin (1 / 1000000000))))
            e.executor (deviceOf (executorOf t)) (toUnsigned ((executorOf t).threads.getD 0)) ∨
         t.kind = .rbfAlias ∧ e.executor = .cpu ∧ m = .pum g .separate 100 (.fin (3 / 10)) true .cpu 0 0 true ∨
         t.kind = .rbfPum ∧ e.executor = .cpu ∧
          m = .pum g (t.polynomial.getD .separate) (toUnsigned (t.vertices.getD 50))
            (t.overlap.getD (.fin (15 / 100))) (t.project.getD true) .cpu 0 0 true ∨
         t.kind = .rbfPum ∧ e.executor ≠ .cpu ∧
          m = .pum g (t.polynomial.getD .separate) (toUnsigned (t.vertices.getD 50))
            (t.overlap.getD (.fin (15 / 100))) (t.project.getD true) e.executor (deviceOf (executorOf t))
            (toUnsigned ((executorOf t).threads.getD 0)) ((executorOf t).compute.getD false)) := by
  have hd : List.take t.dim [t.xDead.getD false, t.yDead.getD false, t.zDead.getD false] = deadOf t := rfl
  have hth := threads_eq he
  have hex := he.executor
  have hdv := he.device
  have hoff := he.offline
  simp only [rbfKinds, List.mem_cons, List.not_mem_nil, or_false] at hk
  obtain ⟨f, r, c⟩ := v
  by_cases hc : e.executor = .cpu
  · have hcx : (executorOf t).executor = .cpu := hex.symm.trans hc
    rcases hk with h | h | h | h
    · have : Backend b t ↔ (t.overlap.getD (.fin (15 / 100))).belowOne = true ∧ toUnsigned (t.vertices.getD 50) ≠ 0 := by
        constructor
        · intro hb; exact ⟨hb.overlap h, hb.vertices h⟩
        · rintro ⟨h1, h2⟩
          refine ⟨by rw [h]; simp, fun _ => h1, fun _ => h2, fun _ => ?_, fun _ hn => absurd hcx hn⟩
          rw [hcx]
          exact ⟨rfl, by simp [h]⟩
      have hp : t.polynomial.getD .separate ≠ .on := by
        cases hpp : t.polynomial with
        | none => simp
        | some p => intro hpo; exact ha.integrated (by rw [hpp, ← hpo]; rfl) h
      simp [finishRbf, rbfOf, configureRbf, h, hc, bind_ok, -Except.ok.injEq, makePum_ok, this, hp, and_assoc]
    · have : Backend b t ↔ false ∈ deadOf t := by
        constructor
        · intro hb; exact hb.alive (by rw [h]; simp)
        · intro h1
          refine ⟨fun _ => h1, by rw [h]; simp, by rw [h]; simp, fun _ => ?_, by rw [h]; simp⟩
          rw [hcx]
          exact ⟨rfl, by simp [h]⟩
      simp [finishRbf, rbfOf, configureRbf, h, hc, bind_ok, -Except.ok.injEq, deadAxes_ok, this, and_assoc, hd, ok_eq]
    · have : Backend b t ↔ false ∈ deadOf t ∧ b.petsc = true := by
        constructor
        · intro hb
          refine ⟨hb.alive (by rw [h]; simp), ?_⟩
          have := (hb.available (by rw [h]; simp [rbfKinds])).2
          rw [hcx] at this
          exact this h
        · rintro ⟨h1, h2⟩
          refine ⟨fun _ => h1, by rw [h]; simp, by rw [h]; simp, fun _ => ?_, by rw [h]; simp⟩
          rw [hcx]
          exact ⟨rfl, by simp [h2]⟩
      simp [finishRbf, rbfOf, configureRbf, h, hc, bind_ok, -Except.ok.injEq, deadAxes_ok, this, and_assoc, hd, ok_eq, ite_err]
      constructor
      · rintro ⟨h1, g, h2, h3, h4⟩; exact ⟨g, h2, h3, h1, h4⟩
      · rintro ⟨g, h2, h3, h1, h4⟩; exact ⟨h1, g, h2, h3, h4⟩
    · have : Backend b t := by
        refine ⟨by rw [h]; simp, by rw [h]; simp, by rw [h]; simp, fun _ => ?_, by rw [h]; simp⟩
        rw [hcx]
        exact ⟨rfl, by simp [h]⟩
      have n1 : t.polynomial = none := by
        by_contra hn
        have := ha.polynomial hn
        rw [h] at this
        simp at this
      have n2 : t.vertices = none ∧ t.overlap = none ∧ t.project = none := by
        refine ⟨?_, ?_, ?_⟩ <;> by_contra hn
        · have := ha.clusters (.inl hn); rw [h] at this; cases this
        · have := ha.clusters (.inr (.inl hn)); rw [h] at this; cases this
        · have := ha.clusters (.inr (.inr hn)); rw [h] at this; cases this
      simp [finishRbf, rbfOf, configureRbf, h, hc, bind_ok, -Except.ok.injEq, makePum_ok, this, n1, n2.1, n2.2.1, n2.2.2,
        Dbl.belowOne, toUnsigned]
      norm_num
  · have hcx : (executorOf t).executor ≠ .cpu := fun hh => hc (hex.trans hh)
    rcases hk with h | h | h | h
    · have : Backend b t ↔ (t.overlap.getD (.fin (15 / 100))).belowOne = true ∧ toUnsigned (t.vertices.getD 50) ≠ 0 ∧
          b.device e.executor = true ∧ b.kokkosKernels = true ∧ t.jit = false := by
        constructor
        · intro hb
          have := hb.available (by rw [h]; simp [rbfKinds])
          rw [← hex] at this
          obtain ⟨h3, h4⟩ := this
          rw [if_neg hc, if_pos h] at h4
          exact ⟨hb.overlap h, hb.vertices h, h3, h4, hb.jit h hcx⟩
        · rintro ⟨h1, h2, h3, h4, h5⟩
          refine ⟨by rw [h]; simp, fun _ => h1, fun _ => h2, fun _ => ?_, fun _ _ => h5⟩
          rw [← hex]
          refine ⟨h3, ?_⟩
          rw [if_neg hc, if_pos h]
          exact h4
      have hp : t.polynomial.getD .separate ≠ .on := by
        cases hpp : t.polynomial with
        | none => simp
        | some p => intro hpo; exact ha.integrated (by rw [hpp, ← hpo]; rfl) h
      have hoff := hoff h hc
      simp [finishRbf, rbfOf, configureRbf, h, hc, bind_ok, -Except.ok.injEq, makePum_ok, this, hp, and_assoc, hth, hdv, hoff, ite_err, err_ite, err_ite_false]
      constructor
      · rintro ⟨h1, h1', h1'', g, h2, h3, h4, h5⟩; exact ⟨g, h2, h3, h4, h1, h1', h1'', h5⟩
      · rintro ⟨g, h2, h3, h4, h1, h1', h1'', h5⟩; exact ⟨h1, h1', h1'', g, h2, h3, h4, h5⟩
    · have : Backend b t ↔ false ∈ deadOf t ∧ b.device e.executor = true ∧ b.ginkgo = true := by
        constructor
        · intro hb
          have := hb.available (by rw [h]; simp [rbfKinds])
          rw [← hex] at this
          obtain ⟨h3, h4⟩ := this
          rw [if_neg hc, if_neg (by rw [h]; simp)] at h4
          exact ⟨hb.alive (by rw [h]; simp), h3, h4⟩
        · rintro ⟨h1, h3, h4⟩
          refine ⟨fun _ => h1, by rw [h]; simp, by rw [h]; simp, fun _ => ?_, by rw [h]; simp⟩
          rw [← hex]
          refine ⟨h3, ?_⟩
          rw [if_neg hc, if_neg (by rw [h]; simp)]
          exact h4
      simp [finishRbf, rbfOf, configureRbf, h, hc, bind_ok, -Except.ok.injEq, deadAxes_ok, this, and_assoc, hd, ok_eq, hth, hdv, ite_err, err_ite_false]
      constructor
      · rintro ⟨h1, h1', g, h2, h3, h4⟩; exact ⟨g, h2, h3, h1, h1', h4⟩
      · rintro ⟨g, h2, h3, h1, h1', h4⟩; exact ⟨h1, h1', g, h2, h3, h4⟩
    · have : Backend b t ↔ false ∈ deadOf t ∧ b.device e.executor = true ∧ b.ginkgo = true := by
        constructor
        · intro hb
          have := hb.available (by rw [h]; simp [rbfKinds])
          rw [← hex] at this
          obtain ⟨h3, h4⟩ := this
          rw [if_neg hc, if_neg (by rw [h]; simp)] at h4
          exact ⟨hb.alive (by rw [h]; simp), h3, h4⟩
        · rintro ⟨h1, h3, h4⟩
          refine ⟨fun _ => h1, by rw [h]; simp, by rw [h]; simp, fun _ => ?_, by rw [h]; simp⟩
          rw [← hex]
          refine ⟨h3, ?_⟩
          rw [if_neg hc, if_neg (by rw [h]; simp)]
          exact h4
      simp [finishRbf, rbfOf, configureRbf, h, hc, bind_ok, -Except.ok.injEq, deadAxes_ok, this, and_assoc, hd, ok_eq, hth, hdv, ite_err, err_ite_false]
      constructor
      · rintro ⟨h1, h1', g, h2, h3, h4⟩; exact ⟨g, h2, h3, h1, h1', h4⟩
      · rintro ⟨g, h2, h3, h1, h1', h4⟩; exact ⟨h1, h1', g, h2, h3, h4⟩
    · exact absurd (hkn h) hc

theorem finish_describes {b : Build} {t : Tag} {e : Exec} {x : BasisTag} {v : Function × Dbl × Dbl} {m : Method}
    (ha : Attributes t) (hk : t.kind ∈ rbfKinds) (he : ExecIs t e) (hx : bases t.subs = [x])
    (hv : readBasis b x = .ok v) (hkn : t.kind = .rbfAlias → e.executor = .cpu)
    (h : finishRbf b { rbfOf t with basis := some v } e t.dim t.jit = .ok m) : Describes b t m := by
  obtain ⟨g, hg, _, h⟩ := (finishRbf_eq b t e v m ha hk he hkn).mp h
  have hd := ((basis_iff b x g).mp ⟨v, hv, hg⟩).2.1
  have hex := he.executor
  rcases h with ⟨h1, h2, rfl⟩ | ⟨h1, h2, rfl⟩ | ⟨h1, h2, rfl⟩ | ⟨h1, h2, rfl⟩ | ⟨h1, h2, rfl⟩ | ⟨h1, h2, rfl⟩ |
    ⟨h1, h2, rfl⟩
  · exact ⟨h1, hex.symm.trans h2, ⟨x, hx, hd⟩, rfl, rfl⟩
  · exact ⟨h1, hex.symm.trans h2, ⟨x, hx, hd⟩, rfl, rfl, rfl⟩
  · exact ⟨hex.symm, h2, .inl ⟨h1, rfl⟩, ⟨x, hx, hd⟩, rfl, rfl, rfl, rfl⟩
  · exact ⟨hex.symm, h2, .inr ⟨h1, rfl⟩, ⟨x, hx, hd⟩, rfl, rfl, rfl, rfl⟩
  · exact ⟨⟨x, hx, hd⟩, hex.symm.trans h2, fun _ => ⟨rfl, rfl, rfl⟩, .inr ⟨h1, rfl, rfl, rfl, rfl, rfl⟩⟩
  · exact ⟨⟨x, hx, hd⟩, hex.symm.trans h2, fun _ => ⟨rfl, rfl, rfl⟩, .inl ⟨h1, rfl, rfl, rfl, rfl, fun h => absurd rfl h⟩⟩
  · exact ⟨⟨x, hx, hd⟩, hex.symm, fun e => absurd e h2, .inl ⟨h1, rfl, rfl, rfl, rfl, fun _ => ⟨rfl, rfl, rfl⟩⟩⟩

theorem requires_iff {k : Kind} : requiresBasis k = true ↔ k ∈ rbfKinds := by
  cases k <;> decide

theorem create_rbf {t : Tag} (h : t.kind ∈ rbfKinds) : createOf t = .ok none := by
  simp only [rbfKinds, List.mem_cons, List.not_mem_nil, or_false] at h
  unfold createOf
  rcases h with h | h | h | h <;> rw [h] <;> rfl

theorem rbfOf_basis (t : Tag) : (rbfOf t).basis = none := rfl

/-- The part of `Valid` about the methods without basis functions. -/
structure Plain (t : Tag) : Prop where
  projection : t.kind = .nearestProjection → t.constraint ≠ .scaledVolume
  cell : t.kind = .linearCell → t.constraint ≠ .scaledSurface
  conservative : t.kind ∈ [.gradient, .axial, .radial] → t.constraint ≠ .conservative
  coarse : t.kind = .coarseGraining → ∃ r, t.radius = some r ∧ r.positive = true

theorem create_plain (b : Build) {t : Tag} (ha : Attributes t) (h : t.kind ∉ rbfKinds) :
    (∀ m, createOf t = .ok m → Plain t ∧ ∃ m', m = some m' ∧ Describes b t m') ∧
      (Plain t → ∃ m, createOf t = .ok (some m)) := by
  have hms : t.kind ∈ [Kind.axial, .radial] → ∃ ty a r, t.msType = some ty ∧ t.msAxis = some a ∧ t.msRadius = some r := by
    intro hk
    obtain ⟨ty, h1⟩ := Option.ne_none_iff_exists'.mp (ha.type.mpr hk)
    obtain ⟨a, h2⟩ := Option.ne_none_iff_exists'.mp (ha.axis.mpr hk)
    obtain ⟨r, h3⟩ := Option.ne_none_iff_exists'.mp (ha.msRadius.mpr hk)
    exact ⟨ty, a, r, h1, h2, h3⟩
  cases hk : t.kind <;> rw [hk] at h <;> first | (exfalso; apply h; simp [rbfKinds]; done) | skip
  case nearestNeighbor =>
    have e : createOf t = .ok (some .nearestNeighbor) := by unfold createOf; rw [hk]; rfl
    rw [e]
    refine ⟨fun m hm => ?_, fun _ => ⟨_, rfl⟩⟩
    cases hm
    exact ⟨⟨by rw [hk]; simp, by rw [hk]; simp, by rw [hk]; simp, by rw [hk]; simp⟩, _, rfl, hk⟩
  case nearestProjection =>
    have e : createOf t = if t.constraint = .scaledVolume then .error .check else .ok (some .nearestProjection) := by
      unfold createOf; rw [hk]; rfl
    rw [e]
    refine ⟨fun m hm => ?_, fun hp => ⟨_, if_neg (hp.projection hk)⟩⟩
    by_cases hc : t.constraint = .scaledVolume
    · rw [if_pos hc] at hm; cases hm
    · rw [if_neg hc] at hm
      cases hm
      exact ⟨⟨fun _ => hc, by rw [hk]; simp, by rw [hk]; simp, by rw [hk]; simp⟩, _, rfl, hk⟩
  case linearCell =>
    have e : createOf t = if t.constraint = .scaledSurface then .error .check else .ok (some .linearCell) := by
      unfold createOf; rw [hk]; rfl
    rw [e]
    refine ⟨fun m hm => ?_, fun hp => ⟨_, if_neg (hp.cell hk)⟩⟩
    by_cases hc : t.constraint = .scaledSurface
    · rw [if_pos hc] at hm; cases hm
    · rw [if_neg hc] at hm
      cases hm
      exact ⟨⟨by rw [hk]; simp, fun _ => hc, by rw [hk]; simp, by rw [hk]; simp⟩, _, rfl, hk⟩
  case coarseGraining =>
    have e : createOf t = if (t.radius.getD (.fin 0)).positive then .ok (some (.coarseGraining (t.radius.getD (.fin 0))))
        else .error .check := by
      unfold createOf; rw [hk]; rfl
    rw [e]
    constructor
    · intro m hm
      by_cases hc : (t.radius.getD (.fin 0)).positive = true
      · rw [if_pos hc] at hm
        cases hm
        have hr : ∃ r, t.radius = some r ∧ r.positive = true := by
          cases hr : t.radius with
          | none => rw [hr] at hc; exact absurd hc (by simp [Dbl.positive])
          | some r => rw [hr] at hc; exact ⟨r, rfl, hc⟩
        refine ⟨⟨by rw [hk]; simp, by rw [hk]; simp, by rw [hk]; simp, fun _ => hr⟩, _, rfl, hk, ?_⟩
        obtain ⟨r, hr, _⟩ := hr
        rw [hr]; rfl
      · rw [if_neg hc] at hm; cases hm
    · intro hp
      obtain ⟨r, hr, hpos⟩ := hp.coarse hk
      rw [hr]
      exact ⟨_, if_pos hpos⟩
  case gradient =>
    have e : createOf t = if t.constraint = .conservative then .error .check else .ok (some .gradient) := by
      unfold createOf; rw [hk]; rfl
    rw [e]
    refine ⟨fun m hm => ?_, fun hp => ⟨_, if_neg (hp.conservative (by rw [hk]; simp))⟩⟩
    by_cases hc : t.constraint = .conservative
    · rw [if_pos hc] at hm; cases hm
    · rw [if_neg hc] at hm
      cases hm
      exact ⟨⟨by rw [hk]; simp, by rw [hk]; simp, fun _ => hc, by rw [hk]; simp⟩, _, rfl, hk⟩
  case axial =>
    obtain ⟨ty, a, r, h1, h2, h3⟩ := hms (by rw [hk]; simp)
    obtain ⟨d, h4⟩ := Option.ne_none_iff_exists'.mp (ha.dimension.mpr hk)
    have e : createOf t = if t.constraint = .conservative then .error .check else
        .ok (some (.axial d ty a r (t.msProfile.getD .uniform) (t.msSection.getD .circle))) := by
      unfold createOf; rw [hk, h1, h2, h3, h4]; rfl
    rw [e]
    refine ⟨fun m hm => ?_, fun hp => ⟨_, if_neg (hp.conservative (by rw [hk]; simp))⟩⟩
    by_cases hc : t.constraint = .conservative
    · rw [if_pos hc] at hm; cases hm
    · rw [if_neg hc] at hm
      cases hm
      exact ⟨⟨by rw [hk]; simp, by rw [hk]; simp, fun _ => hc, by rw [hk]; simp⟩, _, rfl,
        hk, h4, h1, h2, h3, rfl, rfl⟩
  case radial =>
    obtain ⟨ty, a, r, h1, h2, h3⟩ := hms (by rw [hk]; simp)
    have e : createOf t = if t.constraint = .conservative then .error .check else .ok (some (.radial ty a)) := by
      unfold createOf; rw [hk, h1, h2, h3]; rfl
    rw [e]
    refine ⟨fun m hm => ?_, fun hp => ⟨_, if_neg (hp.conservative (by rw [hk]; simp))⟩⟩
    by_cases hc : t.constraint = .conservative
    · rw [if_pos hc] at hm; cases hm
    · rw [if_neg hc] at hm
      cases hm
      exact ⟨⟨by rw [hk]; simp, by rw [hk]; simp, fun _ => hc, by rw [hk]; simp⟩, _, rfl, hk, h1, h2⟩

/-- Mappings without basis functions have no subtags. -/
theorem subTags_plain (b : Build) {kind : Kind} {dim : ℕ} {jit : Bool} {m : Option Method}
    (hk : kind ∉ rbfKinds) (l : List Sub) (s s' : State) (hc : s.current = some (kind, dim, jit, m)) :
    subTags b s l = .ok s' ↔ l = [] ∧ s' = s := by
  cases l with
  | nil => simp [subTags, eq_comm]
  | cons x r =>
    simp only [subTags, bind_ok, reduceCtorEq, false_and, iff_false, not_exists, not_and]
    intro y hy
    cases x with
    | basis x =>
      have hr : requiresBasis kind = false := by
        cases h : requiresBasis kind with
        | false => rfl
        | true => exact absurd (requires_iff.mp h) hk
      simp [subTag, basisTag, hc, hr] at hy
    | executor x =>
      have hr : knowsExecutor kind x.executor = false := by
        cases h : knowsExecutor kind x.executor with
        | false => rfl
        | true =>
          exfalso
          apply hk
          rcases (knows_iff _ _).mp h with ⟨h, _⟩ | ⟨h, _⟩ | h <;> rw [h] <;> simp [rbfKinds]
      simp [subTag, executorTag, hc, hr] at hy

theorem valid_iff (b : Build) (t : Tag) : Valid b t ↔ Attributes t ∧ Plain t ∧ Backend b t ∧
    (t.subs ≠ [] → t.kind ∈ rbfKinds) ∧
    (((bases t.subs).map (·.function)).Nodup ∧ ((execs t.subs).map (·.executor)).Nodup) ∧
    (∀ e ∈ execs t.subs, ExecutorOk t.kind e) ∧
    (t.kind ∈ rbfKinds → ∃ x g, bases t.subs = [x] ∧ BasisAttributes x ∧ DescribesBasis b x g ∧ Sensible g) := by
  constructor
  · intro h
    exact ⟨⟨h.dead, h.rtol, h.polynomial, h.clusters, h.radius, h.profile, h.dimension, h.type, h.axis,
      h.msRadius, h.integrated⟩, ⟨h.projection, h.cell, h.conservative, h.coarse⟩,
      ⟨h.alive, h.overlap, h.vertices, h.available, h.jit⟩, h.subs, h.once, h.executors, h.basis⟩
  · rintro ⟨a, p, c, h1, h2, h3, h4⟩
    exact ⟨a.dead, a.rtol, a.polynomial, a.clusters, a.radius, a.profile, a.dimension, a.type, a.axis,
      a.msRadius, h1, h2, h3, a.integrated, p.projection, p.cell, p.conservative, p.coarse, h4, c.alive,
      c.overlap, c.vertices, c.available, c.jit⟩

theorem plain_backend {b : Build} {t : Tag} (h : t.kind ∉ rbfKinds) : Backend b t := by
  have hn : ∀ k ∈ rbfKinds, t.kind ≠ k := fun k hk e => h (e ▸ hk)
  have h1 := hn .rbfPum (by simp [rbfKinds])
  refine ⟨fun hm => ?_, fun e => absurd e h1, fun e => absurd e h1, fun e => absurd e h, fun e => absurd e h1⟩
  simp only [List.mem_cons, List.not_mem_nil, or_false] at hm
  rcases hm with e | e
  · exact absurd e (hn _ (by simp [rbfKinds]))
  · exact absurd e (hn _ (by simp [rbfKinds]))

theorem rbf_plain {t : Tag} (h : t.kind ∈ rbfKinds) : Plain t := by
  simp only [rbfKinds, List.mem_cons, List.not_mem_nil, or_false] at h
  rcases h with h | h | h | h <;> exact ⟨by rw [h]; simp, by rw [h]; simp, by rw [h]; simp, by rw [h]; simp⟩

theorem alias_cpu {t : Tag} (h : ∀ e ∈ execs t.subs, ExecutorOk t.kind e) (hk : t.kind = .rbfAlias) :
    (executorOf t).executor = .cpu := by
  unfold executorOf
  cases hl : (execs t.subs).getLast? with
  | none => rfl
  | some x =>
    have := (h x (List.mem_of_getLast? hl)).known
    rw [hk] at this
    simp at this

theorem mappingTag_sound {b : Build} {s s' : State} {t : Tag} (hs : s.exec = none)
    (h : mappingTag b s t = .ok s') :
    Valid b t ∧ s'.exec = none ∧ ∃ m, Describes b t m ∧ s'.done = s.done ++ [⟨t.constraint, t.dim, m⟩] := by
  unfold mappingTag at h
  by_cases hn : (t.subs.map Sub.name).Nodup
  · rw [if_pos hn] at h
    simp only [bind_ok] at h
    obtain ⟨s1, h1, s2, h2, h3⟩ := h
    obtain ⟨ha, m, hm, rfl⟩ := (openTag_iff _ _ _).mp h1
    have hn' := (names_nodup _).mp hn
    by_cases hk : t.kind ∈ rbfKinds
    · rw [create_rbf hk] at hm
      cases hm
      obtain ⟨a1, a2, a3, a4, a5⟩ := (subTags_iff b t.kind t.dim t.jit none (requires_iff.mpr hk) _ _ _ rfl).mp h2
      simp only at a1 a2 a3 a4 a5
      unfold closeTag at h3
      simp only [a4, requires_iff.mpr hk, if_true] at h3
      cases hb : bases t.subs with
      | nil =>
        rw [hb] at a1
        have a1 : s2.rbf = rbfOf t := a1
        rw [a1, rbfOf_basis] at h3
        simp at h3
      | cons x r =>
        cases r with
        | cons _ _ => rw [hb] at a1; exact a1.elim
        | nil =>
          rw [hb] at a1
          obtain ⟨_, v, hv, hr⟩ := a1
          rw [hs] at a2
          obtain ⟨b1, b2⟩ := exec_is a2
          rw [hr] at h3
          simp only [Option.isSome_some, if_true] at h3
          obtain ⟨m, hm, h3⟩ := bind_ok.mp h3
          cases h3
          have hal : t.kind = .rbfAlias → (s2.exec.getD {}).executor = .cpu := fun e =>
            b2.executor.trans (alias_cpu b1 e)
          obtain ⟨g, hg, hback, _⟩ := (finishRbf_eq b t _ v m ha hk b2 hal).mp hm
          refine ⟨(valid_iff _ _).mpr ⟨ha, rbf_plain hk, hback, fun _ => hk, hn', b1, fun _ => ?_⟩, rfl, m,
            finish_describes ha hk b2 hb hv hal hm, ?_⟩
          · obtain ⟨c1, c2, c3⟩ := (basis_iff b x g).mp ⟨v, hv, hg⟩
            exact ⟨x, g, hb, c1, c2, c3⟩
          · simp only [a3, a5]
    · obtain ⟨hp, m', rfl, hd⟩ := (create_plain b ha hk).1 m hm
      obtain ⟨hl, rfl⟩ := (subTags_plain b hk _ _ _ rfl).mp h2
      have hr : requiresBasis t.kind = false := by
        cases h : requiresBasis t.kind with
        | false => rfl
        | true => exact absurd (requires_iff.mp h) hk
      simp only [closeTag, hr, Bool.false_eq_true, if_false, Except.ok.injEq] at h3
      subst h3
      refine ⟨(valid_iff _ _).mpr ⟨ha, hp, plain_backend hk, fun h => absurd hl h, hn', ?_, fun h => absurd h hk⟩,
        hs, m', hd, rfl⟩
      rw [hl]
      intro e he
      cases he
  · rw [if_neg hn] at h; cases h

theorem mappingTag_complete {b : Build} {s : State} {t : Tag} (hs : s.exec = none) (h : Valid b t) :
    ∃ s', mappingTag b s t = .ok s' := by
  obtain ⟨ha, hp, hback, hsub, hn, hex, hba⟩ := (valid_iff _ _).mp h
  unfold mappingTag
  rw [if_pos ((names_nodup _).mpr hn)]
  simp only [bind_ok]
  by_cases hk : t.kind ∈ rbfKinds
  · obtain ⟨x, g, hx, c1, c2, c3⟩ := hba hk
    obtain ⟨v, hv, hg⟩ := (basis_iff b x g).mpr ⟨c1, c2, c3⟩
    obtain ⟨o, ho⟩ := exec_exists hex
    obtain ⟨b1, b2⟩ := exec_is ho
    have hal : t.kind = .rbfAlias → (o.getD {}).executor = .cpu := fun e =>
      b2.executor.trans (alias_cpu b1 e)
    have hfin : ∃ m, finishRbf b { rbfOf t with basis := some v } (o.getD {}) t.dim t.jit = .ok m := by
      simp only [finishRbf_eq b t _ v _ ha hk b2 hal]
      have hkk := hk
      simp only [rbfKinds, List.mem_cons, List.not_mem_nil, or_false] at hkk
      by_cases hc : (o.getD {}).executor = .cpu
      · rcases hkk with e | e | e | e
        · exact ⟨_, g, hg, hback, .inr (.inr (.inr (.inr (.inr (.inl ⟨e, hc, rfl⟩)))))⟩
        · exact ⟨_, g, hg, hback, .inl ⟨e, hc, rfl⟩⟩
        · exact ⟨_, g, hg, hback, .inr (.inl ⟨e, hc, rfl⟩)⟩
        · exact ⟨_, g, hg, hback, .inr (.inr (.inr (.inr (.inl ⟨e, hc, rfl⟩))))⟩
      · rcases hkk with e | e | e | e
        · exact ⟨_, g, hg, hback, .inr (.inr (.inr (.inr (.inr (.inr ⟨e, hc, rfl⟩)))))⟩
        · exact ⟨_, g, hg, hback, .inr (.inr (.inl ⟨e, hc, rfl⟩))⟩
        · exact ⟨_, g, hg, hback, .inr (.inr (.inr (.inl ⟨e, hc, rfl⟩)))⟩
        · exact absurd (hal e) hc
    obtain ⟨m, hm⟩ := hfin
    refine ⟨⟨s.done ++ [⟨t.constraint, t.dim, m⟩], none, { rbfOf t with basis := some v }, none, t.constraint⟩,
      _, (openTag_iff _ _ _).mpr ⟨ha, none, create_rbf hk, rfl⟩,
      (⟨s.done, some (t.kind, t.dim, t.jit, none), { rbfOf t with basis := some v }, o, t.constraint⟩ : State),
      ?_, ?_⟩
    · refine (subTags_iff b t.kind t.dim t.jit none (requires_iff.mpr hk) _ _ _ rfl).mpr ⟨?_, ?_, rfl, rfl, rfl⟩
      · rw [hx]
        exact ⟨rfl, v, hv, rfl⟩
      · simp only [hs]
        exact ho
    · simp only [closeTag, requires_iff.mpr hk, if_true]
      simp only [Option.isSome_some, if_true, hm]
      rfl
  · obtain ⟨m, hm⟩ := (create_plain b ha hk).2 hp
    have hl : t.subs = [] := by
      by_contra hne
      exact hk (hsub hne)
    have hr : requiresBasis t.kind = false := by
      cases h : requiresBasis t.kind with
      | false => rfl
      | true => exact absurd (requires_iff.mp h) hk
    refine ⟨⟨s.done ++ [⟨t.constraint, t.dim, m⟩], none, rbfOf t, s.exec, t.constraint⟩, _,
      (openTag_iff _ _ _).mpr ⟨ha, some m, hm, rfl⟩, _,
      (subTags_plain b hk _ _ _ rfl).mpr ⟨hl, rfl⟩, ?_⟩
    simp only [closeTag, hr, Bool.false_eq_true, if_false]

end Verif.Config.MapMethod
