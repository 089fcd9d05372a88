import Verif.Config.ParticipantLemmas

/-!
# Lemmas for C119: attaching mappings to data
-/

set_option autoImplicit false
set_option linter.unusedSectionVars false

namespace Verif.Config.Part

open Verif.Config.Scheme (Err)

variable {ν : Type} [DecidableEq ν]

theorem mem_dataOf {k : Setup ν} {m d : ν} : d ∈ k.dataOf (some m) ↔ HasData k m d := by
  unfold Setup.dataOf HasData
  cases h : k.mesh m <;> simp [h]

/-! ### Mappings that are not clear -/

theorem conflict_iff (k : Setup ν) (ts : List (Tag ν)) (a b : Conf ν) :
    conflict k (stateOf ts) b a = true ↔ Unclear k ts a b := by
  unfold conflict Unclear
  obtain ⟨aw, asrc, adst, ac, ak⟩ := a
  obtain ⟨bw, bsrc, bdst, bc, bk⟩ := b
  constructor
  · intro h
    simp only [Bool.and_eq_true, decide_eq_true_eq, List.any_eq_true] at h
    obtain ⟨⟨h1, h2⟩, d, hd, d', hd', h3, h4⟩ := h
    subst h3 h2
    cases bdst with
    | none => simp at h1
    | some m =>
      cases bsrc with
      | none => simp [Setup.dataOf] at hd
      | some s' =>
        cases asrc with
        | none => simp [Setup.dataOf] at hd'
        | some s =>
          refine ⟨m, s, s', d, rfl, rfl, rfl, rfl, mem_dataOf.1 hd', mem_dataOf.1 hd, ?_⟩
          cases bw
          · simp only [Bool.false_eq_true, if_false, List.any_eq_true, decide_eq_true_eq] at h4 ⊢
            obtain ⟨x, hx, he⟩ := h4
            exact ⟨x.1, by rw [← he]; exact hx⟩
          · simp only [if_true, List.any_eq_true, decide_eq_true_eq] at h4 ⊢
            obtain ⟨x, hx, he⟩ := h4
            exact ⟨x.1, by rw [← he]; exact hx⟩
  · rintro ⟨m, s, s', d, h1, h2, h3, h4, h5, h6, x, hx⟩
    simp only at h1 h2 h3 h4 hx
    subst h1 h2 h3 h4
    simp only [Bool.and_eq_true, decide_eq_true_eq, List.any_eq_true]
    refine ⟨⟨rfl, trivial⟩, d, mem_dataOf.2 h6, d, mem_dataOf.2 h5, rfl, ?_⟩
    cases bw
    · simp only [Bool.false_eq_true, if_false, List.any_eq_true, decide_eq_true_eq] at hx ⊢
      exact ⟨_, hx, rfl⟩
    · simp only [if_true, List.any_eq_true, decide_eq_true_eq] at hx ⊢
      exact ⟨_, hx, rfl⟩

theorem illDefined_jit (k : Setup ν) (s : State ν) (m : Conf ν) (h : m.src = none ∨ m.dst = none)
    (l : List (Conf ν)) : illDefined k s m l = false := by
  induction l with
  | nil => rfl
  | cons c cs ih =>
    rw [illDefined, ih, Bool.or_false]
    split
    · rfl
    · rcases h with h | h <;> simp [conflict, h, Setup.dataOf]

theorem illDefined_split (k : Setup ν) (s : State ν) (m : Conf ν) (h : m.src ≠ none ∧ m.dst ≠ none)
    (pre post : List (Conf ν)) (hd : ∀ c ∈ pre, ¬ (c.src = m.src ∧ c.dst = m.dst)) :
    illDefined k s m (pre ++ m :: post) = pre.any (conflict k s m) := by
  induction pre with
  | nil => simp [illDefined, h]
  | cons c cs ih =>
    rw [List.cons_append, illDefined, ih fun c hc => hd c (List.mem_cons_of_mem _ hc), if_neg]
    · rfl
    · rintro ⟨⟨h1, -⟩, h2, -⟩
      exact hd c List.mem_cons_self ⟨h2.symm, h1.symm⟩

theorem pairwise_iff_split {α : Type} {R : α → α → Prop} (l : List α) :
    l.Pairwise R ↔ ∀ pre m post, l = pre ++ m :: post → ∀ c ∈ pre, R c m := by
  constructor
  · rintro h pre m post rfl c hc
    exact (List.pairwise_append.1 h).2.2 c hc m List.mem_cons_self
  · intro h
    induction l using List.reverseRecOn with
    | nil => exact List.Pairwise.nil
    | append_singleton l a ih =>
      refine pairwise_snoc.2 ⟨ih fun pre m post e => h pre m (post ++ [a]) (by simp [e]), h l a [] rfl⟩

theorem illDefined_iff {k : Setup ν} {ts : List (Tag ν)} (h : TagsOk k ts) :
    (∀ m ∈ mappings ts, illDefined k (stateOf ts) m (mappings ts) = false) ↔
      (mappings ts).Pairwise fun a b => ¬ Unclear k ts a b := by
  rw [pairwise_iff_split]
  have hd := (pairwise_iff_split _).1 h.distinct
  constructor
  · intro hi pre m post e c hc
    rw [← conflict_iff]
    have := hi m (by rw [e]; simp)
    intro hcf
    have hj : m.src ≠ none ∧ m.dst ≠ none := by
      obtain ⟨_, _, _, _, -, h2, -, h4, -⟩ := (conflict_iff k ts c m).1 hcf
      simp [h2, h4]
    rw [e, illDefined_split k _ m hj pre post fun c hc => hd pre m post e c hc] at this
    exact absurd (List.any_eq_true.2 ⟨c, hc, hcf⟩) (by simp [this])
  · intro hp m hm
    by_cases hj : m.src ≠ none ∧ m.dst ≠ none
    · obtain ⟨pre, post, e⟩ := List.append_of_mem hm
      rw [e, illDefined_split k _ m hj pre post fun c hc => hd pre m post e c hc, List.any_eq_false]
      intro c hc
      rw [conflict_iff]
      exact hp pre m post e c hc
    · exact illDefined_jit k _ m (by tauto) _

/-! ### The checks -/

theorem directed_read (ts : List (Tag ν)) (c : Conf ν) (h : c.write = false) :
    Directed ts c ↔ (c.src.map (stateOf ts).isReceived).getD false = true ∧
      (c.dst.map (stateOf ts).isProvided).getD true = true := by
  unfold Directed
  rw [if_neg (by simp [h])]
  apply and_congr
  · cases hs : c.src with
    | none => simp
    | some m =>
      simp only [Option.map_some, Option.getD_some, isReceived_iff, stateOf, List.mem_map, Prod.exists,
        exists_and_right, exists_eq_right, Option.some.injEq]
      constructor
      · rintro ⟨_, a, rfl, h⟩; exact ⟨a, h⟩
      · rintro ⟨a, h⟩; exact ⟨m, a, rfl, h⟩
  · cases hs : c.dst with
    | none => simp
    | some m => simp [isProvided_iff, stateOf]

theorem directed_write (ts : List (Tag ν)) (c : Conf ν) (h : c.write = true) :
    Directed ts c ↔ (c.src.map (stateOf ts).isProvided).getD true = true ∧
      (c.dst.map (stateOf ts).isReceived).getD false = true := by
  unfold Directed
  rw [if_pos h]
  apply and_congr
  · cases hs : c.src with
    | none => simp
    | some m => simp [isProvided_iff, stateOf]
  · cases hs : c.dst with
    | none => simp
    | some m =>
      simp only [Option.map_some, Option.getD_some, isReceived_iff, stateOf, List.mem_map, Prod.exists,
        exists_and_right, exists_eq_right, Option.some.injEq]
      constructor
      · rintro ⟨_, a, rfl, h⟩; exact ⟨a, h⟩
      · rintro ⟨a, h⟩; exact ⟨m, a, rfl, h⟩

theorem used_of_received {s : State ν} {o : Option ν} (h : (o.map s.isReceived).getD false = true) :
    (o.map s.isUsed).getD true = true := by
  cases o with
  | none => rfl
  | some m => simp only [Option.map_some, Option.getD_some, State.isUsed] at *; simp [h]

theorem used_of_provided {s : State ν} {o : Option ν} (h : (o.map s.isProvided).getD true = true) :
    (o.map s.isUsed).getD true = true := by
  cases o with
  | none => rfl
  | some m => simp only [Option.map_some, Option.getD_some, State.isUsed] at *; simp [h]

/-- What `checkConf` wants. -/
def ConfOk (k : Setup ν) (ts : List (Tag ν)) (m : Conf ν) : Prop :=
  illDefined k (stateOf ts) m (mappings ts) = false ∧ Directed ts m ∧
    (1 < k.size → k.running = true → m.constraint = if m.write then .conservative else .consistent)

theorem checkConf_decides {k : Setup ν} (ts : List (Tag ν)) {m : Conf ν} (hp : Possible k m) :
    Decides (checkConf k (stateOf ts) m) (ConfOk k ts m) () := by
  have hj : m.constraint.scaled = true → ¬ (m.src = none ∨ m.dst = none) := by
    rintro hs (h | h)
    · rw [(hp.writesJit h).2.2] at hs; cases hs
    · rw [(hp.readsJit h).2.2] at hs; cases hs
  unfold checkConf
  by_cases hi : illDefined k (stateOf ts) m (mappings ts) = true
  · have : illDefined k (stateOf ts) m (stateOf ts).maps = true := hi
    rw [if_pos this]
    exact ⟨fun h => absurd hi (by simp [h.1]), fun _ => rfl⟩
  have hi' : ¬ illDefined k (stateOf ts) m (stateOf ts).maps = true := hi
  rw [if_neg hi']
  have hi0 : illDefined k (stateOf ts) m (mappings ts) = false := by simpa using hi
  by_cases hd : Directed ts m
  swap
  · refine ⟨fun h => absurd h.2.1 hd, fun _ => ?_⟩
    cases hw : m.write with
    | false =>
      rw [directed_read ts m hw] at hd
      by_cases h1 : (m.src.map (stateOf ts).isReceived).getD false = true
      · have h2 : ¬ (m.dst.map (stateOf ts).isProvided).getD true = true := fun h => hd ⟨h1, h⟩
        simp [h1, h2]
      · simp [h1]
    | true =>
      rw [directed_write ts m hw] at hd
      by_cases h1 : (m.src.map (stateOf ts).isProvided).getD true = true
      · have h2 : ¬ (m.dst.map (stateOf ts).isReceived).getD false = true := fun h => hd ⟨h1, h⟩
        simp [h1, h2]
      · simp [h1]
  have hused : ¬ (¬ ((m.src.map (stateOf ts).isUsed).getD true) = true ∨
      ¬ ((m.dst.map (stateOf ts).isUsed).getD true) = true) := by
    cases hw : m.write with
    | false =>
      obtain ⟨h1, h2⟩ := (directed_read ts m hw).1 hd
      simp [used_of_received h1, used_of_provided h2]
    | true =>
      obtain ⟨h1, h2⟩ := (directed_write ts m hw).1 hd
      simp [used_of_received h2, used_of_provided h1]
  have h4 : ¬ (m.write = false ∧ ¬ ((m.src.map (stateOf ts).isReceived).getD false) = true) := by
    rintro ⟨hw, h⟩; exact h ((directed_read ts m hw).1 hd).1
  have h5 : ¬ (m.write = false ∧ ¬ ((m.dst.map (stateOf ts).isProvided).getD true) = true) := by
    rintro ⟨hw, h⟩; exact h ((directed_read ts m hw).1 hd).2
  have h6 : ¬ (m.write = true ∧ ¬ ((m.src.map (stateOf ts).isProvided).getD true) = true) := by
    rintro ⟨hw, h⟩; exact h ((directed_write ts m hw).1 hd).1
  have h7 : ¬ (m.write = true ∧ ¬ ((m.dst.map (stateOf ts).isReceived).getD false) = true) := by
    rintro ⟨hw, h⟩; exact h ((directed_write ts m hw).1 hd).2
  rw [if_neg h4, if_neg h5, if_neg h6, if_neg h7]
  by_cases hr : 1 < k.size ∧ k.running = true
  · by_cases hc : m.constraint = if m.write then .conservative else .consistent
    · refine ⟨fun _ => ?_, fun h => absurd ⟨hi0, hd, fun _ _ => hc⟩ h⟩
      have g1 : ¬ ((1 < k.size ∧ k.running = true) ∧ ((m.write = true ∧ m.constraint = .consistent) ∨
          (m.write = false ∧ m.constraint = .conservative))) := by
        rintro ⟨-, ⟨h, h'⟩ | ⟨h, h'⟩⟩ <;> rw [h, h'] at hc <;> simp at hc
      have g2 : m.constraint.scaled = false := by
        rw [hc]; cases m.write <;> rfl
      rw [if_neg g1, if_neg (by simp [g2]), if_neg (by simp [g2]), if_neg hused]
    · refine ⟨fun h => absurd (h.2.2 hr.1 hr.2) hc, fun _ => ?_⟩
      cases hw : m.write <;> cases hcon : m.constraint <;> rw [hw, hcon] at hc <;>
        simp [hr, Constraint.scaled] at hc ⊢
  · refine ⟨fun _ => ?_, fun h => absurd ⟨hi0, hd, fun h h' => absurd ⟨h, h'⟩ hr⟩ h⟩
    rw [if_neg (fun h => hr h.1), if_neg (fun h => hr h.1), if_neg (fun h => hj h.1 h.2), if_neg hused]

theorem checkConfs_decides {k : Setup ν} (ts : List (Tag ν)) (l : List (Conf ν))
    (hp : ∀ m ∈ l, Possible k m) :
    Decides (checkConfs k (stateOf ts) l) (∀ m ∈ l, ConfOk k ts m) () := by
  induction l with
  | nil => exact ⟨fun _ => rfl, fun h => absurd (by simp) h⟩
  | cons m ms ih =>
    obtain ⟨a1, a2⟩ := checkConf_decides ts (hp m List.mem_cons_self)
    obtain ⟨b1, b2⟩ := ih fun m hm => hp m (List.mem_cons_of_mem _ hm)
    rw [checkConfs]
    by_cases h : ConfOk k ts m
    · rw [a1 h]
      simp only
      refine ⟨fun h' => b1 fun m hm => h' m (List.mem_cons_of_mem _ hm), fun h' => b2 fun hm => h' ?_⟩
      intro m' hm'
      rcases List.mem_cons.1 hm' with rfl | hm'
      · exact h
      · exact hm m' hm'
    · rw [a2 h]
      exact ⟨fun h' => absurd (h' m List.mem_cons_self) h, fun _ => rfl⟩

/-! ### The loops over mappings and data -/

theorem attachTo_ok (f : Ctx ν → Except Err (Ctx ν × Bool)) (g : Ctx ν → Ctx ν) (b : Ctx ν → Bool)
    (cs : List (Ctx ν)) (h : ∀ c ∈ cs, f c = .ok (g c, b c)) :
    attachTo f cs = .ok (cs.map g, cs.any b) := by
  induction cs with
  | nil => rfl
  | cons c cs ih =>
    rw [attachTo, h c List.mem_cons_self, ih fun c hc => h c (List.mem_cons_of_mem _ hc)]
    rfl

theorem attachAll_decides (f : Conf ν → Ctx ν → Except Err (Ctx ν × Bool)) (g : Conf ν → Ctx ν → Ctx ν)
    (b : Conf ν → Ctx ν → Bool) (Inv : List (Conf ν) → Ctx ν → Prop)
    (hstep : ∀ m ms c, Inv (m :: ms) c → f m c = .ok (g m c, b m c) ∧ Inv ms (g m c))
    (hb : ∀ m m' c, b m (g m' c) = b m c) (ms : List (Conf ν)) (cs : List (Ctx ν))
    (hinv : ∀ c ∈ cs, Inv ms c) :
    Decides (attachAll f ms cs) (∀ m ∈ ms, ∃ c ∈ cs, b m c = true)
      (cs.map fun c => ms.foldl (fun c m => g m c) c) := by
  induction ms generalizing cs with
  | nil => exact ⟨fun _ => by simp [attachAll], fun h => absurd (by simp) h⟩
  | cons m ms ih =>
    rw [attachAll, attachTo_ok (f m) (g m) (b m) cs fun c hc => (hstep m ms c (hinv c hc)).1]
    simp only
    obtain ⟨i1, i2⟩ := ih (cs.map (g m)) (by
      intro c hc
      obtain ⟨c', hc', rfl⟩ := List.mem_map.1 hc
      exact (hstep m ms c' (hinv c' hc')).2)
    have hex : (∀ m' ∈ ms, ∃ c ∈ cs.map (g m), b m' c = true) ↔ ∀ m' ∈ ms, ∃ c ∈ cs, b m' c = true := by
      refine forall₂_congr fun m' _ => ?_
      simp [hb]
    by_cases ha : cs.any (b m) = true
    · rw [if_pos ha]
      have ha' := List.any_eq_true.1 ha
      constructor
      · intro h
        rw [i1 (hex.2 fun m' hm' => h m' (List.mem_cons_of_mem _ hm'))]
        simp [List.map_map, Function.comp_def]
      · intro h
        refine i2 fun h' => h ?_
        intro m' hm'
        rcases List.mem_cons.1 hm' with rfl | hm'
        · exact ha'
        · exact hex.1 h' m' hm'
    · rw [if_neg ha]
      exact ⟨fun h => absurd (List.any_eq_true.2 (h m List.mem_cons_self)) ha, fun _ => rfl⟩

/-! ### Writing -/

/-- What a mapping does to a write data. -/
def gW (k : Setup ν) (m : Conf ν) (c : Ctx ν) : Ctx ν :=
  { c with
    maps := c.maps ++ match m.dst with
      | none => []
      | some dst => if m.src = some c.mesh ∧ c.data ∈ k.dataOf (some dst) then
          [⟨m, (c.mesh, c.data), (dst, c.data)⟩] else []
    jit := if m.src = none ∧ m.dst = some c.mesh then some m else c.jit }

def bW (k : Setup ν) (m : Conf ν) (c : Ctx ν) : Bool :=
  decide (m.src = none ∨ (m.src = some c.mesh ∧ m.dst ≠ none ∧ c.data ∈ k.dataOf m.dst))

structure InvW (s : State ν) (ms : List (Conf ν)) (c : Ctx ν) : Prop where
  once : c.jit ≠ none → ∀ m ∈ ms, ¬ (m.src = none ∧ m.dst = some c.mesh)
  distinct : ms.Pairwise fun a b => ¬ (a.src = b.src ∧ a.dst = b.dst)
  fits : ∀ m ∈ ms, m.src = some c.mesh → s.isProvided c.mesh = true ∧ ∃ dst, m.dst = some dst ∧ dst ≠ c.mesh

theorem stepW (k : Setup ν) (s : State ν) (m : Conf ν) (ms : List (Conf ν)) (c : Ctx ν)
    (h : InvW s (m :: ms) c) :
    attachWrite k s m c = .ok (gW k m c, bW k m c) ∧ InvW s ms (gW k m c) := by
  obtain ⟨h1, h2, h3⟩ := h
  obtain ⟨h2, h2'⟩ := List.pairwise_cons.1 h2
  refine ⟨?_, ⟨?_, h2', fun m' hm' => h3 m' (List.mem_cons_of_mem _ hm')⟩⟩
  · unfold attachWrite
    by_cases hs : m.src = some c.mesh
    · rw [if_pos hs]
      obtain ⟨hp, dst, hd, hne⟩ := h3 m List.mem_cons_self hs
      rw [hd]
      simp only
      by_cases hm : c.data ∈ k.dataOf (some dst)
      · rw [if_pos hm, if_pos hp, Ctx.appendWrite, if_neg hne]
        simp [gW, bW, hs, hd, hm, Except.map]
      · rw [if_neg hm]
        simp [gW, bW, hs, hd, hm]
    · rw [if_neg hs]
      by_cases hn : m.src = none
      · rw [if_pos hn]
        by_cases hd : m.dst = some c.mesh
        · rw [if_pos hd, Ctx.addJit, if_neg (fun hj => h1 hj m List.mem_cons_self ⟨hn, hd⟩)]
          simp [gW, bW, hn, hd, Except.map]
        · rw [if_neg hd]
          have : gW k m c = c := by
            simp only [gW, hn, hd, and_false, if_false]
            cases m.dst <;> simp
          rw [this]
          simp [bW, hn]
      · rw [if_neg hn]
        have : gW k m c = c := by
          simp only [gW, hn, hs, false_and, if_false]
          cases m.dst <;> simp
        rw [this]
        simp [bW, hn, hs]
  · intro hj m' hm' ⟨e1, e2⟩
    simp only [gW] at hj e2
    by_cases hc : m.src = none ∧ m.dst = some c.mesh
    · exact h2 m' hm' ⟨hc.1.trans e1.symm, hc.2.trans e2.symm⟩
    · rw [if_neg hc] at hj
      exact h1 hj m' (List.mem_cons_of_mem _ hm') ⟨e1, e2⟩

theorem foldW (k : Setup ν) (s : State ν) (ms : List (Conf ν)) (c : Ctx ν) (h : InvW s ms c) :
    ms.foldl (fun c m => gW k m c) c = { c with
      maps := c.maps ++ ms.filterMap (fun m => match m.dst with
        | none => none
        | some dst => if m.src = some c.mesh ∧ c.data ∈ k.dataOf (some dst) then
            some ⟨m, (c.mesh, c.data), (dst, c.data)⟩ else none)
      jit := c.jit.or (ms.find? fun m => m.src = none ∧ m.dst = some c.mesh) } := by
  induction ms generalizing c with
  | nil => simp
  | cons m ms ih =>
    rw [List.foldl_cons, ih _ (stepW k s m ms c h).2]
    have hm : (gW k m c).mesh = c.mesh := rfl
    have hd : (gW k m c).data = c.data := rfl
    rw [hm, hd]
    congr 1
    · rw [List.filterMap_cons]
      simp only [gW]
      cases m.dst with
      | none => simp
      | some dst =>
        simp only
        split <;> simp
    · rw [List.find?_cons]
      by_cases hc : m.src = none ∧ m.dst = some c.mesh
      · have : c.jit = none := by
          by_contra hj
          exact h.once hj m List.mem_cons_self hc
        simp [gW, hc, this]
      · simp [gW, hc]

/-! ### Reading -/

/-- What a mapping does to a read data. -/
def gR (k : Setup ν) (m : Conf ν) (c : Ctx ν) : Ctx ν :=
  { c with
    maps := c.maps ++ match m.src with
      | none => []
      | some src => if m.dst = some c.mesh ∧ c.data ∈ k.dataOf (some src) then
          [⟨m, (src, c.data), (c.mesh, c.data)⟩] else []
    jit := if m.dst = none ∧ m.src = some c.mesh then some m else c.jit }

def bR (k : Setup ν) (m : Conf ν) (c : Ctx ν) : Bool :=
  decide (m.dst = none ∨ (m.dst = some c.mesh ∧ m.src ≠ none ∧ c.data ∈ k.dataOf m.src))

/-- The mapping is for this data. -/
def Serves (k : Setup ν) (c : Ctx ν) (m : Conf ν) : Prop := m.dst = some c.mesh ∧ c.data ∈ k.dataOf m.src

structure InvR (k : Setup ν) (s : State ν) (ms : List (Conf ν)) (c : Ctx ν) : Prop where
  once : c.jit ≠ none → ∀ m ∈ ms, ¬ (m.dst = none ∧ m.src = some c.mesh)
  distinct : ms.Pairwise fun a b => ¬ (a.src = b.src ∧ a.dst = b.dst)
  fits : ∀ m ∈ ms, m.dst = some c.mesh → s.isProvided c.mesh = true ∧ ∃ src, m.src = some src ∧ src ≠ c.mesh
  free : c.maps ≠ [] → ∀ m ∈ ms, ¬ Serves k c m
  single : ms.Pairwise fun a b => ¬ (Serves k c a ∧ Serves k c b)

theorem stepR (k : Setup ν) (s : State ν) (m : Conf ν) (ms : List (Conf ν)) (c : Ctx ν)
    (h : InvR k s (m :: ms) c) :
    attachRead k s m c = .ok (gR k m c, bR k m c) ∧ InvR k s ms (gR k m c) := by
  obtain ⟨h1, h2, h3, h4, h5⟩ := h
  obtain ⟨h2, h2'⟩ := List.pairwise_cons.1 h2
  obtain ⟨h5, h5'⟩ := List.pairwise_cons.1 h5
  refine ⟨?_, ⟨?_, h2', fun m' hm' => h3 m' (List.mem_cons_of_mem _ hm'), ?_, h5'⟩⟩
  · unfold attachRead
    by_cases hs : m.dst = some c.mesh
    · rw [if_pos hs]
      obtain ⟨hp, src, hd, hne⟩ := h3 m List.mem_cons_self hs
      rw [hd]
      simp only
      by_cases hm : c.data ∈ k.dataOf (some src)
      · rw [if_pos hm, if_pos hp, Ctx.appendRead, if_neg, if_neg hne]
        · simp [gR, bR, hs, hd, hm, Except.map]
        · intro hne
          exact h4 hne m List.mem_cons_self ⟨hs, by rw [hd]; exact hm⟩
      · rw [if_neg hm]
        simp [gR, bR, hs, hd, hm]
    · rw [if_neg hs]
      by_cases hn : m.dst = none
      · rw [if_pos hn]
        by_cases hd : m.src = some c.mesh
        · rw [if_pos hd, Ctx.addJit, if_neg (fun hj => h1 hj m List.mem_cons_self ⟨hn, hd⟩)]
          simp [gR, bR, hn, hd, Except.map]
        · rw [if_neg hd]
          have : gR k m c = c := by
            simp only [gR, hn, hd, and_false, if_false]
            cases m.src <;> simp
          rw [this]
          simp [bR, hn]
      · rw [if_neg hn]
        have : gR k m c = c := by
          simp only [gR, hn, hs, false_and, if_false]
          cases m.src <;> simp
        rw [this]
        simp [bR, hn, hs]
  · intro hj m' hm' ⟨e1, e2⟩
    simp only [gR] at hj e2
    by_cases hc : m.dst = none ∧ m.src = some c.mesh
    · exact h2 m' hm' ⟨hc.2.trans e2.symm, hc.1.trans e1.symm⟩
    · rw [if_neg hc] at hj
      exact h1 hj m' (List.mem_cons_of_mem _ hm') ⟨e1, e2⟩
  · intro hne m' hm' hs'
    have hs'' : Serves k c m' := hs'
    by_cases hc : c.maps = []
    · apply h5 m' hm'
      refine ⟨?_, hs''⟩
      simp only [gR, hc, List.nil_append] at hne
      cases hsrc : m.src with
      | none => simp [hsrc] at hne
      | some src =>
        rw [hsrc] at hne
        simp only at hne
        split at hne
        · rename_i h; exact ⟨h.1, by rw [hsrc]; exact h.2⟩
        · exact absurd rfl hne
    · exact h4 hc m' (List.mem_cons_of_mem _ hm') hs''

theorem foldR (k : Setup ν) (s : State ν) (ms : List (Conf ν)) (c : Ctx ν) (h : InvR k s ms c) :
    ms.foldl (fun c m => gR k m c) c = { c with
      maps := c.maps ++ ms.filterMap (fun m => match m.src with
        | none => none
        | some src => if m.dst = some c.mesh ∧ c.data ∈ k.dataOf (some src) then
            some ⟨m, (src, c.data), (c.mesh, c.data)⟩ else none)
      jit := c.jit.or (ms.find? fun m => m.dst = none ∧ m.src = some c.mesh) } := by
  induction ms generalizing c with
  | nil => simp
  | cons m ms ih =>
    rw [List.foldl_cons, ih _ (stepR k s m ms c h).2]
    have hm : (gR k m c).mesh = c.mesh := rfl
    have hd : (gR k m c).data = c.data := rfl
    rw [hm, hd]
    congr 1
    · rw [List.filterMap_cons]
      simp only [gR]
      cases m.src with
      | none => simp
      | some src =>
        simp only
        split <;> simp
    · rw [List.find?_cons]
      by_cases hc : m.dst = none ∧ m.src = some c.mesh
      · have : c.jit = none := by
          by_contra hj
          exact h.once hj m List.mem_cons_self hc
        simp [gR, hc, this]
      · simp [gR, hc]

end Verif.Config.Part
