import Verif.Config.ParticipantAttach

/-!
# C119: participants
-/

set_option autoImplicit false
set_option linter.unusedSectionVars false

namespace Verif.Config.Part

open Verif.Config.Scheme (Err)

variable {ν : Type} [DecidableEq ν]

/-! ### Lemmas -/

theorem access_iff {k : Setup ν} {ts : List (Tag ν)} (h : TagsOk k ts) (m : ν) :
    (stateOf ts).access m = true ↔ (m, true) ∈ receives ts := by
  have hn := h.once.2.1
  unfold State.access
  change ((List.find? (fun x => decide (x.1 = m)) (receives ts)).map (·.2)).getD false = true ↔ _
  generalize receives ts = l at hn
  induction l with
  | nil => simp
  | cons x xs ih =>
    rw [List.map_cons, List.nodup_cons] at hn
    rw [List.find?_cons]
    by_cases hx : x.1 = m
    · rw [decide_eq_true hx]
      simp only [Option.map_some, Option.getD_some, List.mem_cons]
      constructor
      · intro h; left; exact Prod.ext hx.symm h.symm
      · rintro (h | h)
        · rw [← h]
        · exact absurd (List.mem_map_of_mem (f := (·.1)) h) (by rw [← hx]; exact hn.1)
    · rw [decide_eq_false hx]
      simp only [ih hn.2, List.mem_cons]
      constructor
      · exact .inr
      · rintro (h | h)
        · exact absurd (by rw [← h]) hx
        · exact h

theorem invW_ctx {k : Setup ν} {ts : List (Tag ν)} (h : TagsOk k ts)
    (hd : ∀ c ∈ mappings ts, Directed ts c) (d : ν × ν) :
    InvW (stateOf ts) ((mappings ts).filter (·.write)) (ctx d) := by
  refine ⟨by simp [ctx], h.distinct.filter _, ?_⟩
  intro m hm hs
  obtain ⟨hm, hw⟩ := List.mem_filter.1 hm
  have := hd m hm
  unfold Directed at this
  rw [if_pos hw] at this
  obtain ⟨h1, dst, a, h2, h3⟩ := this
  refine ⟨(isProvided_iff _ _).2 (h1 _ hs), dst, h2, ?_⟩
  rintro rfl
  exact h.once.2.2 _ (h1 _ hs) (List.mem_map_of_mem (f := (·.1)) h3)

theorem invR_ctx {k : Setup ν} {ts : List (Tag ν)} (h : TagsOk k ts)
    (hd : ∀ c ∈ mappings ts, Directed ts c)
    (hc : (mappings ts).Pairwise fun a b => ¬ Unclear k ts a b) (d : ν × ν) (hr : d ∈ reads ts) :
    InvR k (stateOf ts) ((mappings ts).filter (!·.write)) (ctx d) := by
  refine ⟨by simp [ctx], h.distinct.filter _, ?_, by simp [ctx], ?_⟩
  · intro m hm hs
    obtain ⟨hm, hw⟩ := List.mem_filter.1 hm
    have := hd m hm
    unfold Directed at this
    rw [if_neg (by simpa using hw)] at this
    obtain ⟨⟨src, a, h2, h3⟩, h1⟩ := this
    refine ⟨(isProvided_iff _ _).2 (h1 _ hs), src, h2, ?_⟩
    rintro rfl
    exact h.once.2.2 _ (h1 _ hs) (List.mem_map_of_mem (f := (·.1)) h3)
  · refine (List.Pairwise.and_mem.1 (hc.filter (fun x : Conf ν => !x.write))).imp ?_
    rintro a b ⟨-, hb, hu⟩ ⟨⟨a1, a2⟩, b1, b2⟩
    obtain ⟨-, hbw⟩ := List.mem_filter.1 hb
    apply hu
    cases ha : a.src with
    | none => rw [ha] at a2; simp [Setup.dataOf] at a2
    | some s =>
      cases hb' : b.src with
      | none => rw [hb'] at b2; simp [Setup.dataOf] at b2
      | some s' =>
        rw [ha] at a2
        rw [hb'] at b2
        refine ⟨d.1, s, s', d.2, a1, b1, ha, hb', mem_dataOf.1 a2, mem_dataOf.1 b2, d.1, ?_⟩
        rw [if_neg (by simpa using hbw)]
        exact hr

theorem foldW_ctx {k : Setup ν} {ts : List (Tag ν)} (h : TagsOk k ts)
    (hd : ∀ c ∈ mappings ts, Directed ts c) (d : ν × ν) :
    ((mappings ts).filter (·.write)).foldl (fun c m => gW k m c) (ctx d) = expectedWrite k ts d := by
  rw [foldW k (stateOf ts) _ _ (invW_ctx h hd d)]
  unfold expectedWrite
  congr 1
  · rw [List.filterMap_filter]
    simp only [ctx, List.nil_append]
    congr 1
    funext c
    cases c.dst with
    | none => simp
    | some m =>
      cases c.write <;> simp
  · rw [List.find?_filter]
    simp only [ctx, Option.none_or]
    congr 1
    funext a
    by_cases h1 : a.src = none <;> by_cases h2 : a.dst = some d.1 <;> cases a.write <;> simp [h1, h2]

theorem foldR_ctx {k : Setup ν} {ts : List (Tag ν)} (h : TagsOk k ts)
    (hd : ∀ c ∈ mappings ts, Directed ts c)
    (hc : (mappings ts).Pairwise fun a b => ¬ Unclear k ts a b) (d : ν × ν) (hr : d ∈ reads ts) :
    ((mappings ts).filter (!·.write)).foldl (fun c m => gR k m c) (ctx d) = expectedRead k ts d := by
  rw [foldR k (stateOf ts) _ _ (invR_ctx h hd hc d hr)]
  unfold expectedRead
  congr 1
  · rw [List.filterMap_filter]
    simp only [ctx, List.nil_append]
    congr 1
    funext c
    cases c.src with
    | none => simp
    | some m =>
      cases c.write <;> simp
  · rw [List.find?_filter]
    simp only [ctx, Option.none_or]
    congr 1
    funext a
    by_cases h1 : a.src = some d.1 <;> by_cases h2 : a.dst = none <;> cases a.write <;> simp [h1, h2]

theorem usefulW_iff (k : Setup ν) (ts : List (Tag ν)) :
    (∀ m ∈ (mappings ts).filter (·.write), ∃ c ∈ (writes ts).map ctx, bW k m c = true) ↔
      ∀ m ∈ mappings ts, m.write = true → Useful k ts m := by
  simp only [List.mem_filter, and_imp]
  refine forall₂_congr fun m _ => forall_congr' fun hw => ?_
  unfold Useful
  rw [if_pos hw]
  simp only [List.mem_map, exists_exists_and_eq_and, bW, ctx, decide_eq_true_eq]
  refine exists_congr fun x => and_congr_right fun _ => or_congr_right <| and_congr_right fun _ => ?_
  cases m.dst with
  | none => simp
  | some b => simp [mem_dataOf]

theorem usefulR_iff (k : Setup ν) (ts : List (Tag ν)) :
    (∀ m ∈ (mappings ts).filter (!·.write), ∃ c ∈ (reads ts).map ctx, bR k m c = true) ↔
      ∀ m ∈ mappings ts, m.write = false → Useful k ts m := by
  simp only [List.mem_filter, and_imp, Bool.not_eq_true']
  refine forall₂_congr fun m _ => forall_congr' fun hw => ?_
  unfold Useful
  rw [if_neg (by simp [hw])]
  simp only [List.mem_map, exists_exists_and_eq_and, bR, ctx, decide_eq_true_eq]
  refine exists_congr fun x => and_congr_right fun _ => or_congr_right <| and_congr_right fun _ => ?_
  cases m.src with
  | none => simp
  | some b => simp [mem_dataOf]

theorem remeshing_iff {k : Setup ν} {ts : List (Tag ν)} (h : TagsOk k ts) :
    ((writes ts).any fun d => !((stateOf ts).isProvided d.1 || !((stateOf ts).access d.1 && k.remeshing))) = false ↔
      (k.remeshing = true → ∀ d ∈ writes ts, (d.1, true) ∉ receives ts) := by
  rw [List.any_eq_false]
  constructor
  · intro hall hr d hd hm
    have := hall d hd
    rw [(access_iff h d.1).2 hm, hr] at this
    have hp : (stateOf ts).isProvided d.1 = true := by simpa using this
    exact h.once.2.2 d.1 ((isProvided_iff _ _).1 hp) (List.mem_map_of_mem (f := (·.1)) hm)
  · intro hall d hd hc
    simp only [Bool.not_eq_true', Bool.or_eq_false_iff, Bool.not_eq_false', Bool.and_eq_true] at hc
    exact hall hc.2.2 d hd ((access_iff h d.1).1 hc.2.1)

theorem finish_decides {k : Setup ν} {ts : List (Tag ν)} (h : TagsOk k ts) :
    Decides (finish k (stateOf ts)) (WellFormed k ts) (expected k ts) := by
  unfold finish
  obtain ⟨a1, a2⟩ := checkConfs_decides ts (mappings ts) h.possible
  change Decides (match checkConfs k (stateOf ts) (mappings ts) with
    | .error e => .error e
    | .ok _ =>
      match attachAll (attachWrite k (stateOf ts)) ((mappings ts).filter (·.write)) ((writes ts).map ctx) with
      | .error e => .error e
      | .ok ws =>
        match attachAll (attachRead k (stateOf ts)) ((mappings ts).filter (!·.write)) ((reads ts).map ctx) with
        | .error e => .error e
        | .ok rs =>
          if ((writes ts).any fun d =>
            !((stateOf ts).isProvided d.1 || !((stateOf ts).access d.1 && k.remeshing))) = true then .error .check
          else .ok (⟨provides ts, receives ts, ws, rs⟩ : Result ν)) _ _
  by_cases hc : ∀ m ∈ mappings ts, ConfOk k ts m
  swap
  · rw [a2 hc]
    refine ⟨fun hw => absurd ?_ hc, fun _ => rfl⟩
    intro m hm
    exact ⟨(illDefined_iff h).2 hw.clear m hm, hw.directed m hm, fun h1 h2 => hw.parallel h1 h2 m hm⟩
  rw [a1 hc]
  have hdir : ∀ c ∈ mappings ts, Directed ts c := fun m hm => (hc m hm).2.1
  have hcl := (illDefined_iff h).1 fun m hm => (hc m hm).1
  obtain ⟨b1, b2⟩ := attachAll_decides (attachWrite k (stateOf ts)) (gW k) (bW k) (InvW (stateOf ts))
    (stepW k (stateOf ts)) (fun _ _ _ => rfl) ((mappings ts).filter (·.write)) ((writes ts).map ctx) (by
      intro c hc
      obtain ⟨d, -, rfl⟩ := List.mem_map.1 hc
      exact invW_ctx h hdir d)
  obtain ⟨c1, c2⟩ := attachAll_decides (attachRead k (stateOf ts)) (gR k) (bR k) (InvR k (stateOf ts))
    (stepR k (stateOf ts)) (fun _ _ _ => rfl) ((mappings ts).filter (!·.write)) ((reads ts).map ctx) (by
      intro c hc
      obtain ⟨d, hd, rfl⟩ := List.mem_map.1 hc
      exact invR_ctx h hdir hcl d hd)
  rw [usefulW_iff] at b1 b2
  rw [usefulR_iff] at c1 c2
  simp only
  by_cases hw : ∀ m ∈ mappings ts, m.write = true → Useful k ts m
  swap
  · rw [b2 hw]
    exact ⟨fun h => absurd (fun m hm _ => h.useful m hm) hw, fun _ => rfl⟩
  rw [b1 hw]
  simp only
  by_cases hr : ∀ m ∈ mappings ts, m.write = false → Useful k ts m
  swap
  · rw [c2 hr]
    exact ⟨fun h => absurd (fun m hm _ => h.useful m hm) hr, fun _ => rfl⟩
  rw [c1 hr]
  simp only
  by_cases hm : k.remeshing = true → ∀ d ∈ writes ts, (d.1, true) ∉ receives ts
  · rw [if_neg (by rw [(remeshing_iff h).2 hm]; simp)]
    refine ⟨fun _ => ?_, fun hn => absurd ?_ hn⟩
    · rw [List.map_map, List.map_map]
      unfold expected
      congr 2
      · exact List.map_congr_left fun d _ => foldW_ctx h hdir d
      · exact List.map_congr_left fun d hd => foldR_ctx h hdir hcl d hd
    · refine { toTagsOk := h, directed := hdir, parallel := ?_, clear := hcl, useful := ?_, remeshing := hm }
      · exact fun h1 h2 m hm => (hc m hm).2.2 h1 h2
      · intro m hm
        cases hwr : m.write
        · exact hr m hm hwr
        · exact hw m hm hwr
  · rw [if_pos]
    · exact ⟨fun h => absurd h.remeshing hm, fun _ => rfl⟩
    · by_contra hn
      exact hm ((remeshing_iff h).1 (by simpa using hn))

/-! ### The claim -/

/-- **C119.** A participant is accepted exactly if it is well-formed, which is a statement on its tags
only; then every data is mapped as its tags say. Else there is an error message: no configuration of
one participant runs into an assertion. -/
theorem C119_accepts (k : Setup ν) (ts : List (Tag ν)) :
    (WellFormed k ts → configure k ts = .ok (expected k ts)) ∧
    (¬ WellFormed k ts → configure k ts = .error .check) := by
  unfold configure
  obtain ⟨a1, a2⟩ := collect_decides k ts
  by_cases h : TagsOk k ts
  · rw [a1 h]
    exact finish_decides h
  · rw [a2 h]
    exact ⟨fun hw => absurd hw.toTagsOk h, fun _ => rfl⟩

theorem wellFormed_of_ok {k : Setup ν} {ts : List (Tag ν)} {r : Result ν} (h : configure k ts = .ok r) :
    WellFormed k ts ∧ r = expected k ts := by
  by_cases hw : WellFormed k ts
  · rw [(C119_accepts k ts).1 hw] at h
    exact ⟨hw, (Except.ok.inj h).symm⟩
  · rw [(C119_accepts k ts).2 hw] at h
    cases h

/-- **C119.** In an accepted participant each data is read through at most one mapping, which maps the
data of the same name from a received mesh to the mesh it is read on. -/
theorem C119_read_once {k : Setup ν} {ts : List (Tag ν)} {r : Result ν} (h : configure k ts = .ok r)
    (c : Ctx ν) (hc : c ∈ r.reads) :
    c.maps.length ≤ 1 ∧ ∀ a ∈ c.maps, a.conf ∈ mappings ts ∧ a.conf.write = false ∧
      a.toData = (c.mesh, c.data) ∧ a.conf.dst = some c.mesh ∧
      ∃ m, a.fromData = (m, c.data) ∧ a.conf.src = some m ∧ HasData k m c.data ∧ m ≠ c.mesh ∧
        m ∈ (receives ts).map (·.1) := by
  obtain ⟨hw, rfl⟩ := wellFormed_of_ok h
  obtain ⟨d, hd, rfl⟩ := List.mem_map.1 hc
  refine ⟨?_, ?_⟩
  · by_contra hlen
    have hp := hw.clear
    have key : ∀ l : List (Conf ν), l.Pairwise (fun a b => ¬ Unclear k ts a b) →
        (l.filterMap fun c => match c.src with
          | none => none
          | some m => if c.write = false ∧ c.dst = some d.1 ∧ d.2 ∈ k.dataOf (some m) then
              some (⟨c, (m, d.2), d⟩ : Attached ν) else none).length ≤ 1 := by
      intro l hl
      induction l with
      | nil => simp
      | cons a l ih =>
        obtain ⟨h1, h2⟩ := List.pairwise_cons.1 hl
        rw [List.filterMap_cons]
        cases hs : a.src with
        | none => simpa using ih h2
        | some m =>
          simp only
          by_cases ha : a.write = false ∧ a.dst = some d.1 ∧ d.2 ∈ k.dataOf (some m)
          · rw [if_pos ha]
            simp only [List.length_cons]
            have : (l.filterMap fun c => match c.src with
              | none => none
              | some m => if c.write = false ∧ c.dst = some d.1 ∧ d.2 ∈ k.dataOf (some m) then
                  some (⟨c, (m, d.2), d⟩ : Attached ν) else none) = [] := by
              rw [List.filterMap_eq_nil_iff]
              intro b hb
              cases hbs : b.src with
              | none => rfl
              | some m' =>
                simp only
                rw [if_neg]
                rintro ⟨b1, b2, b3⟩
                apply h1 b hb
                refine ⟨d.1, m, m', d.2, ha.2.1, b2, hs, hbs, mem_dataOf.1 ha.2.2, mem_dataOf.1 b3, d.1, ?_⟩
                rw [if_neg (by simp [b1])]
                exact hd
            rw [this]
            simp
          · rw [if_neg ha]
            exact ih h2
    exact hlen (key _ hp)
  · intro a ha
    obtain ⟨c, hc, he⟩ := List.mem_filterMap.1 ha
    cases hs : c.src with
    | none => rw [hs] at he; cases he
    | some m =>
      rw [hs] at he
      simp only at he
      split at he
      · rename_i hif
        cases he
        have hdir := hw.directed c hc
        unfold Directed at hdir
        rw [if_neg (by simp [hif.1])] at hdir
        obtain ⟨⟨m', b, e1, e2⟩, e3⟩ := hdir
        rw [hs] at e1
        cases e1
        have hrec : m ∈ (receives ts).map (·.1) := List.mem_map_of_mem (f := (·.1)) e2
        refine ⟨hc, hif.1, rfl, hif.2.1, m, rfl, hs, mem_dataOf.1 hif.2.2, ?_, hrec⟩
        rintro rfl
        exact hw.once.2.2 _ (e3 _ hif.2.1) hrec
      · cases he

/-- **C119.** In an accepted participant no data of a received mesh is the target of two mappings. -/
theorem C119_write_targets {k : Setup ν} {ts : List (Tag ν)} {r : Result ν} (h : configure k ts = .ok r)
    (c c' : Ctx ν) (hc : c ∈ r.writes) (hc' : c' ∈ r.writes) (a a' : Attached ν) (ha : a ∈ c.maps)
    (ha' : a' ∈ c'.maps) (he : a.toData = a'.toData) : a = a' := by
  obtain ⟨hw, rfl⟩ := wellFormed_of_ok h
  obtain ⟨d, hd, rfl⟩ := List.mem_map.1 hc
  obtain ⟨d', hd', rfl⟩ := List.mem_map.1 hc'
  obtain ⟨b, hb, e⟩ := List.mem_filterMap.1 ha
  obtain ⟨b', hb', e'⟩ := List.mem_filterMap.1 ha'
  cases hs : b.dst with
  | none => rw [hs] at e; cases e
  | some m =>
    rw [hs] at e
    simp only at e
    split at e
    swap
    · cases e
    rename_i hif
    cases e
    cases hs' : b'.dst with
    | none => rw [hs'] at e'; cases e'
    | some m' =>
      rw [hs'] at e'
      simp only at e'
      split at e'
      swap
      · cases e'
      rename_i hif'
      cases e'
      obtain ⟨rfl, h2⟩ := Prod.mk.inj he
      -- the mappings are the same, or it would not be clear which one is meant
      have hbb : b = b' := by
        by_contra hne
        have key : ∀ x y : Conf ν, x ∈ mappings ts → y ∈ mappings ts → x ≠ y →
            ¬ Unclear k ts x y ∨ ¬ Unclear k ts y x := by
          have hp := hw.clear
          intro x y hx hy hne
          obtain ⟨pre, post, e⟩ := List.append_of_mem hx
          rw [e] at hy hp
          rcases List.mem_append.1 hy with hy | hy
          · exact .inr ((List.pairwise_append.1 hp).2.2 y hy x List.mem_cons_self)
          · rcases List.mem_cons.1 hy with rfl | hy
            · exact absurd rfl hne
            · exact .inl ((List.pairwise_cons.1 (List.pairwise_append.1 hp).2.1).1 y hy)
        have g : HasData k d.1 d.2 := hw.data d (.inl hd)
        have g' : HasData k d'.1 d'.2 := hw.data d' (.inl hd')
        rcases key b b' hb hb' hne with hk | hk <;> apply hk
        · exact ⟨m, d.1, d'.1, d.2, hs, hs', hif.2.1, hif'.2.1, g, h2 ▸ g', d.1, by
            rw [if_pos hif'.1]; exact hd⟩
        · exact ⟨m, d'.1, d.1, d.2, hs', hs, hif'.2.1, hif.2.1, h2 ▸ g', g, d.1, by
            rw [if_pos hif.1]; exact hd⟩
      subst hbb
      have h1 : d.1 = d'.1 := Option.some.inj (hif.2.1.symm.trans hif'.2.1)
      have : d = d' := Prod.ext h1 h2
      subst this
      rfl

/-- **C119.** Each mapping of an accepted participant between two meshes is used for at least one
data. -/
theorem C119_useful {k : Setup ν} {ts : List (Tag ν)} {r : Result ν} (h : configure k ts = .ok r)
    (m : Conf ν) (hm : m ∈ mappings ts) (hs : m.src ≠ none) (hd : m.dst ≠ none) :
    ∃ c ∈ if m.write then r.writes else r.reads, ∃ a ∈ c.maps, a.conf = m := by
  obtain ⟨hw, rfl⟩ := wellFormed_of_ok h
  have hu := hw.useful m hm
  unfold Useful at hu
  cases hmw : m.write with
  | true =>
    rw [if_pos hmw] at hu
    obtain ⟨x, hx, hn | ⟨e1, b, e2, e3⟩⟩ := hu
    · exact absurd hn hs
    · refine ⟨expectedWrite k ts x, List.mem_map_of_mem hx, ⟨m, x, (b, x.2)⟩, ?_, rfl⟩
      refine List.mem_filterMap.2 ⟨m, hm, ?_⟩
      rw [e2]
      simp only
      rw [if_pos ⟨hmw, e1, mem_dataOf.2 e3⟩]
  | false =>
    rw [if_neg (by simp [hmw])] at hu
    obtain ⟨x, hx, hn | ⟨e1, b, e2, e3⟩⟩ := hu
    · exact absurd hn hd
    · refine ⟨expectedRead k ts x, List.mem_map_of_mem hx, ⟨m, (b, x.2), x⟩, ?_, rfl⟩
      refine List.mem_filterMap.2 ⟨m, hm, ?_⟩
      rw [e2]
      simp only
      rw [if_pos ⟨hmw, e1, mem_dataOf.2 e3⟩]

end Verif.Config.Part
