import Verif.Dist.TwoLevelInit

/-!
# C116: two-level initialization if nothing overlaps
-/

set_option autoImplicit false

namespace Verif

/-- The same program, which returns the error it stops with: for statements about runs in which some stop. -/
def Prog.attempt {ι M α : Type} : Prog ι M α → Prog ι M (Except Err α)
  | .ret a => .ret (.ok a)
  | .send q m k => .send q m k.attempt
  | .recv q k => .recv q fun m => (k m).attempt
  | .fail e => .ret (.error e)

theorem Prog.attempt_bind {ι M α β : Type} {p : Prog ι M α} {f : α → Prog ι M β} {acts acts' : List (Ordered.Act ι M)} {a : α} {b : Except Err β}
    (h : Ordered.Follows p acts a) (h' : Ordered.Follows (f a).attempt acts' b) : Ordered.Follows (p.bind f).attempt (acts ++ acts') b := by
  induction h with
  | ret => exact h'
  | send q m _ ih => exact .send q m (ih h')
  | recv q m _ ih => exact .recv q m (ih h')

theorem Prog.attempt_ok {ι M α : Type} {p : Prog ι M α} {acts : List (Ordered.Act ι M)} {a : α} (h : Ordered.Follows p acts a) :
    Ordered.Follows p.attempt acts (.ok a) := by
  induction h with
  | ret a => exact .ret _
  | send q m _ ih => exact .send q m ih
  | recv q m _ ih => exact .recv q m ih

namespace TwoLevelInit

open Verif.Dist Verif.Com Verif.Repartition Ordered

variable {d p n : ℕ} {box : Fin (p + 1) → Box d} {bb : Fin (n + 1) → Box d}

/-- The transfers of `compareBoundingBoxes` if nothing overlaps. -/
def noneChoreo (box : Fin (p + 1) → Box d) : Choreo (Ranks p n) (Msg d p n) :=
  ((secondaries p).map fun q => (.inl q, .inl 0, .box (box q))) ++
  ([(.inl 0, .inr 0, .num (p + 1))] ++
  (((secondaries n).map fun q => (.inr 0, .inr q, .num (p + 1))) ++
  ([(.inl 0, .inr 0, .boxes (allBoxes box))] ++
  (((secondaries n).map fun q => (.inr 0, .inr q, .boxes (allBoxes box))) ++
  (((secondaries n).map fun q => (.inr q, .inr 0, .found [])) ++
  ([(.inr 0, .inl 0, .ranks [])] ++
  ((secondaries p).map fun q => (.inl 0, .inl q, .ranks []))))))))

theorem follows_noneProvided (r : Fin (p + 1)) : Follows (compareProvided r (box r)) (part (.inl r : Ranks p n) (noneChoreo box)) [] := by
  unfold compareProvided noneChoreo
  simp only [part_append]
  by_cases hr : r = 0
  · subst hr
    simp only [part_up, part_down, part_lr, part_rl, part_inside_l, if_true, List.nil_append, List.cons_append]
    refine Follows.bind (follows_ask (secondaries p) .inl (fun q => .box (box q)) (res := fun q => (q, box q)) fun q _ => .recv _ _ (.ret _)) ?_
    refine .send _ _ ?_
    rw [← allBoxes_eq]
    refine .send _ _ (.recv _ _ ?_)
    simp only [if_true]
    have := Follows.bind (follows_tell (d := d) (p := p) (n := n) (secondaries p) .inl (Msg.ranks []))
      (f := fun _ => (Prog.ret [] : Do d p n (List Unit)).bind fun _ => .ret (connectedTo (p := p) (n := n) 0 [])) (Follows.ret (connectedTo (p := p) (n := n) 0 []))
    rw [List.append_nil] at this
    exact this
  · simp only [part_up' _ hr, part_down' _ hr, part_lr' _ hr, part_rl' _ hr, part_inside_l, if_neg hr, List.nil_append, List.cons_append]
    refine .send _ _ (.recv _ _ ?_)
    simp only [if_true]
    exact .ret _

theorem follows_noneReceived (h : ∀ r q, (bb q).overlapping (box r) = false) (r : Fin (n + 1)) :
    Follows (compareReceived r (bb r)).attempt (part (.inr r : Ranks p n) (noneChoreo box)) (if r = 0 then .error .check else .ok []) := by
  have hlen : (allBoxes box).length = p + 1 := by simp [allBoxes]
  have ho : ∀ q, overlapped (bb q) (allBoxes box) = [] := fun q => by
    rw [overlapped_all, List.filter_eq_nil_iff]
    intro s _
    simp [h s q]
  unfold noneChoreo
  simp only [part_append]
  by_cases hr : r = 0
  · subst hr
    unfold compareReceived
    simp only [part_up_r, part_down_r, part_lr_r, part_rl_r, part_inside_r, if_true, List.nil_append, List.cons_append, List.append_nil]
    refine .recv _ _ (Prog.attempt_bind (follows_tell (secondaries n) .inr _) (.recv _ _ ?_))
    simp only [Prog.ensure, if_pos hlen]
    refine Prog.attempt_bind (follows_tell (secondaries n) .inr _) ?_
    refine Prog.attempt_bind (follows_ask (secondaries n) .inr _ (res := fun q => (q, [])) fun q _ => .recv _ _ (.ret _)) ?_
    have e : ((0, overlapped (bb 0) (allBoxes box)) :: (secondaries n).map fun q => (q, ([] : List (Fin (p + 1))))).filter (fun x => x.2 ≠ []) = [] := by
      rw [List.filter_eq_nil_iff]
      intro x hx
      rcases List.mem_cons.1 hx with rfl | hx
      · simp [ho]
      · obtain ⟨q, -, rfl⟩ := List.mem_map.1 hx
        simp
    rw [e]
    refine .send _ _ ?_
    rw [if_neg (by simp)]
    exact .ret _
  · rw [if_neg hr]
    refine Prog.attempt_ok ?_
    unfold compareReceived
    simp only [part_up_r' _ hr, part_down_r' _ hr, part_lr_r' _ hr, part_rl_r' _ hr, part_inside_r, if_neg hr, List.nil_append, List.cons_append]
    refine .recv _ _ (.recv _ _ ?_)
    simp only [Prog.ensure, if_pos hlen, ho]
    exact .send _ _ (.ret _)

/-- The first part of two-level initialization on a rank of either participant. -/
def compare (box : Fin (p + 1) → Box d) (bb : Fin (n + 1) → Box d) : Ranks p n → Do d p n (List (Fin (n + 1)) ⊕ List (Fin (p + 1)))
  | .inl r => (compareProvided r (box r)).bind fun l => .ret (.inl l)
  | .inr r => (compareReceived r (bb r)).bind fun l => .ret (.inr l)

theorem attempt_bind_ret {ι M α β : Type} {p : Prog ι M α} (g : α → β) {acts : List (Act ι M)} {a : Except Err α} (h : Follows p.attempt acts a) :
    Follows (p.bind fun x => .ret (g x)).attempt acts (a.map g) := by
  induction p generalizing acts with
  | ret x =>
    cases h
    exact .ret _
  | send q m k ih =>
    cases h with
    | send _ _ h => exact .send q m (ih h)
  | recv q k ih =>
    cases h with
    | recv _ m h => exact .recv q m (ih m h)
  | fail e =>
    cases h
    exact .ret _

/-- If no bounding boxes overlap, the primary rank of the receiver reports an error in every schedule. It is the only one: all ranks of the provider and the other ranks of the
receiver go on without connections. -/
theorem C116_no_overlap (h : ∀ r q, (bb q).overlapping (box r) = false) :
    RNet.AlwaysCompletes (fun i => (compare box bb i).attempt) fun
      | .inl _ => .ok (.inl [])
      | .inr q => if q = 0 then .error .check else .ok (.inr []) := by
  refine choreo_completes (c := noneChoreo box) ?_ ?_
  · have h1 : ∀ q ∈ secondaries p, (Sum.inl q : Ranks p n) ≠ .inl 0 := fun q hq => inl_ne ((mem_secondaries q).1 hq)
    have h2 : ∀ q ∈ secondaries n, (Sum.inr q : Ranks p n) ≠ .inr 0 := fun q hq => inr_ne ((mem_secondaries q).1 hq)
    intro x hx
    simp only [noneChoreo, List.mem_append, List.mem_map, List.mem_singleton] at hx
    rcases hx with ⟨q, hq, rfl⟩ | rfl | ⟨q, hq, rfl⟩ | rfl | ⟨q, hq, rfl⟩ | ⟨q, hq, rfl⟩ | rfl | ⟨q, hq, rfl⟩
    · exact h1 q hq
    · exact Sum.inl_ne_inr
    · exact (h2 q hq).symm
    · exact Sum.inl_ne_inr
    · exact (h2 q hq).symm
    · exact h2 q hq
    · exact Sum.inr_ne_inl
    · exact (h1 q hq).symm
  · rintro (r | q)
    · exact attempt_bind_ret Sum.inl (Prog.attempt_ok (follows_noneProvided r))
    · have := attempt_bind_ret (Sum.inr (α := List (Fin (n + 1)))) (follows_noneReceived h q)
      by_cases hq : q = 0
      · subst hq
        exact this
      · simp only [if_neg hq] at this ⊢
        exact this

/-- Hypothesis of `C116_no_overlap`: boxes of two ranks on each side. -/
example : ∀ r q : Fin 2, ((fun q : Fin 2 => (⟨fun _ => ((2 * q.val : ℕ) : ℚ) + 10, fun _ => 2 * q.val + 11⟩ : Box 1)) q).overlapping
    ((fun r : Fin 2 => (⟨fun _ => ((2 * r.val : ℕ) : ℚ), fun _ => 2 * r.val + 1⟩ : Box 1)) r) = false := by decide +kernel

end TwoLevelInit

end Verif
