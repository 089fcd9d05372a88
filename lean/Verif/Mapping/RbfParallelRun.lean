import Verif.Mapping.RbfParallel
import Mathlib.Algebra.BigOperators.Group.List.Basic

/-!
What the ranks of a radial basis function mapping exchange (C96): the gathered meshes and values, and the slices which the
ranks get back.
-/

set_option autoImplicit false

namespace Verif.Rbf

variable {n b : ℕ}

/-- All ranks, in the order in which their contributions are gathered. -/
abbrev allRanks (n : ℕ) : List (Fin (n + 1)) := List.finRange (n + 1)

theorem allRanks_eq (n : ℕ) : allRanks n = 0 :: secondaries n := List.finRange_succ

theorem foldl_append {ι α : Type} (f : ι → List α) (l : List ι) : ∀ s : List α, l.foldl (fun s r => s ++ f r) s = s ++ l.flatMap f := by
  induction l with
  | nil => simp
  | cons r l ih => intro s; rw [List.foldl_cons, ih, List.flatMap_cons, List.append_assoc]

theorem foldl_append₂ {ι α β : Type} (f : ι → List α) (h : ι → List β) (l : List ι) :
    ∀ s : List α × List β, l.foldl (fun s r => (s.1 ++ f r, s.2 ++ h r)) s = (s.1 ++ l.flatMap f, s.2 ++ l.flatMap h) := by
  induction l with
  | nil => simp
  | cons r l ih => intro s; rw [List.foldl_cons, ih, List.flatMap_cons, List.flatMap_cons, List.append_assoc, List.append_assoc]

theorem foldl_sum {ι : Type} (f : ι → ℕ) (l : List ι) : ∀ s : ℕ, l.foldl (fun s r => s + f r) s = s + (l.map f).sum := by
  induction l with
  | nil => simp
  | cons r l ih => intro s; rw [List.foldl_cons, ih, List.map_cons, List.sum_cons, Nat.add_assoc]

/-- Where the part of a rank begins. -/
def offset (size : Fin (n + 1) → ℕ) (r : Fin (n + 1)) : ℕ := (((allRanks n).takeWhile (· ≠ r)).map size).sum

/-- A concatenation is cut into its parts. -/
theorem slice_flatMap {ι α : Type} [DecidableEq ι] (p : ι → List α) {r : ι} : ∀ {l : List ι}, r ∈ l →
    ((l.flatMap p).drop (((l.takeWhile (· ≠ r)).map fun i => (p i).length).sum)).take (p r).length = p r
  | a :: l, hr => by
    by_cases ha : a = r
    · subst ha
      simp
    · have hr' : r ∈ l := (List.mem_cons.1 hr).resolve_left (Ne.symm ha)
      rw [List.takeWhile_cons_of_pos (by simpa using ha), List.map_cons, List.sum_cons, List.flatMap_cons, ← List.drop_drop, List.drop_left]
      exact slice_flatMap p hr'

theorem sizes_getD (size : Fin (n + 1) → ℕ) (r : Fin (n + 1)) : ((allRanks n).map size).getD r 0 = size r := by
  rw [List.getD_eq_getElem?_getD, List.getElem?_map, List.getElem?_eq_getElem (by rw [List.length_finRange]; exact r.2), List.getElem_finRange]
  rfl

variable {share : Fin (n + 1) → Share b} {limit : Option ℕ} {solve : List Point → List Point → Option (List (Row b) → Option (List (Row b)))}
  {fin0 : ℕ → List (Row b) → Option (List (Row b))} {fin : Fin (n + 1) → List (Row b) → Option (List (Row b))}

/-- All ranks. -/
def jobs (share : Fin (n + 1) → Share b) (limit : Option ℕ) (solve : List Point → List Point → Option (List (Row b) → Option (List (Row b))))
    (fin0 : ℕ → List (Row b) → Option (List (Row b))) (fin : Fin (n + 1) → List (Row b) → Option (List (Row b))) (r : Fin (n + 1)) : Job n b :=
  if r = 0 then primary (share 0) limit solve fin0 else secondary (share r) (fin r)

/-- After the gathered values: the rest of the primary rank. -/
def afterValues (limit : Option ℕ) (f : List (Row b) → Option (List (Row b))) (fin0 : ℕ → List (Row b) → Option (List (Row b))) (v : List (Row b) × List ℕ) : Job n b :=
  Prog.ensure .assert (∀ k, limit = some k → v.1.length ≤ k) <|
  (f v.1).elim (.fail .assert) fun out =>
  (fin0 (v.2.getD 0 0) out).elim (.fail .assert) fun mine =>
  Prog.ensure .assert (v.2.sum ≤ out.length) <|
  scatterSlices out v.2 (.ret mine) (secondaries n) (v.2.getD 0 0)

/-- A secondary rank which waits for its values. -/
def waiting (fin : List (Row b) → Option (List (Row b))) : Job n b :=
  .recv 0 fun
    | .values v => (fin v).elim (.fail .assert) .ret
    | _ => .fail .assert

/-- The meshes arrive in the order of the ranks. -/
theorem meshes_arrive :
    ∃ k, RNet.Steps k (jobs share limit solve fin0 fin) fun r =>
      if r = 0 then (solve ((allRanks n).flatMap fun r => (share r).own) ((allRanks n).flatMap fun r => (share r).outs)).elim (.fail .check) fun f =>
        gatherValues (afterValues limit f fin0) (secondaries n) ((share 0).data, [(share 0).size])
      else .send 0 (.values (share r).data) <| .send 0 (.size (share r).size) <| waiting (fin r) := by
  obtain ⟨k, hk⟩ := star_loop (c := (0 : Fin (n + 1))) (fun (s : List Point × List Point) r => (s.1 ++ (share r).own, s.2 ++ (share r).outs))
    (gatherMeshes (n := n) (b := b) fun m => (solve m.1 m.2).elim (.fail .check) fun f =>
      gatherValues (afterValues limit f fin0) (secondaries n) ((share 0).data, [(share 0).size]))
    (fun r => secondary (share r) (fin r)) (fun r _ => .send 0 (.values (share r).data) <| .send 0 (.size (share r).size) <| waiting (fin r))
    (fun r l s => .bwd (.bwd (.refl _ _))) (secondaries n) (secondaries_nodup n) (zero_notMem_secondaries n) ((share 0).own, (share 0).outs)
    (jobs share limit solve fin0 fin) rfl fun r hr => by rw [jobs, if_neg ((mem_secondaries r).1 hr)]
  refine ⟨k, ?_⟩
  convert hk using 1
  funext r
  by_cases hr : r = 0
  · rw [if_pos hr, if_pos hr, foldl_append₂ (fun r => (share r).own) (fun r => (share r).outs)]
    simp only [gatherMeshes, allRanks_eq, List.flatMap_cons]
  · rw [if_neg hr, if_neg hr, if_pos ((mem_secondaries r).2 hr)]

/-- The values arrive in the order of the ranks. -/
theorem values_arrive (f : List (Row b) → Option (List (Row b))) (p : Fin (n + 1) → Job n b)
    (h0 : p 0 = gatherValues (afterValues limit f fin0) (secondaries n) ((share 0).data, [(share 0).size]))
    (hr : ∀ r, r ≠ 0 → p r = .send 0 (.values (share r).data) (.send 0 (.size (share r).size) (waiting (fin r)))) :
    ∃ k, RNet.Steps k p fun r =>
      if r = 0 then afterValues limit f fin0 ((allRanks n).flatMap fun r => (share r).data, (allRanks n).map fun r => (share r).size) else waiting (fin r) := by
  obtain ⟨k, hk⟩ := star_loop (c := (0 : Fin (n + 1))) (fun (s : List (Row b) × List ℕ) r => (s.1 ++ (share r).data, s.2 ++ [(share r).size]))
    (gatherValues (afterValues limit f fin0)) (fun r => .send 0 (.values (share r).data) (.send 0 (.size (share r).size) (waiting (fin r))))
    (fun r _ => waiting (fin r)) (fun r l s => .bwd (.bwd (.refl _ _))) (secondaries n) (secondaries_nodup n) (zero_notMem_secondaries n)
    ((share 0).data, [(share 0).size]) p h0 fun r h => hr r ((mem_secondaries r).1 h)
  refine ⟨k, ?_⟩
  convert hk using 1
  funext r
  by_cases hr : r = 0
  · rw [if_pos hr, if_pos hr, foldl_append₂ (fun r => (share r).data) (fun r => [(share r).size])]
    have : ∀ l : List (Fin (n + 1)), (l.flatMap fun r => [(share r).size]) = l.map fun r => (share r).size := fun l => by
      induction l with
      | nil => rfl
      | cons a l ih => rw [List.flatMap_cons, ih]; rfl
    simp only [gatherValues, allRanks_eq, List.flatMap_cons, this, List.map_cons]
    rfl
  · rw [if_neg hr, if_neg hr, if_pos ((mem_secondaries r).2 hr)]

/-- If the solver accepts the gathered meshes and values, all ranks finish, each with its slice of the result. -/
theorem jobs_complete (f : List (Row b) → Option (List (Row b))) (out : List (Row b)) (res : Fin (n + 1) → List (Row b))
    (hs : solve ((allRanks n).flatMap fun r => (share r).own) ((allRanks n).flatMap fun r => (share r).outs) = some f)
    (hl : ∀ k, limit = some k → ((allRanks n).flatMap fun r => (share r).data).length ≤ k)
    (hf : f ((allRanks n).flatMap fun r => (share r).data) = some out)
    (hlen : ((allRanks n).map fun r => (share r).size).sum ≤ out.length)
    (h0 : fin0 (share 0).size out = some (res 0))
    (hr : ∀ r, r ≠ 0 → fin r ((out.drop (offset (fun r => (share r).size) r)).take (share r).size) = some (res r)) :
    RNet.AlwaysCompletes (jobs share limit solve fin0 fin) res := by
  obtain ⟨k1, hk1⟩ := meshes_arrive (share := share) (limit := limit) (solve := solve) (fin0 := fin0) (fin := fin)
  obtain ⟨k2, hk2⟩ := values_arrive (share := share) (limit := limit) (fin0 := fin0) (fin := fin) f
    (fun r => if r = 0 then (solve ((allRanks n).flatMap fun r => (share r).own) ((allRanks n).flatMap fun r => (share r).outs)).elim (.fail .check) fun f =>
        gatherValues (afterValues limit f fin0) (secondaries n) ((share 0).data, [(share 0).size])
      else .send 0 (.values (share r).data) <| .send 0 (.size (share r).size) <| waiting (fin r)) (by rw [if_pos rfl, hs]; rfl) fun r h => by rw [if_neg h]
  set sizes := (allRanks n).map fun r => (share r).size with hsizes
  have hd : ∀ r : Fin (n + 1), sizes.getD r 0 = (share r).size := sizes_getD fun r => (share r).size
  have hd0 : sizes.getD 0 0 = (share 0).size := hd 0
  obtain ⟨k3, hk3⟩ := star_loop (c := (0 : Fin (n + 1))) (fun start r => start + (share r).size) (fun l start => scatterSlices out sizes (.ret (res 0)) l start)
    (fun r => waiting (fin r)) (fun r start => (fin r ((out.drop start).take (share r).size)).elim (.fail .assert) .ret) (by
      intro r l s
      rw [scatterSlices, hd r]
      exact .fwd (.refl _ _)) (secondaries n) (secondaries_nodup n) (zero_notMem_secondaries n) (share 0).size
    (fun r => if r = 0 then afterValues limit f fin0 ((allRanks n).flatMap fun r => (share r).data, sizes) else waiting (fin r)) (by
      rw [if_pos rfl, afterValues, Prog.ensure, if_pos hl]
      simp only [hf, Option.elim_some]
      rw [hd0, h0, Option.elim_some, Prog.ensure, if_pos hlen]) fun r h => by rw [if_neg ((mem_secondaries r).1 h)]
  refine RNet.alwaysCompletes_of_steps ((hk1.trans hk2).trans hk3) fun r => ?_
  by_cases h : r = 0
  · subst h
    simp only [if_true, scatterSlices]
  · simp only [h, if_false, if_pos ((mem_secondaries r).2 h)]
    have hv : visit (fun start r => start + (share r).size) (share 0).size (secondaries n) r = offset (fun r => (share r).size) r := by
      unfold visit offset
      rw [foldl_sum fun r => (share r).size, allRanks_eq, List.takeWhile_cons_of_pos (by simpa using Ne.symm h), List.map_cons, List.sum_cons]
    rw [hv, hr r h]
    rfl

/-- If the solver does not accept the gathered values, or they do not fit into the buffer, the mapping never completes. -/
theorem jobs_fail (f : List (Row b) → Option (List (Row b)))
    (hs : solve ((allRanks n).flatMap fun r => (share r).own) ((allRanks n).flatMap fun r => (share r).outs) = some f)
    (hf : (∃ k, limit = some k ∧ k < ((allRanks n).flatMap fun r => (share r).data).length) ∨ f ((allRanks n).flatMap fun r => (share r).data) = none) :
    ∃ k p, RNet.Steps k (jobs share limit solve fin0 fin) p ∧ p 0 = .fail .assert := by
  obtain ⟨k1, hk1⟩ := meshes_arrive (share := share) (limit := limit) (solve := solve) (fin0 := fin0) (fin := fin)
  obtain ⟨k2, hk2⟩ := values_arrive (share := share) (limit := limit) (fin0 := fin0) (fin := fin) f
    (fun r => if r = 0 then (solve ((allRanks n).flatMap fun r => (share r).own) ((allRanks n).flatMap fun r => (share r).outs)).elim (.fail .check) fun f =>
        gatherValues (afterValues limit f fin0) (secondaries n) ((share 0).data, [(share 0).size])
      else .send 0 (.values (share r).data) <| .send 0 (.size (share r).size) <| waiting (fin r)) (by rw [if_pos rfl, hs]; rfl) fun r h => by rw [if_neg h]
  refine ⟨_, _, hk1.trans hk2, ?_⟩
  rw [if_pos rfl, afterValues, Prog.ensure]
  rcases hf with ⟨k, hk, hlt⟩ | hf
  · rw [if_neg fun h => absurd (h k hk) (Nat.not_le.2 hlt)]
  · split
    · simp only [hf, Option.elim_none]
    · rfl

end Verif.Rbf
