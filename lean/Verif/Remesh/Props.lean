import Verif.Remesh.Lemmas

/-!
# C134: data of meshes that change

For both parallel schemes, with or without substeps, for direct access, read and write mappings, all sequences of
windows, iterations and mesh changes.
-/

set_option autoImplicit false

namespace Verif.Remesh

variable {α : Type}

/-- Whatever the users do and whichever meshes they reset, no sample of a wrong size is ever mapped or sent, and all
samples that are kept have the size of the mesh they are on. -/
theorem C134_sizes (c : Config α) (nS nR : ℕ) {b : ℚ} (hb : 0 < b) (is : List (Input α))
    (hv : ValidAll c.implicit is 0 b) : ∃ s, run c is (start c nS nR b) = some s ∧ Sized c s := by
  obtain ⟨s, e, h⟩ := inv_run is (inv_start c nS nR hb) hv
  exact ⟨s, e, h.sized⟩

theorem inv_reach {c : Config α} {nS nR : ℕ} {b : ℚ} (hb : 0 < b) {is : List (Input α)}
    (hv : ValidAll c.implicit is 0 b) {s : State α} (hr : run c is (start c nS nR b) = some s) : Inv c s := by
  obtain ⟨s', e, h⟩ := inv_run is (inv_start c nS nR hb) hv
  rw [hr] at e
  rwa [Option.some.inj e]

/-- At the end of a window of an explicit scheme, and of the last iteration of an implicit one, reading gives the last
value written, mapped between the meshes as they are now, whatever meshes have been reset before or in this window. -/
theorem C134_window (c : Config α) {nS nR : ℕ} {b : ℚ} (hb : 0 < b) {is : List (Input α)}
    (hv : ValidAll c.implicit is 0 b) {s : State α} (hr : run c is (start c nS nR b) = some s)
    {i : Input α} (hi : i.Valid s.start s.stop) (hc : c.implicit = false ∨ i.conv = true) :
    ∃ s', step c i s = some s' ∧ s'.start = s.stop ∧ s'.nS = newS i s.nS ∧ s'.nR = newR i s.nR ∧
      ∀ t, valueAt (s'.readable c) t = some (seen c s'.nS s'.nR i.v) := by
  have h := inv_reach hb hv hr
  obtain ⟨_, _, h2, h3, h4⟩ := mid h hi
  refine ⟨_, step_eq h hi, ?_⟩
  have : i.complete c = true := by rcases hc with hc | hc <;> simp [Input.complete, hc]
  simp only [this, if_true]
  refine ⟨h2, h3, h4, fun t => ?_⟩
  rw [readable_complete]
  rfl

/-- At the end of every iteration, reading at the end of the window gives the last value written, mapped between the
meshes as they are now, whatever meshes have been reset. -/
theorem C134_end (c : Config α) {nS nR : ℕ} {b : ℚ} (hb : 0 < b) {is : List (Input α)}
    (hv : ValidAll c.implicit is 0 b) {s : State α} (hr : run c is (start c nS nR b) = some s)
    {i : Input α} (hi : i.Valid s.start s.stop) :
    ∃ s', step c i s = some s' ∧ s'.nS = newS i s.nS ∧ s'.nR = newR i s.nR ∧
      valueAt (s'.readable c) s.stop = some (seen c s'.nS s'.nR i.v) := by
  have h := inv_reach hb hv hr
  obtain ⟨s', e, h', hS, hR, _⟩ := inv_step h hi
  obtain ⟨_, _, h2, h3, h4⟩ := mid h hi
  refine ⟨s', e, hS, hR, valueAt_mem (readable_nodup h') ?_⟩
  rw [step_eq h hi] at e
  rw [hS, hR, ← h2, ← h3, ← h4, ← Option.some.inj e]
  split_ifs
  · rw [readable_complete]; simp
  · exact readable_repeat_end _ _ _

/-- A window that is repeated without resetting a mesh: the reader has what it had until the start of the window, followed
by the values written in this iteration. -/
theorem C134_repeat (c : Config α) {nS nR : ℕ} {b : ℚ} (hb : 0 < b) {is : List (Input α)}
    (hv : ValidAll c.implicit is 0 b) {s : State α} (hr : run c is (start c nS nR b) = some s)
    {i : Input α} (hi : i.Valid s.start s.stop) (hc : c.implicit = true) (hn : i.conv = false)
    (hS : i.chS = none) (hR : i.chR = none) :
    ∃ s', step c i s = some s' ∧ s'.start = s.start ∧
      s'.readable c = (s.readable c).trimAfter s.start ++
        (written c i s.stop).map fun x => (x.1, seen c s.nS s.nR x.2) := by
  have h := inv_reach hb hv hr
  obtain ⟨_, h1, _⟩ := mid h hi
  refine ⟨_, step_eq h hi, ?_⟩
  have : i.complete c = false := by simp [Input.complete, hc, hn]
  simp only [this, Bool.false_eq_true, if_false]
  exact ⟨h1, readable_repeat h hi hS hR⟩

/-- Windows that are repeated without resetting a mesh. -/
def Repeats (is : List (Input α)) : Prop := ∀ i ∈ is, i.conv = false ∧ i.chS = none ∧ i.chR = none

/-- The value at the start of the window stays the same in all its iterations as long as no mesh is reset. Without that
the claim is false, see `C134_lost` and `C134_zero`. -/
theorem C134_start_partial (c : Config α) {nS nR : ℕ} {b : ℚ} (hb : 0 < b) {is : List (Input α)}
    (hv : ValidAll c.implicit is 0 b) {s : State α} (hr : run c is (start c nS nR b) = some s)
    (hc : c.implicit = true) {x : Sample α} (hx : (s.start, x) ∈ s.readable c)
    {js : List (Input α)} (hj : ValidAll c.implicit js s.start s.stop) (hrep : Repeats js) :
    ∃ s', run c js s = some s' ∧ s'.start = s.start ∧ valueAt (s'.readable c) s.start = some x := by
  have h := inv_reach hb hv hr
  clear hr hv
  induction js generalizing s with
  | nil => exact ⟨s, rfl, rfl, valueAt_mem (readable_nodup h) hx⟩
  | cons j js ih =>
    have hj0 := hrep j (by simp)
    obtain ⟨s1, e1, hi1, _, _, hw⟩ := inv_step h hj.1
    rw [if_pos ⟨hc, hj0.1⟩] at hw
    have hs1 : s1.start = s.start := (Prod.mk.inj hw).1
    have ht1 : s1.stop = s.stop := (Prod.mk.inj hw).2
    have hx1 : (s1.start, x) ∈ s1.readable c := by
      have e := e1
      rw [step_eq h hj.1] at e
      have : j.complete c = false := by simp [Input.complete, hc, hj0.1]
      simp only [this, Bool.false_eq_true, if_false] at e
      rw [hs1, ← Option.some.inj e, readable_repeat h hj.1 hj0.2.1 hj0.2.2, List.mem_append]
      exact Or.inl (List.mem_filter.2 ⟨hx, by simp⟩)
    have hj2 : ValidAll c.implicit js s1.start s1.stop := by
      have := hj.2
      rw [if_pos ⟨hc, hj0.1⟩] at this
      rw [hs1, ht1]
      exact this
    obtain ⟨s2, e2, hs2, hv2⟩ := ih hx1 hj2 (fun i hi => hrep i (by simp [hi])) hi1
    exact ⟨s2, by simp [run, e1, e2], hs2.trans hs1, hs1 ▸ hv2⟩

/-- If only the sender resets its mesh and the reader maps, the reader keeps its value at the start of the window. -/
theorem C134_sender (c : Config α) {nS nR : ℕ} {b : ℚ} (hb : 0 < b) {is : List (Input α)}
    (hv : ValidAll c.implicit is 0 b) {s : State α} (hr : run c is (start c nS nR b) = some s)
    {i : Input α} (hi : i.Valid s.start s.stop) (hc : c.implicit = true) (hn : i.conv = false)
    (hk : c.kind = .read) {n : ℕ} (hS : i.chS = some n) (hR : i.chR = none) :
    ∃ s', step c i s = some s' ∧
      s'.readable c = (s.readable c).trimAfter s.start ++ [(s.stop, seen c n s.nR i.v)] := by
  have h := inv_reach hb hv hr
  refine ⟨_, step_eq h hi, ?_⟩
  have : i.complete c = false := by simp [Input.complete, hc, hn]
  simp only [this, Bool.false_eq_true, if_false]
  rw [stepSubs_eq h hi]
  have hnil : ∀ z : Sample α, Wave.setAll [] z = [] := fun _ => rfl
  simp [stepRemesh, resetReader, resetSender, hS, hR, Input.remeshed, clearReceived, hk, reinitialize, hc, hnil,
    State.readable, finRepeat, before, base, seen]

/-- **The value at the start of the window is lost.** If the reader resets its mesh, or any mesh is reset and the reader
accesses the mesh of the sender directly, and only the ends of windows are exchanged, then a reader that repeats the
window gets the value of its end at all times. -/
theorem C134_lost (c : Config α) {nS nR : ℕ} {b : ℚ} (hb : 0 < b) {is : List (Input α)}
    (hv : ValidAll c.implicit is 0 b) {s : State α} (hr : run c is (start c nS nR b) = some s)
    {i : Input α} (hi : i.Valid s.start s.stop) (hc : c.implicit = true) (hn : i.conv = false)
    (hsub : c.substeps = false)
    (hk : i.chR.isSome = true ∨ (c.kind = .direct ∧ i.chS.isSome = true)) :
    ∃ s', step c i s = some s' ∧ s'.start = s.start ∧
      ∀ t, valueAt (s'.readable c) t = some (seen c s'.nS s'.nR i.v) := by
  have h := inv_reach hb hv hr
  obtain ⟨_, h1, _⟩ := mid h hi
  refine ⟨_, step_eq h hi, ?_⟩
  have : i.complete c = false := by simp [Input.complete, hc, hn]
  simp only [this, Bool.false_eq_true, if_false]
  refine ⟨h1, fun t => ?_⟩
  rw [stepSubs_eq h hi]
  have hnil : ∀ z : Sample α, Wave.setAll [] z = [] := fun _ => rfl
  have hnil' : Wave.trimAfter ([] : Wave α) s.start = [] := rfl
  cases hS : i.chS <;> cases hR : i.chR <;> cases hkk : c.kind <;>
    simp [hS, hR, hkk, stepRemesh, resetReader, resetSender, Input.remeshed, clearReceived, reinitialize, hc, hnil,
      hnil', State.readable, finRepeat, before, hsub, seen, lastSent, valueAt] at hk ⊢

/-- **Zeros replace what has been written.** If the reader resets its mesh and the sender does not, and substeps are
exchanged, then a reader that repeats the window gets zeros for the start of the window and all time steps before its
end, although the sender has written values there. -/
theorem C134_zero (c : Config α) {nS nR : ℕ} {b : ℚ} (hb : 0 < b) {is : List (Input α)}
    (hv : ValidAll c.implicit is 0 b) {s : State α} (hr : run c is (start c nS nR b) = some s)
    {i : Input α} (hi : i.Valid s.start s.stop) (hc : c.implicit = true) (hn : i.conv = false)
    (hsub : c.substeps = true) (hk : c.kind ≠ .write) (hS : i.chS = none) {n : ℕ} (hR : i.chR = some n) :
    ∃ s', step c i s = some s' ∧ ∀ x ∈ i.subs, valueAt (s'.readable c) x.1 = some (seen c s.nS n c.zero) := by
  have h := inv_reach hb hv hr
  obtain ⟨s', e, h', _⟩ := inv_step h hi
  refine ⟨s', e, fun x hx => valueAt_mem (readable_nodup h') ?_⟩
  rw [step_eq h hi] at e
  have : i.complete c = false := by simp [Input.complete, hc, hn]
  simp only [this, Bool.false_eq_true, if_false] at e
  rw [← Option.some.inj e, stepSubs_eq h hi]
  have hnil' : Wave.trimAfter ([] : Wave α) s.start = [] := rfl
  have hm : (x.1, (⟨s.nS, c.zero⟩ : Sample α)) ∈ Wave.setAll (s.src ++ pre c i s.nS) ⟨s.nS, c.zero⟩ := by
    refine List.mem_map.2 ⟨(x.1, ⟨s.nS, x.2⟩), List.mem_append.2 (Or.inr ?_), rfl⟩
    simp only [pre, hsub, if_true]
    exact List.mem_map.2 ⟨x, hx, rfl⟩
  cases hkk : c.kind
  · simp only [stepRemesh, resetReader, resetSender, hS, hR, Input.remeshed, Option.isSome, Bool.false_or, if_true,
      clearReceived, hkk, reinitialize, hc, State.readable, finRepeat, before, hsub, base, seen]
    exact List.mem_append.2 (Or.inl hm)
  · simp only [stepRemesh, resetReader, resetSender, hS, hR, Input.remeshed, Option.isSome, Bool.false_or, if_true,
      clearReceived, hkk, reinitialize, hc, State.readable, finRepeat, before, hsub, base, seen, hnil']
    refine List.mem_append.2 (Or.inl (List.mem_append.2 (Or.inr ?_)))
    exact List.mem_map.2 ⟨_, List.mem_filter.2 ⟨hm, by simp⟩, rfl⟩
  · exact absurd hkk hk

/-- **The same for the value at the start of the window**, if the sender has one. -/
theorem C134_zero_start (c : Config α) {nS nR : ℕ} {b : ℚ} (hb : 0 < b) {is : List (Input α)}
    (hv : ValidAll c.implicit is 0 b) {s : State α} (hr : run c is (start c nS nR b) = some s)
    {i : Input α} (hi : i.Valid s.start s.stop) (hc : c.implicit = true) (hn : i.conv = false)
    (hsub : c.substeps = true) (hk : c.kind ≠ .write) (hS : i.chS = none) {n : ℕ} (hR : i.chR = some n)
    (hx : s.start ∈ s.src.times) :
    ∃ s', step c i s = some s' ∧ valueAt (s'.readable c) s.start = some (seen c s.nS n c.zero) := by
  have h := inv_reach hb hv hr
  obtain ⟨s', e, h', _⟩ := inv_step h hi
  refine ⟨s', e, valueAt_mem (readable_nodup h') ?_⟩
  rw [step_eq h hi] at e
  have : i.complete c = false := by simp [Input.complete, hc, hn]
  simp only [this, Bool.false_eq_true, if_false] at e
  rw [← Option.some.inj e, stepSubs_eq h hi]
  have hnil' : Wave.trimAfter ([] : Wave α) s.start = [] := rfl
  have hm : (s.start, (⟨s.nS, c.zero⟩ : Sample α)) ∈ Wave.setAll (s.src ++ pre c i s.nS) ⟨s.nS, c.zero⟩ := by
    obtain ⟨y, hy, e⟩ := List.mem_map.1 hx
    exact List.mem_map.2 ⟨y, List.mem_append.2 (Or.inl hy), by rw [e]⟩
  cases hkk : c.kind
  · simp only [stepRemesh, resetReader, resetSender, hS, hR, Input.remeshed, Option.isSome, Bool.false_or, if_true,
      clearReceived, hkk, reinitialize, hc, State.readable, finRepeat, before, hsub, base, seen]
    exact List.mem_append.2 (Or.inl hm)
  · simp only [stepRemesh, resetReader, resetSender, hS, hR, Input.remeshed, Option.isSome, Bool.false_or, if_true,
      clearReceived, hkk, reinitialize, hc, State.readable, finRepeat, before, hsub, base, seen, hnil']
    refine List.mem_append.2 (Or.inl (List.mem_append.2 (Or.inr ?_)))
    exact List.mem_map.2 ⟨_, List.mem_filter.2 ⟨hm, by simp⟩, rfl⟩
  · exact absurd hkk hk

end Verif.Remesh
