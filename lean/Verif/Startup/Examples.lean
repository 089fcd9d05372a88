import Verif.Startup.Props
import Mathlib.Data.Fin.VecNotation

/-!
# Examples for C110
-/

set_option autoImplicit false

namespace Verif.Startup

/-- Three participants in a triangle; the first one gives a mesh to both others and gets one from each; the configured order is not that of the names. -/
def triangle : Setup 3 (List ℕ) (ℕ × ℕ) ℕ where
  links := [⟨1, 0, true⟩, ⟨2, 1, false⟩, ⟨0, 2, true⟩]
  order := [2, 0, 1]
  provided := ![[5], [1], [3, 9]]
  received := ![[(1, 1), (3, 2)], [(5, 0)], [(5, 0)]]
  meshId := fun m => m + 7
  content := fun p m => [p.val, m]
  size := List.length
  dist := fun p got m => (p.val * 100 + got.length, m)
  info := fun _ => 42
  wait := true

theorem triangle_checked : Checked triangle where
  unique := by decide
  known := by decide
  named := by decide
  linked := by
    have h : ∀ p, ∀ x ∈ triangle.received p, (∃ l ∈ triangle.links, (l.acceptor = p ∧ l.connector = x.2) ∨ (l.acceptor = x.2 ∧ l.connector = p)) ∧ x.2 ≠ p := by decide
    intro p m q hm
    exact h p (m, q) hm
  once := by decide
  ids := fun a b h => Nat.add_right_cancel h
  filled := fun _ _ _ _ => Nat.zero_lt_succ _
  info := fun _ _ => rfl

theorem triangle_sound : Sound triangle where
  other := by decide
  offered := by
    have h : ∀ p, ∀ x ∈ triangle.received p, x.1 ∈ triangle.provided x.2 := by decide
    intro p m q hm
    exact h p (m, q) hm

example : ∃ k, RNet.AlwaysCompletes (start triangle) k ∧ Net.AlwaysCompletes (RNet.toNet (start triangle)) k ∧ Informed triangle k :=
  C110_initialize triangle triangle_checked triangle_sound

/-- What the first participant knows: both meshes, and for its point-to-point partners their distributions of the meshes shared with them, in the order of the mesh IDs. -/
example : known triangle 0 = ([(1, [1, 1]), (3, [2, 3])], [(1, 1, (101, 1)), (1, 5, (101, 5)), (2, 3, (201, 3)), (2, 5, (201, 5))]) := by decide +kernel

example : RNet.AlwaysCompletes (finalize triangle) (fun _ => ()) := (C110_finalize triangle triangle_sound).1

/-- A coupling in which the first participant tells the others how many meshes it has. -/
def tell (p : Fin 3) (k : Known 3 (List ℕ) (ℕ × ℕ)) : Do 3 (List ℕ) (ℕ × ℕ) ℕ ℕ :=
  if p = 0 then .send 1 (.info k.1.length) (.send 2 (.info k.1.length) (.ret k.1.length))
  else .recv 0 fun | .info i => .ret i | _ => .fail .assert

theorem tell_completes (k : Fin 3 → Known 3 (List ℕ) (ℕ × ℕ)) (hk : Informed triangle k) : RNet.AlwaysCompletes (fun p => tell p (k p)) fun _ => 2 := by
  have hl : (k 0).1.length = 2 := (hk.meshes 0).length_eq
  have h := (Ordered.Agreed.completes (R := ℕ) (s := ![[(0, 1, [(true, Msg.info 2)]), (1, 2, [(true, Msg.info 2)])], [(0, 0, [(false, Msg.info 2)])], [(1, 0, [(false, Msg.info 2)])]])
    (p := fun p => tell p (k p)) (r := fun _ => 2) ⟨?_, ?_⟩ ?_)
  · obtain ⟨n, h⟩ := h
    exact RNet.alwaysCompletes_of_steps h fun _ => rfl
  · intro i
    match i with
    | 0 => exact List.pairwise_cons.2 ⟨by simp, List.pairwise_singleton _ _⟩
    | 1 => exact List.pairwise_singleton _ _
    | 2 => exact List.pairwise_singleton _ _
  · intro i j r t h
    match i with
    | 0 =>
      rcases List.mem_cons.1 h with h | h
      · cases h; exact List.mem_singleton.2 rfl
      · cases List.mem_singleton.1 h; exact List.mem_singleton.2 rfl
    | 1 => cases List.mem_singleton.1 h; exact List.mem_cons.2 (.inl rfl)
    | 2 => cases List.mem_singleton.1 h; exact List.mem_cons.2 (.inr (List.mem_singleton.2 rfl))
  · intro i
    match i with
    | 0 =>
      show Ordered.Follows (tell 0 (k 0)) _ _
      unfold tell
      rw [if_pos rfl, hl]
      exact Ordered.Follows.send (1 : Fin 3) (Msg.info 2) (Ordered.Follows.send (2 : Fin 3) (Msg.info 2) (.ret _))
    | 1 => exact Ordered.Follows.recv (0 : Fin 3) (Msg.info 2) (.ret _)
    | 2 => exact Ordered.Follows.recv (0 : Fin 3) (Msg.info 2) (.ret _)

example : RNet.AlwaysCompletes (fun p => (start triangle p).bind fun k => (tell p k).bind fun a => (finalize triangle p).bind fun _ => .ret a) fun _ => 2 :=
  C110_run triangle triangle_checked triangle_sound tell _ tell_completes

/-- One participant has another configuration. -/
def mixed : Setup 3 (List ℕ) (ℕ × ℕ) ℕ := { triangle with info := fun p => if p = 1 then 41 else 42 }

example (k : ℕ) (f : Net (Fin 3) (Msg (List ℕ) (ℕ × ℕ) ℕ) (Known 3 (List ℕ) (ℕ × ℕ))) (h : Net.Steps k (RNet.toNet (start mixed)) f) (a : Known 3 (List ℕ) (ℕ × ℕ)) :
    f.procs 0 ≠ .ret a ∧ f.procs 1 ≠ .ret a :=
  ⟨C110_mismatch mixed 0 1 ⟨⟨1, 0, true⟩, by simp [mixed, triangle], .inr ⟨rfl, rfl⟩⟩ (by decide) k f h a,
    C110_mismatch mixed 1 0 ⟨⟨1, 0, true⟩, by simp [mixed, triangle], .inl ⟨rfl, rfl⟩⟩ (by decide) k f h a⟩

/-- A link from a participant to itself, which the configuration accepts. -/
def looped : Setup 3 (List ℕ) (ℕ × ℕ) ℕ := { triangle with links := ⟨1, 1, true⟩ :: triangle.links }

example : ∀ p, accepted looped p = true := by decide +kernel

example (k : ℕ) (f : Net (Fin 3) (Msg (List ℕ) (ℕ × ℕ) ℕ) (Known 3 (List ℕ) (ℕ × ℕ))) (h : Net.Steps k (RNet.toNet (start looped)) f) (a : Known 3 (List ℕ) (ℕ × ℕ)) :
    f.procs 1 ≠ .ret a :=
  C110_self_link looped 1 ⟨⟨1, 1, true⟩, by simp [looped], .inl ⟨rfl, rfl⟩⟩ k f h a

/-- The second participant receives from the third one a mesh that only the first one provides; the configuration accepts it. -/
def missing : Setup 3 (List ℕ) (ℕ × ℕ) ℕ := { triangle with received := ![[(1, 1), (3, 2)], [(5, 2)], [(5, 0)]] }

example : ∀ p, accepted missing p = true := by decide +kernel

example (k : ℕ) (f : Net (Fin 3) (Msg (List ℕ) (ℕ × ℕ) ℕ) (Known 3 (List ℕ) (ℕ × ℕ))) (h : Net.Steps k (RNet.toNet (start missing)) f) (a : Known 3 (List ℕ) (ℕ × ℕ)) :
    f.procs 1 ≠ .ret a :=
  C110_not_provided missing 1 2 5 (by simp [missing]) (by
    have : ∀ x ∈ missing.received 1, x.2 = 2 → x.1 ∉ missing.provided 2 := by decide
    intro m hm
    exact this (m, 2) hm rfl) k f h a

end Verif.Startup
