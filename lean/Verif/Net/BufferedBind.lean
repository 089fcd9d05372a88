import Verif.Net.Rendezvous

/-!
# Buffered networks one after the other
-/

set_option autoImplicit false

namespace Verif.Net

variable {ι M α β : Type} [DecidableEq ι]

/-- All programs go on. -/
def andThen (n : Net ι M α) (f : ι → α → Prog ι M β) : Net ι M β := ⟨fun i => (n.procs i).bind (f i), n.chan⟩

theorem stepAt_andThen {i : ι} {n n' : Net ι M α} (h : stepAt i n = some n') (f : ι → α → Prog ι M β) : stepAt i (n.andThen f) = some (n'.andThen f) := by
  have key : ∀ k : Prog ι M α, (fun j => (Function.update n.procs i k j).bind (f j)) = Function.update (fun j => (n.procs j).bind (f j)) i (k.bind (f i)) := by
    intro k
    funext j
    by_cases hj : j = i
    · subst hj; simp
    · simp [hj]
  unfold stepAt at h ⊢
  unfold andThen
  simp only
  cases hp : n.procs i with
  | ret x => simp [hp] at h
  | fail e => simp [hp] at h
  | send dst m k =>
    simp only [hp, Option.some.injEq] at h
    subst h
    simp only [Prog.send_bind, key]
  | recv src k =>
    simp only [hp] at h
    simp only [Prog.recv_bind]
    cases hc : n.chan (src, i) with
    | nil => simp [hc] at h
    | cons m rest =>
      simp only [hc, Option.some.injEq] at h
      subst h
      simp only [key]

theorem Steps.andThen {k : ℕ} {n n' : Net ι M α} (h : Steps k n n') (f : ι → α → Prog ι M β) : Steps k (n.andThen f) (n'.andThen f) := by
  induction h with
  | refl n => exact .refl _
  | head hs _ ih =>
    obtain ⟨i, hi⟩ := hs
    exact .head ⟨i, stepAt_andThen hi f⟩ ih

theorem AlwaysCompletes.bind {p : ι → Prog ι M α} {r : ι → α} (hp : AlwaysCompletes (RNet.toNet p) r) {f : ι → α → Prog ι M β} {s : ι → β}
    (hf : AlwaysCompletes (RNet.toNet fun i => f i (r i)) s) : AlwaysCompletes (RNet.toNet fun i => (p i).bind (f i)) s := by
  obtain ⟨k, q, hd, hs, -⟩ := hp
  obtain ⟨k', q', hd', hs', -⟩ := hf
  have h1 := hs.andThen f
  have h2 : q.andThen f = RNet.toNet fun i => f i (r i) := by
    unfold Net.andThen RNet.toNet
    congr 1
    · funext i; rw [hd.1 i]; rfl
    · funext c; exact hd.2 c
  rw [h2] at h1
  exact alwaysCompletes_of_steps (h1.trans hs') hd'

theorem completes_ret {r : ι → α} : AlwaysCompletes (RNet.toNet fun i => (.ret (r i) : Prog ι M α)) r := alwaysCompletes_of_steps (.refl _) ⟨fun _ => rfl, fun _ => rfl⟩

end Verif.Net
