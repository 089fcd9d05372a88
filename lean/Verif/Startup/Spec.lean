import Verif.Startup.Model

/-!
# What a set of participants must look like to start together
-/

set_option autoImplicit false

namespace Verif.Startup

variable {n : ℕ} {C D I : Type}

/-- Two participants are linked. -/
def Linked (s : Setup n C D I) (p q : Fin n) : Prop := ∃ l ∈ s.links, (l.acceptor = p ∧ l.connector = q) ∨ (l.acceptor = q ∧ l.connector = p)

/-- Two participants are linked with a point-to-point distribution. -/
def LinkedDirectly (s : Setup n C D I) (p q : Fin n) : Prop := ∃ l ∈ s.links, l.p2p = true ∧ ((l.acceptor = p ∧ l.connector = q) ∨ (l.acceptor = q ∧ l.connector = p))

/-- A mesh is given by a participant to another one. -/
def Gives (s : Setup n C D I) (p q : Fin n) (m : ℕ) : Prop := m ∈ s.provided p ∧ (m, p) ∈ s.received q

/-- What the configuration and `initialize()` check. -/
structure Checked (s : Setup n C D I) : Prop where
  /-- Two participants have only one link. -/
  unique : s.links.Pairwise fun a b => ¬ ((a.acceptor = b.acceptor ∧ a.connector = b.connector) ∨ (a.acceptor = b.connector ∧ a.connector = b.acceptor))
  /-- All participants are configured. -/
  known : ∀ p, p ∈ s.order
  /-- Each participant is configured once. -/
  named : s.order.Nodup
  /-- Meshes are received from others with a link. -/
  linked : ∀ p m q, (m, q) ∈ s.received p → Linked s p q ∧ q ≠ p
  /-- A participant uses a mesh only once. -/
  once : ∀ p, (s.provided p ++ (s.received p).map (·.1)).Nodup
  /-- Meshes have different IDs. -/
  ids : Function.Injective s.meshId
  /-- Meshes that are given to others are not empty. -/
  filled : ∀ p q m, Gives s p q m → 0 < s.size (s.content p m)
  /-- All use the same version of preCICE and the same configuration. -/
  info : ∀ p q, s.info p = s.info q

/-- What neither the configuration nor `initialize()` checks. -/
structure Sound (s : Setup n C D I) : Prop where
  /-- No participant is linked with itself. -/
  other : ∀ l ∈ s.links, l.acceptor ≠ l.connector
  /-- Who receives a mesh gets it from somebody who provides it. -/
  offered : ∀ p m q, (m, q) ∈ s.received p → m ∈ s.provided q

/-- What a participant must know after `initialize()`. -/
structure Informed (s : Setup n C D I) (k : Fin n → Known n C D) : Prop where
  /-- The meshes it receives, as they are defined by the participants that provide them. -/
  meshes : ∀ p, (k p).1.Perm ((s.received p).map fun x => (x.1, s.content x.2 x.1))
  /-- The distributions of the meshes it shares with others over a point-to-point communication, as they are at the others, and no others. -/
  dists : ∀ p q m d, (q, m, d) ∈ (k p).2 ↔ LinkedDirectly s p q ∧ (Gives s p q m ∨ Gives s q p m) ∧ d = s.dist q (k q).1 m

end Verif.Startup
