import Verif.Ports.Model

/-!
# Connections between ranks: what the user relies on
-/

set_option autoImplicit false

namespace Verif.Ports

/-- A rank of the acceptor and a rank of the requester have a vertex in common, so they exchange data. -/
def Shares (c : Conf) (a r : ℕ) : Prop := ∃ g, g ∈ c.vA a ∧ g ∈ c.vR r

/-- The connections are right: ranks that share a vertex have stored one and the same connection for each other, other
ranks have none, and no connection is shared by two pairs. -/
structure Right (c : Conf) (s : State) : Prop where
  shares : ∀ a < c.nA, ∀ r < c.nR, Shares c a r → ∃ k, at? (s.connA a) r = some k ∧ at? (s.connR r) a = some k
  others : ∀ a < c.nA, ∀ r < c.nR, ¬Shares c a r → at? (s.connA a) r = none ∧ at? (s.connR r) a = none
  own : ∀ a < c.nA, ∀ r < c.nR, ∀ a' < c.nA, ∀ r' < c.nR, ∀ k, at? (s.connA a) r = some k →
    at? (s.connA a') r' = some k → a = a' ∧ r = r'

/-- Every rank of both participants shares a vertex with some rank of the other one. -/
def AllShare (c : Conf) : Prop :=
  (∀ a < c.nA, ∃ r < c.nR, Shares c a r) ∧ ∀ r < c.nR, ∃ a < c.nA, Shares c a r

/-- A rank shares a vertex with some rank of the other participant. -/
def HasPartner (c : Conf) (x : Rank) : Prop :=
  if x.1 then ∃ r < c.nR, Shares c x.2 r else ∃ a < c.nA, Shares c a x.2

end Verif.Ports
