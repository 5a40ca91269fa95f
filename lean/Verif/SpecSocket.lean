import Verif.Model.Process
/-!
# Specification: what a bind may give
-/

namespace Ipv8

/-- The port of an address. -/
def SocketAddr.port : SocketAddr → UInt16
  | .v4 _ _ _ _ p => p
  | .v6 _ p _ _ => p

/-- The same address with another port. -/
def SocketAddr.withPort : SocketAddr → UInt16 → SocketAddr
  | .v4 a b c d _, p => .v4 a b c d p
  | .v6 ip _ f s, p => .v6 ip p f s

/-- A socket that was asked for `requested` may get `got`: the same interface, and the same port, or any port
at all if port 0 was asked for; but no socket has port 0. -/
def Spec.Gives (requested got : SocketAddr) : Prop :=
  got = requested.withPort got.port ∧ got.port ≠ 0 ∧ (requested.port ≠ 0 → got.port = requested.port)

theorem resolves_iff (requested got : SocketAddr) :
    resolves requested got = true ↔ Spec.Gives requested got := by
  cases requested <;> cases got <;>
    simp [resolves, Spec.Gives, SocketAddr.port, SocketAddr.withPort] <;> grind

end Ipv8
