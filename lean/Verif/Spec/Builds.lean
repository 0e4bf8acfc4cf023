import Verif.Model.Crypto
import Verif.Model.Proc
/-
Builds with and without debug assertions and overflow checks.
-/
namespace FP

/-- The same external functions in a build without assertions and overflow checks. -/
@[reducible] def Env.release (E : Env) : Env := ⟨false, E.sha256⟩

/-- The same external functions in a build without assertions and overflow checks. -/
@[reducible] def Crypto.release (X : Crypto) : Crypto := ⟨X.toEnv.release, X.chacha20, X.chacha8⟩

/-- The same external functions in a build with (`true`) or without (`false`) assertions and overflow checks. -/
def Crypto.build (X : Crypto) (checked : Bool) : Crypto := ⟨⟨checked, X.sha256⟩, X.chacha20, X.chacha8⟩

namespace Spec

/-- The first computation does what the second one does, or panics. -/
def SameOrPanic {α : Type} (x y : R α) : Prop := x = .error .panic ∨ x = y

/-- Whatever messages arrive, the first party sends what the second one sends and ends as it ends, or it panics after it
has sent a part of that. -/
def PartySameOrPanic {α : Type} (p q : Proc α) : Prop :=
  ∀ incoming, p.against incoming = q.against incoming ∨
    ((p.against incoming).2 = some (.error .panic) ∧ (p.against incoming).1 <+: (q.against incoming).1)

end Spec
end FP
