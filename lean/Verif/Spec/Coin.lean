import Verif.Model.OT
/-
What one party of a coin flip can do to the result of the other.
-/
namespace FP.Spec

/-- What the coin-flip receiver with contribution `u` ends with, when its peer commits to `commit` and, having
seen `u`, opens with `f u`. -/
def receiverResult (E : Env) (commit : Bytes) (f : Bytes → Bytes) (u : Bytes) : Option (R Bytes) :=
  ((coinflipReceiver E u).against [commit, f u]).2

/-- What the coin-flip sender with contribution `v` ends with, when its peer answers the commitment `c` with
`g c`. -/
def senderResult (E : Env) (g : Bytes → Bytes) (v : Bytes) : Option (R Bytes) :=
  ((coinflipSender E v).against [g (E.sha256 v).toList]).2

/-- The bytes of `a` and `b` xored. -/
def xored (a b : Bytes) : Bytes := List.zipWith (· ^^^ ·) a b

/-- The hash with its values at `v` and `v'` exchanged. -/
def exchanged (sha : Bytes → WireBytes) (v v' : Bytes) (x : Bytes) : WireBytes :=
  if x = v then sha v' else if x = v' then sha v else sha x

end FP.Spec
