import Verif.Model.Channel
/-
The password argument of the programs src/main.rs and src/client/main.rs. The rest of the command line
(`clap`) is not modelled.
-/
namespace FP

/-- `main` of the two-party program with `--server`: `args.password.as_bytes()` is the password
(src/main.rs:29-39). -/
def vanillaServerText (C : Curve) (X : Crypto) (M : ChannelCrypto) (secret : M.Secret) (g : GarblerDraws) (o : OTRecv)
    (text : String) (threshold : Nat) : Proc WireBytes :=
  vanillaServer C X M secret g o (stringBytes text) threshold

/-- `main` of the two-party program without `--server`: `args.password.as_bytes()` is the password
(src/main.rs:29-30, src/main.rs:40-47). -/
def vanillaClientText (C : Curve) (X : Crypto) (M : ChannelCrypto) (secret : M.Secret) (o : OTRecv) (g : GarblerDraws)
    (text : String) (threshold : Nat) : Proc WireBytes :=
  vanillaClient C X M secret o g (stringBytes text) threshold

/-- `main` of the client: `args.password.as_bytes()` is the password (src/client/main.rs:30-38). -/
def clientMainText (C : Curve) (X : Crypto) (M : ChannelCrypto) (secret : M.Secret) (r : SingleDraws) (text : String)
    (index number threshold : Nat) : Proc WireBytes :=
  clientMain C X M secret r (stringBytes text) index number threshold

end FP
