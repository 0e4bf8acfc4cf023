import Verif.Model.ManyFpake
/-
Model of src/common.rs:81-315 (authenticated and signed channels) and of the programs src/main.rs,
src/server/main.rs and src/client/main.rs.
-/
namespace FP

/-- Sending on a channel that puts a tag behind every message (src/common.rs:102-112 and 234-242). -/
def tagSend (tag : Bytes → Bytes) (data : Bytes) : Proc Unit := do
  sendP data
  sendP (tag data)

/-- Receiving on such a channel (src/common.rs:114-123 and 244-253). -/
def tagRecv (check : Bytes → Bytes → R Unit) : Proc Bytes := do
  let data ← recvP
  let code ← recvP
  check data code
  return data

/-- A party written against `Channel` (src/common.rs:5-13), run on a channel with tags: the calls of
`send` and `recv` are dispatched to the two functions above. -/
def Proc.overTags {α : Type} (tag : Bytes → Bytes) (check : Bytes → Bytes → R Unit) : Proc α → Proc α
  | .ret a => .ret a
  | .fail e => .fail e
  | .send m p => tagSend tag m >>= fun _ => p.overTags tag check
  | .recv k => tagRecv check >>= fun m => (k m).overTags tag check

/-- HMAC-SHA256 (src/common.rs:90) and X25519 (src/common.rs:147-148): arbitrary functions, of which only
what is stated is used.  `PublicKey::from(&secret)` is `pub`, `diffie_hellman` is `dh`. -/
structure ChannelCrypto where
  hmac : WireBytes → Bytes → WireBytes
  Secret : Type
  pub : Secret → WireBytes
  dh : Secret → WireBytes → WireBytes
  dh_comm : ∀ a b, dh a (pub b) = dh b (pub a)

/-- `mac.verify_slice(&code)?` (src/common.rs:119-120): the lengths and the bytes are compared. -/
def authCheck (M : ChannelCrypto) (key : WireBytes) (data code : Bytes) : R Unit :=
  if code = (M.hmac key data).toList then .ok () else errR .authentication

/-- A party on an authenticated channel whose sender holds `ks` and whose receiver holds `kr`
(src/common.rs:92-123). -/
def Proc.overAuth {α : Type} (M : ChannelCrypto) (ks kr : WireBytes) (p : Proc α) : Proc α :=
  p.overTags (fun m => (M.hmac ks m).toList) (authCheck M kr)

/-- The key exchange of `auth::ChannelServer::next` (src/common.rs:156-172). -/
def serverHandshake (M : ChannelCrypto) (secret : M.Secret) : Proc WireBytes := do
  sendP (M.pub secret).toList
  let theirs ← recvP
  let theirs ← toArray32 theirs
  return M.dh secret theirs

/-- The key exchange of `auth::connect_channel` (src/common.rs:175-190). -/
def clientHandshake (M : ChannelCrypto) (secret : M.Secret) : Proc WireBytes := do
  let theirs ← recvP
  let theirs ← toArray32 theirs
  sendP (M.pub secret).toList
  return M.dh secret theirs

/-- Ed25519 (src/common.rs:222): `parse` is whether `Signature::from_bytes` accepts, `parseKey` whether
`PublicKey::from_bytes` does. -/
structure SigScheme where
  Keypair : Type
  publicKey : Keypair → Bytes
  sign : Keypair → Bytes → Bytes
  parse : Bytes → Bool
  parseKey : Bytes → Bool
  verify : Bytes → Bytes → Bytes → Bool
  sign_parse : ∀ k m, parse (sign k m) = true
  key_parse : ∀ k, parseKey (publicKey k) = true
  sign_verify : ∀ k m, verify (publicKey k) m (sign k m) = true

/-- The checks of `SignedChannelReceiver::recv` (src/common.rs:247-250): a malformed signature panics. -/
def signedCheck (S : SigScheme) (key data signature : Bytes) : R Unit := do
  assertR (S.parse signature)
  if S.verify key data signature then .ok () else errR .authentication

/-- A party on a signed channel (src/common.rs:224-253). -/
def Proc.overSigned {α : Type} (S : SigScheme) (keypair : S.Keypair) (theirs : Bytes) (p : Proc α) : Proc α :=
  p.overTags (S.sign keypair) (signedCheck S theirs)

/-- The key exchange of `signed::ChannelServer::next` (src/common.rs:284-298). -/
def signedServerHandshake (S : SigScheme) (keypair : S.Keypair) : Proc Bytes := do
  sendP (S.publicKey keypair)
  let theirs ← recvP
  assertR (S.parseKey theirs)
  return theirs

/-- The key exchange of `signed::connect_channel` (src/common.rs:301-315). -/
def signedClientHandshake (S : SigScheme) (keypair : S.Keypair) : Proc Bytes := do
  let theirs ← recvP
  let _ ← (if S.parseKey theirs then .ok () else errR .other : R Unit)
  sendP (S.publicKey keypair)
  return theirs

/-- `chunks_exact(size)`, for at most `n` chunks (src/server/main.rs:34). -/
def chunksExactAux (size : Nat) : Nat → Bytes → List Bytes
  | 0, _ => []
  | n + 1, l => if l.length < size then [] else l.take size :: chunksExactAux size n (l.drop size)

/-- `pws.chunks_exact(password_size)` (src/server/main.rs:33-36): panics for size zero. -/
def loadPasswords (file : Bytes) (size : Nat) : R (List Bytes) := do
  assertR (size ≠ 0)
  return chunksExactAux size file.length file

/-- `main` of the server (src/server/main.rs:28-47), from the contents of the password file and an
accepted connection to the derived key. -/
def serverMain (C : Curve) (X : Crypto) (M : ChannelCrypto) (secret : M.Secret) (r : ManyDraws) (file : Bytes)
    (size threshold : Nat) : Proc WireBytes := do
  let passwords ← loadPasswords file size
  let key ← serverHandshake M secret
  (mfpakeMany C X r passwords threshold).overAuth M key key

/-- `main` of the client (src/client/main.rs:30-38); `password` are the bytes of the argument as text. -/
def clientMain (C : Curve) (X : Crypto) (M : ChannelCrypto) (secret : M.Secret) (r : SingleDraws) (password : Bytes)
    (index number threshold : Nat) : Proc WireBytes := do
  let key ← clientHandshake M secret
  (mfpakeSingle C X r password index number threshold).overAuth M key key

/-- `main` of the two-party program with `--server` (src/main.rs:31-39). -/
def vanillaServer (C : Curve) (X : Crypto) (M : ChannelCrypto) (secret : M.Secret) (g : GarblerDraws) (o : OTRecv)
    (password : Bytes) (threshold : Nat) : Proc WireBytes := do
  let key ← serverHandshake M secret
  (fpakeFirst C X g o password threshold).overAuth M key key

/-- `main` of the two-party program without `--server` (src/main.rs:40-47). -/
def vanillaClient (C : Curve) (X : Crypto) (M : ChannelCrypto) (secret : M.Secret) (o : OTRecv) (g : GarblerDraws)
    (password : Bytes) (threshold : Nat) : Proc WireBytes := do
  let key ← clientHandshake M secret
  (fpakeSecond C X o g password threshold).overAuth M key key

end FP
