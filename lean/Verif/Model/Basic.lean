/-
Common vocabulary of the model: bytes, explicit failure, the environment of
external functions and the build profile.
-/
namespace FP

/-- Rust `u8` (e.g. src/util.rs:15). -/
abbrev Byte := BitVec 8

/-- Rust `Vec<u8>` / `&[u8]` (e.g. src/util.rs:98). -/
abbrev Bytes := List Byte

/-- `WireBytes = [u8; LENGTH]` with `LENGTH = 256 / 8` (src/util.rs:5-7). -/
abbrev WireBytes := Vector Byte 32

/-- The `Err(..)` values the code can return.
`badProperties`: `OTError::BadProperties`, `polychromatic`: `OTError::PolychromaticInput`
(src/ot/common.rs), `coinflip*`: `CoinFlipError` (src/ot/coinflip.rs), `decode`:
`DecodeError` (src/garble.rs:104), `authentication`: the MAC / signature failure in
src/common.rs, `bincode`: a deserialisation error, `circuit`: `CircuitError`. -/
inductive ErrKind where
  | badProperties
  | polychromatic
  | coinflipLength
  | coinflipCommitment
  | decode
  | authentication
  | bincode
  | circuit
  | other
  deriving DecidableEq, Repr

/-- The ways a call can fail to return a value: a Rust panic, undefined behaviour
(uninitialised read, `get_unchecked` out of range), or a returned `Err`
(panics e.g. src/garble.rs:47, unchecked memory e.g. src/util.rs:127 and src/garble.rs:316, `Err` e.g. src/ot/common.rs:17). -/
inductive Fault where
  | panic
  | ub
  | err (e : ErrKind)
  deriving DecidableEq, Repr

/-- Result of a Rust call (src/common.rs:2-3). -/
abbrev R := Except Fault

/-- A panic, e.g. `unwrap` (src/garble.rs:51) or an index out of range (src/garble.rs:193). -/
def panicR {α} : R α := .error .panic
/-- Undefined behaviour, e.g. `get_unchecked` out of range (src/util.rs:127) or reading a wire that was
never written (src/garble.rs:316). -/
def ubR {α} : R α := .error .ub
/-- `Err(..)`, e.g. src/ot/common.rs:17, src/ot/coinflip.rs:34 and src/garble.rs:133. -/
def errR {α} (e : ErrKind) : R α := .error (.err e)

/-- `assert!(b)` (src/garble.rs:47 and 68, src/ot/chou_orlandi.rs:66). -/
def assertR (b : Bool) : R Unit := if b then .ok () else panicR

/-- `debug_assert!(b)`: checked only when `dbg`
(e.g. src/garble.rs:30 and 299, src/util.rs:50, 99 and 110, src/wires.rs:97). -/
def debugAssertR (dbg : Bool) (b : Bool) : R Unit := assertR (!dbg || b)

/-- `v[i]` for reading: panics when out of range (e.g. src/garble.rs:193, src/util.rs:103). -/
def idxR {α} (l : List α) (i : Nat) : R α :=
  match l[i]? with
  | some a => .ok a
  | none => panicR

/-- `v[i] = a`: panics when out of range (e.g. src/garble.rs:220, src/circuit.rs:166). -/
def setR {α} (l : List α) (i : Nat) (a : α) : R (List α) :=
  if i < l.length then .ok (l.set i a) else panicR

/-- `v[a..b]`: panics when `a > b` or `b > v.len()` (src/garble.rs:180 and 351, src/fpake.rs:37-38). -/
def sliceR {α} (l : List α) (a b : Nat) : R (List α) :=
  if a ≤ b ∧ b ≤ l.length then .ok ((l.drop a).take (b - a)) else panicR

/-- Unsigned addition of a type with `W` values: overflow panics in debug builds and wraps
in release builds (e.g. src/wires.rs:72, src/circuit.rs:161). -/
def addR (dbg : Bool) (W a b : Nat) : R Nat :=
  if a + b < W then .ok (a + b) else if dbg then panicR else .ok ((a + b) % W)

/-- Unsigned subtraction, same convention (e.g. src/wires.rs:72 and 85, src/garble.rs:185 and 211). -/
def subR (dbg : Bool) (W a b : Nat) : R Nat :=
  if b ≤ a then .ok (a - b) else if dbg then panicR else .ok ((a + W - b % W) % W)

/-- Unsigned multiplication, same convention (src/circuit.rs:162). -/
def mulR (dbg : Bool) (W a b : Nat) : R Nat :=
  if a * b < W then .ok (a * b) else if dbg then panicR else .ok ((a * b) % W)

/-- `a % m`: panics when `m = 0` in every build (src/wires.rs:59, 72, 85, 100 and 257, src/garble.rs:220). -/
def remR (a m : Nat) : R Nat := if m = 0 then panicR else .ok (a % m)

/-- The external functions and the platform.

* `dbg`: `true` for a debug build (overflow checks and `debug_assert!` on).
* `sha256`: `Sha256::digest` of the concatenated inputs (`hash!`, src/util.rs:67-88). -/
structure Env where
  dbg : Bool
  sha256 : Bytes → WireBytes

/-- `x.to_be_bytes()` of an unsigned integer of `k` bytes
(src/wires.rs:287 and 299, src/garble.rs:236, src/ot/apricot.rs:59 and 171, src/ot/one_of_many.rs:20). -/
def beBytes (k x : Nat) : Bytes :=
  (List.range k).map fun i => BitVec.ofNat 8 (x >>> (8 * (k - 1 - i)))

/-- `x.to_le_bytes()` of an unsigned integer of `k` bytes
(src/ot/apricot_classic.rs:131-133 and 262, and bincode). -/
def leBytes (k x : Nat) : Bytes :=
  (List.range k).map fun i => BitVec.ofNat 8 (x >>> (8 * i))

/-- `HashMap` restricted to what the code uses: an association list whose first entry for a
key counts (src/garble.rs:20, 145 and 292). -/
abbrev HMap (K V : Type) := List (K × V)

/-- `map[&k]`: panics when the key is missing (src/garble.rs:202-203, 227, 265, 322 and 335). -/
def HMap.getR {K V} [BEq K] (m : HMap K V) (k : K) : R V :=
  match List.lookup k m with
  | some v => .ok v
  | none => panicR

/-- `map.insert(k, v)` (the old entry is shadowed) (src/garble.rs:153, 223 and 251). -/
def HMap.insert {K V} (m : HMap K V) (k : K) (v : V) : HMap K V := (k, v) :: m

end FP
