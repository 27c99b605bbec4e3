import Verif.Model.Modes
import Verif.Model.EndianMovbe
/-!
# The generators (include/gmlib/rng)

What the hardware, the operating system or the C library answers is a parameter: the answer to the `i`-th request.
A generator is modelled by what it writes and by how far it gets in that stream of answers.
-/
namespace Verif.Rng

/-- Outcome of `gen`: returned, or left by an exception, with the memory and the number of the next request. -/
inductive Res where
  | ok (m : Mem) (i : Nat)
  | throw (m : Mem) (i : Nat)
  deriving DecidableEq, Repr

section hardware
variable {w : Nat} (hw : Nat → Option (BitVec w))

/-- The `while (retries)` loop of `rdrand64_retry`, `rdrand32_retry`, `rdseed64_retry`, `rdseed32_retry`
(rdrand64_rng.h 42-49, rdrand32_rng.h 36-43, rdseed64_rng.h 39-46, rdseed32_rng.h 36-43).  `hw i` is what the `i`-th
execution of the instruction delivers, `none` when it reports failure. -/
def retryLoop : Nat → Nat → Option (BitVec w) × Nat
  | 0, i => (none, i)
  | r + 1, i =>
    match hw i with
    | some v => (some v, i + 1)
    | none => retryLoop r (i + 1)

/-- `rdrand64_retry` and its three siblings (rdrand64_rng.h 35-51). -/
def retry (retries i : Nat) : Option (BitVec w) × Nat :=
  match hw i with
  | some v => (some v, i + 1)
  | none => retryLoop hw retries (i + 1)

/-- `while (len) { *out_u8 = val & 0xFF; out_u8++, len--, val >>= 8; }` (rdrand64_rng.h 71-75). -/
def tailBytes : Nat → BitVec w → List Byte
  | 0, _ => []
  | n + 1, v => (v &&& BitVec.ofNat w 0xFF).setWidth 8 :: tailBytes n (v >>> 8)

/-- The bytes of a word stored through `(std::uint64_t *)` on a little-endian host (the instruction exists on x86
only). -/
def wordBytes (v : BitVec w) : List Byte := (List.range (w / 8)).map (EndianMovbe.byte v)

/-- `gen` of the four hardware generators (rdrand64_rng.h 54-77, rdrand32_rng.h 48-71, rdseed64_rng.h 52-75,
rdseed32_rng.h 48-71), from request `i` on.  An instruction that reports failure leaves 0 in its destination, which for
a whole word is the output buffer.  The memory is the caller's. -/
def gen (hB : 0 < w / 8) (retries : Nat) (m : Mem) (p len i : Nat) : Res :=
  if _h : w / 8 ≤ len then
    match retry hw retries i with
    | (some v, j) => gen hB retries (wrm m p (wordBytes v)) (p + w / 8) (len - w / 8) j
    | (none, j) => .throw (wrm m p (List.replicate (w / 8) 0)) j
  else if len ≠ 0 then
    match retry hw retries i with
    | (some v, j) => .ok (wrm m p (tailBytes len v)) j
    | (none, j) => .throw m j
  else .ok m i
termination_by len
decreasing_by omega

end hardware

/-- `BcryptRng::gen` and `WincryptRng::gen` (bcrypt_rng.h 26-55, wincrypt_rng.h 60-97); `maxCall` is `ULONG_MAX` or
`MAXDWORD`.  `os i n` is the answer to the `i`-th system call, asked for `n` bytes; `none` is a failure report (the
buffer is then taken to be unchanged). -/
def osGen (os : Nat → Nat → Option (List Byte)) (maxCall : Nat) (hM : 0 < maxCall) (m : Mem) (p len i : Nat) : Res :=
  if _h : maxCall ≤ len then
    match os i maxCall with
    | some bs => osGen os maxCall hM (wrm m p bs) (p + maxCall) (len - maxCall) (i + 1)
    | none => .throw m (i + 1)
  else if len ≠ 0 then
    match os i len with
    | some bs => .ok (wrm m p bs) (i + 1)
    | none => .throw m (i + 1)
  else .ok m i
termination_by len
decreasing_by omega

/-- `StdRng::gen` (std_rng.h 26-34); `dev i` is the `i`-th value of `std::random_device`, `none` when it throws. -/
def stdGen (dev : Nat → Option (BitVec 32)) (m : Mem) (p : Nat) : Nat → Nat → Res
  | 0, i => .ok m i
  | len + 1, i =>
    match dev i with
    | some v => stdGen dev (wrm m p [v.setWidth 8]) (p + 1) len (i + 1)
    | none => .throw m (i + 1)

/-- `std::srand` and `std::rand` of a C library, with the library's hidden state. -/
structure LibC where
  State : Type
  srand : BitVec 32 → State
  rand : State → BitVec 32 × State

/-- `CstdRng::CstdRng` (cstd_rng.h 14-17) in the second `t`: the state of the library is seeded with the time. -/
def cstdNew (L : LibC) (t : BitVec 64) (_s : L.State) : L.State := L.srand (t.setWidth 32)

/-- `CstdRng::gen` (cstd_rng.h 26-34): the bytes written and the state left behind. -/
def cstdGen (L : LibC) : Nat → L.State → List Byte × L.State
  | 0, s => ([], s)
  | len + 1, s =>
    let (v, s') := L.rand s
    let (bs, s'') := cstdGen L len s'
    (v.setWidth 8 :: bs, s'')

/-- `k` successive calls `gen(out, n)` on a `CstdRng`. -/
def cstdCalls (L : LibC) (n : Nat) : Nat → L.State → List (List Byte)
  | 0, _ => []
  | k + 1, s => (cstdGen L n s).1 :: cstdCalls L n k (cstdGen L n s).2

end Verif.Rng
