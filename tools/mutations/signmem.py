"""Edits of the programs on memory of signing, verifying and key issue (Model/SignMem, Model/SignMemX64)."""
A = "Model/SignMem.lean"
B = "Model/SignMemX64.lean"
MUTS = []


def m(f, old, new, d, edit, claim):
    MUTS.append((f, old, new, d, edit, claim))


for f, ns in ((A, "SignMem"), (B, "X64.SignMem")):
    m(f, "  wrw C.DS rnd\n", "  wrw (C.DS - 1) rnd\n", ns + ".sm2Pass", "random octets land one octet too low, over the digest", "SM2 signature is of the message")
    m(f, "sm2SignAt C key sig (sig + 32) msg", "sm2SignAt C key sig (sig + 31) msg", ns + ".sm2Sign", "s stored one octet too low, over the last octet of r", "64 octets r || s are left")
    m(f, "sm2SignAt C key sig (sig + 32) msg", "sm2SignAt C key (sig + 32) sig msg", ns + ".sm2Sign", "r and s swapped", "64 octets r || s are left")
    m(f, "  wrw 0 (e.take C.DS)\n", "", ns + ".sm2SignAt", "digest not stored: Z is signed", "signature depends on the message")
    m(f, "  let Z ← rdw 0 C.DS\n  let t ← rd msg msgLen\n", "  let Z ← rdw 0 C.DS\n  let t ← rd msg (msgLen - 1)\n", ns + ".sm2SignAt", "last octet of the message not hashed", "signature is of the whole message")
    m(f, "  wrw 0 rnd\n  let rb ← rdw 0 32\n", "  wrw 32 rnd\n  let rb ← rdw 0 32\n", ns + ".sm9Pass", "random octets stored beside r_buf", "SM9 signature is that of the generator's answer")
    m(f, "  wrw 0 (Sm9.fp12ToBytes w)\n  let t ← rd msg msgLen\n", "  let t ← rd msg msgLen\n", ns + ".sm9Pass", "element of the extension field not stored", "h = H2(M || w)")
    m(f, "  let wb ← rdw 0 384\n  hnTo C 32 t wb 2\n", "  let wb ← rdw 0 32\n  hnTo C 32 t wb 2\n", ns + ".sm9Pass", "only 32 octets of w hashed", "h = H2(M || w)")
    m(f, "  hnTo C 32 t wb 2\n", "  hnTo C 64 t wb 2\n", ns + ".sm9Pass", "hash stored where the scalar will be", "hash is read back for the signature")
    m(f, "    wrw 64 (", "    wrw 48 (", ns + ".sm9Pass", "scalar overlaps the hash by 16 octets", "hash in the signature is the one hashed")
    m(f, "    let lb ← rdw 64 32\n", "    let lb ← rdw 32 32\n", ns + ".sm9Pass", "point multiplied by the hash instead of l", "S = [l]ds")
    m(f, "    let hb ← rdw 32 32\n    wr sig hb\n", "    let hb ← rdw 0 32\n    wr sig hb\n", ns + ".sm9Pass", "first octets of w stored as the hash", "signature holds h")
    m(f, "    let hb ← rdw 32 32\n    wr sig hb\n", "    let hb ← rdw 32 32\n", ns + ".sm9Pass", "hash not stored in the signature", "signature holds h")
    m(f, "      pure (some (32 + 33))", "      pure (some (32 + 65))", ns + ".sm9Pass", "wrong length for the compressed form", "*outl is the length of the signature")
    m(f, "      wr (sig + 32) (Sm9.toMix P)", "      wr (sig + 33) (Sm9.toMix P)", ns + ".sm9Pass", "point one octet too far in the mixed form", "only the octets of the signature are written")
    m(f, "      wr (sig + 32) (Sm9.toUncompressed P)", "      wr (sig + 32) (Sm9.toMix P)", ns + ".sm9Pass", "mixed form stored for uncompressed", "form of the point")
    m(f, "  if sigLen < 32 then pure false", "  if sigLen ≤ 32 then pure false", ns + ".sm9Verify", "boundary of the length check", "answer of verify (equal on values: a 32-octet signature has no point)")
    m(f, "        let hb ← rd sig sigLen\n", "        let hb ← rd (sig + 32) sigLen\n", ns + ".sm9Verify", "exponent read from the point", "t = g^h")
    m(f, "        hnTo C 0 i [hid] 1\n        let hb ← rdw 0 32\n", "        hnTo C 32 i [hid] 1\n        let hb ← rdw 0 32\n", ns + ".sm9Verify", "hash of the identity stored elsewhere than read", "h1 = H1(ID || hid)")
    m(f, "        let wb ← rdw 0 384\n        hnTo C 0 x wb 2\n        let hb ← rdw 0 32\n", "        let wb ← rdw 0 384\n        hnTo C 32 x wb 2\n        let hb ← rdw 0 32\n", ns + ".sm9Verify", "h2 stored elsewhere than compared", "comparison with H2")
    m(f, "        let h ← rd sig 32\n        pure (hb == h)", "        wr sig hb\n        let h ← rd sig 32\n        pure (hb == h)", ns + ".sm9Verify", "h2 computed into the signature, then compared with itself", "verify writes nothing; forged hash rejected")
    m(f, "        let h ← rd sig 32\n        pure (hb == h)", "        let h ← rd sig 31\n        pure (hb.take 31 == h)", ns + ".sm9Verify", "31 octets compared", "hash compared in full")
    m(f, "      if size + 32 ≠ sigLen then", "      if size + 32 > sigLen then", ns + ".sm9Verify", "trailing octets accepted", "signature has no octets behind the point")
    m(f, "  hnTo C 0 i [hid] 1\n  let tb ← rdw 0 32\n  let t1 :=", "  let tb ← rdw 0 32\n  hnTo C 0 i [hid] 1\n  let t1 :=", ns + ".sm9GenSignPriv", "array read before the hash is stored", "issued key")
    m(f, "    let tb ← rdw 0 32\n    let t2P1", "    let tb := tb\n    let t2P1", ns + ".sm9GenSignPriv", "hash instead of t2 as scalar", "issued key [t2]P1")
m(A, "def wr (p : Nat) (bs : List Byte) : SM Unit := fun s => (⟨wrm s.m p bs, s.w⟩, .ok ())", "def wr (p : Nat) (bs : List Byte) : SM Unit := fun s => (⟨wrm s.m (p + 1) bs, s.w⟩, .ok ())", "SignMem.wr", "stores one octet too far", "only the signature is written")
for f, ns in ((A, "SignMem"), (B, "X64.SignMem")):
    m(f, "  let t ← rd msg msgLen\n  let wb ← rdw 0 384\n", "  wr msg (List.replicate 32 0)\n  let t ← rd msg msgLen\n  let wb ← rdw 0 384\n", ns + ".sm9Pass", "message overwritten before it is hashed", "message as before the call")
    m(f, "  let i ← rd id idLen\n  let Z ← run", "  wr sigR (List.replicate 64 0)\n  let i ← rd id idLen\n  let Z ← run", ns + ".sm2SignAt", "signature buffer cleared before the identity is read", "identity and message as before the call; nothing written on a throw")
    m(f, "    if b then pure true else sm2Loop priv sigR sigS rest", "    if b then pure true else sm2Loop priv sigS sigR rest", ns + ".sm2Loop", "r and s swapped after a retry", "signature after a retry")
    m(f, "    | none => sm9Sign key sig msg msgLen pc rest", "    | none => sm9Sign key sig msg (msgLen + 1) pc rest", ns + ".sm9Sign", "longer message after a retry", "signature after a retry")
