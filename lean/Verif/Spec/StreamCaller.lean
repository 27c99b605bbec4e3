import Verif.Model.Modes
/-! # Specification: a caller of the streaming interface -/
namespace Verif

/-- A caller that streams a message of `ns.sum + last` bytes through `update` (chunks `ns`) and `do_final`
(chunk `last`), moving its cursors by `n` and `*outl` after each call.  With `zero` it sets its length variable
to 0 before every call, otherwise it just passes the same variable again. -/
def streamRun {S} (BS : Nat) (I : ModeImpl S) (zero : Bool) :
    ModeObj S → Mem → Nat → Nat → List Nat → Nat → Nat → Outcome (ModeObj S × Mem × Nat)
  | h, m, o, i, [], last, outl =>
    modeFinal BS I h m o i last (if zero then 0 else outl) >>= fun r => .ok (r.1, r.2.1, o + r.2.2)
  | h, m, o, i, n :: ns, last, outl =>
    modeUpdate BS I h m o i n (if zero then 0 else outl) >>= fun r =>
      streamRun BS I zero r.1 r.2.1 (o + r.2.2) (i + n) ns last r.2.2

/-- Where a streaming caller may put its buffers. -/
def StreamPlaced (inplace : Bool) (b : Nat) (m : Mem) (o i : Nat) (ns : List Nat) (last : Nat) : Prop :=
  i + (ns.sum + last) ≤ m.length ∧ o + (b + (ns.sum + last)) ≤ m.length ∧
    (i + (ns.sum + last) ≤ o ∨ o + (b + (ns.sum + last)) ≤ i ∨
      (inplace = true ∧ o + b = i))

end Verif
