#!/usr/bin/env python3
"""Writes lean/Verif/Proofs/Sm9Eval<NAME>.lean: staged kernel evaluation of the two exponentiations of the SM9 pairing
at one pair of points, given the twelve coefficients of the value of the Miller loop (as Lean's #eval prints them).

usage: gen_sm9eval.py NAME X Y B COEFFS [nondeg]
X, Y, B are Lean terms (coordinates of the first point, the second point), COEFFS a file with a Python list.
The environment variable IMPORT names the module to import (default Verif.Proofs.Sm9Eval)."""
import os, sys
P = 0xB640000002A3A6F1D603AB4FF58EC74521F2934B1A7AEEDBE56F9B27E351457D
N = 0xB640000002A3A6F1D603AB4FF58EC74449F2934B18EA8BEEE56EE19CD69ECF25

def mul(a, b):
    r = [0] * 23
    for i, x in enumerate(a):
        for j, y in enumerate(b):
            r[i + j] += x * y
    return [(r[i] - 2 * (r[i + 12] if i < 11 else 0)) % P for i in range(12)]

def inv(l):
    n = 12
    M = [[0] * (n + 1) for _ in range(n)]
    for i in range(n):
        for j in range(n):
            k, c = i + j, l[i]
            if k >= n:
                k, c = k - n, -2 * c
            M[k][j] = (M[k][j] + c) % P
    M[0][n] = 1
    for i in range(n):
        r = next(r for r in range(i, n) if M[r][i])
        M[i], M[r] = M[r], M[i]
        iv = pow(M[i][i], -1, P)
        M[i] = [x * iv % P for x in M[i]]
        for r in range(n):
            if r != i and M[r][i]:
                c = M[r][i]
                M[r] = [(x - c * y) % P for x, y in zip(M[r], M[i])]
    return [M[i][n] for i in range(n)]

def main():
    name, x, y, b, coeffs = sys.argv[1:6]
    nondeg = len(sys.argv) > 6
    l = eval(open(coeffs).read())
    low = name[0].lower() + name[1:]
    iv = inv(l)
    base = mul([c if i % 2 == 0 else (P - c) % P for i, c in enumerate(l)], iv)
    out = []
    def lit(nm, v, doc):
        out.append(f"/-- {doc} -/\ndef {nm} : List Nat :=\n  [" + ",\n   ".join(hex(c) for c in v) + "]\n")
    lit(low + "L", l, "The value of the Miller loop.")
    lit(low + "I", iv, "Its inverse.")
    lit(low + "B", base, "Its power with exponent `p⁶ - 1`.")
    out.append(f"""theorem {low}_miller : nMiller {x} {y} {b} = some {low}L := by decide +kernel
theorem {low}_inv : twMulR {low}L {low}I = twOne := by decide +kernel
theorem {low}_base : twMulR (twConj {low}L) {low}I = {low}B := by decide +kernel
theorem {low}_slip : twSlip {low}L = false := by decide +kernel
""")
    thms = []
    def chain(tag, e, expr, last):
        bits = e.bit_length() - 1
        k = 190
        cur, v, done, i = base, 1, 0, 0
        steps = []
        prev = low + "B"
        while done < bits:
            kk = min(k, bits - done)
            chunk = (e >> (bits - done - kk)) & ((1 << kk) - 1)
            for t in reversed(range(kk)):
                cur = mul(cur, cur)
                if (chunk >> t) & 1:
                    cur = mul(cur, base)
            done += kk
            i += 1
            nm = f"{low}{tag}{i}"
            lit(nm, cur, f"Stage {i} of the power `{expr}`.")
            out.append(f"theorem {nm}_ok : twPow {low}B (msbits {hex(chunk)} {kk}) {prev} = {nm} := by decide +kernel\n")
            steps.append((nm, chunk, kk))
            prev = nm
        s = "(pow_one _).symm"
        for nm, chunk, kk in steps:
            s = f"(ev_stage hw {s} {hex(chunk)} {kk} {nm}_ok)"
        thms.append(f"""theorem {low}_{tag} : twEv w {prev} = twEv w {low}B ^ ({expr}) := by
  have h := {s[1:-1]}
  rw [h]
  congr 1
""")
        return prev
    c1 = chain("C", (P * P + 1) * 0x2400000000215d941, "(sm9p ^ 2 + 1) * 0x2400000000215d941", None)
    out.append(f"theorem {low}_slipC : twSlip {c1} = false := by decide +kernel\n")
    if nondeg:
        c2 = chain("F", (P * P + 1) * ((P ** 4 - P * P + 1) // N), "(sm9p ^ 2 + 1) * ((sm9p ^ 4 - sm9p ^ 2 + 1) / sm9n)", None)
        out.append(f"theorem {low}_ne : {c2}.getD 1 0 % sm9p ≠ 0 := by decide +kernel\n")
    hdr = f"""import {os.environ.get('IMPORT', 'Verif.Proofs.Sm9Eval')}
/-! # Kernel evaluation of the pairing at {x}, {y}, {b}; written by tools/gen_sm9eval.py -/
namespace Verif
open Spec

"""
    pt = f"""{{p : Sm9.A}} {{A : Sm9.A2}}
    (px : Is (Reduced sm9p) (fpDen (K := K)) p.x ({x} : Nat)) (py : Is (Reduced sm9p) (fpDen (K := K)) p.y ({y} : Nat))
    (ax : Is (All2 (Reduced sm9p)) (fp2Den w) A.x (ev2 w {b}.x))
    (ay : Is (All2 (Reduced sm9p)) (fp2Den w) A.y (ev2 w {b}.y))"""
    out.append("section\nvariable {K : Type} [Field K] [Algebra (ZMod sm9p) K] {w : K} (hw : w ^ 12 = -2)\ninclude hw\n")
    out += thms
    out.append(f"""theorem {low}_right [DecidableEq K] {pt} : PairRight w p A :=
  eval_right hw px py ax ay (by decide +kernel) (by decide +kernel) {low}_miller {low}_inv {low}_base {low}_slip rfl
    ({low}_C hw) {low}_slipC rfl
""")
    if nondeg:
        out.append(f"""theorem {low}_nondeg [DecidableEq K] {pt} {{f : Sm9.F12}}
    (hf : Sm9.miller p A = some f) : fp12Den w f ^ ((sm9p ^ 12 - 1) / sm9n) ≠ 1 :=
  eval_ne hw px py ax ay (by decide +kernel) (by decide +kernel) {low}_miller {low}_inv {low}_base ({low}_F hw) rfl
    {low}_ne hf
""")
    out.append("end\nend Verif")
    dst = os.path.join(os.path.dirname(os.path.abspath(__file__)), "..", "lean", "Verif", "Proofs", f"Sm9Eval{name}.lean")
    open(dst, "w").write(hdr + "\n".join(out) + "\n")

main()
