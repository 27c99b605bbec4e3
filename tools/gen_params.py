#!/usr/bin/env python3
"""Extract the byte tables of /repo/src/sm2/sm2p256v1.cpp and /repo/src/sm9/sm9_field.cpp into Lean."""
import re
def tables(path):
    src = open(path).read().split('\n')
    out = []
    i = 0
    while i < len(src):
        m = re.match(r'\s*(?:static )?const std::uint8_t\s+(\w+)\[(\d*)\]\s*=\s*\{', src[i])
        d = re.match(r'#define (\w+_DATA)', src[i])
        e = re.match(r'\s+static const auto (\w+) = number::mpz_set_epi8\(', src[i])
        if m or d or e:
            name = (m or d or e).group(1)
            if name == 'C': name = 'C_L%d' % (i + 1)
            j = i
            if m:
                while '};' not in src[j]: j += 1
            elif d:
                while src[j].rstrip().endswith('\\'): j += 1
            else:
                while ');' not in src[j]: j += 1
            text = '\n'.join(re.sub(r'//.*', '', l) for l in src[i:j+1])
            if m: text = text.split('{',1)[1]
            b = [int(x,16) for x in re.findall(r'0x([0-9a-fA-F]{2})\b', text)]
            if b: out.append((name, b, i+1, j+1))
            i = j
        i += 1
    return out
def camel(n):
    p = n.lower().split('_')
    return p[0] + ''.join(x.capitalize() for x in p[1:])
def emit(path, ns, skip=()):
    s = ''
    for name, b, l0, l1 in tables('/repo/' + path):
        if name in skip: continue
        s += f'/-- `{name}` ({path} {l0}-{l1}). -/\ndef {camel(name)} : List Byte := [\n'
        for k in range(0, len(b), 16):
            s += '  ' + ', '.join('0x%02x' % x for x in b[k:k+16]) + (',' if k + 16 < len(b) else ']') + '\n'
        s += '\n'
    return s
CTX = '''/-- `mpz_set_epi8` (include/gmlib/number/internal/mpz_common.h 15-35): big-endian bytes to limbs. -/
abbrev setEpi8 (bytes : List Byte) : List W32 := u256FromBytes bytes
'''
def ctx(nm, ref, p, p2, r, r2):
    return f'''/-- `{ref} -/
def {nm} : Mont256CTX where
  P := setEpi8 {p}
  PSub2 := setEpi8 {p2}
  R := setEpi8 {r}
  RPow2 := setEpi8 {r2}
  N_ := (((setEpi8 {p}).head?).bind montComputeN).getD 0

'''
o = '''import Verif.Model.Mont
/-!
# The constants of SM2 and SM9 (generated by tools/gen_params.py from the byte tables in /repo)
-/
namespace Verif

''' + CTX + '\nnamespace Sm2\n\n' + emit('src/sm2/sm2p256v1.cpp', 'Sm2')
note = 'The `getD 0` case does not occur (`{}_wf`).'
o += ctx('fpCtx', 'FP_MONT_CTX` (src/sm2/sm2p256v1.cpp 100-102). The `getD 0` case does not occur: `Sm2.fpCtx_wf`.', 'pData','pSub2Data','fpRData','fpRPow2Data')
o += ctx('fnCtx', 'FN_MONT_CTX` (src/sm2/sm2p256v1.cpp 103-105). The `getD 0` case does not occur: `Sm2.fnCtx_wf`.', 'nData','nSub2Data','fnRData','fnRPow2Data')
o += 'end Sm2\n\nnamespace Sm9\n\n' + emit('src/sm9/sm9_field.cpp', 'Sm9')
o += ctx('fpCtx', 'FP_MONT_CTX` (src/sm9/sm9_field.cpp 123-125). The `getD 0` case does not occur: `Sm9.fpCtx_wf`.', 'pData','pSub2Data','fpRData','fpRPow2Data')
o += ctx('fnCtx', 'FN_MONT_CTX` (src/sm9/sm9_field.cpp 127-129). The `getD 0` case does not occur: `Sm9.fnCtx_wf`.', 'nData','nSub2Data','fnRData','fnRPow2Data')
o += 'end Sm9\nend Verif\n'
open('/verif/lean/Verif/Model/Params.lean','w').write(o)
