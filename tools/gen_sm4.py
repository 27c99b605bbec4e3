"""Generate lean/Verif/Model/Sm4Tables.lean from /repo/src/sm4/*.cpp."""
import re
def tabs(path):
    src = open(path).read()
    out = {}
    for m in re.finditer(r'static const std::uint(\d+)_t (\w+)\[(\d+)\]\s*=\s*\{(.*?)\}', src, re.S):
        v = [int(x, 16) for x in re.findall(r'0x[0-9a-fA-F]+', m.group(4))]
        assert len(v) == int(m.group(3)), m.group(2)
        line = src[:m.start()].count('\n') + 1
        end = src[:m.end()].count('\n') + 1
        out[m.group(2)] = (int(m.group(1)), v, '%d-%d' % (line, end))
    return out
def emit(name, w, v, doc):
    per = 16 if w == 8 else 8
    f = (lambda x: '0x%02x' % x) if w == 8 else (lambda x: '0x%08x' % x)
    rows = [', '.join(f(x) for x in v[i:i+per]) for i in range(0, len(v), per)]
    return '/-- %s -/\ndef %s : Array (BitVec %d) :=\n  #[%s]\n\n' % (doc, name, w, ',\n    '.join(rows))
a = tabs('/repo/src/sm4/sm4_lang18.cpp')
b = tabs('/repo/src/sm4/sm4_common.cpp')
s = '/-! Generated by tools/gen_sm4.py from src/sm4/sm4_lang18.cpp and sm4_common.cpp. -/\nnamespace Verif.Sm4\n\n'
for n, ln in [('T0','t0'),('T1','t1'),('T2','t2'),('T3','t3'),('SM4_SBOX','sbox'),('FK','fk'),('CK','ck')]:
    w, v, l = a[n]
    s += emit(ln, w, v, '`%s` (sm4_lang18.cpp %s).' % (n, l))
s += 'namespace Common\n\n'
for n, ln in [('SM4_SBOX','sbox'),('FK','fk'),('CK','ck')]:
    w, v, l = b[n]
    s += emit(ln, w, v, '`%s` (sm4_common.cpp %s).' % (n, l))
s += 'end Common\nend Verif.Sm4\n'
open('/verif/lean/Verif/Model/Sm4Tables.lean', 'w').write(s)
