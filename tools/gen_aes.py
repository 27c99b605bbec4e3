"""Generate lean/Verif/Model/AesTables.lean from /repo/src/aes/aes_lut.cpp."""
import re
src = open('/repo/src/aes/aes_lut.cpp').read()
s = '/-! Generated by tools/gen_aes.py from src/aes/aes_lut.cpp. -/\nnamespace Verif.Aes\n\n'
names = {'SBOX': 'sbox', 'INV_SBOX': 'invSbox', 'Rcon': 'rcon'}
for k in range(4):
    names['TE%d' % k] = 'te%d' % k
    names['TD%d' % k] = 'td%d' % k
for m in re.finditer(r'static const std::uint(\d+)_t\s+(\w+)\[(\d+)\]\s*=\s*\{(.*?)\}', src, re.S):
    w, n, cnt = int(m.group(1)), m.group(2), int(m.group(3))
    v = [int(x, 16) for x in re.findall(r'0x[0-9a-fA-F]+', m.group(4))]
    assert len(v) == cnt, n
    a = src[:m.start()].count('\n') + 1
    b = src[:m.end()].count('\n') + 1
    per = 16 if w == 8 else 8
    f = (lambda x: '0x%02x' % x) if w == 8 else (lambda x: '0x%08x' % x)
    rows = [', '.join(f(x) for x in v[i:i+per]) for i in range(0, len(v), per)]
    s += '/-- `%s` (aes_lut.cpp %d-%d). -/\ndef %s : Array (BitVec %d) :=\n  #[%s]\n\n' % (n, a, b, names[n], w, ',\n    '.join(rows))
    names[n] = None
assert all(v is None for v in names.values()), names
s += 'end Verif.Aes\n'
open('/verif/lean/Verif/Model/AesTables.lean', 'w').write(s)
