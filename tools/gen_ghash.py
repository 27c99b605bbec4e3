"""Generate lean/Verif/Model/GhashTables.lean from /repo/src/ghash/ghash_lut256.cpp."""
import re
src = open('/repo/src/ghash/ghash_lut256.cpp').read()
def tab(name):
    m = re.search(name + r'\[256\]\s*=\s*\{(.*?)\}', src, re.S)
    v = [int(x, 0) for x in re.findall(r'0x[0-9a-fA-F]+|\d+', m.group(1))]
    assert len(v) == 256
    return v
def fmt(v, f):
    rows = [', '.join(f(x) for x in v[i:i+16]) for i in range(0, 256, 16)]
    return ',\n   '.join(rows)
out = '''/-! Generated by tools/gen_ghash.py from src/ghash/ghash_lut256.cpp. -/
namespace Verif.Ghash

/-- `REDUCE_TABLE` (ghash_lut256.cpp 25-55). -/
def reduceTable : Array (BitVec 16) :=
  #[%s]

/-- `REV_U8` (ghash_lut256.cpp 58-75). -/
def revU8 : Array Nat :=
  #[%s]

end Verif.Ghash
''' % (fmt(tab('REDUCE_TABLE'), lambda x: '0x%04x' % x), fmt(tab('REV_U8'), str))
open('/verif/lean/Verif/Model/GhashTables.lean', 'w').write(out)
