#!/usr/bin/env python3
"""Writes lean/Verif/Proofs/Primes.lean: primality certificates of the four moduli (Lucas / Pocklington)."""
import os
CERTS = [
    (2, ('small',)),
    (43, ('small',)),
    (30223, ('small',)),
    (13, ('small',)),
    (1213, ('small',)),
    (71209, ('small',)),
    (3, ('small',)),
    (7, ('small',)),
    (11, ('small',)),
    (823, ('small',)),
    (34511, ('small',)),
    (363761, ('small',)),
    (4773264379806847, ('lucas', 3, {2: 1, 3: 1, 7: 1, 11: 1, 823: 1, 34511: 1, 363761: 1})),
    (54983, ('small',)),
    (3079049, ('pock', 2, 54983)),
    (6158099, ('pock', 2, 3079049)),
    (66013261729388519804782124120027, ('lucas', 2, {2: 1, 13: 1, 1213: 1, 71209: 1, 4773264379806847: 1, 6158099: 1})),
    (367, ('small',)),
    (2473, ('small',)),
    (67, ('small',)),
    (79, ('small',)),
    (97, ('small',)),
    (8214737, ('lucas', 3, {2: 4, 67: 1, 79: 1, 97: 1})),
    (417514796639753, ('lucas', 3, {2: 3, 7: 1, 367: 1, 2473: 1, 8214737: 1})),
    (337, ('small',)),
    (5711, ('small',)),
    (3017783777, ('lucas', 3, {2: 5, 7: 2, 337: 1, 5711: 1})),
    (4641351449027, ('pock', 2, 3017783777)),
    (61, ('small',)),
    (5303, ('small',)),
    (179429, ('small',)),
    (348253387243, ('lucas', 3, {2: 1, 3: 1, 61: 1, 5303: 1, 179429: 1})),
    (115792089210356248756420345214020892766250353991924191454421193933289684991999, ('lucas', 13, {2: 1, 43: 1, 30223: 1, 66013261729388519804782124120027: 1, 417514796639753: 1, 4641351449027: 1, 348253387243: 1})),
    (5801, ('small',)),
    (9061163, ('pock', 2, 5801)),
    (5636460199499, ('pock', 2, 9061163)),
    (101456283590983, ('pock', 2, 5636460199499)),
    (12149, ('small',)),
    (107615843, ('pock', 2, 12149)),
    (84163, ('small',)),
    (2566129871, ('pock', 2, 84163)),
    (71, ('small',)),
    (181, ('small',)),
    (233, ('small',)),
    (17965699, ('lucas', 2, {2: 1, 3: 1, 71: 1, 181: 1, 233: 1})),
    (18120927127286907576013935251791662753637, ('lucas', 6, {2: 2, 3: 2, 101456283590983: 1, 107615843: 1, 2566129871: 1, 17965699: 1})),
    (125197554539772723432468576818475380947471091418362477724521, ('pock', 2, 18120927127286907576013935251791662753637)),
    (115792089210356248756420345214020892766061623724957744567843809356293439045923, ('pock', 2, 125197554539772723432468576818475380947471091418362477724521)),
    (29, ('small',)),
    (47, ('small',)),
    (5, ('small',)),
    (82067, ('small',)),
    (231901, ('small',)),
    (26643987113801, ('lucas', 3, {2: 3, 5: 2, 7: 1, 82067: 1, 231901: 1})),
    (53287974227603, ('pock', 2, 26643987113801)),
    (639455690731237, ('pock', 2, 53287974227603)),
    (63945569073123701, ('pock', 2, 639455690731237)),
    (94401434677189000286356532089, ('pock', 2, 63945569073123701)),
    (376889, ('small',)),
    (163569827, ('pock', 2, 376889)),
    (2289977579, ('pock', 2, 163569827)),
    (11101811302993, ('pock', 2, 2289977579)),
    (389917816583720147, ('pock', 2, 11101811302993)),
    (8179, ('small',)),
    (17539, ('small',)),
    (1434514811, ('lucas', 2, {2: 1, 5: 1, 8179: 1, 17539: 1})),
    (17214177733, ('pock', 2, 1434514811)),
    (1548931712415341, ('pock', 2, 17214177733)),
    (461, ('small',)),
    (9433, ('small',)),
    (287008459, ('lucas', 3, {2: 1, 3: 1, 11: 1, 461: 1, 9433: 1})),
    (1148033837, ('pock', 2, 287008459)),
    (82434016654578246444830763105245969129603161266935169637912592173415460324733, ('lucas', 2, {2: 2, 3: 1, 7: 1, 11: 1, 29: 1, 47: 1, 94401434677189000286356532089: 1, 389917816583720147: 1, 1548931712415341: 1, 1148033837: 1})),
    (17, ('small',)),
    (37, ('small',)),
    (41, ('small',)),
    (113, ('small',)),
    (2689, ('small',)),
    (5479, ('small',)),
    (1271129, ('pock', 2, 5479)),
    (27725865749, ('pock', 2, 1271129)),
    (267554604477851, ('pock', 2, 27725865749)),
    (3080243406351642671208773, ('pock', 2, 267554604477851)),
    (1986114220967214475817859646585100848354345103812102768231, ('lucas', 3, {2: 1, 3: 1, 5: 1, 7: 1, 11: 1, 13: 1, 17: 1, 29: 1, 37: 1, 41: 1, 61: 1, 113: 1, 2689: 1, 3080243406351642671208773: 1, 1548931712415341: 1})),
    (82434016654578246444830763105245969129316048019845143771873730126023764135717, ('pock', 2, 1986114220967214475817859646585100848354345103812102768231)),
]
NAMES = {0xFFFFFFFEFFFFFFFFFFFFFFFFFFFFFFFFFFFFFFFF00000000FFFFFFFFFFFFFFFF: 'sm2p',
  0xFFFFFFFEFFFFFFFFFFFFFFFFFFFFFFFF7203DF6B21C6052B53BBF40939D54123: 'sm2n',
  0xB640000002A3A6F1D603AB4FF58EC74521F2934B1A7AEEDBE56F9B27E351457D: 'sm9p',
  0xB640000002A3A6F1D603AB4FF58EC74449F2934B18EA8BEEE56EE19CD69ECF25: 'sm9n'}
out = ['import Verif.Proofs.PrimeCert', 'import Verif.Spec.Curves',
       '/-! # Primality certificates (generated by tools/gen_primes.py) -/', 'namespace Verif', 'open Spec', '']
for n, c in CERTS:
    name = 'prime_%d' % n if n not in NAMES else NAMES[n] + '_prime'
    tgt = str(n) if n not in NAMES else NAMES[n]
    nm = lambda q: 'prime_%d' % q
    if c[0] == 'small':
        pr = 'by norm_num'
    elif c[0] == 'pock':
        pr = 'pock_cert _ %d %d %s (by decide +kernel)' % (c[1], c[2], nm(c[2]))
    else:
        fs = [q for q in sorted(c[2]) for _ in range(c[2][q])]
        pr = 'by\n  refine lucas_cert _ %d [%s] ?_ (by decide +kernel)\n  simp only [List.forall_mem_cons]\n  exact ⟨%s, by simp⟩' % (
            c[1], ', '.join(map(str, fs)), ', '.join(nm(q) for q in fs))
    out.append('theorem %s : Nat.Prime %s := %s' % (name, tgt, pr))
out += ['', 'end Verif', '']
open(os.path.join(os.path.dirname(__file__), '../lean/Verif/Proofs/Primes.lean'), 'w').write('\n'.join(out))
