F='Model/ConvMem.lean'
MUTS = [
 (F,"if d ≤ y ∧ y < d + l.length then","if d ≤ y ∧ y ≤ d + l.length then","st","one octet too many","C106: nothing else changes"),
 (F,"mem32 (memLoad32BE (m a) (m (a + 1)) (m (a + 2)) (m (a + 3)))","mem32 (host32 (m a) (m (a + 1)) (m (a + 2)) (m (a + 3)))","load32","host order","C106: value"),
 (F,"memStore32BE (host32 (m a) (m (a + 1)) (m (a + 2)) (m (a + 3)))","mem32 (host32 (m a) (m (a + 1)) (m (a + 2)) (m (a + 3)))","store32","host order","C106: value"),
 (F,"X64.memStore64BE (host64 (m a) (m (a + 1)) (m (a + 2))","X64.memStore64BE (host64 (m a) (m (a + 2)) (m (a + 1))","store64","octets 1 and 2 swapped","C106: value"),
 (F,"(m (a + 5)) (m (a + 6)) (m (a + 7))))\n\n/-- `_storebe","(m (a + 5)) (m (a + 6)) (m (a + 6))))\n\n/-- `_storebe","load64","last octet twice not read","C106: value"),
 (F,"W (fromLoop W s n r p i m) (r + s * (n - 1 - i)) (p + s * i)","W (fromLoop W s n r p i m) (r + s * (n - i)) (p + s * i)","fromLoop","limb one too high","C106: nothing else changes"),
 (F,"W (fromLoop W s n r p i m) (r + s * (n - 1 - i)) (p + s * i)","W (fromLoop W s n r p i m) (r + s * i) (p + s * i)","fromLoop","least significant limb first","C106: value"),
 (F,"W (fromLoop W s n r p i m) (r + s * (n - 1 - i)) (p + s * i)","W (fromLoop W s n r p i m) (r + s * (n - 1 - i)) (p + i)","fromLoop","src + i","C106: value"),
 (F,"W (toLoop W s n r p i m) (r + s * i) (p + s * (n - 1 - i))","W (toLoop W s n r p i m) (r + s * i) (p + s * (n - i))","toLoop","limb one too high","C106: value"),
 (F,"W (toLoop W s n r p i m) (r + s * i) (p + s * (n - 1 - i))","W (toLoop W s n r p i m) (r + i) (p + s * (n - 1 - i))","toLoop","r + i","C106: value"),
 (F,"if n = 0 then m else fromLoop load32 4 n r p n m","if n = 0 then m else fromLoop load32 4 n r p (n - 1) m","mpzFromBytes","one round too few","C106: value"),
 (F,"if n = 0 then m else toLoop store32 4 n r p n m","if n = 0 then m else toLoop store32 4 n r p (n + 1) m","mpzToBytes","one round too many","C106: nothing else changes"),
 (F,"if n = 0 then m else fromLoop load64 8 n r p n m","if n = 0 then m else fromLoop load64 4 n r p n m","mpzFromBytes64","step of four octets","C106: value"),
 (F,"if n = 0 then m else toLoop store64 8 n r p n m","if n = 1 then m else toLoop store64 8 n r p n m","mpzToBytes64","one limb is not converted","C106: value"),
 (F,"  let m := load32 m (r + 12) (p + 16)\n","","u256FromBytes","limb 3 missing","C106: value"),
 (F,"load32 m (r + 24) (p + 4)","load32 m (r + 24) (p + 8)","u256FromBytes","wrong offset","C106: value"),
 (F,"  let m := store32 m (r + 24) (p + 4)\n  store32 m (r + 28) (p + 0)","  let m := store32 m (r + 28) (p + 0)\n  store32 m (r + 24) (p + 0)","u256ToBytes","limb 1 is limb 0","C106: value"),
 (F,"  let m := load64 m (r + 8) (p + 16)\n","  let m := load64 m (r + 8) (p + 8)\n","u256FromBytes64","middle limbs not swapped","C106: value"),
 (F,"  store64 m (r + 0) (p + 24)","  store64 m (r + 0) (p + 16)","u256ToBytes64","limb 2 twice","C106: value"),
]
