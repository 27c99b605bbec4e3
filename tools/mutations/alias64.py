F='Model/AliasX64.lean'
MUTS=[
(F,"    ripple step r a b n (i + 1) c (upd m (r + i) v)","    ripple step r a b n (i + 1) c (upd m (r + n) v)","X64.Alias.ripple","limbs stored from the top down","C93"),
(F,"memAddChain r (.mem a) (.mem a) m\n  some (memFixSub ctx r (c != 0) m)","memAddChain r (.mem a) (.mem r) m\n  some (memFixSub ctx r (c != 0) m)","X64.Alias.memDbl","the result added instead of the operand","C93"),
(F,"  match memDbl ctx (L + 4) L a a m with","  match memDbl ctx (L + 4) r a a m with","X64.Alias.memTpl","the double goes to the result instead of a local","C93"),
(F,"  | some m => memAdd ctx (L + 4) r L a m","  | some m => memAdd ctx (L + 4) r L L m","X64.Alias.memTpl","four times instead of three times","C93"),
(F,"some (if u256EqualZero (rdW m a) then memCpy r (.const u256Zero) m else","some (if u256EqualZero (rdW m a) then m else","X64.Alias.memNeg","early return without storing the zero","C93"),
(F,"some (if c ≠ 0 ∨ u256Cmp (rdW m r) ctx.P ≥ 0 then (memAddChain r (.mem r) (.const ctx.P) m).1 else m)","some (if c ≠ 0 then (memAddChain r (.mem a) (.const ctx.P) m).1 else m)","X64.Alias.memSub","P added to the operand, not to the difference","C93"),
(F,"  if c = true ∨ u256Cmp (rdW m r) ctx.P ≥ 0 then","  if c = true ∨ u256Cmp (rdW m r) ctx.P > 0 then","X64.Alias.memFixSub","P itself is not reduced","C93"),
(F,"    some (memShr r (.mem r) (c.signExtend 64) 3 0 m)","    some (memShr r (.mem a) (c.signExtend 64) 3 0 m)","X64.Alias.memDiv2","the operand is shifted, not the sum","C93"),
(F,"(upd m (r + i) ((s.get m (i + 1) <<< 63) ||| (s.get m i >>> 1)))","(upd m (r + i) ((s.get m i >>> 1) ||| (s.get m i <<< 63)))","X64.Alias.memShr","bit taken from the same limb","C93"),
(F,"  memFixSub ctx r (T8 != 0) (memCpy r (.const t) m)","  memFixSub ctx r false (memCpy r (.const t) m)","X64.Alias.memRedc","top carry ignored","C93"),
(F,"    | cpy => fun _ r a _ m => some (memCpy r (.mem a) m)","    | cpy => fun _ r a _ m => some (memCpy a (.mem r) m)","X64.Alias.fpImpl","copy in the wrong direction","C93"),
(F,"memRedc ctx r (u256Mul (rdW m a) (rdW m b)) m)","memRedc ctx r (u256Mul (rdW m a) (rdW (memCpy r (.mem a) m) b)) m)","X64.Alias.memMul","the first operand is copied to the result before the second is read","C93"),
]
