F='Model/MemUtil.lean'
MUTS=[
(F,"memxorN ws (chunks w k m out a b) (out + k * w) (a + k * w) (b + k * w) (size % w)","memxorN ws (chunks w k m out a b) (out + k * w) (a + k * w) (b + k * w) (size - w)","memxorN","remaining size computed as size - w","C21"),
(F,"chunks w n (chunk w m out a b) (out + w) (a + w) (b + w)","chunks w n (chunk w m out a b) (out + w) (a + w) b","chunks","second operand pointer not advanced","C21"),
(F,"def portable : List Nat := [8, 4, 2, 1]","def portable : List Nat := [8, 4, 1]","portable","no harm: 2-byte loop removed (control, still correct)","none (control)"),
(F,"def portable : List Nat := [8, 4, 2, 1]","def portable : List Nat := [8, 4, 2]","portable","last odd byte not processed","C21"),
(F,"if w ≤ size then memxorTail ws (chunk w m out a b) (out + w) (a + w) (b + w) (size - w)","if w < size then memxorTail ws (chunk w m out a b) (out + w) (a + w) (b + w) (size - w)","memxorTail","strict comparison drops an exact chunk","C21"),
(F,"(p3.setWidth 64 <<< 24) ||| (p2.setWidth 64 <<< 16) ||| (p1.setWidth 64 <<< 8) ||| p0.setWidth 64","(p3.setWidth 64 <<< 24) ||| (p2.setWidth 64 <<< 16) ||| (p1.setWidth 64 <<< 9) ||| p0.setWidth 64","load64le","shift by 9","C22"),
(F,"[byteAt n 0, byteAt n 8, byteAt n 16, byteAt n 24]","[byteAt n 0, byteAt n 16, byteAt n 8, byteAt n 24]","store32le","two bytes swapped","C22"),
]
