F='Model/Sm9Ec.lean'
X='Model/Sm9X64.lean'
C="  (if ((fp2ToBytes P.y).getD 31 0) &&& 1 = 0 then 0x02 else 0x03) :: fp2ToBytes P.x"
M="  (if (out.getD 63 0) &&& 1 = 0 then 0x06 else 0x07) :: out"
MUTS = [
 (F,C,C.replace("getD 31","getD 63"),"ec2ToCompressed","parity of y0 instead of y1","C54: the compressed form"),
 (F,C,C.replace("0x02 else 0x03","0x03 else 0x02"),"ec2ToCompressed","tags swapped","C54: the compressed form"),
 (F,C,C.replace(":: fp2ToBytes P.x",":: fp2ToBytes P.y"),"ec2ToCompressed","y written instead of x","C54: the compressed form"),
 (F,M,M.replace("getD 63","getD 64"),"ec2ToMix","parity read one octet further","C54: the mixed form"),
 (F,M,M.replace("0x06 else 0x07","0x02 else 0x03"),"ec2ToMix","compressed tags","C54: the mixed form"),
 (X,C,C.replace("getD 31","getD 32"),"X64 ec2ToCompressed","parity read one octet further","C85"),
 (X,M,M.replace("0x06 else 0x07","0x07 else 0x06"),"X64 ec2ToMix","tags swapped","C85"),
 ('Model/Mont.lean',"u256ToMont ctx (u256SetWord w)","u256SetWord w","mont256SetWord","conversion to Montgomery form dropped","C39"),
 ('Model/MontX64.lean',"u256ToMont ctx (u256SetWord w)","u256FromMont ctx (u256SetWord w)","X64 mont256SetWord","converted in the wrong direction","C39"),
 ('Model/Params.lean',"0x31, 0x32, 0x33, 0x34, 0x35, 0x36, 0x37, 0x38, 0x31, 0x32, 0x33, 0x34, 0x35, 0x36, 0x37, 0x38]","0x31, 0x32, 0x33, 0x34, 0x35, 0x36, 0x37, 0x38, 0x31, 0x32, 0x33, 0x34, 0x35, 0x36, 0x38, 0x37]","sm2DefaultId","last octets swapped","C40"),
]
