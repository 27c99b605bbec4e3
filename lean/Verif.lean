import Verif.Props.Number
import Verif.Props.NumberX64
import Verif.Props.Hash
import Verif.Props.Modes
import Verif.Props.Gcm
import Verif.Props.Sm4
import Verif.Props.Aes
import Verif.Props.MemUtil
import Verif.Props.Asn1
import Verif.Props.Sm2Ec
import Verif.Props.Sm2
import Verif.Props.Sm9Field
import Verif.Props.Sm9Ec
import Verif.Props.Sm9
import Verif.Props.AesNi
import Verif.Props.GhashPclmul
import Verif.Props.Sm4Avx2
import Verif.Props.EndianMovbe
import Verif.Props.Dump
import Verif.Props.Rng
import Verif.Props.Alias
import Verif.Props.Sm2X64
import Verif.Props.Sm9X64
import Verif.Props.KeyObj
import Verif.Props.Sm2Mem
import Verif.Props.Sm9X64Enc
import Verif.Props.GcmThreads
import Verif.Props.GcmPclmul
import Verif.Props.HashObj
import Verif.Props.ModeHist
import Verif.Props.GcmHist
import Verif.Props.GcmForge
import Verif.Props.Sm3Coll
import Verif.Props.AliasX64
import Verif.Props.Leak
import Verif.Props.Seek
import Verif.Props.Sm2Unique
import Verif.Props.Sm9Unique
import Verif.Props.KeyObjX64
import Verif.Props.GcmHistPclmul
import Verif.Props.NumMem
import Verif.Props.NumMemX64
import Verif.Props.PairMem
import Verif.Props.PairMemX64
import Verif.Props.PairingMem
import Verif.Props.PairingMemX64
import Verif.Props.SignMem
import Verif.Props.SignMemX64
import Verif.Props.AsnMem
import Verif.Props.HashMem
import Verif.Props.ConvMem
import Verif.Props.Asn1Bounds
import Verif.Props.Asn1Accept
import Verif.Props.Sm9Point
import Verif.Props.Asn1Pad
import Verif.Props.ModeMem
import Verif.Props.ModeMemLib
import Verif.Props.GcmMem
import Verif.Props.GcmMemLib
import Verif.Props.TwistForms
import Verif.Props.MemNi
