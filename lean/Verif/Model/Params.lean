import Verif.Model.Mont
/-!
# The constants of SM2 and SM9 (generated by tools/gen_params.py from the byte tables in /repo)
-/
namespace Verif

/-- `mpz_set_epi8` (include/gmlib/number/internal/mpz_common.h 15-35): big-endian bytes to limbs. -/
abbrev setEpi8 (bytes : List Byte) : List W32 := u256FromBytes bytes

namespace Sm2

/-- `SM2_DEFAULT_ID` (src/sm2/sm2p256v1.cpp 7-10). -/
def sm2DefaultId : List Byte := [
  0x31, 0x32, 0x33, 0x34, 0x35, 0x36, 0x37, 0x38, 0x31, 0x32, 0x33, 0x34, 0x35, 0x36, 0x37, 0x38]

/-- `SM2_CURVE_P` (src/sm2/sm2p256v1.cpp 14-18). -/
def sm2CurveP : List Byte := [
  0xff, 0xff, 0xff, 0xfe, 0xff, 0xff, 0xff, 0xff, 0xff, 0xff, 0xff, 0xff, 0xff, 0xff, 0xff, 0xff,
  0xff, 0xff, 0xff, 0xff, 0x00, 0x00, 0x00, 0x00, 0xff, 0xff, 0xff, 0xff, 0xff, 0xff, 0xff, 0xff]

/-- `SM2_CURVE_A` (src/sm2/sm2p256v1.cpp 20-24). -/
def sm2CurveA : List Byte := [
  0xff, 0xff, 0xff, 0xfe, 0xff, 0xff, 0xff, 0xff, 0xff, 0xff, 0xff, 0xff, 0xff, 0xff, 0xff, 0xff,
  0xff, 0xff, 0xff, 0xff, 0x00, 0x00, 0x00, 0x00, 0xff, 0xff, 0xff, 0xff, 0xff, 0xff, 0xff, 0xfc]

/-- `SM2_CURVE_B` (src/sm2/sm2p256v1.cpp 26-30). -/
def sm2CurveB : List Byte := [
  0x28, 0xe9, 0xfa, 0x9e, 0x9d, 0x9f, 0x5e, 0x34, 0x4d, 0x5a, 0x9e, 0x4b, 0xcf, 0x65, 0x09, 0xa7,
  0xf3, 0x97, 0x89, 0xf5, 0x15, 0xab, 0x8f, 0x92, 0xdd, 0xbc, 0xbd, 0x41, 0x4d, 0x94, 0x0e, 0x93]

/-- `SM2_CURVE_N` (src/sm2/sm2p256v1.cpp 32-36). -/
def sm2CurveN : List Byte := [
  0xff, 0xff, 0xff, 0xfe, 0xff, 0xff, 0xff, 0xff, 0xff, 0xff, 0xff, 0xff, 0xff, 0xff, 0xff, 0xff,
  0x72, 0x03, 0xdf, 0x6b, 0x21, 0xc6, 0x05, 0x2b, 0x53, 0xbb, 0xf4, 0x09, 0x39, 0xd5, 0x41, 0x23]

/-- `SM2_CURVE_GX` (src/sm2/sm2p256v1.cpp 38-42). -/
def sm2CurveGx : List Byte := [
  0x32, 0xc4, 0xae, 0x2c, 0x1f, 0x19, 0x81, 0x19, 0x5f, 0x99, 0x04, 0x46, 0x6a, 0x39, 0xc9, 0x94,
  0x8f, 0xe3, 0x0b, 0xbf, 0xf2, 0x66, 0x0b, 0xe1, 0x71, 0x5a, 0x45, 0x89, 0x33, 0x4c, 0x74, 0xc7]

/-- `SM2_CURVE_GY` (src/sm2/sm2p256v1.cpp 44-48). -/
def sm2CurveGy : List Byte := [
  0xbc, 0x37, 0x36, 0xa2, 0xf4, 0xf6, 0x77, 0x9c, 0x59, 0xbd, 0xce, 0xe3, 0x6b, 0x69, 0x21, 0x53,
  0xd0, 0xa9, 0x87, 0x7c, 0xc6, 0x2a, 0x47, 0x40, 0x02, 0xdf, 0x32, 0xe5, 0x21, 0x39, 0xf0, 0xa0]

/-- `P_DATA` (src/sm2/sm2p256v1.cpp 50-53). -/
def pData : List Byte := [
  0xff, 0xff, 0xff, 0xfe, 0xff, 0xff, 0xff, 0xff, 0xff, 0xff, 0xff, 0xff, 0xff, 0xff, 0xff, 0xff,
  0xff, 0xff, 0xff, 0xff, 0x00, 0x00, 0x00, 0x00, 0xff, 0xff, 0xff, 0xff, 0xff, 0xff, 0xff, 0xff]

/-- `P_SUB2_DATA` (src/sm2/sm2p256v1.cpp 54-57). -/
def pSub2Data : List Byte := [
  0xff, 0xff, 0xff, 0xfe, 0xff, 0xff, 0xff, 0xff, 0xff, 0xff, 0xff, 0xff, 0xff, 0xff, 0xff, 0xff,
  0xff, 0xff, 0xff, 0xff, 0x00, 0x00, 0x00, 0x00, 0xff, 0xff, 0xff, 0xff, 0xff, 0xff, 0xff, 0xfd]

/-- `FP_R_DATA` (src/sm2/sm2p256v1.cpp 58-61). -/
def fpRData : List Byte := [
  0x00, 0x00, 0x00, 0x01, 0x00, 0x00, 0x00, 0x00, 0x00, 0x00, 0x00, 0x00, 0x00, 0x00, 0x00, 0x00,
  0x00, 0x00, 0x00, 0x00, 0xff, 0xff, 0xff, 0xff, 0x00, 0x00, 0x00, 0x00, 0x00, 0x00, 0x00, 0x01]

/-- `FP_R_POW2_DATA` (src/sm2/sm2p256v1.cpp 62-65). -/
def fpRPow2Data : List Byte := [
  0x00, 0x00, 0x00, 0x04, 0x00, 0x00, 0x00, 0x02, 0x00, 0x00, 0x00, 0x01, 0x00, 0x00, 0x00, 0x01,
  0x00, 0x00, 0x00, 0x02, 0xff, 0xff, 0xff, 0xff, 0x00, 0x00, 0x00, 0x02, 0x00, 0x00, 0x00, 0x03]

/-- `N_DATA` (src/sm2/sm2p256v1.cpp 68-71). -/
def nData : List Byte := [
  0xff, 0xff, 0xff, 0xfe, 0xff, 0xff, 0xff, 0xff, 0xff, 0xff, 0xff, 0xff, 0xff, 0xff, 0xff, 0xff,
  0x72, 0x03, 0xdf, 0x6b, 0x21, 0xc6, 0x05, 0x2b, 0x53, 0xbb, 0xf4, 0x09, 0x39, 0xd5, 0x41, 0x23]

/-- `N_SUB1_DATA` (src/sm2/sm2p256v1.cpp 72-75). -/
def nSub1Data : List Byte := [
  0xff, 0xff, 0xff, 0xfe, 0xff, 0xff, 0xff, 0xff, 0xff, 0xff, 0xff, 0xff, 0xff, 0xff, 0xff, 0xff,
  0x72, 0x03, 0xdf, 0x6b, 0x21, 0xc6, 0x05, 0x2b, 0x53, 0xbb, 0xf4, 0x09, 0x39, 0xd5, 0x41, 0x22]

/-- `N_SUB2_DATA` (src/sm2/sm2p256v1.cpp 76-79). -/
def nSub2Data : List Byte := [
  0xff, 0xff, 0xff, 0xfe, 0xff, 0xff, 0xff, 0xff, 0xff, 0xff, 0xff, 0xff, 0xff, 0xff, 0xff, 0xff,
  0x72, 0x03, 0xdf, 0x6b, 0x21, 0xc6, 0x05, 0x2b, 0x53, 0xbb, 0xf4, 0x09, 0x39, 0xd5, 0x41, 0x21]

/-- `FN_R_DATA` (src/sm2/sm2p256v1.cpp 80-83). -/
def fnRData : List Byte := [
  0x00, 0x00, 0x00, 0x01, 0x00, 0x00, 0x00, 0x00, 0x00, 0x00, 0x00, 0x00, 0x00, 0x00, 0x00, 0x00,
  0x8d, 0xfc, 0x20, 0x94, 0xde, 0x39, 0xfa, 0xd4, 0xac, 0x44, 0x0b, 0xf6, 0xc6, 0x2a, 0xbe, 0xdd]

/-- `FN_R_POW2_DATA` (src/sm2/sm2p256v1.cpp 84-87). -/
def fnRPow2Data : List Byte := [
  0x1e, 0xb5, 0xe4, 0x12, 0xa2, 0x2b, 0x3d, 0x3b, 0x62, 0x0f, 0xc8, 0x4c, 0x3a, 0xff, 0xe0, 0xd4,
  0x34, 0x64, 0x50, 0x4a, 0xde, 0x6f, 0xa2, 0xfa, 0x90, 0x11, 0x92, 0xaf, 0x7c, 0x11, 0x4f, 0x20]

/-- `P_SUB3_DIV4_ADD1` (src/sm2/sm2p256v1.cpp 185-188). -/
def pSub3Div4Add1 : List Byte := [
  0x3f, 0xff, 0xff, 0xff, 0xbf, 0xff, 0xff, 0xff, 0xff, 0xff, 0xff, 0xff, 0xff, 0xff, 0xff, 0xff,
  0xff, 0xff, 0xff, 0xff, 0xc0, 0x00, 0x00, 0x00, 0x40, 0x00, 0x00, 0x00, 0x00, 0x00, 0x00, 0x00]

/-- `FP_MONT_CTX` (src/sm2/sm2p256v1.cpp 100-102). The `getD 0` case does not occur: `Sm2.fpCtx_wf`. -/
def fpCtx : Mont256CTX where
  P := setEpi8 pData
  PSub2 := setEpi8 pSub2Data
  R := setEpi8 fpRData
  RPow2 := setEpi8 fpRPow2Data
  N_ := (((setEpi8 pData).head?).bind montComputeN).getD 0

/-- `FN_MONT_CTX` (src/sm2/sm2p256v1.cpp 103-105). The `getD 0` case does not occur: `Sm2.fnCtx_wf`. -/
def fnCtx : Mont256CTX where
  P := setEpi8 nData
  PSub2 := setEpi8 nSub2Data
  R := setEpi8 fnRData
  RPow2 := setEpi8 fnRPow2Data
  N_ := (((setEpi8 nData).head?).bind montComputeN).getD 0

end Sm2

namespace Sm9

/-- `SM9_CURVE_P` (src/sm9/sm9_field.cpp 7-11). -/
def sm9CurveP : List Byte := [
  0xb6, 0x40, 0x00, 0x00, 0x02, 0xa3, 0xa6, 0xf1, 0xd6, 0x03, 0xab, 0x4f, 0xf5, 0x8e, 0xc7, 0x45,
  0x21, 0xf2, 0x93, 0x4b, 0x1a, 0x7a, 0xee, 0xdb, 0xe5, 0x6f, 0x9b, 0x27, 0xe3, 0x51, 0x45, 0x7d]

/-- `SM9_CURVE_A` (src/sm9/sm9_field.cpp 13-17). -/
def sm9CurveA : List Byte := [
  0x00, 0x00, 0x00, 0x00, 0x00, 0x00, 0x00, 0x00, 0x00, 0x00, 0x00, 0x00, 0x00, 0x00, 0x00, 0x00,
  0x00, 0x00, 0x00, 0x00, 0x00, 0x00, 0x00, 0x00, 0x00, 0x00, 0x00, 0x00, 0x00, 0x00, 0x00, 0x00]

/-- `SM9_CURVE_B` (src/sm9/sm9_field.cpp 19-23). -/
def sm9CurveB : List Byte := [
  0x00, 0x00, 0x00, 0x00, 0x00, 0x00, 0x00, 0x00, 0x00, 0x00, 0x00, 0x00, 0x00, 0x00, 0x00, 0x00,
  0x00, 0x00, 0x00, 0x00, 0x00, 0x00, 0x00, 0x00, 0x00, 0x00, 0x00, 0x00, 0x00, 0x00, 0x00, 0x05]

/-- `SM9_CURVE_N` (src/sm9/sm9_field.cpp 25-29). -/
def sm9CurveN : List Byte := [
  0xb6, 0x40, 0x00, 0x00, 0x02, 0xa3, 0xa6, 0xf1, 0xd6, 0x03, 0xab, 0x4f, 0xf5, 0x8e, 0xc7, 0x44,
  0x49, 0xf2, 0x93, 0x4b, 0x18, 0xea, 0x8b, 0xee, 0xe5, 0x6e, 0xe1, 0x9c, 0xd6, 0x9e, 0xcf, 0x25]

/-- `SM9_CURVE_GX` (src/sm9/sm9_field.cpp 31-35). -/
def sm9CurveGx : List Byte := [
  0x93, 0xde, 0x05, 0x1d, 0x62, 0xbf, 0x71, 0x8f, 0xf5, 0xed, 0x07, 0x04, 0x48, 0x7d, 0x01, 0xd6,
  0xe1, 0xe4, 0x08, 0x69, 0x09, 0xdc, 0x32, 0x80, 0xe8, 0xc4, 0xe4, 0x81, 0x7c, 0x66, 0xdd, 0xdd]

/-- `SM9_CURVE_GY` (src/sm9/sm9_field.cpp 37-41). -/
def sm9CurveGy : List Byte := [
  0x21, 0xfe, 0x8d, 0xda, 0x4f, 0x21, 0xe6, 0x07, 0x63, 0x10, 0x65, 0x12, 0x5c, 0x39, 0x5b, 0xbc,
  0x1c, 0x1c, 0x00, 0xcb, 0xfa, 0x60, 0x24, 0x35, 0x0c, 0x46, 0x4c, 0xd7, 0x0a, 0x3e, 0xa6, 0x16]

/-- `SM9_CURVE2_GX` (src/sm9/sm9_field.cpp 45-52). -/
def sm9Curve2Gx : List Byte := [
  0x85, 0xae, 0xf3, 0xd0, 0x78, 0x64, 0x0c, 0x98, 0x59, 0x7b, 0x60, 0x27, 0xb4, 0x41, 0xa0, 0x1f,
  0xf1, 0xdd, 0x2c, 0x19, 0x0f, 0x5e, 0x93, 0xc4, 0x54, 0x80, 0x6c, 0x11, 0xd8, 0x80, 0x61, 0x41,
  0x37, 0x22, 0x75, 0x52, 0x92, 0x13, 0x0b, 0x08, 0xd2, 0xaa, 0xb9, 0x7f, 0xd3, 0x4e, 0xc1, 0x20,
  0xee, 0x26, 0x59, 0x48, 0xd1, 0x9c, 0x17, 0xab, 0xf9, 0xb7, 0x21, 0x3b, 0xaf, 0x82, 0xd6, 0x5b]

/-- `SM9_CURVE2_GY` (src/sm9/sm9_field.cpp 56-63). -/
def sm9Curve2Gy : List Byte := [
  0x17, 0x50, 0x9b, 0x09, 0x2e, 0x84, 0x5c, 0x12, 0x66, 0xba, 0x0d, 0x26, 0x2c, 0xbe, 0xe6, 0xed,
  0x07, 0x36, 0xa9, 0x6f, 0xa3, 0x47, 0xc8, 0xbd, 0x85, 0x6d, 0xc7, 0x6b, 0x84, 0xeb, 0xeb, 0x96,
  0xa7, 0xcf, 0x28, 0xd5, 0x19, 0xbe, 0x3d, 0xa6, 0x5f, 0x31, 0x70, 0x15, 0x3d, 0x27, 0x8f, 0xf2,
  0x47, 0xef, 0xba, 0x98, 0xa7, 0x1a, 0x08, 0x11, 0x62, 0x15, 0xbb, 0xa5, 0xc9, 0x99, 0xa7, 0xc7]

/-- `P_DATA` (src/sm9/sm9_field.cpp 65-68). -/
def pData : List Byte := [
  0xb6, 0x40, 0x00, 0x00, 0x02, 0xa3, 0xa6, 0xf1, 0xd6, 0x03, 0xab, 0x4f, 0xf5, 0x8e, 0xc7, 0x45,
  0x21, 0xf2, 0x93, 0x4b, 0x1a, 0x7a, 0xee, 0xdb, 0xe5, 0x6f, 0x9b, 0x27, 0xe3, 0x51, 0x45, 0x7d]

/-- `P_SUB2_DATA` (src/sm9/sm9_field.cpp 70-73). -/
def pSub2Data : List Byte := [
  0xb6, 0x40, 0x00, 0x00, 0x02, 0xa3, 0xa6, 0xf1, 0xd6, 0x03, 0xab, 0x4f, 0xf5, 0x8e, 0xc7, 0x45,
  0x21, 0xf2, 0x93, 0x4b, 0x1a, 0x7a, 0xee, 0xdb, 0xe5, 0x6f, 0x9b, 0x27, 0xe3, 0x51, 0x45, 0x7b]

/-- `FP_R_DATA` (src/sm9/sm9_field.cpp 75-78). -/
def fpRData : List Byte := [
  0x49, 0xbf, 0xff, 0xff, 0xfd, 0x5c, 0x59, 0x0e, 0x29, 0xfc, 0x54, 0xb0, 0x0a, 0x71, 0x38, 0xba,
  0xde, 0x0d, 0x6c, 0xb4, 0xe5, 0x85, 0x11, 0x24, 0x1a, 0x90, 0x64, 0xd8, 0x1c, 0xae, 0xba, 0x83]

/-- `FP_R_POW2_DATA` (src/sm9/sm9_field.cpp 80-83). -/
def fpRPow2Data : List Byte := [
  0x2e, 0xa7, 0x95, 0xa6, 0x56, 0xf6, 0x2f, 0xbd, 0xe4, 0x79, 0xb5, 0x22, 0xd6, 0x70, 0x6e, 0x7b,
  0x88, 0xf8, 0x10, 0x5f, 0xae, 0x1a, 0x5d, 0x3f, 0x27, 0xde, 0xa3, 0x12, 0xb4, 0x17, 0xe2, 0xd2]

/-- `N_DATA` (src/sm9/sm9_field.cpp 91-94). -/
def nData : List Byte := [
  0xb6, 0x40, 0x00, 0x00, 0x02, 0xa3, 0xa6, 0xf1, 0xd6, 0x03, 0xab, 0x4f, 0xf5, 0x8e, 0xc7, 0x44,
  0x49, 0xf2, 0x93, 0x4b, 0x18, 0xea, 0x8b, 0xee, 0xe5, 0x6e, 0xe1, 0x9c, 0xd6, 0x9e, 0xcf, 0x25]

/-- `N_SUB2_DATA` (src/sm9/sm9_field.cpp 96-99). -/
def nSub2Data : List Byte := [
  0xb6, 0x40, 0x00, 0x00, 0x02, 0xa3, 0xa6, 0xf1, 0xd6, 0x03, 0xab, 0x4f, 0xf5, 0x8e, 0xc7, 0x44,
  0x49, 0xf2, 0x93, 0x4b, 0x18, 0xea, 0x8b, 0xee, 0xe5, 0x6e, 0xe1, 0x9c, 0xd6, 0x9e, 0xcf, 0x23]

/-- `N_SUB3_DATA` (src/sm9/sm9_field.cpp 101-104). -/
def nSub3Data : List Byte := [
  0xb6, 0x40, 0x00, 0x00, 0x02, 0xa3, 0xa6, 0xf1, 0xd6, 0x03, 0xab, 0x4f, 0xf5, 0x8e, 0xc7, 0x44,
  0x49, 0xf2, 0x93, 0x4b, 0x18, 0xea, 0x8b, 0xee, 0xe5, 0x6e, 0xe1, 0x9c, 0xd6, 0x9e, 0xcf, 0x22]

/-- `FN_R_DATA` (src/sm9/sm9_field.cpp 106-109). -/
def fnRData : List Byte := [
  0x49, 0xbf, 0xff, 0xff, 0xfd, 0x5c, 0x59, 0x0e, 0x29, 0xfc, 0x54, 0xb0, 0x0a, 0x71, 0x38, 0xbb,
  0xb6, 0x0d, 0x6c, 0xb4, 0xe7, 0x15, 0x74, 0x11, 0x1a, 0x91, 0x1e, 0x63, 0x29, 0x61, 0x30, 0xdb]

/-- `FN_R_POW2_DATA` (src/sm9/sm9_field.cpp 111-114). -/
def fnRPow2Data : List Byte := [
  0x88, 0x94, 0xf5, 0xd1, 0x63, 0x69, 0x5d, 0x0e, 0xbf, 0xee, 0x4b, 0xae, 0x7d, 0x78, 0xa1, 0xf9,
  0xe4, 0xa0, 0x81, 0x10, 0xbb, 0x6d, 0xae, 0xab, 0x75, 0x98, 0xcd, 0x79, 0xcd, 0x75, 0x0c, 0x35]

/-- `U_ADD1` (src/sm9/sm9_field.cpp 326-329). -/
def uAdd1 : List Byte := [
  0x16, 0xc8, 0x00, 0x00, 0x00, 0x54, 0x74, 0xde, 0x3a, 0xc0, 0x75, 0x69, 0xfe, 0xb1, 0xd8, 0xe8,
  0xa4, 0x3e, 0x52, 0x69, 0x63, 0x4f, 0x5d, 0xdb, 0x7c, 0xad, 0xf3, 0x64, 0xfc, 0x6a, 0x28, 0xb0]

/-- `U_MUL2_ADD1` (src/sm9/sm9_field.cpp 330-333). -/
def uMul2Add1 : List Byte := [
  0x2d, 0x90, 0x00, 0x00, 0x00, 0xa8, 0xe9, 0xbc, 0x75, 0x80, 0xea, 0xd3, 0xfd, 0x63, 0xb1, 0xd1,
  0x48, 0x7c, 0xa4, 0xd2, 0xc6, 0x9e, 0xbb, 0xb6, 0xf9, 0x5b, 0xe6, 0xc9, 0xf8, 0xd4, 0x51, 0x5f]

/-- `TWO_POW_2U1_DATA` (src/sm9/sm9_field.cpp 334-338). -/
def twoPow2u1Data : List Byte := [
  0x49, 0xdb, 0x72, 0x1a, 0x26, 0x99, 0x67, 0xc4, 0xe0, 0xa8, 0xde, 0xbc, 0x07, 0x83, 0x18, 0x2f,
  0x82, 0x55, 0x52, 0x33, 0x13, 0x9e, 0x9d, 0x63, 0xef, 0xbd, 0x7b, 0x54, 0x09, 0x2c, 0x75, 0x6c]

/-- `C_L1835` (src/sm9/sm9_field.cpp 1835-1839). -/
def cL1835 : List Byte := [
  0x3f, 0x23, 0xea, 0x58, 0xe5, 0x72, 0x0b, 0xdb, 0x84, 0x3c, 0x6c, 0xfa, 0x9c, 0x08, 0x67, 0x49,
  0x47, 0xc5, 0xc8, 0x6e, 0x0d, 0xdd, 0x04, 0xed, 0xa9, 0x1d, 0x83, 0x54, 0x37, 0x7b, 0x69, 0x8b]

/-- `C_L1850` (src/sm9/sm9_field.cpp 1850-1854). -/
def cL1850 : List Byte := [
  0x00, 0x00, 0x00, 0x00, 0x00, 0x00, 0x00, 0x00, 0xf3, 0x00, 0x00, 0x00, 0x02, 0xa3, 0xa6, 0xf2,
  0x78, 0x02, 0x72, 0x35, 0x4f, 0x8b, 0x78, 0xf4, 0xd5, 0xfc, 0x11, 0x96, 0x7b, 0xe6, 0x53, 0x34]

/-- `SM9_BETA_DATA` (src/sm9/sm9_field.cpp 2072-2076). -/
def sm9BetaData : List Byte := [
  0x6c, 0x64, 0x8d, 0xe5, 0xdc, 0x0a, 0x3f, 0x2c, 0xf5, 0x5a, 0xcc, 0x93, 0xee, 0x0b, 0xaf, 0x15,
  0x9f, 0x9d, 0x41, 0x18, 0x06, 0xdc, 0x51, 0x77, 0xf5, 0xb2, 0x1f, 0xd3, 0xda, 0x24, 0xd0, 0x11]

/-- `SM9_ALPHA1_DATA` (src/sm9/sm9_field.cpp 2078-2082). -/
def sm9Alpha1Data : List Byte := [
  0x3f, 0x23, 0xea, 0x58, 0xe5, 0x72, 0x0b, 0xdb, 0x84, 0x3c, 0x6c, 0xfa, 0x9c, 0x08, 0x67, 0x49,
  0x47, 0xc5, 0xc8, 0x6e, 0x0d, 0xdd, 0x04, 0xed, 0xa9, 0x1d, 0x83, 0x54, 0x37, 0x7b, 0x69, 0x8b]

/-- `SM9_ALPHA2_DATA` (src/sm9/sm9_field.cpp 2084-2088). -/
def sm9Alpha2Data : List Byte := [
  0x00, 0x00, 0x00, 0x00, 0x00, 0x00, 0x00, 0x00, 0xf3, 0x00, 0x00, 0x00, 0x02, 0xa3, 0xa6, 0xf2,
  0x78, 0x02, 0x72, 0x35, 0x4f, 0x8b, 0x78, 0xf4, 0xd5, 0xfc, 0x11, 0x96, 0x7b, 0xe6, 0x53, 0x34]

/-- `SM9_ALPHA3_DATA` (src/sm9/sm9_field.cpp 2090-2094). -/
def sm9Alpha3Data : List Byte := [
  0x6c, 0x64, 0x8d, 0xe5, 0xdc, 0x0a, 0x3f, 0x2c, 0xf5, 0x5a, 0xcc, 0x93, 0xee, 0x0b, 0xaf, 0x15,
  0x9f, 0x9d, 0x41, 0x18, 0x06, 0xdc, 0x51, 0x77, 0xf5, 0xb2, 0x1f, 0xd3, 0xda, 0x24, 0xd0, 0x11]

/-- `SM9_ALPHA4_DATA` (src/sm9/sm9_field.cpp 2096-2100). -/
def sm9Alpha4Data : List Byte := [
  0x00, 0x00, 0x00, 0x00, 0x00, 0x00, 0x00, 0x00, 0xf3, 0x00, 0x00, 0x00, 0x02, 0xa3, 0xa6, 0xf2,
  0x78, 0x02, 0x72, 0x35, 0x4f, 0x8b, 0x78, 0xf4, 0xd5, 0xfc, 0x11, 0x96, 0x7b, 0xe6, 0x53, 0x33]

/-- `SM9_ALPHA5_DATA` (src/sm9/sm9_field.cpp 2102-2106). -/
def sm9Alpha5Data : List Byte := [
  0x2d, 0x40, 0xa3, 0x8c, 0xf6, 0x98, 0x33, 0x51, 0x71, 0x1e, 0x5f, 0x99, 0x52, 0x03, 0x47, 0xcc,
  0x57, 0xd7, 0x78, 0xa9, 0xf8, 0xff, 0x4c, 0x8a, 0x4c, 0x94, 0x9c, 0x7f, 0xa2, 0xa9, 0x66, 0x86]

/-- `A2` (src/sm9/sm9_field.cpp 2219-2223). -/
def a2 : List Byte := [
  0x00, 0x00, 0x00, 0x00, 0x00, 0x00, 0x00, 0x00, 0x00, 0x00, 0x00, 0x00, 0x00, 0x00, 0x00, 0x00,
  0xd8, 0x00, 0x00, 0x00, 0x01, 0x90, 0x62, 0xed, 0x00, 0x00, 0xb9, 0x8b, 0x0c, 0xb2, 0x76, 0x59]

/-- `A3` (src/sm9/sm9_field.cpp 2224-2228). -/
def a3 : List Byte := [
  0x00, 0x00, 0x00, 0x00, 0x00, 0x00, 0x00, 0x00, 0x00, 0x00, 0x00, 0x00, 0x00, 0x00, 0x00, 0x00,
  0x00, 0x00, 0x00, 0x00, 0x00, 0x00, 0x00, 0x02, 0x40, 0x00, 0x00, 0x00, 0x02, 0x15, 0xd9, 0x41]

/-- `FP_MONT_CTX` (src/sm9/sm9_field.cpp 123-125). The `getD 0` case does not occur: `Sm9.fpCtx_wf`. -/
def fpCtx : Mont256CTX where
  P := setEpi8 pData
  PSub2 := setEpi8 pSub2Data
  R := setEpi8 fpRData
  RPow2 := setEpi8 fpRPow2Data
  N_ := (((setEpi8 pData).head?).bind montComputeN).getD 0

/-- `FN_MONT_CTX` (src/sm9/sm9_field.cpp 127-129). The `getD 0` case does not occur: `Sm9.fnCtx_wf`. -/
def fnCtx : Mont256CTX where
  P := setEpi8 nData
  PSub2 := setEpi8 nSub2Data
  R := setEpi8 fnRData
  RPow2 := setEpi8 fnRPow2Data
  N_ := (((setEpi8 nData).head?).bind montComputeN).getD 0

end Sm9
end Verif
