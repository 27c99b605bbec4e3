/-!
# Specification: the domain parameters of SM2 (GB/T 32918.5) and SM9 (GB/T 38635), as published
-/
namespace Verif.Spec

/-- SM2: the field prime. -/
def sm2p : Nat := 0xFFFFFFFEFFFFFFFFFFFFFFFFFFFFFFFFFFFFFFFF00000000FFFFFFFFFFFFFFFF
/-- SM2: the order of the base point. -/
def sm2n : Nat := 0xFFFFFFFEFFFFFFFFFFFFFFFFFFFFFFFF7203DF6B21C6052B53BBF40939D54123
/-- SM2: curve coefficient `a = -3`. -/
def sm2a : Nat := 0xFFFFFFFEFFFFFFFFFFFFFFFFFFFFFFFFFFFFFFFF00000000FFFFFFFFFFFFFFFC
/-- SM2: curve coefficient `b`. -/
def sm2b : Nat := 0x28E9FA9E9D9F5E344D5A9E4BCF6509A7F39789F515AB8F92DDBCBD414D940E93
/-- SM2: base point. -/
def sm2gx : Nat := 0x32C4AE2C1F1981195F9904466A39C9948FE30BBFF2660BE1715A4589334C74C7
/-- SM2: base point. -/
def sm2gy : Nat := 0xBC3736A2F4F6779C59BDCEE36B692153D0A9877CC62A474002DF32E52139F0A0
/-- SM9: the field prime. -/
def sm9p : Nat := 0xB640000002A3A6F1D603AB4FF58EC74521F2934B1A7AEEDBE56F9B27E351457D
/-- SM9: the group order. -/
def sm9n : Nat := 0xB640000002A3A6F1D603AB4FF58EC74449F2934B18EA8BEEE56EE19CD69ECF25
/-- SM9: generator of G1. -/
def sm9gx : Nat := 0x93DE051D62BF718FF5ED0704487D01D6E1E4086909DC3280E8C4E4817C66DDDD
/-- SM9: generator of G1. -/
def sm9gy : Nat := 0x21FE8DDA4F21E607631065125C395BBC1C1C00CBFA6024350C464CD70A3EA616

end Verif.Spec
