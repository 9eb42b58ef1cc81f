import Verif.Asn1.Model
/-
Model of the extended key usage tables: /repo/x509/x509.go:737-812.
-/
namespace MCrypto.X509
open MCrypto MCrypto.Asn1

/-- x509.go:738-751 -/
def oidExtKeyUsageAny : Oid := [2, 5, 29, 37, 0]
def oidExtKeyUsageServerAuth : Oid := [1, 3, 6, 1, 5, 5, 7, 3, 1]
def oidExtKeyUsageClientAuth : Oid := [1, 3, 6, 1, 5, 5, 7, 3, 2]
def oidExtKeyUsageCodeSigning : Oid := [1, 3, 6, 1, 5, 5, 7, 3, 3]
def oidExtKeyUsageEmailProtection : Oid := [1, 3, 6, 1, 5, 5, 7, 3, 4]
def oidExtKeyUsageIPSECEndSystem : Oid := [1, 3, 6, 1, 5, 5, 7, 3, 5]
def oidExtKeyUsageIPSECTunnel : Oid := [1, 3, 6, 1, 5, 5, 7, 3, 6]
def oidExtKeyUsageIPSECUser : Oid := [1, 3, 6, 1, 5, 5, 7, 3, 7]
def oidExtKeyUsageTimeStamping : Oid := [1, 3, 6, 1, 5, 5, 7, 3, 8]
def oidExtKeyUsageOCSPSigning : Oid := [1, 3, 6, 1, 5, 5, 7, 3, 9]
def oidExtKeyUsageMicrosoftServerGatedCrypto : Oid := [1, 3, 6, 1, 4, 1, 311, 10, 3, 3]
def oidExtKeyUsageNetscapeServerGatedCrypto : Oid := [2, 16, 840, 1, 113730, 4, 1]
def oidExtKeyUsageMicrosoftCommercialCodeSigning : Oid := [1, 3, 6, 1, 4, 1, 311, 2, 1, 22]
def oidExtKeyUsageMicrosoftKernelCodeSigning : Oid := [1, 3, 6, 1, 4, 1, 311, 61, 1, 1]

/-- x509.go:776-794; the usages are the constants 0, 1, … of x509.go:757-772. -/
def extKeyUsageOIDs : List (Int × Oid) :=
  [(0, oidExtKeyUsageAny),
   (1, oidExtKeyUsageServerAuth),
   (2, oidExtKeyUsageClientAuth),
   (3, oidExtKeyUsageCodeSigning),
   (4, oidExtKeyUsageEmailProtection),
   (5, oidExtKeyUsageIPSECEndSystem),
   (6, oidExtKeyUsageIPSECTunnel),
   (7, oidExtKeyUsageIPSECUser),
   (8, oidExtKeyUsageTimeStamping),
   (9, oidExtKeyUsageOCSPSigning),
   (10, oidExtKeyUsageMicrosoftServerGatedCrypto),
   (11, oidExtKeyUsageNetscapeServerGatedCrypto),
   (12, oidExtKeyUsageMicrosoftCommercialCodeSigning),
   (13, oidExtKeyUsageMicrosoftKernelCodeSigning)]

/-- `extKeyUsageFromOID`: x509.go:796-803 -/
def extKeyUsageFromOID (o : Oid) : Option Int := (extKeyUsageOIDs.find? (fun p => o == p.2)).map (·.1)

/-- `oidFromExtKeyUsage`: x509.go:805-812 -/
def oidFromExtKeyUsage (e : Int) : Option Oid := (extKeyUsageOIDs.find? (fun p => e == p.1)).map (·.2)

end MCrypto.X509
