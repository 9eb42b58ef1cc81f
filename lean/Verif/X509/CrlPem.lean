import Verif.X509.Create
import Verif.Pem.Model
/-
`ParseCRL` with Go's `pem.Decode`.
-/
namespace MCrypto.X509
open MCrypto

/-- `ParseCRL`: x509.go:1820-1828 -/
def parseCRL (b : Bytes) : Res Crl := ParseCRL (fun data => (Pem.decode data).map fun block => (block.type, block.bytes)) b

end MCrypto.X509
