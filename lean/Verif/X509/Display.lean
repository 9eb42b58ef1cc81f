import Verif.X509.SigAlg
/-
The `String` methods of /repo/x509/x509.go: `Hash` (lines 227-270), `SignatureAlgorithm` (389-396) and
`PublicKeyAlgorithm` (409-422). Strings are lists of characters.
-/
namespace MCrypto.X509
open MCrypto

/-- The decimal digits of `n`, most significant first. -/
def decimal (n : Nat) : List Char :=
  if h : n < 10 then [Char.ofNat (48 + n)] else decimal (n / 10) ++ [Char.ofNat (48 + n % 10)]
termination_by n
decreasing_by omega

/-- `strconv.Itoa` -/
def itoa (i : Int) : List Char := if i < 0 then '-' :: decimal i.natAbs else decimal i.natAbs

/-- `int(h)` for an unsigned 64-bit `h`. -/
def asInt (h : Nat) : Int := if h < 2 ^ 63 then h else (h : Int) - 2 ^ 64

/-- The cases of the switch x509.go:228-266. -/
def hashNames : List (Nat × String) :=
  [(hMD5, "MD5"), (hSHA1, "SHA-1"), (hSHA224, "SHA-224"), (hSHA256, "SHA-256"), (hSHA384, "SHA-384"), (hSHA512, "SHA-512"),
   (hMD5SHA1, "MD5+SHA1"), (hRIPEMD160, "RIPEMD-160"), (hSHA3_224, "SHA3-224"), (hSHA3_256, "SHA3-256"),
   (hSHA3_384, "SHA3-384"), (hSHA3_512, "SHA3-512"), (hSHA512_224, "SHA-512/224"), (hSHA512_256, "SHA-512/256"),
   (hBLAKE2s_256, "BLAKE2s-256"), (hBLAKE2b_256, "BLAKE2b-256"), (hBLAKE2b_384, "BLAKE2b-384"),
   (hBLAKE2b_512, "BLAKE2b-512"), (hSM3, "SM3")]

/-- `Hash.String`: x509.go:227-270 -/
def hashString (h : Nat) : List Char :=
  match hashNames.find? (fun x => x.1 == h) with
  | some x => x.2.toList
  | none => "unknown hash value ".toList ++ itoa (asInt h)

/-- The display names of `signatureAlgorithmDetails`, x509.go:518-533, in the order of the rows. -/
def sigAlgNames : List String :=
  ["MD5-RSA", "SHA1-RSA", "SHA256-RSA", "SHA384-RSA", "SHA512-RSA", "SHA256-RSAPSS", "SHA384-RSAPSS", "SHA512-RSAPSS",
   "DSA-SHA1", "DSA-SHA256", "ECDSA-SHA1", "ECDSA-SHA256", "ECDSA-SHA384", "ECDSA-SHA512", "Ed25519", "SM2WithSM3"]

/-- `SignatureAlgorithm.String`: x509.go:389-396; the first row with the algorithm. -/
def sigAlgString (a : Int) : List Char :=
  match (signatureAlgorithmDetails.zip sigAlgNames).find? (fun x => x.1.algo == a) with
  | some x => x.2.toList
  | none => itoa a

/-- `publicKeyAlgoName`: x509.go:409-415; the element at index 0 is empty. -/
def publicKeyAlgoName : List String := ["", "RSA", "DSA", "ECDSA", "Ed25519", "SM2"]

/-- `PublicKeyAlgorithm.String`: x509.go:417-422 -/
def pubKeyAlgString (a : Int) : List Char :=
  if 0 < a ∧ a < publicKeyAlgoName.length then (publicKeyAlgoName.getD a.toNat "").toList else itoa a

end MCrypto.X509
