import Verif.X509.Rsa
/-
The type assertion `priv.(crypto.Signer)` of /repo/x509/x509.go:1682, 1847 and 2059 (the parameter of type `crypto.Signer` at 2324),
on the types of private keys the parsers return.

Simplification: the methods of `*ecdsa.PrivateKey` and `ed25519.PrivateKey` are parameters; those of `*rsa.PrivateKey` are the model
of `X509/Rsa`. A value of a type that is none of these (`PrivKey.other`) stands for a type without the methods.
-/
namespace MCrypto.X509
open MCrypto

/-- What the standard library brings: hashes, the blinding and random stream of RSA, and the signatures of the other two. -/
structure KeyMethods where
  H : StdHashes
  blind : Option Int
  rand : Bytes
  ecdsa : Sm2.PrivateKey → Bytes → SignOpts → Option Bytes
  ed25519 : Bytes → Bytes → SignOpts → Option Bytes

/-- `priv.(crypto.Signer)`: x509.go:1682, 1847, 2059. `crypto.Signer` has `Public() crypto.PublicKey` and
`Sign(rand io.Reader, digest []byte, opts crypto.SignerOpts) ([]byte, error)`. The method of `*sm2.PrivateKey` is
`Sign(rand io.Reader, in, uid []byte) ([]byte, error)` (sm2/sm2.go:115-117), so that type does not implement the interface.
`ed25519.PrivateKey.Public` is the second half of the key. -/
def asSigner (L : KeyMethods) : PrivKey → Option Signer
  | .rsa k => some (Rsa.rsaSigner L.H k L.blind L.rand)
  | .ecdsa k => some ⟨.ecdsa k.pub, L.ecdsa k⟩
  | .ed25519 k => some ⟨.ed25519 (k.drop 32), L.ed25519 k⟩
  | .sm2 _ => none
  | .other _ => none

end MCrypto.X509
