import Verif.Props.Issuers
import Verif.Props.RsaEx
/-
Concrete cases for C133.
-/
namespace MCrypto.Props
open MCrypto MCrypto.X509 MCrypto.X509Spec MCrypto.Asn1

def exMethods : KeyMethods := ⟨exRsaHashes, none, List.replicate 40 9, fun _ d _ => some d, fun _ d _ => some (d.take 64)⟩

def exEdKey : Bytes := (List.range 64).map UInt8.ofNat

/-- With an RSA key a certificate comes out. -/
example : okAnd (CreateCertificate exRsaEnv { exCreateTemplate with signatureAlgorithm := 3 } exCreateTemplate (.rsa exRsaKey.pub)
    (asSigner exMethods (.rsa exRsaKey))) (fun der => der.length < 2000) = true := by decide +kernel

/-- With an SM2 key nothing does. -/
example (d : Sm2.PrivateKey) : CreateCertificate exRsaEnv exCreateTemplate exCreateTemplate (.rsa exRsaKey.pub) (asSigner exMethods (.sm2 d)) =
    .err "x509: certificate private key does not implement crypto.Signer" := rfl

/-- With an Ed25519 key `CreateCertificate` fails after signing; a request is made and parsed, and its own check fails; and so for
lists. -/
example : (CreateCertificate exRsaEnv { exCreateTemplate with signatureAlgorithm := 0 } { exCreateTemplate with publicKey := .nil }
    (.rsa exRsaKey.pub) (asSigner exMethods (.ed25519 exEdKey))).isOk = false := by decide +kernel

example : okAnd (CreateCertificateRequest exRsaEnv.reg { exRequest with signatureAlgorithm := 0 } (asSigner exMethods (.ed25519 exEdKey)))
    (fun der => okAnd (ParseCertificateRequest exEnv der) fun c => decide (c.publicKey = .ed25519 (exEdKey.drop 32)) &&
      !(c.checkSignature exRsaEnv.reg exRsaEnv.V).isOk) = true := by decide +kernel

example : okAnd (exRsaIssuer.createCRL exRsaEnv (asSigner exMethods (.ed25519 exEdKey)) [⟨some 9, ⟨2019, 12, 31, 23, 0, 0, -60⟩, none⟩]
    ⟨2020, 1, 2, 3, 4, 5, 0⟩ ⟨2021, 1, 2, 3, 4, 5, 0⟩) (fun der => okAnd (ParseDERCRL der) fun c =>
      !({ exRsaIssuer with publicKey := .ed25519 (exEdKey.drop 32) }.checkCRLSignature exRsaEnv.reg exRsaEnv.V c.signedPart).isOk) = true := by
  decide +kernel

end MCrypto.Props
