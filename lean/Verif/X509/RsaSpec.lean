import Verif.X509.CertWriteSpec
/-
Specification of RSA signatures (RFC 8017), independent of the code of crypto/rsa.
-/
namespace MCrypto.RsaSpec
open MCrypto MCrypto.X509 MCrypto.X509Spec MCrypto.Asn1 MCrypto.Dg

/-- The object identifiers of the hashes and the lengths of the digests (RFC 8017 B.1). -/
def digestAlg (h : Nat) : Option (List Nat × Nat) :=
  if h = hMD5 then some ([1, 2, 840, 113549, 2, 5], 16)
  else if h = hSHA1 then some ([1, 3, 14, 3, 2, 26], 20)
  else if h = hSHA224 then some ([2, 16, 840, 1, 101, 3, 4, 2, 4], 28)
  else if h = hSHA256 then some ([2, 16, 840, 1, 101, 3, 4, 2, 1], 32)
  else if h = hSHA384 then some ([2, 16, 840, 1, 101, 3, 4, 2, 2], 48)
  else if h = hSHA512 then some ([2, 16, 840, 1, 101, 3, 4, 2, 3], 64)
  else none

/-- DigestInfo (RFC 8017 A.2.4): the algorithm with NULL, and the digest. -/
def DigestInfo (h : Nat) (d e : Bytes) : Prop :=
  ∃ o n ae de, digestAlg h = some (o, n) ∧ d.length = n ∧ El 0x30 (ae ++ de) e ∧ AlgOut o [5, 0] ae ∧ El 0x04 d de

/-- EMSA-PKCS1-v1_5 (RFC 8017 9.2): 00 01, at least eight octets FF, 00, DigestInfo. -/
def EmsaV15 (h : Nat) (d : Bytes) (em : Bytes) : Prop :=
  ∃ t n, DigestInfo h d t ∧ 8 ≤ n ∧ em = 0 :: 1 :: (List.replicate n 0xff ++ (0 :: t))

/-- RSAVP1 (RFC 8017 5.2.2) without its first step, which rejects numbers that are not below the modulus (crypto/rsa of Go 1.18
does not have that step): the octets `sig` have the length of the modulus, and to the public exponent they are the octets `em`,
read as numbers. -/
def Opens (k : RsaPub) (sig em : Bytes) : Prop :=
  sig.length = byteLen k.n.natAbs ∧ (ofBytes sig : Int) ^ k.e.toNat % k.n = (ofBytes em : Int)

/-- RSASSA-PKCS1-v1_5 (RFC 8017 8.2.2). -/
def ValidV15 (k : RsaPub) (h : Nat) (d sig : Bytes) : Prop :=
  ∃ em, em.length = byteLen k.n.natAbs ∧ EmsaV15 h d em ∧ Opens k sig em

/-- Octet `i` of MGF1 (RFC 8017 B.2.1): the hash of the seed and the four octets of the counter. -/
def mgf1At (f : HashFn) (hLen : Nat) (seed : Bytes) (i : Nat) : Option UInt8 := (f (seed ++ beBytes 4 (i / hLen)))[i % hLen]?

/-- The first `s` bits of `b` are zero, and the rest agree with `a`. -/
def KeepsLow (s : Nat) (a b : UInt8) : Prop := b.toNat = a.toNat % 2 ^ (8 - s)

/-- EMSA-PSS (RFC 8017 9.1) with a salt as long as the digest: `em` is the masked data block (zeros, 01 and the salt, XORed with
MGF1 of `hh`, the leading `8 * em.length - emBits` bits cleared), the hash `hh` of eight zeros, the digest and the salt, and BC. -/
def EmsaPss (f : HashFn) (hLen emBits : Nat) (d em : Bytes) : Prop :=
  ∃ salt db masked hh, em.length = (emBits + 7) / 8 ∧ 2 * hLen + 2 ≤ em.length ∧ d.length = hLen ∧ salt.length = hLen ∧
    hh = f (List.replicate 8 0 ++ (d ++ salt)) ∧ em = masked ++ (hh ++ [0xbc]) ∧
    db = List.replicate (em.length - 2 * hLen - 2) 0 ++ (1 :: salt) ∧ masked.length = db.length ∧
    ∀ i < db.length, ∃ a m b, db[i]? = some a ∧ mgf1At f hLen hh i = some m ∧ masked[i]? = some b ∧
      (if i = 0 then KeepsLow (8 * em.length - emBits) (a ^^^ m) b else b = a ^^^ m)

/-- The number of bits of the modulus. -/
def IsBits (n : Nat) (bits : Nat) : Prop := n < 2 ^ bits ∧ (bits ≠ 0 → 2 ^ (bits - 1) ≤ n)

/-- RSASSA-PSS (RFC 8017 8.1.2) for the hash `f` with digests of `hLen` octets. -/
def ValidPss (f : HashFn) (hLen : Nat) (k : RsaPub) (d sig : Bytes) : Prop :=
  ∃ bits em, IsBits k.n.natAbs bits ∧ EmsaPss f hLen (bits - 1) d em ∧ Opens k sig em

end MCrypto.RsaSpec
