import Verif.Base
/-
The cryptographic primitives that /repo/pkcs12 takes from the Go standard library (crypto/sha1,
crypto/hmac, crypto/des). They are not code of /repo. `Prims` lists what the model uses of them together
with the only facts the proofs use: SHA-1 values have 20 bytes, and a Triple-DES block function with its
inverse permutes 8-byte blocks. `Verif/Pkcs12/StdPrims.lean` gives an instance written from the standards
(FIPS 180-4, FIPS 46-3), so the assumptions are satisfiable. HMAC is defined over the hash (RFC 2104).
-/
namespace MCrypto.P12
open MCrypto

structure Prims where
  /-- `sha1.Sum` -/
  sha1 : Bytes → Bytes
  /-- `des.NewTripleDESCipher(key)` (24-byte key): the block function and its inverse. -/
  tdesEnc : Bytes → Bytes → Bytes
  tdesDec : Bytes → Bytes → Bytes
  sha1_length : ∀ m, (sha1 m).length = 20
  tdesEnc_length : ∀ k b, k.length = 24 → b.length = 8 → (tdesEnc k b).length = 8
  tdesDec_length : ∀ k b, k.length = 24 → b.length = 8 → (tdesDec k b).length = 8
  tdes_dec_enc : ∀ k b, k.length = 24 → b.length = 8 → tdesDec k (tdesEnc k b) = b
  tdes_enc_dec : ∀ k b, k.length = 24 → b.length = 8 → tdesEnc k (tdesDec k b) = b

/-- Byte-wise exclusive or of two blocks. -/
def xorBytes (a b : Bytes) : Bytes := List.zipWith (· ^^^ ·) a b

/-- RFC 2104 section 2 with a hash of block length 64: keys longer than a block are hashed, the key is
padded with zeros, `H(K ^ opad, H(K ^ ipad, text))`. (`hmac.New(sha1.New, key)`, Write, Sum.) -/
def hmac (H : Bytes → Bytes) (key text : Bytes) : Bytes :=
  let k0 := if key.length > 64 then H key else key
  let k := k0 ++ List.replicate (64 - k0.length) 0
  H (k.map (· ^^^ 0x5c) ++ H (k.map (· ^^^ 0x36) ++ text))

end MCrypto.P12
