import Verif.Pkcs12.Prims
import Verif.Pkcs12.KdfSpec
import Verif.Pkcs12.Rc2Spec
/-
Specification of PKCS#12 password-based encryption and integrity (RFC 7292 Appendix B, C; CBC mode per
NIST SP 800-38A; padding per RFC 1423/PKCS#5), independent of the model's code.
-/
namespace MCrypto.P12Spec
open MCrypto

/-- `C_0 = IV`, `C_{i+1} = E(P_i xor C_i)` where `P_i` is the `i`-th 8-byte block of the message. -/
def cbcBlock (E : Bytes → Bytes) (iv m : Bytes) : Nat → Bytes
  | 0 => iv
  | i + 1 => E (List.zipWith (· ^^^ ·) (cbcBlock E iv m i) ((m.drop (8 * i)).take 8))

/-- CBC encryption of a message of whole blocks: `C_1 || C_2 || …`. -/
def cbc (E : Bytes → Bytes) (iv m : Bytes) : Bytes :=
  (List.range (m.length / 8)).flatMap fun i => cbcBlock E iv m (i + 1)

/-- `c` is an encryption of `m`: the CBC encryption of `m` followed by `k` bytes of value `k`, where
`1 ≤ k ≤ 8` fills the last block. -/
def Encrypts (E : Bytes → Bytes) (iv m c : Bytes) : Prop :=
  ∃ k, 1 ≤ k ∧ k ≤ 8 ∧ (m.length + k) % 8 = 0 ∧ c = cbc E iv (m ++ List.replicate k (UInt8.ofNat k))

/-- The iteration count in force: a count below 1 is taken as 1. -/
def iters (n : Int) : Nat := if n ≤ 1 then 1 else n.toNat

/-- pbeWithSHAAnd3-KeyTripleDES-CBC: 24-byte key (ID 1), 8-byte IV (ID 2), Triple-DES. -/
def tdesE (P : P12.Prims) (salt password : Bytes) (n : Int) : Bytes → Bytes :=
  P.tdesEnc (Rfc7292.kdf P.sha1 20 64 salt password (iters n) 1 24)

/-- pbewithSHAAnd40BitRC2-CBC: 5-byte key (ID 1), effective length 40 bits, RFC 2268 RC2. -/
def rc2E (P : P12.Prims) (salt password : Bytes) (n : Int) (b : Bytes) : Bytes :=
  (Rc2Spec.encrypt ((Rfc7292.kdf P.sha1 20 64 salt password (iters n) 1 5).map UInt8.toNat) 40
    (b.map UInt8.toNat)).map UInt8.ofNat

/-- The IV of both (ID 2). -/
def iv (P : P12.Prims) (salt password : Bytes) (n : Int) : Bytes :=
  Rfc7292.kdf P.sha1 20 64 salt password (iters n) 2 8

/-- RFC 7292 Appendix A / section 4: HMAC with SHA-1 and the 20-byte key with ID 3. -/
def mac (P : P12.Prims) (salt password : Bytes) (n : Int) (message : Bytes) : Bytes :=
  P12.hmac P.sha1 (Rfc7292.kdf P.sha1 20 64 salt password (iters n) 3 20) message

end MCrypto.P12Spec
