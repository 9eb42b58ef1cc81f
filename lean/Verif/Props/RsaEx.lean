import Verif.Props.RsaDocs
import Mathlib.Tactic.NormNum.Prime
/-
C132: cases that meet the hypotheses of the theorems on RSA signatures.
-/
namespace MCrypto.Props
open MCrypto MCrypto.X509 MCrypto.X509Spec MCrypto.Asn1 MCrypto.Dg MCrypto.Rsa MCrypto.RsaSpec

/-- A key with 66 small primes: `p - 1` divides `401 * 641 - 1` for each. The modulus has 606 bits. -/
def exRsaKey : RsaPriv :=
  ⟨⟨198519027530878978362879951389295171799136630936981782353552110214821876553287981830891963797254403747954223246528763098698063853775732159191902837611609057893833655299541954852991685,
    401⟩, 641,
    [3, 5, 7, 11, 13, 17, 19, 29, 31, 37, 41, 43, 61, 71, 73, 103, 109, 113, 127, 137, 181, 211, 239, 241, 271, 281, 307, 337, 379, 409, 421, 433, 541, 
    613, 631, 757, 919, 953, 1009, 1021, 1361, 1429, 1531, 2143, 2161, 2381, 2521, 2857, 3061, 3571, 3673, 4591, 6121, 6427, 7561, 9181, 9521, 10711, 
    12241, 12853, 14281, 15121, 17137, 36721, 42841, 128521]⟩

theorem exRsaKey_ok : IsRsaKey exRsaKey := by constructor <;> decide +kernel
theorem exRsaKey_primes : (∀ p ∈ exRsaKey.primes, p.toNat.Prime) ∧ exRsaKey.primes.Nodup := by
  constructor
  · simp only [exRsaKey, List.forall_mem_cons, List.not_mem_nil, false_imp_iff, forall_const, and_true]
    simp only [Int.reduceToNat]
    norm_num
  · decide +kernel

/-- Hash functions with the lengths of the real ones: a sum of the octets. -/
def exHash (n : Nat) (b : Bytes) : Bytes := (List.range n).map fun i => b.foldl (fun (a x : UInt8) => (a * 31 + x + 1) ^^^ (a >>> (3 : UInt8))) (UInt8.ofNat i)
def exRsaHashes : StdHashes :=
  ⟨exHash 16, exHash 20, exHash 28, exHash 32, exHash 48, exHash 64, exHash 20, exHash 28, exHash 32, exHash 48, exHash 64, exHash 28, exHash 32⟩

theorem exRsaHashes_ok : HashLengths exRsaHashes := by constructor <;> intro m <;> simp [exRsaHashes, exHash]

/-- The key is in the range of the parsers. -/
example : okAnd (marshalPKCS1PrivateKey exRsaKey) (fun der => okAnd (parsePKCS1PrivateKey der) fun k => k == exRsaKey) = true := by
  decide +kernel

example : Blinds exRsaKey none ∧ Blinds exRsaKey (some 2) := by
  constructor
  · intro r h; cases h
  · intro r h; obtain rfl := Option.some.inj h; rw [Int.isCoprime_iff_gcd_eq_one]; decide +kernel

/-- Signatures under both schemes are made, with and without blinding, verify, and do not verify for another digest or under the
other scheme. -/
example : okAnd (sign exRsaHashes exRsaKey none [] (exRsaHashes.sha256 [1, 2, 3]) (.hash hSHA256)) (fun s =>
    okAnd (sign exRsaHashes exRsaKey (some 2) [] (exRsaHashes.sha256 [1, 2, 3]) (.hash hSHA256)) (fun t => s == t) &&
    checkSignature (initRegistry exRsaHashes) (rsaVerifiers exRsaHashes toyV) SHA256WithRSA [1, 2, 3] s (.rsa exRsaKey.pub) == .ok () &&
    checkSignature (initRegistry exRsaHashes) (rsaVerifiers exRsaHashes toyV) SHA256WithRSA [1, 2, 4] s (.rsa exRsaKey.pub) != .ok () &&
    checkSignature (initRegistry exRsaHashes) (rsaVerifiers exRsaHashes toyV) SHA256WithRSAPSS [1, 2, 3] s (.rsa exRsaKey.pub) != .ok () &&
    checkSignature (initRegistry exRsaHashes) (rsaVerifiers exRsaHashes toyV) SHA256WithRSA [1, 2, 3]
      (beBytes s.length (ofBytes s + exRsaKey.pub.n.natAbs)) (.rsa exRsaKey.pub) == .ok () &&
    decide (ofBytes s + exRsaKey.pub.n.natAbs < 256 ^ s.length)) = true := by decide +kernel
example : okAnd (sign exRsaHashes exRsaKey (some 2) (List.replicate 40 9) (exRsaHashes.sha256 [1, 2, 3]) (.pss hSHA256)) (fun s =>
    checkSignature (initRegistry exRsaHashes) (rsaVerifiers exRsaHashes toyV) SHA256WithRSAPSS [1, 2, 3] s (.rsa exRsaKey.pub) == .ok () &&
    checkSignature (initRegistry exRsaHashes) (rsaVerifiers exRsaHashes toyV) SHA256WithRSAPSS [1, 2, 4] s (.rsa exRsaKey.pub) != .ok () &&
    checkSignature (initRegistry exRsaHashes) (rsaVerifiers exRsaHashes toyV) SHA256WithRSA [1, 2, 3] s (.rsa exRsaKey.pub) != .ok ())
    = true := by decide +kernel

/-- The DER encoding of the key with modulus `p * p`, `p = 2 ^ 250 + 1`, and the exponents 3 and its inverse modulo `2 ^ 250`. -/
def exCrashDer : Bytes :=
    [48, 129, 173, 2, 1, 0, 2, 63, 16, 0, 0, 0, 0, 0, 0, 0, 0, 0, 0, 0, 0, 0, 0, 0, 0, 0, 0, 0, 0, 0, 0, 0, 0, 0, 0, 0, 0, 0, 0, 8, 0, 0, 0, 0, 0, 0, 0, 
    0, 0, 0, 0, 0, 0, 0, 0, 0, 0, 0, 0, 0, 0, 0, 0, 0, 0, 0, 0, 0, 0, 0, 1, 2, 1, 3, 2, 32, 2, 170, 170, 170, 170, 170, 170, 170, 170, 170, 170, 170, 
    170, 170, 170, 170, 170, 170, 170, 170, 170, 170, 170, 170, 170, 170, 170, 170, 170, 170, 170, 171, 2, 32, 4, 0, 0, 0, 0, 0, 0, 0, 0, 0, 0, 0, 0, 0, 
    0, 0, 0, 0, 0, 0, 0, 0, 0, 0, 0, 0, 0, 0, 0, 0, 0, 1, 2, 32, 4, 0, 0, 0, 0, 0, 0, 0, 0, 0, 0, 0, 0, 0, 0, 0, 0, 0, 0, 0, 0, 0, 0, 0, 0, 0, 0, 0, 0, 
    0, 0, 1]

/-- A key whose factors are equal is accepted by the parser; signing with it crashes. -/
theorem C132_accepted_key_crashes (H : StdHashes) : ∃ key, parsePKCS1PrivateKey exCrashDer = .ok key ∧
    ∀ d, d.length = 32 → sign H key none [] d (.hash hSHA256) = .panic := by
  have hp : parsePKCS1PrivateKey exCrashDer =
      .ok ⟨⟨(2 ^ 250 + 1) ^ 2, 3⟩, 1206167596222043702328864427173832373471562340267089208744349833415761767083,
        [2 ^ 250 + 1, 2 ^ 250 + 1]⟩ := by decide +kernel
  refine ⟨_, hp, fun d hd => ?_⟩
  rw [C132_sign_crashes_iff (C55_pkcs1_private_sound _ _ hp) (fun r h => by cases h) [] (by decide)]
  constructor
  · refine ⟨_, ⟨_, 9, (digestInfo_iff 5 d _).mpr ⟨by decide, by decide,
      [0x30, 0x31, 0x30, 0x0d, 0x06, 0x09, 0x60, 0x86, 0x48, 0x01, 0x65, 0x03, 0x04, 0x02, 0x01, 0x05, 0x00, 0x04, 0x20], ?_, rfl⟩,
      by decide, rfl⟩, ?_⟩
    · rw [hd]; rfl
    · have hz : byteLen ((2 ^ 250 + 1) ^ 2 : Int).natAbs = 63 := by decide +kernel
      show _ = byteLen ((2 ^ 250 + 1) ^ 2 : Int).natAbs
      rw [hz]
      simp [hd]
  · intro hc
    rw [List.pairwise_cons] at hc
    have := hc.1 (2 ^ 250 + 1) (by simp)
    rw [Int.isCoprime_iff_gcd_eq_one] at this
    revert this; decide +kernel

/-! ### Documents -/

def exRsaEnv : SignEnv := ⟨initRegistry exRsaHashes, rsaVerifiers exRsaHashes toyV, fun _ => List.replicate 20 7⟩
def exRsaIssuer : Certificate := { exCrlIssuer with publicKey := .rsa exRsaKey.pub }
def exRsaSigner : Signer := rsaSigner exRsaHashes exRsaKey none (List.replicate 40 9)

example : okAnd (CreateCertificate exRsaEnv { exCreateTemplate with signatureAlgorithm := 3 } exCreateTemplate (.rsa exRsaKey.pub)
    (some exRsaSigner)) (fun der => der.length < 2000) = true := by decide +kernel

example : okAnd (CreateCertificateRequest exRsaEnv.reg exRequest (some exRsaSigner)) (fun der => okAnd (ParseCertificateRequest exEnv der)
    fun c => okAnd (c.checkSignature exRsaEnv.reg exRsaEnv.V) fun _ => true) = true := by decide +kernel

/-- The request that says PSS does not verify. -/
example : okAnd (CreateCertificateRequest exRsaEnv.reg { exRequest with signatureAlgorithm := SHA256WithRSAPSS } (some exRsaSigner))
    (fun der => okAnd (ParseCertificateRequest exEnv der) fun c => decide (c.signatureAlgorithm = SHA256WithRSAPSS) &&
      !okAnd (c.checkSignature exRsaEnv.reg exRsaEnv.V) fun _ => true) = true := by decide +kernel

example : okAnd (CreateRevocationList exRsaEnv (some { exCrlTemplate with signatureAlgorithm := SHA256WithRSAPSS }) (some exCrlIssuer) exRsaSigner)
    (fun der => okAnd (ParseDERCRL der) fun c =>
      okAnd (exRsaIssuer.checkCRLSignature exRsaEnv.reg exRsaEnv.V c.signedPart) fun _ => true) = true := by
  decide +kernel

example : okAnd (exRsaIssuer.createCRL exRsaEnv (some exRsaSigner) [⟨some 9, ⟨2019, 12, 31, 23, 0, 0, -60⟩, none⟩]
    ⟨2020, 1, 2, 3, 4, 5, 0⟩ ⟨2021, 1, 2, 3, 4, 5, 0⟩) (fun der => der.length < 2000) = true := by
  decide +kernel

end MCrypto.Props
