import Verif.Props.Pkcs7
import Verif.Props.Sm2SignEx
/-
A PKCS#7 message signed with the key of the example in GB/T 32918.5 (kernel evaluation): the hypotheses of C57, C58
and C60 are met.
-/
namespace MCrypto.Props
open MCrypto MCrypto.X509 MCrypto.X509Spec MCrypto.Pkcs7Spec MCrypto.Asn1
open MCrypto.Sm2 (exKey exRd exKey_keyPair)

def p7Env : Env := ⟨fun _ => none, fun _ => false⟩

/-- A version 1 certificate with the key, serial number 5 and empty names. -/
def p7Der : Bytes :=
  Der.tlv 0x30 (
    Der.tlv 0x30 (Der.tlv 0x02 [5] ++ Der.tlv 0x30 [6, 8, 0x2a, 0x81, 0x1c, 0xcf, 0x55, 1, 0x83, 0x75] ++ Der.tlv 0x30 [] ++
      Der.tlv 0x30 (Der.tlv 0x17 [50, 48, 48, 49, 48, 49, 48, 48, 48, 48, 48, 48, 90] ++
        Der.tlv 0x17 [51, 48, 48, 49, 48, 49, 48, 48, 48, 48, 48, 48, 90]) ++ Der.tlv 0x30 [] ++
      Der.tlv 0x30 (Der.tlv 0x30 [6, 7, 0x2a, 0x86, 0x48, 0xce, 0x3d, 2, 1, 6, 8, 0x2a, 0x81, 0x1c, 0xcf, 0x55, 1, 0x82, 0x2d] ++
        Der.tlv 0x03 (0 :: 4 :: (beBytes 32 exKey.pub.x ++ beBytes 32 exKey.pub.y)))) ++
    Der.tlv 0x30 [6, 8, 0x2a, 0x81, 0x1c, 0xcf, 0x55, 1, 0x83, 0x75] ++ Der.tlv 0x03 [0, 1])

def p7Cert : Certificate :=
  match ParseCertificate p7Env p7Der with
  | .ok c => c
  | _ => {}

def isOk {α : Type} : Res α → Bool
  | .ok _ => true
  | _ => false

theorem p7Cert_ok : ParseCertificate p7Env p7Der = .ok p7Cert := by
  have h : isOk (ParseCertificate p7Env p7Der) = true := by decide +kernel
  unfold p7Cert
  cases hp : ParseCertificate p7Env p7Der with
  | ok c => rfl
  | err e => rw [hp] at h; cases h
  | panic => rw [hp] at h; cases h

theorem p7Cert_raw : p7Cert.raw = p7Der ∧ p7Der.length < 2 ^ 31 ∧ p7Cert.publicKey = .sm2 exKey.pub := by
  refine ⟨?_, ?_, ?_⟩ <;> decide +kernel

theorem p7Cert_name : p7Cert.rawIssuer = [48, 0] ∧ p7Cert.serialNumber = some 5 := by
  refine ⟨?_, ?_⟩ <;> decide +kernel

def p7Now : Time := ⟨2020, 1, 2, 3, 4, 5, 0⟩

/-- The signed attributes of the one-byte content "a" at that time, what is signed, its digest, the signature. -/
def p7Attrs : List P7Attr :=
  [⟨[1, 2, 840, 113549, 1, 9, 3], ⟨0, 17, true, [6, 10, 42, 129, 28, 207, 85, 6, 1, 4, 2, 1], []⟩⟩,
   ⟨[1, 2, 840, 113549, 1, 9, 5], ⟨0, 17, true, [23, 13, 50, 48, 48, 49, 48, 50, 48, 51, 48, 52, 48, 53, 90], []⟩⟩,
   ⟨[1, 2, 840, 113549, 1, 9, 4], ⟨0, 17, true, [4, 32, 98, 52, 118, 172, 24, 246, 90, 41, 9, 228, 60, 127, 236, 97, 180, 156, 126, 118, 74, 145, 161, 140,
    203, 130, 241, 145, 122, 41, 200, 108, 94, 136], []⟩⟩]

def p7M : Bytes :=
  [49, 106, 48, 25, 6, 9, 42, 134, 72, 134, 247, 13, 1, 9, 3, 49, 12, 6, 10, 42, 129, 28, 207, 85, 6, 1, 4, 2,
    1, 48, 28, 6, 9, 42, 134, 72, 134, 247, 13, 1, 9, 5, 49, 15, 23, 13, 50, 48, 48, 49, 48, 50, 48, 51, 48, 52,
    48, 53, 90, 48, 47, 6, 9, 42, 134, 72, 134, 247, 13, 1, 9, 4, 49, 34, 4, 32, 98, 52, 118, 172, 24, 246, 90,
    41, 9, 228, 60, 127, 236, 97, 180, 156, 126, 118, 74, 145, 161, 140, 203, 130, 241, 145, 122, 41, 200, 108,
    94, 136]

def p7D : Bytes :=
  [94, 143, 197, 232, 91, 63, 103, 94, 39, 240, 112, 33, 45, 10, 24, 66, 173, 101, 7, 115, 185, 9, 184, 61, 7,
    74, 237, 131, 85, 181, 251, 242]

def p7R : Int := 44997635561559533180220012564893755592205853313336495818489280628281278371429
def p7S : Int := 45784739229362465663529720548745660798521881374053337552026251111570700217988

def p7Sig : Bytes :=
  [48, 68, 2, 32, 99, 123, 194, 89, 233, 204, 126, 246, 137, 244, 162, 71, 187, 130, 22, 248, 238, 195, 54, 81,
    199, 16, 244, 76, 86, 174, 252, 80, 131, 202, 150, 101, 2, 32, 101, 57, 62, 123, 146, 91, 137, 237, 247, 252,
    203, 79, 65, 202, 123, 16, 104, 147, 52, 200, 206, 91, 163, 221, 97, 3, 95, 44, 36, 187, 174, 132]

theorem p7Attrs_ok : forMarshaling (signedAttrs p7Now [97]) = some p7Attrs := by
  have h : Sm3.sum [97] = [98, 52, 118, 172, 24, 246, 90, 41, 9, 228, 60, 127, 236, 97, 180, 156, 126, 118, 74, 145, 161,
      140, 203, 130, 241, 145, 122, 41, 200, 108, 94, 136] := by decide +kernel
  rw [signedAttrs, h]
  decide +kernel

theorem p7M_ok : marshalAttributes p7Attrs = some p7M := by decide +kernel

theorem p7D_ok : exKey.pub.sm3Digest p7M [] = p7D := by decide +kernel

theorem p7SignD_ok : Sm2.signDigestRS exRd exKey p7D = .ok (p7R, p7S, []) := by decide +kernel

theorem p7Marshal_ok : Sm2.marshalSign p7R p7S = .ok p7Sig := by decide +kernel

theorem sign_of {rd rd' : Reader} {k : Sm2.PrivateKey} {m uid d sig : Bytes} {r s : Int} (h1 : k.pub.sm3Digest m uid = d)
    (h2 : Sm2.signDigestRS rd k d = .ok (r, s, rd')) (h3 : Sm2.marshalSign r s = .ok sig) :
    Sm2.sign rd k m uid = .ok sig := by
  subst h1
  unfold Sm2.sign Sm2.signRS
  rw [h2]
  exact h3

theorem p7Sign_ok : Sm2.sign exRd exKey p7M [] = .ok p7Sig := sign_of p7D_ok p7SignD_ok p7Marshal_ok

def p7Signer : SignerInfo :=
  { version := 1, issuerAndSerialNumber := ⟨{ full := [48, 0] }, some 5⟩,
    authenticatedAttributes := some p7Attrs, digestAlgorithm := ⟨oidDigestAlgorithmSM3, {}⟩,
    digestEncryptionAlgorithm := ⟨oidSignatureECDSASM2, {}⟩, encryptedDigest := p7Sig }

theorem p7Signer_ok : getSignerInfo p7Cert (signWithKey exRd (.sm2 exKey)) p7Now [97] = .ok p7Signer := by
  unfold getSignerInfo
  rw [p7Attrs_ok, Res.ofOption, Res.bind_ok, p7M_ok, Res.ofOption, Res.bind_ok, signWithKey, p7Sign_ok, Res.bind_ok,
    p7Cert_name.1, p7Cert_name.2]
  rfl

/-- The signed message. -/
def p7Out : Bytes :=
  match newSignedDataWith { raw := p7Der } (.ok p7Signer) [97] with
  | .ok o => o
  | _ => []

theorem p7Out_ok : NewSignedData exRd p7Now p7Cert (.sm2 exKey) [97] = .ok p7Out := by
  unfold NewSignedData
  rw [p7Signer_ok]
  have h : isOk (newSignedDataWith { raw := p7Der } (.ok p7Signer) [97]) = true := by decide +kernel
  have hc : newSignedDataWith p7Cert (.ok p7Signer) [97] = newSignedDataWith { raw := p7Der } (.ok p7Signer) [97] := by
    simp only [newSignedDataWith, marshalCertificates, List.flatMap_cons, List.flatMap_nil, p7Cert_raw.1]
  rw [hc]
  unfold p7Out
  cases hp : newSignedDataWith { raw := p7Der } (.ok p7Signer) [97] with
  | ok c => rfl
  | err e => rw [hp] at h; cases h
  | panic => rw [hp] at h; cases h

theorem p7Out_length : p7Out.length = 450 := by decide +kernel

def p7Hashes : StdHashes :=
  ⟨id, id, id, id, id, id, id, id, id, id, id, id, id⟩

def p7V : Verifiers := ⟨fun _ _ _ _ => false, fun _ _ _ _ => false, fun _ _ _ => false, fun _ _ _ => false⟩

/-- The hypotheses of C58 are met; the message parses and verifies (so those of C57 and C60 are met too), whatever the other
verifiers are. -/
theorem p7Out_verifies_any (V : Verifiers) : ∃ p7 s, ParsePKCS7 p7Env p7Out = .ok p7 ∧ p7.content = [97] ∧ p7.signers = [s] ∧
    SignedMessage [97] s p7M ∧ p7.verify (initRegistry p7Hashes) V = .ok () ∧ p7.getOnlySigner = .ok (some p7Cert) := by
  obtain ⟨p7, s, m, h1, h2, h3, h4, h5, h6, h7, h8, h9⟩ := C58_sm2_partial p7Env p7Hashes V exRd p7Now p7Cert exKey [97] p7Out
    (by rw [p7Cert_raw.1]; exact p7Cert_ok) (by rw [p7Cert_raw.1]; exact p7Cert_raw.2.1) p7Cert_raw.2.2 exKey_keyPair
    p7Out_ok (by rw [p7Out_length]; decide)
  rw [p7Attrs_ok, Option.bind_some, p7M_ok] at h8
  injection h8 with h8
  subst h8
  rw [p7Sign_ok] at h7
  injection h7 with h7
  refine ⟨p7, s, h1, h2, h4, h6, h9 ?_, h5⟩
  rw [← h7, p7D_ok]
  have hu : Sm2.unmarshalSign p7Sig = .ok (p7R, p7S) := by decide +kernel
  intro r t hrt
  rw [hu] at hrt
  simp only [Res.ok.injEq, Prod.mk.injEq] at hrt
  rw [← hrt.1]
  decide +kernel

theorem p7Out_verifies : ∃ p7 s, ParsePKCS7 p7Env p7Out = .ok p7 ∧ p7.content = [97] ∧ p7.signers = [s] ∧
    SignedMessage [97] s p7M ∧ p7.verify (initRegistry p7Hashes) p7V = .ok () := by
  obtain ⟨p7, s, h1, h2, h3, h4, h5, -⟩ := p7Out_verifies_any p7V
  exact ⟨p7, s, h1, h2, h3, h4, h5⟩

/-- C60: the confusion applies to this message. -/
example : ∃ s c m out, newSignedDataWith c (.ok (withoutAttrs s)) m = .ok out ∧
    (c.raw.length < 2 ^ 31 → out.length < 2 ^ 31 → ∃ p7', ParsePKCS7 p7Env out = .ok p7' ∧ p7'.content = m ∧
        p7'.certificates = [c] ∧ p7'.verify (initRegistry p7Hashes) p7V = .ok ()) := by
  obtain ⟨p7, s, h1, h2, h3, h4, h5⟩ := p7Out_verifies
  have ha : s.authenticatedAttributes.getD [] ≠ [] := by
    rcases h4 with ⟨_, h⟩ | ⟨h, _⟩
    · exact absurd h (by decide)
    · exact h
  obtain ⟨c, m, out, _, _, h8, h9⟩ :=
    C60_confusion_counterexample p7Env p7Hashes p7V p7Out p7 h1 h5 s (by rw [h3]; simp) ha
  exact ⟨s, c, m, out, h8, h9⟩

end MCrypto.Props
