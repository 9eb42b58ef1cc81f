import Verif.Props.X509Display
import Verif.Props.X509VerifyDer
/-
C128: what the certificate parser prints (parser.go:1124-1129).
-/
namespace MCrypto.X509
open MCrypto Asn1

/-- `asn1.ObjectIdentifier.String`: decimal numbers with dots between them; nothing for nil. -/
def oidText : Oid → List Char
  | [] => []
  | [a] => itoa a
  | a :: l => itoa a ++ '.' :: oidText l

/-- parser.go:1124-1127: the variable is nil unless the parameters begin with an object identifier (the result of the read is
not looked at). -/
def paramsOid (full : Bytes) : Oid :=
  match readOID full with
  | some (o, _) => o
  | none => []

/-- parser.go:1006-1129: what `parseCertificate` writes to the standard output, without the newline; `none` if it returns an error
before it gets there. -/
def parsePrints (der : Bytes) : Option (List Char) := do
  let hd ← parseCertHead der
  let (_, tbs) ← parseIdentity hd.tbs
  let (raw, _) ← readElement 0x30 tbs
  let (s, _) ← Der.readASN1 0x30 raw
  let (ai, _) ← Der.readASN1 0x30 s
  let pkAI ← parseAI ai
  pure (oidText (paramsOid pkAI.parameters.full))

end MCrypto.X509

namespace MCrypto.Props
open MCrypto Asn1 MCrypto.X509 MCrypto.X509Spec

theorem oidText_chars (o : Oid) : ∀ c ∈ oidText o, IsDigit c ∨ c = '.' := by
  have hd : ∀ (a : Nat), ∀ c ∈ itoa a, IsDigit c := by
    intro a c hc
    unfold itoa at hc
    rw [if_neg (by omega)] at hc
    exact (decimal_spec _).2.1 c hc
  induction o with
  | nil => intro c hc; cases hc
  | cons a l ih =>
    intro c hc
    cases l with
    | nil => exact Or.inl (hd _ _ hc)
    | cons b l =>
      rw [oidText] at hc
      · rcases List.mem_append.mp hc with h | h
        · exact Or.inl (hd _ _ h)
        · rcases List.mem_cons.mp h with h | h
          · exact Or.inr h
          · exact ih c h
      · simp

/-- **C128** Whatever octets are parsed, accepted or not, at most one line is written to the standard output, and it has no other
characters than digits and dots: the octets cannot bring control characters or lines of their own into a log. -/
theorem C128_line (der : Bytes) (l : List Char) (h : parsePrints der = some l) : ∀ c ∈ l, IsDigit c ∨ c = '.' := by
  simp only [parsePrints, Option.pure_def, Option.bind_eq_bind, Option.bind_eq_some_iff, Option.some.injEq, Prod.exists] at h
  obtain ⟨_, _, _, _, _, _, _, _, _, _, _, _, _, _, _, _, rfl⟩ := h
  exact oidText_chars _

/-- The line for a key of a supported algorithm. -/
def LineOf (k : PubKey) (l : List Char) : Prop :=
  match k with
  | .rsa _ | .dsa _ | .ed25519 _ => l = []
  | .sm2 _ => l = "1.2.156.10197.1.301".toList
  | .ecdsa k => (k.curve, l) ∈ [(P224, "1.3.132.0.33".toList), (P256, "1.2.840.10045.3.1.7".toList), (P384, "1.3.132.0.34".toList),
      (P521, "1.3.132.0.35".toList)]
  | .nil | .other _ => True

theorem params_line {o : Oid} {par key : Bytes} {k : PubKey} (h : KeyDer o par key k) : LineOf k (oidText (paramsOid par)) := by
  unfold KeyDer at h
  have notOid : ∀ s, (∀ b r, Der.readASN1 Der.tagOID s ≠ some (b, r)) → oidText (paramsOid s) = [] := by
    intro s hs
    unfold paramsOid readOID
    cases hr : Der.readASN1 Der.tagOID s with
    | none => rfl
    | some v => exact absurd hr (hs v.1 v.2)
  split at h
  · obtain ⟨rfl, _, _, _, _, _, _, _, -, -, -, -, -, -, -, rfl⟩ := h
    show oidText _ = []
    decide +kernel
  split at h
  · obtain ⟨_, _, e, _, _, _, _, tr', _, _, _, _, -, -, rfl, he, -, -, -, -, -, -, -, rfl⟩ := h
    refine notOid _ ?_
    intro b r hr
    obtain ⟨e', h1, h2⟩ := (readASN1_iff _ _ _ _).mp hr
    have := (elem_unique he h2 h1).1
    cases this
  split at h
  · obtain ⟨oe, tr, co, c, cp, x, y, rfl, ho, hc, -, -, -, rfl⟩ := h
    have hp : paramsOid (oe ++ tr) = co := by
      unfold paramsOid
      rw [(readOID_iff _ _ _).mpr ⟨oe, rfl, ho⟩]
    rw [hp]
    unfold ecPubKey
    split
    · rename_i hcc
      have hc' : c = SM2P256 := hcc
      subst hc'
      have : co = [1, 2, 156, 10197, 1, 301] := by
        unfold curveOid at hc
        simp only [List.mem_cons, Prod.mk.injEq, List.not_mem_nil, or_false] at hc
        rcases hc with ⟨h, _⟩ | ⟨h, _⟩ | ⟨h, _⟩ | ⟨h, _⟩ | ⟨_, h⟩
        · exact absurd h (by decide)
        · exact absurd h (by decide)
        · exact absurd h (by decide)
        · exact absurd h (by decide)
        · exact h
      rw [this]
      show oidText _ = _
      decide +kernel
    · rename_i hne
      have hne' : c ≠ SM2P256 := hne
      unfold curveOid at hc
      simp only [List.mem_cons, Prod.mk.injEq, List.not_mem_nil, or_false] at hc
      show (c, _) ∈ _
      rcases hc with ⟨rfl, rfl⟩ | ⟨rfl, rfl⟩ | ⟨rfl, rfl⟩ | ⟨rfl, rfl⟩ | ⟨h, _⟩
      · decide +kernel
      · decide +kernel
      · decide +kernel
      · decide +kernel
      · exact absurd h hne'
  split at h
  · obtain ⟨rfl, -, rfl⟩ := h
    show oidText _ = []
    decide +kernel
  · rw [h]; trivial

/-- **C128** For a certificate that is accepted exactly one line is written: for an SM2 key the object identifier of the curve, for an
ECDSA key that of its curve, for RSA, DSA and Ed25519 keys an empty line. -/
theorem C128_accepted (env : Env) (der : Bytes) (c : Certificate) (h : ParseCertificate env der = .ok c) :
    ∃ l, parsePrints der = some l ∧ LineOf c.publicKey l := by
  obtain ⟨hd, id, tbs, rs, sp, tbs', sig, r, h1, h2, h3, h4, -⟩ := parseCertificate_parts ((ParseCertificate_iff _ _ _).mp h).1
  simp only [parseSpki, Option.pure_def, Option.bind_eq_bind, Option.bind_eq_some_iff, Option.some.injEq, Prod.exists, Prod.mk.injEq] at h3
  obtain ⟨raw', tbs2, g1, s, r1, g2, ai, r2, g3, pkAI, g4, spk, r3, g5, rfl, rfl, rfl⟩ := h3
  refine ⟨oidText (paramsOid pkAI.parameters.full), ?_, params_line ((parsePublicKey_iff _ _).mp h4)⟩
  simp only [parsePrints, h1, h2, g1, g2, g3, g4, Option.pure_def, Option.bind_eq_bind, Option.bind_some]

/-- The empty line for the Ed25519 key of the example. -/
example : parsePrints (exCertDer []) = some [] ∧
    (∀ c, ParseCertificate exCertEnv (exCertDer []) = .ok c → LineOf c.publicKey []) := by
  have h : parsePrints (exCertDer []) = some [] := by decide +kernel
  refine ⟨h, fun c hc => ?_⟩
  obtain ⟨l, hl, hk⟩ := C128_accepted _ _ _ hc
  rw [h] at hl
  obtain rfl := Option.some.inj hl
  exact hk

example : oidText (paramsOid [6, 8, 0x2a, 0x81, 0x1c, 0xcf, 0x55, 1, 0x82, 0x2d, 9]) = "1.2.156.10197.1.301".toList := by decide +kernel

end MCrypto.Props
