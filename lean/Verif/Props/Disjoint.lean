import Verif.Props.X509VerifyDer
import Verif.Props.X509KeyDer
import Verif.Props.Pkcs7Der
import Verif.Props.P12Der
/-
C100: no octets are accepted by two of the parsers of the package, and no octets are the signed part of two kinds of
signed objects. Models: Verif/X509/{Parser,Create,Keys,Pkcs7}.lean, Verif/Pkcs12/Pfx.lean.
-/
namespace MCrypto.Props
open MCrypto MCrypto.X509 MCrypto.X509Spec MCrypto.Asn1 MCrypto.Dg MCrypto.P12 MCrypto.Pkcs7Spec

/-- The kinds of objects. -/
inductive Kind
  | certificate | revocationList | request | pkcs7 | pfx | publicKey | pkcs8 | pkcs1 | sec1
  deriving DecidableEq

/-- Some parser accepts the octets as an object of the kind: `ParseCertificate`, `ParseDERCRL`, `ParseCertificateRequest`,
`ParsePKCS7`, `Decode` and `DecodeAll` with some password, `ParsePKIXPublicKey`, `ParsePKCS8PrivateKey`,
`ParsePKCS1PrivateKey`, `ParseECPrivateKey`. -/
def Accepts (der : Bytes) : Kind → Prop
  | .certificate => ∃ env c, ParseCertificate env der = .ok c
  | .revocationList => ∃ c, ParseDERCRL der = .ok c
  | .request => ∃ env c, ParseCertificateRequest env der = .ok c
  | .pkcs7 => ∃ env p, ParsePKCS7 env der = .ok p
  | .pfx => ∃ (P : Prims) (edPub : Bytes → Bytes) (κ : Type) (parseCerts : Bytes → Res (List κ)) (password : Bytes),
      (∃ k c, decode P edPub parseCerts der password = .ok (k, c)) ∨
      ∃ k cs, decodeAll P edPub parseCerts der password = .ok (k, cs)
  | .publicKey => ∃ k, parsePKIXPublicKey der = .ok k
  | .pkcs8 => ∃ edPub k, parsePKCS8PrivateKey edPub der = .ok k
  | .pkcs1 => ∃ k, parsePKCS1PrivateKey der = .ok k
  | .sec1 => ∃ k, parseECPrivateKey none der = .ok k

/-- `s` starts with elements with these tags. -/
def Starts : List UInt8 → Bytes → Prop
  | [], _ => True
  | t :: ts, s => ∃ b e r, s = e ++ r ∧ Elem t b e ∧ Starts ts r

def compatible : List UInt8 → List UInt8 → Bool
  | t :: ts, t' :: ts' => t == t' && compatible ts ts'
  | _, _ => true

theorem starts_compatible : ∀ {ts ts' : List UInt8} {s : Bytes}, Starts ts s → Starts ts' s → compatible ts ts' = true
  | [], _, _, _, _ => by simp [compatible]
  | _ :: _, [], _, _, _ => by simp [compatible]
  | t :: ts, t' :: ts', _, ⟨b, e, r, h1, h2, h3⟩, ⟨b', e', r', h1', h2', h3'⟩ => by
    obtain ⟨rfl, -, -, rfl⟩ := elem_unique h2 h2' (h1.symm.trans h1')
    simp [compatible, starts_compatible h3 h3']

theorem el_elem {t : UInt8} {b e : Bytes} (h : El t b e) (ht : t &&& 0x1f ≠ 0x1f := by decide) : Elem t b e := by
  have hl : (256 : Nat) ^ 127 = 2 ^ 1016 := by rw [show (256 : Nat) = 2 ^ 8 by rfl, ← Nat.pow_mul]
  have h2 : (2 : Nat) ^ 31 < 2 ^ 1016 := Nat.pow_lt_pow_right (by decide) (by decide)
  exact ⟨(DerSpec.isTLV_iff e t b (by rw [hl]; exact Nat.lt_trans h.2 h2)).mp h.1, ht, by have := h.2; omega⟩

/-- A sequence, perhaps with something after it, whose contents start with elements with these tags. -/
def SeqStarts (ts : List UInt8) (s : Bytes) : Prop := ∃ b e r, s = e ++ r ∧ Elem 0x30 b e ∧ Starts ts b

theorem seqStarts_compatible {ts ts' : List UInt8} {s : Bytes} (h : SeqStarts ts s) (h' : SeqStarts ts' s) :
    compatible ts ts' = true := by
  obtain ⟨b, e, r, h1, h2, h3⟩ := h
  obtain ⟨b', e', r', h1', h2', h3'⟩ := h'
  obtain ⟨-, rfl, -, -⟩ := elem_unique h2 h2' (h1.symm.trans h1')
  exact starts_compatible h3 h3'

/-- The leading tags of the kinds. -/
def outerTags : Kind → List UInt8
  | .certificate | .revocationList | .request => [0x30, 0x30]
  | .pkcs7 => [0x06]
  | .pfx => [0x02, 0x30, 0x30]
  | .publicKey => [0x30, 0x03]
  | .pkcs8 => [0x02, 0x30, 0x04]
  | .pkcs1 => [0x02, 0x02]
  | .sec1 => [0x02, 0x04]

theorem algEl_elem {o : List Nat} {par e : Bytes} (h : AlgEl o par e) : ∃ b, Elem 0x30 b e := by
  obtain ⟨_, _, h, _⟩ := h; exact ⟨_, el_elem h⟩

theorem accepts_tags {der : Bytes} {k : Kind} (h : Accepts der k) : SeqStarts (outerTags k) der := by
  have done : ∀ {ts : List UInt8} {b : Bytes}, Elem 0x30 b der → Starts ts b → SeqStarts ts der := fun h1 h2 =>
    ⟨_, der, [], (List.append_nil _).symm, h1, h2⟩
  cases k with
  | certificate =>
    obtain ⟨env, c, h⟩ := h
    obtain ⟨f, k, h, -⟩ := (C70_accept_iff env der).mp ⟨c, h⟩
    obtain ⟨_, _, _, _, _, _, _, _, h1, h2, h3, -⟩ := h
    exact done h1 ⟨_, _, _, rfl, h2, _, _, _, rfl, h3, trivial⟩
  | revocationList =>
    obtain ⟨c, h⟩ := h
    obtain ⟨_, _, _, _, _, h1, h2, h3, -⟩ := (C94_crl_grammar der _).mp ⟨c, h, rfl⟩
    obtain ⟨_, _, _, _, _, _, _, _, h2, -⟩ := h2
    obtain ⟨_, h3⟩ := algEl_elem h3
    exact done (el_elem h1) ⟨_, _, _, rfl, el_elem h2, _, _, _, rfl, h3, trivial⟩
  | request =>
    obtain ⟨env, c, h⟩ := h
    obtain ⟨f, k, _, _, _, h, -⟩ := (C95_csr_grammar env der c).mp h
    obtain ⟨_, _, _, _, _, _, h1, h2, -, -, -, -, -, h3, -⟩ := h
    obtain ⟨_, h3⟩ := algEl_elem h3
    exact done (el_elem h1) ⟨_, _, _, rfl, el_elem h2, _, _, _, rfl, h3, trivial⟩
  | pkcs7 =>
    obtain ⟨env, p, h⟩ := h
    obtain ⟨sd, _, _, h, -⟩ := (C96_parse_grammar env der _).mp ⟨p, h, rfl⟩
    obtain ⟨_, _, h1, h2, -⟩ := h
    obtain ⟨_, h2, -⟩ := h2
    exact done (el_elem h1) ⟨_, _, _, rfl, el_elem h2, trivial⟩
  | pfx =>
    obtain ⟨P, edPub, κ, parseCerts, password, h⟩ := h
    have : ∃ pw bags pw', P12Spec.PfxDer P der pw bags pw' := by
      rcases h with ⟨k, c, h⟩ | ⟨k, c, h⟩
      · obtain ⟨pw, bags, pw', _, _, -, h, -⟩ := (C97_decode_grammar P edPub _ der password k c).mp h
        exact ⟨_, _, _, h⟩
      · obtain ⟨pw, bags, pw', _, _, -, h, -⟩ := (C97_decodeAll_grammar P edPub _ der password k c).mp h
        exact ⟨_, _, _, h⟩
    obtain ⟨pw, bags, pw', h⟩ := this
    obtain ⟨_, _, _, _, _, _, _, _, _, _, _, _, _, _, _, h1, h2, h3, -, h4, -⟩ := h
    obtain ⟨⟨_, h2, -⟩, -⟩ := h2
    obtain ⟨_, _, _, h3, -⟩ := h3
    obtain ⟨_, _, _, _, _, _, _, _, h4, -⟩ := h4
    exact done (el_elem h1) ⟨_, _, _, rfl, el_elem h2, _, _, _, rfl, el_elem h3, _, _, _, rfl, el_elem h4, trivial⟩
  | publicKey =>
    obtain ⟨k, h⟩ := h
    obtain ⟨_, _, _, h, -⟩ := (C93_pkix_grammar der k).mp h
    obtain ⟨_, _, _, h1, h2, h3⟩ := h
    obtain ⟨_, h2⟩ := algEl_elem h2
    obtain ⟨_, _, _, h3, -⟩ := h3
    exact done (el_elem h1) ⟨_, _, _, rfl, h2, _, _, _, rfl, el_elem h3, trivial⟩
  | pkcs8 =>
    obtain ⟨_, k, h⟩ := h
    obtain ⟨_, _, _, h, -⟩ := (C92_pkcs8_grammar _ der k).mp h
    obtain ⟨e, _, _, _, _, tr, _, rfl, h1, h2, h3, h4⟩ := h
    obtain ⟨⟨_, h2, -⟩, -⟩ := h2
    obtain ⟨_, h3⟩ := algEl_elem h3
    exact ⟨_, e, tr, rfl, el_elem h1, _, _, _, rfl, el_elem h2, _, _, _, rfl, h3, _, _, _, rfl, el_elem h4, trivial⟩
  | pkcs1 =>
    obtain ⟨k, h⟩ := h
    obtain ⟨h, -⟩ := (C92_pkcs1_private_grammar der k).mp h
    obtain ⟨_, _, _, _, _, _, _, _, _, _, _, _, _, _, _, h1, h2, -, h3, -⟩ := h
    obtain ⟨⟨_, h2, -⟩, -⟩ := h2
    obtain ⟨_, h3, -⟩ := h3
    exact done (el_elem h1) ⟨_, _, _, rfl, el_elem h2, _, _, _, rfl, el_elem h3, trivial⟩
  | sec1 =>
    obtain ⟨k, h⟩ := h
    obtain ⟨_, _, h, -⟩ := (C92_sec1_grammar der k).mp h
    obtain ⟨e, _, _, _, _, _, tr, rfl, h1, h2, h3, -⟩ := h
    obtain ⟨⟨_, h2, -⟩, -⟩ := h2
    exact ⟨_, e, tr, rfl, el_elem h1, _, _, _, rfl, el_elem h2, _, _, _, rfl, el_elem h3, trivial⟩

/-! ## Signed parts -/

/-- The kinds of signed octets: the signed parts of certificates, revocation lists and requests, and the attributes of a
PKCS#7 signer that has some. -/
inductive SignedKind
  | certificate | revocationList | request | pkcs7Attributes
  deriving DecidableEq

/-- `m` are the octets that the signature of some object of the kind that is accepted by its parser is over. -/
def SignedAs (m : Bytes) : SignedKind → Prop
  | .certificate => ∃ env der c, ParseCertificate env der = .ok c ∧ c.rawTBSCertificate = m
  | .revocationList => ∃ der c, ParseDERCRL der = .ok c ∧ c.tbs.raw = m
  | .request => ∃ env der c, ParseCertificateRequest env der = .ok c ∧ c.rawTBSCertificateRequest = m
  | .pkcs7Attributes => ∃ env der p, ∃ s ∈ p.signers, ParsePKCS7 env der = .ok p ∧
      s.authenticatedAttributes.getD [] ≠ [] ∧ SignedMessage p.content s m

def signedTags : SignedKind → List (List UInt8)
  | .certificate => [[0xa0], [0x02, 0x30, 0x30, 0x30]]
  | .revocationList => [[0x02, 0x30, 0x30, 0x17], [0x02, 0x30, 0x30, 0x18], [0x30, 0x30, 0x17], [0x30, 0x30, 0x18]]
  | .request => [[0x02, 0x30, 0x30, 0xa0]]
  | .pkcs7Attributes => []

theorem signed_tags {m : Bytes} {k : SignedKind} (h : SignedAs m k) (hk : k ≠ .pkcs7Attributes) :
    ∃ ts ∈ signedTags k, SeqStarts ts m := by
  have done : ∀ {ts : List UInt8} {b : Bytes}, Elem 0x30 b m → Starts ts b → SeqStarts ts m := fun h1 h2 =>
    ⟨_, m, [], (List.append_nil _).symm, h1, h2⟩
  cases k with
  | certificate =>
    obtain ⟨env, der, c, h, rfl⟩ := h
    obtain ⟨f, h, -, -, ht, -⟩ := C70_fields env der c h
    rw [ht] at done ⊢
    obtain ⟨_, _, _, _, _, _, _, _, h1, h2, h3, -, h4, h5, h6, h7, -⟩ := h
    rcases h4 with ⟨rfl, -⟩ | ⟨_, _, h4, -⟩
    · obtain ⟨_, h6, -⟩ := h6
      obtain ⟨_, _, _, h7, -⟩ := h7
      rw [List.nil_append] at h2
      exact ⟨_, List.mem_cons_of_mem _ (List.mem_singleton.mpr rfl), done h2 ⟨_, _, _, rfl, h5, _, _, _, rfl, h3, _, _, _, rfl, h6, _, _, _, rfl, h7, trivial⟩⟩
    · exact ⟨_, List.mem_cons_self, done h2 ⟨_, _, _, rfl, h4, trivial⟩⟩
  | revocationList =>
    obtain ⟨der, c, h, rfl⟩ := h
    obtain ⟨_, _, _, _, _, -, h2, -⟩ := (C94_crl_grammar der _).mp ⟨c, h, rfl⟩
    obtain ⟨_, _, _, _, _, _, _, _, h1, h2, h3, h4, h5, -⟩ := h2
    obtain ⟨_, h3⟩ := algEl_elem h3
    obtain ⟨_, h4, -⟩ := h4
    obtain ⟨_, ⟨h5, -⟩ | ⟨h5, -⟩⟩ := h5
    all_goals rcases h2 with ⟨rfl, -⟩ | ⟨⟨_, h2, -⟩, -⟩
    · rw [List.nil_append] at h1
      exact ⟨[0x30, 0x30, 0x17], by decide, done (el_elem h1) ⟨_, _, _, rfl, h3, _, _, _, rfl, el_elem h4, _, _, _, rfl, el_elem h5, trivial⟩⟩
    · exact ⟨[0x02, 0x30, 0x30, 0x17], by decide, done (el_elem h1) ⟨_, _, _, rfl, el_elem h2, _, _, _, rfl, h3, _, _, _, rfl, el_elem h4, _, _, _, rfl, el_elem h5, trivial⟩⟩
    · rw [List.nil_append] at h1
      exact ⟨[0x30, 0x30, 0x18], by decide, done (el_elem h1) ⟨_, _, _, rfl, h3, _, _, _, rfl, el_elem h4, _, _, _, rfl, el_elem h5, trivial⟩⟩
    · exact ⟨[0x02, 0x30, 0x30, 0x18], by decide, done (el_elem h1) ⟨_, _, _, rfl, el_elem h2, _, _, _, rfl, h3, _, _, _, rfl, el_elem h4, _, _, _, rfl, el_elem h5, trivial⟩⟩
  | request =>
    obtain ⟨env, der, c, h, rfl⟩ := h
    obtain ⟨f, k, _, _, _, g, -, -, -, -, rfl⟩ := (C95_csr_grammar env der c).mp h
    obtain ⟨_, _, _, _, _, _, -, h1, h2, h3, h4, h5, -⟩ := g
    obtain ⟨⟨_, h2, -⟩, -⟩ := h2
    obtain ⟨_, h3, -⟩ := h3
    obtain ⟨_, _, _, h4, -⟩ := h4
    exact ⟨[0x02, 0x30, 0x30, 0xa0], by decide, done (el_elem h1) ⟨_, _, _, rfl, el_elem h2, _, _, _, rfl, el_elem h3, _, _, _, rfl, el_elem h4, _, _, _, rfl, el_elem h5, trivial⟩⟩
  | pkcs7Attributes => exact absurd rfl hk

theorem signed_attributes_head {m : Bytes} (h : SignedAs m .pkcs7Attributes) : m.head? = some 0x31 := by
  obtain ⟨_, _, p, s, -, -, hs, ⟨h, -⟩ | ⟨-, -, ⟨_, _, -, -, -, rfl⟩, -⟩⟩ := h
  · exact absurd h hs
  · rfl

theorem seqStarts_head {ts : List UInt8} {m : Bytes} (h : SeqStarts ts m) : m.head? = some 0x30 := by
  obtain ⟨_, _, _, rfl, h, -⟩ := h
  rw [h.1]; rfl

/-- **C100** No octets are signed with two meanings: the octets that a signature of a certificate, a revocation list, a request or
a PKCS#7 signer with attributes is over never belong to two of these kinds, whatever the objects around them. A signature
made for one cannot be carried over to another. -/
theorem C100_signed_parts_disjoint (m : Bytes) (k k' : SignedKind) (h : SignedAs m k) (h' : SignedAs m k') : k = k' := by
  by_cases e : k = .pkcs7Attributes
  · by_cases e' : k' = .pkcs7Attributes
    · exact e.trans e'.symm
    · obtain ⟨ts, -, hs⟩ := signed_tags h' e'
      subst e
      have := (signed_attributes_head h).symm.trans (seqStarts_head hs)
      exact absurd this (by decide)
  · by_cases e' : k' = .pkcs7Attributes
    · obtain ⟨ts, -, hs⟩ := signed_tags h e
      subst e'
      have := (signed_attributes_head h').symm.trans (seqStarts_head hs)
      exact absurd this (by decide)
    · obtain ⟨ts, ht, hs⟩ := signed_tags h e
      obtain ⟨ts', ht', hs'⟩ := signed_tags h' e'
      have hc := seqStarts_compatible hs hs'
      have key : ∀ k k', ∀ ts ∈ signedTags k, ∀ ts' ∈ signedTags k', compatible ts ts' = true → k = k' := by
        intro k k'
        cases k <;> cases k' <;> decide
      exact key k k' ts ht ts' ht' hc

/-- **C100** No octets are accepted by the parsers of two kinds of objects. -/
theorem C100_parsers_disjoint (der : Bytes) (k k' : Kind) (h : Accepts der k) (h' : Accepts der k') : k = k' := by
  have hc := seqStarts_compatible (accepts_tags h) (accepts_tags h')
  have key : ∀ k k', compatible (outerTags k) (outerTags k') = true → k = k' ∨
      (k ∈ [Kind.certificate, .revocationList, .request] ∧ k' ∈ [Kind.certificate, .revocationList, .request]) := by
    intro k k'
    cases k <;> cases k' <;> decide
  rcases key k k' hc with rfl | ⟨hk, hk'⟩
  · rfl
  have tbs : ∀ k, Accepts der k → k ∈ [Kind.certificate, .revocationList, .request] → ∃ m e b r sk, Elem 0x30 b der ∧ b = e ++ r ∧
      (∃ b', Elem 0x30 b' e) ∧ SignedAs m sk ∧ m = e ∧
      ((k = .certificate ∧ sk = .certificate) ∨ (k = .revocationList ∧ sk = .revocationList) ∨ (k = .request ∧ sk = .request)) := by
    intro k h hk
    simp only [List.mem_cons, List.not_mem_nil, or_false] at hk
    rcases hk with rfl | rfl | rfl
    · obtain ⟨env, c, h⟩ := h
      obtain ⟨f, g, -, -, ht, -⟩ := C70_fields env der c h
      obtain ⟨_, _, _, _, _, _, _, _, h1, h2, -⟩ := g
      exact ⟨_, _, _, _, .certificate, h1, rfl, ⟨_, h2⟩, ⟨env, der, c, h, rfl⟩, ht, Or.inl ⟨rfl, rfl⟩⟩
    · obtain ⟨c, h⟩ := h
      obtain ⟨_, _, _, _, _, h1, h2, -⟩ := (C94_crl_grammar der _).mp ⟨c, h, rfl⟩
      obtain ⟨_, _, _, _, _, _, _, _, h2, -⟩ := h2
      exact ⟨_, _, _, _, .revocationList, el_elem h1, rfl, ⟨_, el_elem h2⟩, ⟨der, c, h, rfl⟩, rfl, Or.inr (Or.inl ⟨rfl, rfl⟩)⟩
    · obtain ⟨env, c, h⟩ := h
      obtain ⟨f, k, _, _, _, g, -, -, -, -, rfl⟩ := (C95_csr_grammar env der c).mp h
      obtain ⟨_, _, _, _, _, _, h1, h2, -⟩ := g
      exact ⟨_, _, _, _, .request, el_elem h1, rfl, ⟨_, el_elem h2⟩, ⟨env, der, _, h, rfl⟩, rfl, Or.inr (Or.inr ⟨rfl, rfl⟩)⟩
  obtain ⟨m, e, b, r, sk, a1, a2, ⟨b1, a3⟩, a4, a5, a6⟩ := tbs k h hk
  obtain ⟨m', e', b', r', sk', a1', a2', ⟨b1', a3'⟩, a4', a5', a6'⟩ := tbs k' h' hk'
  obtain ⟨-, hb⟩ := elem_inj a1 a1'
  obtain ⟨-, -, he, -⟩ := elem_unique a3 a3' (a2.symm.trans (hb.trans a2'))
  have hm : m = m' := a5.trans (he.trans a5'.symm)
  rw [hm] at a4
  have := C100_signed_parts_disjoint m' sk sk' a4 a4'
  subst this
  rcases a6 with ⟨h1, h2⟩ | ⟨h1, h2⟩ | ⟨h1, h2⟩ <;> rcases a6' with ⟨g1, g2⟩ | ⟨g1, g2⟩ | ⟨g1, g2⟩ <;> rw [h1, g1] <;>
    rw [h2] at g2 <;> cases g2

/-! ## What is not disjoint -/

/-- **C100** `ParsePKCS1PublicKey` accepts no object of the kinds above, except PKCS#1 private keys of version 1 whose modulus
is below 2^31: read as public keys, their version is the modulus and their modulus is the exponent. -/
theorem C100_pkcs1_public (der : Bytes) (p : RsaPub) (h : parsePKCS1PublicKey der = .ok p) (k : Kind) (hk : Accepts der k) :
    k = .pkcs1 ∧ ∀ r, parsePKCS1PrivateKey der = .ok r → p = ⟨1, r.pub.n⟩ ∧ r.pub.n < 2 ^ 31 := by
  obtain ⟨⟨ne, ee, junk, h1, ⟨nb, h2, h2'⟩, ⟨eb, h3, h3'⟩⟩, hn, he, he'⟩ := (C93_pkcs1_public_grammar der p).mp h
  constructor
  · have hs : SeqStarts [0x02, 0x02] der :=
      ⟨_, der, [], (List.append_nil _).symm, el_elem h1, _, _, _, rfl, el_elem h2, _, _, _, rfl, el_elem h3, trivial⟩
    have hc := seqStarts_compatible hs (accepts_tags hk)
    revert hc
    clear * -
    cases k <;> decide
  · intro r hr
    obtain ⟨hd, -⟩ := (C92_pkcs1_private_grammar der r).mp hr
    obtain ⟨ve, ne', _, _, _, _, _, _, _, _, _, v, _, _, _, g1, ⟨⟨vb, g2, g2'⟩, -⟩, gv, ⟨nb', g3, g3'⟩, -⟩ := hd
    obtain ⟨-, hb⟩ := elem_inj (el_elem h1) (el_elem g1)
    obtain ⟨-, e1, -, hb2⟩ := elem_unique (el_elem h2) (el_elem g2) hb
    obtain ⟨-, e2, -, -⟩ := elem_unique (el_elem h3) (el_elem g3) hb2
    subst e1 e2
    have i1 : p.n = v := h2'.2.1.symm.trans g2'.2.1
    have i2 : p.e = r.pub.n := h3'.2.1.symm.trans g3'.2.1
    have i3 : p.n = 1 := by omega
    refine ⟨?_, by omega⟩
    cases p
    simp only at i2 i3
    rw [i2, i3]

/-- Such a key, and both readings. -/
example : parsePKCS1PublicKey [0x30, 18, 2, 1, 1, 2, 1, 15, 2, 1, 3, 2, 1, 3, 2, 1, 3, 2, 1, 5] = .ok ⟨1, 15⟩ ∧
    parsePKCS1PrivateKey [0x30, 18, 2, 1, 1, 2, 1, 15, 2, 1, 3, 2, 1, 3, 2, 1, 3, 2, 1, 5] = .ok ⟨⟨15, 3⟩, 3, [3, 5]⟩ := by
  decide +kernel

/-- **C100** The exclusion of PKCS#7 signers without attributes from `SignedKind` is needed: the signature of every certificate
made with an SM2 key (algorithm SM2WithSM3) is also accepted as a PKCS#7 signature, without attributes, of the
octets of the signed part as content. -/
theorem C100_certificate_as_message (H : StdHashes) (V : Verifiers) (c parent : Certificate) (n : Int)
    (hn : parent.serialNumber = some n) (ha : c.signatureAlgorithm = SM2WithSM3)
    (h : c.checkSignatureFrom (initRegistry H) V parent = .ok ()) (issuer : RawValue) (hi : issuer.full = parent.rawIssuer) :
    PKCS7.verify (initRegistry H) V
      { content := c.rawTBSCertificate, certificates := [parent],
        signers := [{ issuerAndSerialNumber := ⟨issuer, some n⟩, encryptedDigest := c.signature }] } = .ok () := by
  obtain ⟨-, -, hs⟩ := ((C42_checkSignatureFrom_iff (initCalls H) _ (initRegistry_ok H) (by rw [lastRegistered_init]; simp)
    V c parent).1).mp h
  rw [ha] at hs
  refine (C57_verify_iff H V _ ?_ ?_).mpr ⟨by simp, ?_⟩
  · intro d hd
    rw [List.mem_singleton.mp hd, hn]; simp
  · intro s hs m hm
    rw [List.mem_singleton.mp hs] at hm
    obtain ⟨ds, es, h1, h2, -, rfl⟩ := hm
    simp only [Option.getD_none, List.forall₂_nil_left_iff] at h1
    subst h1
    rw [List.perm_nil] at h2
    subst h2
    decide
  · intro s hs'
    rw [List.mem_singleton.mp hs']
    exact ⟨_, parent, Or.inl ⟨rfl, rfl⟩, ⟨[], [], n, rfl, rfl, ⟨hn, hi.symm⟩, by simp⟩, hs⟩

/-! ## Examples: every kind has members -/

example : Accepts (exCertDer []) .certificate := (exCert_parses [] (Or.inl rfl)).elim fun c h => ⟨exCertEnv, c, h.1⟩

theorem ok_of {α : Type} {r : Res α} (h : okAnd r (fun _ => true) = true) : ∃ a, r = .ok a := by
  cases r with
  | ok a => exact ⟨a, rfl⟩
  | err e => cases h
  | panic => cases h

example : Accepts exCrlDer .revocationList := ok_of (by decide +kernel)
example : Accepts exCsrDer .request := ⟨exCertEnv, ok_of (by decide +kernel)⟩
example : Accepts [48, 17, 6, 10, 42, 129, 28, 207, 85, 6, 1, 4, 2, 2, 160, 3, 4, 1, 0] .pkcs7 := ⟨exCertEnv, ok_of (by decide +kernel)⟩
example : Accepts [0x30, 26, 0x30, 13, 6, 9, 0x2a, 0x86, 0x48, 0x86, 0xf7, 0x0d, 1, 1, 1, 5, 0, 3, 9, 0, 0x30, 6, 2, 1, 15, 2, 1, 3]
    .publicKey := ok_of (by decide +kernel)
example : Accepts exRsaDer .pkcs1 := ok_of (by decide +kernel)
example : Accepts exEcDer .sec1 := exEcDer_parses
example : Accepts P12Ex.pfx .pfx := ⟨P12Ex.toy, id, _, P12Ex.parse1, [0x41], Or.inr ⟨_, _, P12Ex.pfx_decodes id⟩⟩
example : Accepts ([0x30, 46, 2, 1, 0, 0x30, 5, 6, 3, 43, 101, 112, 4, 34, 4, 32] ++ List.replicate 32 7) .pkcs8 :=
  ⟨id, ok_of (by decide +kernel)⟩

/-- Signed parts of the kinds. -/
example : ∃ m, SignedAs m .certificate := (exCert_parses [] (Or.inl rfl)).elim fun c h => ⟨_, exCertEnv, _, c, h.1, rfl⟩
example : ∃ m, SignedAs m .revocationList :=
  (ok_of (r := ParseDERCRL exCrlDer) (by decide +kernel)).elim fun c h => ⟨_, _, c, h, rfl⟩
example : ∃ m, SignedAs m .request :=
  (ok_of (r := ParseCertificateRequest exCertEnv exCsrDer) (by decide +kernel)).elim fun c h => ⟨_, exCertEnv, _, c, h, rfl⟩
example : SignedAs p7M .pkcs7Attributes := by
  obtain ⟨p7, s, h1, h2, h3, h4, -⟩ := p7Out_verifies
  refine ⟨_, _, p7, s, by rw [h3]; simp, h1, ?_, by rw [h2]; exact h4⟩
  intro hn
  rcases h4 with ⟨-, h⟩ | ⟨h, -⟩
  · exact absurd h (by decide +kernel)
  · exact h hn

end MCrypto.Props
