import Verif.X509.CrlPem
import Verif.Pem.Lemmas
import Verif.Props.X509ListDer
import Verif.Props.Revoke
/-
C137 Revocation lists in PEM: what `ParseCRL` reads, with Go's `pem.Decode` and base64 decoding. Vocabulary: Verif/Pem/Spec.lean.
-/
namespace MCrypto.Props
open MCrypto MCrypto.X509 MCrypto.Asn1 MCrypto.X509Spec MCrypto.PemSpec

/-- "X509 CRL" -/
def crlLabel : Bytes := "X509 CRL".toUTF8.data.toList

theorem crlLabel_eq : crlLabel = pemType := by decide +kernel

/-- **C137** A revocation list in PEM is read as the octets it stands for: header lines, blanks, the line ends, the length of the lines and what
follows the END line do not matter. -/
theorem C137_armoured (d text : Bytes) (h : Armour crlLabel d text) : parseCRL text = ParseDERCRL d := by
  rw [crlLabel_eq] at h
  obtain ⟨hs, hd⟩ := Pem.decode_of (by decide) (by decide) h
  obtain ⟨_, _, _, _, _, _, rfl, -⟩ := h
  unfold parseCRL ParseCRL
  rw [if_pos]
  · simp only [hd]; simp
  · rw [List.isPrefixOf_iff_prefix]
    exact ⟨_, List.append_assoc pemBegin pemType _⟩

/-- **C137** A text has at most one meaning. -/
theorem C137_unambiguous (d d' text : Bytes) (h : Armour crlLabel d text) (h' : Armour crlLabel d' text) : d = d' := by
  rw [crlLabel_eq] at h h'
  obtain ⟨hs, hd⟩ := Pem.decode_of (by decide) (by decide) h
  obtain ⟨hs', hd'⟩ := Pem.decode_of (by decide) (by decide) h'
  rw [hd] at hd'
  simp only [Option.some.injEq, Pem.Block.mk.injEq] at hd'
  exact hd'.2.2

theorem dercrl_first {b : Bytes} {c : Crl} (h : ParseDERCRL b = .ok c) : b.head? = some 0x30 := by
  obtain ⟨_, _, _, _, _, ⟨⟨_, _, rfl⟩, _⟩, -⟩ := (C94_crl_grammar b (crlFields c)).1 ⟨c, h, rfl⟩
  rfl

theorem prefix_first {b : Bytes} (h : pemCRLPrefix.isPrefixOf b = true) : b.head? = some 45 := by
  rw [List.isPrefixOf_iff_prefix] at h
  obtain ⟨u, rfl⟩ := h
  rfl

/-- **C137** A revocation list in DER is read as it is. -/
theorem C137_der (b : Bytes) (c : Crl) (h : ParseDERCRL b = .ok c) : parseCRL b = .ok c := by
  unfold parseCRL ParseCRL
  rw [if_neg, h]
  intro hp
  have := dercrl_first h
  rw [prefix_first hp] at this
  simp at this

/-- **C137** Nothing else is read: what is accepted is the DER form of the list, or begins with "-----BEGIN X509 CRL" and has, there or on a later
line, a list in PEM. -/
theorem C137_only (b : Bytes) (c : Crl) (h : parseCRL b = .ok c) :
    ParseDERCRL b = .ok c ∨ (pemBegin ++ crlLabel <+: b ∧ ∃ d, Holds crlLabel d b ∧ ParseDERCRL d = .ok c) := by
  unfold parseCRL ParseCRL at h
  split at h
  · rename_i hp
    dsimp only at h
    cases hd : Pem.decode b with
    | none => rw [hd] at h; exact .inl h
    | some x =>
      rw [hd] at h
      simp only [Option.map_some] at h
      split at h
      · rename_i ht
        have hh := Pem.decode_found hd
        rw [ht] at hh
        rw [List.isPrefixOf_iff_prefix] at hp
        rw [crlLabel_eq]
        exact .inr ⟨hp, x.bytes, hh, h⟩
      · exact .inl h
  · exact .inl h

/-- **C137** White space or a comment before the BEGIN line, or another label on it, is not accepted. -/
theorem C137_reject (b : Bytes) (h0 : b.head? ≠ some 0x30) (h : ¬ pemBegin ++ crlLabel <+: b) (c : Crl) : parseCRL b ≠ .ok c := by
  intro hc
  rcases C137_only b c hc with h' | h'
  · exact h0 (dercrl_first h')
  · exact h h'.1

/-- **C137** If a BEGIN line with the label "X509 CRL" is followed by data for `d` and an END line with that label, then `ParseCRL` accepts the text exactly if `d`
is a revocation list in DER. -/
theorem C137_exact (d text : Bytes) (h : Armour crlLabel d text) (f : CrlFields) :
    (∃ c, parseCRL text = .ok c ∧ crlFields c = f) ↔ CrlDer d f := by
  rw [C137_armoured d text h, C94_crl_grammar]

/-- **C137** `pem.EncodeToMemory` and `ParseCRL`. -/
theorem C137_encode (d : Bytes) : parseCRL (Pem.encode crlLabel d) = ParseDERCRL d :=
  C137_armoured _ _ (Pem.encode_armour _ _)

/-- **C137** The PEM form of a list made with `CreateRevocationList`, in whatever layout, is read as that list, and passes `CheckCRLSignature` under the
certificate of the CA if the signatures that the CA's key makes verify. -/
theorem C137_created (E : SignEnv) (rl : RevocationList) (p : Certificate) (pk : Signer) (der : Bytes)
    (h : CreateRevocationList E (some rl) (some p) pk = .ok der) (hl : der.length < 2 ^ 31) (ht : RevocationListOk rl p)
    (text : Bytes) (ha : Armour crlLabel der text) (hk : p.publicKey = pk.pub)
    (hs : ∀ a, a = (if rl.signatureAlgorithm = 0 then defaultAlg pk.pub else rl.signatureAlgorithm) →
      ∀ tbs digest sig, digestFor E.reg (algHash a) tbs = .ok digest → pk.sign digest (optsFor a) = some sig →
        checkSignature E.reg E.V a tbs sig pk.pub = .ok ()) :
    ∃ l, parseCRL text = .ok l ∧ ParseDERCRL der = .ok l ∧ (∀ s, SameEntry (entryFor (l.tbs.revoked.getD []) s) (entryFor rl.revokedCertificates s)) ∧
      p.checkCRLSignature E.reg E.V l.signedPart = .ok () := by
  obtain ⟨l, n, rs, aki, num, -, -, h1, -, -, h2, -, -, h3, h4, h5, h6, -⟩ := C73_roundtrip E rl p pk der h hl ht
  obtain ⟨l', g1, g2⟩ := C73_check E rl p pk der h hl ht p hk _ rfl (hs _ rfl)
  rw [h1, Res.ok.injEq] at g1
  subst g1
  refine ⟨l, (C137_armoured _ _ ha).trans h1, h1, fun s => ?_, g2⟩
  have e : l.tbs.revoked.getD [] = rs := by
    rw [h3]
    split
    · rename_i h0
      rw [h0] at h4
      cases h4
      rfl
    · rfl
  rw [e]
  exact sameEntry_of h4 s

/-! ### Cases -/

/-- A header line, blanks, CR LF, a short line, and more text after the END line: "AQID" stands for 1, 2, 3. -/
def exText : Bytes := "-----BEGIN X509 CRL----- \t\r\nVersion: 1\r\nA Q\n\t ID\r\n-----END X509 CRL-----  \r\nmore".toUTF8.data.toList

theorem C137_case : exText = pemBegin ++ (crlLabel ++ (pemDashes ++ ([32, 9] ++ ([13, 10] ++ ([[86, 101, 114, 115, 105, 111, 110, 58, 32, 49, 13, 10]].flatten ++
    ([65, 32, 81, 10, 9, 32, 73, 68, 13, 10] ++ (pemEnd ++ (crlLabel ++ (pemDashes ++ ([32, 32] ++ ([13, 10] ++ [109, 111, 114, 101]))))))))))) := by
  decide +kernel

example : Armour crlLabel [1, 2, 3] exText := by
  refine ⟨_, _, _, _, _, _, C137_case, ?_, .inr rfl, ?_, .inr (by decide), ?_, ?_, .inr ⟨_, _, .inr rfl, rfl⟩⟩
  · intro c hc; simpa using hc
  · intro h hh
    rw [List.mem_singleton] at hh
    subst hh
    exact ⟨[86, 101, 114, 115, 105, 111, 110, 58, 32, 49, 13], rfl, by decide, by decide⟩
  · exact .group (a := 0) (b := 16) (c := 8) (d := 3) (.inl (by decide)) (.inl (by decide)) (.inl (by decide)) (.inl (by decide)) (by decide) .nil
  · intro c hc; simp at hc; exact .inl hc

/-- A text whose first block is spoilt: the second is read, although the first line decides that the text is PEM at all. -/
example : Pem.decode "-----BEGIN X509 CRL-----\n*\n-----END X509 CRL-----\n-----BEGIN X509 CRL-----\nAQIDBA==\n-----END X509 CRL-----".toUTF8.data.toList =
    some ⟨crlLabel, [], [1, 2, 3, 4]⟩ := by decide +kernel

/-- The last bits of a padded group may have any value. -/
example : Pem.base64Decode [65, 81, 61, 61] = some [1] ∧ Pem.base64Decode [65, 82, 61, 61] = some [1] := by decide +kernel

/-- A list in PEM. -/
example : parseCRL (Pem.encode crlLabel exCrlDer) = ParseDERCRL exCrlDer ∧ okAnd (parseCRL (Pem.encode crlLabel exCrlDer)) (fun _ => true) = true := by
  have := C137_encode exCrlDer
  exact ⟨this, by rw [this]; decide +kernel⟩

/-- The encoding in full: 49 octets are 68 characters, on two lines. -/
example : Pem.encode [88] (List.replicate 49 255) = "-----BEGIN X-----\n////////////////////////////////////////////////////////////////\n/w==\n-----END X-----\n".toUTF8.data.toList := by
  decide +kernel

end MCrypto.Props
