import Verif.Props.X509Chain
/-
C121 Revocation by a CA of a hierarchy: its lists and its certificates fit together.
-/
namespace MCrypto.Props
open MCrypto MCrypto.Asn1 MCrypto.X509 MCrypto.X509Spec

/-- The first entry for the serial number `s`. -/
def entryFor (l : List Revoked) (s : Option Int) : Option Revoked := l.find? fun r => r.serialNumber == s

/-- Two lookups with the same result. -/
def SameEntry : Option Revoked → Option Revoked → Prop
  | none, none => True
  | some r, some r' => SameRevoked r r'
  | _, _ => False

/-- What a relying party can see of the list `l` beside a certificate `c` and the certificate `p` of the CA: the entry for
every serial number is the one the CA has written; the authority key identifier of the list is the subject key identifier of `p`,
and the authority key identifier of `c` unless `c` has the subject of `p`; and the issuer of the list is that of `c` (the
same relative distinguished names up to the order within them) exactly if the subject of `p` is written as its fields are. -/
structure ListFor (c p : Certificate) (entries : List Revoked) (l : Crl) : Prop where
  entry : ∀ s, SameEntry (entryFor (l.tbs.revoked.getD []) s) (entryFor entries s)
  keyId : ∃ aki rest, l.tbs.extensions = some (⟨[2, 5, 29, 35], false, aki⟩ :: rest) ∧ AkiExt aki (some p.subjectKeyId) ∧
    (c.rawSubject ≠ c.rawIssuer → AkiExt aki (some c.authorityKeyId))
  issuer : ∀ rdns, NameDer c.rawIssuer rdns → ((∃ m, List.Forall₂ List.Perm l.tbs.issuer m ∧ List.Forall₂ List.Perm (toAny rdns) m) ↔
    List.Forall₂ List.Perm (toAny rdns) (nameRdns p.subject))

theorem perm_trans {a b c : List (List AtvAny)} (h : List.Forall₂ List.Perm a b) (h' : List.Forall₂ List.Perm b c) :
    List.Forall₂ List.Perm a c := by
  induction h generalizing c with
  | nil => cases h'; exact .nil
  | cons h _ ih => cases h' with
    | cons h' hbc => exact .cons (h.trans h') (ih hbc)

theorem perm_symm {a b : List (List AtvAny)} (h : List.Forall₂ List.Perm a b) : List.Forall₂ List.Perm b a := by
  induction h with
  | nil => exact .nil
  | cons h _ ih => exact .cons h.symm ih

theorem sameEntry_of {l l' : List Revoked} (h : List.Forall₂ SameRevoked l l') (s : Option Int) : SameEntry (entryFor l s) (entryFor l' s) := by
  induction h with
  | nil => trivial
  | cons h _ ih =>
    rename_i r r' _ _ _
    unfold entryFor at ih ⊢
    rw [List.find?_cons, List.find?_cons, h.serial]
    cases hs : (r'.serialNumber == s)
    · simpa using ih
    · exact h

theorem issuer_key {env : Env} {E : SignEnv} {p t c : Certificate} {pk : Signer} {pub : PubKey} (h : Issues env E p pk t pub c)
    (hp : CaCert p) : p.publicKey = pk.pub := by
  obtain ⟨der, h1, -, -⟩ := h.made
  obtain ⟨key', hk, hreq⟩ := C63_requires _ _ _ _ _ _ h1
  obtain rfl := Option.some.inj hk
  exact (hreq.parent.resolve_left hp.key).symm

theorem issuer_iff {l rdns : List (List AtvAny)} {n : Name} (h : SameName l n) :
    (∃ m, List.Forall₂ List.Perm l m ∧ List.Forall₂ List.Perm rdns m) ↔ List.Forall₂ List.Perm rdns (nameRdns n) := by
  constructor
  · rintro ⟨m, h1, h2⟩
    exact perm_trans h2 (perm_trans (perm_symm h1) h)
  · intro h2
    exact ⟨_, h, h2⟩

/-- **C121** A list that the newest CA of a hierarchy makes with `CreateRevocationList` is read by `ParseDERCRL`, fits the
certificates that this CA has issued, and passes `CheckCRLSignature` under the certificate of the CA if the signatures that the
CA's key makes with the algorithm verify. -/
theorem C121_revocation_list (env : Env) (E : SignEnv) (p : Certificate) (pk : Signer) (rest : List (Certificate × Signer))
    (hh : Hierarchy env E ((p, pk) :: rest)) (t : Certificate) (pub : PubKey) (c : Certificate) (hi : Issues env E p pk t pub c)
    (rl : RevocationList) (der : Bytes) (h : CreateRevocationList E (some rl) (some p) pk = .ok der) (hl : der.length < 2 ^ 31)
    (ht : RevocationListOk rl p) :
    ∃ l, ParseDERCRL der = .ok l ∧ ListFor c p rl.revokedCertificates l ∧
      ((∀ a, a = (if rl.signatureAlgorithm = 0 then defaultAlg pk.pub else rl.signatureAlgorithm) →
        ∀ tbs digest sig, digestFor E.reg (algHash a) tbs = .ok digest → pk.sign digest (optsFor a) = some sig →
          checkSignature E.reg E.V a tbs sig pk.pub = .ok ()) → p.checkCRLSignature E.reg E.V l.signedPart = .ok ()) := by
  have hca := hierarchy_ca hh _ (List.mem_cons_self ..)
  have hf := issues_follows hi hca
  obtain ⟨l, n, rs, aki, num, -, -, h1, -, -, h2, -, -, h3, h4, h5, h6, -⟩ := C73_roundtrip E rl p pk der h hl ht
  refine ⟨l, h1, ⟨?_, ⟨aki, _, h5, h6, fun hne => ?_⟩, fun rdns _ => issuer_iff h2⟩, fun hs => ?_⟩
  · have e : l.tbs.revoked.getD [] = rs := by
      rw [h3]
      split
      · rename_i h0
        rw [h0] at h4
        cases h4
        rfl
      · rfl
    rw [e]
    exact sameEntry_of h4
  · rw [(hf.2.2 hne).2]; exact h6
  · obtain ⟨l', g1, g2⟩ := C73_check E rl p pk der h hl ht p (issuer_key hi hca) _ rfl (hs _ rfl)
    rw [h1, Res.ok.injEq] at g1
    subst g1
    exact g2

/-- **C121** The same for `CreateCRL`. -/
theorem C121_crl (env : Env) (E : SignEnv) (p : Certificate) (pk : Signer) (rest : List (Certificate × Signer))
    (hh : Hierarchy env E ((p, pk) :: rest)) (t : Certificate) (pub : PubKey) (c : Certificate) (hi : Issues env E p pk t pub c)
    (rs : List Revoked) (now expiry : Time) (der : Bytes) (h : p.createCRL E (some pk) rs now expiry = .ok der) (hl : der.length < 2 ^ 31)
    (ht : CreateCrlOk p rs now expiry) :
    ∃ l, ParseDERCRL der = .ok l ∧ ListFor c p rs l := by
  have hca := hierarchy_ca hh _ (List.mem_cons_self ..)
  have hf := issues_follows hi hca
  obtain ⟨l, rs', -, h1, -, h2, -, -, h3, h4, h5, -⟩ := C74_roundtrip E p pk rs now expiry der h hl ht
  rw [if_neg hca.ski] at h5
  obtain ⟨aki, h5, h6⟩ := h5
  refine ⟨l, h1, ?_, ⟨aki, _, h5, h6, fun hne => ?_⟩, fun rdns _ => issuer_iff h2⟩
  · rw [h3]
    exact sameEntry_of h4
  · rw [(hf.2.2 hne).2]; exact h6

/-- **C121** A certificate is revoked by the list exactly if the CA has listed its serial number. -/
theorem C121_revoked_iff (c p : Certificate) (entries : List Revoked) (l : Crl) (h : ListFor c p entries l) :
    (∃ r ∈ l.tbs.revoked.getD [], r.serialNumber = c.serialNumber) ↔ ∃ r ∈ entries, r.serialNumber = c.serialNumber := by
  have key : ∀ m : List Revoked, (∃ r ∈ m, r.serialNumber = c.serialNumber) ↔ entryFor m c.serialNumber ≠ none := by
    intro m
    unfold entryFor
    rw [ne_eq, List.find?_eq_none]
    simp
  rw [key, key]
  have := h.entry c.serialNumber
  cases h1 : entryFor (l.tbs.revoked.getD []) c.serialNumber <;> cases h2 : entryFor entries c.serialNumber <;>
    rw [h1, h2] at this <;> simp_all [SameEntry]

theorem nameDer_unique {e : Bytes} {n m : List (List Atv)} (h : NameDer e n) (h' : NameDer e m) : n = m := by
  have he : ∃ b, Elem 0x30 b e := by obtain ⟨b, hb, -⟩ := h; exact ⟨b, hb⟩
  rw [← parseName_iff he] at h h'
  exact Option.some.inj (h.symm.trans h')

/-- **C121** The issuer of the list is that of the certificates if the certificate of the CA was made from a name without
octets and without extra names. -/
theorem C121_plain_name (env : Env) (E : SignEnv) (pp : Certificate) (ppk : Signer) (tp : Certificate) (ppub : PubKey) (p : Certificate)
    (hp : Issues env E pp ppk tp ppub p) (h0 : tp.rawSubject = []) (hx : tp.subject.extraNames = []) (c : Certificate)
    (hc : c.rawIssuer = p.rawSubject) (rdns : List (List Atv)) (hn : NameDer c.rawIssuer rdns) :
    List.Forall₂ List.Perm (toAny rdns) (nameRdns p.subject) := by
  obtain ⟨der, h1, h2, h3⟩ := hp.made
  obtain ⟨p', -, g1, -, -, -, -, -, ⟨s, ⟨s0, -, s2⟩, s3⟩, -⟩ := C72_create_parse env E tp pp ppub ppk der h1 h2 hp.readable
  rw [h3, Res.ok.injEq] at g1
  subst g1
  obtain rfl : rdns = s := by
    rw [hc] at hn
    exact nameDer_unique hn s0
  exact perm_trans (s2 h0) (perm_symm (nameRdns_keeps (keepsName (s2 h0) s3) hx))

/-! ### Cases -/

/-- A CA that may sign lists, with two values in one field of its name, and without the extra name. -/
def exListTemplate : Certificate :=
  { exCreateTemplate with keyUsage := 96, subject := { commonName := [97, 98], organization := [[99], [98]] } }

/-- A list with two entries for the serial number 5. -/
def exRevokes : RevocationList :=
  { exCrlTemplate with revokedCertificates := [⟨some 9, ⟨2019, 12, 31, 23, 0, 0, -60⟩, none⟩, ⟨some 5, ⟨2020, 1, 1, 0, 0, 0, 0⟩, none⟩,
      ⟨some 5, ⟨2021, 1, 1, 0, 0, 0, 0⟩, none⟩] }

/-- A CA, a certificate with the serial number 5 that it issues, and a list that revokes it: the list verifies, has the first
entry for 5, and the CA's name. With the extra name in the subject of the CA, the name of the list is another. -/
theorem C121_case : okAnd (CreateCertificate exSignEnv exListTemplate exListTemplate (.rsa ⟨33, 3⟩) (some exSigner)) (fun der =>
    der.length < 1000 && okAnd (ParseCertificate exEnv der) fun p => decide (p.subjectKeyId.length < 1000) &&
      okAnd (CreateCertificate exSignEnv exSubTemplate p (.rsa ⟨33, 3⟩) (some exSigner)) fun der2 => der2.length < 1000 &&
        okAnd (ParseCertificate exEnv der2) fun c => decide (c.rawSubject ≠ c.rawIssuer) &&
          okAnd (CreateRevocationList exSignEnv (some exRevokes) (some p) exSigner) fun der3 => der3.length < 1000 &&
            okAnd (ParseDERCRL der3) fun l => decide ((entryFor (l.tbs.revoked.getD []) c.serialNumber).map (·.revocationTime) =
                some ⟨2020, 1, 1, 0, 0, 0, 0⟩) &&
              okAnd (p.checkCRLSignature exSignEnv.reg exSignEnv.V l.signedPart) (fun _ => true) &&
              decide (marshal rdnSequence l.tbs.issuer = some c.rawIssuer)) = true := by decide +kernel

theorem C121_other_name : okAnd (CreateCertificate exSignEnv { exCreateTemplate with keyUsage := 96 } exCreateTemplate (.rsa ⟨33, 3⟩) (some exSigner))
    (fun der => okAnd (ParseCertificate exEnv der) fun p => okAnd (CreateRevocationList exSignEnv (some exRevokes) (some p) exSigner) fun der3 =>
      okAnd (ParseDERCRL der3) fun l => decide (marshal rdnSequence l.tbs.issuer ≠ some p.rawSubject) &&
        decide (l.tbs.issuer.flatten.length + 1 = p.subject.names.length)) = true := by decide +kernel

/-- The hypotheses of `C121_revocation_list` are met. -/
example : ∃ p c l der, Hierarchy exEnv exSignEnv [(p, exSigner)] ∧ Issues exEnv exSignEnv p exSigner exSubTemplate (.rsa ⟨33, 3⟩) c ∧
    CreateRevocationList exSignEnv (some exRevokes) (some p) exSigner = .ok der ∧ der.length < 2 ^ 31 ∧ RevocationListOk exRevokes p ∧
    ParseDERCRL der = .ok l ∧ ListFor c p exRevokes.revokedCertificates l := by
  obtain ⟨der, h1, key⟩ := okAnd_ok C121_case
  rw [Bool.and_eq_true] at key
  obtain ⟨h2, key⟩ := key
  obtain ⟨p, h3, key⟩ := okAnd_ok key
  rw [Bool.and_eq_true] at key
  obtain ⟨h4, key⟩ := key
  obtain ⟨der2, h5, key⟩ := okAnd_ok key
  rw [Bool.and_eq_true] at key
  obtain ⟨h6, key⟩ := key
  obtain ⟨c, h7, key⟩ := okAnd_ok key
  rw [Bool.and_eq_true] at key
  obtain ⟨-, key⟩ := key
  obtain ⟨der3, h8, key⟩ := okAnd_ok key
  rw [Bool.and_eq_true] at key
  obtain ⟨h9, -⟩ := key
  have h2 : der.length < 1000 := of_decide_eq_true h2
  have h4 : p.subjectKeyId.length < 1000 := of_decide_eq_true h4
  have h6 : der2.length < 1000 := of_decide_eq_true h6
  have h9 : der3.length < 1000 := of_decide_eq_true h9
  have hread : TemplateReadable exEnv exSignEnv.sha1 exListTemplate exListTemplate (.rsa ⟨33, 3⟩) :=
    ⟨exReadable.key, exReadable.notBefore, exReadable.notAfter, ⟨fun h => absurd rfl h, fun _ a ha => by cases ha⟩,
      ⟨fun h => absurd rfl h, fun _ a ha => by cases ha⟩, by
        obtain ⟨h1, h2, h3, h4, h5, h6, h7⟩ := exTemplate_ok
        exact ⟨h1, h2, h3, h4, h5, h6, h7⟩, exReadable.extra, by decide, by decide, by decide, fun _ => rfl⟩
  have i1 : Issues exEnv exSignEnv exListTemplate exSigner exListTemplate exSigner.pub p :=
    ⟨hread, by unfold CheckedAlg; decide, der, h1, by omega, h3⟩
  have hca : CaTemplate exListTemplate := ⟨by decide, by decide, Or.inr ⟨1, by decide⟩⟩
  obtain ⟨ca, -⟩ := issues_ca i1 hca
  obtain ⟨c', -, g1, -, -, -, -, -, ⟨r, ⟨gn, -, -⟩, gf⟩, -⟩ := C72_create_parse exEnv exSignEnv _ _ _ _ der h1 (by omega) hread
  rw [h3, Res.ok.injEq] at g1
  subst g1
  have i2 : Issues exEnv exSignEnv p exSigner exSubTemplate (.rsa ⟨33, 3⟩) c :=
    ⟨exSub_readable ca ⟨r, gn⟩ (by omega), by unfold CheckedAlg; decide, der2, h5, by omega, h7⟩
  have hok : RevocationListOk exRevokes p := by
    refine ⟨by constructor <;> decide, by constructor <;> decide, ?_, ?_, ?_, by omega⟩
    · rw [gf.extraNames]; intro a ha; cases ha
    · intro r hr
      have : ∀ r ∈ exRevokes.revokedCertificates, r.serialNumber.isSome = true ∧ r.extensions = none := by decide
      have ht : ∀ r ∈ exRevokes.revokedCertificates, ValidTime r.revocationTime := by
        intro r hr
        simp only [exRevokes, List.mem_cons, List.not_mem_nil, or_false] at hr
        rcases hr with rfl | rfl | rfl <;> constructor <;> decide
      have h0 := this r hr
      exact ⟨fun h => (by rw [h] at h0; cases h0.1), ht r hr, fun l hl => (by rw [h0.2] at hl; cases hl)⟩
    · intro e he
      have he : e ∈ exCrlTemplate.extraExtensions := he
      rw [List.mem_singleton.mp he]; exact ⟨_, _, _, rfl, by decide, by decide⟩
  have hh : Hierarchy exEnv exSignEnv [(p, exSigner)] := .root hca rfl i1
  obtain ⟨l, k1, k2, -⟩ := C121_revocation_list exEnv exSignEnv p exSigner [] hh _ _ c i2 exRevokes der3 h8 (by omega) hok
  exact ⟨p, c, l, der3, hh, i2, h8, by omega, hok, k1, k2⟩

end MCrypto.Props
