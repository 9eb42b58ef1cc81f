import Verif.Props.X509Chain
import Verif.Props.Pkcs7Der
import Verif.Props.Pkcs7Write
import Verif.Props.Pkcs7Ex
/-
C122 What a verified message with a verified chain of certificates proves.
-/
namespace MCrypto.Props
open MCrypto MCrypto.Asn1 MCrypto.X509 MCrypto.X509Spec MCrypto.Pkcs7Spec

/-- `m` is the DER of a SET OF attributes of which the messageDigest attributes (there is one) hold, as their only value, the SM3
digest of `data`. -/
def AttributesFor (data m : Bytes) : Prop :=
  ∃ attrs, AttrSetDer attrs m ∧ m.length < 2 ^ 31 ∧ (∀ a ∈ attrs, OidOk a.type) ∧ (∃ a ∈ attrs, a.type = [1, 2, 840, 113549, 1, 9, 4]) ∧
    ∀ a ∈ attrs, a.type = [1, 2, 840, 113549, 1, 9, 4] → valueOctets a.value = Der.tlv 0x31 (Der.tlv 0x04 (Sm3Spec.sm3 data))

theorem attrDer_elem {a : P7Attr} {d : Bytes} (h : AttrDer a d) (hl : d.length < 2 ^ 31) : ∃ b, Elem 0x30 b d := by
  obtain ⟨o, -, hd⟩ := h
  exact ⟨_, elem_of hd (by decide) hl⟩

theorem elems_unique {es es' : List Bytes} (h : ∀ e ∈ es, ∃ t b, Elem t b e) (h' : ∀ e ∈ es', ∃ t b, Elem t b e)
    (hf : es.flatten = es'.flatten) : es = es' := by
  refine concat_unique (E := fun (e : Bytes) (v : Bytes) => v = e ∧ ∃ t b, Elem t b e) ?_ ?_ (s := es.flatten) ⟨es, rfl, ?_⟩ ⟨es', hf, ?_⟩
  · rintro e e' v v' r r' ⟨rfl, t, b, he⟩ ⟨rfl, t', b', he'⟩ hr
    obtain ⟨-, -, h3, -⟩ := elem_unique he he' hr
    exact ⟨h3, h3⟩
  · rintro e v ⟨-, t, b, he⟩
    exact he.ne_nil
  · exact List.forall₂_same.mpr fun e he => ⟨rfl, h e he⟩
  · exact List.forall₂_same.mpr fun e he => ⟨rfl, h' e he⟩

theorem attrSet_unique {l l' : List P7Attr} {m : Bytes} (h : AttrSetDer l m) (h' : AttrSetDer l' m) (hl : m.length < 2 ^ 31) :
    ∀ a ∈ l, ∃ a' ∈ l', ∃ d, d.length < 2 ^ 31 ∧ AttrDer a d ∧ AttrDer a' d := by
  obtain ⟨ds, es, h1, h2, -, rfl⟩ := h
  obtain ⟨ds', es', h1', h2', -, hm⟩ := h'
  have e1 : Elem 0x31 es.flatten (Der.tlv 0x31 es.flatten) := elem_of rfl (by decide) hl
  have e2 : Elem 0x31 es'.flatten (Der.tlv 0x31 es.flatten) := elem_of hm (by decide) hl
  have hf := (elem_inj e1 e2).2
  have hlen := tlv_body_lt e1
  have small : ∀ e ∈ es, e.length < 2 ^ 31 := fun e he => by have := mem_flatten_le he; omega
  have small' : ∀ e ∈ es', e.length < 2 ^ 31 := fun e he => by have := mem_flatten_le he; rw [← hf] at this; omega
  have mem : ∀ {k : List P7Attr} {ds : List Bytes}, List.Forall₂ AttrDer k ds → ∀ d ∈ ds, ∃ a ∈ k, AttrDer a d := by
    intro k ds h
    induction h with
    | nil => intro d hd; cases hd
    | cons h0 _ ih =>
      intro d hd
      rcases List.mem_cons.mp hd with rfl | hd
      · exact ⟨_, by simp, h0⟩
      · obtain ⟨a, ha, hx⟩ := ih d hd
        exact ⟨a, by simp [ha], hx⟩
  have mem' : ∀ {k : List P7Attr} {ds : List Bytes}, List.Forall₂ AttrDer k ds → ∀ a ∈ k, ∃ d ∈ ds, AttrDer a d := by
    intro k ds h
    induction h with
    | nil => intro d hd; cases hd
    | cons h0 _ ih =>
      intro d hd
      rcases List.mem_cons.mp hd with rfl | hd
      · exact ⟨_, by simp, h0⟩
      · obtain ⟨a, ha, hx⟩ := ih d hd
        exact ⟨a, by simp [ha], hx⟩
  have hes : es = es' := by
    refine elems_unique ?_ ?_ hf
    · intro e he
      obtain ⟨a, -, hd⟩ := mem h1 e (h2.mem_iff.mp he)
      obtain ⟨b, hb⟩ := attrDer_elem hd (small e he)
      exact ⟨_, b, hb⟩
    · intro e he
      obtain ⟨a, -, hd⟩ := mem h1' e (h2'.mem_iff.mp he)
      obtain ⟨b, hb⟩ := attrDer_elem hd (small' e he)
      exact ⟨_, b, hb⟩
  intro a ha
  obtain ⟨d, hd, hx⟩ := mem' h1 a ha
  have hde := h2.mem_iff.mpr hd
  obtain ⟨a', ha', hx'⟩ := mem h1' d (h2'.mem_iff.mp (hes ▸ hde))
  exact ⟨a', ha', d, small d hde, hx, hx'⟩

theorem attrDer_same {a a' : P7Attr} {d : Bytes} (h : AttrDer a d) (h' : AttrDer a' d) (hl : d.length < 2 ^ 31) (ho : OidOk a.type)
    (ho' : OidOk a'.type) : a.type = a'.type ∧ valueOctets a.value = valueOctets a'.value := by
  obtain ⟨o, h1, h2⟩ := h
  obtain ⟨o', h1', h2'⟩ := h'
  have hb := (elem_inj (elem_of h2 (by decide) hl) (elem_of h2' (by decide) hl)).2
  have hlen := tlv_body_lt (elem_of h2 (by decide) hl)
  have hlen' := tlv_body_lt (elem_of h2' (by decide) hl)
  simp only [List.length_append] at hlen hlen'
  obtain ⟨-, g1, -, g2⟩ := elem_unique (elem_of (rfl : Der.tlv 0x06 o = _) (by decide) (by omega))
    (elem_of (rfl : Der.tlv 0x06 o' = _) (by decide) (by omega)) hb
  refine ⟨?_, g2⟩
  subst g1
  have k1 := (decOid_iff o a.type).mpr ⟨ho, h1⟩
  have k2 := (decOid_iff o a'.type).mpr ⟨ho', h1'⟩
  exact Option.some.inj (k1.symm.trans k2)

/-- Signed attributes that are signed for `data` can only be used with a content that has the same digest. -/
theorem attributesFor_digest {attrs : List P7Attr} (hp : ∀ a ∈ attrs, AttrParsed a) {m content data : Bytes}
    (hd : HasDigest attrs (Sm3Spec.sm3 content)) (hs : AttrSetDer attrs m) (hm : AttributesFor data m) :
    Sm3Spec.sm3 content = Sm3Spec.sm3 data := by
  obtain ⟨attrs', g1, g2, g3, -, g4⟩ := hm
  obtain ⟨pre, a, post, rest, ha, ht, -, hv⟩ := hd
  have hmem : a ∈ attrs := by rw [ha]; simp
  obtain ⟨a', ha', d, hl, k1, k2⟩ := attrSet_unique hs g1 g2 a hmem
  obtain ⟨ho, cls, comp, tag, body, hb, hc, htag, hbl⟩ := hp a hmem
  obtain ⟨e1, e2⟩ := attrDer_same k1 k2 hl ho (g3 a' ha')
  rw [g4 a' ha' (e1 ▸ ht)] at e2
  have hfull : valueOctets a.value = encTLV cls comp tag body := by
    rw [hb]
    unfold valueOctets rawOf
    rw [if_neg (encTLV_ne_nil _ _ _ _)]
  rw [hfull] at e2
  have hx : (Der.tlv 0x04 (Sm3Spec.sm3 data)).length < 100 := by
    have e : Der.tlv 0x04 (Sm3Spec.sm3 data) = encTLV 0 false 4 (Sm3Spec.sm3 data) := by
      rw [encTLV_tlv 0 false 4 _ (by decide)]
      rfl
    rw [e]
    have := encTLV_length_le 0 false 4 (Sm3Spec.sm3 data) (by decide) (by rw [sm3_length]; decide)
    rw [sm3_length] at this
    omega
  have p1 := (parseRaw_iff (encTLV cls comp tag body) (rawOf cls comp tag body) []).mpr
    ⟨cls, comp, tag, body, rfl, (List.append_nil _).symm, hc, htag, hbl⟩
  have e3 : Der.tlv 0x31 (Der.tlv 0x04 (Sm3Spec.sm3 data)) = encTLV 0 true 17 (Der.tlv 0x04 (Sm3Spec.sm3 data)) := by
    rw [encTLV_tlv 0 true 17 _ (by decide)]
    rfl
  have p2 := (parseRaw_iff (encTLV 0 true 17 (Der.tlv 0x04 (Sm3Spec.sm3 data))) (rawOf 0 true 17 (Der.tlv 0x04 (Sm3Spec.sm3 data))) []).mpr
    ⟨0, true, 17, _, rfl, (List.append_nil _).symm, by decide, by decide, by omega⟩
  rw [e2, e3, p2] at p1
  simp only [Option.some.injEq, Prod.mk.injEq, and_true] at p1
  have p3 := congrArg RawValue.bytes p1
  simp only [rawOf] at p3
  rw [hb] at hv
  simp only [rawOf] at hv
  rw [← p3] at hv
  have s1 : (Sm3Spec.sm3 data).length = 32 := sm3_length _
  have s2 : (Sm3Spec.sm3 content).length = 32 := sm3_length _
  exact (elem_unique (r := []) (⟨rfl, by decide, by omega⟩ : Elem 0x04 (Sm3Spec.sm3 data) (Der.tlv 0x04 (Sm3Spec.sm3 data)))
    (⟨rfl, by decide, by omega⟩ : Elem 0x04 (Sm3Spec.sm3 content) (Der.tlv 0x04 (Sm3Spec.sm3 content))) (by rw [List.append_nil]; exact hv)).2.1.symm

/-- The digest attribute of the message is of the content, of `data`, or the content is the attributes. -/
theorem signedMessage_content {s : SignerInfo} (hp : ∀ a ∈ s.authenticatedAttributes.getD [], AttrParsed a) {content data m : Bytes}
    (h : SignedMessage content s m) (hm : AttributesFor data m) :
    content = data ∨ (content ≠ data ∧ Sm3Spec.sm3 content = Sm3Spec.sm3 data) ∨
      (s.authenticatedAttributes.getD [] = [] ∧ content = m) := by
  rcases h with ⟨h1, h2⟩ | ⟨-, h1, h2, -⟩
  · exact Or.inr (Or.inr ⟨h1, h2.symm⟩)
  · have := attributesFor_digest hp h1 h2 hm
    by_cases hc : content = data
    · exact Or.inl hc
    · exact Or.inr (Or.inl ⟨hc, this⟩)

theorem tlv31_le (b : Bytes) (h : b.length < 2 ^ 31) : (Der.tlv 0x31 b).length ≤ b.length + 6 := by
  have e : Der.tlv 0x31 b = encTLV 0 true 17 b := by
    rw [encTLV_tlv 0 true 17 _ (by decide)]
    rfl
  rw [e]
  exact encTLV_length_le 0 true 17 b (by decide) h

/-- What the library gives to the signer. -/
theorem library_attributes {now : Time} (hnow : ClockTime now) (data : Bytes) : ∃ al m, forMarshaling (signedAttrs now data) = some al ∧
    marshalAttributes al = some m ∧ AttributesFor data m := by
  obtain ⟨al, attrs, m, h1, -, h2, -⟩ := attrs_spec hnow data
  obtain ⟨tv, k1, k2, k3, -, g1, g2, g3, g4, l1, l2, l3, -⟩ := attrs_eq hnow data
  rw [h1] at g1
  obtain rfl := Option.some.inj g1
  have hsz : ∀ m', AttrSetDer [setAttr oidAttributeContentType ctValue, setAttr oidAttributeSigningTime tv,
        setAttr oidAttributeMessageDigest (0x04 :: 32 :: Sm3.sum data)] m' → m'.length < 2 ^ 63 := by
    rintro m' ⟨ds, es, q1, q2, -, rfl⟩
    cases q1 with
    | cons a1 q1 => cases q1 with
      | cons a2 q1 => cases q1 with
        | cons a3 q1 =>
          cases q1
          rw [← p7Attr_marshal_iff] at a1 a2 a3
          rw [g2] at a1; rw [g3] at a2; rw [g4] at a3
          obtain rfl := Option.some.inj a1
          obtain rfl := Option.some.inj a2
          obtain rfl := Option.some.inj a3
          have := q2.flatten.length_eq
          simp only [List.flatten_cons, List.flatten_nil, List.length_append, List.length_nil] at this
          have := tlv31_le es.flatten (by omega)
          omega
  obtain ⟨k1, k2⟩ := (marshalAttributes_iff _ hsz m).mp h2
  refine ⟨_, m, h1, h2, _, k1, k2, ?_, ⟨setAttr oidAttributeMessageDigest (0x04 :: 32 :: Sm3.sum data), by simp, rfl⟩, ?_⟩
  · intro a ha
    simp only [List.mem_cons, List.not_mem_nil, or_false] at ha
    rcases ha with rfl | rfl | rfl
    · exact oid_ct_ok
    · exact oid_st_ok
    · exact oid_md_ok
  · intro a ha ht
    simp only [List.mem_cons, List.not_mem_nil, or_false] at ha
    rcases ha with rfl | rfl | rfl
    · exact absurd ht (by decide)
    · have ht : oidAttributeSigningTime = [1, 2, 840, 113549, 1, 9, 4] := ht
      exact absurd ht (by decide)
    · unfold valueOctets setAttr
      rw [if_pos rfl, encTLV_tlv 0 true 17 _ (by decide), Sm3.sum_eq]
      have e : Der.tlv 0x04 (Sm3Spec.sm3 data) = 0x04 :: 32 :: Sm3Spec.sm3 data := by
        have := small_tlv 0 false 4 (by decide) (Sm3Spec.sm3 data) (by rw [sm3_length]; decide)
        rw [encTLV_tlv 0 false 4 _ (by decide), sm3_length] at this
        exact this
      rw [e]
      rfl

/-- **C122** What `NewSignedDataCallBack` has signed: the callback is asked for nothing but signatures of attributes that
hold the digest of the data. -/
theorem C122_signs (now : Time) (cert : Certificate) (f f' : Bytes → Option Bytes) (data : Bytes) (hnow : ClockTime now)
    (h : ∀ m, AttributesFor data m → f m = f' m) :
    NewSignedDataCallBack now cert f data = NewSignedDataCallBack now cert f' data := by
  obtain ⟨al, m, h1, h2, h3⟩ := library_attributes hnow data
  unfold NewSignedDataCallBack getSignerInfo signWithCallback
  rw [h1]
  simp only [Res.ofOption, Res.bind_ok, h2, h m h3]

/-- **C122** What a verified message proves. If the owners of the keys sign nothing but the attributes of data from `D` (as
`NewSignedData` does), then for every signer of a message that `Verify` accepts, with the certificate `c` that the message has for
the signer: the content is from `D`, or it is another with the digest of one from `D` (a collision of SM3), or the signer
has no signed attributes and the content is itself the DER of attributes for data from `D` (the confusion of C60), or the
signature is forged: the key in `c` accepts it for octets that its owner has never signed. -/
theorem C122_content (env : Env) (H : StdHashes) (V : Verifiers) (data : Bytes) (p7 : PKCS7) (hp : ParsePKCS7 env data = .ok p7)
    (hv : p7.verify (initRegistry H) V = .ok ()) (Signed : PubKey → Bytes → Prop) (D : PubKey → Bytes → Prop)
    (honest : ∀ k m, Signed k m → ∃ d, D k d ∧ AttributesFor d m) :
    ∀ s ∈ p7.signers, ∃ c, SignerCert p7.certificates s c ∧
      (D c.publicKey p7.content ∨
       (∃ d, D c.publicKey d ∧ d ≠ p7.content ∧ Sm3Spec.sm3 d = Sm3Spec.sm3 p7.content) ∨
       (s.authenticatedAttributes.getD [] = [] ∧ Signed c.publicKey p7.content ∧ ∃ d, D c.publicKey d ∧ AttributesFor d p7.content) ∨
       ∃ m, SignedMessage p7.content s m ∧ ¬ Signed c.publicKey m ∧
         SigAccepted (lastRegistered (initCalls H)) V SM2WithSM3 m s.encryptedDigest c.publicKey) := by
  intro s hs
  obtain ⟨m, c, h1, h2, h3⟩ := ((C57_parsed_verify_iff env H V data p7 hp).mp hv).2 s hs
  refine ⟨c, h2, ?_⟩
  by_cases hsig : Signed c.publicKey m
  · obtain ⟨d, hd, hm⟩ := honest _ _ hsig
    rcases signedMessage_content (parsed_attrs hp s hs) h1 hm with g | ⟨g1, g2⟩ | ⟨g1, g2⟩
    · exact Or.inl (g ▸ hd)
    · exact Or.inr (Or.inl ⟨d, hd, fun h => g1 h.symm, g2.symm⟩)
    · exact Or.inr (Or.inr (Or.inl ⟨g1, g2 ▸ hsig, d, hd, g2 ▸ hm⟩))
  · exact Or.inr (Or.inr (Or.inr ⟨m, h1, hsig, h3⟩))

/-- **C122** The whole check of a message: `Verify` accepts it, the certificate of its only signer is the beginning of a chain
that `CheckSignatureFrom` accepts link by link up to the root. Then the signer's certificate is authentic and the content is
from `D`, up to a collision of SM3 and the confusion of C60; or a signature in the chain, or the signature in the message, is forged
under the key of an authentic certificate. -/
theorem C122_trust (env : Env) (H : StdHashes) (V : Verifiers) (data : Bytes) (p7 : PKCS7) (hp : ParsePKCS7 env data = .ok p7)
    (hv : p7.verify (initRegistry H) V = .ok ()) (leaf root : Certificate) (hleaf : p7.getOnlySigner = .ok (some leaf))
    (l : List Certificate)
    (hchain : List.IsChain (fun c p => c.checkSignatureFrom (initRegistry H) V p = .ok ()) (leaf :: l ++ [root]))
    (Signed : PubKey → Bytes → Prop) (D : PubKey → Bytes → Prop)
    (honest : ∀ m, Signed leaf.publicKey m → ∃ d, D leaf.publicKey d ∧ AttributesFor d m) :
    (Authentic Signed root leaf ∧
      (D leaf.publicKey p7.content ∨
       (∃ d, D leaf.publicKey d ∧ d ≠ p7.content ∧ Sm3Spec.sm3 d = Sm3Spec.sm3 p7.content) ∨
       (Signed leaf.publicKey p7.content ∧ ∃ d, D leaf.publicKey d ∧ AttributesFor d p7.content))) ∨
    (∃ p ∈ l ++ [root], ∃ c ∈ leaf :: l, Authentic Signed root p ∧ ¬ Signed p.publicKey c.rawTBSCertificate ∧
      SigAccepted (lastRegistered (initCalls H)) V c.signatureAlgorithm c.rawTBSCertificate c.signature p.publicKey) ∨
    ∃ s m, p7.signers = [s] ∧ SignedMessage p7.content s m ∧ Authentic Signed root leaf ∧ ¬ Signed leaf.publicKey m ∧
      SigAccepted (lastRegistered (initCalls H)) V SM2WithSM3 m s.encryptedDigest leaf.publicKey := by
  rcases C116_forgery (initCalls H) (initRegistry H) (initRegistry_ok H) (by rw [lastRegistered_init]; simp) V Signed root l leaf hchain with
    hauth | ⟨p, gp, c, gc, g1, g2, g3⟩
  · obtain ⟨s, hs, hcert⟩ := (C78_only_signer_iff env data p7 hp leaf).mp hleaf
    obtain ⟨m, c, h1, h2, h3⟩ := ((C57_parsed_verify_iff env H V data p7 hp).mp hv).2 s (by simp [hs])
    have hser : ∀ c ∈ p7.certificates, c.serialNumber ≠ none := parsed_serials hp
    have e : c = leaf := by
      have k1 := (getCert_iff _ _ hser s rfl c).mpr h2
      have k2 := (getCert_iff _ _ hser s rfl leaf).mpr hcert
      rw [k1] at k2
      simpa using k2
    subst e
    by_cases hsig : Signed c.publicKey m
    · refine Or.inl ⟨hauth, ?_⟩
      obtain ⟨d, hd, hm⟩ := honest _ hsig
      rcases signedMessage_content (parsed_attrs hp s (by simp [hs])) h1 hm with g | ⟨g1, g2⟩ | ⟨g1, g2⟩
      · exact Or.inl (g ▸ hd)
      · exact Or.inr (Or.inl ⟨d, hd, fun h => g1 h.symm, g2.symm⟩)
      · exact Or.inr (Or.inr ⟨g2 ▸ hsig, d, hd, g2 ▸ hm⟩)
    · exact Or.inr (Or.inr ⟨s, m, hs, h1, hauth, hsig, h3⟩)
  · exact Or.inr (Or.inl ⟨p, gp, c, gc, g1, g2, g3⟩)

/-- **C122** Conversely, a message that is made with a certificate that a CA of a hierarchy has issued, and with signatures
that its key accepts, is accepted, its only signer is that certificate, and the certificate follows that of the CA, which
follows that of its CA, up to the root. -/
theorem C122_accepted (env : Env) (H : StdHashes) (V : Verifiers) (sha1 : Bytes → Bytes) (p : Certificate) (pk : Signer)
    (rest : List (Certificate × Signer)) (hh : Hierarchy env ⟨initRegistry H, V, sha1⟩ ((p, pk) :: rest)) (t : Certificate) (pub : PubKey)
    (c : Certificate) (hi : Issues env ⟨initRegistry H, V, sha1⟩ p pk t pub c) (now : Time) (f : Bytes → Option Bytes) (data out : Bytes)
    (hf : ∀ m sig, f m = some sig → SigAccepted (lastRegistered (initCalls H)) V SM2WithSM3 m sig c.publicKey)
    (h : NewSignedDataCallBack now c f data = .ok out) (hl : out.length < 2 ^ 31) :
    ∃ p7, ParsePKCS7 env out = .ok p7 ∧ p7.content = data ∧ p7.verify (initRegistry H) V = .ok () ∧ p7.getOnlySigner = .ok (some c) ∧
      List.IsChain (fun c p => c.checkSignatureFrom (initRegistry H) V p = .ok ()) (c :: p :: rest.map (·.1)) := by
  obtain ⟨der, h1, h2, h3⟩ := hi.made
  have hraw : c.raw = der := ((ParseCertificate_iff env der c).mp h3).2
  obtain ⟨p7, g1, g2, -, g3, g4⟩ := C58_callback env H V now c f data out (hraw ▸ h3) (hraw ▸ h2) hf h hl
  refine ⟨p7, g1, g2, g4, g3, ?_⟩
  have hc := (C116_hierarchy env _ _ hh).1
  have hfol := C116_leaf env _ p pk rest hh t pub c hi
  simp only [List.map_cons] at hc
  have : List.IsChain (Follows ⟨initRegistry H, V, sha1⟩) (c :: p :: rest.map (·.1)) := List.isChain_cons_cons.mpr ⟨hfol, hc⟩
  exact this.imp fun a b hab => hab.1

/-! ### The hypotheses are met: the signed message of `Pkcs7Ex` -/

theorem p7M_for : AttributesFor [97] p7M := by
  obtain ⟨al, m, h1, h2, h3⟩ := library_attributes p7Now_clock [97]
  rw [p7Attrs_ok] at h1
  obtain rfl := Option.some.inj h1
  rw [p7M_ok] at h2
  obtain rfl := Option.some.inj h2
  exact h3

/-- Verifiers that accept every ECDSA signature, and a root with an ECDSA key: the certificate of the example follows the root. -/
def p7RootV : Verifiers := { p7V with ecdsaASN1 := fun _ _ _ => true }
def p7Root : Certificate := { version := 1, publicKeyAlgorithm := 3, publicKey := .ecdsa ⟨.other 256, 1, 2⟩ }

example : ∃ p7 leaf, ParsePKCS7 p7Env p7Out = .ok p7 ∧ p7.verify (initRegistry p7Hashes) p7RootV = .ok () ∧
    p7.getOnlySigner = .ok (some leaf) ∧
    List.IsChain (fun c p => c.checkSignatureFrom (initRegistry p7Hashes) p7RootV p = .ok ()) (leaf :: [] ++ [p7Root]) ∧
    ∀ m, m = p7M → ∃ d, d = [97] ∧ AttributesFor d m := by
  obtain ⟨p7, s, h1, h2, h3, h4, h5, h6⟩ := p7Out_verifies_any p7RootV
  refine ⟨p7, p7Cert, h1, h5, h6, ?_, fun m hm => ⟨_, rfl, hm ▸ p7M_for⟩⟩
  simp only [List.cons_append, List.nil_append, List.isChain_cons_cons, List.isChain_singleton, and_true]
  have ha : p7Cert.signatureAlgorithm = SM2WithSM3 := by decide +kernel
  refine (C42_checkSignatureFrom_iff (initCalls p7Hashes) _ (initRegistry_ok p7Hashes) (by rw [lastRegistered_init]; simp) _ _ _).1.mpr
    ⟨⟨by decide, by decide, fun h => absurd rfl h⟩, by decide, ?_⟩
  rw [ha]
  unfold SigAccepted
  exact ⟨.ec, hSM3, Sm3.sum, by decide, by rw [lastRegistered_init]; rfl, rfl⟩

end MCrypto.Props
