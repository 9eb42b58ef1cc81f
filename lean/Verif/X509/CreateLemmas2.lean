import Verif.X509.CreateLemmas
import Verif.X509.CreateSpec
/-
The octets of a certificate as CreateCertificate writes them: keys, extensions, and the whole.
-/
namespace MCrypto.X509
open MCrypto MCrypto.Asn1 MCrypto.X509Spec MCrypto.Props

theorem algId_parts {a : AlgId} {body : Bytes} (h : algId.enc a = some body) :
    ∃ oe par, body = oe ++ par ∧ marshalField oid {} a.algorithm = some oe ∧
      marshalRaw { opt := some {} } a.parameters = some par := by
  simp only [algId, Option.pure_def, Option.bind_eq_bind, Option.bind_eq_some_iff, Option.some.injEq] at h
  obtain ⟨oe, h1, par, h2, rfl⟩ := h
  exact ⟨oe, par, rfl, h1, h2⟩

theorem bigInt_elem {n : Int} {e : Bytes} (h : marshalField bigInt {} n = some e) (hl : e.length < 2 ^ 31) :
    Elem 0x02 (Der.encInt n) e := by
  obtain ⟨body, hb, ht⟩ := marshal_tlv _ _ _ h
  have : body = Der.encInt n := by simp only [bigInt, Option.some.injEq] at hb; exact hb.symm
  subst this
  exact elem_of ht (by decide) hl

theorem goInt_elem {n : Int} {e : Bytes} (h : marshalField goInt {} n = some e) (hl : e.length < 2 ^ 31) :
    Elem 0x02 (Der.encInt n) e := by
  obtain ⟨body, hb, ht⟩ := marshal_tlv _ _ _ h
  have : body = Der.encInt n := by simp only [goInt, Option.some.injEq] at hb; exact hb.symm
  subst this
  exact elem_of ht (by decide) hl

theorem ec_key {k : Sm2.PublicKey} {pb : Bytes} {alg : AlgId} (hk : OnCurve k) (hm : marshalECPub k = .ok (pb, alg)) :
    alg.algorithm = oidPublicKeyECDSA ∧ ∃ ob, alg.parameters = { full := Der.tlv 0x06 ob } ∧ ob.length ≤ 8 ∧
      KeyDer oidPublicKeyECDSA (Der.tlv 0x06 ob) pb (ecPubKey k) := by
  obtain ⟨c, hc, hon⟩ := hk
  obtain ⟨f1, f2⟩ := onCurve_fits hc hon
  obtain ⟨o, ho, hok⟩ := oid_of_params hc
  obtain ⟨ob, he, hobl, _, _⟩ := curveOid_enc ho
  unfold marshalECPub at hm
  rw [ho, hc] at hm
  simp only [ellipticMarshal_ok f1 f2, marshal_oid he, Res.ofOption, Res.bind_ok, Res.pure_eq, Res.ok.injEq,
    Prod.mk.injEq] at hm
  obtain ⟨rfl, rfl⟩ := hm
  refine ⟨rfl, ob, rfl, hobl, ?_⟩
  unfold KeyDer
  rw [if_neg (by decide), if_neg (by decide), if_pos (by decide)]
  refine ⟨Der.tlv 0x06 ob, [], o, k.curve, c, k.x, k.y, by rw [List.append_nil], ?_, ?_, hc, rfl, hon, rfl⟩
  · exact ⟨ob, ⟨rfl, by decide, by omega⟩, hok, he⟩
  · exact (curveOid_iff _ _).mp ((oidFromNamedCurve_iff _ _).mp ho)

theorem rsa_key {k : RsaPub} {pb : Bytes} (h : 0 < k.n ∧ 0 < k.e ∧ k.e < 2 ^ 63) (hm : marshal pkcs1Pub k = some pb)
    (hl : pb.length < 2 ^ 31) : KeyDer oidPublicKeyRSA [5, 0] pb (.rsa k) := by
  obtain ⟨body, hb, ht⟩ := marshal_tlv _ _ _ hm
  have hel : Elem 0x30 body pb := elem_of ht (by decide) hl
  have hbl := tlv_body_lt hel
  simp only [pkcs1Pub, Option.pure_def, Option.bind_eq_bind, Option.bind_eq_some_iff, Option.some.injEq] at hb
  obtain ⟨e1, h1, e2, h2, rfl⟩ := hb
  rw [List.length_append] at hbl
  unfold KeyDer
  rw [if_pos (by decide)]
  exact ⟨rfl, pb, e1, e2, [], [], k.n, k.e, by rw [List.append_nil], by rw [List.append_nil]; exact hel,
    bigInt_elem h1 (by omega), goInt_elem h2 (by omega), h.1, h.2.1, h.2.2, rfl⟩

/-- A marshalled public key. -/
theorem spki_der {pub : PubKey} {pb : Bytes} {alg : AlgId} {e : Bytes} (hk : KeyOk pub)
    (hm : marshalPublicKey pub = .ok (pb, alg)) (he : marshalField spki {} ⟨alg, ⟨pb, pb.length * 8⟩⟩ = some e)
    (hl : e.length < 2 ^ 31) :
    ∃ par, SpkiDer e alg.algorithm par pb ∧ KeyDer alg.algorithm par pb (sameKey pub) := by
  obtain ⟨body, hb, ht⟩ := marshal_tlv _ _ _ he
  have hel : Elem 0x30 body e := elem_of ht (by decide) hl
  have hbl := tlv_body_lt hel
  simp only [spki, Option.pure_def, Option.bind_eq_bind, Option.bind_eq_some_iff, Option.some.injEq] at hb
  obtain ⟨e1, h1, e2, h2, rfl⟩ := hb
  rw [List.length_append] at hbl
  obtain ⟨ab, hab, hat⟩ := marshal_tlv _ _ _ h1
  have hel1 : Elem 0x30 ab e1 := elem_of hat (by decide) (by omega)
  have habl := tlv_body_lt hel1
  obtain ⟨oe, par, rfl, ho, hp⟩ := algId_parts hab
  rw [List.length_append] at habl
  have hbits := bits_elem h2 (by omega)
  have hpbl : pb.length < 2 ^ 31 := by
    obtain ⟨pad, bytes, hx, -, -, -, hlen, -⟩ := hbits
    have := tlv_body_lt hx
    simp only [List.length_cons] at this
    omega
  have fin : OidOk alg.algorithm → ((par = [] ∧ ([] : Bytes) = []) ∨ ∃ tag b, Elem tag b par) →
      SpkiDer e alg.algorithm par pb := by
    intro h3 h4
    exact ⟨e1, oe ++ par, e2, [], by rw [List.append_nil]; exact hel, hel1,
      ⟨oe, [], by rw [List.append_nil], oidElem_of h3 ho (by omega), h4⟩, hbits⟩
  have ec : ∀ k, OnCurve k → marshalECPub k = .ok (pb, alg) →
      ∃ par, SpkiDer e alg.algorithm par pb ∧ KeyDer alg.algorithm par pb (ecPubKey k) := by
    intro k hk hm
    obtain ⟨r1, ob, r2, r3, r4⟩ := ec_key hk hm
    have hne : Der.tlv 0x06 ob ≠ [] := by simp [Der.tlv]
    rw [r2, marshalRaw_full _ _ hne (by intro hh; injection hh with hh; injection hh with _ _ _ _ hh; exact hne hh.symm)] at hp
    injection hp with hp
    subst hp
    refine ⟨_, fin (by rw [r1]; exact ⟨_, _, _, rfl, by decide, by decide⟩) (Or.inr ⟨0x06, ob, rfl, by decide, by omega⟩), ?_⟩
    rw [r1]; exact r4
  cases pub with
  | rsa k =>
    simp only [marshalPublicKey, Res.bind_eq_ok, Res.pure_eq, Res.ok.injEq, Prod.mk.injEq] at hm
    obtain ⟨x, hx, rfl, rfl⟩ := hm
    have hx' : marshal pkcs1Pub k = some x := by
      cases hq : marshal pkcs1Pub k with
      | none => rw [hq] at hx; cases hx
      | some y => rw [hq] at hx; simp only [Res.ofOption, Res.ok.injEq] at hx; rw [hx]
    have : par = [5, 0] := by
      have h5 : marshalRaw { opt := some {} } nullRaw = some [5, 0] := by decide
      rw [h5] at hp; injection hp with hp; exact hp.symm
    subst this
    exact ⟨_, fin ⟨_, _, _, rfl, by decide, by decide⟩ (Or.inr ⟨0x05, [], by decide, by decide, by decide⟩),
      rsa_key hk hx' hpbl⟩
  | ecdsa k => exact ec k hk hm
  | sm2 k => exact ec k hk hm
  | ed25519 k =>
    simp only [marshalPublicKey, Res.ok.injEq, Prod.mk.injEq] at hm
    obtain ⟨rfl, rfl⟩ := hm
    have : par = [] := by
      have h5 : marshalRaw { opt := some {} } {} = some [] := by decide
      rw [h5] at hp; injection hp with hp; exact hp.symm
    subst this
    refine ⟨_, fin ⟨_, _, _, rfl, by decide, by decide⟩ (Or.inl ⟨rfl, rfl⟩), ?_⟩
    unfold KeyDer
    rw [if_neg (by decide), if_neg (by decide), if_neg (by decide), if_pos (by decide)]
    exact ⟨rfl, hk, rfl⟩
  | dsa k => cases hm
  | nil => cases hm
  | other k => cases hm

/-! ### Extensions -/

theorem ext_elem {x : Ext} {e : Bytes} (ho : OidOk x.id) (h : marshalField extension {} x = some e)
    (hl : e.length < 2 ^ 31) : ExtElem e x := by
  obtain ⟨body, hb, ht⟩ := marshal_tlv _ _ _ h
  have hel : Elem 0x30 body e := elem_of ht (by decide) hl
  have hbl := tlv_body_lt hel
  simp only [extension, Option.pure_def, Option.bind_eq_bind, Option.bind_eq_some_iff, Option.some.injEq] at hb
  obtain ⟨e1, h1, e2, h2, e3, h3, rfl⟩ := hb
  simp only [List.length_append] at hbl
  refine ⟨e1, e2, e3, [], by rw [List.append_nil]; exact hel, oidElem_of ho h1 (by omega), ?_, ?_⟩
  · cases hc : x.critical with
    | false =>
      rw [hc] at h2
      left
      refine ⟨?_, rfl⟩
      unfold marshalField at h2
      rw [if_pos rfl] at h2
      injection h2 with h2; exact h2.symm
    | true =>
      rw [hc] at h2
      right
      have : marshalField bool { opt := some false } true = some [1, 1, 255] := by decide
      rw [this] at h2; injection h2 with h2; subst h2
      exact ⟨by decide, by decide, by decide⟩
  · obtain ⟨b3, hb3, ht3⟩ := marshal_tlv _ _ _ h3
    have : b3 = x.value := by simp only [octets, Option.some.injEq] at hb3; exact hb3.symm
    subst this
    exact elem_of ht3 (by decide) (by omega)

theorem exts_concat {l : List Ext} {es : List Bytes} (ho : ∀ x ∈ l, OidOk x.id)
    (h : marshalElems (marshalField extension {}) l = some es) (hl : es.flatten.length < 2 ^ 31) :
    Concat ExtElem l es.flatten := by
  have := concat_of_marshal (E := ExtElem) (g := fun x => x) h hl (fun v hv e he hle => ext_elem (ho v hv) he hle)
  rwa [List.map_id'] at this

/-- The extensions of a certificate with their explicit tag. -/
theorem exts_field {l : List Ext} {e : Bytes} (ho : ∀ x ∈ l, OidOk x.id)
    (h : marshalField (nilable (seqOf extension)) { opt := some none, tag := some 3, explicit := true } (some l) = some e)
    (hl : e.length < 2 ^ 31) : ExtensionsDer 3 e l := by
  unfold marshalField at h
  rw [if_neg (by simp)] at h
  cases hb : (nilable (seqOf extension)).enc (some l) with
  | none => rw [hb] at h; cases h
  | some body =>
    rw [hb] at h
    simp only [if_true, Option.some.injEq] at h
    have he : e = Der.tlv 0xa3 (Der.tlv 0x30 body) := by
      rw [← h]; rfl
    have hel : Elem 0xa3 (Der.tlv 0x30 body) e := elem_of he (by decide) hl
    have hbl := tlv_body_lt hel
    have hel2 : Elem 0x30 body (Der.tlv 0x30 body) := elem_of rfl (by decide) (by omega)
    have hbl2 := tlv_body_lt hel2
    simp only [nilable, seqOf, Option.getD_some, Option.map_eq_some_iff] at hb
    obtain ⟨es, hes, rfl⟩ := hb
    unfold ExtensionsDer
    rw [if_neg (by decide)]
    have hh : ∀ t : Der.Tag, t ≠ 0xa3 → e.head? ≠ some t := by
      intro t ht
      have := head_elem (t := t) (r := []) hel
      rw [List.append_nil] at this
      rw [Ne, this]; exact Ne.symm ht
    refine ⟨e, e, Or.inl ⟨rfl, hh _ (by decide)⟩, Or.inl ⟨rfl, hh _ (by decide)⟩, ?_⟩
    rw [if_pos rfl]
    exact Or.inr ⟨e, _, _, [], [], by rw [List.append_nil], by rw [List.append_nil]; exact hel, hel2,
      exts_concat ho hes (by omega)⟩

end MCrypto.X509
