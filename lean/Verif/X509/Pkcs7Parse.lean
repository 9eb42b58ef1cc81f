import Verif.X509.Pkcs7Lemmas
import Verif.X509.CertParts
/-
What parsing guarantees about a PKCS#7 structure: sizes, numbers that are present.
-/
namespace MCrypto.X509
open MCrypto MCrypto.Asn1 MCrypto.Pkcs7Spec MCrypto.Props

/-- A parsed field is absent, or decoded from contents that are part of the input. -/
theorem parseField_dec {α : Type} {c : Codec α} {p : Params α} {b : Bytes} {v : α} {r : Bytes}
    (h : parseField c p b = some (v, r)) :
    (p.opt = some v ∧ r = b) ∨ ∃ body full, body.length < 2 ^ 31 ∧ body.length + r.length < b.length ∧
      c.dec body full = some v := by
  have habs : ∀ {b' : Bytes}, absent p b' = some (v, r) → p.opt = some v ∧ r = b' := by
    intro b' h
    unfold absent at h
    split at h
    · rename_i d hd
      simp only [Option.some.injEq, Prod.mk.injEq] at h
      rw [hd, h.1]; exact ⟨rfl, h.2.symm⟩
    · cases h
  have hbody : ∀ (t : Hdr) (s : Bytes), s.length < b.length → t.len < 2 ^ 31 → parseBody c p b t s = some (v, r) →
      (p.opt = some v ∧ r = b) ∨ ∃ body full, body.length < 2 ^ 31 ∧ body.length + r.length < b.length ∧
        c.dec body full = some v := by
    intro t s hs htl h
    unfold parseBody at h
    rcases ite_or h with h | ⟨_, h⟩
    · exact Or.inl (habs h)
    rcases ite_or h with h | ⟨hlen, h⟩
    · cases h
    simp only [] at h
    split at h
    · rename_i w hw
      simp only [Option.some.injEq, Prod.mk.injEq] at h
      obtain ⟨rfl, rfl⟩ := h
      refine Or.inr ⟨_, _, ?_, ?_, hw⟩
      · rw [List.length_take]; omega
      · rw [List.length_take, List.length_drop]; omega
    · cases h
  unfold parseField at h
  split at h
  · exact Or.inl (habs h)
  split at h
  · cases h
  · rename_i t s hp
    have hs := parseHdr_length _ hp
    have htl := ((parseHdr_iff _ _ _).mp hp).2.2.2
    split at h
    · split at h
      · cases h
      split at h
      · split at h
        · cases h
        split at h
        · cases h
        · rename_i t' s' hp'
          exact hbody t' s' (Nat.lt_trans (parseHdr_length _ hp') hs) ((parseHdr_iff _ _ _).mp hp').2.2.2 h
      · exact Or.inl (habs h)
    · exact hbody t s hs htl h

theorem parseElems_mem {α : Type} {pf : Bytes → Option (α × Bytes)} {k : Nat} {b : Bytes} {l : List α}
    (h : parseElems pf k b = some l) : ∀ v ∈ l, ∃ b' r, pf b' = some (v, r) := by
  induction k generalizing b l with
  | zero => simp only [parseElems, Option.some.injEq] at h; subst h; simp
  | succ k ih =>
    rw [parseElems] at h
    split at h
    · cases h
    rename_i v r hv
    split at h
    · cases h
    rename_i l' hl'
    simp only [Option.some.injEq] at h
    subst h
    intro w hw
    rcases List.mem_cons.mp hw with rfl | hw
    · exact ⟨_, _, hv⟩
    · exact ih hl' w hw

theorem seqOf_dec_mem {α : Type} [DecidableEq α] {c : Codec α} {b full : Bytes} {l : List α}
    (h : (seqOf c).dec b full = some l) : ∀ v ∈ l, ∃ b' full', b'.length < 2 ^ 31 ∧ c.dec b' full' = some v := by
  simp only [seqOf, parseSeqOf] at h
  split at h
  · cases h
  intro v hv
  obtain ⟨b', r, h'⟩ := parseElems_mem h v hv
  rcases parseField_dec h' with ⟨h, _⟩ | ⟨body, full, h1, _, h2⟩
  · cases h
  · exact ⟨body, full, h1, h2⟩

/-- Re-encoding a parsed attribute takes no more octets than it had. -/
theorem p7Attr_reencode {b : Bytes} {a : P7Attr} {r e : Bytes} (h : parseField p7Attr {} b = some (a, r))
    (he : AttrDer a e) : e.length + r.length ≤ b.length := by
  obtain ⟨body, rfl, hl, hd⟩ := (unmarshal_iff p7Attr (by decide) _ _ _).mp h
  simp only [p7Attr, Option.pure_def, Option.bind_eq_bind, Option.bind_eq_some_iff, Prod.exists, Option.some.injEq] at hd
  obtain ⟨o, r1, h1, v, r2, h2, rfl⟩ := hd
  obtain ⟨ob, rfl, hol, hdo⟩ := (unmarshal_iff oid (by decide) _ _ _).mp h1
  obtain ⟨cls, comp, tag, vb, rfl, rfl, _⟩ := (parseRaw_iff _ _ _).mp h2
  simp only [oid] at hdo
  obtain ⟨_, heo⟩ := (decOid_iff _ _).mp hdo
  obtain ⟨ob', ho', rfl⟩ := he
  simp only [] at ho'
  rw [heo] at ho'
  injection ho' with ho'
  subst ho'
  have hv : valueOctets (rawOf cls comp tag vb) = encTLV cls comp tag vb := by
    unfold valueOctets rawOf
    rw [if_neg (encTLV_ne_nil _ _ _ _)]
  simp only [hv, oid, p7Attr, encTLV_tlv 0 false 6 ob (by decide), encTLV_tlv 0 true 16 _ (show 16 < 31 by decide)]
  simp only [Bool.false_eq_true, if_false, if_true, Nat.zero_mul, Nat.zero_add]
  rw [List.length_append]
  have hmono : ∀ {x y : Bytes} (t : Der.Tag), x.length ≤ y.length → y.length < 2 ^ 31 →
      (Der.tlv t x).length ≤ (Der.tlv t y).length := by
    intro x y t h hy
    unfold Der.tlv Der.lenOctets
    have hb : byteLen x.length ≤ byteLen y.length := by
      rw [byteLen_le_iff]
      exact Nat.lt_of_le_of_lt h ((byteLen_le_iff _ _).mp (Nat.le_refl _))
    split <;> split <;> simp only [List.length_cons, List.length_append, toBytes_length, List.length_nil] <;> omega
  have := hmono (x := Der.tlv 6 ob ++ encTLV cls comp tag vb) (y := Der.tlv 6 ob ++ (encTLV cls comp tag vb ++ r2)) 0x30
    (by simp [List.length_append]) (by
      simp only [encTLV_tlv 0 false 6 ob (by decide), oid] at hl
      exact hl)
  exact Nat.add_le_add_right this _

theorem attrs_reencode {k : Nat} {b : Bytes} {l : List P7Attr} {ds : List Bytes}
    (h : parseElems (parseField p7Attr {}) k b = some l) (hd : List.Forall₂ AttrDer l ds) :
    ds.flatten.length ≤ b.length := by
  induction k generalizing b l ds with
  | zero =>
    simp only [parseElems, Option.some.injEq] at h
    subst h
    cases hd
    simp
  | succ k ih =>
    rw [parseElems] at h
    split at h
    · cases h
    rename_i v r hv
    split at h
    · cases h
    rename_i l' hl'
    simp only [Option.some.injEq] at h
    subst h
    cases hd with
    | cons h1 h2 =>
      have := p7Attr_reencode hv h1
      have := ih hl' h2
      rw [List.flatten_cons, List.length_append]
      omega

theorem attrSet_size {b full : Bytes} {l : List P7Attr} (h : (seqOf p7Attr).dec b full = some l) (hb : b.length < 2 ^ 31)
    {m : Bytes} (hm : AttrSetDer l m) : m.length < 2 ^ 63 := by
  simp only [seqOf, parseSeqOf] at h
  split at h
  · cases h
  obtain ⟨ds, es, h1, h2, _, rfl⟩ := hm
  have h3 := attrs_reencode h h1
  have h4 : es.flatten.length = ds.flatten.length := h2.flatten.length_eq
  have h5 : byteLen es.flatten.length ≤ 4 := byteLen_le_four (by omega)
  unfold Der.tlv Der.lenOctets
  split <;> simp only [List.length_cons, List.length_append, toBytes_length, List.length_nil] <;> omega

/-- Sizes and numbers of a parsed signer. -/
theorem signerInfo_dec {b full : Bytes} {s : SignerInfo} (h : signerInfo.dec b full = some s) :
    s.issuerAndSerialNumber.serialNumber ≠ none ∧
      ∀ m, AttrSetDer (s.authenticatedAttributes.getD []) m → m.length < 2 ^ 63 := by
  simp only [signerInfo, Option.pure_def, Option.bind_eq_bind, Option.bind_eq_some_iff, Prod.exists, Option.some.injEq] at h
  obtain ⟨v, r1, h1, i, r2, h2, d, r3, h3, a, r4, h4, e, r5, h5, sg, r6, h6, u, r7, h7, rfl⟩ := h
  simp only []
  constructor
  · obtain ⟨body, _, _, hd⟩ := (unmarshal_iff issuerAndSerial (by decide) _ _ _).mp h2
    simp only [issuerAndSerial, Option.pure_def, Option.bind_eq_bind, Option.bind_eq_some_iff, Prod.exists,
      Option.some.injEq] at hd
    obtain ⟨_, _, _, n, _, hn, rfl⟩ := hd
    simp only []
    obtain ⟨body, _, _, hd⟩ := (unmarshal_iff optInt (by decide) _ _ _).mp hn
    simp only [optInt, Option.map_eq_some_iff] at hd
    obtain ⟨x, _, rfl⟩ := hd
    simp
  · intro m hm
    rcases parseField_dec h4 with ⟨h, _⟩ | ⟨body, full, hl, _, hd⟩
    · simp only [Option.some.injEq] at h
      subst h
      obtain ⟨ds, es, h1, h2, _, rfl⟩ := hm
      simp only [Option.getD_none, List.forall₂_nil_left_iff] at h1
      subst h1
      rw [List.perm_nil.mp h2]
      simp only [List.flatten_nil]
      decide
    · simp only [nilable, Option.map_eq_some_iff] at hd
      obtain ⟨l, hd, rfl⟩ := hd
      exact attrSet_size hd hl hm

theorem signedDataFields_signers (b : Bytes) : (signedDataFields b).1.signerInfos = [] ∨
    ∃ body full, (seqOf signerInfo).dec body full = some (signedDataFields b).1.signerInfos := by
  unfold signedDataFields
  split
  · exact Or.inl rfl
  split
  · exact Or.inl rfl
  split
  · exact Or.inl rfl
  split
  · exact Or.inl rfl
  split
  · exact Or.inl rfl
  split
  · exact Or.inl rfl
  · rename_i s r hs
    rcases parseField_dec hs with ⟨h, _⟩ | ⟨body, full, _, _, hd⟩
    · cases h
    · exact Or.inr ⟨body, full, hd⟩

theorem unmarshalSignedData_signers (b : Bytes) : ∀ s ∈ (unmarshalSignedData b).signerInfos,
    s.issuerAndSerialNumber.serialNumber ≠ none ∧
      ∀ m, AttrSetDer (s.authenticatedAttributes.getD []) m → m.length < 2 ^ 63 := by
  unfold unmarshalSignedData
  split
  · rename_i sd r h
    obtain ⟨body, _, _, hd⟩ := (unmarshal_iff signedData (by decide) _ _ _).mp h
    simp only [signedData, Option.some.injEq] at hd
    subst hd
    intro s hs
    rcases signedDataFields_signers body with h | ⟨b', f', h⟩
    · rw [h] at hs; cases hs
    · obtain ⟨b2, f2, _, h2⟩ := seqOf_dec_mem h s hs
      exact signerInfo_dec h2
  · simp

/-- What `ParsePKCS7` guarantees. -/
theorem parsePKCS7_wf {env : Env} {data : Bytes} {p7 : PKCS7} (h : ParsePKCS7 env data = .ok p7) :
    (∀ c ∈ p7.certificates, ∃ d, ParseCertificate env d = .ok c) ∧
    ∀ s ∈ p7.signers, s.issuerAndSerialNumber.serialNumber ≠ none ∧
      ∀ m, AttrSetDer (s.authenticatedAttributes.getD []) m → m.length < 2 ^ 63 := by
  unfold ParsePKCS7 at h
  split at h
  · cases h
  split at h
  · cases h
  split at h
  · cases h
  split at h
  · simp only [parseSignedData, Res.bind_eq_ok, Res.pure_eq, Res.ok.injEq] at h
    obtain ⟨certs, h1, content, h2, rfl⟩ := h
    refine ⟨?_, unmarshalSignedData_signers _⟩
    simp only []
    unfold parseRawCertificates at h1
    split at h1
    · simp only [Res.ok.injEq] at h1; subst h1; simp
    split at h1
    · cases h1
    · exact parseCertificates_mem h1
  · cases h

end MCrypto.X509
