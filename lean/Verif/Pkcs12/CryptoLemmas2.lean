import Verif.Pkcs12.CryptoLemmas
/-
`pbEncrypt` and `pbDecrypt` in terms of the specification.
-/
namespace MCrypto.P12
open MCrypto Asn1

theorem cryptBlocks_enc {blk : Block} {E D : Bytes → Bytes} (h : Realises blk E D) (iv m : Bytes)
    (hiv : iv.length = 8) (hm : m.length % 8 = 0) :
    cryptBlocks (cbcEnc blk) iv m = .ok (P12Spec.cbc E iv m) := by
  rw [cryptBlocks, if_neg (by omega), if_neg (by omega), cbcEnc_spec h _ _ _ hiv (by omega)]
  rfl

theorem cbc_length {blk : Block} {E D : Bytes → Bytes} (h : Realises blk E D) (iv m : Bytes)
    (hiv : iv.length = 8) (hm : m.length % 8 = 0) : (P12Spec.cbc E iv m).length = m.length := by
  obtain ⟨c, hc, hl⟩ := cbcEnc_ok h (m.length / 8) iv m hiv (by omega)
  rw [cbcEnc_spec h _ _ _ hiv (by omega)] at hc
  injection hc with hc
  rw [P12Spec.cbc, hc, hl]; omega

theorem cryptBlocks_dec_cbc {blk : Block} {E D : Bytes → Bytes} (h : Realises blk E D) (iv m : Bytes)
    (hiv : iv.length = 8) (hm : m.length % 8 = 0) :
    cryptBlocks (cbcDec blk) iv (P12Spec.cbc E iv m) = .ok m := by
  have hl := cbc_length h iv m hiv hm
  rw [cryptBlocks, if_neg (by omega), if_neg (by omega), hl]
  exact cbcDec_cbcEnc h _ _ _ _ hiv (by omega) (cbcEnc_spec h _ _ _ hiv (by omega))

theorem cryptBlocks_dec {blk : Block} {E D : Bytes → Bytes} (h : Realises blk E D) (iv c : Bytes)
    (hiv : iv.length = 8) (hc : c.length % 8 = 0) :
    ∃ m, cryptBlocks (cbcDec blk) iv c = .ok m ∧ m.length = c.length ∧ c = P12Spec.cbc E iv m := by
  obtain ⟨m, hm, hl, he⟩ := cbcDec_ok h (c.length / 8) iv c hiv (by omega)
  have hml : m.length = c.length := by omega
  refine ⟨m, ?_, hml, ?_⟩
  · rw [cryptBlocks, if_neg (by omega), if_neg (by omega), hm]
  · rw [cbcEnc_spec h _ _ _ hiv (by omega)] at he
    injection he with he
    rw [← he, P12Spec.cbc, hml]

theorem getLastD_append_replicate (m : Bytes) (k : Nat) (x : UInt8) (hk : 1 ≤ k) :
    (m ++ List.replicate k x).getLastD 0 = x := by
  obtain ⟨k, rfl⟩ := Nat.exists_eq_add_of_le' hk
  rw [List.replicate_succ', ← List.append_assoc, List.getLastD_concat]

theorem pad_toNat {k : Nat} (hk : k ≤ 8) : (UInt8.ofNat k).toNat = k := by
  rw [UInt8.toNat_ofNat']; omega

/-- Removing the padding accepts exactly the padded texts. -/
def unpad (d : Bytes) : Res Bytes :=
  let psLen := (d.getLastD 0).toNat
  if psLen = 0 ∨ psLen > 8 then .err "ErrDecryption"
  else if d.length < psLen then .err "ErrDecryption"
  else
    let ps := d.drop (d.length - psLen)
    let m := d.take (d.length - psLen)
    if ps ≠ List.replicate psLen (UInt8.ofNat psLen) then .err "ErrDecryption" else .ok m

theorem unpad_iff (d m : Bytes) :
    unpad d = .ok m ↔ ∃ k, 1 ≤ k ∧ k ≤ 8 ∧ d = m ++ List.replicate k (UInt8.ofNat k) := by
  constructor
  · intro h
    unfold unpad at h
    simp only [] at h
    split at h
    · cases h
    · split at h
      · cases h
      · split at h
        · cases h
        · rename_i h1 h2 h3
          injection h with h
          refine ⟨(d.getLastD 0).toNat, by omega, by omega, ?_⟩
          rw [← h, ← Decidable.not_not.mp h3, List.take_append_drop]
  · rintro ⟨k, h1, h8, rfl⟩
    unfold unpad
    simp only [getLastD_append_replicate m k _ h1, pad_toNat h8]
    have hl : (m ++ List.replicate k (UInt8.ofNat k)).length - k = m.length := by simp
    rw [if_neg (by omega), if_neg (by simp), hl, List.drop_left, List.take_left, if_neg (by simp)]

theorem unpad_err (d : Bytes) (h : ∀ m, unpad d ≠ .ok m) : unpad d = .err "ErrDecryption" := by
  unfold unpad at h ⊢
  simp only [] at h ⊢
  split
  · rfl
  · split
    · rfl
    · split
      · rfl
      · rename_i h1 h2 h3
        rw [if_neg h1, if_neg h2, if_neg h3] at h
        exact absurd rfl (h _)

/-- What `pbDecrypt` does once the parameters have been read. -/
theorem pbDecrypt_eq (P : Prims) (alg : AlgId) (data pw : Bytes) (blk : Block) (iv : Bytes)
    (hc : pbeCipherFor P alg pw = .ok (blk, iv)) :
    pbDecrypt P alg data pw =
      if data.length = 0 then .err "go-pkcs12: empty encrypted data"
      else if data.length % 8 ≠ 0 then .err "go-pkcs12: input is not a multiple of the block size"
      else cryptBlocks (cbcDec blk) iv data >>= unpad := by
  unfold pbDecrypt
  rw [hc, Res.bind_ok]
  rfl

theorem pbDecrypt_iff (P : Prims) (t : CipherType) (alg : AlgId) (data pw : Bytes) (ps : PbeParams)
    (ha : alg.algorithm = t.oid) (hp : unmarshalAll pbeParams alg.parameters.full = .ok ps) (m : Bytes) :
    pbDecrypt P alg data pw = .ok m ↔
      P12Spec.Encrypts (specE P t ps.salt pw ps.iterations) (P12Spec.iv P ps.salt pw ps.iterations) m data := by
  obtain ⟨blk, D, hc, hr⟩ := pbeCipherFor_ok P t alg pw ps ha hp
  have hiv := iv_length P ps.salt pw ps.iterations
  rw [pbDecrypt_eq P alg data pw blk _ hc]
  constructor
  · intro h
    split at h
    · cases h
    · split at h
      · cases h
      · rename_i h0 h8
        obtain ⟨d, hd, hdl, hdc⟩ := cryptBlocks_dec hr _ data hiv (by omega)
        rw [hd, Res.bind_ok, unpad_iff] at h
        obtain ⟨k, hk1, hk8, hk⟩ := h
        refine ⟨k, hk1, hk8, ?_, ?_⟩
        · have := congrArg List.length hk
          rw [List.length_append, List.length_replicate] at this
          omega
        · rw [← hk]; exact hdc
  · rintro ⟨k, hk1, hk8, hkl, rfl⟩
    have hml : (m ++ List.replicate k (UInt8.ofNat k)).length = m.length + k := by simp
    have hcl := cbc_length hr _ (m ++ List.replicate k (UInt8.ofNat k)) hiv (by omega)
    rw [if_neg (by omega), if_neg (by omega), cryptBlocks_dec_cbc hr _ _ hiv (by omega), Res.bind_ok]
    exact (unpad_iff _ _).mpr ⟨k, hk1, hk8, rfl⟩

theorem pbEncrypt_ok (P : Prims) (t : CipherType) (alg : AlgId) (m pw : Bytes) (ps : PbeParams)
    (ha : alg.algorithm = t.oid) (hp : unmarshalAll pbeParams alg.parameters.full = .ok ps) :
    ∃ c, pbEncrypt P alg m pw = .ok c ∧ c.length = m.length + (8 - m.length % 8) ∧
      P12Spec.Encrypts (specE P t ps.salt pw ps.iterations) (P12Spec.iv P ps.salt pw ps.iterations) m c := by
  obtain ⟨blk, D, hc, hr⟩ := pbeCipherFor_ok P t alg pw ps ha hp
  have hiv := iv_length P ps.salt pw ps.iterations
  have hml : (m ++ List.replicate (8 - m.length % 8) (UInt8.ofNat (8 - m.length % 8))).length =
      m.length + (8 - m.length % 8) := by simp
  refine ⟨_, ?_, ?_, 8 - m.length % 8, by omega, by omega, by omega, rfl⟩
  · unfold pbEncrypt
    rw [hc, Res.bind_ok]
    exact cryptBlocks_enc hr _ _ hiv (by omega)
  · rw [cbc_length hr _ _ hiv (by omega), hml]

theorem pbEncrypt_cases (P : Prims) (alg : AlgId) (m pw c : Bytes) (h : pbEncrypt P alg m pw = .ok c) :
    ∃ t ps, alg.algorithm = CipherType.oid t ∧ unmarshalAll pbeParams alg.parameters.full = .ok ps := by
  rcases pbeCipherFor_cases P alg pw with ⟨e, he⟩ | h'
  · unfold pbEncrypt at h; rw [he] at h; cases h
  · exact h'

/-! ### Parameters -/

theorem pbeParams_law (ps : PbeParams) (h1 : -(2 ^ 63 : Int) ≤ ps.iterations) (h2 : ps.iterations < 2 ^ 63)
    (hs : ps.salt.length < 2 ^ 30) : pbeParams.LawAt ps := by
  intro body full h
  obtain ⟨salt, n⟩ := ps
  simp only [pbeParams, Option.pure_def, Option.bind_eq_bind, Option.bind_eq_some_iff] at h ⊢
  obtain ⟨a, ha, b, hb, hab⟩ := h
  injection hab with hab
  subst hab
  have hal : a.length < 2 ^ 31 := by
    obtain ⟨body, hbody, rfl⟩ := marshal_tlv _ _ _ ha
    simp only [octets, Option.some.injEq] at hbody
    subst hbody
    simp only [] at hs
    have hll : ∀ n, n < 2 ^ 30 → (Der.lenOctets n).length ≤ 5 := by
      intro n hn
      unfold Der.lenOctets
      split
      · simp
      · have := (byteLen_le_iff n 4).mpr (by omega)
        simp; omega
    have := hll salt.length hs
    simp [encTLV, encHdr, octets]
    omega
  have hbl : b.length < 2 ^ 31 := by
    obtain ⟨body, hbody, rfl⟩ := marshal_tlv _ _ _ hb
    simp only [goInt, Option.some.injEq] at hbody
    have := encInt_length_int64 n h1 h2
    rw [hbody] at this
    have h3 : (Der.lenOctets body.length).length = 1 := by
      unfold Der.lenOctets; rw [if_pos (by omega)]; rfl
    simp [encTLV, encHdr, goInt, h3]
    omega
  refine ⟨(salt, b), parseField_marshal octets {} salt a b (octets_law salt) ha (by simp) hal (by decide)
    (by simp) (by simp), (n, []), ?_, rfl⟩
  have := parseField_marshal goInt {} n b [] (goInt_law n h1 h2) hb (by simp) hbl (by decide) (by simp) (by simp)
  rwa [List.append_nil] at this

theorem marshal_pbeParams (ps : PbeParams) : ∃ e, marshal pbeParams ps = some e :=
  ⟨_, rfl⟩

theorem unmarshalAll_marshal {α : Type} [DecidableEq α] (c : Codec α) (v : α) (e : Bytes)
    (hlaw : c.LawAt v) (hm : marshal c v = some e) (hlen : e.length < 2 ^ 31) (hct : c.tag ≤ 2147483647) :
    unmarshalAll c e = .ok v := by
  have := unmarshal_marshal c v e [] hlaw hm hlen hct
  rw [List.append_nil] at this
  unfold unmarshalAll
  rw [this]; rfl

end MCrypto.P12
