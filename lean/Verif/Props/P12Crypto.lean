import Verif.Pkcs12.CryptoLemmas2
import Verif.Pkcs12.StdPrims
/-
Properties C32-C34: password-based encryption and the MAC of PKCS#12. `P` are the standard-library
primitives (SHA-1, Triple-DES), see Verif/Pkcs12/Prims.lean.
-/
namespace MCrypto.Props
open MCrypto Asn1 P12

/-! ### C32 Password-based encryption round-trips -/

/-- Whenever encryption succeeds, decryption with the same algorithm identifier and password returns the
message: every message, password, salt, iteration count and both algorithms. -/
theorem C32_pb_roundtrip (P : Prims) (alg : AlgId) (m pw c : Bytes) (h : pbEncrypt P alg m pw = .ok c) :
    pbDecrypt P alg c pw = .ok m := by
  obtain ⟨t, ps, ha, hp⟩ := pbEncrypt_cases P alg m pw c h
  obtain ⟨c', hc', _, he⟩ := pbEncrypt_ok P t alg m pw ps ha hp
  rw [h] at hc'
  injection hc' with hc'
  subst hc'
  exact (pbDecrypt_iff P t alg c pw ps ha hp m).mpr he

/-- Encryption with one of the two algorithm identifiers and marshalled parameters always succeeds, gives
1 to 8 bytes more, and is the standard's encryption of the message (`P12Spec.Encrypts`): CBC with the
RFC 7292 key and IV and the padding of 1..8 bytes. -/
theorem C32_pb_encrypt (P : Prims) (m pw salt params : Bytes) (n : Int) (hs : salt.length < 2 ^ 30)
    (h1 : -(2 ^ 63 : Int) ≤ n) (h2 : n < 2 ^ 63) (hpar : marshal pbeParams ⟨salt, n⟩ = some params) :
    (∃ c, pbEncrypt P ⟨[1, 2, 840, 113549, 1, 12, 1, 3], { full := params }⟩ m pw = .ok c ∧
      m.length < c.length ∧ c.length ≤ m.length + 8 ∧
      P12Spec.Encrypts (P12Spec.tdesE P salt pw n) (P12Spec.iv P salt pw n) m c ∧
      pbDecrypt P ⟨[1, 2, 840, 113549, 1, 12, 1, 3], { full := params }⟩ c pw = .ok m) ∧
    (∃ c, pbEncrypt P ⟨[1, 2, 840, 113549, 1, 12, 1, 6], { full := params }⟩ m pw = .ok c ∧
      m.length < c.length ∧ c.length ≤ m.length + 8 ∧
      P12Spec.Encrypts (P12Spec.rc2E P salt pw n) (P12Spec.iv P salt pw n) m c ∧
      pbDecrypt P ⟨[1, 2, 840, 113549, 1, 12, 1, 6], { full := params }⟩ c pw = .ok m) := by
  have hlaw := pbeParams_law ⟨salt, n⟩ h1 h2 hs
  have hlen : params.length < 2 ^ 31 := by
    obtain ⟨body, hb, rfl⟩ := marshal_tlv _ _ _ hpar
    have hbody : body = encTLV 0 false 4 salt ++ encTLV 0 false 2 (Der.encInt n) := by
      have : pbeParams.enc ⟨salt, n⟩ = some (encTLV 0 false 4 salt ++ encTLV 0 false 2 (Der.encInt n)) := rfl
      rw [this] at hb
      injection hb with hb
      exact hb.symm
    have i8 := encInt_length_int64 n h1 h2
    have l1 := encTLV_length_le 0 false 4 salt (by decide) (by omega)
    have l2 := encTLV_length_le 0 false 2 (Der.encInt n) (by decide) (by omega)
    have l3 : body.length < 2 ^ 30 + 20 := by rw [hbody, List.length_append]; omega
    have l4 := encTLV_length_le 0 true 16 body (by decide) (by omega)
    have : (encTLV 0 pbeParams.compound pbeParams.tag body).length = (encTLV 0 true 16 body).length := rfl
    omega
  have hu := unmarshalAll_marshal pbeParams _ params hlaw hpar hlen (by decide)
  constructor
  · obtain ⟨c, hc, hl, he⟩ := pbEncrypt_ok P .tdes ⟨[1, 2, 840, 113549, 1, 12, 1, 3], { full := params }⟩ m pw
      ⟨salt, n⟩ rfl hu
    exact ⟨c, hc, by omega, by omega, he, C32_pb_roundtrip P _ m pw c hc⟩
  · obtain ⟨c, hc, hl, he⟩ := pbEncrypt_ok P .rc2 ⟨[1, 2, 840, 113549, 1, 12, 1, 6], { full := params }⟩ m pw
      ⟨salt, n⟩ rfl hu
    exact ⟨c, hc, by omega, by omega, he, C32_pb_roundtrip P _ m pw c hc⟩

/-- Other algorithms are rejected by both directions. -/
theorem C32_pb_unsupported (P : Prims) (alg : AlgId) (m pw : Bytes)
    (h3 : alg.algorithm ≠ [1, 2, 840, 113549, 1, 12, 1, 3]) (h6 : alg.algorithm ≠ [1, 2, 840, 113549, 1, 12, 1, 6]) :
    pbEncrypt P alg m pw = .err "NotImplementedError" ∧ pbDecrypt P alg m pw = .err "NotImplementedError" := by
  have : pbeCipherFor P alg pw = .err "NotImplementedError" := by
    unfold pbeCipherFor cipherTypeFor
    rw [if_neg (by exact h3), if_neg (by exact h6)]; rfl
  unfold pbEncrypt pbDecrypt
  rw [this]
  exact ⟨rfl, rfl⟩

/-! ### C33 pbDecrypt accepts exactly well-padded ciphertexts and never panics -/

/-- No algorithm identifier, ciphertext or password makes it panic. -/
theorem C33_pbDecrypt_no_panic (P : Prims) (alg : AlgId) (data pw : Bytes) :
    pbDecrypt P alg data pw ≠ .panic := by
  intro hp
  rcases pbeCipherFor_cases P alg pw with ⟨e, he⟩ | ⟨t, ps, ha, hps⟩
  · unfold pbDecrypt at hp; rw [he] at hp; cases hp
  · obtain ⟨blk, D, hc, hr⟩ := pbeCipherFor_ok P t alg pw ps ha hps
    rw [pbDecrypt_eq P alg data pw blk _ hc] at hp
    split at hp
    · cases hp
    · split at hp
      · cases hp
      · obtain ⟨d, hd, _, _⟩ := cryptBlocks_dec hr _ data (iv_length P ps.salt pw ps.iterations) (by omega)
        rw [hd, Res.bind_ok] at hp
        by_cases hm : ∃ m, unpad d = .ok m
        · obtain ⟨m, hm⟩ := hm; rw [hm] at hp; cases hp
        · rw [unpad_err d (fun m h => hm ⟨m, h⟩)] at hp; cases hp

/-- With the Triple-DES (RC2) identifier and parameters that parse, `pbDecrypt` returns `m` exactly when
the data is the standard's encryption of `m` with padding of `k` bytes of value `k`, 1 ≤ k ≤ 8. -/
theorem C33_pbDecrypt_iff (P : Prims) (alg : AlgId) (data pw m : Bytes) (ps : PbeParams)
    (hp : unmarshalAll pbeParams alg.parameters.full = .ok ps) :
    (alg.algorithm = [1, 2, 840, 113549, 1, 12, 1, 3] →
      (pbDecrypt P alg data pw = .ok m ↔
        P12Spec.Encrypts (P12Spec.tdesE P ps.salt pw ps.iterations) (P12Spec.iv P ps.salt pw ps.iterations) m data)) ∧
    (alg.algorithm = [1, 2, 840, 113549, 1, 12, 1, 6] →
      (pbDecrypt P alg data pw = .ok m ↔
        P12Spec.Encrypts (P12Spec.rc2E P ps.salt pw ps.iterations) (P12Spec.iv P ps.salt pw ps.iterations) m data)) :=
  ⟨fun ha => pbDecrypt_iff P .tdes alg data pw ps ha hp m, fun ha => pbDecrypt_iff P .rc2 alg data pw ps ha hp m⟩

/-- The three ways to fail once the parameters have parsed: empty data, a length that is no multiple of 8,
and otherwise — there is then exactly one decrypted text `d`, the one whose CBC encryption is the data —
a text that does not end in `k` bytes of value `k`, 1 ≤ k ≤ 8. -/
theorem C33_pbDecrypt_errors (P : Prims) (alg : AlgId) (data pw : Bytes) (ps : PbeParams)
    (hp : unmarshalAll pbeParams alg.parameters.full = .ok ps)
    (ha : alg.algorithm = [1, 2, 840, 113549, 1, 12, 1, 3]) :
    (data = [] → pbDecrypt P alg data pw = .err "go-pkcs12: empty encrypted data") ∧
    (data.length % 8 ≠ 0 →
      pbDecrypt P alg data pw = .err "go-pkcs12: input is not a multiple of the block size") ∧
    (data ≠ [] → data.length % 8 = 0 →
      ∃ d, (∀ d', (d'.length % 8 = 0 ∧ data = P12Spec.cbc (P12Spec.tdesE P ps.salt pw ps.iterations)
            (P12Spec.iv P ps.salt pw ps.iterations) d') ↔ d' = d) ∧
        (∀ m, pbDecrypt P alg data pw = .ok m ↔
          ∃ k, 1 ≤ k ∧ k ≤ 8 ∧ d = m ++ List.replicate k (UInt8.ofNat k)) ∧
        ((¬ ∃ m k, 1 ≤ k ∧ k ≤ 8 ∧ d = m ++ List.replicate k (UInt8.ofNat k)) →
          pbDecrypt P alg data pw = .err "ErrDecryption")) := by
  obtain ⟨blk, D, hc, hr⟩ := pbeCipherFor_ok P .tdes alg pw ps ha hp
  have hiv := iv_length P ps.salt pw ps.iterations
  rw [pbDecrypt_eq P alg data pw blk _ hc]
  refine ⟨?_, ?_, ?_⟩
  · rintro rfl; rfl
  · intro h
    have h0 : ¬ data.length = 0 := by omega
    rw [if_neg h0, if_pos h]
  · intro hne h8
    have h0 : ¬ data.length = 0 := fun e => hne (List.eq_nil_of_length_eq_zero e)
    have h8' : ¬ data.length % 8 ≠ 0 := by omega
    rw [if_neg h0, if_neg h8']
    obtain ⟨d, hd, hdl, hdc⟩ := cryptBlocks_dec hr _ data hiv h8
    refine ⟨d, ?_, ?_, ?_⟩
    · intro d'
      constructor
      · rintro ⟨hl, rfl⟩
        have := cryptBlocks_dec_cbc hr _ d' hiv hl
        have e : Res.ok d = Res.ok d' := hd.symm.trans this
        injection e with e
        exact e.symm
      · rintro rfl
        exact ⟨by omega, hdc⟩
    · intro m
      rw [hd, Res.bind_ok, unpad_iff]
    · intro hno
      rw [hd, Res.bind_ok]
      refine unpad_err d fun m hm => hno ?_
      obtain ⟨k, hk⟩ := (unpad_iff d m).mp hm
      exact ⟨m, k, hk⟩

/-- The same for RC2. -/
theorem C33_pbDecrypt_errors_rc2 (P : Prims) (alg : AlgId) (data pw : Bytes) (ps : PbeParams)
    (hp : unmarshalAll pbeParams alg.parameters.full = .ok ps)
    (ha : alg.algorithm = [1, 2, 840, 113549, 1, 12, 1, 6]) :
    (data = [] → pbDecrypt P alg data pw = .err "go-pkcs12: empty encrypted data") ∧
    (data.length % 8 ≠ 0 →
      pbDecrypt P alg data pw = .err "go-pkcs12: input is not a multiple of the block size") ∧
    (data ≠ [] → data.length % 8 = 0 →
      ∃ d, (∀ d', (d'.length % 8 = 0 ∧ data = P12Spec.cbc (P12Spec.rc2E P ps.salt pw ps.iterations)
            (P12Spec.iv P ps.salt pw ps.iterations) d') ↔ d' = d) ∧
        (∀ m, pbDecrypt P alg data pw = .ok m ↔
          ∃ k, 1 ≤ k ∧ k ≤ 8 ∧ d = m ++ List.replicate k (UInt8.ofNat k)) ∧
        ((¬ ∃ m k, 1 ≤ k ∧ k ≤ 8 ∧ d = m ++ List.replicate k (UInt8.ofNat k)) →
          pbDecrypt P alg data pw = .err "ErrDecryption")) := by
  obtain ⟨blk, D, hc, hr⟩ := pbeCipherFor_ok P .rc2 alg pw ps ha hp
  have hiv := iv_length P ps.salt pw ps.iterations
  rw [pbDecrypt_eq P alg data pw blk _ hc]
  refine ⟨?_, ?_, ?_⟩
  · rintro rfl; rfl
  · intro h
    have h0 : ¬ data.length = 0 := by omega
    rw [if_neg h0, if_pos h]
  · intro hne h8
    have h0 : ¬ data.length = 0 := fun e => hne (List.eq_nil_of_length_eq_zero e)
    have h8' : ¬ data.length % 8 ≠ 0 := by omega
    rw [if_neg h0, if_neg h8']
    obtain ⟨d, hd, hdl, hdc⟩ := cryptBlocks_dec hr _ data hiv h8
    refine ⟨d, ?_, ?_, ?_⟩
    · intro d'
      constructor
      · rintro ⟨hl, rfl⟩
        have := cryptBlocks_dec_cbc hr _ d' hiv hl
        have e : Res.ok d = Res.ok d' := hd.symm.trans this
        injection e with e
        exact e.symm
      · rintro rfl
        exact ⟨by omega, hdc⟩
    · intro m
      rw [hd, Res.bind_ok, unpad_iff]
    · intro hno
      rw [hd, Res.bind_ok]
      refine unpad_err d fun m hm => hno ?_
      obtain ⟨k, hk⟩ := (unpad_iff d m).mp hm
      exact ⟨m, k, hk⟩

/-- Non-vacuity: parameters as OpenSSL writes them (8-byte salt, 2048 iterations) parse. -/
example : unmarshalAll pbeParams [0x30, 0x0e, 0x04, 0x08, 1, 2, 3, 4, 5, 6, 7, 8, 0x02, 0x02, 0x08, 0x00] =
    .ok ⟨[1, 2, 3, 4, 5, 6, 7, 8], 2048⟩ := by decide +kernel

/-! ### C34 The MAC -/

/-- `verifyMac` returns nil exactly when the algorithm is SHA-1 and the stored digest is the HMAC-SHA1 of
the message under the RFC 7292 key with ID 3; it never panics; the errors tell the two reasons apart. -/
theorem C34_verifyMac_iff (P : Prims) (md : MacData) (message pw : Bytes) :
    (verifyMac P md message pw = .ok () ↔
      md.mac.algorithm.algorithm = [1, 3, 14, 3, 2, 26] ∧
      md.mac.digest = P12Spec.mac P md.macSalt pw md.iterations message) ∧
    (verifyMac P md message pw = .err "NotImplementedError" ↔
      md.mac.algorithm.algorithm ≠ [1, 3, 14, 3, 2, 26]) ∧
    (verifyMac P md message pw = .err "ErrIncorrectPassword" ↔
      md.mac.algorithm.algorithm = [1, 3, 14, 3, 2, 26] ∧
      md.mac.digest ≠ P12Spec.mac P md.macSalt pw md.iterations message) ∧
    verifyMac P md message pw ≠ .panic := by
  unfold verifyMac
  have hm : macOf P md message pw = .ok (P12Spec.mac P md.macSalt pw md.iterations message) := by
    unfold macOf; rw [pbkdf_eq]; rfl
  rw [hm]
  show ((if md.mac.algorithm.algorithm ≠ [1, 3, 14, 3, 2, 26] then _ else _) = _ ↔ _) ∧ _
  by_cases h1 : md.mac.algorithm.algorithm = [1, 3, 14, 3, 2, 26]
  · by_cases h2 : md.mac.digest = P12Spec.mac P md.macSalt pw md.iterations message <;> simp [h1, h2, oidSHA1]
  · simp [h1, oidSHA1]

/-- `computeMac` succeeds for SHA-1, changes only the digest, stores the standard's MAC, and the result
verifies with the same password. -/
theorem C34_compute_verify (P : Prims) (md : MacData) (message pw : Bytes)
    (h : md.mac.algorithm.algorithm = [1, 3, 14, 3, 2, 26]) :
    ∃ md', computeMac P md message pw = .ok md' ∧
      md' = { md with mac := ⟨md.mac.algorithm, P12Spec.mac P md.macSalt pw md.iterations message⟩ } ∧
      verifyMac P md' message pw = .ok () := by
  have hm : macOf P md message pw = .ok (P12Spec.mac P md.macSalt pw md.iterations message) := by
    unfold macOf; rw [pbkdf_eq]; rfl
  refine ⟨_, ?_, rfl, ?_⟩
  · unfold computeMac
    rw [if_neg (by rw [h]; decide), hm]; rfl
  · rw [(C34_verifyMac_iff P _ message pw).1]
    exact ⟨h, rfl⟩

theorem C34_compute_other (P : Prims) (md : MacData) (message pw : Bytes)
    (h : md.mac.algorithm.algorithm ≠ [1, 3, 14, 3, 2, 26]) :
    computeMac P md message pw = .err "NotImplementedError" := by
  unfold computeMac; rw [if_pos (by exact h)]

/-! ### Concrete runs with the standard primitives, evaluated by the kernel -/

/-- Password "sesame" as a BMP string; salt and iteration count of the upstream test data. -/
def exPw : Bytes := [0, 0x73, 0, 0x65, 0, 0x73, 0, 0x61, 0, 0x6d, 0, 0x65, 0, 0]
def exAlg (last : Nat) : AlgId :=
  ⟨[1, 2, 840, 113549, 1, 12, 1, last],
   { full := [0x30, 0x0d, 0x04, 0x08, 0xff, 0xff, 0xff, 0xff, 0xff, 0xff, 0xff, 0xff, 0x02, 0x01, 0x02] }⟩

/-- Both algorithms encrypt "A secret!" and decrypt the result (2 iterations); with a flipped bit in the last block
the padding check fails. -/
example : (pbEncrypt Std.prims (exAlg 3) [0x41, 0x20, 0x73, 0x65, 0x63, 0x72, 0x65, 0x74, 0x21] exPw).isOk = true ∧
    (pbEncrypt Std.prims (exAlg 3) [0x41, 0x20, 0x73, 0x65, 0x63, 0x72, 0x65, 0x74, 0x21] exPw >>= fun c =>
      pbDecrypt Std.prims (exAlg 3) c exPw) = .ok [0x41, 0x20, 0x73, 0x65, 0x63, 0x72, 0x65, 0x74, 0x21] := by
  decide +kernel

example : (pbEncrypt Std.prims (exAlg 6) [0x41, 0x20, 0x73, 0x65, 0x63, 0x72, 0x65, 0x74, 0x21] exPw >>= fun c =>
      pbDecrypt Std.prims (exAlg 6) c exPw) = .ok [0x41, 0x20, 0x73, 0x65, 0x63, 0x72, 0x65, 0x74, 0x21] := by
  decide +kernel

end MCrypto.Props
