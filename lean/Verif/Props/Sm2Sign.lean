import Verif.Sm2.Verify
import Verif.Der.Spec
/-
Properties C06-C16: SM2 signatures.
-/
namespace MCrypto.Sm2
open MCrypto MCrypto.Curve MCrypto.Der MCrypto.Sm2Spec

/-! ## C06 -/

/-- C06: whatever `SignDigestRS` returns is a valid signature in the sense of GB/T 32918.2, for any
key, digest and random stream. -/
theorem C06_sign_valid (rd : Reader) (priv : PrivateKey) (digest : Bytes) (r s : Int) (rd' : Reader)
    (h : signDigestRS rd priv digest = .ok (r, s, rd')) :
    ValidSig (priv.d • Gp) (ofBytes digest) r s :=
  (signDigestRS_valid h).1

theorem xOf_coords {k : Nat} {x y : Nat} (h : coords (k • Gp) = some (x, y)) : xOf k = x := by
  unfold xOf; rw [h]; rfl

theorem coords_nonce (rd : Bytes) (j : Nat) :
    ∃ y, coords (nonce rd j • Gp) = some (xOf (nonce rd j), y) := by
  have hk := nonce_range rd j
  have hk0 : nonce rd j • Gp ≠ 0 := by
    rw [Ne, nsmul_Gp_eq_zero_iff]
    intro hdv
    have := Nat.le_of_dvd (by omega) hdv
    have := one_lt_N
    omega
  have hco := coords_rep (rep_base (nonce rd j))
  have hq0 : baseMult (toBytes (nonce rd j)) ≠ (0, 0) := by
    intro hh; exact hk0 ((Rep.zero_iff bF_ne (rep_base _)).mp hh)
  rw [if_neg hq0] at hco
  exact ⟨_, by rw [xOf_eq]; exact hco⟩

/-- C06 (exact): the signature returned for a key pair is accepted unless the nonce point has
x-coordinate 0 (the code takes such a point for infinity). -/
theorem C06_verifies_iff (rd : Reader) (priv : PrivateKey) (hkp : KeyPair priv) (digest : Bytes)
    (r s : Int) (rd' : Reader) (h : signDigestRS rd priv digest = .ok (r, s, rd')) :
    ∃ j, 40 * (j + 1) ≤ rd.length ∧ rd' = rd.drop (40 * (j + 1)) ∧
      (verifyDigestRS priv.pub digest r s = true ↔ xOf (nonce rd j) ≠ 0) := by
  obtain ⟨hv, j, h1, h2, h3, h4⟩ := signDigestRS_valid h
  refine ⟨j, h1, h2, ?_⟩
  rw [verifyDigestRS_iff hkp, h3]
  obtain ⟨y, hy⟩ := coords_nonce rd j
  constructor
  · rintro ⟨-, h5⟩; exact h5 _ _ hy
  · intro h5
    refine ⟨hv, ?_⟩
    intro x' y' hh
    rw [hy] at hh
    obtain ⟨rfl, -⟩ := Prod.mk.inj (Option.some.inj hh)
    exact h5

/-- C06, the part that holds: the returned signature verifies whenever r differs from the digest
value modulo N.  Missing: signatures with r = e mod N may be rejected, see `C06_fails`. -/
theorem C06_sign_verify_partial (rd : Reader) (priv : PrivateKey) (hkp : KeyPair priv) (digest : Bytes)
    (r s : Int) (rd' : Reader) (h : signDigestRS rd priv digest = .ok (r, s, rd'))
    (hr : r ≠ ((ofBytes digest % N : Nat) : Int)) :
    verifyDigestRS priv.pub digest r s = true := by
  obtain ⟨hv, j, h1, h2, h3, h4⟩ := signDigestRS_valid h
  rw [verifyDigestRS_iff hkp, h3]
  refine ⟨hv, ?_⟩
  intro x y hc hx
  rw [← xOf_coords hc] at hx
  rw [hx, Nat.add_zero] at h4
  exact hr h4

/-- The point (0, √b). -/
def yR0 : Nat := 0xfd4511e81736a60f07e88a83d6cf5a167fae6d1a9c9330e76e232e00f5cdc154

theorem exists_R0 : ∃ k, 1 ≤ k ∧ k ≤ N - 1 ∧ coords (k • Gp) = some (0, yR0) := by
  obtain ⟨A, hA, hR⟩ := (isOnCurve_rep (0, yR0)).mp (by decide +kernel)
  obtain ⟨k, hk, rfl⟩ := exists_dlog A
  refine ⟨k, ?_, by omega, ?_⟩
  · rcases Nat.eq_zero_or_pos k with rfl | h
    · simp at hA
    · exact h
  · rw [coords_rep hR, if_neg (by decide)]

/-- The key pair with D = 1. -/
def privOne : PrivateKey := ⟨⟨.sm2p256v1, G.1, G.2⟩, 1⟩

theorem keyPair_one : KeyPair privOne := by
  unfold KeyPair Represents privOne
  simp only [one_smul]
  exact rep_G

/-- C06 is false for the code as it stands: some digest and random stream make `SignDigestRS`
succeed with a signature that `VerifyDigestRS` rejects, for the valid key D = 1. -/
theorem C06_fails : ∃ (rd : Reader) (digest : Bytes) (r s : Int) (rd' : Reader), rd.length = 40 ∧
    signDigestRS rd privOne digest = .ok (r, s, rd') ∧
    ValidSig Gp (ofBytes digest) r s ∧ verifyDigestRS privOne.pub digest r s = false := by
  obtain ⟨k, hk1, hk2, hk⟩ := exists_R0
  have hx := xOf_coords hk
  have hN3 : 10 < N := by decide +kernel
  obtain ⟨e, he1, he3, hek, heN⟩ : ∃ e, 1 ≤ e ∧ e ≤ 3 ∧ e ≠ k ∧ e + k ≠ N := by
    by_cases h1 : 1 ≠ k ∧ 1 + k ≠ N
    · exact ⟨1, by omega, by omega, h1.1, h1.2⟩
    by_cases h2 : 2 ≠ k ∧ 2 + k ≠ N
    · exact ⟨2, by omega, by omega, h2.1, h2.2⟩
    exact ⟨3, by omega, by omega, by omega, by omega⟩
  have hd : ofBytes [UInt8.ofNat e] = e := by
    rw [ofBytes_cons, ofBytes_nil, u8_ofNat_toNat (by omega)]; simp
  cases hi : modInverseN (1 + 1) with
  | none =>
    rw [modInverseN_none] at hi
    rw [Nat.mod_eq_of_lt (by omega)] at hi
    omega
  | some i =>
    have hnon : nonce (beBytes 40 (k - 1)) 0 = k := by
      rw [nonce_zero, List.take_of_length_le (by simp), ofBytes_beBytes_of_lt, Nat.mod_eq_of_lt (by omega)]
      · omega
      · have : N < 256 ^ 40 := by decide +kernel
        omega
    have hgood : goodNonce e k := by
      unfold goodNonce
      rw [hx, Nat.add_zero, Nat.mod_eq_of_lt (by omega)]
      omega
    have hs : sOf 1 e k i ≠ 0 := by
      intro hs
      have hz : ((sOf 1 e k i : Nat) : ZMod N) = 0 := by rw [hs, Nat.cast_zero]
      rw [sOf_cast, hx] at hz
      have hinv := modInverseN_some hi
      have hz2 : (k : ZMod N) - e = 0 := by
        push_cast at hinv hz
        linear_combination (1 + 1) * hz - ((k : ZMod N) - e) * hinv
      have hz3 : (k : ZMod N) = (e : ZMod N) := by linear_combination hz2
      rw [ZMod.natCast_eq_natCast_iff', Nat.mod_eq_of_lt (by omega), Nat.mod_eq_of_lt (by omega)] at hz3
      exact hek hz3.symm
    rcases signOuter_spec (d := 1) e (beBytes 40 (k - 1)) hi with ⟨j, h1, h2, h3, h4, h5⟩ | ⟨h1, h2⟩
    · have hsig : signDigestRS (beBytes 40 (k - 1)) privOne [UInt8.ofNat e] =
          .ok ((((e + xOf (nonce (beBytes 40 (k - 1)) j)) % N : Nat) : Int),
            ((sOf 1 e (nonce (beBytes 40 (k - 1)) j) i : Nat) : Int), (beBytes 40 (k - 1)).drop (40 * (j + 1))) := by
        unfold signDigestRS
        rw [hd, show privOne.d = 1 from rfl, h5]
      refine ⟨_, _, _, _, _, beBytes_length _ _, hsig, by simpa [privOne] using C06_sign_valid _ _ _ _ _ _ hsig, ?_⟩
      obtain ⟨j', g1, -, g3⟩ := C06_verifies_iff _ _ keyPair_one _ _ _ _ hsig
      rw [beBytes_length] at g1
      have : j' = 0 := by omega
      subst this
      rw [hnon, hx] at g3
      simpa using g3
    · exact absurd ⟨by rw [hnon]; exact hgood, by rw [hnon]; exact hs⟩ (h1 0 (by simp))

/-! ## C08, C09 -/

/-- C08: no out-of-range component and no pair with r + s = 0 mod N is accepted, whatever the
public key (even an invalid one), digest, message or user id. -/
theorem C08_ranges (pub : PublicKey) (digest msg uid : Bytes) (r s : Int)
    (hbad : r < 1 ∨ (N : Int) ≤ r ∨ s < 1 ∨ (N : Int) ≤ s ∨ (r + s) % N = 0) :
    verifyDigestRS pub digest r s = false ∧ verifyRS pub msg uid r s = false ∧
    (∀ sig, unmarshalSign sig = .ok (r, s) →
      verify pub msg uid sig = false ∧ verifyDigest pub digest sig = false) := by
  have key : ∀ d : Bytes, verifyDigestRS pub d r s = false := by
    intro d
    unfold verifyDigestRS
    by_cases hr : r < 1 ∨ r ≥ (N : Int)
    · rw [if_pos hr]
    rw [if_neg hr]
    by_cases hs : s < 1 ∨ s ≥ (N : Int)
    · rw [if_pos hs]
    rw [if_neg hs]
    have ht : (r + s) % (N : Int) = 0 := by
      rcases hbad with h | h | h | h | h
      · omega
      · omega
      · omega
      · omega
      · exact h
    simp [ht]
  have key2 : verifyRS pub msg uid r s = false := key (pub.sm3Digest msg uid)
  refine ⟨key _, key2, fun sig hsig => ?_⟩
  unfold verify verifyDigest
  rw [hsig]
  exact ⟨key2, key _⟩

/-- C08: adding N to a component of an accepted signature gives a rejected one. -/
theorem C08_no_add_N (pub : PublicKey) (digest : Bytes) (r s : Int)
    (h : verifyDigestRS pub digest r s = true) :
    verifyDigestRS pub digest (r + N) s = false ∧ verifyDigestRS pub digest r (s + N) = false ∧
    verifyDigestRS pub digest (-r) s = false ∧ verifyDigestRS pub digest r (-s) = false := by
  have hb : ¬ (r < 1 ∨ (N : Int) ≤ r ∨ s < 1 ∨ (N : Int) ≤ s ∨ (r + s) % N = 0) := by
    intro hb
    rw [(C08_ranges pub digest [] [] r s hb).1] at h
    cases h
  refine ⟨(C08_ranges pub digest [] [] _ _ ?_).1, (C08_ranges pub digest [] [] _ _ ?_).1,
    (C08_ranges pub digest [] [] _ _ ?_).1, (C08_ranges pub digest [] [] _ _ ?_).1⟩ <;> omega

/-- C09 (exact): for a public key that is a curve point, verification accepts iff the standard's
predicate holds and the computed point has a non-zero x-coordinate. -/
theorem C09_verify_iff (pub : PublicKey) (Q : EP) (hQ : Represents pub Q) (digest : Bytes) (r s : Int) :
    verifyDigestRS pub digest r s = true ↔
      ValidSig Q (ofBytes digest) r s ∧
      ∀ x y, coords (s.toNat • Gp + ((r + s) % N).toNat • Q) = some (x, y) → x ≠ 0 :=
  verifyDigestRS_iff hQ digest r s

/-- C09, soundness (unconditional): an accepted signature satisfies the standard's predicate. -/
theorem C09_sound (pub : PublicKey) (Q : EP) (hQ : Represents pub Q) (digest : Bytes) (r s : Int)
    (h : verifyDigestRS pub digest r s = true) : ValidSig Q (ofBytes digest) r s :=
  ((verifyDigestRS_iff hQ digest r s).mp h).1

/-- C09, completeness as far as it holds: valid signatures with r ≠ e mod N are accepted.
Missing: the case r = e mod N, see `C09_fails`. -/
theorem C09_complete_partial (pub : PublicKey) (Q : EP) (hQ : Represents pub Q) (digest : Bytes)
    (r s : Int) (h : ValidSig Q (ofBytes digest) r s) (hr : r ≠ ((ofBytes digest % N : Nat) : Int)) :
    verifyDigestRS pub digest r s = true := by
  rw [verifyDigestRS_iff hQ]
  refine ⟨h, ?_⟩
  intro x y hc hx
  obtain ⟨-, -, -, x1, y1, h1, h2⟩ := h
  change coords (vpoint Q r s) = _ at h1
  rw [hc] at h1
  obtain ⟨rfl, rfl⟩ := Prod.mk.inj (Option.some.inj h1)
  rw [hx, Nat.add_zero] at h2
  exact hr h2.symm

/-- A public key on the curve for which (1, 1) is a valid signature of the digest 01. -/
def pubX0 : PublicKey := ⟨.sm2p256v1, 0x133d476abdef76182f448580962f82c2e31078eb2f86f908bbce5356c9af8230,
  0xc8c951f318c405bd7a63810413903c41a47fda36bc163adcefd5720a5b5a130⟩

/-- C09 is false for the code as it stands: a concrete key on the curve, digest and signature that
satisfy the standard's verification equation and are rejected. -/
theorem C09_fails : ∃ Q : EP, Represents pubX0 Q ∧ ValidSig Q (ofBytes [1]) 1 1 ∧
    verifyDigestRS pubX0 [1] 1 1 = false := by
  obtain ⟨Q, hQ, hR⟩ := (isOnCurve_rep (pubX0.x, pubX0.y)).mp (by decide +kernel)
  have hN : 10 < N := by decide +kernel
  refine ⟨Q, hR, ?_, by decide +kernel⟩
  have h2 : ((1 : Int) + 1) % (N : Int) = 2 := by
    rw [Int.emod_eq_of_lt] <;> omega
  refine ⟨by omega, by omega, by rw [h2]; decide, 0, yR0, ?_, ?_⟩
  · rw [h2]
    have := rep_add two_lt_P bF_ne (rep_base 1) (rep_mult hR 2)
    rw [show add P (baseMult (toBytes 1)) (scalarMult P (pubX0.x, pubX0.y) (toBytes 2)) = (0, yR0) by
      decide +kernel] at this
    have hc := coords_rep this
    rw [if_neg (by decide)] at hc
    exact hc
  · rw [show ofBytes [1] = 1 by decide, Nat.add_zero, Nat.mod_eq_of_lt (by omega)]
    rfl

/-! ## C10, C11 -/

theorem byteLen_mono {a b : Nat} (h : a ≤ b) : byteLen a ≤ byteLen b :=
  (byteLen_le_iff _ _).mpr (Nat.lt_of_le_of_lt h (lt_pow_byteLen b))

theorem encInt_length_le (n : Int) : (encInt n).length ≤ byteLen n.natAbs + 1 := by
  unfold encInt
  split
  · have : byteLen (-n - 1).toNat ≤ byteLen n.natAbs := byteLen_mono (by omega)
    simp only
    split <;> simp only [List.length_cons, List.length_map, toBytes_length] <;> omega
  · split
    · simp
    · have : byteLen n.toNat = byteLen n.natAbs := by congr 1; omega
      simp only
      split <;> simp <;> omega

theorem lenOctets_length (n : Nat) : (lenOctets n).length = if n ≤ 0x7f then 1 else byteLen n + 1 := by
  unfold lenOctets; split <;> simp

theorem lenOctets_le {n k : Nat} (h : n < 256 ^ k) : (lenOctets n).length ≤ k + 1 := by
  rw [lenOctets_length]; split
  · omega
  · have := (byteLen_le_iff n k).mpr h; omega

theorem tlv_length (tag : Tag) (body : Bytes) :
    (tlv tag body).length = 1 + (lenOctets body.length).length + body.length := by
  simp [tlv]; omega

theorem tlv_small {tag : Tag} {body : Bytes} (h : (tlv tag body).length < 2 ^ 32) :
    body.length + 6 < 2 ^ 32 := by
  rw [tlv_length, lenOctets_length] at h
  by_cases hb : body.length < 2 ^ 31
  · omega
  · rw [if_neg (by omega)] at h
    have : ¬ byteLen body.length ≤ 3 := by
      rw [byteLen_le_iff]; omega
    omega

theorem addASN1_ok {tag : Tag} {body : Bytes} (ht : tag &&& 0x1f ≠ 0x1f) (hl : body.length ≤ 0xfffffffe) :
    addASN1 tag body = some (tlv tag body) := by
  unfold addASN1
  rw [if_neg ht, if_neg (by omega)]

theorem addASN1_some {tag : Tag} {body b : Bytes} (h : addASN1 tag body = some b) : b = tlv tag body := by
  unfold addASN1 at h
  split at h
  · cases h
  · split at h
    · cases h
    · exact (Option.some.inj h).symm

theorem marshalSign_eq {r s : Int} {b : Bytes} (h : marshalSign r s = .ok b) :
    b = tlv tagSEQUENCE (tlv tagINTEGER (encInt r) ++ tlv tagINTEGER (encInt s)) := by
  unfold marshalSign at h
  split at h
  · rename_i rb sb h1 h2
    cases h3 : addASN1 tagSEQUENCE (rb ++ sb) with
    | none => rw [h3] at h; cases h
    | some c =>
      rw [h3] at h
      simp only [Res.ofOption, Res.ok.injEq] at h
      rw [← h, addASN1_some h3, addASN1_some h1, addASN1_some h2]
  · cases h

theorem unmarshalSign_iff (b : Bytes) (r s : Int) : unmarshalSign b = .ok (r, s) ↔
    b = tlv tagSEQUENCE (tlv tagINTEGER (encInt r) ++ tlv tagINTEGER (encInt s)) ∧ b.length < 2 ^ 32 := by
  constructor
  · intro h
    unfold unmarshalSign at h
    split at h
    · rename_i inner h1
      split at h
      · rename_i r' rest h2
        split at h
        · rename_i s' h3
          simp only [Res.ok.injEq, Prod.mk.injEq] at h
          obtain ⟨rfl, rfl⟩ := h
          obtain ⟨e1, -, l1⟩ := readASN1_sound h1
          obtain ⟨e2, l2⟩ := readInt_sound h2
          obtain ⟨e3, l3⟩ := readInt_sound h3
          rw [List.append_nil] at e1 e3
          subst e3 e2
          refine ⟨e1, ?_⟩
          rw [e1, tlv_length]
          have := lenOctets_le (k := 4) (n := (tlv tagINTEGER (encInt r') ++ tlv tagINTEGER (encInt s')).length) (by omega)
          omega
        · cases h
      · cases h
    · cases h
  · rintro ⟨rfl, hlen⟩
    have h1 := tlv_small hlen
    have h2 : (tlv tagINTEGER (encInt r)).length < 2 ^ 32 := by
      rw [List.length_append] at h1; omega
    have h3 : (tlv tagINTEGER (encInt s)).length < 2 ^ 32 := by
      rw [List.length_append] at h1; omega
    unfold unmarshalSign
    have e1 := readASN1_tlv tagSEQUENCE (tlv tagINTEGER (encInt r) ++ tlv tagINTEGER (encInt s)) []
      (by decide) h1
    rw [List.append_nil] at e1
    have e2 := readInt_enc r (tlv tagINTEGER (encInt s)) (tlv_small h2)
    have e3 := readInt_enc s [] (tlv_small h3)
    rw [List.append_nil] at e3
    simp only [e1, e2, e3]

theorem isSig_iff (b : Bytes) (r s : Int) (hb : b.length < 256 ^ 127) : DerSpec.IsSig b r s ↔
    b = tlv tagSEQUENCE (tlv tagINTEGER (encInt r) ++ tlv tagINTEGER (encInt s)) := by
  unfold DerSpec.IsSig
  simp only [DerSpec.isInt_iff]
  constructor
  · rintro ⟨rb, sb, re, se, rfl, rfl, h1, h2, h3⟩
    have l3 : (re ++ se).length ≤ b.length := by
      obtain ⟨l, -, rfl⟩ := h3; simp; omega
    have l1 : (encInt r).length ≤ re.length := by
      obtain ⟨l, -, rfl⟩ := h1; simp; omega
    have l2 : (encInt s).length ≤ se.length := by
      obtain ⟨l, -, rfl⟩ := h2; simp; omega
    rw [List.length_append] at l3
    rw [DerSpec.isTLV_iff _ _ _ (by omega)] at h1 h2
    rw [DerSpec.isTLV_iff _ _ _ (by rw [List.length_append]; omega)] at h3
    subst h1 h2
    exact h3
  · intro h
    have hl := congrArg List.length h
    rw [tlv_length, List.length_append, tlv_length, tlv_length] at hl
    refine ⟨_, _, _, _, rfl, rfl, (DerSpec.isTLV_iff _ _ _ (by omega)).mpr rfl,
      (DerSpec.isTLV_iff _ _ _ (by omega)).mpr rfl, (DerSpec.isTLV_iff _ _ _ ?_).mpr h⟩
    rw [List.length_append, tlv_length, tlv_length]
    omega

/-- C10: for all integers of either sign whose magnitude has at most n ≤ 2^30 bytes, `MarshalSign` succeeds, its
output is the DER encoding of SEQUENCE { r, s }, and `UnmarshalSign` gives back (r, s). -/
theorem C10_roundtrip (r s : Int) (n : Nat) (hn : n ≤ 2 ^ 30) (hr : r.natAbs < 256 ^ n)
    (hs : s.natAbs < 256 ^ n) :
    ∃ b, marshalSign r s = .ok b ∧ DerSpec.IsSig b r s ∧ unmarshalSign b = .ok (r, s) := by
  have h1 := encInt_length_le r
  have h2 := encInt_length_le s
  have h3 := (byteLen_le_iff _ _).mpr hr
  have h4 := (byteLen_le_iff _ _).mpr hs
  have b1 := tlv_length tagINTEGER (encInt r)
  have b2 := tlv_length tagINTEGER (encInt s)
  have b3 := tlv_length tagSEQUENCE (tlv tagINTEGER (encInt r) ++ tlv tagINTEGER (encInt s))
  rw [List.length_append] at b3
  have o1 := lenOctets_le (k := 4) (n := (encInt r).length) (by omega)
  have o2 := lenOctets_le (k := 4) (n := (encInt s).length) (by omega)
  have o3 := lenOctets_le (k := 4) (n := (tlv tagINTEGER (encInt r)).length + (tlv tagINTEGER (encInt s)).length) (by omega)
  have hm : marshalSign r s = .ok (tlv tagSEQUENCE (tlv tagINTEGER (encInt r) ++ tlv tagINTEGER (encInt s))) := by
    unfold marshalSign
    rw [addASN1_ok (tag := tagINTEGER) (by decide) (by omega), addASN1_ok (tag := tagINTEGER) (by decide) (by omega)]
    simp only
    rw [addASN1_ok (by decide) (by rw [List.length_append]; omega)]
    rfl
  have hlen : (tlv tagSEQUENCE (tlv tagINTEGER (encInt r) ++ tlv tagINTEGER (encInt s))).length < 2 ^ 32 := by
    omega
  have : (2 ^ 32 : Nat) < 256 ^ 127 := by decide +kernel
  exact ⟨_, hm, (isSig_iff _ _ _ (by omega)).mpr rfl, (unmarshalSign_iff _ _ _).mpr ⟨rfl, hlen⟩⟩

/-- C10: any output of `MarshalSign` shorter than 4 GiB is decoded to what was encoded. -/
theorem C10_marshal_unmarshal (r s : Int) (b : Bytes) (h : marshalSign r s = .ok b)
    (hb : b.length < 2 ^ 32) : unmarshalSign b = .ok (r, s) :=
  (unmarshalSign_iff _ _ _).mpr ⟨marshalSign_eq h, hb⟩

/-- C11 (exact): `UnmarshalSign` accepts exactly the DER encodings of SEQUENCE { INTEGER, INTEGER }
shorter than 4 GiB, with the value they encode. -/
theorem C11_accepts_iff (b : Bytes) (r s : Int) :
    unmarshalSign b = .ok (r, s) ↔ DerSpec.IsSig b r s ∧ b.length < 2 ^ 32 := by
  rw [unmarshalSign_iff]
  have : (2 ^ 32 : Nat) < 256 ^ 127 := by decide +kernel
  constructor
  · rintro ⟨h, hl⟩; exact ⟨(isSig_iff _ _ _ (by omega)).mpr h, hl⟩
  · rintro ⟨h, hl⟩; exact ⟨(isSig_iff _ _ _ (by omega)).mp h, hl⟩

/-- C11: one encoding per signature. -/
theorem C11_unique (b b' : Bytes) (r s : Int) (h : unmarshalSign b = .ok (r, s))
    (h' : unmarshalSign b' = .ok (r, s)) : b = b' := by
  rw [unmarshalSign_iff] at h h'
  rw [h.1, h'.1]

/-- C11: trailing bytes are rejected. -/
theorem C11_no_trailing (b t : Bytes) (r s : Int) (h : unmarshalSign b = .ok (r, s)) (ht : t ≠ []) :
    ∀ r' s', unmarshalSign (b ++ t) ≠ .ok (r', s') := by
  intro r' s' h2
  unfold unmarshalSign at h h2
  split at h
  · rename_i inner h1
    split at h2
    · rename_i inner' h3
      have e1 := readASN1_sound h1
      rw [e1.1, List.append_nil, readASN1_tlv _ _ _ e1.2.1 e1.2.2] at h3
      simp only [Option.some.injEq, Prod.mk.injEq] at h3
      exact ht h3.2
    · cases h2
  · cases h

/-! ## C07 -/

theorem pow_bound (r : Int) (h : 1 ≤ r ∧ r ≤ N - 1) : r.natAbs < 256 ^ 32 := by
  have := N_lt; omega

/-- C07: if `SignDigestRS`/`SignRS` returns a pair, the DER-producing function also succeeds, with
the DER encoding of that pair, and DER verification equals raw verification of it. -/
theorem C07_der (rd : Reader) (priv : PrivateKey) (msg uid digest : Bytes) (pub : PublicKey)
    (vm vu : Bytes) (r s : Int) (rd' : Reader) :
    (signRS rd priv msg uid = .ok (r, s, rd') → ∃ sig, sign rd priv msg uid = .ok sig ∧
      DerSpec.IsSig sig r s ∧ verify pub vm vu sig = verifyRS pub vm vu r s) ∧
    (signDigestRS rd priv digest = .ok (r, s, rd') → ∃ sig, signDigest rd priv digest = .ok sig ∧
      DerSpec.IsSig sig r s ∧ verifyDigest pub vm sig = verifyDigestRS pub vm r s) := by
  constructor
  · intro h
    have hv := C06_sign_valid rd priv (priv.pub.sm3Digest msg uid) r s rd' h
    obtain ⟨b, h1, h2, h3⟩ := C10_roundtrip r s 32 (by decide) (pow_bound r hv.1) (pow_bound s hv.2.1)
    refine ⟨b, ?_, h2, ?_⟩
    · unfold sign; rw [h]; exact h1
    · unfold verify; rw [h3]
  · intro h
    have hv := C06_sign_valid rd priv digest r s rd' h
    obtain ⟨b, h1, h2, h3⟩ := C10_roundtrip r s 32 (by decide) (pow_bound r hv.1) (pow_bound s hv.2.1)
    refine ⟨b, ?_, h2, ?_⟩
    · unfold signDigest; rw [h]; exact h1
    · unfold verifyDigest; rw [h3]

theorem sign_cases {rd : Reader} {priv : PrivateKey} {msg uid sig : Bytes}
    (h : sign rd priv msg uid = .ok sig) : ∃ r s rd', signRS rd priv msg uid = .ok (r, s, rd') ∧
      unmarshalSign sig = .ok (r, s) := by
  unfold sign at h
  split at h
  · rename_i r s rd' hr
    have hv := C06_sign_valid rd priv (priv.pub.sm3Digest msg uid) r s rd' hr
    obtain ⟨b, h1, h2, h3⟩ := C10_roundtrip r s 32 (by decide) (pow_bound r hv.1) (pow_bound s hv.2.1)
    rw [h1] at h
    obtain rfl := Res.ok.inj h
    exact ⟨r, s, rd', hr, h3⟩
  · cases h
  · cases h

/-- C07, the part that holds: for every key pair, message, user id and random stream, a DER
signature returned by `Sign` is accepted by `Verify` with the same message and user id, provided its
r component is not the digest value modulo N.  Missing: r = e mod N (`C06_fails`). -/
theorem C07_sign_verify_partial (rd : Reader) (priv : PrivateKey) (hkp : KeyPair priv)
    (msg uid sig : Bytes) (h : sign rd priv msg uid = .ok sig)
    (hr : ∀ r s, unmarshalSign sig = .ok (r, s) →
      r ≠ ((ofBytes (priv.pub.sm3Digest msg uid) % N : Nat) : Int)) :
    verify priv.pub msg uid sig = true := by
  obtain ⟨r, s, rd', h1, h2⟩ := sign_cases h
  unfold verify
  rw [h2]
  exact C06_sign_verify_partial rd priv hkp (priv.pub.sm3Digest msg uid) r s rd' h1 (hr r s h2)

/-! ## C12, C13 -/

/-- C12: 40 or more bytes give a nonce in [1, N-1] that depends on the first 40 bytes only and
consumes exactly those; fewer give an error. -/
theorem C12_nonce (rd : Reader) :
    (40 ≤ rd.length → ∃ k, nextk rd = .ok (k, rd.drop 40) ∧ 1 ≤ k ∧ k ≤ N - 1 ∧
      ∀ rest, nextk (rd.take 40 ++ rest) = .ok (k, rest)) ∧
    (rd.length < 40 → nextk rd = .err (if rd.length = 0 then "EOF" else "unexpected EOF")) := by
  constructor
  · intro h
    refine ⟨nonce rd 0, ?_, (nonce_range rd 0).1, (nonce_range rd 0).2, ?_⟩
    · rw [nextk_ok h, nonce_zero]
    · intro rest
      have hl : (rd.take 40).length = 40 := by rw [List.length_take]; omega
      rw [nextk_ok (by rw [List.length_append]; omega), nonce_zero, List.take_append_of_le_length (by omega),
        List.take_of_length_le (Nat.le_of_eq hl), List.drop_append_of_le_length (by omega),
        List.drop_of_length_le (Nat.le_of_eq hl), List.nil_append]
  · exact nextk_err

/-- C12: every value of [1, N-1] is attained. -/
theorem C12_surjective (k : Nat) (h1 : 1 ≤ k) (h2 : k ≤ N - 1) (rest : Bytes) :
    ∃ b : Bytes, b.length = 40 ∧ nextk (b ++ rest) = .ok (k, rest) := by
  refine ⟨beBytes 40 (k - 1), by simp, ?_⟩
  have hl : (beBytes 40 (k - 1)).length = 40 := by simp
  have : N < 256 ^ 40 := by decide +kernel
  rw [nextk_ok (by rw [List.length_append]; omega), List.take_append_of_le_length (by omega),
    List.take_of_length_le (Nat.le_of_eq hl), List.drop_append_of_le_length (by omega),
    List.drop_of_length_le (Nat.le_of_eq hl), List.nil_append, ofBytes_beBytes_of_lt (by omega),
    Nat.mod_eq_of_lt (by omega), Nat.sub_add_cancel h1]

/-- C12: the 320-bit sample is reduced with small bias: each nonce has ⌊2^320/(N-1)⌋ or one more
preimages among the 40-byte strings (interval of length N-1 starting at any multiple). -/
theorem C12_preimages (k q : Nat) (h1 : 1 ≤ k) (h2 : k ≤ N - 1) (hq : q * (N - 1) + (k - 1) < 256 ^ 40)
    (rest : Bytes) : nextk (beBytes 40 (q * (N - 1) + (k - 1)) ++ rest) = .ok (k, rest) := by
  have hl : (beBytes 40 (q * (N - 1) + (k - 1))).length = 40 := by simp
  rw [nextk_ok (by rw [List.length_append]; omega), List.take_append_of_le_length (by omega),
    List.take_of_length_le (Nat.le_of_eq hl), List.drop_append_of_le_length (by omega),
    List.drop_of_length_le (Nat.le_of_eq hl), List.nil_append, ofBytes_beBytes_of_lt hq,
    Nat.add_comm (q * (N - 1)), Nat.add_mul_mod_self_right, Nat.mod_eq_of_lt (by omega), Nat.sub_add_cancel h1]

/-- The signing equation of GB/T 32918.2 6.1 A6: (1+d)·s = k - r·d mod N, with s in [0,N). -/
def SigEq (d k r s : Nat) : Prop := s < N ∧ ((1 + d) * s + r * d) % N = k % N

theorem sOf_sigEq {d e k i : Nat} (hd : modInverseN (d + 1) = some i) :
    SigEq d k ((e + xOf k) % N) (sOf d e k i) := by
  refine ⟨sOf_lt _ _ _ _, ?_⟩
  rw [← ZMod.natCast_eq_natCast_iff']
  have hinv := modInverseN_some hd
  push_cast at *
  rw [sOf_cast, ZMod.natCast_mod]
  push_cast
  linear_combination ((k : ZMod N) - ((e : ZMod N) + xOf k) * d) * hinv

theorem sigEq_unique {d k r s s' : Nat} (hd : (d + 1) % N ≠ 0) (h : SigEq d k r s) (h' : SigEq d k r s') :
    s = s' := by
  have e := h.2.trans h'.2.symm
  rw [← ZMod.natCast_eq_natCast_iff'] at e
  push_cast at e
  have hne : ((d : ZMod N) + 1) ≠ 0 := by
    have : ((d + 1 : Nat) : ZMod N) ≠ 0 := by
      rw [Ne, ZMod.natCast_eq_zero_iff, Nat.dvd_iff_mod_eq_zero]; exact hd
    push_cast at this
    exact this
  have e2 : ((d : ZMod N) + 1) * ((s : ZMod N) - s') = 0 := by linear_combination e
  rcases mul_eq_zero.mp e2 with h3 | h3
  · exact absurd h3 hne
  · have h4 : (s : ZMod N) = (s' : ZMod N) := by linear_combination h3
    rw [ZMod.natCast_eq_natCast_iff', Nat.mod_eq_of_lt h.1, Nat.mod_eq_of_lt h'.1] at h4
    exact h4

/-- C13 (functional correctness of signing): for 1 + D invertible, the result is the standard's
signature for the first usable nonce of the stream, or the reader's error when there is none. -/
theorem C13_sign_spec (rd : Reader) (priv : PrivateKey) (digest : Bytes) (hd : (priv.d + 1) % N ≠ 0) :
    (∃ j r s : Nat, 40 * (j + 1) ≤ rd.length ∧
      signDigestRS rd priv digest = .ok ((r : Int), (s : Int), rd.drop (40 * (j + 1))) ∧
      r = (ofBytes digest + xOf (nonce rd j)) % N ∧ r ≠ 0 ∧ r + nonce rd j ≠ N ∧
      SigEq priv.d (nonce rd j) r s ∧ s ≠ 0 ∧
      (∀ l, l < j → ¬ (goodNonce (ofBytes digest) (nonce rd l) ∧
        ¬ SigEq priv.d (nonce rd l) ((ofBytes digest + xOf (nonce rd l)) % N) 0))) ∨
    ((∀ j, 40 * (j + 1) ≤ rd.length → ¬ (goodNonce (ofBytes digest) (nonce rd j) ∧
        ¬ SigEq priv.d (nonce rd j) ((ofBytes digest + xOf (nonce rd j)) % N) 0)) ∧
      signDigestRS rd priv digest = .err (if rd.length % 40 = 0 then "EOF" else "unexpected EOF")) := by
  cases hi : modInverseN (priv.d + 1) with
  | none => exact absurd (modInverseN_none.mp hi) hd
  | some i =>
    have conv : ∀ k, sOf priv.d (ofBytes digest) k i ≠ 0 ↔
        ¬ SigEq priv.d k ((ofBytes digest + xOf k) % N) 0 := by
      intro k
      rw [not_iff_not]
      constructor
      · intro h; have := sOf_sigEq (e := ofBytes digest) (k := k) hi; rwa [h] at this
      · intro h; exact sigEq_unique hd (sOf_sigEq hi) h
    rcases signOuter_spec (ofBytes digest) rd hi with ⟨j, h1, h2, h3, h4, h5⟩ | ⟨h1, h2⟩
    · left
      refine ⟨j, _, _, h1, ?_, rfl, h2.1, h2.2, sOf_sigEq hi, h3, ?_⟩
      · unfold signDigestRS; rw [h5]
      · intro l hl; rw [← conv]; exact h4 l hl
    · right
      refine ⟨?_, ?_⟩
      · intro l hl; rw [← conv]; exact h1 l hl
      · unfold signDigestRS; rw [h2]; rfl

/-- C13: the ranges of a returned signature. -/
theorem C13_ranges (rd : Reader) (priv : PrivateKey) (digest : Bytes) (r s : Int) (rd' : Reader)
    (h : signDigestRS rd priv digest = .ok (r, s, rd')) :
    (1 ≤ r ∧ r ≤ N - 1) ∧ (1 ≤ s ∧ s ≤ N - 1) ∧ (r + s) % N ≠ 0 :=
  let hv := C06_sign_valid rd priv digest r s rd' h
  ⟨hv.1, hv.2.1, hv.2.2.1⟩

/-- C13: signing panics exactly when D = -1 mod N and the stream contains a usable nonce. -/
theorem C13_panics_iff (rd : Reader) (priv : PrivateKey) (digest : Bytes) :
    signDigestRS rd priv digest = .panic ↔
      (priv.d + 1) % N = 0 ∧ ∃ j, 40 * (j + 1) ≤ rd.length ∧ goodNonce (ofBytes digest) (nonce rd j) := by
  by_cases hd : (priv.d + 1) % N = 0
  · have hi := modInverseN_none.mpr hd
    unfold signDigestRS
    rw [signOuter_bad _ _ hi]
    rcases signInner_spec (ofBytes digest) rd with ⟨j, h1, h2, -, h4⟩ | ⟨h1, h2⟩
    · simp only [h4, hd, true_and, true_iff]
      exact ⟨j, h1, h2⟩
    · simp only [h2, hd, true_and]
      constructor
      · intro h; cases h
      · rintro ⟨j, g1, g2⟩; exact absurd g2 (h1 j g1)
  · constructor
    · intro h
      rcases C13_sign_spec rd priv digest hd with ⟨j, r, s, -, h2, -⟩ | ⟨-, h2⟩ <;> rw [h2] at h <;> cases h
    · rintro ⟨h, -⟩; exact absurd h hd

/-- C13: the only error is the reader's. -/
theorem C13_errors (rd : Reader) (priv : PrivateKey) (digest : Bytes) (e : String)
    (h : signDigestRS rd priv digest = .err e) :
    e = if rd.length % 40 = 0 then "EOF" else "unexpected EOF" := by
  by_cases hd : (priv.d + 1) % N = 0
  · have hi := modInverseN_none.mpr hd
    unfold signDigestRS at h
    rw [signOuter_bad _ _ hi] at h
    rcases signInner_spec (ofBytes digest) rd with ⟨j, h1, h2, -, h4⟩ | ⟨h1, h2⟩
    · simp only [h4] at h; cases h
    · simp only [h2] at h; exact (Res.err.inj h).symm
  · rcases C13_sign_spec rd priv digest hd with ⟨j, r, s, -, h2, -⟩ | ⟨-, h2⟩
    · rw [h2] at h; cases h
    · rw [h2] at h; exact (Res.err.inj h).symm

/-! ## C14, C15, C16 -/

theorem appendBigInt_eq {n : Nat} (h : n < 256 ^ 32) : appendBigIntTo32Bytes n = beBytes 32 n := by
  unfold appendBigIntTo32Bytes
  have hl : (toBytes n).length ≤ 32 := by rw [toBytes_length]; exact (byteLen_le_iff _ _).mpr h
  simp only
  split
  · rw [toBytes_length]; exact pad_toBytes h
  · exact toBytes_eq_beBytes (by rw [toBytes_length] at *; omega)

theorem A_bytes : toBytes A = beBytes 32 A := by decide +kernel
theorem B_bytes : toBytes B = beBytes 32 B := by decide +kernel
theorem G1_bytes : toBytes G.1 = beBytes 32 G.1 := by decide +kernel
theorem G2_bytes : toBytes G.2 = beBytes 32 G.2 := by decide +kernel

theorem entl_bytes (n : Nat) : [UInt8.ofNat (n * 8 % 65536 / 256)] ++ [UInt8.ofNat (n * 8 % 65536 % 256)] =
    beBytes 2 (8 * n) := by
  apply ofBytes_inj
  · simp
  · rw [ofBytes_beBytes]
    simp only [List.cons_append, List.nil_append, ofBytes_cons, ofBytes_nil, List.length_cons, List.length_nil,
      UInt8.toNat_ofNat']
    omega

theorem z_eq {d : Sm3.Digest} {data : Bytes} (h0 : Sm3.Inv d data) {x y : Nat} (hx : x < 256 ^ 32) (hy : y < 256 ^ 32) (uid : Bytes) :
    z d x y uid = Z uid x y := by
  unfold z Z
  simp only
  have h := Sm3.inv_reset h0
  have h := Sm3.inv_write h [UInt8.ofNat (uid.length * 8 % 65536 / 256)]
  have h := Sm3.inv_write h [UInt8.ofNat (uid.length * 8 % 65536 % 256)]
  have h := Sm3.inv_write h uid
  have h := Sm3.inv_write h (toBytes A)
  have h := Sm3.inv_write h (toBytes B)
  have h := Sm3.inv_write h (toBytes G.1)
  have h := Sm3.inv_write h (toBytes G.2)
  have h := Sm3.inv_write h (appendBigIntTo32Bytes x)
  have h := Sm3.inv_write h (appendBigIntTo32Bytes y)
  rw [Sm3.sumNil_of_inv h, appendBigInt_eq hx, appendBigInt_eq hy, A_bytes, B_bytes, G1_bytes, G2_bytes]
  rw [List.nil_append, entl_bytes]

/-- C14: for every public key with 256-bit coordinates, every message and user id, `SM3Digest` is
SM3(Z ‖ msg), the default id replacing an empty one. -/
theorem C14_digest (pub : PublicKey) (hx : pub.x < 256 ^ 32) (hy : pub.y < 256 ^ 32) (msg uid : Bytes) :
    pub.sm3Digest msg uid =
      Sm3Spec.sm3 (Z (if uid = [] then (List.map UInt8.ofNat [49, 50, 51, 52, 53, 54, 55, 56, 49, 50, 51, 52, 53, 54, 55, 56]) else uid)
        pub.x pub.y ++ msg) := by
  unfold PublicKey.sm3Digest
  simp only
  have h := Sm3.inv_reset Sm3.inv_new
  have h := Sm3.inv_write h (z Sm3.new pub.x pub.y (if uid.length = 0 then defaultUid else uid))
  have h := Sm3.inv_write h msg
  rw [Sm3.sumNil_of_inv h, z_eq Sm3.inv_new hx hy, List.nil_append]
  have : defaultUid = List.map UInt8.ofNat [49, 50, 51, 52, 53, 54, 55, 56, 49, 50, 51, 52, 53, 54, 55, 56] := by decide
  rw [this]
  simp only [List.length_eq_zero_iff]

/-- C14: the two-byte ENTL field is the bit length of the user id when it has fewer than 8192
bytes; beyond that the field silently keeps only the low 16 bits. -/
theorem C14_entl (uid : Bytes) : ofBytes (beBytes 2 (8 * uid.length)) = 8 * uid.length % 65536 ∧
    (uid.length < 8192 → ofBytes (beBytes 2 (8 * uid.length)) = 8 * uid.length) := by
  rw [ofBytes_beBytes]
  constructor
  · rfl
  · intro h; exact Nat.mod_eq_of_lt (by omega)

/-- C15: message signing and verification are digest signing and verification of the SM3 digest. -/
theorem C15_compose (pub : PublicKey) (priv : PrivateKey) (rd : Reader) (msg uid sig : Bytes) (r s : Int) :
    verifyRS pub msg uid r s = verifyDigestRS pub (pub.sm3Digest msg uid) r s ∧
    verify pub msg uid sig = verifyDigest pub (pub.sm3Digest msg uid) sig ∧
    signRS rd priv msg uid = signDigestRS rd priv (priv.pub.sm3Digest msg uid) ∧
    sign rd priv msg uid = signDigest rd priv (priv.pub.sm3Digest msg uid) :=
  ⟨rfl, rfl, rfl, rfl⟩

/-- C15, stated with the published digest: message signing and verification are digest signing and
verification of `SM3(Z_A ‖ M)`, where an empty user id means the default one. -/
theorem C15_standard_digest (pub : PublicKey) (hx : pub.x < 256 ^ 32) (hy : pub.y < 256 ^ 32) (msg uid : Bytes) :
    ∃ e : Bytes,
      e = Sm3Spec.sm3 (Z (if uid = [] then
          (List.map UInt8.ofNat [49, 50, 51, 52, 53, 54, 55, 56, 49, 50, 51, 52, 53, 54, 55, 56]) else uid)
        pub.x pub.y ++ msg) ∧
      (∀ r s, verifyRS pub msg uid r s = verifyDigestRS pub e r s) ∧
      (∀ sig, verify pub msg uid sig = verifyDigest pub e sig) ∧
      (∀ (priv : PrivateKey) rd, priv.pub = pub → signRS rd priv msg uid = signDigestRS rd priv e) ∧
      (∀ (priv : PrivateKey) rd, priv.pub = pub → sign rd priv msg uid = signDigest rd priv e) := by
  refine ⟨_, rfl, ?_⟩
  rw [← C14_digest pub hx hy msg uid]
  refine ⟨fun _ _ => rfl, fun _ => rfl, ?_, ?_⟩
  · rintro priv rd rfl; rfl
  · rintro priv rd rfl; rfl

/-- C16: every method except `PublicKey.VerifyRS` agrees with its package function. -/
theorem C16_methods_partial (pub : PublicKey) (priv : PrivateKey) (rd : Reader) (msg uid digest sig : Bytes)
    (r s : Int) :
    priv.signRS rd msg uid = signRS rd priv msg uid ∧
    priv.sign rd msg uid = sign rd priv msg uid ∧
    priv.signDigestRS rd digest = signDigestRS rd priv digest ∧
    priv.signDigest rd digest = signDigest rd priv digest ∧
    pub.verify msg uid sig = verify pub msg uid sig ∧
    pub.verifyDigest digest sig = verifyDigest pub digest sig ∧
    pub.verifyDigestRS digest r s = verifyDigestRS pub digest r s ∧
    pub.verifyRS msg uid r s = verifyRS pub uid msg r s :=
  ⟨rfl, rfl, rfl, rfl, rfl, rfl, rfl, rfl⟩

/-! ## Non-vacuity: the test vector of GB/T 32918.5, evaluated by the kernel -/

/-- GB/T 32918.5 annex A key pair. -/
def exKey : PrivateKey :=
  ⟨⟨.sm2p256v1, 0x09f9df311e5421a150dd7d161e4bc5c672179fad1833fc076bb08ff356f35020,
     0xccea490ce26775a52dc6ea718cc1aa600aed05fbf35e084a6632f6072da9ad13⟩,
   0x3945208F7B2144B13F36E38AC6D39F95889393692860B51A42FB81EF4DF7C5B8⟩

theorem exKey_keyPair : KeyPair exKey := by
  unfold KeyPair Represents
  have h := rep_base exKey.d
  rwa [show baseMult (toBytes exKey.d) = (exKey.pub.x, exKey.pub.y) by decide +kernel] at h

/-- "message digest" -/
def exMsg : Bytes := [0x6d, 0x65, 0x73, 0x73, 0x61, 0x67, 0x65, 0x20, 0x64, 0x69, 0x67, 0x65, 0x73, 0x74]
/-- A stream that yields the nonce of the standard's example. -/
def exRd : Reader := beBytes 40 (0x59276E27D506861A16680F3AD9C02DCCEF3CC1FA3CDBE4CE6D54B80DEAC1BC21 - 1)

end MCrypto.Sm2
