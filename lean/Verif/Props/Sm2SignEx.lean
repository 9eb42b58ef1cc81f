import Verif.Props.Sm2Sign
/-
Concrete SM2 signature cases (kernel evaluation): the counterexample of C16 and the witnesses that
the hypotheses of C06-C15 are met.
-/
namespace MCrypto.Sm2
open MCrypto MCrypto.Curve MCrypto.Der MCrypto.Sm2Spec

/-- C16 is false for `PublicKey.VerifyRS`: it swaps message and user id, so it rejects a signature
of message "a" under user id "b" that the package function accepts (key D = 1). -/
theorem C16_verifyRS_swapped : ∃ (pub : PublicKey) (msg uid : Bytes) (r s : Int),
    verifyRS pub msg uid r s = true ∧ pub.verifyRS msg uid r s = false :=
  ⟨privOne.pub, [0x61], [0x62],
    0x3ad5dadd446aa42a7e99095ba0385bf1a6cc494424bd674aea8896b65d2c1dcf,
    0xe29512905dcaadeac0b37b522fe3d2069e9dbac90f675185de77a8ae0b3f323f,
    by
      have h : privOne.pub.sm3Digest [0x61] [0x62] = [0x5c, 0xe5, 0x48, 0x86, 0xf0, 0x60, 0xe2, 0x8c, 0x80, 0xda, 0x82, 0xb4, 0x44, 0x24, 0xc2, 0xea, 0x70, 0xce, 0x90, 0x7b, 0xcf, 0x3e, 0x7d, 0xfd, 0x71, 0x1c, 0xa7, 0x3a, 0xbd, 0x4, 0xaf, 0xdd] := by
        decide +kernel
      rw [(C15_compose privOne.pub privOne [] [0x61] [0x62] [] _ _).1, h]
      decide +kernel,
    by
      have h : privOne.pub.sm3Digest [0x62] [0x61] = [0xe8, 0x0, 0x6f, 0x79, 0x78, 0x6c, 0x68, 0x21, 0xdb, 0x39, 0xf3, 0x65, 0x37, 0xb0, 0x70, 0x23, 0xa5, 0x7e, 0x5c, 0x39, 0x2a, 0xa6, 0x44, 0x92, 0x5a, 0x1b, 0x33, 0x65, 0x30, 0x5d, 0x48, 0x8c] := by
        decide +kernel
      change verifyDigestRS privOne.pub (privOne.pub.sm3Digest [0x62] [0x61]) _ _ = false
      rw [h]
      decide +kernel⟩

/-- The digest value of the standard's example. -/
def exE : Bytes :=
  [0xf0, 0xb4, 0x3e, 0x94, 0xba, 0x45, 0xac, 0xca, 0xac, 0xe6, 0x92, 0xed, 0x53, 0x43, 0x82, 0xeb, 0x17, 0xe6, 0xab, 0x5a, 0x19, 0xce, 0x7b, 0x31, 0xf4, 0x48, 0x6f, 0xdf, 0xc0, 0xd2, 0x86, 0x40]

theorem exE_ok : exKey.pub.sm3Digest exMsg [] = exE := by decide +kernel

/-- The hypotheses of C06/C07/C13/C15 are met by the standard's example, with its r and s. -/
theorem ex_signRS : signRS exRd exKey exMsg [] =
    .ok (0xF5A03B0648D2C4630EEAC513E1BB81A15944DA3827D5B74143AC7EACEEE720B3,
      0xB1B6AA29DF212FD8763182BC0D421CA1BB9038FD1F7F42D4840B69C485BBC1AA, []) := by
  change signDigestRS exRd exKey (exKey.pub.sm3Digest exMsg []) = _
  rw [exE_ok]
  decide +kernel

example : verifyDigestRS exKey.pub exE
    0xF5A03B0648D2C4630EEAC513E1BB81A15944DA3827D5B74143AC7EACEEE720B3
    0xB1B6AA29DF212FD8763182BC0D421CA1BB9038FD1F7F42D4840B69C485BBC1AA = true :=
  C06_sign_verify_partial exRd exKey exKey_keyPair exE _ _ []
    (by rw [← exE_ok]; exact ex_signRS) (by decide +kernel)

example : ∃ sig, sign exRd exKey exMsg [] = .ok sig ∧ verify exKey.pub exMsg [] sig = true := by
  obtain ⟨sig, h1, h2, -⟩ := (C07_der exRd exKey exMsg [] [] exKey.pub exMsg [] _ _ []).1 ex_signRS
  refine ⟨sig, h1, C07_sign_verify_partial exRd exKey exKey_keyPair exMsg [] sig h1 ?_⟩
  intro r s h
  obtain ⟨r', s', rd', h3, h4⟩ := sign_cases h1
  rw [ex_signRS] at h3
  simp only [Res.ok.injEq, Prod.mk.injEq] at h3
  obtain ⟨rfl, rfl, -⟩ := h3
  rw [h] at h4
  simp only [Res.ok.injEq, Prod.mk.injEq] at h4
  obtain ⟨rfl, rfl⟩ := h4
  rw [exE_ok]
  decide +kernel

/-- Signing really panics for D = N-1 on a usable stream, and errs on a short one (C13). -/
example : signDigestRS exRd ⟨⟨.sm2p256v1, 0, 0⟩, N - 1⟩ [1] = .panic := by decide +kernel
example : signDigestRS (exRd.take 39) exKey [1] = .err "unexpected EOF" := by decide +kernel

/-- C10/C11: a concrete encoding, with a negative and a high-bit integer. -/
example : marshalSign (-129) 128 = .ok [0x30, 8, 2, 2, 0xff, 0x7f, 2, 2, 0, 0x80] ∧
    unmarshalSign [0x30, 8, 2, 2, 0xff, 0x7f, 2, 2, 0, 0x80] = .ok (-129, 128) ∧
    unmarshalSign [0x30, 9, 2, 2, 0xff, 0x7f, 2, 3, 0, 0, 0x80] = .err "not sm2 sign" ∧
    unmarshalSign [0x30, 8, 2, 2, 0xff, 0x7f, 2, 2, 0, 0x80, 0] = .err "not sm2 sign" := by decide +kernel

/-- C08: the hypothesis is met by r = 0 and by r + s = N. -/
example : verifyDigestRS exKey.pub [1] 0 1 = false ∧ verifyDigestRS exKey.pub [1] 1 (N - 1) = false :=
  ⟨(C08_ranges _ _ [] [] _ _ (by decide)).1,
   (C08_ranges _ _ [] [] _ _ (by right; right; right; right; decide +kernel)).1⟩

/-- C14: coordinates of the example are in range; the uid wrap is reachable. -/
example : exKey.pub.x < 256 ^ 32 ∧ exKey.pub.y < 256 ^ 32 := by decide +kernel
example : ofBytes (beBytes 2 (8 * (List.replicate 8192 (0 : UInt8)).length)) = 0 := by
  rw [List.length_replicate]; decide

end MCrypto.Sm2
