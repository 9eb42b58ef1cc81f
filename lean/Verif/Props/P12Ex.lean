import Verif.Props.P12Helpers
/-
Concrete PFX files, evaluated by the kernel: the hypotheses of C35-C39 and C66 are met. The primitives here are
toy ones (a constant as hash, the identity as block cipher): 2048 rounds of SHA-1 are too
much for the kernel, and the theorems hold for any primitives.
-/
namespace MCrypto.Props.P12Ex
open MCrypto Asn1 P12 P12Spec MCrypto.X509 MCrypto.X509Spec MCrypto.Props

def toyHash (_ : Bytes) : Bytes := List.replicate 20 0x5a

def toy : Prims where
  sha1 := toyHash
  tdesEnc _ b := b
  tdesDec _ b := b
  sha1_length := by intro m; simp [toyHash]
  tdesEnc_length := by intro _ _ _ h; exact h
  tdesDec_length := by intro _ _ _ h; exact h
  tdes_dec_enc := by intro _ _ _ _; rfl
  tdes_enc_dec := by intro _ _ _ _; rfl

/-- The key pair with D = 2. -/
def key2 : Sm2.PrivateKey :=
  let q := Curve.scalarMult sm2p256.p sm2p256.g [2]
  ⟨⟨.sm2p256v1, q.1, q.2⟩, 2⟩

theorem key2_pair : IsKeyPair key2 := by
  refine ⟨sm2p256, rfl, ?_, rfl⟩
  show 2 < sm2p256.n
  decide +kernel

/-- A "certificate parser" that accepts one-byte certificates. -/
def parse1 : Bytes → Res (List Nat)
  | [b] => .ok [b.toNat]
  | _ => .err "not a certificate"

def rnd : Reader := (List.range 24).map UInt8.ofNat

/-- A PFX with SM2 key, leaf certificate 7 and CA certificates 8 and 9 under the password "A" -/
def pfx : Bytes := match encode toy (.sm2 key2) [7] [[8], [9]] [0x41] rnd with | .ok (b, _) => b | _ => []

/-- `Encode` succeeds and the file is small (kernel evaluation). -/
theorem pfx_length : pfx.length = 579 := by decide +kernel
theorem pfx_eq : ∃ r, encode toy (.sm2 key2) [7] [[8], [9]] [0x41] rnd = .ok (pfx, r) := by
  have hl := pfx_length
  unfold pfx at hl ⊢
  cases h : encode toy (.sm2 key2) [7] [[8], [9]] [0x41] rnd with
  | ok v => exact ⟨v.2, rfl⟩
  | err e => rw [h] at hl; simp at hl
  | panic => rw [h] at hl; simp at hl

/-- C35: the hypotheses are met; the decoder returns the key and the certificates in order. -/
theorem pfx_decodes (edPub : Bytes → Bytes) :
    decodeAll toy edPub parse1 pfx [0x41] = .ok (.sm2 key2, [7, 8, 9]) := by
  obtain ⟨r, hr⟩ := pfx_eq
  obtain ⟨p, r', h1, h2⟩ := C35_sm2_roundtrip toy edPub parse1 key2 key2_pair rfl [7] [[8], [9]] [0x41]
    (by decide +kernel) rnd (by decide) 7 rfl [8, 9] (.cons rfl (.cons rfl .nil))
  rw [hr] at h1
  injection h1 with h1
  injection h1 with h1 _
  subst h1
  exact h2 (by rw [pfx_length]; decide)

/-- C36/C38: the file opens, with four bags, under its password, and not under another one. -/
example : ∃ pw bags pw', bmpString [0x41] = .ok pw ∧ Opens toy pfx pw bags pw' :=
  (C36_decode_needs_mac toy id parse1 pfx [0x41]).1 _ (pfx_decodes id)

/-- The file with another MAC value. -/
def tampered : Bytes := pfx.take 549 ++ List.replicate 20 0x5b ++ pfx.drop 569
example : getSafeContents toy tampered [0, 0x41, 0, 0] = .err "ErrIncorrectPassword" := by decide +kernel
example : toPEM toy id tampered [0x41] = .ok [] := by decide +kernel

/-- C39: a file system that keeps what is written. -/
example (edPub : Bytes → Bytes) : ∃ s r,
    sm2P12Encrypt toy (fun b => .ok b) [7] [0x41] key2 rnd = .ok (s, r) ∧
    sm2P12Decrypt toy edPub parse1 (s, none) [0x41] = .ok (some (7, .sm2 key2)) := by
  have hok : ((sm2P12Encrypt toy (fun b => .ok b) [7] [0x41] key2 rnd).map' (·.1.length)) = .ok 497 := by decide +kernel
  cases h : sm2P12Encrypt toy (fun b => .ok b) [7] [0x41] key2 rnd with
  | ok v =>
    obtain ⟨s, r⟩ := v
    rw [h] at hok
    refine ⟨s, r, rfl, ?_⟩
    refine C39_roundtrip toy edPub parse1 (fun b => .ok b) (fun s => (s, none)) (fun b s h => ?_) key2 key2_pair rfl
      (by decide) [7] 7 rfl [0x41] rnd r s h ?_
    · injection h with h; rw [h]
    · have : s.length = 497 := by simpa [Res.map'] using hok
      show s.length < _
      omega
  | err e => rw [h] at hok; cases hok
  | panic => rw [h] at hok; cases hok

end MCrypto.Props.P12Ex
