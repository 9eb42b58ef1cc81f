import Verif.Props.Disjoint
import Verif.Props.P12Helpers
import Verif.Props.P12Ex
/-
C109: a file that was cut short, by a crash while it was written or on the way, is never taken for a whole one.
(x509/*.go parsers and writers, pkcs12/pkcs12.go Encode, Decode, DecodeAll, ToPEM, SM2P12Encrypt, SM2P12Decrypt.)
-/
namespace MCrypto.Props
open MCrypto MCrypto.Asn1 MCrypto.X509 MCrypto.X509Spec MCrypto.P12 MCrypto.P12Spec MCrypto.Dg

/-- No parser takes a proper prefix of one whole sequence element. -/
theorem elem_prefix {d b p t : Bytes} (h : Elem 0x30 b d) (hd : d = p ++ t) (ht : t ≠ []) (k : Kind) : ¬ Accepts p k := by
  intro ha
  obtain ⟨b', e, r, h1, h2, -⟩ := accepts_tags ha
  have : e ++ (r ++ t) = d ++ [] := by rw [List.append_nil, hd, h1, List.append_assoc]
  obtain ⟨-, -, -, hr⟩ := elem_unique h2 h this
  exact ht (List.append_eq_nil_iff.mp hr).2

/-- The kinds whose parsers refuse octets after the object. -/
def Strict (k : Kind) : Prop := k ≠ .pkcs8 ∧ k ≠ .sec1

theorem strict_elem {der : Bytes} {k : Kind} (h : Accepts der k) (hk : Strict k) : ∃ b, Elem 0x30 b der := by
  cases k with
  | certificate =>
    obtain ⟨env, c, h⟩ := h
    obtain ⟨f, k, h, -⟩ := (C70_accept_iff env der).mp ⟨c, h⟩
    obtain ⟨_, _, _, _, _, _, _, _, h1, -⟩ := h
    exact ⟨_, h1⟩
  | revocationList =>
    obtain ⟨c, h⟩ := h
    obtain ⟨_, _, _, _, _, h1, -⟩ := (C94_crl_grammar der _).mp ⟨c, h, rfl⟩
    exact ⟨_, el_elem h1⟩
  | request =>
    obtain ⟨env, c, h⟩ := h
    obtain ⟨f, k, _, _, _, h, -⟩ := (C95_csr_grammar env der c).mp h
    obtain ⟨_, _, _, _, _, _, h1, -⟩ := h
    exact ⟨_, el_elem h1⟩
  | pkcs7 =>
    obtain ⟨env, p, h⟩ := h
    obtain ⟨sd, _, _, h, -⟩ := (C96_parse_grammar env der _).mp ⟨p, h, rfl⟩
    obtain ⟨_, _, h1, -⟩ := h
    exact ⟨_, el_elem h1⟩
  | pfx =>
    obtain ⟨P, edPub, κ, parseCerts, password, h⟩ := h
    have : ∃ pw bags pw', P12Spec.PfxDer P der pw bags pw' := by
      rcases h with ⟨k, c, h⟩ | ⟨k, c, h⟩
      · obtain ⟨pw, bags, pw', _, _, -, h, -⟩ := (C97_decode_grammar P edPub _ der password k c).mp h
        exact ⟨_, _, _, h⟩
      · obtain ⟨pw, bags, pw', _, _, -, h, -⟩ := (C97_decodeAll_grammar P edPub _ der password k c).mp h
        exact ⟨_, _, _, h⟩
    obtain ⟨pw, bags, pw', h⟩ := this
    obtain ⟨_, _, _, _, _, _, _, _, _, _, _, _, _, _, _, h1, -⟩ := h
    exact ⟨_, el_elem h1⟩
  | publicKey =>
    obtain ⟨k, h⟩ := h
    obtain ⟨_, _, _, h, -⟩ := (C93_pkix_grammar der k).mp h
    obtain ⟨_, _, _, h1, -⟩ := h
    exact ⟨_, el_elem h1⟩
  | pkcs8 => exact absurd rfl hk.1
  | pkcs1 =>
    obtain ⟨k, h⟩ := h
    obtain ⟨h, -⟩ := (C92_pkcs1_private_grammar der k).mp h
    obtain ⟨_, _, _, _, _, _, _, _, _, _, _, _, _, _, _, h1, -⟩ := h
    exact ⟨_, el_elem h1⟩
  | sec1 => exact absurd rfl hk.2

/-- **C109** What is left of an accepted certificate, revocation list, request, PKCS #7 message, PFX file, public key or
PKCS #1 key when octets at its end are missing is accepted by no parser, neither of its own kind nor of another one. -/
theorem C109_truncated (d t : Bytes) (k : Kind) (h : Accepts (d ++ t) k) (hk : Strict k) (ht : t ≠ []) (k' : Kind) :
    ¬ Accepts d k' := by
  obtain ⟨b, hb⟩ := strict_elem h hk
  exact elem_prefix hb rfl ht k'

/-- **C109** The parsers of PKCS #8 and SEC 1 ignore octets after the object; what they accept consists of an object and ignored
octets, and nothing that lacks an octet of the object is accepted by any parser. -/
theorem C109_truncated_tolerant (der : Bytes) (k : Kind) (h : Accepts der k) :
    ∃ e r b, der = e ++ r ∧ Elem 0x30 b e ∧ ∀ p t, e = p ++ t → t ≠ [] → ∀ k', ¬ Accepts p k' := by
  obtain ⟨b, e, r, h1, h2, -⟩ := accepts_tags h
  exact ⟨e, r, b, h1, h2, fun p t he ht k' => elem_prefix h2 he ht k'⟩

theorem marshal_elem {α : Type} [DecidableEq α] {c : Codec α} {v : α} {e : Bytes} (h : marshal c v = some e)
    (hc : c.tag = 16) (hp : c.compound = true) (hl : e.length < 2 ^ 31) : ∃ b, Elem 0x30 b e := by
  unfold marshal marshalField at h
  rw [if_neg (by simp)] at h
  split at h
  · cases h
  · rename_i body hb
    simp only [Bool.false_eq_true, if_false, Option.some.injEq] at h
    rw [hc, hp] at h
    have ht : e = Der.tlv 0x30 body := by rw [← h]; rfl
    refine ⟨body, ht, by decide, ?_⟩
    rw [ht] at hl
    unfold Der.tlv at hl
    simp only [List.length_cons, List.length_append] at hl
    omega

/-- **C109** Nothing that lacks an octet of what the writers of keys returned is accepted by any parser. -/
theorem C109_keys (w p t : Bytes) (hw : (∃ k, marshalPKCS8PrivateKey k = .ok w) ∨ (∃ k, marshalECPrivateKey k = .ok w))
    (hl : w.length < 2 ^ 31) (hp : w = p ++ t) (ht : t ≠ []) (k : Kind) : ¬ Accepts p k := by
  have : ∃ b, Elem 0x30 b w := by
    rcases hw with ⟨k, h⟩ | ⟨k, h⟩
    · unfold marshalPKCS8PrivateKey at h
      simp only [Res.bind_eq_ok, ofOption_ok'] at h
      obtain ⟨s, -, h⟩ := h
      exact marshal_elem h rfl rfl hl
    · unfold marshalECPrivateKey at h
      split at h
      · unfold marshalECPrivateKeyWithOID at h
        simp only [Res.bind_eq_ok, ofOption_ok'] at h
        obtain ⟨_, -, _, -, h⟩ := h
        exact marshal_elem h rfl rfl hl
      · cases h
  obtain ⟨b, hb⟩ := this
  exact elem_prefix hb hp ht k

theorem encode_elem {P : Prims} {key : PrivKey} {cert : Bytes} {cas : List Bytes} {password : Bytes} {rnd rnd' : Reader} {pfx : Bytes}
    (h : encode P key cert cas password rnd = .ok (pfx, rnd')) (hl : pfx.length < 2 ^ 31) : ∃ b, Elem 0x30 b pfx := by
  unfold encode at h
  simp only [Res.bind_eq_ok, Res.pure_eq, Prod.exists, Res.ok.injEq, Prod.mk.injEq] at h
  obtain ⟨_, -, _, -, _, -, _, -, _, _, -, _, _, -, _, _, -, _, -, _, _, -, _, -, _, -, w, hw, rfl, -⟩ := h
  unfold marshalR at hw
  rw [ofOption_ok'] at hw
  exact marshal_elem hw rfl rfl hl

/-- **C109** A PFX file that is cut short is an error for `Decode`, `DecodeAll` and `SM2P12Decrypt` with every password. `ToPEM`
reports no error, but returns no blocks (or the error of the password). -/
theorem C109_pfx (P P' : Prims) (key : PrivKey) (cert : Bytes) (cas : List Bytes) (password : Bytes) (rnd rnd' : Reader) (pfx p t : Bytes)
    (h : encode P key cert cas password rnd = .ok (pfx, rnd')) (hl : pfx.length < 2 ^ 31) (hp : pfx = p ++ t) (ht : t ≠ [])
    {κ : Type} (edPub : Bytes → Bytes) (parseCerts : Bytes → Res (List κ)) (hpc : ∀ b, parseCerts b ≠ .panic) (pw : Bytes) (re : Option String) :
    (∃ e, decode P' edPub parseCerts p pw = .err e) ∧ (∃ e, decodeAll P' edPub parseCerts p pw = .err e) ∧
    (∃ e, sm2P12Decrypt P' edPub parseCerts (p, re) pw = .err e) ∧
    (toPEM P' edPub p pw = .ok [] ∨ ∃ e, toPEM P' edPub p pw = .err e) := by
  obtain ⟨b, hb⟩ := encode_elem h hl
  have hno := elem_prefix hb hp ht .pfx
  have herr : ∀ {α : Type} (r : Res α), r ≠ .panic → (∀ v, r ≠ .ok v) → ∃ e, r = .err e := by
    intro α r h1 h2
    cases r with
    | ok v => exact absurd rfl (h2 v)
    | err e => exact ⟨e, rfl⟩
    | panic => exact absurd rfl h1
  obtain ⟨np1, np2, np3⟩ := C66_decode_no_panic P' edPub parseCerts hpc p pw re
  have n1 : ∀ v, decodeAll P' edPub parseCerts p pw ≠ .ok v := fun v hv =>
    hno ⟨P', edPub, κ, parseCerts, pw, Or.inr ⟨v.1, v.2, hv⟩⟩
  refine ⟨herr _ np2 fun v hv => hno ⟨P', edPub, κ, parseCerts, pw, Or.inl ⟨v.1, v.2, hv⟩⟩, herr _ np1 n1, herr _ np3 ?_, ?_⟩
  · intro v hv
    obtain ⟨c, k, cs, -, h, -⟩ := C39_decrypt_sound P' edPub parseCerts (p, re) pw v hv
    exact n1 _ h
  · cases hbl : toPEM P' edPub p pw with
    | err e => exact Or.inr ⟨e, rfl⟩
    | panic => exact absurd hbl (C66_toPEM_no_panic _ _ _ _)
    | ok bl =>
      left
      obtain ⟨q, -, ⟨-, h0⟩ | ⟨bags, pw', h0, -⟩⟩ := (C98_toPEM_grammar P' edPub p pw (bl.map asPem)).mp ⟨bl, hbl, rfl⟩
      · rw [List.map_eq_nil_iff.mp h0]
      · exfalso
        obtain ⟨_, _, _, _, _, _, _, _, _, _, _, _, _, _, _, h1, -⟩ := h0
        have he : p ++ t = pfx ++ [] := by rw [List.append_nil, hp]
        obtain ⟨-, -, -, hr⟩ := elem_unique (el_elem h1) hb he
        exact ht hr

/-- **C109** Crash while `SM2P12Encrypt` writes the file: whatever part of it is on the disk, `SM2P12Decrypt` returns the key and
the certificate if it is all there, and an error otherwise, never something else. -/
theorem C109_crash {κ : Type} (P : Prims) (edPub : Bytes → Bytes) (parseCerts : Bytes → Res (List κ)) (hpc : ∀ b, parseCerts b ≠ .panic)
    (k : Sm2.PrivateKey) (hk : IsKeyPair k) (hcurve : k.pub.curve = .sm2p256v1) (hd : k.d ≠ 0) (leaf : Bytes) (c : κ)
    (hc : parseCerts leaf = .ok [c]) (password : Bytes) (rnd rnd' : Reader) (pfx : Bytes)
    (h : sm2P12Encrypt P .ok leaf password k rnd = .ok (pfx, rnd')) (hl : pfx.length < 2 ^ 31) (n : Nat) (re : Option String) :
    (pfx.length ≤ n → sm2P12Decrypt P edPub parseCerts (pfx.take n, re) password = .ok (some (c, .sm2 k))) ∧
    (n < pfx.length → ∃ e, sm2P12Decrypt P edPub parseCerts (pfx.take n, re) password = .err e) := by
  constructor
  · intro hn
    rw [List.take_of_length_le hn]
    exact C39_roundtrip P edPub parseCerts .ok (fun s => (s, none)) (fun b s hs => by rw [Res.ok.inj hs]) k hk hcurve hd leaf c hc
      password rnd rnd' pfx h hl
  · intro hn
    unfold sm2P12Encrypt at h
    simp only [Res.bind_eq_ok, Res.pure_eq, Prod.exists, Res.ok.injEq, Prod.mk.injEq] at h
    obtain ⟨w, r, he, s', rfl, rfl, rfl⟩ := h
    refine (C109_pfx P P (.sm2 k) leaf [] password rnd r w (w.take n) (w.drop n) he hl (List.take_append_drop n w).symm ?_ edPub
      parseCerts hpc password re).2.2.1
    intro h0
    have := congrArg List.length h0
    simp only [List.length_drop, List.length_nil] at this
    omega

/-- The hypotheses are met: an accepted revocation list, and a PFX file of 497 octets cut after 496. -/
example (k : Kind) : ¬ Accepts (exCrlDer.take 40) k := by
  refine C109_truncated (exCrlDer.take 40) (exCrlDer.drop 40) .revocationList ?_ ⟨by decide, by decide⟩ (by decide +kernel) k
  rw [List.take_append_drop]
  exact ok_of (by decide +kernel)

example (edPub : Bytes → Bytes) : ∃ s r, sm2P12Encrypt P12Ex.toy .ok [7] [0x41] P12Ex.key2 P12Ex.rnd = .ok (s, r) ∧ s.length = 497 ∧
    ∃ e, sm2P12Decrypt P12Ex.toy edPub P12Ex.parse1 (s.take 496, none) [0x41] = .err e := by
  have hok : ((sm2P12Encrypt P12Ex.toy .ok [7] [0x41] P12Ex.key2 P12Ex.rnd).map' (·.1.length)) = .ok 497 := by decide +kernel
  cases h : sm2P12Encrypt P12Ex.toy .ok [7] [0x41] P12Ex.key2 P12Ex.rnd with
  | ok v =>
    obtain ⟨s, r⟩ := v
    rw [h] at hok
    have hl : s.length = 497 := by simpa [Res.map'] using hok
    exact ⟨s, r, rfl, hl, (C109_crash P12Ex.toy edPub P12Ex.parse1 (by intro b; unfold P12Ex.parse1; split <;> simp) P12Ex.key2
      P12Ex.key2_pair rfl (by decide) [7] 7 rfl [0x41] P12Ex.rnd r s h (by omega) 496 none).2 (by omega)⟩
  | err e => rw [h] at hok; cases hok
  | panic => rw [h] at hok; cases hok

end MCrypto.Props
