import Verif.Props.P12Der
/-
C125: PKCS#12 files that someone has changed. The MAC is over the contents of the authenticated safe, so what `DecodeAll`,
`Decode` and `ToPEM` return depends on these octets and the password alone, and a file that none of the files made with
the password agrees with in these octets is accepted only if its MAC was forged.
-/
namespace MCrypto.P12Spec
open MCrypto MCrypto.Dg MCrypto.X509Spec

/-- `data` is a PFX of version 3 (RFC 7292 4), to the last octet, whose authenticated safe has the contents `auth` and whose
MacData holds `digest`, `salt` and the iteration count `n`. Nothing is said about `auth` or whether the MAC is right. -/
def PfxMac (data digest salt : Bytes) (n : Int) (auth : Bytes) : Prop :=
  ∃ ve ce me junk c, El 0x30 (ve ++ (ce ++ (me ++ junk))) data ∧ Int64El 3 ve ∧
    ContentInfoEl [1, 2, 840, 113549, 1, 7, 1] c ce ∧ Whole auth c ∧ MacEl digest salt n me

end MCrypto.P12Spec

namespace MCrypto.Props
open MCrypto Asn1 P12 MCrypto.Dg MCrypto.X509 MCrypto.X509Spec P12Spec

theorem pfxMac_iff (data digest salt : Bytes) (n : Int) (auth : Bytes) :
    PfxMac data digest salt n auth ↔ ∃ pfx au, unmarshalAll pfxPdu data = .ok pfx ∧ pfx.version = 3 ∧
      pfx.authSafe.contentType = [1, 2, 840, 113549, 1, 7, 1] ∧ unmarshalAllRaw pfx.authSafe.content.bytes = .ok au ∧
      pfx.mac.mac.algorithm.algorithm = [1, 3, 14, 3, 2, 26] ∧ pfx.mac.mac.digest = digest ∧ pfx.mac.macSalt = salt ∧
      pfx.mac.iterations = n ∧ au.bytes = auth := by
  constructor
  · rintro ⟨ve, ce, me, junk, c, k1, k2, k5, hwhole, k6⟩
    obtain ⟨a, q1, q2, q3⟩ := (contentInfo_iff (ce ++ (me ++ junk)) c (me ++ junk) _ (whole_ne_nil hwhole)).mpr ⟨ce, rfl, k5⟩
    obtain ⟨md, q4, q5, rfl, rfl, rfl⟩ := (macField_iff (me ++ junk) junk digest salt n).mpr ⟨me, rfl, k6⟩
    obtain ⟨au, q6, rfl⟩ := (allRaw_iff _ _).mpr hwhole
    refine ⟨⟨3, a, md⟩, au, ?_, rfl, q2, by rw [q3]; exact q6, q5, rfl, rfl, rfl, rfl⟩
    rw [all_iff, field_iff pfxPdu (by decide) 0x30 (by decide)]
    refine ⟨data, _, (List.append_nil _).symm, k1, ?_⟩
    simp only [pfxPdu, Option.pure_def, Option.bind_eq_bind, Option.bind_eq_some_iff, Option.some.injEq, Prod.exists, int64_iff]
    exact ⟨3, _, ⟨ve, rfl, k2⟩, a, _, q1, md, junk, q4, rfl⟩
  · rintro ⟨pfx, auth, h1, hv, ht, h2, m1, rfl, rfl, rfl, rfl⟩
    rw [all_iff, field_iff pfxPdu (by decide) 0x30 (by decide)] at h1
    obtain ⟨e, body, rfl, k1, h1⟩ := h1
    simp only [pfxPdu, Option.pure_def, Option.bind_eq_bind, Option.bind_eq_some_iff, Option.some.injEq, Prod.exists,
      int64_iff] at h1
    obtain ⟨v, _, ⟨ve, rfl, k2⟩, a, s, k3, md, junk, k4, rfl⟩ := h1
    dsimp only at *
    subst hv
    have hwhole := (allRaw_iff _ _).mp ⟨auth, h2, rfl⟩
    obtain ⟨ce, rfl, k5⟩ := (contentInfo_iff _ _ _ _ (whole_ne_nil hwhole)).mp ⟨a, k3, ht, rfl⟩
    obtain ⟨me, rfl, k6⟩ := (macField_iff _ _ _ _ _).mp ⟨md, k4, m1, rfl, rfl, rfl⟩
    exact ⟨ve, ce, me, junk, _, by rw [List.append_nil]; exact k1, k2, k5, hwhole, k6⟩

/-- **C125** The octets of a file determine what the MAC is over, and the MAC. -/
theorem C125_unique {data d d' s s' : Bytes} {n n' : Int} {a a' : Bytes} (h : PfxMac data d s n a) (h' : PfxMac data d' s' n' a') :
    d = d' ∧ s = s' ∧ n = n' ∧ a = a' := by
  obtain ⟨pfx, au, h1, _, _, h2, _, rfl, rfl, rfl, rfl⟩ := (pfxMac_iff ..).mp h
  obtain ⟨pfx', au', h1', _, _, h2', _, rfl, rfl, rfl, rfl⟩ := (pfxMac_iff ..).mp h'
  rw [h1] at h1'
  obtain rfl := Res.ok.inj h1'
  rw [h2] at h2'
  obtain rfl := Res.ok.inj h2'
  exact ⟨rfl, rfl, rfl, rfl⟩

theorem safeContents_of_auth (P : Prims) {data d s : Bytes} {n : Int} {a pw : Bytes} (h : PfxMac data d s n a)
    (hm : d = mac P s pw n a) : getSafeContents P data pw = (do
      let authSafe ← unmarshalAll (seqOf P12.contentInfo) a
      if authSafe.length ≠ 2 then .err "NotImplementedError"
      else do
        let bags ← collectBags P pw authSafe []
        pure (bags, pw)) := by
  obtain ⟨pfx, au, h1, hv, ht, h2, m1, rfl, rfl, rfl, rfl⟩ := (pfxMac_iff ..).mp h
  have hck := (checkMac_iff P pfx.mac au.bytes pw pw).mpr ⟨m1, hm, Or.inl rfl⟩
  unfold getSafeContents
  rw [h1, Res.bind_ok, if_neg (by rw [hv]; simp), if_neg (by rw [ht]; simp [oidDataContentType]), h2, Res.bind_ok,
    if_neg (by rw [m1]; simp), hck, Res.bind_ok]

/-- **C125** Of two files with right MACs over the same octets every function returns the same, error or not. So
nobody gains by changing anything outside: salt and iteration count of the MAC, trailing octets, forms of lengths. -/
theorem C125_same_safe {κ : Type} (P : Prims) (edPub : Bytes → Bytes) (parseCerts : Bytes → Res (List κ)) (password pw : Bytes)
    (hpw : BmpPassword password pw) (data data' d d' s s' : Bytes) (n n' : Int) (auth : Bytes)
    (h : PfxMac data d s n auth) (hm : d = mac P s pw n auth) (h' : PfxMac data' d' s' n' auth) (hm' : d' = mac P s' pw n' auth) :
    decodeAll P edPub parseCerts data password = decodeAll P edPub parseCerts data' password ∧
    decode P edPub parseCerts data password = decode P edPub parseCerts data' password ∧
    toPEM P edPub data password = toPEM P edPub data' password := by
  have hb := (bmpPassword_iff _ _).mpr hpw
  have hg : getSafeContents P data pw = getSafeContents P data' pw := by
    rw [safeContents_of_auth P h hm, safeContents_of_auth P h' hm']
  have hw : ∀ keep, decodeWith P edPub parseCerts keep data password = decodeWith P edPub parseCerts keep data' password := by
    intro keep
    unfold decodeWith
    rw [hb, Res.bind_ok, Res.bind_ok, hg]
  refine ⟨hw true, ?_, ?_⟩
  · unfold decode; rw [hw false]
  · unfold toPEM; rw [hb]; simp only []; rw [hg]

/-- **C125** Every file that `Encode` makes is such a file, with the right MAC under the password. -/
theorem C125_encode (P : Prims) (key : PrivKey) (leaf : Bytes) (cas : List Bytes) (password : Bytes) (rnd rnd' : Reader) (pfx : Bytes)
    (h : encode P key leaf cas password rnd = .ok (pfx, rnd')) (hlen : pfx.length < 2 ^ 31) :
    ∃ pw salt n auth, BmpPassword password pw ∧ PfxMac pfx (mac P salt pw n auth) salt n auth := by
  obtain ⟨pw, lb, cb, kb, kd, h1, h2, h3, -⟩ := encode_getSafeContents P (fun b => b) h hlen
  obtain ⟨pfx', au, ci1, ci2, d1, d2, b1, b2, g1, hv, ht, g2, m1, m2, m3, -⟩ := (C36_getSafeContents_iff _ _ _ _ _).mp h3
  exact ⟨pw, pfx'.mac.macSalt, pfx'.mac.iterations, au.bytes, (bmpPassword_iff _ _).mp h1,
    (pfxMac_iff ..).mpr ⟨pfx', au, g1, hv, ht, g2, m1, m2, rfl, rfl, rfl⟩⟩

/-- A call of `Encode`: what was put into the file, and the file. -/
structure Call where
  key : PrivKey
  leaf : Bytes
  cas : List Bytes
  file : Bytes

/-- The calls were made with this password, whatever the random octets; key and certificates can be read back. -/
def MadeWith {κ : Type} (P : Prims) (edPub : Bytes → Bytes) (parseCerts : Bytes → Res (List κ)) (password : Bytes) (c : Call) : Prop :=
  (∃ rnd rnd', encode P c.key c.leaf c.cas password rnd = .ok (c.file, rnd')) ∧ c.file.length < 2 ^ 31 ∧
  (∀ kb, marshalPKCS8PrivateKey c.key = .ok kb → parsePKCS8PrivateKey edPub kb = .ok c.key) ∧
  ∃ x xs, parseCerts c.leaf = .ok [x] ∧ List.Forall₂ (fun raw c => parseCerts raw = .ok [c]) c.cas xs

/-- **C125** Whoever changes or replaces a file: let `calls` be all the files made with the password. Whatever octets
`DecodeAll` accepts with the password, it returns the key and certificates that were put into one of these files, or
the octets hold a right MAC over an authenticated safe that is in none of these files (a forgery of the MAC under the
password), or the password is empty and they hold a right MAC for the absent password. -/
theorem C125_tampered {κ : Type} (P : Prims) (edPub : Bytes → Bytes) (parseCerts : Bytes → Res (List κ)) (password : Bytes)
    (calls : Set Call) (hc : ∀ c ∈ calls, MadeWith P edPub parseCerts password c) (data : Bytes) (k : PrivKey) (cs : List κ)
    (h : decodeAll P edPub parseCerts data password = .ok (k, cs)) :
    (∃ c ∈ calls, k = c.key ∧ List.Forall₂ (fun raw c => parseCerts raw = .ok [c]) (c.leaf :: c.cas) cs) ∨
    (∃ pw salt n auth, BmpPassword password pw ∧ PfxMac data (mac P salt pw n auth) salt n auth ∧
      ∀ c ∈ calls, ∀ d' s' n' auth', PfxMac c.file d' s' n' auth' → auth ≠ auth') ∨
    (password = [] ∧ ∃ salt n auth, PfxMac data (mac P salt [] n auth) salt n auth) := by
  have h0 := h
  unfold decodeAll decodeWith at h
  simp only [Res.bind_eq_ok, Prod.exists] at h
  obtain ⟨pw, hpw, bags, pw', hg, -⟩ := h
  have hb := (bmpPassword_iff _ _).mp hpw
  obtain ⟨pfx, au, ci1, ci2, d1, d2, b1, b2, g1, hv, ht, g2, m1, m2, m3, -⟩ := (C36_getSafeContents_iff _ _ _ _ _).mp hg
  have hx : PfxMac data (mac P pfx.mac.macSalt pw' pfx.mac.iterations au.bytes) pfx.mac.macSalt pfx.mac.iterations au.bytes :=
    (pfxMac_iff ..).mpr ⟨pfx, au, g1, hv, ht, g2, m1, m2, rfl, rfl, rfl⟩
  rcases m3 with rfl | ⟨h1, rfl, -⟩
  · by_cases hex : ∃ c ∈ calls, ∃ d' s' n', PfxMac c.file d' s' n' au.bytes
    · obtain ⟨c, hc1, d', s', n', hp⟩ := hex
      left
      obtain ⟨⟨rnd, rnd', he⟩, hl, hk, x, xs, hx1, hxs⟩ := hc c hc1
      obtain ⟨pw2, salt2, n2, auth2, hb2, hp2⟩ := C125_encode P _ _ _ _ _ _ _ he hl
      obtain rfl : pw2 = pw' := by
        have := (bmpPassword_iff _ _).mpr hb2
        rw [hpw] at this; exact (Res.ok.inj this).symm
      obtain ⟨rfl, rfl, rfl, rfl⟩ := C125_unique hp hp2
      have hs := (C125_same_safe P edPub parseCerts password _ hb _ _ _ _ _ _ _ _ _ hx rfl hp rfl).1
      rw [h0, C35_encode_decodeAll P edPub parseCerts _ _ _ _ _ _ _ he hl hk x hx1 xs hxs] at hs
      simp only [Res.ok.injEq, Prod.mk.injEq] at hs
      obtain ⟨rfl, rfl⟩ := hs
      exact ⟨c, hc1, rfl, .cons hx1 hxs⟩
    · right; left
      refine ⟨_, _, _, _, hb, hx, ?_⟩
      rintro c hc1 d' s' n' auth' hp rfl
      exact hex ⟨c, hc1, d', s', n', hp⟩
  · right; right
    refine ⟨?_, _, _, _, hx⟩
    subst h1
    obtain ⟨hr, he⟩ := hb
    have hl : (Utf.runes password) = [] := by
      have := congrArg List.length he
      rw [be16_append] at this
      cases hq : Utf.runes password with
      | nil => rfl
      | cons a l => rw [hq] at this; simp [be16] at this
    cases password with
    | nil => rfl
    | cons a l =>
      rw [Utf.runes, List.length_cons, Utf.runesAux] at hl
      split at hl <;> simp at hl

end MCrypto.Props

namespace MCrypto.Props.P12Ex
open MCrypto Asn1 P12 P12Spec MCrypto.X509 MCrypto.X509Spec MCrypto.Props

/-- The file of C35 with two octets more at the end of its sequence. -/
def changed : Bytes := [0x30, 0x82, 0x02, 0x41] ++ pfx.drop 4 ++ [5, 0]

/-- Both are accepted with the password, though they are different; and what comes out is what was put into the one. -/
example : changed ≠ pfx ∧ ∃ k cs, decodeAll toy id parse1 changed [0x41] = .ok (k, cs) ∧ cs = [7, 8, 9] ∧
    ∀ calls : Set Call, (∀ c ∈ calls, MadeWith toy id parse1 [0x41] c) →
      (∃ c ∈ calls, k = c.key ∧ List.Forall₂ (fun raw c => parse1 raw = .ok [c]) (c.leaf :: c.cas) cs) ∨
      (∃ pw salt n auth, BmpPassword [0x41] pw ∧ PfxMac changed (mac toy salt pw n auth) salt n auth ∧
        ∀ c ∈ calls, ∀ d' s' n' auth', PfxMac c.file d' s' n' auth' → auth ≠ auth') := by
  refine ⟨?_, ?_⟩
  · intro h
    have h1 := congrArg List.length h
    rw [pfx_length] at h1
    have h2 : changed.length = 581 := by
      unfold changed
      simp only [List.length_append, List.length_drop, pfx_length]
      rfl
    omega
  · have hok : (decodeAll toy id parse1 changed [0x41]).map' (·.2) = .ok [7, 8, 9] := by decide +kernel
    cases h : decodeAll toy id parse1 changed [0x41] with
    | ok r =>
      obtain ⟨k, cs⟩ := r
      rw [h] at hok
      refine ⟨k, cs, rfl, by simpa [Res.map'] using hok, fun calls hc => ?_⟩
      rcases C125_tampered toy id parse1 [0x41] calls hc changed k cs h with h1 | h1 | h1
      · exact Or.inl h1
      · exact Or.inr h1
      · cases h1.1
    | err e => rw [h] at hok; cases hok
    | panic => rw [h] at hok; cases hok

/-- There is such a call. -/
example : MadeWith toy id parse1 [0x41] ⟨.sm2 key2, [7], [[8], [9]], pfx⟩ := by
  obtain ⟨r, hr⟩ := pfx_eq
  refine ⟨⟨rnd, r, hr⟩, by show pfx.length < _; rw [pfx_length]; decide, ?_, 7, [8, 9], rfl, .cons rfl (.cons rfl .nil)⟩
  intro kb hkb
  obtain ⟨kb', h1, h2⟩ := C53_pkcs8_sm2_roundtrip id key2 key2_pair rfl []
  rw [List.append_nil] at h2
  have he : kb' = kb := Res.ok.inj (h1.symm.trans hkb)
  rw [← he]; exact h2

end MCrypto.Props.P12Ex
