import Verif.Props.P12Pfx
/-
Properties C35 (instances), C36-C39 and C66.
-/
namespace MCrypto.Props
open MCrypto Asn1 P12 MCrypto.X509 MCrypto.X509Spec P12Spec

/-! ### C35 for concrete key types -/

/-- C35 for SM2 keys: every SM2 key pair, every BMP password; `Encode` succeeds and `DecodeAll` inverts it. -/
theorem C35_sm2_roundtrip {κ : Type} (P : Prims) (edPub : Bytes → Bytes) (parseCerts : Bytes → Res (List κ))
    (k : Sm2.PrivateKey) (hk : IsKeyPair k) (hcurve : k.pub.curve = .sm2p256v1)
    (leaf : Bytes) (cas : List Bytes) (password : Bytes) (hpw : ∀ r ∈ Utf.runes password, r ≤ 0xFFFF)
    (rnd : Reader) (hr : 24 ≤ rnd.length)
    (c : κ) (hc : parseCerts leaf = .ok [c]) (cs : List κ)
    (hcs : List.Forall₂ (fun raw c => parseCerts raw = .ok [c]) cas cs) :
    ∃ pfx rnd', encode P (.sm2 k) leaf cas password rnd = .ok (pfx, rnd') ∧
      (pfx.length < 2 ^ 31 → decodeAll P edPub parseCerts pfx password = .ok (.sm2 k, c :: cs)) := by
  obtain ⟨kb, hkb, hp⟩ := C53_pkcs8_sm2_roundtrip edPub k hk hcurve []
  rw [List.append_nil] at hp
  obtain ⟨pfx, rnd', h⟩ := (C35_encode_succeeds_iff P (.sm2 k) leaf cas password rnd).mpr
    ⟨(C30_bmpString_fails_iff password).mpr hpw, ⟨kb, hkb⟩, hr⟩
  refine ⟨pfx, rnd', h, fun hl => C35_encode_decodeAll P edPub parseCerts _ leaf cas password rnd rnd' pfx h hl ?_ c hc cs hcs⟩
  intro kb' hkb'
  rw [hkb] at hkb'
  injection hkb' with hkb'
  subst hkb'
  exact hp

/-- C35 for ECDSA keys on the NIST curves. -/
theorem C35_ecdsa_roundtrip {κ : Type} (P : Prims) (edPub : Bytes → Bytes) (parseCerts : Bytes → Res (List κ))
    (k : Sm2.PrivateKey) (hk : IsKeyPair k) (hcurve : k.pub.curve ≠ .sm2p256v1)
    (leaf : Bytes) (cas : List Bytes) (password : Bytes) (hpw : ∀ r ∈ Utf.runes password, r ≤ 0xFFFF)
    (rnd : Reader) (hr : 24 ≤ rnd.length)
    (c : κ) (hc : parseCerts leaf = .ok [c]) (cs : List κ)
    (hcs : List.Forall₂ (fun raw c => parseCerts raw = .ok [c]) cas cs) :
    ∃ pfx rnd', encode P (.ecdsa k) leaf cas password rnd = .ok (pfx, rnd') ∧
      (pfx.length < 2 ^ 31 → decodeAll P edPub parseCerts pfx password = .ok (.ecdsa k, c :: cs)) := by
  obtain ⟨kb, hkb, hp⟩ := C53_pkcs8_ecdsa_roundtrip edPub k hk hcurve []
  rw [List.append_nil] at hp
  obtain ⟨pfx, rnd', h⟩ := (C35_encode_succeeds_iff P (.ecdsa k) leaf cas password rnd).mpr
    ⟨(C30_bmpString_fails_iff password).mpr hpw, ⟨kb, hkb⟩, hr⟩
  refine ⟨pfx, rnd', h, fun hl => C35_encode_decodeAll P edPub parseCerts _ leaf cas password rnd rnd' pfx h hl ?_ c hc cs hcs⟩
  intro kb' hkb'
  rw [hkb] at hkb'
  injection hkb' with hkb'
  subst hkb'
  exact hp

/-- C35 for RSA keys. -/
theorem C35_rsa_roundtrip {κ : Type} (P : Prims) (edPub : Bytes → Bytes) (parseCerts : Bytes → Res (List κ))
    (k : RsaPriv) (hk : IsRsaKey k) (hf : Factors k.primes)
    (leaf : Bytes) (cas : List Bytes) (password : Bytes) (hpw : ∀ r ∈ Utf.runes password, r ≤ 0xFFFF)
    (rnd : Reader) (hr : 24 ≤ rnd.length)
    (c : κ) (hc : parseCerts leaf = .ok [c]) (cs : List κ)
    (hcs : List.Forall₂ (fun raw c => parseCerts raw = .ok [c]) cas cs) :
    ∃ kb, marshalPKCS1PrivateKey k = .ok kb ∧ (kb.length < 2 ^ 30 - 100 →
    ∃ pfx rnd', encode P (.rsa k) leaf cas password rnd = .ok (pfx, rnd') ∧
      (pfx.length < 2 ^ 31 → decodeAll P edPub parseCerts pfx password = .ok (.rsa k, c :: cs))) := by
  obtain ⟨kb0, hkb0, hrt⟩ := C53_pkcs8_rsa_roundtrip edPub k hk hf []
  refine ⟨kb0, hkb0, fun hl0 => ?_⟩
  obtain ⟨kb, hkb, hp⟩ := hrt hl0
  rw [List.append_nil] at hp
  obtain ⟨pfx, rnd', h⟩ := (C35_encode_succeeds_iff P (.rsa k) leaf cas password rnd).mpr
    ⟨(C30_bmpString_fails_iff password).mpr hpw, ⟨kb, hkb⟩, hr⟩
  refine ⟨pfx, rnd', h, fun hl => C35_encode_decodeAll P edPub parseCerts _ leaf cas password rnd rnd' pfx h hl ?_ c hc cs hcs⟩
  intro kb' hkb'
  rw [hkb] at hkb'
  injection hkb' with hkb'
  subst hkb'
  exact hp

/-! ### C36 The MAC comes first -/

theorem checkMac_iff (P : Prims) (md : MacData) (content password pw' : Bytes) :
    checkMac P md content password = .ok pw' ↔
      md.mac.algorithm.algorithm = [1, 3, 14, 3, 2, 26] ∧
      md.mac.digest = mac P md.macSalt pw' md.iterations content ∧
      (pw' = password ∨ (password = [0, 0] ∧ pw' = [] ∧
        md.mac.digest ≠ mac P md.macSalt password md.iterations content)) := by
  obtain ⟨h1, h2, h3, h4⟩ := C34_verifyMac_iff P md content password
  obtain ⟨g1, g2, g3, g4⟩ := C34_verifyMac_iff P md content []
  unfold checkMac
  match hv : verifyMac P md content password with
  | .ok u =>
    have := h1.mp hv
    simp only [Res.ok.injEq]
    constructor
    · rintro rfl; exact ⟨this.1, this.2, Or.inl rfl⟩
    · rintro ⟨_, _, h | ⟨_, _, h⟩⟩
      · exact h.symm
      · exact absurd this.2 h
  | .panic => exact absurd hv h4
  | .err e =>
    simp only []
    split
    · rename_i hc
      obtain ⟨rfl, rfl⟩ := hc
      have := h3.mp hv
      match hw : verifyMac P md content [] with
      | .ok u =>
        have hw' := g1.mp hw
        simp only [Res.bind_ok, Res.pure_eq, Res.ok.injEq]
        constructor
        · rintro rfl; exact ⟨hw'.1, hw'.2, Or.inr ⟨trivial, rfl, this.2⟩⟩
        · rintro ⟨_, hd, h | ⟨_, h, _⟩⟩
          · subst h; exact absurd hd this.2
          · exact h.symm
      | .panic => exact absurd hw g4
      | .err e' =>
        simp only [Res.bind_err, false_iff, reduceCtorEq]
        rintro ⟨ha, hd, h | ⟨_, h, _⟩⟩
        · subst h; exact absurd hd this.2
        · subst h
          have := g1.mpr ⟨ha, hd⟩
          rw [hw] at this; cases this
    · rename_i hc
      simp only [reduceCtorEq, false_iff]
      rintro ⟨ha, hd, h | ⟨h0, h, hn⟩⟩
      · subst h
        have := h1.mpr ⟨ha, hd⟩
        rw [hv] at this; cases this
      · have := h3.mpr ⟨ha, hn⟩
        rw [hv] at this
        injection this with this
        exact hc ⟨this, h0⟩

theorem collectBags_two (P : Prims) (pw : Bytes) (ci1 ci2 : ContentInfo) (bags : List SafeBag) :
    collectBags P pw [ci1, ci2] [] = .ok bags ↔ ∃ d1 d2 b1 b2,
      safeData P ci1 pw = .ok d1 ∧ unmarshalAll (seqOf safeBag) d1 = .ok b1 ∧
      safeData P ci2 pw = .ok d2 ∧ unmarshalAll (seqOf safeBag) d2 = .ok b2 ∧ bags = b1 ++ b2 := by
  simp only [collectBags, Res.bind_eq_ok, List.nil_append, Res.ok.injEq]
  constructor
  · rintro ⟨d1, h1, b1, h2, d2, h3, b2, h4, rfl⟩
    exact ⟨d1, d2, b1, b2, h1, h2, h3, h4, rfl⟩
  · rintro ⟨d1, d2, b1, b2, h1, h2, h3, h4, rfl⟩
    exact ⟨d1, h1, b1, h2, d2, h3, b2, h4, rfl⟩

/-- C36: the safe bags are returned exactly when the PFX opens in the sense of the specification: in
particular only after the MAC over the authenticated safe has been found correct under the password that is
then used, and the absent password is tried for the empty password only. -/
theorem C36_getSafeContents_iff (P : Prims) (data password : Bytes) (bags : List SafeBag) (pw' : Bytes) :
    getSafeContents P data password = .ok (bags, pw') ↔ Opens P data password bags pw' := by
  unfold getSafeContents
  constructor
  · intro h
    simp only [Res.bind_eq_ok] at h
    obtain ⟨pfx, h1, h⟩ := h
    split at h
    · cases h
    · split at h
      · cases h
      · rename_i hv ht
        simp only [Res.bind_eq_ok] at h
        obtain ⟨auth, h2, h⟩ := h
        split at h
        · cases h
        · simp only [Res.bind_eq_ok] at h
          obtain ⟨pw2, h3, cis, h4, h⟩ := h
          split at h
          · cases h
          · rename_i hl
            simp only [Res.bind_eq_ok, Res.pure_eq, Res.ok.injEq, Prod.mk.injEq] at h
            obtain ⟨bags2, h5, rfl, rfl⟩ := h
            match cis, hl with
            | [ci1, ci2], _ =>
              obtain ⟨m1, m2, m3⟩ := (checkMac_iff _ _ _ _ _).mp h3
              obtain ⟨d1, d2, b1, b2, e1, e2, e3, e4, e5⟩ := (collectBags_two _ _ _ _ _).mp h5
              exact ⟨pfx, auth, ci1, ci2, d1, d2, b1, b2, h1, not_not.mp hv, not_not.mp ht, h2, m1, m2, m3, h4, e1, e2,
                e3, e4, e5⟩
            | [], hl => simp at hl
            | [_], hl => simp at hl
            | _ :: _ :: _ :: _, hl => simp at hl
  · rintro ⟨pfx, auth, ci1, ci2, d1, d2, b1, b2, h1, hv, ht, h2, m1, m2, m3, h4, e1, e2, e3, e4, e5⟩
    have hck := (checkMac_iff P pfx.mac auth.bytes password pw').mpr ⟨m1, m2, m3⟩
    rw [h1, Res.bind_ok, if_neg (by rw [hv]; simp), if_neg (by rw [ht]; simp [oidDataContentType]), h2, Res.bind_ok,
      if_neg (by rw [m1]; simp), hck, Res.bind_ok, h4, Res.bind_ok, if_neg (by simp),
      (collectBags_two _ _ _ _ _).mpr ⟨d1, d2, b1, b2, e1, e2, e3, e4, e5⟩, Res.bind_ok]
    rfl

/-- C36: for a readable version-3 PFX with a SHA-1 MAC, a password under which the MAC does not verify gives
`ErrIncorrectPassword` (the empty password is also tried as the absent one). -/
theorem C36_wrong_password (P : Prims) (data password : Bytes) (pfx : PfxPdu) (auth : RawValue)
    (h1 : unmarshalAll pfxPdu data = .ok pfx) (hv : pfx.version = 3)
    (ht : pfx.authSafe.contentType = [1, 2, 840, 113549, 1, 7, 1])
    (h2 : unmarshalAllRaw pfx.authSafe.content.bytes = .ok auth)
    (ha : pfx.mac.mac.algorithm.algorithm = [1, 3, 14, 3, 2, 26])
    (hm : pfx.mac.mac.digest ≠ mac P pfx.mac.macSalt password pfx.mac.iterations auth.bytes)
    (he : password = [0, 0] → pfx.mac.mac.digest ≠ mac P pfx.mac.macSalt [] pfx.mac.iterations auth.bytes) :
    getSafeContents P data password = .err "ErrIncorrectPassword" := by
  have hck : checkMac P pfx.mac auth.bytes password = .err "ErrIncorrectPassword" := by
    have h3 := (C34_verifyMac_iff P pfx.mac auth.bytes password).2.2.1.mpr ⟨ha, hm⟩
    unfold checkMac
    rw [h3]
    simp only [true_and]
    split
    · rename_i hp
      have := (C34_verifyMac_iff P pfx.mac auth.bytes []).2.2.1.mpr ⟨ha, he hp⟩
      rw [this]; rfl
    · rfl
  unfold getSafeContents
  rw [h1, Res.bind_ok, if_neg (by rw [hv]; simp), if_neg (by rw [ht]; simp [oidDataContentType]), h2, Res.bind_ok,
    if_neg (by rw [ha]; simp), hck]
  rfl

/-- C36: a PFX without MAC is rejected. -/
theorem C36_no_mac (P : Prims) (data password : Bytes) (pfx : PfxPdu) (h1 : unmarshalAll pfxPdu data = .ok pfx)
    (hm : pfx.mac.mac.algorithm.algorithm = []) (bags : List SafeBag) (pw' : Bytes) :
    getSafeContents P data password ≠ .ok (bags, pw') := by
  rw [Ne, C36_getSafeContents_iff]
  rintro ⟨pfx', auth, ci1, ci2, d1, d2, b1, b2, g1, _, _, _, m1, _⟩
  rw [h1] at g1
  injection g1 with g1
  subst g1
  rw [hm] at m1
  cases m1

/-- C36: `DecodeAll` and `Decode` return something only when the PFX opens under the (BMP) password. -/
theorem C36_decode_needs_mac {κ : Type} (P : Prims) (edPub : Bytes → Bytes) (parseCerts : Bytes → Res (List κ))
    (data password : Bytes) :
    (∀ r, decodeAll P edPub parseCerts data password = .ok r →
      ∃ pw bags pw', bmpString password = .ok pw ∧ Opens P data pw bags pw') ∧
    (∀ r, decode P edPub parseCerts data password = .ok r →
      ∃ pw bags pw', bmpString password = .ok pw ∧ Opens P data pw bags pw') := by
  have key : ∀ keep r, decodeWith P edPub parseCerts keep data password = .ok r →
      ∃ pw bags pw', bmpString password = .ok pw ∧ Opens P data pw bags pw' := by
    intro keep r h
    unfold decodeWith at h
    simp only [Res.bind_eq_ok, Prod.exists] at h
    obtain ⟨pw, hpw, bags, pw', hg, _⟩ := h
    exact ⟨pw, bags, pw', hpw, (C36_getSafeContents_iff P data pw bags pw').mp hg⟩
  refine ⟨fun r h => key true r h, fun r h => ?_⟩
  unfold decode at h
  simp only [Res.bind_eq_ok, Prod.exists] at h
  obtain ⟨k, cs, h, _⟩ := h
  exact key false _ h

/-! ### C37 ToPEM -/

/-- C37 (the property is false of the code): whenever the PFX cannot be opened, for whatever reason, `ToPEM` returns no
blocks and NO error. What does hold: a password outside the BMP is an error, and when the PFX opens the
result is the conversion of every bag. -/
theorem C37_toPEM_partial (P : Prims) (edPub : Bytes → Bytes) (data password : Bytes) :
    (∀ pw e, bmpString password = .ok pw → getSafeContents P data pw = .err e →
      toPEM P edPub data password = .ok []) ∧
    (∀ e, bmpString password = .err e → toPEM P edPub data password = .err "ErrIncorrectPassword") ∧
    (∀ pw bags pw', bmpString password = .ok pw → Opens P data pw bags pw' →
      toPEM P edPub data password = convertBags P edPub pw' bags) := by
  refine ⟨?_, ?_, ?_⟩
  · intro pw e h1 h2; unfold toPEM; rw [h1]; simp only []; rw [h2]
  · intro e h; unfold toPEM; rw [h]
  · intro pw bags pw' h1 h2
    unfold toPEM; rw [h1]; simp only []; rw [(C36_getSafeContents_iff _ _ _ _ _).mpr h2]

/-- C37: no garbage makes `ToPEM` fail: the empty input and a truncated input give `[]` without error. -/
theorem C37_toPEM_garbage_counterexample (P : Prims) (edPub : Bytes → Bytes) :
    toPEM P edPub [] [] = .ok [] ∧ toPEM P edPub [0x30, 0x82] [] = .ok [] := by
  have hb : bmpString [] = .ok [0, 0] := rfl
  constructor
  · exact (C37_toPEM_partial P edPub [] []).1 _ "asn1" hb rfl
  · exact (C37_toPEM_partial P edPub _ []).1 _ "asn1" hb rfl

/-! ### C38 Duplicates and order -/

theorem decodeBag_iff {κ : Type} (P : Prims) (edPub : Bytes → Bytes) (parseCerts : Bytes → Res (List κ)) (keep : Bool)
    (pw : Bytes) (b : SafeBag) (s s' : DecState κ) :
    decodeBag P edPub parseCerts keep pw b s = .ok s' ↔ ∃ i, Holds P edPub parseCerts pw b i ∧
      s' = match i with
        | .cert c => { s with certs := if keep then s.certs ++ [c] else [c], dup := if s.certs.length ≠ 0 then true else s.dup }
        | .key k => { s with key := some k, dup := false }
        | .other => s := by
  unfold decodeBag
  constructor
  · intro h
    split at h
    · rename_i hid
      simp only [Res.bind_eq_ok] at h
      obtain ⟨raw, hd, cs, hc, h⟩ := h
      match cs, h with
      | [c], h =>
        injection h with h
        exact ⟨.cert c, .cert c raw hid hd hc, h.symm⟩
      | [], h => cases h
      | _ :: _ :: _, h => cases h
    · split at h
      · rename_i hid
        simp only [Res.bind_eq_ok, Res.ok.injEq] at h
        obtain ⟨k, hk, h⟩ := h
        exact ⟨.key k, .key k hid hk, h.symm⟩
      · rename_i h1 h2
        injection h with h
        exact ⟨.other, .other h1 h2, h.symm⟩
  · rintro ⟨i, hi, rfl⟩
    cases hi with
    | cert c raw hid hd hp =>
      rw [if_pos (by exact hid), hd, Res.bind_ok, hp, Res.bind_ok]
    | key k hid hd =>
      rw [if_neg (by rw [hid]; decide), if_pos (by exact hid), hd, Res.bind_ok]
    | other h3 h2 =>
      rw [if_neg (by exact h3), if_neg (by exact h2)]

/-- The effect of the items on the variables of the decoding loop. -/
def run {κ : Type} (keep : Bool) : List (Item κ) → DecState κ → DecState κ
  | [], s => s
  | .cert c :: l, s => run keep l { s with certs := if keep then s.certs ++ [c] else [c],
                                            dup := if s.certs.length ≠ 0 then true else s.dup }
  | .key k :: l, s => run keep l { s with key := some k, dup := false }
  | .other :: l, s => run keep l s

theorem decodeBags_iff {κ : Type} (P : Prims) (edPub : Bytes → Bytes) (parseCerts : Bytes → Res (List κ)) (keep : Bool)
    (pw : Bytes) (bs : List SafeBag) (s s' : DecState κ) :
    decodeBags P edPub parseCerts keep pw bs s = .ok s' ↔
      ∃ is, List.Forall₂ (Holds P edPub parseCerts pw) bs is ∧ s' = run keep is s := by
  induction bs generalizing s with
  | nil =>
    rw [decodeBags]
    constructor
    · intro h; injection h with h; exact ⟨[], .nil, h.symm⟩
    · rintro ⟨is, hi, rfl⟩; cases hi; rfl
  | cons b bs ih =>
    rw [decodeBags]
    simp only [Res.bind_eq_ok, decodeBag_iff]
    constructor
    · rintro ⟨s1, ⟨i, hi, rfl⟩, h⟩
      obtain ⟨is, his, rfl⟩ := (ih _).mp h
      refine ⟨i :: is, .cons hi his, ?_⟩
      cases i <;> rfl
    · rintro ⟨is, his, rfl⟩
      cases his with
      | cons h1 h2 =>
        rename_i i is
        refine ⟨_, ⟨i, h1, rfl⟩, ?_⟩
        rw [ih]
        refine ⟨is, h2, ?_⟩
        cases i <;> rfl

/-- What the loop leaves: all certificates (or the last one), the last key. -/
theorem run_certs {κ : Type} (is : List (Item κ)) (s : DecState κ) :
    (run true is s).certs = s.certs ++ certs is ∧
    (run false is s).certs = (if certs is = [] then s.certs else (certs is).getLast?.toList) ∧
    ∀ keep, (run keep is s).key = ((keys is).getLast? <|> s.key) := by
  induction is generalizing s with
  | nil => simp [run, certs, keys]
  | cons i is ih =>
    cases i with
    | cert c =>
      refine ⟨?_, ?_, fun keep => ?_⟩
      · rw [run, (ih _).1]; simp [certs]
      · rw [run, (ih _).2.1]
        cases h : certs is with
        | nil => simp [certs, h]
        | cons c' l => simp [certs, h, List.getLast?_cons_cons]
      · rw [run, (ih _).2.2]; simp [keys]
    | key k =>
      refine ⟨?_, ?_, fun keep => ?_⟩
      · rw [run, (ih _).1]; simp [certs]
      · rw [run, (ih _).2.1]; rfl
      · rw [run, (ih _).2.2]
        cases h : keys is with
        | nil => simp [keys, h]
        | cons k' l =>
          simp [keys, h, List.getLast?_cons_cons, List.getLast?_eq_some_getLast]
    | other =>
      refine ⟨?_, ?_, fun keep => ?_⟩
      · rw [run, (ih _).1]; simp [certs]
      · rw [run, (ih _).2.1]; rfl
      · rw [run, (ih _).2.2]; simp [keys]

theorem run_append {κ : Type} (keep : Bool) (l l' : List (Item κ)) (s : DecState κ) :
    run keep (l ++ l') s = run keep l' (run keep l s) := by
  induction l generalizing s with
  | nil => rfl
  | cons i l ih => cases i <;> simp [run, ih]

/-- Without keys behind, the error flag is: it was set, or a certificate came when there was one already. -/
theorem run_dup {κ : Type} (keep : Bool) (l : List (Item κ)) (hk : keys l = []) (s : DecState κ) :
    (run keep l s).dup = true ↔ s.dup = true ∨ (1 ≤ (certs l).length ∧ 1 ≤ s.certs.length) ∨ 2 ≤ (certs l).length := by
  induction l generalizing s with
  | nil => simp [run, certs]
  | cons i l ih =>
    cases i with
    | cert c =>
      rw [run, ih (by simpa [keys] using hk)]
      simp only [certs, List.length_cons]
      have hl : 1 ≤ (if keep = true then s.certs ++ [c] else [c]).length := by split <;> simp
      constructor
      · rintro (h | h | h)
        · split at h
          · right; left; omega
          · exact Or.inl h
        · right; right; omega
        · right; right; omega
      · rintro (h | h | h)
        · left; rw [h]; simp
        · left; rw [if_pos (by omega)]
        · by_cases hc : s.certs.length = 0
          · right; left; exact ⟨by omega, hl⟩
          · left; rw [if_pos hc]
    | key k => simp [keys] at hk
    | other =>
      rw [run, ih (by simpa [keys] using hk)]
      simp [certs]

/-- Splitting at the last key. -/
theorem split_last_key {κ : Type} (is : List (Item κ)) (k : PrivKey) (h : (keys is).getLast? = some k) :
    ∃ pre post, is = pre ++ .key k :: post ∧ keys post = [] := by
  induction is with
  | nil => simp [keys] at h
  | cons i is ih =>
    cases i with
    | cert c =>
      obtain ⟨pre, post, rfl, hp⟩ := ih (by simpa [keys] using h)
      exact ⟨.cert c :: pre, post, rfl, hp⟩
    | other =>
      obtain ⟨pre, post, rfl, hp⟩ := ih (by simpa [keys] using h)
      exact ⟨.other :: pre, post, rfl, hp⟩
    | key k0 =>
      cases hk : keys is with
      | nil =>
        simp only [keys, hk, List.getLast?_singleton, Option.some.injEq] at h
        subst h
        exact ⟨[], is, rfl, hk⟩
      | cons k1 l =>
        obtain ⟨pre, post, rfl, hp⟩ := ih (by rw [hk]; simpa [keys, hk, List.getLast?_cons_cons] using h)
        exact ⟨.key k0 :: pre, post, rfl, hp⟩

theorem certs_append {κ : Type} (l l' : List (Item κ)) : certs (l ++ l') = certs l ++ certs l' := by
  induction l with
  | nil => rfl
  | cons i l ih => cases i <;> simp [certs, ih]

theorem keys_append {κ : Type} (l l' : List (Item κ)) : keys (l ++ l') = keys l ++ keys l' := by
  induction l with
  | nil => rfl
  | cons i l ih => cases i <;> simp [keys, ih]

/-- C38 (the property as stated is false of the code, see the corollaries): when exactly `DecodeAll` succeeds
on a PFX that opens, and with what. Every bag must decode; the result is the LAST key and all certificates;
and a second certificate is an error only if no key bag comes after it: `pre` are the bags before the last key,
`post` those after it. -/
theorem C38_decodeAll_iff_partial {κ : Type} (P : Prims) (edPub : Bytes → Bytes) (parseCerts : Bytes → Res (List κ))
    (data password pw pw' : Bytes) (bags : List SafeBag) (hpw : bmpString password = .ok pw)
    (ho : Opens P data pw bags pw') (k : PrivKey) (cs : List κ) :
    decodeAll P edPub parseCerts data password = .ok (k, cs) ↔
      ∃ pre post, List.Forall₂ (Holds P edPub parseCerts pw') bags (pre ++ .key k :: post) ∧ keys post = [] ∧
        cs = certs pre ++ certs post ∧ cs ≠ [] ∧
        (certs post = [] ∨ (certs pre = [] ∧ (certs post).length = 1)) := by
  have hg := (C36_getSafeContents_iff P data pw bags pw').mpr ho
  have hdec : decodeAll P edPub parseCerts data password =
      (decodeBags P edPub parseCerts true pw' bags {} >>= finish) := by
    unfold decodeAll decodeWith
    rw [hpw, Res.bind_ok, hg, Res.bind_ok]
  have hfin : ∀ s : DecState κ, finish s = .ok (k, cs) ↔ s.certs = cs ∧ cs ≠ [] ∧ s.key = some k ∧ s.dup = false := by
    intro s
    unfold finish
    obtain ⟨key, certs, dup⟩ := s
    cases certs <;> cases key <;> cases dup <;> simp [and_comm, eq_comm]
    · intro h; simp [h]
    · constructor
      · rintro ⟨rfl, rfl⟩; simp
      · rintro ⟨rfl, rfl, _⟩; simp
  rw [hdec]
  simp only [Res.bind_eq_ok, decodeBags_iff, hfin]
  constructor
  · rintro ⟨s, ⟨is, his, rfl⟩, h1, h2, h3, h4⟩
    have hkey : (keys is).getLast? = some k := by
      have := (run_certs is ({} : DecState κ)).2.2 true
      rw [h3] at this
      simpa using this.symm
    obtain ⟨pre, post, rfl, hp⟩ := split_last_key is k hkey
    refine ⟨pre, post, his, hp, ?_, h2, ?_⟩
    · rw [← h1, (run_certs _ _).1, certs_append]; simp [certs]
    · rw [run_append, run] at h4
      have hd := (run_dup true post hp { run true pre ({} : DecState κ) with key := some k, dup := false })
      rw [h4] at hd
      simp only [Bool.false_eq_true, false_iff, not_or, not_and, false_or] at hd
      have hc := (run_certs pre ({} : DecState κ)).1
      rw [hc] at hd
      simp only [List.nil_append] at hd
      by_cases h0 : certs post = []
      · exact Or.inl h0
      · right
        have : 1 ≤ (certs post).length := by
          cases hcp : certs post with
          | nil => exact absurd hcp h0
          | cons => simp
        have h5 := hd.1 this
        exact ⟨List.length_eq_zero_iff.mp (by omega), by omega⟩
  · rintro ⟨pre, post, his, hp, rfl, hne, hor⟩
    refine ⟨_, ⟨_, his, rfl⟩, ?_, hne, ?_, ?_⟩
    · rw [(run_certs _ _).1, certs_append]; simp [certs]
    · rw [(run_certs _ _).2.2, keys_append]
      simp [keys, hp]
    · rw [run_append, run]
      have hd := (run_dup true post hp { run true pre ({} : DecState κ) with key := some k, dup := false })
      have hc := (run_certs pre ({} : DecState κ)).1
      rw [hc] at hd
      simp only [List.nil_append, Bool.false_eq_true, false_or] at hd
      by_contra hcon
      rw [Bool.not_eq_false] at hcon
      rcases hd.mp hcon with h | h
      · rcases hor with h0 | ⟨h0, h1⟩
        · rw [h0] at h; simp at h
        · rw [h0] at h; simp at h
      · rcases hor with h0 | ⟨h0, h1⟩
        · rw [h0] at h; simp at h
        · omega

/-- C38: `Decode` too: the last key; the certificate is the last one; same rule for the error. -/
theorem C38_decode_iff_partial {κ : Type} (P : Prims) (edPub : Bytes → Bytes) (parseCerts : Bytes → Res (List κ))
    (data password pw pw' : Bytes) (bags : List SafeBag) (hpw : bmpString password = .ok pw)
    (ho : Opens P data pw bags pw') (k : PrivKey) (c : κ) :
    decode P edPub parseCerts data password = .ok (k, c) ↔
      ∃ pre post, List.Forall₂ (Holds P edPub parseCerts pw') bags (pre ++ .key k :: post) ∧ keys post = [] ∧
        (certs pre ++ certs post).getLast? = some c ∧
        (certs post = [] ∨ (certs pre = [] ∧ (certs post).length = 1)) := by
  have hg := (C36_getSafeContents_iff P data pw bags pw').mpr ho
  have hdec : decode P edPub parseCerts data password =
      (decodeBags P edPub parseCerts false pw' bags {} >>= fun s => finish s >>= fun r =>
        match r.2 with | c :: _ => .ok (r.1, c) | [] => .err "unreachable") := by
    unfold decode decodeWith
    rw [hpw, Res.bind_ok, hg, Res.bind_ok]
    show ((decodeBags P edPub parseCerts false pw' bags {} >>= fun s => finish s) >>= _) = _
    cases decodeBags P edPub parseCerts false pw' bags {} with
    | ok s =>
      simp only [Res.bind_ok]
      cases finish s <;> rfl
    | err e => rfl
    | panic => rfl
  have hfin : ∀ s : DecState κ, (finish s >>= fun r =>
        (match r.2 with | c :: _ => .ok (r.1, c) | [] => .err "unreachable" : Res (PrivKey × κ))) = .ok (k, c) ↔
        s.certs.head? = some c ∧ s.key = some k ∧ s.dup = false := by
    intro s
    unfold finish
    obtain ⟨key, certs, dup⟩ := s
    cases certs <;> cases key <;> cases dup <;> simp [and_comm]
  rw [hdec]
  simp only [Res.bind_eq_ok] at hfin ⊢
  simp only [decodeBags_iff, hfin]
  have hhead : ∀ is : List (Item κ), (run false is ({} : DecState κ)).certs.head? = (certs is).getLast? := by
    intro is
    rw [(run_certs is ({} : DecState κ)).2.1]
    split
    · rename_i h; rw [h]; rfl
    · cases h : (certs is).getLast? with
      | none => rfl
      | some c => rfl
  have hlen : ∀ pre : List (Item κ), (run false pre ({} : DecState κ)).certs = [] ↔ certs pre = [] := by
    intro pre
    rw [(run_certs pre ({} : DecState κ)).2.1]
    split
    · rename_i h; simp [h]
    · rename_i h
      cases hc : (certs pre).getLast? with
      | none => rw [List.getLast?_eq_none_iff] at hc; exact absurd hc h
      | some c => simp [h]
  constructor
  · rintro ⟨s, ⟨is, his, rfl⟩, h1, h3, h4⟩
    have hkey : (keys is).getLast? = some k := by
      have := (run_certs is ({} : DecState κ)).2.2 false
      rw [h3] at this
      simpa using this.symm
    obtain ⟨pre, post, rfl, hp⟩ := split_last_key is k hkey
    rw [hhead, certs_append] at h1
    refine ⟨pre, post, his, hp, by simpa [certs] using h1, ?_⟩
    rw [run_append, run] at h4
    have hd := (run_dup false post hp { run false pre ({} : DecState κ) with key := some k, dup := false })
    rw [h4] at hd
    simp only [Bool.false_eq_true, false_iff, not_or, not_and, false_or] at hd
    by_cases h0 : certs post = []
    · exact Or.inl h0
    · right
      have : 1 ≤ (certs post).length := by
        cases hcp : certs post with
        | nil => exact absurd hcp h0
        | cons => simp
      have h5 := hd.1 this
      exact ⟨(hlen pre).mp (List.length_eq_zero_iff.mp (by omega)), by omega⟩
  · rintro ⟨pre, post, his, hp, hc, hor⟩
    refine ⟨_, ⟨_, his, rfl⟩, ?_, ?_, ?_⟩
    · rw [hhead, certs_append]; simpa [certs] using hc
    · rw [(run_certs _ _).2.2, keys_append]
      simp [keys, hp]
    · rw [run_append, run]
      have hd := (run_dup false post hp { run false pre ({} : DecState κ) with key := some k, dup := false })
      simp only [Bool.false_eq_true, false_or] at hd
      by_contra hcon
      rw [Bool.not_eq_false] at hcon
      rcases hd.mp hcon with h | h
      · rcases hor with h0 | ⟨h0, h1⟩
        · rw [h0] at h; simp at h
        · rw [(hlen pre).mpr h0] at h; simp at h
      · rcases hor with h0 | ⟨h0, h1⟩
        · rw [h0] at h; simp at h
        · omega

end MCrypto.Props
