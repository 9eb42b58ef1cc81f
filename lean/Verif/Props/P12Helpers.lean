import Verif.Props.P12Open
import Verif.Sm2.Lemmas
/-
Properties C38 (counterexamples), C39 and C66: what the PKCS#12 decoder does on any file.
-/
namespace MCrypto.Props
open MCrypto Asn1 P12 P12Spec MCrypto.X509 MCrypto.X509Spec

/-! ### C38: what the exact condition lets through -/

/-- C38 is false of the code: in a PFX whose bags are certificate 1, certificate 2, key, both certificates are
accepted; the same bags with the key first are an error; and of two keys the last one is returned without
an error. -/
theorem C38_order_dependent_counterexample {κ : Type} (P : Prims) (edPub : Bytes → Bytes)
    (parseCerts : Bytes → Res (List κ)) (data password pw pw' : Bytes) (b1 b2 b3 : SafeBag)
    (hpw : bmpString password = .ok pw) (c1 c2 : κ) (k k' : PrivKey) :
    (Opens P data pw [b1, b2, b3] pw' → Holds P edPub parseCerts pw' b1 (.cert c1) →
      Holds P edPub parseCerts pw' b2 (.cert c2) → Holds P edPub parseCerts pw' b3 (.key k) →
      decodeAll P edPub parseCerts data password = .ok (k, [c1, c2]) ∧
      decode P edPub parseCerts data password = .ok (k, c2)) ∧
    (Opens P data pw [b1, b2, b3] pw' → Holds P edPub parseCerts pw' b1 (.key k) →
      Holds P edPub parseCerts pw' b2 (.cert c1) → Holds P edPub parseCerts pw' b3 (.cert c2) →
      (∀ r, decodeAll P edPub parseCerts data password ≠ .ok r) ∧
      (∀ r, decode P edPub parseCerts data password ≠ .ok r)) ∧
    (Opens P data pw [b1, b2, b3] pw' → Holds P edPub parseCerts pw' b1 (.key k') →
      Holds P edPub parseCerts pw' b2 (.cert c1) → Holds P edPub parseCerts pw' b3 (.key k) →
      decodeAll P edPub parseCerts data password = .ok (k, [c1]) ∧
      decode P edPub parseCerts data password = .ok (k, c1)) := by
  have run : ∀ keep (i1 i2 i3 : Item κ), Opens P data pw [b1, b2, b3] pw' → Holds P edPub parseCerts pw' b1 i1 →
      Holds P edPub parseCerts pw' b2 i2 → Holds P edPub parseCerts pw' b3 i3 →
      decodeWith P edPub parseCerts keep data password = finish (run keep [i1, i2, i3] {}) := by
    intro keep i1 i2 i3 ho h1 h2 h3
    have hg := (C36_getSafeContents_iff P data pw _ pw').mpr ho
    have hb := (decodeBags_iff P edPub parseCerts keep pw' [b1, b2, b3] {} _).mpr
      ⟨[i1, i2, i3], .cons h1 (.cons h2 (.cons h3 .nil)), rfl⟩
    unfold decodeWith
    rw [hpw, Res.bind_ok, hg, Res.bind_ok]
    simp only []
    rw [hb, Res.bind_ok]
  refine ⟨?_, ?_, ?_⟩
  · intro ho h1 h2 h3
    unfold decodeAll decode
    rw [run _ _ _ _ ho h1 h2 h3, run _ _ _ _ ho h1 h2 h3]
    exact ⟨rfl, rfl⟩
  · intro ho h1 h2 h3
    unfold decodeAll decode
    rw [run _ _ _ _ ho h1 h2 h3, run _ _ _ _ ho h1 h2 h3]
    exact ⟨fun r h => (by cases h), fun r h => (by cases h)⟩
  · intro ho h1 h2 h3
    unfold decodeAll decode
    rw [run _ _ _ _ ho h1 h2 h3, run _ _ _ _ ho h1 h2 h3]
    exact ⟨rfl, rfl⟩

theorem bmpLoop_ne_panic (rs : List Nat) (ret : Bytes) : bmpLoop rs ret ≠ .panic := by
  induction rs generalizing ret with
  | nil => simp [bmpLoop]
  | cons r rs ih =>
    rw [bmpLoop]
    split
    · simp
    · exact ih _

theorem bmpString_ne_panic (s : Bytes) : bmpString s ≠ .panic := bmpLoop_ne_panic _ _

/-- The key `DecodeAll` returns is what PKCS#8 parsing returned for some octets. -/
theorem decodeAll_key {κ : Type} {P : Prims} {edPub : Bytes → Bytes} {parseCerts : Bytes → Res (List κ)}
    {data password : Bytes} {k : PrivKey} {cs : List κ} (h : decodeAll P edPub parseCerts data password = .ok (k, cs)) :
    cs ≠ [] ∧ ∃ b, parsePKCS8PrivateKey edPub b = .ok k := by
  obtain ⟨pw, bags, pw', hpw, ho⟩ := (C36_decode_needs_mac P edPub parseCerts data password).1 _ h
  obtain ⟨pre, post, hh, _, _, hne, _⟩ := (C38_decodeAll_iff_partial P edPub parseCerts data password pw pw' bags hpw ho k cs).mp h
  refine ⟨hne, ?_⟩
  have hmem : ∀ (l : List SafeBag) (m : List (Item κ)), List.Forall₂ (Holds P edPub parseCerts pw') l m → ∀ i ∈ m,
      ∃ b ∈ l, Holds P edPub parseCerts pw' b i := by
    intro l m hf
    induction hf with
    | nil => simp
    | cons h1 _ ih =>
      intro i hi
      rcases List.mem_cons.mp hi with rfl | hi
      · exact ⟨_, List.mem_cons_self, h1⟩
      · obtain ⟨b, hb, hh⟩ := ih i hi
        exact ⟨b, List.mem_cons_of_mem _ hb, hh⟩
  obtain ⟨b, _, hb⟩ := hmem _ _ hh (.key k) (by simp)
  cases hb with
  | key _ hid hd =>
    unfold decodePkcs8ShroudedKeyBag at hd
    simp only [Res.bind_eq_ok] at hd
    obtain ⟨_, _, _, _, _, _, hp⟩ := hd
    exact ⟨_, hp⟩

/-- PKCS#8 gives an SM2 key only for the SM2 curve, and key pairs in all EC cases. -/
def GoodKey : PrivKey → Prop
    | .rsa x => IsRsaKey x
    | .sm2 x => IsKeyPair x ∧ x.pub.curve = .sm2p256v1
    | .ecdsa x => IsKeyPair x
    | .ed25519 _ => True
    | .other _ => False

theorem pkcs8_key {edPub : Bytes → Bytes} {b : Bytes} {k : PrivKey} (h : parsePKCS8PrivateKey edPub b = .ok k) :
    GoodKey k := by
  unfold parsePKCS8PrivateKey at h
  split at h
  · cases h
  · split at h
    · unfold parsePKCS8RSA at h
      split at h
      · rename_i key hk
        injection h with h; subst h
        exact C55_pkcs1_private_sound _ _ hk
      · cases h
      · cases h
    · split at h
      · unfold parsePKCS8EC at h
        simp only [] at h
        split at h
        · rename_i key hk
          injection h with h; subst h
          obtain ⟨x, rfl, hx, _⟩ := C54_sec1_sound _ _ _ hk
          unfold ecPrivKey
          split
          · rename_i hs; exact ⟨hx, hs⟩
          · exact hx
        · cases h
        · cases h
      · split at h
        · unfold parsePKCS8Ed at h
          split at h
          · cases h
          · split at h
            · cases h
            · split at h
              · cases h
              · injection h with h; subst h; trivial
        · cases h

/-! ### C39 The SM2 helper functions -/

/-- The point of a generated SM2 key pair with a non-zero scalar is on the curve. -/
theorem keyPair_onCurve {k : Sm2.PrivateKey} (hk : IsKeyPair k) (hc : k.pub.curve = .sm2p256v1) (hd : k.d ≠ 0) :
    Curve.isOnCurve sm2p256.p sm2p256.b (k.pub.x, k.pub.y) = true := by
  obtain ⟨c, hp, hlt, hq⟩ := hk
  rw [hc] at hp
  injection hp with hp
  subst hp
  rw [hq]
  refine (Curve.isOnCurve_rep _).mpr ⟨k.d • Curve.Gp, ?_, Sm2.rep_base k.d⟩
  rw [Ne, Curve.nsmul_Gp_eq_zero_iff]
  intro hdv
  have := Nat.le_of_dvd (by omega) hdv
  have : k.d < Curve.N := hlt
  omega

/-- C39: whatever the file system, if it gives back what was written, `SM2P12Decrypt` of the file written by
`SM2P12Encrypt` returns the certificate and the key. -/
theorem C39_roundtrip {κ σ : Type} (P : Prims) (edPub : Bytes → Bytes) (parseCerts : Bytes → Res (List κ))
    (writeFile : Bytes → Res σ) (readFile : σ → Bytes × Option String)
    (hfs : ∀ b s, writeFile b = .ok s → readFile s = (b, none))
    (k : Sm2.PrivateKey) (hk : IsKeyPair k) (hcurve : k.pub.curve = .sm2p256v1) (hd : k.d ≠ 0)
    (leaf : Bytes) (c : κ) (hc : parseCerts leaf = .ok [c]) (password : Bytes) (rnd rnd' : Reader) (s : σ)
    (h : sm2P12Encrypt P writeFile leaf password k rnd = .ok (s, rnd')) (hl : (readFile s).1.length < 2 ^ 31) :
    sm2P12Decrypt P edPub parseCerts (readFile s) password = .ok (some (c, .sm2 k)) := by
  unfold sm2P12Encrypt at h
  simp only [Res.bind_eq_ok, Res.pure_eq, Prod.exists, Res.ok.injEq, Prod.mk.injEq] at h
  obtain ⟨pfx, r, he, s', hw, rfl, rfl⟩ := h
  have hf := hfs _ _ hw
  rw [hf] at hl ⊢
  have hsucc := (C35_encode_succeeds_iff P (.sm2 k) leaf [] password rnd).mp ⟨pfx, r, he⟩
  obtain ⟨pfx', r', he', hdec⟩ := C35_sm2_roundtrip P edPub parseCerts k hk hcurve leaf [] password
    ((C30_bmpString_fails_iff password).mp hsucc.1) rnd hsucc.2.2 c hc [] .nil
  rw [he] at he'
  injection he' with he'
  injection he' with he' _
  subst he'
  unfold sm2P12Decrypt
  rw [hdec hl, Res.bind_ok]
  simp only []
  rw [if_pos (show k.pub.curve = SM2P256 from hcurve), if_neg (by rw [keyPair_onCurve hk hcurve hd]; simp)]

/-- C39: what can go wrong when writing: `SM2P12Encrypt` returns the error of `Encode` or of the file system. -/
theorem C39_encrypt_errors {σ : Type} (P : Prims) (writeFile : Bytes → Res σ) (leaf password : Bytes)
    (k : Sm2.PrivateKey) (rnd : Reader) (e : String) :
    sm2P12Encrypt P writeFile leaf password k rnd = .err e ↔
      encode P (.sm2 k) leaf [] password rnd = .err e ∨
      ∃ pfx rnd', encode P (.sm2 k) leaf [] password rnd = .ok (pfx, rnd') ∧ writeFile pfx = .err e := by
  unfold sm2P12Encrypt
  cases he : encode P (.sm2 k) leaf [] password rnd with
  | err e' => simp
  | panic => simp
  | ok v =>
    obtain ⟨pfx, r⟩ := v
    rw [Res.bind_ok]
    simp only []
    cases hw : writeFile pfx <;> simp [hw]

/-- C39 (last clause, not as stated): the error of the read is ignored; what the helper returns depends on the
bytes read only. When nothing could be read it still reports an error, but the decoder's. -/
theorem C39_read_error_ignored {κ : Type} (P : Prims) (edPub : Bytes → Bytes) (parseCerts : Bytes → Res (List κ))
    (b password : Bytes) (e e' : Option String) :
    sm2P12Decrypt P edPub parseCerts (b, e) password = sm2P12Decrypt P edPub parseCerts (b, e') password ∧
    ∃ e'', sm2P12Decrypt P edPub parseCerts ([], e) password = .err e'' := by
  refine ⟨rfl, ?_⟩
  unfold sm2P12Decrypt decodeAll decodeWith
  cases h : bmpString password with
  | err e => exact ⟨e, rfl⟩
  | panic => exact absurd h (bmpString_ne_panic _)
  | ok pw => exact ⟨"asn1", rfl⟩

/-- C39: what the helper returns is a key of the file: the last SM2 key with a point on the curve, or an RSA
key; with the first certificate. In particular a nil key is never returned without an error. -/
theorem C39_decrypt_sound {κ : Type} (P : Prims) (edPub : Bytes → Bytes) (parseCerts : Bytes → Res (List κ))
    (file : Bytes × Option String) (password : Bytes) (r : Option (κ × PrivKey))
    (h : sm2P12Decrypt P edPub parseCerts file password = .ok r) :
    ∃ c k cs, r = some (c, k) ∧ decodeAll P edPub parseCerts file.1 password = .ok (k, c :: cs) ∧
      ((∃ x, k = .rsa x) ∨ ∃ x : Sm2.PrivateKey, k = .sm2 x ∧ x.pub.curve = .sm2p256v1 ∧
        Curve.isOnCurve sm2p256.p sm2p256.b (x.pub.x, x.pub.y) = true) := by
  unfold sm2P12Decrypt at h
  simp only [Res.bind_eq_ok, Prod.exists] at h
  obtain ⟨k, cs, hd, h⟩ := h
  obtain ⟨hne, b, hb⟩ := decodeAll_key hd
  cases cs with
  | nil => exact absurd rfl hne
  | cons c cs =>
    have hk := pkcs8_key hb
    cases k with
    | sm2 x =>
      simp only [] at h
      unfold GoodKey at hk
      rw [if_pos (show x.pub.curve = SM2P256 from hk.2)] at h
      split at h
      · cases h
      · rename_i hon
        injection h with h
        subst h
        exact ⟨c, _, cs, rfl, hd, Or.inr ⟨x, rfl, hk.2, by simpa using hon⟩⟩
    | rsa x =>
      simp only [] at h
      injection h with h
      subst h
      exact ⟨c, _, cs, rfl, hd, Or.inl ⟨x, rfl⟩⟩
    | _ => simp at h

/-! ### C66 No file makes the decoder panic -/

theorem bind_ne_panic {α β : Type} {x : Res α} {f : α → Res β} (hx : x ≠ .panic) (hf : ∀ a, x = .ok a → f a ≠ .panic) :
    (x >>= f) ≠ .panic := by
  cases x with
  | ok a => exact hf a rfl
  | err e => simp
  | panic => exact absurd rfl hx

theorem unmarshalAll_ne_panic {α : Type} (c : Codec α) (b : Bytes) : unmarshalAll c b ≠ .panic := by
  unfold unmarshalAll; split
  · simp
  · split <;> simp

theorem unmarshalAllRaw_ne_panic (b : Bytes) : unmarshalAllRaw b ≠ .panic := by
  unfold unmarshalAllRaw; split
  · simp
  · split <;> simp

theorem parsePKCS1_ne_panic (b : Bytes) : parsePKCS1PrivateKey b ≠ .panic := by
  unfold parsePKCS1PrivateKey
  repeat' first | split | simp

theorem parsePKCS8_ne_panic (edPub : Bytes → Bytes) (b : Bytes) : parsePKCS8PrivateKey edPub b ≠ .panic := by
  unfold parsePKCS8PrivateKey
  split
  · simp
  · split
    · unfold parsePKCS8RSA
      split
      · simp
      · simp
      · rename_i h; exact absurd h (parsePKCS1_ne_panic _)
    · split
      · unfold parsePKCS8EC
        simp only []
        split
        · simp
        · simp
        · rename_i h; exact absurd h (C54_sec1_no_panic _ _)
      · split
        · unfold parsePKCS8Ed
          split
          · simp
          · split
            · simp
            · split <;> simp
        · simp

theorem shrouded_ne_panic (P : Prims) (edPub : Bytes → Bytes) (b pw : Bytes) :
    decodePkcs8ShroudedKeyBag P edPub b pw ≠ .panic := by
  unfold decodePkcs8ShroudedKeyBag
  refine bind_ne_panic (unmarshalAll_ne_panic _ _) fun _ _ => bind_ne_panic (C33_pbDecrypt_no_panic _ _ _ _) fun _ _ =>
    bind_ne_panic (unmarshalAllRaw_ne_panic _) fun _ _ => parsePKCS8_ne_panic _ _

theorem certBag_ne_panic (b : Bytes) : decodeCertBag b ≠ .panic := by
  unfold decodeCertBag
  refine bind_ne_panic (unmarshalAll_ne_panic _ _) fun _ _ => ?_
  split <;> simp

theorem checkMac_ne_panic (P : Prims) (md : MacData) (m pw : Bytes) : checkMac P md m pw ≠ .panic := by
  unfold checkMac
  split
  · simp
  · rename_i h; exact absurd h (C34_verifyMac_iff _ _ _ _).2.2.2
  · split
    · exact bind_ne_panic (C34_verifyMac_iff _ _ _ _).2.2.2 fun _ _ => by simp
    · simp

/-- C66: opening a PFX: no panic. -/
theorem C66_getSafeContents_no_panic (P : Prims) (data pw : Bytes) : getSafeContents P data pw ≠ .panic := by
  have hsd : ∀ ci pw, safeData P ci pw ≠ .panic := by
    intro ci pw
    unfold safeData
    split
    · exact unmarshalAll_ne_panic _ _
    · split
      · refine bind_ne_panic (unmarshalAll_ne_panic _ _) fun _ _ => ?_
        split
        · simp
        · exact C33_pbDecrypt_no_panic _ _ _ _
      · simp
  have hcb : ∀ cis pw bags, collectBags P pw cis bags ≠ .panic := by
    intro cis pw
    induction cis with
    | nil => intro bags; simp [collectBags]
    | cons ci cis ih =>
      intro bags
      rw [collectBags]
      exact bind_ne_panic (hsd _ _) fun _ _ => bind_ne_panic (unmarshalAll_ne_panic _ _) fun _ _ => ih _
  unfold getSafeContents
  refine bind_ne_panic (unmarshalAll_ne_panic _ _) fun _ _ => ?_
  split
  · simp
  · split
    · simp
    · refine bind_ne_panic (unmarshalAllRaw_ne_panic _) fun _ _ => ?_
      split
      · simp
      · refine bind_ne_panic (checkMac_ne_panic _ _ _ _) fun _ _ => bind_ne_panic (unmarshalAll_ne_panic _ _) fun _ _ => ?_
        split
        · simp
        · exact bind_ne_panic (hcb _ _ _) fun _ _ => by simp

theorem decodeWith_ne_panic {κ : Type} (P : Prims) (edPub : Bytes → Bytes) (parseCerts : Bytes → Res (List κ))
    (hp : ∀ b, parseCerts b ≠ .panic) (keep : Bool) (data password : Bytes) :
    decodeWith P edPub parseCerts keep data password ≠ .panic := by
  have hb : ∀ pw bags s, decodeBags P edPub parseCerts keep pw bags s ≠ .panic := by
    intro pw bags
    induction bags with
    | nil => intro s; simp [decodeBags]
    | cons b bags ih =>
      intro s
      rw [decodeBags]
      refine bind_ne_panic ?_ fun _ _ => ih _
      unfold decodeBag
      split
      · refine bind_ne_panic (certBag_ne_panic _) fun _ _ => bind_ne_panic (hp _) fun _ _ => ?_
        split <;> simp
      · split
        · exact bind_ne_panic (shrouded_ne_panic _ _ _ _) fun _ _ => by simp
        · simp
  unfold decodeWith
  refine bind_ne_panic (bmpString_ne_panic _) fun _ _ => bind_ne_panic (C66_getSafeContents_no_panic _ _ _) fun _ _ =>
    bind_ne_panic (hb _ _ _) fun _ _ => ?_
  unfold finish
  repeat' first | split | simp

/-- C66: `DecodeAll`, `Decode` and `SM2P12Decrypt` return on every file and every password, provided the
certificate parser does. -/
theorem C66_decode_no_panic {κ : Type} (P : Prims) (edPub : Bytes → Bytes) (parseCerts : Bytes → Res (List κ))
    (hp : ∀ b, parseCerts b ≠ .panic) (data password : Bytes) (e : Option String) :
    decodeAll P edPub parseCerts data password ≠ .panic ∧ decode P edPub parseCerts data password ≠ .panic ∧
    sm2P12Decrypt P edPub parseCerts (data, e) password ≠ .panic := by
  refine ⟨decodeWith_ne_panic P edPub parseCerts hp _ _ _, ?_, ?_⟩
  · unfold decode
    refine bind_ne_panic (decodeWith_ne_panic P edPub parseCerts hp _ _ _) fun _ _ => ?_
    split
    split <;> simp
  · unfold sm2P12Decrypt
    refine bind_ne_panic (decodeWith_ne_panic P edPub parseCerts hp _ _ _) fun v hv => ?_
    obtain ⟨k, cs⟩ := v
    obtain ⟨hne, -⟩ := decodeAll_key hv
    cases cs with
    | nil => exact absurd rfl hne
    | cons c cs =>
      cases k with
      | sm2 x => simp only []; split <;> [split <;> simp; simp]
      | _ => simp

/-- C66: `ToPEM` returns on every file and every password. -/
theorem C66_toPEM_no_panic (P : Prims) (edPub : Bytes → Bytes) (data password : Bytes) :
    toPEM P edPub data password ≠ .panic := by
  have hattr : ∀ a, convertAttribute a ≠ .panic := by
    intro a
    have hd : ∀ b, decodeBMPString b ≠ .panic := by
      intro b; unfold decodeBMPString; split <;> simp
    unfold convertAttribute
    simp only []
    split
    · exact bind_ne_panic (unmarshalAllRaw_ne_panic _) fun _ _ => bind_ne_panic (hd _) fun _ _ => by simp
    · split
      · exact bind_ne_panic (unmarshalAll_ne_panic _ _) fun _ _ => by simp
      · split
        · exact bind_ne_panic (unmarshalAllRaw_ne_panic _) fun _ _ => bind_ne_panic (hd _) fun _ _ => by simp
        · simp
  have hattrs : ∀ as h, convertAttributes as h ≠ .panic := by
    intro as
    induction as with
    | nil => intro h; simp [convertAttributes]
    | cons a as ih => intro h; rw [convertAttributes]; exact bind_ne_panic (hattr _) fun _ _ => ih _
  have hkey : ∀ b k, parsePKCS8PrivateKey edPub b = .ok k → convertKey k ≠ .panic := by
    intro b k hb
    have hk := pkcs8_key hb
    cases k with
    | rsa x =>
      unfold GoodKey at hk
      unfold convertKey marshalPKCS1PrivateKey
      simp only []
      have h2 := hk.two
      have hpr := hk.primes
      split
      · rename_i p q more he
        rw [he] at hpr
        rw [if_neg]
        · simp
        · rintro (h | h | h)
          · have := hpr p (by simp); omega
          · have := hpr q (by simp); omega
          · have := hpr 1 (by simp [h]); omega
      · rename_i hne
        exfalso
        rcases hx : x.primes with _ | ⟨p, _ | ⟨q, m⟩⟩
        · rw [hx] at h2; simp at h2
        · rw [hx] at h2; simp at h2
        · exact hne _ _ _ hx
    | ecdsa x =>
      unfold GoodKey at hk
      unfold convertKey
      simp only []
      split
      · simp
      · obtain ⟨b, hb, _⟩ := C54_sec1_roundtrip x hk []
        rw [hb]; simp
    | _ => simp [convertKey]
  have hbag : ∀ b pw, convertBag P edPub b pw ≠ .panic := by
    intro b pw
    unfold convertBag
    refine bind_ne_panic (hattrs _ _) fun _ _ => ?_
    split
    · exact bind_ne_panic (certBag_ne_panic _) fun _ _ => by simp
    · split
      · refine bind_ne_panic (shrouded_ne_panic _ _ _ _) fun k hk => ?_
        unfold decodePkcs8ShroudedKeyBag at hk
        simp only [Res.bind_eq_ok] at hk
        obtain ⟨_, _, _, _, _, _, hp⟩ := hk
        exact bind_ne_panic (hkey _ _ hp) fun _ _ => by simp
      · simp
  have hbags : ∀ pw bags, convertBags P edPub pw bags ≠ .panic := by
    intro pw bags
    induction bags with
    | nil => simp [convertBags]
    | cons b bags ih =>
      rw [convertBags]
      exact bind_ne_panic (hbag _ _) fun _ _ => bind_ne_panic ih fun _ _ => by simp
  unfold toPEM
  split
  · simp
  · rename_i h; exact absurd h (bmpString_ne_panic _)
  · split
    · rename_i h; exact absurd h (C66_getSafeContents_no_panic _ _ _)
    · simp
    · exact hbags _ _

end MCrypto.Props
