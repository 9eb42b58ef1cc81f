import Verif.Props.RsaLemmas
/-
C132: RSA signatures (x509.go:1030-1040, 1770-1804, 1897, 2200, 2401-2409 with crypto/rsa; model Verif/X509/Rsa.lean,
specification Verif/X509/RsaSpec.lean).
-/
namespace MCrypto.Props
open MCrypto MCrypto.X509 MCrypto.X509Spec MCrypto.Asn1 MCrypto.Dg MCrypto.Rsa MCrypto.RsaSpec

theorem bitLen_le {m k : Nat} : bitLen m ≤ k ↔ m < 2 ^ k := by
  unfold bitLen
  by_cases h : m = 0
  · rw [if_pos h, h]; simp
  · rw [if_neg h, ← Nat.log2_lt h]; omega

theorem isBits_iff {n bits : Nat} : RsaSpec.IsBits n bits ↔ bits = bitLen n := by
  constructor
  · rintro ⟨h1, h2⟩
    have h3 := bitLen_le.mpr h1
    by_contra hne
    have h4 : bits ≠ 0 := by omega
    have h5 := h2 h4
    have h6 : n < 2 ^ (bits - 1) := bitLen_le.mp (by omega)
    omega
  · rintro rfl
    refine ⟨bitLen_le.mp (le_refl _), fun h => ?_⟩
    by_contra h2
    have := bitLen_le.mpr (show n < 2 ^ (bitLen n - 1) by omega)
    omega

theorem pow256 (k : Nat) : (256 : Nat) ^ k = 2 ^ (k * 8) := by
  rw [show (256 : Nat) = 2 ^ 8 by decide, ← pow_mul, Nat.mul_comm]

/-- `rsa.VerifyPSS` accepts exactly the RSASSA-PSS signatures of RFC 8017 with a salt as long as the digest. -/
theorem verifyPSS_iff {H : StdHashes} {pub : RsaPub} (hn : 0 < pub.n) {h hLen : Nat} {f : HashFn} (hf : stdHash H h = some f)
    (hs : cryptoHashSize h = .ok hLen) (hlen : ∀ m, (f m).length = hLen) (hpos : 0 < hLen) (d sig : Bytes) :
    verifyPSS H pub h d sig = .ok () ↔ ValidPss f hLen pub d sig := by
  unfold verifyPSS
  dsimp only
  constructor
  · intro hv
    by_cases h1 : sig.length = size pub
    · rw [if_neg (by simpa using h1)] at hv
      by_cases h2 : bitLen (encrypt pub (ofBytes sig)).toNat > (bitLen pub.n.natAbs - 1 + 7) / 8 * 8
      · rw [if_pos h2] at hv; cases hv
      · rw [if_neg h2, Res.bind_eq_ok] at hv
        obtain ⟨em, h3, h4⟩ := hv
        rw [fillBytes_ok] at h3
        rw [hf] at h4
        dsimp only at h4
        rw [hs, Res.bind_ok] at h4
        by_cases h5 : emsaPSSVerify f hLen d em (bitLen pub.n.natAbs - 1) = true
        · refine ⟨_, em, isBits_iff.mpr rfl, (pssVerify_iff hlen hpos _ _ _).mp h5, h1, ?_⟩
          rw [h3.2, ofBytes_beBytes_of_lt h3.1, Int.toNat_of_nonneg (opens_fits hn _).1]; rfl
        · rw [if_neg h5] at h4; cases h4
    · rw [if_pos h1] at hv; cases hv
  · rintro ⟨bits, em, hb, he, h1, h2⟩
    obtain rfl := isBits_iff.mp hb
    have hl : em.length = (bitLen pub.n.natAbs - 1 + 7) / 8 := by obtain ⟨_, _, _, _, h, -⟩ := he; exact h
    have h6 : (encrypt pub (ofBytes sig)).toNat = ofBytes em := by unfold encrypt; rw [h2]; rfl
    have h7 := ofBytes_lt em
    rw [hl] at h7
    rw [if_neg (show ¬ sig.length ≠ size pub from not_not.mpr h1), if_neg (by
      rw [h6]
      have := h7
      rw [pow256] at this
      have := bitLen_le.mpr this
      omega), Res.bind_eq_ok]
    refine ⟨em, fillBytes_ok.mpr ⟨by rw [h6]; exact h7, ?_⟩, ?_⟩
    · rw [h6, ← hl, beBytes_ofBytes]
    · rw [hf]
      dsimp only
      rw [hs, Res.bind_ok, if_pos ((pssVerify_iff hlen hpos _ _ _).mpr he)]

/-- The lengths of the digests of the hash functions. -/
structure HashLengths (H : StdHashes) : Prop where
  md5 : ∀ m, (H.md5 m).length = 16
  sha1 : ∀ m, (H.sha1 m).length = 20
  sha256 : ∀ m, (H.sha256 m).length = 32
  sha384 : ∀ m, (H.sha384 m).length = 48
  sha512 : ∀ m, (H.sha512 m).length = 64

theorem scheme_rsa {a : Int} {s : Scheme} {h : Nat} (ha : scheme a = some (s, h)) (hs : s = .rsaPkcs1 ∨ s = .rsaPss) :
    (s = .rsaPkcs1 ∧ (h = 2 ∨ h = 3 ∨ h = 5 ∨ h = 6 ∨ h = 7) ∧ a ∉ [(12 : Int), 13, 14]) ∨
    (s = .rsaPss ∧ (h = 5 ∨ h = 6 ∨ h = 7) ∧ a ∈ [(12 : Int), 13, 14]) := by
  obtain ⟨r1, r2⟩ := scheme_range ha
  interval_cases a <;> simp [scheme] at ha <;> obtain ⟨rfl, rfl⟩ := ha <;> simp_all

/-- The hash functions of the package. -/
theorem init_hash (H : StdHashes) {h : Nat} (hh : h = 2 ∨ h = 3 ∨ h = 5 ∨ h = 6 ∨ h = 7) :
    lastRegistered (initCalls H) h = stdHash H h := by
  rw [lastRegistered_init]
  rcases hh with rfl | rfl | rfl | rfl | rfl <;> rfl

theorem hash_size {H : StdHashes} (hl : HashLengths H) {h : Nat} (hh : h = 2 ∨ h = 3 ∨ h = 5 ∨ h = 6 ∨ h = 7) :
    ∃ f n, stdHash H h = some f ∧ cryptoHashSize h = .ok n ∧ 0 < n ∧ (∀ m, (f m).length = n) ∧ ∃ o, digestAlg h = some (o, n) := by
  rcases hh with rfl | rfl | rfl | rfl | rfl
  · exact ⟨_, _, rfl, rfl, by decide, hl.md5, _, rfl⟩
  · exact ⟨_, _, rfl, rfl, by decide, hl.sha1, _, rfl⟩
  · exact ⟨_, _, rfl, rfl, by decide, hl.sha256, _, rfl⟩
  · exact ⟨_, _, rfl, rfl, by decide, hl.sha384, _, rfl⟩
  · exact ⟨_, _, rfl, rfl, by decide, hl.sha512, _, rfl⟩

theorem isOk_unit {r : Res Unit} : r.isOk = true ↔ r = .ok () := by cases r <;> simp [Res.isOk]

/-- What an RSA signature of the message `plain` under the algorithm `a` is: PKCS #1 v1.5 for the five algorithms of that
family, PSS for the three others. -/
def RsaSigned (H : StdHashes) (k : RsaPub) (a : Int) (plain sig : Bytes) : Prop :=
  (∃ h f, (a, h, f) ∈ [(MD5WithRSA, hMD5, H.md5), (SHA1WithRSA, hSHA1, H.sha1), (SHA256WithRSA, hSHA256, H.sha256),
      (SHA384WithRSA, hSHA384, H.sha384), (SHA512WithRSA, hSHA512, H.sha512)] ∧ ValidV15 k h (f plain) sig) ∨
  (∃ n f, (a, n, f) ∈ [(SHA256WithRSAPSS, 32, H.sha256), (SHA384WithRSAPSS, 48, H.sha384), (SHA512WithRSAPSS, 64, H.sha512)] ∧
    ValidPss f n k (f plain) sig)

/-- **C132** `checkSignature` (and with it the checks of certificates, requests and revocation lists) accepts a signature for an
RSA key exactly if the octets are a PKCS #1 v1.5 or PSS signature of RFC 8017 of the message under the algorithm. -/
theorem C132_accepts_iff {H : StdHashes} (hl : HashLengths H) (V : Verifiers) (a : Int) (plain sig : Bytes) (k : RsaPub) (hn : 0 < k.n) :
    checkSignature (initRegistry H) (rsaVerifiers H V) a plain sig (.rsa k) = .ok () ↔ RsaSigned H k a plain sig := by
  rw [(C41_accepts_iff_init H (rsaVerifiers H V) a plain sig (.rsa k)).1]
  constructor
  · rintro ⟨s, h, f, h1, h2, h3⟩
    have hs : s = .rsaPkcs1 ∨ s = .rsaPss := by cases s <;> first | exact .inl rfl | exact .inr rfl | exact h3.elim
    rcases scheme_rsa h1 hs with ⟨rfl, hh, -⟩ | ⟨rfl, hh, -⟩
    · have h4 : verifyPKCS1v15 k h (f plain) sig = .ok () := isOk_unit.mp h3
      rw [verifyPKCS1v15_iff hn (by omega)] at h4
      refine .inl ⟨h, f, ?_, h4⟩
      rw [init_hash H hh] at h2
      obtain ⟨r1, r2⟩ := scheme_range h1
      interval_cases a <;> simp [scheme] at h1 <;> subst h1 <;> (obtain rfl := Option.some.inj h2; simp)
    · have h4 : verifyPSS H k h (f plain) sig = .ok () := isOk_unit.mp h3
      obtain ⟨f', n, e1, e2, e3, e4, -⟩ := hash_size hl (h := h) (by omega)
      rw [init_hash H (by omega), e1] at h2
      obtain rfl := Option.some.inj h2
      rw [verifyPSS_iff hn e1 e2 e4 e3] at h4
      refine .inr ⟨n, f', ?_, h4⟩
      obtain ⟨r1, r2⟩ := scheme_range h1
      interval_cases a <;> simp [scheme] at h1 <;> subst h1 <;>
        (obtain rfl := Option.some.inj e1; obtain rfl := Res.ok.inj e2; simp)
  · rintro (⟨h, f, h1, h2⟩ | ⟨n, f, h1, h2⟩)
    · simp only [List.mem_cons, Prod.mk.injEq, List.not_mem_nil, or_false] at h1
      have key : ∀ {a h f}, scheme a = some (.rsaPkcs1, h) → (h = 2 ∨ h = 3 ∨ h = 5 ∨ h = 6 ∨ h = 7) → stdHash H h = some f →
          ValidV15 k h (f plain) sig → SigAccepted (lastRegistered (initCalls H)) (rsaVerifiers H V) a plain sig (.rsa k) := by
        intro a h f e1 hh e2 e3
        exact ⟨_, h, f, e1, by rw [init_hash H hh, e2], isOk_unit.mpr ((verifyPKCS1v15_iff hn (by omega) _ _).mpr e3)⟩
      rcases h1 with ⟨rfl, rfl, rfl⟩ | ⟨rfl, rfl, rfl⟩ | ⟨rfl, rfl, rfl⟩ | ⟨rfl, rfl, rfl⟩ | ⟨rfl, rfl, rfl⟩ <;>
        exact key rfl (by decide) rfl h2
    · simp only [List.mem_cons, Prod.mk.injEq, List.not_mem_nil, or_false] at h1
      have key : ∀ {a h n f}, scheme a = some (.rsaPss, h) → (h = 2 ∨ h = 3 ∨ h = 5 ∨ h = 6 ∨ h = 7) → stdHash H h = some f →
          cryptoHashSize h = .ok n → (∀ m, (f m).length = n) → 0 < n →
          ValidPss f n k (f plain) sig → SigAccepted (lastRegistered (initCalls H)) (rsaVerifiers H V) a plain sig (.rsa k) := by
        intro a h n f e1 hh e2 e4 e5 e6 e3
        exact ⟨_, h, f, e1, by rw [init_hash H hh, e2], isOk_unit.mpr ((verifyPSS_iff hn e2 e4 e5 e6 _ _).mpr e3)⟩
      rcases h1 with ⟨rfl, rfl, rfl⟩ | ⟨rfl, rfl, rfl⟩ | ⟨rfl, rfl, rfl⟩
      · exact key (h := 5) rfl (by decide) rfl rfl hl.sha256 (by decide) h2
      · exact key (h := 6) rfl (by decide) rfl rfl hl.sha384 (by decide) h2
      · exact key (h := 7) rfl (by decide) rfl rfl hl.sha512 (by decide) h2

/-! ### Signing -/

theorem hashInfo_ok {h n : Nat} {o : List Nat} (hd : digestAlg h = some (o, n)) :
    (h = 2 ∨ h = 3 ∨ h = 4 ∨ h = 5 ∨ h = 6 ∨ h = 7) ∧ ∃ pre, ∀ l, pkcs1v15HashInfo h l =
      if l ≠ n then .err "crypto/rsa: input must be hashed message" else .ok (n, pre) := by
  unfold digestAlg at hd
  split at hd
  · rename_i e; obtain ⟨-, rfl⟩ := Prod.mk.inj (Option.some.inj hd); subst e; exact ⟨by decide, _, fun l => rfl⟩
  split at hd
  · rename_i e; obtain ⟨-, rfl⟩ := Prod.mk.inj (Option.some.inj hd); subst e; exact ⟨by decide, _, fun l => rfl⟩
  split at hd
  · rename_i e; obtain ⟨-, rfl⟩ := Prod.mk.inj (Option.some.inj hd); subst e; exact ⟨by decide, _, fun l => rfl⟩
  split at hd
  · rename_i e; obtain ⟨-, rfl⟩ := Prod.mk.inj (Option.some.inj hd); subst e; exact ⟨by decide, _, fun l => rfl⟩
  split at hd
  · rename_i e; obtain ⟨-, rfl⟩ := Prod.mk.inj (Option.some.inj hd); subst e; exact ⟨by decide, _, fun l => rfl⟩
  split at hd
  · rename_i e; obtain ⟨-, rfl⟩ := Prod.mk.inj (Option.some.inj hd); subst e; exact ⟨by decide, _, fun l => rfl⟩
  · cases hd

/-- `SignPKCS1v15` encodes the digest as RFC 8017 says and applies the private operation; if the encoding does not exist it
returns an error. -/
theorem sign_v15 {key : RsaPriv} {blind : Option Int} {h : Nat} (hh : h = 2 ∨ h = 3 ∨ h = 4 ∨ h = 5 ∨ h = 6 ∨ h = 7) (d : Bytes) :
    (∃ em, EmsaV15 h d em ∧ em.length = size key.pub ∧
      signPKCS1v15 key blind h d = (decryptAndCheck key blind (ofBytes em) >>= fun c => fillBytes c.toNat (size key.pub))) ∨
    ((¬ ∃ em, EmsaV15 h d em ∧ em.length = size key.pub) ∧ ∃ e, signPKCS1v15 key blind h d = .err e) := by
  obtain ⟨o, n, hd⟩ : ∃ o n, digestAlg h = some (o, n) := by
    rcases hh with rfl | rfl | rfl | rfl | rfl | rfl <;> exact ⟨_, _, rfl⟩
  obtain ⟨-, pre, hi⟩ := hashInfo_ok hd
  unfold signPKCS1v15
  rw [hi]
  by_cases h1 : d.length = n
  · rw [if_neg (not_not.mpr h1), Res.bind_ok]
    dsimp only
    have hdi : DigestInfo h d (pre ++ d) :=
      (digestInfo_iff h d _).mpr ⟨by omega, hh, pre, by rw [hi, if_neg (not_not.mpr h1), h1], rfl⟩
    by_cases h2 : size key.pub < pre.length + n + 11
    · rw [if_pos h2]
      refine .inr ⟨?_, _, rfl⟩
      rintro ⟨em, ⟨t, m, g1, g2, rfl⟩, g3⟩
      obtain ⟨-, -, pre', g4, rfl⟩ := (digestInfo_iff h d t).mp g1
      rw [hi, if_neg (not_not.mpr h1)] at g4
      obtain ⟨-, rfl⟩ := Prod.mk.inj (Res.ok.inj g4)
      simp at g3; omega
    · rw [if_neg h2]
      refine .inl ⟨_, ⟨_, _, hdi, ?_, rfl⟩, ?_, rfl⟩
      · omega
      · simp; omega
  · rw [if_pos h1]
    refine .inr ⟨?_, _, rfl⟩
    rintro ⟨em, ⟨t, m, g1, g2, rfl⟩, g3⟩
    obtain ⟨-, -, pre', g4, rfl⟩ := (digestInfo_iff h d t).mp g1
    rw [hi, if_pos h1] at g4; cases g4

theorem fill_opens {key : RsaPriv} (hk : IsRsaKey key) {blind : Option Int} {em sig : Bytes}
    (h : (decryptAndCheck key blind (ofBytes em) >>= fun c => fillBytes c.toNat (size key.pub)) = .ok sig) : Opens key.pub sig em := by
  rw [Res.bind_eq_ok] at h
  obtain ⟨c, h1, h2⟩ := h
  obtain ⟨h3, h4⟩ := decryptAndCheck_sound hk h1
  rw [fillBytes_ok] at h2
  refine ⟨by rw [h2.2, beBytes_length]; rfl, ?_⟩
  rw [h2.2, ofBytes_beBytes_of_lt h2.1, Int.toNat_of_nonneg h3]
  exact h4

/-- **C132** Every signature that a key accepted by the parsers makes is valid under the public half of the key, whatever its
factors are and whatever is drawn for blinding and salt. -/
theorem C132_signature_valid {H : StdHashes} (hl : HashLengths H) {key : RsaPriv} (hk : IsRsaKey key) (blind : Option Int)
    (rand d sig : Bytes) :
    (∀ h, digestAlg h ≠ none → sign H key blind rand d (.hash h) = .ok sig → ValidV15 key.pub h d sig) ∧
    (∀ h n f, (h, n, f) ∈ [(hSHA256, 32, H.sha256), (hSHA384, 48, H.sha384), (hSHA512, 64, H.sha512)] →
      sign H key blind rand d (.pss h) = .ok sig → ValidPss f n key.pub d sig) := by
  constructor
  · intro h hd hs
    obtain ⟨⟨o, n⟩, hd⟩ := Option.ne_none_iff_exists'.mp hd
    rcases sign_v15 (hashInfo_ok hd).1 (key := key) (blind := blind) d with ⟨em, h1, h2, h3⟩ | ⟨-, e, h3⟩
    · exact ⟨em, h2, h1, fill_opens hk (h3.symm.trans hs)⟩
    · have : signPKCS1v15 key blind h d = .ok sig := hs
      rw [h3] at this; cases this
  · intro h n f hm hs
    have hs : signPSS H key blind rand h d = .ok sig := hs
    have hh : stdHash H h = some f ∧ cryptoHashSize h = .ok n ∧ (∀ m, (f m).length = n) ∧ 0 < n := by
      simp only [List.mem_cons, Prod.mk.injEq, List.not_mem_nil, or_false] at hm
      rcases hm with ⟨rfl, rfl, rfl⟩ | ⟨rfl, rfl, rfl⟩ | ⟨rfl, rfl, rfl⟩
      · exact ⟨rfl, rfl, hl.sha256, by decide⟩
      · exact ⟨rfl, rfl, hl.sha384, by decide⟩
      · exact ⟨rfl, rfl, hl.sha512, by decide⟩
    unfold signPSS at hs
    rw [hh.2.1, Res.bind_ok, hh.1] at hs
    by_cases hr : rand.length < n
    · rw [if_pos hr] at hs; cases hs
    · rw [if_neg hr] at hs
      dsimp only at hs
      rw [Res.bind_eq_ok] at hs
      obtain ⟨em, h1, h2⟩ := hs
      exact ⟨_, em, isBits_iff.mpr rfl, pssEncode_spec hh.2.2.1 hh.2.2.2 _ _ _ (by rw [List.length_take]; omega) h1, fill_opens hk h2⟩

theorem em_lt {key : RsaPub} (hn : 0 < key.n) {h : Nat} {d em : Bytes} (he : EmsaV15 h d em) (hl : em.length = size key) :
    (ofBytes em : Int) < key.n := by
  obtain ⟨t, n, -, hn8, rfl⟩ := he
  have h1 := ofBytes_lt (1 :: (List.replicate n 0xff ++ 0 :: t))
  have h2 := pow_byteLen_le (n := key.n.natAbs) (by omega)
  unfold size at hl
  rw [← hl] at h2
  have h3 : ofBytes (0 :: 1 :: (List.replicate n 0xff ++ 0 :: t)) = ofBytes (1 :: (List.replicate n 0xff ++ 0 :: t)) := by
    rw [ofBytes_cons]; simp
  rw [h3]
  have h4 : (0 :: 1 :: (List.replicate n 0xff ++ 0 :: t) : Bytes).length - 1 = (1 :: (List.replicate n 0xff ++ 0 :: t) : Bytes).length := rfl
  rw [h4] at h2
  omega

/-- **C132** A key with distinct primes signs a digest whenever the encoding fits the modulus, and there is one signature: the
encoding to the private exponent. Blinding does not matter. -/
theorem C132_sign_iff {H : StdHashes} {key : RsaPriv} (hk : IsRsaKey key) (hp : ∀ p ∈ key.primes, p.toNat.Prime) (hd : key.primes.Nodup)
    {blind : Option Int} (hb : Blinds key blind) (rand : Bytes) {h : Nat} (hh : digestAlg h ≠ none) (d sig : Bytes) :
    sign H key blind rand d (.hash h) = .ok sig ↔
      ∃ em, EmsaV15 h d em ∧ em.length = byteLen key.pub.n.natAbs ∧
        sig = beBytes em.length (((ofBytes em : Int) ^ key.d.toNat % key.pub.n).toNat) := by
  obtain ⟨⟨o, n⟩, hda⟩ := Option.ne_none_iff_exists'.mp hh
  have hn := rsa_n_pos hk
  have eq : ∀ em, EmsaV15 h d em → em.length = size key.pub →
      (decryptAndCheck key blind (ofBytes em) >>= fun c => fillBytes c.toNat (size key.pub)) =
        .ok (beBytes em.length (((ofBytes em : Int) ^ key.d.toNat % key.pub.n).toNat)) := by
    intro em h1 h2
    rw [decryptAndCheck_spec hk hp hd hb (by omega) (em_lt hn h1 h2), Res.bind_ok, h2]
    refine fillBytes_ok.mpr ⟨?_, rfl⟩
    have h3 := Int.emod_nonneg ((ofBytes em : Int) ^ key.d.toNat) (by omega : key.pub.n ≠ 0)
    have h4 := Int.emod_lt_of_pos ((ofBytes em : Int) ^ key.d.toNat) hn
    have h5 := lt_pow_byteLen key.pub.n.natAbs
    unfold size
    omega
  show signPKCS1v15 key blind h d = .ok sig ↔ _
  rcases sign_v15 (hashInfo_ok hda).1 (key := key) (blind := blind) d with ⟨em, h1, h2, h3⟩ | ⟨h1, e, h3⟩
  · rw [h3, eq em h1 h2]
    constructor
    · intro he; exact ⟨em, h1, h2, (Res.ok.inj he).symm⟩
    · rintro ⟨em', g1, g2, rfl⟩
      rw [← eq em h1 h2, ← eq em' g1 g2]
      congr 2
      obtain ⟨t, m, a1, -, rfl⟩ := h1
      obtain ⟨t', m', b1, -, rfl⟩ := g1
      obtain ⟨-, -, pre, a2, rfl⟩ := (digestInfo_iff h d t).mp a1
      obtain ⟨-, -, pre', b2, rfl⟩ := (digestInfo_iff h d t').mp b1
      rw [a2] at b2
      obtain ⟨-, rfl⟩ := Prod.mk.inj (Res.ok.inj b2)
      have hl : m = m' := by
        have g2 : _ = size key.pub := g2
        rw [← g2] at h2
        simpa using h2
      rw [hl]
  · rw [h3]
    constructor
    · intro he; cases he
    · rintro ⟨em, g1, g2, -⟩; exact (h1 ⟨em, g1, g2⟩).elim

theorem pss_lt {f : HashFn} {hLen emBits : Nat} {d em : Bytes} (h : EmsaPss f hLen emBits d em) : ofBytes em < 2 ^ emBits := by
  obtain ⟨salt, db, masked, hh, h1, h2, -, -, -, h3, h4, h5, h6⟩ := h
  have hd : 0 < db.length := by rw [h4]; simp
  obtain ⟨a, m, b, -, -, hb, hr⟩ := h6 0 hd
  rw [if_pos rfl] at hr
  unfold KeepsLow at hr
  cases masked with
  | nil => simp at hb
  | cons b' l =>
    obtain rfl : b' = b := by simpa using hb
    have hem : em = b' :: (l ++ (hh ++ [0xbc])) := by rw [h3]; rfl
    generalize hrest : l ++ (hh ++ [0xbc]) = rest at hem
    have hl : em.length = rest.length + 1 := by rw [hem]; rfl
    rw [hem, ofBytes_cons]
    have h7 := ofBytes_lt rest
    have h8 : b'.toNat + 1 ≤ 2 ^ (8 - (8 * em.length - emBits)) := by
      rw [hr]; exact Nat.mod_lt _ (Nat.two_pow_pos _)
    have h9 : 2 ^ emBits = 2 ^ (8 - (8 * em.length - emBits)) * 256 ^ rest.length := by
      rw [pow256, ← pow_add]
      congr 1
      omega
    rw [h9]
    calc b'.toNat * 256 ^ rest.length + ofBytes rest < b'.toNat * 256 ^ rest.length + 256 ^ rest.length := by omega
      _ = (b'.toNat + 1) * 256 ^ rest.length := by ring
      _ ≤ _ := Nat.mul_le_mul_right _ h8

/-- **C132** PSS: a key with distinct primes signs exactly the digests of the right length, if the modulus is long enough and
the salt can be drawn. -/
theorem C132_sign_pss_iff {H : StdHashes} (hl : HashLengths H) {key : RsaPriv} (hk : IsRsaKey key) (hp : ∀ p ∈ key.primes, p.toNat.Prime)
    (hd : key.primes.Nodup) {blind : Option Int} (hb : Blinds key blind) (rand : Bytes) {h n : Nat} {f : HashFn}
    (hm : (h, n, f) ∈ [(hSHA256, 32, H.sha256), (hSHA384, 48, H.sha384), (hSHA512, 64, H.sha512)]) (d : Bytes) :
    (∃ sig, sign H key blind rand d (.pss h) = .ok sig) ↔ d.length = n ∧ n ≤ rand.length ∧ 2 ^ (16 * n + 9) ≤ key.pub.n := by
  have hn := rsa_n_pos hk
  have hh : stdHash H h = some f ∧ cryptoHashSize h = .ok n ∧ (∀ m, (f m).length = n) ∧ 0 < n := by
    simp only [List.mem_cons, Prod.mk.injEq, List.not_mem_nil, or_false] at hm
    rcases hm with ⟨rfl, rfl, rfl⟩ | ⟨rfl, rfl, rfl⟩ | ⟨rfl, rfl, rfl⟩
    · exact ⟨rfl, rfl, hl.sha256, by decide⟩
    · exact ⟨rfl, rfl, hl.sha384, by decide⟩
    · exact ⟨rfl, rfl, hl.sha512, by decide⟩
  have hbits : 2 ^ (16 * n + 9) ≤ key.pub.n ↔ 16 * n + 9 < bitLen key.pub.n.natAbs := by
    rw [← not_le, ← not_lt, not_iff_not, bitLen_le]
    have e : ((2 ^ (16 * n + 9) : Nat) : Int) = 2 ^ (16 * n + 9) := by push_cast; rfl
    rw [← e]; omega
  show (∃ sig, signPSS H key blind rand h d = .ok sig) ↔ _
  rw [hbits]
  unfold signPSS
  rw [hh.2.1, Res.bind_ok, hh.1]
  constructor
  · rintro ⟨sig, hs⟩
    by_cases hr : rand.length < n
    · rw [if_pos hr] at hs; cases hs
    · rw [if_neg hr] at hs
      dsimp only at hs
      rw [Res.bind_eq_ok] at hs
      obtain ⟨em, h1, -⟩ := hs
      obtain ⟨_, _, _, _, g1, g2, g3, -⟩ := pssEncode_spec hh.2.2.1 hh.2.2.2 _ _ _ (by rw [List.length_take]; omega) h1
      exact ⟨g3, by omega, by omega⟩
  · rintro ⟨hdl, hr, hs⟩
    rw [if_neg (by omega)]
    dsimp only
    obtain ⟨em, he⟩ := pssEncode_ok (f := f) (hLen := n) (bitLen key.pub.n.natAbs - 1) d (rand.take n) hdl (by rw [List.length_take]; omega) (by omega)
    rw [he, Res.bind_ok]
    have hspec := pssEncode_spec hh.2.2.1 hh.2.2.2 _ _ _ (by rw [List.length_take]; omega) he
    have hlt : (ofBytes em : Int) < key.pub.n := by
      have h1 := pss_lt hspec
      have h2 := (isBits_iff (n := key.pub.n.natAbs).mpr rfl).2 (by omega)
      omega
    rw [decryptAndCheck_spec hk hp hd hb (by omega) hlt, Res.bind_ok]
    refine ⟨_, fillBytes_ok.mpr ⟨?_, rfl⟩⟩
    have h3 := Int.emod_nonneg ((ofBytes em : Int) ^ key.d.toNat) (by omega : key.pub.n ≠ 0)
    have h4 := Int.emod_lt_of_pos ((ofBytes em : Int) ^ key.d.toNat) hn
    have h5 := lt_pow_byteLen key.pub.n.natAbs
    unfold size
    omega

/-! ### Crashes -/

theorem crt_lt {k : RsaPriv} (hk : IsRsaKey k) (hc : k.primes.Pairwise fun p q => IsCoprime p q) {c m : Int} (h : crt k c = .ok m) :
    m < k.pub.n := by
  have hpos := hk.primes
  have hprod := hk.prod
  unfold crt at h
  rcases hl : k.primes with _ | ⟨p, _ | ⟨q, more⟩⟩
  · rw [hl] at h; cases h
  · rw [hl] at h; cases h
  · rw [hl] at h hpos hc hprod
    dsimp only at h
    have hp := hpos p (by simp)
    have hq := hpos q (by simp)
    cases hi : modInverse q p with
    | none => rw [hi] at h; cases h
    | some i =>
      rw [hi] at h
      dsimp only at h
      rw [List.pairwise_cons, List.pairwise_cons] at hc
      generalize hx : (if c ^ (k.d % (p - 1)).toNat % p - c ^ (k.d % (q - 1)).toNat % q < 0 then
        c ^ (k.d % (p - 1)).toNat % p - c ^ (k.d % (q - 1)).toNat % q + p else
        c ^ (k.d % (p - 1)).toNat % p - c ^ (k.d % (q - 1)).toNat % q) = x at h
      have a1 := Int.emod_nonneg (x * i) (by omega : p ≠ 0)
      have a2 := Int.emod_lt_of_pos (x * i) (by omega : 0 < p)
      have b1 := Int.emod_nonneg (c ^ (k.d % (q - 1)).toNat) (by omega : q ≠ 0)
      have b2 := Int.emod_lt_of_pos (c ^ (k.d % (q - 1)).toNat) (by omega : 0 < q)
      obtain ⟨m', g1, -, g3, -⟩ := crtLoop_spec c k.d more (p * q) (x * i % p * q + c ^ (k.d % (q - 1)).toNat % q)
        (by positivity) (by nlinarith) (fun r hr => by have := hpos r (by simp [hr]); omega)
        (fun r hr => IsCoprime.mul_left (hc.1 r (by simp [hr])) (hc.2.1 r hr)) hc.2.2
      rw [g1] at h
      obtain rfl := Res.ok.inj h
      rw [List.prod_cons, List.prod_cons, ← mul_assoc] at hprod
      rw [← hprod]; exact g3

theorem decryptAndCheck_lt {k : RsaPriv} (hk : IsRsaKey k) (hc : k.primes.Pairwise fun p q => IsCoprime p q) {blind : Option Int} {c m : Int}
    (h : decryptAndCheck k blind c = .ok m) : m < k.pub.n := by
  have hn := rsa_n_pos hk
  unfold decryptAndCheck at h
  rw [Res.bind_eq_ok] at h
  obtain ⟨m', h1, h2⟩ := h
  split at h2
  · cases h2
  obtain rfl := Res.ok.inj h2
  unfold decrypt at h1
  split at h1
  · cases h1
  split at h1
  · cases h1
  cases blind with
  | none => exact crt_lt hk hc h1
  | some r =>
    dsimp only at h1
    cases hi : modInverse r k.pub.n with
    | none => rw [hi] at h1; cases h1
    | some ir =>
      rw [hi] at h1
      dsimp only at h1
      rw [Res.bind_eq_ok] at h1
      obtain ⟨m'', -, h3⟩ := h1
      obtain rfl := Res.ok.inj h3
      exact Int.emod_lt_of_pos _ hn

theorem sign_fill_panic {key : RsaPriv} (hk : IsRsaKey key) {blind : Option Int} (hb : Blinds key blind) {c : Int} (hc : c ≤ key.pub.n) :
    (decryptAndCheck key blind c >>= fun c => fillBytes c.toNat (size key.pub)) = .panic ↔
      ¬ key.primes.Pairwise fun p q => IsCoprime p q := by
  rw [← decrypt_panic hk hb hc]
  constructor
  · intro h
    cases hd : decryptAndCheck key blind c with
    | err e => rw [hd] at h; cases h
    | panic => rfl
    | ok m =>
      rw [hd, Res.bind_ok] at h
      by_cases hcp : key.primes.Pairwise fun p q => IsCoprime p q
      · have h1 := decryptAndCheck_lt hk hcp hd
        have h2 := (decryptAndCheck_sound hk hd).1
        have h3 := lt_pow_byteLen key.pub.n.natAbs
        unfold fillBytes at h
        rw [if_pos (by unfold size; omega)] at h
        cases h
      · rw [← decrypt_panic hk hb hc, hd] at hcp; cases hcp
  · intro h; rw [h]; rfl

/-- **C132** Signing with an accepted key crashes exactly if two of its factors have a common divisor (which the parsers do not
check) and the digest can be encoded at all. -/
theorem C132_sign_crashes_iff {H : StdHashes} {key : RsaPriv} (hk : IsRsaKey key) {blind : Option Int} (hb : Blinds key blind) (rand : Bytes)
    {h : Nat} (hh : digestAlg h ≠ none) (d : Bytes) :
    sign H key blind rand d (.hash h) = .panic ↔
      (∃ em, EmsaV15 h d em ∧ em.length = byteLen key.pub.n.natAbs) ∧ ¬ key.primes.Pairwise fun p q => IsCoprime p q := by
  obtain ⟨⟨o, n⟩, hda⟩ := Option.ne_none_iff_exists'.mp hh
  have hn := rsa_n_pos hk
  show signPKCS1v15 key blind h d = .panic ↔ _
  rcases sign_v15 (hashInfo_ok hda).1 (key := key) (blind := blind) d with ⟨em, h1, h2, h3⟩ | ⟨h1, e, h3⟩
  · rw [h3, sign_fill_panic hk hb (le_of_lt (em_lt hn h1 h2))]
    exact ⟨fun h => ⟨⟨em, h1, h2⟩, h⟩, fun h => h.2⟩
  · rw [h3]
    constructor
    · intro he; cases he
    · rintro ⟨⟨em, g1, g2⟩, -⟩; exact (h1 ⟨em, g1, g2⟩).elim

/-! ### One signature, one message -/

theorem emsa_unique {h : Nat} {d em em' : Bytes} (h1 : EmsaV15 h d em) (h2 : EmsaV15 h d em') (hl : em.length = em'.length) : em = em' := by
  obtain ⟨t, m, a1, -, rfl⟩ := h1
  obtain ⟨t', m', b1, -, rfl⟩ := h2
  obtain ⟨-, -, pre, a2, rfl⟩ := (digestInfo_iff h d t).mp a1
  obtain ⟨-, -, pre', b2, rfl⟩ := (digestInfo_iff h d t').mp b1
  rw [a2] at b2
  obtain ⟨-, rfl⟩ := Prod.mk.inj (Res.ok.inj b2)
  have : m = m' := by simpa using hl
  rw [this]

theorem pad_inj : ∀ {n m : Nat} {t u : Bytes}, List.replicate n (0xff : UInt8) ++ 0 :: t = List.replicate m 0xff ++ 0 :: u → t = u
  | 0, 0, _, _, h => by simpa using h
  | 0, m + 1, _, _, h => by rw [List.replicate_succ] at h; simp at h
  | n + 1, 0, _, _, h => by rw [List.replicate_succ] at h; simp at h
  | n + 1, m + 1, _, _, h => by
    rw [List.replicate_succ, List.replicate_succ, List.cons_append, List.cons_append] at h
    exact pad_inj (List.cons.inj h).2

theorem digestInfo_inj {h h' : Nat} {d d' t : Bytes} (h1 : DigestInfo h d t) (h2 : DigestInfo h' d' t) : h = h' ∧ d = d' := by
  have shape : ∀ {h : Nat} {d t : Bytes}, DigestInfo h d t →
      ∃ pre, hashPrefix h = some pre ∧ (h = 2 ∨ h = 3 ∨ h = 4 ∨ h = 5 ∨ h = 6 ∨ h = 7) ∧ t = pre ++ d := by
    intro h d t hd
    obtain ⟨-, hh, pre, g1, g2⟩ := (digestInfo_iff h d t).mp hd
    refine ⟨pre, ?_, hh, g2⟩
    unfold pkcs1v15HashInfo at g1
    rw [if_neg (by omega), Res.bind_eq_ok] at g1
    obtain ⟨n, -, g1⟩ := g1
    split at g1
    · cases g1
    · split at g1
      · cases g1
      · rename_i hp
        obtain ⟨-, rfl⟩ := Prod.mk.inj (Res.ok.inj g1)
        exact hp
  obtain ⟨p, a1, a2, rfl⟩ := shape h1
  obtain ⟨q, b1, b2, e⟩ := shape h2
  have hh : h = h' := by
    rcases a2 with rfl | rfl | rfl | rfl | rfl | rfl <;> rcases b2 with rfl | rfl | rfl | rfl | rfl | rfl <;>
      first
      | rfl
      | (obtain rfl := Option.some.inj a1; obtain rfl := Option.some.inj b1; simp at e)
  subst hh
  rw [a1] at b1
  obtain rfl := Option.some.inj b1
  exact ⟨rfl, List.append_cancel_left e⟩

/-- **C132** A PKCS #1 v1.5 signature is a signature of one digest, under one hash. -/
theorem C132_binds {k : RsaPub} {h h' : Nat} {d d' sig : Bytes} (h1 : ValidV15 k h d sig) (h2 : ValidV15 k h' d' sig) : h = h' ∧ d = d' := by
  obtain ⟨em, a1, a2, -, a3⟩ := h1
  obtain ⟨em', b1, b2, -, b3⟩ := h2
  rw [a3] at b3
  have : em = em' := ofBytes_inj (a1.trans b1.symm) (by exact_mod_cast b3)
  subst this
  obtain ⟨t, n, c1, -, rfl⟩ := a2
  obtain ⟨t', n', d1, -, e⟩ := b2
  have := pad_inj (List.cons.inj (List.cons.inj e).2).2
  subst this
  exact digestInfo_inj c1 d1

theorem ofBytes_last {a b : Bytes} {x y : UInt8} (h : ofBytes (a ++ [x]) = ofBytes (b ++ [y])) : x = y := by
  rw [ofBytes_append, ofBytes_append] at h
  simp only [List.length_singleton, pow_one] at h
  have e : ∀ z : UInt8, ofBytes [z] = z.toNat := fun z => by rw [ofBytes_cons]; simp
  rw [e, e] at h
  have h1 := x.toNat_lt
  have h2 := y.toNat_lt
  apply UInt8.toNat_inj.mp
  omega

/-- **C132** A signature that is valid under both schemes is one of a digest that ends in BC. -/
theorem C132_schemes_apart {f : HashFn} {n : Nat} {k : RsaPub} {h : Nat} {d d' sig : Bytes} (h1 : ValidV15 k h d sig)
    (h2 : ValidPss f n k d' sig) : d.getLast? = some 0xbc := by
  obtain ⟨em, -, ⟨t, m, a2, -, rfl⟩, -, a3⟩ := h1
  obtain ⟨bits, em', -, ⟨salt, db, masked, hh, -, -, -, -, -, rfl, -⟩, -, b3⟩ := h2
  rw [a3] at b3
  have b4 : ofBytes (0 :: 1 :: (List.replicate m 0xff ++ 0 :: t)) = ofBytes (masked ++ (hh ++ [0xbc])) := by exact_mod_cast b3
  obtain ⟨-, hh', pre, g1, rfl⟩ := (digestInfo_iff h d t).mp a2
  have hd : d ≠ [] := by
    rintro rfl
    rcases hh' with rfl | rfl | rfl | rfl | rfl | rfl <;> cases g1
  obtain ⟨l, x, rfl⟩ : ∃ l x, d = l ++ [x] := ⟨_, _, (List.dropLast_append_getLast hd).symm⟩
  have e1 : (0 :: 1 :: (List.replicate m 0xff ++ 0 :: (pre ++ (l ++ [x]))) : Bytes) =
      (0 :: 1 :: (List.replicate m 0xff ++ 0 :: (pre ++ l))) ++ [x] := by simp
  have e2 : masked ++ (hh ++ [0xbc]) = (masked ++ hh) ++ [0xbc] := by simp
  rw [e1, e2] at b4
  rw [ofBytes_last b4]; simp

/-- **C132** A key with distinct primes: of the octets that stand for a number below the modulus, those that are accepted are
the ones that the private key makes. -/
theorem C132_unique {H : StdHashes} {key : RsaPriv} (hk : IsRsaKey key) (hp : ∀ p ∈ key.primes, p.toNat.Prime) (hd : key.primes.Nodup)
    {blind : Option Int} (hb : Blinds key blind) (rand : Bytes) {h : Nat} (hh : digestAlg h ≠ none) (d sig : Bytes) :
    ValidV15 key.pub h d sig ∧ (ofBytes sig : Int) < key.pub.n ↔ sign H key blind rand d (.hash h) = .ok sig := by
  have hn := rsa_n_pos hk
  rw [C132_sign_iff hk hp hd hb rand hh]
  constructor
  · rintro ⟨⟨em, h1, h2, h3, h4⟩, h5⟩
    refine ⟨em, h2, h1, ?_⟩
    rw [← h4, h1, ← h3]
    have h6 := rsa_works hk hp hd (ofBytes sig)
    have h7 : ((ofBytes sig : Int) ^ key.pub.e.toNat % key.pub.n) ^ key.d.toNat % key.pub.n = ofBytes sig := by
      have : ((ofBytes sig : Int) ^ key.pub.e.toNat % key.pub.n) ^ key.d.toNat ≡ ofBytes sig [ZMOD key.pub.n] :=
        ((Int.mod_modEq _ _).pow _).trans h6
      exact Eq.trans this (Int.emod_eq_of_lt (by omega) h5)
    rw [h7]
    simp [beBytes_ofBytes]
  · rintro ⟨em, h1, h2, rfl⟩
    have h3 := Int.emod_nonneg ((ofBytes em : Int) ^ key.d.toNat) (by omega : key.pub.n ≠ 0)
    have h4 := Int.emod_lt_of_pos ((ofBytes em : Int) ^ key.d.toNat) hn
    have h5 := lt_pow_byteLen key.pub.n.natAbs
    have hv : ofBytes (beBytes em.length ((ofBytes em : Int) ^ key.d.toNat % key.pub.n).toNat) =
        ((ofBytes em : Int) ^ key.d.toNat % key.pub.n).toNat := ofBytes_beBytes_of_lt (by rw [h2]; omega)
    refine ⟨⟨em, h2, h1, by rw [beBytes_length, h2], ?_⟩, ?_⟩
    · rw [hv, Int.toNat_of_nonneg h3]
      have : ((ofBytes em : Int) ^ key.d.toNat % key.pub.n) ^ key.pub.e.toNat ≡ ofBytes em [ZMOD key.pub.n] := by
        refine ((Int.mod_modEq _ _).pow _).trans ?_
        rw [← pow_mul, Nat.mul_comm]
        exact rsa_pow hk hp hd _
      exact Eq.trans this (Int.emod_eq_of_lt (by omega) (em_lt hn h1 h2))
    · rw [hv, Int.toNat_of_nonneg h3]; exact h4

/-- **C132** Numbers that are not below the modulus, which RFC 8017 5.2.2 rejects, are accepted too: a signature is accepted
exactly if its remainder modulo `n`, written with as many octets, is. So if `s + n` fits the octets, it is a second signature. -/
theorem C132_malleable {k : RsaPub} (hn : 0 < k.n) (h : Nat) (d sig : Bytes) (hl : sig.length = byteLen k.n.natAbs) :
    (ValidV15 k h d sig ↔ ValidV15 k h d (beBytes sig.length (ofBytes sig % k.n.natAbs))) ∧
    (ofBytes sig + k.n.natAbs < 256 ^ sig.length →
      (ValidV15 k h d sig ↔ ValidV15 k h d (beBytes sig.length (ofBytes sig + k.n.natAbs))) ∧
      beBytes sig.length (ofBytes sig + k.n.natAbs) ≠ sig) := by
  have key : ∀ s t : Bytes, s.length = byteLen k.n.natAbs → t.length = byteLen k.n.natAbs →
      (ofBytes s : Int) ≡ ofBytes t [ZMOD k.n] → (ValidV15 k h d s ↔ ValidV15 k h d t) := by
    intro s t hs ht e
    have e2 := e.pow k.e.toNat
    have : ∀ em, Opens k s em ↔ Opens k t em := fun em => by
      unfold Opens
      rw [hs, ht]
      exact and_congr_right fun _ => by rw [show (ofBytes s : Int) ^ k.e.toNat % k.n = ofBytes t ^ k.e.toNat % k.n from e2]
    unfold ValidV15
    simp only [this]
  have hnn : (k.n.natAbs : Int) = k.n := by omega
  constructor
  · refine key _ _ hl (by rw [beBytes_length, hl]) ?_
    have h1 : ofBytes sig % k.n.natAbs < 256 ^ sig.length := lt_of_le_of_lt (Nat.mod_le _ _) (ofBytes_lt sig)
    rw [ofBytes_beBytes_of_lt h1]
    rw [Int.natCast_mod, hnn]
    exact (Int.mod_modEq _ _).symm
  · intro hlt
    refine ⟨key _ _ hl (by rw [beBytes_length, hl]) ?_, ?_⟩
    · rw [ofBytes_beBytes_of_lt hlt]
      rw [Nat.cast_add, hnn]
      exact (Int.ModEq.symm (by simp [Int.ModEq]))
    · intro e
      have := congrArg ofBytes e
      rw [ofBytes_beBytes_of_lt hlt] at this
      omega

end MCrypto.Props
