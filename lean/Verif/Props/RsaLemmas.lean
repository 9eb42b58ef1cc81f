import Verif.X509.Rsa
import Verif.X509.RsaSpec
import Verif.Props.Sizes
import Verif.Props.RsaUse
/-
Lemmas for RSA signatures (C132): the model of crypto/rsa against RFC 8017.
-/
namespace MCrypto.Props
open MCrypto MCrypto.X509 MCrypto.X509Spec MCrypto.Asn1 MCrypto.Dg MCrypto.Rsa MCrypto.RsaSpec

theorem el_eq_short {t : UInt8} {b e : Bytes} (hb : b.length < 128) : El t b e ↔ e = t :: UInt8.ofNat b.length :: b := by
  have h2 : (2 : Nat) ^ 31 < 256 ^ 127 := by decide
  constructor
  · rintro ⟨h, hl⟩
    rw [DerSpec.isTLV_iff _ _ _ (by omega)] at h
    rw [h, short_tlv t hb]
  · rintro rfl; exact el_short t hb

theorem oidEl_eq_short {o : List Nat} {b e : Bytes} (hb : b.length < 128) (ho : decOid b = some o) (hi : ∀ c, decOid c = some o → c = b) :
    OidEl o e ↔ e = 6 :: UInt8.ofNat b.length :: b := by
  constructor
  · rintro ⟨c, h1, h2⟩
    have := hi c ((isOid_iff _ _).mp h2)
    subst this
    exact (el_eq_short hb).mp h1
  · intro h; exact oidEl_of h hb ho

theorem digestInfo_row {h : Nat} {o : List Nat} {n : Nat} {b : Bytes} (ha : digestAlg h = some (o, n)) (hb : b.length < 100) (hn : n < 100)
    (hs : b.length + n < 100)
    (ho : encOid o = some b) (hok : OidOk o) (d t : Bytes) :
    DigestInfo h d t ↔ d.length = n ∧
      t = 0x30 :: UInt8.ofNat (b.length + n + 8) :: 0x30 :: UInt8.ofNat (b.length + 4) :: 6 :: UInt8.ofNat b.length ::
        (b ++ 5 :: 0 :: 4 :: UInt8.ofNat n :: d) := by
  have hd : decOid b = some o := (decOid_iff _ _).mpr ⟨hok, ho⟩
  have hu : ∀ c, decOid c = some o → c = b := fun c hc => by
    have := ((decOid_iff _ _).mp hc).2
    rw [ho] at this; exact (Option.some.inj this).symm
  have halg : ∀ ae, AlgOut o [5, 0] ae ↔ ae = 0x30 :: UInt8.ofNat (b.length + 4) :: 6 :: UInt8.ofNat b.length :: (b ++ [5, 0]) := by
    intro ae
    have e2 : ∀ ae, El 0x30 ((6 :: UInt8.ofNat b.length :: b) ++ [5, 0]) ae ↔ ae = 0x30 :: UInt8.ofNat (b.length + 4) :: 6 :: UInt8.ofNat b.length :: (b ++ [5, 0]) := by
      intro ae
      rw [el_eq_short (by simp; omega)]
      simp only [List.length_append, List.length_cons, List.length_nil, List.cons_append]
    constructor
    · rintro ⟨oe, h1, h2⟩
      rw [oidEl_eq_short (by omega) hd hu] at h2
      subst h2
      exact (e2 ae).mp h1
    · intro h
      exact ⟨_, (e2 ae).mpr h, (oidEl_eq_short (by omega) hd hu).mpr rfl⟩
  have hout : ∀ d t : Bytes, d.length = n → (El 0x30 ((0x30 :: UInt8.ofNat (b.length + 4) :: 6 :: UInt8.ofNat b.length :: (b ++ [5, 0])) ++
      (4 :: UInt8.ofNat d.length :: d)) t ↔ t = 0x30 :: UInt8.ofNat (b.length + n + 8) :: 0x30 :: UInt8.ofNat (b.length + 4) :: 6 :: UInt8.ofNat b.length ::
        (b ++ 5 :: 0 :: 4 :: UInt8.ofNat n :: d)) := by
    intro d t hdn
    rw [el_eq_short (by simp; omega)]
    subst hdn
    simp only [List.length_append, List.length_cons, List.cons_append, List.append_assoc, List.nil_append]
    rw [show b.length + (d.length + 1 + 1 + 1 + 1) + 1 + 1 + 1 + 1 = b.length + d.length + 8 by omega]
  constructor
  · rintro ⟨o', n', ae, de, h1, h2, h3, h4, h5⟩
    rw [ha] at h1
    obtain ⟨rfl, rfl⟩ := Prod.mk.inj (Option.some.inj h1)
    rw [halg] at h4
    rw [el_eq_short (by omega)] at h5
    subst h4 h5
    exact ⟨h2, (hout d t h2).mp h3⟩
  · rintro ⟨h2, h3⟩
    exact ⟨o, n, _, _, ha, h2, (hout d t h2).mpr h3, (halg _).mpr rfl, (el_eq_short (by omega)).mpr rfl⟩

/-- The prefixes of crypto/rsa are those of DigestInfo. -/
theorem digestInfo_iff (h : Nat) (d t : Bytes) :
    DigestInfo h d t ↔ h ≠ 0 ∧ (h = 2 ∨ h = 3 ∨ h = 4 ∨ h = 5 ∨ h = 6 ∨ h = 7) ∧ ∃ pre, pkcs1v15HashInfo h d.length = .ok (d.length, pre) ∧ t = pre ++ d := by
  have row : ∀ {h : Nat} {o : List Nat} {n : Nat} {b pre : Bytes}, (h = 2 ∨ h = 3 ∨ h = 4 ∨ h = 5 ∨ h = 6 ∨ h = 7) →
      digestAlg h = some (o, n) → b.length < 100 → n < 100 → b.length + n < 100 → encOid o = some b → OidOk o →
      hashPrefix h = some pre → cryptoHashSize h = .ok n →
      pre = 0x30 :: UInt8.ofNat (b.length + n + 8) :: 0x30 :: UInt8.ofNat (b.length + 4) :: 6 :: UInt8.ofNat b.length :: (b ++ [5, 0, 4, UInt8.ofNat n]) →
      (DigestInfo h d t ↔ h ≠ 0 ∧ (h = 2 ∨ h = 3 ∨ h = 4 ∨ h = 5 ∨ h = 6 ∨ h = 7) ∧
        ∃ pre, pkcs1v15HashInfo h d.length = .ok (d.length, pre) ∧ t = pre ++ d) := by
    intro h o n b pre hh ha hb hn hs ho hok hp hz hpre
    rw [digestInfo_row ha hb hn hs ho hok]
    have h0 : h ≠ 0 := by omega
    have e : ∀ m, pkcs1v15HashInfo h m = if m ≠ n then .err "crypto/rsa: input must be hashed message" else .ok (n, pre) := by
      intro m; unfold pkcs1v15HashInfo; rw [if_neg h0, hz, Res.bind_ok, hp]
    constructor
    · rintro ⟨h1, h2⟩
      refine ⟨h0, hh, pre, ?_, ?_⟩
      · rw [e, if_neg (by simpa using h1), h1]
      · rw [h2, hpre]; simp
    · rintro ⟨-, -, pre', h1, h2⟩
      rw [e] at h1
      by_cases hd : d.length = n
      · rw [if_neg (by simpa using hd)] at h1
        obtain ⟨-, rfl⟩ := Prod.mk.inj (Res.ok.inj h1)
        refine ⟨hd, ?_⟩
        rw [h2, hpre]; simp
      · rw [if_pos hd] at h1; cases h1
  by_cases hh : h = 2 ∨ h = 3 ∨ h = 4 ∨ h = 5 ∨ h = 6 ∨ h = 7
  · rcases hh with rfl | rfl | rfl | rfl | rfl | rfl
    · exact row (b := [0x2a, 0x86, 0x48, 0x86, 0xf7, 0x0d, 2, 5]) (by simp) rfl (by decide) (by decide) (by decide) (by decide +kernel) ⟨_, _, _, rfl, by decide, by decide⟩ rfl rfl (by decide)
    · exact row (b := [0x2b, 0x0e, 3, 2, 0x1a]) (by simp) rfl (by decide) (by decide) (by decide) (by decide +kernel) ⟨_, _, _, rfl, by decide, by decide⟩ rfl rfl (by decide)
    · exact row (b := [0x60, 0x86, 0x48, 1, 0x65, 3, 4, 2, 4]) (by simp) rfl (by decide) (by decide) (by decide) (by decide +kernel) ⟨_, _, _, rfl, by decide, by decide⟩ rfl rfl (by decide)
    · exact row (b := [0x60, 0x86, 0x48, 1, 0x65, 3, 4, 2, 1]) (by simp) rfl (by decide) (by decide) (by decide) (by decide +kernel) ⟨_, _, _, rfl, by decide, by decide⟩ rfl rfl (by decide)
    · exact row (b := [0x60, 0x86, 0x48, 1, 0x65, 3, 4, 2, 2]) (by simp) rfl (by decide) (by decide) (by decide) (by decide +kernel) ⟨_, _, _, rfl, by decide, by decide⟩ rfl rfl (by decide)
    · exact row (b := [0x60, 0x86, 0x48, 1, 0x65, 3, 4, 2, 3]) (by simp) rfl (by decide) (by decide) (by decide) (by decide +kernel) ⟨_, _, _, rfl, by decide, by decide⟩ rfl rfl (by decide)
  · constructor
    · rintro ⟨o, n, -, -, h1, -⟩
      unfold digestAlg at h1
      simp only [hMD5, hSHA1, hSHA224, hSHA256, hSHA384, hSHA512] at h1
      rw [if_neg (by omega), if_neg (by omega), if_neg (by omega), if_neg (by omega), if_neg (by omega), if_neg (by omega)] at h1
      cases h1
    · rintro ⟨-, h1, -⟩; exact absurd h1 hh

theorem em_good_iff {em : Bytes} {k hashLen : Nat} {pre hashed : Bytes} (_hk : em.length = k) (_hh : hashed.length = hashLen)
    (hl : pre.length + hashLen + 11 ≤ k) :
    emGood em k (pre.length + hashLen) hashLen pre hashed = true ↔
      em = 0 :: 1 :: (List.replicate (k - (pre.length + hashLen) - 3) 0xff ++ (0 :: (pre ++ hashed))) := by
  unfold emGood
  simp only [Bool.and_eq_true, beq_iff_eq, List.all_eq_true, List.mem_range]
  constructor
  · rintro ⟨⟨⟨⟨⟨h0, h1⟩, h2⟩, h3⟩, h4⟩, h5⟩
    apply List.ext_getElem?
    intro i
    rcases Nat.lt_or_ge i 2 with hi | hi
    · rcases (by omega : i = 0 ∨ i = 1) with rfl | rfl
      · rw [h0]; rfl
      · rw [h1]; rfl
    · obtain ⟨j, rfl⟩ : ∃ j, i = j + 2 := ⟨i - 2, by omega⟩
      rw [List.getElem?_cons_succ, List.getElem?_cons_succ]
      rcases Nat.lt_or_ge j (k - (pre.length + hashLen) - 3) with hj | hj
      · rw [h5 j hj, List.getElem?_append_left (by simpa using hj), List.getElem?_replicate, if_pos hj]
      · rw [List.getElem?_append_right (by simpa using hj), List.length_replicate]
        rcases Nat.eq_or_lt_of_le hj with he | he
        · rw [← he, Nat.sub_self, List.getElem?_cons_zero, show k - (pre.length + hashLen) - 3 + 2 = k - (pre.length + hashLen) - 1 by omega]
          exact h4
        · obtain ⟨l, hl2⟩ : ∃ l, j - (k - (pre.length + hashLen) - 3) = l + 1 := ⟨j - (k - (pre.length + hashLen) - 3) - 1, by omega⟩
          rw [hl2, List.getElem?_cons_succ]
          rcases Nat.lt_or_ge l pre.length with hlp | hlp
          · rw [List.getElem?_append_left hlp, ← h3, List.getElem?_take, if_pos (by rw [show pre.length + hashLen - hashLen = pre.length by omega]; exact hlp), List.getElem?_drop]
            congr 1; omega
          · rw [List.getElem?_append_right hlp, ← h2, List.getElem?_drop]
            congr 1; omega
  · intro h
    have hd1 : em.drop (k - hashLen) = hashed := by
      rw [h, show k - hashLen = (0 :: 1 :: (List.replicate (k - (pre.length + hashLen) - 3) 0xff ++ (0 :: pre)) : Bytes).length by simp; omega]
      rw [show (0 :: 1 :: (List.replicate (k - (pre.length + hashLen) - 3) 0xff ++ 0 :: (pre ++ hashed)) : Bytes) = (0 :: 1 :: (List.replicate (k - (pre.length + hashLen) - 3) 0xff ++ (0 :: pre))) ++ hashed by simp]
      rw [List.drop_left]
    have hd2 : em.drop (k - (pre.length + hashLen)) = pre ++ hashed := by
      have e : em = (0 :: 1 :: (List.replicate (k - (pre.length + hashLen) - 3) 0xff ++ [0])) ++ (pre ++ hashed) := by rw [h]; simp
      rw [e, List.drop_left']
      simp; omega
    refine ⟨⟨⟨⟨⟨?_, ?_⟩, hd1⟩, ?_⟩, ?_⟩, ?_⟩
    · rw [h]; rfl
    · rw [h]; rfl
    · rw [hd2, show pre.length + hashLen - hashLen = pre.length by omega, List.take_left]
    · rw [h, show k - (pre.length + hashLen) - 1 = k - (pre.length + hashLen) - 3 + 2 by omega, List.getElem?_cons_succ, List.getElem?_cons_succ,
        List.getElem?_append_right (by simp), List.length_replicate, Nat.sub_self]; rfl
    · intro i hi
      rw [h, List.getElem?_cons_succ, List.getElem?_cons_succ, List.getElem?_append_left (by simpa using hi), List.getElem?_replicate, if_pos hi]



theorem fillBytes_ok {v k : Nat} {b : Bytes} : fillBytes v k = .ok b ↔ v < 256 ^ k ∧ b = beBytes k v := by
  unfold fillBytes
  by_cases h : v < 256 ^ k
  · rw [if_pos h]; simp [h, eq_comm]
  · rw [if_neg h]; simp [h]

theorem opens_fits {pub : RsaPub} (hn : 0 < pub.n) (m : Int) : 0 ≤ encrypt pub m ∧ encrypt pub m < pub.n ∧
    (encrypt pub m).toNat < 256 ^ size pub := by
  have h1 := Int.emod_nonneg (m ^ pub.e.toNat) (by omega : pub.n ≠ 0)
  have h2 := Int.emod_lt_of_pos (m ^ pub.e.toNat) hn
  refine ⟨h1, h2, ?_⟩
  have := lt_pow_byteLen pub.n.natAbs
  unfold size
  have h3 : (encrypt pub m).toNat < pub.n.natAbs := by unfold encrypt; omega
  omega

/-- `rsa.VerifyPKCS1v15` accepts exactly the RSASSA-PKCS1-v1_5 signatures of RFC 8017. -/
theorem verifyPKCS1v15_iff {pub : RsaPub} (hn : 0 < pub.n) {h : Nat} (hh : h = 2 ∨ h = 3 ∨ h = 4 ∨ h = 5 ∨ h = 6 ∨ h = 7) (d sig : Bytes) :
    verifyPKCS1v15 pub h d sig = .ok () ↔ ValidV15 pub h d sig := by
  unfold verifyPKCS1v15
  rw [Res.bind_eq_ok]
  constructor
  · rintro ⟨⟨hashLen, pre⟩, h1, h2⟩
    have hl : hashLen = d.length := by
      unfold pkcs1v15HashInfo at h1
      rw [if_neg (by omega), Res.bind_eq_ok] at h1
      obtain ⟨n, -, h1⟩ := h1
      by_cases hd : d.length = n
      · rw [if_neg (by simpa using hd)] at h1
        cases hp : hashPrefix h with
        | none => rw [hp] at h1; cases h1
        | some p => rw [hp] at h1; obtain ⟨rfl, -⟩ := Prod.mk.inj (Res.ok.inj h1); exact hd.symm
      · rw [if_pos hd] at h1; cases h1
    subst hl
    dsimp only at h2
    by_cases hk : size pub < pre.length + d.length + 11
    · rw [if_pos hk] at h2; cases h2
    rw [if_neg hk] at h2
    by_cases hs : size pub = sig.length
    · rw [if_neg (by simpa using hs), Res.bind_eq_ok] at h2
      obtain ⟨em, h3, h4⟩ := h2
      rw [fillBytes_ok] at h3
      by_cases hg : emGood em (size pub) (pre.length + d.length) d.length pre d = true
      · have hem : em.length = size pub := by rw [h3.2, beBytes_length]
        rw [em_good_iff hem rfl (by omega)] at hg
        refine ⟨em, hem, ⟨pre ++ d, _, (digestInfo_iff h d _).mpr ⟨by omega, hh, pre, h1, rfl⟩, ?_, hg⟩, hs.symm, ?_⟩
        · omega
        · rw [h3.2, ofBytes_beBytes_of_lt h3.1]
          have := (opens_fits hn (ofBytes sig)).1
          rw [Int.toNat_of_nonneg this]; rfl
      · rw [if_neg hg] at h4; cases h4
    · rw [if_pos hs] at h2; cases h2
  · rintro ⟨em, hem, ⟨t, n, h1, h2, rfl⟩, h3, h4⟩
    obtain ⟨-, -, pre, h5, rfl⟩ := (digestInfo_iff h d t).mp h1
    refine ⟨_, h5, ?_⟩
    dsimp only
    have hsz : size pub = byteLen pub.n.natAbs := rfl
    rw [← hsz] at hem h3
    simp only [List.length_cons, List.length_append, List.length_replicate] at hem
    rw [if_neg (by omega), if_neg (by simpa using h3.symm), Res.bind_eq_ok]
    have h6 : (encrypt pub (ofBytes sig)).toNat = ofBytes (0 :: 1 :: (List.replicate n 0xff ++ 0 :: (pre ++ d))) := by
      unfold encrypt; rw [h4]; rfl
    refine ⟨_, fillBytes_ok.mpr ⟨(opens_fits hn _).2.2, rfl⟩, ?_⟩
    have hl2 : (0 :: 1 :: (List.replicate n 0xff ++ 0 :: (pre ++ d)) : Bytes).length = size pub := by simp; omega
    rw [h6]
    conv_lhs => rw [← hl2, beBytes_ofBytes, hl2]
    rw [if_pos]
    rw [em_good_iff hl2 rfl (by omega), show size pub - (pre.length + d.length) - 3 = n by omega]

theorem modInverse_spec {g n i : Int} (h : modInverse g n = some i) : n ∣ g * i - 1 := by
  unfold modInverse at h
  split at h
  · rename_i hg
    obtain rfl := Option.some.inj h
    have e := Int.gcd_eq_gcd_ab g n
    rw [hg] at e
    rw [← Int.modEq_iff_dvd]
    refine Int.ModEq.symm ?_
    calc g * (Int.gcdA g n % n) ≡ g * Int.gcdA g n [ZMOD n] := Int.ModEq.mul_left _ (Int.mod_modEq _ _)
      _ ≡ 1 [ZMOD n] := by
        rw [Int.modEq_iff_dvd]
        exact ⟨Int.gcdB g n, by push_cast at e; linarith⟩
  · cases h

theorem modInverse_some {g n : Int} (h : IsCoprime g n) : ∃ i, modInverse g n = some i := by
  unfold modInverse
  rw [Int.isCoprime_iff_gcd_eq_one] at h
  rw [if_pos h]; exact ⟨_, rfl⟩

theorem crtLoop_spec (c d : Int) : ∀ (ps : List Int) (r m : Int), 0 ≤ m → m < r → (∀ p ∈ ps, 0 < p) → (∀ p ∈ ps, IsCoprime r p) →
    ps.Pairwise (fun p q => IsCoprime p q) →
    ∃ m', crtLoop c ps (crtValues d r ps) r m = .ok m' ∧ 0 ≤ m' ∧ m' < r * ps.prod ∧ r ∣ m' - m ∧
      ∀ p ∈ ps, p ∣ m' - c ^ (d % (p - 1)).toNat
  | [], r, m, h0, h1, _, _, _ => ⟨m, by rfl, h0, by simpa using h1, by simp, by simp⟩
  | p :: ps, r, m, h0, h1, hp, hc, hpw => by
    obtain ⟨i, hi⟩ := modInverse_some (hc p (by simp))
    have hpp := hp p (by simp)
    rw [List.pairwise_cons] at hpw
    have e : crtLoop c (p :: ps) (crtValues d r (p :: ps)) r m =
        crtLoop c ps (crtValues d (r * p) ps) (r * p) (m + (c ^ (d % (p - 1)).toNat % p - m) * i % p * r) := by
      show (crtLoop.Res.ofPtr (modInverse r p) >>= fun coeff => _) = _
      rw [hi]; rfl
    have b1 := Int.emod_nonneg ((c ^ (d % (p - 1)).toNat % p - m) * i) (by omega : p ≠ 0)
    have b2 := Int.emod_lt_of_pos ((c ^ (d % (p - 1)).toNat % p - m) * i) hpp
    generalize hu : (c ^ (d % (p - 1)).toNat % p - m) * i % p = u at *
    have hur : 0 ≤ u * r := mul_nonneg b1 (by omega)
    have hur2 : u * r ≤ (p - 1) * r := mul_le_mul_of_nonneg_right (by omega) (by omega)
    obtain ⟨m', g1, g2, g3, g4, g5⟩ := crtLoop_spec c d ps (r * p) (m + u * r) (by omega) (by nlinarith) (fun q hq => hp q (by simp [hq]))
      (fun q hq => IsCoprime.mul_left (hc q (by simp [hq])) (hpw.1 q hq)) hpw.2
    refine ⟨m', by rw [e]; exact g1, g2, ?_, ?_, ?_⟩
    · rw [List.prod_cons, ← mul_assoc]; exact g3
    · have : r ∣ m' - (m + u * r) := dvd_trans (Dvd.intro _ rfl) g4
      have h2 : m' - m = (m' - (m + u * r)) + u * r := by ring
      rw [h2]; exact dvd_add this (Dvd.intro_left _ rfl)
    · intro q hq
      rcases List.mem_cons.mp hq with rfl | hq
      · have k1 : q ∣ m' - (m + u * r) := dvd_trans (Dvd.intro_left _ rfl) g4
        have k2 : q ∣ r * i - 1 := modInverse_spec hi
        have k3 : q ∣ (c ^ (d % (q - 1)).toNat % q - m) * i - u := by rw [← hu]; exact Int.dvd_self_sub_emod
        have k4 : q ∣ c ^ (d % (q - 1)).toNat - c ^ (d % (q - 1)).toNat % q := Int.dvd_self_sub_emod
        have : m' - c ^ (d % (q - 1)).toNat = (m' - (m + u * r)) - ((c ^ (d % (q - 1)).toNat % q - m) * i - u) * r
            + (c ^ (d % (q - 1)).toNat % q - m) * (r * i - 1) - (c ^ (d % (q - 1)).toNat - c ^ (d % (q - 1)).toNat % q) := by ring
        rw [this]
        exact dvd_sub (dvd_add (dvd_sub k1 (Dvd.dvd.mul_right k3 r)) (Dvd.dvd.mul_left k2 _)) k4
      · exact g5 q hq

theorem pow_reduce {p : Nat} (hp : p.Prime) (c : Int) {a b : Nat} (h : a ≡ b [MOD (p - 1)]) (ha : a ≠ 0) (hb : b ≠ 0) :
    (p : Int) ∣ c ^ a - c ^ b := by
  have : Fact p.Prime := ⟨hp⟩
  rw [← ZMod.intCast_zmod_eq_zero_iff_dvd]
  push_cast
  by_cases h0 : (c : ZMod p) = 0
  · rw [h0, zero_pow ha, zero_pow hb, sub_zero]
  · have key : ∀ n, (c : ZMod p) ^ n = (c : ZMod p) ^ (n % (p - 1)) := by
      intro n
      conv_lhs => rw [← Nat.div_add_mod n (p - 1), pow_add, pow_mul, ZMod.pow_card_sub_one_eq_one h0, one_pow, one_mul]
    rw [key a, key b, h, sub_self]

/-- The Chinese remainder computation of crypto/rsa is the power to the private exponent. -/
theorem crt_spec {k : RsaPriv} (hk : IsRsaKey k) (hp : ∀ p ∈ k.primes, p.toNat.Prime) (hd : k.primes.Nodup) (c : Int) :
    crt k c = .ok (c ^ k.d.toNat % k.pub.n) := by
  have hpos : ∀ p ∈ k.primes, 2 < p := hk.primes
  have hcop : k.primes.Pairwise fun p q => IsCoprime p q := by
    refine hd.imp_of_mem fun {p q} hpm hqm hne => ?_
    have a := hpos p hpm
    have b := hpos q hqm
    rw [show p = (p.toNat : Int) by omega, show q = (q.toNat : Int) by omega, Nat.isCoprime_iff_coprime]
    exact (Nat.coprime_primes (hp p hpm) (hp q hqm)).mpr (by omega)
  have hn : 0 < k.pub.n := by
    rw [← hk.prod]
    exact List.prod_pos (fun p h => by have := hpos p h; omega)
  have hexp : ∀ p ∈ k.primes, p ∣ c ^ (k.d % (p - 1)).toNat - c ^ k.d.toNat := by
    intro p hpm
    have h2 := hpos p hpm
    have hprime := hp p hpm
    have h3 := hk.exps p hpm
    have h4 := hk.dpos
    have h5 := Int.emod_nonneg k.d (by omega : p - 1 ≠ 0)
    have e : p = (p.toNat : Int) := by omega
    have key := pow_reduce hprime c (a := (k.d % (p - 1)).toNat) (b := k.d.toNat) ?_ ?_ (by omega)
    · rw [← e] at key; exact key
    · have : ((p.toNat - 1 : Nat) : Int) = p - 1 := by omega
      rw [← Int.natCast_modEq_iff, this, Int.toNat_of_nonneg h5, Int.toNat_of_nonneg (by omega)]
      exact Int.mod_modEq _ _
    · intro h0
      have h6 : k.d % (p - 1) = 0 := by omega
      have h7 : (p - 1) ∣ k.d := Int.dvd_of_emod_eq_zero h6
      have h8 : (p - 1) ∣ 1 := by
        have := dvd_sub (Dvd.dvd.mul_left h7 k.pub.e) h3
        simpa using this
      have := Int.le_of_dvd (by decide) h8
      omega
  obtain ⟨p, q, more, hl⟩ : ∃ p q more, k.primes = p :: q :: more := by
    have := hk.two
    rcases hk2 : k.primes with _ | ⟨p, _ | ⟨q, more⟩⟩
    · rw [hk2] at this; simp at this
    · rw [hk2] at this; simp at this
    · exact ⟨p, q, more, rfl⟩
  rw [hl] at hcop
  have hcop' := hcop
  rw [List.pairwise_cons, List.pairwise_cons] at hcop
  obtain ⟨c1, c2, c3⟩ := hcop
  obtain ⟨i, hi⟩ := modInverse_some (c1 q (by simp)).symm
  have hpp := hpos p (by rw [hl]; simp)
  have hqq := hpos q (by rw [hl]; simp)
  have e : crt k c = (let m1 := c ^ (k.d % (p - 1)).toNat % p
      let m2 := c ^ (k.d % (q - 1)).toNat % q
      let m := if m1 - m2 < 0 then m1 - m2 + p else m1 - m2
      crtLoop c more (crtValues k.d (p * q) more) (p * q) (m * i % p * q + m2)) := by
    unfold crt; rw [hl]; dsimp only; rw [hi]
  rw [e]
  dsimp only
  generalize hm1 : c ^ (k.d % (p - 1)).toNat % p = m1
  generalize hm2 : c ^ (k.d % (q - 1)).toNat % q = m2
  have d1 : p ∣ c ^ (k.d % (p - 1)).toNat - m1 := by rw [← hm1]; exact Int.dvd_self_sub_emod
  have d2 : q ∣ c ^ (k.d % (q - 1)).toNat - m2 := by rw [← hm2]; exact Int.dvd_self_sub_emod
  have b1 : 0 ≤ m2 := by rw [← hm2]; exact Int.emod_nonneg _ (by omega)
  have b2 : m2 < q := by rw [← hm2]; exact Int.emod_lt_of_pos _ (by omega)
  have d3 : p ∣ (if m1 - m2 < 0 then m1 - m2 + p else m1 - m2) - (m1 - m2) := by
    split
    · exact ⟨1, by ring⟩
    · simp
  generalize (if m1 - m2 < 0 then m1 - m2 + p else m1 - m2) = m at d3 ⊢
  have d4 : p ∣ m * i - m * i % p := Int.dvd_self_sub_emod
  have b3 := Int.emod_nonneg (m * i) (by omega : p ≠ 0)
  have b4 := Int.emod_lt_of_pos (m * i) (by omega : 0 < p)
  generalize m * i % p = u at d4 b3 b4 ⊢
  have d5 : p ∣ q * i - 1 := modInverse_spec hi
  have huq : 0 ≤ u * q := mul_nonneg b3 (by omega)
  have huq2 : u * q ≤ (p - 1) * q := mul_le_mul_of_nonneg_right (by omega) (by omega)
  obtain ⟨m', g1, g2, g3, g4, g5⟩ := crtLoop_spec c k.d more (p * q) (u * q + m2) (by omega) (by nlinarith)
    (fun r hr => by have := hpos r (by rw [hl]; simp [hr]); omega)
    (fun r hr => IsCoprime.mul_left (c1 r (by simp [hr])) (c2 r hr)) c3
  rw [g1]
  congr 1
  have hmp : p ∣ m' - c ^ (k.d % (p - 1)).toNat := by
    have k1 : p ∣ m' - (u * q + m2) := dvd_trans (Dvd.intro _ rfl) g4
    have : m' - c ^ (k.d % (p - 1)).toNat = (m' - (u * q + m2)) - (m * i - u) * q + m * (q * i - 1) + (m - (m1 - m2))
        - (c ^ (k.d % (p - 1)).toNat - m1) := by ring
    rw [this]
    exact dvd_sub (dvd_add (dvd_add (dvd_sub k1 (Dvd.dvd.mul_right d4 q)) (Dvd.dvd.mul_left d5 _)) d3) d1
  have hmq : q ∣ m' - c ^ (k.d % (q - 1)).toNat := by
    have k1 : q ∣ m' - (u * q + m2) := dvd_trans (Dvd.intro_left _ rfl) g4
    have : m' - c ^ (k.d % (q - 1)).toNat = (m' - (u * q + m2)) + u * q - (c ^ (k.d % (q - 1)).toNat - m2) := by ring
    rw [this]
    exact dvd_sub (dvd_add k1 (Dvd.intro_left _ rfl)) d2
  have hprod : k.pub.n = p * q * more.prod := by rw [← hk.prod, hl]; simp [mul_assoc]
  have hall : k.pub.n ∣ m' - c ^ k.d.toNat := by
    rw [← hk.prod, hl]
    refine list_prod_dvd hcop' fun r hr => ?_
    have h1 : r ∣ m' - c ^ (k.d % (r - 1)).toNat := by
      rcases List.mem_cons.mp hr with rfl | hr
      · exact hmp
      rcases List.mem_cons.mp hr with rfl | hr
      · exact hmq
      · exact g5 r hr
    have h2 := hexp r (by rw [hl]; exact hr)
    have := dvd_add h1 h2
    simpa using this
  have hmod : m' % k.pub.n = c ^ k.d.toNat % k.pub.n := (Int.emod_emod_of_dvd _ (dvd_refl _)).symm.trans (by
    rw [Int.emod_emod_of_dvd _ (dvd_refl _)]; exact ((Int.modEq_iff_dvd.mpr hall).symm))
  rw [← hmod, Int.emod_eq_of_lt g2 (by rw [hprod]; exact g3)]


theorem rsa_n_pos {k : RsaPriv} (hk : IsRsaKey k) : 0 < k.pub.n := by
  rw [← hk.prod]
  exact List.prod_pos (fun p h => by have := hk.primes p h; omega)

/-- The public operation undoes the private one. -/
theorem rsa_pow {k : RsaPriv} (hk : IsRsaKey k) (hp : ∀ p ∈ k.primes, p.toNat.Prime) (hd : k.primes.Nodup) (m : Int) :
    m ^ (k.pub.e.toNat * k.d.toNat) ≡ m [ZMOD k.pub.n] := by
  rw [pow_mul]; exact rsa_works hk hp hd m

/-- The blinding factor is missing or invertible. -/
def Blinds (k : RsaPriv) (blind : Option Int) : Prop := ∀ r, blind = some r → IsCoprime r k.pub.n

theorem decrypt_spec {k : RsaPriv} (hk : IsRsaKey k) (hp : ∀ p ∈ k.primes, p.toNat.Prime) (hd : k.primes.Nodup) {blind : Option Int}
    (hb : Blinds k blind) {c : Int} (h : c ≤ k.pub.n) : decrypt k blind c = .ok (c ^ k.d.toNat % k.pub.n) := by
  have hn := rsa_n_pos hk
  unfold decrypt
  rw [if_neg (by omega), if_neg (by omega)]
  cases blind with
  | none => exact crt_spec hk hp hd c
  | some r =>
    obtain ⟨i, hi⟩ := modInverse_some (hb r rfl)
    dsimp only
    rw [hi]
    dsimp only
    rw [crt_spec hk hp hd, Res.bind_ok]
    congr 1
    show Int.ModEq _ _ _
    have h1 : c * encrypt k.pub r % k.pub.n ≡ c * r ^ k.pub.e.toNat [ZMOD k.pub.n] :=
      (Int.mod_modEq _ _).trans (Int.ModEq.mul_left _ (Int.mod_modEq _ _))
    have h2 := (Int.mod_modEq ((c * encrypt k.pub r % k.pub.n) ^ k.d.toNat) k.pub.n).trans (h1.pow k.d.toNat)
    have h3 : (c * r ^ k.pub.e.toNat) ^ k.d.toNat ≡ c ^ k.d.toNat * r [ZMOD k.pub.n] := by
      rw [mul_pow, ← pow_mul]
      exact Int.ModEq.mul_left _ (rsa_pow hk hp hd r)
    have h4 : r * i ≡ 1 [ZMOD k.pub.n] := (Int.modEq_iff_dvd.mpr (modInverse_spec hi)).symm
    have h5 := (h2.trans h3).mul_right i
    rw [mul_assoc (c ^ k.d.toNat)] at h5
    have h6 := h5.trans (h4.mul_left (c ^ k.d.toNat))
    rwa [mul_one] at h6

theorem decryptAndCheck_spec {k : RsaPriv} (hk : IsRsaKey k) (hp : ∀ p ∈ k.primes, p.toNat.Prime) (hd : k.primes.Nodup) {blind : Option Int}
    (hb : Blinds k blind) {c : Int} (h0 : 0 ≤ c) (h : c < k.pub.n) : decryptAndCheck k blind c = .ok (c ^ k.d.toNat % k.pub.n) := by
  unfold decryptAndCheck
  rw [decrypt_spec hk hp hd hb (by omega), Res.bind_ok, if_neg]
  rw [not_not]
  unfold encrypt
  have h1 : (c ^ k.d.toNat % k.pub.n) ^ k.pub.e.toNat ≡ c [ZMOD k.pub.n] := by
    refine ((Int.mod_modEq _ _).pow _).trans ?_
    rw [← pow_mul, Nat.mul_comm]
    exact rsa_pow hk hp hd c
  exact Eq.trans h1 (Int.emod_eq_of_lt h0 h)

/-! ### Any key that was accepted -/

theorem crtLoop_nonneg {c : Int} : ∀ {ps : List Int} {vs : List AddPrime} {r m m' : Int}, crtLoop c ps vs r m = .ok m' → 0 ≤ m → 0 ≤ r →
    (∀ p ∈ ps, 0 < p) → 0 ≤ m'
  | [], _, _, m, m', h, h0, _, _ => by
    simp only [crtLoop] at h
    obtain rfl := Res.ok.inj h; exact h0
  | p :: ps, [], _, m, m', h, h0, _, _ => by
    simp only [crtLoop] at h
    obtain rfl := Res.ok.inj h; exact h0
  | p :: ps, v :: vs, r, m, m', h, h0, hr, hp => by
    have hpp := hp p (by simp)
    simp only [crtLoop, Res.bind_eq_ok] at h
    obtain ⟨i, -, h⟩ := h
    refine crtLoop_nonneg h ?_ (mul_nonneg hr (by omega)) (fun q hq => hp q (by simp [hq]))
    exact add_nonneg h0 (mul_nonneg (Int.emod_nonneg _ (by omega)) hr)

theorem crt_nonneg {k : RsaPriv} (hk : IsRsaKey k) {c m : Int} (h : crt k c = .ok m) : 0 ≤ m := by
  have hpos := hk.primes
  unfold crt at h
  rcases hl : k.primes with _ | ⟨p, _ | ⟨q, more⟩⟩
  · rw [hl] at h; cases h
  · rw [hl] at h; cases h
  · rw [hl] at h hpos
    dsimp only at h
    have hp := hpos p (by simp)
    have hq := hpos q (by simp)
    cases hi : modInverse q p with
    | none => rw [hi] at h; cases h
    | some i =>
      rw [hi] at h
      dsimp only at h
      refine crtLoop_nonneg h (add_nonneg (mul_nonneg (Int.emod_nonneg _ (by omega)) (by omega)) (Int.emod_nonneg _ (by omega)))
        (mul_nonneg (by omega) (by omega)) fun r hr => by have := hpos r (by simp [hr]); omega

theorem decryptAndCheck_sound {k : RsaPriv} (hk : IsRsaKey k) {blind : Option Int} {c m : Int} (h : decryptAndCheck k blind c = .ok m) :
    0 ≤ m ∧ encrypt k.pub m = c := by
  have hn := rsa_n_pos hk
  unfold decryptAndCheck at h
  rw [Res.bind_eq_ok] at h
  obtain ⟨m', h1, h2⟩ := h
  by_cases he : encrypt k.pub m' = c
  · rw [if_neg (by simpa using he)] at h2
    obtain rfl := Res.ok.inj h2
    refine ⟨?_, he⟩
    unfold decrypt at h1
    split at h1
    · cases h1
    split at h1
    · cases h1
    split at h1
    · exact crt_nonneg hk h1
    · split at h1
      · cases h1
      · rw [Res.bind_eq_ok] at h1
        obtain ⟨_, -, h1⟩ := h1
        obtain rfl := Res.ok.inj h1
        exact Int.emod_nonneg _ (by omega)
  · rw [if_pos he] at h2; cases h2

theorem crtLoop_panic {c d : Int} : ∀ {ps : List Int} {r m : Int},
    crtLoop c ps (crtValues d r ps) r m = .panic ↔ ¬ ((∀ p ∈ ps, IsCoprime r p) ∧ ps.Pairwise fun p q => IsCoprime p q)
  | [], r, m => by simp [crtLoop]
  | p :: ps, r, m => by
    have e : crtLoop c (p :: ps) (crtValues d r (p :: ps)) r m = (crtLoop.Res.ofPtr (modInverse r p) >>= fun i =>
        crtLoop c ps (crtValues d (r * p) ps) (r * p) (m + (c ^ (d % (p - 1)).toNat % p - m) * i % p * r)) := rfl
    rw [e]
    by_cases hc : IsCoprime r p
    · obtain ⟨i, hi⟩ := modInverse_some hc
      rw [hi]
      show crtLoop _ _ _ _ _ = _ ↔ _
      rw [crtLoop_panic]
      rw [not_iff_not, List.pairwise_cons, List.forall_mem_cons]
      constructor
      · rintro ⟨a, b⟩
        exact ⟨⟨hc, fun q hq => (a q hq).of_mul_left_left⟩, fun q hq => (a q hq).of_mul_left_right, b⟩
      · rintro ⟨⟨-, a⟩, b, c⟩
        exact ⟨fun q hq => (a q hq).mul_left (b q hq), c⟩
    · have hi : modInverse r p = none := by
        unfold modInverse
        rw [if_neg]; rwa [← Int.isCoprime_iff_gcd_eq_one]
      rw [hi]
      constructor
      · rintro - ⟨h, -⟩; exact hc (h p (by simp))
      · intro _; rfl

/-- The private operation crashes exactly for keys whose factors are not pairwise coprime. -/
theorem crt_panic {k : RsaPriv} (hk : IsRsaKey k) (c : Int) : crt k c = .panic ↔ ¬ k.primes.Pairwise fun p q => IsCoprime p q := by
  have htwo := hk.two
  unfold crt
  rcases hl : k.primes with _ | ⟨p, _ | ⟨q, more⟩⟩
  · rw [hl] at htwo; simp at htwo
  · rw [hl] at htwo; simp at htwo
  · dsimp only
    rw [List.pairwise_cons, List.pairwise_cons, List.forall_mem_cons]
    by_cases hc : IsCoprime q p
    · obtain ⟨i, hi⟩ := modInverse_some hc
      rw [hi]
      dsimp only
      rw [crtLoop_panic, not_iff_not]
      constructor
      · rintro ⟨a, b⟩
        exact ⟨⟨hc.symm, fun r hr => (a r hr).of_mul_left_left⟩, fun r hr => (a r hr).of_mul_left_right, b⟩
      · rintro ⟨⟨-, a⟩, b, d⟩
        exact ⟨fun r hr => (a r hr).mul_left (b r hr), d⟩
    · have hi : modInverse q p = none := by
        unfold modInverse
        rw [if_neg]; rwa [← Int.isCoprime_iff_gcd_eq_one]
      rw [hi]
      constructor
      · rintro - ⟨⟨h, -⟩, -⟩; exact hc h.symm
      · intro _; rfl

theorem decrypt_panic {k : RsaPriv} (hk : IsRsaKey k) {blind : Option Int} (hb : Blinds k blind) {c : Int} (h : c ≤ k.pub.n) :
    decryptAndCheck k blind c = .panic ↔ ¬ k.primes.Pairwise fun p q => IsCoprime p q := by
  have hn := rsa_n_pos hk
  have e : decryptAndCheck k blind c = .panic ↔ decrypt k blind c = .panic := by
    unfold decryptAndCheck
    cases decrypt k blind c with
    | ok m => rw [Res.bind_ok]; split <;> simp
    | err e => simp
    | panic => simp
  rw [e]
  unfold decrypt
  rw [if_neg (by omega), if_neg (by omega)]
  cases blind with
  | none => exact crt_panic hk c
  | some r =>
    obtain ⟨i, hi⟩ := modInverse_some (hb r rfl)
    dsimp only
    rw [hi]
    dsimp only
    rw [← crt_panic hk (c * encrypt k.pub r % k.pub.n)]
    cases crt k (c * encrypt k.pub r % k.pub.n) with
    | ok m => simp
    | err e => simp
    | panic => simp

theorem mgf1XOR_length {f : HashFn} {hLen : Nat} (hf : ∀ m, (f m).length = hLen) (hpos : 0 < hLen) (seed : Bytes) :
    ∀ (n ctr : Nat) (out : Bytes), (mgf1XOR f seed n ctr out).length = out.length
  | 0, _, _ => rfl
  | n + 1, _, [] => rfl
  | n + 1, ctr, b :: l => by
    rw [mgf1XOR, List.length_append, mgf1XOR_length hf hpos, List.length_zipWith, List.length_drop, hf]
    · omega
    · intro h; cases h

theorem mgf1XOR_get {f : HashFn} {hLen : Nat} (hf : ∀ m, (f m).length = hLen) (hpos : 0 < hLen) (seed : Bytes) :
    ∀ (n ctr : Nat) (out : Bytes), out.length ≤ n → ∀ i < out.length, ∃ a m, out[i]? = some a ∧
      (f (seed ++ beBytes 4 (ctr + i / hLen)))[i % hLen]? = some m ∧ (mgf1XOR f seed n ctr out)[i]? = some (a ^^^ m)
  | 0, _, out, h, i, hi => by omega
  | n + 1, ctr, [], h, i, hi => by simp at hi
  | n + 1, ctr, b :: l, h, i, hi => by
    have e : mgf1XOR f seed (n + 1) ctr (b :: l) = (b :: l).zipWith (· ^^^ ·) (f (seed ++ beBytes 4 ctr)) ++
        mgf1XOR f seed n (ctr + 1) ((b :: l).drop (f (seed ++ beBytes 4 ctr)).length) := by
      rw [mgf1XOR]; intro h; cases h
    rw [e]
    generalize hout : b :: l = out at *
    have hl : (out.zipWith (· ^^^ ·) (f (seed ++ beBytes 4 ctr))).length = min out.length hLen := by rw [List.length_zipWith, hf]
    by_cases hh : i < hLen
    · refine ⟨out[i], (f (seed ++ beBytes 4 ctr))[i]'(by rw [hf]; exact hh), List.getElem?_eq_getElem hi, ?_, ?_⟩
      · rw [Nat.div_eq_of_lt hh, Nat.mod_eq_of_lt hh, Nat.add_zero]
        exact List.getElem?_eq_getElem _
      · rw [List.getElem?_append_left (by omega), List.getElem?_zipWith, List.getElem?_eq_getElem hi, List.getElem?_eq_getElem (by rw [hf]; exact hh)]
    · have hd : (out.drop hLen).length ≤ n := by rw [List.length_drop]; omega
      obtain ⟨a, m, h1, h2, h3⟩ := mgf1XOR_get hf hpos seed n (ctr + 1) (out.drop hLen) hd (i - hLen) (by rw [List.length_drop]; omega)
      refine ⟨a, m, ?_, ?_, ?_⟩
      · rw [List.getElem?_drop] at h1
        rw [← h1]; congr 1; omega
      · have e1 : i / hLen = (i - hLen) / hLen + 1 := by
          conv_lhs => rw [show i = (i - hLen) + hLen by omega]
          rw [Nat.add_div_right _ hpos]
        have e2 : i % hLen = (i - hLen) % hLen := by
          conv_lhs => rw [show i = (i - hLen) + hLen by omega]
          rw [Nat.add_mod_right]
        rw [e1, e2, show ctr + ((i - hLen) / hLen + 1) = ctr + 1 + (i - hLen) / hLen by omega]
        exact h2
      · rw [List.getElem?_append_right (by omega), hl, hf, show i - min out.length hLen = i - hLen by omega]
        exact h3

theorem clearTop_length (s : Nat) (l : Bytes) : (clearTop s l).length = l.length := by cases l <;> rfl

theorem clearTop_get (s i : Nat) (l : Bytes) : (clearTop s l)[i]? = if i = 0 then (l[0]?).map (· &&& (0xff >>> UInt8.ofNat s)) else l[i]? := by
  cases l with
  | nil => simp [clearTop]
  | cons b l =>
    cases i with
    | zero => simp [clearTop]
    | succ i => simp [clearTop]

theorem and_top {s : Nat} (hs : s ≤ 7) (b : UInt8) : (b &&& (0xff >>> UInt8.ofNat s)).toNat = b.toNat % 2 ^ (8 - s) := by
  have : ∀ s : Fin 8, ∀ b : Fin 256, (UInt8.ofNat b.val &&& (0xff >>> UInt8.ofNat s.val)).toNat = b.val % 2 ^ (8 - s.val) := by decide +kernel
  have h := this ⟨s, by omega⟩ ⟨b.toNat, b.toNat_lt⟩
  simpa using h

theorem keepsLow_iff {s : Nat} (hs : s ≤ 7) (a b : UInt8) : KeepsLow s a b ↔ b = a &&& (0xff >>> UInt8.ofNat s) := by
  unfold KeepsLow
  rw [← and_top hs]
  constructor
  · intro h; exact UInt8.toNat_inj.mp h
  · rintro rfl; rfl

theorem xor_mask {b m k : UInt8} (h : b &&& ~~~k = 0) : b = (((b ^^^ m) &&& k) ^^^ m) &&& k := by
  apply UInt8.toBitVec_inj.mp
  have h' := congrArg UInt8.toBitVec h
  simp only [UInt8.toBitVec_and, UInt8.toBitVec_xor, UInt8.toBitVec_not] at *
  ext i hi
  have := congrArg (fun x => x[i]) h'
  simp at this ⊢
  revert this
  cases b.toBitVec[i] <;> cases m.toBitVec[i] <;> cases k.toBitVec[i] <;> simp

theorem mask_not {a k : UInt8} : (a &&& k) &&& ~~~k = 0 := by
  apply UInt8.toBitVec_inj.mp
  simp only [UInt8.toBitVec_and, UInt8.toBitVec_not]
  ext i hi
  simp

theorem mask_back {a m k : UInt8} : ((((a ^^^ m) &&& k) ^^^ m) &&& k) = a &&& k := by
  apply UInt8.toBitVec_inj.mp
  simp only [UInt8.toBitVec_and, UInt8.toBitVec_xor]
  ext i hi
  simp
  cases a.toBitVec[i] <;> cases m.toBitVec[i] <;> cases k.toBitVec[i] <;> simp

theorem low_bit {s : Nat} (hs : s ≤ 7) : (0 : UInt8) &&& (0xff >>> UInt8.ofNat s) = 0 ∧ (1 : UInt8) &&& (0xff >>> UInt8.ofNat s) = 1 := by
  have : ∀ s : Fin 8, (0 : UInt8) &&& (0xff >>> UInt8.ofNat s.val) = 0 ∧ (1 : UInt8) &&& (0xff >>> UInt8.ofNat s.val) = 1 := by decide +kernel
  exact this ⟨s, by omega⟩


/-- Pointwise description of a masked block. -/
def MaskRel (f : HashFn) (hLen s : Nat) (hh db masked : Bytes) : Prop :=
  masked.length = db.length ∧ ∀ i < db.length, ∃ a m b, db[i]? = some a ∧ mgf1At f hLen hh i = some m ∧ masked[i]? = some b ∧
    (if i = 0 then KeepsLow s (a ^^^ m) b else b = a ^^^ m)

theorem maskRel_iff {f : HashFn} {hLen : Nat} (hf : ∀ m, (f m).length = hLen) (hpos : 0 < hLen) {s : Nat} (hs : s ≤ 7) (hh db masked : Bytes) :
    MaskRel f hLen s hh db masked ↔ masked = clearTop s (mgf1XOR f hh db.length 0 db) := by
  have key := mgf1XOR_get hf hpos hh db.length 0 db (le_refl _)
  have hlen : (clearTop s (mgf1XOR f hh db.length 0 db)).length = db.length := by rw [clearTop_length, mgf1XOR_length hf hpos]
  have val : ∀ i < db.length, ∀ a m, db[i]? = some a → mgf1At f hLen hh i = some m →
      (clearTop s (mgf1XOR f hh db.length 0 db))[i]? = some (if i = 0 then (a ^^^ m) &&& (0xff >>> UInt8.ofNat s) else a ^^^ m) := by
    intro i hi a m ha hm
    obtain ⟨a', m', h1, h2, h3⟩ := key i hi
    rw [ha] at h1
    obtain rfl := Option.some.inj h1
    rw [Nat.zero_add] at h2
    unfold mgf1At at hm
    rw [hm] at h2
    obtain rfl := Option.some.inj h2
    rw [clearTop_get]
    by_cases h0 : i = 0
    · subst h0; rw [if_pos rfl, if_pos rfl, h3]; rfl
    · rw [if_neg h0, if_neg h0, h3]
  constructor
  · rintro ⟨h1, h2⟩
    apply List.ext_getElem?
    intro i
    by_cases hi : i < db.length
    · obtain ⟨a, m, b, ha, hm, hb, hr⟩ := h2 i hi
      rw [hb, val i hi a m ha hm]
      by_cases h0 : i = 0
      · rw [if_pos h0, keepsLow_iff hs] at hr; rw [if_pos h0, hr]
      · rw [if_neg h0] at hr; rw [if_neg h0, hr]
    · rw [List.getElem?_eq_none (by omega), List.getElem?_eq_none (by omega)]
  · rintro rfl
    refine ⟨hlen, fun i hi => ?_⟩
    obtain ⟨a, m, h1, h2, -⟩ := key i hi
    rw [Nat.zero_add] at h2
    refine ⟨a, m, _, h1, h2, val i hi a m h1 h2, ?_⟩
    by_cases h0 : i = 0
    · rw [if_pos h0, if_pos h0, keepsLow_iff hs]
    · rw [if_neg h0, if_neg h0]

/-- Masking twice gives the block back. -/
theorem mask_twice {f : HashFn} {hLen : Nat} (hf : ∀ m, (f m).length = hLen) (hpos : 0 < hLen) {s : Nat} (hs : s ≤ 7) (hh db masked : Bytes)
    (h1 : masked.headD 0 &&& ~~~(0xff >>> UInt8.ofNat s) = 0) (h2 : db = clearTop s (mgf1XOR f hh masked.length 0 masked)) :
    masked = clearTop s (mgf1XOR f hh db.length 0 db) := by
  rw [← maskRel_iff hf hpos hs] at h2 ⊢
  obtain ⟨hl, h3⟩ := h2
  refine ⟨hl.symm, fun i hi => ?_⟩
  obtain ⟨a, m, b, ha, hm, hb, hr⟩ := h3 i (by omega)
  refine ⟨b, m, a, hb, hm, ha, ?_⟩
  by_cases h0 : i = 0
  · subst h0
    rw [if_pos rfl, keepsLow_iff hs] at hr ⊢
    have : masked.headD 0 = a := by
      cases masked with
      | nil => cases ha
      | cons x l => rw [List.getElem?_cons_zero] at ha; exact Option.some.inj ha
    rw [this] at h1
    rw [hr]; exact xor_mask h1
  · rw [if_neg h0] at hr ⊢
    rw [hr, UInt8.xor_assoc, UInt8.xor_self, UInt8.xor_zero]

theorem mask_head {f : HashFn} {s : Nat} (hh db : Bytes) :
    (clearTop s (mgf1XOR f hh db.length 0 db)).headD 0 &&& ~~~(0xff >>> UInt8.ofNat s) = 0 := by
  cases h : mgf1XOR f hh db.length 0 db with
  | nil => simp [clearTop]
  | cons b l => exact mask_not

/-- The encoding of PSS is that of RFC 8017. -/
theorem pssEncode_spec {f : HashFn} {hLen : Nat} (hf : ∀ m, (f m).length = hLen) (hpos : 0 < hLen) (emBits : Nat) (d salt : Bytes)
    (hs : salt.length = hLen) {em : Bytes} (h : emsaPSSEncode f hLen d emBits salt = .ok em) : EmsaPss f hLen emBits d em := by
  unfold emsaPSSEncode at h
  dsimp only at h
  by_cases h1 : d.length = hLen
  · rw [if_neg (by simpa using h1)] at h
    by_cases h2 : (emBits + 7) / 8 < hLen + salt.length + 2
    · rw [if_pos h2] at h; cases h
    · rw [if_neg h2] at h
      generalize hdb : (List.replicate ((emBits + 7) / 8 - salt.length - hLen - 2) 0 ++ 1 :: salt : Bytes) = db at h
      have hdl : db.length = (emBits + 7) / 8 - hLen - 1 := by rw [← hdb]; simp; omega
      have hrel := (maskRel_iff hf hpos (s := 8 * ((emBits + 7) / 8) - emBits) (by omega) (f (List.replicate 8 0 ++ (d ++ salt))) db
        (clearTop (8 * ((emBits + 7) / 8) - emBits) (mgf1XOR f (f (List.replicate 8 0 ++ (d ++ salt))) db.length 0 db))).mpr rfl
      have h' := Res.ok.inj h
      have hel : em.length = (emBits + 7) / 8 := by
        rw [← h', List.length_append, hrel.1, List.length_append, hf, List.length_singleton]; omega
      refine ⟨salt, db, _, _, hel, by omega, h1, hs, rfl, h'.symm, ?_, hrel.1, ?_⟩
      · rw [← hdb, hel, hs]; congr 2; omega
      · rw [hel]; exact hrel.2
  · rw [if_pos h1] at h; cases h

theorem pssEncode_ok {f : HashFn} {hLen : Nat} (emBits : Nat) (d salt : Bytes) (hd : d.length = hLen) (hs : salt.length = hLen)
    (h : 2 * hLen + 2 ≤ (emBits + 7) / 8) : ∃ em, emsaPSSEncode f hLen d emBits salt = .ok em := by
  unfold emsaPSSEncode
  dsimp only
  rw [if_neg (by simpa using hd), if_neg (by omega)]
  exact ⟨_, rfl⟩

theorem pssVerify_iff {f : HashFn} {hLen : Nat} (hf : ∀ m, (f m).length = hLen) (hpos : 0 < hLen) (emBits : Nat) (d em : Bytes) :
    emsaPSSVerify f hLen d em emBits = true ↔ EmsaPss f hLen emBits d em := by
  have hs7 : 8 * ((emBits + 7) / 8) - emBits ≤ 7 := by omega
  unfold emsaPSSVerify
  dsimp only
  simp only [Bool.and_eq_true, decide_eq_true_iff, beq_iff_eq, List.all_eq_true]
  constructor
  · rintro ⟨⟨⟨⟨⟨⟨⟨h1, h2⟩, h3⟩, h4⟩, h5⟩, h6⟩, h7⟩, h8⟩
    have hem : em = em.take ((emBits + 7) / 8 - hLen - 1) ++ ((em.drop ((emBits + 7) / 8 - hLen - 1)).take hLen ++ [0xbc]) := by
      conv_lhs => rw [← List.take_append_drop ((emBits + 7) / 8 - hLen - 1) em]
      congr 1
      conv_lhs => rw [← List.take_append_drop hLen (em.drop ((emBits + 7) / 8 - hLen - 1))]
      congr 1
      rw [List.drop_drop]
      apply List.ext_getElem?
      intro i
      rw [List.getElem?_drop]
      cases i with
      | zero => rw [List.getElem?_cons_zero, ← h4]; congr 1; omega
      | succ i => rw [List.getElem?_eq_none (by omega)]; simp
    generalize hhh : (em.drop ((emBits + 7) / 8 - hLen - 1)).take hLen = hh at *
    have hml : (em.take ((emBits + 7) / 8 - hLen - 1)).length = (emBits + 7) / 8 - hLen - 1 := by rw [List.length_take]; omega
    have hhd : em.headD 0 = (em.take ((emBits + 7) / 8 - hLen - 1)).headD 0 := by
      cases em with
      | nil => simp
      | cons b l =>
        rw [show (emBits + 7) / 8 - hLen - 1 = ((emBits + 7) / 8 - hLen - 2) + 1 by simp at h1; omega]; rfl
    rw [hhd] at h5
    generalize em.take ((emBits + 7) / 8 - hLen - 1) = masked at *
    generalize hdb : clearTop (8 * ((emBits + 7) / 8) - emBits) (mgf1XOR f hh masked.length 0 masked) = db at *
    have hdl : db.length = (emBits + 7) / 8 - hLen - 1 := by rw [← hdb, clearTop_length, mgf1XOR_length hf hpos, hml]
    have htw := mask_twice hf hpos hs7 hh db masked h5 hdb.symm
    rw [← maskRel_iff hf hpos hs7] at htw
    have hdb2 : db = List.replicate (em.length - 2 * hLen - 2) 0 ++ (1 :: db.drop (db.length - hLen)) := by
      apply List.ext_getElem?
      intro i
      rcases Nat.lt_or_ge i ((emBits + 7) / 8 - hLen - hLen - 2) with hi | hi
      · rw [List.getElem?_append_left (by simp; omega), List.getElem?_replicate, if_pos (by omega), List.getElem?_eq_getElem (by omega)]
        congr 1
        refine h6 _ (List.mem_iff_getElem.mpr ⟨i, by rw [List.length_take]; omega, ?_⟩)
        rw [List.getElem_take]
      · rw [List.getElem?_append_right (by simp; omega), List.length_replicate]
        rcases Nat.eq_or_lt_of_le hi with he | he
        · rw [show i - (em.length - 2 * hLen - 2) = 0 by omega, List.getElem?_cons_zero, ← he, h7]
        · rw [show i - (em.length - 2 * hLen - 2) = (i - (em.length - 2 * hLen - 2) - 1) + 1 by omega, List.getElem?_cons_succ, List.getElem?_drop]
          congr 1; omega
    refine ⟨db.drop (db.length - hLen), db, masked, hh, h1.symm, by omega, h2.symm, by rw [List.length_drop]; omega, h8.symm, hem, hdb2, htw.1, ?_⟩
    rw [← h1]; exact htw.2
  · rintro ⟨salt, db, masked, hh, h1, h2, h3, h4, h5, h6, h7, h8, h9⟩
    rw [h1] at h9
    have hrel := (maskRel_iff hf hpos hs7 hh db masked).mp ⟨h8, h9⟩
    have hdl : db.length = (emBits + 7) / 8 - hLen - 1 := by rw [h7]; simp; omega
    have hhl : hh.length = hLen := by rw [h5, hf]
    have hml : masked.length = (emBits + 7) / 8 - hLen - 1 := by omega
    have e1 : em.take ((emBits + 7) / 8 - hLen - 1) = masked := by rw [h6, ← hml, List.take_left]
    have e2 : (em.drop ((emBits + 7) / 8 - hLen - 1)).take hLen = hh := by rw [h6, ← hml, List.drop_left, ← hhl, List.take_left]
    have e3 : em.headD 0 = masked.headD 0 := by
      rw [h6]
      cases masked with
      | nil => simp at hml; omega
      | cons b l => rfl
    have e4 : db.headD 0 &&& ~~~(0xff >>> UInt8.ofNat (8 * ((emBits + 7) / 8) - emBits)) = 0 := by
      have hb : db.headD 0 = 0 ∨ db.headD 0 = 1 := by
        rw [h7]
        cases em.length - 2 * hLen - 2 with
        | zero => right; rfl
        | succ n => left; rfl
      obtain ⟨l0, l1⟩ := low_bit hs7
      rcases hb with h | h
      · have hm := mask_not (a := 0) (k := 0xff >>> UInt8.ofNat (8 * ((emBits + 7) / 8) - emBits))
        rw [l0] at hm; rw [h]; exact hm
      · have hm := mask_not (a := 1) (k := 0xff >>> UInt8.ofNat (8 * ((emBits + 7) / 8) - emBits))
        rw [l1] at hm; rw [h]; exact hm
    have e5 : clearTop (8 * ((emBits + 7) / 8) - emBits) (mgf1XOR f hh masked.length 0 masked) = db :=
      (mask_twice hf hpos hs7 hh masked db e4 hrel).symm
    rw [e1, e2, e3, e5]
    have e6 : db.drop (db.length - hLen) = salt := by
      have e : db = (List.replicate (em.length - 2 * hLen - 2) 0 ++ [1]) ++ salt := by rw [h7]; simp
      rw [hdl, e, List.drop_left']
      simp; omega
    refine ⟨⟨⟨⟨⟨⟨⟨h1.symm, h3.symm⟩, by omega⟩, ?_⟩, ?_⟩, ?_⟩, ?_⟩, ?_⟩
    · rw [h6, List.getElem?_append_right (by omega), List.getElem?_append_right (by omega)]
      rw [show (emBits + 7) / 8 - 1 - masked.length - hh.length = 0 by omega]; rfl
    · rw [hrel]; exact mask_head hh db
    · intro x hx
      rw [h7, List.take_left' (by simp; omega)] at hx
      exact List.eq_of_mem_replicate hx
    · rw [h7, List.getElem?_append_right (by simp; omega)]
      simp only [List.length_replicate]
      rw [show (emBits + 7) / 8 - hLen - hLen - 2 - (em.length - 2 * hLen - 2) = 0 by omega]; rfl
    · rw [e6, h5]

end MCrypto.Props
