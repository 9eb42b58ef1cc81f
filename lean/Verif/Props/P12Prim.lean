import Verif.Pkcs12.Rc2Lemmas
import Verif.Pkcs12.KdfLemmas
/-
Properties C25-C31: RC2, the RFC 7292 key derivation and BMP strings.
-/
namespace MCrypto.Props
open MCrypto

/-! ### C25 RC2 decryption inverts encryption -/

theorem C25_rc2_inverse (key : Bytes) (t1 : Int) (k : List Rc2.W) (_ : Rc2.new key t1 = .ok k)
    (b : Bytes) (hb : b.length = 8) :
    (∃ c, Rc2.encrypt k b = .ok c ∧ c.length = 8 ∧ Rc2.decrypt k c = .ok b) ∧
    (∃ p, Rc2.decrypt k b = .ok p ∧ p.length = 8 ∧ Rc2.encrypt k p = .ok b) := by
  have hn : ¬ b.length < 8 := by omega
  refine ⟨⟨_, by rw [Rc2.encrypt, if_neg hn], Rc2.storeS_length _, ?_⟩,
    ⟨_, by rw [Rc2.decrypt, if_neg hn], Rc2.storeS_length _, ?_⟩⟩
  · rw [Rc2.decrypt, if_neg (by rw [Rc2.storeS_length]; decide), Rc2.loadS_storeS, Rc2.decS_encS,
      Rc2.storeS_loadS hb]
  · rw [Rc2.encrypt, if_neg (by rw [Rc2.storeS_length]; decide), Rc2.loadS_storeS, Rc2.encS_decS,
      Rc2.storeS_loadS hb]

/-! ### C26 RC2 is RFC 2268 -/

/-- For every key of 1..128 bytes and effective length of 1..1024 bits, `New` succeeds and the cipher
maps every block to its RFC 2268 encryption; `Decrypt` of that gives the block back. -/
theorem C26_rc2_rfc2268 (key : Bytes) (T1 : Nat) (hk : 1 ≤ key.length) (hk' : key.length ≤ 128)
    (h1 : 1 ≤ T1) (h2 : T1 ≤ 1024) :
    ∃ k, Rc2.new key T1 = .ok k ∧ ∀ b : Bytes, b.length = 8 →
      ∃ c, Rc2.encrypt k b = .ok c ∧
        c.map UInt8.toNat = Rc2Spec.encrypt (key.map UInt8.toNat) T1 (b.map UInt8.toNat) ∧
        Rc2.decrypt k c = .ok b := by
  have hne : key ≠ [] := by intro e; subst e; simp at hk
  obtain ⟨k, hk, hkl, hK⟩ := Rc2.expandKey_spec key T1 hne hk' h1 h2
  refine ⟨k, hk, fun b hb => ?_⟩
  obtain ⟨c, hc, _, hd⟩ := (C25_rc2_inverse key T1 k hk b hb).1
  refine ⟨c, hc, ?_, hd⟩
  rw [Rc2.encrypt, if_neg (by omega)] at hc
  injection hc with hc
  rw [← hc, ← Rc2.store_regs, Rc2Spec.encrypt, Rc2.load_map hb]
  rw [Rc2.regs_encS k _ hK]

/-- The last test vector of RFC 2268 section 5 (the longest key, with an effective length that is not a multiple of 8),
evaluated by the kernel. -/
example : (do
    let k ← Rc2.new [0x88, 0xbc, 0xa9, 0x0e, 0x90, 0x87, 0x5a, 0x7f, 0x0f, 0x79, 0xc3, 0x84, 0x62, 0x7b, 0xaf, 0xb2,
      0x16, 0xf8, 0x0a, 0x6f, 0x85, 0x92, 0x05, 0x84, 0xc4, 0x2f, 0xce, 0xb0, 0xbe, 0x25, 0x5d, 0xaf, 0x1e] 129
    Rc2.encrypt k [0, 0, 0, 0, 0, 0, 0, 0]) = .ok [0x5b, 0x78, 0xd3, 0xa4, 0x3d, 0xff, 0xf1, 0xf1] := by
  decide +kernel

/-- Non-vacuity of C25 and C26: the 40-bit key used by PKCS#12. -/
example : ∃ k c, Rc2.new [1, 2, 3, 4, 5] 40 = .ok k ∧ Rc2.encrypt k [1, 2, 3, 4, 5, 6, 7, 8] = .ok c ∧
    Rc2.decrypt k c = .ok [1, 2, 3, 4, 5, 6, 7, 8] := by
  obtain ⟨k, hk, h⟩ := C26_rc2_rfc2268 [1, 2, 3, 4, 5] 40 (by decide) (by decide) (by decide) (by decide)
  obtain ⟨c, hc, _, hd⟩ := h [1, 2, 3, 4, 5, 6, 7, 8] (by decide)
  exact ⟨k, c, hk, hc, hd⟩

/-! ### C27 index safety -/

/-- `New` never returns an error; it panics exactly for an empty key or an effective length outside
1..1024 bits. -/
theorem C27_rc2_panics_iff (key : Bytes) (t1 : Int) :
    (Rc2.new key t1 = .panic ↔ key = [] ∨ t1 ≤ 0 ∨ 1024 < t1) ∧
    (Rc2.new key t1 ≠ .panic → ∃ k, Rc2.new key t1 = .ok k ∧ k.length = 64) := by
  have main : ¬ (key = [] ∨ t1 ≤ 0 ∨ 1024 < t1) → ∃ k, Rc2.new key t1 = .ok k ∧ k.length = 64 := by
    intro h
    have hne : key ≠ [] := fun e => h (Or.inl e)
    have h1 : 1 ≤ t1 := by omega
    have h2 : t1 ≤ 1024 := by omega
    obtain ⟨T1, hT⟩ := Int.eq_ofNat_of_zero_le (show 0 ≤ t1 by omega)
    subst hT
    rcases Nat.lt_or_ge 128 key.length with hl | hl
    · obtain ⟨k, hk, hkl, _⟩ := Rc2.expandKey_spec (key.take 128) T1 (by
        intro e
        have := congrArg List.length e
        rw [List.length_take] at this
        simp at this; exact hne this) (by rw [List.length_take]; omega) (by omega) (by omega)
      exact ⟨k, by rw [Rc2.new, Rc2.expandKey_long _ _ (by omega)]; exact hk, hkl⟩
    · obtain ⟨k, hk, hkl, _⟩ := Rc2.expandKey_spec key T1 hne hl (by omega) (by omega)
      exact ⟨k, hk, hkl⟩
  have fwd : key = [] ∨ t1 ≤ 0 ∨ 1024 < t1 → Rc2.new key t1 = .panic := by
    rintro (rfl | h)
    · exact Rc2.expandKey_panic_of_nil t1
    · exact Rc2.expandKey_panic_of_t1 key t1 h
  refine ⟨⟨fun hp => ?_, fwd⟩, fun hp => main (fun h => hp (fwd h))⟩
  by_contra hc
  obtain ⟨k, hk, _⟩ := main hc
  rw [hk] at hp; cases hp

/-- Bytes of a key beyond the 128th are ignored (RFC 2268 does not define such keys). -/
theorem C27_rc2_long_key (key : Bytes) (t1 : Int) (h : 128 ≤ key.length) :
    Rc2.new key t1 = Rc2.new (key.take 128) t1 := Rc2.expandKey_long key t1 h

/-- The block functions panic exactly on blocks shorter than 8 bytes. -/
theorem C27_rc2_block_panics_iff (k : List Rc2.W) (b : Bytes) :
    (Rc2.encrypt k b = .panic ↔ b.length < 8) ∧ (Rc2.decrypt k b = .panic ↔ b.length < 8) := by
  unfold Rc2.encrypt Rc2.decrypt
  constructor <;> split <;> simp_all

example : Rc2.new [] 40 = .panic := (C27_rc2_panics_iff [] 40).1.mpr (Or.inl rfl)
example : Rc2.new [1, 2, 3, 4, 5] 40 ≠ .panic := fun h => by
  have := (C27_rc2_panics_iff [1, 2, 3, 4, 5] 40).1.mp h
  simp at this

/-! ### C28 RFC 7292 B.2 -/

/-- With a hash of 20-byte output, `u = 20` and any block size `v ≥ 1`, `pbkdf` is the RFC's
derivation, for every salt, password, ID, size and iteration count `r ≥ 1`. -/
theorem C28_pbkdf_rfc7292 (H : Bytes → Bytes) (hH : ∀ x, (H x).length = 20) (v : Nat) (hv : 1 ≤ v)
    (salt password : Bytes) (r : Nat) (hr : 1 ≤ r) (ID : UInt8) (size : Nat) :
    P12.pbkdf H 20 v salt password r ID size = .ok (Rfc7292.kdf H 20 v salt password r ID size) := by
  have key := P12.kdfLoop_eq H hH v hv (List.replicate v ID) (r : Int) ((size + 20 - 1) / 20)
    ((size + 20 - 1) / 20) (P12.fillWithRepeats salt v ++ P12.fillWithRepeats password v) [] (Nat.le_refl _)
    (by simp) (by
      rw [P12.fillWithRepeats_eq _ _ hv, P12.fillWithRepeats_eq _ _ hv, List.length_append,
        P12.stretch_length, P12.stretch_length]
      exact Nat.dvd_add ⟨_, rfl⟩ ⟨_, rfl⟩)
  have hr' : ((r : Int) - 1).toNat + 1 = r := by omega
  rw [List.nil_append, List.nil_append, hr'] at key
  have hlen : ∀ c I, (Rfc7292.stream H v r (List.replicate v ID) c I).length = c * 20 := by
    intro c
    induction c with
    | zero => intro I; rfl
    | succ c ih =>
      intro I
      rw [Rfc7292.stream, List.length_append, ih]
      obtain ⟨r', rfl⟩ : ∃ r', r = r' + 1 := ⟨r - 1, by omega⟩
      rw [P12.iterH_succ', hH]; omega
  unfold P12.pbkdf Rfc7292.kdf
  simp only [key]
  rw [if_pos (by rw [hlen]; omega), P12.fillWithRepeats_eq _ _ hv, P12.fillWithRepeats_eq _ _ hv]

/-- What the code does with a non-positive iteration count (which a PFX may contain): it behaves as
with one iteration, and never panics. -/
theorem C28_pbkdf_nonpositive_iterations (H : Bytes → Bytes) (hH : ∀ x, (H x).length = 20) (v : Nat)
    (hv : 1 ≤ v) (salt password : Bytes) (r : Int) (hr : r ≤ 0) (ID : UInt8) (size : Nat) :
    P12.pbkdf H 20 v salt password r ID size = .ok (Rfc7292.kdf H 20 v salt password 1 ID size) := by
  rw [← C28_pbkdf_rfc7292 H hH v hv salt password 1 (Nat.le_refl _) ID size]
  have : P12.hashIter H r = P12.hashIter H ((1 : Nat) : Int) := by
    funext x
    rw [P12.hashIter_eq, P12.hashIter_eq]
    congr 1; omega
  have hl : ∀ (D : Bytes) (c n : Nat) (I A : Bytes),
      P12.kdfLoop H v D r c n I A = P12.kdfLoop H v D ((1 : Nat) : Int) c n I A := by
    intro D c n
    induction n with
    | zero => intro I A; rfl
    | succ n ih =>
      intro I A
      rw [P12.kdfLoop, P12.kdfLoop, this]
      simp only [ih]
  unfold P12.pbkdf
  simp only [hl]

/-- The derived key has the requested length. -/
theorem C28_pbkdf_length (H : Bytes → Bytes) (hH : ∀ x, (H x).length = 20) (v : Nat) (hv : 1 ≤ v)
    (salt password : Bytes) (r : Int) (ID : UInt8) (size : Nat) :
    ∃ k, P12.pbkdf H 20 v salt password r ID size = .ok k ∧ k.length = size := by
  have key : ∀ r : Nat, 1 ≤ r → (Rfc7292.kdf H 20 v salt password r ID size).length = size := by
    intro r hr
    have hlen : ∀ c I, (Rfc7292.stream H v r (List.replicate v ID) c I).length = c * 20 := by
      intro c
      induction c with
      | zero => intro I; rfl
      | succ c ih =>
        intro I
        rw [Rfc7292.stream, List.length_append, ih]
        obtain ⟨r', rfl⟩ : ∃ r', r = r' + 1 := ⟨r - 1, by omega⟩
        rw [P12.iterH_succ', hH]; omega
    rw [Rfc7292.kdf, List.length_take, hlen]; omega
  rcases Int.lt_or_le 0 r with h | h
  · obtain ⟨n, rfl⟩ := Int.eq_ofNat_of_zero_le (show 0 ≤ r by omega)
    exact ⟨_, C28_pbkdf_rfc7292 H hH v hv salt password n (by omega) ID size, key n (by omega)⟩
  · exact ⟨_, C28_pbkdf_nonpositive_iterations H hH v hv salt password r h ID size, key 1 (by decide)⟩

/-- Non-vacuity: a toy 20-byte "hash" meets the hypothesis and two blocks are needed. -/
example : ∃ k, P12.pbkdf (fun x => beBytes 20 (ofBytes x * 7 + 3)) 20 64 [1, 2, 3] [0, 65, 0, 0] 3 1 24 = .ok k ∧
    k.length = 24 :=
  C28_pbkdf_length _ (fun _ => beBytes_length _ _) 64 (by decide) _ _ _ _ _

/-! ### C29 stretching -/

theorem C29_fillWithRepeats (p : Bytes) (v : Nat) (hv : 1 ≤ v) :
    (p = [] → P12.fillWithRepeats p v = []) ∧
    (P12.fillWithRepeats p v).length = v * ((p.length + v - 1) / v) ∧
    (∀ i, i < (P12.fillWithRepeats p v).length →
      (P12.fillWithRepeats p v)[i]? = some (p.getD (i % p.length) 0)) ∧
    p.length ≤ (P12.fillWithRepeats p v).length ∧
    (P12.fillWithRepeats p v).length < p.length + v := by
  rw [P12.fillWithRepeats_eq _ _ hv]
  refine ⟨?_, P12.stretch_length p v, ?_, ?_, ?_⟩
  · rintro rfl
    apply List.eq_nil_of_length_eq_zero
    rw [P12.stretch_length]
    simp only [List.length_nil, Nat.zero_add]
    rw [Nat.div_eq_of_lt (by omega), Nat.mul_zero]
  · intro i hi
    rw [P12.stretch_length] at hi
    rw [Rfc7292.stretch, List.getElem?_map, List.getElem?_range hi]; rfl
  · rw [P12.stretch_length, Nat.mul_comm]; exact P12.ceil_mul_ge _ _ hv
  · rw [P12.stretch_length]
    have := Nat.div_mul_le_self (p.length + v - 1) v
    rw [Nat.mul_comm] at this; omega

example : P12.fillWithRepeats [1, 2, 3] 4 = [1, 2, 3, 1] := by decide

/-! ### C30 BMP strings -/

/-- `bmpString` fails exactly when the string (read as Go reads it) has a code point above U+FFFF. -/
theorem C30_bmpString_fails_iff (s : Bytes) :
    (∃ b, P12.bmpString s = .ok b) ↔ ∀ r ∈ Utf.runes s, r ≤ 0xFFFF := by
  constructor
  · rintro ⟨b, hb⟩
    by_contra hc
    have : ∃ r ∈ Utf.runes s, 0xFFFF < r := by
      by_contra h'
      exact hc (fun r hr => by
        by_contra h2
        exact h' ⟨r, hr, by omega⟩)
    rw [P12.bmpString, P12.bmpLoop_err _ (fun r hr => P12.scalar_lt (Utf.runes_scalar s r hr)) this] at hb
    cases hb
  · intro h
    exact ⟨_, P12.bmpLoop_ok _ h _⟩

/-- For every well-formed string of code points up to U+FFFF, decoding the encoding gives it back. -/
theorem C30_bmp_roundtrip (s : Bytes) (hs : Utf.Valid s) (h : ∀ r ∈ Utf.runes s, r ≤ 0xFFFF) :
    ∃ b, P12.bmpString s = .ok b ∧ P12.decodeBMPString b = .ok s := by
  refine ⟨_, P12.bmpLoop_ok _ h _, ?_⟩
  rw [List.nil_append]
  have hl := P12.flatMap_unit_length (Utf.runes s)
  unfold P12.decodeBMPString
  have hlen : ((Utf.runes s).flatMap P12.unitBytes ++ [0, 0]).length = 2 * (Utf.runes s).length + 2 := by
    rw [List.length_append, hl]; rfl
  rw [if_neg (by rw [hlen]; omega)]
  simp only [hlen]
  rw [if_pos, show 2 * (Utf.runes s).length + 2 - 2 = ((Utf.runes s).flatMap P12.unitBytes).length by
    rw [hl]; omega, List.take_left, P12.bmpUnits_flatMap _ h, Utf.decode16_bmp, Utf.ofRunes_runes hs]
  · intro r hr
    have := Utf.runes_scalar s r hr
    unfold Utf.IsScalar at this; omega
  · refine ⟨by omega, ?_, ?_⟩
    · rw [List.getD_eq_getElem?_getD, List.getElem?_append_right (by rw [hl]; omega), hl]
      rw [show 2 * (Utf.runes s).length + 2 - 1 - 2 * (Utf.runes s).length = 1 by omega]; rfl
    · rw [List.getD_eq_getElem?_getD, List.getElem?_append_right (by rw [hl]; omega), hl]
      rw [show 2 * (Utf.runes s).length + 2 - 2 - 2 * (Utf.runes s).length = 0 by omega]; rfl

/-- "Beta β" and the empty string meet the hypotheses; U+1F600 does not. -/
example : Utf.valid [0x42, 0x65, 0x74, 0x61, 0x20, 0xCE, 0xB2] = true ∧
    P12.bmpString [0x42, 0x65, 0x74, 0x61, 0x20, 0xCE, 0xB2] =
      .ok [0, 0x42, 0, 0x65, 0, 0x74, 0, 0x61, 0, 0x20, 3, 0xB2, 0, 0] ∧
    P12.bmpString [] = .ok [0, 0] ∧ (P12.bmpString [0xF0, 0x9F, 0x98, 0x80]).isOk = false := by
  decide +kernel

/-- Decoding is defined exactly on even lengths. -/
theorem C30_decode_fails_iff (b : Bytes) :
    (∃ s, P12.decodeBMPString b = .ok s) ↔ b.length % 2 = 0 := by
  unfold P12.decodeBMPString
  split
  · rename_i h; exact ⟨fun ⟨s, hs⟩ => (by cases hs), fun h' => absurd h' h⟩
  · rename_i h; exact ⟨fun _ => by omega, fun _ => ⟨_, rfl⟩⟩

/-! ### C31 injectivity of the password encoding -/

/-- On well-formed UTF-8 passwords the encoding is injective. -/
theorem C31_bmpString_injective (s t : Bytes) (hs : Utf.Valid s) (ht : Utf.Valid t) (b : Bytes)
    (h1 : P12.bmpString s = .ok b) (h2 : P12.bmpString t = .ok b) : s = t := by
  obtain ⟨b1, e1, d1⟩ := C30_bmp_roundtrip s hs ((C30_bmpString_fails_iff s).mp ⟨b, h1⟩)
  obtain ⟨b2, e2, d2⟩ := C30_bmp_roundtrip t ht ((C30_bmpString_fails_iff t).mp ⟨b, h2⟩)
  rw [h1] at e1; rw [h2] at e2
  injection e1 with e1; injection e2 with e2
  subst e1; subst e2
  rw [d1] at d2; injection d2

/-- Every accepted encoding has even length and ends in two zero bytes. -/
theorem C31_bmpString_shape (s b : Bytes) (h : P12.bmpString s = .ok b) :
    b.length % 2 = 0 ∧ ∃ p, b = p ++ [0, 0] := by
  rw [P12.bmpString, P12.bmpLoop_ok _ ((C30_bmpString_fails_iff s).mp ⟨b, h⟩)] at h
  injection h with h
  rw [← h, List.nil_append]
  refine ⟨?_, _, rfl⟩
  rw [List.length_append, P12.flatMap_unit_length]; simp

/-- Two accepted strings have the same encoding exactly when Go's `range` reads the same code points
from them. Invalid UTF-8 is read as U+FFFD, so on arbitrary Go strings the encoding is not injective
(next theorem). -/
theorem C31_bmpString_collision_iff (s t bs bt : Bytes) (h1 : P12.bmpString s = .ok bs)
    (h2 : P12.bmpString t = .ok bt) : bs = bt ↔ Utf.runes s = Utf.runes t := by
  have a1 := (C30_bmpString_fails_iff s).mp ⟨bs, h1⟩
  have a2 := (C30_bmpString_fails_iff t).mp ⟨bt, h2⟩
  rw [P12.bmpString, P12.bmpLoop_ok _ a1] at h1
  rw [P12.bmpString, P12.bmpLoop_ok _ a2] at h2
  injection h1 with h1; injection h2 with h2
  rw [← h1, ← h2]
  constructor
  · intro h
    simp only [List.nil_append] at h
    have := List.append_cancel_right h
    rw [← P12.bmpUnits_flatMap _ a1, this, P12.bmpUnits_flatMap _ a2]
  · intro h; rw [h]

/-- Different invalid UTF-8 passwords (for example the Latin-1 bytes "é" and "è") are the same
password for this package. -/
theorem C31_invalid_utf8_collide :
    ([0xE9] : Bytes) ≠ [0xE8] ∧ P12.bmpString [0xE9] = .ok [0xFF, 0xFD, 0, 0] ∧
      P12.bmpString [0xE8] = .ok [0xFF, 0xFD, 0, 0] := by decide +kernel

end MCrypto.Props
