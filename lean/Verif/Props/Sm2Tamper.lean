import Verif.Props.Sm2More
/-
C124 What a ciphertext of `Encryt` gives away and what changing it does.
-/
namespace MCrypto.Sm2
open MCrypto MCrypto.Curve MCrypto.Sm2Spec

/-- Octet by octet. -/
def xorBytes (a b : Bytes) : Bytes := List.zipWith (· ^^^ ·) a b

theorem xor_three (t a b : Bytes) (h : t.length = a.length) : xorBytes (xorBytes t a) (xorBytes t b) = xorBytes a b := by
  unfold xorBytes
  induction t generalizing a b with
  | nil => have : a = [] := by simpa using h.symm
           subst this; simp
  | cons x t ih =>
    cases a with
    | nil => simp at h
    | cons y a =>
      cases b with
      | nil => simp
      | cons z b =>
        simp only [List.zipWith_cons_cons, List.cons.injEq]
        refine ⟨?_, ih a b (by simpa using h)⟩
        rw [UInt8.xor_comm x y, UInt8.xor_assoc, ← UInt8.xor_assoc x x z, UInt8.xor_self, UInt8.zero_xor]

theorem xor_assoc' (t a b : Bytes) : xorBytes (xorBytes t a) b = xorBytes t (xorBytes a b) := by
  unfold xorBytes
  induction t generalizing a b with
  | nil => simp
  | cons x t ih =>
    cases a with
    | nil => simp
    | cons y a =>
      cases b with
      | nil => simp
      | cons z b =>
        simp only [List.zipWith_cons_cons, List.cons.injEq]
        exact ⟨UInt8.xor_assoc .., ih a b⟩

theorem xor_zero_iff (m δ : Bytes) (h : δ.length = m.length) : xorBytes m δ = m ↔ δ = List.replicate m.length 0 := by
  unfold xorBytes
  induction m generalizing δ with
  | nil => have : δ = [] := by simpa using h
           subst this; simp
  | cons x m ih =>
    cases δ with
    | nil => simp at h
    | cons y δ =>
      simp only [List.zipWith_cons_cons, List.cons.injEq, List.length_cons, List.replicate_succ]
      rw [ih δ (by simpa using h)]
      refine and_congr_left fun _ => ⟨fun e => ?_, fun e => by rw [e, UInt8.xor_zero]⟩
      have := congrArg (x ^^^ ·) e
      simpa only [← UInt8.xor_assoc, UInt8.xor_self, UInt8.zero_xor] using this

/-- The parts of a ciphertext. -/
structure Parts (pub : PublicKey) (msg ct : Bytes) (k : Nat) : Prop where
  good : goodLen msg.length
  len : ct.length = 97 + msg.length
  c1 : ct.take 65 = 0x04 :: (beBytes 32 (c1Of k).1 ++ beBytes 32 (c1Of k).2)
  c3 : (ct.drop 65).take 32 = Sm3Spec.sm3 (toBytes (kpOf pub k).1 ++ msg ++ toBytes (kpOf pub k).2)
  c2 : ct.drop 97 = xorBytes (stream msg.length (kpOf pub k).1 (kpOf pub k).2) msg

theorem parts_of {pub : PublicKey} {msg ct : Bytes} {k : Nat} (hg : goodLen msg.length)
    (hct : ct = 0x04 :: (beBytes 32 (c1Of k).1 ++ beBytes 32 (c1Of k).2 ++
          Sm3Spec.sm3 (toBytes (kpOf pub k).1 ++ msg ++ toBytes (kpOf pub k).2) ++
          List.zipWith (· ^^^ ·) (stream msg.length (kpOf pub k).1 (kpOf pub k).2) msg)) : Parts pub msg ct k := by
  have hs3 := Sm3.sm3_length (toBytes (kpOf pub k).1 ++ msg ++ toBytes (kpOf pub k).2)
  have hstr := stream_length_good hg (kpOf pub k).1 (kpOf pub k).2
  have e : ct = (0x04 :: (beBytes 32 (c1Of k).1 ++ beBytes 32 (c1Of k).2)) ++
      (Sm3Spec.sm3 (toBytes (kpOf pub k).1 ++ msg ++ toBytes (kpOf pub k).2) ++
        xorBytes (stream msg.length (kpOf pub k).1 (kpOf pub k).2) msg) := by
    rw [hct]; simp [xorBytes]
  generalize hA : (0x04 :: (beBytes 32 (c1Of k).1 ++ beBytes 32 (c1Of k).2) : Bytes) = a at *
  have ha : a.length = 65 := by rw [← hA]; simp
  generalize hC : Sm3Spec.sm3 (toBytes (kpOf pub k).1 ++ msg ++ toBytes (kpOf pub k).2) = c3 at *
  have hl : (xorBytes (stream msg.length (kpOf pub k).1 (kpOf pub k).2) msg).length = msg.length := by
    unfold xorBytes; rw [List.length_zipWith, hstr, Nat.min_self]
  refine ⟨hg, ?_, ?_, ?_, ?_⟩
  · rw [e, List.length_append, List.length_append, ha, hs3, hl]; omega
  · rw [e, List.take_left' ha, ← hA]
  · rw [e, List.drop_left' ha, List.take_left' hs3, ← hC]
  · rw [e, ← List.append_assoc, List.drop_left' (by rw [List.length_append]; omega)]

/-- The nonce that `Encryt` uses is decided by the key, the random octets and the length of the message alone. -/
theorem encryt_first {rd : Reader} {pub : PublicKey} {msg ct : Bytes} {rd' : Reader} (h : encryt rd pub msg = .ok (ct, rd')) :
    ∃ j, 40 * (j + 1) ≤ rd.length ∧ rd' = rd.drop (40 * (j + 1)) ∧ msg ≠ [] ∧ fullC1 (nonce rd j) ∧ Parts pub msg ct (nonce rd j) ∧
      kdf msg.length (kpOf pub (nonce rd j)).1 (kpOf pub (nonce rd j)).2 ≠ none ∧
      ∀ l < j, kdf msg.length (kpOf pub (nonce rd l)).1 (kpOf pub (nonce rd l)).2 = none := by
  rcases encryt_spec rd pub msg with ⟨j, res, h1, h2, h3, h4⟩ | ⟨h1, h2⟩
  · rw [h] at h4
    rcases encTry_cases pub msg (nonce rd j) with ⟨e1, -⟩ | ⟨hm, hk, ⟨g1, g2, g3⟩ | ⟨-, g3⟩⟩
    · rw [e1] at h2; cases h2
    · rw [g3] at h2
      obtain rfl := Option.some.inj h2
      simp only [Res.ok.injEq, Prod.mk.injEq] at h4
      refine ⟨j, h1, h4.2, hm, g1, parts_of g2 h4.1, by rw [hk]; simp, fun l hl => ?_⟩
      rcases encTry_cases pub msg (nonce rd l) with ⟨-, e⟩ | ⟨-, -, ⟨-, -, g⟩ | ⟨-, g⟩⟩
      · exact e
      · rw [h3 l hl] at g; cases g
      · rw [h3 l hl] at g; cases g
    · rw [g3] at h2
      obtain rfl := Option.some.inj h2
      cases h4
  · rw [h2] at h; cases h

/-- **C124** The length of the ciphertext tells the length of the message, and nothing is added but 97 octets. -/
theorem C124_length (rd rd' : Reader) (pub : PublicKey) (msg ct : Bytes) (h : encryt rd pub msg = .ok (ct, rd')) :
    ct.length = 97 + msg.length ∧ ct.head? = some 0x04 := by
  obtain ⟨j, -, -, -, -, hp, -⟩ := encryt_first h
  refine ⟨hp.len, ?_⟩
  have := congrArg List.head? hp.c1
  rwa [List.head?_take, if_neg (by decide)] at this

/-- **C124** Random octets used twice: two messages of one length that are encrypted for the same key from the same random octets
have the same C1, and the difference of the ciphertexts is the difference of the messages. -/
theorem C124_repeated_randomness (rd r r' : Reader) (pub : PublicKey) (m m' ct ct' : Bytes) (hl : m.length = m'.length)
    (h : encryt rd pub m = .ok (ct, r)) (h' : encryt rd pub m' = .ok (ct', r')) :
    r = r' ∧ ct.take 65 = ct'.take 65 ∧ xorBytes (ct.drop 97) (ct'.drop 97) = xorBytes m m' := by
  obtain ⟨j, -, hr, -, -, hp, hk, hmin⟩ := encryt_first h
  obtain ⟨j', -, hr', -, -, hp', hk', hmin'⟩ := encryt_first h'
  rw [← hl] at hk' hmin'
  have hj : j = j' := by
    rcases Nat.lt_trichotomy j j' with g | g | g
    · exact absurd (hmin' j g) hk
    · exact g
    · exact absurd (hmin j' g) hk'
  subst hj
  refine ⟨by rw [hr, hr'], by rw [hp.c1, hp'.c1], ?_⟩
  rw [hp.c2, hp'.c2, ← hl]
  exact xor_three _ _ _ (stream_length_good hp.good _ _)

/-- **C124** Who knows the random octets reads the message, without the private key: it is C2 plus the key stream of the standard
for [k]Q (messages of at most 32 octets; for longer ones the stream of C87). -/
theorem C124_known_randomness (rd rd' : Reader) (pub : PublicKey) (Q : EP) (hQ : Represents pub Q) (msg ct : Bytes)
    (h : encryt rd pub msg = .ok (ct, rd')) (hl : msg.length ≤ 32) (hQ0 : Q ≠ 0) :
    ∃ j x2 y2, 40 * (j + 1) ≤ rd.length ∧ rd' = rd.drop (40 * (j + 1)) ∧ coords (nonce rd j • Q) = some (x2, y2) ∧
      msg = xorBytes (Sm2Spec.kdf (ct.length - 97) x2 y2) (ct.drop 97) := by
  obtain ⟨j, hjl, h4, hm, -, hp, -⟩ := encryt_first h
  refine ⟨j, (kpOf pub (nonce rd j)).1, (kpOf pub (nonce rd j)).2, hjl, h4, ?_, ?_⟩
  · obtain ⟨hk1, hk2⟩ := nonce_range rd j
    have hkQ : nonce rd j • Q ≠ 0 := by
      obtain ⟨d, hd, rfl⟩ := exists_dlog Q
      rw [← mul_smul, Ne, nsmul_Gp_eq_zero_iff]
      intro hdv
      rcases (N_prime.dvd_mul).mp hdv with h | h
      · have := Nat.le_of_dvd (by omega) h
        have := N_pos
        omega
      · exact hQ0 ((nsmul_Gp_eq_zero_iff d).mpr h)
    have hr2 := rep_mult hQ (nonce rd j)
    have hc2 := coords_rep hr2
    rw [if_neg (fun e => hkQ ((Rep.zero_iff bF_ne hr2).mp e))] at hc2
    exact hc2
  · have hb := hp.c2
    rw [hb, hp.len, show 97 + msg.length - 97 = msg.length by omega]
    have hlt : (kpOf pub (nonce rd j)).1 < 256 ^ 32 ∧ (kpOf pub (nonce rd j)).2 < 256 ^ 32 := by
      have := (rep_mult hQ (nonce rd j)).lt
      have := P_lt
      unfold kpOf
      omega
    rw [← stream_eq_kdf _ _ _ (List.length_pos_iff.mpr hm) hl hlt.1 hlt.2]
    unfold xorBytes
    rw [xor_cancel _ _ (stream_length_good hp.good _ _)]

/-- Decryption of octets that begin with the C1 of a ciphertext. -/
theorem decrypt_same_c1 (priv : PrivateKey) (hkp : KeyPair priv) {k : Nat} (hf : fullC1 k) {n : Nat} (hg : goodLen n)
    (hk : kdf n (kpOf priv.pub k).1 (kpOf priv.pub k).2 ≠ none) (c3 c2 tail : Bytes) (h3 : c3.length = 32) (h2 : c2.length = n) :
    decryt priv (0x04 :: (beBytes 32 (c1Of k).1 ++ beBytes 32 (c1Of k).2) ++ c3 ++ c2) tail =
      .ok ⟨some (xorBytes (stream n (kpOf priv.pub k).1 (kpOf priv.pub k).2) c2),
        if Sm3Spec.sm3 (toBytes (kpOf priv.pub k).1 ++ xorBytes (stream n (kpOf priv.pub k).1 (kpOf priv.pub k).2) c2 ++
          toBytes (kpOf priv.pub k).2) = c3 then none else some "failed to decrypt:hash compared error"⟩ := by
  have hkpos : c1Of k ≠ (0, 0) := by
    intro h0
    have := hf.1
    rw [h0] at this
    have : (0 : Nat) < 256 ^ 31 := by decide
    simp only at *
    omega
  have hc1lt := c1_lt k
  have hshare : scalarMult P (c1Of k) (toBytes priv.d) = kpOf priv.pub k := by
    have r1 := rep_mult (rep_base k) priv.d
    have r2 := rep_mult hkp k
    rw [← mul_smul] at r1 r2
    rw [mul_comm] at r2
    exact Rep.pt_eq r1 r2
  generalize hX : beBytes 32 (c1Of k).1 = X at *
  generalize hY : beBytes 32 (c1Of k).2 = Y at *
  have hXl : X.length = 32 := by rw [← hX]; simp
  have hYl : Y.length = 32 := by rw [← hY]; simp
  generalize hct : (0x04 :: (X ++ Y) ++ c3 ++ c2 : Bytes) = ct
  have d1 : ct.drop 1 = X ++ (Y ++ (c3 ++ c2)) := by rw [← hct]; simp
  have hctl : ct.length = 97 + n := by rw [← hct]; simp only [List.length_append, List.length_cons]; omega
  have d65 : (ct.drop 65).take 32 = c3 := by
    rw [show (65 : Nat) = 1 + 64 by rfl, ← List.drop_drop, d1, ← List.append_assoc X, List.drop_left' (by rw [List.length_append]; omega),
      List.take_left' h3]
  have d97 : ct.drop 97 = c2 := by
    rw [show (97 : Nat) = 1 + 96 by rfl, ← List.drop_drop, d1, ← List.append_assoc X, ← List.append_assoc (X ++ Y),
      List.drop_left' (by rw [List.length_append, List.length_append]; omega)]
  have hpt : ctPoint ct tail = c1Of k := by
    unfold ctPoint
    rw [d1]
    have e1 : (X ++ (Y ++ (c3 ++ c2)) ++ tail).take 32 = X := by rw [List.append_assoc, List.take_left' hXl]
    have e2 : ((X ++ (Y ++ (c3 ++ c2)) ++ tail).drop 32).take 32 = Y := by
      rw [List.append_assoc, List.drop_left' hXl, List.append_assoc, List.take_left' hYl]
    rw [e1, e2, ← hX, ← hY, ofBytes_beBytes_of_lt hc1lt.1, ofBytes_beBytes_of_lt hc1lt.2]
  have hon : isOnCurve P B (ctPoint ct tail) = true := by
    rw [hpt, isOnCurve_rep]
    refine ⟨_, ?_, rep_base k⟩
    intro h0
    exact hkpos ((Rep.zero_iff bF_ne (rep_base k)).mpr h0)
  have hmain := decryt_onCurve priv ct tail (by rw [← hct]; simp) (by omega) hon (kpOf priv.pub k) (by rw [hpt, hshare])
  rw [show (ct.length : Int) - 97 = (n : Int) by omega, show ct.length - 97 = n by omega, d97, d65] at hmain
  exact (hmain.2 hk).2.1 hg

/-- **C124** What becomes of a ciphertext whose C3 and C2 are changed. `Decryt` returns the message changed in the same places as C2;
with a nil error exactly if the new C3 is the SM3 value for the changed message. So if only C3 is changed the error is not nil,
and if only C2 is changed it is not nil unless x2 ‖ m ‖ y2 has the same SM3 value with the old and with the changed message. The message itself is
returned along with the error, so a caller that looks only at the message gets octets that the attacker has chosen the difference of. -/
theorem C124_modified (rd rd' : Reader) (priv : PrivateKey) (hkp : KeyPair priv) (msg ct : Bytes) (h : encryt rd priv.pub msg = .ok (ct, rd'))
    (c3 c2 tail : Bytes) (h3 : c3.length = 32) (h2 : c2.length = msg.length) :
    ∃ e, decryt priv (ct.take 65 ++ c3 ++ c2) tail = .ok ⟨some (xorBytes msg (xorBytes (ct.drop 97) c2)), e⟩ ∧
      (e = none ∨ e = some "failed to decrypt:hash compared error") ∧
      (c2 = ct.drop 97 → (e = none ↔ c3 = (ct.drop 65).take 32)) ∧
      (c3 = (ct.drop 65).take 32 → c2 ≠ ct.drop 97 → xorBytes msg (xorBytes (ct.drop 97) c2) ≠ msg ∧
        (e = none → ∃ j, ∃ S : Pt, rd' = rd.drop (40 * (j + 1)) ∧ Rep bF S (nonce rd j • priv.d • Gp) ∧
          Sm3Spec.sm3 (toBytes S.1 ++ xorBytes msg (xorBytes (ct.drop 97) c2) ++ toBytes S.2) =
            Sm3Spec.sm3 (toBytes S.1 ++ msg ++ toBytes S.2))) := by
  obtain ⟨j, -, hr, hm, hf, hp, hk, -⟩ := encryt_first h
  have hd := decrypt_same_c1 priv hkp hf hp.good hk c3 c2 tail h3 h2
  rw [← hp.c1] at hd
  have hsl := stream_length_good hp.good (kpOf priv.pub (nonce rd j)).1 (kpOf priv.pub (nonce rd j)).2
  have hx : xorBytes msg (xorBytes (ct.drop 97) c2) = xorBytes (stream msg.length (kpOf priv.pub (nonce rd j)).1
      (kpOf priv.pub (nonce rd j)).2) c2 := by
    rw [hp.c2, ← xor_assoc', show xorBytes msg (xorBytes (stream msg.length (kpOf priv.pub (nonce rd j)).1
      (kpOf priv.pub (nonce rd j)).2) msg) = stream msg.length (kpOf priv.pub (nonce rd j)).1 (kpOf priv.pub (nonce rd j)).2 from ?_]
    unfold xorBytes
    rw [List.zipWith_comm (f := fun x y : UInt8 => x ^^^ y) (as := stream _ _ _)]
    simp only [UInt8.xor_comm _ _]
    exact xor_cancel _ _ hsl.symm
  rw [hx]
  refine ⟨_, hd, ?_, ?_, ?_⟩
  · split <;> simp
  · intro he
    have : xorBytes (stream msg.length (kpOf priv.pub (nonce rd j)).1 (kpOf priv.pub (nonce rd j)).2) c2 = msg := by
      rw [he, hp.c2]; exact xor_cancel _ _ hsl
    rw [this, hp.c3]
    by_cases e : Sm3Spec.sm3 (toBytes (kpOf priv.pub (nonce rd j)).1 ++ msg ++ toBytes (kpOf priv.pub (nonce rd j)).2) = c3
    · rw [if_pos e]; exact ⟨fun _ => e.symm, fun _ => rfl⟩
    · rw [if_neg e]; exact ⟨fun h => (by cases h), fun h => absurd h.symm e⟩
  · intro e3 hne
    refine ⟨fun e' => ?_, fun he => ?_⟩
    · apply hne
      rw [hp.c2]
      have := congrArg (xorBytes (stream msg.length (kpOf priv.pub (nonce rd j)).1 (kpOf priv.pub (nonce rd j)).2)) e'
      rw [← this]
      exact (xor_cancel _ _ (by rw [hsl, h2])).symm
    · split at he
      · rename_i e
        rw [e3, hp.c3] at e
        exact ⟨j, kpOf priv.pub (nonce rd j), hr, rep_mult hkp _, e⟩
      · cases he

/-! ### The hypotheses are met -/

/-- Two messages of one length, one key, one stream of random octets: both are encrypted. -/
theorem C124_case : ∃ ct ct' r r', encryt exRd exKey.pub [0x61, 0x62, 0x63] = .ok (ct, r) ∧ encryt exRd exKey.pub [0x78, 0x79, 0x7a] = .ok (ct', r') := by
  have h : (encryt exRd exKey.pub [0x61, 0x62, 0x63]).isOk = true ∧ (encryt exRd exKey.pub [0x78, 0x79, 0x7a]).isOk = true := by decide +kernel
  cases h1 : encryt exRd exKey.pub [0x61, 0x62, 0x63] with
  | ok a =>
    cases h2 : encryt exRd exKey.pub [0x78, 0x79, 0x7a] with
    | ok b => exact ⟨_, _, _, _, rfl, rfl⟩
    | err e => rw [h2] at h; cases h.2
    | panic => rw [h2] at h; cases h.2
  | err e => rw [h1] at h; cases h.1
  | panic => rw [h1] at h; cases h.1

/-- The first letter of the message changed by way of its ciphertext. -/
example : ∃ ct r e, encryt exRd exKey.pub [0x61, 0x62, 0x63] = .ok (ct, r) ∧
    decryt exKey (ct.take 65 ++ (ct.drop 65).take 32 ++ xorBytes (ct.drop 97) [0x19, 0, 0]) [] = .ok ⟨some [0x78, 0x62, 0x63], e⟩ := by
  obtain ⟨ct, -, r, -, h, -⟩ := C124_case
  have hl := (C124_length _ _ _ _ _ h).1
  have hl2 : (xorBytes (ct.drop 97) [0x19, 0, 0]).length = 3 := by
    unfold xorBytes; rw [List.length_zipWith, List.length_drop, hl]; rfl
  obtain ⟨e, h1, -⟩ := C124_modified exRd r exKey exKey_keyPair _ ct h ((ct.drop 65).take 32) (xorBytes (ct.drop 97) [0x19, 0, 0]) []
    (by rw [List.length_take, List.length_drop, hl]; rfl) hl2
  refine ⟨ct, r, e, h, ?_⟩
  rw [h1]
  have : xorBytes (ct.drop 97) (xorBytes (ct.drop 97) [0x19, 0, 0]) = [0x19, 0, 0] :=
    xor_cancel _ _ (by rw [List.length_drop, hl]; rfl)
  rw [this]
  rfl

end MCrypto.Sm2
