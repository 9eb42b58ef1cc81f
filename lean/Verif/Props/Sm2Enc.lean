import Verif.Sm2.DecLemmas
import Verif.Props.Sm2Sign
/-
Properties C17-C24: SM2 encryption, decryption, key generation, key equality.
-/
namespace MCrypto.Sm2
open MCrypto MCrypto.Curve MCrypto.Sm2Spec

/-! ## C17 -/

/-- Inversion of a successful `Encryt`. -/
theorem encryt_ok {rd : Reader} {pub : PublicKey} {msg ct : Bytes} {rd' : Reader}
    (h : encryt rd pub msg = .ok (ct, rd')) :
    ∃ j, 40 * (j + 1) ≤ rd.length ∧ rd' = rd.drop (40 * (j + 1)) ∧ msg ≠ [] ∧
      fullC1 (nonce rd j) ∧ goodLen msg.length ∧
      kdf msg.length (kpOf pub (nonce rd j)).1 (kpOf pub (nonce rd j)).2 =
        some (stream msg.length (kpOf pub (nonce rd j)).1 (kpOf pub (nonce rd j)).2) ∧
      ct = 0x04 :: (beBytes 32 (c1Of (nonce rd j)).1 ++ beBytes 32 (c1Of (nonce rd j)).2 ++
          Sm3Spec.sm3 (toBytes (kpOf pub (nonce rd j)).1 ++ msg ++ toBytes (kpOf pub (nonce rd j)).2) ++
          List.zipWith (· ^^^ ·) (stream msg.length (kpOf pub (nonce rd j)).1 (kpOf pub (nonce rd j)).2) msg) := by
  rcases encryt_spec rd pub msg with ⟨j, res, h1, h2, h3, h4⟩ | ⟨h1, h2⟩
  · rw [h] at h4
    rcases encTry_cases pub msg (nonce rd j) with ⟨e1, -⟩ | ⟨hm, hk, ⟨g1, g2, g3⟩ | ⟨-, g3⟩⟩
    · rw [e1] at h2; cases h2
    · rw [g3] at h2
      obtain rfl := Option.some.inj h2
      simp only [Res.ok.injEq, Prod.mk.injEq] at h4
      exact ⟨j, h1, h4.2, hm, g1, g2, hk, h4.1⟩
    · rw [g3] at h2
      obtain rfl := Option.some.inj h2
      cases h4
  · rw [h2] at h; cases h

/-- C17: for every key pair, message and random stream, if `Encryt` returns a ciphertext then
`Decryt` returns the message with a nil error (whatever the spare capacity of the slice holds). -/
theorem C17_decrypt_encrypt (rd : Reader) (priv : PrivateKey) (hkp : KeyPair priv) (msg ct tail : Bytes)
    (rd' : Reader) (h : encryt rd priv.pub msg = .ok (ct, rd')) :
    decryt priv ct tail = .ok ⟨some msg, none⟩ := by
  obtain ⟨j, h1, -, hm, hf, hg, hk, hct⟩ := encryt_ok h
  generalize nonce rd j = k at *
  have hkpos : c1Of k ≠ (0, 0) := by
    intro h0
    have := hf.1
    rw [h0] at this
    have : (0 : Nat) < 256 ^ 31 := by decide
    simp only at *
    omega
  have hc1lt := c1_lt k
  have hs3 := Sm3.sm3_length (toBytes (kpOf priv.pub k).1 ++ msg ++ toBytes (kpOf priv.pub k).2)
  -- the shared point is the same on both sides
  have hshare : scalarMult P (c1Of k) (toBytes priv.d) = kpOf priv.pub k := by
    have r1 := rep_mult (rep_base k) priv.d
    have r2 := rep_mult hkp k
    rw [← mul_smul] at r1 r2
    rw [mul_comm] at r2
    exact Rep.pt_eq r1 r2
  generalize hX : beBytes 32 (c1Of k).1 = X at *
  generalize hY : beBytes 32 (c1Of k).2 = Y at *
  generalize hH : Sm3Spec.sm3 (toBytes (kpOf priv.pub k).1 ++ msg ++ toBytes (kpOf priv.pub k).2) = H at *
  generalize hC : List.zipWith (· ^^^ ·) (stream msg.length (kpOf priv.pub k).1 (kpOf priv.pub k).2) msg = C at *
  have hXl : X.length = 32 := by rw [← hX]; simp
  have hYl : Y.length = 32 := by rw [← hY]; simp
  have hstr := stream_length_good hg (kpOf priv.pub k).1 (kpOf priv.pub k).2
  have hCl : C.length = msg.length := by rw [← hC, List.length_zipWith, hstr, Nat.min_self]
  have hctl : ct.length = 97 + msg.length := by
    rw [hct]; simp only [List.length_cons, List.length_append]; omega
  have hne : ct ≠ [] := by rw [hct]; simp
  have d1 : ct.drop 1 = X ++ Y ++ H ++ C := by rw [hct]; rfl
  have d65 : (ct.drop 65).take 32 = H := by
    rw [show (65 : Nat) = 1 + 64 by rfl, ← List.drop_drop, d1, List.append_assoc (X ++ Y),
      List.drop_left' (by rw [List.length_append]; omega), List.take_left' hs3]
  have d97 : ct.drop 97 = C := by
    rw [show (97 : Nat) = 1 + 96 by rfl, ← List.drop_drop, d1,
      List.drop_left' (by rw [List.length_append, List.length_append]; omega)]
  have hpt : ctPoint ct tail = c1Of k := by
    unfold ctPoint
    rw [d1]
    have e1 : (X ++ Y ++ H ++ C ++ tail).take 32 = X := by
      rw [List.append_assoc, List.append_assoc, List.append_assoc, List.take_left' hXl]
    have e2 : ((X ++ Y ++ H ++ C ++ tail).drop 32).take 32 = Y := by
      rw [List.append_assoc, List.append_assoc, List.append_assoc, List.drop_left' hXl, List.take_left' hYl]
    rw [e1, e2, ← hX, ← hY, ofBytes_beBytes_of_lt hc1lt.1, ofBytes_beBytes_of_lt hc1lt.2]
  have hon : isOnCurve P B (ctPoint ct tail) = true := by
    rw [hpt, isOnCurve_rep]
    refine ⟨_, ?_, rep_base k⟩
    intro h0
    exact hkpos ((Rep.zero_iff bF_ne (rep_base k)).mpr h0)
  have hmain := decryt_onCurve priv ct tail hne (by omega) hon (kpOf priv.pub k) (by rw [hpt, hshare])
  have hcast : (ct.length : Int) - 97 = (msg.length : Int) := by omega
  have hsub : ct.length - 97 = msg.length := by omega
  rw [hcast, hsub, d97, d65] at hmain
  have := (hmain.2 (by rw [hk]; simp)).2.1 hg
  rw [this, ← hC, xor_cancel _ _ hstr, hH, if_pos rfl]

/-! ## C18 -/

/-- C18, the part that holds: no panic for messages of at most 32 bytes or a multiple of 32 bytes
when every nonce point available in the stream has two full-size coordinates.  Missing: other
lengths and nonces, where the code does panic (`C18_panics`, `C18_fails`). -/
theorem C18_no_panic_partial (rd : Reader) (pub : PublicKey) (msg : Bytes)
    (hlen : msg.length ≤ 32 ∨ msg.length % 32 = 0)
    (hfull : ∀ j, 40 * (j + 1) ≤ rd.length → ∃ x y, coords (nonce rd j • Gp) = some (x, y) ∧
      256 ^ 31 ≤ x ∧ 256 ^ 31 ≤ y) :
    encryt rd pub msg ≠ .panic := by
  rcases encryt_spec rd pub msg with ⟨j, res, h1, h2, h3, h4⟩ | ⟨h1, h2⟩
  · rcases encTry_cases pub msg (nonce rd j) with ⟨e1, -⟩ | ⟨hm, hk, ⟨g1, g2, g3⟩ | ⟨g1, g3⟩⟩
    · rw [e1] at h2; cases h2
    · rw [g3] at h2
      obtain rfl := Option.some.inj h2
      rw [h4]; intro hh; cases hh
    · exfalso
      apply g1
      refine ⟨?_, hlen⟩
      obtain ⟨x, y, e1, e2, e3⟩ := hfull j h1
      rw [coords_rep (rep_base (nonce rd j))] at e1
      split at e1
      · cases e1
      · have := Option.some.inj e1
        unfold fullC1 c1Of
        rw [this]
        exact ⟨e2, e3⟩
  · rw [h2]; intro hh; cases hh

/-- C18 (exact): `Encryt` panics iff the first nonce with a non-zero key stream has a short
coordinate, or the message is longer than 32 bytes and not a multiple of 32. -/
theorem C18_panics_iff (rd : Reader) (pub : PublicKey) (msg : Bytes) :
    encryt rd pub msg = .panic ↔
      ∃ j, 40 * (j + 1) ≤ rd.length ∧
        (∀ l, l < j → kdf msg.length (kpOf pub (nonce rd l)).1 (kpOf pub (nonce rd l)).2 = none) ∧
        kdf msg.length (kpOf pub (nonce rd j)).1 (kpOf pub (nonce rd j)).2 ≠ none ∧
        ¬ (fullC1 (nonce rd j) ∧ (msg.length ≤ 32 ∨ msg.length % 32 = 0)) := by
  have conv : ∀ k, encTry pub msg k = none ↔ kdf msg.length (kpOf pub k).1 (kpOf pub k).2 = none := by
    intro k
    unfold encTry
    cases kdf msg.length (kpOf pub k).1 (kpOf pub k).2 <;> simp
  constructor
  · intro h
    rcases encryt_spec rd pub msg with ⟨j, res, h1, h2, h3, h4⟩ | ⟨h1, h2⟩
    · rw [h] at h4
      refine ⟨j, h1, fun l hl => (conv _).mp (h3 l hl), ?_, ?_⟩
      · rw [Ne, ← conv, h2]; simp
      · rcases encTry_cases pub msg (nonce rd j) with ⟨e1, -⟩ | ⟨hm, hk, ⟨g1, g2, g3⟩ | ⟨g1, g3⟩⟩
        · rw [e1] at h2; cases h2
        · rw [g3] at h2
          obtain rfl := Option.some.inj h2
          cases h4
        · exact g1
    · rw [h2] at h; cases h
  · rintro ⟨j, h1, h2, h3, h4⟩
    rcases encryt_spec rd pub msg with ⟨i, res, g1, g2, g3, g4⟩ | ⟨g1, g2⟩
    · have hij : i = j := by
        rcases Nat.lt_trichotomy i j with hlt | heq | hgt
        · have := (conv _).mpr (h2 i hlt); rw [this] at g2; cases g2
        · exact heq
        · exact absurd ((conv _).mp (g3 j hgt)) h3
      subst hij
      rcases encTry_cases pub msg (nonce rd i) with ⟨e1, e2⟩ | ⟨hm, hk, ⟨f1, f2, f3⟩ | ⟨f1, f3⟩⟩
      · exact absurd e2 h3
      · exact absurd ⟨f1, f2⟩ h4
      · rw [f3] at g2
        obtain rfl := Option.some.inj g2
        exact g4
    · exact absurd ((conv _).mp (g1 j h1)) h3

/-- C18: messages longer than 32 bytes whose length is not a multiple of 32 can never be encrypted:
no key and no random stream yields a ciphertext. -/
theorem C18_never_encrypts (rd : Reader) (pub : PublicKey) (msg : Bytes) (h1 : 32 < msg.length)
    (h2 : msg.length % 32 ≠ 0) : ∀ ct rd', encryt rd pub msg ≠ .ok (ct, rd') := by
  intro ct rd' h
  obtain ⟨j, -, -, -, -, hg, -⟩ := encryt_ok h
  rcases hg with hg | hg <;> omega

/-- C18: the empty message is never encrypted, `Encryt` reads the whole stream and returns its error. -/
theorem C18_empty (rd : Reader) (pub : PublicKey) :
    encryt rd pub [] = .err (if rd.length % 40 = 0 then "EOF" else "unexpected EOF") := by
  rcases encryt_spec rd pub [] with ⟨j, res, h1, h2, h3, h4⟩ | ⟨h1, h2⟩
  · rcases encTry_cases pub [] (nonce rd j) with ⟨e1, -⟩ | ⟨hm, -⟩
    · rw [e1] at h2; cases h2
    · exact absurd rfl hm
  · exact h2

/-- C18 is false for the code as it stands: a 33-byte message, and a one-byte message with the
nonce 107 (whose point has a 31-byte ordinate), make `Encryt` panic. -/
theorem C18_fails : encryt exRd exKey.pub (List.replicate 33 0x61) = .panic ∧
    encryt (beBytes 40 106) exKey.pub [0x61] = .panic := by
  constructor
  · decide +kernel
  · decide +kernel

/-! ## C19, C20, C22 -/

/-- C19: a nil error means that C3 is SM3(x2 ‖ m ‖ y2) for the returned m, (x2,y2) = [D]C1, with C1
the curve point in the ciphertext (x2, y2 in minimal-length big-endian form). -/
theorem C19_authentic (priv : PrivateKey) (data tail m : Bytes)
    (h : decryt priv data tail = .ok ⟨some m, none⟩) :
    ∃ C1 : EP, ∃ S : Pt, Rep bF (ctPoint data tail) C1 ∧ C1 ≠ 0 ∧ Rep bF S (priv.d • C1) ∧
      98 ≤ data.length ∧ m.length = data.length - 97 ∧
      (data.drop 65).take 32 = Sm3Spec.sm3 (toBytes S.1 ++ m ++ toBytes S.2) := by
  by_cases h0 : data = []
  · subst h0; rw [decryt_nil] at h; cases h
  by_cases hl : 64 ≤ data.length - 1 + tail.length
  · cases hc : isOnCurve P B (ctPoint data tail) with
    | false => rw [decryt_offCurve priv data tail h0 hl hc] at h; cases h
    | true =>
      obtain ⟨C1, hC, hR⟩ := (isOnCurve_rep _).mp hc
      refine ⟨C1, _, hR, hC, rep_mult hR priv.d, ?_⟩
      have hmain := decryt_onCurve priv data tail h0 hl hc _ rfl
      generalize scalarMult P (ctPoint data tail) (toBytes priv.d) = S at *
      by_cases hk : kdf ((data.length : Int) - 97) S.1 S.2 = none
      · rw [hmain.1 hk] at h; cases h
      · obtain ⟨g1, g2, g3⟩ := hmain.2 hk
        by_cases hg : goodLen (data.length - 97)
        · rw [g2 hg] at h
          simp only [Res.ok.injEq, DecOut.mk.injEq, Option.some.injEq] at h
          obtain ⟨rfl, h2⟩ := h
          split at h2
          · rename_i h3
            refine ⟨g1, ?_, h3.symm⟩
            rw [List.length_zipWith, stream_length_good hg, List.length_drop, Nat.min_self]
          · cases h2
        · rw [g3 hg] at h; cases h
  · rw [decryt_short priv data tail h0 (by omega)] at h; cases h

/-- C19: every error other than the C3 mismatch comes without plaintext. -/
theorem C19_errors_partial (priv : PrivateKey) (data tail : Bytes) (out : DecOut)
    (h : decryt priv data tail = .ok out) (he : out.err ≠ none)
    (hne : out.err ≠ some "failed to decrypt:hash compared error") : out.pt = none := by
  by_cases h0 : data = []
  · subst h0; rw [decryt_nil] at h; cases h
  by_cases hl : 64 ≤ data.length - 1 + tail.length
  · cases hc : isOnCurve P B (ctPoint data tail) with
    | false =>
      rw [decryt_offCurve priv data tail h0 hl hc] at h
      rw [← Res.ok.inj h]
    | true =>
      have hmain := decryt_onCurve priv data tail h0 hl hc _ rfl
      generalize scalarMult P (ctPoint data tail) (toBytes priv.d) = S at *
      by_cases hk : kdf ((data.length : Int) - 97) S.1 S.2 = none
      · rw [hmain.1 hk] at h
        rw [← Res.ok.inj h]
      · obtain ⟨g1, g2, g3⟩ := hmain.2 hk
        by_cases hg : goodLen (data.length - 97)
        · rw [g2 hg] at h
          have := Res.ok.inj h
          rw [← this] at he hne
          simp only at he hne
          split at he
          · exact absurd rfl he
          · rename_i hh
            rw [if_neg hh] at hne
            exact absurd rfl hne
        · rw [g3 hg] at h; cases h
  · rw [decryt_short priv data tail h0 (by omega)] at h; cases h

/-- A ciphertext for D = 1: C1 = G, C3 all zero, C2 one byte. -/
def forged : Bytes := 0x04 :: (beBytes 32 G.1 ++ beBytes 32 G.2 ++ List.replicate 32 0 ++ [0x61])

/-- C19 is false for the code as it stands: the unauthenticated plaintext is returned together with
the error when the C3 check fails. -/
theorem C19_fails : ∃ (priv : PrivateKey) (data m : Bytes), KeyPair priv ∧ m ≠ [] ∧
    decryt priv data [] = .ok ⟨some m, some "failed to decrypt:hash compared error"⟩ :=
  ⟨privOne, forged, [0xa6], keyPair_one, by decide, by decide +kernel⟩

/-- C20 (exact): `Decryt` panics iff the input is empty, or C1 does not fit in the slice's capacity,
or C1 is on the curve, the key stream is non-zero and C2 is longer than 32 bytes and not a multiple
of 32. -/
theorem C20_panics_iff (priv : PrivateKey) (data tail : Bytes) :
    decryt priv data tail = .panic ↔
      data = [] ∨ data.length - 1 + tail.length < 64 ∨
      (isOnCurve P B (ctPoint data tail) = true ∧
        kdf ((data.length : Int) - 97) (scalarMult P (ctPoint data tail) (toBytes priv.d)).1
          (scalarMult P (ctPoint data tail) (toBytes priv.d)).2 ≠ none ∧
        32 < data.length - 97 ∧ (data.length - 97) % 32 ≠ 0) := by
  by_cases h0 : data = []
  · subst h0; simp [decryt_nil]
  by_cases hl : data.length - 1 + tail.length < 64
  · rw [decryt_short priv data tail h0 hl]; simp [hl]
  · have hl' : 64 ≤ data.length - 1 + tail.length := by omega
    simp only [h0, hl, false_or]
    cases hc : isOnCurve P B (ctPoint data tail) with
    | false => rw [decryt_offCurve priv data tail h0 hl' hc]; simp
    | true =>
      have hmain := decryt_onCurve priv data tail h0 hl' hc _ rfl
      generalize scalarMult P (ctPoint data tail) (toBytes priv.d) = S at *
      by_cases hk : kdf ((data.length : Int) - 97) S.1 S.2 = none
      · rw [hmain.1 hk]; simp [hk]
      · obtain ⟨g1, g2, g3⟩ := hmain.2 hk
        by_cases hg : goodLen (data.length - 97)
        · rw [g2 hg]
          constructor
          · intro hh; cases hh
          · rintro ⟨-, -, h3, h4⟩
            rcases hg with hg | hg <;> omega
        · rw [g3 hg]
          simp only [true_and, true_iff]
          unfold goodLen at hg
          exact ⟨hk, by omega, by omega⟩

/-- C20, the part that holds: no panic on inputs of at least 65 bytes whose C2 part has at most 32
bytes or a multiple of 32 bytes. Missing: the inputs of `C20_fails`. -/
theorem C20_no_panic_partial (priv : PrivateKey) (data tail : Bytes) (h : 65 ≤ data.length)
    (h2 : data.length - 97 ≤ 32 ∨ (data.length - 97) % 32 = 0) : decryt priv data tail ≠ .panic := by
  rw [Ne, C20_panics_iff]
  rintro (h3 | h3 | ⟨-, -, h3, h4⟩)
  · subst h3; simp at h
  · omega
  · omega

/-- C20 is false for the code as it stands: the empty input, a one-byte input, and a ciphertext with
a 33-byte C2 make `Decryt` panic, for a valid key. -/
theorem C20_fails : decryt privOne [] [] = .panic ∧ decryt privOne [0x04] [] = .panic ∧
    decryt privOne (forged ++ List.replicate 32 0) [] = .panic := by
  decide +kernel

/-- C22: C1 out of range or off the curve is rejected with the same answer for every private key,
so no private-key operation influences the result. -/
theorem C22_off_curve (priv : PrivateKey) (data tail : Bytes) (h : 65 ≤ data.length)
    (hbad : ∀ Q : EP, Q ≠ 0 →
      coords Q ≠ some (ofBytes ((data.drop 1).take 32), ofBytes ((data.drop 33).take 32))) :
    decryt priv data tail = .ok ⟨none, some "C1 is not on the curve"⟩ := by
  have h0 : data ≠ [] := by rintro rfl; simp at h
  apply decryt_offCurve priv data tail h0 (by omega)
  by_contra hc
  have hc : isOnCurve P B (ctPoint data tail) = true := by simpa using hc
  obtain ⟨Q, hQ, hR⟩ := (isOnCurve_rep _).mp hc
  apply hbad Q hQ
  rw [coords_rep hR, if_neg (onCurve_ne hc)]
  unfold ctPoint
  rw [List.take_append_of_le_length (by rw [List.length_drop]; omega),
    List.drop_append_of_le_length (by rw [List.length_drop]; omega),
    List.take_append_of_le_length (by rw [List.length_drop, List.length_drop]; omega), List.drop_drop]

/-- C22, conversely: a C1 on the curve is never reported as off the curve. -/
theorem C22_on_curve (priv : PrivateKey) (data tail : Bytes) (h : 65 ≤ data.length) (Q : EP)
    (hQ : coords Q = some (ofBytes ((data.drop 1).take 32), ofBytes ((data.drop 33).take 32))) :
    decryt priv data tail ≠ .ok ⟨none, some "C1 is not on the curve"⟩ := by
  have h0 : data ≠ [] := by rintro rfl; simp at h
  have hct : ctPoint data tail = (ofBytes ((data.drop 1).take 32), ofBytes ((data.drop 33).take 32)) := by
    unfold ctPoint
    rw [List.take_append_of_le_length (by rw [List.length_drop]; omega),
      List.drop_append_of_le_length (by rw [List.length_drop]; omega),
      List.take_append_of_le_length (by rw [List.length_drop, List.length_drop]; omega), List.drop_drop]
  have hc : isOnCurve P B (ctPoint data tail) = true := by
    rw [hct, isOnCurve_rep]
    rcases Q with _ | ⟨x, y, hn⟩
    · cases hQ
    · have := Option.some.inj hQ
      rw [← this]
      refine ⟨_, WeierstrassCurve.Affine.Point.some_ne_zero hn, ?_⟩
      have hn' : (E P bF).Nonsingular ((x.val : ℕ) : ZMod P) ((y.val : ℕ) : ZMod P) := by
        rw [ZMod.natCast_zmod_val, ZMod.natCast_zmod_val]; exact hn
      have := Rep.some (b := bF) x.val y.val (ZMod.val_lt x) (ZMod.val_lt y) hn'
      simpa using this
  have hmain := decryt_onCurve priv data tail h0 (by omega) hc _ rfl
  generalize scalarMult P (ctPoint data tail) (toBytes priv.d) = S at *
  by_cases hk : kdf ((data.length : Int) - 97) S.1 S.2 = none
  · rw [hmain.1 hk]; decide
  · obtain ⟨g1, g2, g3⟩ := hmain.2 hk
    by_cases hg : goodLen (data.length - 97)
    · rw [g2 hg]; simp
    · rw [g3 hg]; intro hh; cases hh

/-! ## C21 -/

/-- C21, the part that holds: for 1 to 32 bytes the key stream is the standard's (an all-zero
stream being refused). Missing: longer messages, see `C21_fails`. -/
theorem C21_kdf_partial (klen x y : Nat) (h1 : 1 ≤ klen) (h2 : klen ≤ 32) (hx : x < 256 ^ 32)
    (hy : y < 256 ^ 32) :
    Sm2.kdf klen x y = if (Sm2Spec.kdf klen x y).any (fun b => b != 0) then some (Sm2Spec.kdf klen x y) else none := by
  have e : stream klen x y = Sm2Spec.kdf klen x y := by
    unfold stream Sm2Spec.kdf
    have hn : (klen + 31) / 32 = 1 := by omega
    rw [hn, appendBigInt_eq hx, appendBigInt_eq hy]
    simp only [rawStream, List.append_nil, List.nil_append]
    have hr : (List.range 1).flatMap (fun i => kdfBlock x y (i + 1)) = kdfBlock x y 1 := by
      simp [List.range_succ]
    rw [hr]
    unfold kdfBlock kw
    by_cases h0 : klen % 32 ≠ 0
    · rw [if_pos h0]
      congr 1
      omega
    · rw [if_neg h0, show klen = 32 by omega]
  rw [kdf_eq, e]

/-- C21 (exact): what the code computes for any length: never-reset hash, every block cut to the
last block's length; refused when all zero. -/
theorem C21_kdf_actual (klen x y : Nat) (hx : x < 256 ^ 32) (hy : y < 256 ^ 32) :
    let w := if klen % 32 ≠ 0 then klen % 32 else 32
    let out := rawStream w (beBytes 32 x ++ beBytes 32 y) ((klen + 31) / 32) [] 1
    Sm2.kdf klen x y = if out.any (fun b => b != 0) then some out else none := by
  intro w out
  have : stream klen x y = out := by
    unfold stream
    rw [appendBigInt_eq hx, appendBigInt_eq hy]
    rfl
  rw [kdf_eq, this]

/-- C21: the output length is right only for at most 32 bytes or multiples of 32. -/
theorem C21_length (klen x y : Nat) (out : Bytes) (h : Sm2.kdf klen x y = some out) :
    out.length = klen ↔ klen ≤ 32 ∨ klen % 32 = 0 := by
  rw [kdf_eq] at h
  split at h
  · obtain rfl := Option.some.inj h
    constructor
    · intro hl
      by_contra hb
      have := stream_length_bad hb x y
      omega
    · exact fun hg => stream_length_good hg x y
  · cases h

/-- C21 is false for the code as it stands: for 64 bytes the second block differs from the
standard's. -/
theorem C21_fails : ∃ klen x y : Nat, x < P ∧ y < P ∧ Sm2.kdf klen x y ≠ some (Sm2Spec.kdf klen x y) ∧
    (Sm2Spec.kdf klen x y).any (fun b => b != 0) = true := by
  refine ⟨64, 1, 1, by decide +kernel, by decide +kernel, ?_, ?_⟩
  · intro h
    rw [C21_kdf_actual 64 1 1 (by decide) (by decide)] at h
    simp only [Sm2Spec.kdf, kdfBlock, ← Sm3.sum_eq, rawStream] at h
    revert h
    decide +kernel
  · simp only [Sm2Spec.kdf, kdfBlock, ← Sm3.sum_eq]
    decide +kernel

/-! ## C23 -/

theorem genCandidate_eq (rd : Bytes) (h : 32 ≤ rd.length) : ofBytes (genCandidate (rd.take 32)) = keyCand rd 0 := by
  unfold keyCand
  rcases rd with _ | ⟨a, _ | ⟨b, t⟩⟩
  · simp at h
  · simp at h
  · have e : a &&& 0xff = a := by
      have key : ∀ b : BitVec 8, b &&& 0xff#8 = b := by decide +kernel
      exact UInt8.toBitVec_inj.mp (key a.toBitVec)
    simp [genCandidate, e]

theorem keyCand_drop (rd : Bytes) (i j : Nat) : keyCand (rd.drop (32 * j)) i = keyCand rd (j + i) := by
  unfold keyCand
  rw [List.drop_drop, show 32 * j + 32 * i = 32 * (j + i) by omega]

theorem genCandidate_bytes (rd : Bytes) (h : 32 ≤ rd.length) :
    baseMult (genCandidate (rd.take 32)) = baseMult (toBytes (keyCand rd 0)) := by
  have r1 := rep_baseMult (genCandidate (rd.take 32))
  rw [genCandidate_eq rd h] at r1
  exact Rep.pt_eq r1 (rep_base _)

/-- C23 (functional): the key is the first 32-byte candidate below N, with public key [D]G and the
stream advanced past it; without such a candidate the reader's error is returned. Never a panic. -/
theorem C23_generateKey (rd : Reader) :
    (∃ j key, 32 * (j + 1) ≤ rd.length ∧ generateKey rd = .ok (key, rd.drop (32 * (j + 1))) ∧
      key.d = keyCand rd j ∧ key.d < N ∧ (∀ l, l < j → N ≤ keyCand rd l) ∧
      KeyPair key ∧ key.pub.curve = .sm2p256v1) ∨
    ((∀ j, 32 * (j + 1) ≤ rd.length → N ≤ keyCand rd j) ∧
      generateKey rd = .err (if rd.length % 32 = 0 then "EOF" else "unexpected EOF")) := by
  generalize hn : rd.length = n
  induction n using Nat.strongRecOn generalizing rd with
  | _ n ih =>
    subst hn
    by_cases h : 32 ≤ rd.length
    · have hrf : readFull 32 rd = .ok (rd.take 32, rd.drop 32) := by unfold readFull; rw [if_pos h]
      by_cases hc : N ≤ keyCand rd 0
      · have hstep : generateKey rd = generateKey (rd.drop 32) := by
          unfold generateKey
          rw [genLoop]
          split
          · rename_i b rd' hh
            split at hh
            · rename_i b2 rd2 hr
              rw [hrf] at hr
              simp only [Res.ok.injEq, Prod.mk.injEq] at hr
              obtain ⟨rfl, rfl⟩ := hr
              simp only [genCandidate_eq rd h, ge_iff_le, hc, if_true] at hh
              rw [hh]
            · cases hh
            · cases hh
          · rename_i e hh
            split at hh
            · rename_i b2 rd2 hr
              rw [hrf] at hr
              simp only [Res.ok.injEq, Prod.mk.injEq] at hr
              obtain ⟨rfl, rfl⟩ := hr
              simp only [genCandidate_eq rd h, ge_iff_le, hc, if_true] at hh
              rw [hh]
            · rename_i e2 hr; rw [hrf] at hr; cases hr
            · cases hh
          · rename_i hh
            split at hh
            · rename_i b2 rd2 hr
              rw [hrf] at hr
              simp only [Res.ok.injEq, Prod.mk.injEq] at hr
              obtain ⟨rfl, rfl⟩ := hr
              simp only [genCandidate_eq rd h, ge_iff_le, hc, if_true] at hh
              rw [hh]
            · cases hh
            · rename_i hr; rw [hrf] at hr; cases hr
        have hlen : (rd.drop 32).length = rd.length - 32 := by simp
        have nd : ∀ i, keyCand (rd.drop 32) i = keyCand rd (i + 1) := by
          intro i; have := keyCand_drop rd i 1; rw [Nat.mul_one] at this; rw [this, Nat.add_comm]
        rcases ih _ (by omega) (rd.drop 32) hlen with ⟨j, key, h1, h2, h3, h4, h5, h6⟩ | ⟨h1, h2⟩
        · left
          refine ⟨j + 1, key, by omega, ?_, by rw [h3, nd], h4, ?_, h6⟩
          · rw [hstep, h2, List.drop_drop, show 32 + 32 * (j + 1) = 32 * (j + 1 + 1) by omega]
          · intro l hl
            cases l with
            | zero => exact hc
            | succ l => rw [← nd]; exact h5 l (by omega)
        · right
          refine ⟨?_, ?_⟩
          · intro j hj
            cases j with
            | zero => exact hc
            | succ j => rw [← nd]; exact h1 j (by omega)
          · rw [hstep, h2, show (rd.length - 32) % 32 = rd.length % 32 by omega]
      · left
        refine ⟨0, ⟨⟨.sm2p256v1, (baseMult (genCandidate (rd.take 32))).1, (baseMult (genCandidate (rd.take 32))).2⟩,
          ofBytes (genCandidate (rd.take 32))⟩, by omega, ?_, genCandidate_eq rd h, ?_,
          fun l hl => absurd hl (by omega), ?_, rfl⟩
        · have hl : genLoop rd = .ok (genCandidate (rd.take 32), rd.drop 32) := by
            rw [genLoop]
            split
            · rename_i b2 rd2 hr
              rw [hrf] at hr
              simp only [Res.ok.injEq, Prod.mk.injEq] at hr
              obtain ⟨rfl, rfl⟩ := hr
              simp only [genCandidate_eq rd h, ge_iff_le, hc, if_false]
            · rename_i e2 hr; rw [hrf] at hr; cases hr
            · rename_i hr; rw [hrf] at hr; cases hr
          unfold generateKey
          rw [hl]
        · simp only [genCandidate_eq rd h]; omega
        · unfold KeyPair Represents
          exact rep_baseMult _
    · right
      refine ⟨fun j hj => absurd hj (by omega), ?_⟩
      have hrf : readFull 32 rd = .err (if rd.length % 32 = 0 then "EOF" else "unexpected EOF") := by
        unfold readFull
        rw [if_neg h]
        by_cases h0 : rd.length = 0
        · rw [if_pos h0, if_pos (by omega)]
        · rw [if_neg h0, if_neg (by omega)]
      have hl : genLoop rd = .err (if rd.length % 32 = 0 then "EOF" else "unexpected EOF") := by
        rw [genLoop]
        split
        · rename_i hr; rw [hrf] at hr; cases hr
        · rename_i e2 hr; rw [hrf] at hr; rw [Res.err.inj hr]
        · rename_i hr; rw [hrf] at hr; cases hr
      unfold generateKey
      rw [hl]

/-- C23, the part that holds: every generated key has D < N and public key [D]G; unless D is 0 or
N-1 it is a usable key in [1, N-2] whose public key is on the curve. Missing: D = 0 and D = N-1 are
not excluded, see `C23_fails`. -/
theorem C23_valid_partial (rd rd' : Reader) (key : PrivateKey) (h : generateKey rd = .ok (key, rd')) :
    KeyPair key ∧ key.d < N ∧ (key.d ≠ 0 → isOnCurve P B (key.pub.x, key.pub.y) = true) := by
  rcases C23_generateKey rd with ⟨j, key', h1, h2, h3, h4, h5, h6, h7⟩ | ⟨-, h2⟩
  · rw [h2] at h
    simp only [Res.ok.injEq, Prod.mk.injEq] at h
    obtain ⟨rfl, -⟩ := h
    refine ⟨h6, h4, fun h0 => ?_⟩
    rw [isOnCurve_rep]
    refine ⟨_, ?_, h6⟩
    rw [Ne, nsmul_Gp_eq_zero_iff]
    intro hd
    have := Nat.le_of_dvd (by omega) hd
    omega
  · rw [h2] at h; cases h

/-- C23 is false for the code as it stands: a stream makes `GenerateKey` return D = 0 with the
public key (0,0), which is not on the curve; another one makes it return D = N-1, a key whose every
signing attempt with a usable nonce panics. -/
theorem C23_fails :
    generateKey (0 :: 0x42 :: List.replicate 30 0) = .ok (⟨⟨.sm2p256v1, 0, 0⟩, 0⟩, []) ∧
    isOnCurve P B (0, 0) = false ∧
    (∃ rd key rd', generateKey rd = .ok (key, rd') ∧ key.d = N - 1 ∧
      ∀ rd2 digest j, 40 * (j + 1) ≤ rd2.length → goodNonce (ofBytes digest) (nonce rd2 j) →
        signDigestRS rd2 key digest = .panic) := by
  refine ⟨by decide +kernel, by decide +kernel, ?_⟩
  have hc : keyCand (genCandidate (beBytes 32 (N - 1))) 0 = N - 1 := by decide +kernel
  have hl : (genCandidate (beBytes 32 (N - 1))).length = 32 := by decide +kernel
  rcases C23_generateKey (genCandidate (beBytes 32 (N - 1))) with ⟨j, key, h1, h2, h3, h4, h5, h6, h7⟩ | ⟨h1, h2⟩
  · have : j = 0 := by omega
    subst this
    rw [hc] at h3
    refine ⟨_, key, _, h2, h3, ?_⟩
    intro rd2 digest j hj hg
    rw [C13_panics_iff]
    refine ⟨?_, j, hj, hg⟩
    rw [h3, Nat.sub_add_cancel (Nat.le_of_lt one_lt_N), Nat.mod_self]
  · have := h1 0 (by omega)
    rw [hc] at this
    have := one_lt_N
    omega

/-- C23: every D in [1, N-1] and 0 is attainable. -/
theorem C23_surjective (d : Nat) (hd : d < N) : ∃ rd key rd', generateKey rd = .ok (key, rd') ∧ key.d = d := by
  rcases hb : beBytes 32 d with _ | ⟨a, _ | ⟨b, t⟩⟩
  · have := congrArg List.length hb; simp at this
  · have := congrArg List.length hb; simp at this
  · have hlen := congrArg List.length hb
    simp only [beBytes_length, List.length_cons] at hlen
    have hx : b ^^^ 0x42 ^^^ 0x42 = b := by
      rw [UInt8.xor_assoc, UInt8.xor_self, UInt8.xor_zero]
    have hc : keyCand (a :: (b ^^^ 0x42) :: t) 0 = d := by
      unfold keyCand
      rw [Nat.mul_zero, List.drop_zero, List.take_of_length_le (by simp only [List.length_cons]; omega)]
      have : List.take 1 (a :: (b ^^^ 0x42) :: t) ++ [(a :: (b ^^^ 0x42) :: t).getD 1 0 ^^^ 0x42] ++
          List.drop 2 (a :: (b ^^^ 0x42) :: t) = beBytes 32 d := by
        rw [hb]; simp [hx]
      simp only
      rw [this, ofBytes_beBytes_of_lt (Nat.lt_trans hd N_lt)]
    rcases C23_generateKey (a :: (b ^^^ 0x42) :: t) with ⟨j, key, h1, h2, h3, h4, h5, h6, h7⟩ | ⟨h1, h2⟩
    · have : j = 0 := by simp only [List.length_cons] at h1; omega
      subst this
      exact ⟨_, key, _, h2, by rw [h3, hc]⟩
    · have := h1 0 (by simp only [List.length_cons]; omega)
      omega

/-! ## C24 -/

/-- C24: public key equality is equality of curve and coordinates, and false for other types. -/
theorem C24_public (k : PublicKey) (x : AnyKey) :
    k.equal x = true ↔ ∃ k' : PublicKey, x = .sm2pub k' ∧ k.curve = k'.curve ∧ k.x = k'.x ∧ k.y = k'.y := by
  cases x with
  | sm2pub k' => simp [PublicKey.equal]; tauto
  | sm2priv k' => simp [PublicKey.equal]
  | otherType n => simp [PublicKey.equal]

/-- C24: private key equality is equality of the public part and of D, and false for other types. -/
theorem C24_private (k : PrivateKey) (x : AnyKey) :
    k.equal x = true ↔ ∃ k' : PrivateKey, x = .sm2priv k' ∧ k.d = k'.d ∧
      k.pub.curve = k'.pub.curve ∧ k.pub.x = k'.pub.x ∧ k.pub.y = k'.pub.y := by
  cases x with
  | sm2pub k' => simp [PrivateKey.equal]
  | sm2priv k' => simp [PrivateKey.equal, PublicKey.equal]; tauto
  | otherType n => simp [PrivateKey.equal]

/-- C24: reflexive, symmetric, transitive. -/
theorem C24_equivalence (a b c : PublicKey) (p q r : PrivateKey) :
    a.equal (.sm2pub a) = true ∧ (a.equal (.sm2pub b) = b.equal (.sm2pub a)) ∧
    (a.equal (.sm2pub b) = true → b.equal (.sm2pub c) = true → a.equal (.sm2pub c) = true) ∧
    p.equal (.sm2priv p) = true ∧ (p.equal (.sm2priv q) = q.equal (.sm2priv p)) ∧
    (p.equal (.sm2priv q) = true → q.equal (.sm2priv r) = true → p.equal (.sm2priv r) = true) ∧
    p.public = .sm2pub p.pub := by
  refine ⟨by simp [PublicKey.equal], ?_, ?_, by simp [PrivateKey.equal, PublicKey.equal], ?_, ?_, rfl⟩
  · simp only [PublicKey.equal, eq_comm]
  · simp only [PublicKey.equal, Bool.and_eq_true, decide_eq_true_eq]
    rintro ⟨⟨h1, h2⟩, h3⟩ ⟨⟨h4, h5⟩, h6⟩
    exact ⟨⟨h1.trans h4, h2.trans h5⟩, h3.trans h6⟩
  · simp only [PrivateKey.equal, PublicKey.equal, eq_comm]
  · simp only [PrivateKey.equal, PublicKey.equal, Bool.and_eq_true, decide_eq_true_eq]
    rintro ⟨⟨⟨h1, h2⟩, h3⟩, h7⟩ ⟨⟨⟨h4, h5⟩, h6⟩, h8⟩
    exact ⟨⟨⟨h1.trans h4, h2.trans h5⟩, h3.trans h6⟩, h7.trans h8⟩

/-! ## Non-vacuity -/

/-- C17: an encryption that succeeds, and the decryption the theorem gives. -/
theorem ex_encrypts : ∃ ct rd', encryt exRd exKey.pub [0x61, 0x62, 0x63] = .ok (ct, rd') := by
  have h : (encryt exRd exKey.pub [0x61, 0x62, 0x63]).isOk = true := by decide +kernel
  cases he : encryt exRd exKey.pub [0x61, 0x62, 0x63] with
  | ok p => exact ⟨p.1, p.2, rfl⟩
  | err e => rw [he] at h; cases h
  | panic => rw [he] at h; cases h

example : ∃ ct, decryt exKey ct [] = .ok ⟨some [0x61, 0x62, 0x63], none⟩ :=
  let ⟨ct, rd', h⟩ := ex_encrypts
  ⟨ct, C17_decrypt_encrypt exRd exKey exKey_keyPair _ ct [] rd' h⟩

/-- C22: (1, 1) is not a point of the curve. -/
example : decryt exKey (0x04 :: (beBytes 32 1 ++ beBytes 32 1)) [] =
    .ok ⟨none, some "C1 is not on the curve"⟩ :=
  decryt_offCurve _ _ _ (by simp) (by decide +kernel) (by decide +kernel)

example : PublicKey.equal exKey.pub (.sm2pub exKey.pub) = true ∧
    PublicKey.equal exKey.pub (.sm2pub privOne.pub) = false ∧
    PublicKey.equal exKey.pub (.otherType 0) = false := by decide +kernel

end MCrypto.Sm2
