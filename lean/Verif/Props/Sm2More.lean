import Verif.Props.Sm2Enc
/-
C106: the digest of an SM2 message signature binds user id, key and message.
C107: the curve operations stay on the curve; with point checks in crypto/elliptic (Go 1.19 and later) nothing changes for
keys on the curve.
C108: SM2 encryption against GB/T 32918.4.
(sm2/sm2.go; model Verif/Sm2/Model.lean.)
-/
namespace MCrypto.Sm2
open MCrypto MCrypto.Curve MCrypto.Sm2Spec

/-! ## C106 -/

/-- GB/T 32918.2, 5.5: the octets that are hashed to Z. -/
def zInput (uid : Bytes) (x y : Nat) : Bytes :=
  beBytes 2 (8 * uid.length) ++ uid ++ beBytes 32 A ++ beBytes 32 B ++
    beBytes 32 G.1 ++ beBytes 32 G.2 ++ beBytes 32 x ++ beBytes 32 y

/-- The user id that takes part: the default one in place of an empty one. -/
def effectiveUid (uid : Bytes) : Bytes :=
  if uid = [] then (List.map UInt8.ofNat [49, 50, 51, 52, 53, 54, 55, 56, 49, 50, 51, 52, 53, 54, 55, 56]) else uid

theorem zInput_inj {u₁ u₂ : Bytes} {x₁ x₂ y₁ y₂ : Nat} (hx₁ : x₁ < 256 ^ 32) (hx₂ : x₂ < 256 ^ 32) (hy₁ : y₁ < 256 ^ 32)
    (hy₂ : y₂ < 256 ^ 32) (h : zInput u₁ x₁ y₁ = zInput u₂ x₂ y₂) : u₁ = u₂ ∧ x₁ = x₂ ∧ y₁ = y₂ := by
  have hl := congrArg List.length h
  unfold zInput at h hl
  simp only [List.length_append, beBytes_length] at hl
  simp only [List.append_assoc] at h
  obtain ⟨-, h⟩ := List.append_inj h (by simp)
  obtain ⟨hu, h⟩ := List.append_inj h (by omega)
  obtain ⟨-, h⟩ := List.append_inj h (by simp)
  obtain ⟨-, h⟩ := List.append_inj h (by simp)
  obtain ⟨-, h⟩ := List.append_inj h (by simp)
  obtain ⟨-, h⟩ := List.append_inj h (by simp)
  obtain ⟨h1, h2⟩ := List.append_inj h (by simp)
  refine ⟨hu, ?_, ?_⟩
  · have := congrArg ofBytes h1
    rwa [ofBytes_beBytes_of_lt hx₁, ofBytes_beBytes_of_lt hx₂] at this
  · have := congrArg ofBytes h2
    rwa [ofBytes_beBytes_of_lt hy₁, ofBytes_beBytes_of_lt hy₂] at this

/-- **C106** Two message digests are equal only if user id (the default standing for the empty one), key and message are
equal, or if one of two explicitly given pairs of different octet strings has the same SM3 value. -/
theorem C106_digest_binds (p₁ p₂ : PublicKey) (m₁ m₂ u₁ u₂ : Bytes)
    (h₁ : p₁.x < 256 ^ 32 ∧ p₁.y < 256 ^ 32) (h₂ : p₂.x < 256 ^ 32 ∧ p₂.y < 256 ^ 32)
    (h : p₁.sm3Digest m₁ u₁ = p₂.sm3Digest m₂ u₂) :
    let a₁ := zInput (effectiveUid u₁) p₁.x p₁.y
    let a₂ := zInput (effectiveUid u₂) p₂.x p₂.y
    let b₁ := Sm3Spec.sm3 a₁ ++ m₁
    let b₂ := Sm3Spec.sm3 a₂ ++ m₂
    (effectiveUid u₁ = effectiveUid u₂ ∧ p₁.x = p₂.x ∧ p₁.y = p₂.y ∧ m₁ = m₂) ∨
    (a₁ ≠ a₂ ∧ Sm3Spec.sm3 a₁ = Sm3Spec.sm3 a₂) ∨ (b₁ ≠ b₂ ∧ Sm3Spec.sm3 b₁ = Sm3Spec.sm3 b₂) := by
  intro a₁ a₂ b₁ b₂
  rw [C14_digest p₁ h₁.1 h₁.2, C14_digest p₂ h₂.1 h₂.2] at h
  have hb : Sm3Spec.sm3 b₁ = Sm3Spec.sm3 b₂ := h
  by_cases hbb : b₁ = b₂
  swap
  · exact Or.inr (Or.inr ⟨hbb, hb⟩)
  obtain ⟨hz, hm⟩ := List.append_inj hbb (by rw [Sm3.sm3_length, Sm3.sm3_length])
  by_cases haa : a₁ = a₂
  · obtain ⟨e1, e2, e3⟩ := zInput_inj h₁.1 h₂.1 h₁.2 h₂.2 haa
    exact Or.inl ⟨e1, e2, e3, hm⟩
  · exact Or.inr (Or.inl ⟨haa, hz⟩)

/-- **C106** The converse: equal user ids (up to the default), keys and messages give equal digests. -/
theorem C106_digest_fun (p₁ p₂ : PublicKey) (m u₁ u₂ : Bytes) (h₁ : p₁.x < 256 ^ 32 ∧ p₁.y < 256 ^ 32)
    (hu : effectiveUid u₁ = effectiveUid u₂) (hx : p₁.x = p₂.x) (hy : p₁.y = p₂.y) :
    p₁.sm3Digest m u₁ = p₂.sm3Digest m u₂ := by
  unfold effectiveUid at hu
  rw [C14_digest p₁ h₁.1 h₁.2, C14_digest p₂ (hx ▸ h₁.1) (hy ▸ h₁.2), hx, hy, hu]

/-- **C106** One signature, one key: whatever key it is, the digests for which a pair (r, s) is accepted agree modulo N. -/
theorem C106_one_digest (pub : PublicKey) (d₁ d₂ : Bytes) (r s : Int) (h₁ : verifyDigestRS pub d₁ r s = true)
    (h₂ : verifyDigestRS pub d₂ r s = true) : ofBytes d₁ % N = ofBytes d₂ % N := by
  unfold verifyDigestRS at h₁ h₂
  by_cases hr : r < 1 ∨ r ≥ (N : Int)
  · rw [if_pos hr] at h₁; cases h₁
  rw [if_neg hr] at h₁ h₂
  by_cases hs : s < 1 ∨ s ≥ (N : Int)
  · rw [if_pos hs] at h₁; cases h₁
  rw [if_neg hs] at h₁ h₂
  simp only at h₁ h₂
  by_cases ht : (r + s) % (N : Int) = 0
  · rw [if_pos ht] at h₁; cases h₁
  rw [if_neg ht] at h₁ h₂
  generalize add P (baseMult (toBytes s.natAbs)) (scalarMult P (pub.x, pub.y) (toBytes ((r + s) % (N : Int)).natAbs)) = q at h₁ h₂
  by_cases hq : q.1 = 0 ∨ q.2 = 0
  · rw [if_pos hq] at h₁; cases h₁
  rw [if_neg hq] at h₁ h₂
  have e1 := of_decide_eq_true h₁
  have e2 := of_decide_eq_true h₂
  have e : (q.1 + ofBytes d₁) % N = (q.1 + ofBytes d₂) % N := by exact_mod_cast e1.trans e2.symm
  exact Nat.ModEq.add_left_cancel' (n := N) q.1 e

/-- **C106** For messages: a signature that `Verify` accepts under one key for two messages (or user ids) has digests that
agree modulo N. -/
theorem C106_one_message (pub : PublicKey) (m₁ m₂ u₁ u₂ sig : Bytes) (h₁ : verify pub m₁ u₁ sig = true)
    (h₂ : verify pub m₂ u₂ sig = true) :
    ofBytes (pub.sm3Digest m₁ u₁) % N = ofBytes (pub.sm3Digest m₂ u₂) % N := by
  have hc := fun m u => (C15_compose pub ⟨pub, 0⟩ [] m u sig 0 0).2.1
  rw [hc] at h₁ h₂
  unfold verifyDigest at h₁ h₂
  cases hu : unmarshalSign sig with
  | ok v =>
    obtain ⟨r, s⟩ := v
    rw [hu] at h₁ h₂
    exact C106_one_digest pub _ _ r s h₁ h₂
  | err e => rw [hu] at h₁; cases h₁
  | panic => rw [hu] at h₁; cases h₁

/-! ## C107 -/

/-- A point that crypto/elliptic of Go 1.19 and later takes: on the curve, or (0, 0) for infinity. -/
def OnOrInf (q : Pt) : Prop := isOnCurve P B q = true ∨ q = (0, 0)

theorem onOrInf_iff (q : Pt) : OnOrInf q ↔ ∃ Q : EP, Rep bF q Q := by
  unfold OnOrInf
  rw [isOnCurve_rep]
  constructor
  · rintro (⟨Q, -, h⟩ | rfl)
    · exact ⟨Q, h⟩
    · exact ⟨0, Rep.zero⟩
  · rintro ⟨Q, h⟩
    by_cases hQ : Q = 0
    · exact Or.inr ((Rep.zero_iff bF_ne h).mpr hQ)
    · exact Or.inl ⟨Q, hQ, h⟩

/-- **C107** Multiples and sums of points on the curve (or infinity) are on the curve or infinity. -/
theorem C107_closed (q r : Pt) (hq : OnOrInf q) (hr : OnOrInf r) (k : Bytes) :
    OnOrInf (scalarMult P q k) ∧ OnOrInf (baseMult k) ∧ OnOrInf (add P q r) := by
  obtain ⟨Q, hQ⟩ := (onOrInf_iff q).mp hq
  obtain ⟨R, hR⟩ := (onOrInf_iff r).mp hr
  exact ⟨(onOrInf_iff _).mpr ⟨_, rep_scalarMult two_lt_P bF_ne hQ k⟩, (onOrInf_iff _).mpr ⟨_, rep_baseMult k⟩,
    (onOrInf_iff _).mpr ⟨_, rep_add two_lt_P bF_ne hQ hR⟩⟩

/-- The check of crypto/elliptic since Go 1.19 (`panicIfNotOnCurve`): operations on other points panic. -/
def pointOk (q : Pt) : Bool := isOnCurve P B q || q == (0, 0)

/-- sm2.go:359-383 with the checks of crypto/elliptic since Go 1.19 before each multiplication and addition. -/
def verifyDigestRSChecked (pub : PublicKey) (digest : Bytes) (r s : Int) : Res Bool :=
  if r < 1 ∨ r ≥ (N : Int) then .ok false
  else if s < 1 ∨ s ≥ (N : Int) then .ok false
  else
    let e := ofBytes digest
    let t := (r + s) % (N : Int)
    if t = 0 then .ok false
    else if pointOk G = false then .panic
    else
      let p1 := baseMult (toBytes s.natAbs)
      if pointOk (pub.x, pub.y) = false then .panic
      else
        let p2 := scalarMult P (pub.x, pub.y) (toBytes t.natAbs)
        if pointOk p1 = false ∨ pointOk p2 = false then .panic
        else
          let q := add P p1 p2
          if q.1 = 0 ∨ q.2 = 0 then .ok false
          else .ok (decide ((((q.1 + e) % N : Nat) : Int) = r))

theorem pointOk_iff (q : Pt) : pointOk q = true ↔ OnOrInf q := by
  unfold pointOk OnOrInf
  simp

/-- **C107** For a key on the curve (or infinity) the checks change nothing; for any other key verification panics exactly
when r, s and t are in range. -/
theorem C107_verify (pub : PublicKey) (digest : Bytes) (r s : Int) :
    (OnOrInf (pub.x, pub.y) → verifyDigestRSChecked pub digest r s = .ok (verifyDigestRS pub digest r s)) ∧
    (¬ OnOrInf (pub.x, pub.y) → (verifyDigestRSChecked pub digest r s = .panic ↔
      (1 ≤ r ∧ r ≤ N - 1) ∧ (1 ≤ s ∧ s ≤ N - 1) ∧ (r + s) % N ≠ 0)) := by
  have hG : pointOk G = true := (pointOk_iff G).mpr (Or.inl G_onCurve)
  constructor
  · intro hp
    have h1 : pointOk (pub.x, pub.y) = true := (pointOk_iff _).mpr hp
    have h2 := fun k => (pointOk_iff _).mpr (C107_closed _ _ hp hp k).1
    have h3 := fun k => (pointOk_iff _).mpr (C107_closed _ _ hp hp k).2.1
    unfold verifyDigestRSChecked verifyDigestRS
    simp only [hG, h1, h2, h3, Bool.true_eq_false, if_false, or_self]
    repeat' split
    all_goals rfl
  · intro hp
    have h1 : pointOk (pub.x, pub.y) = false := by
      rw [← Bool.not_eq_true, pointOk_iff]; exact hp
    unfold verifyDigestRSChecked
    simp only [hG, h1, Bool.true_eq_false, if_false, if_true]
    split
    · simp only [reduceCtorEq, false_iff]; omega
    split
    · simp only [reduceCtorEq, false_iff]; omega
    split
    · rename_i h; simp [h]
    · rename_i h; simp only [true_iff]; exact ⟨by omega, by omega, h⟩

/-- sm2.go:385-417 with the checks of crypto/elliptic since Go 1.19 before each multiplication. -/
def encrytChecked (rd : Reader) (pub : PublicKey) (msg : Bytes) : Res (Bytes × Reader) :=
  match h : nextk rd with
  | .ok (k, rd') =>
    have : rd'.length < rd.length := nextk_lt h
    let kBytes := toBytes k
    if pointOk G = false then .panic
    else
      let c1 := baseMult kBytes
      let c := toBytes c1.1 ++ toBytes c1.2
      if pointOk (pub.x, pub.y) = false then .panic
      else
        let kp := scalarMult P (pub.x, pub.y) kBytes
        let c3 := toBytes kp.1 ++ msg ++ toBytes kp.2
        let c := c ++ Sm3.sum c3
        match kdf msg.length kp.1 kp.2 with
        | none => encrytChecked rd' pub msg
        | some t =>
          match xorInto (c ++ t) 96 msg with
          | .ok c => .ok (0x04 :: c, rd')
          | .err e => .err e
          | .panic => .panic
  | .err e => .err e
  | .panic => .panic
termination_by rd.length

/-- **C107** `Encryt`: for a key on the curve (or infinity) the checks change nothing; for any other key it panics as soon as the
40 octets for the random number have been read, whatever the message. -/
theorem C107_encryt (rd : Reader) (pub : PublicKey) (msg : Bytes) :
    (OnOrInf (pub.x, pub.y) → encrytChecked rd pub msg = encryt rd pub msg) ∧
    (¬ OnOrInf (pub.x, pub.y) → (encrytChecked rd pub msg = .panic ↔ 40 ≤ rd.length) ∧
      ∀ r, encrytChecked rd pub msg ≠ .ok r) := by
  have hG : pointOk G = true := (pointOk_iff G).mpr (Or.inl G_onCurve)
  constructor
  · intro hp
    have h1 : pointOk (pub.x, pub.y) = true := (pointOk_iff _).mpr hp
    suffices ∀ n, ∀ rd : Reader, rd.length = n → encrytChecked rd pub msg = encryt rd pub msg from this _ rd rfl
    intro n
    induction n using Nat.strong_induction_on with
    | _ n ih =>
      intro rd hn
      rw [encrytChecked, encryt]
      simp only [hG, h1, Bool.true_eq_false, if_false]
      split
      · rename_i k rd' hk
        have hlt := nextk_lt hk
        have he := ih _ (by omega) rd' rfl
        rw [he]
        symm
        split
        · rename_i k2 rd2 hk2
          rw [hk] at hk2
          obtain ⟨rfl, rfl⟩ := (Prod.mk.injEq ..).mp (Res.ok.inj hk2)
          rfl
        · rename_i e hk2; rw [hk] at hk2; cases hk2
        · rename_i hk2; rw [hk] at hk2; cases hk2
      · rename_i e hk
        split
        · rename_i hk2; rw [hk] at hk2; cases hk2
        · rename_i hk2; rw [hk] at hk2; rw [Res.err.inj hk2]
        · rename_i hk2; rw [hk] at hk2; cases hk2
      · rename_i hk
        split
        · rename_i hk2; rw [hk] at hk2; cases hk2
        · rename_i hk2; rw [hk] at hk2; cases hk2
        · rfl
  · intro hp
    have h1 : pointOk (pub.x, pub.y) = false := by
      rw [← Bool.not_eq_true, pointOk_iff]; exact hp
    rw [encrytChecked]
    simp only [hG, h1, Bool.true_eq_false, if_false, if_true]
    by_cases hl : 40 ≤ rd.length
    · have hk := nextk_ok hl
      split
      · simp [hl]
      · rename_i hk2; rw [hk] at hk2; cases hk2
      · simp [hl]
    · have hk := nextk_err (rd := rd) (by omega)
      split
      · rename_i hk2; rw [hk] at hk2; cases hk2
      · simp [hl]
      · rename_i hk2; rw [hk] at hk2; cases hk2

/-! ## C108 -/

/-- GB/T 32918.4, 6.1: `ct` is the ciphertext C1 ‖ C3 ‖ C2 of `msg` for the public key `Q` with the random number `k`. -/
def Ciphertext (Q : EP) (k : Nat) (msg ct : Bytes) : Prop :=
  ∃ x1 y1 x2 y2, coords (k • Gp) = some (x1, y1) ∧ coords (k • Q) = some (x2, y2) ∧
    ct = 0x04 :: (beBytes 32 x1 ++ beBytes 32 y1 ++ Sm3Spec.sm3 (beBytes 32 x2 ++ msg ++ beBytes 32 y2) ++
      List.zipWith (· ^^^ ·) (Sm2Spec.kdf msg.length x2 y2) msg)

/-- Both coordinates of the shared point have 32 significant octets. -/
def FullShared (Q : EP) (k : Nat) : Prop := ∃ x2 y2, coords (k • Q) = some (x2, y2) ∧ 256 ^ 31 ≤ x2 ∧ 256 ^ 31 ≤ y2

theorem stream_eq_kdf (klen x y : Nat) (h1 : 1 ≤ klen) (h2 : klen ≤ 32) (hx : x < 256 ^ 32) (hy : y < 256 ^ 32) :
    stream klen x y = Sm2Spec.kdf klen x y := by
  unfold stream Sm2Spec.kdf
  have hn : (klen + 31) / 32 = 1 := by omega
  rw [hn, appendBigInt_eq hx, appendBigInt_eq hy]
  simp only [rawStream, List.append_nil, List.nil_append]
  have hr : (List.range 1).flatMap (fun i => kdfBlock x y (i + 1)) = kdfBlock x y 1 := by
    simp [List.range_succ]
  rw [hr]
  have hl : (kdfBlock x y 1).length = 32 := Sm3.sm3_length _
  unfold kdfBlock at hl ⊢
  unfold kw
  split
  · rename_i hm
    rw [show klen % 32 = klen by omega]
  · rename_i hm
    rw [show klen = 32 by omega]

theorem toBytes_full {x : Nat} (h : x < 256 ^ 32) (h' : 256 ^ 31 ≤ x) : toBytes x = beBytes 32 x := by
  apply toBytes_eq_beBytes
  have h1 := byteLen_le_iff x 31
  have h2 := byteLen_le_iff x 32
  omega

/-- Unless both numbers have 32 significant octets the two readings of x ‖ m ‖ y have different lengths. -/
theorem short_ne {x y : Nat} (hx : x < 256 ^ 32) (hy : y < 256 ^ 32) (h : ¬ (256 ^ 31 ≤ x ∧ 256 ^ 31 ≤ y)) (m : Bytes) :
    toBytes x ++ m ++ toBytes y ≠ beBytes 32 x ++ m ++ beBytes 32 y := by
  intro e
  have hl := congrArg List.length e
  simp only [List.length_append, beBytes_length, toBytes_length] at hl
  have h1 := byteLen_le_iff x 31
  have h2 := byteLen_le_iff x 32
  have h3 := byteLen_le_iff y 31
  have h4 := byteLen_le_iff y 32
  omega

theorem coords_lt {Q : EP} {x y : Nat} (h : coords Q = some (x, y)) : x < 256 ^ 32 ∧ y < 256 ^ 32 := by
  obtain ⟨k, -, rfl⟩ := exists_dlog Q
  have hr := rep_base k
  rw [coords_rep hr] at h
  have hl := c1_lt k
  unfold c1Of at hl
  split at h
  · cases h
  · have e := Option.some.inj h
    rw [e] at hl
    exact hl

theorem kpOf_coords {pub : PublicKey} {Q : EP} (hQ : Represents pub Q) {k x y : Nat} (h : coords (k • Q) = some (x, y)) :
    kpOf pub k = (x, y) := by
  have hr := rep_mult hQ k
  rw [coords_rep hr] at h
  split at h
  · cases h
  · exact Option.some.inj h

/-- **C108** For messages of at most 32 octets `Encryt` gives the ciphertext of GB/T 32918.4 for one of its nonces, provided
the shared point has coordinates without a leading zero octet. If it has not, the result is a ciphertext in the sense of the
standard only if two different octet strings have the same SM3 value. -/
theorem C108_encrypt (rd rd' : Reader) (pub : PublicKey) (Q : EP) (hQ : Represents pub Q) (msg ct : Bytes)
    (h : encryt rd pub msg = .ok (ct, rd')) (hl : msg.length ≤ 32) (hQ0 : Q ≠ 0) :
    ∃ j x2 y2, rd' = rd.drop (40 * (j + 1)) ∧ coords (nonce rd j • Q) = some (x2, y2) ∧
      (256 ^ 31 ≤ x2 ∧ 256 ^ 31 ≤ y2 → Ciphertext Q (nonce rd j) msg ct) ∧
      (¬ (256 ^ 31 ≤ x2 ∧ 256 ^ 31 ≤ y2) → Ciphertext Q (nonce rd j) msg ct →
        toBytes x2 ++ msg ++ toBytes y2 ≠ beBytes 32 x2 ++ msg ++ beBytes 32 y2 ∧
        Sm3Spec.sm3 (toBytes x2 ++ msg ++ toBytes y2) = Sm3Spec.sm3 (beBytes 32 x2 ++ msg ++ beBytes 32 y2)) := by
  obtain ⟨j, h1, h2, hm, hf, hg, hk, hct⟩ := encryt_ok h
  have hm1 : 1 ≤ msg.length := List.length_pos_iff.mpr hm
  obtain ⟨hk1, hk2⟩ := nonce_range rd j
  generalize hkn : nonce rd j = k at *
  have hkQ : k • Q ≠ 0 := by
    obtain ⟨d, hd, rfl⟩ := exists_dlog Q
    rw [← mul_smul, Ne, nsmul_Gp_eq_zero_iff]
    intro hdv
    rcases (N_prime.dvd_mul).mp hdv with h | h
    · have := Nat.le_of_dvd (by omega) h
      have := N_pos
      omega
    · exact hQ0 ((nsmul_Gp_eq_zero_iff d).mpr h)
  have hr2 := rep_mult hQ k
  have hc2 := coords_rep hr2
  rw [if_neg (fun e => hkQ ((Rep.zero_iff bF_ne hr2).mp e))] at hc2
  have hr1 := rep_base k
  have hc1 := coords_rep hr1
  have hc10 : c1Of k ≠ (0, 0) := by
    intro h0
    have := hf.1
    rw [h0] at this
    have : (0 : Nat) < 256 ^ 31 := by decide
    simp only at *
    omega
  rw [if_neg (show ¬ baseMult (toBytes k) = (0, 0) from hc10)] at hc1
  change coords (k • Q) = some (kpOf pub k) at hc2
  change coords (k • Gp) = some (c1Of k) at hc1
  obtain ⟨hx, hy⟩ := coords_lt (x := (kpOf pub k).1) (y := (kpOf pub k).2) hc2
  have hs := stream_eq_kdf msg.length (kpOf pub k).1 (kpOf pub k).2 hm1 hl hx hy
  refine ⟨j, (kpOf pub k).1, (kpOf pub k).2, h2, ?_⟩
  rw [hkn]
  refine ⟨hc2, ?_, ?_⟩
  · rintro ⟨f1, f2⟩
    refine ⟨(c1Of k).1, (c1Of k).2, (kpOf pub k).1, (kpOf pub k).2, hc1, hc2, ?_⟩
    rw [hct, toBytes_full hx f1, toBytes_full hy f2, hs]
  · rintro hn ⟨x1, y1, x2, y2, g1, g2, g3⟩
    refine ⟨short_ne hx hy hn msg, ?_⟩
    rw [hc1] at g1
    rw [hc2] at g2
    have e1 := Option.some.inj g1
    have e2 := Option.some.inj g2
    rw [hct, e1, e2] at g3
    rw [e2]
    have g4 := (List.cons.inj g3).2
    have g5 := (List.append_inj g4 (by simp [Sm3.sm3_length])).1
    exact (List.append_inj g5 (by simp)).2

/-- **C108** `Decryt` on a ciphertext of GB/T 32918.4 of 1 to 32 octets whose key stream is not all zero: the message is
returned; the error is nil if the shared point has coordinates without a leading zero octet, and otherwise an error is
returned unless two different octet strings have the same SM3 value. -/
theorem C108_decrypt (priv : PrivateKey) (k : Nat) (msg ct tail : Bytes)
    (h : Ciphertext (priv.d • Gp) k msg ct) (h1 : 1 ≤ msg.length) (h2 : msg.length ≤ 32)
    (hz : ∀ x2 y2, coords (k • priv.d • Gp) = some (x2, y2) → (Sm2Spec.kdf msg.length x2 y2).any (fun b => b != 0) = true) :
    ∃ x2 y2, coords (k • priv.d • Gp) = some (x2, y2) ∧
      (256 ^ 31 ≤ x2 ∧ 256 ^ 31 ≤ y2 → decryt priv ct tail = .ok ⟨some msg, none⟩) ∧
      (¬ (256 ^ 31 ≤ x2 ∧ 256 ^ 31 ≤ y2) →
        decryt priv ct tail = .ok ⟨some msg, some "failed to decrypt:hash compared error"⟩ ∨
        (toBytes x2 ++ msg ++ toBytes y2 ≠ beBytes 32 x2 ++ msg ++ beBytes 32 y2 ∧
         Sm3Spec.sm3 (toBytes x2 ++ msg ++ toBytes y2) = Sm3Spec.sm3 (beBytes 32 x2 ++ msg ++ beBytes 32 y2))) := by
  obtain ⟨x1, y1, x2, y2, hc1, hc2, hct⟩ := h
  have hz := hz x2 y2 hc2
  obtain ⟨hx1, hy1⟩ := coords_lt hc1
  obtain ⟨hx, hy⟩ := coords_lt hc2
  have hs := stream_eq_kdf msg.length x2 y2 h1 h2 hx hy
  have hg : goodLen msg.length := Or.inl h2
  have hb1 : baseMult (toBytes k) = (x1, y1) := by
    have hr := rep_base k
    rw [coords_rep hr] at hc1
    split at hc1
    · cases hc1
    · exact Option.some.inj hc1
  have hrep1 : Rep bF (x1, y1) (k • Gp) := hb1 ▸ rep_base k
  have hk0 : k • Gp ≠ 0 := by
    intro h0
    rw [h0] at hc1
    cases hc1
  have hshare : scalarMult P (x1, y1) (toBytes priv.d) = (x2, y2) := by
    have r1 := rep_mult hrep1 priv.d
    rw [smul_comm] at r1
    rw [coords_rep r1] at hc2
    split at hc2
    · cases hc2
    · exact Option.some.inj hc2
  have hH := Sm3.sm3_length (beBytes 32 x2 ++ msg ++ beBytes 32 y2)
  have hstr := stream_length_good hg x2 y2
  rw [← hs] at hct
  generalize hHe : Sm3Spec.sm3 (beBytes 32 x2 ++ msg ++ beBytes 32 y2) = H at *
  generalize hC : List.zipWith (· ^^^ ·) (stream msg.length x2 y2) msg = C at *
  have hCl : C.length = msg.length := by rw [← hC, List.length_zipWith, hstr, Nat.min_self]
  have hctl : ct.length = 97 + msg.length := by
    rw [hct]; simp only [List.length_cons, List.length_append, beBytes_length]; omega
  have hne : ct ≠ [] := by rw [hct]; simp
  have d1 : ct.drop 1 = beBytes 32 x1 ++ beBytes 32 y1 ++ H ++ C := by rw [hct]; rfl
  have d65 : (ct.drop 65).take 32 = H := by
    rw [show (65 : Nat) = 1 + 64 by rfl, ← List.drop_drop, d1, List.append_assoc (_ ++ _),
      List.drop_left' (by simp), List.take_left' hH]
  have d97 : ct.drop 97 = C := by
    rw [show (97 : Nat) = 1 + 96 by rfl, ← List.drop_drop, d1,
      List.drop_left' (by rw [List.length_append, hH]; simp)]
  have hpt : ctPoint ct tail = (x1, y1) := by
    unfold ctPoint
    rw [d1]
    have e1 : (beBytes 32 x1 ++ beBytes 32 y1 ++ H ++ C ++ tail).take 32 = beBytes 32 x1 := by
      rw [List.append_assoc, List.append_assoc, List.append_assoc, List.take_left' (by simp)]
    have e2 : ((beBytes 32 x1 ++ beBytes 32 y1 ++ H ++ C ++ tail).drop 32).take 32 = beBytes 32 y1 := by
      rw [List.append_assoc, List.append_assoc, List.append_assoc, List.drop_left' (by simp), List.take_left' (by simp)]
    rw [e1, e2, ofBytes_beBytes_of_lt hx1, ofBytes_beBytes_of_lt hy1]
  have hon : isOnCurve P B (ctPoint ct tail) = true := by
    rw [hpt, isOnCurve_rep]
    exact ⟨_, hk0, hrep1⟩
  have hmain := decryt_onCurve priv ct tail hne (by omega) hon (x2, y2) (by rw [hpt, hshare])
  have hcast : (ct.length : Int) - 97 = (msg.length : Int) := by omega
  have hsub : ct.length - 97 = msg.length := by omega
  rw [hcast, hsub, d97, d65] at hmain
  have hkn : kdf (msg.length : Int) x2 y2 ≠ none := by
    rw [kdf_eq, hs, if_pos hz]
    simp
  have hdec := (hmain.2 hkn).2.1 hg
  rw [← hC, xor_cancel _ _ hstr] at hdec
  refine ⟨x2, y2, hc2, ?_, ?_⟩
  · rintro ⟨f1, f2⟩
    rw [hdec, if_pos]
    show Sm3Spec.sm3 (toBytes x2 ++ msg ++ toBytes y2) = H
    rw [toBytes_full hx f1, toBytes_full hy f2, hHe]
  · intro hn
    by_cases he : Sm3Spec.sm3 (toBytes x2 ++ msg ++ toBytes y2) = H
    · exact Or.inr ⟨short_ne hx hy hn msg, he.trans hHe.symm⟩
    · exact Or.inl (by rw [hdec, if_neg he])

/-- **C108** The first octet of a ciphertext (04 in the standard) is never looked at. -/
theorem C108_first_octet (priv : PrivateKey) (b b' : UInt8) (data tail : Bytes) :
    decryt priv (b :: data) tail = decryt priv (b' :: data) tail := rfl

/-! ## The hypotheses are met -/

/-- Two user ids with the same digest: none and the default one. -/
example : exKey.pub.sm3Digest [1, 2, 3] [] = exKey.pub.sm3Digest [1, 2, 3] (effectiveUid []) :=
  C106_digest_fun exKey.pub exKey.pub [1, 2, 3] [] (effectiveUid []) (by decide +kernel) (by decide) rfl rfl

/-- A key on the curve and one that is not. -/
example : OnOrInf (exKey.pub.x, exKey.pub.y) ∧ ¬ OnOrInf (1, 1) :=
  ⟨Or.inl (by decide +kernel), by rw [← pointOk_iff]; decide +kernel⟩

/-- A ciphertext in the sense of the standard that `Decryt` takes. -/
example : ∃ ct, Ciphertext (exKey.d • Gp) 1 [0x61, 0x62] ct ∧ decryt exKey ct [] = .ok ⟨some [0x61, 0x62], none⟩ := by
  have hc1 : coords ((1 : Nat) • Gp) = some (G.1, G.2) := by
    rw [one_smul, coords_rep rep_G, if_neg (by decide +kernel)]
  have hc2 : coords ((1 : Nat) • exKey.d • Gp) = some (exKey.pub.x, exKey.pub.y) := by
    rw [one_smul, coords_rep exKey_keyPair, if_neg (by decide +kernel)]
  refine ⟨_, ⟨_, _, _, _, hc1, hc2, rfl⟩, ?_⟩
  obtain ⟨x2, y2, g, hd, -⟩ := C108_decrypt exKey 1 [0x61, 0x62] _ [] ⟨_, _, _, _, hc1, hc2, rfl⟩ (by decide) (by decide) (by
    intro x2 y2 g
    rw [hc2] at g
    obtain ⟨rfl, rfl⟩ := Prod.mk.inj (Option.some.inj g)
    simp only [Sm2Spec.kdf, kdfBlock, ← Sm3.sum_eq]
    decide +kernel)
  apply hd
  rw [hc2] at g
  obtain ⟨rfl, rfl⟩ := Prod.mk.inj (Option.some.inj g)
  decide +kernel

end MCrypto.Sm2
