import Verif.Der.Model
/-
DER: reading inverts writing, and what is read has exactly one encoding.
-/
namespace MCrypto.Der
open MCrypto

theorem u8_and80 (b : UInt8) : b &&& 0x80 = 0 ↔ b.toNat < 128 := by
  have key : ∀ b : BitVec 8, b &&& 0x80#8 = 0#8 ↔ b.toNat < 128 := by decide +kernel
  have := key b.toBitVec
  rw [← UInt8.toNat_toBitVec, ← this, ← UInt8.toBitVec_inj]
  rfl

theorem u8_and80' (b : UInt8) : b &&& 0x80 = 0x80 ↔ 128 ≤ b.toNat := by
  have key : ∀ b : BitVec 8, b &&& 0x80#8 = 0x80#8 ↔ 128 ≤ b.toNat := by decide +kernel
  have := key b.toBitVec
  rw [← UInt8.toNat_toBitVec, ← this, ← UInt8.toBitVec_inj]
  rfl

theorem u8_and7f (b : UInt8) : (b &&& 0x7f).toNat = b.toNat % 128 := by
  have key : ∀ b : BitVec 8, (b &&& 0x7f#8).toNat = b.toNat % 128 := by decide +kernel
  exact key b.toBitVec

theorem u8_not (b : UInt8) : (~~~b).toNat = 255 - b.toNat := by
  have key : ∀ b : BitVec 8, (~~~b).toNat = 255 - b.toNat := by decide +kernel
  exact key b.toBitVec

theorem u8_xor_ff (b : UInt8) : b ^^^ 0xff = ~~~b := by
  have key : ∀ b : BitVec 8, b ^^^ 0xff#8 = ~~~b := by decide +kernel
  exact UInt8.toBitVec_inj.mp (key b.toBitVec)

theorem u8_not_not (b : UInt8) : ~~~(~~~b) = b := by
  have key : ∀ b : BitVec 8, ~~~(~~~b) = b := by decide +kernel
  exact UInt8.toBitVec_inj.mp (key b.toBitVec)

theorem u8_ofNat_toNat {n : Nat} (h : n < 256) : (UInt8.ofNat n).toNat = n := by
  rw [UInt8.toNat_ofNat']; omega

theorem u8_eq_iff (a b : UInt8) : a = b ↔ a.toNat = b.toNat := UInt8.toNat_inj.symm

/-- A byte string without leading zero is the minimal representation of its value. -/
theorem toBytes_ofBytes_cons (c : UInt8) (t : Bytes) (hc : c ≠ 0) :
    toBytes (ofBytes (c :: t)) = c :: t := by
  have hc' : 1 ≤ c.toNat := by
    rcases Nat.eq_zero_or_pos c.toNat with h | h
    · exact absurd (UInt8.toNat_inj.mp h) hc
    · exact h
  have hv : 256 ^ t.length ≤ ofBytes (c :: t) := by
    rw [ofBytes_cons]
    exact Nat.le_trans (Nat.le_mul_of_pos_left _ hc') (Nat.le_add_right _ _)
  have hl : byteLen (ofBytes (c :: t)) = (c :: t).length := by
    apply Nat.le_antisymm
    · exact (byteLen_le_iff _ _).mpr (ofBytes_lt _)
    · apply Nat.le_of_not_lt
      intro h
      have := (byteLen_le_iff _ _).mp (show byteLen (ofBytes (c :: t)) ≤ t.length by simp at h; omega)
      omega
  rw [toBytes, hl, beBytes_ofBytes]

theorem toBytes_cons_ne {n : Nat} {c : UInt8} {t : Bytes} (h : toBytes n = c :: t) : c ≠ 0 := by
  intro hc
  subst hc
  have h1 : n = ofBytes t := by
    rw [← ofBytes_toBytes n, h, ofBytes_cons]; simp
  have h2 : n < 256 ^ t.length := h1 ▸ ofBytes_lt t
  have h3 := (byteLen_le_iff _ _).mpr h2
  have h4 : byteLen n = t.length + 1 := by rw [← toBytes_length, h]; simp
  omega

/-! ### Integers -/

/-- Contents octets of a non-negative integer. -/
def encNat (m : Nat) : Bytes :=
  match toBytes m with
  | [] => [0]
  | c :: t => if 128 ≤ c.toNat then 0 :: c :: t else c :: t

theorem toBytes_eq_nil {m : Nat} : toBytes m = [] ↔ m = 0 := by
  constructor
  · intro h; rw [← ofBytes_toBytes m, h]; rfl
  · rintro rfl; simp

theorem encInt_nonneg (m : Nat) : encInt (m : Int) = encNat m := by
  unfold encInt encNat
  rw [if_neg (by omega)]
  rcases Nat.eq_zero_or_pos m with rfl | hm
  · simp
  · rw [if_neg (by omega), Int.toNat_natCast]
    rcases h : toBytes m with _ | ⟨c, t⟩
    · exact absurd (toBytes_eq_nil.mp h) (by omega)
    · have e : ((c :: t).headD 0 &&& 0x80 ≠ 0) ↔ 128 ≤ c.toNat := by
        rw [List.headD_cons, ne_eq, u8_and80]; omega
      by_cases hc : 128 ≤ c.toNat
      · simp only [hc, if_true]
        split
        · rfl
        · rename_i h0; exact absurd (e.mpr hc) h0
      · simp only [hc, if_false]
        split
        · rename_i h0; exact absurd (e.mp h0) hc
        · rfl

theorem encInt_neg (m : Nat) : encInt (-(m : Int) - 1) = (encNat m).map (fun x => ~~~x) := by
  unfold encInt encNat
  rw [if_pos (by omega), show (-(-(m : Int) - 1) - 1).toNat = m by omega]
  have hx : (fun x : UInt8 => x ^^^ 0xff) = fun x => ~~~x := funext u8_xor_ff
  rw [hx]
  rcases h : toBytes m with _ | ⟨c, t⟩
  · simp; rfl
  · simp only [List.map_cons, List.length_cons, List.headD_cons, u8_and80, u8_not]
    by_cases hc : 128 ≤ c.toNat
    · rw [if_pos hc, if_pos (Or.inr (by omega))]; rfl
    · rw [if_neg hc, if_neg (by omega)]; rfl

theorem int_cases (n : Int) : (∃ m : Nat, n = m) ∨ ∃ m : Nat, n = -(m : Int) - 1 := by
  rcases Int.lt_or_le n 0 with h | h
  · exact Or.inr ⟨(-n - 1).toNat, by omega⟩
  · exact Or.inl ⟨n.toNat, by omega⟩

theorem encNat_shape (m : Nat) : ∃ c t, encNat m = c :: t ∧ c.toNat < 128 ∧ ofBytes (c :: t) = m ∧
    checkInt (c :: t) = true := by
  unfold encNat
  rcases h : toBytes m with _ | ⟨c, t⟩
  · refine ⟨0, [], rfl, by decide, ?_, rfl⟩
    rw [toBytes_eq_nil.mp h]; rfl
  · have hv : ofBytes (c :: t) = m := by rw [← h, ofBytes_toBytes]
    by_cases hc : 128 ≤ c.toNat
    · refine ⟨0, c :: t, if_pos hc, by decide, by rw [ofBytes_cons, hv]; simp, ?_⟩
      simp only [checkInt, Bool.not_eq_true', Bool.or_eq_false_iff, Bool.and_eq_false_iff]
      refine ⟨Or.inr ?_, Or.inl rfl⟩
      rw [beq_eq_false_iff_ne, ne_eq, u8_and80]; omega
    · refine ⟨c, t, if_neg hc, by omega, hv, ?_⟩
      have hc0 := toBytes_cons_ne h
      cases t with
      | nil => rfl
      | cons d t =>
        simp only [checkInt, Bool.not_eq_true', Bool.or_eq_false_iff, Bool.and_eq_false_iff]
        refine ⟨Or.inl (beq_eq_false_iff_ne.mpr hc0), Or.inl (beq_eq_false_iff_ne.mpr ?_)⟩
        rintro rfl
        exact hc (by decide)

/-- Complementing all octets preserves minimality. -/
theorem checkInt_not (b : Bytes) : checkInt (b.map fun x => ~~~x) = checkInt b := by
  have e0 : ∀ x : UInt8, ((~~~x) == (0 : UInt8)) = (x == 0xff) := by
    intro x
    rw [Bool.eq_iff_iff, beq_iff_eq, beq_iff_eq]
    constructor
    · intro h; rw [← u8_not_not x, h]; rfl
    · rintro rfl; rfl
  have ef : ∀ x : UInt8, ((~~~x) == (0xff : UInt8)) = (x == 0) := by
    intro x
    rw [Bool.eq_iff_iff, beq_iff_eq, beq_iff_eq]
    constructor
    · intro h; rw [← u8_not_not x, h]; rfl
    · rintro rfl; rfl
  have e1 : ∀ x : UInt8, ((~~~x) &&& 0x80 == (0 : UInt8)) = (x &&& 0x80 == 0x80) := by
    intro x
    rw [Bool.eq_iff_iff, beq_iff_eq, beq_iff_eq, u8_and80, u8_and80', u8_not]
    have := x.toNat_lt; omega
  have e2 : ∀ x : UInt8, ((~~~x) &&& 0x80 == (0x80 : UInt8)) = (x &&& 0x80 == 0) := by
    intro x
    rw [Bool.eq_iff_iff, beq_iff_eq, beq_iff_eq, u8_and80, u8_and80', u8_not]
    have := x.toNat_lt; omega
  match b with
  | [] => rfl
  | [_] => rfl
  | x :: y :: t =>
    simp only [List.map_cons, checkInt, e0, ef, e1, e2]
    rw [Bool.or_comm]

theorem map_not_not (b : Bytes) : (b.map fun x => ~~~x).map (fun x => ~~~x) = b := by
  rw [List.map_map]
  have : ((fun x : UInt8 => ~~~x) ∘ fun x => ~~~x) = id := funext u8_not_not
  rw [this, List.map_id]

theorem decInt_encInt (n : Int) : decInt (encInt n) = some n := by
  rcases int_cases n with ⟨m, rfl⟩ | ⟨m, rfl⟩
  · obtain ⟨c, t, h1, h2, h3, h4⟩ := encNat_shape m
    rw [encInt_nonneg, h1, decInt, if_pos h4, if_neg, h3]
    simp only [List.headD_cons, u8_and80']; omega
  · obtain ⟨c, t, h1, h2, h3, h4⟩ := encNat_shape m
    rw [encInt_neg, h1, decInt, checkInt_not, if_pos h4, if_pos, map_not_not, h3]
    · congr 1; omega
    · simp only [List.map_cons, List.headD_cons, u8_and80', u8_not]; omega

theorem encNat_ofBytes {c : UInt8} {t : Bytes} (h : checkInt (c :: t) = true) (hc : c.toNat < 128) :
    encNat (ofBytes (c :: t)) = c :: t := by
  by_cases h0 : c = 0
  · subst h0
    cases t with
    | nil => simp [encNat, ofBytes]
    | cons d t =>
      have hd : 128 ≤ d.toNat := by
        simp only [checkInt, Bool.not_eq_true', Bool.or_eq_false_iff, Bool.and_eq_false_iff] at h
        rcases h.1 with h | h
        · simp at h
        · rw [beq_eq_false_iff_ne, ne_eq, u8_and80] at h; omega
      have e : ofBytes (0 :: d :: t) = ofBytes (d :: t) := by rw [ofBytes_cons]; simp
      have hd0 : d ≠ 0 := by rintro rfl; simp at hd
      rw [encNat, e, toBytes_ofBytes_cons d t hd0]
      simp only [if_pos hd]
  · rw [encNat, toBytes_ofBytes_cons c t h0]
    simp only; rw [if_neg (by omega)]

theorem encInt_decInt {b : Bytes} {n : Int} (h : decInt b = some n) : encInt n = b := by
  unfold decInt at h
  split at h
  · rename_i hck
    rcases b with _ | ⟨c, t⟩
    · simp [checkInt] at hck
    · simp only [List.headD_cons, u8_and80'] at h
      split at h
      · rename_i hc
        obtain rfl := Option.some.inj h
        rw [show (-((ofBytes ((c :: t).map fun x => ~~~x) : Int) + 1)) =
          -((ofBytes ((c :: t).map fun x => ~~~x) : Nat) : Int) - 1 by omega, encInt_neg]
        have h2 := checkInt_not (c :: t)
        rw [hck] at h2
        rw [List.map_cons] at h2 ⊢
        rw [encNat_ofBytes h2 (by rw [u8_not]; have := c.toNat_lt; omega), ← List.map_cons, map_not_not]
      · obtain rfl := Option.some.inj h
        rw [encInt_nonneg, encNat_ofBytes hck (by omega)]
  · cases h

theorem decInt_iff (b : Bytes) (n : Int) : decInt b = some n ↔ b = encInt n :=
  ⟨fun h => (encInt_decInt h).symm, fun h => h ▸ decInt_encInt n⟩

/-! ### Tag-length-value -/

theorem byteLen_pos {n : Nat} (h : n ≠ 0) : 1 ≤ byteLen n := by
  unfold byteLen; rw [if_neg h]; omega

theorem readAny_tlv (tag : Tag) (body rest : Bytes) (ht : tag &&& 0x1f ≠ 0x1f)
    (hb : body.length + 6 < 2 ^ 32) : readAny (tlv tag body ++ rest) = some (tag, body, rest) := by
  unfold tlv lenOctets
  by_cases hs : body.length ≤ 0x7f
  · rw [if_pos hs]
    simp only [List.cons_append, List.nil_append]
    rw [readAny, if_neg ht]
    have hn : (UInt8.ofNat body.length).toNat = body.length := u8_ofNat_toNat (by omega)
    rw [if_pos (by rw [u8_and80, hn]; omega)]
    simp only [hn]
    rw [if_pos (by simp)]
    simp
  · rw [if_neg hs]
    simp only [List.cons_append, List.append_assoc]
    have hl4 : byteLen body.length ≤ 4 := (byteLen_le_iff _ _).mpr (by omega)
    have hl1 : 1 ≤ byteLen body.length := byteLen_pos (by omega)
    have hn : (UInt8.ofNat (0x80 + byteLen body.length)).toNat = 0x80 + byteLen body.length :=
      u8_ofNat_toNat (by omega)
    have h7 : (UInt8.ofNat (0x80 + byteLen body.length) &&& 0x7f).toNat = byteLen body.length := by
      rw [u8_and7f, hn]; omega
    rw [readAny, if_neg ht, if_neg (by rw [u8_and80, hn]; omega)]
    have htake : (toBytes body.length ++ (body ++ rest)).take (byteLen body.length) = toBytes body.length := by
      rw [← toBytes_length body.length, List.take_left]
    have hdrop : (toBytes body.length ++ (body ++ rest)).drop (byteLen body.length) = body ++ rest := by
      rw [← toBytes_length body.length, List.drop_left]
    simp only [h7, htake, hdrop, ofBytes_toBytes]
    rw [if_neg (by simp; omega), if_neg (by omega), if_neg, if_neg (by omega), if_pos (by simp)]
    · simp
    · have := pow_byteLen_le (show body.length ≠ 0 by omega)
      have hp : 0 < 256 ^ (byteLen body.length - 1) := Nat.pow_pos (by decide)
      have := Nat.div_pos this hp
      omega

theorem readAny_sound {s : Bytes} {tag : Tag} {body rest : Bytes} (h : readAny s = some (tag, body, rest)) :
    s = tlv tag body ++ rest ∧ tag &&& 0x1f ≠ 0x1f ∧ body.length + 6 < 2 ^ 32 := by
  match s with
  | [] => simp [readAny] at h
  | [_] => simp [readAny] at h
  | t :: lb :: r =>
    rw [readAny] at h
    split at h
    · cases h
    rename_i ht
    split at h
    · rename_i hlb
      rw [u8_and80] at hlb
      simp only at h
      split at h
      · rename_i hle
        obtain ⟨rfl, rfl, rfl⟩ : t = tag ∧ r.take lb.toNat = body ∧ r.drop lb.toNat = rest := by
          simpa using h
        have hl : (r.take lb.toNat).length = lb.toNat := by simp; omega
        refine ⟨?_, ht, by rw [hl]; omega⟩
        rw [tlv, lenOctets, hl, if_pos (by omega)]
        have : UInt8.ofNat lb.toNat = lb := by
          rw [u8_eq_iff, u8_ofNat_toNat lb.toNat_lt]
        simp [this]
      · cases h
    · rename_i hlb
      rw [u8_and80] at hlb
      simp only [u8_and7f] at h
      generalize hk : lb.toNat % 128 = k at h
      split at h
      · cases h
      rename_i h1
      split at h
      · cases h
      rename_i h2
      split at h
      · cases h
      rename_i h3
      split at h
      · cases h
      rename_i h4
      split at h
      · rename_i h5
        simp only [Option.some.injEq, Prod.mk.injEq] at h
        obtain ⟨rfl, hbody, hrest⟩ := h
        generalize hn : ofBytes (r.take k) = n at *
        have hkl : (r.take k).length = k := by simp; omega
        have hl : body.length = n := by rw [← hbody]; simp; simp at h5; omega
        have hk1 : 1 ≤ k := by omega
        have htb : toBytes n = r.take k := by
          rcases hrk : r.take k with _ | ⟨c, u⟩
          · rw [hrk] at hkl; simp at hkl; omega
          · have hc : c ≠ 0 := by
              rintro rfl
              apply h3
              rw [← hn, hrk, ofBytes_cons]
              have := ofBytes_lt u
              have hu : u.length = k - 1 := by rw [hrk] at hkl; simp at hkl; omega
              rw [hu] at this
              simp [Nat.div_eq_of_lt this]
            rw [← hn, hrk, toBytes_ofBytes_cons c u hc]
        have hbl : byteLen n = k := by rw [← toBytes_length, htb, hkl]
        have hnk : n < 256 ^ k := by have := ofBytes_lt (r.take k); rwa [hn, hkl] at this
        have hn32 : n + 6 < 2 ^ 32 := by
          have : k = 1 ∨ k = 2 ∨ k = 3 ∨ k = 4 := by omega
          rcases this with rfl | rfl | rfl | rfl <;> omega
        refine ⟨?_, ht, by omega⟩
        rw [tlv, lenOctets, hl, if_neg (by omega), htb, hbl]
        have hlbe : UInt8.ofNat (0x80 + k) = lb := by
          have := lb.toNat_lt
          rw [u8_eq_iff, u8_ofNat_toNat (by omega)]; omega
        rw [hlbe, ← hbody, ← hrest]
        simp only [List.cons_append, List.append_assoc, List.take_append_drop]
      · cases h

theorem readASN1_tlv (tag : Tag) (body rest : Bytes) (ht : tag &&& 0x1f ≠ 0x1f)
    (hb : body.length + 6 < 2 ^ 32) : readASN1 tag (tlv tag body ++ rest) = some (body, rest) := by
  rw [readASN1, readAny_tlv tag body rest ht hb]; simp

theorem readASN1_sound {tag : Tag} {s body rest : Bytes} (h : readASN1 tag s = some (body, rest)) :
    s = tlv tag body ++ rest ∧ tag &&& 0x1f ≠ 0x1f ∧ body.length + 6 < 2 ^ 32 := by
  unfold readASN1 at h
  split at h
  · rename_i t b r hr
    split at h
    · rename_i ht
      simp only [Option.some.injEq, Prod.mk.injEq] at h
      obtain ⟨rfl, rfl⟩ := h
      subst ht
      exact readAny_sound hr
    · cases h
  · cases h

theorem readInt_enc (n : Int) (rest : Bytes) (h : (encInt n).length + 6 < 2 ^ 32) :
    readInt (tlv tagINTEGER (encInt n) ++ rest) = some (n, rest) := by
  rw [readInt, readASN1_tlv _ _ _ (by decide) h]
  simp [decInt_encInt]

theorem readInt_sound {s rest : Bytes} {n : Int} (h : readInt s = some (n, rest)) :
    s = tlv tagINTEGER (encInt n) ++ rest ∧ (encInt n).length + 6 < 2 ^ 32 := by
  unfold readInt at h
  split at h
  · rename_i body r hr
    split at h
    · rename_i m hm
      simp only [Option.some.injEq, Prod.mk.injEq] at h
      obtain ⟨rfl, rfl⟩ := h
      have := readASN1_sound hr
      rw [encInt_decInt hm]
      exact ⟨this.1, this.2.2⟩
    · cases h
  · cases h

end MCrypto.Der
