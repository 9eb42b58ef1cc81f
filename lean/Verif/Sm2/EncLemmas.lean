import Verif.Sm2.Verify
/-
Helper lemmas for SM2 encryption and key generation.
-/
namespace MCrypto.Sm2
open MCrypto MCrypto.Curve MCrypto.Sm2Spec

/-! ### kdf -/

/-- Bytes kept of each hash. -/
def kw (klen : Nat) : Nat := if klen % 32 ≠ 0 then klen % 32 else 32

theorem kdfLoop_eq (klen : Nat) (xB yB : Bytes) (n : Nat) (h : Sm3.Digest) (seen : Bytes)
    (hi : Sm3.Inv h seen) (ct : Nat) (out : Bytes) :
    kdfLoop klen xB yB n h ct out = out ++ rawStream (kw klen) (xB ++ yB) n seen ct := by
  induction n generalizing h seen ct out with
  | zero => simp [kdfLoop, rawStream]
  | succ n ih =>
    rw [kdfLoop, rawStream]
    have h1 := Sm3.inv_write (Sm3.inv_write (Sm3.inv_write hi xB) yB) (intToBytes ct)
    have hd : seen ++ xB ++ yB ++ intToBytes ct = seen ++ (xB ++ yB) ++ beBytes 4 ct := by
      simp [intToBytes]
    rw [hd] at h1
    rw [ih _ _ h1, Sm3.sumNil_of_inv h1]
    have : (if klen % 32 ≠ 0 then out ++ List.take (klen % 32) (Sm3Spec.sm3 (seen ++ (xB ++ yB) ++ beBytes 4 ct))
        else out ++ Sm3Spec.sm3 (seen ++ (xB ++ yB) ++ beBytes 4 ct)) =
        out ++ (Sm3Spec.sm3 (seen ++ (xB ++ yB) ++ beBytes 4 ct)).take (kw klen) := by
      unfold kw
      by_cases hk : klen % 32 ≠ 0
      · rw [if_pos hk, if_pos hk]
      · rw [if_neg hk, if_neg hk, List.take_of_length_le (by rw [Sm3.sm3_length])]
    rw [this, List.append_assoc]

theorem rawStream_length (w : Nat) (hw : w ≤ 32) (xy : Bytes) (n : Nat) (seen : Bytes) (ct : Nat) :
    (rawStream w xy n seen ct).length = n * w := by
  induction n generalizing seen ct with
  | zero => simp [rawStream]
  | succ n ih =>
    rw [rawStream, List.length_append, List.length_take, Sm3.sm3_length, ih, Nat.min_eq_left hw,
      Nat.add_mul]
    omega

theorem kw_le (klen : Nat) : kw klen ≤ 32 := by unfold kw; split <;> omega

/-- The key stream produced for `klen` bytes. -/
def stream (klen x y : Nat) : Bytes :=
  rawStream (kw klen) (appendBigIntTo32Bytes x ++ appendBigIntTo32Bytes y) ((klen + 31) / 32) [] 1

theorem kdf_eq (klen x y : Nat) :
    kdf klen x y = if (stream klen x y).any (fun b => b != 0) then some (stream klen x y) else none := by
  unfold kdf
  simp only
  have hn : ((((klen : Int) + 31).tdiv 32)).toNat = (klen + 31) / 32 := by
    rw [Int.tdiv_eq_ediv_of_nonneg (by omega)]; omega
  rw [hn, kdfLoop_eq _ _ _ _ _ _ Sm3.inv_new, Int.toNat_natCast, List.nil_append]
  rfl

theorem kdf_nonpos {klen : Int} (h : klen ≤ 0) (x y : Nat) : kdf klen x y = none := by
  unfold kdf
  have hn : (((klen + 31).tdiv 32)).toNat = 0 := by
    rcases Int.lt_or_le (klen + 31) 0 with h1 | h1
    · have : (klen + 31).tdiv 32 ≤ 0 := by
        rw [show klen + 31 = -(-(klen + 31)) by omega, Int.neg_tdiv]
        have := Int.tdiv_nonneg (a := -(klen + 31)) (b := 32) (by omega) (by omega)
        omega
      omega
    · rw [Int.tdiv_eq_ediv_of_nonneg h1]; omega
  simp only [hn, kdfLoop]
  simp

theorem stream_length (klen x y : Nat) : (stream klen x y).length = (klen + 31) / 32 * kw klen :=
  rawStream_length _ (kw_le _) _ _ _ _

/-- Message lengths for which the key stream is as long as the message. -/
def goodLen (klen : Nat) : Prop := klen ≤ 32 ∨ klen % 32 = 0

theorem stream_length_good {klen : Nat} (h : goodLen klen) (x y : Nat) :
    (stream klen x y).length = klen := by
  rw [stream_length]
  unfold kw
  rcases h with h | h
  · by_cases h0 : klen % 32 ≠ 0
    · rw [if_pos h0]
      have : (klen + 31) / 32 = 1 := by omega
      rw [this]; omega
    · rw [if_neg h0]; omega
  · rw [if_neg (by omega)]; omega

theorem stream_length_bad {klen : Nat} (h : ¬ goodLen klen) (x y : Nat) :
    (stream klen x y).length < klen := by
  unfold goodLen at h
  rw [stream_length]
  unfold kw
  rw [if_pos (by omega)]
  obtain ⟨q, hq⟩ : ∃ q, klen / 32 = q := ⟨_, rfl⟩
  obtain ⟨m, hm⟩ : ∃ m, klen % 32 = m := ⟨_, rfl⟩
  have h1 : (klen + 31) / 32 = q + 1 := by omega
  rw [h1, hm, Nat.add_mul]
  have h2 : q * m < q * 32 := Nat.mul_lt_mul_of_pos_left (by omega) (by omega)
  omega

theorem stream_length_le (klen x y : Nat) : (stream klen x y).length ≤ klen := by
  by_cases h : goodLen klen
  · rw [stream_length_good h]
  · exact Nat.le_of_lt (stream_length_bad h x y)

theorem stream_zero (x y : Nat) : stream 0 x y = [] := by
  have := stream_length_le 0 x y
  exact List.length_eq_zero_iff.mp (by omega)

/-! ### xor -/

theorem xor_cancel (t m : Bytes) (h : t.length = m.length) :
    List.zipWith (· ^^^ ·) t (List.zipWith (· ^^^ ·) t m) = m := by
  induction t generalizing m with
  | nil => cases m <;> simp_all
  | cons a t ih =>
    cases m with
    | nil => simp at h
    | cons b m =>
      simp only [List.zipWith_cons_cons, List.cons.injEq]
      refine ⟨?_, ih m (by simpa using h)⟩
      rw [← UInt8.xor_assoc, UInt8.xor_self, UInt8.zero_xor]

theorem xorInto_append {pre t m : Bytes} (h : t.length = m.length) :
    xorInto (pre ++ t) pre.length m = .ok (pre ++ List.zipWith (· ^^^ ·) t m) := by
  unfold xorInto
  by_cases hm : m = []
  · subst hm
    have : t = [] := by simpa using h
    subst this
    simp
  · rw [if_neg hm, if_pos (by rw [List.length_append]; omega)]
    congr 1
    rw [List.take_left' rfl, List.drop_left' rfl, List.take_of_length_le (by omega)]
    rw [List.drop_of_length_le (by rw [List.length_append]; omega), List.append_nil]

/-! ### Encryption -/

/-- The nonce point and the shared point. -/
def c1Of (k : Nat) : Pt := baseMult (toBytes k)
def kpOf (pub : PublicKey) (k : Nat) : Pt := scalarMult P (pub.x, pub.y) (toBytes k)

/-- One attempt of `Encryt` with nonce `k`; none means retry. -/
def encTry (pub : PublicKey) (msg : Bytes) (k : Nat) : Option (Res Bytes) :=
  match kdf msg.length (kpOf pub k).1 (kpOf pub k).2 with
  | none => none
  | some t =>
    some (match xorInto (toBytes (c1Of k).1 ++ toBytes (c1Of k).2 ++
        Sm3.sum (toBytes (kpOf pub k).1 ++ msg ++ toBytes (kpOf pub k).2) ++ t) 96 msg with
      | .ok c => .ok (0x04 :: c)
      | .err e => .err e
      | .panic => .panic)

theorem encryt_eq (rd : Reader) (pub : PublicKey) (msg : Bytes) :
    encryt rd pub msg =
      if 40 ≤ rd.length then
        match encTry pub msg (nonce rd 0) with
        | none => encryt (rd.drop 40) pub msg
        | some (.ok c) => .ok (c, rd.drop 40)
        | some (.err e) => .err e
        | some .panic => .panic
      else .err (endErr rd) := by
  rw [encryt]
  by_cases h : 40 ≤ rd.length
  · rw [if_pos h]
    split
    · rename_i k rd' hn
      rw [nextk_ok h, ← nonce_zero] at hn
      simp only [Res.ok.injEq, Prod.mk.injEq] at hn
      obtain ⟨rfl, rfl⟩ := hn
      unfold encTry kpOf c1Of
      simp only
      generalize kdf (msg.length : Int) _ _ = o
      cases o with
      | none => rfl
      | some t =>
        simp only
        generalize xorInto _ 96 msg = x
        cases x <;> rfl
    · rename_i hn; rw [nextk_ok h] at hn; cases hn
    · rename_i hn; rw [nextk_ok h] at hn; cases hn
  · rw [if_neg h]
    have hlt : rd.length < 40 := by omega
    split
    · rename_i hn; rw [nextk_err hlt] at hn; cases hn
    · rename_i er hn
      rw [nextk_err hlt] at hn
      obtain rfl := Res.err.inj hn
      unfold endErr
      by_cases h0 : rd.length = 0
      · rw [h0]
      · rw [if_neg h0, if_neg (by omega)]
    · rename_i hn; rw [nextk_err hlt] at hn; cases hn

/-- What `Encryt` computes: the first nonce with a non-zero key stream decides. -/
theorem encryt_spec (rd : Reader) (pub : PublicKey) (msg : Bytes) :
    (∃ j res, 40 * (j + 1) ≤ rd.length ∧ encTry pub msg (nonce rd j) = some res ∧
      (∀ l, l < j → encTry pub msg (nonce rd l) = none) ∧
      encryt rd pub msg = match res with
        | .ok c => .ok (c, rd.drop (40 * (j + 1)))
        | .err e => .err e
        | .panic => .panic) ∨
    ((∀ j, 40 * (j + 1) ≤ rd.length → encTry pub msg (nonce rd j) = none) ∧
      encryt rd pub msg = .err (endErr rd)) := by
  generalize hn : rd.length = n
  induction n using Nat.strongRecOn generalizing rd with
  | _ n ih =>
    subst hn
    rw [encryt_eq]
    by_cases h : 40 ≤ rd.length
    · rw [if_pos h]
      cases he : encTry pub msg (nonce rd 0) with
      | some res =>
        left
        refine ⟨0, res, by omega, he, fun l hl => absurd hl (by omega), ?_⟩
        cases res <;> rfl
      | none =>
        simp only
        have hlen : (rd.drop 40).length = rd.length - 40 := by simp
        have nd : ∀ i, nonce (rd.drop 40) i = nonce rd (i + 1) := by
          intro i; have := nonce_drop rd i 1; rw [Nat.mul_one] at this; rw [this, Nat.add_comm]
        rcases ih (rd.drop 40).length (by omega) (rd.drop 40) rfl with ⟨i, res, h1, h2, h3, h4⟩ | ⟨h1, h2⟩
        · left
          refine ⟨i + 1, res, by omega, by rw [← nd]; exact h2, ?_, ?_⟩
          · intro j hj
            cases j with
            | zero => exact he
            | succ j => rw [← nd]; exact h3 j (by omega)
          · rw [h4, List.drop_drop, show 40 + 40 * (i + 1) = 40 * (i + 1 + 1) by omega]
        · right
          refine ⟨?_, ?_⟩
          · intro i hi
            cases i with
            | zero => exact he
            | succ i => rw [← nd]; exact h1 i (by omega)
          · rw [h2]; unfold endErr
            rw [hlen, show (rd.length - 40) % 40 = rd.length % 40 by omega]
    · rw [if_neg h]
      right
      exact ⟨fun i hi => absurd hi (by omega), rfl⟩

theorem c1_lt (k : Nat) : (c1Of k).1 < 256 ^ 32 ∧ (c1Of k).2 < 256 ^ 32 := by
  have h := (rep_base k).lt
  have := P_lt
  unfold c1Of
  omega

theorem c1_len (k : Nat) : (toBytes (c1Of k).1).length ≤ 32 ∧ (toBytes (c1Of k).2).length ≤ 32 := by
  have h := c1_lt k
  rw [toBytes_length, toBytes_length]
  exact ⟨(byteLen_le_iff _ _).mpr h.1, (byteLen_le_iff _ _).mpr h.2⟩

/-- Both coordinates of the nonce point have 32 significant bytes. -/
def fullC1 (k : Nat) : Prop := 256 ^ 31 ≤ (c1Of k).1 ∧ 256 ^ 31 ≤ (c1Of k).2

theorem fullC1_iff (k : Nat) : fullC1 k ↔
    (toBytes (c1Of k).1).length + (toBytes (c1Of k).2).length = 64 := by
  have h := c1_len k
  unfold fullC1
  have e1 := byteLen_le_iff (c1Of k).1 31
  have e2 := byteLen_le_iff (c1Of k).2 31
  rw [toBytes_length, toBytes_length] at *
  omega

/-- Outcome of one attempt. -/
theorem encTry_cases (pub : PublicKey) (msg : Bytes) (k : Nat) :
    (encTry pub msg k = none ∧ kdf msg.length (kpOf pub k).1 (kpOf pub k).2 = none) ∨
    (msg ≠ [] ∧ kdf msg.length (kpOf pub k).1 (kpOf pub k).2 =
        some (stream msg.length (kpOf pub k).1 (kpOf pub k).2) ∧
      ((fullC1 k ∧ goodLen msg.length ∧
        encTry pub msg k = some (.ok (0x04 :: (beBytes 32 (c1Of k).1 ++ beBytes 32 (c1Of k).2 ++
          Sm3Spec.sm3 (toBytes (kpOf pub k).1 ++ msg ++ toBytes (kpOf pub k).2) ++
          List.zipWith (· ^^^ ·) (stream msg.length (kpOf pub k).1 (kpOf pub k).2) msg)))) ∨
       (¬ (fullC1 k ∧ goodLen msg.length) ∧ encTry pub msg k = some .panic))) := by
  cases hk : kdf msg.length (kpOf pub k).1 (kpOf pub k).2 with
  | none => left; exact ⟨by unfold encTry; rw [hk], rfl⟩
  | some t =>
    right
    rw [kdf_eq] at hk
    split at hk
    · rename_i hany
      obtain rfl := Option.some.inj hk
      have hm : msg ≠ [] := by
        rintro rfl
        simp [stream_zero] at hany
      refine ⟨hm, rfl, ?_⟩
      have hk2 : kdf msg.length (kpOf pub k).1 (kpOf pub k).2 =
        some (stream msg.length (kpOf pub k).1 (kpOf pub k).2) := by rw [kdf_eq, if_pos hany]
      have hc := c1_len k
      have hs3 := Sm3.sm3_length (toBytes (kpOf pub k).1 ++ msg ++ toBytes (kpOf pub k).2)
      by_cases hg : fullC1 k ∧ goodLen msg.length
      · left
        refine ⟨hg.1, hg.2, ?_⟩
        unfold encTry
        rw [hk2]
        simp only [Sm3.sum_eq]
        have hf := (fullC1_iff k).mp hg.1
        have hpre : (toBytes (c1Of k).1 ++ toBytes (c1Of k).2 ++
            Sm3Spec.sm3 (toBytes (kpOf pub k).1 ++ msg ++ toBytes (kpOf pub k).2)).length = 96 := by
          rw [List.length_append, List.length_append, hs3]; omega
        have := xorInto_append (pre := toBytes (c1Of k).1 ++ toBytes (c1Of k).2 ++
            Sm3Spec.sm3 (toBytes (kpOf pub k).1 ++ msg ++ toBytes (kpOf pub k).2))
            (stream_length_good hg.2 (kpOf pub k).1 (kpOf pub k).2)
        rw [hpre] at this
        rw [this]
        simp only
        rw [toBytes_eq_beBytes (k := 32) (n := (c1Of k).1) (by rw [toBytes_length] at *; omega),
          toBytes_eq_beBytes (k := 32) (n := (c1Of k).2) (by rw [toBytes_length, toBytes_length] at *; omega)]
      · right
        refine ⟨hg, ?_⟩
        unfold encTry
        rw [hk2]
        simp only [Sm3.sum_eq]
        unfold xorInto
        rw [if_neg hm, if_neg]
        rw [List.length_append, List.length_append, List.length_append, hs3]
        intro hle
        have hsl := stream_length_le msg.length (kpOf pub k).1 (kpOf pub k).2
        apply hg
        constructor
        · rw [fullC1_iff]; omega
        · by_contra hb
          have := stream_length_bad hb (kpOf pub k).1 (kpOf pub k).2
          omega
    · cases hk

end MCrypto.Sm2
