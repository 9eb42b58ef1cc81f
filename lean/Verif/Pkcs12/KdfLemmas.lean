import Verif.Pkcs12.Kdf
import Verif.Pkcs12.KdfSpec
import Mathlib.Tactic.Ring
/-
Lemmas: the model of pbkdf.go against RFC 7292 B.2, and of bmp-string.go.
-/
namespace MCrypto.P12
open MCrypto

theorem repeatBytes_length (b : Bytes) (n : Nat) : (repeatBytes b n).length = n * b.length := by
  induction n with
  | zero => simp [repeatBytes]
  | succ n ih =>
    unfold repeatBytes at ih ⊢
    rw [List.replicate_succ, List.flatten_cons, List.length_append, ih, Nat.succ_mul, Nat.add_comm]

theorem repeatBytes_getElem? (b : Bytes) (n i : Nat) (h : i < n * b.length) :
    (repeatBytes b n)[i]? = some (b.getD (i % b.length) 0) := by
  induction n generalizing i with
  | zero => omega
  | succ n ih =>
    unfold repeatBytes at ih ⊢
    rw [List.replicate_succ, List.flatten_cons]
    rw [Nat.succ_mul] at h
    by_cases hi : i < b.length
    · rw [List.getElem?_append_left hi, Nat.mod_eq_of_lt hi, List.getD_eq_getElem?_getD,
        List.getElem?_eq_getElem hi]; rfl
    · rw [List.getElem?_append_right (by omega), ih _ (by omega)]
      rw [← Nat.mod_eq_sub_mod (by omega)]

/-- Cutting a cyclic repetition at `m` bytes. -/
theorem take_repeat (b : Bytes) (n m : Nat) (h : m ≤ n * b.length) :
    (repeatBytes b n).take m = (List.range m).map fun i => b.getD (i % b.length) 0 := by
  apply List.ext_getElem?
  intro i
  by_cases hi : i < m
  · rw [List.getElem?_take_of_lt hi, repeatBytes_getElem? _ _ _ (by omega), List.getElem?_map,
      List.getElem?_range hi]; rfl
  · rw [List.getElem?_eq_none (by rw [List.length_take]; omega),
      List.getElem?_eq_none (by rw [List.length_map, List.length_range]; omega)]

theorem ceil_mul_ge (a b : Nat) (hb : 0 < b) : a ≤ (a + b - 1) / b * b := by
  have h := Nat.div_add_mod (a + b - 1) b
  have h2 := Nat.mod_lt (a + b - 1) hb
  rw [Nat.mul_comm] at h
  omega

theorem fillWithRepeats_eq (p : Bytes) (v : Nat) (hv : 0 < v) : fillWithRepeats p v = Rfc7292.stretch p v := by
  unfold fillWithRepeats Rfc7292.stretch
  split
  · rename_i h
    rw [h, Nat.zero_add, Nat.div_eq_of_lt (by omega), Nat.mul_zero]; rfl
  · rename_i h
    exact take_repeat _ _ _ (ceil_mul_ge _ _ (by omega))

theorem stretch_length (p : Bytes) (v : Nat) : (Rfc7292.stretch p v).length = v * ((p.length + v - 1) / v) := by
  simp [Rfc7292.stretch]

theorem fillB_eq (Ai : Bytes) (v : Nat) (hA : 0 < Ai.length) (n k : Nat) (h : v ≤ (k + n) * Ai.length) :
    fillB Ai v n (repeatBytes Ai k) = Rfc7292.mkB v Ai := by
  induction n generalizing k with
  | zero =>
    rw [fillB, take_repeat _ _ _ (by simpa using h)]; rfl
  | succ n ih =>
    rw [fillB]
    split
    · rw [show repeatBytes Ai k ++ Ai = repeatBytes Ai (k + 1) by
        unfold repeatBytes
        rw [List.replicate_succ', List.flatten_append]; simp]
      exact ih (k + 1) (by rw [show k + 1 + n = k + (n + 1) by omega]; exact h)
    · rename_i hn
      rw [repeatBytes_length] at hn
      rw [take_repeat _ _ _ (by omega)]; rfl

theorem fillB_full (Ai : Bytes) (v : Nat) (hA : 0 < Ai.length) : fillB Ai v v [] = Rfc7292.mkB v Ai := by
  have := fillB_eq Ai v hA v 0 (by rw [Nat.zero_add]; exact Nat.le_mul_of_pos_right v hA)
  exact this

theorem ofBytes_drop (b : Bytes) (k : Nat) (h : k ≤ b.length) :
    ofBytes (b.drop (b.length - k)) = ofBytes b % 256 ^ k := by
  have h1 := List.take_append_drop (b.length - k) b
  have h2 : (b.drop (b.length - k)).length = k := by rw [List.length_drop]; omega
  conv => rhs; rw [← h1, ofBytes_append, h2]
  rw [Nat.add_comm, Nat.add_mul_mod_self_right, Nat.mod_eq_of_lt]
  have := ofBytes_lt (b.drop (b.length - k))
  rwa [h2] at this

theorem addBlock_eq (v B : Nat) (blk : Bytes) :
    addBlock v B blk = beBytes v ((ofBytes blk + B + 1) % 256 ^ v) := by
  unfold addBlock
  simp only []
  generalize ofBytes blk + B + 1 = x
  have hmod : x % 256 ^ v < 256 ^ v := Nat.mod_lt _ (Nat.pow_pos (by decide))
  by_cases h : v < (toBytes x).length
  · rw [if_pos h]
    have hl : ((toBytes x).drop ((toBytes x).length - v)).length = v := by rw [List.length_drop]; omega
    rw [if_neg (by omega)]
    apply ofBytes_inj
    · rw [hl, beBytes_length]
    · rw [ofBytes_drop _ _ (by omega), ofBytes_toBytes, ofBytes_beBytes_of_lt hmod]
  · rw [if_neg h]
    have hx : x < 256 ^ v := (byteLen_le_iff x v).mp (by rw [toBytes_length] at h; omega)
    rw [Nat.mod_eq_of_lt hx]
    split
    · rw [toBytes_length, pad_toBytes hx]
    · rename_i h'
      exact toBytes_eq_beBytes (by rw [toBytes_length] at h h'; omega)

theorem addBlocks_eq (v B n : Nat) (I : Bytes) (h : I.length = n * v) :
    addBlocks v B n I = (List.range n).flatMap fun j =>
      beBytes v ((ofBytes (Rfc7292.block v I j) + B + 1) % 256 ^ v) := by
  induction n generalizing I with
  | zero =>
    rw [Nat.zero_mul] at h
    have : I = [] := List.eq_nil_of_length_eq_zero h
    subst this; rfl
  | succ n ih =>
    rw [addBlocks, addBlock_eq, List.range_succ_eq_map, List.flatMap_cons, ih _ (by
      rw [List.length_drop, h, Nat.succ_mul]; omega), List.flatMap_map]
    congr 1
    · simp [Rfc7292.block]
    · congr 1
      funext j
      rw [Rfc7292.block, Rfc7292.block, List.drop_drop, show v + j * v = (j + 1) * v by ring]

theorem addBlocks_length (v B n : Nat) (I : Bytes) (h : I.length = n * v) :
    (addBlocks v B n I).length = n * v := by
  induction n generalizing I with
  | zero => simpa [addBlocks] using h
  | succ n ih =>
    rw [addBlocks, List.length_append, ih _ (by rw [List.length_drop, h, Nat.succ_mul]; omega), addBlock_eq,
      beBytes_length, Nat.succ_mul]; omega

theorem iterH_succ' (H : Bytes → Bytes) (n : Nat) (x : Bytes) :
    Rfc7292.iterH H (n + 1) x = H (Rfc7292.iterH H n x) := by
  induction n generalizing x with
  | zero => rfl
  | succ n ih => rw [Rfc7292.iterH, ih, ← Rfc7292.iterH]

theorem hashIter_eq (H : Bytes → Bytes) (r : Int) (x : Bytes) :
    hashIter H r x = Rfc7292.iterH H ((r - 1).toNat + 1) x := by
  unfold hashIter
  generalize (r - 1).toNat = n
  rw [Rfc7292.iterH]
  induction n with
  | zero => rfl
  | succ n ih => rw [List.range_succ, List.foldl_append, ih, List.foldl_cons, List.foldl_nil, iterH_succ']

theorem hashIter_length (H : Bytes → Bytes) (hH : ∀ x, (H x).length = 20) (r : Int) (x : Bytes) :
    (hashIter H r x).length = 20 := by
  rw [hashIter_eq, iterH_succ', hH]

theorem copyAt_fill (done Ai : Bytes) (n : Nat) (hA : Ai.length = 20) :
    copyAt (done ++ List.replicate ((n + 1) * 20) 0) done.length Ai =
      (done ++ Ai) ++ List.replicate (n * 20) 0 := by
  unfold copyAt
  rw [List.take_left, List.drop_left, List.length_append, List.length_replicate,
    List.take_of_length_le (by omega), List.drop_replicate, List.append_assoc]
  rw [show (n + 1) * 20 - Ai.length = n * 20 by omega]

theorem kdfLoop_eq (H : Bytes → Bytes) (hH : ∀ x, (H x).length = 20) (v : Nat) (hv : 0 < v) (D : Bytes)
    (r : Int) (c n : Nat) (I done : Bytes) (hn : n ≤ c) (hd : done.length = (c - n) * 20)
    (hI : v ∣ I.length) :
    kdfLoop H v D r c n I (done ++ List.replicate (n * 20) 0) =
      done ++ Rfc7292.stream H v ((r - 1).toNat + 1) D n I := by
  induction n generalizing I done with
  | zero => simp [kdfLoop, Rfc7292.stream]
  | succ n ih =>
    have hAl := hashIter_length H hH r (D ++ I)
    rw [kdfLoop]
    simp only []
    rw [← hd, copyAt_fill _ _ _ hAl]
    obtain ⟨m, hm⟩ := hI
    have hdiv : I.length / v = m := by rw [hm, Nat.mul_div_cancel_left _ hv]
    rw [Rfc7292.stream]
    rw [← hashIter_eq, ← List.append_assoc]
    by_cases hlast : c - (n + 1) < c - 1
    · rw [if_pos hlast, fillB_full _ _ (by omega), hdiv]
      rw [ih _ _ (by omega) (by rw [List.length_append, hd, hAl]; omega)
        ⟨m, by rw [addBlocks_length _ _ _ _ (by rw [hm, Nat.mul_comm]), Nat.mul_comm]⟩]
      congr 2
      rw [addBlocks_eq _ _ _ _ (by rw [hm, Nat.mul_comm]), Rfc7292.nextI, hdiv]
    · have : n = 0 := by omega
      subst this
      rw [if_neg hlast]
      simp [kdfLoop, Rfc7292.stream]

/-! ## BMP strings -/

/-- The bytes produced for one rune. -/
def unitBytes (r : Nat) : Bytes := [UInt8.ofNat (r / 256), UInt8.ofNat (r % 256)]

theorem encodeRune16_fst (r : Nat) (h : r < 0x110000) :
    (Utf.encodeRune16 r).1 ≠ 0xFFFD ↔ 0xFFFF < r := by
  unfold Utf.encodeRune16
  split
  · simp; omega
  · simp; omega

theorem bmpLoop_ok (rs : List Nat) (h : ∀ r ∈ rs, r ≤ 0xFFFF) (ret : Bytes) :
    bmpLoop rs ret = .ok (ret ++ rs.flatMap unitBytes ++ [0, 0]) := by
  induction rs generalizing ret with
  | nil => simp [bmpLoop]
  | cons r rs ih =>
    have hr := h r (by simp)
    rw [bmpLoop, if_neg (by rw [encodeRune16_fst _ (by omega)]; omega), ih (fun x hx => h x (by simp [hx]))]
    simp [unitBytes]

theorem bmpLoop_err (rs : List Nat) (hs : ∀ r ∈ rs, r < 0x110000) (h : ∃ r ∈ rs, 0xFFFF < r) (ret : Bytes) :
    bmpLoop rs ret = .err "go-pkcs12: string contains characters that cannot be encoded in UCS-2" := by
  induction rs generalizing ret with
  | nil => obtain ⟨r, hr, _⟩ := h; cases hr
  | cons r rs ih =>
    rw [bmpLoop]
    by_cases hr : 0xFFFF < r
    · rw [if_pos ((encodeRune16_fst r (hs r (by simp))).mpr hr)]
    · rw [if_neg (by rw [encodeRune16_fst _ (hs r (by simp))]; exact hr)]
      refine ih (fun x hx => hs x (by simp [hx])) ?_ _
      obtain ⟨x, hx, hx'⟩ := h
      rcases List.mem_cons.mp hx with rfl | hx
      · exact absurd hx' hr
      · exact ⟨x, hx, hx'⟩

theorem bmpUnits_flatMap (rs : List Nat) (h : ∀ r ∈ rs, r ≤ 0xFFFF) : bmpUnits (rs.flatMap unitBytes) = rs := by
  induction rs with
  | nil => rfl
  | cons r rs ih =>
    rw [List.flatMap_cons, unitBytes, List.cons_append, List.cons_append, List.nil_append, bmpUnits,
      ih (fun x hx => h x (by simp [hx])), UInt8.toNat_ofNat', UInt8.toNat_ofNat']
    have := h r (by simp)
    congr 1; omega

theorem flatMap_unit_length (rs : List Nat) : (rs.flatMap unitBytes).length = 2 * rs.length := by
  induction rs with
  | nil => rfl
  | cons r rs ih => rw [List.flatMap_cons, List.length_append, ih]; simp [unitBytes]; omega

theorem scalar_lt {r : Nat} (h : Utf.IsScalar r) : r < 0x110000 := by
  unfold Utf.IsScalar at h; omega

end MCrypto.P12
