import Verif.Sm3.Model
import Verif.Sm3.Spec
/-
Helper lemmas for the SM3 properties: the compression function against the standard, and the
append-log invariant of the streaming digest.
-/
namespace MCrypto.Sm3
open MCrypto Sm3Spec

/-! ### Compression function -/

/-- The eight chaining words as a register of the standard. -/
def ofV (v : V) : Reg := fun i =>
  match i with
  | 0 => v.a | 1 => v.b | 2 => v.c | 3 => v.d | 4 => v.e | 5 => v.f | 6 => v.g | 7 => v.h

theorem rotl_eq (x : W) (k : Nat) : rotl x k = x.rotateLeft k := by
  unfold rotl
  simp [BitVec.rotateLeft]

theorem be4 (a b c d : UInt8) :
    BitVec.ofNat 32 a.toNat <<< 24 ||| BitVec.ofNat 32 b.toNat <<< 16 |||
      BitVec.ofNat 32 c.toNat <<< 8 ||| BitVec.ofNat 32 d.toNat
      = BitVec.ofNat 32 (ofBytes [a, b, c, d]) := by
  have ha := a.toNat_lt; have hb := b.toNat_lt; have hc := c.toNat_lt; have hd := d.toNat_lt
  apply BitVec.eq_of_toNat_eq
  simp only [ofBytes, List.foldl, BitVec.toNat_or, BitVec.toNat_shiftLeft, BitVec.toNat_ofNat]
  rw [Nat.or_assoc, Nat.or_assoc]
  have e : ∀ (x k : Nat), x < 256 → k ≤ 24 → (x % 2 ^ 32) <<< k % 2 ^ 32 = x <<< k := by
    intro x k hx hk
    rw [Nat.mod_eq_of_lt (show x < 2 ^ 32 by omega), Nat.shiftLeft_eq, Nat.mod_eq_of_lt]
    calc x * 2 ^ k ≤ x * 2 ^ 24 := Nat.mul_le_mul_left _ (Nat.pow_le_pow_right (by decide) hk)
      _ < 2 ^ 32 := by omega
  rw [e _ 24 ha (by omega), e _ 16 hb (by omega), e _ 8 hc (by omega),
    Nat.mod_eq_of_lt (show d.toNat < 2 ^ 32 by omega)]
  rw [← Nat.shiftLeft_add_eq_or_of_lt (show d.toNat < 2 ^ 8 by omega)]
  rw [← Nat.shiftLeft_add_eq_or_of_lt (show c.toNat <<< 8 + d.toNat < 2 ^ 16 by
    rw [Nat.shiftLeft_eq]; omega)]
  rw [← Nat.shiftLeft_add_eq_or_of_lt (show b.toNat <<< 16 + (c.toNat <<< 8 + d.toNat) < 2 ^ 24 by
    simp only [Nat.shiftLeft_eq]; omega)]
  simp only [Nat.shiftLeft_eq]
  omega

theorem drop_take4 {p : Bytes} {k : Nat} (h : k + 4 ≤ p.length) :
    (p.drop k).take 4 = [p.getD k 0, p.getD (k+1) 0, p.getD (k+2) 0, p.getD (k+3) 0] := by
  apply List.ext_getElem
  · simp; omega
  · intro i h1 h2
    simp at h2
    rcases i with _ | _ | _ | _ | i <;>
      first
      | omega
      | (simp [List.getD_eq_getElem?_getD]; rw [List.getElem?_eq_getElem (by omega)]; simp)

theorem load_eq {p : Bytes} {i : Nat} (hi : i < 16) (hp : p.length = 64) :
    load p i = blockWord p i := by
  unfold load blockWord
  rw [drop_take4 (by omega), ← be4]
  simp [Nat.mul_comm]

theorem expand_inv {p : Bytes} (hp : p.length = 64) (k : Nat) :
    let w := (List.range' 16 k).foldl expandStep ((List.range 16).map (load p))
    w.length = 16 + k ∧ ∀ j, j < 16 + k → wGet w j = Wexp p j := by
  induction k with
  | zero =>
    refine ⟨by simp, ?_⟩
    intro j hj
    simp only [Nat.add_zero] at hj
    rw [Wexp, if_pos hj]
    simp only [wGet, List.range'_zero, List.foldl_nil]
    rw [List.getD_eq_getElem?_getD, List.getElem?_map, List.getElem?_range hj]
    simpa using load_eq hj hp
  | succ k ih =>
    obtain ⟨hl, hw⟩ := ih
    rw [List.range'_concat, List.foldl_append]
    simp only [Nat.one_mul, List.foldl_cons, List.foldl_nil]
    generalize hwdef : (List.range' 16 k).foldl expandStep ((List.range 16).map (load p)) = w at hl hw
    refine ⟨by simp [expandStep, hl]; omega, ?_⟩
    intro j hj
    by_cases hjk : j < 16 + k
    · rw [← hw j hjk]
      simp [wGet, expandStep, List.getD_eq_getElem?_getD, List.getElem?_append_left (hl ▸ hjk)]
    · have hj' : j = 16 + k := by omega
      subst hj'
      rw [Wexp, if_neg (by omega)]
      have : wGet (expandStep w (16 + k)) (16 + k) =
          p1 (wGet w (16 + k - 16) ^^^ wGet w (16 + k - 9) ^^^ (wGet w (16 + k - 3)).rotateLeft 15)
            ^^^ (wGet w (16 + k - 13)).rotateLeft 7 ^^^ wGet w (16 + k - 6) := by
        conv => lhs; rw [wGet, expandStep]
        rw [List.getD_eq_getElem?_getD, List.getElem?_append_right (by omega)]
        simp [hl]
      rw [this, hw _ (by omega), hw _ (by omega), hw _ (by omega), hw _ (by omega), hw _ (by omega)]
      simp [P1, p1, rotl_eq]

theorem wGet_expand {p : Bytes} (hp : p.length = 64) {j : Nat} (hj : j < 68) :
    wGet (expand p) j = Wexp p j := (expand_inv hp 52).2 j hj

theorem ofV_roundA {p : Bytes} (hp : p.length = 64) (v s : V) {i : Nat} (hi : i < 16)
    (h : ofV s = rounds p (ofV v) i) : ofV (roundA (expand p) s i) = rounds p (ofV v) (i + 1) := by
  funext x
  simp only [rounds, ← h]
  unfold roundA
  rw [wGet_expand hp (by omega), wGet_expand hp (by omega)]
  simp only [W', FF, GG, T, P0, rotl_eq, if_pos hi]
  match x with
  | 0 | 1 | 2 | 3 | 4 | 5 | 6 | 7 => rfl

theorem ofV_roundB {p : Bytes} (hp : p.length = 64) (v s : V) {i : Nat} (hi : 16 ≤ i) (hi' : i < 64)
    (h : ofV s = rounds p (ofV v) i) : ofV (roundB (expand p) s i) = rounds p (ofV v) (i + 1) := by
  funext x
  simp only [rounds, ← h]
  unfold roundB
  rw [wGet_expand hp (by omega), wGet_expand hp (by omega)]
  simp only [W', FF, GG, T, P0, rotl_eq, if_neg (show ¬ i < 16 by omega)]
  match x with
  | 0 | 1 | 2 | 3 | 4 | 5 | 6 | 7 => rfl

theorem ofV_roundsA {p : Bytes} (hp : p.length = 64) (v : V) (k : Nat) (hk : k ≤ 16) :
    ofV ((List.range k).foldl (roundA (expand p)) v) = rounds p (ofV v) k := by
  induction k with
  | zero => simp [rounds]
  | succ k ih =>
    rw [List.range_succ, List.foldl_append]
    exact ofV_roundA hp v _ (by omega) (ih (by omega))

theorem ofV_roundsB {p : Bytes} (hp : p.length = 64) (v s : V) (h : ofV s = rounds p (ofV v) 16)
    (k : Nat) (hk : k ≤ 48) :
    ofV ((List.range' 16 k).foldl (roundB (expand p)) s) = rounds p (ofV v) (16 + k) := by
  induction k with
  | zero => simpa using h
  | succ k ih =>
    rw [List.range'_concat, List.foldl_append, Nat.one_mul]
    exact ofV_roundB hp v _ (by omega) (by omega) (ih (by omega))

theorem ofV_compress {p : Bytes} (hp : p.length = 64) (v : V) :
    ofV (compress v p) = CF (ofV v) p := by
  have h := ofV_roundsB hp v _ (ofV_roundsA hp v 16 (by omega)) 48 (by omega)
  funext x
  simp only [CF]
  rw [← h]
  unfold compress
  match x with
  | 0 | 1 | 2 | 3 | 4 | 5 | 6 | 7 => simp only [ofV]; rw [BitVec.xor_comm]

theorem ofV_initV : ofV initV = IV := by
  funext x
  match x with
  | 0 | 1 | 2 | 3 | 4 | 5 | 6 | 7 => rfl

/-! ### Block iteration -/

theorem blockN_append (a b : Nat) (v : V) (p q : Bytes) (hp : p.length = 64 * a) :
    blockN (a + b) v (p ++ q) = blockN b (blockN a v p) q := by
  induction a generalizing v p with
  | zero =>
    have : p = [] := List.length_eq_zero_iff.mp (by omega)
    subst this; simp [blockN]
  | succ a ih =>
    rw [show a + 1 + b = (a + b) + 1 by omega, blockN, blockN,
      List.take_append_of_le_length (by omega), List.drop_append_of_le_length (by omega)]
    exact ih _ _ (by simp; omega)

theorem block_append (v : V) (p q : Bytes) (hp : 64 ∣ p.length) :
    block v (p ++ q) = block (block v p) q := by
  obtain ⟨a, ha⟩ := hp
  unfold block
  rw [List.length_append, ha, show (64 * a + q.length) / 64 = a + q.length / 64 by omega,
    blockN_append _ _ _ _ _ ha, show 64 * a / 64 = a by omega]

theorem block_short (v : V) (p : Bytes) (hp : p.length < 64) : block v p = v := by
  unfold block; rw [show p.length / 64 = 0 by omega]; rfl

theorem ofV_blockN (m : Bytes) (n : Nat) (hn : 64 * n ≤ m.length) :
    ofV (blockN n initV m) = iter m n := by
  have key : ∀ (k n : Nat) (v : V) , 64 * (k + n) ≤ m.length → ofV v = iter m k →
      ofV (blockN n v (m.drop (64 * k))) = iter m (k + n) := by
    intro k n
    induction n generalizing k with
    | zero => intro v _ h; simpa [blockN] using h
    | succ n ih =>
      intro v hk h
      rw [blockN, List.drop_drop, show 64 * k + 64 = 64 * (k + 1) by omega]
      rw [show k + (n + 1) = (k + 1) + n by omega]
      apply ih (k + 1) _ (by omega)
      rw [ofV_compress (by simp; omega), h, iter, blockAt]
  simpa using key 0 n initV (by omega) (by simp [iter, ofV_initV])

/-! ### The append-log invariant -/

/-- `d` is a digest to which exactly `data` has been written since `Reset`. -/
structure Inv (d : Digest) (data : Bytes) : Prop where
  xlen : d.x.length = 64
  len : d.len = UInt64.ofNat data.length
  ex : ∃ full, data = full ++ d.x.take d.nx ∧ 64 ∣ full.length ∧ d.nx < 64 ∧ d.h = block initV full

theorem inv_new : Inv new [] := ⟨rfl, rfl, [], by simp [new, Digest.reset], by simp, by decide, rfl⟩

theorem inv_reset {d : Digest} {data : Bytes} (h : Inv d data) : Inv d.reset [] :=
  ⟨h.xlen, rfl, [], by simp [Digest.reset], by simp, by simp [Digest.reset], rfl⟩

theorem inv_write {d : Digest} {data : Bytes} (h : Inv d data) (p : Bytes) :
    Inv (d.write p) (data ++ p) := by
  obtain ⟨hx, hlen, full, hdata, hfull, hnx, hh⟩ := h
  -- state after the head stage
  have head : ∀ d1 : Digest, d1.x = d.x → d1.nx = d.nx → d1.h = d.h → ∀ d2 p2, d1.writeHead p = (d2, p2) →
      d2.len = d1.len ∧ d2.x.length = 64 ∧ (d2.nx = 0 ∨ p2 = []) ∧
      ∃ full', data ++ p = full' ++ d2.x.take d2.nx ++ p2 ∧ 64 ∣ full'.length ∧ d2.nx < 64 ∧
        d2.h = block initV full' := by
    intro d1 e1 e2 e3 d2 p2 hd
    unfold Digest.writeHead at hd
    rw [e1, e2, e3] at hd
    split at hd
    · rename_i hpos
      have hnlen : (d.x.take d.nx).length = d.nx := by simp; omega
      by_cases hc : d.nx + min (64 - d.nx) p.length = 64
      · simp only [hc, if_true] at hd
        have hmin : min (64 - d.nx) p.length = 64 - d.nx := by omega
        have hple : 64 - d.nx ≤ p.length := by omega
        rw [hmin] at hd
        have hx2 : d.x.take d.nx ++ p.take (64 - d.nx) ++ d.x.drop 64 =
            d.x.take d.nx ++ p.take (64 - d.nx) := by
          rw [List.drop_of_length_le (by omega), List.append_nil]
        rw [hx2] at hd
        have hl : (d.x.take d.nx ++ p.take (64 - d.nx)).length = 64 := by simp; omega
        obtain ⟨rfl, rfl⟩ := Prod.mk.inj hd
        refine ⟨rfl, by simpa using hl, Or.inl rfl,
          full ++ (d.x.take d.nx ++ p.take (64 - d.nx)), ?_, ?_, by simp, ?_⟩
        · simp [hdata]
        · rw [List.length_append, hl]; omega
        · simp only; rw [block_append _ _ _ hfull, hh]
      · simp only [hc, if_false] at hd
        have hmin : min (64 - d.nx) p.length = p.length := by omega
        rw [hmin] at hd
        obtain ⟨rfl, rfl⟩ := Prod.mk.inj hd
        refine ⟨rfl, by simp; omega, Or.inr (by simp), full, ?_, hfull, by simp only; omega, hh⟩
        have : (d.x.take d.nx ++ p.take p.length ++ d.x.drop (d.nx + p.length)).take (d.nx + p.length)
            = d.x.take d.nx ++ p := by
          rw [List.take_length, List.take_append_of_le_length (by simp; omega)]
          rw [List.take_of_length_le (by simp; omega)]
        simp only [this, hdata]; simp
    · obtain ⟨rfl, rfl⟩ := Prod.mk.inj hd
      have h0 : d.nx = 0 := by omega
      exact ⟨rfl, by rw [e1, hx], Or.inl (by rw [e2, h0]), full,
        by rw [e1, e2, ← hdata], hfull, by rw [e2]; exact hnx, by rw [e3, hh]⟩
  unfold Digest.write
  generalize hd1 : ({ d with len := d.len + UInt64.ofNat p.length } : Digest) = d1
  rcases hd2 : d1.writeHead p with ⟨d2, p2⟩
  obtain ⟨e1, e2, e3, full', e4, e5, e6, e7⟩ :=
    head d1 (by rw [← hd1]) (by rw [← hd1]) (by rw [← hd1]) d2 p2 hd2
  have hlen1 : d1.len = UInt64.ofNat (data ++ p).length := by
    rw [← hd1]; simp [hlen]
  simp only
  -- block stage
  have stage : ∃ d3 p3, d2.writeBlocks p2 = (d3, p3) ∧ d3.len = d2.len ∧ d3.x = d2.x ∧ d3.nx = d2.nx ∧
      p3.length < 64 ∧ (d3.nx = 0 ∨ p3 = []) ∧
      ∃ full', data ++ p = full' ++ d3.x.take d3.nx ++ p3 ∧ 64 ∣ full'.length ∧
        d3.h = block initV full' := by
    unfold Digest.writeBlocks
    by_cases hge : p2.length ≥ 64
    · rw [if_pos hge]
      have h0 : d2.nx = 0 := by
        rcases e3 with h | h
        · exact h
        · rw [h] at hge; simp at hge
      refine ⟨_, _, rfl, rfl, rfl, rfl, by simp; omega, Or.inl h0, full' ++ p2.take (p2.length / 64 * 64),
        ?_, ?_, ?_⟩
      · simp only [h0, List.take_zero, List.append_nil]
        rw [List.append_assoc, List.take_append_drop, e4]; simp [h0]
      · rw [List.length_append, List.length_take]; omega
      · simp only; rw [e7, block_append _ _ _ e5]
    · rw [if_neg hge]
      exact ⟨_, _, rfl, rfl, rfl, rfl, by omega, e3, full', e4, e5, e7⟩
  obtain ⟨d3, p3, g0, g1, g2, g3, g4, g5, full3, g6, g7, g8⟩ := stage
  rw [hd2]; simp only; rw [g0]
  simp only [Digest.writeTail]
  by_cases hp3 : p3.length > 0
  · rw [if_pos hp3]
    have h0 : d3.nx = 0 := by
      rcases g5 with h | h
      · exact h
      · rw [h] at hp3; simp at hp3
    have hm : min 64 p3.length = p3.length := by omega
    refine ⟨by simp [g2, e2]; omega, by simp only; rw [g1, e1, hlen1], full3, ?_, g7, by simp only; omega, g8⟩
    simp only [hm]
    rw [List.take_append_of_le_length (by simp; omega), List.take_take,
      show min p3.length 64 = p3.length by omega, List.take_length, g6, h0]
    simp
  · rw [if_neg hp3]
    have hp0 : p3 = [] := List.length_eq_zero_iff.mp (by omega)
    exact ⟨by rw [g2, e2], by rw [g1, e1, hlen1], full3, by rw [g6, hp0]; simp, g7,
      by rw [g3]; exact e6, g8⟩

theorem padding_eq (n : Nat) :
    padding (UInt64.ofNat n) = 0x80 :: List.replicate (zeros n) 0 := by
  have hm : (UInt64.ofNat n % 64).toNat = n % 64 := by
    rw [UInt64.toNat_mod, UInt64.toNat_ofNat', show (64 : UInt64).toNat = 64 from rfl,
      show (2 ^ 64 : Nat) = 64 * 2 ^ 58 from rfl, Nat.mod_mul_right_mod]
  unfold padding zeros
  simp only [hm]
  have hlt := Nat.mod_lt n (show 0 < 64 by decide)
  split
  · rw [show 56 - n % 64 = (55 - n % 64) + 1 by omega, List.take_succ_cons, List.take_replicate]
    congr 2; omega
  · rw [show 64 + 56 - n % 64 = (119 - n % 64) + 1 by omega, List.take_succ_cons, List.take_replicate]
    congr 2; omega

theorem lenField_eq (n : Nat) :
    beBytes 8 (UInt64.ofNat n <<< 3).toNat = beBytes 8 (8 * n) := by
  have h1 : (UInt64.ofNat n <<< 3).toNat = 8 * n % 256 ^ 8 := by
    rw [UInt64.toNat_shiftLeft, UInt64.toNat_ofNat']
    simp only [Nat.shiftLeft_eq]
    rw [show (UInt64.toNat 3 % 64) = 3 from rfl]
    omega
  apply ofBytes_inj
  · simp
  · rw [ofBytes_beBytes, ofBytes_beBytes, h1, Nat.mod_mod]

theorem pad_length (m : Bytes) : 64 ∣ (pad m).length := by
  unfold pad zeros
  simp only [List.length_append, List.length_cons, List.length_replicate, beBytes_length]
  omega

theorem bytes_eq (v : V) :
    v.bytes = (List.finRange 8).flatMap fun i => beBytes 4 (ofV v i).toNat := by
  simp [V.bytes, List.finRange, ofV, List.ofFn]
  rfl

theorem checkSum_of_inv {d : Digest} {data : Bytes} (h : Inv d data) :
    d.checkSum = .ok (sm3 data) := by
  have h2 := inv_write (inv_write h (padding d.len)) (beBytes 8 (d.len <<< 3).toNat)
  have hpad : data ++ padding d.len ++ beBytes 8 (d.len <<< 3).toNat = pad data := by
    rw [h.len, padding_eq, lenField_eq]; simp [pad]
  rw [hpad] at h2
  obtain ⟨hx, -, full, e1, e2, e3, e4⟩ := h2
  unfold Digest.checkSum
  simp only
  generalize ((d.write (padding d.len)).write (beBytes 8 (d.len <<< 3).toNat)) = d2 at *
  have hd := pad_length data
  have h0 : d2.nx = 0 := by
    have : (pad data).length = full.length + d2.nx := by
      rw [e1, List.length_append, List.length_take]; omega
    omega
  rw [if_neg (by simp [h0])]
  rw [h0] at e1
  simp only [List.take_zero, List.append_nil] at e1
  rw [e4, ← e1, bytes_eq, sm3]
  congr 1
  unfold block
  rw [ofV_blockN _ _ (by omega)]

theorem sumR_eq (m : Bytes) : sumR m = .ok (sm3 m) := by
  have h := inv_write inv_new m
  rw [List.nil_append] at h
  rw [sumR, checkSum_of_inv h]

theorem sm3_length (m : Bytes) : (Sm3Spec.sm3 m).length = 32 := by
  rw [sm3]
  generalize iter (pad m) ((pad m).length / 64) = r
  rw [List.length_flatMap]
  simp only [beBytes_length]
  rfl

/-! ### Total versions: the calls never fail (see C04/C05) -/

/-- Value of a call that cannot fail. -/
def val (r : Res Bytes) : Bytes :=
  match r with
  | .ok b => b
  | _ => []

/-- `sm3.Sum(data)` (sm3.go:193-198) as a plain function; justified by `sumR_eq`. -/
def sum (data : Bytes) : Bytes := val (sumR data)

/-- `h.Sum(nil)` (sm3.go:80-85) as a plain function; justified by `checkSum_of_inv`. -/
def Digest.sumNil (d : Digest) : Bytes := val (d.sum [])

theorem sum_eq (m : Bytes) : sum m = Sm3Spec.sm3 m := by
  unfold sum; rw [sumR_eq]; rfl
@[simp] theorem sum_length (m : Bytes) : (sum m).length = 32 := by rw [sum_eq, sm3_length]

theorem sumNil_of_inv {d : Digest} {data : Bytes} (h : Inv d data) : d.sumNil = Sm3Spec.sm3 data := by
  unfold Digest.sumNil Digest.sum
  rw [checkSum_of_inv h]
  simp [val]

end MCrypto.Sm3
