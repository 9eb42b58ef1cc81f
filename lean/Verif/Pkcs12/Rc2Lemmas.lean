import Verif.Pkcs12.Rc2
import Verif.Pkcs12.Rc2Spec
import Mathlib.Data.BitVec
import Mathlib.Tactic.Ring
import Mathlib.Tactic.IntervalCases
/-
Lemmas about the RC2 model: word level inverse of the rounds, and the key schedule against the RFC's
recurrences.
-/
namespace MCrypto.Rc2
open MCrypto

/-! ## Rotations -/

theorem rotl16_toNat (x : W) {b : Nat} (hb : b ≤ 16) : (rotl16 x b).toNat = Rc2Spec.rol x.toNat b := by
  unfold rotl16 Rc2Spec.rol
  rw [BitVec.toNat_or, BitVec.toNat_ushiftRight, BitVec.toNat_shiftLeft, Nat.shiftRight_eq_div_pow,
    Nat.shiftLeft_eq]
  have hx : x.toNat < 2 ^ 16 := x.isLt
  have hsplit : (2 : Nat) ^ 16 = 2 ^ (16 - b) * 2 ^ b := by rw [← Nat.pow_add]; congr 1; omega
  have hq : x.toNat / 2 ^ (16 - b) < 2 ^ b := by
    rw [Nat.div_lt_iff_lt_mul (Nat.two_pow_pos _), Nat.mul_comm, ← hsplit]; exact hx
  have hm : x.toNat * 2 ^ b % 2 ^ 16 = 2 ^ b * (x.toNat % 2 ^ (16 - b)) := by
    rw [hsplit, Nat.mul_mod_mul_right, Nat.mul_comm]
  rw [hm, Nat.or_comm, ← Nat.two_pow_add_eq_or_of_lt hq]
  have hlt : 2 ^ b * (x.toNat % 2 ^ (16 - b)) + x.toNat / 2 ^ (16 - b) < 2 ^ 16 := by
    have h1 : x.toNat % 2 ^ (16 - b) + 1 ≤ 2 ^ (16 - b) := Nat.mod_lt _ (Nat.two_pow_pos _)
    have h2 := Nat.mul_le_mul_left (2 ^ b) h1
    rw [Nat.mul_comm (2 ^ b) (2 ^ (16 - b)), ← hsplit, Nat.mul_add] at h2
    omega
  rw [← hm, show (65536 : Nat) = 2 ^ 16 from rfl, Nat.add_mod]
  rw [← hm] at hlt
  rw [Nat.mod_eq_of_lt (a := x.toNat / _) (Nat.lt_of_lt_of_le hq (Nat.pow_le_pow_right (by decide) hb)),
    Nat.mod_eq_of_lt hlt]

theorem rotl16_getLsbD (x : W) {b : Nat} (hb : b ≤ 16) (i : Nat) (hi : i < 16) :
    (rotl16 x b).getLsbD i = if i < b then x.getLsbD (i + 16 - b) else x.getLsbD (i - b) := by
  unfold rotl16
  rw [BitVec.getLsbD_or, BitVec.getLsbD_ushiftRight, BitVec.getLsbD_shiftLeft]
  by_cases h : i < b
  · simp [h, hi, show 16 - b + i = i + 16 - b by omega]
  · have : x.getLsbD (16 - b + i) = false := by
      apply BitVec.getLsbD_of_ge; omega
    simp [h, hi, this]

theorem rotl16_inv (x : W) {b : Nat} (hb : b ≤ 16) : rotl16 (rotl16 x b) (16 - b) = x := by
  apply BitVec.eq_of_getLsbD_eq
  intro i hi
  rw [rotl16_getLsbD _ (by omega) _ hi]
  split
  · rw [rotl16_getLsbD _ hb _ (by omega)]
    rw [if_neg (by omega)]; congr 1; omega
  · rw [rotl16_getLsbD _ hb _ (by omega), if_pos (by omega)]; congr 1; omega

theorem rotl16_inv' (x : W) {b : Nat} (hb : b ≤ 16) : rotl16 (rotl16 x (16 - b)) b = x := by
  have := rotl16_inv x (b := 16 - b) (by omega)
  rwa [show 16 - (16 - b) = b by omega] at this

/-! ## Rounds are inverse to each other -/

theorem unmix_mix (k : List W) (j : Nat) (s : S) : unmixRound k (j + 3) (mixRound k j s) = s := by
  unfold unmixRound mixRound
  simp only [rotl16_inv _ (show 1 ≤ 16 by decide), rotl16_inv _ (show 2 ≤ 16 by decide),
    rotl16_inv _ (show 3 ≤ 16 by decide), rotl16_inv _ (show 5 ≤ 16 by decide)]
  simp only [show j + 3 - 1 = j + 2 by omega, show j + 3 - 2 = j + 1 by omega,
    show j + 3 - 3 = j by omega]
  have h : ∀ a b c d : W, a + b + c + d - b - c - d = a := by intros; ring
  simp only [h]

theorem mix_unmix (k : List W) (j : Nat) (s : S) : mixRound k j (unmixRound k (j + 3) s) = s := by
  unfold unmixRound mixRound
  simp only [show j + 3 - 1 = j + 2 by omega, show j + 3 - 2 = j + 1 by omega,
    show j + 3 - 3 = j by omega]
  have h : ∀ a b c d : W, a - b - c - d + b + c + d = a := by intros; ring
  simp only [h, rotl16_inv' _ (show 1 ≤ 16 by decide), rotl16_inv' _ (show 2 ≤ 16 by decide),
    rotl16_inv' _ (show 3 ≤ 16 by decide), rotl16_inv' _ (show 5 ≤ 16 by decide)]

theorem unmash_mash (k : List W) (s : S) : unmash k (mash k s) = s := by
  unfold unmash mash
  have h : ∀ a b : W, a + b - b = a := by intros; ring
  simp only [h]

theorem mash_unmash (k : List W) (s : S) : mash k (unmash k s) = s := by
  unfold unmash mash
  have h : ∀ a b : W, a - b + b = a := by intros; ring
  simp only [h]

/-- Rounds `n, n+1, …, n+c-1` (round `n` uses key words `4n … 4n+3`). -/
def mixes (k : List W) : Nat → Nat → S → S
  | 0, _, s => s
  | c + 1, n, s => mixes k c (n + 1) (mixRound k (4 * n) s)

/-- The inverse: rounds `n+c-1, …, n`. -/
def unmixes (k : List W) : Nat → Nat → S → S
  | 0, _, s => s
  | c + 1, n, s => unmixRound k (4 * n + 3) (unmixes k c (n + 1) s)

theorem unmixes_mixes (k : List W) (c n : Nat) (s : S) : unmixes k c n (mixes k c n s) = s := by
  induction c generalizing n s with
  | zero => rfl
  | succ c ih => rw [mixes, unmixes, ih, unmix_mix]

theorem mixes_unmixes (k : List W) (c n : Nat) (s : S) : mixes k c n (unmixes k c n s) = s := by
  induction c generalizing n s with
  | zero => rfl
  | succ c ih => rw [unmixes, mixes, mix_unmix, ih]

theorem encS_eq (k : List W) (s : S) :
    encS k s = mixes k 5 11 (mash k (mixes k 6 5 (mash k (mixes k 5 0 s)))) := by
  simp [encS, mixWhile, mixes]

theorem decS_eq (k : List W) (s : S) :
    decS k s = unmixes k 5 0 (unmash k (unmixes k 6 5 (unmash k (unmixes k 5 11 s)))) := by
  simp [decS, unmixWhile, unmixes]

theorem decS_encS (k : List W) (s : S) : decS k (encS k s) = s := by
  rw [encS_eq, decS_eq, unmixes_mixes, unmash_mash, unmixes_mixes, unmash_mash, unmixes_mixes]

theorem encS_decS (k : List W) (s : S) : encS k (decS k s) = s := by
  rw [encS_eq, decS_eq, mixes_unmixes, mash_unmash, mixes_unmixes, mash_unmash, mixes_unmixes]

/-! ## Bytes and words -/

theorem loadW_toNat (b : Bytes) (i : Nat) :
    (loadW b i).toNat = (b.getD i 0).toNat + 256 * (b.getD (i + 1) 0).toNat := by
  unfold loadW
  have h1 := (b.getD i 0).toNat_lt
  have h2 := (b.getD (i + 1) 0).toNat_lt
  rw [BitVec.toNat_or, BitVec.toNat_shiftLeft, BitVec.toNat_ofNat, BitVec.toNat_ofNat,
    Nat.shiftLeft_eq, Nat.mod_eq_of_lt (a := UInt8.toNat _) (by omega),
    Nat.mod_eq_of_lt (a := UInt8.toNat _) (by omega), Nat.mod_eq_of_lt (by omega), Nat.or_comm,
    Nat.mul_comm, show (2 : Nat) ^ 8 = 256 from rfl]
  rw [show (256 : Nat) = 2 ^ 8 from rfl, ← Nat.two_pow_add_eq_or_of_lt h1]; omega

theorem storeW_loadW (b : Bytes) (i : Nat) : storeW (loadW b i) = [b.getD i 0, b.getD (i + 1) 0] := by
  have h := loadW_toNat b i
  have h1 := (b.getD i 0).toNat_lt
  have h2 := (b.getD (i + 1) 0).toNat_lt
  unfold storeW
  rw [BitVec.toNat_ushiftRight, h, Nat.shiftRight_eq_div_pow, show (2 : Nat) ^ 8 = 256 from rfl]
  congr 1
  · rw [← UInt8.toNat_inj, UInt8.toNat_ofNat']; omega
  · congr 1
    rw [← UInt8.toNat_inj, UInt8.toNat_ofNat']; omega

theorem loadW_storeW (w : W) : ∀ a b, storeW w = [a, b] → a.toNat + 256 * b.toNat = w.toNat := by
  intro a b h
  have hw : w.toNat < 65536 := w.isLt
  unfold storeW at h
  rw [BitVec.toNat_ushiftRight, Nat.shiftRight_eq_div_pow] at h
  simp only [List.cons.injEq, and_true] at h
  rw [← h.1, ← h.2, UInt8.toNat_ofNat', UInt8.toNat_ofNat']
  omega

theorem storeS_length (s : S) : (storeS s).length = 8 := by simp [storeS, storeW]

theorem loadS_storeS (s : S) : loadS (storeS s) = s := by
  obtain ⟨r0, r1, r2, r3⟩ := s
  simp only [loadS, S.mk.injEq]
  refine ⟨?_, ?_, ?_, ?_⟩ <;>
  · rw [← BitVec.toNat_inj, loadW_toNat]
    exact loadW_storeW _ _ _ rfl

theorem storeS_loadS {b : Bytes} (h : b.length = 8) : storeS (loadS b) = b := by
  match b, h with
  | [b0, b1, b2, b3, b4, b5, b6, b7], _ => simp [storeS, loadS, storeW_loadW]

/-! ## Rounds against RFC 2268 -/

/-- The registers as the RFC's `R`. -/
def regs (s : S) : Rc2Spec.Regs := fun i =>
  if i = 0 then s.r0.toNat else if i = 1 then s.r1.toNat else if i = 2 then s.r2.toNat
  else if i = 3 then s.r3.toNat else 0

theorem mixVal (x : W) (k : W) (a b c : W) (n : Nat) (hn : n ≤ 16) :
    (rotl16 (x + k + (a &&& b) + (~~~a &&& c)) n).toNat =
      Rc2Spec.rol ((x.toNat + k.toNat + (a.toNat &&& b.toNat) +
        (Rc2Spec.not16 a.toNat &&& c.toNat)) % 65536) n := by
  rw [rotl16_toNat _ hn]
  congr 1
  simp only [BitVec.toNat_add, BitVec.toNat_and, BitVec.toNat_not, Rc2Spec.not16]
  simp [Nat.add_mod]

theorem regs_mixRound (k : List W) (K : Nat → Nat) (n : Nat)
    (hK : ∀ i < 64, (kGet k i).toNat = K i) (hn : n < 16) (s : S) :
    Rc2Spec.mixingRound K n (regs s) = regs (mixRound k (4 * n) s) := by
  have k0 := hK (4 * n) (by omega)
  have k1 := hK (4 * n + 1) (by omega)
  have k2 := hK (4 * n + 2) (by omega)
  have k3 := hK (4 * n + 3) (by omega)
  funext i
  unfold Rc2Spec.mixingRound mixRound
  simp only [Rc2Spec.mixUp, Rc2Spec.upd, regs, ← k0, ← k1, ← k2, ← k3]
  simp only [Nat.reduceAdd, Nat.reduceMod, Rc2Spec.s, mixVal _ _ _ _ _ 1 (by decide),
    mixVal _ _ _ _ _ 2 (by decide), mixVal _ _ _ _ _ 3 (by decide), mixVal _ _ _ _ _ 5 (by decide)]
  by_cases h3 : i = 3
  · subst h3; simp
  by_cases h2 : i = 2
  · subst h2; simp
  by_cases h1 : i = 1
  · subst h1; simp
  by_cases h0 : i = 0
  · subst h0; simp
  simp [h0, h1, h2, h3]

theorem mashVal (k : List W) (K : Nat → Nat) (hK : ∀ i < 64, (kGet k i).toNat = K i) (x r : W) :
    (x + kGet k (r &&& 63#16).toNat).toNat = (x.toNat + K (r.toNat &&& 63)) % 65536 := by
  have hlt : (r &&& 63#16).toNat < 64 := by
    rw [BitVec.toNat_and]; exact Nat.lt_of_le_of_lt Nat.and_le_right (by decide)
  rw [BitVec.toNat_add, hK _ hlt, BitVec.toNat_and]; rfl

theorem regs_mash (k : List W) (K : Nat → Nat) (hK : ∀ i < 64, (kGet k i).toNat = K i) (s : S) :
    Rc2Spec.mashingRound K (regs s) = regs (mash k s) := by
  funext i
  unfold Rc2Spec.mashingRound mash
  simp only [Rc2Spec.mash1, Rc2Spec.upd, regs, Nat.reduceAdd, Nat.reduceMod]
  simp only [mashVal k K hK]
  by_cases h3 : i = 3
  · subst h3; simp
  by_cases h2 : i = 2
  · subst h2; simp
  by_cases h1 : i = 1
  · subst h1; simp
  by_cases h0 : i = 0
  · subst h0; simp
  simp [h0, h1, h2, h3]

theorem regs_mixes (k : List W) (K : Nat → Nat) (hK : ∀ i < 64, (kGet k i).toNat = K i)
    (c n : Nat) (h : n + c ≤ 16) (s : S) :
    Rc2Spec.mixingRounds K c n (regs s) = regs (mixes k c n s) := by
  induction c generalizing n s with
  | zero => rfl
  | succ c ih => rw [Rc2Spec.mixingRounds, mixes, regs_mixRound k K n hK (by omega), ih _ (by omega)]

theorem regs_encS (k : List W) (K : Nat → Nat) (hK : ∀ i < 64, (kGet k i).toNat = K i) (s : S) :
    Rc2Spec.encryptRegs K (regs s) = regs (encS k s) := by
  rw [encS_eq, Rc2Spec.encryptRegs, regs_mixes k K hK _ _ (by decide), regs_mash k K hK,
    regs_mixes k K hK _ _ (by decide), regs_mash k K hK, regs_mixes k K hK _ _ (by decide)]

theorem store_regs (s : S) : Rc2Spec.store (regs s) = (storeS s).map UInt8.toNat := by
  have h : ∀ w : W, (storeW w).map UInt8.toNat = [w.toNat % 256, w.toNat / 256] := by
    intro w
    have hw : w.toNat < 65536 := w.isLt
    simp [storeW, Nat.shiftRight_eq_div_pow]; omega
  simp [Rc2Spec.store, regs, storeS, h]

theorem getD_map_toNat (l : Bytes) (i : Nat) :
    (l.map UInt8.toNat).getD i 0 = (l.getD i 0).toNat := by
  simp only [List.getD_eq_getElem?_getD, List.getElem?_map]
  cases l[i]? <;> rfl

theorem load_map {b : Bytes} (h : b.length = 8) :
    Rc2Spec.load (b.map UInt8.toNat) = regs (loadS b) := by
  funext i
  unfold Rc2Spec.load regs loadS
  rw [getD_map_toNat, getD_map_toNat]
  split
  · subst_vars; rw [loadW_toNat]
  split
  · subst_vars; rw [loadW_toNat]
  split
  · subst_vars; rw [loadW_toNat]
  split
  · subst_vars; rw [loadW_toNat]
  · have hz : ∀ j, 8 ≤ j → b.getD j 0 = 0 := by
      intro j hj
      rw [List.getD_eq_getElem?_getD, List.getElem?_eq_none (by omega)]; rfl
    rw [hz _ (by omega), hz _ (by omega)]; rfl

/-! ## Key expansion -/

theorem pitable_eq : Rc2Spec.PITABLE = piTable.map UInt8.toNat := by decide +kernel

theorem pi_toNat (b : UInt8) : (pi b).toNat = Rc2Spec.PITABLE.getD b.toNat 0 := by
  rw [pitable_eq, getD_map_toNat]; rfl

theorem idx_ok {l : Bytes} {i : Nat} (h : i < l.length) : idx l (i : Int) = .ok (l.getD i 0) := by
  unfold idx
  rw [if_pos (by omega)]; rfl

theorem setIdx_ok {l : Bytes} {i : Nat} (h : i < l.length) (b : UInt8) :
    setIdx l (i : Int) b = .ok (l.set i b) := by
  unfold setIdx
  rw [if_pos (by omega)]; rfl

theorem getD_set (l : Bytes) (i j : Nat) (b : UInt8) (h : i < l.length) :
    (l.set i b).getD j 0 = if j = i then b else l.getD j 0 := by
  simp only [List.getD_eq_getElem?_getD, List.getElem?_set]
  by_cases hj : i = j
  · subst hj; simp [h]
  · rw [if_neg hj, if_neg (fun e => hj e.symm)]

theorem initL_length (key : Bytes) : (initL key).length = 128 := by
  simp [initL]

theorem initL_getD (key : Bytes) {i : Nat} (h : i < key.length) (hi : i < 128) :
    (initL key).getD i 0 = key.getD i 0 := by
  unfold initL
  simp only [List.getD_eq_getElem?_getD]
  rw [List.getElem?_take_of_lt hi, List.getElem?_append_left h]

theorem fwdLoop_spec (key : Bytes) (hk : key ≠ []) (n i : Nat) (l : Bytes) (hl : l.length = 128)
    (hi : key.length ≤ i) (hn : i + n = 128)
    (inv : ∀ m < i, (l.getD m 0).toNat = Rc2Spec.L0 (key.map UInt8.toNat) m) :
    ∃ l', fwdLoop key.length n i l = .ok l' ∧ l'.length = 128 ∧
      ∀ m < 128, (l'.getD m 0).toNat = Rc2Spec.L0 (key.map UInt8.toNat) m := by
  have hkl : 0 < key.length := List.length_pos_iff.mpr hk
  induction n generalizing i l with
  | zero => exact ⟨l, rfl, hl, fun m hm => inv m (by omega)⟩
  | succ n ih =>
    rw [fwdLoop, show ((i : Int) - 1) = ((i - 1 : Nat) : Int) by omega, idx_ok (by omega), Res.bind_ok,
      idx_ok (by omega), Res.bind_ok, setIdx_ok (by omega), Res.bind_ok]
    refine ih (i + 1) _ (by simpa using hl) (by omega) (by omega) ?_
    intro m hm
    rw [getD_set _ _ _ _ (by omega)]
    split
    · subst_vars
      rw [pi_toNat, UInt8.toNat_add, inv _ (by omega), inv _ (by omega)]
      conv => rhs; rw [Rc2Spec.L0]
      have hc : ¬ (m < (key.map UInt8.toNat).length ∨ (key.map UInt8.toNat).length = 0) := by
        rw [List.length_map]; omega
      rw [dif_neg hc, List.length_map, Nat.mod_eq_of_lt (show m - key.length < 256 by omega)]
    · exact inv m (by omega)

theorem bwdLoop_spec (key : List Nat) (T1 : Nat) (h1 : 1 ≤ T1) (h2 : T1 ≤ 1024) (i : Nat) (l : Bytes)
    (hl : l.length = 128) (hi : i ≤ 128 - Rc2Spec.T8 T1)
    (inv : ∀ m, i ≤ m → m < 128 → (l.getD m 0).toNat = Rc2Spec.L key T1 m) :
    ∃ l', bwdLoop (Rc2Spec.T8 T1 : Int) i l = .ok l' ∧ l'.length = 128 ∧
      ∀ m < 128, (l'.getD m 0).toNat = Rc2Spec.L key T1 m := by
  have hT : 1 ≤ Rc2Spec.T8 T1 ∧ Rc2Spec.T8 T1 ≤ 128 := by unfold Rc2Spec.T8; omega
  induction i generalizing l with
  | zero => exact ⟨l, rfl, hl, fun m hm => inv m (by omega) hm⟩
  | succ i ih =>
    rw [bwdLoop, show ((i : Int) + 1) = ((i + 1 : Nat) : Int) by omega, idx_ok (by omega), Res.bind_ok,
      show ((i : Int) + (Rc2Spec.T8 T1 : Nat)) = ((i + Rc2Spec.T8 T1 : Nat) : Int) by omega,
      idx_ok (by omega), Res.bind_ok, setIdx_ok (by omega), Res.bind_ok]
    refine ih _ (by simpa using hl) (by omega) ?_
    intro m hm hm'
    rw [getD_set _ _ _ _ (by omega)]
    split
    · subst_vars
      rw [pi_toNat, UInt8.toNat_xor, inv _ (by omega) (by omega), inv _ (by omega) (by omega)]
      conv => rhs; rw [Rc2Spec.L]
      rw [dif_neg (by omega), dif_neg (by omega)]
    · exact inv m (by omega) hm'

theorem tmOf_spec (T1 : Nat) (h1 : 1 ≤ T1) :
    ∃ tm, tmOf (T1 : Int) (Rc2Spec.T8 T1 : Int) = .ok tm ∧ tm.toNat = Rc2Spec.TM T1 := by
  have hT : T1 ≤ 8 * Rc2Spec.T8 T1 ∧ 8 * Rc2Spec.T8 T1 ≤ T1 + 7 := by unfold Rc2Spec.T8; omega
  have he : ((8 + (T1 : Int) - 8 * (Rc2Spec.T8 T1 : Int)) % (2 ^ 64 : Int)).toNat =
      8 + T1 - 8 * Rc2Spec.T8 T1 := by omega
  refine ⟨_, by unfold tmOf; simp only [he]; rw [if_pos (by omega)], ?_⟩
  rw [UInt8.toNat_ofNat', Rc2Spec.TM]
  exact Nat.mod_eq_of_lt (Nat.lt_of_le_of_lt (Nat.mod_le _ _) (by decide))

theorem expandKey_spec (key : Bytes) (T1 : Nat) (hk : key ≠ []) (hk' : key.length ≤ 128)
    (h1 : 1 ≤ T1) (h2 : T1 ≤ 1024) :
    ∃ k, expandKey key (T1 : Int) = .ok k ∧ k.length = 64 ∧
      ∀ i < 64, (kGet k i).toNat = Rc2Spec.K (key.map UInt8.toNat) T1 i := by
  have hT : 1 ≤ Rc2Spec.T8 T1 ∧ Rc2Spec.T8 T1 ≤ 128 := by unfold Rc2Spec.T8; omega
  have ht8 : Int.tdiv ((T1 : Int) + 7) 8 = (Rc2Spec.T8 T1 : Int) := by
    unfold Rc2Spec.T8; rw [Int.tdiv_eq_ediv_of_nonneg (by omega)]; omega
  obtain ⟨tm, htm, htm'⟩ := tmOf_spec T1 h1
  obtain ⟨l, hl, hll, hlv⟩ := fwdLoop_spec key hk (128 - key.length) key.length (initL key)
    (initL_length key) (Nat.le_refl _) (by omega) (by
      intro m hm
      rw [initL_getD _ hm (by omega), Rc2Spec.L0, dif_pos (Or.inl (by simpa using hm)), getD_map_toNat])
  have e128 : (128 - (Rc2Spec.T8 T1 : Int)) = ((128 - Rc2Spec.T8 T1 : Nat) : Int) := by omega
  obtain ⟨l', hb, hbl, hbv⟩ := bwdLoop_spec (key.map UInt8.toNat) T1 h1 h2 (128 - Rc2Spec.T8 T1)
    (l.set (128 - Rc2Spec.T8 T1) (pi (l.getD (128 - Rc2Spec.T8 T1) 0 &&& tm))) (by simpa using hll)
    (Nat.le_refl _) (by
      intro m hm hm'
      rw [getD_set _ _ _ _ (by omega), Rc2Spec.L]
      split
      · subst_vars
        rw [dif_neg (by omega), pi_toNat, UInt8.toNat_and, hlv _ (by omega), htm']
      · rw [dif_pos (by omega), hlv _ hm'])
  refine ⟨(List.range 64).map (wordOf l'), ?_, by simp, ?_⟩
  · unfold expandKey
    simp only [ht8, htm, Res.bind_ok, hl]
    rw [e128, idx_ok (by omega), Res.bind_ok, setIdx_ok (by omega), Res.bind_ok, Int.toNat_natCast, hb,
      Res.bind_ok]
  · intro i hi
    have hg : kGet ((List.range 64).map (wordOf l')) i = wordOf l' i := by
      simp [kGet, List.getD_eq_getElem?_getD, hi]
    rw [hg, Rc2Spec.K, ← hbv _ (by omega), ← hbv _ (by omega), wordOf]
    have a1 := (l'.getD (2 * i) 0).toNat_lt
    have a2 := (l'.getD (2 * i + 1) 0).toNat_lt
    simp only [BitVec.toNat_add, BitVec.toNat_mul, BitVec.toNat_ofNat]
    omega

/-! ## Outside the supported range -/

theorem fwdLoop_length (t n i : Nat) (l l' : Bytes) (h : fwdLoop t n i l = .ok l') : l'.length = l.length := by
  induction n generalizing i l with
  | zero => simp [fwdLoop] at h; rw [h]
  | succ n ih =>
    rw [fwdLoop] at h
    unfold idx setIdx at h
    split at h <;> try simp at h
    split at h <;> try simp at h
    split at h <;> try simp at h
    rw [ih _ _ h]; simp

theorem fwdLoop_not_err (t n i : Nat) (l : Bytes) (e : String) : fwdLoop t n i l ≠ .err e := by
  induction n generalizing i l with
  | zero => simp [fwdLoop]
  | succ n ih =>
    rw [fwdLoop]
    unfold idx setIdx
    split <;> try simp
    split <;> try simp
    split <;> try simp
    exact ih _ _

theorem idx_panic {l : Bytes} {i : Int} (h : ¬ (0 ≤ i ∧ i < l.length)) : idx l i = .panic := if_neg h

theorem expandKey_panic_of_t1 (key : Bytes) (t1 : Int) (h : t1 ≤ 0 ∨ 1024 < t1) :
    expandKey key t1 = .panic := by
  unfold expandKey
  simp only []
  cases htm : tmOf t1 (Int.tdiv (t1 + 7) 8) with
  | panic => rfl
  | err e => unfold tmOf at htm; simp only [] at htm; split at htm <;> simp at htm
  | ok tm =>
    rw [Res.bind_ok]
    cases hf : fwdLoop key.length (128 - key.length) key.length (initL key) with
    | panic => rfl
    | err e => exact absurd hf (fwdLoop_not_err _ _ _ _ _)
    | ok l =>
      have hl := fwdLoop_length _ _ _ _ _ hf
      rw [initL_length] at hl
      rw [Res.bind_ok, idx_panic, Res.bind_panic]
      rw [hl]
      rcases h with h | h
      · have : Int.tdiv (t1 + 7) 8 ≤ 0 := by
          rcases Int.lt_or_le (t1 + 7) 0 with h0 | h0
          · rw [← Int.neg_neg (t1 + 7), Int.neg_tdiv, Int.tdiv_eq_ediv_of_nonneg (by omega)]; omega
          · rw [Int.tdiv_eq_ediv_of_nonneg h0]; omega
        omega
      · have : 129 ≤ Int.tdiv (t1 + 7) 8 := by
          rw [Int.tdiv_eq_ediv_of_nonneg (by omega)]; omega
        omega

theorem expandKey_panic_of_nil (t1 : Int) : expandKey [] t1 = .panic := by
  unfold expandKey
  simp only []
  cases htm : tmOf t1 (Int.tdiv (t1 + 7) 8) with
  | panic => rfl
  | err e => unfold tmOf at htm; simp only [] at htm; split at htm <;> simp at htm
  | ok tm =>
    rw [Res.bind_ok]
    have : fwdLoop ([] : Bytes).length (128 - ([] : Bytes).length) ([] : Bytes).length (initL []) = .panic := by
      rw [show 128 - ([] : Bytes).length = 127 + 1 from rfl, fwdLoop, idx_panic (by simp)]; rfl
    rw [this]; rfl

theorem expandKey_long (key : Bytes) (t1 : Int) (h : 128 ≤ key.length) :
    expandKey key t1 = expandKey (key.take 128) t1 := by
  have hl : (key.take 128).length = 128 := by simp; omega
  have hi : initL key = initL (key.take 128) := by
    unfold initL
    rw [List.take_append_of_le_length h, List.take_append_of_le_length (by omega), List.take_take]; rfl
  unfold expandKey
  simp only [hi, hl, show 128 - key.length = 0 by omega, Nat.sub_self, fwdLoop]

end MCrypto.Rc2
