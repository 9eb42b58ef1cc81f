import Verif.Pkcs12.Prims
/-
An instance of `Prims` written from the standards: SHA-1 (FIPS 180-4 section 6.1) and Triple-DES (FIPS
46-3, EDE with three keys). It models crypto/sha1 and crypto/des, which are not code of /repo; it shows
that the assumptions in `Prims` can be met, and by what.
-/
namespace MCrypto.Std
open MCrypto

/-! ## SHA-1 -/

abbrev W := BitVec 32

def w32 (b : Bytes) (i : Nat) : W := BitVec.ofNat 32 (ofBytes ((b.drop (4 * i)).take 4))

/-- FIPS 180-4 5.1.1 -/
def shaPad (m : Bytes) : Bytes :=
  m ++ 0x80 :: (List.replicate ((119 - m.length % 64) % 64) 0 ++ beBytes 8 (8 * m.length))

/-- 6.1.2 step 1: the message schedule, newest word first. -/
def schedule (blk : Bytes) : Nat → List W
  | 0 => (List.range 16).reverse.map (w32 blk)
  | n + 1 =>
    let w := schedule blk n
    ((w.getD 2 0 ^^^ w.getD 7 0 ^^^ w.getD 13 0 ^^^ w.getD 15 0).rotateLeft 1) :: w

structure H5 where
  (a b c d e : W)

/-- 4.1.1 and 4.2.1 -/
def fK (t : Nat) (x y z : W) : W × W :=
  if t < 20 then ((x &&& y) ^^^ (~~~x &&& z), 0x5a827999#32)
  else if t < 40 then (x ^^^ y ^^^ z, 0x6ed9eba1#32)
  else if t < 60 then ((x &&& y) ^^^ (x &&& z) ^^^ (y &&& z), 0x8f1bbcdc#32)
  else (x ^^^ y ^^^ z, 0xca62c1d6#32)

def round (s : H5) (t : Nat) (w : W) : H5 :=
  let f := fK t s.b s.c s.d
  ⟨s.a.rotateLeft 5 + f.1 + s.e + f.2 + w, s.a, s.b.rotateLeft 30, s.c, s.d⟩

def rounds : List W → Nat → H5 → H5
  | [], _, s => s
  | w :: ws, t, s => rounds ws (t + 1) (round s t w)

def block (h : H5) (blk : Bytes) : H5 :=
  let s := rounds (schedule blk 64).reverse 0 h
  ⟨h.a + s.a, h.b + s.b, h.c + s.c, h.d + s.d, h.e + s.e⟩

def blocks : Nat → Bytes → H5 → H5
  | 0, _, h => h
  | n + 1, b, h => blocks n (b.drop 64) (block h (b.take 64))

def sha1 (m : Bytes) : Bytes :=
  let p := shaPad m
  let h := blocks (p.length / 64) p ⟨0x67452301#32, 0xefcdab89#32, 0x98badcfe#32, 0x10325476#32, 0xc3d2e1f0#32⟩
  beBytes 4 h.a.toNat ++ beBytes 4 h.b.toNat ++ beBytes 4 h.c.toNat ++ beBytes 4 h.d.toNat ++ beBytes 4 h.e.toNat

theorem sha1_length (m : Bytes) : (sha1 m).length = 20 := by simp [sha1]

example : sha1 [0x61, 0x62, 0x63] =
    [0xa9, 0x99, 0x3e, 0x36, 0x47, 0x06, 0x81, 0x6a, 0xba, 0x3e, 0x25, 0x71, 0x78, 0x50, 0xc2, 0x6c,
     0x9c, 0xd0, 0xd8, 0x9d] := by decide +kernel

/-! ## DES -/

abbrev Bits := List Bool

def byteBits (b : UInt8) : Bits := (List.range 8).map fun i => b.toNat.testBit (7 - i)
def toBits (b : Bytes) : Bits := b.flatMap byteBits
def bitsNat (l : Bits) : Nat := l.foldl (fun a x => 2 * a + x.toNat) 0
def ofBits : Nat → Bits → Bytes
  | 0, _ => []
  | n + 1, l => UInt8.ofNat (bitsNat (l.take 8)) :: ofBits n (l.drop 8)

/-- Select the listed positions (numbered from 1, as in the standard). -/
def perm (t : List Nat) (x : Bits) : Bits := t.map fun i => x.getD (i - 1) false

def IP : List Nat := [
  58, 50, 42, 34, 26, 18, 10, 2, 60, 52, 44, 36, 28, 20, 12, 4,
  62, 54, 46, 38, 30, 22, 14, 6, 64, 56, 48, 40, 32, 24, 16, 8,
  57, 49, 41, 33, 25, 17, 9, 1, 59, 51, 43, 35, 27, 19, 11, 3,
  61, 53, 45, 37, 29, 21, 13, 5, 63, 55, 47, 39, 31, 23, 15, 7]
def FP : List Nat := [
  40, 8, 48, 16, 56, 24, 64, 32, 39, 7, 47, 15, 55, 23, 63, 31,
  38, 6, 46, 14, 54, 22, 62, 30, 37, 5, 45, 13, 53, 21, 61, 29,
  36, 4, 44, 12, 52, 20, 60, 28, 35, 3, 43, 11, 51, 19, 59, 27,
  34, 2, 42, 10, 50, 18, 58, 26, 33, 1, 41, 9, 49, 17, 57, 25]
def Etab : List Nat := [
  32, 1, 2, 3, 4, 5, 4, 5, 6, 7, 8, 9, 8, 9, 10, 11, 12, 13, 12, 13, 14, 15, 16, 17,
  16, 17, 18, 19, 20, 21, 20, 21, 22, 23, 24, 25, 24, 25, 26, 27, 28, 29, 28, 29, 30, 31, 32, 1]
def Ptab : List Nat := [
  16, 7, 20, 21, 29, 12, 28, 17, 1, 15, 23, 26, 5, 18, 31, 10,
  2, 8, 24, 14, 32, 27, 3, 9, 19, 13, 30, 6, 22, 11, 4, 25]
def PC1 : List Nat := [
  57, 49, 41, 33, 25, 17, 9, 1, 58, 50, 42, 34, 26, 18, 10, 2, 59, 51, 43, 35, 27, 19, 11, 3, 60, 52, 44, 36,
  63, 55, 47, 39, 31, 23, 15, 7, 62, 54, 46, 38, 30, 22, 14, 6, 61, 53, 45, 37, 29, 21, 13, 5, 28, 20, 12, 4]
def PC2 : List Nat := [
  14, 17, 11, 24, 1, 5, 3, 28, 15, 6, 21, 10, 23, 19, 12, 4, 26, 8, 16, 7, 27, 20, 13, 2,
  41, 52, 31, 37, 47, 55, 30, 40, 51, 45, 33, 48, 44, 49, 39, 56, 34, 53, 46, 42, 50, 36, 29, 32]
def shifts : List Nat := [1, 1, 2, 2, 2, 2, 2, 2, 1, 2, 2, 2, 2, 2, 2, 1]
def Stab : List (List Nat) := [
  [14, 4, 13, 1, 2, 15, 11, 8, 3, 10, 6, 12, 5, 9, 0, 7, 0, 15, 7, 4, 14, 2, 13, 1, 10, 6, 12, 11, 9, 5, 3, 8,
   4, 1, 14, 8, 13, 6, 2, 11, 15, 12, 9, 7, 3, 10, 5, 0, 15, 12, 8, 2, 4, 9, 1, 7, 5, 11, 3, 14, 10, 0, 6, 13],
  [15, 1, 8, 14, 6, 11, 3, 4, 9, 7, 2, 13, 12, 0, 5, 10, 3, 13, 4, 7, 15, 2, 8, 14, 12, 0, 1, 10, 6, 9, 11, 5,
   0, 14, 7, 11, 10, 4, 13, 1, 5, 8, 12, 6, 9, 3, 2, 15, 13, 8, 10, 1, 3, 15, 4, 2, 11, 6, 7, 12, 0, 5, 14, 9],
  [10, 0, 9, 14, 6, 3, 15, 5, 1, 13, 12, 7, 11, 4, 2, 8, 13, 7, 0, 9, 3, 4, 6, 10, 2, 8, 5, 14, 12, 11, 15, 1,
   13, 6, 4, 9, 8, 15, 3, 0, 11, 1, 2, 12, 5, 10, 14, 7, 1, 10, 13, 0, 6, 9, 8, 7, 4, 15, 14, 3, 11, 5, 2, 12],
  [7, 13, 14, 3, 0, 6, 9, 10, 1, 2, 8, 5, 11, 12, 4, 15, 13, 8, 11, 5, 6, 15, 0, 3, 4, 7, 2, 12, 1, 10, 14, 9,
   10, 6, 9, 0, 12, 11, 7, 13, 15, 1, 3, 14, 5, 2, 8, 4, 3, 15, 0, 6, 10, 1, 13, 8, 9, 4, 5, 11, 12, 7, 2, 14],
  [2, 12, 4, 1, 7, 10, 11, 6, 8, 5, 3, 15, 13, 0, 14, 9, 14, 11, 2, 12, 4, 7, 13, 1, 5, 0, 15, 10, 3, 9, 8, 6,
   4, 2, 1, 11, 10, 13, 7, 8, 15, 9, 12, 5, 6, 3, 0, 14, 11, 8, 12, 7, 1, 14, 2, 13, 6, 15, 0, 9, 10, 4, 5, 3],
  [12, 1, 10, 15, 9, 2, 6, 8, 0, 13, 3, 4, 14, 7, 5, 11, 10, 15, 4, 2, 7, 12, 9, 5, 6, 1, 13, 14, 0, 11, 3, 8,
   9, 14, 15, 5, 2, 8, 12, 3, 7, 0, 4, 10, 1, 13, 11, 6, 4, 3, 2, 12, 9, 5, 15, 10, 11, 14, 1, 7, 6, 0, 8, 13],
  [4, 11, 2, 14, 15, 0, 8, 13, 3, 12, 9, 7, 5, 10, 6, 1, 13, 0, 11, 7, 4, 9, 1, 10, 14, 3, 5, 12, 2, 15, 8, 6,
   1, 4, 11, 13, 12, 3, 7, 14, 10, 15, 6, 8, 0, 5, 9, 2, 6, 11, 13, 8, 1, 4, 10, 7, 9, 5, 0, 15, 14, 2, 3, 12],
  [13, 2, 8, 4, 6, 15, 11, 1, 10, 9, 3, 14, 5, 0, 12, 7, 1, 15, 13, 8, 10, 3, 7, 4, 12, 5, 6, 11, 0, 14, 9, 2,
   7, 11, 4, 1, 9, 12, 14, 2, 0, 6, 10, 13, 15, 3, 5, 8, 2, 1, 14, 7, 4, 10, 8, 13, 15, 12, 9, 0, 3, 5, 6, 11]]

def rotl (n : Nat) (x : Bits) : Bits := x.drop n ++ x.take n

/-- The 16 round keys of an 8-byte key. -/
def subkeys : List Nat → Bits → Bits → List Bits
  | [], _, _ => []
  | s :: ss, c, d => perm PC2 (rotl s c ++ rotl s d) :: subkeys ss (rotl s c) (rotl s d)

def roundKeys (key : Bytes) : List Bits :=
  let k := perm PC1 (toBits key)
  subkeys shifts (k.take 28) (k.drop 28)

def xorB (a b : Bits) : Bits := List.zipWith xor a b

/-- One S-box: row from the outer bits, column from the inner four. -/
def sbox (t : List Nat) (x : Bits) : Bits :=
  let row := 2 * (x.getD 0 false).toNat + (x.getD 5 false).toNat
  let col := bitsNat ((x.drop 1).take 4)
  let v := t.getD (16 * row + col) 0
  (List.range 4).map fun i => v.testBit (3 - i)

def sboxes : List (List Nat) → Bits → Bits
  | [], _ => []
  | t :: ts, x => sbox t (x.take 6) ++ sboxes ts (x.drop 6)

/-- The cipher function f(R, K). -/
def f (r k : Bits) : Bits := perm Ptab (sboxes Stab (xorB (perm Etab r) k))

def feistel : List Bits → Bits × Bits → Bits × Bits
  | [], x => x
  | k :: ks, (l, r) => feistel ks (r, xorB l (f r k))

def crypt (ks : List Bits) (b : Bytes) : Bytes :=
  let x := perm IP (toBits b)
  let y := feistel ks (x.take 32, x.drop 32)
  ofBits 8 (perm FP (y.2 ++ y.1))

def desEnc (key b : Bytes) : Bytes := crypt (roundKeys key) b
def desDec (key b : Bytes) : Bytes := crypt (roundKeys key).reverse b

example : desEnc [0x13, 0x34, 0x57, 0x79, 0x9b, 0xbc, 0xdf, 0xf1] [0x01, 0x23, 0x45, 0x67, 0x89, 0xab, 0xcd, 0xef] =
    [0x85, 0xe8, 0x13, 0x54, 0x0f, 0x0a, 0xb4, 0x05] := by decide +kernel

/-- EDE with three keys. -/
def tdesEnc (key b : Bytes) : Bytes :=
  desEnc (key.drop 16) (desDec ((key.drop 8).take 8) (desEnc (key.take 8) b))
def tdesDec (key b : Bytes) : Bytes :=
  desDec (key.take 8) (desEnc ((key.drop 8).take 8) (desDec (key.drop 16) b))

/-! ### Inverse -/

theorem xorB_xorB (a b : Bits) (h : a.length = b.length) : xorB (xorB a b) b = a := by
  unfold xorB
  induction a generalizing b with
  | nil => rfl
  | cons x a ih =>
    cases b with
    | nil => simp at h
    | cons y b =>
      simp only [List.zipWith_cons_cons, List.cons.injEq]
      exact ⟨by cases x <;> cases y <;> rfl, ih b (by simpa using h)⟩

theorem xorB_length (a b : Bits) (h : a.length = b.length) : (xorB a b).length = a.length := by
  simp [xorB, h]

theorem f_length (r k : Bits) : (f r k).length = 32 := by simp [f, perm, Ptab]

theorem feistel_append (ks : List Bits) (k : Bits) (x : Bits × Bits) :
    feistel (ks ++ [k]) x = ((feistel ks x).2, xorB (feistel ks x).1 (f (feistel ks x).2 k)) := by
  induction ks generalizing x with
  | nil => rfl
  | cons k' ks ih => obtain ⟨l, r⟩ := x; exact ih _

theorem feistel_length (ks : List Bits) (l r : Bits) (hl : l.length = 32) (hr : r.length = 32) :
    (feistel ks (l, r)).1.length = 32 ∧ (feistel ks (l, r)).2.length = 32 := by
  induction ks generalizing l r with
  | nil => exact ⟨hl, hr⟩
  | cons k ks ih => exact ih r _ hr (by rw [xorB_length _ _ (by rw [hl, f_length]), hl])

theorem feistel_reverse (ks : List Bits) (l r : Bits) (hl : l.length = 32) (hr : r.length = 32) :
    feistel ks.reverse ((feistel ks (l, r)).2, (feistel ks (l, r)).1) = (r, l) := by
  induction ks generalizing l r with
  | nil => rfl
  | cons k ks ih =>
    rw [List.reverse_cons, feistel_append]
    show ((feistel ks.reverse ((feistel ks (r, xorB l (f r k))).2, (feistel ks (r, xorB l (f r k))).1)).2, _) = _
    have hx : (xorB l (f r k)).length = 32 := by rw [xorB_length _ _ (by rw [hl, f_length]), hl]
    have hi := ih r (xorB l (f r k)) hr hx
    simp only [feistel, hi]
    rw [xorB_xorB _ _ (by rw [hl, f_length])]

theorem toBits_length (b : Bytes) : (toBits b).length = 8 * b.length := by
  induction b with
  | nil => rfl
  | cons x b ih => simp only [toBits, List.flatMap_cons, List.length_append] at ih ⊢; simp [ih, byteBits]; omega

theorem ofBits_length (n : Nat) (l : Bits) : (ofBits n l).length = n := by
  induction n generalizing l with
  | zero => rfl
  | succ n ih => simp [ofBits, ih]

theorem byteBits_ofBits (l : Bits) (h : l.length = 8) : byteBits (UInt8.ofNat (bitsNat l)) = l := by
  match l, h with
  | [a, b, c, d, e, f, g, i], _ =>
    revert a b c d e f g i; decide +kernel

theorem ofNat_byteBits (b : UInt8) : UInt8.ofNat (bitsNat (byteBits b)) = b := by
  have : ∀ n : Fin 256, UInt8.ofNat (bitsNat (byteBits (UInt8.ofNat n.val))) = UInt8.ofNat n.val := by
    decide +kernel
  have h := this ⟨b.toNat, b.toNat_lt⟩
  simpa using h

theorem toBits_ofBits (n : Nat) (l : Bits) (h : l.length = 8 * n) : toBits (ofBits n l) = l := by
  induction n generalizing l with
  | zero => simp [List.eq_nil_of_length_eq_zero (by omega : l.length = 0), ofBits, toBits]
  | succ n ih =>
    have := ih (l.drop 8) (by rw [List.length_drop]; omega)
    simp only [ofBits, toBits, List.flatMap_cons] at this ⊢
    rw [this, byteBits_ofBits _ (by rw [List.length_take]; omega), List.take_append_drop]

theorem ofBits_toBits (b : Bytes) : ofBits b.length (toBits b) = b := by
  induction b with
  | nil => rfl
  | cons x b ih =>
    have hl : (byteBits x).length = 8 := by simp [byteBits]
    simp only [List.length_cons, ofBits, toBits, List.flatMap_cons] at ih ⊢
    rw [List.take_append_of_le_length (by omega), List.take_of_length_le (by omega),
      List.drop_append_of_le_length (by omega), List.drop_of_length_le (by omega), List.nil_append, ih,
      ofNat_byteBits]

theorem perm_perm (s t : List Nat) (x : Bits) (hs : s.length = 64) (ht : t.length = 64) (hx : x.length = 64)
    (h : ∀ i : Fin 64, 1 ≤ s.getD i 0 ∧ s.getD i 0 ≤ 64 ∧ t.getD (s.getD i 0 - 1) 0 - 1 = i.val) :
    perm s (perm t x) = x := by
  apply List.ext_getElem
  · simp [perm, hs, hx]
  · intro i h1 h2
    have hi : i < 64 := by omega
    obtain ⟨ha, hb, hc⟩ := h ⟨i, hi⟩
    have es : s.getD i 0 = s[i]'(by omega) := by
      rw [List.getD_eq_getElem?_getD, List.getElem?_eq_getElem (by omega), Option.getD_some]
    simp only [es] at ha hb hc
    have et : t.getD (s[i]'(by omega) - 1) 0 = t[s[i]'(by omega) - 1]'(by omega) := by
      rw [List.getD_eq_getElem?_getD, List.getElem?_eq_getElem (by omega), Option.getD_some]
    rw [et] at hc
    simp only [perm, List.getElem_map]
    rw [List.getD_eq_getElem?_getD, List.getElem?_map, List.getElem?_eq_getElem (by omega)]
    simp only [Option.map_some, Option.getD_some]
    rw [hc, List.getD_eq_getElem?_getD, List.getElem?_eq_getElem h2, Option.getD_some]

theorem perm_FP_IP (x : Bits) (hx : x.length = 64) : perm FP (perm IP x) = x :=
  perm_perm FP IP x rfl rfl hx (by decide +kernel)

theorem perm_IP_FP (x : Bits) (hx : x.length = 64) : perm IP (perm FP x) = x :=
  perm_perm IP FP x rfl rfl hx (by decide +kernel)

theorem crypt_length (ks : List Bits) (b : Bytes) : (crypt ks b).length = 8 := ofBits_length _ _

theorem crypt_reverse (ks : List Bits) (b : Bytes) (hb : b.length = 8) : crypt ks.reverse (crypt ks b) = b := by
  have hx : (toBits b).length = 64 := by rw [toBits_length, hb]
  have hp : (perm IP (toBits b)).length = 64 := by simp [perm, IP]
  have ht : ((perm IP (toBits b)).take 32).length = 32 := by rw [List.length_take]; omega
  have hd : ((perm IP (toBits b)).drop 32).length = 32 := by rw [List.length_drop]; omega
  have hl := feistel_length ks _ _ ht hd
  have hr := feistel_reverse ks _ _ ht hd
  generalize hy : feistel ks ((perm IP (toBits b)).take 32, (perm IP (toBits b)).drop 32) = y at hl hr
  unfold crypt
  simp only [hy]
  have h64 : (perm FP (y.2 ++ y.1)).length = 8 * 8 := by simp [perm, FP]
  rw [toBits_ofBits 8 _ h64, perm_IP_FP _ (by rw [List.length_append]; omega),
    List.take_append_of_le_length (by omega), List.take_of_length_le (by omega),
    List.drop_append_of_le_length (by omega), List.drop_of_length_le (by omega), List.nil_append, hr]
  simp only [List.take_append_drop]
  rw [perm_FP_IP _ hx]
  have := ofBits_toBits b
  rwa [hb] at this

theorem desDec_desEnc (k b : Bytes) (hb : b.length = 8) : desDec k (desEnc k b) = b := crypt_reverse _ b hb
theorem desEnc_desDec (k b : Bytes) (hb : b.length = 8) : desEnc k (desDec k b) = b := by
  have := crypt_reverse (roundKeys k).reverse b hb
  rwa [List.reverse_reverse] at this

/-- The standard primitives. -/
def prims : P12.Prims where
  sha1 := sha1
  tdesEnc := tdesEnc
  tdesDec := tdesDec
  sha1_length := sha1_length
  tdesEnc_length := fun _ _ _ _ => crypt_length _ _
  tdesDec_length := fun _ _ _ _ => crypt_length _ _
  tdes_dec_enc := fun k b _ hb => by
    unfold tdesDec tdesEnc
    rw [desDec_desEnc _ (desDec _ _) (crypt_length _ _), desEnc_desDec _ (desEnc _ _) (crypt_length _ _),
      desDec_desEnc _ _ hb]
  tdes_enc_dec := fun k b _ hb => by
    unfold tdesDec tdesEnc
    rw [desEnc_desDec _ (desEnc _ _) (crypt_length _ _), desDec_desEnc _ (desDec _ _) (crypt_length _ _),
      desEnc_desDec _ _ hb]

end MCrypto.Std
