import Verif.Base
/-
RFC 2268 (RC2), written from the RFC's text: numbers are naturals with explicit "mod", the key buffer
is a function of the index defined by the RFC's recurrences. Nothing of the model is used here.
-/
namespace MCrypto.Rc2Spec

/-- RFC 2268 section 2, PITABLE. -/
def PITABLE : List Nat := [
  0xd9, 0x78, 0xf9, 0xc4, 0x19, 0xdd, 0xb5, 0xed, 0x28, 0xe9, 0xfd, 0x79, 0x4a, 0xa0, 0xd8, 0x9d,
  0xc6, 0x7e, 0x37, 0x83, 0x2b, 0x76, 0x53, 0x8e, 0x62, 0x4c, 0x64, 0x88, 0x44, 0x8b, 0xfb, 0xa2,
  0x17, 0x9a, 0x59, 0xf5, 0x87, 0xb3, 0x4f, 0x13, 0x61, 0x45, 0x6d, 0x8d, 0x09, 0x81, 0x7d, 0x32,
  0xbd, 0x8f, 0x40, 0xeb, 0x86, 0xb7, 0x7b, 0x0b, 0xf0, 0x95, 0x21, 0x22, 0x5c, 0x6b, 0x4e, 0x82,
  0x54, 0xd6, 0x65, 0x93, 0xce, 0x60, 0xb2, 0x1c, 0x73, 0x56, 0xc0, 0x14, 0xa7, 0x8c, 0xf1, 0xdc,
  0x12, 0x75, 0xca, 0x1f, 0x3b, 0xbe, 0xe4, 0xd1, 0x42, 0x3d, 0xd4, 0x30, 0xa3, 0x3c, 0xb6, 0x26,
  0x6f, 0xbf, 0x0e, 0xda, 0x46, 0x69, 0x07, 0x57, 0x27, 0xf2, 0x1d, 0x9b, 0xbc, 0x94, 0x43, 0x03,
  0xf8, 0x11, 0xc7, 0xf6, 0x90, 0xef, 0x3e, 0xe7, 0x06, 0xc3, 0xd5, 0x2f, 0xc8, 0x66, 0x1e, 0xd7,
  0x08, 0xe8, 0xea, 0xde, 0x80, 0x52, 0xee, 0xf7, 0x84, 0xaa, 0x72, 0xac, 0x35, 0x4d, 0x6a, 0x2a,
  0x96, 0x1a, 0xd2, 0x71, 0x5a, 0x15, 0x49, 0x74, 0x4b, 0x9f, 0xd0, 0x5e, 0x04, 0x18, 0xa4, 0xec,
  0xc2, 0xe0, 0x41, 0x6e, 0x0f, 0x51, 0xcb, 0xcc, 0x24, 0x91, 0xaf, 0x50, 0xa1, 0xf4, 0x70, 0x39,
  0x99, 0x7c, 0x3a, 0x85, 0x23, 0xb8, 0xb4, 0x7a, 0xfc, 0x02, 0x36, 0x5b, 0x25, 0x55, 0x97, 0x31,
  0x2d, 0x5d, 0xfa, 0x98, 0xe3, 0x8a, 0x92, 0xae, 0x05, 0xdf, 0x29, 0x10, 0x67, 0x6c, 0xba, 0xc9,
  0xd3, 0x00, 0xe6, 0xcf, 0xe1, 0x9e, 0xa8, 0x2c, 0x63, 0x16, 0x01, 0x3f, 0x58, 0xe2, 0x89, 0xa9,
  0x0d, 0x38, 0x34, 0x1b, 0xab, 0x33, 0xff, 0xb0, 0xbb, 0x48, 0x0c, 0x5f, 0xb9, 0xb1, 0xcd, 0x2e,
  0xc5, 0xf3, 0xdb, 0x47, 0xe5, 0xa5, 0x9c, 0x77, 0x0a, 0xa6, 0x20, 0x68, 0xfe, 0x7f, 0xc1, 0xad]

/-- Section 2, first loop: `L[i]` is the key byte for `i < T`, and for `i = T, …, 127`
`L[i] = PITABLE[L[i-1] + L[i-T]]` (addition modulo 256). -/
def L0 (key : List Nat) (i : Nat) : Nat :=
  if h : i < key.length ∨ key.length = 0 then key.getD i 0
  else PITABLE.getD ((L0 key (i - 1) + L0 key (i - key.length)) % 256) 0
termination_by i
decreasing_by all_goals omega

/-- T8 = ceiling(T1 / 8). -/
def T8 (T1 : Nat) : Nat := (T1 + 7) / 8

/-- TM = 255 MOD 2^(8 + T1 - 8*T8). -/
def TM (T1 : Nat) : Nat := 255 % 2 ^ (8 + T1 - 8 * T8 T1)

/-- Section 2, the middle step and the second loop: the final contents of `L[i]`.
`L[128-T8] = PITABLE[L[128-T8] & TM]`; for `i = 127-T8, …, 0`:
`L[i] = PITABLE[L[i+1] XOR L[i+T8]]`. -/
def L (key : List Nat) (T1 : Nat) (i : Nat) : Nat :=
  if _h1 : 128 - T8 T1 < i ∨ T8 T1 = 0 then L0 key i
  else if _h2 : i = 128 - T8 T1 then PITABLE.getD (L0 key i &&& TM T1) 0
  else PITABLE.getD (L key T1 (i + 1) ^^^ L key T1 (i + T8 T1)) 0
termination_by 128 - i
decreasing_by all_goals omega

/-- The 64 16-bit words `K[i] = L[2*i] + 256*L[2*i+1]`. -/
def K (key : List Nat) (T1 : Nat) (i : Nat) : Nat := L key T1 (2 * i) + 256 * L key T1 (2 * i + 1)

/-- `x rol k` on 16-bit words. -/
def rol (x k : Nat) : Nat := (x * 2 ^ k + x / 2 ^ (16 - k)) % 65536

/-- Bitwise complement of a 16-bit word. -/
def not16 (x : Nat) : Nat := 65535 - x

/-- The rotation amounts s[0..3]. -/
def s (i : Nat) : Nat := [1, 2, 3, 5].getD i 0

/-- Word `R[i]` of the four words. -/
abbrev Regs := Nat → Nat

def upd (R : Regs) (i v : Nat) : Regs := fun j => if j = i then v else R j

/-- Section 3.1 "mix up R[i]" with key word `Kj`; `R[i-1]` etc. are taken modulo 4. -/
def mixUp (K : Nat → Nat) (j : Nat) (R : Regs) (i : Nat) : Regs :=
  upd R i (rol ((R i + K j + (R ((i + 3) % 4) &&& R ((i + 2) % 4)) +
    (not16 (R ((i + 3) % 4)) &&& R ((i + 1) % 4))) % 65536) (s i))

/-- Section 3.2 mixing round number `n` (0-based): mix up R[0], R[1], R[2], R[3]; the key pointer is
`4*n` at its beginning since each mix-up advances it by one and mashing leaves it alone. -/
def mixingRound (K : Nat → Nat) (n : Nat) (R : Regs) : Regs :=
  mixUp K (4 * n + 3) (mixUp K (4 * n + 2) (mixUp K (4 * n + 1) (mixUp K (4 * n) R 0) 1) 2) 3

/-- Section 3.3 "mash R[i]": `R[i] = R[i] + K[R[i-1] & 63]`. -/
def mash1 (K : Nat → Nat) (R : Regs) (i : Nat) : Regs :=
  upd R i ((R i + K (R ((i + 3) % 4) &&& 63)) % 65536)

def mashingRound (K : Nat → Nat) (R : Regs) : Regs := mash1 K (mash1 K (mash1 K (mash1 K R 0) 1) 2) 3

/-- `cnt` consecutive mixing rounds starting at round number `n`. -/
def mixingRounds (K : Nat → Nat) : Nat → Nat → Regs → Regs
  | 0, _, R => R
  | c + 1, n, R => mixingRounds K c (n + 1) (mixingRound K n R)

/-- Section 3.4: five mixing rounds, a mashing round, six mixing rounds, a mashing round, five mixing
rounds. -/
def encryptRegs (K : Nat → Nat) (R : Regs) : Regs :=
  mixingRounds K 5 11 (mashingRound K (mixingRounds K 6 5 (mashingRound K (mixingRounds K 5 0 R))))

/-- Bytes to words, little-endian (section 3: "the first byte … low-order"). -/
def load (b : List Nat) : Regs := fun i => b.getD (2 * i) 0 + 256 * b.getD (2 * i + 1) 0

def store (R : Regs) : List Nat :=
  [R 0 % 256, R 0 / 256, R 1 % 256, R 1 / 256, R 2 % 256, R 2 / 256, R 3 % 256, R 3 / 256]

/-- RFC 2268 RC2 encryption of one 8-byte block with effective key length `T1` bits. -/
def encrypt (key : List Nat) (T1 : Nat) (block : List Nat) : List Nat :=
  store (encryptRegs (K key T1) (load block))

end MCrypto.Rc2Spec
