import Verif.Base
/-
RFC 7292 Appendix B.2, written from the RFC (lengths in bytes: the RFC's u/8, v/8). Independent of the
model's helpers; integers are handled as numbers, strings by their i-th byte.
-/
namespace MCrypto.Rfc7292
open MCrypto

/-- B.2 step 2/3: copies of `s` concatenated up to length `v * ceiling(|s| / v)`, the last copy
truncated; the empty string for an empty `s`. Byte `i` is byte `i mod |s|` of `s`. -/
def stretch (s : Bytes) (v : Nat) : Bytes :=
  (List.range (v * ((s.length + v - 1) / v))).map fun i => s.getD (i % s.length) 0

/-- `H^r(x)`, the r-th hash: H(H(… H(x))). -/
def iterH (H : Bytes → Bytes) : Nat → Bytes → Bytes
  | 0, x => x
  | r + 1, x => iterH H r (H x)

/-- The `j`-th `v`-byte block of `I`. -/
def block (v : Nat) (I : Bytes) (j : Nat) : Bytes := (I.drop (j * v)).take v

/-- B.2 step 6 B: `Ai` repeated up to exactly `v` bytes. -/
def mkB (v : Nat) (Ai : Bytes) : Bytes := (List.range v).map fun i => Ai.getD (i % Ai.length) 0

/-- B.2 step 6 C: every block `I_j` becomes `(I_j + B + 1) mod 2^v` (here `256^v`, `v` in bytes). -/
def nextI (v : Nat) (B I : Bytes) : Bytes :=
  (List.range (I.length / v)).flatMap fun j =>
    beBytes v ((ofBytes (block v I j) + ofBytes B + 1) % 256 ^ v)

/-- B.2 step 6 and 7: `A_1 || A_2 || … || A_c`. -/
def stream (H : Bytes → Bytes) (v r : Nat) (D : Bytes) : Nat → Bytes → Bytes
  | 0, _ => []
  | c + 1, I =>
    let Ai := iterH H r (D ++ I)
    Ai ++ stream H v r D c (nextI v (mkB v Ai) I)

/-- RFC 7292 B.2 with hash output length `u` bytes and block length `v` bytes. -/
def kdf (H : Bytes → Bytes) (u v : Nat) (salt password : Bytes) (r : Nat) (ID : UInt8) (n : Nat) : Bytes :=
  (stream H v r (List.replicate v ID) ((n + u - 1) / u) (stretch salt v ++ stretch password v)).take n

end MCrypto.Rfc7292
