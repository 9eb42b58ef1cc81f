import Verif.Der.Spec
/-
Specification of DER as `encoding/asn1` reads it (X.690 8.1, 8.3, 8.6, 8.19), in terms of octets and values only.
-/
namespace MCrypto.Dg
open MCrypto

/-- X.690 8.1.2.4.2 / 8.19.2: base-128 digits, all but the last with the top bit set. -/
def Septets : Bytes → Prop
  | [] => False
  | [x] => x.toNat < 128
  | x :: y :: r => 128 ≤ x.toNat ∧ Septets (y :: r)

/-- The value of base-128 digits. -/
def val128 : Bytes → Nat
  | [] => 0
  | x :: r => x.toNat % 128 * 128 ^ r.length + val128 r

/-- `b` is `n` in base 128 without leading zero digit. -/
def Arc (b : Bytes) (n : Nat) : Prop := Septets b ∧ b.head? ≠ some 0x80 ∧ val128 b = n

/-- Identifier and length octets announcing `n` contents octets; tag numbers and lengths are below 2^31. -/
def Header (h : Bytes) (n : Nat) : Prop :=
  ∃ t s l, h = t :: (s ++ l) ∧ ((t.toNat % 32 ≠ 31 ∧ s = []) ∨ (t.toNat % 32 = 31 ∧ ∃ m, Arc s m ∧ 31 ≤ m ∧ m < 2 ^ 31)) ∧
    DerSpec.IsLen l n ∧ n < 2 ^ 31

/-- An element with the one-octet tag `tag` and contents `body`. -/
def El (tag : UInt8) (body e : Bytes) : Prop := DerSpec.IsTLV e tag body ∧ body.length < 2 ^ 31

/-- Any element. -/
def AnyEl (e : Bytes) : Prop := ∃ h body, e = h ++ body ∧ Header h body.length

/-- The input is at its end, or goes on with a well-formed header. -/
def Goes (s : Bytes) : Prop := s = [] ∨ ∃ h n r, s = h ++ r ∧ Header h n

/-- An INTEGER. -/
def IntEl (n : Int) (e : Bytes) : Prop := ∃ b, El 0x02 b e ∧ DerSpec.IsInt b n

/-- An INTEGER of at most 64 bits. -/
def Int64El (n : Int) (e : Bytes) : Prop := IntEl n e ∧ -2 ^ 63 ≤ n ∧ n < 2 ^ 63

/-- X.690 8.19: contents of an object identifier; every subidentifier is below 2^31. -/
def IsOid (b : Bytes) (o : List Nat) : Prop :=
  ∃ a c l es, o = a :: c :: l ∧ (a < 2 ∧ c < 40 ∨ a = 2) ∧ b = es.flatten ∧ List.Forall₂ Arc es ((40 * a + c) :: l) ∧
    ∀ n ∈ (40 * a + c) :: l, n < 2 ^ 31

/-- An OBJECT IDENTIFIER. -/
def OidEl (o : List Nat) (e : Bytes) : Prop := ∃ b, El 0x06 b e ∧ IsOid b o

/-- X.690 8.6, 11.2: contents of a BIT STRING: octet count of unused bits, then the octets, unused bits zero. -/
def IsBits (b bytes : Bytes) (unused : Nat) : Prop :=
  ∃ p, b = p :: bytes ∧ p.toNat = unused ∧ unused ≤ 7 ∧ (bytes = [] → unused = 0) ∧ ofBytes bytes % 2 ^ unused = 0

/-- A BIT STRING read as octets, the unused bits shifted out. -/
def BitsEl (octets e : Bytes) : Prop :=
  ∃ b bytes unused, El 0x03 b e ∧ IsBits b bytes unused ∧ octets.length = bytes.length ∧
    ofBytes octets = ofBytes bytes / 2 ^ unused

/-- `s` is an element for which `P` holds followed by `r`, or the element, whose tag would be `tag`, is missing. -/
def Opt (tag : UInt8) (P : Bytes → Prop) (s r : Bytes) : Prop :=
  (∃ e, s = e ++ r ∧ P e) ∨ (s = r ∧ Goes r ∧ r.head? ≠ some tag)

/-- `s` is an element for which `P` holds inside an explicit constructed tag, followed by `r`. The length in the outer
header is not zero, but is not compared with that of the element. -/
def Expl (outer : UInt8) (P : Bytes → Prop) (s r : Bytes) : Prop :=
  ∃ h len e, s = h ++ (e ++ r) ∧ Header h len ∧ h.head? = some outer ∧ 0 < len ∧ P e

/-- An optional explicitly tagged element with inner tag `inner` is taken to be missing in front of `s`: at the end of
the input; if another element follows (`outer'` is the primitive form of `outer`); or if the explicit tag holds
an element of another type. -/
def NoExpl (outer outer' inner : UInt8) (s : Bytes) : Prop :=
  s = [] ∨ ∃ h len t, s = h ++ t ∧ Header h len ∧ t ≠ [] ∧
    ((h.head? ≠ some outer ∧ ¬ (h.head? = some outer' ∧ len = 0)) ∨
     (h.head? = some outer ∧ 0 < len ∧ Goes t ∧ t.head? ≠ some inner))

/-- `s` is the concatenation of elements standing for the values. -/
def Many {α : Type} (E : α → Bytes → Prop) (vs : List α) (s : Bytes) : Prop :=
  ∃ es, s = es.flatten ∧ List.Forall₂ (fun e v => E v e) es vs

/-- An algorithm identifier: object identifier and, unless the contents end there, parameters (any element). -/
def AlgEl (o : List Nat) (par e : Bytes) : Prop :=
  ∃ oe tr, El 0x30 (oe ++ (par ++ tr)) e ∧ OidEl o oe ∧ ((par = [] ∧ tr = []) ∨ AnyEl par)

end MCrypto.Dg
