import Verif.Utf
import Verif.Der.Model
/-
Specification of the string syntaxes used in certificates (C48, C49, C50, C65): X.680 string types, host names,
RFC 2821 mailboxes, address masks. Independent of the code.
-/
namespace MCrypto.X509Spec
open MCrypto

/-- The bits of a byte string, most significant first. -/
def bitsOf (b : Bytes) : List Bool := b.flatMap fun x => (List.range 8).map fun i => x.toNat.testBit (7 - i)

def asciiLetter (c : Nat) : Prop := ('a'.toNat ≤ c ∧ c ≤ 'z'.toNat) ∨ ('A'.toNat ≤ c ∧ c ≤ 'Z'.toNat)
def asciiDigit (c : Nat) : Prop := '0'.toNat ≤ c ∧ c ≤ '9'.toNat

instance (c : Nat) : Decidable (asciiLetter c) := inferInstanceAs (Decidable (_ ∨ _))
instance (c : Nat) : Decidable (asciiDigit c) := inferInstanceAs (Decidable (_ ∧ _))

/-- X.680 41.4, PrintableString, and the two characters `*` and `&` that are tolerated besides. -/
def printableChar (c : Nat) : Prop :=
  asciiLetter c ∨ asciiDigit c ∨
  c ∈ [' ', '\'', '(', ')', '+', ',', '-', '.', '/', ':', '=', '?', '*', '&'].map Char.toNat

/-- X.680 41.2, NumericString. -/
def numericChar (c : Nat) : Prop := asciiDigit c ∨ c = ' '.toNat

instance (c : Nat) : Decidable (printableChar c) := inferInstanceAs (Decidable (_ ∨ _))
instance (c : Nat) : Decidable (numericChar c) := inferInstanceAs (Decidable (_ ∨ _))

/-- Big-endian 16-bit code units. -/
def be16 (us : List Nat) : Bytes := us.flatMap fun u => [UInt8.ofNat (u / 256), UInt8.ofNat (u % 256)]

/-- What a string of each type denotes (as UTF-8): tag, contents, value. -/
def StringValue (tag : Der.Tag) (body value : Bytes) : Prop :=
  (tag = 20 ∧ value = body) ∨                                                            -- T61String: anything
  (tag = 19 ∧ (∀ b ∈ body, printableChar b.toNat) ∧ value = body) ∨                      -- PrintableString
  (tag = 12 ∧ Utf.Valid body ∧ value = body) ∨                                           -- UTF8String
  (tag = 22 ∧ (∀ b ∈ body, b.toNat < 128) ∧ value = body) ∨                              -- IA5String
  (tag = 18 ∧ (∀ b ∈ body, numericChar b.toNat) ∧ value = body) ∨                        -- NumericString
  (tag = 30 ∧ ∃ us : List Nat, (∀ u ∈ us, u < 65536) ∧                                   -- BMPString, perhaps with
    (body = be16 (us ++ [0]) ∨ (us.getLast? ≠ some 0 ∧ body = be16 us)) ∧                -- a terminating zero
    value = (Utf.decode16 us).flatMap Utf.encodeRune)

/-- A label of a host name: printable ASCII without space and period, not empty. -/
def Label (l : Bytes) : Prop := l ≠ [] ∧ ∀ b ∈ l, 33 ≤ b.toNat ∧ b.toNat ≤ 126 ∧ b ≠ 46

/-- Labels joined by periods. -/
def joinDots (ls : List Bytes) : Bytes := (ls.intersperse [46]).flatten

/-- The contents of a quoted string (RFC 2822 3.2.5, obsolete characters included) and the text it stands for. -/
inductive Quoted : Bytes → Bytes → Prop
  | nil : Quoted [] []
  | text (c : UInt8) (q l : Bytes) :
      (c.toNat ≠ 0 ∧ c.toNat < 128 ∧ c ≠ 9 ∧ c ≠ 10 ∧ c ≠ 13 ∧ c ≠ 34 ∧ c ≠ 92) → Quoted q l → Quoted (c :: q) (c :: l)
  | pair (c : UInt8) (q l : Bytes) :
      (c.toNat ≠ 0 ∧ c.toNat < 128 ∧ c ≠ 10 ∧ c ≠ 13) → Quoted q l → Quoted (92 :: c :: q) (c :: l)

/-- RFC 2822 3.2.4: atext. -/
def atext (c : Nat) : Prop :=
  asciiLetter c ∨ asciiDigit c ∨
  c ∈ ['!', '#', '$', '%', '&', '\'', '*', '+', '-', '/', '=', '?', '^', '_', '`', '{', '|', '}', '~'].map Char.toNat

instance (c : Nat) : Decidable (atext c) := inferInstanceAs (Decidable (_ ∨ _))

/-- An unquoted local part (atext, periods, and any character escaped by a backslash) and the text it stands
for. -/
inductive Dotted : Bytes → Bytes → Prop
  | nil : Dotted [] []
  | text (c : UInt8) (q l : Bytes) : (atext c.toNat ∨ c = 46) → Dotted q l → Dotted (c :: q) (c :: l)
  | pair (c : UInt8) (q l : Bytes) : Dotted q l → Dotted (92 :: c :: q) (c :: l)

/-- No empty component between periods, at the beginning or at the end. -/
def DotAtom (l : Bytes) : Prop :=
  l ≠ [] ∧ l.head? ≠ some 46 ∧ l.getLast? ≠ some 46 ∧ ¬ ∃ a b, l = a ++ 46 :: 46 :: b

/-- A host name: labels joined by periods; a leading period and the empty name are tolerated. -/
def HostName (d : Bytes) : Prop :=
  ∃ ls : List Bytes, (∀ l ∈ ls, Label l) ∧ (d = joinDots ls ∨ (ls ≠ [] ∧ d = 46 :: joinDots ls))

/-- `s` is the mailbox with the given local part (unescaped) and domain. -/
def Mailbox (s loc domain : Bytes) : Prop :=
  HostName domain ∧
  ((∃ q, Quoted q loc ∧ s = 34 :: (q ++ 34 :: 64 :: domain)) ∨
   (∃ q, Dotted q loc ∧ DotAtom loc ∧ s = q ++ 64 :: domain))

end MCrypto.X509Spec
