import Verif.Base
/-
Textual encodings of binary data: base64 (RFC 4648 section 4) and the PEM format of RFC 7468, as relations between a text and what it stands
for. Independent of the model.
-/
namespace MCrypto.PemSpec
open MCrypto

/-- The value of a base64 character (RFC 4648, table 1). -/
def Value (c : UInt8) (v : Nat) : Prop :=
  (65 ≤ c.toNat ∧ c.toNat ≤ 90 ∧ v = c.toNat - 65) ∨ (97 ≤ c.toNat ∧ c.toNat ≤ 122 ∧ v = c.toNat - 97 + 26) ∨
  (48 ≤ c.toNat ∧ c.toNat ≤ 57 ∧ v = c.toNat - 48 + 52) ∨ (c = 43 ∧ v = 62) ∨ (c = 47 ∧ v = 63)

/-- `Base64 t d`: the characters `t` (without white space) encode `d`. Four characters are three octets; the last group may be two characters and
`==` for one octet or three characters and `=` for two, and then the four or two bits left over may have any value. -/
inductive Base64 : Bytes → Bytes → Prop
  | nil : Base64 [] []
  | group {w x y z : UInt8} {a b c d : Nat} {p q r : UInt8} {t l : Bytes} (hw : Value w a) (hx : Value x b) (hy : Value y c) (hz : Value z d)
      (h : p.toNat * 65536 + q.toNat * 256 + r.toNat = a * 262144 + b * 4096 + c * 64 + d) (ht : Base64 t l) :
      Base64 (w :: x :: y :: z :: t) (p :: q :: r :: l)
  | two {w x y : UInt8} {a b c e : Nat} {p q : UInt8} (hw : Value w a) (hx : Value x b) (hy : Value y c)
      (h : p.toNat * 1024 + q.toNat * 4 + e = a * 4096 + b * 64 + c) (he : e < 4) : Base64 [w, x, y, 61] [p, q]
  | one {w x : UInt8} {a b e : Nat} {p : UInt8} (hw : Value w a) (hx : Value x b)
      (h : p.toNat * 16 + e = a * 64 + b) (he : e < 16) : Base64 [w, x, 61, 61] [p]

/-- Space, tab, carriage return, line feed. -/
def white (c : UInt8) : Bool := c == 32 || c == 9 || c == 13 || c == 10

/-- Spaces and tabs. -/
def Blank (s : Bytes) : Prop := ∀ c ∈ s, c = 32 ∨ c = 9

/-- A line feed, with or without a carriage return before it. -/
def Eol (s : Bytes) : Prop := s = [10] ∨ s = [13, 10]

/-- The characters that occur in base64 data. -/
def Base64Char (c : UInt8) : Prop := c = 61 ∨ ∃ v, Value c v

/-- "-----BEGIN ", "-----END ", "-----" -/
def pemBegin : Bytes := [45, 45, 45, 45, 45, 66, 69, 71, 73, 78, 32]
def pemEnd : Bytes := [45, 45, 45, 45, 45, 69, 78, 68, 32]
def pemDashes : Bytes := [45, 45, 45, 45, 45]

/-- A header line of the older PEM format (RFC 1421): one line, with a colon. -/
def HeaderLine (h : Bytes) : Prop := ∃ l, h = l ++ [10] ∧ 10 ∉ l ∧ 58 ∈ l

/-- `Armour label d text`: `text` begins with a BEGIN line with the label, perhaps header lines, base64 data for `d` laid out with line ends and
blanks in any way, and an END line with the label. Anything may follow on further lines. (With header lines the data may be empty, but
not the line it is on.) -/
def Armour (label d text : Bytes) : Prop :=
  ∃ s₁ e₁ hs body s₂ rest, text = pemBegin ++ (label ++ (pemDashes ++ (s₁ ++ (e₁ ++ (hs.flatten ++ (body ++
      (pemEnd ++ (label ++ (pemDashes ++ (s₂ ++ rest)))))))))) ∧
    Blank s₁ ∧ Eol e₁ ∧ (∀ h ∈ hs, HeaderLine h) ∧ (body = [] ∧ hs = [] ∨ body.getLast? = some 10) ∧
    Base64 (body.filter fun c => !white c) d ∧ Blank s₂ ∧ (rest = [] ∨ ∃ e more, Eol e ∧ rest = e ++ more)

/-- `Holds label d text`: such a piece of text begins at the beginning of `text` or of a later line. -/
def Holds (label d text : Bytes) : Prop :=
  ∃ before piece, text = before ++ piece ∧ (before = [] ∨ before.getLast? = some 10) ∧ Armour label d piece

end MCrypto.PemSpec
