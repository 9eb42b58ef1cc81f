import Verif.X509.Cert
import Verif.Utf
/-
Model of the string handling of /repo/x509: parser.go:31-106 (ASN.1 strings), 397-428 (domain names), 514-538
(IP masks), 703-847 (RFC 2821 mailboxes) and x509.go:1210-1219 (IA5 strings).
Strings are byte strings; `range` over a string goes through Utf.runes.
-/
namespace MCrypto.X509
open MCrypto

/-- parser.go:33-52 -/
def isPrintable (b : UInt8) : Bool :=
  let c := b.toNat
  decide (97 ≤ c ∧ c ≤ 122) || decide (65 ≤ c ∧ c ≤ 90) || decide (48 ≤ c ∧ c ≤ 57) ||
  decide (39 ≤ c ∧ c ≤ 41) || decide (43 ≤ c ∧ c ≤ 47) || decide (c = 32) || decide (c = 58) ||
  decide (c = 61) || decide (c = 63) || decide (c = 42) || decide (c = 38)

/-- x509.go:1210-1219: true when the error is nil. -/
def isIA5String (s : Bytes) : Bool := (Utf.runes s).all fun r => decide (r ≤ 127)

/-- The 16-bit units of a BMPString: parser.go:84-88 -/
def units16 : Bytes → List Nat
  | a :: b :: t => (a.toNat * 256 + b.toNat) :: units16 t
  | _ => []

/-- parser.go:80-82: a final zero unit is dropped. -/
def stripTerminator (v : Bytes) : Bytes :=
  if v.length ≥ 2 ∧ v.getLastD 0 = 0 ∧ (v.dropLast).getLastD 0 = 0 then v.take (v.length - 2) else v

/-- `parseASN1String`: parser.go:58-106; `none` is an error. -/
def parseASN1String (tag : Der.Tag) (value : Bytes) : Option Bytes :=
  if tag = 0x14 then some value
  else if tag = 0x13 then (if value.all isPrintable then some value else none)
  else if tag = 0x0c then (if Utf.valid value then some value else none)
  else if tag = 0x1e then
    if value.length % 2 ≠ 0 then none
    else some (Utf.ofRunes (Utf.decode16 (units16 (stripTerminator value))))
  else if tag = 0x16 then (if isIA5String value then some value else none)
  else if tag = 0x12 then
    if value.all (fun b => decide (48 ≤ b.toNat ∧ b.toNat ≤ 57) || decide (b.toNat = 32)) then some value else none
  else none

/-- `strings.LastIndexByte(s, '.')`; `none` is -1. -/
def lastDot (s : Bytes) : Option Nat :=
  match (s.reverse).findIdx? (fun b => b == 46) with
  | some i => some (s.length - 1 - i)
  | none => none

/-- The first loop of `domainToReverseLabels`: parser.go:398-406. The counter bounds the iterations, each one
shortens the domain. -/
def reverseLabelsLoop : Nat → Bytes → List Bytes
  | 0, _ => []
  | n + 1, domain =>
    if domain.length = 0 then []
    else match lastDot domain with
      | none => [domain]
      | some i => domain.drop (i + 1) :: reverseLabelsLoop n (domain.take i)

/-- parser.go:413-426: the check of one label. -/
def labelOk (label : Bytes) : Bool :=
  !(label.length == 0) && (Utf.runes label).all (fun c => !(decide (c < 33) || decide (c > 126)))

/-- `domainToReverseLabels`: parser.go:397-428; `none` is `ok == false`. -/
def domainToReverseLabels (domain : Bytes) : Option (List Bytes) :=
  let labels := reverseLabelsLoop domain.length domain
  match labels with
  | [] => some []
  | l :: _ => if l.length = 0 then none else if labels.all labelOk then some labels else none

/-- `isValidIPMask`: parser.go:516-538 -/
def maskLoop : Bool → Bytes → Bool
  | _, [] => true
  | true, b :: t => if b ≠ 0 then false else maskLoop true t
  | false, b :: t =>
    if b ∈ [0x00, 0x80, 0xc0, 0xe0, 0xf0, 0xf8, 0xfc, 0xfe] then maskLoop true t
    else if b = 0xff then maskLoop false t
    else false

def isValidIPMask (mask : Bytes) : Bool := maskLoop false mask

/-- parser.go:749-752: characters that may follow a backslash in a quoted string. -/
def quotedPairChar (c : Nat) : Bool :=
  decide (c = 11) || decide (c = 12) || decide (1 ≤ c ∧ c ≤ 9) || decide (14 ≤ c ∧ c ≤ 127)

/-- parser.go:759-772: qtext. -/
def qtextChar (c : Nat) : Bool :=
  decide (c = 11) || decide (c = 12) || decide (c = 32) || decide (c = 33) || decide (c = 127) ||
  decide (1 ≤ c ∧ c ≤ 8) || decide (14 ≤ c ∧ c ≤ 31) || decide (35 ≤ c ∧ c ≤ 91) || decide (93 ≤ c ∧ c ≤ 126)

/-- The loop `QuotedString`: parser.go:732-779. Local part and what follows the closing quote. -/
def quotedLoop (acc : Bytes) : Bytes → Option (Bytes × Bytes)
  | [] => none
  | c :: t =>
    if c = 34 then some (acc, t)
    else if c = 92 then
      match t with
      | [] => none
      | d :: t' => if quotedPairChar d.toNat then quotedLoop (acc ++ [d]) t' else none
    else if qtextChar c.toNat then quotedLoop (acc ++ [c]) t
    else none

/-- parser.go:800-807: atext and the period. -/
def atomChar (c : Nat) : Bool :=
  decide (48 ≤ c ∧ c ≤ 57) || decide (97 ≤ c ∧ c ≤ 122) || decide (65 ≤ c ∧ c ≤ 90) ||
  decide (c ∈ [33, 35, 36, 37, 38, 39, 42, 43, 45, 47, 61, 63, 94, 95, 96, 123, 124, 125, 126, 46])

/-- The loop `NextChar`: parser.go:782-814. A backslash takes the next byte whatever it is. -/
def atomLoop (acc : Bytes) : Bytes → Option (Bytes × Bytes)
  | [] => some (acc, [])
  | c :: t =>
    if c = 92 then
      match t with
      | [] => none
      | d :: t' => atomLoop (acc ++ [d]) t'
    else if atomChar c.toNat then atomLoop (acc ++ [c]) t
    else some (acc, c :: t)

/-- `bytes.Contains(s, "..")` -/
def hasTwoDots : Bytes → Bool
  | a :: b :: t => (a == 46 && b == 46) || hasTwoDots (b :: t)
  | _ => false

/-- parser.go:816-829: the checks on an unquoted local part. -/
def atomLocalOk (l : Bytes) : Bool :=
  !(l.length == 0) && !(l.headD 0 == 46 || l.getLastD 0 == 46 || hasTwoDots l)

/-- The local part and the rest of the input: parser.go:713-830. -/
def mailboxLocal (inp : Bytes) : Option (Bytes × Bytes) :=
  match inp with
  | [] => none
  | c :: t =>
    if c = 34 then quotedLoop [] t
    else match atomLoop [] (c :: t) with
      | none => none
      | some (l, rest) => if atomLocalOk l then some (l, rest) else none

/-- What follows the local part: parser.go:832-846. -/
def mailboxDomain (l rest : Bytes) : Option (Bytes × Bytes) :=
  match rest with
  | [] => none
  | c :: domain =>
    if c ≠ 64 then none
    else match domainToReverseLabels domain with
      | none => none
      | some _ => some (l, domain)

/-- `parseRFC2821Mailbox`: parser.go:712-847; local part and domain. -/
def parseRFC2821Mailbox (inp : Bytes) : Option (Bytes × Bytes) :=
  match mailboxLocal inp with
  | none => none
  | some (l, rest) => mailboxDomain l rest

end MCrypto.X509
