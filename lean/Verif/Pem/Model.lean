import Verif.Base
/-
Model of what `ParseCRL` (/repo/x509/x509.go:1820-1828) uses of Go's encoding/pem and encoding/base64 (Go 1.18): `pem.Decode`
and `base64.StdEncoding.Decode`, and of `pem.EncodeToMemory` for a block without headers.

Simplifications: of the result of `pem.Decode` the rest of the input is left out (`ParseCRL` drops it), header keys and values are not
trimmed (only whether there are any matters); the base64 decoder skips line ends wherever they occur, so the model removes
them first.
-/
namespace MCrypto.Pem
open MCrypto

/-! ## encoding/base64 -/

/-- "ABCDEFGHIJKLMNOPQRSTUVWXYZabcdefghijklmnopqrstuvwxyz0123456789+/" -/
def alphabet : Bytes := [
  65, 66, 67, 68, 69, 70, 71, 72, 73, 74, 75, 76, 77, 78, 79, 80, 81, 82, 83, 84, 85, 86, 87, 88, 89, 90,
  97, 98, 99, 100, 101, 102, 103, 104, 105, 106, 107, 108, 109, 110, 111, 112, 113, 114, 115, 116, 117, 118, 119, 120, 121, 122,
  48, 49, 50, 51, 52, 53, 54, 55, 56, 57, 43, 47]

/-- `decodeMap[c]`; `none` is 0xff. -/
def sextet (c : UInt8) : Option Nat :=
  let i := alphabet.idxOf c
  if i < alphabet.length then some i else none

/-- `decodeQuantum`, the conversion of four values to three octets. -/
def quantum (a b c d : Nat) : Bytes :=
  let val := a <<< 18 ||| b <<< 12 ||| c <<< 6 ||| d
  [UInt8.ofNat (val >>> 16), UInt8.ofNat (val >>> 8), UInt8.ofNat val]

/-- `base64.StdEncoding.Decode` on input without line ends: quanta of four characters; padding (61 is `=`) only in the last one, two
characters or one; the bits a padded quantum has to spare are ignored (the encoding is not `Strict`). -/
def decodeQuanta : Bytes → Option Bytes
  | [] => some []
  | w :: x :: y :: z :: r =>
    match sextet w, sextet x with
    | some a, some b =>
      match sextet y with
      | some c =>
        match sextet z with
        | some d =>
          match decodeQuanta r with
          | some l => some (quantum a b c d ++ l)
          | none => none
        | none => if z = 61 ∧ r = [] then some ((quantum a b c 0).take 2) else none
      | none => if y = 61 ∧ z = 61 ∧ r = [] then some ((quantum a b 0 0).take 1) else none
    | _, _ => none
  | _ => none

/-- `base64.StdEncoding.Decode` -/
def base64Decode (s : Bytes) : Option Bytes := decodeQuanta (s.filter fun c => c != 10 && c != 13)

/-! ## encoding/pem -/

/-- "-----BEGIN ", "-----END ", "-----" -/
def begin_ : Bytes := [45, 45, 45, 45, 45, 66, 69, 71, 73, 78, 32]
def end_ : Bytes := [45, 45, 45, 45, 45, 69, 78, 68, 32]
def dashes : Bytes := [45, 45, 45, 45, 45]

/-- `bytes.TrimRight(s, " \t")` -/
def trimRight (s : Bytes) : Bytes := (s.reverse.dropWhile fun c => c == 32 || c == 9).reverse

/-- `getLine`: the first line without its end and trailing blanks, and what follows it. -/
def getLine (data : Bytes) : Bytes × Bytes :=
  let line := data.takeWhile (· != 10)
  let after := data.dropWhile (· != 10)
  let line := if after ≠ [] ∧ line.getLast? = some 13 then line.dropLast else line
  (trimRight line, after.tail)

/-- `bytes.Cut`: before and after the first `sep`. -/
def cut (sep : Bytes) : Bytes → Option (Bytes × Bytes)
  | [] => if sep.isPrefixOf [] then some ([], []) else none
  | b :: t =>
    if sep.isPrefixOf (b :: t) then some ([], (b :: t).drop sep.length)
    else match cut sep t with
      | some (x, y) => some (b :: x, y)
      | none => none

/-- The start of a block: at the very beginning of the input, or after a line end. -/
def start (rest : Bytes) : Option Bytes :=
  if begin_.isPrefixOf rest then some (rest.drop begin_.length)
  else match cut (10 :: begin_) rest with
    | some (_, after) => some after
    | none => none

/-- The loop over the header lines, those with a colon: `none` at the end of the input, where `Decode` gives up. The counter bounds the
iterations, each of which consumes a line. -/
def headerLoop : Nat → Bytes → List (Bytes × Bytes) → Option (List (Bytes × Bytes) × Bytes)
  | 0, _, _ => none
  | n + 1, rest, hs =>
    if rest = [] then none
    else
      let (line, next) := getLine rest
      match cut [58] line with
      | none => some (hs, rest)
      | some (k, v) => headerLoop n next (hs ++ [(k, v)])

/-- `endIndex` and `endTrailerIndex`. -/
def endIndex (hs : List (Bytes × Bytes)) (rest : Bytes) : Option (Nat × Nat) :=
  if hs = [] ∧ end_.isPrefixOf rest then some (0, end_.length)
  else match cut (10 :: end_) rest with
    | some (x, _) => some (x.length, x.length + (end_.length + 1))
    | none => none

/-- `pem.Block` -/
structure Block where
  type : Bytes
  headers : List (Bytes × Bytes)
  bytes : Bytes
  deriving DecidableEq, Repr

/-- The outcome of one iteration of the loop of `Decode`: return nil, `continue`, return a block. -/
inductive Step where
  | stop
  | again (rest : Bytes)
  | found (b : Block)
  deriving DecidableEq, Repr

/-- What follows the header lines: the check of the END line and the decoding. -/
def finish (type : Bytes) (hs : List (Bytes × Bytes)) (rest : Bytes) : Step :=
  match endIndex hs rest with
  | none => .again rest
  | some (e, trailer) =>
    let endTrailer := rest.drop trailer
    let n := type.length + dashes.length
    if endTrailer.length < n then .again rest
    else if ¬ type.isPrefixOf (endTrailer.take n) ∨ ¬ dashes.isSuffixOf (endTrailer.take n) then .again rest
    else if (getLine (endTrailer.drop n)).1.length ≠ 0 then .again rest
    else match base64Decode ((rest.take e).filter fun c => c != 32 && c != 9) with
      | none => .again rest
      | some bytes => .found ⟨type, hs, bytes⟩

/-- One iteration. -/
def step (data : Bytes) : Step :=
  match start data with
  | none => .stop
  | some rest =>
    let (typeLine, rest) := getLine rest
    if ¬ dashes.isSuffixOf typeLine then .again rest
    else match headerLoop rest.length rest [] with
      | none => .stop
      | some (hs, rest) => finish (typeLine.take (typeLine.length - dashes.length)) hs rest

/-- The loop; the counter bounds the iterations (`again_shorter`: each one shortens the input). -/
def loop : Nat → Bytes → Option Block
  | 0, _ => none
  | n + 1, data =>
    match step data with
    | .stop => none
    | .again rest => loop n rest
    | .found b => some b

/-- `pem.Decode` -/
def decode (data : Bytes) : Option Block := loop (data.length + 1) data

/-! ## Encoding -/

/-- `base64.StdEncoding.EncodeToString` -/
def base64Encode : Bytes → Bytes
  | [] => []
  | [x] =>
    let v := x.toNat <<< 16
    [alphabet.getD ((v >>> 18) % 64) 0, alphabet.getD ((v >>> 12) % 64) 0, 61, 61]
  | [x, y] =>
    let v := x.toNat <<< 16 ||| y.toNat <<< 8
    [alphabet.getD ((v >>> 18) % 64) 0, alphabet.getD ((v >>> 12) % 64) 0, alphabet.getD ((v >>> 6) % 64) 0, 61]
  | x :: y :: z :: r =>
    let v := x.toNat <<< 16 ||| y.toNat <<< 8 ||| z.toNat
    alphabet.getD ((v >>> 18) % 64) 0 :: alphabet.getD ((v >>> 12) % 64) 0 :: alphabet.getD ((v >>> 6) % 64) 0 ::
      alphabet.getD (v % 64) 0 :: base64Encode r

/-- `lineBreaker`: a line end after every 64 characters and after the last line. -/
def breakLines : Nat → Bytes → Bytes
  | 0, _ => []
  | n + 1, s => if s = [] then [] else s.take 64 ++ 10 :: breakLines n (s.drop 64)

/-- `pem.EncodeToMemory` for a block without headers. -/
def encode (type bytes : Bytes) : Bytes :=
  let text := base64Encode bytes
  begin_ ++ (type ++ (dashes ++ (10 :: (breakLines text.length text ++ (end_ ++ (type ++ (dashes ++ [10])))))))

end MCrypto.Pem
