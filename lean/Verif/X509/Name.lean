import Verif.Asn1.Model
/-
Times, attribute values and `pkix.Name` (crypto/x509/pkix of Go 1.18, a dependency of /repo modelled from its published
source): the type of `Certificate.Issuer`, `Certificate.Subject` (x509.go:830-831) and `CertificateRequest.Subject`
(x509.go:1923). x509 calls `ToRDNSequence` when it makes a certificate, a list or a request (x509.go:1540, 1867, 2167, 2368)
and `FillFromRDNSequence` when it has parsed one (parser.go:1085, 1105; x509.go:2259).
-/
namespace MCrypto.X509
open MCrypto MCrypto.Asn1

/-- `time.Time` to the second: the calendar fields in its zone, and the offset of the zone from UTC in minutes. -/
structure Time where
  year : Nat
  month : Nat
  day : Nat
  hour : Nat
  minute : Nat
  second : Nat
  offset : Int := 0
  deriving DecidableEq, Repr

/-- `pkix.AttributeTypeAndValue` with a string value. -/
structure Atv where
  type : Oid
  value : Bytes
  deriving DecidableEq, Repr

/-- A value of type `interface{}` as far as encoding/asn1 makes or marshals it here. -/
inductive AnyValue where
  | nil
  | str (s : Bytes)
  | int (n : Int)
  | bits (b : BitString)
  | oid (o : Oid)
  | time (t : Time)
  | octets (b : Bytes)
  deriving DecidableEq, Repr

/-- `pkix.AttributeTypeAndValue` -/
structure AtvAny where
  type : Oid
  value : AnyValue
  deriving DecidableEq, Repr

/-- A name whose attribute values are strings. -/
def toAny (n : List (List Atv)) : List (List AtvAny) := n.map fun s => s.map fun a => ⟨a.type, .str a.value⟩

/-! ## pkix.Name -/

/-- `pkix.Name` -/
structure Name where
  country : List Bytes := []
  organization : List Bytes := []
  organizationalUnit : List Bytes := []
  locality : List Bytes := []
  province : List Bytes := []
  streetAddress : List Bytes := []
  postalCode : List Bytes := []
  serialNumber : Bytes := []
  commonName : Bytes := []
  names : List AtvAny := []
  extraNames : List AtvAny := []
  deriving DecidableEq, Repr

/-- `Name.appendRDNs` of pkix.go -/
def Name.appendRDNs (n : Name) (ret : List (List AtvAny)) (values : List Bytes) (o : Oid) : List (List AtvAny) :=
  if values.length = 0 || n.extraNames.any (fun a => a.type == o) then ret
  else ret ++ [values.map fun v => ⟨o, .str v⟩]

/-- `Name.ToRDNSequence` of pkix.go; called at x509.go:1540, 1867, 2167 and 2368. -/
def Name.toRDNSequence (n : Name) : List (List AtvAny) :=
  let ret := n.appendRDNs [] n.country [2, 5, 4, 6]
  let ret := n.appendRDNs ret n.organization [2, 5, 4, 10]
  let ret := n.appendRDNs ret n.organizationalUnit [2, 5, 4, 11]
  let ret := n.appendRDNs ret n.locality [2, 5, 4, 7]
  let ret := n.appendRDNs ret n.province [2, 5, 4, 8]
  let ret := n.appendRDNs ret n.streetAddress [2, 5, 4, 9]
  let ret := n.appendRDNs ret n.postalCode [2, 5, 4, 17]
  let ret := if n.commonName.length > 0 then n.appendRDNs ret [n.commonName] [2, 5, 4, 3] else ret
  let ret := if n.serialNumber.length > 0 then n.appendRDNs ret [n.serialNumber] [2, 5, 4, 5] else ret
  ret ++ n.extraNames.map fun a => [a]

/-- The body of the loops of `Name.FillFromRDNSequence` of pkix.go. -/
def Name.fillAtv (n : Name) (a : AtvAny) : Name :=
  let n := { n with names := n.names ++ [a] }
  match a.value with
  | .str v =>
    if a.type = [2, 5, 4, 3] then { n with commonName := v }
    else if a.type = [2, 5, 4, 5] then { n with serialNumber := v }
    else if a.type = [2, 5, 4, 6] then { n with country := n.country ++ [v] }
    else if a.type = [2, 5, 4, 7] then { n with locality := n.locality ++ [v] }
    else if a.type = [2, 5, 4, 8] then { n with province := n.province ++ [v] }
    else if a.type = [2, 5, 4, 9] then { n with streetAddress := n.streetAddress ++ [v] }
    else if a.type = [2, 5, 4, 10] then { n with organization := n.organization ++ [v] }
    else if a.type = [2, 5, 4, 11] then { n with organizationalUnit := n.organizationalUnit ++ [v] }
    else if a.type = [2, 5, 4, 17] then { n with postalCode := n.postalCode ++ [v] }
    else n
  | _ => n

/-- `Name.FillFromRDNSequence` of pkix.go on a zero `Name`; called at parser.go:1085, 1105 and x509.go:2259. -/
def Name.fromRDNSequence (rdns : List (List AtvAny)) : Name :=
  rdns.foldl (fun n rdn => rdn.foldl Name.fillAtv n) {}

end MCrypto.X509
