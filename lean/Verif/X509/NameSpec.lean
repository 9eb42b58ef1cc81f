import Verif.X509.Name
/-
Specification of names (RFC 5280 4.1.2.4 and the documentation of `pkix.Name`): which fields a name read from relative
distinguished names has, the relative distinguished names of a name, and what is left of a name when it has been written
and read.
-/
namespace MCrypto.X509Spec
open MCrypto MCrypto.Asn1
open MCrypto.X509 (Name AtvAny AnyValue)

/-- The attribute types: X.520 2.5.4.n. -/
def atCommonName : Oid := [2, 5, 4, 3]
def atSerialNumber : Oid := [2, 5, 4, 5]
def atCountry : Oid := [2, 5, 4, 6]
def atLocality : Oid := [2, 5, 4, 7]
def atProvince : Oid := [2, 5, 4, 8]
def atStreetAddress : Oid := [2, 5, 4, 9]
def atOrganization : Oid := [2, 5, 4, 10]
def atOrganizationalUnit : Oid := [2, 5, 4, 11]
def atPostalCode : Oid := [2, 5, 4, 17]

/-- The strings among the values of the attributes of type `o`, in order. -/
def stringsOf (o : Oid) : List AtvAny → List Bytes
  | [] => []
  | ⟨t, .str v⟩ :: l => if t = o then v :: stringsOf o l else stringsOf o l
  | _ :: l => stringsOf o l

/-- The last of `l`, or the empty string. -/
def lastOf (l : List Bytes) : Bytes := l.getLast?.getD []

/-- `n` is what is read from the attributes `l`: all of them are in `Names`, each string of a known type in the field of
its type, where the last common name and the last serial number count. -/
structure NameFields (l : List AtvAny) (n : Name) : Prop where
  names : n.names = l
  extraNames : n.extraNames = []
  country : n.country = stringsOf atCountry l
  organization : n.organization = stringsOf atOrganization l
  organizationalUnit : n.organizationalUnit = stringsOf atOrganizationalUnit l
  locality : n.locality = stringsOf atLocality l
  province : n.province = stringsOf atProvince l
  streetAddress : n.streetAddress = stringsOf atStreetAddress l
  postalCode : n.postalCode = stringsOf atPostalCode l
  commonName : n.commonName = lastOf (stringsOf atCommonName l)
  serialNumber : n.serialNumber = lastOf (stringsOf atSerialNumber l)

/-- The fields of a name with their types, in the order in which they are written; empty single fields have no value. -/
def fieldTable (n : Name) : List (Oid × List Bytes) :=
  [(atCountry, n.country), (atOrganization, n.organization), (atOrganizationalUnit, n.organizationalUnit),
   (atLocality, n.locality), (atProvince, n.province), (atStreetAddress, n.streetAddress), (atPostalCode, n.postalCode),
   (atCommonName, if n.commonName = [] then [] else [n.commonName]),
   (atSerialNumber, if n.serialNumber = [] then [] else [n.serialNumber])]

/-- The relative distinguished names of a name: one for each field that has values and whose type is not among the extra
names, then one for each extra name. `Names` is not used. -/
def nameRdns (n : Name) : List (List AtvAny) :=
  ((fieldTable n).filter fun f => decide (f.2 ≠ [] ∧ ∀ a ∈ n.extraNames, a.type ≠ f.1)).map
      (fun f => f.2.map fun v => ⟨f.1, .str v⟩) ++
    n.extraNames.map fun a => [a]

/-- The values a name `n` with values `field` in the field of type `o` is written with: those of the field, unless there is
an extra name of that type, and those of the extra names. -/
def writtenValues (n : Name) (o : Oid) (field : List Bytes) : List Bytes :=
  (if ∃ a ∈ n.extraNames, a.type = o then [] else field) ++ stringsOf o n.extraNames

/-- `got` is what is left of the name `n` when it has been written and read: every field has the values it was written
with (several values of one field in any order), and the common name and serial number are the last ones. -/
structure KeepsName (n got : Name) : Prop where
  country : got.country.Perm (writtenValues n atCountry n.country)
  organization : got.organization.Perm (writtenValues n atOrganization n.organization)
  organizationalUnit : got.organizationalUnit.Perm (writtenValues n atOrganizationalUnit n.organizationalUnit)
  locality : got.locality.Perm (writtenValues n atLocality n.locality)
  province : got.province.Perm (writtenValues n atProvince n.province)
  streetAddress : got.streetAddress.Perm (writtenValues n atStreetAddress n.streetAddress)
  postalCode : got.postalCode.Perm (writtenValues n atPostalCode n.postalCode)
  commonName : got.commonName = lastOf (writtenValues n atCommonName [n.commonName])
  serialNumber : got.serialNumber = lastOf (writtenValues n atSerialNumber [n.serialNumber])
  extraNames : got.extraNames = []
  names : got.names.Perm (nameRdns n).flatten

end MCrypto.X509Spec
