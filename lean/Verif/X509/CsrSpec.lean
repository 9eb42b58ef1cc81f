import Verif.X509.CertSpec
import Verif.X509.Create
/-
Specification for certificate requests: which attribute values survive, which extensions a template asks for, and how
they are merged into an attribute of the template.
-/
namespace MCrypto.X509Spec
open MCrypto MCrypto.Asn1
open MCrypto.X509 (Ext AnyValue AtvAny AttrSet CertificateRequest Url)

/-- Values of attributes that are read back as they were written: strings, octet strings, 64-bit integers and object
identifiers. -/
def AnyOk : AnyValue → Prop
  | .str _ => True
  | .octets _ => True
  | .int n => -(2 ^ 63 : Int) ≤ n ∧ n < 2 ^ 63
  | .oid o => OidOk o
  | _ => False

/-- Attributes that are read back. -/
def AtvOk (a : AtvAny) : Prop := OidOk a.type ∧ AnyOk a.value

/-- Sets of attributes that are read back. -/
def AttrOk (a : AttrSet) : Prop := OidOk a.type ∧ ∀ s ∈ a.value, ∀ x ∈ s, AtvOk x

/-- The same attribute, its values in any order. -/
def SameAttr (a b : AttrSet) : Prop := a.type = b.type ∧ a.value.Perm b.value

/-- PKCS #9 extensionRequest. -/
def extensionRequest : Oid := [1, 2, 840, 113549, 1, 9, 14]

/-- An extension read as an attribute type and value: the flag, if there is one, is in the place of the value. -/
def extAtv (x : Ext) : AtvAny := ⟨x.id, if x.critical then .nil else .octets x.value⟩

/-- The extensions a template asks for: a SubjectAltName with its names, unless it has none or gives a SubjectAltName
itself, and its extra extensions. -/
def RequestedExtensions (t : CertificateRequest) (exts : List Ext) : Prop :=
  if (t.dnsNames = [] ∧ t.emailAddresses = [] ∧ t.ipAddresses = [] ∧ t.uris = []) ∨ ∃ x ∈ t.extraExtensions, x.id = [2, 5, 29, 17]
  then exts = t.extraExtensions
  else ∃ v, exts = ⟨[2, 5, 29, 17], false, v⟩ :: t.extraExtensions ∧
    SanExt v (t.dnsNames.map (fun s => (0x82, s)) ++ t.emailAddresses.map (fun s => (0x81, s)) ++
      t.ipAddresses.map (fun ip => (0x87, (X509.to4 ip).getD ip)) ++ t.uris.map (fun u => (0x86, u.str)))

/-- The extensions that are added to an attribute that already has the extensions `l`: those with other identifiers. -/
def addedExts (exts : List Ext) (l : List (Oid × Bytes)) : List (Oid × Bytes) :=
  (exts.filter fun e => !(l.map (·.1)).contains e.id).map fun e => (e.id, e.value)

end MCrypto.X509Spec
