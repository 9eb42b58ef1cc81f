import Verif.X509.ListGrammar
import Verif.X509.CsrSpec
/-
Specification of the DER of certificate requests (RFC 2986) as the package reads it.
-/
namespace MCrypto.X509Spec
open MCrypto MCrypto.Dg
open MCrypto.X509 (Env Ext AtvAny AttrSet)

/-- An attribute whose values are sequences of types and values; something may follow in the sequence. -/
def AttrSetEl (a : AttrSet) (e : Bytes) : Prop :=
  ∃ oe se body junk, El 0x30 (oe ++ (se ++ junk)) e ∧ OidEl a.type oe ∧ El 0x31 body se ∧
    Many (fun s e => ∃ b, El 0x30 b e ∧ Many AtvEl s b) a.value body

/-- The attributes among the elements that have that form. -/
inductive AttributesAre : List Bytes → List AttrSet → Prop
  | nil : AttributesAre [] []
  | take (e : Bytes) (a : AttrSet) (es : List Bytes) (l : List AttrSet) :
      AttrSetEl a e → AttributesAre es l → AttributesAre (e :: es) (a :: l)
  | skip (e : Bytes) (es : List Bytes) (l : List AttrSet) :
      (¬ ∃ a, AttrSetEl a e) → AttributesAre es l → AttributesAre (e :: es) l

/-- An extensionRequest attribute (RFC 2985 5.4.2) whose first value is the element `first`. -/
def ExtReqEl (first e : Bytes) : Prop :=
  ∃ (oe se : Bytes) (es : List Bytes) (junk : Bytes), El 0x30 (oe ++ (se ++ junk)) e ∧ OidEl extensionRequest oe ∧ El 0x31 (first ++ es.flatten) se ∧
    AnyEl first ∧ ∀ x ∈ es, AnyEl x

/-- The extensions asked for: those of the first value of every extensionRequest attribute, one after the other. -/
inductive RequestsAre : List Bytes → List Ext → Prop
  | nil : RequestsAre [] []
  | take (e first : Bytes) (xs : List Ext) (es : List Bytes) (l : List Ext) :
      ExtReqEl first e → ExtsEl xs first → RequestsAre es l → RequestsAre (e :: es) (xs ++ l)
  | skip (e : Bytes) (es : List Bytes) (l : List Ext) :
      (¬ ∃ first, ExtReqEl first e) → RequestsAre es l → RequestsAre (e :: es) l

/-- The alternative names: every SubjectAltName extension is well formed, and the last one gives the names. -/
def SansAre (env : Env) (xs : List Ext) (names : List GName) : Prop :=
  (∀ x ∈ xs, x.id = [2, 5, 29, 17] → ∃ ns, SanExt x.value ns ∧ ∀ n ∈ ns, SanOk env n) ∧
  (((∀ x ∈ xs, x.id ≠ [2, 5, 29, 17]) ∧ names = []) ∨
    ∃ pre x post, xs = pre ++ x :: post ∧ x.id = [2, 5, 29, 17] ∧ SanExt x.value names ∧
      ∀ y ∈ post, y.id ≠ [2, 5, 29, 17])

/-- The contents of a request. -/
structure CsrFields where
  rawTbs : Bytes
  version : Int
  rawSubject : Bytes
  subject : List (List AtvAny)
  rawSpki : Bytes
  keyOid : List Nat
  keyPar : Bytes
  key : Bytes
  attributes : List Bytes
  algOid : List Nat
  algPar : Bytes
  signature : Bytes

/-- CertificationRequest (RFC 2986 4): version, subject, key, the attributes (mandatory, implicitly tagged), algorithm and
signature. Something may follow in either sequence, nothing after the request. -/
def CsrDer (der : Bytes) (f : CsrFields) : Prop :=
  ∃ ve ate ae be junk junk', El 0x30 (f.rawTbs ++ (ae ++ (be ++ junk'))) der ∧
    El 0x30 (ve ++ (f.rawSubject ++ (f.rawSpki ++ (ate ++ junk)))) f.rawTbs ∧
    Int64El f.version ve ∧ NameEl f.subject f.rawSubject ∧ PkixDer f.rawSpki f.keyOid f.keyPar f.key ∧
    El 0xa0 f.attributes.flatten ate ∧ (∀ a ∈ f.attributes, AnyEl a) ∧ AlgEl f.algOid f.algPar ae ∧ BitsEl f.signature be

end MCrypto.X509Spec
