import Verif.X509.CertWriteSpec
import Verif.X509.CsrSpec
/-
Specification of the octets of certificate requests as they are written (RFC 2986 4).
-/
namespace MCrypto.X509Spec
open MCrypto MCrypto.Dg MCrypto.Asn1
open MCrypto.X509 (Ext AtvAny AttrSet CertificateRequest PubKey Signer HashFn)

/-- A SEQUENCE OF. -/
def SeqOut {α : Type} (E : α → Bytes → Prop) (l : List α) (e : Bytes) : Prop := ∃ body, El 0x30 body e ∧ Many E l body

/-- An attribute: its type and the set of its values, each of them a sequence of types and values. -/
def AttrSetOut (a : AttrSet) (e : Bytes) : Prop :=
  ∃ oe se, El 0x30 (oe ++ se) e ∧ OidEl a.type oe ∧ SetOut (SeqOut AtvOut) a.value se

/-- The attribute that asks for extensions (RFC 2985 5.4.2). -/
def ExtensionRequestOut (exts : List Ext) (e : Bytes) : Prop :=
  ∃ oe se xs, El 0x30 (oe ++ se) e ∧ OidEl extensionRequest oe ∧ El 0x31 xs se ∧ ExtsOut exts xs

/-- An attribute of the template that asks for extensions. -/
def AsksExtensions (a : AttrSet) : Prop := a.type = extensionRequest ∧ a.value ≠ []

/-- The extensions that none of the values has, as types and values: the flag is lost. -/
def newAtvs (exts : List Ext) (values : List (List AtvAny)) : List AtvAny :=
  (exts.filter fun x => decide (∀ v ∈ values, ∀ y ∈ v, y.type ≠ x.id)).map fun x => ⟨x.id, .octets x.value⟩

/-- The attributes: those of the template; the extensions that are asked for go into the first value of the first attribute
that asks for extensions, otherwise into an attribute of their own. -/
def AttributesOut (attrs : List AttrSet) (exts : List Ext) (body : Bytes) : Prop :=
  (exts = [] ∧ Many AttrSetOut attrs body) ∨
  (exts ≠ [] ∧ ∃ l1 a v vs l2, attrs = l1 ++ a :: l2 ∧ (∀ x ∈ l1, ¬ AsksExtensions x) ∧ a.type = extensionRequest ∧
    a.value = v :: vs ∧ Many AttrSetOut (l1 ++ ⟨a.type, (v ++ newAtvs exts a.value) :: vs⟩ :: l2) body) ∨
  (exts ≠ [] ∧ (∀ x ∈ attrs, ¬ AsksExtensions x) ∧ ∃ b1 b2, body = b1 ++ b2 ∧ Many AttrSetOut attrs b1 ∧ ExtensionRequestOut exts b2)

/-- The extensions that are asked for. -/
def RequestExtsOut (t : CertificateRequest) (l : List Ext) : Prop :=
  ∃ l1, l = l1 ++ t.extraExtensions ∧
    ExtIf (t.dnsNames ≠ [] ∨ t.emailAddresses ≠ [] ∨ t.ipAddresses ≠ [] ∨ t.uris ≠ []) [2, 5, 29, 17] false
      (SanOut t.dnsNames t.emailAddresses t.ipAddresses (t.uris.map (·.str))) t.extraExtensions l1

/-- CertificationRequestInfo. -/
def TbsRequestOut (t : CertificateRequest) (pub : PubKey) (e : Bytes) : Prop :=
  ∃ ve se ke key exts xe body, El 0x30 (ve ++ (se ++ (ke ++ xe))) e ∧ IntEl 0 ve ∧
    ((t.rawSubject ≠ [] ∧ se = t.rawSubject) ∨ (t.rawSubject = [] ∧ RdnsOut (nameRdns t.subject) se)) ∧
    PkixKeyOut pub key ke ∧ RequestExtsOut t exts ∧ El 0xa0 body xe ∧ AttributesOut t.attributes exts body

/-- CertificationRequest. The options the signer gets are never those of PSS. -/
def RequestOut (hashes : Nat → Option HashFn) (t : CertificateRequest) (key : Signer) (e : Bytes) : Prop :=
  ∃ a tbs d sig ae be, a = chosenAlg t.signatureAlgorithm key.pub ∧ El 0x30 (tbs ++ (ae ++ be)) e ∧
    TbsRequestOut t key.pub tbs ∧ Digest hashes (algHash a) tbs d ∧ key.sign d (.hash (algHash a)) = some sig ∧
    SigAlgOut a ae ∧ El 0x03 (0 :: sig) be

end MCrypto.X509Spec
