import Verif.X509.ListRefs
import Verif.X509.Pkcs7
/-
Which memory a parsed PKCS#7 message refers to: `RawValue`, `RawContent` and bit strings are pieces of the input, `[]byte` fields are copies
(asn1.go of Go 1.18, parseField: `case reflect.Slice: … val.Set(reflect.MakeSlice(…)); reflect.Copy(…)`), and ParseCertificates stores pieces of
what it is given (X509/Refs.lean).
-/
namespace MCrypto.X509
open MCrypto Asn1 MCrypto.Go

/-- A field that may be absent, on slices: the element with its contents (none if the field was absent), the rest. -/
def optS {α : Type} (f : Bytes → Option (α × Bytes)) (h : Heap) (s : Slice) : Option (Option (Slice × Slice) × Slice) := do
  let (_, r) ← f (h.read s)
  if r.length = s.len then pure (none, s)
  else do
    let (e, b, r) ← elementS h s
    pure (some (e, b), r)

/-- A slice of slices, `parseSequenceOf`: `f` is applied at the beginning of each element. The counter bounds the iterations. -/
def elemsS {β : Type} (f : Heap → Slice → Option β) (h : Heap) : Nat → Slice → Option (List β)
  | 0, s => if s.len = 0 then some [] else none
  | n + 1, s =>
    if s.len = 0 then some []
    else do
      let x ← f h s
      let (_, _, r) ← elementS h s
      let l ← elemsS f h n r
      pure (x :: l)

/-- `attribute` (pkcs7.go:59-62) at the beginning of a slice: `Value.FullBytes` and `Value.Bytes`. -/
def attrRef (h : Heap) (s : Slice) : Option (Slice × Slice) := do
  let (_, b, _) ← elementS h s
  let (_, b) ← (elementS h b).map (·.2)
  let (f, v, _) ← elementS h b
  pure (f, v)

/-- `[]attribute` with `optional,tag:n`: the slices of the values, the rest. -/
def attrsRef (n : Nat) (h : Heap) (s : Slice) : Option (List (Slice × Slice) × Slice) := do
  let (o, r) ← optS (parseField (nilable (seqOf p7Attr)) { opt := some none, tag := some n }) h s
  match o with
  | none => pure ([], r)
  | some (_, b) => do
    let l ← elemsS attrRef h b.len b
    pure (l, r)

/-- The slices of a `signerInfo`: `IssuerAndSerialNumber.IssuerName` and the values of the attributes. `EncryptedDigest` is a copy. Simplification: the
parameters of the two algorithm identifiers, which nothing looks at, are slices too, but are kept as values. -/
structure SignerRefs where
  issuer : Slice × Slice
  auth : List (Slice × Slice)
  unauth : List (Slice × Slice)

/-- `signerInfo` (pkcs7.go:69-77) at the beginning of a slice. -/
def signerRef (h : Heap) (s : Slice) : Option SignerRefs := do
  let (_, b, _) ← elementS h s
  let (_, b) ← (elementS h b).map (·.2)
  let (_, i, b) ← elementS h b
  let (f, v, _) ← elementS h i
  let (_, b) ← (elementS h b).map (·.2)
  let (auth, b) ← attrsRef 0 h b
  let (_, b) ← (elementS h b).map (·.2)
  let (_, b) ← (elementS h b).map (·.2)
  let (unauth, _) ← attrsRef 1 h b
  pure ⟨(f, v), auth, unauth⟩

/-- `contentInfo` (pkcs7.go:28-31) at the beginning of a slice: `Content.FullBytes` and `Content.Bytes`. -/
def contentRef (h : Heap) (s : Slice) : Option (Option (Slice × Slice)) := do
  let (_, b, _) ← elementS h s
  let (_, b) ← (elementS h b).map (·.2)
  let (o, _) ← optS (parseRaw { opt := some {}, tag := some 0, explicit := true }) h b
  pure o

/-- The slices of a `signedData`. -/
structure SignedRefs where
  /-- `ContentInfo.Content` -/
  content : Option (Slice × Slice) := none
  /-- `Certificates.Raw` -/
  certificates : Option Slice := none
  crls : List CrlRefs := []
  signers : List SignerRefs := []

/-- `signedData` (pkcs7.go:47-54) with contents `b`: fields behind the first error are not set. -/
def signedRefs (h : Heap) (b : Slice) : SignedRefs :=
  match optS (parseField goInt {}) h b with
  | none => {}
  | some (_, b) =>
    match optS (parseField (Asn1.setOf algId) { set := true }) h b with
    | none => {}
    | some (_, b) =>
      match optS (parseField contentInfo {}) h b with
      | none => {}
      | some (_, b1) =>
        let content := (contentRef h b).getD none
        match optS (parseField rawCertificates { opt := some [], tag := some 0 }) h b1 with
        | none => { content := content }
        | some (oc, b2) =>
          let certs := oc.map (·.1)
          match optS (parseField (nilable (seqOf crl)) { opt := some none, tag := some 1 }) h b2 with
          | none => { content := content, certificates := certs }
          | some (ol, b3) =>
            let crls := (ol.bind fun p => elemsS crlRefs h p.2.len p.2).getD []
            match optS (parseField (Asn1.setOf signerInfo) { set := true }) h b3 with
            | none => { content := content, certificates := certs, crls := crls }
            | some (os, _) =>
              { content := content, certificates := certs, crls := crls,
                signers := (os.bind fun p => elemsS signerRef h p.2.len p.2).getD [] }

/-- `ParseCertificates` (parser.go:1203-1214) on slices: the slices of each certificate. -/
def certsRefs (h : Heap) : Nat → Slice → Option (List CertRefs)
  | 0, s => if s.len = 0 then some [] else none
  | n + 1, s =>
    if s.len = 0 then some []
    else do
      let (e, r) ← readElementS h 0x30 s
      let c ← certRefs h e
      let l ← certsRefs h n r
      pure (c :: l)

/-- The slices of a `PKCS7`. -/
structure P7Refs where
  /-- none: nil, or a copy -/
  content : Option Slice := none
  certs : List CertRefs := []
  signed : SignedRefs := {}

/-- pkcs7.go:482-499: the content of a primitive string is `compound.Bytes`, that of a compound one is decoded into a `[]byte`, hence a copy. -/
def p7Content (h : Heap) (o : Option (Slice × Slice)) : Option Slice := do
  let (_, b) ← o
  if b.len = 0 then none
  else do
    let (v, _) ← parseRaw {} (h.read b)
    if v.compound then none
    else do
      let (_, c, _) ← elementS h b
      pure c

/-- pkcs7.go:79-90 -/
def p7Certs (h : Heap) (o : Option Slice) : List CertRefs :=
  match o with
  | none => []
  | some raw =>
    match elementS h raw with
    | none => []
    | some (_, b, _) => (certsRefs h b.len b).getD []

/-- `parseSignedData` (pkcs7.go:467-500) on `inner`. -/
def p7InnerRefs (h : Heap) (inner : Slice) : P7Refs :=
  match unmarshal signedData (h.read inner) with
  | none => {}
  | some _ =>
    match elementS h inner with
    | none => {}
    | some (_, b, _) =>
      let sd := signedRefs h b
      ⟨p7Content h sd.content, p7Certs h sd.certificates, sd⟩

/-- `ParsePKCS7` (pkcs7.go:442-463): the slices that are stored. -/
def p7Refs (h : Heap) (data : Slice) : P7Refs :=
  match contentRef h data with
  | some (some (_, inner)) => p7InnerRefs h inner
  | _ => {}

/-- A `*PKCS7` as `ParsePKCS7` returns it: the values that are copies, and the slices. -/
structure P7Mem where
  val : PKCS7
  refs : P7Refs

/-- `ParsePKCS7` on the memory `h`. -/
def parseP7Mem (env : Env) (h : Heap) (data : Slice) : Res P7Mem := do
  let p ← ParsePKCS7 env (h.read data)
  pure ⟨p, p7Refs h data⟩

/-! ### What the fields are when memory is `h` -/

def rawAt (h : Heap) (p : Slice × Slice) (v : RawValue) : RawValue := { v with full := h.read p.1, bytes := h.read p.2 }

def attrsAt (h : Heap) (l : List P7Attr) (r : List (Slice × Slice)) : List P7Attr :=
  List.zipWith (fun (a : P7Attr) p => { a with value := rawAt h p a.value }) l r

def signerAt (h : Heap) (s : SignerInfo) (r : SignerRefs) : SignerInfo :=
  { s with
    issuerAndSerialNumber := { s.issuerAndSerialNumber with issuerName := rawAt h r.issuer s.issuerAndSerialNumber.issuerName }
    authenticatedAttributes := s.authenticatedAttributes.map fun l => attrsAt h l r.auth
    unauthenticatedAttributes := s.unauthenticatedAttributes.map fun l => attrsAt h l r.unauth }

def signersAt (h : Heap) (l : List SignerInfo) (r : List SignerRefs) : List SignerInfo := List.zipWith (signerAt h) l r

def crlsAt (h : Heap) (l : List Crl) (r : List CrlRefs) : List Crl := List.zipWith (fun c m => (CrlMem.mk c m).at h) l r

def signedAt (h : Heap) (s : SignedData) (r : SignedRefs) : SignedData :=
  { s with
    contentInfo := { s.contentInfo with content := paramsAt h r.content s.contentInfo.content }
    certificates := orCopy h r.certificates s.certificates
    crls := s.crls.map fun l => crlsAt h l r.crls
    signerInfos := signersAt h s.signerInfos r.signers }

/-- The message when memory is `h`. `Signers` and `CRLs` are the slices of `raw` themselves. -/
def P7Mem.at (m : P7Mem) (h : Heap) : PKCS7 :=
  { content := orCopy h m.refs.content m.val.content
    certificates := List.zipWith (fun c r => (CertMem.mk c r).at h) m.val.certificates m.refs.certs
    crls := m.val.crls.map fun l => crlsAt h l m.refs.signed.crls
    signers := signersAt h m.val.signers m.refs.signed.signers
    raw := signedAt h m.val.raw m.refs.signed }

end MCrypto.X509
