import Verif.X509.ExtRoundtrip
import Verif.X509.CertLemmas
/-
Certificate extensions and certificate lists: C44-C47, C51, C52, C66 (with the certificate parser), C68, C69.
-/
namespace MCrypto.Props
open MCrypto MCrypto.X509 MCrypto.X509Spec MCrypto.Asn1

/-! ## C44 KeyUsage -/

/-- **C44** The extension made for any `KeyUsage` is critical, and reading it gives the nine defined bits back. -/
theorem C44_keyUsage_roundtrip (ku : Int) : ∃ e, marshalKeyUsage ku = some e ∧ e.id = [2, 5, 29, 15] ∧
    e.critical = true ∧ parseKeyUsageExtension e.value = some (ku % 512) := by
  obtain ⟨e, h1, h2, h3, h4⟩ := marshalKeyUsage_some ku
  exact ⟨e, h1, h2, h3, (parseKeyUsage_iff _ _).mpr ⟨_, by omega, h4⟩⟩

/-- **C44** Every combination of the defined usages is read back unchanged. -/
theorem C44_keyUsage_exact (ku : Int) (h0 : 0 ≤ ku) (h9 : ku < 512) :
    ∃ e, marshalKeyUsage ku = some e ∧ parseKeyUsageExtension e.value = some ku := by
  obtain ⟨e, h1, -, -, h4⟩ := C44_keyUsage_roundtrip ku
  exact ⟨e, h1, by rw [h4, Int.emod_eq_of_lt h0 h9]⟩

/-- **C44**, on the octets (RFC 5280, 4.2.1.3): bit `i` of the BIT STRING is bit `i` of the usage. -/
theorem C44_keyUsage_octets (ku : Int) : ∃ e, marshalKeyUsage ku = some e ∧ KeyUsageExt e.value (ku % 512).toNat := by
  obtain ⟨e, h1, -, -, h4⟩ := marshalKeyUsage_some ku
  exact ⟨e, h1, h4⟩

/-- digitalSignature and decipherOnly: two octets, seven bits of padding. -/
example : marshalKeyUsage 257 = some ⟨[2, 5, 29, 15], true, [0x03, 0x03, 0x07, 0x80, 0x80]⟩ := by decide +kernel
example : parseKeyUsageExtension [0x03, 0x03, 0x07, 0x80, 0x80] = some 257 := by decide +kernel

/-! ## C45 BasicConstraints -/

/-- **C45** What the parser stores for the extension made from `IsCA`, `MaxPathLen`, `MaxPathLenZero` has the same CA
flag and expresses the same limit on the path length. -/
theorem C45_basicConstraints_roundtrip (env : Env) (out : Certificate) (isCA : Bool) (m : Int) (z : Bool)
    (h1 : -(2 ^ 63 : Int) ≤ m) (h2 : m < 2 ^ 63) :
    ∃ out', processExtension env out (marshalBasicConstraints isCA m z) = some (out', false) ∧
      out'.basicConstraintsValid = true ∧ out'.isCA = isCA ∧
      pathLimit out'.maxPathLen out'.maxPathLenZero = pathLimit m z ∧
      (out'.maxPathLenZero = true ↔ out'.maxPathLen = 0) := by
  have hp := (parseBc_iff _ _ _).mpr (marshalBc_ext isCA m z h1 h2)
  refine ⟨{ out with isCA := isCA, maxPathLen := bcLen m z, basicConstraintsValid := true,
                     maxPathLenZero := decide (bcLen m z = 0) }, ?_, rfl, rfl, ?_, by simp⟩
  · unfold processExtension
    rw [show (marshalBasicConstraints isCA m z).id = [2, 5, 29, 19] from rfl, hp]
    rfl
  · simp only [pathLimit, bcLen]
    cases z <;> by_cases hm : m = 0 <;> simp [hm]

/-- **C45** Exactly what is read: the length, or -1 when the template sets no limit. -/
theorem C45_basicConstraints_exact (isCA : Bool) (m : Int) (z : Bool) (h1 : -(2 ^ 63 : Int) ≤ m) (h2 : m < 2 ^ 63) :
    parseBasicConstraintsExtension (marshalBasicConstraints isCA m z).value =
      some (isCA, if m = 0 ∧ z = false then -1 else m) := by
  rw [(parseBc_iff _ _ _).mpr (marshalBc_ext isCA m z h1 h2)]
  cases z <;> simp [bcLen]

example : (marshalBasicConstraints true 0 true).value = [0x30, 0x06, 0x01, 0x01, 0xff, 0x02, 0x01, 0x00] ∧
    (marshalBasicConstraints true 0 false).value = [0x30, 0x03, 0x01, 0x01, 0xff] ∧
    pathLimit 0 true = some 0 ∧ pathLimit 0 false = none := by decide +kernel

/-! ## C46 ExtKeyUsage -/

/-- **C46** The extension made from known usages and unknown identifiers is read back as the same two lists. -/
theorem C46_extKeyUsage_roundtrip (us : List Int) (unk : List Oid) (e : Ext) (h : marshalExtKeyUsage us unk = some e)
    (hu : ∀ o ∈ unk, OidOk o ∧ extKeyUsageFromOID o = none) (hl : e.value.length < 2 ^ 31) :
    parseExtKeyUsageExtension e.value = some (us, unk) := by
  obtain ⟨hi, -, os, ho, hk⟩ := marshalEku_ext h (fun o ho => (hu o ho).1) hl
  have hf := (usageOids_iff _ _).mp ho
  have hos : ∀ (us : List Int) (os : List Oid), List.Forall₂ (fun u o => oidFromExtKeyUsage u = some o) us os →
      os.filterMap extKeyUsageFromOID = us ∧ os.filter (fun o => (extKeyUsageFromOID o).isNone) = [] := by
    intro us os hf
    induction hf with
    | nil => simp
    | cons h1 _ ih =>
      have := (eku_oids_ok _ (oidFromEku_mem h1)).2
      simp [this, ih.1, ih.2]
  have hunk : unk.filterMap extKeyUsageFromOID = [] ∧
      unk.filter (fun o => (extKeyUsageFromOID o).isNone) = unk := by
    constructor
    · rw [List.filterMap_eq_nil_iff]; exact fun o ho => (hu o ho).2
    · rw [List.filter_eq_self]; intro o ho; simp [(hu o ho).2]
  rw [parseEku_iff]
  refine ⟨_, hk, ?_, ?_⟩
  · rw [List.filterMap_append, (hos _ _ hf).1, hunk.1, List.append_nil]
  · rw [List.filter_append, (hos _ _ hf).2, hunk.2, List.nil_append]

/-- **C46** Making the extension succeeds exactly for the usage constants 0 to 13 (given encodable identifiers). -/
theorem C46_extKeyUsage_ok_iff (us : List Int) (unk : List Oid) (hu : ∀ o ∈ unk, OidOk o) :
    (∃ e, marshalExtKeyUsage us unk = some e) ↔ ∀ u ∈ us, 0 ≤ u ∧ u ≤ 13 := by
  have one : ∀ u : Int, (∃ o, oidFromExtKeyUsage u = some o) ↔ 0 ≤ u ∧ u ≤ 13 := by
    intro u
    constructor
    · rintro ⟨o, h⟩
      have hm := oidFromEku_mem h
      have hall : ∀ p ∈ extKeyUsageOIDs, 0 ≤ p.1 ∧ p.1 ≤ 13 := by decide
      exact hall _ hm
    · rintro ⟨h1, h2⟩
      interval_cases u <;> exact ⟨_, rfl⟩
  have many : (∃ os, usageOids us = some os) ↔ ∀ u ∈ us, 0 ≤ u ∧ u ≤ 13 := by
    induction us with
    | nil => simp [usageOids]
    | cons u us ih =>
      rw [List.forall_mem_cons, ← ih, ← one]
      simp only [usageOids, Option.pure_def, Option.bind_eq_bind, Option.bind_eq_some_iff, Option.some.injEq]
      constructor
      · rintro ⟨_, o, h1, os, h2, rfl⟩; exact ⟨⟨o, h1⟩, os, h2⟩
      · rintro ⟨⟨o, h1⟩, os, h2⟩; exact ⟨_, o, h1, os, h2, rfl⟩
  rw [← many]
  unfold marshalExtKeyUsage
  simp only [Option.pure_def, Option.bind_eq_bind, Option.bind_eq_some_iff, Option.some.injEq]
  constructor
  · rintro ⟨e, os, h, _⟩; exact ⟨os, h⟩
  · rintro ⟨os, h⟩
    have hos : ∀ o ∈ os, OidOk o := by
      have := (usageOids_iff us os).mp h
      clear h many
      induction this with
      | nil => simp
      | cons h _ ih =>
        intro o ho
        rcases List.mem_cons.mp ho with rfl | ho
        · exact (eku_oids_ok _ (oidFromEku_mem h)).1
        · exact ih o ho
    have hel : ∀ o ∈ os ++ unk, ∃ e, marshalField oid {} o = some e := by
      intro o ho
      have : OidOk o := by
        rcases List.mem_append.mp ho with ho | ho
        · exact hos o ho
        · exact hu o ho
      obtain ⟨b, hb⟩ := encOid_ok this
      unfold marshalField
      rw [if_neg (by simp)]
      exact ⟨_, by rw [show oid.enc o = encOid o from rfl, hb]⟩
    obtain ⟨es, hes⟩ := marshalElems_some _ _ hel
    refine ⟨_, os, h, Der.tlv 0x30 es.flatten, ?_, rfl⟩
    unfold marshal marshalField
    rw [if_neg (by simp)]
    simp only [seqOf, hes]
    rfl

/-- **C46** An unknown usage constant is an error. -/
theorem C46_unknown_constant (us : List Int) (unk : List Oid) (u : Int) (hm : u ∈ us) (hu : u < 0 ∨ 13 < u) :
    marshalExtKeyUsage us unk = none := by
  have : ∀ us, u ∈ us → usageOids us = none := by
    intro us
    induction us with
    | nil => intro h; cases h
    | cons x us ih =>
      intro h
      rcases List.mem_cons.mp h with rfl | h
      · have : oidFromExtKeyUsage u = none := by
          cases ho : oidFromExtKeyUsage u with
          | none => rfl
          | some o =>
            have hall : ∀ p ∈ extKeyUsageOIDs, 0 ≤ p.1 ∧ p.1 ≤ 13 := by decide
            have := hall _ (oidFromEku_mem ho)
            omega
        simp [usageOids, this]
      · simp only [usageOids, ih h]
        cases oidFromExtKeyUsage x <;> rfl
  simp [marshalExtKeyUsage, this us hm]

example : (marshalExtKeyUsage [1, 0] [[1, 2, 3]]).map (·.value) =
    some [0x30, 20, 6, 8, 43, 6, 1, 5, 5, 7, 3, 1, 6, 4, 85, 29, 37, 0, 6, 2, 42, 3] ∧
    parseExtKeyUsageExtension [0x30, 20, 6, 8, 43, 6, 1, 5, 5, 7, 3, 1, 6, 4, 85, 29, 37, 0, 6, 2, 42, 3] =
      some ([1, 0], [[1, 2, 3]]) ∧ extKeyUsageFromOID [1, 2, 3] = none := by decide +kernel

/-! ## C47 SubjectAltName -/

/-- **C47** Names that can be marshalled and that the parser accepts are read back as the same lists; an IPv4 address in
the 16-byte form becomes the 4-byte form. -/
theorem C47_san_roundtrip (env : Env) (dns emails ips : List Bytes) (uris : List Url) (v : Bytes)
    (h : marshalSANs dns emails ips uris = some v) (hl : v.length < 2 ^ 31)
    (hip : ∀ ip ∈ ips, ip.length = 4 ∨ ip.length = 16)
    (hu : ∀ u ∈ uris, env.parseURL u.str = some u ∧ (u.host ≠ [] → HostName u.host)) :
    parseSANExtension env v =
      some { dns := dns, emails := emails, ips := ips.map fun ip => (to4 ip).getD ip, uris := uris } := by
  obtain ⟨ha, hk⟩ := marshalSANs_ext h hl
  rw [parseSan_iff]
  exact ⟨_, hk, sanNames_ok env _ _ _ _ ha hip hu, (sanNames_lists env _ _ _ _ fun u h => (hu u h).1).symm⟩

/-- **C47** Marshalling succeeds exactly when the DNS names, e-mail addresses and URIs are ASCII. -/
theorem C47_san_marshal_iff (dns emails ips : List Bytes) (uris : List Url) :
    (∃ v, marshalSANs dns emails ips uris = some v) ↔ ∀ s ∈ dns ++ emails ++ uris.map (·.str), Ascii s := by
  unfold marshalSANs
  simp only [Option.bind_eq_bind, Option.bind_eq_some_iff, ia5Raws_iff]
  constructor
  · rintro ⟨_, _, ⟨h1, rfl⟩, _, ⟨h2, rfl⟩, _, ⟨h3, rfl⟩, -⟩ s hs
    simp only [List.mem_append] at hs
    rcases hs with (hs | hs) | hs
    exacts [h1 s hs, h2 s hs, h3 s hs]
  · intro h
    have hel : ∀ r ∈ dns.map (ctxRaw 2) ++ emails.map (ctxRaw 1) ++ ips.map (fun ip => ctxRaw 7 ((to4 ip).getD ip)) ++
        (uris.map (·.str)).map (ctxRaw 6), ∃ e, marshalRaw {} r = some e := by
      intro r hr
      have : r.full = [] := by
        simp only [List.mem_append, List.mem_map] at hr
        rcases hr with ((⟨b, _, rfl⟩ | ⟨b, _, rfl⟩) | ⟨b, _, rfl⟩) | ⟨b, _, rfl⟩ <;> rfl
      exact ⟨_, marshalRaw_parts _ _ this (by simp)⟩
    obtain ⟨es, hes⟩ := marshalElems_some _ _ hel
    refine ⟨Der.tlv 0x30 es.flatten, _, ⟨fun s hs => h s (by simp [hs]), rfl⟩, _, ⟨fun s hs => h s (by simp [hs]), rfl⟩, _,
      ⟨fun s hs => h s (List.mem_append.mpr (Or.inr hs)), rfl⟩, ?_⟩
    unfold marshal marshalField
    rw [if_neg (by simp)]
    simp only [seqOfRaw, hes]
    rfl

/-- **C47** A SubjectAltName with a name that is not well formed is rejected: an e-mail address, DNS name or URI that is
not ASCII, a URI that does not parse or with a malformed host, an IP address not of 4 or 16 bytes. -/
theorem C47_san_rejects (env : Env) (v : Bytes) (names : List GName) (h : SanExt v names) (n : GName) (hn : n ∈ names)
    (hbad : ((n.1 = 0x81 ∨ n.1 = 0x82 ∨ n.1 = 0x86) ∧ ¬ Ascii n.2) ∨
      (n.1 = 0x86 ∧ ∀ u, env.parseURL n.2 = some u → u.host ≠ [] ∧ ¬ HostName u.host) ∨
      (n.1 = 0x87 ∧ n.2.length ≠ 4 ∧ n.2.length ≠ 16)) : parseSANExtension env v = none := by
  cases hp : parseSANExtension env v with
  | none => rfl
  | some l =>
    obtain ⟨ms, hm, hok, -⟩ := (parseSan_iff env v l).mp hp
    rw [san_unique h hm] at hn
    obtain ⟨o1, o2, o6, o7⟩ := hok n hn
    exfalso
    rcases hbad with ⟨ht, ha⟩ | ⟨ht, hb⟩ | ⟨ht, h4, h16⟩
    · rcases ht with ht | ht | ht
      · exact ha (o1 ht)
      · exact ha (o2 ht)
      · exact ha (o6 ht).1
    · obtain ⟨-, u, hu, hh⟩ := o6 ht
      obtain ⟨h1, h2⟩ := hb u hu
      exact h2 (hh h1)
    · rcases o7 ht with h | h
      · exact h4 h
      · exact h16 h

/-- The toy URL parser of the examples: the host is what follows the first two slashes. -/
def exEnv : Env := ⟨fun b => some ⟨b, b.drop 2⟩, fun _ => false⟩

example : (marshalSANs [[97, 46, 98]] [[120, 64, 121]] [[0, 0, 0, 0, 0, 0, 0, 0, 0, 0, 0xff, 0xff, 10, 0, 0, 1]]
    [⟨[47, 47, 99], [99]⟩]) =
      some [0x30, 21, 0x82, 3, 97, 46, 98, 0x81, 3, 120, 64, 121, 0x87, 4, 10, 0, 0, 1, 0x86, 3, 47, 47, 99] ∧
    parseSANExtension exEnv
      [0x30, 21, 0x82, 3, 97, 46, 98, 0x81, 3, 120, 64, 121, 0x87, 4, 10, 0, 0, 1, 0x86, 3, 47, 47, 99] =
      some ⟨[[97, 46, 98]], [[120, 64, 121]], [[10, 0, 0, 1]], [⟨[47, 47, 99], [99]⟩]⟩ ∧
    parseSANExtension exEnv [0x30, 5, 0x87, 3, 10, 0, 0] = none := by decide +kernel

/-! ## C68 What the extension parsers accept -/

/-- **C68** KeyUsage -/
theorem C68_keyUsage_iff (value : Bytes) (k : Int) :
    parseKeyUsageExtension value = some k ↔ ∃ ku : Nat, k = ku ∧ KeyUsageExt value ku := parseKeyUsage_iff value k
/-- **C68** BasicConstraints -/
theorem C68_basicConstraints_iff (value : Bytes) (ca : Bool) (m : Int) :
    parseBasicConstraintsExtension value = some (ca, m) ↔ BasicConstraintsExt value ca m := parseBc_iff value ca m
/-- **C68** SubjectAltName -/
theorem C68_san_iff (env : Env) (value : Bytes) (l : SanLists) :
    parseSANExtension env value = some l ↔ ∃ names, SanExt value names ∧ (∀ n ∈ names, SanOk env n) ∧
      l = ⟨ofTag 0x82 names, ofTag 0x81 names, ofTag 0x87 names,
        (ofTag 0x86 names).map fun b => (env.parseURL b).getD ⟨[], []⟩⟩ := parseSan_iff env value l
/-- **C68** ExtKeyUsage -/
theorem C68_extKeyUsage_iff (value : Bytes) (k : List Int) (u : List Oid) :
    parseExtKeyUsageExtension value = some (k, u) ↔ ∃ oids, EkuExt value oids ∧
      k = oids.filterMap extKeyUsageFromOID ∧ u = oids.filter fun o => (extKeyUsageFromOID o).isNone :=
  parseEku_iff value k u
/-- **C68** CertificatePolicies -/
theorem C68_policies_iff (value : Bytes) (oids : List Oid) :
    parseCertificatePoliciesExtension value = some oids ↔ PoliciesExt value oids := parsePolicies_iff value oids
/-- **C68** NameConstraints: which values are accepted, and the permitted and excluded names stored. -/
theorem C68_nameConstraints_iff (env : Env) (value : Bytes) (p x : Subtrees) :
    parseNameConstraintsExtension env value = some (p, x) ↔ ∃ permitted excluded,
      NameConstraintsExt value permitted excluded ∧ (∀ n ∈ permitted, ConstraintOk env n) ∧
      (∀ n ∈ excluded, ConstraintOk env n) ∧
      p = ⟨ofTag 0x82 permitted, (ofTag 0x87 permitted).map netOf, ofTag 0x81 permitted, ofTag 0x86 permitted,
        permitted.any fun n => !(nameTags.contains n.1)⟩ ∧
      x = ⟨ofTag 0x82 excluded, (ofTag 0x87 excluded).map netOf, ofTag 0x81 excluded, ofTag 0x86 excluded,
        excluded.any fun n => !(nameTags.contains n.1)⟩ := parseNc_iff env value p x
/-- **C68** CRLDistributionPoints -/
theorem C68_crlDistributionPoints_iff (value : Bytes) (us : List Bytes) :
    parseCRLDistributionPoints value = some us ↔ ∃ points, CrlDpExt value points ∧ us = points.flatten :=
  parseCrlDp_iff value us
/-- **C68** AuthorityKeyIdentifier -/
theorem C68_authorityKeyId_iff (value : Bytes) (k : Option Bytes) :
    parseAuthorityKeyId value = some k ↔ AkiExt value k := parseAki_iff value k
/-- **C68** AuthorityInfoAccess -/
theorem C68_authorityInfoAccess_iff (value : Bytes) (o i : List Bytes) :
    parseAuthorityInfoAccess value = some (o, i) ↔ ∃ ds, AiaExt value ds ∧
      o = urisOf [1, 3, 6, 1, 5, 5, 7, 48, 1] ds ∧ i = urisOf [1, 3, 6, 1, 5, 5, 7, 48, 2] ds := parseAia_iff value o i

/-- **C68** The extensions of a certificate are accepted exactly when each of those the parser knows is well formed. -/
theorem C68_accept_iff (env : Env) (c : Certificate) :
    (∃ c', processExtensions env c = some c') ↔ ∀ e ∈ c.extensions, WellFormed env e :=
  processLoop_iff env c.extensions c

/-- A well-formed value with qualifiers in a policy and trailing data. -/
example : parseCertificatePoliciesExtension [0x30, 8, 0x30, 6, 6, 2, 42, 3, 0x30, 0, 0xff] = some [[1, 2, 3]] := by
  decide +kernel

/-! ## C51 Unhandled critical extensions -/

open Classical in
/-- **C51** The identifiers appended to `UnhandledCriticalExtensions` are those of the critical extensions the parser
cannot act on, in order, and no others. -/
theorem C51_unhandled_exact (env : Env) (c c' : Certificate) (h : processExtensions env c = some c') :
    c'.unhandledCriticalExtensions = c.unhandledCriticalExtensions ++
      (c.extensions.filter fun e => decide (e.critical = true ∧ Unhandled e)).map (·.id) :=
  processLoop_unhandled env c.extensions c c' h

/-- **C51** Every critical extension with an identifier outside the ten known ones is listed. -/
theorem C51_unknown_critical_listed (env : Env) (c c' : Certificate) (h : processExtensions env c = some c') (e : Ext)
    (he : e ∈ c.extensions) (hc : e.critical = true) (hu : e.id ∉ knownExtensions) :
    e.id ∈ c'.unhandledCriticalExtensions := by
  classical
  rw [C51_unhandled_exact env c c' h]
  exact List.mem_append.mpr (Or.inr (List.mem_map.mpr ⟨e, List.mem_filter.mpr ⟨he, by simp [hc, Unhandled, hu]⟩, rfl⟩))

/-- **C51** If only non-critical extensions have an identifier, it is not listed. -/
theorem C51_noncritical_not_listed (env : Env) (c c' : Certificate) (h : processExtensions env c = some c')
    (h0 : c.unhandledCriticalExtensions = []) (o : Oid) (ho : ∀ e ∈ c.extensions, e.id = o → e.critical = false) :
    o ∉ c'.unhandledCriticalExtensions := by
  classical
  rw [C51_unhandled_exact env c c' h, h0, List.nil_append]
  intro hm
  obtain ⟨e, he, rfl⟩ := List.mem_map.mp hm
  obtain ⟨h1, h2⟩ := List.mem_filter.mp he
  have := ho e h1 rfl
  simp [this] at h2

example : (processExtensions exEnv { extensions := [⟨[1, 2, 3], true, []⟩, ⟨[1, 2, 4], false, []⟩,
      ⟨[2, 5, 29, 17], true, [0x30, 2, 0x88, 0]⟩, ⟨[2, 5, 29, 15], true, [3, 2, 5, 0xa0]⟩] }).map
      (fun c => (c.unhandledCriticalExtensions, c.keyUsage)) = some ([[1, 2, 3], [2, 5, 29, 17]], 5) := by decide +kernel

/-! ## C52 Certificate lists -/

/-- **C52** `ParseCertificates` accepts exactly the concatenations of what `ParseCertificate` accepts, and returns those
certificates in order. -/
theorem C52_parseCertificates_iff (env : Env) (der : Bytes) (l : List Certificate) :
    ParseCertificates env der = .ok l ↔
      ∃ ds, der = ds.flatten ∧ List.Forall₂ (fun d c => ParseCertificate env d = .ok c) ds l :=
  certsAux_iff env der.length der (Nat.le_refl _) l

/-- **C52** `Raw` is the input. -/
theorem C52_raw (env : Env) (der : Bytes) (c : Certificate) (h : ParseCertificate env der = .ok c) : c.raw = der :=
  ((ParseCertificate_iff env der c).mp h).2

/-- **C52** Trailing data is rejected: no proper extension of an accepted certificate is accepted. -/
theorem C52_trailing_rejected (env : Env) (der tail : Bytes) (c : Certificate) (h : ParseCertificate env der = .ok c)
    (ht : tail ≠ []) : ∀ c', ParseCertificate env (der ++ tail) ≠ .ok c' := by
  intro c' h'
  obtain ⟨h1, rfl⟩ := (ParseCertificate_iff env der c).mp h
  obtain ⟨h2, h3⟩ := (ParseCertificate_iff env _ c').mp h'
  obtain ⟨b, rest, -, he⟩ := parseCertificate_raw h1
  rw [parseCertificate_local env he, h1] at h2
  injection h2 with h2
  subst h2
  have := congrArg List.length h3
  rw [List.length_append] at this
  exact ht (List.length_eq_zero_iff.mp (by omega))

/-- **C52** The result for the first certificate does not depend on what follows. -/
theorem C52_first (env : Env) (der tail : Bytes) (c : Certificate) (h : ParseCertificate env der = .ok c) :
    parseCertificate env (der ++ tail) = .ok c := by
  obtain ⟨h1, rfl⟩ := (ParseCertificate_iff env der c).mp h
  obtain ⟨b, rest, -, he⟩ := parseCertificate_raw h1
  rw [parseCertificate_local env he, h1]

/-! ## C66 No panic -/

/-- **C66** The certificate parser does not panic on any input. -/
theorem C66_parseCertificates_no_panic (env : Env) (der : Bytes) :
    ParseCertificates env der ≠ .panic ∧ ParseCertificate env der ≠ .panic := by
  refine ⟨certsAux_ne_panic env _ der (Nat.le_refl _), ?_⟩
  unfold ParseCertificate
  refine bind_ne_panic (parseCertificate_ne_panic _ _) fun c _ => ?_
  split <;> simp

/-- **C66** With that parser, the PKCS#12 decoders return on every file and every password. -/
theorem C66_decode_no_panic_all (P : P12.Prims) (edPub : Bytes → Bytes) (env : Env) (data password : Bytes)
    (e : Option String) :
    P12.decodeAll P edPub (ParseCertificates env) data password ≠ .panic ∧
    P12.decode P edPub (ParseCertificates env) data password ≠ .panic ∧
    P12.sm2P12Decrypt P edPub (ParseCertificates env) (data, e) password ≠ .panic :=
  C66_decode_no_panic P edPub _ (fun b => (C66_parseCertificates_no_panic env b).1) data password e

/-! ## C69 The extensions of a template -/

/-- **C69** The extensions made for a template are read back as the fields of the template: key usage (the nine defined
bits), extended key usages, basic constraints, key identifiers, information access, alternative names, policies,
name constraints and distribution points; and the identifiers of extra critical extensions are listed as unhandled. -/
theorem C69_template_roundtrip (env : Env) (t base : Certificate) (subjectIsEmpty : Bool) (aki ski : Bytes)
    (exts : List Ext) (h : buildCertExtensions t subjectIsEmpty aki ski = some exts)
    (hs : ∀ e ∈ exts, e.value.length < 2 ^ 31) (hk : aki.length + 20 < 2 ^ 31) (hk' : ski.length + 20 < 2 ^ 31)
    (ht : TemplateOk env t) (hb : NoExtFields base) (hx : ∀ e ∈ t.extraExtensions, e.id ∉ knownExtensions) :
    ∃ c, processExtensions env { base with extensions := exts } = some c ∧
      c.keyUsage = t.keyUsage % 512 ∧
      c.extKeyUsage = t.extKeyUsage ∧ c.unknownExtKeyUsage = t.unknownExtKeyUsage ∧
      c.basicConstraintsValid = t.basicConstraintsValid ∧
      (t.basicConstraintsValid = true → c.isCA = t.isCA ∧
        pathLimit c.maxPathLen c.maxPathLenZero = pathLimit t.maxPathLen t.maxPathLenZero) ∧
      c.subjectKeyId = ski ∧ c.authorityKeyId = aki ∧
      c.ocspServer = t.ocspServer ∧ c.issuingCertificateURL = t.issuingCertificateURL ∧
      c.dnsNames = t.dnsNames ∧ c.emailAddresses = t.emailAddresses ∧
      c.ipAddresses = t.ipAddresses.map (fun ip => (to4 ip).getD ip) ∧ c.uris = t.uris ∧
      c.policyIdentifiers = t.policyIdentifiers ∧
      c.permittedDNSDomains = t.permittedDNSDomains ∧ c.excludedDNSDomains = t.excludedDNSDomains ∧
      c.permittedIPRanges = t.permittedIPRanges ∧ c.excludedIPRanges = t.excludedIPRanges ∧
      c.permittedEmailAddresses = t.permittedEmailAddresses ∧ c.excludedEmailAddresses = t.excludedEmailAddresses ∧
      c.permittedURIDomains = t.permittedURIDomains ∧ c.excludedURIDomains = t.excludedURIDomains ∧
      c.crlDistributionPoints = t.crlDistributionPoints ∧
      c.unhandledCriticalExtensions =
        base.unhandledCriticalExtensions ++ (t.extraExtensions.filter (·.critical)).map (·.id) := by
  have hb' : NoExtFields { base with extensions := exts } := by
    obtain ⟨b1, b2, b3, b4, b5, b6, b7, b8, b9, b10, b11, b12, b13, b14, b15, b16, b17, b18, b19, b20, b21, b22, b23,
      b24, b25, b26⟩ := hb
    constructor <;> assumption
  have hp := build_process env t { base with extensions := exts } subjectIsEmpty aki ski exts h hs hk hk' ht hb' hx
  refine ⟨_, hp, rfl, rfl, rfl, rfl, ?_, rfl, rfl, rfl, rfl, rfl, rfl, rfl, rfl, rfl, rfl, rfl, rfl, rfl, rfl, rfl, rfl,
    rfl, rfl, rfl⟩
  intro hv
  simp only [builtFields, hv, Bool.true_and, if_true, true_and, pathLimit, bcLen]
  cases t.maxPathLenZero <;> by_cases hm : t.maxPathLen = 0 <;> simp [hm]

/-- **C69** An extension given by the caller replaces the one made from the template: the result contains the
caller's extensions at the end, and no other extension with the identifier of one of them. -/
theorem C69_extra_replaces (t : Certificate) (subjectIsEmpty : Bool) (aki ski : Bytes) (exts : List Ext)
    (h : buildCertExtensions t subjectIsEmpty aki ski = some exts) :
    ∃ made, exts = made ++ t.extraExtensions ∧ ∀ m ∈ made, ∀ x ∈ t.extraExtensions, m.id ≠ x.id := by
  unfold buildCertExtensions at h
  simp only [Option.pure_def, Option.bind_eq_bind, Option.bind_eq_some_iff, Option.some.injEq] at h
  obtain ⟨e1, h1, e2, h2, e3, h3, e4, h4, e5, h5, e6, h6, e7, h7, e8, h8, e9, h9, e10, h10, rfl⟩ := h
  refine ⟨_, rfl, ?_⟩
  have key : ∀ {w : Bool} {o : Oid} {m : Option Ext} {l : List Ext}, extIf w o t.extraExtensions m = some l →
      (∀ e, m = some e → e.id = o) → ∀ e ∈ l, ∀ x ∈ t.extraExtensions, e.id ≠ x.id := by
    intro w o m l hl ho e he x hx hid
    unfold extIf at hl
    split at hl
    · rename_i hc
      cases m with
      | none => cases hl
      | some y =>
        simp only [Option.some.injEq] at hl
        subst hl
        rw [List.mem_singleton] at he
        subst he
        rw [ho _ rfl] at hid
        simp only [Bool.and_eq_true, Bool.not_eq_true', oidInExtensions, List.any_eq_false, beq_iff_eq] at hc
        exact hc.2 x hx hid.symm
    · simp only [Option.some.injEq] at hl; subst hl; cases he
  intro m hm
  simp only [List.mem_append] at hm
  rcases hm with ((((((((hm | hm) | hm) | hm) | hm) | hm) | hm) | hm) | hm) | hm
  · refine key h1 ?_ m hm
    intro e he
    obtain ⟨e', he', hi, -⟩ := marshalKeyUsage_some t.keyUsage
    rw [he] at he'; injection he' with he'; subst he'; exact hi
  · refine key h2 ?_ m hm
    intro e he; simp only [marshalExtKeyUsage, Option.pure_def, Option.bind_eq_bind, Option.bind_eq_some_iff,
      Option.some.injEq] at he; obtain ⟨_, _, _, _, rfl⟩ := he; rfl
  · refine key h3 ?_ m hm
    intro e he; injection he with he; subst he; rfl
  · refine key h4 ?_ m hm
    intro e he; simp only [marshalSubjectKeyId, Option.pure_def, Option.bind_eq_bind, Option.bind_eq_some_iff,
      Option.some.injEq] at he; obtain ⟨_, _, rfl⟩ := he; rfl
  · refine key h5 ?_ m hm
    intro e he; simp only [marshalAuthorityKeyId, Option.pure_def, Option.bind_eq_bind, Option.bind_eq_some_iff,
      Option.some.injEq] at he; obtain ⟨_, _, rfl⟩ := he; rfl
  · refine key h6 ?_ m hm
    intro e he; simp only [marshalAuthorityInfoAccess, Option.pure_def, Option.bind_eq_bind, Option.bind_eq_some_iff,
      Option.some.injEq] at he; obtain ⟨_, _, rfl⟩ := he; rfl
  · refine key h7 ?_ m hm
    intro e he; simp only [marshalSubjectAltName, Option.pure_def, Option.bind_eq_bind, Option.bind_eq_some_iff,
      Option.some.injEq] at he; obtain ⟨_, _, rfl⟩ := he; rfl
  · refine key h8 ?_ m hm
    intro e he; simp only [marshalCertificatePolicies, Option.pure_def, Option.bind_eq_bind, Option.bind_eq_some_iff,
      Option.some.injEq] at he; obtain ⟨_, _, rfl⟩ := he; rfl
  · refine key h9 ?_ m hm
    intro e he; simp only [marshalNameConstraints, Option.pure_def, Option.bind_eq_bind, Option.bind_eq_some_iff,
      Option.some.injEq] at he; obtain ⟨_, _, _, _, _, _, _, _, _, _, rfl⟩ := he; rfl
  · refine key h10 ?_ m hm
    intro e he; simp only [marshalCRLDistributionPoints, Option.pure_def, Option.bind_eq_bind, Option.bind_eq_some_iff,
      Option.some.injEq] at he; obtain ⟨_, _, rfl⟩ := he; rfl

/-- A template that uses every field. -/
def exTemplate : Certificate :=
  { keyUsage := 96, extKeyUsage := [1, 2], unknownExtKeyUsage := [[1, 2, 3]], basicConstraintsValid := true, isCA := true,
    maxPathLen := 3, ocspServer := [[104]], issuingCertificateURL := [[105]], dnsNames := [[97, 46, 98]],
    emailAddresses := [[120, 64, 121]], ipAddresses := [[10, 0, 0, 1]], uris := [⟨[47, 47, 99], [99]⟩],
    policyIdentifiers := [[1, 2, 4]], permittedDNSDomainsCritical := true, permittedDNSDomains := [[46, 97]],
    excludedIPRanges := [⟨[10, 0, 0, 0], [255, 0, 0, 0]⟩], excludedURIDomains := [[98]],
    crlDistributionPoints := [[106], [107]], extraExtensions := [⟨[1, 2, 5], true, [1]⟩] }

/-- It is built and read back. -/
example : ∃ exts, buildCertExtensions exTemplate false [1, 2] [3, 4] = some exts ∧ exts.length = 11 ∧
    (∀ e ∈ exts, e.value.length < 100) := by
  refine ⟨(buildCertExtensions exTemplate false [1, 2] [3, 4]).getD [], ?_, ?_, ?_⟩ <;> decide +kernel

theorem exTemplate_ok : TemplateOk exEnv exTemplate where
  pathLen := by decide
  unknownUsages := by
    intro o ho
    rw [List.mem_singleton.mp ho]
    exact ⟨⟨_, _, _, rfl, by decide, by decide⟩, by decide⟩
  policies := by
    intro o ho
    rw [List.mem_singleton.mp ho]
    exact ⟨_, _, _, rfl, by decide, by decide⟩
  ips := by decide
  uris := by
    intro u hu
    rw [List.mem_singleton.mp hu]
    exact ⟨rfl, fun _ => (domain_ok_iff _).mp ⟨[[99]], by decide +kernel⟩⟩
  permitted :=
    { dns := by
        intro s hs
        rw [List.mem_singleton.mp hs]
        exact Or.inr ⟨_, rfl, (domain_ok_iff _).mp ⟨[[97]], by decide +kernel⟩⟩
      ips := by intro n hn; cases hn
      emails := by intro n hn; cases hn
      uris := by intro n hn; cases hn }
  excluded :=
    { dns := by intro n hn; cases hn
      ips := by
        intro n hn
        rw [List.mem_singleton.mp hn]
        exact ⟨by decide, by decide, ⟨8, 24, by decide +kernel⟩, by decide⟩
      emails := by intro n hn; cases hn
      uris := by
        intro s hs
        rw [List.mem_singleton.mp hs]
        exact ⟨rfl, Or.inl ⟨by decide, (domain_ok_iff _).mp ⟨[[98]], by decide +kernel⟩⟩⟩ }

example : NoExtFields {} := by constructor <;> rfl

end MCrypto.Props
