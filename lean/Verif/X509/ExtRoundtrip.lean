import Verif.X509.ProcLemmas
/-
Parsing the extensions `buildCertExtensions` makes for a template.
-/
namespace MCrypto.X509
open MCrypto MCrypto.Asn1 MCrypto.X509Spec MCrypto.Props

theorem extIf_cases {wanted : Bool} {o : Oid} {extra l : List Ext} {m : Option Ext} (h : extIf wanted o extra m = some l)
    (hx : oidInExtensions o extra = false) : (wanted = false ∧ l = []) ∨ (wanted = true ∧ ∃ e, m = some e ∧ l = [e]) := by
  unfold extIf at h
  rw [hx] at h
  cases wanted with
  | false => left; simp at h; exact ⟨rfl, h⟩
  | true =>
    right
    simp only [Bool.not_false, Bool.and_self, if_true] at h
    cases m with
    | none => cases h
    | some e => simp at h; exact ⟨rfl, e, rfl, h.symm⟩

theorem loop_one {env : Env} {c c' : Certificate} {e : Ext} {u : Bool} (h : processExtension env c e = some (c', u))
    (hu : (e.critical && u) = false) : processExtensionsLoop env c [e] = some c' := by
  rw [processExtensionsLoop, h]
  simp only [hu]
  rfl

theorem netOk_enc {n : IPNet} (h : NetOk n) : ipAndMask n = n.ip ++ n.mask ∧ netOf (n.ip ++ n.mask) = n := by
  obtain ⟨h1, h2, -, h4⟩ := h
  constructor
  · unfold ipAndMask ipMask
    have e1 : ¬ (n.mask.length = 16 ∧ n.ip.length = 4 ∧ (n.mask.take 12).all (· == 0xff) = true) := by omega
    simp only [e1, if_false]
    have e2 : ¬ (n.mask.length = 4 ∧ n.ip.length = 16 ∧
      n.ip.take 12 = [0, 0, 0, 0, 0, 0, 0, 0, 0, 0, 0xff, 0xff]) := by omega
    simp only [e2, if_false]
    rw [if_neg (by omega), h4]
  · unfold netOf
    have e : (n.ip ++ n.mask).length / 2 = n.ip.length := by rw [List.length_append]; omega
    rw [e, List.take_left, List.drop_left]

theorem ncNames_ok {env : Env} {dns : List Bytes} {ips : List IPNet} {emails uris : List Bytes}
    (h : NcOk env dns ips emails uris) (ha : ∀ s ∈ dns ++ emails ++ uris, Ascii s) :
    (∀ n ∈ ncNames dns ips emails uris, ConstraintOk env n) ∧
    subtreesOf (ncNames dns ips emails uris) = ⟨dns, ips, emails, uris, false⟩ := by
  constructor
  · intro n hn
    simp only [ncNames, List.mem_append, List.mem_map] at hn
    rcases hn with ((⟨s, hs, rfl⟩ | ⟨s, hs, rfl⟩) | ⟨s, hs, rfl⟩) | ⟨s, hs, rfl⟩
    · have a := ha s (by simp [hs])
      exact ⟨fun _ => ⟨a, h.dns s hs⟩, fun h => absurd h (by simp), fun h => absurd h (by simp),
        fun h => absurd h (by simp)⟩
    · refine ⟨fun h => absurd h (by simp), fun _ => ?_, fun h => absurd h (by simp), fun h => absurd h (by simp)⟩
      obtain ⟨h1, h2, h3, -⟩ := h.ips s hs
      simp only [(netOk_enc (h.ips s hs)).1, List.length_append]
      rcases h1 with h1 | h1
      · left; refine ⟨by omega, ?_⟩
        rw [show 4 = s.ip.length by omega, List.drop_left]; exact h3
      · right; refine ⟨by omega, ?_⟩
        rw [show 16 = s.ip.length by omega, List.drop_left]; exact h3
    · have a := ha s (by simp [hs])
      exact ⟨fun h => absurd h (by simp), fun h => absurd h (by simp), fun _ => ⟨a, h.emails s hs⟩,
        fun h => absurd h (by simp)⟩
    · have a := ha s (by simp [hs])
      exact ⟨fun h => absurd h (by simp), fun h => absurd h (by simp), fun h => absurd h (by simp),
        fun _ => ⟨a, h.uris s hs⟩⟩
  · have pos : ∀ {α : Type} (t : Der.Tag) (f : α → Bytes) (l : List α), ofTag t (l.map fun x => (t, f x)) = l.map f := by
      intro α t f l
      unfold ofTag
      rw [List.filter_eq_self.mpr (by simp), List.map_map]; rfl
    have neg : ∀ {α : Type} (t t' : Der.Tag) (f : α → Bytes) (l : List α), t ≠ t' →
        ofTag t (l.map fun x => (t', f x)) = [] := by
      intro α t t' f l ht
      rw [ofTag_nil_iff]
      intro n hn
      simp only [List.mem_map] at hn
      obtain ⟨x, -, rfl⟩ := hn
      exact Ne.symm ht
    have app : ∀ t a b, ofTag t (a ++ b) = ofTag t a ++ ofTag t b := by
      intro t a b; simp [ofTag]
    unfold subtreesOf ncNames
    simp only [app]
    rw [pos 0x82 (fun s => s) dns, neg 0x82 0x87 ipAndMask ips (by decide), neg 0x82 0x81 (fun s => s) emails (by decide),
      neg 0x82 0x86 (fun s => s) uris (by decide), neg 0x87 0x82 (fun s => s) dns (by decide), pos 0x87 ipAndMask ips,
      neg 0x87 0x81 (fun s => s) emails (by decide), neg 0x87 0x86 (fun s => s) uris (by decide),
      neg 0x81 0x82 (fun s => s) dns (by decide), neg 0x81 0x87 ipAndMask ips (by decide), pos 0x81 (fun s => s) emails,
      neg 0x81 0x86 (fun s => s) uris (by decide), neg 0x86 0x82 (fun s => s) dns (by decide),
      neg 0x86 0x87 ipAndMask ips (by decide), neg 0x86 0x81 (fun s => s) emails (by decide), pos 0x86 (fun s => s) uris]
    simp only [List.map_id', List.append_nil, List.nil_append, List.map_map, Subtrees.mk.injEq, true_and]
    refine ⟨?_, ?_⟩
    · rw [List.map_congr_left (g := fun n => n)]
      · simp
      · intro n hn
        have := netOk_enc (h.ips n hn)
        simp [this.1, this.2]
    · rw [List.any_eq_false]
      intro n hn
      simp only [List.mem_append, List.mem_map] at hn
      rcases hn with ((⟨s, hs, rfl⟩ | ⟨s, hs, rfl⟩) | ⟨s, hs, rfl⟩) | ⟨s, hs, rfl⟩ <;> simp

theorem sanNames_lists (env : Env) (dns emails ips : List Bytes) (uris : List Url)
    (hu : ∀ u ∈ uris, env.parseURL u.str = some u) :
    (⟨ofTag 0x82 (sanNames dns emails ips uris), ofTag 0x81 (sanNames dns emails ips uris),
      ofTag 0x87 (sanNames dns emails ips uris),
      (ofTag 0x86 (sanNames dns emails ips uris)).map fun b => (env.parseURL b).getD ⟨[], []⟩⟩ : SanLists) =
      ⟨dns, emails, ips.map normIP, uris⟩ := by
  have pos : ∀ {α : Type} (t : Der.Tag) (f : α → Bytes) (l : List α), ofTag t (l.map fun x => (t, f x)) = l.map f := by
    intro α t f l
    unfold ofTag
    rw [List.filter_eq_self.mpr (by simp), List.map_map]; rfl
  have neg : ∀ {α : Type} (t t' : Der.Tag) (f : α → Bytes) (l : List α), t ≠ t' →
      ofTag t (l.map fun x => (t', f x)) = [] := by
    intro α t t' f l ht
    rw [ofTag_nil_iff]
    intro n hn
    simp only [List.mem_map] at hn
    obtain ⟨x, -, rfl⟩ := hn
    exact Ne.symm ht
  have app : ∀ t a b, ofTag t (a ++ b) = ofTag t a ++ ofTag t b := by
    intro t a b; simp [ofTag]
  unfold sanNames
  simp only [app]
  rw [pos 0x82 (fun s => s) dns, neg 0x82 0x81 (fun s => s) emails (by decide), neg 0x82 0x87 normIP ips (by decide),
    neg 0x82 0x86 Url.str uris (by decide), neg 0x81 0x82 (fun s => s) dns (by decide), pos 0x81 (fun s => s) emails,
    neg 0x81 0x87 normIP ips (by decide), neg 0x81 0x86 Url.str uris (by decide),
    neg 0x87 0x82 (fun s => s) dns (by decide), neg 0x87 0x81 (fun s => s) emails (by decide), pos 0x87 normIP ips,
    neg 0x87 0x86 Url.str uris (by decide), neg 0x86 0x82 (fun s => s) dns (by decide),
    neg 0x86 0x81 (fun s => s) emails (by decide), neg 0x86 0x87 normIP ips (by decide), pos 0x86 Url.str uris]
  simp only [List.map_id', List.append_nil, List.nil_append, List.map_map, SanLists.mk.injEq, true_and]
  rw [List.map_congr_left (g := fun u => u)]
  · simp
  · intro u h
    simp [hu u h]

theorem sanNames_ok (env : Env) (dns emails ips : List Bytes) (uris : List Url)
    (ha : ∀ s ∈ dns ++ emails ++ uris.map (·.str), Ascii s) (hip : ∀ ip ∈ ips, ip.length = 4 ∨ ip.length = 16)
    (hu : ∀ u ∈ uris, env.parseURL u.str = some u ∧ (u.host ≠ [] → HostName u.host)) :
    ∀ n ∈ sanNames dns emails ips uris, SanOk env n := by
  intro n hn
  simp only [sanNames, List.mem_append, List.mem_map] at hn
  rcases hn with ((⟨s, hs, rfl⟩ | ⟨s, hs, rfl⟩) | ⟨s, hs, rfl⟩) | ⟨s, hs, rfl⟩
  · exact ⟨fun h => absurd h (by simp), fun _ => ha s (by simp [hs]), fun h => absurd h (by simp),
      fun h => absurd h (by simp)⟩
  · exact ⟨fun _ => ha s (by simp [hs]), fun h => absurd h (by simp), fun h => absurd h (by simp),
      fun h => absurd h (by simp)⟩
  · refine ⟨fun h => absurd h (by simp), fun h => absurd h (by simp), fun h => absurd h (by simp), fun _ => ?_⟩
    have := hip s hs
    simp only [normIP, to4]
    by_cases h1 : s.length = 4
    · simp [h1]
    · rw [if_neg h1]
      split
      · simp; omega
      · simp; omega
  · refine ⟨fun h => absurd h (by simp), fun h => absurd h (by simp), fun _ => ⟨ha s.str ?_, s, hu s hs⟩,
      fun h => absurd h (by simp)⟩
    simp only [List.mem_append, List.mem_map]
    exact Or.inr ⟨s, hs, rfl⟩

/-- The fields read back from the extensions built for a template. -/
def builtFields (base t : Certificate) (aki ski : Bytes) : Certificate :=
  { base with
    keyUsage := t.keyUsage % 512
    extKeyUsage := t.extKeyUsage
    unknownExtKeyUsage := t.unknownExtKeyUsage
    basicConstraintsValid := t.basicConstraintsValid
    isCA := t.basicConstraintsValid && t.isCA
    maxPathLen := if t.basicConstraintsValid then bcLen t.maxPathLen t.maxPathLenZero else 0
    maxPathLenZero := t.basicConstraintsValid && decide (bcLen t.maxPathLen t.maxPathLenZero = 0)
    subjectKeyId := ski
    authorityKeyId := aki
    ocspServer := t.ocspServer
    issuingCertificateURL := t.issuingCertificateURL
    dnsNames := t.dnsNames
    emailAddresses := t.emailAddresses
    ipAddresses := t.ipAddresses.map normIP
    uris := t.uris
    policyIdentifiers := t.policyIdentifiers
    permittedDNSDomainsCritical := hasNameConstraints t && t.permittedDNSDomainsCritical
    permittedDNSDomains := t.permittedDNSDomains
    excludedDNSDomains := t.excludedDNSDomains
    permittedIPRanges := t.permittedIPRanges
    excludedIPRanges := t.excludedIPRanges
    permittedEmailAddresses := t.permittedEmailAddresses
    excludedEmailAddresses := t.excludedEmailAddresses
    permittedURIDomains := t.permittedURIDomains
    excludedURIDomains := t.excludedURIDomains
    crlDistributionPoints := t.crlDistributionPoints }

theorem process_eq {env : Env} {c : Certificate} {e : Ext} {i : Oid} (h : e.id = i) :
    processExtension env c e = processExtension env c { e with id := i } := by
  subst h; rfl

section steps
variable {env : Env} {t : Certificate} {l : List Ext}

theorem step_ku {x : List Ext} (h : extIf (decide (t.keyUsage ≠ 0)) oidExtensionKeyUsage x (marshalKeyUsage t.keyUsage) = some l)
    (hx : oidInExtensions oidExtensionKeyUsage x = false) (c : Certificate) (hc : c.keyUsage = 0) :
    processExtensionsLoop env c l = some { c with keyUsage := t.keyUsage % 512 } := by
  rcases extIf_cases h hx with ⟨hw, rfl⟩ | ⟨hw, e, he, rfl⟩
  · have h0 : t.keyUsage = 0 := by simpa using hw
    rw [h0, show (0 : Int) % 512 = c.keyUsage from hc.symm]; rfl
  · obtain ⟨e', he', hi, -, hk⟩ := marshalKeyUsage_some t.keyUsage
    rw [he] at he'; injection he' with he'; subst he'
    refine loop_one (u := false) ?_ (by simp)
    have hp : parseKeyUsageExtension e.value = some (t.keyUsage % 512) :=
      (parseKeyUsage_iff _ _).mpr ⟨_, by omega, hk⟩
    unfold processExtension
    rw [hi, oidExtensionKeyUsage, if_pos rfl, hp]; rfl

theorem step_eku {x : List Ext} (h : extIf (decide (t.extKeyUsage.length > 0) || decide (t.unknownExtKeyUsage.length > 0))
      oidExtensionExtendedKeyUsage x (marshalExtKeyUsage t.extKeyUsage t.unknownExtKeyUsage) = some l)
    (hx : oidInExtensions oidExtensionExtendedKeyUsage x = false) (hs : ∀ e ∈ l, e.value.length < 2 ^ 31)
    (hu : ∀ o ∈ t.unknownExtKeyUsage, OidOk o ∧ extKeyUsageFromOID o = none) (c : Certificate)
    (hc : c.extKeyUsage = []) (hc' : c.unknownExtKeyUsage = []) :
    processExtensionsLoop env c l =
      some { c with extKeyUsage := t.extKeyUsage, unknownExtKeyUsage := t.unknownExtKeyUsage } := by
  rcases extIf_cases h hx with ⟨hw, rfl⟩ | ⟨hw, e, he, rfl⟩
  · have h0 : t.extKeyUsage = [] ∧ t.unknownExtKeyUsage = [] := by simpa using hw
    rw [h0.1, h0.2]; conv_rhs => rw [← hc, ← hc']
    rfl
  · obtain ⟨hi, -, os, ho, hk⟩ := marshalEku_ext he (fun o ho => (hu o ho).1) (hs e (by simp))
    refine loop_one (u := false) ?_ (by simp)
    have hf := (usageOids_iff _ _).mp ho
    have hos : ∀ (us : List Int) (os : List Oid), List.Forall₂ (fun u o => oidFromExtKeyUsage u = some o) us os →
        os.filterMap extKeyUsageFromOID = us ∧ os.filter (fun o => (extKeyUsageFromOID o).isNone) = [] := by
      intro us os hf
      induction hf with
      | nil => simp
      | cons h1 _ ih =>
        have := (eku_oids_ok _ (oidFromEku_mem h1)).2
        simp [this, ih.1, ih.2]
    have hunk : t.unknownExtKeyUsage.filterMap extKeyUsageFromOID = [] ∧
        t.unknownExtKeyUsage.filter (fun o => (extKeyUsageFromOID o).isNone) = t.unknownExtKeyUsage := by
      constructor
      · rw [List.filterMap_eq_nil_iff]; exact fun o ho => (hu o ho).2
      · rw [List.filter_eq_self]; intro o ho; simp [(hu o ho).2]
    have hp : parseExtKeyUsageExtension e.value = some (t.extKeyUsage, t.unknownExtKeyUsage) := by
      rw [parseEku_iff]
      refine ⟨_, hk, ?_, ?_⟩
      · rw [List.filterMap_append, (hos _ _ hf).1, hunk.1, List.append_nil]
      · rw [List.filter_append, (hos _ _ hf).2, hunk.2, List.nil_append]
    unfold processExtension
    rw [hi]
    simp only [oidExtensionExtendedKeyUsage, hp]
    rfl

theorem step_bc {x : List Ext} (h : extIf t.basicConstraintsValid oidExtensionBasicConstraints x
      (some (marshalBasicConstraints t.isCA t.maxPathLen t.maxPathLenZero)) = some l)
    (hx : oidInExtensions oidExtensionBasicConstraints x = false)
    (hr : -(2 ^ 63 : Int) ≤ t.maxPathLen ∧ t.maxPathLen < 2 ^ 63) (c : Certificate)
    (hc : c.basicConstraintsValid = false) (hc1 : c.isCA = false) (hc2 : c.maxPathLen = 0) (hc3 : c.maxPathLenZero = false) :
    processExtensionsLoop env c l =
      some { c with
        basicConstraintsValid := t.basicConstraintsValid
        isCA := t.basicConstraintsValid && t.isCA
        maxPathLen := if t.basicConstraintsValid then bcLen t.maxPathLen t.maxPathLenZero else 0
        maxPathLenZero := t.basicConstraintsValid && decide (bcLen t.maxPathLen t.maxPathLenZero = 0) } := by
  rcases extIf_cases h hx with ⟨hw, rfl⟩ | ⟨hw, e, he, rfl⟩
  · simp only [hw, Bool.false_and, Bool.false_eq_true, if_false]
    cases c
    simp only at hc hc1 hc2 hc3
    subst hc hc1 hc2 hc3
    rfl
  · injection he with he
    subst he
    refine loop_one (u := false) ?_ (by simp)
    have hp := (parseBc_iff _ _ _).mpr (marshalBc_ext t.isCA t.maxPathLen t.maxPathLenZero hr.1 hr.2)
    unfold processExtension
    rw [show (marshalBasicConstraints t.isCA t.maxPathLen t.maxPathLenZero).id = [2, 5, 29, 19] from rfl]
    rw [hp, hw]
    simp

theorem step_ski {k : Bytes} {x : List Ext} (h : extIf (decide (k.length > 0)) oidExtensionSubjectKeyId x
      (marshalSubjectKeyId k) = some l) (hx : oidInExtensions oidExtensionSubjectKeyId x = false)
    (hk : k.length + 20 < 2 ^ 31) (c : Certificate) (hc : c.subjectKeyId = []) :
    processExtensionsLoop env c l = some { c with subjectKeyId := k } := by
  rcases extIf_cases h hx with ⟨hw, rfl⟩ | ⟨hw, e, he, rfl⟩
  · have h0 : k = [] := by simpa using hw
    rw [h0, ← hc]; rfl
  · obtain ⟨e', he', hi, -, hs⟩ := marshalSki_ext k (by omega)
    rw [he] at he'; injection he' with he'; subst he'
    refine loop_one (u := false) ?_ (by simp)
    obtain ⟨e1, tr, hv, hel⟩ := hs
    have hp := (readASN1_iff 0x04 e.value k tr).mpr ⟨e1, hv, hel⟩
    unfold processExtension
    rw [hi]
    simp only [oidExtensionSubjectKeyId, hp]
    rfl

theorem step_aki {k : Bytes} {x : List Ext} (h : extIf (decide (k.length > 0)) oidExtensionAuthorityKeyId x
      (marshalAuthorityKeyId k) = some l) (hx : oidInExtensions oidExtensionAuthorityKeyId x = false)
    (hk : k.length + 20 < 2 ^ 31) (c : Certificate) (hc : c.authorityKeyId = []) :
    processExtensionsLoop env c l = some { c with authorityKeyId := k } := by
  rcases extIf_cases h hx with ⟨hw, rfl⟩ | ⟨hw, e, he, rfl⟩
  · have h0 : k = [] := by simpa using hw
    rw [h0, ← hc]; rfl
  · have hne : k ≠ [] := by rintro rfl; simp at hw
    obtain ⟨e', he', hi, -, hs⟩ := marshalAki_ext k hne hk
    rw [he] at he'; injection he' with he'; subst he'
    refine loop_one (u := false) ?_ (by simp)
    have hp := (parseAki_iff _ _).mpr hs
    unfold processExtension
    rw [hi]
    simp only [oidExtensionAuthorityKeyId, hp]
    rfl

theorem step_aia {x : List Ext} (h : extIf (decide (t.ocspServer.length > 0) || decide (t.issuingCertificateURL.length > 0))
      oidExtensionAuthorityInfoAccess x (marshalAuthorityInfoAccess t.ocspServer t.issuingCertificateURL) = some l)
    (hx : oidInExtensions oidExtensionAuthorityInfoAccess x = false) (hs : ∀ e ∈ l, e.value.length < 2 ^ 31)
    (c : Certificate) (hc : c.ocspServer = []) (hc' : c.issuingCertificateURL = []) :
    processExtensionsLoop env c l =
      some { c with ocspServer := t.ocspServer, issuingCertificateURL := t.issuingCertificateURL } := by
  rcases extIf_cases h hx with ⟨hw, rfl⟩ | ⟨hw, e, he, rfl⟩
  · have h0 : t.ocspServer = [] ∧ t.issuingCertificateURL = [] := by simpa using hw
    rw [h0.1, h0.2]
    cases c
    simp only at hc hc'
    subst hc hc'
    rfl
  · obtain ⟨hi, -, hk⟩ := marshalAia_ext he (hs e (by simp))
    refine loop_one (u := false) ?_ (by simp)
    have hp : parseAuthorityInfoAccess e.value = some (t.ocspServer, t.issuingCertificateURL) := by
      rw [parseAia_iff]
      refine ⟨_, hk, ?_, ?_⟩
      · simp only [urisOf, List.filter_append, List.filterMap_append]
        rw [List.filter_eq_self.mpr (by
            intro a ha; simp only [List.mem_map] at ha; obtain ⟨u, -, rfl⟩ := ha
            simp [oidAuthorityInfoAccessOcsp]),
          List.filter_eq_nil_iff.mpr (by
            intro a ha; simp only [List.mem_map] at ha; obtain ⟨u, -, rfl⟩ := ha
            simp [oidAuthorityInfoAccessIssuers])]
        simp [List.filterMap_map]
      · simp only [urisOf, List.filter_append, List.filterMap_append]
        rw [List.filter_eq_nil_iff.mpr (by
            intro a ha; simp only [List.mem_map] at ha; obtain ⟨u, -, rfl⟩ := ha
            simp [oidAuthorityInfoAccessOcsp]),
          List.filter_eq_self.mpr (by
            intro a ha; simp only [List.mem_map] at ha; obtain ⟨u, -, rfl⟩ := ha
            simp [oidAuthorityInfoAccessIssuers])]
        simp [List.filterMap_map]
    unfold processExtension
    rw [hi]
    rw [hp, hc, hc']
    rfl

theorem step_san {x : List Ext} {empty : Bool} (h : extIf (hasSANs t) oidExtensionSubjectAltName x
      (marshalSubjectAltName t empty) = some l)
    (hx : oidInExtensions oidExtensionSubjectAltName x = false) (hs : ∀ e ∈ l, e.value.length < 2 ^ 31)
    (hip : ∀ ip ∈ t.ipAddresses, ip.length = 4 ∨ ip.length = 16)
    (hu : ∀ u ∈ t.uris, env.parseURL u.str = some u ∧ (u.host ≠ [] → HostName u.host))
    (c : Certificate) (hc : c.dnsNames = []) (hc1 : c.emailAddresses = []) (hc2 : c.ipAddresses = []) (hc3 : c.uris = []) :
    processExtensionsLoop env c l =
      some { c with
        dnsNames := t.dnsNames, emailAddresses := t.emailAddresses, ipAddresses := t.ipAddresses.map normIP
        uris := t.uris } := by
  rcases extIf_cases h hx with ⟨hw, rfl⟩ | ⟨hw, e, he, rfl⟩
  · have h0 : ((t.dnsNames = [] ∧ t.emailAddresses = []) ∧ t.ipAddresses = []) ∧ t.uris = [] := by
      simpa [hasSANs] using hw
    obtain ⟨⟨⟨h0, h1⟩, h2⟩, h3⟩ := h0
    rw [h0, h1, h2, h3]
    cases c
    simp only at hc hc1 hc2 hc3
    subst hc hc1 hc2 hc3
    rfl
  · obtain ⟨hi, -, ha, hk⟩ := marshalSan_ext he (hs e (by simp))
    have hp : parseSANExtension env e.value = some ⟨t.dnsNames, t.emailAddresses, t.ipAddresses.map normIP, t.uris⟩ := by
      rw [parseSan_iff]
      exact ⟨_, hk, sanNames_ok env _ _ _ _ ha hip hu, (sanNames_lists env _ _ _ _ fun u h => (hu u h).1).symm⟩
    refine loop_one (u := false) ?_ (by simp)
    unfold processExtension
    rw [hi]
    simp only [oidExtensionSubjectAltName, hp]
    have hne : ¬ (t.dnsNames.length = 0 ∧ t.emailAddresses.length = 0 ∧ (t.ipAddresses.map normIP).length = 0 ∧
        t.uris.length = 0) := by
      simp only [hasSANs, Bool.or_eq_true, decide_eq_true_eq] at hw
      rw [List.length_map]
      omega
    show some _ = _
    rw [decide_eq_false hne]

theorem step_pol {x : List Ext} (h : extIf (decide (t.policyIdentifiers.length > 0)) oidExtensionCertificatePolicies x
      (marshalCertificatePolicies t.policyIdentifiers) = some l)
    (hx : oidInExtensions oidExtensionCertificatePolicies x = false) (hs : ∀ e ∈ l, e.value.length < 2 ^ 31)
    (ho : ∀ o ∈ t.policyIdentifiers, OidOk o) (c : Certificate) (hc : c.policyIdentifiers = []) :
    processExtensionsLoop env c l = some { c with policyIdentifiers := t.policyIdentifiers } := by
  rcases extIf_cases h hx with ⟨hw, rfl⟩ | ⟨hw, e, he, rfl⟩
  · have h0 : t.policyIdentifiers = [] := by simpa using hw
    rw [h0, ← hc]; rfl
  · obtain ⟨hi, -, hk⟩ := marshalPolicies_ext he ho (hs e (by simp))
    refine loop_one (u := false) ?_ (by simp)
    have hp := (parsePolicies_iff _ _).mpr hk
    unfold processExtension
    rw [hi]
    simp only [oidExtensionCertificatePolicies, hp]
    rfl

theorem marshalNc_ascii {e : Ext} (h : marshalNameConstraints t = some e) (hl : e.value.length < 2 ^ 31) :
    (∀ s ∈ t.permittedDNSDomains ++ t.permittedEmailAddresses ++ t.permittedURIDomains, Ascii s) ∧
    (∀ s ∈ t.excludedDNSDomains ++ t.excludedEmailAddresses ++ t.excludedURIDomains, Ascii s) := by
  unfold marshalNameConstraints at h
  simp only [Option.pure_def, Option.bind_eq_bind, Option.bind_eq_some_iff, Option.some.injEq] at h
  obtain ⟨p, h1, x, h2, pe, h3, xe, h4, v, h5, rfl⟩ := h
  obtain ⟨hv, -⟩ := addASN1_some h5
  have l0 := tlv_length_lt 0x30 (pe ++ xe)
  rw [← hv, List.length_append] at l0
  have l1 := subtreesTLV_length h3
  have l2 := subtreesTLV_length h4
  simp only [] at hl
  exact ⟨(serialise_ext h1 (by omega)).1, (serialise_ext h2 (by omega)).1⟩

theorem step_nc {x : List Ext} (h : extIf (hasNameConstraints t) oidExtensionNameConstraints x
      (marshalNameConstraints t) = some l)
    (hx : oidInExtensions oidExtensionNameConstraints x = false) (hs : ∀ e ∈ l, e.value.length < 2 ^ 31)
    (hp : NcOk env t.permittedDNSDomains t.permittedIPRanges t.permittedEmailAddresses t.permittedURIDomains)
    (he : NcOk env t.excludedDNSDomains t.excludedIPRanges t.excludedEmailAddresses t.excludedURIDomains)
    (c : Certificate) (hc : c.permittedDNSDomainsCritical = false)
    (hc1 : c.permittedDNSDomains = []) (hc2 : c.excludedDNSDomains = []) (hc3 : c.permittedIPRanges = [])
    (hc4 : c.excludedIPRanges = []) (hc5 : c.permittedEmailAddresses = []) (hc6 : c.excludedEmailAddresses = [])
    (hc7 : c.permittedURIDomains = []) (hc8 : c.excludedURIDomains = []) :
    processExtensionsLoop env c l =
      some { c with
        permittedDNSDomainsCritical := hasNameConstraints t && t.permittedDNSDomainsCritical
        permittedDNSDomains := t.permittedDNSDomains
        excludedDNSDomains := t.excludedDNSDomains
        permittedIPRanges := t.permittedIPRanges
        excludedIPRanges := t.excludedIPRanges
        permittedEmailAddresses := t.permittedEmailAddresses
        excludedEmailAddresses := t.excludedEmailAddresses
        permittedURIDomains := t.permittedURIDomains
        excludedURIDomains := t.excludedURIDomains } := by
  rcases extIf_cases h hx with ⟨hw, rfl⟩ | ⟨hw, e, hm, rfl⟩
  · rw [hw]
    simp only [hasNameConstraints, Bool.or_eq_false_iff, decide_eq_false_iff_not, gt_iff_lt, Nat.not_lt,
      Nat.le_zero, List.length_eq_zero_iff] at hw
    obtain ⟨⟨⟨⟨⟨⟨⟨h1, h2⟩, h3⟩, h4⟩, h5⟩, h6⟩, h7⟩, h8⟩ := hw
    rw [h1, h2, h3, h4, h5, h6, h7, h8]
    cases c
    simp only at hc hc1 hc2 hc3 hc4 hc5 hc6 hc7 hc8
    subst hc hc1 hc2 hc3 hc4 hc5 hc6 hc7 hc8
    rfl
  · obtain ⟨hi, hcr, hk⟩ := marshalNc_ext hm hw (hs e (by simp))
    obtain ⟨ha, ha'⟩ := marshalNc_ascii hm (hs e (by simp))
    obtain ⟨o1, s1⟩ := ncNames_ok hp ha
    obtain ⟨o2, s2⟩ := ncNames_ok he ha'
    refine loop_one (u := false) ?_ (by simp)
    have hpp := (parseNc_iff env e.value _ _).mpr ⟨_, _, hk, o1, o2, s1.symm, s2.symm⟩
    unfold processExtension
    rw [hi]
    simp only [oidExtensionNameConstraints, hpp, hcr, hw]
    rfl

theorem step_crl {x : List Ext} (h : extIf (decide (t.crlDistributionPoints.length > 0)) oidExtensionCRLDistributionPoints x
      (marshalCRLDistributionPoints t.crlDistributionPoints) = some l)
    (hx : oidInExtensions oidExtensionCRLDistributionPoints x = false) (hs : ∀ e ∈ l, e.value.length < 2 ^ 31)
    (c : Certificate) (hc : c.crlDistributionPoints = []) :
    processExtensionsLoop env c l = some { c with crlDistributionPoints := t.crlDistributionPoints } := by
  rcases extIf_cases h hx with ⟨hw, rfl⟩ | ⟨hw, e, he, rfl⟩
  · have h0 : t.crlDistributionPoints = [] := by simpa using hw
    rw [h0, ← hc]; rfl
  · obtain ⟨hi, -, hk⟩ := marshalCrlDp_ext he (hs e (by simp))
    refine loop_one (u := false) ?_ (by simp)
    have hp := (parseCrlDp_iff _ _).mpr ⟨_, hk, rfl⟩
    have hfl : (t.crlDistributionPoints.map fun n => [n]).flatten = t.crlDistributionPoints := by
      induction t.crlDistributionPoints with
      | nil => rfl
      | cons a as ih => simp [ih]
    rw [hfl] at hp
    unfold processExtension
    rw [hi, hp, hc]
    rfl

theorem loop_extra (l : List Ext) (h : ∀ e ∈ l, e.id ∉ knownExtensions) (c : Certificate) :
    processExtensionsLoop env c l = some { c with
      unhandledCriticalExtensions := c.unhandledCriticalExtensions ++ (l.filter (·.critical)).map (·.id) } := by
  induction l generalizing c with
  | nil => rw [processExtensionsLoop]; simp
  | cons e l ih =>
    have hp : processExtension env c e = some (c, true) := by
      have := h e (by simp)
      simp only [knownExtensions, List.mem_cons, List.not_mem_nil, or_false, not_or] at this
      obtain ⟨h1, h2, h3, h4, h5, h6, h7, h8, h9, h10⟩ := this
      unfold processExtension
      rw [if_neg h1, if_neg h2, if_neg h3, if_neg h4, if_neg h5, if_neg h6, if_neg h7, if_neg h8, if_neg h9]
      rw [oidExtensionAuthorityInfoAccess, if_neg h10]
    rw [processExtensionsLoop, hp]
    simp only []
    rw [ih (fun x hx => h x (by simp [hx]))]
    cases hc : e.critical
    · simp [hc]
    · simp [hc]

end steps

theorem not_in_extra {x : List Ext} (h : ∀ e ∈ x, e.id ∉ knownExtensions) {o : Oid} (ho : o ∈ knownExtensions) :
    oidInExtensions o x = false := by
  unfold oidInExtensions
  rw [List.any_eq_false]
  intro e he hh
  have : e.id = o := by simpa using hh
  exact h e he (this ▸ ho)

/-- The extensions made for a template are read back as the fields of the template. -/
theorem build_process (env : Env) (t base : Certificate) (empty : Bool) (aki ski : Bytes) (exts : List Ext)
    (h : buildCertExtensions t empty aki ski = some exts) (hs : ∀ e ∈ exts, e.value.length < 2 ^ 31)
    (hk : aki.length + 20 < 2 ^ 31) (hk' : ski.length + 20 < 2 ^ 31)
    (ht : TemplateOk env t) (hb : NoExtFields base) (hx : ∀ e ∈ t.extraExtensions, e.id ∉ knownExtensions) :
    processExtensionsLoop env base exts = some { builtFields base t aki ski with
      unhandledCriticalExtensions :=
        base.unhandledCriticalExtensions ++ (t.extraExtensions.filter (·.critical)).map (·.id) } := by
  unfold buildCertExtensions at h
  simp only [Option.pure_def, Option.bind_eq_bind, Option.bind_eq_some_iff, Option.some.injEq] at h
  obtain ⟨e1, h1, e2, h2, e3, h3, e4, h4, e5, h5, e6, h6, e7, h7, e8, h8, e9, h9, e10, h10, rfl⟩ := h
  simp only [List.mem_append] at hs
  have nx : ∀ {o : Oid}, o ∈ knownExtensions → oidInExtensions o t.extraExtensions = false := not_in_extra hx
  obtain ⟨b1, b2, b3, b4, b5, b6, b7, b8, b9, b10, b11, b12, b13, b14, b15, b16, b17, b18, b19, b20, b21, b22, b23, b24,
    b25, b26⟩ := hb
  simp only [processLoop_append]
  rw [step_ku h1 (nx (by decide)) base b1, Option.bind_some]
  rw [step_eku h2 (nx (by decide)) (fun e he => hs e (by simp [he])) ht.unknownUsages, Option.bind_some]
  rw [step_bc h3 (nx (by decide)) ht.pathLen, Option.bind_some]
  rw [step_ski h4 (nx (by decide)) hk', Option.bind_some]
  rw [step_aki h5 (nx (by decide)) hk, Option.bind_some]
  rw [step_aia h6 (nx (by decide)) (fun e he => hs e (by simp [he])), Option.bind_some]
  rw [step_san h7 (nx (by decide)) (fun e he => hs e (by simp [he])) ht.ips ht.uris, Option.bind_some]
  rw [step_pol h8 (nx (by decide)) (fun e he => hs e (by simp [he])) ht.policies, Option.bind_some]
  rw [step_nc h9 (nx (by decide)) (fun e he => hs e (by simp [he])) ht.permitted ht.excluded, Option.bind_some]
  rw [step_crl h10 (nx (by decide)) (fun e he => hs e (by simp [he])), Option.bind_some]
  rw [loop_extra _ hx]
  · rfl
  all_goals assumption

end MCrypto.X509
