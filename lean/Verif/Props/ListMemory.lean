import Verif.X509.ListRefsLemmas
import Verif.Props.CertMemory
import Verif.Props.X509Csr
/-
C134: parsed requests and revocation lists and the memory they were parsed from.
-/
namespace MCrypto.Props
open MCrypto Asn1 MCrypto.Go MCrypto.X509 MCrypto.X509Spec

/-! ## Requests -/

/-- The slices of a parsed request lie in the input as the DER says. -/
structure RequestLayout (der : Slice) (m : RequestRefs) : Prop where
  raw : m.raw = der
  tbs : Piece der m.rawTBS
  subject : Piece m.rawTBS m.rawSubject
  spki : Piece m.rawTBS m.rawSPKI
  subjectSpki : m.rawSubject.off + m.rawSubject.len = m.rawSPKI.off
  key : ∀ w, m.key = some w → Piece m.rawSPKI w
  signature : ∀ w, m.signature = some w → Piece der w ∧ m.rawTBS.off + m.rawTBS.len ≤ w.off

/-- The slices hold what the fields are. -/
structure RequestHolds (h : Heap) (c : CertificateRequest) (m : RequestRefs) : Prop where
  raw : h.read m.raw = c.raw
  tbs : h.read m.rawTBS = c.rawTBSCertificateRequest
  subject : h.read m.rawSubject = c.rawSubject
  spki : h.read m.rawSPKI = c.rawSubjectPublicKeyInfo
  signature : ∀ w, m.signature = some w → h.read w = c.signature
  key : ∀ w, m.key = some w → ∀ k, c.publicKey = .ed25519 k → h.read w = k

theorem csrSans_raws {env : Env} {l : List Ext} : ∀ {out c : CertificateRequest}, csrSans env out l = some c →
    c.raw = out.raw ∧ c.rawTBSCertificateRequest = out.rawTBSCertificateRequest ∧ c.rawSubject = out.rawSubject ∧
    c.rawSubjectPublicKeyInfo = out.rawSubjectPublicKeyInfo ∧ c.signature = out.signature ∧ c.publicKey = out.publicKey := by
  induction l with
  | nil => intro out c h; obtain rfl := Option.some.inj h; exact ⟨rfl, rfl, rfl, rfl, rfl, rfl⟩
  | cons e l ih =>
    intro out c h
    unfold csrSans at h
    split at h
    · split at h
      · cases h
      · have t := ih h; exact t
    · exact ih h

/-- An Ed25519 key is the bits themselves. -/
theorem ed25519_bits {k : Spki} {b : Bytes} (h : parsePublicKey (getPublicKeyAlgorithmFromOID k.algo.algorithm) k = .ok (.ed25519 b)) :
    b = rightAlign k.publicKey := by
  have := (parsePublicKey_iff _ _).mp h
  unfold KeyDer at this
  split at this
  · obtain ⟨_, _, _, _, _, _, _, _, _, _, _, _, _, _, _, h⟩ := this; cases h
  split at this
  · obtain ⟨_, _, _, _, _, _, _, _, _, _, _, _, _, _, _, _, _, _, _, _, _, _, _, h⟩ := this; cases h
  split at this
  · obtain ⟨_, _, _, _, _, _, _, _, _, _, _, _, _, h⟩ := this
    unfold ecPubKey at h
    split at h <;> cases h
  split at this
  · obtain ⟨_, _, h⟩ := this
    injection h with h
  · cases this

theorem requestRefs_of {env : Env} {h : Heap} {s : Slice} (hv : h.Valid s) {c : CertificateRequest}
    (hp : ParseCertificateRequest env (h.read s) = .ok c) :
    ∃ m, requestRefs h s = some m ∧ RequestHolds h c m ∧ RequestLayout s m := by
  obtain ⟨x, pub, subject, exts, h1, h2, -, -, h3⟩ := parsedRequest hp
  obtain ⟨r1, r2, r3, r4, r5, r6⟩ := csrSans_raws h3
  dsimp only at r1 r2 r3 r4 r5 r6
  obtain ⟨full, body, wRaw, wB, wR, k1, hd⟩ := field_cut (tag := none) hv h1
  have v1 := piece_valid hv k1.pieceFull
  have v1' := piece_valid v1 k1.pieceBody
  simp only [csr, Option.pure_def, Option.bind_eq_bind, Option.bind_eq_some_iff, Prod.exists, Option.some.injEq] at hd
  obtain ⟨tb, b1, d1, a, b2, d2, sg, b3, d3, rfl⟩ := hd
  rw [← k1.body] at d1
  obtain ⟨tfull, tbody, wT, wTb, wB1, k2, hdt⟩ := field_cut (tag := none) v1' d1
  have v2 := piece_valid v1' k2.pieceFull
  have v2b := piece_valid v2 k2.pieceBody
  have v2r := piece_valid v1' k2.pieceRest
  rw [← k2.rest] at d2
  obtain ⟨afull, abody, wA, wAb, wB2, k3, -⟩ := field_cut (tag := none) v2r d2
  have v3r := piece_valid v2r k3.pieceRest
  rw [← k3.rest] at d3
  obtain ⟨sfull, sbody, wS, wSb, wB3, k4, hds⟩ := field_cut (tag := none) v3r d3
  have v4 := piece_valid v3r k4.pieceFull
  have v4b := piece_valid v4 k4.pieceBody
  have hbits : decBits (h.read wSb) = some sg := by rw [k4.body]; exact hds
  obtain ⟨-, -, oSig, g11, c11⟩ := aligned_of v4b hbits
  simp only [tbsCsr, Option.pure_def, Option.bind_eq_bind, Option.bind_eq_some_iff, Prod.exists, Option.some.injEq] at hdt
  obtain ⟨ver, t1, e1, sub, t2, e2, spkiRaw, sp, t3, e3, ras, t4, -, rfl⟩ := hdt
  rw [← k2.body] at e1
  obtain ⟨vfull, vbody, wV, wVb, wT1, k5, -⟩ := field_cut (tag := none) v2b e1
  have v5r := piece_valid v2b k5.pieceRest
  rw [← k5.rest] at e2
  obtain ⟨wSu, wSub, wT2, k6⟩ := raw_cut v5r (.inl rfl) e2
  have v6r := piece_valid v5r k6.pieceRest
  rw [← k6.rest] at e3
  obtain ⟨kfull, kbody, wK, wKb, wT3, k7, hdk⟩ := field_cut (tag := none) v6r e3
  have v7 := piece_valid v6r k7.pieceFull
  have v7b := piece_valid v7 k7.pieceBody
  obtain ⟨sp', hdk2, hsp⟩ := Option.map_eq_some_iff.mp hdk
  simp only [Prod.mk.injEq] at hsp
  obtain ⟨rfl, rfl⟩ := hsp
  simp only [X509.spki, Option.pure_def, Option.bind_eq_bind, Option.bind_eq_some_iff, Prod.exists, Option.some.injEq] at hdk2
  obtain ⟨ka, u1, f1, kb, u2, f2, rfl⟩ := hdk2
  rw [← k7.body] at f1
  obtain ⟨kafull, kabody, wKa, wKab, wU1, k8, -⟩ := field_cut (tag := none) v7b f1
  have v8r := piece_valid v7b k8.pieceRest
  rw [← k8.rest] at f2
  obtain ⟨kbfull, kbbody, wKk, wKkb, wU2, k9, hdkb⟩ := field_cut (tag := none) v8r f2
  have v9 := piece_valid v8r k9.pieceFull
  have v9b := piece_valid v9 k9.pieceBody
  have hkbits : decBits (h.read wKkb) = some kb := by rw [k9.body]; exact hdkb
  obtain ⟨-, -, oKey, g10, c10⟩ := aligned_of v9b hkbits
  have pT2 : Piece wT wT2 := piece_trans k2.pieceBody (piece_trans k5.pieceRest k6.pieceRest)
  refine ⟨⟨wRaw, wT, wSu, wK, oSig, oKey⟩, ?_, ?_, ?_⟩
  · have map_snd : ∀ {x : Option (Slice × Slice × Slice)} {a b c}, x = some (a, b, c) → x.map (·.2) = some (b, c) := by
      intro x a b c hx; rw [hx]; rfl
    unfold requestRefs
    exact bind_some_of k1.element (bind_some_of k2.element (bind_some_of (map_snd k5.element) (bind_some_of k6.element (bind_some_of k7.element
      (bind_some_of (map_snd k8.element) (bind_some_of k9.element (bind_some_of g10 (bind_some_of (map_snd k3.element)
        (bind_some_of k4.element (bind_some_of g11 rfl))))))))))
  · refine ⟨?_, ?_, ?_, ?_, ?_, ?_⟩
    · rw [r1]; exact k1.full
    · rw [r2]; exact k2.full
    · rw [r3]; exact k6.full
    · rw [r4]; exact k7.full
    · intro w hw; rw [r5]; exact (c11 w hw).1
    · intro w hw k hk
      rw [r6] at hk
      rw [hk] at h2
      rw [(c10 w hw).1]
      exact (ed25519_bits h2).symm
  · refine ⟨?_, piece_trans k1.pieceFull (piece_trans k1.pieceBody k2.pieceFull), ?_, piece_trans pT2 k7.pieceFull, ?_, ?_, ?_⟩
    · have hrl := len_of (piece_valid hv k1.pieceRest) k1.rest
      rw [List.length_nil] at hrl
      have o1 := k1.order
      have o2 := k1.last
      have o3 := k1.first
      obtain ⟨p1, p2, p3, p4⟩ := k1.pieceFull
      cases wRaw
      cases s
      simp only [Slice.mk.injEq] at *
      omega
    · exact piece_trans k2.pieceBody (piece_trans k5.pieceRest k6.pieceFull)
    · show wSu.off + wSu.len = wK.off
      rw [k6.order, k7.first]
    · intro w hw
      exact piece_trans k7.pieceBody (piece_trans k8.pieceRest (piece_trans k9.pieceFull (piece_trans k9.pieceBody (c10 w hw).2)))
    · intro w hw
      have p : Piece wB1 w := piece_trans k3.pieceRest (piece_trans k4.pieceFull (piece_trans k4.pieceBody (c11 w hw).2))
      refine ⟨piece_trans k1.pieceFull (piece_trans k1.pieceBody (piece_trans k2.pieceRest p)), ?_⟩
      show wT.off + wT.len ≤ w.off
      rw [k2.order]; exact p.2.1

theorem request_at_holds {h : Heap} {c : CertificateRequest} {m : RequestRefs} (hh : RequestHolds h c m) : (RequestMem.mk c m).at h = c := by
  obtain ⟨e1, e2, e3, e4, e5, e6⟩ := hh
  unfold RequestMem.at
  dsimp only
  rw [e1, e2, e3, e4]
  have s1 : orCopy h m.signature c.signature = c.signature := by
    cases hs : m.signature with
    | none => rfl
    | some w => exact e5 w hs
  have s2 : keyAt h m.key c.publicKey = c.publicKey := by
    unfold keyAt
    split
    · rename_i k h1
      rw [h1]
      cases hs : m.key with
      | none => rfl
      | some w => exact congrArg PubKey.ed25519 (e6 w hs k h1)
    · rfl
  rw [s1, s2]

/-- **C134** `ParseCertificateRequest` on a slice fails or succeeds as the octets it holds do, and what it returns reads, at this moment, as
the request of the octets. -/
theorem C134_request_parse (env : Env) (h : Heap) (s : Slice) (hv : h.Valid s) :
    (∀ c, ParseCertificateRequest env (h.read s) = .ok c → ∃ m, parseRequestMem env h s = .ok m ∧ m.at h = c) ∧
    (∀ e, ParseCertificateRequest env (h.read s) = .err e → parseRequestMem env h s = .err e) ∧
    (∀ m, parseRequestMem env h s = .ok m → ParseCertificateRequest env (h.read s) = .ok (m.at h) ∧ m.val = m.at h) := by
  refine ⟨fun c hc => ?_, fun e he => ?_, fun m hm => ?_⟩
  · obtain ⟨m, h1, h2, -⟩ := requestRefs_of hv hc
    refine ⟨⟨c, m⟩, ?_, request_at_holds h2⟩
    unfold parseRequestMem
    rw [hc, h1]; rfl
  · unfold parseRequestMem; rw [he]; rfl
  · unfold parseRequestMem at hm
    simp only [Res.bind_eq_ok, Res.pure_eq, ofOption_ok', Res.ok.injEq] at hm
    obtain ⟨c, hc, r, hr, rfl⟩ := hm
    obtain ⟨m, h1, h2, -⟩ := requestRefs_of hv hc
    obtain rfl := Option.some.inj (hr.symm.trans h1)
    rw [request_at_holds h2]
    exact ⟨hc, rfl⟩

theorem parseRequestMem_parts {env : Env} {h : Heap} {s : Slice} (hv : h.Valid s) {m : RequestMem} (hm : parseRequestMem env h s = .ok m) :
    ParseCertificateRequest env (h.read s) = .ok m.val ∧ RequestHolds h m.val m.refs ∧ RequestLayout s m.refs := by
  unfold parseRequestMem at hm
  simp only [Res.bind_eq_ok, Res.pure_eq, ofOption_ok', Res.ok.injEq] at hm
  obtain ⟨c, hc, r, hr, rfl⟩ := hm
  obtain ⟨m, h1, h2, h3⟩ := requestRefs_of hv hc
  obtain rfl := Option.some.inj (hr.symm.trans h1)
  exact ⟨hc, h2, h3⟩

/-- **C134** The slices of a parsed request are not copies: `Raw` is the input itself, the signed part is a piece of it, subject and key are
pieces of that next to each other, and the signature, if its bits are whole octets, is a piece of the input behind the signed part. -/
theorem C134_request_layout (env : Env) (h : Heap) (s : Slice) (hv : h.Valid s) (m : RequestMem) (hm : parseRequestMem env h s = .ok m) :
    RequestLayout s m.refs :=
  (parseRequestMem_parts hv hm).2.2

/-- **C134** While nobody writes to the octets it was parsed from, the request stays what it was. -/
theorem C134_request_stable (env : Env) (h h' : Heap) (s : Slice) (hv : h.Valid s) (m : RequestMem) (hm : parseRequestMem env h s = .ok m)
    (hb : ∀ i, s.off ≤ i → i < s.off + s.len → h'.byte s.arr i = h.byte s.arr i) : m.at h' = m.at h := by
  obtain ⟨-, hh, hl⟩ := parseRequestMem_parts hv hm
  have hp : ∀ w, Piece s w → h'.read w = h.read w := fun w hw => read_same hb hw
  have hpt : ∀ w, Piece m.refs.rawTBS w → h'.read w = h.read w := fun w hw => hp w (piece_trans hl.tbs hw)
  have : RequestHolds h' m.val m.refs := by
    obtain ⟨e1, e2, e3, e4, e5, e6⟩ := hh
    refine ⟨?_, ?_, ?_, ?_, ?_, ?_⟩
    · rw [hp _ (by rw [hl.raw]; exact piece_refl _)]; exact e1
    · rw [hp _ hl.tbs]; exact e2
    · rw [hpt _ hl.subject]; exact e3
    · rw [hpt _ hl.spki]; exact e4
    · intro w hw; rw [hp _ (hl.signature w hw).1]; exact e5 w hw
    · intro w hw k hk
      rw [hpt _ (piece_trans hl.spki (hl.key w hw))]
      exact e6 w hw k hk
  exact (request_at_holds this).trans (request_at_holds hh).symm

/-- **C134** If the buffer is used again for another request of the same key with its signed part and signature at the same places, then
`CheckSignature` of the old object is that of the new one, while it still shows the old subject, alternative names and extensions. -/
theorem C134_request_reused (env : Env) (h h' : Heap) (s : Slice) (hv : h.Valid s) (hv' : h'.Valid s) (m m' : RequestMem)
    (hm : parseRequestMem env h s = .ok m) (hm' : parseRequestMem env h' s = .ok m') (ht : m'.refs.rawTBS = m.refs.rawTBS) (w : Slice)
    (hs : m.refs.signature = some w) (hs' : m'.refs.signature = some w) (ha : m'.val.signatureAlgorithm = m.val.signatureAlgorithm)
    (hk : (m'.at h').publicKey = (m.at h').publicKey) :
    (∀ reg V, (m.at h').checkSignature reg V = (m'.at h').checkSignature reg V) ∧ (m.at h').raw = (m'.at h').raw ∧
    (m.at h').subject = (m.at h).subject ∧ (m.at h').dnsNames = (m.at h).dnsNames ∧ (m.at h').emailAddresses = (m.at h).emailAddresses ∧
    (m.at h').ipAddresses = (m.at h).ipAddresses ∧ (m.at h').uris = (m.at h).uris ∧ (m.at h').extensions = (m.at h).extensions := by
  have l := C134_request_layout env h s hv m hm
  have l' := C134_request_layout env h' s hv' m' hm'
  refine ⟨fun reg V => ?_, ?_, rfl, rfl, rfl, rfl, rfl, rfl⟩
  · have e1 : (m.at h').rawTBSCertificateRequest = (m'.at h').rawTBSCertificateRequest := by
      show h'.read m.refs.rawTBS = h'.read m'.refs.rawTBS
      rw [ht]
    have e2 : (m.at h').signature = (m'.at h').signature := by
      show orCopy h' m.refs.signature _ = orCopy h' m'.refs.signature _
      rw [hs, hs']; rfl
    have e3 : (m.at h').signatureAlgorithm = (m'.at h').signatureAlgorithm := ha.symm
    unfold CertificateRequest.checkSignature
    rw [e1, e2, e3, hk]
  · show h'.read m.refs.raw = h'.read m'.refs.raw
    rw [l.raw, l'.raw]

/-! ## Revocation lists -/

/-- The slices of a parsed list lie in the input as the DER says. -/
structure CrlLayout (der : Slice) (m : CrlRefs) : Prop where
  tbs : Piece der m.rawTBS
  params : ∀ f b, m.params = some (f, b) → Piece der f ∧ Piece f b ∧ m.rawTBS.off + m.rawTBS.len ≤ f.off ∧ f.off + f.len ≤ m.signature.off
  signature : Piece der m.signature ∧ m.rawTBS.off + m.rawTBS.len ≤ m.signature.off

/-- The slices hold what the fields are. -/
structure CrlHolds (h : Heap) (c : Crl) (m : CrlRefs) : Prop where
  tbs : h.read m.rawTBS = c.tbs.raw
  params : match m.params with
    | some (f, b) => h.read f = c.signatureAlgorithm.parameters.full ∧ h.read b = c.signatureAlgorithm.parameters.bytes
    | none => c.signatureAlgorithm.parameters = {}
  signature : h.read m.signature = c.signatureValue.bytes

theorem params_of {h : Heap} {s : Slice} (hv : h.Valid s) {full : Bytes} {a : AlgId} (hd : algId.dec (h.read s) full = some a) :
    ∃ o, paramsRef h s = some o ∧ (∀ f b, o = some (f, b) → Piece s f ∧ Piece f b) ∧
      match o with
      | some (f, b) => h.read f = a.parameters.full ∧ h.read b = a.parameters.bytes
      | none => a.parameters = {} := by
  simp only [algId, Option.pure_def, Option.bind_eq_bind, Option.bind_eq_some_iff, Prod.exists, Option.some.injEq] at hd
  obtain ⟨o, b1, h1, p, b2, h2, rfl⟩ := hd
  obtain ⟨ofull, obody, wO, wOb, wR, k1, -⟩ := field_cut (tag := none) hv h1
  have v1 := piece_valid hv k1.pieceRest
  rw [← k1.rest] at h2
  have hlen := read_length v1
  by_cases h0 : wR.len = 0
  · refine ⟨none, ?_, fun _ _ h => (by cases h), ?_⟩
    · unfold paramsRef
      rw [k1.element]
      show (if wR.len = 0 then _ else _) = _
      rw [if_pos h0]; rfl
    · have : h.read wR = [] := List.length_eq_zero_iff.mp (by omega)
      rw [this] at h2
      obtain ⟨rfl, -⟩ := Prod.mk.inj (Option.some.inj h2)
      rfl
  · have hne : h.read wR ≠ [] := fun e => by rw [e] at hlen; exact h0 hlen.symm
    obtain ⟨wF, wB, wR2, k2⟩ := raw_cut v1 (.inr hne) h2
    refine ⟨some (wF, wB), ?_, ?_, k2.full, k2.body⟩
    · unfold paramsRef
      rw [k1.element]
      show (if wR.len = 0 then _ else _) = _
      rw [if_neg h0, k2.element]; rfl
    · intro f b hfb
      obtain ⟨rfl, rfl⟩ := Prod.mk.inj (Option.some.inj hfb)
      exact ⟨piece_trans k1.pieceRest k2.pieceFull, k2.pieceBody⟩

theorem crlRefs_of_field {h : Heap} {s : Slice} (hv : h.Valid s) {x : Crl} {rest : Bytes} (h1 : parseField crl {} (h.read s) = some (x, rest)) :
    ∃ m, crlRefs h s = some m ∧ CrlHolds h x m ∧ CrlLayout s m := by
  obtain ⟨full, body, wRaw, wB, wR, k1, hd⟩ := field_cut (tag := none) hv h1
  have v1 := piece_valid hv k1.pieceFull
  have v1' := piece_valid v1 k1.pieceBody
  simp only [crl, Option.pure_def, Option.bind_eq_bind, Option.bind_eq_some_iff, Prod.exists, Option.some.injEq] at hd
  obtain ⟨tb, b1, d1, a, b2, d2, sg, b3, d3, rfl⟩ := hd
  rw [← k1.body] at d1
  obtain ⟨tfull, tbody, wT, wTb, wB1, k2, hdt⟩ := field_cut (tag := none) v1' d1
  have v2r := piece_valid v1' k2.pieceRest
  rw [← k2.rest] at d2
  obtain ⟨afull, abody, wA, wAb, wB2, k3, hda⟩ := field_cut (tag := none) v2r d2
  have v3 := piece_valid v2r k3.pieceFull
  have v3b := piece_valid v3 k3.pieceBody
  have v3r := piece_valid v2r k3.pieceRest
  rw [← k3.body] at hda
  obtain ⟨o, g1, c1, c2⟩ := params_of v3b hda
  rw [← k3.rest] at d3
  obtain ⟨sfull, sbody, wS, wSb, wB3, k4, hds⟩ := field_cut (tag := none) v3r d3
  have v4 := piece_valid v3r k4.pieceFull
  have v4b := piece_valid v4 k4.pieceBody
  have hbits : decBits (h.read wSb) = some sg := by rw [k4.body]; exact hds
  obtain ⟨q1, q2, -⟩ := aligned_of v4b hbits
  have hraw : tb.raw = tfull := by
    simp only [tbsCrl, Option.pure_def, Option.bind_eq_bind, Option.bind_eq_some_iff, Prod.exists, Option.some.injEq] at hdt
    obtain ⟨_, _, -, _, _, -, _, _, -, _, _, -, _, _, -, _, _, -, _, _, -, rfl⟩ := hdt
    rfl
  have pB : Piece s wB := piece_trans k1.pieceFull k1.pieceBody
  have pS : Piece wB2 (sub wSb 1 (wSb.len - 1)) := piece_trans k4.pieceFull (piece_trans k4.pieceBody q2)
  refine ⟨⟨wT, o, sub wSb 1 (wSb.len - 1)⟩, ?_, ⟨?_, c2, q1⟩, ⟨piece_trans pB k2.pieceFull, ?_, ?_⟩⟩
  · unfold crlRefs
    exact bind_some_of k1.element (bind_some_of k2.element (bind_some_of k3.element (bind_some_of k4.element (bind_some_of g1 rfl))))
  · rw [k2.full]; exact hraw.symm
  · intro f b hfb
    obtain ⟨p1, p2⟩ := c1 f b hfb
    have pf : Piece wA f := piece_trans k3.pieceBody p1
    refine ⟨piece_trans pB (piece_trans k2.pieceRest (piece_trans k3.pieceFull pf)), p2, ?_, ?_⟩
    · show wT.off + wT.len ≤ f.off
      rw [k2.order, ← k3.first]; exact pf.2.1
    · show f.off + f.len ≤ (sub wSb 1 (wSb.len - 1)).off
      have h1 := pf.2.2.1
      have h2 := pS.2.1
      have h3 := k3.order
      omega
  · refine ⟨piece_trans pB (piece_trans k2.pieceRest (piece_trans k3.pieceRest pS)), ?_⟩
    show wT.off + wT.len ≤ (sub wSb 1 (wSb.len - 1)).off
    rw [k2.order]
    exact (piece_trans k3.pieceRest pS).2.1

theorem crlRefs_of {h : Heap} {s : Slice} (hv : h.Valid s) {c : Crl} (hp : ParseDERCRL (h.read s) = .ok c) :
    ∃ m, crlRefs h s = some m ∧ CrlHolds h c m ∧ CrlLayout s m := by
  unfold ParseDERCRL at hp
  split at hp
  · cases hp
  rename_i x rest h1
  rcases ite_or hp with hp | ⟨-, hp⟩
  · cases hp
  obtain rfl := Res.ok.inj hp
  exact crlRefs_of_field hv h1

theorem crl_at_holds {h : Heap} {c : Crl} {m : CrlRefs} (hh : CrlHolds h c m) : (CrlMem.mk c m).at h = c := by
  obtain ⟨e1, e2, e3⟩ := hh
  unfold CrlMem.at
  dsimp only
  rw [e1, e3]
  have : paramsAt h m.params c.signatureAlgorithm.parameters = c.signatureAlgorithm.parameters := by
    unfold paramsAt
    cases hp : m.params with
    | none => rfl
    | some x =>
      obtain ⟨f, b⟩ := x
      rw [hp] at e2
      simp only [] at e2 ⊢
      rw [e2.1, e2.2]
  rw [this]

/-- **C134** `ParseDERCRL` on a slice fails or succeeds as the octets it holds do, and what it returns reads, at this moment, as the list
of the octets. -/
theorem C134_crl_parse (h : Heap) (s : Slice) (hv : h.Valid s) :
    (∀ c, ParseDERCRL (h.read s) = .ok c → ∃ m, parseCrlMem h s = .ok m ∧ m.at h = c) ∧
    (∀ e, ParseDERCRL (h.read s) = .err e → parseCrlMem h s = .err e) ∧
    (∀ m, parseCrlMem h s = .ok m → ParseDERCRL (h.read s) = .ok (m.at h) ∧ m.val = m.at h) := by
  refine ⟨fun c hc => ?_, fun e he => ?_, fun m hm => ?_⟩
  · obtain ⟨m, h1, h2, -⟩ := crlRefs_of hv hc
    refine ⟨⟨c, m⟩, ?_, crl_at_holds h2⟩
    unfold parseCrlMem
    rw [hc, h1]; rfl
  · unfold parseCrlMem; rw [he]; rfl
  · unfold parseCrlMem at hm
    simp only [Res.bind_eq_ok, Res.pure_eq, ofOption_ok', Res.ok.injEq] at hm
    obtain ⟨c, hc, r, hr, rfl⟩ := hm
    obtain ⟨m, h1, h2, -⟩ := crlRefs_of hv hc
    obtain rfl := Option.some.inj (hr.symm.trans h1)
    rw [crl_at_holds h2]
    exact ⟨hc, rfl⟩

theorem parseCrlMem_parts {h : Heap} {s : Slice} (hv : h.Valid s) {m : CrlMem} (hm : parseCrlMem h s = .ok m) :
    ParseDERCRL (h.read s) = .ok m.val ∧ CrlHolds h m.val m.refs ∧ CrlLayout s m.refs := by
  unfold parseCrlMem at hm
  simp only [Res.bind_eq_ok, Res.pure_eq, ofOption_ok', Res.ok.injEq] at hm
  obtain ⟨c, hc, r, hr, rfl⟩ := hm
  obtain ⟨m, h1, h2, h3⟩ := crlRefs_of hv hc
  obtain rfl := Option.some.inj (hr.symm.trans h1)
  exact ⟨hc, h2, h3⟩

/-- **C134** The signed part, the parameters of the algorithm and the signature of a parsed list are pieces of the input, in this
order. -/
theorem C134_crl_layout (h : Heap) (s : Slice) (hv : h.Valid s) (m : CrlMem) (hm : parseCrlMem h s = .ok m) : CrlLayout s m.refs :=
  (parseCrlMem_parts hv hm).2.2

/-- **C134** While nobody writes to the octets it was parsed from, the list stays what it was. -/
theorem C134_crl_stable (h h' : Heap) (s : Slice) (hv : h.Valid s) (m : CrlMem) (hm : parseCrlMem h s = .ok m)
    (hb : ∀ i, s.off ≤ i → i < s.off + s.len → h'.byte s.arr i = h.byte s.arr i) : m.at h' = m.at h := by
  obtain ⟨-, hh, hl⟩ := parseCrlMem_parts hv hm
  have hp : ∀ w, Piece s w → h'.read w = h.read w := fun w hw => read_same hb hw
  have : CrlHolds h' m.val m.refs := by
    obtain ⟨e1, e2, e3⟩ := hh
    refine ⟨by rw [hp _ hl.tbs]; exact e1, ?_, by rw [hp _ hl.signature.1]; exact e3⟩
    cases ho : m.refs.params with
    | none => rw [ho] at e2; exact e2
    | some x =>
      obtain ⟨f, b⟩ := x
      rw [ho] at e2
      obtain ⟨p1, p2, -⟩ := hl.params f b ho
      exact ⟨by rw [hp _ p1]; exact e2.1, by rw [hp _ (piece_trans p1 p2)]; exact e2.2⟩
  exact (crl_at_holds this).trans (crl_at_holds hh).symm

/-- **C134** If the buffer is used again for another list with its parts at the same places and the same algorithm identifier, then
`CheckCRLSignature` of every certificate treats the old object as the new one, while it still shows the old entries, times and
issuer: a revocation that only the old, or only the new list has is then judged by the signature of the other. -/
theorem C134_crl_reused (h h' : Heap) (s : Slice) (hv : h.Valid s) (hv' : h'.Valid s) (m m' : CrlMem)
    (hm : parseCrlMem h s = .ok m) (hm' : parseCrlMem h' s = .ok m')
    (hr : m'.refs = m.refs) (ha : m'.val.signatureAlgorithm.algorithm = m.val.signatureAlgorithm.algorithm)
    (ht : ∀ f b, m.refs.params = some (f, b) → m'.val.signatureAlgorithm.parameters.tag = m.val.signatureAlgorithm.parameters.tag ∧
      m'.val.signatureAlgorithm.parameters.cls = m.val.signatureAlgorithm.parameters.cls ∧
      m'.val.signatureAlgorithm.parameters.compound = m.val.signatureAlgorithm.parameters.compound)
    (hl : m'.val.signatureValue.bitLength = m.val.signatureValue.bitLength) :
    (∀ reg V (cert : Certificate), cert.checkCRLSignature reg V (m.at h').signedPart = cert.checkCRLSignature reg V (m'.at h').signedPart) ∧
    (m.at h').tbs.revoked = (m.at h).tbs.revoked ∧ (m.at h').tbs.issuer = (m.at h).tbs.issuer ∧
    (m.at h').tbs.thisUpdate = (m.at h).tbs.thisUpdate ∧ (m.at h').tbs.nextUpdate = (m.at h).tbs.nextUpdate ∧
    (m.at h').tbs.extensions = (m.at h).tbs.extensions := by
  have hh := (parseCrlMem_parts hv' hm').2.1
  have hp : m.refs.params = none → m.val.signatureAlgorithm.parameters = {} := by
    intro ho
    have e := (parseCrlMem_parts hv hm).2.1.params
    rw [ho] at e
    exact e
  refine ⟨fun reg V cert => ?_, rfl, rfl, rfl, rfl, rfl⟩
  have e : (m.at h').signedPart = (m'.at h').signedPart := by
    unfold CrlMem.at Crl.signedPart
    dsimp only
    rw [hr, ha, hl]
    have : paramsAt h' m.refs.params m.val.signatureAlgorithm.parameters =
        paramsAt h' m.refs.params m'.val.signatureAlgorithm.parameters := by
      have e2 := hh.params
      rw [hr] at e2
      cases ho : m.refs.params with
      | none =>
        rw [ho] at e2
        simp only [] at e2
        rw [hp ho, e2]
      | some x =>
        obtain ⟨f, b⟩ := x
        obtain ⟨t1, t2, t3⟩ := ht f b ho
        unfold paramsAt
        simp only []
        rw [t1, t2, t3]
    rw [this]
  rw [e]

end MCrypto.Props
