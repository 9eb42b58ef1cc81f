import Verif.X509.RefsLemmas
import Verif.Props.X509Cert
import Verif.X509.CreateCert
/-
C129: a parsed certificate and the memory it was parsed from.
-/
namespace MCrypto.Props
open MCrypto Asn1 MCrypto.Go MCrypto.X509 MCrypto.X509Spec

/-- The slices of a parsed certificate lie in the input as the DER says. -/
structure Layout (der : Slice) (m : CertRefs) : Prop where
  raw : m.raw = der
  tbs : Piece der m.rawTBSCertificate
  issuer : Piece m.rawTBSCertificate m.rawIssuer
  subject : Piece m.rawTBSCertificate m.rawSubject
  spki : Piece m.rawTBSCertificate m.rawSubjectPublicKeyInfo
  issuerSubject : m.rawIssuer.off + m.rawIssuer.len ≤ m.rawSubject.off
  subjectSpki : m.rawSubject.off + m.rawSubject.len = m.rawSubjectPublicKeyInfo.off
  exts : ∀ w ∈ m.extValues, Piece m.rawTBSCertificate w ∧ m.rawSubjectPublicKeyInfo.off + m.rawSubjectPublicKeyInfo.len ≤ w.off
  key : ∀ w, m.key = some w → Piece m.rawSubjectPublicKeyInfo w
  signature : ∀ w, m.signature = some w → Piece der w ∧ m.rawTBSCertificate.off + m.rawTBSCertificate.len ≤ w.off

/-- The slices hold what the fields are. -/
structure Holds (h : Heap) (c : Certificate) (m : CertRefs) : Prop where
  raw : h.read m.raw = c.raw
  tbs : h.read m.rawTBSCertificate = c.rawTBSCertificate
  issuer : h.read m.rawIssuer = c.rawIssuer
  subject : h.read m.rawSubject = c.rawSubject
  spki : h.read m.rawSubjectPublicKeyInfo = c.rawSubjectPublicKeyInfo
  exts : List.Forall₂ (fun w (x : Ext) => h.read w = x.value) m.extValues c.extensions
  signature : ∀ w, m.signature = some w → h.read w = c.signature
  key : ∀ w, m.key = some w → ∀ k, c.publicKey = .ed25519 k → h.read w = k

theorem forall₂_left {α β : Type} {P : α → Prop} {l : List α} {l' : List β} (h : List.Forall₂ (fun a _ => P a) l l') : ∀ a ∈ l, P a := by
  induction h with
  | nil => intro a ha; cases ha
  | cons hab _ ih =>
    intro a ha
    rcases List.mem_cons.mp ha with rfl | ha
    · exact hab
    · exact ih a ha

theorem bind_some_of {α β : Type} {x : Option α} {a : α} {f : α → Option β} {b : β} (h : x = some a) (hf : f a = some b) :
    (x >>= f) = some b := by rw [h]; exact hf

theorem certRefs_of {env : Env} {h : Heap} {s : Slice} (hv : h.Valid s) {c : Certificate} (hp : ParseCertificate env (h.read s) = .ok c) :
    ∃ m, certRefs h s = some m ∧ Holds h c m ∧ Layout s m := by
  obtain ⟨hp', hraw⟩ := (ParseCertificate_iff _ _ _).mp hp
  unfold parseCertificate at hp'
  simp only [Res.bind_eq_ok, Res.pure_eq, Prod.exists, Res.ok.injEq, ofOption_ok'] at hp'
  obtain ⟨hd, h1, id, tbs, h2, rs, sp, tbs', h3, pub, h4, c', h5, sig, r, h6, hc⟩ := hp'
  simp only [parseCertHead, Option.pure_def, Option.bind_eq_bind, Option.bind_eq_some_iff, Prod.exists] at h1
  obtain ⟨raw, q1, a1, input, q2, a2, rawTbs, input2, a3, tbs0, q3, a4, ver, tbs1, a5, ser, tbs2, a6, ais, tbs3, a7, outer, input3, a8, h1⟩ := h1
  rcases ite_or h1 with h1 | ⟨-, h1⟩
  · simp at h1
  simp only [Option.bind_some, Option.bind_eq_some_iff, Option.some.injEq] at h1
  obtain ⟨sai, -, rfl⟩ := h1
  simp only [parseIdentity, Option.pure_def, Option.bind_eq_bind, Option.bind_eq_some_iff, Prod.exists, Option.some.injEq, Prod.mk.injEq] at h2
  obtain ⟨ri, tbs4, b1, iss, -, vb, tbs5, b2, nb, na, -, rsub, tbs6, b3, subj, -, rfl, rfl⟩ := h2
  simp only [parseSpki, Option.pure_def, Option.bind_eq_bind, Option.bind_eq_some_iff, Prod.exists, Option.some.injEq, Prod.mk.injEq] at h3
  obtain ⟨raw', tbs7, d1, k1, q4, d2, kai, k2, d3, pkAI, d4, spk, q5, d5, rfl, rfl, rfl⟩ := h3
  dsimp only at h5 h6 hc b1
  -- the slices
  obtain ⟨wRaw, wq1, g1, c1, o1⟩ := readElementS_of hv a1
  have v1 := piece_valid hv c1.piece
  rw [← c1.bytes] at a2
  obtain ⟨wIn, wq2, g2, c2⟩ := readASN1S_of v1 a2
  have v2 := piece_valid v1 c2.piece
  rw [← c2.bytes] at a3
  obtain ⟨wTbs, wIn2, g3, c3, o3⟩ := readElementS_of v2 a3
  have v3 := piece_valid v2 c3.piece
  have v3' := piece_valid v2 c3.pieceRest
  rw [← c3.bytes] at a4
  obtain ⟨wT0, wq3, g4, c4⟩ := readASN1S_of v3 a4
  have v4 := piece_valid v3 c4.piece
  rw [← c4.bytes] at a5
  obtain ⟨wT1, g5, c5, p5⟩ := readS_of parseVersion_suffix v4 a5
  have v5 := piece_valid v4 p5
  rw [← c5] at a6
  obtain ⟨wT2, g6, c6, p6⟩ := readS_of readInt_suffix v5 a6
  have v6 := piece_valid v5 p6
  rw [← c6] at a7
  obtain ⟨wq4, wT3, g7, c7⟩ := readASN1S_of v6 a7
  have v7 := piece_valid v6 c7.pieceRest
  rw [← c3.rest] at a8
  obtain ⟨wq5, wIn3, g8, c8⟩ := readASN1S_of v3' a8
  have v8 := piece_valid v3' c8.pieceRest
  rw [← c7.rest] at b1
  obtain ⟨wIss, wT4, g9, c9, o9⟩ := readElementS_of v7 b1
  have v9 := piece_valid v7 c9.pieceRest
  rw [← c9.rest] at b2
  obtain ⟨wq6, wT5, g10, c10⟩ := readASN1S_of v9 b2
  have v10 := piece_valid v9 c10.pieceRest
  rw [← c10.rest] at b3
  obtain ⟨wSub, wT6, g11, c11, o11⟩ := readElementS_of v10 b3
  have v11 := piece_valid v10 c11.pieceRest
  rw [← c11.rest] at d1
  obtain ⟨wSpki, wT7, g12, c12, o12⟩ := readElementS_of v11 d1
  have v12 := piece_valid v11 c12.piece
  have v12' := piece_valid v11 c12.pieceRest
  rw [← c12.bytes] at d2
  obtain ⟨wK1, wq7, g13, c13⟩ := readASN1S_of v12 d2
  have v13 := piece_valid v12 c13.piece
  rw [← c13.bytes] at d3
  obtain ⟨wq8, wK2, g14, c14⟩ := readASN1S_of v13 d3
  have v14 := piece_valid v13 c14.pieceRest
  rw [← c14.rest] at d5
  obtain ⟨wKey, g15, c15⟩ := bits_of v14 d5
  rw [← c12.rest] at h5
  obtain ⟨ws, g16, c16⟩ := tail_of v12' rfl h5
  rw [← c8.rest] at h6
  obtain ⟨wSig, g17, c17⟩ := bits_of v8 h6
  have pT : Piece wTbs wT3 := piece_trans c4.piece (piece_trans p5 (piece_trans p6 c7.pieceRest))
  have pT5 : Piece wTbs wT5 := piece_trans pT (piece_trans c9.pieceRest c10.pieceRest)
  have pT6 : Piece wTbs wT6 := piece_trans pT5 c11.pieceRest
  have pTbs : Piece s wTbs := piece_trans c1.piece (piece_trans c2.piece c3.piece)
  obtain ⟨l, hl⟩ := parseTail_core h5
  refine ⟨⟨wRaw, wTbs, wIss, wSub, wSpki, ws, wSig, wKey⟩, ?_, ?_, ?_⟩
  · have gk : keyRef h wSpki = some wKey := bind_some_of g13 (bind_some_of g14 g15)
    unfold certRefs
    exact bind_some_of g1 (bind_some_of g2 (bind_some_of g3 (bind_some_of g4 (bind_some_of g5 (bind_some_of g6 (bind_some_of g7 (bind_some_of g8 (bind_some_of g9 (bind_some_of g10 (bind_some_of g11 (bind_some_of g12 (bind_some_of g16 (bind_some_of gk (bind_some_of g17 rfl))))))))))))))
  · subst hc
    refine ⟨?_, ?_, ?_, ?_, ?_, c16.imp fun _ _ ⟨a, _⟩ => a, fun w hw => (c17 w hw).1, ?_⟩
    · rw [c1.bytes]; exact (congrArg Certificate.raw hl).symm
    · rw [c3.bytes]; exact (congrArg Certificate.rawTBSCertificate hl).symm
    · rw [c9.bytes]; exact (congrArg Certificate.rawIssuer hl).symm
    · rw [c11.bytes]; exact (congrArg Certificate.rawSubject hl).symm
    · rw [c12.bytes]; exact (congrArg Certificate.rawSubjectPublicKeyInfo hl).symm
    · intro w hw k hk
      rw [(c15 w hw).1]
      have e : c'.publicKey = pub := congrArg Certificate.publicKey hl
      have hk' : pub = .ed25519 k := e.symm.trans hk
      subst hk'
      have := (parsePublicKey_iff _ _).mp h4
      unfold KeyDer at this
      dsimp only at this
      split at this
      · obtain ⟨_, _, _, _, _, _, _, _, _, _, _, _, _, _, _, h⟩ := this; cases h
      split at this
      · obtain ⟨_, _, _, _, _, _, _, _, _, _, _, _, _, _, _, _, _, _, _, _, _, _, _, h⟩ := this; cases h
      split at this
      · obtain ⟨_, _, _, _, _, _, _, _, _, _, _, _, _, h⟩ := this
        unfold ecPubKey at h
        split at h <;> cases h
      split at this
      · obtain ⟨_, _, h⟩ := this
        injection h with h
        exact h.symm
      · cases this
  · have hlen : wRaw.len = s.len := by
      rw [len_of v1 c1.bytes, ← read_length hv, ← hraw, ← hc]
      exact congrArg List.length (congrArg Certificate.raw hl).symm
    refine ⟨?_, pTbs, piece_trans pT c9.piece, piece_trans pT5 c11.piece, piece_trans pT6 c12.piece, ?_, ?_, ?_, ?_, ?_⟩
    · obtain ⟨p1, p2, p3, p4⟩ := c1.piece
      cases wRaw
      cases s
      simp only [Slice.mk.injEq] at *
      omega
    · show wIss.off + wIss.len ≤ wSub.off
      have := c9.order
      have := c10.pieceRest.2.1
      omega
    · show wSub.off + wSub.len = wSpki.off
      have := c11.order
      omega
    · intro w hw
      have hx : Piece wT7 w := forall₂_left (c16.imp fun _ _ ⟨_, b⟩ => b) w hw
      refine ⟨piece_trans pT6 (piece_trans c12.pieceRest hx), ?_⟩
      show wSpki.off + wSpki.len ≤ w.off
      rw [c12.order]; exact hx.2.1
    · intro w hw
      exact piece_trans c13.piece (piece_trans c14.pieceRest (c15 w hw).2)
    · intro w hw
      have p := piece_trans c8.pieceRest (c17 w hw).2
      refine ⟨piece_trans c1.piece (piece_trans c2.piece (piece_trans c3.pieceRest p)), ?_⟩
      show wTbs.off + wTbs.len ≤ w.off
      rw [c3.order]; exact p.2.1

theorem zip_values {h : Heap} {ws : List Slice} {l : List Ext} (hf : List.Forall₂ (fun w (x : Ext) => h.read w = x.value) ws l) :
    List.zipWith (fun (e : Ext) s => { e with value := h.read s }) l ws = l := by
  induction hf with
  | nil => rfl
  | cons hab _ ih => rw [List.zipWith_cons_cons, ih, hab]

theorem at_holds {h : Heap} {c : Certificate} {m : CertRefs} (hh : Holds h c m) : (CertMem.mk c m).at h = c := by
  obtain ⟨e1, e2, e3, e4, e5, e6, e7, e8⟩ := hh
  unfold CertMem.at
  dsimp only
  rw [e1, e2, e3, e4, e5, zip_values e6]
  have s1 : orCopy h m.signature c.signature = c.signature := by
    cases hs : m.signature with
    | none => rfl
    | some w => exact e7 w hs
  have s2 : keyAt h m.key c.publicKey = c.publicKey := by
    unfold keyAt
    split
    · rename_i k h1
      rw [h1]
      cases hs : m.key with
      | none => rfl
      | some w => exact congrArg PubKey.ed25519 (e8 w hs k h1)
    · rfl
  rw [s1, s2]

/-- **C129** `ParseCertificate` on a slice fails or succeeds as the octets it holds do, and what it returns reads, at this moment, as the
certificate of the octets. -/
theorem C129_parse (env : Env) (h : Heap) (s : Slice) (hv : h.Valid s) :
    (∀ c, ParseCertificate env (h.read s) = .ok c → ∃ m, parseMem env h s = .ok m ∧ m.at h = c) ∧
    (∀ e, ParseCertificate env (h.read s) = .err e → parseMem env h s = .err e) ∧
    (∀ m, parseMem env h s = .ok m → ParseCertificate env (h.read s) = .ok (m.at h) ∧ m.val = m.at h) := by
  refine ⟨fun c hc => ?_, fun e he => ?_, fun m hm => ?_⟩
  · obtain ⟨m, h1, h2, -⟩ := certRefs_of hv hc
    refine ⟨⟨c, m⟩, ?_, at_holds h2⟩
    unfold parseMem
    rw [hc, h1]; rfl
  · unfold parseMem; rw [he]; rfl
  · unfold parseMem at hm
    simp only [Res.bind_eq_ok, Res.pure_eq, ofOption_ok', Res.ok.injEq] at hm
    obtain ⟨c, hc, r, hr, rfl⟩ := hm
    obtain ⟨m, h1, h2, -⟩ := certRefs_of hv hc
    obtain rfl := Option.some.inj (hr.symm.trans h1)
    rw [at_holds h2]
    exact ⟨hc, rfl⟩

theorem parseMem_parts {env : Env} {h : Heap} {s : Slice} (hv : h.Valid s) {m : CertMem} (hm : parseMem env h s = .ok m) :
    ParseCertificate env (h.read s) = .ok m.val ∧ Holds h m.val m.refs ∧ Layout s m.refs := by
  unfold parseMem at hm
  simp only [Res.bind_eq_ok, Res.pure_eq, ofOption_ok', Res.ok.injEq] at hm
  obtain ⟨c, hc, r, hr, rfl⟩ := hm
  obtain ⟨m, h1, h2, h3⟩ := certRefs_of hv hc
  obtain rfl := Option.some.inj (hr.symm.trans h1)
  exact ⟨hc, h2, h3⟩

/-- **C129** The fields that are slices are not copies: `Raw` is the input slice itself, the signed part is a piece of it; issuer,
subject, key and the extensions are pieces of the signed part that follow each other, and the signature, if its bits are whole octets, is a
piece of the input behind the signed part. The capacity of all of them reaches to the end of that of the input. -/
theorem C129_layout (env : Env) (h : Heap) (s : Slice) (hv : h.Valid s) (m : CertMem) (hm : parseMem env h s = .ok m) : Layout s m.refs :=
  (parseMem_parts hv hm).2.2

theorem read_same {h h' : Heap} {s w : Slice} (hb : ∀ i, s.off ≤ i → i < s.off + s.len → h'.byte s.arr i = h.byte s.arr i) (hp : Piece s w) :
    h'.read w = h.read w := by
  obtain ⟨p1, p2, p3, -⟩ := hp
  apply read_congr
  intro i h1 h2
  rw [p1]
  exact hb i (by omega) (by omega)

/-- **C129** While nobody writes to the octets it was parsed from, whatever else happens in memory, the certificate stays what it was. -/
theorem C129_stable (env : Env) (h h' : Heap) (s : Slice) (hv : h.Valid s) (m : CertMem) (hm : parseMem env h s = .ok m)
    (hb : ∀ i, s.off ≤ i → i < s.off + s.len → h'.byte s.arr i = h.byte s.arr i) : m.at h' = m.at h := by
  obtain ⟨-, hh, hl⟩ := parseMem_parts hv hm
  have hp : ∀ w, Piece s w → h'.read w = h.read w := fun w hw => read_same hb hw
  have hpt : ∀ w, Piece m.refs.rawTBSCertificate w → h'.read w = h.read w := fun w hw => hp w (piece_trans hl.tbs hw)
  have : Holds h' m.val m.refs := by
    obtain ⟨e1, e2, e3, e4, e5, e6, e7, e8⟩ := hh
    refine ⟨?_, ?_, ?_, ?_, ?_, ?_, ?_, ?_⟩
    · rw [hp _ (by rw [hl.raw]; exact piece_refl _)]; exact e1
    · rw [hp _ hl.tbs]; exact e2
    · rw [hpt _ hl.issuer]; exact e3
    · rw [hpt _ hl.subject]; exact e4
    · rw [hpt _ hl.spki]; exact e5
    · have hx := hl.exts
      revert e6 hx
      generalize m.refs.extValues = ws
      generalize m.val.extensions = xs
      intro e6 hx
      induction e6 with
      | nil => exact .nil
      | cons hab _ ih =>
        refine .cons ?_ (ih fun w hw => hx w (List.mem_cons_of_mem _ hw))
        rw [hpt _ (hx _ List.mem_cons_self).1]; exact hab
    · intro w hw; rw [hp _ (hl.signature w hw).1]; exact e7 w hw
    · intro w hw k hk
      rw [hpt _ (piece_trans hl.spki (hl.key w hw))]
      exact e8 w hw k hk
  have a := at_holds this
  have b := at_holds hh
  exact a.trans b.symm

/-- **C129** The danger of it: if the buffer is used again and now holds another certificate with its signed part and signature at the same
places, the old `*Certificate` still shows the old names, validity, serial number, key and rights, but compares equal to the new one, and its
signature check is that of the new one. The fields that were read are vouched for by a check only if the octets have not been
changed in between. -/
theorem C129_reused (env : Env) (h h' : Heap) (s : Slice) (hv : h.Valid s) (hv' : h'.Valid s) (m m' : CertMem) (hm : parseMem env h s = .ok m)
    (hm' : parseMem env h' s = .ok m') (ht : m'.refs.rawTBSCertificate = m.refs.rawTBSCertificate) (w : Slice) (hs : m.refs.signature = some w)
    (hs' : m'.refs.signature = some w) (ha : m'.val.signatureAlgorithm = m.val.signatureAlgorithm) :
    (∀ reg V parent, (m.at h').checkSignatureFrom reg V parent = (m'.at h').checkSignatureFrom reg V parent) ∧
    certEqual (some (m.at h')) (some (m'.at h')) = true ∧
    (m.at h').subject = (m.at h).subject ∧ (m.at h').issuer = (m.at h).issuer ∧ (m.at h').serialNumber = (m.at h).serialNumber ∧
    (m.at h').notBefore = (m.at h).notBefore ∧ (m.at h').notAfter = (m.at h).notAfter ∧ (m.at h').isCA = (m.at h).isCA ∧
    (m.at h').keyUsage = (m.at h).keyUsage ∧ (m.at h').dnsNames = (m.at h).dnsNames := by
  have l := C129_layout env h s hv m hm
  have l' := C129_layout env h' s hv' m' hm'
  refine ⟨fun reg V parent => ?_, ?_, rfl, rfl, rfl, rfl, rfl, rfl, rfl, rfl⟩
  · have e1 : (m.at h').rawTBSCertificate = (m'.at h').rawTBSCertificate := by
      show h'.read m.refs.rawTBSCertificate = h'.read m'.refs.rawTBSCertificate
      rw [ht]
    have e2 : (m.at h').signature = (m'.at h').signature := by
      show orCopy h' m.refs.signature _ = orCopy h' m'.refs.signature _
      rw [hs, hs']; rfl
    have e3 : (m.at h').signatureAlgorithm = (m'.at h').signatureAlgorithm := ha.symm
    unfold Certificate.checkSignatureFrom
    rw [e1, e2, e3]
  · have e : (m.at h').raw = (m'.at h').raw := by
      show h'.read m.refs.raw = h'.read m'.refs.raw
      rw [l.raw, l'.raw]
    show ((m.at h').raw == (m'.at h').raw) = true
    rw [e]; exact beq_self_eq_true _

/-- **C129** `append(c.RawTBSCertificate, x...)` is not harmless: the slice has the capacity of the input, so `x` overwrites what
follows the signed part in `Raw` — the signature algorithm and the signature. -/
theorem C129_append (env : Env) (h : Heap) (s : Slice) (hv : h.Valid s) (m : CertMem) (hm : parseMem env h s = .ok m) (x : Bytes)
    (hx : 0 < x.length) (hfit : m.refs.rawTBSCertificate.off + m.refs.rawTBSCertificate.len + x.length ≤ s.off + s.len) (spare : Nat) :
    (m.at (h.append m.refs.rawTBSCertificate x spare).1).rawTBSCertificate = (m.at h).rawTBSCertificate ∧
    (m.at (h.append m.refs.rawTBSCertificate x spare).1).raw =
      splice (m.at h).raw (m.refs.rawTBSCertificate.off - s.off + m.refs.rawTBSCertificate.len) x := by
  have l := C129_layout env h s hv m hm
  obtain ⟨t1, t2, t3, t4⟩ := l.tbs
  have vt := piece_valid hv l.tbs
  have hcap := hv.1
  obtain ⟨-, -, -, hin, -⟩ := append_spec vt x hx spare
  obtain ⟨-, -, -, hb⟩ := hin (by omega)
  have hlen : (h.read s).length = s.len := read_length hv
  constructor
  · apply read_congr
    intro i h1 h2
    rw [hb, if_neg (by omega)]
  · show Heap.read _ m.refs.raw = splice (h.read m.refs.raw) _ x
    rw [l.raw]
    apply List.ext_getElem?
    intro i
    rw [splice_get (by omega), read_get, read_get]
    by_cases hi : i < s.len
    · rw [if_pos hi, if_pos hi, hb, t1]
      by_cases hc : m.refs.rawTBSCertificate.off - s.off + m.refs.rawTBSCertificate.len ≤ i ∧
          i < m.refs.rawTBSCertificate.off - s.off + m.refs.rawTBSCertificate.len + x.length
      · rw [if_pos hc, if_pos ⟨rfl, by omega, by omega⟩]
        congr 1; omega
      · rw [if_neg hc, if_neg (by omega)]
    · rw [if_neg hi, if_neg hi, if_neg (by omega)]

/-! ### Examples -/

/-- The example certificate in the middle of an array with octets before and behind it. -/
def exMem (name : UInt8) : Heap := [[1], 9 :: 9 :: ((exCertDer []).map (fun b => if b = 97 then name else b) ++ [0, 0])]

def exMemSlice : Slice := ⟨1, 2, (exCertDer []).length, (exCertDer []).length + 2⟩

theorem exMem_valid (name : UInt8) : (exMem name).Valid exMemSlice := by
  unfold Heap.Valid exMem exMemSlice Heap.array
  constructor
  · exact Nat.le_add_right _ _
  · simp; omega

/-- Whether it parses, the name, and the slices of the signed part and the signature. -/
def exMemInfo (name : UInt8) : Option (Bytes × Slice × Option Slice × Int) :=
  match parseMem exCertEnv (exMem name) exMemSlice with
  | .ok m => some (m.val.subject.commonName, m.refs.rawTBSCertificate, m.refs.signature, m.val.signatureAlgorithm)
  | _ => none

/-- The hypotheses of C129_reused are met by two certificates that differ in the name of the subject: with the buffer used again, the certificate
of `a` passes every check that the one of `b` does. -/
example : ∃ m m', parseMem exCertEnv (exMem 97) exMemSlice = .ok m ∧ parseMem exCertEnv (exMem 98) exMemSlice = .ok m' ∧
    (m.at (exMem 98)).subject.commonName = [97] ∧ (m'.at (exMem 98)).subject.commonName = [98] ∧
    ∀ reg V parent, (m.at (exMem 98)).checkSignatureFrom reg V parent = (m'.at (exMem 98)).checkSignatureFrom reg V parent := by
  have k : ∃ t w a, exMemInfo 97 = some ([97], t, some w, a) ∧ exMemInfo 98 = some ([98], t, some w, a) :=
    ⟨⟨1, 5, 142, 161⟩, ⟨1, 162, 2, 4⟩, 16, by decide +kernel, by decide +kernel⟩
  obtain ⟨t, w, a, k1, k2⟩ := k
  unfold exMemInfo at k1 k2
  cases h1 : parseMem exCertEnv (exMem 97) exMemSlice with
  | ok m =>
    cases h2 : parseMem exCertEnv (exMem 98) exMemSlice with
    | ok m' =>
      rw [h1] at k1
      rw [h2] at k2
      simp only [Option.some.injEq, Prod.mk.injEq] at k1 k2
      obtain ⟨a1, a2, a3, a4⟩ := k1
      obtain ⟨b1, b2, b3, b4⟩ := k2
      exact ⟨m, m', rfl, rfl, a1, b1, (C129_reused _ _ _ _ (exMem_valid _) (exMem_valid _) m m' h1 h2 (by rw [a2, b2]) w a3 b3 (by rw [a4, b4])).1⟩
    | err e => rw [h2] at k2; cases k2
    | panic => rw [h2] at k2; cases k2
  | err e => rw [h1] at k1; cases k1
  | panic => rw [h1] at k1; cases k1

end MCrypto.Props
