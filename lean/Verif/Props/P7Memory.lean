import Verif.X509.P7RefsLemmas
import Verif.Props.Pkcs7
/-
C140: a parsed PKCS#7 message and the memory it was parsed from.
-/
namespace MCrypto.Props
open MCrypto Asn1 MCrypto.Go MCrypto.X509 MCrypto.X509Spec

/-! ## All the slices of a message -/

def certPieces (m : CertRefs) : List Slice :=
  m.raw :: m.rawTBSCertificate :: m.rawIssuer :: m.rawSubject :: m.rawSubjectPublicKeyInfo :: (m.extValues ++ m.signature.toList ++ m.key.toList)

def crlPieces (m : CrlRefs) : List Slice := m.rawTBS :: m.signature :: m.params.toList.flatMap fun p => [p.1, p.2]

def signerPieces (m : SignerRefs) : List Slice := m.issuer.1 :: m.issuer.2 :: (m.auth ++ m.unauth).flatMap fun p => [p.1, p.2]

/-- The slices of the content. -/
def contentPieces (m : P7Refs) : List Slice := m.content.toList ++ m.signed.content.toList.flatMap fun p => [p.1, p.2]

/-- The slices of certificates, revocation lists and signers. -/
def otherPieces (m : P7Refs) : List Slice :=
  m.signed.certificates.toList ++ (m.certs.flatMap certPieces ++ (m.signed.crls.flatMap crlPieces ++ m.signed.signers.flatMap signerPieces))

/-- Where the slices of a message parsed from `data` lie. -/
structure P7Layout (data : Slice) (m : P7Refs) : Prop where
  /-- all are pieces of the input -/
  content : ∀ w ∈ contentPieces m, Piece data w
  other : ∀ w ∈ otherPieces m, Piece data w
  /-- the content comes first -/
  behind : ∀ w ∈ contentPieces m, ∀ x ∈ otherPieces m, w.off + w.len ≤ x.off

theorem certPieces_in {d : Slice} {m : CertRefs} (hl : Layout d m) : ∀ w ∈ certPieces m, Piece d w := by
  intro w hw
  unfold certPieces at hw
  simp only [List.mem_cons, List.mem_append, Option.mem_toList, or_assoc] at hw
  rcases hw with rfl | rfl | rfl | rfl | rfl | hw | hw | hw
  · rw [hl.raw]; exact piece_refl _
  · exact hl.tbs
  · exact piece_trans hl.tbs hl.issuer
  · exact piece_trans hl.tbs hl.subject
  · exact piece_trans hl.tbs hl.spki
  · exact piece_trans hl.tbs (hl.exts w hw).1
  · exact (hl.signature w hw).1
  · exact piece_trans hl.tbs (piece_trans hl.spki (hl.key w hw))

theorem crlPieces_in {d : Slice} {m : CrlRefs} (hl : CrlLayout d m) : ∀ w ∈ crlPieces m, Piece d w := by
  intro w hw
  unfold crlPieces at hw
  simp only [List.mem_cons, List.mem_flatMap, Option.mem_toList, Prod.exists, List.not_mem_nil, or_false] at hw
  rcases hw with rfl | rfl | ⟨f, b, hp, rfl | rfl⟩
  · exact hl.tbs
  · exact hl.signature.1
  · exact (hl.params _ _ hp).1
  · exact piece_trans (hl.params _ _ hp).1 (hl.params _ _ hp).2.1

theorem attrPieces_in {h : Heap} {d : Slice} {ps : List (Slice × Slice)} {l : List P7Attr} (hl : AttrsHold h d ps l) :
    ∀ p ∈ ps, Piece d p.1 ∧ Piece d p.2 := by
  induction hl with
  | nil => intro p hp; cases hp
  | cons hab _ ih =>
    intro p hp
    rcases List.mem_cons.mp hp with rfl | hp
    · exact hab.2.2
    · exact ih p hp

theorem signerPieces_in {h : Heap} {d : Slice} {m : SignerRefs} {v : SignerInfo} (hl : SignerHolds h d m v) : ∀ w ∈ signerPieces m, Piece d w := by
  intro w hw
  unfold signerPieces at hw
  simp only [List.mem_cons, List.mem_flatMap, List.mem_append, List.not_mem_nil, or_false] at hw
  rcases hw with rfl | rfl | ⟨p, hp, hw⟩
  · exact hl.issuer.2.2.1
  · exact hl.issuer.2.2.2
  · have : Piece d p.1 ∧ Piece d p.2 := by
      rcases hp with hp | hp
      · exact attrPieces_in hl.auth p hp
      · exact attrPieces_in hl.unauth p hp
    rcases hw with rfl | rfl
    · exact this.1
    · exact this.2

/-! ## The fields depend on the slices only -/

theorem orCopy_congr {h h' : Heap} {o : Option Slice} (ho : ∀ w ∈ o.toList, h'.read w = h.read w) (c : Bytes) : orCopy h' o c = orCopy h o c := by
  cases o with
  | none => rfl
  | some w => exact ho w (by simp)

theorem keyAt_congr {h h' : Heap} {o : Option Slice} (ho : ∀ w ∈ o.toList, h'.read w = h.read w) (k : PubKey) : keyAt h' o k = keyAt h o k := by
  unfold keyAt
  split
  · rw [orCopy_congr ho]
  · rfl

theorem zipWith_congr {α β γ : Type} {f g : α → β → γ} (l : List α) : ∀ (r : List β), (∀ b ∈ r, ∀ a, f a b = g a b) → List.zipWith f l r = List.zipWith g l r := by
  induction l with
  | nil => intro r _; simp
  | cons a l ih =>
    intro r hr
    cases r with
    | nil => simp
    | cons b r =>
      rw [List.zipWith_cons_cons, List.zipWith_cons_cons, hr b List.mem_cons_self a, ih r fun b hb a => hr b (List.mem_cons_of_mem _ hb) a]

theorem certAt_congr {h h' : Heap} {m : CertRefs} (hw : ∀ w ∈ certPieces m, h'.read w = h.read w) (c : Certificate) :
    (CertMem.mk c m).at h' = (CertMem.mk c m).at h := by
  unfold certPieces at hw
  simp only [List.mem_cons, List.mem_append, Option.mem_toList, or_assoc] at hw
  have hz : List.zipWith (fun (e : Ext) s => ({ e with value := h'.read s } : Ext)) c.extensions m.extValues =
      List.zipWith (fun (e : Ext) s => ({ e with value := h.read s } : Ext)) c.extensions m.extValues := by
    refine zipWith_congr _ _ fun b hb a => ?_
    rw [hw b (by simp [hb])]
  unfold CertMem.at
  dsimp only
  rw [hw m.raw (by simp), hw m.rawTBSCertificate (by simp), hw m.rawIssuer (by simp), hw m.rawSubject (by simp), hw m.rawSubjectPublicKeyInfo (by simp),
    orCopy_congr (o := m.signature) (fun w h1 => hw w (by simp at h1; simp [h1])), keyAt_congr (o := m.key) (fun w h1 => hw w (by simp at h1; simp [h1])), hz]

theorem crlAt_congr {h h' : Heap} {m : CrlRefs} (hw : ∀ w ∈ crlPieces m, h'.read w = h.read w) (c : Crl) :
    (CrlMem.mk c m).at h' = (CrlMem.mk c m).at h := by
  unfold crlPieces at hw
  unfold CrlMem.at
  dsimp only
  have : paramsAt h' m.params c.signatureAlgorithm.parameters = paramsAt h m.params c.signatureAlgorithm.parameters := by
    unfold paramsAt
    cases hp : m.params with
    | none => rfl
    | some p =>
      rw [hp] at hw
      dsimp only
      rw [hw p.1 (by simp), hw p.2 (by simp)]
  rw [hw m.rawTBS (by simp), hw m.signature (by simp), this]

theorem rawAt_congr {h h' : Heap} {p : Slice × Slice} (h1 : h'.read p.1 = h.read p.1) (h2 : h'.read p.2 = h.read p.2) (v : RawValue) :
    rawAt h' p v = rawAt h p v := by unfold rawAt; rw [h1, h2]

theorem attrsAt_congr {h h' : Heap} {r : List (Slice × Slice)} (hw : ∀ p ∈ r, h'.read p.1 = h.read p.1 ∧ h'.read p.2 = h.read p.2) (l : List P7Attr) :
    attrsAt h' l r = attrsAt h l r := by
  unfold attrsAt
  refine zipWith_congr l r fun p hp a => ?_
  rw [rawAt_congr (hw p hp).1 (hw p hp).2]

theorem signerAt_congr {h h' : Heap} {m : SignerRefs} (hw : ∀ w ∈ signerPieces m, h'.read w = h.read w) (s : SignerInfo) :
    signerAt h' s m = signerAt h s m := by
  unfold signerPieces at hw
  have ha : ∀ p ∈ m.auth ++ m.unauth, h'.read p.1 = h.read p.1 ∧ h'.read p.2 = h.read p.2 := fun p hp =>
    ⟨hw p.1 (List.mem_cons_of_mem _ (List.mem_cons_of_mem _ (List.mem_flatMap.mpr ⟨p, hp, by simp⟩))),
     hw p.2 (List.mem_cons_of_mem _ (List.mem_cons_of_mem _ (List.mem_flatMap.mpr ⟨p, hp, by simp⟩)))⟩
  unfold signerAt
  rw [rawAt_congr (hw m.issuer.1 (by simp)) (hw m.issuer.2 (by simp))]
  have e1 : (fun l => attrsAt h' l m.auth) = fun l => attrsAt h l m.auth :=
    funext fun l => attrsAt_congr (fun p hp => ha p (List.mem_append_left _ hp)) l
  have e2 : (fun l => attrsAt h' l m.unauth) = fun l => attrsAt h l m.unauth :=
    funext fun l => attrsAt_congr (fun p hp => ha p (List.mem_append_right _ hp)) l
  rw [e1, e2]

theorem otherAt_congr {h h' : Heap} {m : P7Refs} (hw : ∀ w ∈ otherPieces m, h'.read w = h.read w) :
    (∀ l, crlsAt h' l m.signed.crls = crlsAt h l m.signed.crls) ∧ (∀ l, signersAt h' l m.signed.signers = signersAt h l m.signed.signers) ∧
    (∀ l, List.zipWith (fun c r => (CertMem.mk c r).at h') l m.certs = List.zipWith (fun c r => (CertMem.mk c r).at h) l m.certs) ∧
    (∀ c, orCopy h' m.signed.certificates c = orCopy h m.signed.certificates c) := by
  unfold otherPieces at hw
  simp only [List.mem_append, List.mem_flatMap] at hw
  refine ⟨fun l => ?_, fun l => ?_, fun l => ?_, fun c => ?_⟩
  · exact zipWith_congr l _ fun b hb a => crlAt_congr (fun w h1 => hw w (.inr (.inr (.inl ⟨b, hb, h1⟩)))) a
  · exact zipWith_congr l _ fun b hb a => signerAt_congr (fun w h1 => hw w (.inr (.inr (.inr ⟨b, hb, h1⟩)))) a
  · exact zipWith_congr l _ fun b hb a => certAt_congr (fun w h1 => hw w (.inr (.inl ⟨b, hb, h1⟩))) a
  · exact orCopy_congr (fun w h1 => hw w (.inl h1)) c

/-! ## At the time of parsing -/

theorem zip_id {α β : Type} {f : α → β → α} {rs : List β} {l : List α} (hf : List.Forall₂ (fun r a => f a r = a) rs l) : List.zipWith f l rs = l := by
  induction hf with
  | nil => rfl
  | cons hab _ ih => rw [List.zipWith_cons_cons, ih, hab]

theorem rawAt_holds {h : Heap} {s : Slice} {p : Slice × Slice} {v : RawValue} (hr : RawHolds h s p v) : rawAt h p v = v := by
  unfold rawAt; rw [hr.1, hr.2.1]

theorem attrsAt_holds {h : Heap} {s : Slice} {ps : List (Slice × Slice)} {l : List P7Attr} (hl : AttrsHold h s ps l) : attrsAt h l ps = l := by
  refine zip_id (hl.imp fun p a hp => ?_)
  rw [rawAt_holds hp]

theorem optAttrsAt_holds {h : Heap} {s : Slice} {ps : List (Slice × Slice)} {o : Option (List P7Attr)} (hl : AttrsHold h s ps (o.getD [])) :
    (o.map fun l => attrsAt h l ps) = o := by
  cases o with
  | none => rfl
  | some l => exact congrArg some (attrsAt_holds hl)

theorem signerAt_holds {h : Heap} {s : Slice} {m : SignerRefs} {v : SignerInfo} (hl : SignerHolds h s m v) : signerAt h v m = v := by
  unfold signerAt
  rw [rawAt_holds hl.issuer, optAttrsAt_holds hl.auth, optAttrsAt_holds hl.unauth]

theorem signedAt_holds {h : Heap} {b wc wo : Slice} {m : SignedRefs} {v : SignedData} (hl : SignedHolds h b wc wo m v) :
    signedAt h v m = v ∧ (v.crls.map fun l => crlsAt h l m.crls) = v.crls ∧ signersAt h v.signerInfos m.signers = v.signerInfos := by
  have e1 : (v.crls.map fun l => crlsAt h l m.crls) = v.crls := by
    have := hl.crls
    cases hc : v.crls with
    | none => rfl
    | some l =>
      rw [hc] at this
      exact congrArg some (zip_id (this.imp fun r c ⟨h1, _⟩ => crl_at_holds h1))
  have e2 : signersAt h v.signerInfos m.signers = v.signerInfos := zip_id (hl.signers.imp fun r c h1 => signerAt_holds h1)
  refine ⟨?_, e1, e2⟩
  have e3 : paramsAt h m.content v.contentInfo.content = v.contentInfo.content := by
    rcases hl.content with ⟨h1, h2⟩ | ⟨f, b, h1, h2, h3, -⟩
    · rw [h1]; rfl
    · rw [h1]; unfold paramsAt; dsimp only; rw [h2, h3]
  have e4 : orCopy h m.certificates v.certificates = v.certificates := by
    rcases hl.certificates with ⟨h1, h2⟩ | ⟨w, h1, h2, -⟩
    · rw [h1]; rfl
    · rw [h1]; exact h2
  unfold signedAt
  rw [e1, e2, e3, e4]

/-- What is known of a message and its slices. -/
structure P7Facts (h : Heap) (s : Slice) (p : PKCS7) (m : P7Refs) : Prop where
  holds : (P7Mem.mk p m).at h = p
  layout : P7Layout s m
  within : ∀ w, m.content = some w → ∃ f b, m.signed.content = some (f, b) ∧ Piece b w ∧ Piece f b
  copied : m.content = none → p.content = [] ∨ ∃ v r, parseRaw {} p.raw.contentInfo.content.bytes = some (v, r) ∧ v.compound = true

theorem facts_empty (h : Heap) (s : Slice) : P7Facts h s {} {} := by
  refine ⟨rfl, ⟨?_, ?_, ?_⟩, ?_, fun _ => .inl rfl⟩
  · intro w hw; cases hw
  · intro w hw; cases hw
  · intro w hw; cases hw
  · intro w hw; cases hw

theorem certs_of {env : Env} {h : Heap} {wo : Slice} (hv : h.Valid wo) {o : Option Slice} {raw : Bytes} (hr : RawField h wo o raw) {l : List Certificate}
    (hp : parseRawCertificates env raw = .ok l) :
    List.Forall₂ (fun m c => Holds h c m ∧ ∃ d, Piece wo d ∧ Layout d m) (p7Certs h o) l := by
  rcases hr with ⟨rfl, rfl⟩ | ⟨w, rfl, rfl, pw⟩
  · obtain rfl : l = [] := by
      unfold parseRawCertificates at hp
      exact (Res.ok.inj hp).symm
    exact .nil
  · unfold parseRawCertificates at hp
    have vw := piece_valid hv pw
    by_cases h0 : (h.read w).length = 0
    · rw [if_pos h0] at hp
      obtain rfl := Res.ok.inj hp
      have : elementS h w = none := by
        unfold elementS
        rw [List.length_eq_zero_iff.mp h0]; rfl
      unfold p7Certs
      dsimp only
      rw [this]
      exact .nil
    · rw [if_neg h0] at hp
      split at hp
      · cases hp
      · rename_i v r hpr
        obtain ⟨we, wb, wr, k⟩ := raw_cut vw (.inl rfl) hpr
        have pb := piece_trans k.pieceFull k.pieceBody
        have vb := piece_valid vw pb
        unfold ParseCertificates at hp
        rw [← k.body, read_length vb] at hp
        obtain ⟨ms, g, hf⟩ := certsRefs_of wb.len vb (Nat.le_refl _) hp
        unfold p7Certs
        dsimp only
        rw [k.element]
        dsimp only
        rw [g]
        exact hf.imp fun _ _ ⟨a, d, p, q⟩ => ⟨a, d, piece_trans pw (piece_trans pb p), q⟩

theorem contentSlice_of {h : Heap} {wc : Slice} (hv : h.Valid wc) {o : Option (Slice × Slice)} {v : RawValue} (hc : ContentHolds h wc o v) {c : Bytes}
    (hp : parseContent v.bytes = .ok c) :
    orCopy h (p7Content h o) c = c ∧ (∀ w, p7Content h o = some w → ∃ f b, o = some (f, b) ∧ Piece b w ∧ Piece f b) ∧
    (p7Content h o = none → c = [] ∨ ∃ x r, parseRaw {} v.bytes = some (x, r) ∧ x.compound = true) := by
  rcases hc with ⟨rfl, rfl⟩ | ⟨f, b, rfl, h1, h2, p1, p2⟩
  · refine ⟨rfl, fun w hw => (by cases hw), fun _ => .inl ?_⟩
    unfold parseContent at hp
    exact (Res.ok.inj hp).symm
  · have vb := piece_valid hv (piece_trans p1 p2)
    have hlen := read_length vb
    rw [h2] at hlen
    by_cases h0 : b.len = 0
    · have hn : p7Content h (some (f, b)) = none := by
        unfold p7Content
        show (if b.len = 0 then none else _) = none
        rw [if_pos h0]
      rw [hn]
      refine ⟨rfl, fun w hw => (by cases hw), fun _ => .inl ?_⟩
      unfold parseContent at hp
      rw [if_neg (by omega)] at hp
      exact (Res.ok.inj hp).symm
    · unfold parseContent at hp
      rw [if_pos (by omega)] at hp
      split at hp
      · cases hp
      rename_i x r hx
      have hx' := hx
      rw [← h2] at hx'
      have hn : p7Content h (some (f, b)) = if x.compound then none else (elementS h b).bind fun q => some q.2.1 := by
        unfold p7Content
        show (if b.len = 0 then none else (parseRaw {} (h.read b)).bind _) = _
        rw [if_neg h0, hx']
        rfl
      by_cases hcomp : x.compound = true
      · rw [hn, if_pos hcomp]
        exact ⟨rfl, fun w hw => (by cases hw), fun _ => .inr ⟨x, r, hx, hcomp⟩⟩
      · rw [if_neg hcomp] at hp
        obtain rfl := Res.ok.inj hp
        obtain ⟨we, wb, wr, k⟩ := raw_cut vb (.inl rfl) hx'
        rw [hn, if_neg hcomp, k.element]
        refine ⟨k.body, ?_, fun h => (by cases h)⟩
        intro w hw
        obtain rfl := Option.some.inj hw
        exact ⟨f, b, rfl, piece_trans k.pieceFull k.pieceBody, p2⟩

theorem inner_of {env : Env} {h : Heap} {s inner : Slice} (hv : h.Valid s) (pi : Piece s inner) {p : PKCS7}
    (hp : parseSignedData env (h.read inner) = .ok p) : P7Facts h s p (p7InnerRefs h inner) := by
  have vi := piece_valid hv pi
  unfold parseSignedData at hp
  simp only [Res.bind_eq_ok, Res.pure_eq, Res.ok.injEq] at hp
  obtain ⟨certs, hc, content, hct, rfl⟩ := hp
  unfold unmarshalSignedData at hc hct ⊢
  unfold p7InnerRefs
  cases hu : unmarshal signedData (h.read inner) with
  | none =>
    rw [hu] at hc hct
    dsimp only at hc hct ⊢
    obtain rfl : certs = [] := by
      unfold parseRawCertificates at hc
      exact (Res.ok.inj hc).symm
    obtain rfl : content = [] := by
      unfold parseContent at hct
      exact (Res.ok.inj hct).symm
    exact facts_empty h s
  | some x =>
    obtain ⟨sd, rest⟩ := x
    rw [hu] at hc hct
    dsimp only at hc hct ⊢
    obtain ⟨full, body, we, wb, wr, k, hd⟩ := field_cut (tag := none) vi hu
    have pb : Piece inner wb := piece_trans k.pieceFull k.pieceBody
    have vb := piece_valid vi pb
    obtain rfl := Option.some.inj hd
    rw [k.element]
    dsimp only
    rw [← k.body] at hc hct ⊢
    obtain ⟨wc, wo, hh⟩ := signedRefs_of vb
    have psc : Piece s wc := piece_trans pi (piece_trans pb hh.pieceContent)
    have pso : Piece s wo := piece_trans pi (piece_trans pb hh.pieceOther)
    have hcs := certs_of (piece_valid hv pso) hh.certificates hc
    obtain ⟨c1, c2, c3⟩ := contentSlice_of (piece_valid hv psc) hh.content hct
    obtain ⟨e1, e2, e3⟩ := signedAt_holds hh
    -- where the slices lie
    have lc : ∀ w ∈ contentPieces ⟨p7Content h (signedRefs h wb).content, p7Certs h (signedRefs h wb).certificates, signedRefs h wb⟩, Piece wc w := by
      intro w hw
      unfold contentPieces at hw
      simp only [List.mem_append, Option.mem_toList, List.mem_flatMap, Prod.exists, List.mem_cons, List.not_mem_nil, or_false] at hw
      have hcc : ∀ f b, (signedRefs h wb).content = some (f, b) → Piece wc f ∧ Piece f b := by
        intro f b hfb
        rcases hh.content with ⟨h1, -⟩ | ⟨f', b', h1, -, -, q1, q2⟩
        · rw [h1] at hfb; cases hfb
        · rw [h1] at hfb
          simp only [Option.some.injEq, Prod.mk.injEq] at hfb
          obtain ⟨rfl, rfl⟩ := hfb
          exact ⟨q1, q2⟩
      rcases hw with hw | ⟨f, b, hfb, rfl | rfl⟩
      · obtain ⟨f, b, h1, h2, h3⟩ := c2 w hw
        exact piece_trans (hcc f b h1).1 (piece_trans h3 h2)
      · exact (hcc _ _ hfb).1
      · exact piece_trans (hcc _ _ hfb).1 (hcc _ _ hfb).2
    have lo : ∀ w ∈ otherPieces ⟨p7Content h (signedRefs h wb).content, p7Certs h (signedRefs h wb).certificates, signedRefs h wb⟩, Piece wo w := by
      intro w hw
      unfold otherPieces at hw
      simp only [List.mem_append, Option.mem_toList, List.mem_flatMap] at hw
      rcases hw with hw | ⟨m, hm, hw⟩ | ⟨m, hm, hw⟩ | ⟨m, hm, hw⟩
      · rcases hh.certificates with ⟨h1, -⟩ | ⟨w', h1, -, q⟩
        · rw [h1] at hw; cases hw
        · rw [h1] at hw
          obtain rfl := Option.some.inj hw
          exact q
      · obtain ⟨d, p1, p2⟩ := forall₂_left (hcs.imp (S := fun m _ => ∃ d, Piece wo d ∧ Layout d m) fun _ _ h => h.2) m hm
        exact piece_trans p1 (certPieces_in p2 w hw)
      · obtain ⟨d, p1, p2⟩ := forall₂_left (hh.crls.imp (S := fun m _ => ∃ d, Piece wo d ∧ CrlLayout d m) fun _ _ h => h.2) m hm
        exact piece_trans p1 (crlPieces_in p2 w hw)
      · exact forall₂_left (hh.signers.imp (S := fun m _ => ∀ w ∈ signerPieces m, Piece wo w) fun _ _ h => signerPieces_in h) m hm w hw
    refine ⟨?_, ⟨fun w hw => piece_trans psc (lc w hw), fun w hw => piece_trans pso (lo w hw), fun w hw x hx => ?_⟩, c2, c3⟩
    · unfold P7Mem.at
      dsimp only
      rw [c1, e1, e2, e3, zip_id (hcs.imp fun m c h1 => at_holds h1.1)]
    · obtain ⟨-, a1, a2, -⟩ := lc w hw
      obtain ⟨-, b1, -, -⟩ := lo x hx
      have := hh.order
      omega

theorem p7_of {env : Env} {h : Heap} {s : Slice} (hv : h.Valid s) {p : PKCS7} (hp : ParsePKCS7 env (h.read s) = .ok p) :
    P7Facts h s p (p7Refs h s) := by
  unfold ParsePKCS7 at hp
  rcases ite_or hp with hp | ⟨-, hp⟩
  · cases hp
  split at hp
  · cases hp
  rename_i info rest hu
  rcases ite_or hp with hp | ⟨-, hp⟩
  · cases hp
  rcases ite_or hp with hp | ⟨-, hp⟩
  · obtain ⟨o, full, body, we, wb, wr, k, g, hc⟩ := content_of hv hu
    unfold p7Refs
    rw [g]
    rcases hc with ⟨rfl, h1⟩ | ⟨f, b, rfl, h1, h2, p1, p2⟩
    · rw [h1] at hp
      have : parseSignedData env ({} : RawValue).bytes = .ok {} := rfl
      rw [this] at hp
      obtain rfl := Res.ok.inj hp
      exact facts_empty h s
    · rw [← h2] at hp
      exact inner_of hv (piece_trans k.pieceFull (piece_trans p1 p2)) hp
  · cases hp

theorem parseP7Mem_parts {env : Env} {h : Heap} {s : Slice} (hv : h.Valid s) {m : P7Mem} (hm : parseP7Mem env h s = .ok m) :
    ParsePKCS7 env (h.read s) = .ok m.val ∧ P7Facts h s m.val m.refs := by
  unfold parseP7Mem at hm
  simp only [Res.bind_eq_ok, Res.pure_eq, Res.ok.injEq] at hm
  obtain ⟨p, hp, rfl⟩ := hm
  exact ⟨hp, p7_of hv hp⟩

/-! ## C140 -/

/-- **C140** `ParsePKCS7` on a slice fails or succeeds as the octets it holds do, and what it returns reads, at this moment, as the message of the
octets. -/
theorem C140_parse (env : Env) (h : Heap) (s : Slice) (hv : h.Valid s) :
    (∀ p, ParsePKCS7 env (h.read s) = .ok p → ∃ m, parseP7Mem env h s = .ok m ∧ m.at h = p) ∧
    (∀ e, ParsePKCS7 env (h.read s) = .err e → parseP7Mem env h s = .err e) ∧
    (∀ m, parseP7Mem env h s = .ok m → ParsePKCS7 env (h.read s) = .ok (m.at h) ∧ m.val = m.at h) := by
  refine ⟨fun p hp => ?_, fun e he => ?_, fun m hm => ?_⟩
  · refine ⟨⟨p, p7Refs h s⟩, ?_, (p7_of hv hp).holds⟩
    unfold parseP7Mem
    rw [hp]; rfl
  · unfold parseP7Mem; rw [he]; rfl
  · obtain ⟨h1, h2⟩ := parseP7Mem_parts hv hm
    have := h2.holds
    change m.at h = m.val at this
    rw [this]
    exact ⟨h1, rfl⟩

/-- **C140** Every slice of the message is a piece of the input, and those of the content lie before those of certificates, lists and signers. -/
theorem C140_layout (env : Env) (h : Heap) (s : Slice) (hv : h.Valid s) (m : P7Mem) (hm : parseP7Mem env h s = .ok m) : P7Layout s m.refs :=
  (parseP7Mem_parts hv hm).2.layout

/-- **C140** `Content` is memory of the input, unless it is empty or was given as a constructed string; then no later write changes it. -/
theorem C140_content (env : Env) (h : Heap) (s : Slice) (hv : h.Valid s) (m : P7Mem) (hm : parseP7Mem env h s = .ok m) :
    (∃ w, m.refs.content = some w ∧ Piece s w ∧ ∀ h', (m.at h').content = h'.read w) ∨
    ((m.val.content = [] ∨ ∃ v r, parseRaw {} m.val.raw.contentInfo.content.bytes = some (v, r) ∧ v.compound = true) ∧
      ∀ h', (m.at h').content = m.val.content) := by
  have f := (parseP7Mem_parts hv hm).2
  cases hc : m.refs.content with
  | some w =>
    refine .inl ⟨w, rfl, f.layout.content w ?_, fun h' => ?_⟩
    · unfold contentPieces; rw [hc]; simp
    · show orCopy h' m.refs.content _ = _
      rw [hc]; rfl
  | none =>
    refine .inr ⟨f.copied hc, fun h' => ?_⟩
    show orCopy h' m.refs.content _ = _
    rw [hc]; rfl

/-- **C140** While nobody writes to the octets it was parsed from, whatever else happens in memory, the message stays what it was; so do
`Verify` and everything else that is computed from it. -/
theorem C140_stable (env : Env) (h h' : Heap) (s : Slice) (hv : h.Valid s) (m : P7Mem) (hm : parseP7Mem env h s = .ok m)
    (hb : ∀ i, s.off ≤ i → i < s.off + s.len → h'.byte s.arr i = h.byte s.arr i) : m.at h' = m.at h := by
  have l := C140_layout env h s hv m hm
  obtain ⟨e1, e2, e3, e4⟩ := otherAt_congr (h := h) (h' := h') (m := m.refs) fun w hw => read_same hb (l.other w hw)
  have hc : ∀ w ∈ contentPieces m.refs, h'.read w = h.read w := fun w hw => read_same hb (l.content w hw)
  unfold contentPieces at hc
  simp only [List.mem_append, List.mem_flatMap] at hc
  have e5 : orCopy h' m.refs.content m.val.content = orCopy h m.refs.content m.val.content := orCopy_congr (fun w h1 => hc w (.inl h1)) _
  have e6 : paramsAt h' m.refs.signed.content m.val.raw.contentInfo.content = paramsAt h m.refs.signed.content m.val.raw.contentInfo.content := by
    unfold paramsAt
    cases hp : m.refs.signed.content with
    | none => rfl
    | some p =>
      dsimp only
      rw [hc p.1 (.inr ⟨p, by rw [hp]; simp⟩), hc p.2 (.inr ⟨p, by rw [hp]; simp⟩)]
  unfold P7Mem.at signedAt
  rw [e3, e5, e6]
  simp only [e1, e2, e4]

/-- **C140** Writing other octets over `Content`, which a caller may think is his, changes the input, but not the certificates, lists and signers
of the message. -/
theorem C140_overwritten (env : Env) (h : Heap) (s : Slice) (hv : h.Valid s) (m : P7Mem) (hm : parseP7Mem env h s = .ok m) (w : Slice)
    (hw : m.refs.content = some w) (x : Bytes) (hx : x.length = w.len) :
    let h' := h.store w.arr w.off x
    (m.at h').content = x ∧ (m.at h').certificates = (m.at h).certificates ∧ (m.at h').crls = (m.at h).crls ∧
    (m.at h').signers = (m.at h).signers ∧ (m.at h').raw.signerInfos = (m.at h).raw.signerInfos := by
  intro h'
  have l := C140_layout env h s hv m hm
  have hmem : w ∈ contentPieces m.refs := by unfold contentPieces; rw [hw]; simp
  have pw := l.content w hmem
  have vw := piece_valid hv pw
  have hsz : w.off + x.length ≤ (h.array w.arr).length := by
    have := vw.1
    have := vw.2
    omega
  have ho : ∀ y ∈ otherPieces m.refs, h'.read y = h.read y := by
    intro y hy
    have hb := l.behind w hmem y hy
    apply read_congr
    intro i h1 h2
    rw [byte_store hsz, if_neg (by omega)]
  obtain ⟨e1, e2, e3, e4⟩ := otherAt_congr (h := h) (h' := h') (m := m.refs) ho
  refine ⟨?_, e3 _, ?_, e2 _, e2 _⟩
  · show orCopy h' m.refs.content _ = x
    rw [hw]
    show h'.read w = x
    apply List.ext_getElem?
    intro i
    rw [read_get]
    by_cases hi : i < w.len
    · rw [if_pos hi, byte_store hsz, if_pos ⟨rfl, by omega, by omega⟩]
      congr 1; omega
    · rw [if_neg hi, List.getElem?_eq_none (by omega)]
  · show (m.val.crls.map fun l => crlsAt h' l m.refs.signed.crls) = _
    simp only [e1]
    rfl

theorem verify_congr {reg : Registry} {V : Verifiers} {p q : PKCS7} (h1 : p.content = q.content) (h2 : p.certificates = q.certificates)
    (h3 : p.signers = q.signers) : p.verify reg V = q.verify reg V := by
  have : ∀ l, verifySigners reg V p l = verifySigners reg V q l := by
    intro l
    induction l with
    | nil => rfl
    | cons s l ih =>
      unfold verifySigners
      rw [ih]
      unfold verifySigner
      rw [h1, h2]
  unfold PKCS7.verify
  rw [h3, this]

/-- **C140** `Verify` then judges the octets that are there now: its result is that for the message with this content. -/
theorem C140_verify_overwritten (env : Env) (h : Heap) (s : Slice) (hv : h.Valid s) (m : P7Mem) (hm : parseP7Mem env h s = .ok m) (w : Slice)
    (hw : m.refs.content = some w) (x : Bytes) (hx : x.length = w.len) (reg : Registry) (V : Verifiers) :
    (m.at (h.store w.arr w.off x)).verify reg V = ({ m.at h with content := x } : PKCS7).verify reg V ∧
    (m.at (h.store w.arr w.off x)).getOnlySigner = (m.at h).getOnlySigner := by
  obtain ⟨h1, h2, -, h4, -⟩ := C140_overwritten env h s hv m hm w hw x hx
  refine ⟨verify_congr h1 h2 h4, ?_⟩
  unfold PKCS7.getOnlySigner
  rw [h2, h4]

/-- **C140** A message of which `Verify` has approved is not a promise for later: after the content has been overwritten with octets of another SM3
digest, `Content` shows these, and if a signer has attributes, `Verify` no longer approves. -/
theorem C140_check_then_use (env : Env) (h : Heap) (s : Slice) (hv : h.Valid s) (m : P7Mem) (hm : parseP7Mem env h s = .ok m) (w : Slice)
    (hw : m.refs.content = some w) (x : Bytes) (hx : x.length = w.len) (reg : Registry) (V : Verifiers) (hok : (m.at h).verify reg V = .ok ())
    (si : SignerInfo) (hsi : si ∈ (m.at h).signers) (ha : si.authenticatedAttributes.getD [] ≠ [])
    (hd : Sm3Spec.sm3 x ≠ Sm3Spec.sm3 (m.at h).content) :
    (m.at (h.store w.arr w.off x)).content = x ∧ (m.at (h.store w.arr w.off x)).verify reg V ≠ .ok () := by
  obtain ⟨h1, h2, -, h4, -⟩ := C140_overwritten env h s hv m hm w hw x hx
  refine ⟨h1, fun hok' => hd ?_⟩
  have key : ∀ p : PKCS7, si ∈ p.signers → p.verify reg V = .ok () →
      unmarshalAttribute octets (si.authenticatedAttributes.getD []) oidAttributeMessageDigest = .ok (Sm3.sum p.content) := by
    intro p hp hv
    unfold PKCS7.verify at hv
    rw [if_neg (by intro h0; rw [List.length_eq_zero_iff.mp h0] at hp; cases hp), verifySigners_iff] at hv
    have := hv si hp
    unfold verifySigner at this
    simp only [Res.bind_eq_ok] at this
    obtain ⟨b, hb, -⟩ := this
    unfold signedBytes at hb
    dsimp only at hb
    rw [if_pos (List.length_pos_of_ne_nil ha)] at hb
    simp only [Res.bind_eq_ok] at hb
    obtain ⟨d, hd, hb⟩ := hb
    rw [hd]
    rcases ite_or hb with hb | ⟨hn, -⟩
    · cases hb
    · rw [not_not.mp hn]
  have k1 := key _ hsi hok
  have k2 := key _ (by rw [h4]; exact hsi) hok'
  rw [k1, h1] at k2
  rw [← Sm3.sum_eq, ← Sm3.sum_eq]
  exact (Res.ok.inj k2).symm

end MCrypto.Props
