import Verif.X509.P7Refs
import Verif.Props.ListMemory
/-
The slices of `X509/P7Refs` hold what the parser returns.
-/
namespace MCrypto.X509
open MCrypto Asn1 MCrypto.Go X509Spec MCrypto.Props

theorem optS_none {α : Type} {f : Bytes → Option (α × Bytes)} {h : Heap} {s : Slice} (hf : f (h.read s) = none) : optS f h s = none := by
  unfold optS; rw [hf]; rfl

theorem absent_some {α : Type} {p : Params α} {b : Bytes} {v : α} {r : Bytes} (h : absent p b = some (v, r)) : p.opt = some v ∧ r = b := by
  unfold absent at h
  split at h
  · rename_i d hd
    simp only [Option.some.injEq, Prod.mk.injEq] at h
    exact ⟨hd.trans (congrArg some h.1), h.2.symm⟩
  · cases h

theorem optS_cut {α : Type} {f : Bytes → Option (α × Bytes)} {h : Heap} {s : Slice} {v : α} {r full body : Bytes} {we wb wr : Slice}
    (hv : h.Valid s) (hf : f (h.read s) = some (v, r)) (hc : ElCut h s full body r we wb wr) (hl : r.length < (h.read s).length) :
    optS f h s = some (some (we, wb), wr) := by
  have hlen := read_length hv
  unfold optS
  rw [hf]
  show (if r.length = s.len then _ else _) = _
  rw [if_neg (by omega), hc.element]; rfl

theorem optS_absent {α : Type} {f : Bytes → Option (α × Bytes)} {h : Heap} {s : Slice} {v : α} (hv : h.Valid s)
    (hf : f (h.read s) = some (v, h.read s)) : optS f h s = some (none, s) := by
  unfold optS
  rw [hf]
  show (if (h.read s).length = s.len then _ else _) = _
  rw [if_pos (read_length hv)]; rfl

theorem parseHdr_lt {b r : Bytes} {t : Hdr} (h : parseHdr b = some (t, r)) : r.length < b.length := by
  obtain ⟨e, -⟩ := (parseHdr_iff _ _ _).mp h
  have : 0 < (encHdr t.cls t.compound t.tag t.len).length := by
    unfold encHdr
    rw [List.length_append]
    split <;> split <;> simp only [List.length_cons] <;> omega
  rw [e, List.length_append]; omega

/-- A field without an explicit tag: absent, or an element. -/
theorem optS_field {α : Type} {c : Codec α} {p : Params α} (hx : p.explicit = false) {h : Heap} {s : Slice} (hv : h.Valid s) {v : α} {r : Bytes}
    (hp : parseField c p (h.read s) = some (v, r)) :
    (p.opt = some v ∧ r = h.read s ∧ optS (parseField c p) h s = some (none, s)) ∨
    ∃ full body we wb wr, ElCut h s full body r we wb wr ∧ c.dec body full = some v ∧ optS (parseField c p) h s = some (some (we, wb), wr) := by
  have ab : absent p (h.read s) = some (v, r) → (p.opt = some v ∧ r = h.read s ∧ optS (parseField c p) h s = some (none, s)) := by
    intro ha
    obtain ⟨h1, h2⟩ := absent_some ha
    refine ⟨h1, h2, optS_absent hv (v := v) ?_⟩
    rw [hp, h2]
  have hp0 := hp
  unfold parseField at hp
  rcases ite_or hp with hp | ⟨-, hp⟩
  · exact .inl (ab hp)
  cases hh : parseHdr (h.read s) with
  | none => rw [hh] at hp; cases hp
  | some q =>
    obtain ⟨t, r'⟩ := q
    rw [hh, hx] at hp
    simp only [Bool.false_eq_true, if_false] at hp
    unfold parseBody at hp
    dsimp only at hp
    rcases ite_or hp with hp | ⟨-, hp⟩
    · exact .inl (ab hp)
    rcases ite_or hp with hp | ⟨hl, hp⟩
    · cases hp
    split at hp
    · rename_i v' hd
      simp only [Option.some.injEq, Prod.mk.injEq] at hp
      obtain ⟨rfl, rfl⟩ := hp
      obtain ⟨we, wb, wr, hc⟩ := elementS_of hv hh (by omega)
      refine .inr ⟨_, _, we, wb, wr, hc, hd, optS_cut hv hp0 hc ?_⟩
      have := parseHdr_lt hh
      rw [List.length_drop]; omega
    · cases hp

/-- A raw value with options: absent, or an element. -/
theorem optS_raw {p : Params RawValue} {h : Heap} {s : Slice} (hv : h.Valid s) {v : RawValue} {r : Bytes}
    (hp : parseRaw p (h.read s) = some (v, r)) :
    (p.opt = some v ∧ r = h.read s ∧ optS (parseRaw p) h s = some (none, s)) ∨
    ∃ we wb wr, ElCut h s v.full v.bytes r we wb wr ∧ optS (parseRaw p) h s = some (some (we, wb), wr) := by
  have ab : absent p (h.read s) = some (v, r) → (p.opt = some v ∧ r = h.read s ∧ optS (parseRaw p) h s = some (none, s)) := by
    intro ha
    obtain ⟨h1, h2⟩ := absent_some ha
    refine ⟨h1, h2, optS_absent hv (v := v) ?_⟩
    rw [hp, h2]
  have hp0 := hp
  unfold parseRaw at hp
  rcases ite_or hp with hp | ⟨-, hp⟩
  · exact .inl (ab hp)
  cases hh : parseHdr (h.read s) with
  | none => rw [hh] at hp; cases hp
  | some q =>
    obtain ⟨t, r'⟩ := q
    rw [hh] at hp
    dsimp only at hp
    rcases ite_or hp with hp | ⟨-, hp⟩
    · cases hp
    rcases ite_or hp with hp | ⟨-, hp⟩
    · exact .inl (ab hp)
    rcases ite_or hp with hp | ⟨hl, hp⟩
    · cases hp
    simp only [Option.some.injEq, Prod.mk.injEq] at hp
    obtain ⟨rfl, rfl⟩ := hp
    obtain ⟨we, wb, wr, hc⟩ := elementS_of hv hh (by omega)
    refine .inr ⟨we, wb, wr, hc, optS_cut hv hp0 hc ?_⟩
    have := parseHdr_lt hh
    rw [List.length_drop]; omega

theorem elems_aux {α β : Type} {c : Codec α} {f : Heap → Slice → Option β} {h : Heap} {R : Slice → β → α → Prop}
    (hf : ∀ {s : Slice}, h.Valid s → ∀ {v : α} {r : Bytes}, parseField c {} (h.read s) = some (v, r) → ∃ x, f h s = some x ∧ R s x v)
    (chk : Hdr → Bool) (n : Nat) : ∀ {s : Slice}, h.Valid s → ∀ {k : Nat} {l : List α}, checkElems chk n (h.read s) = some k →
      parseElems (parseField c {}) k (h.read s) = some l →
      ∃ xs, elemsS f h n s = some xs ∧ List.Forall₂ (fun x v => ∃ t, Piece s t ∧ R t x v) xs l := by
  induction n with
  | zero =>
    intro s hv k l hk hl
    have hlen := read_length hv
    cases hb : h.read s with
    | nil =>
      rw [hb] at hk hl hlen
      simp only [checkElems, Option.some.injEq] at hk
      subst hk
      simp only [parseElems, Option.some.injEq] at hl
      subst hl
      exact ⟨[], by unfold elemsS; exact if_pos hlen.symm, .nil⟩
    | cons x t => rw [hb] at hk; simp [checkElems] at hk
  | succ n ih =>
    intro s hv k l hk hl
    have hlen := read_length hv
    by_cases h0 : s.len = 0
    · have hb : h.read s = [] := List.length_eq_zero_iff.mp (by omega)
      rw [hb] at hk hl
      simp only [checkElems, Option.some.injEq] at hk
      subst hk
      simp only [parseElems, Option.some.injEq] at hl
      subst hl
      exact ⟨[], by unfold elemsS; rw [if_pos h0], .nil⟩
    · have hk' : ∃ t r', parseHdr (h.read s) = some (t, r') ∧ ¬ r'.length < t.len ∧ ∃ k', checkElems chk n (r'.drop t.len) = some k' ∧ k = k' + 1 := by
        cases hb : h.read s with
        | nil => rw [hb] at hlen; exact absurd hlen.symm h0
        | cons x t =>
          rw [hb] at hk
          unfold checkElems at hk
          cases hh : parseHdr (x :: t) with
          | none => rw [hh] at hk; cases hk
          | some q =>
            obtain ⟨t', r'⟩ := q
            rw [hh] at hk
            dsimp only at hk
            rcases ite_or hk with hk | ⟨-, hk⟩
            · cases hk
            rcases ite_or hk with hk | ⟨h2, hk⟩
            · cases hk
            split at hk
            · cases hk
            · rename_i k' hk'
              exact ⟨t', r', rfl, h2, k', hk', (Option.some.inj hk).symm⟩
      obtain ⟨t, r', hh, hnl, k', hk', rfl⟩ := hk'
      unfold parseElems at hl
      split at hl
      · cases hl
      rename_i v r hp
      split at hl
      · cases hl
      rename_i l' hl'
      obtain rfl := Option.some.inj hl
      obtain ⟨x, hx, hr⟩ := hf hv hp
      obtain ⟨full, body, we, wb, wr, hc, -⟩ := field_cut (tag := none) hv hp
      obtain ⟨we', wb', wr', hc'⟩ := elementS_of hv hh (by omega)
      obtain ⟨rfl, rfl, rfl⟩ : we = we' ∧ wb = wb' ∧ wr = wr' := by
        have := hc.element.symm.trans hc'.element
        simpa using this
      have hvr := piece_valid hv hc.pieceRest
      rw [← hc'.rest] at hk'
      rw [← hc.rest] at hl'
      obtain ⟨xs, h1, h2⟩ := ih hvr hk' hl'
      refine ⟨x :: xs, ?_, .cons ⟨s, piece_refl s, hr⟩ (h2.imp fun _ _ ⟨t, p, q⟩ => ⟨t, piece_trans hc.pieceRest p, q⟩)⟩
      unfold elemsS
      rw [if_neg h0, hx, hc.element]
      show (elemsS f h n wr >>= fun l => some (x :: l)) = _
      rw [h1]; rfl

theorem elems_of {α β : Type} [DecidableEq α] {c : Codec α} {f : Heap → Slice → Option β} {h : Heap} {R : Slice → β → α → Prop}
    (hf : ∀ {s : Slice}, h.Valid s → ∀ {v : α} {r : Bytes}, parseField c {} (h.read s) = some (v, r) → ∃ x, f h s = some x ∧ R s x v)
    {s : Slice} (hv : h.Valid s) {full : Bytes} {l : List α} (hl : (seqOf c).dec (h.read s) full = some l) :
    ∃ xs, elemsS f h s.len s = some xs ∧ List.Forall₂ (fun x v => ∃ t, Piece s t ∧ R t x v) xs l := by
  change parseSeqOf _ _ _ = _ at hl
  unfold parseSeqOf at hl
  split at hl
  · cases hl
  · rename_i k hk
    rw [read_length hv] at hk
    exact elems_aux hf _ _ hv hk hl

/-- The slices of a raw value. -/
def RawHolds (h : Heap) (s : Slice) (p : Slice × Slice) (v : RawValue) : Prop :=
  h.read p.1 = v.full ∧ h.read p.2 = v.bytes ∧ Piece s p.1 ∧ Piece s p.2

theorem RawHolds.mono {h : Heap} {s t : Slice} (ht : Piece t s) {p : Slice × Slice} {v : RawValue} (hr : RawHolds h s p v) : RawHolds h t p v :=
  ⟨hr.1, hr.2.1, piece_trans ht hr.2.2.1, piece_trans ht hr.2.2.2⟩

theorem map_snd {x : Option (Slice × Slice × Slice)} {a b c : Slice} (hx : x = some (a, b, c)) : x.map (·.2) = some (b, c) := by
  rw [hx]; rfl

theorem attr_of {h : Heap} {s : Slice} (hv : h.Valid s) {a : P7Attr} {r : Bytes} (hp : parseField p7Attr {} (h.read s) = some (a, r)) :
    ∃ p, attrRef h s = some p ∧ RawHolds h s p a.value := by
  obtain ⟨full, body, we, wb, wr, k1, hd⟩ := field_cut (tag := none) hv hp
  have v1 := piece_valid hv (piece_trans k1.pieceFull k1.pieceBody)
  simp only [p7Attr, Option.pure_def, Option.bind_eq_bind, Option.bind_eq_some_iff, Prod.exists, Option.some.injEq] at hd
  obtain ⟨o, b1, d1, x, b2, d2, rfl⟩ := hd
  rw [← k1.body] at d1
  obtain ⟨_, _, _, _, w1, k2, -⟩ := field_cut (tag := none) v1 d1
  have v2 := piece_valid v1 k2.pieceRest
  rw [← k2.rest] at d2
  obtain ⟨wf, wv, w2, k3⟩ := raw_cut v2 (.inl rfl) d2
  have pf : Piece s wf := piece_trans k1.pieceFull (piece_trans k1.pieceBody (piece_trans k2.pieceRest k3.pieceFull))
  refine ⟨(wf, wv), ?_, k3.full, k3.body, pf, piece_trans pf k3.pieceBody⟩
  unfold attrRef
  exact bind_some_of k1.element (bind_some_of (map_snd k2.element) (bind_some_of k3.element rfl))

/-- The slices of the values of attributes. -/
def AttrsHold (h : Heap) (s : Slice) (ps : List (Slice × Slice)) (l : List P7Attr) : Prop := List.Forall₂ (fun p a => RawHolds h s p a.value) ps l

theorem AttrsHold.mono {h : Heap} {s t : Slice} (ht : Piece t s) {ps : List (Slice × Slice)} {l : List P7Attr} (hr : AttrsHold h s ps l) :
    AttrsHold h t ps l := hr.imp fun _ _ => RawHolds.mono ht

theorem attrs_of {n : Nat} {h : Heap} {s : Slice} (hv : h.Valid s) {v : Option (List P7Attr)} {r : Bytes}
    (hp : parseField (nilable (seqOf p7Attr)) { opt := some none, tag := some n } (h.read s) = some (v, r)) :
    ∃ l wr, attrsRef n h s = some (l, wr) ∧ h.read wr = r ∧ Piece s wr ∧ AttrsHold h s l (v.getD []) := by
  rcases optS_field rfl hv hp with ⟨h1, h2, h3⟩ | ⟨full, body, we, wb, wr, k, hd, h3⟩
  · refine ⟨[], s, ?_, h2.symm, piece_refl s, ?_⟩
    · unfold attrsRef
      exact bind_some_of h3 rfl
    · obtain rfl := Option.some.inj h1
      exact .nil
  · obtain ⟨l, hd', rfl⟩ := Option.map_eq_some_iff.mp hd
    have vb := piece_valid hv (piece_trans k.pieceFull k.pieceBody)
    rw [← k.body] at hd'
    obtain ⟨xs, g, hf⟩ := elems_of (f := attrRef) (h := h) (R := fun s p a => RawHolds h s p a.value) (fun hv _ _ hp => attr_of hv hp) vb hd'
    refine ⟨xs, wr, ?_, k.rest, k.pieceRest, ?_⟩
    · unfold attrsRef
      exact bind_some_of h3 (bind_some_of g rfl)
    · exact hf.imp fun _ _ ⟨t, p, q⟩ => q.mono (piece_trans k.pieceFull (piece_trans k.pieceBody p))

/-- The slices of a signer. -/
structure SignerHolds (h : Heap) (s : Slice) (m : SignerRefs) (v : SignerInfo) : Prop where
  issuer : RawHolds h s m.issuer v.issuerAndSerialNumber.issuerName
  auth : AttrsHold h s m.auth (v.authenticatedAttributes.getD [])
  unauth : AttrsHold h s m.unauth (v.unauthenticatedAttributes.getD [])

theorem SignerHolds.mono {h : Heap} {s t : Slice} (ht : Piece t s) {m : SignerRefs} {v : SignerInfo} (hr : SignerHolds h s m v) : SignerHolds h t m v :=
  ⟨hr.issuer.mono ht, hr.auth.mono ht, hr.unauth.mono ht⟩

theorem signer_of {h : Heap} {s : Slice} (hv : h.Valid s) {v : SignerInfo} {r : Bytes} (hp : parseField signerInfo {} (h.read s) = some (v, r)) :
    ∃ m, signerRef h s = some m ∧ SignerHolds h s m v := by
  obtain ⟨full, body, we, wb, wr, k1, hd⟩ := field_cut (tag := none) hv hp
  have p1 := piece_trans k1.pieceFull k1.pieceBody
  have v1 := piece_valid hv p1
  simp only [signerInfo, Option.pure_def, Option.bind_eq_bind, Option.bind_eq_some_iff, Prod.exists, Option.some.injEq] at hd
  obtain ⟨ver, b1, d1, ias, b2, d2, da, b3, d3, au, b4, d4, ea, b5, d5, ed, b6, d6, un, b7, d7, rfl⟩ := hd
  rw [← k1.body] at d1
  obtain ⟨_, _, _, _, w1, k2, -⟩ := field_cut (tag := none) v1 d1
  have v2 := piece_valid v1 k2.pieceRest
  rw [← k2.rest] at d2
  obtain ⟨ifull, ibody, wi, wib, w2, k3, hdi⟩ := field_cut (tag := none) v2 d2
  have v3 := piece_valid v2 k3.pieceRest
  have pib := piece_trans k3.pieceFull k3.pieceBody
  have v3b := piece_valid v2 pib
  simp only [issuerAndSerial, Option.pure_def, Option.bind_eq_bind, Option.bind_eq_some_iff, Prod.exists, Option.some.injEq] at hdi
  obtain ⟨iv, c1, e1, sn, c2, e2, rfl⟩ := hdi
  rw [← k3.body] at e1
  obtain ⟨wf, wv, w3, k4⟩ := raw_cut v3b (.inl rfl) e1
  rw [← k3.rest] at d3
  obtain ⟨_, _, _, _, w4, k5, -⟩ := field_cut (tag := none) v3 d3
  have v5 := piece_valid v3 k5.pieceRest
  rw [← k5.rest] at d4
  obtain ⟨la, w5, g6, r6, p6, a6⟩ := attrs_of v5 d4
  have v6 := piece_valid v5 p6
  rw [← r6] at d5
  obtain ⟨_, _, _, _, w6, k7, -⟩ := field_cut (tag := none) v6 d5
  have v7 := piece_valid v6 k7.pieceRest
  rw [← k7.rest] at d6
  obtain ⟨_, _, _, _, w7, k8, -⟩ := field_cut (tag := none) v7 d6
  have v8 := piece_valid v7 k8.pieceRest
  rw [← k8.rest] at d7
  obtain ⟨lu, w8, g9, r9, p9, a9⟩ := attrs_of v8 d7
  have q4 : Piece s w4 := piece_trans p1 (piece_trans k2.pieceRest (piece_trans k3.pieceRest k5.pieceRest))
  have qf : Piece s wf := piece_trans p1 (piece_trans k2.pieceRest (piece_trans pib k4.pieceFull))
  refine ⟨⟨(wf, wv), la, lu⟩, ?_, ⟨k4.full, k4.body, qf, piece_trans qf k4.pieceBody⟩, a6.mono q4,
    a9.mono (piece_trans q4 (piece_trans p6 (piece_trans k7.pieceRest k8.pieceRest)))⟩
  unfold signerRef
  exact bind_some_of k1.element (bind_some_of (map_snd k2.element) (bind_some_of k3.element (bind_some_of k4.element (bind_some_of (map_snd k5.element)
    (bind_some_of g6 (bind_some_of (map_snd k7.element) (bind_some_of (map_snd k8.element) (bind_some_of g9 rfl))))))))

/-- The slices of a content, which may be absent. -/
def ContentHolds (h : Heap) (s : Slice) (o : Option (Slice × Slice)) (v : RawValue) : Prop :=
  (o = none ∧ v = {}) ∨ ∃ f b, o = some (f, b) ∧ h.read f = v.full ∧ h.read b = v.bytes ∧ Piece s f ∧ Piece f b

theorem content_of {h : Heap} {s : Slice} (hv : h.Valid s) {v : ContentInfo} {r : Bytes} (hp : parseField contentInfo {} (h.read s) = some (v, r)) :
    ∃ o full body we wb wr, ElCut h s full body r we wb wr ∧ contentRef h s = some o ∧ ContentHolds h we o v.content := by
  obtain ⟨full, body, we, wb, wr, k1, hd⟩ := field_cut (tag := none) hv hp
  have p1 := piece_trans k1.pieceFull k1.pieceBody
  have v1 := piece_valid hv p1
  simp only [contentInfo, Option.pure_def, Option.bind_eq_bind, Option.bind_eq_some_iff, Prod.exists, Option.some.injEq] at hd
  obtain ⟨t, b1, d1, c, b2, d2, rfl⟩ := hd
  rw [← k1.body] at d1
  obtain ⟨_, _, _, _, w1, k2, -⟩ := field_cut (tag := none) v1 d1
  have v2 := piece_valid v1 k2.pieceRest
  rw [← k2.rest] at d2
  rcases optS_raw v2 d2 with ⟨h1, h2, h3⟩ | ⟨wf, wv, w3, k3, h3⟩
  · refine ⟨none, full, body, we, wb, wr, k1, ?_, .inl ⟨rfl, (Option.some.inj h1).symm⟩⟩
    unfold contentRef
    exact bind_some_of k1.element (bind_some_of (map_snd k2.element) (bind_some_of h3 rfl))
  · refine ⟨some (wf, wv), full, body, we, wb, wr, k1, ?_,
      .inr ⟨wf, wv, rfl, k3.full, k3.body, piece_trans k1.pieceBody (piece_trans k2.pieceRest k3.pieceFull), k3.pieceBody⟩⟩
    unfold contentRef
    exact bind_some_of k1.element (bind_some_of (map_snd k2.element) (bind_some_of h3 rfl))

/-- The certificates, as a raw field that may be absent. -/
def RawField (h : Heap) (s : Slice) (o : Option Slice) (v : Bytes) : Prop := (o = none ∧ v = []) ∨ ∃ w, o = some w ∧ h.read w = v ∧ Piece s w

/-- The slices of a signedData in `b`: those of the content in one piece, the others in a piece behind it. -/
structure SignedHolds (h : Heap) (b wc wo : Slice) (m : SignedRefs) (v : SignedData) : Prop where
  pieceContent : Piece b wc
  pieceOther : Piece b wo
  order : wc.off + wc.len ≤ wo.off
  content : ContentHolds h wc m.content v.contentInfo.content
  certificates : RawField h wo m.certificates v.certificates
  crls : List.Forall₂ (fun r c => CrlHolds h c r ∧ ∃ t, Piece wo t ∧ CrlLayout t r) m.crls (v.crls.getD [])
  signers : List.Forall₂ (SignerHolds h wo) m.signers v.signerInfos

theorem holds_end {h : Heap} {b : Slice} (hv : h.Valid b) {v : SignedData} (hc : v.contentInfo = {}) (h2 : v.certificates = []) (h3 : v.crls = none)
    (h4 : v.signerInfos = []) : ∃ wc wo, SignedHolds h b wc wo {} v := by
  have p : Piece b (restS b 0) := sub_piece hv (by omega)
  refine ⟨restS b 0, restS b 0, p, p, ?_, .inl ⟨rfl, by rw [hc]⟩, .inl ⟨rfl, h2⟩, by rw [h3]; exact .nil, by rw [h4]; exact .nil⟩
  dsimp only [restS, sub]; omega

theorem rest_field {α : Type} {c : Codec α} {p : Params α} (hx : p.explicit = false) {h : Heap} {s : Slice} (hv : h.Valid s) {v : α} {r : Bytes}
    (hp : parseField c p (h.read s) = some (v, r)) :
    ∃ o wr, optS (parseField c p) h s = some (o, wr) ∧ h.read wr = r ∧ Piece s wr := by
  rcases optS_field hx hv hp with ⟨-, h2, h3⟩ | ⟨full, body, we, wb, wr, k, -, h3⟩
  · exact ⟨none, s, h3, h2.symm, piece_refl s⟩
  · exact ⟨_, wr, h3, k.rest, k.pieceRest⟩

theorem signedRefs_of {h : Heap} {b : Slice} (hv : h.Valid b) : ∃ wc wo, SignedHolds h b wc wo (signedRefs h b) (signedDataFields (h.read b)).1 := by
  unfold signedRefs signedDataFields
  cases d1 : parseField goInt {} (h.read b) with
  | none => rw [optS_none d1]; exact holds_end hv rfl rfl rfl rfl
  | some x =>
    obtain ⟨v, b1⟩ := x
    obtain ⟨o1, w1, g1, r1, p1⟩ := rest_field rfl hv d1
    have v1 := piece_valid hv p1
    rw [g1]
    dsimp only
    rw [← r1]
    cases d2 : parseField (Asn1.setOf algId) { set := true } (h.read w1) with
    | none => rw [optS_none d2]; exact holds_end hv rfl rfl rfl rfl
    | some x =>
      obtain ⟨da, b2⟩ := x
      obtain ⟨o2, w2, g2, r2, p2⟩ := rest_field rfl v1 d2
      have v2 := piece_valid v1 p2
      rw [g2]
      dsimp only
      rw [← r2]
      cases d3 : parseField contentInfo {} (h.read w2) with
      | none => rw [optS_none d3]; exact holds_end hv rfl rfl rfl rfl
      | some x =>
        obtain ⟨c, b3⟩ := x
        obtain ⟨oc, full, body, we, wb, w3, k3, g3, hc⟩ := content_of v2 d3
        have v3 := piece_valid v2 k3.pieceRest
        have g3' : ∃ o, optS (parseField contentInfo {}) h w2 = some (o, w3) := by
          refine ⟨_, optS_cut v2 d3 k3 ?_⟩
          obtain ⟨-, _, _, -⟩ := k3.pieceRest
          have e1 := read_length v2
          have e2 := read_length v3
          rw [k3.rest] at e2
          have hh : elementS h w2 = some (we, wb, w3) := k3.element
          unfold elementS at hh
          simp only [Option.bind_eq_bind, Option.bind_eq_some_iff, Prod.exists, Option.pure_def] at hh
          obtain ⟨t, r, ht, hh⟩ := hh
          have := parseHdr_lt ht
          split at hh
          · cases hh
          · simp only [Option.some.injEq, Prod.mk.injEq] at hh
            obtain ⟨-, -, rfl⟩ := hh
            rw [e2]
            dsimp only [restS, sub]
            omega
        obtain ⟨o3, g3'⟩ := g3'
        rw [g3', g3]
        dsimp only
        rw [← k3.rest, Option.getD_some]
        have pc : Piece b we := piece_trans p1 (piece_trans p2 k3.pieceFull)
        have po : Piece b w3 := piece_trans p1 (piece_trans p2 k3.pieceRest)
        have ho : we.off + we.len ≤ w3.off := Nat.le_of_eq k3.order
        cases d4 : parseField rawCertificates { opt := some [], tag := some 0 } (h.read w3) with
        | none => rw [optS_none d4]; exact ⟨we, w3, pc, po, ho, hc, .inl ⟨rfl, rfl⟩, .nil, .nil⟩
        | some x =>
          obtain ⟨certs, b4⟩ := x
          have h4 : ∃ o4 w4, optS (parseField rawCertificates { opt := some [], tag := some 0 }) h w3 = some (o4, w4) ∧ h.read w4 = b4 ∧
              Piece w3 w4 ∧ RawField h w3 (o4.map (·.1)) certs := by
            rcases optS_field rfl v3 d4 with ⟨h1, h2, h3⟩ | ⟨full, body, we, wb, wr, k, hd, h3⟩
            · exact ⟨none, w3, h3, h2.symm, piece_refl _, .inl ⟨rfl, (Option.some.inj h1).symm⟩⟩
            · obtain rfl := Option.some.inj hd
              exact ⟨_, wr, h3, k.rest, k.pieceRest, .inr ⟨we, rfl, k.full, k.pieceFull⟩⟩
          obtain ⟨o4, w4, g4, r4, p4, hr⟩ := h4
          have v4 := piece_valid v3 p4
          rw [g4]
          dsimp only
          rw [← r4]
          cases d5 : parseField (nilable (seqOf crl)) { opt := some none, tag := some 1 } (h.read w4) with
          | none => rw [optS_none d5]; exact ⟨we, w3, pc, po, ho, hc, hr, .nil, .nil⟩
          | some x =>
            obtain ⟨crls, b5⟩ := x
            have h5 : ∃ o5 w5, optS (parseField (nilable (seqOf crl)) { opt := some none, tag := some 1 }) h w4 = some (o5, w5) ∧ h.read w5 = b5 ∧
                Piece w4 w5 ∧ List.Forall₂ (fun r c => CrlHolds h c r ∧ ∃ t, Piece w3 t ∧ CrlLayout t r)
                  ((o5.bind fun p => elemsS crlRefs h p.2.len p.2).getD []) (crls.getD []) := by
              rcases optS_field rfl v4 d5 with ⟨h1, h2, h3⟩ | ⟨full, body, we, wb, wr, k, hd, h3⟩
              · obtain rfl := Option.some.inj h1
                exact ⟨none, w4, h3, h2.symm, piece_refl _, .nil⟩
              · obtain ⟨l, hd', rfl⟩ := Option.map_eq_some_iff.mp hd
                have vb := piece_valid v4 (piece_trans k.pieceFull k.pieceBody)
                rw [← k.body] at hd'
                obtain ⟨xs, g, hf⟩ := elems_of (f := crlRefs) (h := h) (R := fun s r c => CrlHolds h c r ∧ CrlLayout s r)
                  (fun hv _ _ hp => by obtain ⟨m, h1, h2⟩ := crlRefs_of_field hv hp; exact ⟨m, h1, h2⟩) vb hd'
                refine ⟨_, wr, h3, k.rest, k.pieceRest, ?_⟩
                show List.Forall₂ _ ((elemsS crlRefs h wb.len wb).getD []) _
                rw [g]
                exact hf.imp fun _ _ ⟨t, p, q1, q2⟩ => ⟨q1, t, piece_trans p4 (piece_trans k.pieceFull (piece_trans k.pieceBody p)), q2⟩
            obtain ⟨o5, w5, g5, r5, p5, hl⟩ := h5
            have v5 := piece_valid v4 p5
            rw [g5]
            dsimp only
            rw [← r5]
            cases d6 : parseField (Asn1.setOf signerInfo) { set := true } (h.read w5) with
            | none => rw [optS_none d6]; exact ⟨we, w3, pc, po, ho, hc, hr, hl, .nil⟩
            | some x =>
              obtain ⟨sis, b6⟩ := x
              rcases optS_field rfl v5 d6 with ⟨h1, h2, h3⟩ | ⟨full, body, we', wb', wr, k, hd, h3⟩
              · cases h1
              · have vb := piece_valid v5 (piece_trans k.pieceFull k.pieceBody)
                rw [← k.body] at hd
                obtain ⟨xs, g, hf⟩ := elems_of (f := signerRef) (h := h) (R := fun s r c => SignerHolds h s r c)
                  (fun hv _ _ hp => signer_of hv hp) vb (full := full) hd
                rw [h3]
                refine ⟨we, w3, pc, po, ho, hc, hr, hl, ?_⟩
                show List.Forall₂ _ ((elemsS signerRef h wb'.len wb').getD []) _
                rw [g]
                exact hf.imp fun _ _ ⟨t, p, q⟩ => q.mono (piece_trans p4 (piece_trans p5 (piece_trans k.pieceFull (piece_trans k.pieceBody p))))

theorem certsRefs_of {env : Env} {h : Heap} (n : Nat) : ∀ {s : Slice}, h.Valid s → s.len ≤ n → ∀ {l : List Certificate},
    parseCertificatesAux env s.len (h.read s) = .ok l →
    ∃ ms, certsRefs h n s = some ms ∧ List.Forall₂ (fun m c => Holds h c m ∧ ∃ d, Piece s d ∧ Layout d m) ms l := by
  induction n with
  | zero =>
    intro s hv hn l hl
    have h0 : s.len = 0 := by omega
    have hb : h.read s = [] := List.length_eq_zero_iff.mp (by rw [read_length hv]; exact h0)
    rw [hb] at hl
    have : l = [] := by
      rw [h0] at hl
      simp only [parseCertificatesAux, Res.ok.injEq] at hl
      exact hl.symm
    subst this
    exact ⟨[], by unfold certsRefs; exact if_pos h0, .nil⟩
  | succ n ih =>
    intro s hv hn l hl
    have hlen := read_length hv
    obtain ⟨ds, hfl, hf⟩ := (certsAux_iff env s.len (h.read s) (by omega) l).mp hl
    cases hf with
    | nil =>
      have h0 : s.len = 0 := by rw [← hlen, hfl]; rfl
      exact ⟨[], by unfold certsRefs; exact if_pos h0, .nil⟩
    | @cons d c ds l' hd hf =>
      obtain ⟨hd1, hr⟩ := (ParseCertificate_iff env d c).mp hd
      obtain ⟨b, rest, hd', he⟩ := parseCertificate_raw hd1
      rw [hr] at he
      rw [List.flatten_cons] at hfl
      have hre : readElement 0x30 (h.read s) = some (d, ds.flatten) := (readElement_iff 0x30 _ _ _).mpr ⟨hfl, b, he⟩
      obtain ⟨w, wr, g, k, o⟩ := readElementS_of hv hre
      have vw := piece_valid hv k.piece
      have vr := piece_valid hv k.pieceRest
      have hpos : 0 < d.length := List.length_pos_of_ne_nil he.ne_nil
      have hsl : s.len = d.length + ds.flatten.length := by rw [← hlen, hfl, List.length_append]
      have hwl : wr.len = ds.flatten.length := by rw [← read_length vr, k.rest]
      rw [← k.bytes] at hd
      obtain ⟨m, g2, h2, h3⟩ := certRefs_of vw hd
      have : parseCertificatesAux env wr.len (h.read wr) = .ok l' := by
        refine (certsAux_iff env wr.len (h.read wr) (by rw [read_length vr]) l').mpr ⟨ds, ?_, hf⟩
        rw [k.rest]
      obtain ⟨ms, g3, h4⟩ := ih vr (by omega) this
      refine ⟨m :: ms, ?_, .cons ⟨h2, w, k.piece, h3⟩ (h4.imp fun _ _ ⟨a, d, p, q⟩ => ⟨a, d, piece_trans k.pieceRest p, q⟩)⟩
      unfold certsRefs
      rw [if_neg (by omega)]
      exact bind_some_of g (bind_some_of g2 (bind_some_of g3 rfl))

end MCrypto.X509
