import Verif.Props.CertWrite
import Verif.Props.X509Csr
import Verif.X509.RequestWriteSpec
/-
C115 The octets of certificate requests.
-/
namespace MCrypto.Props
open MCrypto MCrypto.Asn1 MCrypto.X509 MCrypto.X509Spec MCrypto.Dg

/-! ## Attributes -/

theorem set_out {α : Type} [DecidableEq α] {c : Codec α} {E : α → Bytes → Prop} {l : List α}
    (h : ∀ v ∈ l, ∀ e : Bytes, e.length < 2 ^ 31 → (marshalField c {} v = some e ↔ E v e)) {e : Bytes} (hl : e.length < 2 ^ 31) :
    marshalField (Asn1.setOf c) { set := true } l = some e ↔ SetOut E l e := by
  rw [mf_tag_iff (c := Asn1.setOf c) 0x31 17 0 (by decide) rfl (by simp) (Or.inr ⟨rfl, rfl, rfl⟩) rfl hl]
  unfold SetOut
  constructor
  · rintro ⟨body, h2, h1⟩
    obtain ⟨es, es', rfl, h3, h4, h5⟩ := (setOf_enc_out h h2.2).mp h1
    exact ⟨es, es', h2, h3, h4, h5⟩
  · rintro ⟨es, es', h2, h3, h4, h5⟩
    exact ⟨_, h2, (setOf_enc_out h h2.2).mpr ⟨es, es', rfl, h3, h4, h5⟩⟩

/-- An attribute that has an encoding. -/
def AttrDefined (a : AttrSet) : Prop := OidIn a.type ∧ ∀ s ∈ a.value, ∀ x ∈ s, OidIn x.type ∧ Props.AnyOk x.value

theorem attrSet_out {a : AttrSet} (h : AttrDefined a) {e : Bytes} (hl : e.length < 2 ^ 31) :
    marshalField attrSet {} a = some e ↔ AttrSetOut a e :=
  two_out (c := attrSet) (f := marshalField oid {} a.type) (g := marshalField (Asn1.setOf (seqOf atvAny)) { set := true } a.value)
    rfl rfl (by rfl) (fun _ he => oid_mf_in h.1 he)
    (fun _ he => set_out (c := seqOf atvAny) (E := SeqOut AtvOut)
      (fun s hs _ he => seqOf_out (c := atvAny) (fun x hx _ he => atv_out (h.2 s hs x hx).1 (h.2 s hs x hx).2 he) he) he) hl

theorem setOut_one {α : Type} {E : α → Bytes → Prop} {v : α} {e : Bytes} : SetOut E [v] e ↔ ∃ x, El 0x31 x e ∧ E v x := by
  unfold SetOut
  constructor
  · rintro ⟨es, es', h1, h2, h3, -⟩
    cases h2 with
    | cons h4 h5 =>
      cases h5
      obtain rfl := List.perm_singleton.mp h3
      exact ⟨_, by simpa using h1, h4⟩
  · rintro ⟨x, h1, h2⟩
    exact ⟨[x], [x], by simpa using h1, List.Forall₂.cons h2 .nil, List.Perm.refl _, by simp⟩

theorem exts_seq_out {l : List Ext} (h : ∀ x ∈ l, OidIn x.id) {e : Bytes} (hl : e.length < 2 ^ 31) :
    marshalField (seqOf extension) {} l = some e ↔ ExtsOut l e :=
  seqOf_out (c := extension) (fun x hx _ he => ext_out (h x hx) he) hl

theorem extAttr_out {exts : List Ext} (h : ∀ x ∈ exts, OidIn x.id) {e : Bytes} (hl : e.length < 2 ^ 31) :
    marshal extAttr ⟨oidExtensionRequest, [exts]⟩ = some e ↔ ExtensionRequestOut exts e := by
  have h0 : OidIn oidExtensionRequest := (OidOk.oidIn ⟨_, _, _, rfl, by decide, by decide⟩)
  have := two_out (c := extAttr) (v := ⟨oidExtensionRequest, [exts]⟩) (f := marshalField oid {} oidExtensionRequest)
    (g := marshalField (Asn1.setOf (seqOf extension)) { set := true } [exts]) (A := OidEl oidExtensionRequest)
    (B := SetOut ExtsOut [exts]) rfl rfl (by rfl) (fun _ he => oid_mf_in h0 he)
    (fun _ he => set_out (c := seqOf extension) (E := ExtsOut) (fun s hs _ he => by
      rw [List.mem_singleton.mp hs]; exact exts_seq_out h he) he) hl
  unfold marshal
  rw [this]
  unfold ExtensionRequestOut
  simp only [setOut_one]
  constructor
  · rintro ⟨x, y, a, b, z, c, d⟩; exact ⟨x, y, z, a, b, c, d⟩
  · rintro ⟨x, y, z, a, b, c, d⟩; exact ⟨x, y, a, b, z, c, d⟩

theorem newRaw_of {attrs : List AttrSet} {es : List Bytes} (h : List.Forall₂ (fun a e => marshalField attrSet {} a = some e) attrs es)
    (hl : es.flatten.length < 2 ^ 31) : ∃ raws, newRawAttributes attrs = some raws ∧ List.Forall₂ ReadsRaw es raws := by
  have hraw : ∀ e ∈ es, ∃ v, ReadsRaw e v := by
    intro e he
    obtain ⟨a, -, ha⟩ := (forall₂_right h) e he
    have := flatten_mem_length he
    obtain ⟨body, -, -, -, hb⟩ := readsRaw_of ha (by omega) (by decide)
    exact ⟨_, hb⟩
  obtain ⟨raws, hr⟩ := forall₂_exists hraw
  refine ⟨raws, ?_, hr⟩
  have hm : marshal (seqOf attrSet) attrs = some (encTLV 0 true 16 es.flatten) := by
    unfold marshal marshalField
    rw [if_neg (by simp)]
    simp only [seqOf, (X509.marshalElems_iff _ _ _).mpr h, Option.map_some]
    rfl
  have hu : unmarshal seqOfRaw (encTLV 0 true 16 es.flatten) = some (raws, []) :=
    (unmarshal_iff seqOfRaw (by decide) _ _ _).mpr ⟨es.flatten, (List.append_nil _).symm, hl,
      (seqOfRaw_dec_iff _ _ _).mpr ⟨es, rfl, hr⟩⟩
  unfold newRawAttributes
  simp [hm, hu]

theorem appendExtensions_no {exts : List Ext} {attrs : List AttrSet} (h : ∀ a ∈ attrs, ¬ AsksExtensions a) :
    appendExtensions exts attrs = (attrs, false) := by
  induction attrs with
  | nil => rfl
  | cons a l ih =>
    have ha := h a (by simp)
    rw [appendExtensions, if_pos, ih fun a ha => h a (by simp [ha])]
    by_cases hc : a.type = oidExtensionRequest
    · right
      rw [List.length_eq_zero_iff]
      by_contra hv
      exact ha ⟨hc, hv⟩
    · exact Or.inl hc

theorem addToAttr_eq {exts : List Ext} {a : AttrSet} {v : List AtvAny} {vs : List (List AtvAny)} (h : a.value = v :: vs) :
    addToAttr exts a = ⟨a.type, (v ++ newAtvs exts a.value) :: vs⟩ := by
  have : ∀ x : Ext, (!(a.value.flatten.map (·.type)).contains x.id) = decide (∀ v ∈ a.value, ∀ y ∈ v, y.type ≠ x.id) := by
    intro x
    rw [Bool.eq_iff_iff]
    simp only [Bool.not_eq_true', decide_eq_true_eq]
    rw [← Bool.not_eq_true, List.contains_iff_mem]
    simp only [List.mem_map, List.mem_flatten, not_exists, not_and]
    constructor
    · intro hh v hv y hy; exact hh y ⟨v, hv, hy⟩
    · rintro hh y ⟨v, hv, hy⟩; exact hh v hv y hy
  unfold addToAttr newAtvs
  simp only [this]
  rw [h]

theorem appendExtensions_yes {exts : List Ext} {l1 l2 : List AttrSet} {a : AttrSet} (h : ∀ x ∈ l1, ¬ AsksExtensions x)
    (ha : AsksExtensions a) : appendExtensions exts (l1 ++ a :: l2) = (l1 ++ addToAttr exts a :: l2, true) := by
  induction l1 with
  | nil =>
    rw [List.nil_append, appendExtensions, if_neg]
    · rfl
    · rintro (hc | hc)
      · exact hc ha.1
      · exact ha.2 (List.length_eq_zero_iff.mp hc)
  | cons b l ih =>
    have hb := h b (by simp)
    rw [List.cons_append, appendExtensions, if_pos, ih fun a ha => h a (by simp [ha])]
    · rfl
    by_cases hc : b.type = oidExtensionRequest
    · right
      rw [List.length_eq_zero_iff]
      by_contra hv
      exact hb ⟨hc, hv⟩
    · exact Or.inl hc

theorem first_asks (attrs : List AttrSet) : (∀ x ∈ attrs, ¬ AsksExtensions x) ∨
    ∃ l1 a l2, attrs = l1 ++ a :: l2 ∧ (∀ x ∈ l1, ¬ AsksExtensions x) ∧ AsksExtensions a := by
  induction attrs with
  | nil => left; simp
  | cons b l ih =>
    by_cases hb : AsksExtensions b
    · exact Or.inr ⟨[], b, l, rfl, by simp, hb⟩
    · rcases ih with ih | ⟨l1, a, l2, rfl, h1, h2⟩
      · left
        intro x hx
        rcases List.mem_cons.mp hx with rfl | hx
        · exact hb
        · exact ih x hx
      · refine Or.inr ⟨b :: l1, a, l2, rfl, ?_, h2⟩
        intro x hx
        rcases List.mem_cons.mp hx with rfl | hx
        · exact hb
        · exact h1 x hx

theorem newAtvs_defined {exts : List Ext} (h : ∀ x ∈ exts, OidIn x.id) (vs : List (List AtvAny)) :
    ∀ y ∈ newAtvs exts vs, OidIn y.type ∧ Props.AnyOk y.value := by
  intro y hy
  obtain ⟨x, hx, rfl⟩ := List.mem_map.mp hy
  exact ⟨h x (List.mem_of_mem_filter hx), trivial⟩

theorem many_attrs {attrs : List AttrSet} (h : ∀ a ∈ attrs, AttrDefined a) {es : List Bytes} (hl : es.flatten.length < 2 ^ 31) :
    List.Forall₂ (fun a e => marshalField attrSet {} a = some e) attrs es ↔ List.Forall₂ (fun e a => AttrSetOut a e) es attrs := by
  have := forall₂_congr_len (R := fun e a => marshalField attrSet {} a = some e) hl (fun e a ha he => attrSet_out (h a ha) he)
  rw [← this]
  exact ⟨List.Forall₂.flip, List.Forall₂.flip⟩

theorem newRaw_out {attrs : List AttrSet} (h : ∀ a ∈ attrs, AttrDefined a) {body : Bytes} (hl : body.length < 2 ^ 31) :
    (∃ raws, newRawAttributes attrs = some raws ∧ seqOfRaw.enc raws = some body) ↔ Many AttrSetOut attrs body := by
  unfold Many
  constructor
  · rintro ⟨raws, h1, h2⟩
    obtain ⟨es, h3, h4⟩ := newRawAttributes_spec h1
    rw [seqOfRaw_enc h3] at h2
    obtain rfl := Option.some.inj h2
    exact ⟨es, rfl, (many_attrs h hl).mp h4⟩
  · rintro ⟨es, rfl, h1⟩
    obtain ⟨raws, h2, h3⟩ := newRaw_of ((many_attrs h hl).mpr h1) hl
    exact ⟨raws, h2, seqOfRaw_enc h3⟩

theorem attributes_out {attrs : List AttrSet} {exts : List Ext} (h : ∀ a ∈ attrs, AttrDefined a) (hx : ∀ x ∈ exts, OidIn x.id)
    (hsize : ∀ b, marshal (seqOf extension) exts = some b → b.length < 2 ^ 62) {body : Bytes} (hl : body.length < 2 ^ 31) :
    (∃ raws, csrAttributes attrs exts = some raws ∧ seqOfRaw.enc raws = some body) ↔ AttributesOut attrs exts body := by
  unfold AttributesOut
  by_cases he : exts = []
  · subst he
    have : csrAttributes attrs [] = newRawAttributes attrs := by
      unfold csrAttributes
      simp only [List.length_nil, gt_iff_lt, Nat.lt_irrefl, if_false, false_and]
      cases newRawAttributes attrs <;> rfl
    rw [this, newRaw_out h hl]
    simp
  have hpos : exts.length > 0 := List.length_pos_iff.mpr he
  rcases first_asks attrs with hn | ⟨l1, a, l2, rfl, h1, h2⟩
  · have hc : ∀ raws, csrAttributes attrs exts = some raws ↔ ∃ raws0 b r rest, newRawAttributes attrs = some raws0 ∧
        marshal extAttr ⟨oidExtensionRequest, [exts]⟩ = some b ∧ parseRaw {} b = some (r, rest) ∧ raws = raws0 ++ [r] := by
      intro raws
      unfold csrAttributes
      simp only [hpos, if_true, appendExtensions_no hn]
      cases newRawAttributes attrs with
      | none => simp
      | some raws0 =>
        simp only [Bool.false_eq_true, not_false_eq_true, and_self, if_true, Option.pure_def, Option.bind_eq_bind,
          Option.bind_eq_some_iff, Prod.exists, Option.some.injEq]
        constructor
        · rintro ⟨b, g1, r, rest, g2, rfl⟩; exact ⟨raws0, b, r, rest, rfl, g1, g2, rfl⟩
        · rintro ⟨_, b, r, rest, rfl, g1, g2, rfl⟩; exact ⟨b, g1, r, rest, g2, rfl⟩
    simp only [hc]
    constructor
    · rintro ⟨raws, ⟨raws0, b, r, rest, g1, g2, g3, rfl⟩, g4⟩
      refine Or.inr (Or.inr ⟨he, hn, ?_⟩)
      have hr := extAttr_size g2 hsize g3
      obtain ⟨es, g5, g6⟩ := newRawAttributes_spec g1
      have g7 := seqOfRaw_enc (List.rel_append g5 (List.Forall₂.cons hr .nil))
      rw [g7] at g4
      obtain rfl := Option.some.inj g4
      simp only [List.flatten_append, List.flatten_cons, List.flatten_nil, List.append_nil, List.length_append] at hl ⊢
      exact ⟨_, b, rfl, (newRaw_out h (by omega)).mp ⟨raws0, g1, seqOfRaw_enc g5⟩, (extAttr_out hx (by omega)).mp g2⟩
    · rintro (⟨h0, -⟩ | ⟨-, l1, a, v, vs, l2, rfl, -, g1, g2, -⟩ | ⟨-, -, b1, b2, rfl, g1, g2⟩)
      · exact absurd h0 he
      · exact absurd ⟨g1, by rw [g2]; simp⟩ (hn a (by simp))
      · rw [List.length_append] at hl
        obtain ⟨es, rfl, g3⟩ := id g1
        obtain ⟨raws, g4, g5⟩ := newRaw_of ((many_attrs h (by omega)).mpr g3) (by omega)
        have g6 := (extAttr_out hx (by omega)).mpr g2
        obtain ⟨bd, -, -, -, hb⟩ := readsRaw_of g6 (by omega) (by decide)
        refine ⟨_, ⟨raws, b2, _, [], g4, g6, (parseRaw_reads _ _ []).mpr ⟨_, (List.append_nil _).symm, hb⟩, rfl⟩, ?_⟩
        rw [seqOfRaw_enc (List.rel_append g5 (List.Forall₂.cons hb .nil))]
        simp
  · obtain ⟨v, vs, hv⟩ := List.exists_cons_of_ne_nil h2.2
    have hc : csrAttributes (l1 ++ a :: l2) exts = newRawAttributes (l1 ++ ⟨a.type, (v ++ newAtvs exts a.value) :: vs⟩ :: l2) := by
      unfold csrAttributes
      simp only [hpos, if_true, appendExtensions_yes h1 h2, addToAttr_eq hv]
      cases newRawAttributes (l1 ++ ⟨a.type, (v ++ newAtvs exts a.value) :: vs⟩ :: l2) <;> simp
    have hd : ∀ b ∈ l1 ++ ⟨a.type, (v ++ newAtvs exts a.value) :: vs⟩ :: l2, AttrDefined b := by
      intro b hb
      rcases List.mem_append.mp hb with hb | hb
      · exact h b (by simp [hb])
      · rcases List.mem_cons.mp hb with rfl | hb
        · have ha := h a (by simp)
          refine ⟨ha.1, ?_⟩
          intro s hs x hx'
          rcases List.mem_cons.mp hs with rfl | hs
          · rcases List.mem_append.mp hx' with hx' | hx'
            · exact ha.2 v (by rw [hv]; simp) x hx'
            · exact newAtvs_defined hx _ x hx'
          · exact ha.2 s (by rw [hv]; simp [hs]) x hx'
        · exact h b (by simp [hb])
    rw [hc, newRaw_out hd hl]
    constructor
    · intro g
      exact Or.inr (Or.inl ⟨he, l1, a, v, vs, l2, rfl, h1, h2.1, hv, g⟩)
    · rintro (⟨h0, -⟩ | ⟨-, l1', a', v', vs', l2', g0, g1, g2, g3, g4⟩ | ⟨-, g1, -⟩)
      · exact absurd h0 he
      · have ha' : AsksExtensions a' := ⟨g2, by rw [g3]; simp⟩
        have e1 := appendExtensions_yes (exts := exts) (l2 := l2) h1 h2
        have e2 := appendExtensions_yes (exts := exts) (l2 := l2') g1 ha'
        rw [← g0, e1, addToAttr_eq hv, addToAttr_eq g3] at e2
        rw [(Prod.mk.inj e2).1]
        exact g4
      · exact absurd h2 (g1 a (by simp))

/-! ## Requests -/

/-- What a template has to hold for the octets of the request to be defined: times that exist, arcs of object identifiers that fit 31 bits, and
extensions that are not larger than 2 GiB. -/
structure RequestDefined (t : CertificateRequest) : Prop where
  subject : ExtraNamesOk t.subject
  attributes : ∀ a ∈ t.attributes, AttrDefined a
  extra : ∀ x ∈ t.extraExtensions, OidIn x.id
  values : ∀ exts, buildCSRExtensions t = some exts → ∀ x ∈ exts, x.value.length < 2 ^ 31
  size : ∀ exts b, buildCSRExtensions t = some exts → marshal (seqOf extension) exts = some b → b.length < 2 ^ 62

theorem requestExts_out {t : CertificateRequest} {l : List Ext} (hl : (∀ x ∈ l, x.value.length < 2 ^ 31) ∨ RequestExtsOut t l) :
    buildCSRExtensions t = some l ↔ RequestExtsOut t l := by
  have hw : csrHasSANs t = true ↔ (t.dnsNames ≠ [] ∨ t.emailAddresses ≠ [] ∨ t.ipAddresses ≠ [] ∨ t.uris ≠ []) := by
    rw [← Bool.not_eq_false, hasSANs_iff]
    simp only [not_and_or, ne_eq]
  by_cases hc : csrHasSANs t = true ∧ oidInExtensions oidExtensionSubjectAltName t.extraExtensions = false
  · have hc' : (t.dnsNames ≠ [] ∨ t.emailAddresses ≠ [] ∨ t.ipAddresses ≠ [] ∨ t.uris ≠ []) ∧
        ∀ x ∈ t.extraExtensions, x.id ≠ [2, 5, 29, 17] := ⟨hw.mp hc.1, (oidNotIn_iff _ _).mp hc.2⟩
    have hb : buildCSRExtensions t = some l ↔ ∃ v, marshalSANs t.dnsNames t.emailAddresses t.ipAddresses t.uris = some v ∧
        l = ⟨[2, 5, 29, 17], false, v⟩ :: t.extraExtensions := by
      unfold buildCSRExtensions
      rw [if_pos (by simp [hc])]
      simp only [Option.pure_def, Option.bind_eq_bind, Option.bind_eq_some_iff, Option.some.injEq]
      exact exists_congr fun v => and_congr_right fun _ => eq_comm
    rw [hb]
    unfold RequestExtsOut ExtIf at hl ⊢
    constructor
    · rintro ⟨v, h1, rfl⟩
      refine hl.elim (fun hl => ?_) id
      exact ⟨[⟨[2, 5, 29, 17], false, v⟩], rfl, Or.inl ⟨hc', v, rfl, (sans_out (Or.inl (hl ⟨[2, 5, 29, 17], false, v⟩ (List.mem_cons_self ..)))).mp h1⟩⟩
    · rintro ⟨l1, rfl, ⟨-, v, rfl, h1⟩ | ⟨h, -⟩⟩
      · exact ⟨v, (sans_out (Or.inr h1)).mpr h1, rfl⟩
      · exact absurd hc' h
  · have hc' : ¬ ((t.dnsNames ≠ [] ∨ t.emailAddresses ≠ [] ∨ t.ipAddresses ≠ [] ∨ t.uris ≠ []) ∧
        ∀ x ∈ t.extraExtensions, x.id ≠ [2, 5, 29, 17]) := fun h => hc ⟨hw.mpr h.1, (oidNotIn_iff _ _).mpr h.2⟩
    unfold buildCSRExtensions RequestExtsOut ExtIf
    rw [if_neg (by simpa using hc)]
    constructor
    · intro h
      exact ⟨[], (Option.some.inj h).symm, Or.inr ⟨hc', rfl⟩⟩
    · rintro ⟨l1, rfl, ⟨h, -⟩ | ⟨-, rfl⟩⟩
      · exact absurd h hc'
      · rfl

theorem requestExts_ids {t : CertificateRequest} {l : List Ext} (h : RequestExtsOut t l) (ho : ∀ x ∈ t.extraExtensions, OidIn x.id) :
    ∀ x ∈ l, OidIn x.id := by
  obtain ⟨l1, rfl, h⟩ := h
  intro x hx
  rcases List.mem_append.mp hx with hx | hx
  · rcases h with ⟨-, v, rfl, -⟩ | ⟨-, rfl⟩
    · rw [List.mem_singleton.mp hx]; exact (OidOk.oidIn ⟨_, _, _, rfl, by decide, by decide⟩)
    · cases hx
  · exact ho x hx

theorem csrSubject_out {t : CertificateRequest} (h : ExtraNamesOk t.subject) {e : Bytes} (hl : e.length < 2 ^ 31) :
    csrSubject t = some e ↔ ((t.rawSubject ≠ [] ∧ e = t.rawSubject) ∨ (t.rawSubject = [] ∧ RdnsOut (nameRdns t.subject) e)) := by
  unfold csrSubject
  by_cases h0 : t.rawSubject = []
  · rw [if_pos (by rw [h0]; rfl), name_out h hl]
    simp [h0]
  · rw [if_neg (by rw [List.length_eq_zero_iff]; exact h0), Option.some.injEq]
    simp [h0, eq_comm]

theorem csrSubject_ne {t : CertificateRequest} {e : Bytes} (h : csrSubject t = some e) : e ≠ [] := by
  unfold csrSubject at h
  split_ifs at h with h0
  · exact marshalField_ne_nil h
  · rw [← Option.some.inj h]
    intro hc; exact h0 (by rw [hc]; rfl)

theorem tbsRequest_out {t : CertificateRequest} (ht : RequestDefined t) {pub : PubKey} {e : Bytes} (hl : e.length < 2 ^ 31) :
    (∃ pkBytes pkAlgo exts raws subject, marshalPublicKey pub = .ok (pkBytes, pkAlgo) ∧ buildCSRExtensions t = some exts ∧
      csrAttributes t.attributes exts = some raws ∧ csrSubject t = some subject ∧
      marshal tbsCsr { version := 0, subject := { full := subject }, publicKey := ⟨pkAlgo, ⟨pkBytes, pkBytes.length * 8⟩⟩, rawAttributes := raws } = some e) ↔
    TbsRequestOut t pub e := by
  have hme : ∀ (subject : Bytes) (k : Spki) (raws : List RawValue), subject ≠ [] →
      (marshal tbsCsr { version := 0, subject := { full := subject }, publicKey := k, rawAttributes := raws } = some e ↔
      ∃ body, El 0x30 body e ∧ ∃ e1 e3 e4, body = e1 ++ (subject ++ (e3 ++ e4)) ∧
        marshalField goInt {} 0 = some e1 ∧ marshalField spki {} k = some e3 ∧
        marshalField seqOfRaw { tag := some 0 } raws = some e4) := by
    intro subject k raws hs
    refine seq_out (c := tbsCsr) rfl rfl ?_ hl
    intro body hb
    unfold tbsCsr
    simp only [ne_eq, not_true_eq_false, if_false, Option.pure_def, Option.bind_eq_bind, Option.bind_eq_some_iff, Option.some.injEq]
    rw [marshalRaw_full _ _ hs (by simp)]
    constructor
    · rintro ⟨e1, h1, _, h2, e3, h3, e4, h4, rfl⟩
      obtain rfl := Option.some.inj h2
      exact ⟨e1, e3, e4, rfl, h1, h3, h4⟩
    · rintro ⟨e1, e3, e4, rfl, h1, h3, h4⟩
      exact ⟨e1, h1, _, rfl, e3, h3, e4, h4, rfl⟩
  have hat : ∀ (raws : List RawValue) {x : Bytes}, x.length < 2 ^ 31 → (marshalField seqOfRaw { tag := some 0 } raws = some x ↔
      ∃ body, El 0xa0 body x ∧ seqOfRaw.enc raws = some body) := fun raws x hx =>
    mf_tag_iff (c := seqOfRaw) 0xa0 0 2 (by decide) rfl (by simp) (Or.inl ⟨rfl, rfl⟩) (by decide) hx
  unfold TbsRequestOut
  constructor
  · rintro ⟨key, alg, exts, raws, subject, h1, h2, h3, h4, h5⟩
    obtain ⟨_, k, e1, e3, e4, rfl, g1, g3, g4⟩ := (hme _ _ _ (csrSubject_ne h4)).mp h5
    have kl := k.2
    simp only [List.length_append] at kl
    obtain ⟨body, g5, g6⟩ := (hat _ (by omega)).mp g4
    have hr := (requestExts_out (Or.inl (ht.values _ h2))).mp h2
    rw [Nat.mul_comm] at g3
    exact ⟨e1, subject, e3, key, exts, e4, body, k, (goInt_mf (by omega)).mp g1, (csrSubject_out ht.subject (by omega)).mp h4,
      (pkixKey_out _ _ _ (by omega)).mp ⟨alg, h1, g3⟩, hr, g5,
      (attributes_out ht.attributes (requestExts_ids hr ht.extra) (fun b hb => ht.size _ b h2 hb) g5.2).mp ⟨raws, h3, g6⟩⟩
  · rintro ⟨e1, subject, e3, key, exts, e4, body, k, g1, g2, g3, hr, g5, g6⟩
    have kl := k.2
    simp only [List.length_append] at kl
    have h4 := (csrSubject_out ht.subject (by omega)).mpr g2
    have h2 := (requestExts_out (Or.inr hr)).mpr hr
    obtain ⟨alg, h1, g3'⟩ := (pkixKey_out _ _ _ (by omega)).mpr g3
    obtain ⟨raws, h3, g6'⟩ := (attributes_out ht.attributes (requestExts_ids hr ht.extra) (fun b hb => ht.size _ b h2 hb) g5.2).mpr g6
    rw [Nat.mul_comm] at g3'
    exact ⟨key, alg, exts, raws, subject, h1, h2, h3, h4, (hme _ _ _ (csrSubject_ne h4)).mpr
      ⟨_, k, e1, e3, e4, rfl, (goInt_mf (by omega)).mpr g1, g3', (hat _ (by omega)).mpr ⟨body, g5, g6'⟩⟩⟩

theorem csr_enc_out {tbs : TbsCsr} {d : AlgoDetails} (hd : d ∈ signatureAlgorithmDetails) (hp : d.pubKeyAlgo ≠ 2) {sig e : Bytes}
    (hl : e.length < 2 ^ 31) :
    marshal csr { tbs := tbs, signatureAlgorithm := ⟨d.oid, rowParams d⟩, signatureValue := ⟨sig, sig.length * 8⟩ } = some e ↔
      ∃ x y z, El 0x30 (x ++ (y ++ z)) e ∧ marshal tbsCsr tbs = some x ∧ SigAlgOut d.algo y ∧ El 0x03 (0 :: sig) z :=
  three_out (c := csr) (f := marshalField tbsCsr {} tbs) (g := marshalField algId {} ⟨d.oid, rowParams d⟩)
    (h := marshalField bits {} ⟨sig, sig.length * 8⟩) rfl rfl (by rfl) (fun _ _ => Iff.rfl) (fun e he => sigAlg_out d hd hp e he) (fun _ he => bits_out he) hl

theorem csr_kept {v : TbsCsr} {contents : Bytes} (h : marshal tbsCsr v = some contents) (h0 : v.raw = []) {e : Bytes}
    (hl : e.length < 2 ^ 31) : marshal tbsCsr { v with raw := contents } = some e ↔ e = contents := by
  have hne := marshalField_ne_nil h
  unfold marshal marshalField at h ⊢
  rw [if_neg (by simp)] at h ⊢
  have h2 : tbsCsr.enc { v with raw := contents } = some (stripTagAndLength contents) := by
    unfold tbsCsr
    simp only [ne_eq, hne, not_false_eq_true, if_true]
  rw [h2]
  cases hb : tbsCsr.enc v with
  | none => rw [hb] at h; cases h
  | some body =>
    rw [hb] at h
    have h' : encTLV 0 true 16 body = contents := Option.some.inj h
    have := kept_out h' hl
    exact ⟨fun h => (this.mp (Option.some.inj h)).symm, fun h => congrArg some (this.mpr h.symm)⟩

/-- **C115** The octets of certificate requests. `CreateCertificateRequest` succeeds exactly if what it requires of its arguments
is met and there are octets with the described structure, and these octets are the result. -/
theorem C115_request {calls : List (Nat × Option HashFn)} {reg : Registry} (hr : registerAll noHashes calls = .ok reg)
    (t : CertificateRequest) (key : Signer) (ht : RequestDefined t) (w : Bytes) (hl : w.length < 2 ^ 31) :
    CreateCertificateRequest reg t (some key) = .ok w ↔ CsrRequires t key ∧ RequestOut (lastRegistered calls) t key w := by
  constructor
  · intro h
    obtain ⟨key', hk, hreq⟩ := C76_requires _ _ _ _ h
    obtain rfl := Option.some.inj hk
    refine ⟨hreq, ?_⟩
    obtain ⟨hashFunc, sigAlgo, pkBytes, pkAlgo, exts, raws, subject, contents, digest, signature,
      h1, h2, h3, h4, h5, h6, h7, h8, h9⟩ := csr_steps h
    obtain ⟨q1, q2, q3, q4, d, hd, q5, q6, rfl⟩ := signing_out h1
    obtain ⟨x, y, z, k, g1, g2, g3⟩ := (csr_enc_out hd q5 hl).mp h9
    have kl := k.2
    simp only [List.length_append] at kl
    obtain rfl := (csr_kept h6 rfl (by omega)).mp g1
    rw [q1] at h7 h8 q4
    rw [q6] at g2
    exact ⟨_, x, digest, signature, y, z, rfl, k, (tbsRequest_out ht (by omega)).mp
      ⟨pkBytes, pkAlgo, exts, raws, subject, h2, h3, h4, h5, h6⟩, (digest_out hr q4 _ _).mp h7, h8, g2, g3⟩
  · rintro ⟨hreq, _, tbs, digest, sig, y, z, rfl, k, g0, g1, g2, g3, g4⟩
    have kl := k.2
    simp only [List.length_append] at kl
    obtain ⟨⟨hf, ai⟩, h1⟩ := (C43_signing_ok_iff key.pub t.signatureAlgorithm).mpr ⟨hreq.canSign, hreq.family⟩
    obtain ⟨q1, q2, q3, q4, d, hd, q5, q6, rfl⟩ := signing_out h1
    obtain ⟨pkBytes, pkAlgo, exts, raws, subject, b1, b2, b3, b4, b5⟩ := (tbsRequest_out ht (by omega)).mpr g0
    rw [← q6] at g3
    rw [← q1] at g1 g2
    unfold CreateCertificateRequest
    simp only [h1, b1, b2, b3, b4, Res.bind_ok, Res.ofOption]
    unfold signCsr
    simp only [b5, Res.ofOption, Res.bind_ok]
    rw [(digest_out hr q4 _ _).mpr g1, Res.bind_ok, g2]
    simp only [Res.bind_ok]
    rw [(csr_enc_out hd q5 hl).mpr ⟨tbs, y, z, k, (csr_kept b5 rfl (by omega)).mpr rfl, g3, g4⟩]

/-! ### A request -/

theorem exRequest_defined : RequestDefined exRequest where
  subject := fun a ha => by rw [List.mem_singleton.mp ha]; exact ⟨(OidOk.oidIn ⟨_, _, _, rfl, by decide, by decide⟩), trivial⟩
  attributes := fun a ha => by
    rw [List.mem_singleton.mp ha]
    refine ⟨(OidOk.oidIn ⟨_, _, _, rfl, by decide, by decide⟩), ?_⟩
    intro s hs x hx
    rcases List.mem_cons.mp hs with rfl | hs
    · rw [List.mem_singleton.mp hx]; exact ⟨(OidOk.oidIn ⟨_, _, _, rfl, by decide, by decide⟩), trivial⟩
    · rw [List.mem_singleton.mp hs] at hx
      rw [List.mem_singleton.mp hx]; exact ⟨(OidOk.oidIn ⟨_, _, _, rfl, by decide, by decide⟩), trivial⟩
  extra := fun x hx => by rw [List.mem_singleton.mp hx]; exact (OidOk.oidIn ⟨_, _, _, rfl, by decide, by decide⟩)
  values := by
    intro exts h
    have key : ∀ x ∈ (buildCSRExtensions exRequest).getD [], x.value.length < 2 ^ 31 := by decide +kernel
    rw [h] at key
    exact key
  size := by
    intro exts b h hb
    have key : ((marshal (seqOf extension) ((buildCSRExtensions exRequest).getD [])).getD []).length < 2 ^ 62 := by decide +kernel
    rw [h, Option.getD_some, hb] at key
    exact key

/-- The example of C77 meets the hypotheses: its octets have the structure. -/
example : ∃ w, w.length < 1000 ∧ CsrRequires exRequest exSigner ∧ RequestOut (lastRegistered (initCalls toyH)) exRequest exSigner w := by
  have key : okAnd (CreateCertificateRequest exSignEnv.reg exRequest (some exSigner)) (fun der => der.length < 1000) = true := by decide +kernel
  cases h : CreateCertificateRequest exSignEnv.reg exRequest (some exSigner) with
  | ok w =>
    rw [h] at key
    have hl : w.length < 1000 := by simpa [okAnd] using key
    exact ⟨w, hl, (C115_request (initRegistry_ok toyH) _ _ exRequest_defined w (by omega)).mp h⟩
  | err e => rw [h] at key; cases key
  | panic => rw [h] at key; cases key

end MCrypto.Props
