import Verif.X509.CrlLemmas
import Verif.Asn1.SeqInv
import Verif.X509.CsrSpec
/-
Certificate requests written and read back.
-/
namespace MCrypto.X509
open MCrypto MCrypto.Asn1 MCrypto.X509Spec MCrypto.Props

/-! ### The public key -/

theorem spki_read {pub : PubKey} {pb : Bytes} {alg : AlgId} (hk : KeyOk pub) (hm : marshalPublicKey pub = .ok (pb, alg)) :
    ∃ alg', algId.To alg alg' ∧ alg'.algorithm = alg.algorithm ∧ (pb.length < 2 ^ 31 →
      parsePublicKey (getPublicKeyAlgorithmFromOID alg'.algorithm) ⟨alg', ⟨pb, pb.length * 8⟩⟩ = .ok (sameKey pub)) := by
  have ec : ∀ k, OnCurve k → marshalECPub k = .ok (pb, alg) →
      ∃ alg', algId.To alg alg' ∧ alg'.algorithm = alg.algorithm ∧
        parsePublicKey (getPublicKeyAlgorithmFromOID alg'.algorithm) ⟨alg', ⟨pb, pb.length * 8⟩⟩ = .ok (ecPubKey k) := by
    intro k hk hm
    obtain ⟨r1, ob, r2, r3, r4⟩ := ec_key hk hm
    obtain ⟨o, par⟩ := alg
    simp only at r1 r2
    subst r1 r2
    have hne : Der.tlv 0x06 ob ≠ [] := by simp [Der.tlv]
    refine ⟨_, algId_to ⟨_, _, _, rfl, by decide, by decide⟩ (cls := 0) (comp := false) (tag := 6) (pb := ob)
      (marshalRaw_full _ _ hne ?_) (by decide) (by decide), rfl, ?_⟩
    · intro hh; injection hh with hh; injection hh with _ _ _ _ hh; exact hne hh.symm
    · refine (parsePublicKey_iff ⟨⟨oidPublicKeyECDSA, rawOf 0 false 6 ob⟩, ⟨pb, pb.length * 8⟩⟩ _).mpr ?_
      rw [rightAlign_octets]; exact r4
  cases pub with
  | rsa k =>
    simp only [marshalPublicKey, Res.bind_eq_ok, Res.pure_eq, Res.ok.injEq, Prod.mk.injEq, ofOption_ok'] at hm
    obtain ⟨x, hx, rfl, rfl⟩ := hm
    refine ⟨_, algId_to ⟨_, _, _, rfl, by decide, by decide⟩ (cls := 0) (comp := false) (tag := 5) (pb := [])
      (show marshalRaw _ _ = _ by decide) (by decide) (by decide), rfl, fun hl => ?_⟩
    refine (parsePublicKey_iff ⟨⟨oidPublicKeyRSA, rawOf 0 false 5 []⟩, ⟨x, x.length * 8⟩⟩ _).mpr ?_
    rw [rightAlign_octets]
    exact rsa_key hk hx hl
  | ecdsa k => obtain ⟨a, h1, h2, h3⟩ := ec k hk hm; exact ⟨a, h1, h2, fun _ => h3⟩
  | sm2 k => obtain ⟨a, h1, h2, h3⟩ := ec k hk hm; exact ⟨a, h1, h2, fun _ => h3⟩
  | ed25519 k =>
    simp only [marshalPublicKey, Res.ok.injEq, Prod.mk.injEq] at hm
    obtain ⟨rfl, rfl⟩ := hm
    refine ⟨_, algId_to_none ⟨_, _, _, rfl, by decide, by decide⟩, rfl, fun _ => ?_⟩
    refine (parsePublicKey_iff ⟨⟨oidPublicKeyEd25519, {}⟩, ⟨k, k.length * 8⟩⟩ _).mpr ?_
    rw [rightAlign_octets]
    show KeyDer oidPublicKeyEd25519 [] k _
    unfold KeyDer
    rw [if_neg (by decide), if_neg (by decide), if_neg (by decide), if_pos (by decide)]
    exact ⟨rfl, hk, rfl⟩
  | dsa k => cases hm
  | nil => cases hm
  | other k => cases hm

/-! ### Attributes -/

theorem encTLV_inj_body {x y : Bytes} (hl : x.length < 2 ^ 31) (h : encTLV 0 true 16 x = encTLV 0 true 16 y) : x = y := by
  have h1 := encTLV_length_lt 0 true 16 y
  have h2 := encTLV_length_le 0 true 16 x (by decide) (by omega)
  rw [← h] at h1
  have e1 : Elem 0x30 x (encTLV 0 true 16 x) := ⟨rfl, by decide, by omega⟩
  have e2 : Elem 0x30 y (encTLV 0 true 16 x) := ⟨h, by decide, by omega⟩
  exact (elem_inj e1 e2).2

theorem forall₂_right {α β : Type} {R : α → β → Prop} {l : List α} {l' : List β} (h : List.Forall₂ R l l') :
    ∀ b ∈ l', ∃ a ∈ l, R a b := by
  induction h with
  | nil => simp
  | cons h _ ih =>
    intro b hb
    rcases List.mem_cons.mp hb with rfl | hb
    · exact ⟨_, by simp, h⟩
    · obtain ⟨a, h1, h2⟩ := ih b hb; exact ⟨a, by simp [h1], h2⟩

theorem forall₂_split {α β : Type} {R : α → β → Prop} {l l' : List α} {m : List β} (h : List.Forall₂ R (l ++ l') m) :
    ∃ m1 m2, m = m1 ++ m2 ∧ List.Forall₂ R l m1 ∧ List.Forall₂ R l' m2 := by
  induction l generalizing m with
  | nil => exact ⟨[], m, rfl, .nil, h⟩
  | cons a l ih =>
    cases h with
    | cons h1 h2 =>
      obtain ⟨m1, m2, rfl, h3, h4⟩ := ih h2
      exact ⟨_ :: m1, m2, rfl, .cons h1 h3, h4⟩

theorem forall₂_exists {α β : Type} {R : α → β → Prop} {l : List α} (h : ∀ a ∈ l, ∃ b, R a b) :
    ∃ l', List.Forall₂ R l l' := by
  induction l with
  | nil => exact ⟨[], .nil⟩
  | cons a l ih =>
    obtain ⟨b, hb⟩ := h a (by simp)
    obtain ⟨l', hl⟩ := ih fun a ha => h a (by simp [ha])
    exact ⟨b :: l', .cons hb hl⟩

/-- A marshalled attribute is a raw element. -/
theorem readsRaw_of {α : Type} [DecidableEq α] {c : Codec α} {v : α} {e : Bytes} (h : marshalField c {} v = some e)
    (hl : e.length < 2 ^ 31) (ht : c.tag ≤ 2147483647) :
    ∃ body, c.enc v = some body ∧ e = encTLV 0 c.compound c.tag body ∧ body.length < e.length ∧
      ReadsRaw e (rawOf 0 c.compound c.tag body) := by
  obtain ⟨body, hb, rfl⟩ := marshal_tlv _ _ _ h
  have := encTLV_length_lt 0 c.compound c.tag body
  exact ⟨body, hb, rfl, this, _, _, _, _, rfl, rfl, by decide, ht, by omega⟩

theorem newRawAttributes_spec {attrs : List AttrSet} {raws : List RawValue} (h : newRawAttributes attrs = some raws) :
    ∃ es, List.Forall₂ ReadsRaw es raws ∧ List.Forall₂ (fun a e => marshalField attrSet {} a = some e) attrs es := by
  unfold newRawAttributes at h
  simp only [Option.bind_eq_bind, Option.bind_eq_some_iff, Prod.exists] at h
  obtain ⟨b, hb, raws', rest, hu, h⟩ := h
  split at h
  · cases h
  rename_i hr
  simp only [Option.pure_def, Option.some.injEq] at h
  subst h
  have hr : rest = [] := List.length_eq_zero_iff.mp (by simpa using hr)
  subst hr
  obtain ⟨body, rfl, hl, hd⟩ := (unmarshal_iff seqOfRaw (by decide) _ _ _).mp hu
  obtain ⟨es', rfl, hes⟩ := (seqOfRaw_dec_iff _ _ _).mp hd
  obtain ⟨body', hb', he⟩ := marshal_tlv _ _ _ hb
  simp only [seqOf, Option.map_eq_some_iff] at hb'
  obtain ⟨es, hm, rfl⟩ := hb'
  rw [List.append_nil] at he
  have hinj : es'.flatten = es.flatten := encTLV_inj_body hl he
  rw [hinj] at hl hd
  have hf := (marshalElems_iff _ _ _).mp hm
  have hraw : ∀ e ∈ es, ∃ v, ReadsRaw e v := by
    intro e he
    obtain ⟨a, -, ha⟩ := (forall₂_right hf) e he
    have := flatten_mem_length he
    obtain ⟨body, -, -, -, hb⟩ := readsRaw_of ha (by omega) (by decide)
    exact ⟨_, hb⟩
  obtain ⟨raws, hr⟩ := forall₂_exists hraw
  have hd' := (seqOfRaw_dec_iff es.flatten (encTLV 0 true 16 es.flatten) raws).mpr ⟨es, rfl, hr⟩
  rw [show seqOfRaw.dec es.flatten (encTLV 0 true 16 es.flatten) = some raws' by rw [← hinj]; rw [hinj]; exact hd, Option.some.injEq] at hd'
  subst hd'
  exact ⟨es, hr, hf⟩

theorem parseField_set {α : Type} {c : Codec α} {v : α} {body : Bytes} (hc : c.compound = true) (hl : body.length < 2 ^ 31)
    (hd : c.dec body (encTLV 0 true 17 body) = some v) (rest : Bytes) :
    parseField c { set := true } (encTLV 0 true 17 body ++ rest) = some (v, rest) := by
  unfold parseField
  rw [if_neg (by simp [encTLV_ne_nil]), parseHdr_encTLV 0 true 17 body rest (by decide) (by decide) hl]
  simp only [Bool.false_eq_true, if_false]
  unfold parseBody
  simp only [Bool.false_eq_true, if_false, if_true, Option.isSome_none, Option.getD_none, hc, and_self, not_true_eq_false, ne_eq, or_self,
    List.length_append]
  rw [if_neg (by omega), List.take_left' rfl, List.drop_left' rfl,
    show (encTLV 0 true 17 body).length + rest.length - (body.length + rest.length - body.length) =
      (encTLV 0 true 17 body).length by omega, List.take_left' rfl, hd]

theorem marshal_set {α : Type} [DecidableEq α] {c : Codec α} {v : α} {e : Bytes} (hc : c.compound = true)
    (h : marshalField c { set := true } v = some e) : ∃ body, c.enc v = some body ∧ e = encTLV 0 true 17 body := by
  unfold marshalField at h
  rw [if_neg (by simp)] at h
  cases hb : c.enc v with
  | none => rw [hb] at h; cases h
  | some body =>
    rw [hb] at h
    simp only [hc, if_true, Bool.false_eq_true, if_false] at h
    injection h with h
    exact ⟨body, rfl, h.symm⟩

/-- The set of one value. -/
theorem setOf_one {α : Type} [DecidableEq α] {c : Codec α} {v : α} {body : Bytes} (h : (Asn1.setOf c).enc [v] = some body) :
    marshalField c {} v = some body := by
  simp only [Asn1.setOf, marshalElems] at h
  cases hm : marshalField c {} v with
  | none => rw [hm] at h; cases h
  | some e => rw [hm] at h; simpa [sortBy, insertBy] using h

/-- An attribute of another type has no extensions. -/
theorem attrExtensions_other {a : AttrSet} {e : Bytes} {r : RawValue} (h : marshalField attrSet {} a = some e)
    (hl : e.length < 2 ^ 31) (ho : OidOk a.type) (hne : a.type ≠ oidExtensionRequest) (hr : r.full = e) :
    attrExtensions r = some [] := by
  unfold attrExtensions
  rw [hr]
  split
  · rename_i x hu
    have : x.id = a.type := by
      obtain ⟨body, he, hb, hd⟩ := (unmarshal_iff rawAttr (by decide) _ _ _).mp hu
      obtain ⟨body', hb', he'⟩ := marshal_tlv _ _ _ h
      have hbb : body = body' := by
        rw [List.append_nil, he'] at he
        exact (encTLV_inj_body hb he.symm)
      subst hbb
      simp only [attrSet, Option.pure_def, Option.bind_eq_bind, Option.bind_eq_some_iff, Option.some.injEq] at hb'
      obtain ⟨e1, h1, e2, h2, rfl⟩ := hb'
      simp only [List.length_append] at hb
      simp only [rawAttr, Option.pure_def, Option.bind_eq_bind, Option.bind_eq_some_iff, Prod.exists, Option.some.injEq] at hd
      obtain ⟨o, b1, p1, v, b2, p2, rfl⟩ := hd
      rw [parseField_plain e2 (oid_to ho) h1 (by omega), Option.some.injEq, Prod.mk.injEq] at p1
      exact p1.1.symm
    split
    · rfl
    · rw [if_pos (by rw [this]; exact hne)]
  · rfl

theorem extAttr_parts {exts : List Ext} {e : Bytes} (h : marshal extAttr ⟨oidExtensionRequest, [exts]⟩ = some e) :
    ∃ e1 es, marshalField oid {} oidExtensionRequest = some e1 ∧
      List.Forall₂ (fun x e => marshalField extension {} x = some e) exts es ∧
      e = encTLV 0 true 16 (e1 ++ encTLV 0 true 17 (encTLV 0 true 16 es.flatten)) := by
  obtain ⟨body, hb, rfl⟩ := marshal_tlv _ _ _ h
  simp only [extAttr, Option.pure_def, Option.bind_eq_bind, Option.bind_eq_some_iff, Option.some.injEq] at hb
  obtain ⟨e1, h1, e2, h2, rfl⟩ := hb
  obtain ⟨b2, h3, rfl⟩ := marshal_set rfl h2
  obtain ⟨b3, h4, rfl⟩ := marshal_tlv _ _ _ (setOf_one h3)
  simp only [seqOf, Option.map_eq_some_iff] at h4
  obtain ⟨es, hm, rfl⟩ := h4
  exact ⟨e1, es, h1, (marshalElems_iff _ _ _).mp hm, rfl⟩

/-- The attribute added for the extensions. -/
theorem attrExtensions_own {exts : List Ext} {e : Bytes} {r : RawValue} (ho : ∀ x ∈ exts, OidOk x.id)
    (h : marshal extAttr ⟨oidExtensionRequest, [exts]⟩ = some e) (hl : e.length < 2 ^ 31) (hr : r.full = e) :
    attrExtensions r = some exts := by
  obtain ⟨e1, es, h1, hes, rfl⟩ := extAttr_parts h
  have l1 := encTLV_length_lt 0 true 16 (e1 ++ encTLV 0 true 17 (encTLV 0 true 16 es.flatten))
  have l2 := encTLV_length_lt 0 true 17 (encTLV 0 true 16 es.flatten)
  have l3 := encTLV_length_lt 0 true 16 es.flatten
  simp only [List.length_append] at l1
  have hx : unmarshal (seqOf extension) (encTLV 0 true 16 es.flatten) = some (exts, []) := by
    have := unmarshal_to (c := seqOf extension) (v := exts) (v' := exts) (e := encTLV 0 true 16 es.flatten) []
      (seqOf_to extension (by decide) exts exts (by rw [List.forall₂_same]; exact fun e he => extension_to (ho e he))) (by
        unfold marshal marshalField
        rw [if_neg (by simp)]
        simp only [seqOf, (marshalElems_iff _ _ _).mpr hes, Option.map_some]
        rfl) (by omega) (by decide)
    rwa [List.append_nil] at this
  have hd : seqOfRaw.dec (encTLV 0 true 16 es.flatten) (encTLV 0 true 17 (encTLV 0 true 16 es.flatten)) =
      some [rawOf 0 true 16 es.flatten] :=
    (seqOfRaw_dec_iff _ _ _).mpr ⟨[encTLV 0 true 16 es.flatten], by simp,
      .cons ⟨0, true, 16, es.flatten, rfl, rfl, by decide, by decide, by omega⟩ .nil⟩
  have hu : unmarshal rawAttr (encTLV 0 true 16 (e1 ++ encTLV 0 true 17 (encTLV 0 true 16 es.flatten))) =
      some (⟨oidExtensionRequest, [rawOf 0 true 16 es.flatten]⟩, []) := by
    refine (unmarshal_iff rawAttr (by decide) _ _ []).mpr
      ⟨e1 ++ encTLV 0 true 17 (encTLV 0 true 16 es.flatten), by rw [List.append_nil]; rfl, by simp only [List.length_append]; omega, ?_⟩
    simp only [rawAttr, Option.pure_def, Option.bind_eq_bind]
    rw [parseField_plain _ (oid_to ⟨_, _, _, rfl, by decide, by decide⟩) h1 (by omega)]
    have := parseField_set rfl (by omega) hd []
    rw [List.append_nil] at this
    simp only [Option.bind_some, this]
    rfl
  unfold attrExtensions
  rw [hr, hu]
  simp only [ne_eq, not_true_eq_false, if_false]
  rw [show (rawOf 0 true 16 es.flatten).full = encTLV 0 true 16 es.flatten from rfl, hx]

theorem ext_reads_atv {x : Ext} {e : Bytes} (ho : OidOk x.id) (h : marshalField extension {} x = some e)
    (hl : e.length < 2 ^ 31) : Reads atvAny e (extAtv x) := by
  obtain ⟨body, hb, rfl⟩ := marshal_tlv _ _ _ h
  have l1 := encTLV_length_lt 0 extension.compound extension.tag body
  refine ⟨body, rfl, by omega, ?_⟩
  simp only [extension, Option.pure_def, Option.bind_eq_bind, Option.bind_eq_some_iff, Option.some.injEq] at hb
  obtain ⟨e1, h1, e2, h2, e3, h3, rfl⟩ := hb
  simp only [List.length_append] at l1
  simp only [atvAny, Option.pure_def, Option.bind_eq_bind]
  rw [parseField_plain _ (oid_to ho) h1 (by omega), Option.bind_some]
  obtain ⟨id, c, v⟩ := x
  cases c with
  | true =>
    obtain ⟨bb, hb1, rfl⟩ : ∃ bb, bb = [0xff] ∧ e2 = encTLV 0 false 1 bb := by
      unfold marshalField at h2
      rw [if_neg (by simp)] at h2
      exact ⟨_, rfl, by injection h2 with h2; exact h2.symm⟩
    subst hb1
    rw [parseAny_tlv (by decide) (by decide) (show anyOf 1 [0xff] = some .nil by decide) e3]
    rfl
  | false =>
    rw [marshalField_absent _ _ _ rfl, Option.some.injEq] at h2
    subst h2
    have := any_to (v := .octets v) trivial h3 (by omega) []
    rw [List.append_nil] at this
    rw [List.nil_append, this]
    rfl

theorem extAttr_reads {exts : List Ext} {e : Bytes} (ho : ∀ x ∈ exts, OidOk x.id)
    (h : marshal extAttr ⟨oidExtensionRequest, [exts]⟩ = some e) (hl : e.length < 2 ^ 31) :
    unmarshal attrSet e = some (⟨oidExtensionRequest, [exts.map extAtv]⟩, []) := by
  obtain ⟨e1, es, h1, hes, rfl⟩ := extAttr_parts h
  have l1 := encTLV_length_lt 0 true 16 (e1 ++ encTLV 0 true 17 (encTLV 0 true 16 es.flatten))
  have l2 := encTLV_length_lt 0 true 17 (encTLV 0 true 16 es.flatten)
  have l3 := encTLV_length_lt 0 true 16 es.flatten
  simp only [List.length_append] at l1
  have hr : List.Forall₂ (Reads atvAny) es (exts.map extAtv) := by
    have hlen : ∀ e ∈ es, e.length < 2 ^ 31 := fun e he => by have := flatten_mem_length he; omega
    clear l1 l2 l3 hl h
    induction hes with
    | nil => exact .nil
    | cons hx _ ih =>
      exact .cons (ext_reads_atv (ho _ (by simp)) hx (hlen _ (by simp)))
        (ih (fun x hx => ho x (by simp [hx])) fun e he => hlen e (by simp [he]))
  have hd : (Asn1.setOf (seqOf atvAny)).dec (encTLV 0 true 16 es.flatten) (encTLV 0 true 17 (encTLV 0 true 16 es.flatten)) =
      some [exts.map extAtv] := by
    show (seqOf (seqOf atvAny)).dec (encTLV 0 true 16 es.flatten) [] = _
    refine (seqOf_dec_iff _ (by decide) _ _ _).mpr ⟨[encTLV 0 true 16 es.flatten], by simp, .cons ?_ .nil⟩
    exact ⟨es.flatten, rfl, by omega, (seqOf_dec_iff _ (by decide) _ _ _).mpr ⟨es, rfl, hr⟩⟩
  refine (unmarshal_iff attrSet (by decide) _ _ []).mpr
    ⟨e1 ++ encTLV 0 true 17 (encTLV 0 true 16 es.flatten), by rw [List.append_nil]; rfl, by simp only [List.length_append]; omega, ?_⟩
  simp only [attrSet, Option.pure_def, Option.bind_eq_bind]
  rw [parseField_plain _ (oid_to ⟨_, _, _, rfl, by decide, by decide⟩) h1 (by omega)]
  have := parseField_set rfl (by omega) hd []
  rw [List.append_nil] at this
  simp only [Option.bind_some, this]
  rfl

/-- The attribute is read back, its values in the order of their encodings. -/
theorem attrSet_to {a : AttrSet} (ho : OidOk a.type) (hv : ∀ s ∈ a.value, ∀ x ∈ s, AtvOk x) :
    ∃ v : List (List AtvAny), v.Perm a.value ∧ attrSet.To a ⟨a.type, v⟩ := by
  have hf : List.Forall₂ (seqOf atvAny).To a.value a.value := by
    rw [List.forall₂_same]
    intro s hs
    exact seqOf_to _ (by decide) _ _ (by rw [List.forall₂_same]; exact fun x hx => atvAny_to (hv s hs x hx))
  obtain ⟨v, h1, h2⟩ := setOf_to (c := seqOf atvAny) (by decide) hf
  refine ⟨v, h1, ?_⟩
  intro body full h hl
  simp only [attrSet, Option.pure_def, Option.bind_eq_bind, Option.bind_eq_some_iff] at h ⊢
  obtain ⟨e1, g1, e2, g2, hb⟩ := h
  injection hb with hb
  subst hb
  rw [List.length_append] at hl
  have := parseField_to (p := { set := true }) [] h2 g2 (by simp) (by omega) (by decide) (by simp) (by simp)
  rw [List.append_nil] at this
  exact ⟨_, parseField_plain _ (oid_to ho) g1 (by omega), _, this, rfl⟩

theorem parseRawAttributes_append (l l' : List RawValue) :
    parseRawAttributes (l ++ l') = parseRawAttributes l ++ parseRawAttributes l' := by
  unfold parseRawAttributes; rw [List.filterMap_append]

theorem parseCSRExtensions_append (l l' : List RawValue) (x y : List Ext) (h : parseCSRExtensions l = some x)
    (h' : parseCSRExtensions l' = some y) : parseCSRExtensions (l ++ l') = some (x ++ y) := by
  induction l generalizing x with
  | nil => simp only [parseCSRExtensions, Option.some.injEq] at h; subst h; exact h'
  | cons r l ih =>
    simp only [parseCSRExtensions, Option.pure_def, Option.bind_eq_bind, Option.bind_eq_some_iff, Option.some.injEq] at h
    obtain ⟨u, h1, w, h2, rfl⟩ := h
    rw [List.cons_append, parseCSRExtensions, h1, ih w h2]
    simp

/-- Attributes without extensions. -/
theorem attrs_read {attrs : List AttrSet} {es : List Bytes} {raws : List RawValue}
    (hf : List.Forall₂ (fun a e => marshalField attrSet {} a = some e) attrs es) (hr : List.Forall₂ ReadsRaw es raws)
    (hl : ∀ e ∈ es, e.length < 2 ^ 31) (hok : ∀ a ∈ attrs, AttrOk a) :
    (∃ attrs', List.Forall₂ SameAttr attrs' attrs ∧ parseRawAttributes raws = attrs') ∧
    ((∀ a ∈ attrs, a.type ≠ oidExtensionRequest) → parseCSRExtensions raws = some []) := by
  induction hf generalizing raws with
  | nil =>
    cases hr
    exact ⟨⟨[], .nil, rfl⟩, fun _ => rfl⟩
  | cons ha _ ih =>
    rename_i a e attrs es _
    cases hr with
    | cons hr1 hr2 =>
      rename_i r raws
      obtain ⟨⟨attrs', i1, i2⟩, i3⟩ := ih hr2 (fun e he => hl e (by simp [he])) fun a ha => hok a (by simp [ha])
      have hle := hl e (by simp)
      obtain ⟨ho, hv⟩ := hok a (by simp)
      refine ⟨?_, fun hne => ?_⟩
      · obtain ⟨v, p1, p2⟩ := attrSet_to ho hv
        have hu := unmarshal_to [] p2 ha hle (by decide)
        rw [List.append_nil] at hu
        refine ⟨⟨a.type, v⟩ :: attrs', .cons ⟨rfl, p1⟩ i1, ?_⟩
        rw [← i2]
        unfold parseRawAttributes
        rw [List.filterMap_cons, hr1.full, hu]
      · rw [parseCSRExtensions, attrExtensions_other ha hle ho (hne a (by simp)) hr1.full,
          i3 fun a ha => hne a (by simp [ha])]
        rfl

theorem appendExtensions_none {exts : List Ext} {attrs : List AttrSet} (h : ∀ a ∈ attrs, a.type ≠ oidExtensionRequest) :
    appendExtensions exts attrs = (attrs, false) := by
  induction attrs with
  | nil => rfl
  | cons a l ih =>
    rw [appendExtensions, if_pos (.inl (h a (by simp))), ih fun a ha => h a (by simp [ha])]

theorem encTLV_length_big (cls : Nat) (comp : Bool) (tag : Nat) (body : Bytes) (ht : tag < 31)
    (hl : body.length < 2 ^ 64) : (encTLV cls comp tag body).length ≤ body.length + 10 := by
  have h8 : byteLen body.length ≤ 8 := (byteLen_le_iff _ _).mpr (by rw [show 256 ^ 8 = 2 ^ 64 by rfl]; exact hl)
  have : (Der.lenOctets body.length).length ≤ 9 := by
    unfold Der.lenOctets
    split
    · simp
    · simp [toBytes]; omega
  unfold encTLV encHdr
  simp only []
  rw [if_neg (by omega)]
  simp only [List.length_append, List.length_cons, List.length_nil]
  omega

theorem extAttr_size {exts : List Ext} {b rest : Bytes} {r : RawValue} (h : marshal extAttr ⟨oidExtensionRequest, [exts]⟩ = some b)
    (hsize : ∀ b, marshal (seqOf extension) exts = some b → b.length < 2 ^ 62) (hp : parseRaw {} b = some (r, rest)) :
    ReadsRaw b r := by
  obtain ⟨e1, es, h1, hes, rfl⟩ := extAttr_parts h
  have hm := hsize (encTLV 0 true 16 es.flatten) (by
    unfold marshal marshalField
    rw [if_neg (by simp)]
    simp only [seqOf, (marshalElems_iff _ _ _).mpr hes, Option.map_some]
    rfl)
  have l0 : e1.length = 11 := by
    have : marshalField oid {} oidExtensionRequest = some [6, 9, 42, 134, 72, 134, 247, 13, 1, 9, 14] := by decide +kernel
    rw [this] at h1; injection h1 with h1; rw [← h1]; rfl
  have l1 : (encTLV 0 true 17 (encTLV 0 true 16 es.flatten)).length < 2 ^ 62 + 2 ^ 10 := by
    have := encTLV_length_big 0 true 17 (encTLV 0 true 16 es.flatten) (by decide) (by omega)
    omega
  have l2 : (e1 ++ encTLV 0 true 17 (encTLV 0 true 16 es.flatten)).length < 2 ^ 63 := by
    rw [List.length_append]; omega
  have hl : (e1 ++ encTLV 0 true 17 (encTLV 0 true 16 es.flatten)).length < 2 ^ 31 := by
    obtain ⟨cls, comp, tag, body, -, hb, g1, g2, g3⟩ := (parseRaw_iff _ _ _).mp hp
    have := (parseHdr_iff (encTLV 0 true 16 (e1 ++ encTLV 0 true 17 (encTLV 0 true 16 es.flatten))) ⟨cls, comp, tag, body.length⟩
      (body ++ rest)).mpr ⟨by rw [hb]; simp [encTLV], g1, g2, g3⟩
    exact parseHdr_encTLV_len (by decide) (by decide) (Nat.lt_of_lt_of_le l2 pow63_le) this
  have hrr : ReadsRaw (encTLV 0 true 16 (e1 ++ encTLV 0 true 17 (encTLV 0 true 16 es.flatten))) (rawOf 0 true 16 _) :=
    ⟨0, true, 16, _, rfl, rfl, by decide, by decide, hl⟩
  have hp' := (parseRaw_reads _ _ []).mpr ⟨_, (List.append_nil _).symm, hrr⟩
  rw [hp, Option.some.injEq, Prod.mk.injEq] at hp'
  rw [hp'.1]; exact hrr

theorem ext_value_length {x : Ext} {e : Bytes} (h : marshalField extension {} x = some e) : x.value.length < e.length := by
  obtain ⟨body, hb, rfl⟩ := marshal_tlv _ _ _ h
  simp only [extension, Option.pure_def, Option.bind_eq_bind, Option.bind_eq_some_iff, Option.some.injEq] at hb
  obtain ⟨e1, h1, e2, h2, e3, h3, rfl⟩ := hb
  obtain ⟨b3, h4, rfl⟩ := marshal_tlv _ _ _ h3
  simp only [octets, Option.some.injEq] at h4
  subst h4
  have l1 := encTLV_length_lt 0 extension.compound extension.tag (e1 ++ (e2 ++ encTLV 0 octets.compound octets.tag x.value))
  have l2 := encTLV_length_lt 0 octets.compound octets.tag x.value
  simp only [List.length_append] at l1
  exact Nat.lt_trans l2 (by omega)

theorem extAttr_values {exts : List Ext} {b : Bytes} (h : marshal extAttr ⟨oidExtensionRequest, [exts]⟩ = some b) :
    ∀ x ∈ exts, x.value.length < b.length := by
  obtain ⟨e1, es, h1, hes, rfl⟩ := extAttr_parts h
  intro x hx
  have l1 := encTLV_length_lt 0 true 16 (e1 ++ encTLV 0 true 17 (encTLV 0 true 16 es.flatten))
  have l2 := encTLV_length_lt 0 true 17 (encTLV 0 true 16 es.flatten)
  have l3 := encTLV_length_lt 0 true 16 es.flatten
  simp only [List.length_append] at l1
  obtain ⟨e, he, hxe⟩ := (forall₂_right hes.flip) x hx
  have l4 := ext_value_length hxe
  have l5 := flatten_mem_length he
  omega

/-- The attributes of a request whose template has no attribute for extensions. -/
theorem csrAttributes_spec {attrs : List AttrSet} {exts : List Ext} {raws : List RawValue}
    (h : csrAttributes attrs exts = some raws) (hok : ∀ a ∈ attrs, AttrOk a) (hx : ∀ x ∈ exts, OidOk x.id)
    (hne : ∀ a ∈ attrs, a.type ≠ oidExtensionRequest)
    (hsize : ∀ b, marshal (seqOf extension) exts = some b → b.length < 2 ^ 62) :
    ∃ es, List.Forall₂ ReadsRaw es raws ∧ ((∀ e ∈ es, e.length < 2 ^ 31) →
      (∀ x ∈ exts, x.value.length < 2 ^ 31) ∧ parseCSRExtensions raws = some exts ∧ ∃ attrs', List.Forall₂ SameAttr attrs' attrs ∧
        parseRawAttributes raws = attrs' ++ if exts = [] then [] else [⟨oidExtensionRequest, [exts.map extAtv]⟩]) := by
  unfold csrAttributes at h
  rw [appendExtensions_none hne] at h
  simp only [ite_self] at h
  cases hn : newRawAttributes attrs with
  | none => rw [hn] at h; cases h
  | some raws0 =>
    rw [hn] at h
    simp only [Bool.false_eq_true, not_false_eq_true, and_true] at h
    obtain ⟨es, hr, hf⟩ := newRawAttributes_spec hn
    by_cases h0 : exts = []
    · subst h0
      simp only [List.length_nil, gt_iff_lt, Nat.lt_irrefl, if_false, Option.some.injEq] at h
      subst h
      refine ⟨es, hr, fun hl => ?_⟩
      obtain ⟨⟨attrs', a1, a2⟩, a3⟩ := attrs_read hf hr hl hok
      exact ⟨by simp, a3 hne, attrs', a1, by rw [a2]; simp⟩
    · rw [if_pos (List.length_pos_iff.mpr h0)] at h
      simp only [Option.pure_def, Option.bind_eq_bind, Option.bind_eq_some_iff, Prod.exists, Option.some.injEq] at h
      obtain ⟨b, hb, r, rest, hp, rfl⟩ := h
      have hrr := extAttr_size hb hsize hp
      refine ⟨es ++ [b], List.rel_append hr (.cons hrr .nil), fun hl => ?_⟩
      obtain ⟨⟨attrs', a1, a2⟩, a3⟩ := attrs_read hf hr (fun e he => hl e (by simp [he])) hok
      have hbl := hl b (by simp)
      refine ⟨fun x hx => Nat.lt_trans (extAttr_values hb x hx) hbl, ?_, attrs', a1, ?_⟩
      · refine parseCSRExtensions_append _ _ [] exts (a3 hne) ?_
        rw [parseCSRExtensions, attrExtensions_own hx hb (by omega) hrr.full, parseCSRExtensions]
        simp
      · rw [parseRawAttributes_append, a2, if_neg h0]
        congr 1
        unfold parseRawAttributes
        rw [List.filterMap_cons, hrr.full, extAttr_reads hx hb (by omega)]
        rfl

/-! ### Extensions added to an attribute of the template -/

theorem atv_enc_ext (o : Oid) (b : Bytes) : atvAny.enc ⟨o, .octets b⟩ = extension.enc ⟨o, false, b⟩ := by
  simp only [atvAny, extension, marshalAny]
  rw [marshalField_absent bool { opt := some false } false rfl]
  simp

theorem atvs_read {l : List (Oid × Bytes)} {es : List Bytes} (ho : ∀ x ∈ l, OidOk x.1)
    (hf : List.Forall₂ (fun a e => marshalField atvAny {} a = some e) (l.map fun x => ⟨x.1, .octets x.2⟩) es)
    (hl : es.flatten.length < 2 ^ 31) :
    (seqOf extension).dec es.flatten (encTLV 0 true 16 es.flatten) = some (l.map fun x => ⟨x.1, false, x.2⟩) := by
  have hf' : List.Forall₂ (fun a e => marshalField extension {} a = some e) (l.map fun x => (⟨x.1, false, x.2⟩ : Ext)) es := by
    rw [List.forall₂_map_left_iff] at hf ⊢
    refine hf.imp fun x e h => ?_
    obtain ⟨body, hb, he⟩ := marshal_tlv _ _ _ h
    rw [atv_enc_ext] at hb
    unfold marshalField
    rw [if_neg (by simp), hb, he]
    rfl
  refine seqOf_to extension (by decide) (l.map fun x => ⟨x.1, false, x.2⟩) _ ?_ es.flatten _ ?_ hl
  · rw [List.forall₂_same]
    intro x hx
    obtain ⟨y, hy, rfl⟩ := List.mem_map.mp hx
    exact extension_to (ho y hy)
  · simp only [seqOf, (marshalElems_iff _ _ _).mpr hf', Option.map_some]

/-- An attribute for extensions with one value. -/
theorem attrExtensions_atvs {l : List (Oid × Bytes)} {e : Bytes} {r : RawValue} (ho : ∀ x ∈ l, OidOk x.1)
    (h : marshalField attrSet {} ⟨oidExtensionRequest, [l.map fun x => ⟨x.1, .octets x.2⟩]⟩ = some e) (hl : e.length < 2 ^ 31)
    (hr : r.full = e) : attrExtensions r = some (l.map fun x => ⟨x.1, false, x.2⟩) := by
  obtain ⟨body, hb, rfl⟩ := marshal_tlv _ _ _ h
  simp only [attrSet, Option.pure_def, Option.bind_eq_bind, Option.bind_eq_some_iff, Option.some.injEq] at hb
  obtain ⟨e1, h1, e2, h2, rfl⟩ := hb
  obtain ⟨b2, h3, rfl⟩ := marshal_set rfl h2
  obtain ⟨b3, h4, rfl⟩ := marshal_tlv _ _ _ (setOf_one h3)
  simp only [seqOf, Option.map_eq_some_iff] at h4
  obtain ⟨es, hm, rfl⟩ := h4
  have hes := (marshalElems_iff _ _ _).mp hm
  have l1 := encTLV_length_lt 0 true 16 (e1 ++ encTLV 0 true 17 (encTLV 0 true 16 es.flatten))
  have l2 := encTLV_length_lt 0 true 17 (encTLV 0 true 16 es.flatten)
  have l3 := encTLV_length_lt 0 true 16 es.flatten
  simp only [List.length_append] at l1
  have hl' : (encTLV 0 true 16 (e1 ++ encTLV 0 true 17 (encTLV 0 true 16 es.flatten))).length < 2 ^ 31 := hl
  have hx : unmarshal (seqOf extension) (encTLV 0 true 16 es.flatten) = some (l.map fun x => ⟨x.1, false, x.2⟩, []) :=
    (unmarshal_iff (seqOf extension) (by decide) _ _ []).mpr ⟨es.flatten, by rw [List.append_nil]; rfl, by omega,
      atvs_read ho hes (by omega)⟩
  have hd : seqOfRaw.dec (encTLV 0 true 16 es.flatten) (encTLV 0 true 17 (encTLV 0 true 16 es.flatten)) =
      some [rawOf 0 true 16 es.flatten] :=
    (seqOfRaw_dec_iff _ _ _).mpr ⟨[encTLV 0 true 16 es.flatten], by simp,
      .cons ⟨0, true, 16, es.flatten, rfl, rfl, by decide, by decide, by omega⟩ .nil⟩
  have hu : unmarshal rawAttr (encTLV 0 true 16 (e1 ++ encTLV 0 true 17 (encTLV 0 true 16 es.flatten))) =
      some (⟨oidExtensionRequest, [rawOf 0 true 16 es.flatten]⟩, []) := by
    refine (unmarshal_iff rawAttr (by decide) _ _ []).mpr
      ⟨e1 ++ encTLV 0 true 17 (encTLV 0 true 16 es.flatten), by rw [List.append_nil]; rfl,
        by simp only [List.length_append]; omega, ?_⟩
    simp only [rawAttr, Option.pure_def, Option.bind_eq_bind]
    rw [parseField_plain _ (oid_to ⟨_, _, _, rfl, by decide, by decide⟩) h1 (by omega)]
    have := parseField_set rfl (by omega) hd []
    rw [List.append_nil] at this
    simp only [Option.bind_some, this]
    rfl
  unfold attrExtensions
  rw [hr, show encTLV 0 attrSet.compound attrSet.tag (e1 ++ encTLV 0 true 17 (encTLV 0 (seqOf atvAny).compound
    (seqOf atvAny).tag es.flatten)) = encTLV 0 true 16 (e1 ++ encTLV 0 true 17 (encTLV 0 true 16 es.flatten)) from rfl, hu]
  simp only [ne_eq, not_true_eq_false, if_false]
  rw [show (rawOf 0 true 16 es.flatten).full = encTLV 0 true 16 es.flatten from rfl, hx]

theorem attr_values {l : List (Oid × Bytes)} {e : Bytes}
    (h : marshalField attrSet {} ⟨oidExtensionRequest, [l.map fun x => ⟨x.1, .octets x.2⟩]⟩ = some e) :
    ∀ x ∈ l, x.2.length < e.length := by
  obtain ⟨body, hb, rfl⟩ := marshal_tlv _ _ _ h
  simp only [attrSet, Option.pure_def, Option.bind_eq_bind, Option.bind_eq_some_iff, Option.some.injEq] at hb
  obtain ⟨e1, h1, e2, h2, rfl⟩ := hb
  obtain ⟨b2, h3, rfl⟩ := marshal_set rfl h2
  obtain ⟨b3, h4, rfl⟩ := marshal_tlv _ _ _ (setOf_one h3)
  simp only [seqOf, Option.map_eq_some_iff] at h4
  obtain ⟨es, hm, rfl⟩ := h4
  have hes := (marshalElems_iff _ _ _).mp hm
  intro x hx
  have l1 := encTLV_length_lt 0 true 16 (e1 ++ encTLV 0 true 17 (encTLV 0 true 16 es.flatten))
  have l2 := encTLV_length_lt 0 true 17 (encTLV 0 true 16 es.flatten)
  have l3 := encTLV_length_lt 0 true 16 es.flatten
  simp only [List.length_append] at l1
  obtain ⟨y, hy, hxe⟩ := (forall₂_right hes.flip) ⟨x.1, .octets x.2⟩ (List.mem_map.mpr ⟨x, hx, rfl⟩)
  have l4 : x.2.length < y.length := by
    refine ext_value_length (x := ⟨x.1, false, x.2⟩) ?_
    obtain ⟨body, hb, he⟩ := marshal_tlv _ _ _ hxe
    rw [atv_enc_ext] at hb
    unfold marshalField
    rw [if_neg (by simp), hb, he]
    rfl
  have l5 := flatten_mem_length hy
  have l6 : (encTLV 0 attrSet.compound attrSet.tag (e1 ++ encTLV 0 true 17 (encTLV 0 (seqOf atvAny).compound
    (seqOf atvAny).tag es.flatten))).length = (encTLV 0 true 16 (e1 ++ encTLV 0 true 17 (encTLV 0 true 16 es.flatten))).length := rfl
  rw [l6]
  omega

theorem appendExtensions_some {exts : List Ext} {pre post : List AttrSet} {l : List (Oid × Bytes)}
    (h : ∀ a ∈ pre, a.type ≠ oidExtensionRequest) :
    appendExtensions exts (pre ++ ⟨oidExtensionRequest, [l.map fun x => ⟨x.1, .octets x.2⟩]⟩ :: post) =
      (pre ++ ⟨oidExtensionRequest, [(l ++ addedExts exts l).map fun x => ⟨x.1, .octets x.2⟩]⟩ :: post, true) := by
  induction pre with
  | nil =>
    rw [List.nil_append, List.nil_append, appendExtensions, if_neg (by simp)]
    simp only [addToAttr, addedExts, List.flatten_cons, List.flatten_nil, List.append_nil, List.map_append, List.map_map]
    rfl
  | cons a pre ih =>
    rw [List.cons_append, appendExtensions, if_pos (.inl (h a (by simp))), ih fun a ha => h a (by simp [ha])]
    rfl

theorem csrAttributes_added {pre post : List AttrSet} {l : List (Oid × Bytes)} {exts : List Ext} {raws : List RawValue}
    (h : csrAttributes (pre ++ ⟨oidExtensionRequest, [l.map fun x => ⟨x.1, .octets x.2⟩]⟩ :: post) exts = some raws)
    (hok : ∀ a ∈ pre ++ post, AttrOk a) (hx : ∀ x ∈ exts, OidOk x.id) (hlo : ∀ x ∈ l, OidOk x.1)
    (hne : ∀ a ∈ pre ++ post, a.type ≠ oidExtensionRequest) :
    ∃ es, List.Forall₂ ReadsRaw es raws ∧ ((∀ e ∈ es, e.length < 2 ^ 31) →
      (∀ x ∈ addedExts exts l, x.2.length < 2 ^ 31) ∧
      parseCSRExtensions raws = some ((l ++ addedExts exts l).map fun x => ⟨x.1, false, x.2⟩)) := by
  have hn : newRawAttributes (pre ++ ⟨oidExtensionRequest, [(l ++ addedExts exts l).map fun x => ⟨x.1, .octets x.2⟩]⟩ :: post) =
      some raws := by
    unfold csrAttributes at h
    by_cases h0 : exts = []
    · subst h0
      simp only [List.length_nil, gt_iff_lt, Nat.lt_irrefl, if_false, false_and] at h
      rw [show addedExts [] l = [] from rfl, List.append_nil]
      split at h
      · cases h
      · rename_i r hr; rw [hr]; exact h
    · rw [if_pos (List.length_pos_iff.mpr h0), appendExtensions_some fun a ha => hne a (by simp [ha])] at h
      simp only [not_true_eq_false, and_false, if_false] at h
      split at h
      · cases h
      · rename_i r hr; rw [hr]; exact h
  obtain ⟨es, hr, hf⟩ := newRawAttributes_spec hn
  refine ⟨es, hr, fun hl => ?_⟩
  obtain ⟨es1, es', rfl, hf1, hf'⟩ := forall₂_split hf
  obtain ⟨raws1, raws', rfl, hr1, hr'⟩ := forall₂_split hr
  obtain ⟨-, a1⟩ := attrs_read hf1 hr1 (fun e he => hl e (by simp [he])) fun a ha => hok a (by simp [ha])
  cases hf' with
  | cons ha hf2 =>
    cases hr' with
    | cons hr2 hr3 =>
      obtain ⟨-, a2⟩ := attrs_read hf2 hr3 (fun e he => hl e (by simp [he])) fun a ha => hok a (by simp [ha])
      refine ⟨fun x hx => Nat.lt_trans (attr_values ha x (by simp [hx])) (hl _ (by simp)), ?_⟩
      refine parseCSRExtensions_append _ _ [] _ (a1 fun a ha => hne a (by simp [ha])) ?_
      rw [parseCSRExtensions, attrExtensions_atvs ?_ ha (hl _ (by simp)) hr2.full, a2 fun a ha => hne a (by simp [ha])]
      · simp
      · intro x hx'
        rcases List.mem_append.mp hx' with hx' | hx'
        · exact hlo x hx'
        · obtain ⟨y, hy, rfl⟩ := List.mem_map.mp hx'
          exact hx y (List.mem_filter.mp hy).1

/-! ### The request -/

theorem tbsCsr_dec {t : TbsCsr} {pb : Bytes} {alg alg' : AlgId} {es : List Bytes} {cls : Nat} {comp : Bool}
    {tag : Nat} {sb body full : Bytes} (hraw : t.raw = []) (hv : t.version = 0) (hs : t.subject = { full := encTLV cls comp tag sb })
    (hcls : cls < 4) (htag : tag ≤ 2147483647) (hk : t.publicKey = ⟨alg, ⟨pb, pb.length * 8⟩⟩) (ha : algId.To alg alg')
    (hr : List.Forall₂ ReadsRaw es t.rawAttributes) (he : tbsCsr.enc t = some body) (hl : body.length < 2 ^ 31) :
    ∃ spkiRaw, marshalField spki {} t.publicKey = some spkiRaw ∧
      tbsCsr.dec body full = some ⟨full, 0, rawOf cls comp tag sb, spkiRaw, ⟨alg', ⟨pb, pb.length * 8⟩⟩, t.rawAttributes⟩ ∧
      (∀ e ∈ es, e.length < 2 ^ 31) ∧ pb.length < 2 ^ 31 := by
  have hraw' : ¬ (t.raw ≠ []) := by simp [hraw]
  simp only [tbsCsr, if_neg hraw', Option.pure_def, Option.bind_eq_bind, Option.bind_eq_some_iff] at he
  obtain ⟨e1, h1, e2, h2, e3, h3, e4, h4, hb⟩ := he
  injection hb with hb
  subst hb
  simp only [List.length_append] at hl
  have hes : ∀ e ∈ es, e.length < 2 ^ 31 := by
    intro e hee
    obtain ⟨b4, h5, h6⟩ := marshalField_some _ _ _ _ h4 (by simp)
    rw [seqOfRaw_enc hr, Option.some.injEq] at h5
    subst h5
    have := flatten_mem_length hee
    omega
  have hto : spki.To ⟨alg, ⟨pb, pb.length * 8⟩⟩ ⟨alg', ⟨pb, pb.length * 8⟩⟩ := by
    have := spki_to ha pb
    rwa [Nat.mul_comm 8] at this
  have hpb : pb.length < 2 ^ 31 := by
    obtain ⟨b5, h5, h6⟩ := marshalField_some _ _ _ _ h3 (by simp)
    rw [hk] at h5
    simp only [spki, Option.pure_def, Option.bind_eq_bind, Option.bind_eq_some_iff] at h5
    obtain ⟨x1, -, x2, g2, hb⟩ := h5
    injection hb with hb
    subst hb
    obtain ⟨b6, h7, h8⟩ := marshalField_some _ _ _ _ g2 (by simp)
    simp only [bits, encBits, Option.some.injEq] at h7
    subst h7
    simp only [List.length_append, List.length_cons] at h6 h8
    omega
  have h3' : marshalField spkiWithRaw {} ([], t.publicKey) = some e3 := by
    unfold marshalField at h3 ⊢
    rw [if_neg (by simp)] at h3 ⊢
    exact h3
  have hk3 : parseField spkiWithRaw {} (e3 ++ e4) = some ((e3, ⟨alg', ⟨pb, pb.length * 8⟩⟩), e4) :=
    parseField_keep e4 h3' (by omega) (by decide) (fun body hb hbl => by
      have := hto body e3 (by rw [← hk]; exact hb) (by omega)
      simp only [spkiWithRaw, this, Option.map_some])
  have hsub : parseRaw {} (e2 ++ (e3 ++ e4)) = some (rawOf cls comp tag sb, e3 ++ e4) := by
    refine (parseRaw_reads _ _ _).mpr ⟨e2, rfl, cls, comp, tag, sb, rfl, ?_⟩
    rw [hs, marshalRaw_full _ _ (encTLV_ne_nil _ _ _ _) (by simp), Option.some.injEq] at h2
    have h2' : encTLV cls comp tag sb = e2 := h2
    have := encTLV_length_lt cls comp tag sb
    rw [h2'] at this
    exact ⟨h2'.symm, hcls, htag, by omega⟩
  have hatt := parseField_to (p := { tag := some 0 }) [] (seqOfRaw_to hr) h4 (by simp) (by omega) (by decide) (by simp) (by simp)
  rw [List.append_nil] at hatt
  rw [hv] at h1
  refine ⟨e3, h3, ?_, hes, hpb⟩
  simp only [tbsCsr, Option.pure_def, Option.bind_eq_bind]
  rw [parseField_plain _ (goInt_to 0 (by decide) (by decide)) h1 (by omega)]
  simp only [Option.bind_some, hsub, hk3, hatt]

/-- The contents of the signed part are short if what is left after `stripTagAndLength` is. -/
theorem strip_small {b e : Bytes} (h : e = encTLV 0 true 16 b) (hs : (stripTagAndLength e).length < 2 ^ 31 - 6) :
    b.length < 2 ^ 31 := by
  unfold stripTagAndLength at hs
  have hlt := encTLV_length_lt 0 true 16 b
  rw [← h] at hlt
  cases hp : parseHdr e with
  | none => rw [hp] at hs; simp only [] at hs; omega
  | some q =>
    obtain ⟨t, r⟩ := q
    rw [hp] at hs
    simp only [] at hs
    have hlen : e.length ≤ r.length + 6 := by
      rw [h] at hp ⊢
      have hb : encTLV 0 true 16 b = 0x30 :: (Der.lenOctets b.length ++ b) := rfl
      rw [hb] at hp ⊢
      rw [parseHdr] at hp
      have : parseTagNo 0x30 (Der.lenOctets b.length ++ b) = some (16, Der.lenOctets b.length ++ b) := rfl
      rw [this] at hp
      simp only [] at hp
      cases hl : parseLength (Der.lenOctets b.length ++ b) with
      | none => rw [hl] at hp; cases hp
      | some q =>
        obtain ⟨n, q⟩ := q
        rw [hl] at hp
        obtain ⟨h5, h6⟩ := (parseLength_iff _ _ _).mp hl
        have hq : r = q := by
          simp only [] at hp
          injection hp with hp; injection hp with _ hp; exact hp.symm
        have := lenOctets_length_le h6
        rw [h5, hq]
        simp only [List.length_cons, List.length_append]
        omega
    exact parseHdr_encTLV_len (cls := 0) (comp := true) (tag := 16) (by decide) (by decide) (by
      have := pow63_le
      have h63 : (2 : Nat) ^ 31 < 2 ^ 63 := by decide
      omega) (by rw [← h]; exact hp)

theorem csr_roundtrip {t : TbsCsr} {pb : Bytes} {alg alg' ai ai' : AlgId} {es : List Bytes} {cls : Nat} {comp : Bool}
    {tag : Nat} {sb : Bytes} (hraw : t.raw = []) (hv : t.version = 0) (hs : t.subject = { full := encTLV cls comp tag sb })
    (hcls : cls < 4) (htag : tag ≤ 2147483647) (hk : t.publicKey = ⟨alg, ⟨pb, pb.length * 8⟩⟩) (ha : algId.To alg alg')
    (hr : List.Forall₂ ReadsRaw es t.rawAttributes) (hai : algId.To ai ai') {sig contents der : Bytes}
    (hc : marshal tbsCsr t = some contents)
    (hm : marshal csr { tbs := { t with raw := contents }, signatureAlgorithm := ai, signatureValue := ⟨sig, sig.length * 8⟩ } =
      some der)
    (hl : der.length < 2 ^ 31 - 6) :
    ∃ spkiRaw, marshalField spki {} t.publicKey = some spkiRaw ∧
      unmarshal csr der = some (⟨der,
        ⟨contents, 0, rawOf cls comp tag sb, spkiRaw, ⟨alg', ⟨pb, pb.length * 8⟩⟩, t.rawAttributes⟩, ai', ⟨sig, sig.length * 8⟩⟩, []) ∧
      (∀ e ∈ es, e.length < 2 ^ 31) ∧ pb.length < 2 ^ 31 ∧ contents.length < 2 ^ 31 := by
  obtain ⟨body, hb, hder⟩ := marshal_tlv _ _ _ hm
  have hbl : body.length < der.length := by rw [hder]; exact encTLV_length_lt _ _ _ _
  simp only [csr, ne_eq, not_true_eq_false, if_false, Option.pure_def, Option.bind_eq_bind, Option.bind_eq_some_iff] at hb
  obtain ⟨e1, h1, e2, h2, e3, h3, hbd⟩ := hb
  injection hbd with hbd
  subst hbd
  simp only [List.length_append] at hbl
  obtain ⟨cb, hcb, hce⟩ := marshal_tlv _ _ _ hc
  have hcne : contents ≠ [] := by rw [hce]; exact encTLV_ne_nil _ _ _ _
  obtain ⟨tb, htb, he1⟩ := marshal_tlv _ _ _ h1
  have htb' : tb = stripTagAndLength contents := by
    simp only [tbsCsr, ne_eq, if_pos hcne, Option.some.injEq] at htb
    exact htb.symm
  have htl : tb.length < e1.length := by rw [he1]; exact encTLV_length_lt _ _ _ _
  have hcbl : cb.length < 2 ^ 31 := strip_small hce (by rw [← htb']; omega)
  have hstrip : stripTagAndLength contents = cb := by
    rw [hce]; exact stripTagAndLength_tlv 0 true 16 cb (by decide) (by decide) hcbl
  have he1c : e1 = contents := (by
    rw [he1, htb', hstrip, hce])
  subst he1c
  have hcl : e1.length < 2 ^ 31 := by omega
  obtain ⟨spkiRaw, k1, k2, k3, k4⟩ := tbsCsr_dec (full := e1) hraw hv hs hcls htag hk ha hr hcb hcbl
  refine ⟨spkiRaw, k1, ?_, k3, k4, hcl⟩
  have hp1 : ∀ rest, parseField tbsCsr {} (e1 ++ rest) = some (⟨e1, 0, rawOf cls comp tag sb, spkiRaw,
      ⟨alg', ⟨pb, pb.length * 8⟩⟩, t.rawAttributes⟩, rest) := fun rest =>
    (parseField_reads tbsCsr (by decide) _ _ _).mpr ⟨e1, rfl, cb, hce, hcbl, k2⟩
  refine (unmarshal_iff csr (by decide) _ _ []).mpr ⟨e1 ++ (e2 ++ e3), by rw [List.append_nil]; exact hder,
    by simp only [List.length_append]; omega, ?_⟩
  rw [← hder]
  simp only [csr, Option.pure_def, Option.bind_eq_bind]
  rw [hp1, Option.bind_some]
  simp only []
  rw [parseField_plain _ hai h2 (by omega), Option.bind_some]
  simp only []
  rw [parseField_last (bits_to sig _ (by omega)) h3 (by omega), Option.bind_some]

end MCrypto.X509
