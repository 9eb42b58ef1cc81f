import Verif.X509.Pkcs7Spec
import Verif.X509.CertLemmas
import Verif.Asn1.Inv
import Verif.Sm3.Lemmas
/-
Lemmas for PKCS#7: sorting, the signed attributes, the certificate of a signer.
-/
namespace MCrypto.X509
open MCrypto MCrypto.Asn1 MCrypto.Pkcs7Spec

theorem bytesLe_iff (a b : Bytes) : bytesLe a b = true ↔ OctetLe a b := by
  unfold OctetLe
  induction a generalizing b with
  | nil => simp [bytesLe]
  | cons x a ih =>
    match b with
    | [] =>
      simp only [bytesLe, Bool.false_eq_true, List.prefix_nil, List.cons_ne_nil, false_or, false_iff, not_exists]
      rintro p _ y s t ⟨-, h, -⟩
      simp at h
    | y :: b =>
      rw [bytesLe]
      have hlt : ∀ u v : UInt8, u < v ↔ u.toNat < v.toNat := fun u v => UInt8.lt_iff_toNat_lt
      by_cases h : x < y
      · rw [if_pos h]
        exact ⟨fun _ => Or.inr ⟨[], x, y, a, b, rfl, rfl, (hlt _ _).mp h⟩, fun _ => rfl⟩
      · rw [if_neg h]
        by_cases h' : y < x
        · rw [if_pos h']
          rw [hlt] at h h'
          constructor
          · simp
          · rintro (hp | ⟨p, u, v, s, t, h1, h2, h3⟩)
            · have := (List.cons_prefix_cons.mp hp).1; subst this; omega
            · cases p with
              | nil => simp at h1 h2; rw [h1.1, h2.1] at h; omega
              | cons w p => simp at h1 h2; rw [h1.1, h2.1] at h'; omega
        · rw [if_neg h', ih]
          have : x = y := by
            rw [hlt] at h h'
            exact UInt8.toNat_inj.mp (by omega)
          subst this
          constructor
          · rintro (hp | ⟨p, u, v, s, t, rfl, rfl, h3⟩)
            · exact Or.inl (List.cons_prefix_cons.mpr ⟨rfl, hp⟩)
            · exact Or.inr ⟨x :: p, u, v, s, t, rfl, rfl, h3⟩
          · rintro (hp | ⟨p, u, v, s, t, h1, h2, h3⟩)
            · exact Or.inl (List.cons_prefix_cons.mp hp).2
            · cases p with
              | nil => simp at h1 h2; rw [← h1.1, ← h2.1] at h3; omega
              | cons w p =>
                simp at h1 h2
                exact Or.inr ⟨p, u, v, s, t, h1.2, h2.2, h3⟩

theorem bytesLe_trans (a b c : Bytes) (h1 : bytesLe a b = true) (h2 : bytesLe b c = true) : bytesLe a c = true := by
  induction a generalizing b c with
  | nil => simp [bytesLe]
  | cons x a ih =>
    match b, c with
    | [], _ => simp [bytesLe] at h1
    | _ :: _, [] => simp [bytesLe] at h2
    | y :: b, z :: c =>
      rw [bytesLe] at h1 h2 ⊢
      simp only [UInt8.lt_iff_toNat_lt] at h1 h2 ⊢
      by_cases e1 : x.toNat < y.toNat
      · by_cases e2 : y.toNat < z.toNat
        · rw [if_pos (by omega)]
        · rw [if_neg e2] at h2
          by_cases e3 : z.toNat < y.toNat
          · rw [if_pos e3] at h2; cases h2
          · rw [if_pos (by omega)]
      · rw [if_neg e1] at h1
        by_cases e2 : y.toNat < x.toNat
        · rw [if_pos e2] at h1; cases h1
        · rw [if_neg e2] at h1
          by_cases e3 : y.toNat < z.toNat
          · rw [if_pos (by omega)]
          · rw [if_neg e3] at h2
            by_cases e4 : z.toNat < y.toNat
            · rw [if_pos e4] at h2; cases h2
            · rw [if_neg e4] at h2
              rw [if_neg (by omega), if_neg (by omega)]
              exact ih _ _ h1 h2

theorem bytesLe_total (a b : Bytes) : (bytesLe a b || bytesLe b a) = true := by
  induction a generalizing b with
  | nil => simp [bytesLe]
  | cons x a ih =>
    match b with
    | [] => simp [bytesLe]
    | y :: b =>
      rw [bytesLe, bytesLe]
      simp only [UInt8.lt_iff_toNat_lt]
      by_cases e1 : x.toNat < y.toNat
      · simp [e1]
      · by_cases e2 : y.toNat < x.toNat
        · simp [e2]
        · simp only [e1, e2, if_false]; exact ih b

theorem bytesLe_antisymm (a b : Bytes) (h1 : bytesLe a b = true) (h2 : bytesLe b a = true) : a = b := by
  induction a generalizing b with
  | nil =>
    match b with
    | [] => rfl
    | _ :: _ => simp [bytesLe] at h2
  | cons x a ih =>
    match b with
    | [] => simp [bytesLe] at h1
    | y :: b =>
      rw [bytesLe] at h1 h2
      simp only [UInt8.lt_iff_toNat_lt] at h1 h2
      by_cases e1 : x.toNat < y.toNat
      · rw [if_neg (by omega), if_pos e1] at h2; cases h2
      · by_cases e2 : y.toNat < x.toNat
        · rw [if_neg e1, if_pos e2] at h1; cases h1
        · rw [if_neg e1, if_neg e2] at h1
          rw [if_neg e2, if_neg e1] at h2
          rw [ih _ h1 h2, UInt8.toNat_inj.mp (show x.toNat = y.toNat by omega)]

theorem insertBy_perm {α : Type} (le : α → α → Bool) (a : α) (l : List α) : (insertBy le a l).Perm (a :: l) := by
  induction l with
  | nil => exact .refl _
  | cons b l ih =>
    rw [insertBy]
    split
    · exact .refl _
    · exact (ih.cons b).trans (.swap a b l)

theorem sortBy_perm {α : Type} (le : α → α → Bool) (l : List α) : (sortBy le l).Perm l := by
  induction l with
  | nil => exact .refl _
  | cons a l ih => exact (insertBy_perm le a _).trans (ih.cons a)

theorem sorted_pairwise (l : List Bytes) : (sortBy bytesLe l).Pairwise fun a b => bytesLe a b = true := by
  have key : ∀ (a : Bytes) (m : List Bytes), (m.Pairwise fun a b => bytesLe a b = true) →
      (insertBy bytesLe a m).Pairwise fun a b => bytesLe a b = true := by
    intro a m hm
    induction m with
    | nil => simp [insertBy]
    | cons b m ih =>
      rw [insertBy]
      rw [List.pairwise_cons] at hm
      split
      · rename_i h
        rw [List.pairwise_cons, List.pairwise_cons]
        refine ⟨fun c hc => ?_, hm⟩
        rcases List.mem_cons.mp hc with rfl | hc
        · exact h
        · exact bytesLe_trans _ _ _ h (hm.1 c hc)
      · rename_i h
        rw [List.pairwise_cons]
        refine ⟨fun c hc => ?_, ih hm.2⟩
        rcases List.mem_cons.mp ((insertBy_perm _ _ _).mem_iff.mp hc) with rfl | hc
        · have := bytesLe_total c b
          simp only [h, Bool.false_or] at this
          exact this
        · exact hm.1 c hc
  induction l with
  | nil => exact .nil
  | cons a l ih => exact key a _ ih

/-- Sorting a permutation gives the same list. -/
theorem sort_eq_of_perm {l m : List Bytes} (h : l.Perm m) : sortBy bytesLe l = sortBy bytesLe m :=
  List.Perm.eq_of_pairwise (fun a b _ _ => bytesLe_antisymm a b) (sorted_pairwise l) (sorted_pairwise m)
    ((sortBy_perm _ l).trans (h.trans (sortBy_perm _ m).symm))

/-- A sorted list is what sorting gives. -/
theorem sort_unique {l m : List Bytes} (h : m.Perm l) (hs : m.Pairwise OctetLe) : sortBy bytesLe l = m := by
  have hs' : m.Pairwise fun a b => bytesLe a b = true := hs.imp fun h => (bytesLe_iff _ _).mpr h
  exact List.Perm.eq_of_pairwise (fun a b _ _ => bytesLe_antisymm a b) (sorted_pairwise l) hs'
    ((sortBy_perm _ l).trans h.symm)

theorem map_sortBy {α β : Type} (le : β → β → Bool) (f : α → β) (l : List α) :
    (sortBy (fun a b => le (f a) (f b)) l).map f = sortBy le (l.map f) := by
  have key : ∀ (a : α) (m : List α), (insertBy (fun a b => le (f a) (f b)) a m).map f = insertBy le (f a) (m.map f) := by
    intro a m
    induction m with
    | nil => rfl
    | cons b m ih =>
      simp only [insertBy, List.map_cons]
      split <;> simp [ih]
  induction l with
  | nil => rfl
  | cons a l ih => rw [sortBy, key, ih, List.map_cons, sortBy]

theorem encTLV_tlv (cls : Nat) (comp : Bool) (tag : Nat) (body : Bytes) (ht : tag < 31) :
    encTLV cls comp tag body = Der.tlv (UInt8.ofNat (cls * 64 + (if comp then 32 else 0) + tag)) body := by
  unfold encTLV encHdr Der.tlv
  simp only []
  rw [if_neg (by omega)]
  simp

theorem marshalRaw_value (v : RawValue) : marshalRaw {} v = some (valueOctets v) := by
  unfold marshalRaw valueOctets
  rw [if_neg (by simp)]
  by_cases h : v.full = [] <;> simp [h]

theorem p7Attr_marshal_iff (a : P7Attr) (e : Bytes) : marshalField p7Attr {} a = some e ↔ AttrDer a e := by
  unfold AttrDer marshalField
  rw [if_neg (by simp)]
  simp only [p7Attr, Option.pure_def, Option.bind_eq_bind]
  have h1 : marshalField oid {} a.type = (encOid a.type).map (Der.tlv 0x06) := by
    unfold marshalField
    rw [if_neg (by simp)]
    simp only [oid]
    cases encOid a.type with
    | none => rfl
    | some o => simp only [Bool.false_eq_true, if_false, Option.map_some]; exact congrArg some (encTLV_tlv 0 false 6 o (by decide))
  rw [h1, marshalRaw_value]
  cases encOid a.type with
  | none => simp
  | some o =>
    simp only [Option.map_some, Option.bind_some, Option.some.injEq, exists_eq_left', Bool.false_eq_true, if_false]
    rw [encTLV_tlv 0 true 16 _ (by decide)]
    exact ⟨fun h => h.symm, fun h => h.symm⟩

theorem marshalElems_iff {α : Type} (mf : α → Option Bytes) (l : List α) (es : List Bytes) :
    marshalElems mf l = some es ↔ List.Forall₂ (fun v e => mf v = some e) l es := by
  induction l generalizing es with
  | nil =>
    simp only [marshalElems, Option.some.injEq, List.forall₂_nil_left_iff]
    exact ⟨fun h => h.symm, fun h => h.symm⟩
  | cons v l ih =>
    rw [marshalElems]
    constructor
    · intro h
      cases h1 : mf v with
      | none => rw [h1] at h; cases h
      | some e =>
        cases h2 : marshalElems mf l with
        | none => rw [h1, h2] at h; cases h
        | some es' =>
          rw [h1, h2] at h
          simp only [Option.some.injEq] at h
          subst h
          exact .cons h1 ((ih _).mp h2)
    · intro h
      cases h with
      | cons h1 h2 => rw [h1, (ih _).mpr h2]

theorem setAttr_marshal_iff (attrs : List P7Attr) (m : Bytes) :
    marshalField (Asn1.setOf p7Attr) { set := true } attrs = some m ↔ AttrSetDer attrs m := by
  unfold AttrSetDer marshalField
  rw [if_neg (by simp)]
  simp only [Asn1.setOf]
  constructor
  · intro h
    cases hm : marshalElems (marshalField p7Attr {}) attrs with
    | none => rw [hm] at h; cases h
    | some ds =>
      rw [hm] at h
      simp only [Option.map_some, if_true, Option.some.injEq] at h
      refine ⟨ds, sortBy bytesLe ds, ?_, sortBy_perm _ _, ?_, ?_⟩
      · exact ((marshalElems_iff _ _ _).mp hm).imp fun a e h => (p7Attr_marshal_iff a e).mp h
      · exact (sorted_pairwise ds).imp fun h => (bytesLe_iff _ _).mp h
      · rw [← h, encTLV_tlv 0 true 17 _ (by decide)]; rfl
  · rintro ⟨ds, es, h1, h2, h3, rfl⟩
    have hm : marshalElems (marshalField p7Attr {}) attrs = some ds :=
      (marshalElems_iff _ _ _).mpr (h1.imp fun a e h => (p7Attr_marshal_iff a e).mpr h)
    rw [hm]
    simp only [Option.map_some, if_true, Option.some.injEq]
    rw [sort_unique h2 h3, encTLV_tlv 0 true 17 _ (by decide)]
    rfl

theorem lenOctets_append_inj {k n : Nat} {x y : Bytes} (h : Der.lenOctets k ++ x = Der.lenOctets n ++ y)
    (hk : k < 256 ^ 127) (hn : n < 256 ^ 127) : k = n := by
  have hbk : byteLen k ≤ 127 := (byteLen_le_iff _ _).mpr hk
  have hbn : byteLen n ≤ 127 := (byteLen_le_iff _ _).mpr hn
  unfold Der.lenOctets at h
  by_cases e1 : k ≤ 0x7f <;> by_cases e2 : n ≤ 0x7f
  · rw [if_pos e1, if_pos e2] at h
    simp only [List.cons_append, List.nil_append, List.cons.injEq] at h
    have := congrArg UInt8.toNat h.1
    rwa [Der.u8_ofNat_toNat (by omega), Der.u8_ofNat_toNat (by omega)] at this
  · rw [if_pos e1, if_neg e2] at h
    simp only [List.cons_append, List.nil_append, List.cons.injEq] at h
    have := congrArg UInt8.toNat h.1
    rw [Der.u8_ofNat_toNat (by omega), Der.u8_ofNat_toNat (by omega)] at this
    omega
  · rw [if_neg e1, if_pos e2] at h
    simp only [List.cons_append, List.nil_append, List.cons.injEq] at h
    have := congrArg UInt8.toNat h.1
    rw [Der.u8_ofNat_toNat (by omega), Der.u8_ofNat_toNat (by omega)] at this
    omega
  · rw [if_neg e1, if_neg e2] at h
    simp only [List.cons_append, List.cons.injEq] at h
    have := congrArg UInt8.toNat h.1
    rw [Der.u8_ofNat_toNat (by omega), Der.u8_ofNat_toNat (by omega)] at this
    have hl : (toBytes k).length = (toBytes n).length := by rw [toBytes_length, toBytes_length]; omega
    have := (List.append_inj h.2 hl).1
    rw [← ofBytes_toBytes k, ← ofBytes_toBytes n, this]

theorem parseHdr_encTLV_len {cls : Nat} {comp : Bool} {tag : Nat} {body r : Bytes} {t : Hdr} (hc : cls < 4)
    (ht : tag < 31) (hb : body.length < 256 ^ 127) (h : parseHdr (encTLV cls comp tag body) = some (t, r)) :
    body.length < 2 ^ 31 := by
  have hcomp : (if comp then 32 else 0 : Nat) ≤ 32 := by cases comp <;> simp
  unfold encTLV encHdr at h
  simp only [] at h
  rw [if_neg (by omega)] at h
  simp only [List.cons_append, List.nil_append] at h
  rw [parseHdr] at h
  have hx : (UInt8.ofNat (cls * 64 + (if comp then 32 else 0) + tag)).toNat =
        cls * 64 + (if comp then 32 else 0) + tag := Der.u8_ofNat_toNat (by omega)
  have : parseTagNo (UInt8.ofNat (cls * 64 + (if comp then 32 else 0) + tag)) (Der.lenOctets body.length ++ body) =
      some (tag, Der.lenOctets body.length ++ body) := by
    unfold parseTagNo
    rw [hx, if_neg (by cases comp <;> simp <;> omega)]
    congr 2
    cases comp <;> simp <;> omega
  rw [this] at h
  simp only [] at h
  cases hl : parseLength (Der.lenOctets body.length ++ body) with
  | none => rw [hl] at h; cases h
  | some q =>
    obtain ⟨n, q⟩ := q
    obtain ⟨h5, h6⟩ := (parseLength_iff _ _ _).mp hl
    have : body.length = n := lenOctets_append_inj h5 hb (by
      have : (2 : Nat) ^ 31 ≤ 256 ^ 127 := by rw [show 256 = 2 ^ 8 by rfl, ← Nat.pow_mul]; exact Nat.pow_le_pow_right (by decide) (by decide)
      omega)
    omega

theorem pow63_le : (2 : Nat) ^ 63 ≤ 256 ^ 127 := by
  rw [show 256 = 2 ^ 8 by rfl, ← Nat.pow_mul]; exact Nat.pow_le_pow_right (by decide) (by decide)

/-- What `marshalAttributes` computes, for sizes a machine can hold. -/
theorem marshalAttributes_iff (attrs : List P7Attr) (hsz : ∀ m, AttrSetDer attrs m → m.length < 2 ^ 63) (m : Bytes) :
    marshalAttributes attrs = some m ↔ AttrSetDer attrs m ∧ m.length < 2 ^ 31 := by
  unfold marshalAttributes
  simp only [Option.pure_def, Option.bind_eq_bind, Option.bind_eq_some_iff, Prod.exists, Option.some.injEq,
    setAttr_marshal_iff]
  constructor
  · rintro ⟨set, hs, raw, r, hp, rfl⟩
    have hlen : set.length < 2 ^ 31 := by
      unfold parseRaw at hp
      rw [if_neg (encTLV_ne_nil _ _ _ _)] at hp
      cases hh : parseHdr (encTLV 0 true 16 set) with
      | none => rw [hh] at hp; cases hp
      | some x => exact parseHdr_encTLV_len (by decide) (by decide) (Nat.lt_of_lt_of_le (hsz _ hs) pow63_le) hh
    have := parseRaw_encTLV {} 0 true 16 set [] (by decide) (by decide) hlen (by simp)
    rw [List.append_nil, hp] at this
    simp only [Option.some.injEq, Prod.mk.injEq] at this
    rw [this.1]
    exact ⟨hs, hlen⟩
  · rintro ⟨hs, hlen⟩
    refine ⟨m, hs, rawOf 0 true 16 m, [], ?_, rfl⟩
    have := parseRaw_encTLV {} 0 true 16 m [] (by decide) (by decide) hlen (by simp)
    rw [List.append_nil] at this
    exact this

theorem find_first {p : P7Attr → Bool} (l : List P7Attr) (a : P7Attr) :
    l.find? p = some a ↔ ∃ pre post, l = pre ++ a :: post ∧ p a = true ∧ ∀ b ∈ pre, p b = false := by
  rw [List.find?_eq_some_iff_append]
  constructor
  · rintro ⟨h, pre, post, rfl, h2⟩
    exact ⟨pre, post, rfl, h, fun b hb => by simpa using h2 b hb⟩
  · rintro ⟨pre, post, rfl, h, h2⟩
    exact ⟨h, pre, post, rfl, fun b hb => by simpa using h2 b hb⟩

theorem sm3_length (m : Bytes) : (Sm3Spec.sm3 m).length = 32 := by
  have := Sm3.sumR_eq m
  exact Sm3.sm3_length m

theorem hasDigest_iff (attrs : List P7Attr) (d : Bytes) :
    unmarshalAttribute octets attrs oidAttributeMessageDigest = .ok d ↔ HasDigest attrs d ∧ d.length < 2 ^ 31 := by
  unfold unmarshalAttribute HasDigest
  constructor
  · intro h
    cases hf : attrs.find? (fun a => a.type == oidAttributeMessageDigest) with
    | none => rw [hf] at h; cases h
    | some a =>
      rw [hf] at h
      simp only [] at h
      obtain ⟨pre, post, h1, h2, h3⟩ := (find_first _ _).mp hf
      cases hu : unmarshal octets a.value.bytes with
      | none => rw [hu] at h; cases h
      | some x =>
        obtain ⟨v, r⟩ := x
        rw [hu] at h
        simp only [Res.ok.injEq] at h
        subst h
        obtain ⟨body, hb, hl, hd⟩ := (unmarshal_iff octets (by decide) _ _ _).mp hu
        simp only [octets, Option.some.injEq] at hd
        subst hd
        refine ⟨⟨pre, a, post, r, h1, eq_of_beq h2, fun b hb => ne_of_beq_false (h3 b hb), ?_⟩, hl⟩
        rw [hb]
        simp only [octets]
        rw [encTLV_tlv _ _ _ _ (by decide)]
        rfl
  · rintro ⟨⟨pre, a, post, r, h1, h2, h3, h4⟩, hl⟩
    have hf : attrs.find? (fun a => a.type == oidAttributeMessageDigest) = some a :=
      (find_first _ _).mpr ⟨pre, post, h1, beq_iff_eq.mpr h2, fun b hb => beq_false_of_ne (h3 b hb)⟩
    rw [hf]
    simp only []
    have hu : unmarshal octets a.value.bytes = some (d, r) := by
      refine (unmarshal_iff octets (by decide) _ _ _).mpr ⟨d, ?_, hl, rfl⟩
      rw [h4]
      simp only [octets]
      rw [encTLV_tlv _ _ _ _ (by decide)]
      rfl
    rw [hu]

theorem signedBytes_iff (content : Bytes) (s : SignerInfo)
    (hsz : ∀ m, AttrSetDer (s.authenticatedAttributes.getD []) m → m.length < 2 ^ 63) (m : Bytes) :
    signedBytes content s = .ok m ↔ SignedMessage content s m := by
  unfold signedBytes SignedMessage
  simp only []
  by_cases h : s.authenticatedAttributes.getD [] = []
  · rw [h]
    simp only [List.length_nil, gt_iff_lt, Nat.lt_irrefl, if_false, Res.ok.injEq, true_and, ne_eq, not_true_eq_false,
      false_and, or_false]
    exact ⟨fun h => h.symm, fun h => h.symm⟩
  · rw [if_pos (List.length_pos_of_ne_nil h)]
    simp only [h, false_and, false_or, ne_eq, not_false_eq_true, true_and, Res.bind_eq_ok, hasDigest_iff]
    rw [Sm3.sum_eq]
    constructor
    · rintro ⟨d, ⟨hd, _⟩, h2⟩
      split at h2
      · cases h2
      rename_i hne
      have hde : d = Sm3Spec.sm3 content := by simpa using hne
      subst hde
      cases hm : marshalAttributes (s.authenticatedAttributes.getD []) with
      | none => rw [hm] at h2; cases h2
      | some m' =>
        rw [hm] at h2
        simp only [Res.ofOption, Res.ok.injEq] at h2
        subst h2
        exact ⟨hd, (marshalAttributes_iff _ hsz _).mp hm⟩
    · rintro ⟨hd, h2⟩
      refine ⟨_, ⟨hd, by rw [sm3_length]; decide⟩, ?_⟩
      rw [if_neg (by simp), (marshalAttributes_iff _ hsz _).mpr h2]
      rfl

theorem getCert_iff (ias : IssuerAndSerial) (certs : List Certificate) (hc : ∀ c ∈ certs, c.serialNumber ≠ none)
    (s : SignerInfo) (hs : s.issuerAndSerialNumber = ias) (c : Certificate) :
    getCert ias certs = .ok (some c) ↔ SignerCert certs s c := by
  unfold SignerCert
  rw [hs]
  cases hn : ias.serialNumber with
  | none =>
    constructor
    · intro h
      cases certs with
      | nil => cases h
      | cons d l =>
        simp only [getCert, isCertMatch, hn, Res.bind_eq_ok] at h
        obtain ⟨_, h, _⟩ := h
        cases hd : d.serialNumber <;> rw [hd] at h <;> cases h
    · rintro ⟨_, _, _, _, h, _⟩; cases h
  | some n =>
    induction certs with
    | nil => simp [getCert]
    | cons d l ih =>
      have ih := ih fun c hc' => hc c (by simp [hc'])
      obtain ⟨m, hm⟩ := Option.ne_none_iff_exists'.mp (hc d (by simp))
      have hmatch : isCertMatch d ias = .ok (decide (m = n) && decide (d.rawIssuer = ias.issuerName.full)) := by
        unfold isCertMatch; rw [hm, hn]
      rw [getCert, hmatch, Res.bind_ok]
      by_cases hd : d.serialNumber = some n ∧ d.rawIssuer = ias.issuerName.full
      · obtain ⟨hd1, hd2⟩ := hd
        rw [hm] at hd1
        injection hd1 with hd1
        rw [if_pos (by simp [hd1, hd2])]
        simp only [Res.pure_eq, Res.ok.injEq, Option.some.injEq]
        constructor
        · rintro rfl
          exact ⟨[], l, n, rfl, rfl, ⟨by rw [hm, hd1], hd2⟩, by simp⟩
        · rintro ⟨pre, post, k, h1, h2, h3, h4⟩
          cases pre with
          | nil => simp at h1; exact h1.1
          | cons x pre =>
            simp only [List.cons_append, List.cons.injEq] at h1
            obtain ⟨rfl, -⟩ := h1
            exact absurd ⟨by rw [hm, hd1, h2], hd2⟩ (h4 d (by simp))
      · have hd' : (decide (m = n) && decide (d.rawIssuer = ias.issuerName.full)) = false := by
          rw [hm] at hd
          simp only [Option.some.injEq] at hd
          simpa using hd
        rw [hd', if_neg (by simp), ih]
        constructor
        · rintro ⟨pre, post, k, rfl, h2, h3, h4⟩
          injection h2 with h2
          subst h2
          refine ⟨d :: pre, post, n, rfl, rfl, h3, ?_⟩
          intro x hx
          rcases List.mem_cons.mp hx with rfl | hx
          · exact hd
          · exact h4 x hx
        · rintro ⟨pre, post, k, h1, h2, h3, h4⟩
          injection h2 with h2
          subst h2
          cases pre with
          | nil =>
            simp at h1
            exact absurd (h1.1 ▸ h3) hd
          | cons x pre =>
            simp only [List.cons_append, List.cons.injEq] at h1
            exact ⟨pre, post, n, h1.2, rfl, h3, fun y hy => h4 y (by simp [hy])⟩

end MCrypto.X509
