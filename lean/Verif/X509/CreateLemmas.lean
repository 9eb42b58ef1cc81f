import Verif.X509.CertIff2
import Verif.X509.Create
import Verif.X509.TimeLemmas
import Verif.X509.Pkcs7Lemmas
import Verif.Props.X509Pub
/-
What the marshalling of certificates writes, in the terms of Verif.X509.CertSpec.
-/
namespace MCrypto.X509
open MCrypto MCrypto.Asn1 MCrypto.X509Spec MCrypto.Props

/-! ### Algorithm identifiers for signing -/

/-- The parameters of the identifier for a row of the algorithm table. -/
def rowParams (d : AlgoDetails) : RawValue :=
  if isRSAPSS d.algo then hashToPSSParameters d.hash else if d.pubKeyAlgo = 1 then nullRaw else {}

theorem signing_ai {pub : PubKey} {requested : Int} {h : Nat} {ai : AlgId}
    (hs : signingParamsForPublicKey pub requested = .ok (h, ai)) :
    ∃ d ∈ signatureAlgorithmDetails, d.algo = (if requested = 0 then defaultAlg pub else requested) ∧ h = d.hash ∧
      d.pubKeyAlgo ≠ 2 ∧ ai = ⟨d.oid, rowParams d⟩ := by
  unfold signingParamsForPublicKey at hs
  simp only [Res.bind_eq_ok, Prod.exists] at hs
  obtain ⟨pt, hf, sa, hd, hs⟩ := hs
  by_cases hr : requested = 0
  · simp only [hr, if_true, Res.pure_eq, Res.ok.injEq, Prod.mk.injEq] at hs ⊢
    obtain ⟨rfl, rfl⟩ := hs
    cases pub with
    | rsa k =>
      simp only [signingDefaults, Res.ok.injEq, Prod.mk.injEq] at hd
      obtain ⟨-, rfl, rfl⟩ := hd
      exact ⟨⟨SHA256WithRSA, oidSignatureSHA256WithRSA, pkRSA, hSHA256⟩, by decide, rfl, rfl, by decide, by decide⟩
    | ecdsa k =>
      simp only [signingDefaults] at hd
      split at hd
      · rename_i hc
        simp only [Res.ok.injEq, Prod.mk.injEq] at hd
        obtain ⟨-, rfl, rfl⟩ := hd
        exact ⟨⟨ECDSAWithSHA256, oidSignatureECDSAWithSHA256, pkECDSA, hSHA256⟩, by decide,
          by rcases hc with hc | hc <;> simp [defaultAlg, hc], rfl, by decide, by decide⟩
      · split at hd
        · rename_i hc
          simp only [Res.ok.injEq, Prod.mk.injEq] at hd
          obtain ⟨-, rfl, rfl⟩ := hd
          exact ⟨⟨ECDSAWithSHA384, oidSignatureECDSAWithSHA384, pkECDSA, hSHA384⟩, by decide,
            by simp [defaultAlg, hc], rfl, by decide, by decide⟩
        · split at hd
          · rename_i hc
            simp only [Res.ok.injEq, Prod.mk.injEq] at hd
            obtain ⟨-, rfl, rfl⟩ := hd
            exact ⟨⟨ECDSAWithSHA512, oidSignatureECDSAWithSHA512, pkECDSA, hSHA512⟩, by decide,
              by simp [defaultAlg, hc], rfl, by decide, by decide⟩
          · cases hd
    | sm2 k =>
      simp only [signingDefaults] at hd
      split at hd
      · simp only [Res.ok.injEq, Prod.mk.injEq] at hd
        obtain ⟨-, rfl, rfl⟩ := hd
        exact ⟨⟨SM2WithSM3, oidSignatureSM2WithSM3, pkECDSA, hSM3⟩, by decide, rfl, rfl, by decide, by decide⟩
      · cases hd
    | ed25519 k =>
      simp only [signingDefaults, Res.ok.injEq, Prod.mk.injEq] at hd
      obtain ⟨-, rfl, rfl⟩ := hd
      exact ⟨⟨PureEd25519, oidSignatureEd25519, pkEd25519, 0⟩, by decide, rfl, rfl, by decide, by decide⟩
    | dsa k => cases hd
    | nil => cases hd
    | other k => cases hd
  · simp only [if_neg hr] at hs ⊢
    cases hfd : signatureAlgorithmDetails.find? (fun d => d.algo == requested) with
    | none => rw [hfd] at hs; cases hs
    | some d =>
      rw [hfd] at hs
      simp only [] at hs
      split at hs
      · cases hs
      rename_i hpt
      split at hs
      · cases hs
      simp only [Res.pure_eq, Res.ok.injEq, Prod.mk.injEq] at hs
      obtain ⟨rfl, rfl⟩ := hs
      obtain ⟨hm, rfl⟩ := find_requested _ hfd
      simp only [ne_eq, Decidable.not_not] at hpt
      have hpar : (d.pubKeyAlgo = 1 ∧ sa.parameters = nullRaw) ∨ ((d.pubKeyAlgo = 3 ∨ d.pubKeyAlgo = 4) ∧ sa.parameters = {}) := by
        rw [hpt]
        cases pub with
        | rsa k => simp only [signingDefaults, Res.ok.injEq, Prod.mk.injEq] at hd; left; exact ⟨hd.1.symm, by rw [← hd.2.2]⟩
        | ecdsa k =>
          simp only [signingDefaults] at hd
          split at hd
          · simp only [Res.ok.injEq, Prod.mk.injEq] at hd; right; exact ⟨Or.inl hd.1.symm, by rw [← hd.2.2]⟩
          · split at hd
            · simp only [Res.ok.injEq, Prod.mk.injEq] at hd; right; exact ⟨Or.inl hd.1.symm, by rw [← hd.2.2]⟩
            · split at hd
              · simp only [Res.ok.injEq, Prod.mk.injEq] at hd; right; exact ⟨Or.inl hd.1.symm, by rw [← hd.2.2]⟩
              · cases hd
        | sm2 k =>
          simp only [signingDefaults] at hd
          split at hd
          · simp only [Res.ok.injEq, Prod.mk.injEq] at hd; right; exact ⟨Or.inl hd.1.symm, by rw [← hd.2.2]⟩
          · cases hd
        | ed25519 k => simp only [signingDefaults, Res.ok.injEq, Prod.mk.injEq] at hd; right; exact ⟨Or.inr hd.1.symm, by rw [← hd.2.2]⟩
        | dsa k => cases hd
        | nil => cases hd
        | other k => cases hd
      refine ⟨d, hm, rfl, rfl, by omega, ?_⟩
      unfold rowParams
      rcases hpar with ⟨h1, h2⟩ | ⟨h1, h2⟩
      · rw [if_pos h1, h2]
      · have h3 : d.pubKeyAlgo ≠ 1 := by omega
        rw [h2]; simp only [h3, if_false]

/-- The octets of the identifier of each row, as the certificate parser reads them. -/
theorem rows_parse : ∀ d ∈ signatureAlgorithmDetails, d.pubKeyAlgo ≠ 2 →
    (algId.enc ⟨d.oid, rowParams d⟩).isSome = true ∧
    ((algId.enc ⟨d.oid, rowParams d⟩).bind parseAI).isSome = true ∧
    (((algId.enc ⟨d.oid, rowParams d⟩).bind parseAI).map getSignatureAlgorithmFromAI) = some d.algo ∧
    (((algId.enc ⟨d.oid, rowParams d⟩).bind parseAI).map (·.algorithm)) = some d.oid ∧
    getSignatureAlgorithmFromAI ⟨d.oid, rowParams d⟩ = d.algo ∧ d.hash = algHash d.algo ∧
    ((algId.enc ⟨d.oid, rowParams d⟩).getD []).length ≤ 100 := by
  decide +kernel

theorem sign_alg {pub : PubKey} {requested : Int} {h : Nat} {ai : AlgId} {e : Bytes}
    (hs : signingParamsForPublicKey pub requested = .ok (h, ai)) (he : marshalField algId {} ai = some e)
    (hl : e.length < 2 ^ 31) :
    ∃ body par, Elem 0x30 body e ∧ AlgIdBody body ai.algorithm par ∧
      getSignatureAlgorithmFromAI ⟨ai.algorithm, { full := par }⟩ = (if requested = 0 then defaultAlg pub else requested) := by
  obtain ⟨d, hd, h1, h2, h3, rfl⟩ := signing_ai hs
  obtain ⟨r1, r2, r3, r4, r5, r6, r7⟩ := rows_parse d hd h3
  obtain ⟨body, hb, ht⟩ := marshal_tlv _ _ _ he
  rw [hb] at r2 r3 r4
  simp only [Option.bind_some] at r2 r3 r4
  obtain ⟨a, ha⟩ := Option.isSome_iff_exists.mp r2
  rw [ha] at r3 r4
  simp only [Option.map_some, Option.some.injEq] at r3 r4
  have hbody := parseAI_sound ha
  rw [r4] at hbody
  refine ⟨body, a.parameters.full, elem_of ht (by decide) hl, hbody, ?_⟩
  rw [← h1, ← r3]
  exact algo_congr r4.symm rfl

theorem sign_getAlg {pub : PubKey} {requested : Int} {h : Nat} {ai : AlgId}
    (hs : signingParamsForPublicKey pub requested = .ok (h, ai)) :
    getSignatureAlgorithmFromAI ai = (if requested = 0 then defaultAlg pub else requested) ∧
      h = algHash (if requested = 0 then defaultAlg pub else requested) := by
  obtain ⟨d, hd, h1, h2, h3, rfl⟩ := signing_ai hs
  obtain ⟨r1, r2, r3, r4, r5, r6, r7⟩ := rows_parse d hd h3
  rw [← h1, r5, h2]
  exact ⟨rfl, r6⟩

/-! ### Bit strings, times -/

theorem bits_elem {b e : Bytes} (he : marshalField bits {} ⟨b, b.length * 8⟩ = some e) (hl : e.length < 2 ^ 31) :
    BitsElem e b := by
  obtain ⟨body, hb, ht⟩ := marshal_tlv _ _ _ he
  have hbody : body = 0 :: b := by
    have : bits.enc ⟨b, b.length * 8⟩ = some (0 :: b) := by simp [bits, encBits]
    rw [this] at hb; injection hb with hb; exact hb.symm
  subst hbody
  refine ⟨0, b, elem_of ht (by decide) hl, by decide, fun _ => rfl, ?_, rfl, ?_⟩
  · show _ % 1 = 0; exact Nat.mod_one _
  · show _ = _ / 1; rw [Nat.div_one]

theorem time_elem {t : Time} {e : Bytes} (h : marshalTime t = some e) (hv : ValidTime t) (h0 : t.offset = 0) :
    TimeElem e t := by
  obtain ⟨e', he, h'⟩ := (readTime_iff _ _ _).mp (readTime_enc h hv h0 [])
  rw [List.append_nil, List.append_nil] at he
  rw [he]; exact h'

/-! ### Names -/

theorem string_elem {s e : Bytes} (h : marshalString s = some e) (hl : e.length < 2 ^ 31) :
    ∃ tag, Elem tag s e ∧ StringValue tag s s := by
  unfold marshalString at h
  split at h
  · rename_i hp
    injection h with h; subst h
    refine ⟨0x13, elem_of rfl (by decide) hl, Or.inr (Or.inl ⟨rfl, ?_, rfl⟩)⟩
    have := (C65_parseASN1String_iff 19 s s).mp (by
      unfold parseASN1String
      rw [if_neg (by decide), if_pos (by decide), if_pos]
      rw [List.all_eq_true] at hp ⊢
      intro b hb
      have := hp b hb
      unfold isPrintableStrict at this
      simp only [Bool.and_eq_true] at this
      exact this.1.1)
    rcases this with h | h | h | h | h | h
    · exact absurd h.1 (by decide)
    · exact h.2.1
    · exact absurd h.1 (by decide)
    · exact absurd h.1 (by decide)
    · exact absurd h.1 (by decide)
    · exact absurd h.1 (by decide)
  · split at h
    · rename_i hv
      injection h with h; subst h
      refine ⟨0x0c, elem_of rfl (by decide) hl, ?_⟩
      refine (C65_parseASN1String_iff _ _ _).mp ?_
      unfold parseASN1String
      rw [if_neg (by decide), if_neg (by decide), if_pos (by decide), if_pos hv]
    · cases h

theorem atv_elem {o : Oid} {s e : Bytes} (ho : OidOk o) (h : marshalField atvAny {} ⟨o, .str s⟩ = some e)
    (hl : e.length < 2 ^ 31) : AtvElem e ⟨o, s⟩ := by
  obtain ⟨body, hb, ht⟩ := marshal_tlv _ _ _ h
  have hel : Elem 0x30 body e := elem_of ht (by decide) hl
  simp only [atvAny, Option.pure_def, Option.bind_eq_bind, Option.bind_eq_some_iff, Option.some.injEq] at hb
  obtain ⟨e1, h1, e2, h2, rfl⟩ := hb
  have hlen : e1.length < 2 ^ 31 ∧ e2.length < 2 ^ 31 := by
    have := hel.1; rw [this] at hl; simp [Der.tlv] at hl; omega
  obtain ⟨tag, g1, g2⟩ := string_elem h2 hlen.2
  exact ⟨e1, tag, s, e2, [], by rw [List.append_nil]; exact hel, oidElem_of ho h1 hlen.1, g1, g2⟩

theorem tlv_body_lt {tag : Der.Tag} {b e : Bytes} (h : Elem tag b e) : b.length < e.length := by
  rw [h.1]; simp [Der.tlv]

theorem forall₂_perm_left {α β : Type} {R : α → β → Prop} {l l' : List α} {m : List β} (hp : l'.Perm l)
    (h : List.Forall₂ R l m) : ∃ m' : List β, m'.Perm m ∧ List.Forall₂ R l' m' := by
  induction hp generalizing m with
  | nil => cases h; exact ⟨[], .refl _, .nil⟩
  | cons x _ ih =>
    cases h with
    | cons h1 h2 =>
      obtain ⟨m', hm, hf⟩ := ih h2
      exact ⟨_ :: m', hm.cons _, .cons h1 hf⟩
  | swap x y l =>
    cases h with
    | cons h1 h2 =>
      cases h2 with
      | cons h2 h3 => exact ⟨_ :: _ :: _, .swap _ _ _, .cons h2 (.cons h1 h3)⟩
  | trans _ _ ih1 ih2 =>
    obtain ⟨m1, p1, f1⟩ := ih2 h
    obtain ⟨m2, p2, f2⟩ := ih1 f1
    exact ⟨m2, p2.trans p1, f2⟩

theorem mem_flatten_le {l : List Bytes} {e : Bytes} (h : e ∈ l) : e.length ≤ l.flatten.length := by
  induction l with
  | nil => cases h
  | cons a l ih =>
    rw [List.flatten_cons, List.length_append]
    rcases List.mem_cons.mp h with rfl | h
    · omega
    · have := ih h; omega

/-- A SET OF attributes is written in the order of the encodings. -/
theorem rdn_elem {as : List Atv} {e : Bytes} (ho : ∀ a ∈ as, OidOk a.type)
    (h : marshalField rdnSet {} (as.map fun a => ⟨a.type, .str a.value⟩) = some e) (hl : e.length < 2 ^ 31) :
    ∃ as' : List Atv, as'.Perm as ∧ RdnElem e as' := by
  obtain ⟨body, hb, ht⟩ := marshal_tlv _ _ _ h
  have hel : Elem 0x31 body e := elem_of ht (by decide) hl
  have hbl := tlv_body_lt hel
  simp only [rdnSet, Asn1.setOf, Option.map_eq_some_iff] at hb
  obtain ⟨es, hes, rfl⟩ := hb
  have hf := (marshalElems_iff _ _ _).mp hes
  have hp := sortBy_perm bytesLe es
  have hlen : ∀ x ∈ es, x.length < 2 ^ 31 := fun x hx => by
    have := mem_flatten_le (hp.mem_iff.mpr hx); omega
  have hf2 : List.Forall₂ AtvElem es as := by
    clear hes hp hel hbl ht h
    rw [List.forall₂_map_left_iff] at hf
    induction hf with
    | nil => exact .nil
    | cons h1 _ ih =>
      refine .cons (atv_elem (ho _ (by simp)) h1 (hlen _ (by simp))) (ih (fun a ha => ho a (by simp [ha])) ?_)
      exact fun x hx => hlen x (by simp [hx])
  obtain ⟨as', p1, f1⟩ := forall₂_perm_left hp hf2
  exact ⟨as', p1, _, hel, _, rfl, f1⟩

theorem name_der {n : List (List Atv)} {e : Bytes} (ho : ∀ s ∈ n, ∀ a ∈ s, OidOk a.type)
    (h : marshal rdnSequence (toAny n) = some e) (hl : e.length < 2 ^ 31) :
    ∃ n' : List (List Atv), List.Forall₂ List.Perm n' n ∧ NameDer e n' := by
  obtain ⟨body, hb, ht⟩ := marshal_tlv _ _ _ h
  have hel : Elem 0x30 body e := elem_of ht (by decide) hl
  have hbl := tlv_body_lt hel
  simp only [rdnSequence, seqOf, Option.map_eq_some_iff] at hb
  obtain ⟨es, hes, rfl⟩ := hb
  have hf := (marshalElems_iff _ _ _).mp hes
  have hlen : ∀ x ∈ es, x.length < 2 ^ 31 := fun x hx => by have := mem_flatten_le hx; omega
  have hf2 : ∃ n' : List (List Atv), List.Forall₂ List.Perm n' n ∧ List.Forall₂ RdnElem es n' := by
    clear hes hel hbl ht h
    unfold toAny at hf
    rw [List.forall₂_map_left_iff] at hf
    induction hf with
    | nil => exact ⟨[], .nil, .nil⟩
    | cons h1 _ ih =>
      obtain ⟨as', p1, f1⟩ := rdn_elem (ho _ (by simp)) h1 (hlen _ (by simp))
      obtain ⟨n', p2, f2⟩ := ih (fun s hs => ho s (by simp [hs])) (fun x hx => hlen x (by simp [hx]))
      exact ⟨as' :: n', .cons p1 p2, .cons f1 f2⟩
  obtain ⟨n', p, f⟩ := hf2
  exact ⟨n', p, _, hel, _, rfl, f⟩

end MCrypto.X509
