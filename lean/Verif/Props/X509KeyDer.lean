import Verif.X509.KeyGrammar
import Verif.Asn1.GrammarLemmas
import Verif.X509.CertIff2
import Verif.Props.X509Keys
/-
C92, C93: what the key parsers accept, octet by octet. Vocabulary: Verif/X509/KeyGrammar.lean.
-/
namespace MCrypto.X509
open MCrypto MCrypto.Curve MCrypto.Asn1 MCrypto.X509Spec MCrypto.Dg
open MCrypto.Sm2 (CurveId)

theorem optInt_iff (b : Bytes) (v : Option Int) (r : Bytes) :
    parseField optInt {} b = some (v, r) ↔ ∃ e n, v = some n ∧ b = e ++ r ∧ IntEl n e := by
  rw [field_iff optInt (by decide) 0x02 (by decide)]
  simp only [optInt, IntEl, Option.map_eq_some_iff, DerSpec.decInt_spec]
  constructor
  · rintro ⟨e, body, h1, h2, n, h3, rfl⟩; exact ⟨e, n, rfl, h1, body, h2, h3⟩
  · rintro ⟨e, n, rfl, h1, body, h2, h3⟩; exact ⟨e, body, h1, h2, n, h3, rfl⟩

theorem optIntOpt_iff (b r : Bytes) :
    (∃ v, parseField optInt { opt := some none } b = some (v, r)) ↔ Opt 0x02 (fun e => ∃ x, IntEl x e) b r := by
  constructor
  · rintro ⟨v, h⟩
    rcases (optField_iff optInt _ rfl rfl 0 2 rfl rfl (by decide) 0x02 (by decide) _ _ _).mp h with
      ⟨e, body, rfl, h1, h2⟩ | ⟨h1, rfl, h2, h3⟩
    · simp only [optInt, Option.map_eq_some_iff, DerSpec.decInt_spec] at h2
      obtain ⟨n, h2, -⟩ := h2
      exact Or.inl ⟨e, rfl, n, body, h1, h2⟩
    · exact Or.inr ⟨rfl, h2, h3⟩
  · rintro (⟨e, rfl, n, body, h1, h2⟩ | ⟨rfl, h2, h3⟩)
    · refine ⟨some n, (optField_iff optInt _ rfl rfl 0 2 rfl rfl (by decide) 0x02 (by decide) _ _ _).mpr
        (Or.inl ⟨e, body, rfl, h1, ?_⟩)⟩
      simp only [optInt, Option.map_eq_some_iff, DerSpec.decInt_spec]
      exact ⟨n, h2, rfl⟩
    · exact ⟨none, (optField_iff optInt _ rfl rfl 0 2 rfl rfl (by decide) 0x02 (by decide) _ _ _).mpr
        (Or.inr ⟨rfl, rfl, h2, h3⟩)⟩

theorem addPrime_iff (b : Bytes) (v : AddPrime) (r : Bytes) :
    parseField addPrime {} b = some (v, r) ↔ ∃ e re xe ce junk p x c, b = e ++ r ∧ v = ⟨some p, some x, some c⟩ ∧
      El 0x30 (re ++ (xe ++ (ce ++ junk))) e ∧ IntEl p re ∧ IntEl x xe ∧ IntEl c ce := by
  rw [field_iff addPrime (by decide) 0x30 (by decide)]
  constructor
  · rintro ⟨e, body, rfl, h1, h2⟩
    simp only [addPrime, Option.pure_def, Option.bind_eq_bind, Option.bind_eq_some_iff, Option.some.injEq, Prod.exists,
      optInt_iff] at h2
    obtain ⟨_, _, ⟨re, p, rfl, rfl, k1⟩, _, _, ⟨xe, x, rfl, rfl, k2⟩, _, _, ⟨ce, c, rfl, rfl, k3⟩, rfl⟩ := h2
    exact ⟨e, re, xe, ce, _, p, x, c, rfl, rfl, h1, k1, k2, k3⟩
  · rintro ⟨e, re, xe, ce, junk, p, x, c, rfl, rfl, h1, k1, k2, k3⟩
    refine ⟨e, _, rfl, h1, ?_⟩
    simp only [addPrime, Option.pure_def, Option.bind_eq_bind, Option.bind_eq_some_iff, Option.some.injEq, Prod.exists,
      optInt_iff]
    exact ⟨_, _, ⟨re, p, rfl, rfl, k1⟩, _, _, ⟨xe, x, rfl, rfl, k2⟩, _, _, ⟨ce, c, rfl, rfl, k3⟩, rfl⟩

theorem manyPrimes_iff (rs : List Int) (body : Bytes) :
    (∃ l full, (seqOf addPrime).dec body full = some l ∧ l.map (·.prime.getD 0) = rs) ↔ Many OtherPrimeEl rs body := by
  have key := fun l full => seqOf_iff addPrime (by decide) (fun v e => ∃ re xe ce junk p x c, v = ⟨some p, some x, some c⟩ ∧
      El 0x30 (re ++ (xe ++ (ce ++ junk))) e ∧ IntEl p re ∧ IntEl x xe ∧ IntEl c ce) (by
    intro b v r
    rw [addPrime_iff]
    constructor
    · rintro ⟨e, re, xe, ce, junk, p, x, c, rfl, h⟩; exact ⟨e, rfl, re, xe, ce, junk, p, x, c, h⟩
    · rintro ⟨e, rfl, re, xe, ce, junk, p, x, c, h⟩; exact ⟨e, re, xe, ce, junk, p, x, c, rfl, h⟩) body full l
  simp only [key]
  clear key
  unfold Many
  constructor
  · rintro ⟨l, -, ⟨es, rfl, h⟩, rfl⟩
    refine ⟨es, rfl, ?_⟩
    induction h with
    | nil => exact List.Forall₂.nil
    | cons h _ ih =>
      obtain ⟨re, xe, ce, junk, p, x, c, rfl, h⟩ := h
      exact List.Forall₂.cons ⟨re, xe, ce, junk, x, c, h⟩ ih
  · rintro ⟨es, rfl, h⟩
    have : ∃ l : List AddPrime, List.Forall₂ (fun e v => ∃ re xe ce junk p x c, v = ⟨some p, some x, some c⟩ ∧
      El 0x30 (re ++ (xe ++ (ce ++ junk))) e ∧ IntEl p re ∧ IntEl x xe ∧ IntEl c ce) es l ∧ l.map (·.prime.getD 0) = rs := by
      induction h with
      | nil => exact ⟨[], List.Forall₂.nil, rfl⟩
      | cons h _ ih =>
        rename_i e p _ _ _
        obtain ⟨l, h1, rfl⟩ := ih
        obtain ⟨re, xe, ce, junk, x, c, h⟩ := h
        exact ⟨⟨some p, some x, some c⟩ :: l, List.Forall₂.cons ⟨re, xe, ce, junk, p, x, c, rfl, h⟩ h1, rfl⟩
    obtain ⟨l, h1, h2⟩ := this
    exact ⟨l, [], ⟨es, rfl, h1⟩, h2⟩

/-- C92: `ParsePKCS1PrivateKey` accepts exactly the RSAPrivateKey structures (to the last octet) that hold a valid key,
and returns that key. -/
theorem C92_pkcs1_private_grammar (der : Bytes) (k : RsaPriv) :
    parsePKCS1PrivateKey der = .ok k ↔ RsaPrivDer der k ∧ IsRsaKey k := by
  constructor
  · intro h
    refine ⟨?_, C55_pkcs1_private_sound der k h⟩
    unfold parsePKCS1PrivateKey at h
    match hu : unmarshal pkcs1Priv der with
    | none => rw [hu] at h; cases h
    | some (priv, rest) =>
      rw [hu] at h
      simp only [] at h
      split at h
      · cases h
      rename_i hr
      split at h
      · cases h
      rename_i hv
      split at h
      · cases h
      split at h
      · cases h
      split at h
      swap
      · cases h
      injection h with h
      subst h
      have hr0 : rest = [] := List.length_eq_zero_iff.mp (by omega)
      subst hr0
      obtain ⟨e, body, rfl, h1, h2⟩ := (field_iff pkcs1Priv (by decide) 0x30 (by decide) _ _ _).mp hu
      simp only [pkcs1Priv, Option.pure_def, Option.bind_eq_bind, Option.bind_eq_some_iff, Option.some.injEq, Prod.exists,
        int_iff, int64_iff] at h2
      obtain ⟨v, _, ⟨ve, rfl, k1⟩, n, _, ⟨ne, rfl, k2⟩, x, _, ⟨ee, rfl, k3⟩, d, _, ⟨de, rfl, k4⟩, p, _, ⟨pe, rfl, k5⟩, q, s,
        ⟨qe, rfl, k6⟩, dp, s1, k7, dq, s2, k8, qi, s3, k9, add, junk, k10, rfl⟩ := h2
      rw [List.append_nil]
      refine ⟨ve, ne, ee, de, pe, qe, s, s1, s2, s3, junk, v, p, q, _, h1, k1, by simpa using hv, k2, k3, k4, k5, k6,
        (optIntOpt_iff _ _).mp ⟨_, k7⟩, (optIntOpt_iff _ _).mp ⟨_, k8⟩, (optIntOpt_iff _ _).mp ⟨_, k9⟩, ?_, rfl⟩
      rcases (optField_iff (seqOf addPrime) _ rfl rfl 0 16 rfl rfl (by decide) 0x30 (by decide) _ _ _).mp k10 with
        ⟨e', body, rfl, g1, g2⟩ | ⟨g1, rfl, g2, g3⟩
      · exact Or.inl ⟨e', body, rfl, g1, (manyPrimes_iff _ _).mp ⟨add, _, g2, rfl⟩⟩
      · simp only [Option.some.injEq] at g1
        exact Or.inr ⟨by rw [← g1]; rfl, rfl, g2, g3⟩
  · rintro ⟨⟨ve, ne, ee, de, pe, qe, s, s1, s2, s3, junk, v, p, q, rs, h1, k1, hv, k2, k3, k4, k5, k6, k7, k8, k9, k10, hp⟩, hk⟩
    obtain ⟨hval, hlen, hd⟩ := (rsaValidate_iff k).mpr hk
    obtain ⟨dp, k7⟩ := (optIntOpt_iff _ _).mpr k7
    obtain ⟨dq, k8⟩ := (optIntOpt_iff _ _).mpr k8
    obtain ⟨qi, k9⟩ := (optIntOpt_iff _ _).mpr k9
    have : ∃ add, parseField (seqOf addPrime) { opt := some [] } s3 = some (add, junk) ∧ add.map (·.prime.getD 0) = rs := by
      rcases k10 with ⟨e, body, rfl, g1, g2⟩ | ⟨rfl, rfl, g2, g3⟩
      · obtain ⟨l, full, g3, g4⟩ := (manyPrimes_iff _ _).mpr g2
        exact ⟨l, (optField_iff (seqOf addPrime) _ rfl rfl 0 16 rfl rfl (by decide) 0x30 (by decide) _ _ _).mpr
          (Or.inl ⟨e, body, rfl, g1, g3⟩), g4⟩
      · exact ⟨[], (optField_iff (seqOf addPrime) _ rfl rfl 0 16 rfl rfl (by decide) 0x30 (by decide) _ _ _).mpr
          (Or.inr ⟨rfl, rfl, g2, g3⟩), rfl⟩
    obtain ⟨add, k10, hadd⟩ := this
    obtain ⟨⟨n, x⟩, d, primes⟩ := k
    dsimp only at *
    subst hp
    have hu : unmarshal pkcs1Priv der = some (⟨v, n, x, d, p, q, dp, dq, qi, add⟩, []) := by
      refine (field_iff pkcs1Priv (by decide) 0x30 (by decide) _ _ _).mpr ⟨der, _, (List.append_nil _).symm, h1, ?_⟩
      simp only [pkcs1Priv, Option.pure_def, Option.bind_eq_bind, Option.bind_eq_some_iff, Option.some.injEq, Prod.exists,
        int_iff, int64_iff]
      exact ⟨v, _, ⟨ve, rfl, k1⟩, n, _, ⟨ne, rfl, k2⟩, x, _, ⟨ee, rfl, k3⟩, d, _, ⟨de, rfl, k4⟩, p, _, ⟨pe, rfl, k5⟩, q, s,
        ⟨qe, rfl, k6⟩, dp, s1, k7, dq, s2, k8, qi, s3, k9, add, junk, k10, rfl⟩
    have hpr := hk.primes
    simp only [List.mem_cons, forall_eq_or_imp] at hpr
    have hn : 0 < n := by
      have := hk.prod
      simp only [] at this
      rw [← this]
      exact List.prod_pos (fun a ha => by have := hk.primes a ha; omega)
    unfold parsePKCS1PrivateKey
    rw [hu]
    simp only [List.length_nil, gt_iff_lt, Nat.lt_irrefl, if_false]
    rw [if_neg (by omega), if_neg (by omega), if_neg, hadd, if_pos hval]
    rw [List.any_eq_true]
    rintro ⟨a, ha, hle⟩
    have hmem : a.prime.getD 0 ∈ rs := by rw [← hadd]; exact List.mem_map.mpr ⟨a, ha, rfl⟩
    have := hpr.2.2 _ hmem
    simp only [decide_eq_true_eq] at hle
    omega

/-! ## Elliptic-curve private keys -/

theorem oidExpl_iff (b : Bytes) (o : Oid) (r : Bytes) :
    parseField oid { opt := some [], tag := some 0, explicit := true } b = some (o, r) ↔
      EcCurveField (some o) b r ∨ (o = [] ∧ EcCurveField none b r) := by
  rw [explField_iff oid (by decide) (fun _ _ _ => rfl) [] 0 (by decide) 0xa0 0x80 0x06 (by decide) (by decide) (by decide)]
  simp only [oid, ← isOid_iff, EcCurveField, eq_comm (a := r) (b := b)]
  rfl

theorem bitsExpl_iff (b r : Bytes) :
    (∃ v, parseField bits { opt := some {}, tag := some 1, explicit := true } b = some (v, r)) ↔ EcPublicField b r := by
  simp only [explField_iff bits (by decide) (fun _ _ _ => rfl) {} 1 (by decide) 0xa1 0x81 0x03 (by decide) (by decide)
    (by decide)]
  unfold EcPublicField Expl
  simp only [bits, decBits_spec, eq_comm (a := r) (b := b)]
  constructor
  · rintro ⟨v, ⟨h, len, e, h1, h2, h3, h4, body, h5, u, h6, -⟩ | ⟨-, h1, h2⟩⟩
    · exact Or.inl ⟨h, len, e, h1, h2, h3, h4, body, v.bytes, u, h5, h6⟩
    · exact Or.inr ⟨h1, h2⟩
  · rintro (⟨h, len, e, h1, h2, h3, h4, body, bytes, u, h5, h6⟩ | ⟨h1, h2⟩)
    · exact ⟨⟨bytes, bytes.length * 8 - u⟩, Or.inl ⟨h, len, e, h1, h2, h3, h4, body, h5, u, h6, rfl⟩⟩
    · exact ⟨{}, Or.inr ⟨rfl, h1, h2⟩⟩

theorem ecPriv_read (der d : Bytes) (o : Oid) :
    (∃ v rest, unmarshal ecPriv der = some (v, rest) ∧ v.version = 1 ∧ v.privateKey = d ∧ v.namedCurveOID = o) ↔
      EcPrivDer der d (some o) ∨ (o = [] ∧ EcPrivDer der d none) := by
  constructor
  · rintro ⟨v, rest, hu, h1, rfl, rfl⟩
    obtain ⟨e, body, rfl, k1, k2⟩ := (field_iff ecPriv (by decide) 0x30 (by decide) _ _ _).mp hu
    simp only [ecPriv, Option.pure_def, Option.bind_eq_bind, Option.bind_eq_some_iff, Option.some.injEq, Prod.exists,
      int64_iff, octets_iff, oidExpl_iff] at k2
    obtain ⟨v, _, ⟨ve, rfl, g1⟩, d, s, ⟨de, rfl, g2⟩, o, s1, g3, p, junk, g4, rfl⟩ := k2
    simp only [] at h1
    subst h1
    have g4' := (bitsExpl_iff _ _).mp ⟨_, g4⟩
    rcases g3 with g3 | ⟨rfl, g3⟩
    · exact Or.inl ⟨e, ve, de, s, s1, junk, rest, rfl, k1, g1, g2, g3, g4'⟩
    · exact Or.inr ⟨rfl, e, ve, de, s, s1, junk, rest, rfl, k1, g1, g2, g3, g4'⟩
  · intro h
    have : ∃ e ve de s s1 junk tr, der = e ++ tr ∧ El 0x30 (ve ++ (de ++ s)) e ∧ Int64El 1 ve ∧ El 0x04 d de ∧
        (EcCurveField (some o) s s1 ∨ (o = [] ∧ EcCurveField none s s1)) ∧ EcPublicField s1 junk := by
      rcases h with ⟨e, ve, de, s, s1, junk, tr, h1, h2, h3, h4, h5, h6⟩ | ⟨h0, e, ve, de, s, s1, junk, tr, h1, h2, h3, h4, h5, h6⟩
      · exact ⟨e, ve, de, s, s1, junk, tr, h1, h2, h3, h4, Or.inl h5, h6⟩
      · exact ⟨e, ve, de, s, s1, junk, tr, h1, h2, h3, h4, Or.inr ⟨h0, h5⟩, h6⟩
    obtain ⟨e, ve, de, s, s1, junk, tr, rfl, h2, h3, h4, h5, h6⟩ := this
    obtain ⟨p, h6⟩ := (bitsExpl_iff _ _).mpr h6
    refine ⟨⟨1, d, o, p⟩, tr, (field_iff ecPriv (by decide) 0x30 (by decide) _ _ _).mpr ⟨e, _, rfl, h2, ?_⟩, rfl, rfl, rfl⟩
    simp only [ecPriv, Option.pure_def, Option.bind_eq_bind, Option.bind_eq_some_iff, Option.some.injEq, Prod.exists,
      int64_iff, octets_iff, oidExpl_iff]
    exact ⟨1, _, ⟨ve, rfl, h3⟩, d, s, ⟨de, rfl, h4⟩, o, s1, h5, p, junk, h6, rfl⟩

theorem ecKeyIs_iff (o : Oid) (d : Bytes) (key : PrivKey) :
    EcKeyIs o d key ↔ ∃ curve c, namedCurveFromOID o = some curve ∧ params curve = some c ∧ ofBytes d < c.n ∧
      key = ecPrivKey (ecKeyOf curve c (ofBytes d)) := by
  constructor
  · rintro ⟨k, rfl, hc, hk, hd⟩
    obtain ⟨c, hp, hlt, hq⟩ := hk
    have := (isKeyPair_eq hp ⟨c, hp, hlt, hq⟩).1
    rw [hd] at this
    exact ⟨_, c, (curveOid_iff _ _).mpr hc, hp, by omega, by rw [← this]⟩
  · rintro ⟨curve, c, hc, hp, hlt, rfl⟩
    exact ⟨_, rfl, (curveOid_iff _ _).mp hc, ecKeyOf_isKeyPair hp hlt, rfl⟩

theorem parseEC_grammar (named : Option Oid) (der : Bytes) (key : PrivKey) :
    parseECPrivateKey named der = .ok key ↔
      ∃ d inner, EcPrivDer der d inner ∧ EcKeyIs ((named.or inner).getD []) d key := by
  constructor
  · intro h
    obtain ⟨v, rest, curve, c, hu, hv, hc, hp, hk, rfl⟩ := parseEC_inv h
    have := (ecPriv_read der v.privateKey v.namedCurveOID).mp ⟨v, rest, hu, hv, rfl, rfl⟩
    rcases this with h1 | ⟨h0, h1⟩
    · refine ⟨v.privateKey, _, h1, (ecKeyIs_iff _ _ _).mpr ⟨curve, c, ?_, hp, hk, rfl⟩⟩
      cases named with
      | none => exact hc
      | some o => exact hc
    · refine ⟨v.privateKey, _, h1, (ecKeyIs_iff _ _ _).mpr ⟨curve, c, ?_, hp, hk, rfl⟩⟩
      cases named with
      | none => rw [h0] at hc; exact hc
      | some o => exact hc
  · rintro ⟨d, inner, h1, h2⟩
    obtain ⟨curve, c, hc, hp, hk, rfl⟩ := (ecKeyIs_iff _ _ _).mp h2
    obtain ⟨v, rest, hu, hv, rfl, ho⟩ := (ecPriv_read der d (inner.getD [])).mpr (by
      cases inner with
      | none => exact Or.inr ⟨rfl, h1⟩
      | some o => exact Or.inl h1)
    rw [parseEC_of hu hv (by rw [ho, ← hc]; cases named <;> rfl) hp, if_neg (by omega)]

theorem ecKeyIs_nil (d : Bytes) (key : PrivKey) : ¬ EcKeyIs [] d key := by
  rintro ⟨k, -, h, -⟩
  simp [curveOid] at h

/-- C92: `ParseECPrivateKey` accepts exactly the ECPrivateKey structures of version 1 that name a known curve and whose octets
are a number below its order; the key returned has that number and its multiple of the base point, whatever public key the
structure holds. -/
theorem C92_sec1_grammar (der : Bytes) (key : PrivKey) :
    parseECPrivateKey none der = .ok key ↔ ∃ d o, EcPrivDer der d (some o) ∧ EcKeyIs o d key := by
  rw [parseEC_grammar]
  constructor
  · rintro ⟨d, inner, h1, h2⟩
    cases inner with
    | none => exact absurd h2 (ecKeyIs_nil _ _)
    | some o => exact ⟨d, o, h1, h2⟩
  · rintro ⟨d, o, h1, h2⟩
    exact ⟨d, some o, h1, h2⟩

theorem pkcs8_read (der : Bytes) (o : Oid) (par key : Bytes) :
    (∃ v rest, unmarshal pkcs8 der = some (v, rest) ∧ v.algo.algorithm = o ∧ v.algo.parameters.full = par ∧ v.privateKey = key) ↔
      Pkcs8Der der o par key := by
  constructor
  · rintro ⟨v, rest, hu, rfl, rfl, rfl⟩
    obtain ⟨e, body, rfl, k1, k2⟩ := (field_iff pkcs8 (by decide) 0x30 (by decide) _ _ _).mp hu
    simp only [pkcs8, Option.pure_def, Option.bind_eq_bind, Option.bind_eq_some_iff, Option.some.injEq, Prod.exists,
      int64_iff, octets_iff] at k2
    obtain ⟨v, _, ⟨ve, rfl, g1⟩, a, s, g2, d, junk, ⟨ke, rfl, g3⟩, rfl⟩ := k2
    obtain ⟨ae, rfl, g4⟩ := (algId_iff _ _ _ _).mp ⟨a, g2, rfl, rfl⟩
    exact ⟨e, ve, ae, ke, junk, rest, v, rfl, k1, g1, g4, g3⟩
  · rintro ⟨e, ve, ae, ke, junk, tr, v, rfl, k1, g1, g4, g3⟩
    obtain ⟨a, g2, rfl, rfl⟩ := (algId_iff _ _ _ _).mpr ⟨ae, rfl, g4⟩
    refine ⟨⟨v, a, key⟩, tr, (field_iff pkcs8 (by decide) 0x30 (by decide) _ _ _).mpr ⟨e, _, rfl, k1, ?_⟩, rfl, rfl, rfl⟩
    simp only [pkcs8, Option.pure_def, Option.bind_eq_bind, Option.bind_eq_some_iff, Option.some.injEq, Prod.exists,
      int64_iff, octets_iff]
    exact ⟨v, _, ⟨ve, rfl, g1⟩, a, _, g2, key, junk, ⟨ke, rfl, g3⟩, rfl⟩

theorem anyEl_prefix {par e r : Bytes} {c : Oid} (hp : par = [] ∨ AnyEl par) (he : OidEl c e) (h : par = e ++ r) : r = [] := by
  obtain ⟨b, h1, -⟩ := he
  obtain ⟨h2, h3⟩ := (el_iff 0 false 6 (by decide) b e).mp h1
  rcases hp with hp | hp
  · rw [hp] at h; exact (List.append_eq_nil_iff.mp h.symm).2
  · obtain ⟨v, hv⟩ := (anyEl_iff _).mp hp
    have a1 := (parseRaw_reads par v []).mpr ⟨par, (List.append_nil _).symm, hv⟩
    have a2 := (parseRaw_reads par (rawOf 0 false 6 b) r).mpr ⟨e, h, 0, false, 6, b, rfl, h2, by decide, by decide, h3⟩
    rw [a1] at a2
    simp only [Option.some.injEq, Prod.mk.injEq] at a2
    exact a2.2.symm

theorem pkcs8Der_par {der : Bytes} {o : Oid} {par key : Bytes} (h : Pkcs8Der der o par key) : par = [] ∨ AnyEl par := by
  obtain ⟨_, _, _, _, _, _, _, _, _, _, ⟨_, _, _, _, h⟩, _⟩ := h
  rcases h with h | h
  · exact Or.inl h.1
  · exact Or.inr h

/-- C92: `ParsePKCS8PrivateKey` accepts exactly the PrivateKeyInfo structures of the three algorithms that hold a valid
key, and returns that key. -/
theorem C92_pkcs8_grammar (edPub : Bytes → Bytes) (der : Bytes) (k : PrivKey) :
    parsePKCS8PrivateKey edPub der = .ok k ↔ ∃ o par key, Pkcs8Der der o par key ∧ Pkcs8KeyIs edPub o par key k := by
  have hec : ∀ (v : Pkcs8), (v.algo.parameters.full = [] ∨ AnyEl v.algo.parameters.full) → (parsePKCS8EC v = .ok k ↔
      ∃ d inner, EcPrivDer v.privateKey d inner ∧ ((∃ c, OidEl c v.algo.parameters.full ∧ EcKeyIs c d k) ∨
        ((¬ ∃ c, OidEl c v.algo.parameters.full) ∧ ∃ c, inner = some c ∧ EcKeyIs c d k))) := by
    intro v hpar
    have h1 : parsePKCS8EC v = .ok k ↔
        parseECPrivateKey ((unmarshal oid v.algo.parameters.full).map Prod.fst) v.privateKey = .ok k := by
      unfold parsePKCS8EC
      simp only []
      cases parseECPrivateKey ((unmarshal oid v.algo.parameters.full).map Prod.fst) v.privateKey <;> simp
    rw [h1, parseEC_grammar]
    by_cases hc : ∃ c, OidEl c v.algo.parameters.full
    · obtain ⟨c, hc⟩ := hc
      have hu := (oid_iff v.algo.parameters.full c []).mpr ⟨_, (List.append_nil _).symm, hc⟩
      have huniq : ∀ c', OidEl c' v.algo.parameters.full → c' = c := by
        intro c' hc'
        have hu' := (oid_iff v.algo.parameters.full c' []).mpr ⟨_, (List.append_nil _).symm, hc'⟩
        rw [hu] at hu'
        simp only [Option.some.injEq, Prod.mk.injEq] at hu'
        exact hu'.1.symm
      rw [show unmarshal oid v.algo.parameters.full = some (c, []) from hu]
      simp only [Option.map_some, Option.some_or, Option.getD_some]
      constructor
      · rintro ⟨d, inner, g1, g2⟩; exact ⟨d, inner, g1, Or.inl ⟨c, hc, g2⟩⟩
      · rintro ⟨d, inner, g1, ⟨c', g2, g3⟩ | ⟨g2, -⟩⟩
        · rw [huniq c' g2] at g3; exact ⟨d, inner, g1, g3⟩
        · exact absurd ⟨c, hc⟩ g2
    · have hu : unmarshal oid v.algo.parameters.full = none := by
        cases hh : unmarshal oid v.algo.parameters.full with
        | none => rfl
        | some x =>
          obtain ⟨c, r⟩ := x
          obtain ⟨e, he, ho⟩ := (oid_iff _ _ _).mp hh
          have := anyEl_prefix hpar ho he
          subst this
          rw [List.append_nil] at he
          exact absurd ⟨c, he ▸ ho⟩ hc
      rw [hu]
      simp only [Option.map_none, Option.none_or]
      constructor
      · rintro ⟨d, inner, g1, g2⟩
        cases inner with
        | none => exact absurd g2 (ecKeyIs_nil _ _)
        | some o => exact ⟨d, some o, g1, Or.inr ⟨hc, o, rfl, g2⟩⟩
      · rintro ⟨d, inner, g1, ⟨c', g2, g3⟩ | ⟨-, o, rfl, g2⟩⟩
        · exact absurd ⟨c', g2⟩ hc
        · exact ⟨d, some o, g1, g2⟩
  have hrsa : ∀ (v : Pkcs8), parsePKCS8RSA v = .ok k ↔ ∃ r, RsaPrivDer v.privateKey r ∧ IsRsaKey r ∧ k = .rsa r := by
    intro v
    unfold parsePKCS8RSA
    constructor
    · intro h
      cases hp : parsePKCS1PrivateKey v.privateKey with
      | ok r =>
        rw [hp] at h
        injection h with h
        obtain ⟨g1, g2⟩ := (C92_pkcs1_private_grammar _ _).mp hp
        exact ⟨r, g1, g2, h.symm⟩
      | err e => rw [hp] at h; cases h
      | panic => rw [hp] at h; cases h
    · rintro ⟨r, g1, g2, rfl⟩
      rw [(C92_pkcs1_private_grammar _ _).mpr ⟨g1, g2⟩]
  have hed : ∀ (v : Pkcs8), parsePKCS8Ed edPub v = .ok k ↔ v.algo.parameters.full = [] ∧ ∃ e tr seed, v.privateKey = e ++ tr ∧
      El 0x04 seed e ∧ seed.length = 32 ∧ k = .ed25519 (seed ++ edPub seed) := by
    intro v
    unfold parsePKCS8Ed
    constructor
    · intro h
      split at h
      · cases h
      rename_i hp
      cases hu : unmarshal octets v.privateKey with
      | none => rw [hu] at h; cases h
      | some x =>
        obtain ⟨seed, tr⟩ := x
        rw [hu] at h
        simp only [] at h
        split at h
        · cases h
        rename_i hl
        injection h with h
        obtain ⟨e, he, ho⟩ := (octets_iff _ _ _).mp hu
        exact ⟨List.length_eq_zero_iff.mp (not_not.mp hp), e, tr, seed, he, ho, not_not.mp hl, h.symm⟩
    · rintro ⟨hp, e, tr, seed, he, ho, hl, rfl⟩
      rw [hp, if_neg (by simp), show unmarshal octets v.privateKey = some (seed, tr) from (octets_iff _ _ _).mpr ⟨e, he, ho⟩]
      simp only []
      rw [if_neg (by simp [hl])]
      rfl
  constructor
  · intro h
    unfold parsePKCS8PrivateKey at h
    cases hu : unmarshal pkcs8 der with
    | none => rw [hu] at h; cases h
    | some x =>
      obtain ⟨v, rest⟩ := x
      rw [hu] at h
      simp only [] at h
      have hder := (pkcs8_read der _ _ _).mp ⟨v, rest, hu, rfl, rfl, rfl⟩
      refine ⟨_, _, _, hder, ?_⟩
      split at h
      · rename_i ho
        exact Or.inl ⟨ho, (hrsa v).mp h⟩
      split at h
      · rename_i ho
        exact Or.inr (Or.inl ⟨ho, (hec v (pkcs8Der_par hder)).mp h⟩)
      split at h
      · rename_i ho
        exact Or.inr (Or.inr ⟨ho, (hed v).mp h⟩)
      · cases h
  · rintro ⟨o, par, key, hder, hk⟩
    obtain ⟨v, rest, hu, rfl, rfl, rfl⟩ := (pkcs8_read der _ _ _).mpr hder
    unfold parsePKCS8PrivateKey
    rw [hu]
    simp only []
    rcases hk with ⟨ho, hk⟩ | ⟨ho, hk⟩ | ⟨ho, hk⟩
    · rw [if_pos (show v.algo.algorithm = oidPublicKeyRSA from ho)]
      exact (hrsa v).mpr hk
    · rw [if_neg (by rw [ho]; decide), if_pos (show v.algo.algorithm = oidPublicKeyECDSA from ho)]
      exact (hec v (pkcs8Der_par hder)).mpr hk
    · rw [if_neg (by rw [ho]; decide), if_neg (by rw [ho]; decide), if_pos (show v.algo.algorithm = oidPublicKeyEd25519 from ho)]
      exact (hed v).mpr hk

/-! ## Public keys -/

/-- C93: `ParsePKCS1PublicKey` accepts exactly the RSAPublicKey structures with positive modulus and exponent below 2^31. -/
theorem C93_pkcs1_public_grammar (der : Bytes) (k : RsaPub) :
    parsePKCS1PublicKey der = .ok k ↔ RsaPubDer der k ∧ 0 < k.n ∧ 0 < k.e ∧ k.e < 2 ^ 31 := by
  have hu : ∀ r, unmarshal pkcs1Pub der = some (k, r) ↔ ∃ e ne ee junk, der = e ++ r ∧ El 0x30 (ne ++ (ee ++ junk)) e ∧
      IntEl k.n ne ∧ Int64El k.e ee := by
    intro r
    unfold unmarshal
    rw [field_iff pkcs1Pub (by decide) 0x30 (by decide)]
    simp only [pkcs1Pub, Option.pure_def, Option.bind_eq_bind, Option.bind_eq_some_iff, Option.some.injEq, Prod.exists,
      int_iff, int64_iff]
    constructor
    · rintro ⟨e, body, rfl, h1, n, _, ⟨ne, rfl, h2⟩, x, junk, ⟨ee, rfl, h3⟩, rfl⟩
      exact ⟨e, ne, ee, junk, rfl, h1, h2, h3⟩
    · rintro ⟨e, ne, ee, junk, rfl, h1, h2, h3⟩
      exact ⟨e, _, rfl, h1, k.n, _, ⟨ne, rfl, h2⟩, k.e, junk, ⟨ee, rfl, h3⟩, rfl⟩
  constructor
  · intro h
    unfold parsePKCS1PublicKey at h
    cases hx : unmarshal pkcs1Pub der with
    | none => rw [hx] at h; cases h
    | some x =>
      obtain ⟨pub, rest⟩ := x
      rw [hx] at h
      simp only [] at h
      split at h
      · cases h
      rename_i h0
      split at h
      · cases h
      rename_i h1
      split at h
      · cases h
      rename_i h2
      injection h with h
      subst h
      have : rest = [] := List.length_eq_zero_iff.mp (by omega)
      subst this
      obtain ⟨e, ne, ee, junk, hd, k1, k2, k3⟩ := (hu _).mp hx
      rw [List.append_nil] at hd
      subst hd
      exact ⟨⟨ne, ee, junk, k1, k2, k3.1⟩, by omega, by omega, by omega⟩
  · rintro ⟨⟨ne, ee, junk, k1, k2, k3⟩, h1, h2, h3⟩
    unfold parsePKCS1PublicKey
    rw [(hu []).mpr ⟨der, ne, ee, junk, (List.append_nil _).symm, k1, k2, k3, by omega, by omega⟩]
    simp only [List.length_nil, gt_iff_lt, Nat.lt_irrefl, if_false]
    rw [if_neg (by omega), if_neg (by omega)]

theorem bits_iff (b octs r : Bytes) :
    (∃ v, parseField bits {} b = some (v, r) ∧ rightAlign v = octs) ↔ ∃ e, b = e ++ r ∧ BitsEl octs e := by
  have key : ∀ (u : Nat) (bytes : Bytes), u ≤ 7 → (bytes = [] → u = 0) →
      (rightAlign ⟨bytes, bytes.length * 8 - u⟩ = octs ↔
        octs.length = bytes.length ∧ ofBytes octs = ofBytes bytes / 2 ^ u) := by
    intro u bytes h1 h2
    unfold rightAlign
    simp only []
    by_cases h0 : bytes = []
    · subst h0
      rw [h2 rfl]
      simp
      intro h; subst h; rfl
    · have hp := List.length_pos_of_ne_nil h0
      by_cases hp0 : u = 0
      · rw [hp0, if_pos (by omega)]
        simp only [Nat.pow_zero, Nat.div_one]
        constructor
        · rintro rfl; exact ⟨rfl, rfl⟩
        · rintro ⟨a, b⟩; exact (ofBytes_inj a b).symm
      · rw [if_neg (by omega), show 8 - (bytes.length * 8 - u) % 8 = u by omega]
        have hlt : ofBytes bytes / 2 ^ u < 256 ^ bytes.length :=
          Nat.lt_of_le_of_lt (Nat.div_le_self _ _) (ofBytes_lt bytes)
        constructor
        · rintro rfl
          exact ⟨by simp, ofBytes_beBytes_of_lt hlt⟩
        · rintro ⟨a, b⟩
          rw [← b, ← a]; exact beBytes_ofBytes octs
  simp only [field_iff bits (by decide) 0x03 (by decide)]
  simp only [bits, decBits_spec, BitsEl]
  constructor
  · rintro ⟨⟨bytes, bl⟩, ⟨e, body, rfl, h1, u, h2, h3⟩, h4⟩
    simp only [] at h2 h3
    subst h3
    have h2' := h2
    obtain ⟨p, _, _, g1, g2, _⟩ := h2'
    exact ⟨e, rfl, body, bytes, u, h1, h2, (key u bytes g1 g2).mp h4⟩
  · rintro ⟨e, rfl, body, bytes, u, h1, h2, h4⟩
    have h2' := h2
    obtain ⟨p, _, _, g1, g2, _⟩ := h2'
    exact ⟨⟨bytes, bytes.length * 8 - u⟩, ⟨e, body, rfl, h1, u, h2, rfl⟩, (key u bytes g1 g2).mpr h4⟩

theorem spkiDer_read (der : Bytes) (o : Oid) (par key r : Bytes) :
    (∃ v, unmarshal spki der = some (v, r) ∧ v.algo.algorithm = o ∧ v.algo.parameters.full = par ∧ rightAlign v.publicKey = key) ↔
      ∃ e, der = e ++ r ∧ PkixDer e o par key := by
  unfold unmarshal
  constructor
  · rintro ⟨v, hu, rfl, rfl, rfl⟩
    obtain ⟨e, body, rfl, k1, k2⟩ := (field_iff spki (by decide) 0x30 (by decide) _ _ _).mp hu
    simp only [spki, Option.pure_def, Option.bind_eq_bind, Option.bind_eq_some_iff, Option.some.injEq, Prod.exists] at k2
    obtain ⟨a, s, g2, d, junk, g3, rfl⟩ := k2
    obtain ⟨ae, rfl, g4⟩ := (algId_iff _ _ _ _).mp ⟨a, g2, rfl, rfl⟩
    obtain ⟨be, rfl, g5⟩ := (bits_iff _ _ _).mp ⟨d, g3, rfl⟩
    exact ⟨e, rfl, ae, be, junk, k1, g4, g5⟩
  · rintro ⟨e, rfl, ae, be, junk, k1, g4, g5⟩
    obtain ⟨a, g2, rfl, rfl⟩ := (algId_iff _ _ _ _).mpr ⟨ae, rfl, g4⟩
    obtain ⟨d, g3, rfl⟩ := (bits_iff _ _ _).mpr ⟨be, rfl, g5⟩
    refine ⟨⟨a, d⟩, (field_iff spki (by decide) 0x30 (by decide) _ _ _).mpr ⟨e, _, rfl, k1, ?_⟩, rfl, rfl, rfl⟩
    simp only [spki, Option.pure_def, Option.bind_eq_bind, Option.bind_eq_some_iff, Option.some.injEq, Prod.exists]
    exact ⟨a, _, g2, d, junk, g3, rfl⟩

/-- C93: `ParsePKIXPublicKey` accepts exactly the SubjectPublicKeyInfo structures (to the last octet) of the four
algorithms that hold a key, and returns that key. -/
theorem C93_pkix_grammar (der : Bytes) (k : PubKey) :
    parsePKIXPublicKey der = .ok k ↔ ∃ o par key, PkixDer der o par key ∧ o ∈ pubAlgorithms ∧ KeyDer o par key k := by
  have halg : ∀ o, getPublicKeyAlgorithmFromOID o = .unknown ↔ o ∉ pubAlgorithms := by
    intro o
    unfold getPublicKeyAlgorithmFromOID pubAlgorithms
    simp only [List.mem_cons, List.not_mem_nil, or_false, not_or, oidPublicKeyRSA, oidPublicKeyDSA, oidPublicKeyECDSA,
      oidPublicKeyEd25519]
    by_cases h1 : o = [1, 2, 840, 113549, 1, 1, 1]
    · simp [h1]
    by_cases h2 : o = [1, 2, 840, 10040, 4, 1]
    · simp [h2]
    by_cases h3 : o = [1, 2, 840, 10045, 2, 1]
    · simp [h3]
    by_cases h4 : o = [1, 3, 101, 112]
    · simp [h4]
    · simp [h1, h2, h3, h4]
  constructor
  · intro h
    unfold parsePKIXPublicKey at h
    cases hu : unmarshal spki der with
    | none => rw [hu] at h; cases h
    | some x =>
      obtain ⟨v, rest⟩ := x
      rw [hu] at h
      simp only [] at h
      split at h
      · cases h
      rename_i hr
      have hr0 : rest = [] := List.length_eq_zero_iff.mp (not_not.mp hr)
      subst hr0
      split at h
      · cases h
      rename_i ha
      obtain ⟨e, he, g⟩ := (spkiDer_read der _ _ _ _).mp ⟨v, hu, rfl, rfl, rfl⟩
      rw [List.append_nil] at he
      subst he
      exact ⟨_, _, _, g, by rw [halg] at ha; exact not_not.mp ha, (parsePublicKey_iff v k).mp h⟩
  · rintro ⟨o, par, key, hd, hm, hk⟩
    obtain ⟨v, hu, rfl, rfl, rfl⟩ := (spkiDer_read der o par key []).mpr ⟨der, (List.append_nil _).symm, hd⟩
    unfold parsePKIXPublicKey
    rw [hu]
    simp only [List.length_nil, ne_eq, not_true_eq_false, if_false]
    rw [if_neg (by rw [halg]; exact not_not.mpr hm)]
    exact (parsePublicKey_iff v k).mpr hk

/-! ## Examples -/

/-- An RSA private key without the optional values, n = 15. -/
def exRsaDer : Bytes := [0x30, 18, 2, 1, 0, 2, 1, 15, 2, 1, 3, 2, 1, 3, 2, 1, 3, 2, 1, 5]

example : RsaPrivDer exRsaDer ⟨⟨15, 3⟩, 3, [3, 5]⟩ ∧ IsRsaKey ⟨⟨15, 3⟩, 3, [3, 5]⟩ :=
  (C92_pkcs1_private_grammar _ _).mp (by decide +kernel)

/-- An EC private key: two octets `0, 1`, curve P-256 named inside, no public key, something after it. -/
def exEcDer : Bytes := [0x30, 19, 2, 1, 1, 4, 2, 0, 1, 0xa0, 10, 6, 8, 0x2a, 0x86, 0x48, 0xce, 0x3d, 3, 1, 7, 0xff]

theorem exEcDer_parses : ∃ key, parseECPrivateKey none exEcDer = .ok key := by
  have hu : unmarshal ecPriv exEcDer = some (⟨1, [0, 1], [1, 2, 840, 10045, 3, 1, 7], {}⟩, [0xff]) := by decide +kernel
  exact ⟨_, (parseEC_of (o := none) hu rfl (curve := P256) (c := p256) (by decide) rfl).trans (if_neg (by decide))⟩

example : ∃ d o key, EcPrivDer exEcDer d (some o) ∧ EcKeyIs o d key := by
  obtain ⟨key, h⟩ := exEcDer_parses
  obtain ⟨d, o, h⟩ := (C92_sec1_grammar _ _).mp h
  exact ⟨d, o, key, h⟩

/-- The same key in PKCS #8, with NULL in place of the curve. -/
def exEc8Der : Bytes :=
  [0x30, 39, 2, 1, 5, 0x30, 11, 6, 7, 0x2a, 0x86, 0x48, 0xce, 0x3d, 2, 1, 5, 0, 4, 21] ++ exEcDer.take 21

example (edPub : Bytes → Bytes) : ∃ o par key k, Pkcs8Der exEc8Der o par key ∧ Pkcs8KeyIs edPub o par key k := by
  have hu : unmarshal pkcs8 exEc8Der =
      some (⟨5, ⟨oidPublicKeyECDSA, ⟨0, 5, false, [], [5, 0]⟩⟩, exEcDer.take 21⟩, []) := by decide +kernel
  have hu2 : unmarshal ecPriv (exEcDer.take 21) = some (⟨1, [0, 1], [1, 2, 840, 10045, 3, 1, 7], {}⟩, []) := by decide +kernel
  have h2 := (parseEC_of (o := none) hu2 rfl (curve := P256) (c := p256) (by decide) rfl).trans (if_neg (by decide))
  obtain ⟨o, par, key, h⟩ := (C92_pkcs8_grammar edPub exEc8Der (ecPrivKey (ecKeyOf P256 p256 1))).mp (by
    unfold parsePKCS8PrivateKey
    rw [hu]
    simp only []
    rw [if_neg (by decide), if_pos trivial]
    unfold parsePKCS8EC
    simp only []
    rw [show (unmarshal oid [5, 0]).map Prod.fst = none from by decide, h2]
    rfl)
  exact ⟨o, par, key, _, h⟩

/-- An RSA public key. -/
example : RsaPubDer [0x30, 6, 2, 1, 15, 2, 1, 3] ⟨15, 3⟩ := ((C93_pkcs1_public_grammar _ _).mp (by decide +kernel)).1

example : ∃ o par key, PkixDer ([0x30, 26, 0x30, 13, 6, 9, 0x2a, 0x86, 0x48, 0x86, 0xf7, 0x0d, 1, 1, 1, 5, 0, 3, 9, 0, 0x30, 6, 2, 1, 15, 2, 1, 3])
    o par key ∧ o ∈ pubAlgorithms ∧ KeyDer o par key (.rsa ⟨15, 3⟩) :=
  (C93_pkix_grammar _ _).mp (by decide +kernel)

end MCrypto.X509
