import Verif.X509.KeyWriteSpec
import Verif.Props.Truncate
/-
C110: exactly which octets the writers of keys return (x509/pkcs1.go, sec1.go, pkcs8.go, x509.go:79-157).
-/
namespace MCrypto.Props
open MCrypto MCrypto.Asn1 MCrypto.X509 MCrypto.X509Spec MCrypto.Dg
open MCrypto.Sm2 (CurveId)

theorem mf_iff {α : Type} [DecidableEq α] {c : Codec α} {v : α} {e : Bytes} (t : UInt8) (hct : c.tag < 31)
    (ht : t = octet 0 c.compound c.tag) (hl : e.length < 2 ^ 31) :
    marshalField c {} v = some e ↔ ∃ body, c.enc v = some body ∧ El t body e := by
  subst ht
  unfold marshalField
  rw [if_neg (by simp)]
  simp only [Bool.false_eq_true, if_false]
  cases c.enc v with
  | none => simp
  | some body =>
    simp only [Option.some.injEq, el_iff 0 c.compound c.tag hct]
    constructor
    · rintro rfl
      exact ⟨body, rfl, rfl, Nat.lt_trans (encTLV_length_lt _ _ _ _) hl⟩
    · rintro ⟨b, rfl, rfl, -⟩; rfl

theorem mf_expl_iff {α : Type} [DecidableEq α] {c : Codec α} {v d : α} {n : Nat} {e : Bytes} (t u : UInt8) (hct : c.tag < 31)
    (ht : t = octet 0 c.compound c.tag) (hn : n < 31) (hu : u = octet 2 true n) (hd : d ≠ v) (hl : e.length < 2 ^ 31) :
    marshalField c { opt := some d, tag := some n, explicit := true } v = some e ↔
      ∃ body ie, c.enc v = some body ∧ El t body ie ∧ El u ie e := by
  subst ht hu
  unfold marshalField
  rw [if_neg (by simp [hd])]
  simp only [Bool.false_eq_true, if_false, if_true]
  cases c.enc v with
  | none => simp
  | some body =>
    simp only [Option.some.injEq, el_iff 0 c.compound c.tag hct, el_iff 2 true n hn]
    constructor
    · rintro rfl
      have h1 := encTLV_length_lt 2 true n (encTLV 0 c.compound c.tag body)
      have h2 := encTLV_length_lt 0 c.compound c.tag body
      exact ⟨body, _, rfl, ⟨rfl, by omega⟩, rfl, by omega⟩
    · rintro ⟨b, ie, rfl, ⟨rfl, -⟩, rfl, -⟩; rfl

theorem mf_of {α : Type} [DecidableEq α] {c : Codec α} {v : α} {e body : Bytes} (t : UInt8) (hct : c.tag < 31)
    (ht : t = octet 0 c.compound c.tag) (h : c.enc v = some body) (he : El t body e) : marshalField c {} v = some e := by
  subst ht
  unfold marshalField
  rw [if_neg (by simp), h]
  simp only [Bool.false_eq_true, if_false, ((el_iff 0 c.compound c.tag hct _ _).mp he).1]

theorem int_mf {n : Int} {e : Bytes} (hl : e.length < 2 ^ 31) : marshalField bigInt {} n = some e ↔ IntEl n e := by
  rw [mf_iff 0x02 (by decide) (by decide) hl]
  simp only [bigInt, Option.some.injEq, IntEl, DerSpec.isInt_iff]
  constructor
  · rintro ⟨b, rfl, h⟩; exact ⟨_, h, rfl⟩
  · rintro ⟨b, h, rfl⟩; exact ⟨_, rfl, h⟩

theorem goInt_mf {n : Int} {e : Bytes} (hl : e.length < 2 ^ 31) : marshalField goInt {} n = some e ↔ IntEl n e := by
  rw [mf_iff 0x02 (by decide) (by decide) hl]
  simp only [goInt, Option.some.injEq, IntEl, DerSpec.isInt_iff]
  constructor
  · rintro ⟨b, rfl, h⟩; exact ⟨_, h, rfl⟩
  · rintro ⟨b, h, rfl⟩; exact ⟨_, rfl, h⟩

theorem octets_mf {v e : Bytes} (hl : e.length < 2 ^ 31) : marshalField octets {} v = some e ↔ El 0x04 v e := by
  rw [mf_iff 0x04 (by decide) (by decide) hl]
  simp [octets]

theorem oid_mf {o : Oid} {e : Bytes} (ho : OidOk o) (hl : e.length < 2 ^ 31) : marshalField oid {} o = some e ↔ OidEl o e := by
  rw [mf_iff 0x06 (by decide) (by decide) hl]
  simp only [oid, OidEl, isOid_iff, decOid_iff]
  constructor
  · rintro ⟨b, h, h'⟩; exact ⟨_, h', ho, h⟩
  · rintro ⟨b, h, -, h'⟩; exact ⟨_, h', h⟩

/-- The arcs fit 31 bits, as encoding/asn1 reads them. The object identifier may be malformed. -/
def OidIn (o : Oid) : Prop := ∀ a b l, o = a :: b :: l → b ≤ 2147483567 ∧ ∀ n ∈ l, n ≤ 2147483647

theorem _root_.MCrypto.Asn1.OidOk.oidIn {o : Oid} (h : OidOk o) : OidIn o := by
  obtain ⟨a, b, l, rfl, h1, h2⟩ := h
  intro a' b' l' he
  simp only [List.cons.injEq] at he
  obtain ⟨rfl, rfl, rfl⟩ := he
  exact ⟨by omega, h2⟩

theorem OidIn.ok {o : Oid} (h : OidIn o) {b : Bytes} (he : encOid o = some b) : OidOk o := by
  match o, he with
  | x :: y :: l, he =>
    rw [encOid] at he
    split_ifs at he with hc
    exact ⟨x, y, l, rfl, by have := (h x y l rfl).1; omega, (h x y l rfl).2⟩

theorem oid_mf_in {o : Oid} {e : Bytes} (ho : OidIn o) (hl : e.length < 2 ^ 31) : marshalField oid {} o = some e ↔ OidEl o e := by
  rw [mf_iff 0x06 (by decide) (by decide) hl]
  simp only [oid, OidEl, isOid_iff, decOid_iff]
  constructor
  · rintro ⟨b, h, h'⟩; exact ⟨_, h', ho.ok h, h⟩
  · rintro ⟨b, h, -, h'⟩; exact ⟨_, h', h⟩

theorem el_length {t : UInt8} {b e : Bytes} (h : El t b e) : b.length < e.length := by
  obtain ⟨⟨l, -, rfl⟩, -⟩ := h
  simp only [List.length_cons, List.length_append]; omega

theorem fillBytes_iff {v n : Nat} {s : Bytes} : fillBytes v n = .ok s ↔ Fixed n v s := by
  unfold fillBytes Fixed
  constructor
  · intro h
    split at h
    · rename_i hv
      obtain rfl := Res.ok.inj h
      exact ⟨by simp, ofBytes_beBytes_of_lt hv⟩
    · cases h
  · rintro ⟨rfl, rfl⟩
    rw [if_pos (ofBytes_lt s), beBytes_ofBytes]

theorem ellipticMarshal_iff {c : CurveParams} {x y : Nat} {s : Bytes} : ellipticMarshal c x y = .ok s ↔ PointOctets c x y s := by
  unfold ellipticMarshal PointOctets
  simp only [Res.bind_eq_ok, Res.pure_eq, Res.ok.injEq, fillBytes_iff, CurveParams.size]
  constructor
  · rintro ⟨X, h1, Y, h2, rfl⟩; exact ⟨X, Y, rfl, h1, h2⟩
  · rintro ⟨X, Y, rfl, h1, h2⟩; exact ⟨X, h1, Y, h2, rfl⟩

theorem bits_expl {pt : Bytes} {e : Bytes} (hp : pt ≠ []) (hl : e.length < 2 ^ 31) :
    marshalField bits { opt := some {}, tag := some 1, explicit := true } ⟨pt, 0⟩ = some e ↔
      ∃ be, El 0xa1 be e ∧ El 0x03 (0 :: pt) be := by
  rw [mf_expl_iff 0x03 0xa1 (by decide) (by decide) (by decide) (by decide) (by
    intro h; injection h with h; exact hp h.symm) hl]
  simp only [bits, encBits, Option.some.injEq]
  constructor
  · rintro ⟨_, ie, rfl, h1, h2⟩; exact ⟨ie, h2, h1⟩
  · rintro ⟨ie, h2, h1⟩; exact ⟨_, ie, rfl, h1, h2⟩

theorem oid_expl {o : Oid} {e : Bytes} (ho : OidOk o) (hl : e.length < 2 ^ 31) :
    marshalField oid { opt := some [], tag := some 0, explicit := true } o = some e ↔ ∃ ie, El 0xa0 ie e ∧ OidEl o ie := by
  rw [mf_expl_iff 0x06 0xa0 (by decide) (by decide) (by decide) (by decide) (by
    rintro rfl; revert ho; decide) hl]
  simp only [oid, OidEl, isOid_iff, decOid_iff]
  constructor
  · rintro ⟨b, ie, h1, h2, h3⟩; exact ⟨ie, h3, b, h2, ho, h1⟩
  · rintro ⟨ie, h3, b, h2, -, h1⟩; exact ⟨b, ie, h1, h2, h3⟩

theorem ecPriv_enc {c : CurveParams} {k : Sm2.PrivateKey} {o : Option Oid} {d pt body : Bytes}
    (hpt : PointOctets c k.pub.x k.pub.y pt) (ho : ∀ o', o = some o' → OidOk o') (hl : body.length < 2 ^ 31) :
    ecPriv.enc ⟨1, d, o.getD [], ⟨pt, 0⟩⟩ = some body ↔ ∃ ve de oe pe be, body = ve ++ (de ++ (oe ++ pe)) ∧ IntEl 1 ve ∧
      El 0x04 d de ∧ (match o with | none => oe = [] | some o => ∃ ie, El 0xa0 ie oe ∧ OidEl o ie) ∧
      El 0xa1 be pe ∧ El 0x03 (0 :: pt) be := by
  have hp : pt ≠ [] := by obtain ⟨_, _, rfl, -⟩ := hpt; simp
  simp only [ecPriv, Option.pure_def, Option.bind_eq_bind, Option.bind_eq_some_iff, Option.some.injEq]
  constructor
  · rintro ⟨e1, h1, e2, h2, e3, h3, e4, h4, rfl⟩
    simp only [List.length_append] at hl
    obtain ⟨be, g1, g2⟩ := (bits_expl hp (by omega)).mp h4
    refine ⟨e1, e2, e3, e4, be, rfl, (goInt_mf (by omega)).mp h1, (octets_mf (by omega)).mp h2, ?_, g1, g2⟩
    cases o with
    | none =>
      rw [Option.getD_none, marshalField_absent _ _ _ rfl] at h3
      exact (Option.some.inj h3).symm
    | some o => exact (oid_expl (ho o rfl) (by omega)).mp h3
  · rintro ⟨e1, e2, e3, e4, be, rfl, h1, h2, h3, g1, g2⟩
    simp only [List.length_append] at hl
    refine ⟨e1, (goInt_mf (by omega)).mpr h1, e2, (octets_mf (by omega)).mpr h2, e3, ?_, e4, (bits_expl hp (by omega)).mpr ⟨be, g1, g2⟩, rfl⟩
    cases o with
    | none => subst h3; exact marshalField_absent _ _ _ rfl
    | some o => exact (oid_expl (ho o rfl) (by omega)).mpr h3

theorem ecPriv_out {c : CurveParams} {k : Sm2.PrivateKey} (hc : params k.pub.curve = some c) (o : Option Oid)
    (ho : ∀ o', o = some o' → ∃ id, oidFromNamedCurve id = some o') (w : Bytes) :
    marshalECPrivateKeyWithOID c k (o.getD []) = .ok w ↔ EcPrivOut k o w := by
  have hok : ∀ o', o = some o' → OidOk o' := by
    intro o' h
    obtain ⟨id, h⟩ := ho o' h
    obtain ⟨_, _, _, _, h⟩ := curveOid_enc h
    exact h
  constructor
  · intro h
    have hlen : w.length < 2 ^ 31 := by
      by_cases hf : k.d < 256 ^ c.nSize ∧ k.pub.x < 256 ^ c.size ∧ k.pub.y < 256 ^ c.size
      · obtain ⟨e, h1, h2, -⟩ := marshalEC_ok (id := (o.bind namedCurveFromOID).getD SM2P256) (good_of_params hc) (o := o.getD []) (by
          cases o with
          | none => exact Or.inl rfl
          | some o =>
            obtain ⟨id, h⟩ := ho o rfl
            right
            rw [Option.bind_some, (oidFromNamedCurve_iff _ _).mp h]
            exact h) hf.1 hf.2.1 hf.2.2
        rw [h] at h1
        obtain rfl := Res.ok.inj h1
        omega
      · rw [marshalEC_panic hf] at h; cases h
    unfold marshalECPrivateKeyWithOID at h
    simp only [Res.bind_eq_ok, ofOption_ok'] at h
    obtain ⟨d, h1, pt, h2, h3⟩ := h
    rw [fillBytes_iff] at h1
    rw [ellipticMarshal_iff] at h2
    obtain ⟨body, g1, g2⟩ := (mf_iff 0x30 (by decide) (by decide) hlen).mp h3
    obtain ⟨ve, de, oe, pe, be, rfl, a1, a2, a3, a4, a5⟩ := (ecPriv_enc h2 hok g2.2).mp g1
    exact ⟨c, ve, de, d, oe, pe, be, pt, hc, g2, a1, a2, h1, a3, a4, a5, h2⟩
  · rintro ⟨c', ve, de, d, oe, pe, be, pt, hc', g2, a1, a2, h1, a3, a4, a5, h2⟩
    obtain rfl := Option.some.inj (hc.symm.trans hc')
    unfold marshalECPrivateKeyWithOID
    simp only [Res.bind_eq_ok, ofOption_ok']
    exact ⟨d, fillBytes_iff.mpr h1, pt, ellipticMarshal_iff.mpr h2,
      mf_of 0x30 (by decide) (by decide) ((ecPriv_enc h2 hok g2.2).mpr ⟨ve, de, oe, pe, be, rfl, a1, a2, a3, a4, a5⟩) g2⟩

/-- **C110** `MarshalECPrivateKey` returns `w` without error exactly if `w` is the ECPrivateKey of the key, with the curve of the key named in
it; so it is defined exactly if the curve is known and the numbers fit, and its result is unique. -/
theorem C110_sec1 (k : Sm2.PrivateKey) (w : Bytes) :
    marshalECPrivateKey k = .ok w ↔ ∃ o, curveOid k.pub.curve o ∧ EcPrivOut k (some o) w := by
  unfold marshalECPrivateKey
  cases ho : oidFromNamedCurve k.pub.curve with
  | none =>
    constructor
    · intro h; cases h
    · rintro ⟨o, h, -⟩
      rw [← curveOid_iff, ← oidFromNamedCurve_iff, ho] at h
      cases h
  | some o =>
    cases hc : params k.pub.curve with
    | none =>
      constructor
      · intro h; cases h
      · rintro ⟨o, -, c, _, _, _, _, _, _, _, h, -⟩
        rw [hc] at h; cases h
    | some c =>
      have := ecPriv_out hc (some o) (by intro o' h; obtain rfl := Option.some.inj h; exact ⟨_, ho⟩) w
      rw [Option.getD_some] at this
      simp only [this]
      constructor
      · intro h; exact ⟨o, (curveOid_iff _ _).mp ((oidFromNamedCurve_iff _ _).mp ho), h⟩
      · rintro ⟨o', h, h'⟩
        rw [← curveOid_iff, ← oidFromNamedCurve_iff, ho] at h
        obtain rfl := Option.some.inj h
        exact h'

/-! ## RSA -/

theorem optInt_mf {d : Option (Option Int)} (hd : d = none ∨ d = some none) {n : Int} {e : Bytes} (hl : e.length < 2 ^ 31) :
    marshalField optInt { opt := d } (some n) = some e ↔ IntEl n e := by
  have : marshalField optInt { opt := d } (some n) = marshalField bigInt {} n := by
    unfold marshalField
    rw [if_neg (by rcases hd with rfl | rfl <;> simp), if_neg (by simp)]
    rfl
  rw [this, int_mf hl]

theorem modInverse_iff {a m x : Int} (hm : 1 < m) : modInverse a m = some x ↔ InverseMod a m x := by
  unfold modInverse InverseMod
  constructor
  · intro h
    split at h
    · rename_i hg
      obtain rfl := Option.some.inj h
      refine ⟨Int.emod_nonneg _ (by omega), Int.emod_lt_of_pos _ (by omega), ?_⟩
      have hb := Int.gcd_eq_gcd_ab a m
      rw [hg] at hb
      have h1 : m ∣ Int.gcdA a m - Int.gcdA a m % m := Int.dvd_self_sub_of_emod_eq rfl
      have h2 : a * (Int.gcdA a m % m) - 1 = - (a * (Int.gcdA a m - Int.gcdA a m % m)) - m * Int.gcdB a m := by
        push_cast at hb
        linear_combination -hb
      rw [h2]
      exact Int.dvd_sub (Int.dvd_neg.mpr (Dvd.dvd.mul_left h1 a)) (Dvd.intro _ rfl)
    · cases h
  · rintro ⟨h0, h1, h2⟩
    have hg : Int.gcd a m = 1 := by
      rw [← Int.isCoprime_iff_gcd_eq_one]
      obtain ⟨t, ht⟩ := h2
      exact ⟨x, -t, by linear_combination ht⟩
    rw [if_pos hg]
    have hb := Int.gcd_eq_gcd_ab a m
    rw [hg] at hb
    push_cast at hb
    congr 1
    have h3 : m ∣ Int.gcdA a m - x := by
      obtain ⟨t, ht⟩ := h2
      refine ⟨- Int.gcdA a m * t - x * Int.gcdB a m, ?_⟩
      linear_combination (- Int.gcdA a m) * ht - x * hb
    have h5 : Int.gcdA a m % m = x % m := Int.emod_eq_emod_iff_emod_sub_eq_zero.mpr (Int.emod_eq_zero_of_dvd h3)
    rw [h5, Int.emod_eq_of_lt h0 h1]

theorem rsaPub_enc {k : RsaPub} {body : Bytes} (hl : body.length < 2 ^ 31) :
    pkcs1Pub.enc k = some body ↔ ∃ ne ee, body = ne ++ ee ∧ IntEl k.n ne ∧ IntEl k.e ee := by
  simp only [pkcs1Pub, Option.pure_def, Option.bind_eq_bind, Option.bind_eq_some_iff, Option.some.injEq]
  constructor
  · rintro ⟨e1, h1, e2, h2, rfl⟩
    simp only [List.length_append] at hl
    exact ⟨e1, e2, rfl, (int_mf (by omega)).mp h1, (goInt_mf (by omega)).mp h2⟩
  · rintro ⟨e1, e2, rfl, h1, h2⟩
    simp only [List.length_append] at hl
    exact ⟨e1, (int_mf (by omega)).mpr h1, e2, (goInt_mf (by omega)).mpr h2, rfl⟩

theorem rsaPub_out {k : RsaPub} {w : Bytes} (hl : w.length < 2 ^ 31) : marshal pkcs1Pub k = some w ↔ RsaPubOut k w := by
  unfold marshal
  rw [mf_iff 0x30 (by decide) (by decide) hl]
  constructor
  · rintro ⟨body, h1, h2⟩
    obtain ⟨ne, ee, rfl, g1, g2⟩ := (rsaPub_enc h2.2).mp h1
    exact ⟨ne, ee, h2, g1, g2⟩
  · rintro ⟨ne, ee, h2, g1, g2⟩
    exact ⟨_, (rsaPub_enc h2.2).mpr ⟨ne, ee, rfl, g1, g2⟩, h2⟩

/-- **C110** `MarshalPKCS1PublicKey` returns the RSAPublicKey of the key. -/
theorem C110_pkcs1_public (k : RsaPub) (hl : (marshalPKCS1PublicKey k).length < 2 ^ 31) (w : Bytes) :
    marshalPKCS1PublicKey k = w ↔ RsaPubOut k w := by
  unfold marshalPKCS1PublicKey at *
  obtain ⟨e, he⟩ : ∃ e, marshal pkcs1Pub k = some e := by
    obtain ⟨e1, h1⟩ := marshalField_isSome bigInt {} k.n ⟨_, rfl⟩
    obtain ⟨e2, h2⟩ := marshalField_isSome goInt {} k.e ⟨_, rfl⟩
    exact marshalField_isSome pkcs1Pub {} k ⟨e1 ++ e2, by
      simp only [pkcs1Pub, h1, h2, Option.bind_eq_bind, Option.bind_some, Option.pure_def]⟩
  rw [he, Option.getD_some] at hl ⊢
  constructor
  · rintro rfl; exact (rsaPub_out hl).mp he
  · rintro ⟨ne, ee, h2, g1, g2⟩
    have := mf_of (c := pkcs1Pub) 0x30 (by decide) (by decide) ((rsaPub_enc h2.2).mpr ⟨ne, ee, rfl, g1, g2⟩) h2
    exact Option.some.inj (he.symm.trans this)

theorem addPrime_enc {a : AddPrime} {p x t : Int} (h : a = ⟨some p, some x, some t⟩) {body : Bytes} (hl : body.length < 2 ^ 31) :
    addPrime.enc a = some body ↔ ∃ pe xe te, body = pe ++ (xe ++ te) ∧ IntEl p pe ∧ IntEl x xe ∧ IntEl t te := by
  subst h
  simp only [addPrime, Option.pure_def, Option.bind_eq_bind, Option.bind_eq_some_iff, Option.some.injEq]
  constructor
  · rintro ⟨e1, h1, e2, h2, e3, h3, rfl⟩
    simp only [List.length_append] at hl
    exact ⟨e1, e2, e3, rfl, (optInt_mf (Or.inl rfl) (by omega)).mp h1, (optInt_mf (Or.inl rfl) (by omega)).mp h2,
      (optInt_mf (Or.inl rfl) (by omega)).mp h3⟩
  · rintro ⟨e1, e2, e3, rfl, h1, h2, h3⟩
    simp only [List.length_append] at hl
    exact ⟨e1, (optInt_mf (Or.inl rfl) (by omega)).mpr h1, e2, (optInt_mf (Or.inl rfl) (by omega)).mpr h2, e3,
      (optInt_mf (Or.inl rfl) (by omega)).mpr h3, rfl⟩

theorem others_enc (d : Int) (rs : List Int) : ∀ (r : Int), (∀ p ∈ rs, 1 < p) → ∀ s : Bytes, s.length < 2 ^ 31 →
    ((seqOf addPrime).enc (crtValues d r rs) = some s ↔ OthersOut d r rs s) := by
  induction rs with
  | nil =>
    intro r _ s _
    simp only [crtValues, seqOf, marshalElems, Option.map_some, Option.some.injEq, List.flatten_nil, OthersOut]
    exact eq_comm
  | cons p ps ih =>
    intro r hp s hl
    have hp1 : 1 < p := hp p (by simp)
    have ih := ih (r * p) (fun q hq => hp q (by simp [hq]))
    simp only [crtValues, seqOf, marshalElems, OthersOut]
    simp only [seqOf] at ih
    constructor
    · intro h
      cases h1 : marshalField addPrime {} ⟨some p, some (d % (p - 1)), modInverse r p⟩ with
      | none => rw [h1] at h; cases h
      | some e =>
        cases h2 : marshalElems (marshalField addPrime {}) (crtValues d (r * p) ps) with
        | none => rw [h1, h2] at h; cases h
        | some es =>
          rw [h1, h2] at h
          simp only [Option.map_some, List.flatten_cons, Option.some.injEq] at h
          subst h
          simp only [List.length_append] at hl
          cases h3 : modInverse r p with
          | none =>
            rw [h3] at h1
            exfalso
            unfold marshalField at h1
            rw [if_neg (by simp)] at h1
            have : addPrime.enc ⟨some p, some (d % (p - 1)), none⟩ = none := by
              simp only [addPrime, Option.bind_eq_bind]
              have : marshalField optInt {} (none : Option Int) = none := by
                unfold marshalField; rw [if_neg (by simp)]; rfl
              simp [this]
            rw [this] at h1
            cases h1
          | some t =>
            rw [h3] at h1
            obtain ⟨body, g1, g2⟩ := (mf_iff 0x30 (by decide) (by decide) (by omega)).mp h1
            obtain ⟨pe, xe, te, rfl, a1, a2, a3⟩ := (addPrime_enc rfl g2.2).mp g1
            exact ⟨e, pe, xe, te, t, _, rfl, g2, a1, a2, a3, (modInverse_iff hp1).mp h3,
              (ih _ (by omega)).mp (by rw [h2]; rfl)⟩
    · rintro ⟨e, pe, xe, te, t, s', rfl, g2, a1, a2, a3, h3, h4⟩
      simp only [List.length_append] at hl
      have h4 := (ih _ (by omega)).mpr h4
      rw [Option.map_eq_some_iff] at h4
      obtain ⟨es, h5, rfl⟩ := h4
      rw [(modInverse_iff hp1).mpr h3, mf_of (c := addPrime) 0x30 (by decide) (by decide)
        ((addPrime_enc rfl g2.2).mpr ⟨pe, xe, te, rfl, a1, a2, a3⟩) g2, h5]
      rfl

theorem pkcs1Priv_enc_iff (v : Pkcs1Priv) (body : Bytes) : pkcs1Priv.enc v = some body ↔
    ∃ e1, marshalField goInt {} v.version = some e1 ∧ ∃ e2, marshalField bigInt {} v.n = some e2 ∧
    ∃ e3, marshalField goInt {} v.e = some e3 ∧ ∃ e4, marshalField bigInt {} v.d = some e4 ∧
    ∃ e5, marshalField bigInt {} v.p = some e5 ∧ ∃ e6, marshalField bigInt {} v.q = some e6 ∧
    ∃ e7, marshalField optInt { opt := some none } v.dp = some e7 ∧ ∃ e8, marshalField optInt { opt := some none } v.dq = some e8 ∧
    ∃ e9, marshalField optInt { opt := some none } v.qinv = some e9 ∧
    ∃ e10, marshalField (seqOf addPrime) { opt := some [] } v.additional = some e10 ∧
    e1 ++ (e2 ++ (e3 ++ (e4 ++ (e5 ++ (e6 ++ (e7 ++ (e8 ++ (e9 ++ e10)))))))) = body := by
  unfold pkcs1Priv
  simp only [Option.bind_eq_bind, Option.pure_def]
  repeat' (first | exact Iff.rfl | (rw [Option.bind_eq_some_iff]; refine exists_congr fun _ => and_congr_right fun _ => ?_))
  simp only [Option.some.injEq]

theorem rsaPriv_enc {k : RsaPriv} {p q : Int} {rs : List Int} (hp : k.primes = p :: q :: rs) (h1 : 1 < p) (h2 : 1 < q)
    (h3 : ∀ r ∈ rs, 1 < r) (hc : Int.gcd q p = 1) {body : Bytes} (hl : body.length < 2 ^ 31) :
    pkcs1Priv.enc ⟨if k.primes.length > 2 then 1 else 0, k.pub.n, k.pub.e, k.d, p, q, some (k.d % (p - 1)),
          some (k.d % (q - 1)), modInverse q p, crtValues k.d (p * q) rs⟩ = some body ↔
      ∃ t ve ne ee de pe qe e1 e2 te oe, body = ve ++ (ne ++ (ee ++ (de ++ (pe ++ (qe ++ (e1 ++ (e2 ++ (te ++ oe)))))))) ∧
    IntEl (if rs = [] then 0 else 1) ve ∧ IntEl k.pub.n ne ∧ IntEl k.pub.e ee ∧ IntEl k.d de ∧ IntEl p pe ∧ IntEl q qe ∧
    IntEl (k.d % (p - 1)) e1 ∧ IntEl (k.d % (q - 1)) e2 ∧ IntEl t te ∧ InverseMod q p t ∧
    ((rs = [] ∧ oe = []) ∨ (rs ≠ [] ∧ ∃ s, El 0x30 s oe ∧ OthersOut k.d (p * q) rs s)) := by
  have hv : (if k.primes.length > 2 then (1 : Int) else 0) = if rs = [] then 0 else 1 := by
    rw [hp]; cases rs <;> simp
  rw [hv]
  have hi : ∃ t, modInverse q p = some t := ⟨_, by unfold modInverse; rw [if_pos hc]⟩
  obtain ⟨t, hi⟩ := hi
  have ht := (modInverse_iff h1).mp hi
  rw [hi, pkcs1Priv_enc_iff]
  simp only []
  have hoth : ∀ oe : Bytes, oe.length < 2 ^ 31 → (marshalField (seqOf addPrime) { opt := some [] } (crtValues k.d (p * q) rs) = some oe ↔
      ((rs = [] ∧ oe = []) ∨ (rs ≠ [] ∧ ∃ s, El 0x30 s oe ∧ OthersOut k.d (p * q) rs s))) := by
    intro oe hl
    cases rs with
    | nil => simp [crtValues, marshalField_absent, eq_comm]
    | cons r rs =>
      have : marshalField (seqOf addPrime) { opt := some [] } (crtValues k.d (p * q) (r :: rs)) =
          marshalField (seqOf addPrime) {} (crtValues k.d (p * q) (r :: rs)) := by
        unfold marshalField
        rw [if_neg (show ¬ ((some [] : Option (List AddPrime)) = some (crtValues k.d (p * q) (r :: rs))) by simp [crtValues]),
          if_neg (show ¬ ((none : Option (List AddPrime)) = some (crtValues k.d (p * q) (r :: rs))) by simp)]
      rw [this, mf_iff 0x30 (by decide) (by decide) hl]
      simp only [reduceCtorEq, false_and, false_or, ne_eq, not_false_eq_true, true_and]
      constructor
      · rintro ⟨s, g1, g2⟩; exact ⟨s, g2, (others_enc _ _ _ h3 _ g2.2).mp g1⟩
      · rintro ⟨s, g2, g1⟩; exact ⟨s, (others_enc _ _ _ h3 _ g2.2).mpr g1, g2⟩
  constructor
  · rintro ⟨a1, g1, a2, g2, a3, g3, a4, g4, a5, g5, a6, g6, a7, g7, a8, g8, a9, g9, a10, g10, rfl⟩
    simp only [List.length_append] at hl
    exact ⟨t, a1, a2, a3, a4, a5, a6, a7, a8, a9, a10, rfl, (goInt_mf (by omega)).mp g1, (int_mf (by omega)).mp g2,
      (goInt_mf (by omega)).mp g3, (int_mf (by omega)).mp g4, (int_mf (by omega)).mp g5, (int_mf (by omega)).mp g6,
      (optInt_mf (Or.inr rfl) (by omega)).mp g7, (optInt_mf (Or.inr rfl) (by omega)).mp g8,
      (optInt_mf (Or.inr rfl) (by omega)).mp g9, ht, (hoth _ (by omega)).mp g10⟩
  · rintro ⟨t', a1, a2, a3, a4, a5, a6, a7, a8, a9, a10, rfl, g1, g2, g3, g4, g5, g6, g7, g8, g9, ht', g10⟩
    simp only [List.length_append] at hl
    obtain rfl := Option.some.inj (hi.symm.trans ((modInverse_iff h1).mpr ht'))
    exact ⟨a1, (goInt_mf (by omega)).mpr g1, a2, (int_mf (by omega)).mpr g2, a3,
      (goInt_mf (by omega)).mpr g3, a4, (int_mf (by omega)).mpr g4, a5, (int_mf (by omega)).mpr g5, a6, (int_mf (by omega)).mpr g6,
      a7, (optInt_mf (Or.inr rfl) (by omega)).mpr g7, a8, (optInt_mf (Or.inr rfl) (by omega)).mpr g8, a9,
      (optInt_mf (Or.inr rfl) (by omega)).mpr g9, a10, (hoth _ (by omega)).mpr g10, rfl⟩

/-- A valid key whose factors are pairwise coprime. -/
def ProperRsa (k : RsaPriv) : Prop := IsRsaKey k ∧ k.primes.Pairwise (fun p q => Int.gcd p q = 1)

/-- **C110** `MarshalPKCS1PrivateKey` returns the RSAPrivateKey of a valid key with coprime factors. -/
theorem C110_pkcs1_private (k : RsaPriv) (h : ProperRsa k) (w : Bytes) (hl : w.length < 2 ^ 31) :
    marshalPKCS1PrivateKey k = .ok w ↔ RsaPrivOut k w := by
  obtain ⟨p, q, rs, hp⟩ : ∃ p q rs, k.primes = p :: q :: rs := by
    have := h.1.two
    rcases hk : k.primes with _ | ⟨p, _ | ⟨q, rs⟩⟩
    · rw [hk] at this; simp at this
    · rw [hk] at this; simp at this
    · exact ⟨p, q, rs, rfl⟩
  have hpr := h.1.primes
  have hco := h.2
  rw [hp] at hpr hco
  have h1 : 2 < p := hpr p (by simp)
  have h2 : 2 < q := hpr q (by simp)
  have h3 : ∀ r ∈ rs, 2 < r := fun r hr => hpr r (by simp [hr])
  have hc : Int.gcd q p = 1 := by
    rw [Int.gcd_comm]; exact (List.pairwise_cons.mp hco).1 q (by simp)
  have h3' : ∀ r ∈ rs, 1 < r := fun r hr => by have := h3 r hr; omega
  have hm : ∀ e, marshal pkcs1Priv ⟨if k.primes.length > 2 then 1 else 0, k.pub.n, k.pub.e, k.d, p, q, some (k.d % (p - 1)),
          some (k.d % (q - 1)), modInverse q p, crtValues k.d (p * q) rs⟩ = some e → e.length < 2 ^ 31 → RsaPrivOut k e := by
    intro e he hl
    obtain ⟨body, g1, g2⟩ := (mf_iff 0x30 (by decide) (by decide) hl).mp he
    obtain ⟨t, ve, ne, ee, de, pe, qe, e1, e2, te, oe, rfl, g⟩ := (rsaPriv_enc hp (by omega) (by omega) h3' hc g2.2).mp g1
    exact ⟨p, q, rs, t, ve, ne, ee, de, pe, qe, e1, e2, te, oe, hp, g2, g⟩
  have hsome : ∃ e, marshal pkcs1Priv ⟨if k.primes.length > 2 then 1 else 0, k.pub.n, k.pub.e, k.d, p, q, some (k.d % (p - 1)),
          some (k.d % (q - 1)), modInverse q p, crtValues k.d (p * q) rs⟩ = some e :=
    pkcs1Priv_marshal _ (by simp) (by simp) (crtValues_ok _ _ _ (List.pairwise_cons.mp (List.pairwise_cons.mp hco).2).2 (by
      intro r hr
      rw [← Int.isCoprime_iff_gcd_eq_one]
      exact IsCoprime.mul_left (Int.isCoprime_iff_gcd_eq_one.mpr ((List.pairwise_cons.mp hco).1 r (by simp [hr])))
        (Int.isCoprime_iff_gcd_eq_one.mpr ((List.pairwise_cons.mp (List.pairwise_cons.mp hco).2).1 r hr))))
  obtain ⟨e, he⟩ := hsome
  have heq : marshalPKCS1PrivateKey k = .ok e := by
    unfold marshalPKCS1PrivateKey
    rw [hp]
    rw [hp] at he
    simp only []
    rw [if_neg (by
      rintro (h | h | h)
      · omega
      · omega
      · have := h3 1 h; omega)]
    simp only [he, Option.getD_some]
  rw [heq]
  constructor
  · intro h
    obtain rfl := Res.ok.inj h
    exact hm _ he hl
  · rintro ⟨p', q', rs', t, ve, ne, ee, de, pe, qe, e1, e2, te, oe, hp', g2, g⟩
    obtain ⟨rfl, hpq⟩ := List.cons.inj (hp.symm.trans hp')
    obtain ⟨rfl, rfl⟩ := List.cons.inj hpq
    have := mf_of (c := pkcs1Priv) 0x30 (by decide) (by decide) ((rsaPriv_enc hp (by omega) (by omega) h3' hc g2.2).mpr
      ⟨t, ve, ne, ee, de, pe, qe, e1, e2, te, oe, rfl, g⟩) g2
    rw [Option.some.inj (he.symm.trans this)]

/-! ## Algorithm identifiers, PKIX, PKCS #8 -/

theorem algId_enc_iff {o : Oid} (ho : OidOk o) {raw : RawValue} {par : Bytes}
    (hr : marshalRaw { opt := some {} } raw = some par) {body : Bytes} (hl : body.length < 2 ^ 31) :
    algId.enc ⟨o, raw⟩ = some body ↔ ∃ oe, body = oe ++ par ∧ OidEl o oe := by
  simp only [algId, Option.pure_def, Option.bind_eq_bind, Option.bind_eq_some_iff, Option.some.injEq, hr]
  constructor
  · rintro ⟨e1, h1, _, rfl, rfl⟩
    simp only [List.length_append] at hl
    exact ⟨e1, rfl, (oid_mf ho (by omega)).mp h1⟩
  · rintro ⟨e1, rfl, h1⟩
    simp only [List.length_append] at hl
    exact ⟨e1, (oid_mf ho (by omega)).mpr h1, _, rfl, rfl⟩

theorem algId_out {o : Oid} (ho : OidOk o) {raw : RawValue} {par : Bytes}
    (hr : marshalRaw { opt := some {} } raw = some par) {e : Bytes} (hl : e.length < 2 ^ 31) :
    marshalField algId {} ⟨o, raw⟩ = some e ↔ AlgOut o par e := by
  rw [mf_iff 0x30 (by decide) (by decide) hl]
  constructor
  · rintro ⟨body, h1, h2⟩
    obtain ⟨oe, rfl, h3⟩ := (algId_enc_iff ho hr h2.2).mp h1
    exact ⟨oe, h2, h3⟩
  · rintro ⟨oe, h2, h3⟩
    exact ⟨_, (algId_enc_iff ho hr h2.2).mpr ⟨oe, rfl, h3⟩, h2⟩

theorem spki_some {o : Oid} (ho : OidOk o) (raw : RawValue) (key : Bytes) :
    ∃ e, marshal spki ⟨⟨o, raw⟩, ⟨key, 8 * key.length⟩⟩ = some e := by
  obtain ⟨ab, ha⟩ := algId_enc ho raw
  obtain ⟨e1, h1⟩ := marshalField_isSome algId {} ⟨o, raw⟩ ⟨_, ha⟩
  obtain ⟨e2, h2⟩ := marshalField_isSome bits {} ⟨key, 8 * key.length⟩ ⟨_, rfl⟩
  exact marshalField_isSome spki {} _ ⟨e1 ++ e2, by
    simp only [spki, h1, h2, Option.bind_eq_bind, Option.bind_some, Option.pure_def]⟩

theorem spki_out {o : Oid} (ho : OidOk o) {raw : RawValue} {par : Bytes}
    (hr : marshalRaw { opt := some {} } raw = some par) {key w : Bytes} (hl : w.length < 2 ^ 31) :
    (marshal spki ⟨⟨o, raw⟩, ⟨key, 8 * key.length⟩⟩).getD [] = w ↔
      ∃ ae be, El 0x30 (ae ++ be) w ∧ AlgOut o par ae ∧ El 0x03 (0 :: key) be := by
  have hb : ∀ be : Bytes, be.length < 2 ^ 31 → (marshalField bits {} ⟨key, 8 * key.length⟩ = some be ↔ El 0x03 (0 :: key) be) := by
    intro be hl
    rw [mf_iff 0x03 (by decide) (by decide) hl]
    simp [bits, encBits]
  have henc : ∀ body : Bytes, body.length < 2 ^ 31 → (spki.enc ⟨⟨o, raw⟩, ⟨key, 8 * key.length⟩⟩ = some body ↔
      ∃ ae be, body = ae ++ be ∧ AlgOut o par ae ∧ El 0x03 (0 :: key) be) := by
    intro body hl
    simp only [spki, Option.pure_def, Option.bind_eq_bind, Option.bind_eq_some_iff, Option.some.injEq]
    constructor
    · rintro ⟨e1, h1, e2, h2, rfl⟩
      simp only [List.length_append] at hl
      exact ⟨e1, e2, rfl, (algId_out ho hr (by omega)).mp h1, (hb _ (by omega)).mp h2⟩
    · rintro ⟨e1, e2, rfl, h1, h2⟩
      simp only [List.length_append] at hl
      exact ⟨e1, (algId_out ho hr (by omega)).mpr h1, e2, (hb _ (by omega)).mpr h2, rfl⟩
  obtain ⟨e, he⟩ := spki_some ho raw key
  rw [he, Option.getD_some]
  constructor
  · rintro rfl
    obtain ⟨body, g1, g2⟩ := (mf_iff 0x30 (by decide) (by decide) hl).mp he
    obtain ⟨ae, be, rfl, g⟩ := (henc _ g2.2).mp g1
    exact ⟨ae, be, g2, g⟩
  · rintro ⟨ae, be, g2, g⟩
    have := mf_of (c := spki) 0x30 (by decide) (by decide) ((henc _ g2.2).mpr ⟨ae, be, rfl, g⟩) g2
    exact Option.some.inj (he.symm.trans this)

theorem null_par : marshalRaw { opt := some {} } nullRaw = some [5, 0] := by decide
theorem no_par : marshalRaw { opt := some {} } {} = some [] := by decide

theorem full_par {par : Bytes} (h : par ≠ []) : marshalRaw { opt := some {} } { full := par } = some par :=
  marshalRaw_full _ _ h (by
    intro hh; injection hh with hh; injection hh with _ _ _ _ hh; exact h hh.symm)

theorem oidEl_ne {o : Oid} {e : Bytes} (h : OidEl o e) : e ≠ [] := by
  obtain ⟨_, h, -⟩ := h
  exact el_ne_nil h

theorem curve_par {id : CurveId} {o : Oid} (h : oidFromNamedCurve id = some o) {e : Bytes} : marshal oid o = some e ↔ OidEl o e := by
  obtain ⟨ob, h1, h2, -, h3⟩ := curveOid_enc h
  constructor
  · intro he
    refine (oid_mf h3 ?_).mp he
    have := marshalField_length he h1 (by omega) (by decide) (by simp)
    omega
  · rintro ⟨b, g1, g2⟩
    rw [isOid_iff, decOid_iff] at g2
    exact mf_of (c := oid) 0x06 (by decide) (by decide) g2.2 g1

theorem ecPub_iff (s : Sm2.PublicKey) (pb : Bytes) (alg : AlgId) : marshalECPub s = .ok (pb, alg) ↔
    ∃ o c par, curveOid s.curve o ∧ params s.curve = some c ∧ PointOctets c s.x s.y pb ∧ OidEl o par ∧
      alg = ⟨oidPublicKeyECDSA, { full := par }⟩ := by
  unfold marshalECPub
  cases ho : oidFromNamedCurve s.curve with
  | none =>
    constructor
    · intro h; cases h
    · rintro ⟨o, _, _, h, -⟩
      rw [← curveOid_iff, ← oidFromNamedCurve_iff, ho] at h
      cases h
  | some o =>
    cases hc : params s.curve with
    | none =>
      constructor
      · intro h; cases h
      · rintro ⟨_, c, _, -, h, -⟩
        cases h
    | some c =>
      simp only [Res.bind_eq_ok, Res.pure_eq, Res.ok.injEq, Prod.mk.injEq, ofOption_ok', ellipticMarshal_iff, curve_par ho]
      constructor
      · rintro ⟨_, h1, par, h2, rfl, rfl⟩
        exact ⟨o, c, par, (curveOid_iff _ _).mp ((oidFromNamedCurve_iff _ _).mp ho), rfl, h1, h2, rfl⟩
      · rintro ⟨o', c', par, h, hcc, h1, h2, rfl⟩
        obtain rfl := Option.some.inj hcc
        rw [← curveOid_iff, ← oidFromNamedCurve_iff, ho] at h
        obtain rfl := Option.some.inj h
        exact ⟨_, h1, par, h2, rfl, rfl⟩

theorem spki_mf {o : Oid} (ho : OidOk o) {raw : RawValue} {par : Bytes}
    (hr : marshalRaw { opt := some {} } raw = some par) {key w : Bytes} (hl : w.length < 2 ^ 31) :
    marshal spki ⟨⟨o, raw⟩, ⟨key, 8 * key.length⟩⟩ = some w ↔
      ∃ ae be, El 0x30 (ae ++ be) w ∧ AlgOut o par ae ∧ El 0x03 (0 :: key) be := by
  rw [← spki_out ho hr hl]
  obtain ⟨u, hu⟩ := spki_some ho raw key
  rw [hu]; simp

/-- The SubjectPublicKeyInfo that is made of a key. -/
theorem pkixKey_out (k : PubKey) (key w : Bytes) (hl : w.length < 2 ^ 31) :
    (∃ alg, marshalPublicKey k = .ok (key, alg) ∧ marshal spki ⟨alg, ⟨key, 8 * key.length⟩⟩ = some w) ↔ PkixKeyOut k key w := by
  have hec : ∀ s : Sm2.PublicKey, (∃ alg, marshalECPub s = .ok (key, alg) ∧ marshal spki ⟨alg, ⟨key, 8 * key.length⟩⟩ = some w) ↔
      PkixKeyOut (.sm2 s) key w := by
    intro s
    constructor
    · rintro ⟨alg, h1, h2⟩
      obtain ⟨o, c, par, a1, a2, a3, a4, rfl⟩ := (ecPub_iff _ _ _).mp h1
      obtain ⟨ae, be, b1, b2, b3⟩ := (spki_mf oid_ecdsa_ok (full_par (oidEl_ne a4)) hl).mp h2
      exact ⟨ae, be, _, par, b1, b2, b3, rfl, ⟨o, a1, a4⟩, c, a2, a3⟩
    · rintro ⟨ae, be, _, par, b1, b2, b3, rfl, ⟨o, a1, a4⟩, c, a2, a3⟩
      exact ⟨_, (ecPub_iff _ _ _).mpr ⟨o, c, par, a1, a2, a3, a4, rfl⟩,
        (spki_mf oid_ecdsa_ok (full_par (oidEl_ne a4)) hl).mpr ⟨ae, be, b1, b2, b3⟩⟩
  cases k with
  | rsa r =>
    simp only [marshalPublicKey, Res.bind_eq_ok, Res.pure_eq, Res.ok.injEq, ofOption_ok', Prod.mk.injEq]
    constructor
    · rintro ⟨_, ⟨_, h1, rfl, rfl⟩, h2⟩
      obtain ⟨ae, be, b1, b2, b3⟩ := (spki_mf oid_rsa_ok null_par hl).mp h2
      have l1 := el_length b1
      have l2 := el_length b3
      simp only [List.length_append, List.length_cons] at l1 l2
      exact ⟨ae, be, _, _, b1, b2, b3, rfl, rfl, (rsaPub_out (by omega)).mp h1⟩
    · rintro ⟨ae, be, _, _, b1, b2, b3, rfl, rfl, h1⟩
      have l1 := el_length b1
      have l2 := el_length b3
      simp only [List.length_append, List.length_cons] at l1 l2
      exact ⟨_, ⟨key, (rsaPub_out (by omega)).mpr h1, rfl, rfl⟩, (spki_mf oid_rsa_ok null_par hl).mpr ⟨ae, be, b1, b2, b3⟩⟩
  | ecdsa s => exact hec s
  | sm2 s => exact hec s
  | ed25519 b =>
    simp only [marshalPublicKey, Res.ok.injEq, Prod.mk.injEq]
    constructor
    · rintro ⟨_, ⟨rfl, rfl⟩, h2⟩
      obtain ⟨ae, be, b1, b2, b3⟩ := (spki_mf oid_ed_ok no_par hl).mp h2
      exact ⟨ae, be, _, _, b1, b2, b3, rfl, rfl, rfl⟩
    · rintro ⟨ae, be, _, _, b1, b2, b3, rfl, rfl, rfl⟩
      exact ⟨_, ⟨rfl, rfl⟩, (spki_mf oid_ed_ok no_par hl).mpr ⟨ae, be, b1, b2, b3⟩⟩
  | dsa d =>
    constructor
    · rintro ⟨_, h, -⟩; cases h
    · rintro ⟨_, _, _, _, -, -, -, h⟩; exact h.elim
  | nil =>
    constructor
    · rintro ⟨_, h, -⟩; cases h
    · rintro ⟨_, _, _, _, -, -, -, h⟩; exact h.elim
  | other n =>
    constructor
    · rintro ⟨_, h, -⟩; cases h
    · rintro ⟨_, _, _, _, -, -, -, h⟩; exact h.elim

theorem marshalPublicKey_spki {k : PubKey} {key : Bytes} {alg : AlgId} (h : marshalPublicKey k = .ok (key, alg)) :
    ∃ w, marshal spki ⟨alg, ⟨key, 8 * key.length⟩⟩ = some w := by
  cases k with
  | rsa r =>
    simp only [marshalPublicKey, Res.bind_eq_ok, Res.pure_eq, Res.ok.injEq, ofOption_ok', Prod.mk.injEq] at h
    obtain ⟨_, -, -, rfl⟩ := h
    exact spki_some oid_rsa_ok _ _
  | ecdsa s =>
    obtain ⟨o, c, par, a1, a2, a3, a4, rfl⟩ := (ecPub_iff _ _ _).mp h
    exact spki_some oid_ecdsa_ok _ _
  | sm2 s =>
    obtain ⟨o, c, par, a1, a2, a3, a4, rfl⟩ := (ecPub_iff _ _ _).mp h
    exact spki_some oid_ecdsa_ok _ _
  | ed25519 b =>
    simp only [marshalPublicKey, Res.ok.injEq, Prod.mk.injEq] at h
    obtain ⟨-, rfl⟩ := h
    exact spki_some oid_ed_ok _ _
  | dsa d => cases h
  | nil => cases h
  | other n => cases h

/-- **C110** `MarshalPKIXPublicKey` returns `w` without error exactly if `w` is the SubjectPublicKeyInfo of the key. -/
theorem C110_pkix (k : PubKey) (w : Bytes) (hl : w.length < 2 ^ 31) : marshalPKIXPublicKey k = .ok w ↔ PkixOut k w := by
  unfold PkixOut
  simp only [← pkixKey_out k _ w hl, marshalPKIXPublicKey, Res.bind_eq_ok, Prod.exists, Res.pure_eq, Res.ok.injEq]
  refine exists_congr fun key => exists_congr fun alg => and_congr_right fun h => ?_
  obtain ⟨u, hu⟩ := marshalPublicKey_spki h
  rw [hu]; simp

theorem pkcs8_out {o : Oid} (ho : OidOk o) {raw : RawValue} {par : Bytes}
    (hr : marshalRaw { opt := some {} } raw = some par) {key w : Bytes} (hl : w.length < 2 ^ 31) :
    marshal pkcs8 ⟨0, ⟨o, raw⟩, key⟩ = some w ↔
      ∃ ve ae ke, El 0x30 (ve ++ (ae ++ ke)) w ∧ IntEl 0 ve ∧ AlgOut o par ae ∧ El 0x04 key ke := by
  unfold marshal
  rw [mf_iff 0x30 (by decide) (by decide) hl]
  have henc : ∀ body : Bytes, body.length < 2 ^ 31 → (pkcs8.enc ⟨0, ⟨o, raw⟩, key⟩ = some body ↔
      ∃ ve ae ke, body = ve ++ (ae ++ ke) ∧ IntEl 0 ve ∧ AlgOut o par ae ∧ El 0x04 key ke) := by
    intro body hl
    simp only [pkcs8, Option.pure_def, Option.bind_eq_bind, Option.bind_eq_some_iff, Option.some.injEq]
    constructor
    · rintro ⟨e0, h0, e1, h1, e2, h2, rfl⟩
      simp only [List.length_append] at hl
      exact ⟨e0, e1, e2, rfl, (goInt_mf (by omega)).mp h0, (algId_out ho hr (by omega)).mp h1, (octets_mf (by omega)).mp h2⟩
    · rintro ⟨e0, e1, e2, rfl, h0, h1, h2⟩
      simp only [List.length_append] at hl
      exact ⟨e0, (goInt_mf (by omega)).mpr h0, e1, (algId_out ho hr (by omega)).mpr h1, e2, (octets_mf (by omega)).mpr h2, rfl⟩
  constructor
  · rintro ⟨body, h1, h2⟩
    obtain ⟨ve, ae, ke, rfl, h⟩ := (henc _ h2.2).mp h1
    exact ⟨ve, ae, ke, h2, h⟩
  · rintro ⟨ve, ae, ke, h2, h⟩
    exact ⟨_, (henc _ h2.2).mpr ⟨ve, ae, ke, rfl, h⟩, h2⟩

theorem pkcs8EC_iff (s : Sm2.PrivateKey) (inner : Option Oid)
    (hi : ∀ o', inner = some o' → ∃ id, oidFromNamedCurve id = some o') (v : Pkcs8) :
    pkcs8EC s (inner.getD []) = .ok v ↔ ∃ o par key, curveOid s.pub.curve o ∧ OidEl o par ∧ EcPrivOut s inner key ∧
      v = ⟨0, ⟨oidPublicKeyECDSA, { full := par }⟩, key⟩ := by
  unfold pkcs8EC
  cases ho : oidFromNamedCurve s.pub.curve with
  | none =>
    constructor
    · intro h; cases h
    · rintro ⟨o, _, _, h, -⟩
      rw [← curveOid_iff, ← oidFromNamedCurve_iff, ho] at h
      cases h
  | some o =>
    cases hc : params s.pub.curve with
    | none =>
      constructor
      · intro h; cases h
      · rintro ⟨_, _, _, -, -, ⟨c, _, _, _, _, _, _, _, h, -⟩, -⟩
        rw [hc] at h; cases h
    | some c =>
      simp only [Res.bind_eq_ok, Res.pure_eq, Res.ok.injEq, ofOption_ok', curve_par ho, ecPriv_out hc inner hi]
      constructor
      · rintro ⟨par, h1, key, h2, rfl⟩
        exact ⟨o, par, key, (curveOid_iff _ _).mp ((oidFromNamedCurve_iff _ _).mp ho), h1, h2, rfl⟩
      · rintro ⟨o', par, key, h, h1, h2, rfl⟩
        rw [← curveOid_iff, ← oidFromNamedCurve_iff, ho] at h
        obtain rfl := Option.some.inj h
        exact ⟨par, h1, key, h2, rfl⟩

/-- **C110** `MarshalPKCS8PrivateKey` returns `w` without error exactly if `w` is the PrivateKeyInfo of the key. -/
theorem C110_pkcs8 (k : PrivKey) (w : Bytes) (hl : w.length < 2 ^ 31) (hr : ∀ r, k = .rsa r → ProperRsa r) :
    marshalPKCS8PrivateKey k = .ok w ↔ Pkcs8Out k w := by
  cases k with
  | rsa r =>
    simp only [marshalPKCS8PrivateKey, pkcs8Of, Res.bind_eq_ok, Res.pure_eq, Res.ok.injEq, ofOption_ok']
    constructor
    · rintro ⟨_, ⟨key, h1, rfl⟩, h2⟩
      obtain ⟨ve, ae, ke, b1, b2, b3, b4⟩ := (pkcs8_out oid_rsa_ok null_par hl).mp h2
      have l1 := el_length b1
      have l2 := el_length b4
      simp only [List.length_append] at l1
      exact ⟨ve, ae, ke, _, _, key, b1, b2, b3, b4, rfl, rfl, (C110_pkcs1_private r (hr r rfl) key (by omega)).mp h1⟩
    · rintro ⟨ve, ae, ke, _, _, key, b1, b2, b3, b4, rfl, rfl, h1⟩
      have l1 := el_length b1
      have l2 := el_length b4
      simp only [List.length_append] at l1
      exact ⟨_, ⟨key, (C110_pkcs1_private r (hr r rfl) key (by omega)).mpr h1, rfl⟩,
        (pkcs8_out oid_rsa_ok null_par hl).mpr ⟨ve, ae, ke, b1, b2, b3, b4⟩⟩
  | ecdsa s =>
    have he := pkcs8EC_iff s none (by intro o h; cases h)
    rw [Option.getD_none] at he
    simp only [marshalPKCS8PrivateKey, pkcs8Of, Res.bind_eq_ok, ofOption_ok', he]
    constructor
    · rintro ⟨_, ⟨o, par, key, h1, h2, h3, rfl⟩, h4⟩
      obtain ⟨ve, ae, ke, b1, b2, b3, b4⟩ := (pkcs8_out oid_ecdsa_ok (full_par (oidEl_ne h2)) hl).mp h4
      exact ⟨ve, ae, ke, _, par, key, b1, b2, b3, b4, rfl, ⟨o, h1, h2⟩, h3⟩
    · rintro ⟨ve, ae, ke, _, par, key, b1, b2, b3, b4, rfl, ⟨o, h1, h2⟩, h3⟩
      exact ⟨_, ⟨o, par, key, h1, h2, h3, rfl⟩, (pkcs8_out oid_ecdsa_ok (full_par (oidEl_ne h2)) hl).mpr ⟨ve, ae, ke, b1, b2, b3, b4⟩⟩
  | sm2 s =>
    have he := pkcs8EC_iff s (some [1, 2, 156, 10197, 1, 301]) (by
      intro o h; obtain rfl := Option.some.inj h; exact ⟨SM2P256, by decide⟩)
    rw [Option.getD_some] at he
    simp only [marshalPKCS8PrivateKey, pkcs8Of, Res.bind_eq_ok, ofOption_ok', oidNamedCurveSM2P256, he]
    constructor
    · rintro ⟨_, ⟨o, par, key, h1, h2, h3, rfl⟩, h4⟩
      obtain ⟨ve, ae, ke, b1, b2, b3, b4⟩ := (pkcs8_out oid_ecdsa_ok (full_par (oidEl_ne h2)) hl).mp h4
      exact ⟨ve, ae, ke, _, par, key, b1, b2, b3, b4, rfl, ⟨o, h1, h2⟩, h3⟩
    · rintro ⟨ve, ae, ke, _, par, key, b1, b2, b3, b4, rfl, ⟨o, h1, h2⟩, h3⟩
      exact ⟨_, ⟨o, par, key, h1, h2, h3, rfl⟩, (pkcs8_out oid_ecdsa_ok (full_par (oidEl_ne h2)) hl).mpr ⟨ve, ae, ke, b1, b2, b3, b4⟩⟩
  | ed25519 b =>
    unfold marshalPKCS8PrivateKey pkcs8Of
    by_cases hb : b.length < 32
    · simp only [hb, if_true]
      constructor
      · intro h; cases h
      · rintro ⟨_, _, _, _, _, _, -, -, -, -, -, -, h, -⟩; omega
    · simp only [hb, if_false, Res.bind_eq_ok, Res.pure_eq, Res.ok.injEq, ofOption_ok']
      constructor
      · rintro ⟨_, ⟨key, h1, rfl⟩, h2⟩
        obtain ⟨ve, ae, ke, b1, b2, b3, b4⟩ := (pkcs8_out oid_ed_ok no_par hl).mp h2
        have l1 := el_length b1
        have l2 := el_length b4
        simp only [List.length_append] at l1
        exact ⟨ve, ae, ke, _, _, key, b1, b2, b3, b4, rfl, rfl, by omega, (octets_mf (by omega)).mp h1⟩
      · rintro ⟨ve, ae, ke, _, _, key, b1, b2, b3, b4, rfl, rfl, h3, h1⟩
        have l1 := el_length b1
        have l2 := el_length b4
        simp only [List.length_append] at l1
        exact ⟨_, ⟨key, (octets_mf (by omega)).mpr h1, rfl⟩, (pkcs8_out oid_ed_ok no_par hl).mpr ⟨ve, ae, ke, b1, b2, b3, b4⟩⟩
  | other n =>
    constructor
    · intro h; cases h
    · rintro ⟨_, _, _, _, _, _, -, -, -, -, h⟩; exact h.elim

/-! ## Concrete cases -/

/-- A key with three factors: 165 = 3 · 5 · 11. -/
def ex3 : RsaPriv := ⟨⟨165, 3⟩, 7, [3, 5, 11]⟩

theorem ex3_proper : ProperRsa ex3 := ⟨(rsaValidate_iff ex3).mp ⟨by decide, by decide, by decide⟩, by
  simp [ex3]; decide⟩

/-- Version 1, the numbers, 7 mod 2, 7 mod 4, 5⁻¹ mod 3, and for the third factor 11, 7 mod 10, 15⁻¹ mod 11. -/
example : RsaPrivOut ex3 [0x30, 41, 2, 1, 1, 2, 2, 0, 165, 2, 1, 3, 2, 1, 7, 2, 1, 3, 2, 1, 5, 2, 1, 1, 2, 1, 3, 2, 1, 2,
    0x30, 11, 0x30, 9, 2, 1, 11, 2, 1, 7, 2, 1, 3] :=
  (C110_pkcs1_private ex3 ex3_proper _ (by decide)).mp (by decide +kernel)

/-- The SM2 key with private key 1, whose point is the base point. -/
def ex1 : Sm2.PrivateKey := ⟨⟨.sm2p256v1, Curve.G.1, Curve.G.2⟩, 1⟩

example : ∃ w, marshalPKCS8PrivateKey (.sm2 ex1) = .ok w ∧ Pkcs8Out (.sm2 ex1) w := by
  have h : (match marshalPKCS8PrivateKey (.sm2 ex1) with | .ok w => decide (w.length < 2 ^ 31) | _ => false) = true := by decide +kernel
  cases hw : marshalPKCS8PrivateKey (.sm2 ex1) with
  | ok w =>
    rw [hw] at h
    exact ⟨w, rfl, (C110_pkcs8 (.sm2 ex1) w (by simpa using h) (by intro r h; cases h)).mp hw⟩
  | err e => rw [hw] at h; cases h
  | panic => rw [hw] at h; cases h

end MCrypto.Props
