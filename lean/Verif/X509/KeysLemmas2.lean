import Verif.X509.KeysLemmas
import Verif.X509.KeysSpec
import Mathlib.Tactic.Ring
/-
More lemmas for the key formats: what the parsers compute.
-/
namespace MCrypto.X509
open MCrypto MCrypto.Curve MCrypto.Asn1 MCrypto.X509Spec
open MCrypto.Sm2 (CurveId)

theorem jDouble_zero (p : Nat) : jDouble p ⟨0, 0, 0⟩ = ⟨0, 0, 0⟩ := by
  have h0 : ∀ p, fsub p 0 0 = 0 := fun p => by simp [fsub]
  simp [jDouble, h0]

theorem scalarMult_zero_cons (p : Nat) (g : Pt) (k : Bytes) : scalarMult p g (0 :: k) = scalarMult p g k := by
  have hb : bitsOf (0 :: k) = [false, false, false, false, false, false, false, false] ++ bitsOf k := by
    unfold bitsOf
    rw [List.flatMap_cons]
    congr 1
  unfold scalarMult
  rw [hb, List.foldl_append]
  simp only [List.foldl_cons, List.foldl_nil, jDouble_zero, Bool.false_eq_true, if_false]

theorem scalarMult_zeros (p : Nat) (g : Pt) (n : Nat) (k : Bytes) :
    scalarMult p g (List.replicate n 0 ++ k) = scalarMult p g k := by
  induction n with
  | zero => rfl
  | succ n ih => rw [List.replicate_succ, List.cons_append, scalarMult_zero_cons, ih]

theorem scalarMult_beBytes (p : Nat) (g : Pt) {n k : Nat} (h : k < 256 ^ n) :
    scalarMult p g (beBytes n k) = scalarMult p g (toBytes k) := by
  rw [← pad_toBytes h, scalarMult_zeros]

/-- Dropping the leading zeros never fails on a value that fits. -/
theorem stripZeros_ok (n : Nat) (s : Bytes) (h : ofBytes s < 256 ^ n) :
    ∃ s', stripZeros n s = some s' ∧ s'.length ≤ n ∧ ofBytes s' = ofBytes s := by
  induction s with
  | nil => exact ⟨[], rfl, by simp, rfl⟩
  | cons b r ih =>
    rw [stripZeros]
    split
    · rename_i hl
      have hb : b = 0 := by
        by_contra hb
        have hb' : 1 ≤ b.toNat := by
          rcases Nat.eq_zero_or_pos b.toNat with h0 | h0
          · exact absurd (UInt8.toNat_inj.mp h0) hb
          · exact h0
        rw [ofBytes_cons] at h
        have h1 : 256 ^ n ≤ 256 ^ r.length := Nat.pow_le_pow_right (by decide) (by simp at hl; omega)
        have h2 : 1 * 256 ^ r.length ≤ b.toNat * 256 ^ r.length := Nat.mul_le_mul_right _ hb'
        omega
      subst hb
      rw [if_neg (by simp)]
      have : ofBytes (0 :: r) = ofBytes r := by rw [ofBytes_cons]; simp
      rw [this] at h ⊢
      exact ih h
    · rename_i hl
      exact ⟨b :: r, rfl, by omega, rfl⟩

theorem n_lt_nSize (c : CurveParams) : c.n < 256 ^ c.nSize := lt_pow_byteLen c.n

/-- The EC key with scalar `k`. -/
def ecKeyOf (curve : CurveId) (c : CurveParams) (k : Nat) : Sm2.PrivateKey :=
  let q := scalarMult c.p c.g (toBytes k)
  ⟨⟨curve, q.1, q.2⟩, k⟩

theorem ecKeyOf_isKeyPair {curve : CurveId} {c : CurveParams} {k : Nat} (hc : params curve = some c) (hk : k < c.n) :
    IsKeyPair (ecKeyOf curve c k) := ⟨c, hc, hk, rfl⟩

theorem isKeyPair_eq {k : Sm2.PrivateKey} {c : CurveParams} (hc : params k.pub.curve = some c) (h : IsKeyPair k) :
    k = ecKeyOf k.pub.curve c k.d ∧ k.d < c.n := by
  obtain ⟨c', hc', hd, hp⟩ := h
  rw [hc] at hc'
  injection hc' with hc'
  subst hc'
  refine ⟨?_, hd⟩
  obtain ⟨⟨curve, x, y⟩, d⟩ := k
  simp only [ecKeyOf] at hp ⊢
  rw [← hp]

/-- `parseECPrivateKey` on a structure it can read. -/
theorem parseEC_of {o : Option Oid} {der rest : Bytes} {v : EcPriv} {curve : CurveId} {c : CurveParams}
    (h : unmarshal ecPriv der = some (v, rest)) (hv : v.version = 1)
    (hc : namedCurveFromOID (o.getD v.namedCurveOID) = some curve) (hp : params curve = some c) :
    parseECPrivateKey o der = if ofBytes v.privateKey ≥ c.n then .err "x509: invalid elliptic curve private key value"
      else .ok (ecPrivKey (ecKeyOf curve c (ofBytes v.privateKey))) := by
  unfold parseECPrivateKey
  rw [h]
  simp only [hv, ne_eq, not_true_eq_false, if_false, hc, Option.bind_some, hp]
  by_cases hk : ofBytes v.privateKey ≥ c.n
  · rw [if_pos hk, if_pos hk]
  · rw [if_neg hk, if_neg hk]
    have hlt : ofBytes v.privateKey < 256 ^ c.nSize := Nat.lt_trans (by omega) (n_lt_nSize c)
    obtain ⟨s', h1, h2, h3⟩ := stripZeros_ok c.nSize v.privateKey hlt
    rw [h1]
    simp only []
    have hb : baseMult c (List.replicate (c.nSize - s'.length) 0 ++ s') =
        scalarMult c.p c.g (toBytes (ofBytes v.privateKey)) := by
      unfold baseMult
      rw [← scalarMult_beBytes c.p c.g hlt]
      congr 1
      apply ofBytes_inj
      · simp; omega
      · rw [ofBytes_zero_append, ofBytes_beBytes_of_lt hlt, h3]
    rw [hb]
    unfold ecPrivKey ecKeyOf
    simp only []
    split <;> rfl

theorem parseEC_inv {o : Option Oid} {der : Bytes} {key : PrivKey} (h : parseECPrivateKey o der = .ok key) :
    ∃ v rest curve c, unmarshal ecPriv der = some (v, rest) ∧ v.version = 1 ∧
      namedCurveFromOID (o.getD v.namedCurveOID) = some curve ∧ params curve = some c ∧
      ofBytes v.privateKey < c.n ∧ key = ecPrivKey (ecKeyOf curve c (ofBytes v.privateKey)) := by
  match hu : unmarshal ecPriv der with
  | none => unfold parseECPrivateKey at h; rw [hu] at h; cases h
  | some (v, rest) =>
    by_cases hv : v.version = 1
    · match hc : namedCurveFromOID (o.getD v.namedCurveOID) with
      | none =>
        unfold parseECPrivateKey at h; rw [hu] at h
        simp [hv, hc] at h
      | some curve =>
        match hp : params curve with
        | none =>
          unfold parseECPrivateKey at h; rw [hu] at h
          simp [hv, hc, hp] at h
        | some c =>
          rw [parseEC_of hu hv hc hp] at h
          split at h
          · cases h
          · rename_i hk
            injection h with h
            exact ⟨v, rest, curve, c, rfl, hv, hc, hp, by omega, h.symm⟩
    · unfold parseECPrivateKey at h; rw [hu] at h
      simp [hv] at h

theorem parseEC_no_panic (o : Option Oid) (der : Bytes) : parseECPrivateKey o der ≠ .panic := by
  unfold parseECPrivateKey
  split
  · simp
  · split
    · simp
    · simp only []
      split
      · split
        · simp
        · split
          · simp
          · split <;> simp
      · simp

/-! ## Marshalling EC private keys -/

theorem octets_enc (b : Bytes) : octets.enc b = some b := rfl

theorem ecPriv_marshal (d : Bytes) (o : Oid) (ob : Bytes) (ho : o = [] ∨ encOid o = some ob) (pb : Bytes)
    (hl : d.length + ob.length + pb.length < 2 ^ 30) :
    ∃ e, marshal ecPriv ⟨1, d, o, ⟨pb, 0⟩⟩ = some e ∧ e.length ≤ d.length + ob.length + pb.length + 100 := by
  have e1e : goInt.enc 1 = some [1] := by decide
  obtain ⟨e1, h1⟩ := marshalField_isSome goInt {} 1 ⟨_, e1e⟩
  obtain ⟨e2, h2⟩ := marshalField_isSome octets {} d ⟨_, rfl⟩
  have he3 : ∃ e, marshalField oid { opt := some [], tag := some 0, explicit := true } o = some e ∧
      e.length ≤ ob.length + 12 := by
    rcases ho with rfl | ho
    · exact ⟨[], marshalField_absent _ _ _ rfl, by simp⟩
    · obtain ⟨e, he⟩ := marshalField_isSome oid { opt := some [], tag := some 0, explicit := true } o ⟨ob, ho⟩
      exact ⟨e, he, marshalField_length he ho (by omega) (by decide) (by intro n hn; injection hn with hn; omega)⟩
  obtain ⟨e3, h3, l3⟩ := he3
  obtain ⟨e4, h4⟩ := marshalField_isSome bits { opt := some {}, tag := some 1, explicit := true } ⟨pb, 0⟩ ⟨_, rfl⟩
  have l1 := marshalField_length h1 e1e (by decide) (by decide) (by simp)
  have l2 := marshalField_length h2 rfl (by omega) (by decide) (by simp)
  have hb4 : bits.enc ⟨pb, 0⟩ = some (0 :: pb) := by simp [bits, encBits]
  have l4 := marshalField_length h4 hb4 (by simp; omega) (by decide) (by intro n hn; injection hn with hn; omega)
  simp only [List.length_cons, List.length_nil] at l1 l4
  have henc : ecPriv.enc ⟨1, d, o, ⟨pb, 0⟩⟩ = some (e1 ++ (e2 ++ (e3 ++ e4))) := by
    simp only [ecPriv, h1, h2, h3, h4, Option.bind_eq_bind, Option.bind_some, Option.pure_def]
  obtain ⟨e, he⟩ := marshalField_isSome ecPriv {} ⟨1, d, o, ⟨pb, 0⟩⟩ ⟨_, henc⟩
  have l := marshalField_length he henc (by simp only [List.length_append]; omega) (by decide) (by simp)
  simp only [List.length_append] at l
  exact ⟨e, he, by omega⟩

/-- The encodings of the five curve OIDs are short. -/
theorem curveOid_enc {id : CurveId} {o : Oid} (h : oidFromNamedCurve id = some o) :
    ∃ ob, encOid o = some ob ∧ ob.length ≤ 8 ∧ o ≠ [] ∧ OidOk o := by
  unfold oidFromNamedCurve at h
  split at h
  · injection h with h; subst h; exact ⟨_, rfl, by decide, by decide, by decide⟩
  · split at h
    · injection h with h; subst h; exact ⟨_, rfl, by decide, by decide, by decide⟩
    · split at h
      · injection h with h; subst h; exact ⟨_, rfl, by decide, by decide, by decide⟩
      · split at h
        · injection h with h; subst h; exact ⟨_, rfl, by decide, by decide, by decide⟩
        · split at h
          · injection h with h; subst h; exact ⟨_, rfl, by decide, by decide, by decide⟩
          · cases h

/-- What the SEC 1 encoder writes for a key whose numbers fit, the structure parser reads back. -/
theorem marshalEC_ok {c : CurveParams} (hg : Good c) {k : Sm2.PrivateKey} {o : Oid} {id : CurveId}
    (ho : o = [] ∨ oidFromNamedCurve id = some o) (hd : k.d < 256 ^ c.nSize) (hx : k.pub.x < 256 ^ c.size)
    (hy : k.pub.y < 256 ^ c.size) :
    ∃ e, marshalECPrivateKeyWithOID c k o = .ok e ∧ e.length ≤ 500 ∧
      ∀ rest, unmarshal ecPriv (e ++ rest) = some (⟨1, beBytes c.nSize k.d, o,
        ⟨4 :: (beBytes c.size k.pub.x ++ beBytes c.size k.pub.y), (1 + 2 * c.size) * 8⟩⟩, rest) := by
  have hob : ∃ ob, (o = [] ∨ encOid o = some ob) ∧ ob.length ≤ 8 ∧ (o = [] ∨ OidOk o) := by
    rcases ho with rfl | ho
    · exact ⟨[], Or.inl rfl, by simp, Or.inl rfl⟩
    · obtain ⟨ob, h1, h2, _, h4⟩ := curveOid_enc ho
      exact ⟨ob, Or.inr h1, h2, Or.inr h4⟩
  obtain ⟨ob, h1, h2, h3⟩ := hob
  have hs := hg.size_le
  have hn := hg.nsize_le
  obtain ⟨e, he, hl⟩ := ecPriv_marshal (beBytes c.nSize k.d) o ob h1
    (4 :: (beBytes c.size k.pub.x ++ beBytes c.size k.pub.y)) (by simp; omega)
  simp only [beBytes_length, List.length_cons, List.length_append] at hl
  refine ⟨e, ?_, by omega, fun rest => ?_⟩
  · unfold marshalECPrivateKeyWithOID
    rw [fillBytes_ok hd, ellipticMarshal_ok hx hy]
    simp only [Res.bind_ok, he, Res.ofOption]
  · have := unmarshal_to rest (ecPriv_to (beBytes c.nSize k.d) o h3
      (4 :: (beBytes c.size k.pub.x ++ beBytes c.size k.pub.y)) (by simp)) he (by omega) (by decide)
    rw [this]
    have : (4 :: (beBytes c.size k.pub.x ++ beBytes c.size k.pub.y)).length = 1 + 2 * c.size := by simp; omega
    rw [this]

/-- A key whose numbers do not fit makes the encoder panic. -/
theorem marshalEC_panic {c : CurveParams} {k : Sm2.PrivateKey} {o : Oid}
    (h : ¬ (k.d < 256 ^ c.nSize ∧ k.pub.x < 256 ^ c.size ∧ k.pub.y < 256 ^ c.size)) :
    marshalECPrivateKeyWithOID c k o = .panic := by
  unfold marshalECPrivateKeyWithOID ellipticMarshal fillBytes
  by_cases hd : k.d < 256 ^ c.nSize
  · by_cases hx : k.pub.x < 256 ^ c.size
    · have hy : ¬ k.pub.y < 256 ^ c.size := fun hy => h ⟨hd, hx, hy⟩
      rw [if_pos hd, if_pos hx, if_neg hy]; rfl
    · rw [if_pos hd, if_neg hx]; rfl
  · rw [if_neg hd]; rfl

/-! ## PKCS #8 -/

theorem algId_oid_to {o : Oid} (ho : OidOk o) {o' : Oid} {ob : Bytes} (he : encOid o' = some ob) :
    algId.To ⟨o, { full := encTLV 0 false 6 ob }⟩ ⟨o, rawOf 0 false 6 ob⟩ := by
  have h : RawIs { opt := some {} } { full := encTLV 0 false 6 ob } 0 false 6 ob :=
    marshalRaw_full _ _ (encTLV_ne_nil _ _ _ _) (by
      intro hh; injection hh with hh; injection hh with _ _ _ _ hh; exact encTLV_ne_nil _ _ _ _ hh.symm)
  exact algId_to ho h (by decide) (by decide)

theorem algId_null_to {o : Oid} (ho : OidOk o) : algId.To ⟨o, nullRaw⟩ ⟨o, rawOf 0 false 5 []⟩ :=
  algId_to ho (RawIs.parts 0 5 false [] (by decide)) (by decide) (by decide)

theorem marshal_oid {o : Oid} {ob : Bytes} (he : encOid o = some ob) : marshal oid o = some (encTLV 0 false 6 ob) := by
  unfold marshal marshalField
  rw [if_neg (by simp)]
  show (match encOid o with | none => none | some body => _) = _
  rw [he]; rfl

theorem unmarshal_oid {o : Oid} (ho : OidOk o) {ob : Bytes} (he : encOid o = some ob) (hl : ob.length < 2 ^ 30) :
    unmarshal oid (encTLV 0 false 6 ob) = some (o, []) := by
  have := unmarshal_to [] (oid_to ho) (marshal_oid he) (by
    have := encTLV_length_le 0 false 6 ob (by decide) (by omega); omega) (by decide)
  rwa [List.append_nil] at this

theorem pkcs8_marshal {alg : AlgId} {ab : Bytes} (ha : algId.enc alg = some ab) (key : Bytes)
    (hl : ab.length + key.length < 2 ^ 30) :
    ∃ e, marshal pkcs8 ⟨0, alg, key⟩ = some e ∧ e.length ≤ ab.length + key.length + 60 := by
  have e1e : goInt.enc 0 = some [0] := by decide
  obtain ⟨e1, h1⟩ := marshalField_isSome goInt {} 0 ⟨_, e1e⟩
  obtain ⟨e2, h2⟩ := marshalField_isSome algId {} alg ⟨_, ha⟩
  obtain ⟨e3, h3⟩ := marshalField_isSome octets {} key ⟨_, rfl⟩
  have l1 := marshalField_length h1 e1e (by decide) (by decide) (by simp)
  have l2 := marshalField_length h2 ha (by omega) (by decide) (by simp)
  have l3 := marshalField_length h3 rfl (by omega) (by decide) (by simp)
  simp only [List.length_cons, List.length_nil] at l1
  have henc : pkcs8.enc ⟨0, alg, key⟩ = some (e1 ++ (e2 ++ e3)) := by
    simp only [pkcs8, h1, h2, h3, Option.bind_eq_bind, Option.bind_some, Option.pure_def]
  obtain ⟨e, he⟩ := marshalField_isSome pkcs8 {} ⟨0, alg, key⟩ ⟨_, henc⟩
  have l := marshalField_length he henc (by simp only [List.length_append]; omega) (by decide) (by simp)
  simp only [List.length_append] at l
  exact ⟨e, he, by omega⟩

theorem algId_enc_len {o : Oid} {ob : Bytes} (he : encOid o = some ob) (hl : ob.length < 2 ^ 30) (p : RawValue)
    {pb : Bytes} (hp : marshalRaw { opt := some {} } p = some pb) :
    ∃ ab, algId.enc ⟨o, p⟩ = some ab ∧ ab.length ≤ ob.length + pb.length + 6 := by
  have h1 : marshalField oid {} o = some (encTLV 0 false 6 ob) := marshal_oid he
  refine ⟨encTLV 0 false 6 ob ++ pb, ?_, ?_⟩
  · simp only [algId, h1, hp, Option.bind_eq_bind, Option.bind_some, Option.pure_def]
  · have := encTLV_length_le 0 false 6 ob (by decide) (by omega)
    rw [List.length_append]; omega

end MCrypto.X509
