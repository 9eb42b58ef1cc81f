import Verif.X509.Keys
import Verif.Asn1.To
import Verif.Curve.Sm2Curve
/-
Lemmas for the key formats.
-/
namespace MCrypto.X509
open MCrypto MCrypto.Curve MCrypto.Asn1
open MCrypto.Sm2 (CurveId)

/-! ## OIDs -/

instance (o : Oid) : Decidable (OidOk o) :=
  match o with
  | [] => .isFalse (by rintro ⟨a, b, l, h, _⟩; cases h)
  | [_] => .isFalse (by rintro ⟨a, b, l, h, _⟩; cases h)
  | a :: b :: l =>
    decidable_of_iff ((a < 2 ∧ b < 40 ∨ a = 2 ∧ b ≤ 2147483567) ∧ ∀ n ∈ l, n ≤ 2147483647) (by
      constructor
      · intro h; exact ⟨a, b, l, rfl, h⟩
      · rintro ⟨a', b', l', h, h'⟩
        injection h with h1 h2; injection h2 with h2 h3
        subst h1; subst h2; subst h3; exact h')

/-- The curves the package knows. -/
theorem params_cases {id : CurveId} {c : CurveParams} (h : params id = some c) :
    (id = SM2P256 ∧ c = sm2p256) ∨ (id = P224 ∧ c = p224) ∨ (id = P256 ∧ c = p256) ∨ (id = P384 ∧ c = p384) ∨
      (id = P521 ∧ c = p521) := by
  cases id with
  | sm2p256v1 => simp only [params, Option.some.injEq] at h; exact Or.inl ⟨rfl, h.symm⟩
  | other k =>
    simp only [params] at h
    split at h
    · rename_i hk; injection h with h; subst hk; subst h; simp
    · split at h
      · rename_i hk; injection h with h; subst hk; subst h; simp
      · split at h
        · rename_i hk; injection h with h; subst hk; subst h; simp
        · split at h
          · rename_i hk; injection h with h; subst hk; subst h; simp
          · cases h

theorem oidFromNamedCurve_iff (id : CurveId) (o : Oid) :
    oidFromNamedCurve id = some o ↔ namedCurveFromOID o = some id := by
  constructor
  · intro h
    unfold oidFromNamedCurve at h
    split at h
    · rename_i hk; injection h with h; subst hk; subst h; decide
    · split at h
      · rename_i hk; injection h with h; subst hk; subst h; decide
      · split at h
        · rename_i hk; injection h with h; subst hk; subst h; decide
        · split at h
          · rename_i hk; injection h with h; subst hk; subst h; decide
          · split at h
            · rename_i hk; injection h with h; subst hk; subst h; decide
            · cases h
  · intro h
    unfold namedCurveFromOID at h
    split at h
    · rename_i hk; injection h with h; subst hk; subst h; decide
    · split at h
      · rename_i hk; injection h with h; subst hk; subst h; decide
      · split at h
        · rename_i hk; injection h with h; subst hk; subst h; decide
        · split at h
          · rename_i hk; injection h with h; subst hk; subst h; decide
          · split at h
            · rename_i hk; injection h with h; subst hk; subst h; decide
            · cases h

/-- A curve has parameters exactly when it has an OID. -/
theorem oid_of_params {id : CurveId} {c : CurveParams} (h : params id = some c) :
    ∃ o, oidFromNamedCurve id = some o ∧ OidOk o := by
  rcases params_cases h with ⟨rfl, _⟩ | ⟨rfl, _⟩ | ⟨rfl, _⟩ | ⟨rfl, _⟩ | ⟨rfl, _⟩
  · exact ⟨oidNamedCurveSM2P256, by decide, by decide⟩
  · exact ⟨oidNamedCurveP224, by decide, by decide⟩
  · exact ⟨oidNamedCurveP256, by decide, by decide⟩
  · exact ⟨oidNamedCurveP384, by decide, by decide⟩
  · exact ⟨oidNamedCurveP521, by decide, by decide⟩

/-! ## Curve parameters -/

structure Good (c : CurveParams) : Prop where
  ppos : 0 < c.p
  g1 : c.g.1 < c.p
  g2 : c.g.2 < c.p
  psize : c.p < 256 ^ c.size
  size_le : c.size ≤ 66
  nsize_le : c.nSize ≤ 66

theorem good_of_params {id : CurveId} {c : CurveParams} (h : params id = some c) : Good c := by
  rcases params_cases h with ⟨_, rfl⟩ | ⟨_, rfl⟩ | ⟨_, rfl⟩ | ⟨_, rfl⟩ | ⟨_, rfl⟩
  all_goals constructor <;> decide +kernel

theorem toAffine_lt {p : Nat} (hp : 0 < p) (q : Jac) : (toAffine p q).1 < p ∧ (toAffine p q).2 < p := by
  unfold toAffine
  split
  · exact ⟨hp, hp⟩
  · exact ⟨Nat.mod_lt _ hp, Nat.mod_lt _ hp⟩

theorem scalarMult_lt {p : Nat} {g : Pt} (hg : g.1 < p ∧ g.2 < p) (k : Bytes) :
    (scalarMult p g k).1 < p ∧ (scalarMult p g k).2 < p := toAffine_lt (by omega) _

theorem fillBytes_ok {v n : Nat} (h : v < 256 ^ n) : fillBytes v n = .ok (beBytes n v) := by
  unfold fillBytes; rw [if_pos h]

theorem ellipticMarshal_ok {c : CurveParams} {x y : Nat} (hx : x < 256 ^ c.size) (hy : y < 256 ^ c.size) :
    ellipticMarshal c x y = .ok (4 :: (beBytes c.size x ++ beBytes c.size y)) := by
  unfold ellipticMarshal
  rw [fillBytes_ok hx, fillBytes_ok hy]
  rfl

theorem ellipticMarshal_inv {c : CurveParams} {x y : Nat} {b : Bytes} (h : ellipticMarshal c x y = .ok b) :
    x < 256 ^ c.size ∧ y < 256 ^ c.size ∧ b = 4 :: (beBytes c.size x ++ beBytes c.size y) := by
  unfold ellipticMarshal at h
  by_cases hx : x < 256 ^ c.size
  · by_cases hy : y < 256 ^ c.size
    · rw [fillBytes_ok hx, fillBytes_ok hy] at h
      simp only [Res.bind_ok, Res.pure_eq, Res.ok.injEq] at h
      exact ⟨hx, hy, h.symm⟩
    · rw [fillBytes_ok hx] at h
      simp [fillBytes, hy] at h
  · simp [fillBytes, hx] at h

/-- `elliptic.Unmarshal` inverts `elliptic.Marshal` on points of the curve. -/
theorem ellipticUnmarshal_marshal {c : CurveParams} {x y : Nat} (hp : c.p < 256 ^ c.size)
    (h : isOnCurve c.p c.b (x, y) = true) :
    ellipticUnmarshal c (4 :: (beBytes c.size x ++ beBytes c.size y)) = some (x, y) := by
  have hxy : x < c.p ∧ y < c.p := by
    unfold isOnCurve at h
    simp only [Bool.and_eq_true, decide_eq_true_eq] at h
    exact ⟨h.1.1, h.1.2⟩
  unfold ellipticUnmarshal
  have hx : ofBytes ((List.drop 1 (4 :: (beBytes c.size x ++ beBytes c.size y))).take c.size) = x := by
    rw [List.drop_succ_cons, List.drop_zero, List.take_left' (by simp), ofBytes_beBytes_of_lt (by omega)]
  have hy : ofBytes (List.drop (1 + c.size) (4 :: (beBytes c.size x ++ beBytes c.size y))) = y := by
    rw [Nat.add_comm, List.drop_succ_cons, List.drop_left' (by simp), ofBytes_beBytes_of_lt (by omega)]
  rw [if_neg (by simp; omega), if_neg (by simp)]
  simp only [hx, hy]
  rw [if_neg (by omega), if_neg (by simp [h])]

theorem ellipticUnmarshal_sound {c : CurveParams} {b : Bytes} {q : Pt} (h : ellipticUnmarshal c b = some q) :
    b = 4 :: (beBytes c.size q.1 ++ beBytes c.size q.2) ∧ isOnCurve c.p c.b q = true := by
  unfold ellipticUnmarshal at h
  split at h
  · cases h
  · rename_i h1
    split at h
    · cases h
    · rename_i h2
      simp only [] at h
      split at h
      · cases h
      · split at h
        · cases h
        · rename_i h3 h4
          injection h with h
          subst h
          refine ⟨?_, by simpa using h4⟩
          cases b with
          | nil => simp at h1; omega
          | cons a b =>
            simp only [List.headD_cons, not_not] at h2
            simp only [List.length_cons, not_not] at h1
            subst h2
            congr 1
            rw [List.drop_succ_cons, List.drop_zero]
            have e1 : beBytes c.size (ofBytes (b.take c.size)) = b.take c.size := by
              have := beBytes_ofBytes (b.take c.size)
              rwa [List.length_take, Nat.min_eq_left (by omega)] at this
            have e2 : beBytes c.size (ofBytes (List.drop (1 + c.size) (4 :: b))) = b.drop c.size := by
              rw [Nat.add_comm, List.drop_succ_cons]
              have := beBytes_ofBytes (b.drop c.size)
              rwa [List.length_drop, show b.length - c.size = c.size by omega] at this
            rw [e1, e2, List.take_append_drop]

/-! ## Structures -/

theorem optInt_to (n : Int) : optInt.To (some n) (some n) := by
  intro body full h _
  simp only [optInt, Option.map_some, Option.some.injEq] at h ⊢
  subst h
  rw [Der.decInt_encInt]; rfl

theorem addPrime_to (p e c : Int) : addPrime.To ⟨some p, some e, some c⟩ ⟨some p, some e, some c⟩ := by
  intro body full h hl
  simp only [addPrime, Option.pure_def, Option.bind_eq_bind, Option.bind_eq_some_iff] at h ⊢
  obtain ⟨e1, h1, e2, h2, e3, h3, hb⟩ := h
  injection hb with hb
  subst hb
  simp only [List.length_append] at hl
  exact ⟨_, parseField_plain _ (optInt_to p) h1 (by omega), _, parseField_plain _ (optInt_to e) h2 (by omega),
    _, parseField_last (optInt_to c) h3 (by dsimp only; omega), rfl⟩

theorem pkcs1Pub_to (k : RsaPub) (h1 : -(2 ^ 63 : Int) ≤ k.e) (h2 : k.e < 2 ^ 63) : pkcs1Pub.To k k := by
  intro body full h hl
  simp only [pkcs1Pub, Option.pure_def, Option.bind_eq_bind, Option.bind_eq_some_iff] at h ⊢
  obtain ⟨e1, hm1, e2, hm2, hb⟩ := h
  injection hb with hb
  subst hb
  simp only [List.length_append] at hl
  exact ⟨_, parseField_plain _ (bigInt_to _) hm1 (by omega), _, parseField_last (goInt_to _ h1 h2) hm2 (by dsimp only; omega), rfl⟩

theorem pkcs1Priv_to (v : Pkcs1Priv) (hv : v.version = 0 ∨ v.version = 1)
    (h1 : -(2 ^ 63 : Int) ≤ v.e) (h2 : v.e < 2 ^ 63) (hdp : v.dp ≠ none) (hdq : v.dq ≠ none)
    (hadd : ∀ a ∈ v.additional, a.prime ≠ none ∧ a.exp ≠ none ∧ a.coeff ≠ none) : pkcs1Priv.To v v := by
  intro body full h hl
  obtain ⟨version, n, e, d, p, q, dp, dq, qinv, add⟩ := v
  simp (maxSteps := 2000000) only [pkcs1Priv, Option.pure_def, Option.bind_eq_bind, Option.bind_eq_some_iff] at h ⊢
  obtain ⟨e1, hm1, e2, hm2, e3, hm3, e4, hm4, e5, hm5, e6, hm6, e7, hm7, e8, hm8, e9, hm9, e10, hm10, hb⟩ := h
  injection hb with hb
  subst hb
  simp only [List.length_append] at hl
  have hato : (seqOf addPrime).To add add := by
    refine seqOf_to addPrime (by decide) add add ?_
    rw [List.forall₂_same]
    intro a ha
    obtain ⟨p1, p2, p3⟩ := hadd a ha
    obtain ⟨a1, a2, a3⟩ := a
    cases a1 with
    | none => exact absurd rfl p1
    | some a1 =>
      cases a2 with
      | none => exact absurd rfl p2
      | some a2 =>
        cases a3 with
        | none => exact absurd rfl p3
        | some a3 => exact addPrime_to a1 a2 a3
  simp only [] at hdp hdq hv h1 h2
  refine ⟨_, parseField_plain _ (goInt_to version (by omega) (by omega)) hm1 (by omega),
    _, parseField_plain _ (bigInt_to n) hm2 (by omega),
    _, parseField_plain _ (goInt_to e h1 h2) hm3 (by omega),
    _, parseField_plain _ (bigInt_to d) hm4 (by omega),
    _, parseField_plain _ (bigInt_to p) hm5 (by omega),
    _, parseField_plain _ (bigInt_to q) hm6 (by omega),
    (dp, e8 ++ (e9 ++ e10)), parseField_opt _ rfl ?_ id hm7 (fun h => absurd h hdp) (by omega),
    (dq, e9 ++ e10), parseField_opt _ rfl ?_ id hm8 (fun h => absurd h hdq) (by omega),
    (qinv, e10), parseField_opt _ rfl ?_ id hm9 (fun _ => ?_) (by omega), (add, []), ?_, rfl⟩
  · intro hne
    cases dp with
    | none => exact absurd rfl hne
    | some x => exact optInt_to x
  · intro hne
    cases dq with
    | none => exact absurd rfl hne
    | some x => exact optInt_to x
  · intro hne
    cases qinv with
    | none => exact absurd rfl hne
    | some x => exact optInt_to x
  · have := skips_opt (c := optInt) (p := { opt := some none }) [] hm10 (by omega) (by decide)
      (by decide) (skips_nil _ _)
    rwa [List.append_nil] at this
  · have := parseField_opt (p := { opt := some [] }) [] rfl (fun _ => hato) id hm10 (fun _ => skips_nil _ _) (by omega)
      (by show 16 ≤ 2147483647; decide)
    rwa [List.append_nil] at this

theorem ecPriv_to (d : Bytes) (o : Oid) (ho : o = [] ∨ OidOk o) (pb : Bytes) (hpb : pb ≠ []) :
    ecPriv.To ⟨1, d, o, ⟨pb, 0⟩⟩ ⟨1, d, o, ⟨pb, pb.length * 8⟩⟩ := by
  intro body full h hl
  simp only [ecPriv, Option.pure_def, Option.bind_eq_bind, Option.bind_eq_some_iff] at h ⊢
  obtain ⟨e1, hm1, e2, hm2, e3, hm3, e4, hm4, hb⟩ := h
  injection hb with hb
  subst hb
  simp only [List.length_append] at hl
  have hne : (some ({} : BitString)) ≠ some ⟨pb, 0⟩ := by
    intro hh; injection hh with hh; injection hh with hh; exact hpb hh.symm
  refine ⟨_, parseField_plain _ (goInt_to 1 (by omega) (by omega)) hm1 (by omega),
    _, parseField_plain _ (octets_to d) hm2 (by omega),
    (o, e4), parseField_opt _ rfl (fun hne => oid_to (ho.resolve_left hne)) id hm3 (fun _ => ?_) (by omega),
    (⟨pb, pb.length * 8⟩, []), ?_, rfl⟩
  · have := skips_field (c := oid) (p := { opt := some [], tag := some 0, explicit := true }) [] hm4 hne (by omega)
      (by decide) (by decide)
    rwa [List.append_nil] at this
  · have := parseField_to [] (bits_to pb 0 (by decide)) hm4 hne (by omega) (by decide) (by simp) (by simp)
    rwa [List.append_nil] at this

theorem pkcs8_to {alg alg' : AlgId} (ha : algId.To alg alg') (key : Bytes) :
    pkcs8.To ⟨0, alg, key⟩ ⟨0, alg', key⟩ := by
  intro body full h hl
  simp only [pkcs8, Option.pure_def, Option.bind_eq_bind, Option.bind_eq_some_iff] at h ⊢
  obtain ⟨e1, hm1, e2, hm2, e3, hm3, hb⟩ := h
  injection hb with hb
  subst hb
  simp only [List.length_append] at hl
  exact ⟨_, parseField_plain _ (goInt_to 0 (by omega) (by omega)) hm1 (by omega),
    _, parseField_plain _ ha hm2 (by omega), _, parseField_last (octets_to key) hm3 (by dsimp only; omega), rfl⟩

theorem spki_to {alg alg' : AlgId} (ha : algId.To alg alg') (key : Bytes) :
    spki.To ⟨alg, ⟨key, 8 * key.length⟩⟩ ⟨alg', ⟨key, key.length * 8⟩⟩ := by
  intro body full h hl
  simp only [spki, Option.pure_def, Option.bind_eq_bind, Option.bind_eq_some_iff] at h ⊢
  obtain ⟨e1, hm1, e2, hm2, hb⟩ := h
  injection hb with hb
  subst hb
  simp only [List.length_append] at hl
  exact ⟨_, parseField_plain _ ha hm1 (by omega), _, parseField_last (bits_to key _ (by omega)) hm2 (by dsimp only; omega), rfl⟩

end MCrypto.X509
