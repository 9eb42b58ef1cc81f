import Verif.Props.X509Keys
import Verif.Props.KeyWrite
/- What ParsePKCS1PrivateKey makes of a file whose CRT values are anything, or missing. -/
namespace MCrypto.X509
open MCrypto MCrypto.Asn1 MCrypto.X509Spec

/-- The integers that are there, moved to the front. -/
def pack : Option Int → Option Int → Option Int → Option Int × Option Int × Option Int
  | none, none, c => (c, none, none)
  | none, some b, c => (some b, c, none)
  | some a, none, c => (some a, c, none)
  | some a, some b, c => (some a, some b, c)

theorem pack_enc_body (ver n e d p q : Int) (dp dq qi : Option Int) (add : List AddPrime) :
    pkcs1Priv.enc ⟨ver, n, e, d, p, q, dp, dq, qi, add⟩ =
      pkcs1Priv.enc ⟨ver, n, e, d, p, q, (pack dp dq qi).1, (pack dp dq qi).2.1, (pack dp dq qi).2.2, add⟩ := by
  have hn : marshalField optInt { opt := some none } none = some [] := marshalField_absent _ _ _ rfl
  unfold pkcs1Priv
  dsimp only
  generalize marshalField goInt {} ver = o1
  generalize marshalField bigInt {} n = o2
  generalize marshalField goInt {} e = o3
  generalize marshalField bigInt {} d = o4
  generalize marshalField bigInt {} p = o5
  generalize marshalField bigInt {} q = o6
  generalize marshalField (seqOf addPrime) { opt := some [] } add = o10
  generalize marshalField optInt { opt := some none } = f at hn
  rcases o1 with _ | o1
  · rfl
  rcases o2 with _ | o2
  · rfl
  rcases o3 with _ | o3
  · rfl
  rcases o4 with _ | o4
  · rfl
  rcases o5 with _ | o5
  · rfl
  rcases o6 with _ | o6
  · rfl
  simp only [Option.bind_eq_bind, Option.bind_some]
  rcases dp with _ | a <;> rcases dq with _ | b <;> rcases qi with _ | c <;> simp only [pack, hn, Option.bind_some, List.nil_append]

theorem pack_enc (ver n e d p q : Int) (dp dq qi : Option Int) (add : List AddPrime) :
    marshal pkcs1Priv ⟨ver, n, e, d, p, q, dp, dq, qi, add⟩ =
      marshal pkcs1Priv ⟨ver, n, e, d, p, q, (pack dp dq qi).1, (pack dp dq qi).2.1, (pack dp dq qi).2.2, add⟩ := by
  have h := pack_enc_body ver n e d p q dp dq qi add
  unfold marshal marshalField
  rw [if_neg (by simp), h]
  exact (if_neg (by simp)).symm

theorem seqOf_addPrime_some {add : List AddPrime} {b : Bytes} (h : (seqOf addPrime).enc add = some b) :
    ∀ a ∈ add, a.prime ≠ none ∧ a.exp ≠ none ∧ a.coeff ≠ none := by
  simp only [seqOf, Option.map_eq_some_iff] at h
  obtain ⟨es, h, hb⟩ := h
  clear hb
  induction add generalizing es with
  | nil => intro a ha; cases ha
  | cons x add ih =>
    obtain ⟨e, es', h1, h2, _⟩ := marshalElems_cons _ _ _ _ h
    intro a ha
    rcases List.mem_cons.mp ha with rfl | ha
    · unfold marshalField at h1
      simp only [Option.bind_eq_bind] at h1
      have : ∃ y, addPrime.enc a = some y := by
        rcases hy : addPrime.enc a with _ | y
        · rw [hy] at h1; simp at h1
        · exact ⟨y, rfl⟩
      obtain ⟨y, hy⟩ := this
      obtain ⟨a1, a2, a3⟩ := a
      refine ⟨?_, ?_, ?_⟩
      all_goals
        rintro rfl
        simp [addPrime, marshalField, optInt] at hy
    · exact ih es' h2 a ha

/-- As `pkcs1Priv_to`: the CRT values may be missing from the end. -/
theorem pkcs1Priv_to' (v : Pkcs1Priv) (hv : v.version = 0 ∨ v.version = 1)
    (h1 : -(2 ^ 63 : Int) ≤ v.e) (h2 : v.e < 2 ^ 63) (hdp : v.dp = none → v.dq = none) (hdq : v.dq = none → v.qinv = none)
    (hadd : ∀ a ∈ v.additional, a.prime ≠ none ∧ a.exp ≠ none ∧ a.coeff ≠ none) : pkcs1Priv.To v v := by
  intro body full h hl
  obtain ⟨version, n, e, d, p, q, dp, dq, qinv, add⟩ := v
  simp (maxSteps := 2000000) only [pkcs1Priv, Option.pure_def, Option.bind_eq_bind, Option.bind_eq_some_iff] at h ⊢
  obtain ⟨e1, hm1, e2, hm2, e3, hm3, e4, hm4, e5, hm5, e6, hm6, e7, hm7, e8, hm8, e9, hm9, e10, hm10, hb⟩ := h
  injection hb with hb
  subst hb
  simp only [List.length_append] at hl
  have hato : (seqOf addPrime).To add add := by
    refine seqOf_to addPrime (by decide) add add ?_
    rw [List.forall₂_same]
    intro a ha
    obtain ⟨p1, p2, p3⟩ := hadd a ha
    obtain ⟨a1, a2, a3⟩ := a
    cases a1 with
    | none => exact absurd rfl p1
    | some a1 =>
      cases a2 with
      | none => exact absurd rfl p2
      | some a2 =>
        cases a3 with
        | none => exact absurd rfl p3
        | some a3 => exact addPrime_to a1 a2 a3
  simp only [] at hdp hdq hv h1 h2
  have hto : ∀ x : Option Int, x ≠ none → optInt.To x x := by
    intro x hne
    cases x with
    | none => exact absurd rfl hne
    | some x => exact optInt_to x
  have hs10 : Skips optInt ({ opt := some none } : Params (Option Int)) e10 := by
    have := skips_opt (c := optInt) (p := { opt := some none }) [] hm10 (by omega) (by decide)
      (by decide) (skips_nil _ _)
    rwa [List.append_nil] at this
  have hnil : ∀ {e : Bytes} {x : Option Int}, x = none → marshalField optInt { opt := some none } x = some e → e = [] := by
    rintro e x rfl hm
    rw [marshalField_absent _ _ _ rfl] at hm
    exact (Option.some.inj hm).symm
  refine ⟨_, parseField_plain _ (goInt_to version (by omega) (by omega)) hm1 (by omega),
    _, parseField_plain _ (bigInt_to n) hm2 (by omega),
    _, parseField_plain _ (goInt_to e h1 h2) hm3 (by omega),
    _, parseField_plain _ (bigInt_to d) hm4 (by omega),
    _, parseField_plain _ (bigInt_to p) hm5 (by omega),
    _, parseField_plain _ (bigInt_to q) hm6 (by omega),
    (dp, e8 ++ (e9 ++ e10)), parseField_opt _ rfl (hto dp) id hm7 (fun h => ?_) (by omega),
    (dq, e9 ++ e10), parseField_opt _ rfl (hto dq) id hm8 (fun h => ?_) (by omega),
    (qinv, e10), parseField_opt _ rfl (hto qinv) id hm9 (fun _ => hs10) (by omega), (add, []), ?_, rfl⟩
  · have := hdp h
    rw [hnil this hm8, hnil (hdq this) hm9]
    exact hs10
  · rw [hnil (hdq h) hm9]
    exact hs10
  · have := parseField_opt (p := { opt := some [] }) [] rfl (fun _ => hato) id hm10 (fun _ => skips_nil _ _) (by omega)
      (by show 16 ≤ 2147483647; decide)
    rwa [List.append_nil] at this

/-- A file with any CRT values or without: what is parsed are the other fields. -/
theorem parse_any (ver n e d p q : Int) (hv : ver = 0 ∨ ver = 1) (h1 : -(2 ^ 63 : Int) ≤ e) (h2 : e < 2 ^ 63) (dp dq qi : Option Int)
    (add : List AddPrime) (b : Bytes) (hb : marshal pkcs1Priv ⟨ver, n, e, d, p, q, dp, dq, qi, add⟩ = some b) (hl : b.length < 2 ^ 31) :
    ∃ dp' dq' qi', unmarshal pkcs1Priv b = some (⟨ver, n, e, d, p, q, dp', dq', qi', add⟩, []) := by
  rw [pack_enc] at hb
  refine ⟨(pack dp dq qi).1, (pack dp dq qi).2.1, (pack dp dq qi).2.2, ?_⟩
  have hadd : ∀ a ∈ add, a.prime ≠ none ∧ a.exp ≠ none ∧ a.coeff ≠ none := by
    by_cases hn : add = []
    · subst hn; intro a ha; cases ha
    have hb' := hb
    unfold marshal marshalField at hb'
    rw [if_neg (by simp)] at hb'
    rcases hy : pkcs1Priv.enc ⟨ver, n, e, d, p, q, (pack dp dq qi).1, (pack dp dq qi).2.1, (pack dp dq qi).2.2, add⟩ with _ | y
    · rw [hy] at hb'; cases hb'
    · simp (maxSteps := 2000000) only [pkcs1Priv, Option.pure_def, Option.bind_eq_bind, Option.bind_eq_some_iff] at hy
      obtain ⟨e1, hm1, e2, hm2, e3, hm3, e4, hm4, e5, hm5, e6, hm6, e7, hm7, e8, hm8, e9, hm9, e10, hm10, _⟩ := hy
      unfold marshalField at hm10
      rw [if_neg (by simpa using hn)] at hm10
      rcases hz : (seqOf addPrime).enc add with _ | z
      · rw [hz] at hm10; cases hm10
      · exact seqOf_addPrime_some hz
  have := unmarshal_to [] (pkcs1Priv_to' ⟨ver, n, e, d, p, q, (pack dp dq qi).1, (pack dp dq qi).2.1, (pack dp dq qi).2.2, add⟩ hv h1 h2
    (by rcases dp with _ | a <;> rcases dq with _ | b <;> rcases qi with _ | c <;> simp [pack])
    (by rcases dp with _ | a <;> rcases dq with _ | b <;> rcases qi with _ | c <;> simp [pack]) hadd) hb hl (by decide)
  rwa [List.append_nil] at this

/-- Two primes: the file can be written whatever the CRT values are. -/
theorem pkcs1Priv_some (ver n e d p q : Int) (dp dq qi : Option Int) :
    ∃ b, marshal pkcs1Priv ⟨ver, n, e, d, p, q, dp, dq, qi, []⟩ = some b := by
  obtain ⟨e1, h1⟩ := marshalField_isSome goInt {} ver ⟨_, rfl⟩
  obtain ⟨e2, h2⟩ := marshalField_isSome bigInt {} n ⟨_, rfl⟩
  obtain ⟨e3, h3⟩ := marshalField_isSome goInt {} e ⟨_, rfl⟩
  obtain ⟨e4, h4⟩ := marshalField_isSome bigInt {} d ⟨_, rfl⟩
  obtain ⟨e5, h5⟩ := marshalField_isSome bigInt {} p ⟨_, rfl⟩
  obtain ⟨e6, h6⟩ := marshalField_isSome bigInt {} q ⟨_, rfl⟩
  have ho : ∀ x : Option Int, ∃ y, marshalField optInt { opt := some none } x = some y := by
    intro x
    by_cases hq : x = none
    · exact ⟨[], marshalField_absent _ _ _ (by rw [hq])⟩
    · exact marshalField_isSome optInt { opt := some none } x (optInt_enc hq)
  obtain ⟨e7, h7⟩ := ho dp
  obtain ⟨e8, h8⟩ := ho dq
  obtain ⟨e9, h9⟩ := ho qi
  have h10 : marshalField (seqOf addPrime) { opt := some [] } [] = some [] := marshalField_absent _ _ _ rfl
  exact marshalField_isSome pkcs1Priv {} _ ⟨_, by
    simp only [pkcs1Priv, h1, h2, h3, h4, h5, h6, h7, h8, h9, h10, Option.bind_eq_bind, Option.bind_some,
      Option.pure_def]
    rfl⟩

end MCrypto.X509
