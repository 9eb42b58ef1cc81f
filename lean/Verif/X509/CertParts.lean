import Verif.X509.CertLemmas
import Verif.X509.KeysLemmas
/-
The parts of a parsed certificate, and the key in it.
-/
namespace MCrypto.X509
open MCrypto MCrypto.Asn1 MCrypto.X509Spec MCrypto.Props

theorem ite_or {β : Sort _} {P : Prop} [Decidable P] {x y z : β} (h : (if P then x else y) = z) :
    x = z ∨ (¬ P ∧ y = z) := by
  split at h
  · exact Or.inl h
  · rename_i hp; exact Or.inr ⟨hp, h⟩

theorem parseTail_core {env : Env} {c c' : Certificate} {tbs : Bytes} (h : parseTail env c tbs = some c') :
    ∃ l, core c' = core { c with extensions := l } := by
  unfold parseTail at h
  split at h
  · simp only [Option.pure_def, Option.bind_eq_bind, Option.bind_eq_some_iff] at h
    obtain ⟨t1, _, t2, _, h⟩ := h
    split at h
    · simp only [Option.bind_eq_some_iff, Prod.exists] at h
      obtain ⟨o, r, _, h⟩ := h
      match o, h with
      | none, h => simp at h; subst h; exact ⟨_, rfl⟩
      | some x, h =>
        simp only [Option.bind_eq_some_iff, Prod.exists] at h
        obtain ⟨x', r', _, l, _, h⟩ := h
        unfold processExtensions at h
        exact ⟨_, processLoop_core h⟩
    · simp at h; subst h; exact ⟨_, rfl⟩
  · simp at h; subst h; exact ⟨_, rfl⟩

theorem ofOption_ok {α : Type} {s : String} {x : Option α} {v : α} (h : Res.ofOption s x = .ok v) : x = some v := by
  cases x with
  | none => cases h
  | some w => simp only [Res.ofOption, Res.ok.injEq] at h; rw [h]

/-- What the fields of a parsed certificate come from. -/
theorem parseCertificate_parts {env : Env} {der : Bytes} {c : Certificate} (h : parseCertificate env der = .ok c) :
    ∃ hd id tbs rs sp tbs' sig r, parseCertHead der = some hd ∧ parseIdentity hd.tbs = some (id, tbs) ∧
      parseSpki tbs = some (rs, sp, tbs') ∧
      parsePublicKey (getPublicKeyAlgorithmFromOID sp.algo.algorithm) sp = .ok c.publicKey ∧
      readBits hd.input = some (sig, r) ∧ c.raw = hd.raw ∧ c.rawTBSCertificate = hd.rawTbs ∧
      c.serialNumber = some hd.serial ∧ c.rawIssuer = id.rawIssuer ∧ c.rawSubject = id.rawSubject ∧
      c.signature = rightAlign sig ∧ c.signatureAlgorithm = getSignatureAlgorithmFromAI hd.sigAI := by
  unfold parseCertificate at h
  simp only [Res.bind_eq_ok, Res.pure_eq, Prod.exists, Res.ok.injEq] at h
  obtain ⟨hd, h1, id, tbs, h2, rs, sp, tbs', h3, pub, h4, c', h5, sig, r, h6, rfl⟩ := h
  obtain ⟨l, hl⟩ := parseTail_core (ofOption_ok h5)
  refine ⟨hd, id, tbs, rs, sp, tbs', sig, r, ofOption_ok h1, ofOption_ok h2, ofOption_ok h3, ?_, ofOption_ok h6, ?_, ?_, ?_,
    ?_, ?_, rfl, ?_⟩
  · rw [h4]; have := congrArg Certificate.publicKey hl; exact congrArg Res.ok this.symm
  · have := congrArg Certificate.raw hl; exact this
  · have := congrArg Certificate.rawTBSCertificate hl; exact this
  · have := congrArg Certificate.serialNumber hl; exact this
  · have := congrArg Certificate.rawIssuer hl; exact this
  · have := congrArg Certificate.rawSubject hl; exact this
  · have := congrArg Certificate.signatureAlgorithm hl; exact this

/-- An SM2 key that comes out of the parser is a point of the curve. -/
theorem parsePublicKey_sm2 {a : PkAlgo} {s : Spki} {k : Sm2.PublicKey} (h : parsePublicKey a s = .ok (.sm2 k)) :
    k.curve = .sm2p256v1 ∧ Curve.isOnCurve Curve.P Curve.B (k.x, k.y) = true := by
  unfold parsePublicKey at h
  cases a
  · cases h
  · simp only [parseRSAPub] at h
    repeat' split at h
    all_goals cases h
  · simp only [parseDSAPub] at h
    repeat' split at h
    all_goals cases h
  · simp only [parseECPub] at h
    split at h
    · cases h
    split at h
    · rename_i o _ _ curve c hc hp
      split at h
      · cases h
      rename_i q hq
      split at h
      · rename_i hcv
        simp only [Res.ok.injEq, PubKey.sm2.injEq] at h
        subst h
        subst hcv
        refine ⟨rfl, ?_⟩
        have hp' : params SM2P256 = some c := by rw [hc] at hp; exact hp
        have : c = sm2p256 := by
          have : params SM2P256 = some sm2p256 := rfl
          rw [this] at hp'; injection hp' with hp'; exact hp'.symm
        subst this
        exact (ellipticUnmarshal_sound hq).2
      · cases h
    · cases h
  · simp only [parseEdPub] at h
    repeat' split at h
    all_goals cases h

theorem parseCertificates_mem {env : Env} {s : Bytes} {l : List Certificate} (h : ParseCertificates env s = .ok l) :
    ∀ c ∈ l, ∃ d, ParseCertificate env d = .ok c := by
  obtain ⟨ds, hfl, hf⟩ := (certsAux_iff env s.length s (Nat.le_refl _) l).mp h
  intro c hc
  clear h hfl
  induction hf with
  | nil => cases hc
  | cons hx _ ih =>
    rcases List.mem_cons.mp hc with rfl | hc
    · exact ⟨_, hx⟩
    · exact ih hc

theorem readASN1_len {tag : Der.Tag} {s b r : Bytes} (h : Der.readASN1 tag s = some (b, r)) :
    b.length + r.length ≤ s.length := by
  obtain ⟨rfl, _⟩ := Der.readASN1_sound h
  unfold Der.tlv
  simp only [List.length_cons, List.length_append]
  omega

theorem readElement_len {tag : Der.Tag} {s e r : Bytes} (h : readElement tag s = some (e, r)) :
    e.length + r.length = s.length := by
  obtain ⟨rfl, _⟩ := (readElement_iff _ _ _ _).mp h
  rw [List.length_append]

theorem parseVersion_len {s r : Bytes} {v : Int} (h : parseVersion s = some (v, r)) : r.length ≤ s.length := by
  unfold parseVersion at h
  simp only [Option.bind_eq_bind, Option.bind_eq_some_iff, Prod.exists] at h
  obtain ⟨w, r', h1, h⟩ := h
  have hr : r = r' := by
    split at h
    · cases h
    · simp only [Option.pure_def, Option.bind_some] at h
      rcases ite_or h with h | ⟨_, h⟩
      · cases h
      · simp only [Option.some.injEq, Prod.mk.injEq] at h; exact h.2.symm
  subst hr
  unfold readOptionalGoInt readOptional at h1
  by_cases hp : peek 0xa0 s = true
  · rw [if_pos hp] at h1
    cases hq : Der.readASN1 0xa0 s with
    | none => rw [hq] at h1; cases h1
    | some q =>
      obtain ⟨b, rest⟩ := q
      rw [hq] at h1
      simp only [] at h1
      split at h1
      · simp only [Option.some.injEq, Prod.mk.injEq] at h1
        obtain ⟨_, rfl⟩ := h1
        have := readASN1_len hq
        omega
      · cases h1
  · rw [if_neg hp] at h1
    simp only [Option.some.injEq, Prod.mk.injEq] at h1
    obtain ⟨_, rfl⟩ := h1
    exact Nat.le_refl _

theorem parseCertHead_len {der : Bytes} {hd : CertHead} (h : parseCertHead der = some hd) :
    hd.tbs.length ≤ hd.raw.length := by
  unfold parseCertHead at h
  simp only [Option.pure_def, Option.bind_eq_bind, Option.bind_eq_some_iff, Prod.exists] at h
  obtain ⟨raw, r, h1, i, j, h2, k, l, h3, m, n, h4, o, p, h5, q, r', h6, s, t, h7, u, v, _, h⟩ := h
  split at h
  · cases h
  · simp only [Option.bind_some, Option.bind_eq_some_iff, Option.some.injEq] at h
    obtain ⟨_, _, rfl⟩ := h
    simp only []
    have := readASN1_len h2
    have := readElement_len h3
    have := readASN1_len h4
    have := parseVersion_len h5
    obtain ⟨hq, _⟩ := Der.readInt_sound h6
    have hq := congrArg List.length hq
    rw [List.length_append] at hq
    have := readASN1_len h7
    omega

/-- The issuer of a parsed certificate is one DER SEQUENCE. -/
theorem rawIssuer_elem {env : Env} {d : Bytes} {c : Certificate} (h : ParseCertificate env d = .ok c)
    (hl : c.raw.length < 2 ^ 31) : ∃ b, c.rawIssuer = encTLV 0 true 16 b ∧ b.length < 2 ^ 31 := by
  obtain ⟨hd, id, tbs, _, _, _, _, _, p1, p2, _, _, _, p6, _, _, p9, _⟩ :=
    parseCertificate_parts ((ParseCertificate_iff env _ _).mp h).1
  have h1 := parseCertHead_len p1
  unfold parseIdentity at p2
  simp only [Option.pure_def, Option.bind_eq_bind, Option.bind_eq_some_iff, Prod.exists, Option.some.injEq,
    Prod.mk.injEq] at p2
  obtain ⟨ri, r1, h2, _, _, _, _, _, _, _, _, _, _, _, _, _, rfl, _⟩ := p2
  have h3 := readElement_len h2
  obtain ⟨_, b, hb, _⟩ := (readElement_iff _ _ _ _).mp h2
  refine ⟨b, by rw [p9]; exact hb, ?_⟩
  have : b.length ≤ ri.length := by
    rw [hb]; unfold Der.tlv; simp only [List.length_cons, List.length_append]; omega
  rw [p6] at hl
  omega

end MCrypto.X509
