import Verif.Props.NameWrite
import Verif.X509.CertWriteSpec
import Verif.X509.TimeUtc
import Verif.Props.X509Create
/-
C113, third part: the octets of certificates.
-/
namespace MCrypto.Props
open MCrypto MCrypto.Asn1 MCrypto.X509 MCrypto.X509Spec MCrypto.Dg

/-! ## Identifiers of signature algorithms -/

theorem algOut_small {o : Oid} {oe par : Bytes} (ho : OidOk o) (he : marshalField oid {} o = some oe) (hl : oe.length < 100)
    (hp : oe.length + par.length < 128) (e : Bytes) :
    AlgOut o par e ↔ e = 0x30 :: UInt8.ofNat (oe ++ par).length :: (oe ++ par) := by
  unfold AlgOut
  constructor
  · rintro ⟨oe', h1, h2⟩
    have h3 := (oid_mf ho (by have := h1.2; simp only [List.length_append] at this; omega)).mpr h2
    rw [he] at h3
    obtain rfl := Option.some.inj h3
    exact (small_el _ _ _ (by simp; omega)).mp h1
  · intro h
    exact ⟨oe, (small_el _ _ _ (by simp; omega)).mpr h, (oid_mf ho (by omega)).mp he⟩

theorem pss_out {o : Oid} {n : Int} (arc salt : UInt8) (ho : OidOk o)
    (he : marshalField oid {} o = some [6, 9, 96, 134, 72, 1, 101, 3, 4, 2, arc])
    (hn : marshalField bigInt {} n = some [2, 1, salt]) (e : Bytes) : PssOut o n e ↔ e = pssDER arc salt := by
  have ho' : OidOk (pkcs1 ++ [8]) := (⟨_, _, _, rfl, by decide, by decide⟩)
  have he' : marshalField oid {} (pkcs1 ++ [8]) = some [6, 9, 42, 134, 72, 134, 247, 13, 1, 1, 8] := by decide
  have hi : ∀ s : Bytes, s.length < 2 ^ 31 → (IntEl n s ↔ s = [2, 1, salt]) := fun s hl => by
    rw [← int_mf hl, hn, Option.some.injEq, eq_comm]
  unfold PssOut
  constructor
  · rintro ⟨h0, a0, h1, a1, m, h2, s, k1, k2, k3, k4, k5, k6, k7, k8⟩
    obtain rfl := (hi s k7.2).mp k8
    obtain rfl := (small_el _ _ _ (by simp)).mp k7
    obtain rfl := (algOut_small ho he (by simp) (by simp) _).mp k3
    obtain rfl := (algOut_small ho he (by simp) (by simp) _).mp k6
    obtain rfl := (algOut_small ho' he' (by simp) (by simp) _).mp k5
    obtain rfl := (small_el _ _ _ (by simp)).mp k4
    obtain rfl := (small_el _ _ _ (by simp)).mp k2
    obtain rfl := (small_el _ _ _ (by simp)).mp k1
    rfl
  · rintro rfl
    refine ⟨_, _, _, _, _, _, _, (small_el _ _ _ ?_).mpr rfl, (small_el _ _ _ ?_).mpr rfl, (algOut_small ho he (by simp) (by simp) _).mpr rfl,
      (small_el _ _ _ ?_).mpr rfl, (algOut_small ho' he' (by simp) ?_ _).mpr rfl, (algOut_small ho he (by simp) (by simp) _).mpr rfl, 
      (small_el _ _ _ ?_).mpr rfl, (hi _ (by simp)).mpr rfl⟩ <;> simp

theorem sigAlg_out : ∀ d ∈ signatureAlgorithmDetails, d.pubKeyAlgo ≠ 2 → ∀ e : Bytes, e.length < 2 ^ 31 →
    (marshalField algId {} ⟨d.oid, rowParams d⟩ = some e ↔ SigAlgOut d.algo e) := by
  intro d hd hp e hl
  simp only [signatureAlgorithmDetails, List.mem_cons, List.not_mem_nil, or_false] at hd
  have key : ∀ (o : Oid) (raw : RawValue) (par : Bytes) (P : Bytes → Prop), OidOk o → marshalRaw { opt := some {} } raw = some par →
      (∀ x, P x ↔ x = par) → (marshalField algId {} ⟨o, raw⟩ = some e ↔ ∃ par, AlgOut o par e ∧ P par) := by
    intro o raw par P ho hr hP
    rw [algId_out ho hr hl]
    simp only [hP]
    constructor
    · intro h; exact ⟨_, h, rfl⟩
    · rintro ⟨_, h, rfl⟩; exact h
  rcases hd with rfl | rfl | rfl | rfl | rfl | rfl | rfl | rfl | rfl | rfl | rfl | rfl | rfl | rfl | rfl | rfl
  all_goals first
    | exact absurd rfl hp
    | exact key _ _ _ (fun x => x = [5, 0]) (⟨_, _, _, rfl, by decide, by decide⟩) null_par (fun _ => Iff.rfl)
    | exact key _ _ _ (fun x => x = []) (⟨_, _, _, rfl, by decide, by decide⟩) no_par (fun _ => Iff.rfl)
    | exact key _ _ _ (PssOut (nistAlg ++ [2, 1]) 32) (⟨_, _, _, rfl, by decide, by decide⟩) (full_par (by decide))
        (fun x => pss_out 1 32 (⟨_, _, _, rfl, by decide, by decide⟩) (by decide) (by decide) x)
    | exact key _ _ _ (PssOut (nistAlg ++ [2, 2]) 48) (⟨_, _, _, rfl, by decide, by decide⟩) (full_par (by decide))
        (fun x => pss_out 2 48 (⟨_, _, _, rfl, by decide, by decide⟩) (by decide) (by decide) x)
    | exact key _ _ _ (PssOut (nistAlg ++ [2, 3]) 64) (⟨_, _, _, rfl, by decide, by decide⟩) (full_par (by decide))
        (fun x => pss_out 3 64 (⟨_, _, _, rfl, by decide, by decide⟩) (by decide) (by decide) x)

/-! ## Times, extensions -/

theorem utcTime_out {t : Time} (h : ValidTime t) (e : Bytes) : (∃ u, t.utc = some u ∧ marshalTime u = some e) ↔ UtcOut t e := by
  constructor
  · rintro ⟨u, h1, h2⟩
    obtain ⟨a1, a2, a3⟩ := utc_ok h h1
    have hy : u.year ≤ 9999 := by
      by_contra hc
      unfold marshalTime at h2
      rw [if_pos (by unfold outsideUTCRange; simp; omega), if_pos (by omega)] at h2
      cases h2
    exact ⟨u, a1, a2, hy, Eq.symm a3, (time_out ⟨a1, hy, by rw [a2]; decide⟩ e).mp h2⟩
  · rintro ⟨u, a1, a2, hy, a3, h2⟩
    exact ⟨u, utc_isSome h a1 a2 a3, (time_out ⟨a1, hy, by rw [a2]; decide⟩ e).mpr h2⟩

theorem ext_out {x : Ext} (ho : OidIn x.id) {e : Bytes} (hl : e.length < 2 ^ 31) : marshalField extension {} x = some e ↔ ExtOut x e :=
  three_out (c := extension) rfl rfl rfl (fun _ he => oid_mf_in ho he) (fun _ he => bool_opt he) (fun _ he => octets_mf he) hl

theorem exts_enc_out {l : List Ext} (ho : ∀ x ∈ l, OidIn x.id) {body : Bytes} (hl : body.length < 2 ^ 31) :
    (nilable (seqOf extension)).enc (some l) = some body ↔ Many ExtOut l body := by
  show (seqOf extension).enc l = some body ↔ _
  simp only [seqOf, Option.map_eq_some_iff, marshalElems_iff, Many]
  constructor
  · rintro ⟨es, h1, rfl⟩
    exact ⟨es, rfl, (forall₂_congr_len hl (fun e v hv he => ext_out (ho v hv) he)).mp h1⟩
  · rintro ⟨es, rfl, h1⟩
    exact ⟨es, (forall₂_congr_len hl (fun e v hv he => ext_out (ho v hv) he)).mpr h1, rfl⟩

theorem exts_expl_out {l : List Ext} (ho : ∀ x ∈ l, OidIn x.id) (n : Nat) (hn : n < 31) {u : UInt8} (hu : u = octet 2 true n)
    {e : Bytes} (hl : e.length < 2 ^ 31) :
    marshalField (nilable (seqOf extension)) { opt := some none, tag := some n, explicit := true } (some l) = some e ↔
      ∃ xs, El u xs e ∧ ExtsOut l xs := by
  rw [mf_expl_iff (c := nilable (seqOf extension)) 0x30 u (by decide) (by decide) hn hu (by simp) hl]
  unfold ExtsOut
  constructor
  · rintro ⟨body, ie, h1, h2, h3⟩
    exact ⟨ie, h3, body, h2, (exts_enc_out ho h2.2).mp h1⟩
  · rintro ⟨ie, h3, body, h2, h1⟩
    exact ⟨body, ie, (exts_enc_out ho h2.2).mpr h1, h2, h3⟩

theorem exts_short {l : List Ext} {xs : Bytes} (h : ExtsOut l xs) : ∀ x ∈ l, x.value.length < 2 ^ 31 := by
  obtain ⟨body, -, es, -, h⟩ := h
  intro x hx
  induction h with
  | nil => cases hx
  | cons h1 h2 ih =>
    rcases List.mem_cons.mp hx with rfl | hx
    · obtain ⟨_, _, _, -, -, -, h⟩ := h1
      exact h.2
    · exact ih hx

theorem version_out {e : Bytes} (hl : e.length < 2 ^ 31) :
    marshalField goInt { opt := some 0, tag := some 0, explicit := true } 2 = some e ↔ ∃ v, El 0xa0 v e ∧ IntEl 2 v := by
  rw [mf_expl_iff (c := goInt) 0x02 0xa0 (by decide) (by decide) (by decide) (by decide) (by decide) hl]
  constructor
  · rintro ⟨body, ie, h1, h2, h3⟩
    exact ⟨ie, h3, (goInt_mf (by have := el_length h3; omega)).mp (mf_of (c := goInt) 0x02 (by decide) (by decide) h1 h2)⟩
  · rintro ⟨ie, h3, h⟩
    obtain ⟨body, h1, h2⟩ := (mf_iff (c := goInt) 0x02 (by decide) (by decide) (by have := el_length h3; omega)).mp
      ((goInt_mf (by have := el_length h3; omega)).mpr h)
    exact ⟨body, ie, h1, h2, h3⟩

theorem marshalField_ne_nil {α : Type} [DecidableEq α] {c : Codec α} {v : α} {e : Bytes} (h : marshalField c {} v = some e) :
    e ≠ [] := by
  unfold marshalField at h
  simp only [reduceCtorEq, if_false, Bool.false_eq_true] at h
  cases hb : c.enc v with
  | none => rw [hb] at h; cases h
  | some b =>
    rw [hb] at h
    obtain rfl := Option.some.inj h
    exact encTLV_ne_nil _ _ _ _

theorem subject_ne {c : Certificate} {e : Bytes} (h : SubjectOut c e) : e ≠ [] := by
  rcases h with ⟨h, rfl⟩ | ⟨-, body, h, -⟩
  · exact h
  · exact el_ne_nil h

/-- What a template has to hold for its octets to be defined: times that exist, and arcs of object identifiers that fit
31 bits; the object identifiers may be malformed, then there are no octets. -/
structure TemplateDefined (t p : Certificate) : Prop where
  issuer : ExtraNamesOk p.subject
  subject : ExtraNamesOk t.subject
  notBefore : ValidTime t.notBefore
  notAfter : ValidTime t.notAfter
  unknownExtKeyUsage : ∀ o ∈ t.unknownExtKeyUsage, OidIn o
  policyIdentifiers : ∀ o ∈ t.policyIdentifiers, OidIn o
  extraExtensions : ∀ x ∈ t.extraExtensions, OidIn x.id

theorem tbsCert_out {sha1 : Bytes → Bytes} {t p : Certificate} {pub : PubKey} (ht : TemplateDefined t p) {d : AlgoDetails}
    (hd : d ∈ signatureAlgorithmDetails) (hp : d.pubKeyAlgo ≠ 2) {e : Bytes} (hl : e.length < 2 ^ 31) :
    (t.serialNumber ≠ none ∧ ∃ pkBytes pkAlgo ie se exts nb na, marshalPublicKey pub = .ok (pkBytes, pkAlgo) ∧
      subjectBytes p = some ie ∧ subjectBytes t = some se ∧
      buildCertExtensions t (se == [0x30, 0]) (chooseAuthorityKeyId t p ie se) (chooseSubjectKeyId sha1 t pkBytes) = some exts ∧
      t.notBefore.utc = some nb ∧ t.notAfter.utc = some na ∧
      marshalTbsCert {
        version := 2, serialNumber := t.serialNumber, signatureAlgorithm := ⟨d.oid, rowParams d⟩,
        issuer := { full := ie }, notBefore := nb, notAfter := na, subject := { full := se },
        publicKey := ⟨pkAlgo, ⟨pkBytes, pkBytes.length * 8⟩⟩, extensions := some exts } = some e) ↔
    TbsCertOut sha1 t p pub d.algo e := by
  have haki : ∀ ie se, chooseAuthorityKeyId t p ie se = issuerKeyId t p ie se := by
    intro ie se
    unfold chooseAuthorityKeyId issuerKeyId
    simp only [gt_iff_lt, List.length_pos_iff]
  have hski : ∀ k, chooseSubjectKeyId sha1 t k = subjectKeyIdOf sha1 t k := by
    intro k
    unfold chooseSubjectKeyId subjectKeyIdOf
    simp only [List.length_eq_zero_iff]
  have hemp : ∀ se : Bytes, (se == [0x30, 0]) = decide (se = [0x30, 0]) := fun se => by rw [Bool.eq_iff_iff]; simp
  unfold TbsCertOut
  constructor
  · rintro ⟨hs, key, alg, ie, se, exts, nb, na, h1, h2, h3, h4, h5, h6, h7⟩
    obtain ⟨n, hn⟩ := Option.ne_none_iff_exists'.mp hs
    unfold marshalTbsCert encTbsCert at h7
    simp only [ne_eq, not_true_eq_false, if_false, Option.map_eq_some_iff, Option.pure_def, Option.bind_eq_bind, Option.bind_eq_some_iff, Option.some.injEq] at h7
    obtain ⟨_, ⟨e1, g1, e2, g2, e3, g3, e4, g4, tb, g5, ta, g6, e6, g7, e7, g8, e8, g9, rfl⟩, g10⟩ := h7
    have k0 := (enc_el (t := 0x30) (by decide) (by decide) hl).mp g10
    have kl := k0.2
    simp only [List.length_append] at kl
    have hie : ie ≠ [] := by
      rintro rfl
      unfold subjectBytes at h2
      split_ifs at h2 with hc
      · rw [Option.some.inj h2] at hc; simp at hc
      · exact marshalField_ne_nil h2 rfl
    have hse : se ≠ [] := by
      rintro rfl
      unfold subjectBytes at h3
      split_ifs at h3 with hc
      · rw [Option.some.inj h3] at hc; simp at hc
      · exact marshalField_ne_nil h3 rfl
    rw [marshalRaw_full _ _ hie (by simp)] at g4
    obtain rfl := Option.some.inj g4
    rw [marshalRaw_full _ _ hse (by simp)] at g7
    obtain rfl := Option.some.inj g7
    dsimp only at kl k0
    have hids : ∀ x ∈ exts, OidIn x.id := by
      intro x hx
      rcases built_ids h4 x hx with h | h
      · exact (known_oidOk _ h).oidIn
      · exact ht.extraExtensions _ h
    obtain ⟨xs, k1, k2⟩ := (exts_expl_out hids 3 (by decide) (u := 0xa3) (by decide) (by omega)).mp g9
    obtain ⟨v, k3, k4⟩ := (version_out (by omega)).mp g1
    rw [hn] at g2
    rw [Nat.mul_comm] at g8
    rw [haki, hski, hemp] at h4
    exact ⟨n, e1, v, e2, e3, ie, _, tb, ta, se, e7, key, exts, e8, xs, hn, k0, k3, k4, (optInt_mf (Or.inl rfl) (by omega)).mp g2,
      (sigAlg_out d hd hp _ (by omega)).mp g3, (subject_out ht.issuer (by omega)).mp h2,
      (enc_el (t := 0x30) (by decide) (by decide) (by omega)).mp rfl, (utcTime_out ht.notBefore _).mp ⟨nb, h5, g5⟩,
      (utcTime_out ht.notAfter _).mp ⟨na, h6, g6⟩, (subject_out ht.subject (by omega)).mp h3,
      (pkixKey_out _ _ _ (by omega)).mp ⟨alg, h1, g8⟩,
      (C113_extensions ht.unknownExtKeyUsage ht.policyIdentifiers (exts_short k2)).mp h4, k1, k2⟩
  · rintro ⟨n, e1, v, e2, e3, ie, vbe, tb, ta, se, e7, key, exts, e8, xs, hn, k0, k3, k4, a1, a2, a3, a4, a5, a6, a7, a8, a9, k1, k2⟩
    have kl := k0.2
    simp only [List.length_append] at kl
    have h4 := (C113_extensions ht.unknownExtKeyUsage ht.policyIdentifiers (exts_short k2)).mpr a9
    have hids : ∀ x ∈ exts, OidIn x.id := by
      intro x hx
      rcases built_ids h4 x hx with h | h
      · exact (known_oidOk _ h).oidIn
      · exact ht.extraExtensions _ h
    obtain ⟨alg, h1, g8⟩ := (pkixKey_out _ _ _ (by omega)).mpr a8
    obtain ⟨nb, h5, g5⟩ := (utcTime_out ht.notBefore _).mpr a5
    obtain ⟨na, h6, g6⟩ := (utcTime_out ht.notAfter _).mpr a6
    rw [Nat.mul_comm] at g8
    refine ⟨by rw [hn]; simp, key, alg, ie, se, exts, nb, na, h1, (subject_out ht.issuer (by omega)).mpr a3,
      (subject_out ht.subject (by omega)).mpr a7, by rw [haki, hski, hemp]; exact h4, h5, h6, ?_⟩
    unfold marshalTbsCert encTbsCert
    simp only [ne_eq, not_true_eq_false, if_false, Option.map_eq_some_iff, Option.pure_def, Option.bind_eq_bind, Option.bind_eq_some_iff, Option.some.injEq]
    obtain rfl := (enc_el (cls := 0) (comp := true) (tag := 16) (t := 0x30) (by decide) (by decide) (by omega)).mpr a4
    exact ⟨_, ⟨e1, (version_out (by omega)).mpr ⟨v, k3, k4⟩, e2, by rw [hn]; exact (optInt_mf (Or.inl rfl) (by omega)).mpr a1, e3,
      (sigAlg_out d hd hp _ (by omega)).mpr a2, ie, marshalRaw_full _ _ (subject_ne a3) (by simp), tb, g5, ta, g6, se,
      marshalRaw_full _ _ (subject_ne a7) (by simp), e7, g8, e8,
      (exts_expl_out hids 3 (by decide) (u := 0xa3) (by decide) (by omega)).mpr ⟨xs, k1, k2⟩, rfl⟩,
      (enc_el (t := 0x30) (by decide) (by decide) hl).mpr k0⟩

/-! ## Signing -/

theorem bits_out {key be : Bytes} (hl : be.length < 2 ^ 31) :
    marshalField bits {} ⟨key, key.length * 8⟩ = some be ↔ El 0x03 (0 :: key) be := by
  rw [mf_iff 0x03 (by decide) (by decide) hl]
  simp [bits, encBits]

/-- The row of the table and what follows from it. -/
theorem signing_out {pub : PubKey} {req : Int} {h : Nat} {ai : AlgId} (hs : signingParamsForPublicKey pub req = .ok (h, ai)) :
    h = algHash (chosenAlg req pub) ∧ getSignatureAlgorithmFromAI ai = chosenAlg req pub ∧
      signerOpts req h = optsFor (chosenAlg req pub) ∧ h < 21 ∧
      ∃ d ∈ signatureAlgorithmDetails, d.pubKeyAlgo ≠ 2 ∧ d.algo = chosenAlg req pub ∧ ai = ⟨d.oid, rowParams d⟩ := by
  obtain ⟨q1, q2⟩ := sign_getAlg hs
  obtain ⟨d, hd, h1, h2, h3, h4⟩ := signing_ai hs
  have hh : ∀ d ∈ signatureAlgorithmDetails, d.hash < 21 := by decide
  refine ⟨q2, q1, ?_, h2 ▸ hh d hd, d, hd, h3, h1, h4⟩
  unfold signerOpts optsFor chosenAlg
  rw [← q2]
  by_cases hr : req = 0
  · have hd : ¬ (defaultAlg pub = 12 ∨ defaultAlg pub = 13 ∨ defaultAlg pub = 14) := by
      unfold defaultAlg
      split <;> (try split_ifs) <;> decide
    rw [if_neg (fun hc => hc.1 hr), if_pos hr, if_neg hd]
  · rw [if_neg hr]
    by_cases hm : req = 12 ∨ req = 13 ∨ req = 14
    · rw [if_pos hm, if_pos]
      rcases hm with hm | hm | hm <;> rw [hm] <;> decide
    · rw [if_neg hm, if_neg]
      unfold isRSAPSS
      simp only [not_or] at hm
      simp [hm]

theorem digest_out {calls : List (Nat × Option HashFn)} {reg : Registry} (hr : registerAll noHashes calls = .ok reg) {h : Nat}
    (hh : h < 21) (b d : Bytes) : digestFor reg h b = .ok d ↔ Digest (lastRegistered calls) h b d := by
  unfold digestFor Digest
  by_cases h0 : h = 0
  · rw [if_neg (by simpa using h0)]
    simp only [h0, Res.pure_eq, Res.ok.injEq, true_and, ne_eq, not_true_eq_false, false_and, or_false, eq_comm]
  · rw [if_pos h0, C40_new calls reg hr h]
    simp only [h0, false_and, ne_eq, not_false_eq_true, true_and, false_or]
    cases hf : lastRegistered calls h with
    | none => simp [Res.bind_eq_ok]
    | some f =>
      have : 0 < h ∧ h < 21 := ⟨by omega, hh⟩
      simp [Res.bind_eq_ok, this, eq_comm]

theorem selfCheck_out {calls : List (Nat × Option HashFn)} {reg : Registry} (hr : registerAll noHashes calls = .ok reg)
    (h0 : lastRegistered calls 0 = none) {V : Verifiers} {sha1 : Bytes → Bytes} {ai : AlgId} {a : Int}
    (ha : getSignatureAlgorithmFromAI ai = a) (tbs sig : Bytes) (pub : PubKey) :
    selfCheck ⟨reg, V, sha1⟩ ai tbs sig pub = .ok () ↔ a ∈ uncheckedAlgorithms ∨ SigAccepted (lastRegistered calls) V a tbs sig pub := by
  unfold selfCheck
  simp only [ha]
  have hm : (a = MD5WithRSA ∨ a = SHA1WithRSA ∨ a = ECDSAWithSHA1) ↔ a ∈ uncheckedAlgorithms := by
    unfold uncheckedAlgorithms
    simp only [List.mem_cons, List.not_mem_nil, or_false]
  by_cases hc : a ∈ uncheckedAlgorithms
  · rw [if_pos (hm.mpr hc)]
    simp [hc]
  · rw [if_neg (fun h => hc (hm.mp h))]
    have := (C41_accepts_iff calls reg hr h0 V a tbs sig pub).1
    rw [← this]
    rw [or_iff_right hc]
    cases checkSignature reg V a tbs sig pub with
    | ok u => simp
    | err e => simp
    | panic => simp

/-- A part that was marshalled before is written as it is. -/
theorem kept_out {body tbs e : Bytes} (h : encTLV 0 true 16 body = tbs) (hl : e.length < 2 ^ 31) :
    encTLV 0 true 16 (stripTagAndLength tbs) = e ↔ tbs = e := by
  constructor
  · intro h1
    rw [← h] at h1 ⊢
    rw [strip_encTLV (by rw [h1]; exact hl)] at h1
    exact h1
  · rintro rfl
    rw [← h, stripTagAndLength_tlv 0 true 16 body (by decide) (by decide)
      (by have := encTLV_length_lt 0 true 16 body; rw [h] at this; omega)]

/-- **C113** The octets of certificates. `CreateCertificate` succeeds exactly if what it requires of its arguments is met and
there are octets with the described structure, and these octets are the result. -/
theorem C113_create {calls : List (Nat × Option HashFn)} {reg : Registry} (hr : registerAll noHashes calls = .ok reg)
    (h0 : lastRegistered calls 0 = none) (V : Verifiers) (sha1 : Bytes → Bytes) (t p : Certificate) (pub : PubKey) (key : Signer)
    (ht : TemplateDefined t p) (w : Bytes) (hl : w.length < 2 ^ 31) :
    CreateCertificate ⟨reg, V, sha1⟩ t p pub (some key) = .ok w ↔
      CreateRequires t p pub key ∧ CertOut (lastRegistered calls) V sha1 t p pub key w := by
  constructor
  · intro h
    obtain ⟨key', hk, hreq⟩ := C63_requires _ _ _ _ _ _ h
    obtain rfl := Option.some.inj hk
    refine ⟨hreq, ?_⟩
    obtain ⟨s1, s2, s3, hashFunc, sigAlgo, pkBytes, pkAlgo, ie, se, exts, nb, na, tbs, signed, sig,
      h1, h2, h3, h4, h5, h6, h7, g1, g2, g3, g4, g5⟩ := create_steps h
    obtain ⟨q1, q2, q3, q4, d, hd, q5, q6, rfl⟩ := signing_out h1
    have hc := g1
    unfold marshalTbsCert at hc
    obtain ⟨tb, -, hc⟩ := Option.map_eq_some_iff.mp hc
    have hcne : tbs ≠ [] := by rw [← hc]; exact encTLV_ne_nil _ _ _ _
    unfold marshalCert at g4
    simp only [Option.pure_def, Option.bind_eq_bind, Option.bind_eq_some_iff, Option.some.injEq] at g4
    obtain ⟨c1, k1, ae, k2, be, k3, k4⟩ := g4
    have k5 := (enc_el (t := 0x30) (by decide) (by decide) hl).mp k4
    have kl := k5.2
    simp only [List.length_append] at kl
    unfold marshalTbsCert encTbsCert at k1
    simp only [ne_eq, hcne, not_false_eq_true, if_true, Option.map_some, Option.some.injEq] at k1
    obtain rfl := (kept_out hc (by omega)).mp k1
    rw [q3] at g3
    rw [q1] at g2 q4
    refine ⟨_, tbs, signed, sig, ae, be, rfl, k5, ?_, (digest_out hr q4 _ _).mp g2, g3, ?_, (bits_out (by omega)).mp k3,
      (selfCheck_out hr h0 q2 _ _ _).mp g5⟩
    · rw [← q6]
      exact (tbsCert_out ht hd q5 (by omega)).mp ⟨s1, pkBytes, pkAlgo, ie, se, exts, nb, na, h2, h3, h4, h5, h6, h7, g1⟩
    · rw [← q6]
      exact (sigAlg_out d hd q5 _ (by omega)).mp k2
  · rintro ⟨hreq, a, tbs, signed, sig, ae, be, rfl, k5, h2, g2, g3, g4, k3, g5⟩
    have kl := k5.2
    simp only [List.length_append] at kl
    obtain ⟨⟨hf, ai⟩, h1⟩ := (C43_signing_ok_iff key.pub t.signatureAlgorithm).mpr ⟨hreq.canSign, hreq.family⟩
    obtain ⟨q1, q2, q3, q4, d, hd, q5, q6, rfl⟩ := signing_out h1
    rw [← q6] at h2 g4
    obtain ⟨s1, pkBytes, pkAlgo, ie, se, exts, nb, na, b1, b2, b3, b4, b5, b6, b7⟩ := (tbsCert_out ht hd q5 (by omega)).mpr h2
    have hc := b7
    unfold marshalTbsCert at hc
    obtain ⟨tb, -, hc⟩ := Option.map_eq_some_iff.mp hc
    have hcne : tbs ≠ [] := by rw [← hc]; exact encTLV_ne_nil _ _ _ _
    unfold CreateCertificate
    simp only []
    rw [if_neg s1, if_neg (by rw [(badPathLen_iff t).mpr hreq.pathLen]; simp)]
    simp only [h1, Res.bind_ok, b1, b2, b3, Res.ofOption]
    rw [if_neg (fun hc => hreq.parent.elim hc.1 hc.2)]
    simp only [b4, Res.bind_ok, tbsFor, b5, b6, Option.bind_eq_bind, Option.bind_some, Option.pure_def]
    unfold signCert
    simp only [b7, Res.ofOption, Res.bind_ok]
    rw [← q1] at g2
    rw [(digest_out hr q4 _ _).mpr g2, Res.bind_ok, q3, g3]
    simp only [Res.bind_ok]
    unfold marshalCert
    rw [(show marshalTbsCert _ = some tbs by
      unfold marshalTbsCert encTbsCert
      simp only [ne_eq, hcne, not_false_eq_true, if_true, Option.map_some, Option.some.injEq]
      exact (kept_out hc (by omega)).mpr rfl)]
    rw [(sigAlg_out d hd q5 _ (by omega)).mpr g4, (bits_out (by omega)).mpr k3]
    simp only [Option.bind_eq_bind, Option.bind_some, Option.pure_def, Res.bind_ok]
    rw [(selfCheck_out hr h0 q2 _ _ _).mpr g5]
    simp only [Res.bind_ok, Res.pure_eq, Res.ok.injEq]
    exact (enc_el (t := 0x30) (by decide) (by decide) hl).mpr k5

/-! ### A certificate -/

theorem exCreateTemplate_defined : TemplateDefined exCreateTemplate exCreateTemplate where
  issuer := fun a ha => by rw [List.mem_singleton.mp ha]; exact ⟨(OidOk.oidIn ⟨_, _, _, rfl, by decide, by decide⟩), trivial⟩
  subject := fun a ha => by rw [List.mem_singleton.mp ha]; exact ⟨(OidOk.oidIn ⟨_, _, _, rfl, by decide, by decide⟩), trivial⟩
  notBefore := by constructor <;> decide
  notAfter := by constructor <;> decide
  unknownExtKeyUsage := by
    intro o ho; rw [List.mem_singleton.mp ho]; exact (OidOk.oidIn ⟨_, _, _, rfl, by decide, by decide⟩)
  policyIdentifiers := by
    intro o ho; rw [List.mem_singleton.mp ho]; exact (OidOk.oidIn ⟨_, _, _, rfl, by decide, by decide⟩)
  extraExtensions := by
    intro o ho; rw [List.mem_singleton.mp ho]; exact (OidOk.oidIn ⟨_, _, _, rfl, by decide, by decide⟩)

/-- The example of C63 meets the hypotheses: its octets have the structure. -/
example : ∃ w, w.length < 1000 ∧ CreateRequires exCreateTemplate exCreateTemplate (.rsa ⟨33, 3⟩) exSigner ∧
    CertOut (lastRegistered (initCalls toyH)) toyV exSignEnv.sha1 exCreateTemplate exCreateTemplate (.rsa ⟨33, 3⟩) exSigner w := by
  have key : okAnd (CreateCertificate exSignEnv exCreateTemplate exCreateTemplate (.rsa ⟨33, 3⟩) (some exSigner)) (fun der =>
    der.length < 1000) = true := by decide +kernel
  cases h : CreateCertificate exSignEnv exCreateTemplate exCreateTemplate (.rsa ⟨33, 3⟩) (some exSigner) with
  | ok w =>
    rw [h] at key
    have hl : w.length < 1000 := by simpa [okAnd] using key
    exact ⟨w, hl, (C113_create (initRegistry_ok toyH) (by rw [lastRegistered_init]; simp) toyV _ _ _ _ _ exCreateTemplate_defined w
      (by omega)).mp h⟩
  | err e => rw [h] at key; cases key
  | panic => rw [h] at key; cases key

end MCrypto.Props
