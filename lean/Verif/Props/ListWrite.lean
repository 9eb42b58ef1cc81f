import Verif.Props.CertWrite
import Verif.Props.X509Crl
import Verif.X509.ListWriteSpec
/-
C114 The octets of revocation lists.
-/
namespace MCrypto.Props
open MCrypto MCrypto.Asn1 MCrypto.X509 MCrypto.X509Spec MCrypto.Dg

theorem optInt_some {v : Option Int} {e : Bytes} (hl : e.length < 2 ^ 31) :
    marshalField optInt {} v = some e ↔ ∃ n, v = some n ∧ IntEl n e := by
  cases v with
  | none =>
    simp only [reduceCtorEq, false_and, exists_false, iff_false]
    have : marshalField optInt {} none = none := rfl
    rw [this]; simp
  | some n =>
    simp only [Option.some.injEq, exists_eq_left']
    exact optInt_mf (Or.inl rfl) hl

theorem exts_opt_out {x : Option (List Ext)} (ho : ∀ l, x = some l → ∀ e ∈ l, OidIn e.id) {e : Bytes} (hl : e.length < 2 ^ 31) :
    marshalField (nilable (seqOf extension)) { opt := some none } x = some e ↔ OptExtsOut x e := by
  unfold OptExtsOut
  cases x with
  | none => rw [marshalField_absent _ _ _ rfl]; simp [eq_comm]
  | some l =>
    simp only []
    have : marshalField (nilable (seqOf extension)) { opt := some none } (some l) = marshalField (nilable (seqOf extension)) {} (some l) := rfl
    rw [this]
    exact seq_out (c := nilable (seqOf extension)) rfl rfl (fun body hb => exts_enc_out (ho l rfl) hb) hl

/-- An entry of a list that has an encoding if its serial number is given. -/
structure EntryDefined (r : Revoked) : Prop where
  time : ValidTime r.revocationTime
  extensions : ∀ l, r.extensions = some l → ∀ e ∈ l, OidIn e.id

theorem revoked_out {r : Revoked} (h : EntryDefined r) {e : Bytes} (hl : e.length < 2 ^ 31) :
    (∃ u, r.revocationTime.utc = some u ∧ marshalField revoked {} { r with revocationTime := u } = some e) ↔ RevokedOut r e := by
  unfold RevokedOut
  constructor
  · rintro ⟨u, h1, h2⟩
    obtain ⟨x, y, z, k, a, b, c⟩ := (three_out (c := revoked) (v := { r with revocationTime := u }) (A := fun e => marshalField optInt {} r.serialNumber = some e)
      (B := fun e => marshalTime u = some e) (C := fun e => marshalField (nilable (seqOf extension)) { opt := some none } r.extensions = some e)
      rfl rfl rfl (fun _ _ => Iff.rfl) (fun _ _ => Iff.rfl) (fun _ _ => Iff.rfl) hl).mp h2
    have kl := k.2
    simp only [List.length_append] at kl
    obtain ⟨n, hn, a'⟩ := (optInt_some (by omega)).mp a
    exact ⟨n, x, y, z, hn, k, a', (utcTime_out h.time _).mp ⟨u, h1, b⟩, (exts_opt_out h.extensions (by omega)).mp c⟩
  · rintro ⟨n, x, y, z, hn, k, a, b, c⟩
    have kl := k.2
    simp only [List.length_append] at kl
    obtain ⟨u, h1, b'⟩ := (utcTime_out h.time _).mpr b
    exact ⟨u, h1, (three_out (c := revoked) (v := { r with revocationTime := u }) (A := fun e => marshalField optInt {} r.serialNumber = some e)
      (B := fun e => marshalTime u = some e) (C := fun e => marshalField (nilable (seqOf extension)) { opt := some none } r.extensions = some e)
      rfl rfl rfl (fun _ _ => Iff.rfl) (fun _ _ => Iff.rfl) (fun _ _ => Iff.rfl) hl).mpr
      ⟨x, y, z, k, (optInt_some (by omega)).mpr ⟨n, hn, a⟩, b', (exts_opt_out h.extensions (by omega)).mpr c⟩⟩

theorem entries_list {l : List Revoked} (h : ∀ r ∈ l, EntryDefined r) : ∀ {es : List Bytes}, es.flatten.length < 2 ^ 31 →
    ((∃ l', revokedUTC l = some l' ∧ List.Forall₂ (fun e v => marshalField revoked {} v = some e) es l') ↔
      List.Forall₂ (fun e r => RevokedOut r e) es l) := by
  induction l with
  | nil =>
    intro es _
    simp only [revokedUTC, Option.some.injEq, exists_eq_left', List.forall₂_nil_right_iff]
  | cons r l ih =>
    intro es hl
    have ih' := fun {es} hl => ih (fun r hr => h r (List.mem_cons_of_mem _ hr)) (es := es) hl
    simp only [revokedUTC, Option.pure_def, Option.bind_eq_bind, Option.bind_eq_some_iff, Option.some.injEq]
    constructor
    · rintro ⟨_, ⟨u, h1, l', h2, rfl⟩, h3⟩
      cases h3 with
      | cons h4 h5 =>
        rw [List.flatten_cons, List.length_append] at hl
        exact List.Forall₂.cons ((revoked_out (h r (List.mem_cons_self ..)) (by omega)).mp ⟨u, h1, h4⟩)
          ((ih' (by omega)).mp ⟨l', h2, h5⟩)
    · intro h3
      cases h3 with
      | cons h4 h5 =>
        rw [List.flatten_cons, List.length_append] at hl
        obtain ⟨u, h1, h4'⟩ := (revoked_out (h r (List.mem_cons_self ..)) (by omega)).mpr h4
        obtain ⟨l', h2, h5'⟩ := (ih' (by omega)).mpr h5
        exact ⟨_, ⟨u, h1, l', h2, rfl⟩, List.Forall₂.cons h4' h5'⟩

theorem entries_out {l : List Revoked} (h : ∀ r ∈ l, EntryDefined r) {e : Bytes} (hl : e.length < 2 ^ 31) :
    (∃ l', revokedUTC l = some l' ∧ marshalField (nilable (seqOf revoked)) { opt := some none } (some l') = some e) ↔
      EntriesOut (some l) e := by
  have hm : ∀ l' : List Revoked, marshalField (nilable (seqOf revoked)) { opt := some none } (some l') = some e ↔
      ∃ body, El 0x30 body e ∧ ∃ es : List Bytes, body = es.flatten ∧ List.Forall₂ (fun e v => marshalField revoked {} v = some e) es l' := by
    intro l'
    have : marshalField (nilable (seqOf revoked)) { opt := some none } (some l') = marshalField (nilable (seqOf revoked)) {} (some l') := rfl
    rw [this]
    refine seq_out (c := nilable (seqOf revoked)) rfl rfl ?_ hl
    intro body hb
    show (seqOf revoked).enc l' = some body ↔ _
    simp only [seqOf, Option.map_eq_some_iff, marshalElems_iff]
    constructor
    · rintro ⟨es, h1, rfl⟩; exact ⟨es, rfl, h1⟩
    · rintro ⟨es, rfl, h1⟩; exact ⟨es, h1, rfl⟩
  simp only [hm, EntriesOut, Many]
  constructor
  · rintro ⟨l', h1, body, h2, es, rfl, h3⟩
    exact ⟨_, h2, es, rfl, (entries_list h h2.2).mp ⟨l', h1, h3⟩⟩
  · rintro ⟨_, h2, es, rfl, h3⟩
    obtain ⟨l', h1, h3'⟩ := (entries_list h h2.2).mpr h3
    exact ⟨l', h1, _, h2, es, rfl, h3'⟩

theorem next_out {t : Time} (h : ValidTime t) (e : Bytes) :
    (∃ u, t.utc = some u ∧ marshalOptTime u = some e) ↔ NextOut t e := by
  have hz : ValidTime zeroTime := by constructor <;> decide
  have hz0 : ∀ u, t.utc = some u → (u = zeroTime ↔ SameInstant t zeroTime) := by
    intro u hu
    obtain ⟨a1, a2, a3⟩ := utc_ok h hu
    constructor
    · rintro rfl; exact Eq.symm a3
    · intro hs
      exact utc_unique a1 hz a2 rfl (Eq.trans a3 hs)
  unfold NextOut marshalOptTime
  rw [← utcTime_out h]
  constructor
  · rintro ⟨u, h1, h2⟩
    by_cases hc : u = zeroTime
    · rw [if_pos hc] at h2
      exact Or.inl ⟨(hz0 u h1).mp hc, (Option.some.inj h2).symm⟩
    · rw [if_neg hc] at h2
      exact Or.inr ⟨fun hs => hc ((hz0 u h1).mpr hs), u, h1, h2⟩
  · rintro (⟨hs, rfl⟩ | ⟨hs, u, h1, h2⟩)
    · exact ⟨zeroTime, utc_isSome h hz rfl hs, by rw [if_pos rfl]⟩
    · exact ⟨u, h1, by rw [if_neg (fun hc => hs ((hz0 u h1).mp hc))]; exact h2⟩

/-- The signed part. -/
theorem tbsList_out {issuer : Name} {tu nu : Time} {rs : Option (List Revoked)} {x : Option (List Ext)} (hi : ExtraNamesOk issuer)
    (htu : ValidTime tu) (hnu : ValidTime nu) (hrs : ∀ l, rs = some l → ∀ r ∈ l, EntryDefined r)
    (hx : ∀ l, x = some l → ∀ e ∈ l, OidIn e.id) {d : AlgoDetails}
    (hd : d ∈ signatureAlgorithmDetails) (hp : d.pubKeyAlgo ≠ 2) {e : Bytes} (hl : e.length < 2 ^ 31) :
    (∃ tu' nu' rs', tu.utc = some tu' ∧ nu.utc = some nu' ∧ (match rs with | none => rs' = none | some l => ∃ l', revokedUTC l = some l' ∧ rs' = some l') ∧
      marshal tbsCrl ⟨[], 1, ⟨d.oid, rowParams d⟩, issuer.toRDNSequence, tu', nu', rs', x⟩ = some e) ↔
    TbsListOut d.algo issuer tu nu rs x e := by
  have hv : ∀ e : Bytes, e.length < 2 ^ 31 → (marshalField goInt { opt := some 0 } 1 = some e ↔ IntEl 1 e) := by
    intro e hl
    have : marshalField goInt { opt := some 0 } 1 = marshalField goInt {} 1 := by decide
    rw [this, goInt_mf hl]
  have hre : ∀ re : Bytes, re.length < 2 ^ 31 →
      ((∃ rs', (match rs with | none => rs' = none | some l => ∃ l', revokedUTC l = some l' ∧ rs' = some l') ∧
        marshalField (nilable (seqOf revoked)) { opt := some none } rs' = some re) ↔ EntriesOut rs re) := by
    intro re hl
    cases rs with
    | none =>
      simp only [EntriesOut, exists_eq_left]
      rw [marshalField_absent _ _ _ rfl, Option.some.injEq, eq_comm]
    | some l =>
      rw [← entries_out (hrs l rfl) hl]
      constructor
      · rintro ⟨_, ⟨l', h1, rfl⟩, h2⟩; exact ⟨l', h1, h2⟩
      · rintro ⟨l', h1, h2⟩; exact ⟨_, ⟨l', h1, rfl⟩, h2⟩
  have hxe : ∀ xe : Bytes, xe.length < 2 ^ 31 →
      (marshalField (nilable (seqOf extension)) { opt := some none, tag := some 0, explicit := true } x = some xe ↔
        ListExtsOut x xe) := by
    intro xe hl
    unfold ListExtsOut
    cases x with
    | none => rw [marshalField_absent _ _ _ rfl]; simp [eq_comm]
    | some l => exact exts_expl_out (hx l rfl) 0 (by decide) (by decide) hl
  unfold TbsListOut
  have hme : ∀ tu' nu' rs', marshal tbsCrl ⟨[], 1, ⟨d.oid, rowParams d⟩, issuer.toRDNSequence, tu', nu', rs', x⟩ = some e ↔ 
      ∃ body, El 0x30 body e ∧ ∃ e1 e2 e3 e4 e5 e6 e7, body = e1 ++ (e2 ++ (e3 ++ (e4 ++ (e5 ++ (e6 ++ e7))))) ∧
        marshalField goInt { opt := some 0 } 1 = some e1 ∧ marshalField algId {} ⟨d.oid, rowParams d⟩ = some e2 ∧
        marshalField rdnSequence {} issuer.toRDNSequence = some e3 ∧ marshalTime tu' = some e4 ∧ marshalOptTime nu' = some e5 ∧
        marshalField (nilable (seqOf revoked)) { opt := some none } rs' = some e6 ∧
        marshalField (nilable (seqOf extension)) { opt := some none, tag := some 0, explicit := true } x = some e7 := by
    intro tu' nu' rs'
    refine seq_out (c := tbsCrl) rfl rfl ?_ hl
    intro body hb
    unfold tbsCrl
    simp only [ne_eq, not_true_eq_false, if_false, Option.pure_def, Option.bind_eq_bind, Option.bind_eq_some_iff, Option.some.injEq]
    constructor
    · rintro ⟨e1, h1, e2, h2, e3, h3, e4, h4, e5, h5, e6, h6, e7, h7, rfl⟩
      exact ⟨e1, e2, e3, e4, e5, e6, e7, rfl, h1, h2, h3, h4, h5, h6, h7⟩
    · rintro ⟨e1, e2, e3, e4, e5, e6, e7, rfl, h1, h2, h3, h4, h5, h6, h7⟩
      exact ⟨e1, h1, e2, h2, e3, h3, e4, h4, e5, h5, e6, h6, e7, h7, rfl⟩
  simp only [hme]
  constructor
  · rintro ⟨tu', nu', rs', g1, g2, g3, _, k, e1, e2, e3, e4, e5, e6, e7, rfl, h1, h2, h3, h4, h5, h6, h7⟩
    have kl := k.2
    simp only [List.length_append] at kl
    exact ⟨e1, e2, e3, e4, e5, e6, e7, k, (hv _ (by omega)).mp h1, (sigAlg_out d hd hp _ (by omega)).mp h2,
      (name_out hi (by omega)).mp h3, (utcTime_out htu _).mp ⟨_, g1, h4⟩, (next_out hnu _).mp ⟨_, g2, h5⟩,
      (hre _ (by omega)).mp ⟨_, g3, h6⟩, (hxe _ (by omega)).mp h7⟩
  · rintro ⟨e1, e2, e3, e4, e5, e6, e7, k, h1, h2, h3, h4, h5, h6, h7⟩
    have kl := k.2
    simp only [List.length_append] at kl
    obtain ⟨tu', g1, h4'⟩ := (utcTime_out htu _).mpr h4
    obtain ⟨nu', g2, h5'⟩ := (next_out hnu _).mpr h5
    obtain ⟨rs', g3, h6'⟩ := (hre _ (by omega)).mpr h6
    exact ⟨tu', nu', rs', g1, g2, g3, _, k, e1, e2, e3, e4, e5, e6, e7, rfl, (hv _ (by omega)).mpr h1,
      (sigAlg_out d hd hp _ (by omega)).mpr h2, (name_out hi (by omega)).mpr h3, h4', h5', h6', (hxe _ (by omega)).mpr h7⟩

theorem crl_enc_out {tbs : TbsCrl} {d : AlgoDetails} (hd : d ∈ signatureAlgorithmDetails) (hp : d.pubKeyAlgo ≠ 2) {sig e : Bytes}
    (hl : e.length < 2 ^ 31) :
    marshal crl ⟨tbs, ⟨d.oid, rowParams d⟩, ⟨sig, sig.length * 8⟩⟩ = some e ↔
      ∃ x y z, El 0x30 (x ++ (y ++ z)) e ∧ marshal tbsCrl tbs = some x ∧ SigAlgOut d.algo y ∧ El 0x03 (0 :: sig) z :=
  three_out (c := crl) (f := marshalField tbsCrl {} tbs) (g := marshalField algId {} ⟨d.oid, rowParams d⟩)
    (h := marshalField bits {} ⟨sig, sig.length * 8⟩) rfl rfl (by rfl) (fun _ _ => Iff.rfl) (fun e he => sigAlg_out d hd hp e he) (fun _ he => bits_out he) hl

/-- What a template has to hold for the octets of the list to be defined: times that exist, and arcs of object identifiers that fit
31 bits; the object identifiers may be malformed, then there are no octets. -/
structure ListDefined (issuer : Name) (thisUpdate nextUpdate : Time) (entries : List Revoked) (extra : List Ext) : Prop where
  issuer : ExtraNamesOk issuer
  thisUpdate : ValidTime thisUpdate
  nextUpdate : ValidTime nextUpdate
  entries : ∀ r ∈ entries, EntryDefined r
  extra : ∀ x ∈ extra, OidIn x.id

theorem crlSign_iff (k : Int) : hasBit k 6 ↔ ∃ m : Int, k / 64 = 2 * m + 1 := by
  unfold hasBit
  simp only [decide_eq_true_eq]
  have e : (2 : Int) ^ 6 = 64 := rfl
  rw [e]
  constructor
  · intro h; exact ⟨k / 64 / 2, by omega⟩
  · rintro ⟨m, h⟩; omega

theorem aki_id {k : Bytes} {x : Ext} (h : marshalAuthorityKeyId k = some x) : x = ⟨[2, 5, 29, 35], false, x.value⟩ := by
  unfold marshalAuthorityKeyId at h
  simp only [Option.map_eq_some_iff, Option.pure_def, Option.bind_eq_bind, Option.bind_eq_some_iff, Option.some.injEq] at h
  obtain ⟨_, _, rfl⟩ := h
  rfl

theorem revokedUTC_nil {l l' : List Revoked} (h : revokedUTC l = some l') : l' = [] ↔ l = [] := by
  cases l with
  | nil => simp [revokedUTC] at h; simp [h]
  | cons r l =>
    simp only [revokedUTC, Option.pure_def, Option.bind_eq_bind, Option.bind_eq_some_iff, Option.some.injEq] at h
    obtain ⟨_, _, _, _, rfl⟩ := h
    simp

theorem listExts_short {l : List Ext} {xe : Bytes} (h : ListExtsOut (some l) xe) : ∀ x ∈ l, x.value.length < 2 ^ 31 := by
  obtain ⟨xs, -, h⟩ := h
  exact exts_short h

theorem tbsList_exts {a : Int} {i : Name} {tu nu : Time} {rs : Option (List Revoked)} {l : List Ext} {e : Bytes}
    (h : TbsListOut a i tu nu rs (some l) e) : ∀ x ∈ l, x.value.length < 2 ^ 31 := by
  obtain ⟨_, _, _, _, _, _, _, -, -, -, -, -, -, -, h⟩ := h
  exact listExts_short h

/-- **C114** The octets of the lists of `CreateRevocationList`: it succeeds exactly if what it requires of its arguments is met
and there are octets with the described structure, and these octets are the result. -/
theorem C114_revocationList {calls : List (Nat × Option HashFn)} {reg : Registry} (hr : registerAll noHashes calls = .ok reg)
    (V : Verifiers) (sha1 : Bytes → Bytes) (t : RevocationList) (issuer : Certificate) (key : Signer)
    (ht : ListDefined issuer.subject t.thisUpdate t.nextUpdate t.revokedCertificates t.extraExtensions) (w : Bytes)
    (hl : w.length < 2 ^ 31) :
    CreateRevocationList ⟨reg, V, sha1⟩ (some t) (some issuer) key = .ok w ↔
      CrlRequires t issuer key ∧ RevocationListOut (lastRegistered calls) t issuer key w := by
  have hids : ∀ x : Ext, x.id = [2, 5, 29, 35] → ∀ num, ∀ e ∈ x :: ⟨[2, 5, 29, 20], false, num⟩ :: t.extraExtensions, OidIn e.id := by
    intro x hx num e he
    rcases List.mem_cons.mp he with rfl | he
    · rw [hx]; exact (OidOk.oidIn ⟨_, _, _, rfl, by decide, by decide⟩)
    · rcases List.mem_cons.mp he with rfl | he
      · exact (OidOk.oidIn ⟨_, _, _, rfl, by decide, by decide⟩)
      · exact ht.extra e he
  have hrs : ∀ l, (if t.revokedCertificates = [] then none else some t.revokedCertificates) = some l → ∀ r ∈ l, EntryDefined r := by
    intro l hl
    split_ifs at hl with hc
    rw [← Option.some.inj hl]
    exact ht.entries
  constructor
  · intro h
    obtain ⟨hreq, hashFunc, sigAlgo, tbs, contents, digest, sig, h1, h2, h3, h4, h5, h6⟩ := crl_steps h
    refine ⟨hreq, ?_⟩
    obtain ⟨q1, q2, q3, q4, d, hd, q5, q6, rfl⟩ := signing_out h1
    obtain ⟨x, y, z, k, g1, g2, g3⟩ := (crl_enc_out hd q5 hl).mp h6
    rw [h3] at g1
    obtain rfl := Option.some.inj g1
    have kl := k.2
    simp only [List.length_append] at kl
    unfold revocationListFor at h2
    simp only [Option.pure_def, Option.bind_eq_bind, Option.bind_eq_some_iff, Option.some.injEq] at h2
    obtain ⟨rs, b1, aki, b2, num, b3, tu, b4, nu, b5, rfl⟩ := h2
    have haki := aki_id b2
    have hx := (tbsList_out ht.issuer ht.thisUpdate ht.nextUpdate hrs (x := some ([aki, ⟨oidExtensionCRLNumber, false, num⟩] ++ t.extraExtensions))
      (fun l hl => by rw [← Option.some.inj hl]; exact hids aki (by rw [haki]) num) hd q5 (by omega)).mp
      ⟨tu, nu, _, b4, b5, by
        by_cases hc : t.revokedCertificates = []
        · rw [if_pos hc]
          show (if rs.length > 0 then some rs else none) = none
          rw [if_neg (by rw [(revokedUTC_nil b1).mpr hc]; simp)]
        · rw [if_neg hc]
          exact ⟨rs, b1, if_pos (List.length_pos_iff.mpr (fun h0 => hc ((revokedUTC_nil b1).mp h0)))⟩, h3⟩
    have hsh := tbsList_exts hx
    have hnl : num.length < 2 ^ 31 := hsh ⟨oidExtensionCRLNumber, false, num⟩ (by simp)
    have hal : aki.value.length < 2 ^ 31 := hsh aki (by simp)
    obtain ⟨n, hn, b3'⟩ := (optInt_some hnl).mp b3
    rw [haki] at b2
    rw [q3] at h5
    rw [q1] at h4 q4
    rw [q6] at hx g2
    refine ⟨_, contents, digest, sig, y, z, aki.value, num, n, rfl, hn, k, (aki_out hreq.keyId hal).mp b2, b3', ?_,
      (digest_out hr q4 _ _).mp h4, h5, g2, g3⟩
    rw [haki] at hx
    exact hx
  · rintro ⟨hreq, a, tbs, digest, sig, y, z, aki, num, n, rfl, hn, k, b2, b3, hx, h4, h5, g2, g3⟩
    have kl := k.2
    simp only [List.length_append] at kl
    obtain ⟨⟨hf, ai⟩, h1⟩ := (C43_signing_ok_iff key.pub t.signatureAlgorithm).mpr ⟨hreq.canSign, hreq.family⟩
    obtain ⟨q1, q2, q3, q4, d, hd, q5, q6, rfl⟩ := signing_out h1
    have hsh := tbsList_exts hx
    have hnl : num.length < 2 ^ 31 := hsh ⟨oidExtensionCRLNumber, false, num⟩ (by simp [oidExtensionCRLNumber])
    have hal : aki.length < 2 ^ 31 := hsh ⟨[2, 5, 29, 35], false, aki⟩ (by simp)
    rw [← q6] at hx g2
    obtain ⟨tu, nu, rs', c1, c2, c3, c4⟩ := (tbsList_out ht.issuer ht.thisUpdate ht.nextUpdate hrs
      (fun l hl => by rw [← Option.some.inj hl]; exact hids ⟨[2, 5, 29, 35], false, aki⟩ rfl num) hd q5 (by omega)).mpr hx
    have hrev : ∃ rs, revokedUTC t.revokedCertificates = some rs ∧ rs' = if rs.length > 0 then some rs else none := by
      by_cases hc : t.revokedCertificates = []
      · rw [if_pos hc] at c3
        exact ⟨[], by rw [hc]; rfl, c3⟩
      · rw [if_neg hc] at c3
        obtain ⟨rs, d1, d2⟩ := c3
        exact ⟨rs, d1, by rw [d2, if_pos (List.length_pos_iff.mpr (fun h0 => hc ((revokedUTC_nil d1).mp h0)))]⟩
    obtain ⟨rs, d1, rfl⟩ := hrev
    unfold CreateRevocationList
    simp only []
    rw [if_neg (not_not.mpr ((crlSign_iff _).mpr hreq.crlSign)), if_neg (by rw [List.length_eq_zero_iff]; exact hreq.keyId),
      if_neg (by rw [before_iff]; exact hreq.order), if_neg hreq.number]
    simp only [h1, Res.bind_ok]
    unfold revocationListFor
    rw [d1, (aki_out hreq.keyId hal).mpr b2, (optInt_some hnl).mpr ⟨n, hn, b3⟩, c1, c2]
    simp only [Option.pure_def, Option.bind_eq_bind, Option.bind_some, Res.ofOption, Res.bind_ok]
    simp only [oidExtensionCRLNumber, List.cons_append, List.nil_append]
    rw [c4]
    simp only [Res.bind_ok]
    rw [← q1] at h4
    rw [(digest_out hr q4 _ _).mpr h4, Res.bind_ok]
    unfold signCrl
    rw [q3, h5]
    simp only [Res.bind_ok, Res.ofOption]
    rw [(crl_enc_out hd q5 hl).mpr ⟨tbs, y, z, k, c4, g2, g3⟩]

/-- **C114** The octets of the lists of `CreateCRL`: it succeeds exactly if the key can sign and there are octets with the
described structure, and these octets are the result. -/
theorem C114_crl {calls : List (Nat × Option HashFn)} {reg : Registry} (hr : registerAll noHashes calls = .ok reg)
    (V : Verifiers) (sha1 : Bytes → Bytes) (c : Certificate) (key : Signer) (rs : List Revoked) (now expiry : Time)
    (ht : ListDefined c.subject now expiry rs []) (w : Bytes) (hl : w.length < 2 ^ 31) :
    c.createCRL ⟨reg, V, sha1⟩ (some key) rs now expiry = .ok w ↔
      CanSign key.pub ∧ CrlOut (lastRegistered calls) c key rs now expiry w := by
  have hids : ∀ x : Option (List Ext), (∀ l, x = some l → ∃ aki, l = [⟨[2, 5, 29, 35], false, aki⟩]) → ∀ l, x = some l →
      ∀ e ∈ l, OidIn e.id := by
    intro x hx l hl e he
    obtain ⟨aki, rfl⟩ := hx l hl
    rw [List.mem_singleton.mp he]; exact (OidOk.oidIn ⟨_, _, _, rfl, by decide, by decide⟩)
  have hdig : ∀ {h : Nat}, h < 21 → ∀ b d, digestFor reg (if h = hSM3 then 0 else h) b = .ok d ↔
      (if h = 20 then d = b else Digest (lastRegistered calls) h b d) := by
    intro h hh b d
    by_cases hc : h = 20
    · rw [if_pos hc, if_pos hc]
      unfold digestFor
      simp [eq_comm]
    · rw [if_neg hc, if_neg hc]
      exact digest_out hr hh b d
  have hcan : (∃ r, signingParamsForPublicKey key.pub 0 = .ok r) ↔ CanSign key.pub := by
    rw [C43_signing_ok_iff]; simp
  constructor
  · intro h
    unfold Certificate.createCRL at h
    simp only [Res.bind_eq_ok, Prod.exists, ofOption_ok', signCrl] at h
    obtain ⟨hashFunc, sigAlgo, h1, tbs, h2, contents, h3, digest, h4, sig, h5, h6⟩ := h
    refine ⟨hcan.mp ⟨_, h1⟩, ?_⟩
    obtain ⟨q1, q2, q3, q4, d, hd, q5, q6, rfl⟩ := signing_out h1
    have hch : chosenAlg 0 key.pub = defaultAlg key.pub := if_pos rfl
    rw [hch] at q1 q6
    obtain ⟨x, y, z, k, g1, g2, g3⟩ := (crl_enc_out hd q5 hl).mp h6
    rw [h3] at g1
    obtain rfl := Option.some.inj g1
    have kl := k.2
    simp only [List.length_append] at kl
    unfold crlFor at h2
    simp only [Option.pure_def, Option.bind_eq_bind, Option.bind_eq_some_iff, Option.some.injEq] at h2
    obtain ⟨rs', b1, tu, b4, nu, b5, exts, b2, rfl⟩ := h2
    have hform : ∀ l, exts = some l → ∃ aki, l = [⟨[2, 5, 29, 35], false, aki⟩] := by
      intro l hl
      subst hl
      unfold crlExtensions at b2
      split_ifs at b2 with hc
      swap
      · cases Option.some.inj b2
      simp only [Option.pure_def, Option.bind_eq_bind, Option.bind_eq_some_iff, Option.some.injEq] at b2
      obtain ⟨aki, c1, rfl⟩ := b2
      exact ⟨aki.value, congrArg (fun x => [x]) (aki_id c1)⟩
    have hx := (tbsList_out ht.issuer ht.thisUpdate ht.nextUpdate (rs := some rs) (fun l hl => by rw [← Option.some.inj hl]; exact ht.entries)
      (hids exts hform) hd q5 (by omega)).mp ⟨tu, nu, _, b4, b5, ⟨rs', b1, rfl⟩, h3⟩
    rw [q1] at h4 q4 h5
    rw [q6] at hx g2
    refine ⟨_, contents, digest, sig, y, z, exts, rfl, k, ?_, hx, (hdig q4 _ _).mp h4, h5, g2, g3⟩
    unfold crlExtensions at b2
    by_cases hc : c.subjectKeyId = []
    · rw [if_pos hc]
      rw [if_neg (by rw [hc]; simp)] at b2
      exact (Option.some.inj b2).symm
    · rw [if_neg hc]
      rw [if_pos (List.length_pos_iff.mpr hc)] at b2
      simp only [Option.pure_def, Option.bind_eq_bind, Option.bind_eq_some_iff, Option.some.injEq] at b2
      obtain ⟨aki, c1, rfl⟩ := b2
      have haki := aki_id c1
      rw [haki] at c1
      exact ⟨aki.value, (aki_out hc (tbsList_exts hx aki (by simp))).mp c1, congrArg (fun x => some [x]) haki⟩
  · rintro ⟨hc, a, tbs, digest, sig, y, z, exts, rfl, k, hxs, hx, h4, h5, g2, g3⟩
    have kl := k.2
    simp only [List.length_append] at kl
    obtain ⟨⟨hf, ai⟩, h1⟩ := hcan.mpr hc
    obtain ⟨q1, q2, q3, q4, d, hd, q5, q6, rfl⟩ := signing_out h1
    have hch : chosenAlg 0 key.pub = defaultAlg key.pub := if_pos rfl
    rw [hch] at q1 q6
    have hform : ∀ l, exts = some l → ∃ aki, l = [⟨[2, 5, 29, 35], false, aki⟩] := by
      intro l hl
      subst hl
      by_cases hc : c.subjectKeyId = []
      · rw [if_pos hc] at hxs; cases hxs
      · rw [if_neg hc] at hxs
        obtain ⟨aki, -, h⟩ := hxs
        exact ⟨aki, Option.some.inj h⟩
    have hce : crlExtensions c.subjectKeyId = some exts := by
      unfold crlExtensions
      by_cases hc : c.subjectKeyId = []
      · rw [if_pos hc] at hxs
        rw [if_neg (by rw [hc]; simp), hxs]
      · rw [if_neg hc] at hxs
        obtain ⟨aki, c1, rfl⟩ := hxs
        rw [if_pos (List.length_pos_iff.mpr hc), (aki_out hc (tbsList_exts hx ⟨[2, 5, 29, 35], false, aki⟩ (by simp))).mpr c1]
        rfl
    rw [← q6] at hx g2
    obtain ⟨tu, nu, _, c1, c2, ⟨rs', d1, rfl⟩, c4⟩ := (tbsList_out ht.issuer ht.thisUpdate ht.nextUpdate (rs := some rs)
      (fun l hl => by rw [← Option.some.inj hl]; exact ht.entries) (hids exts hform) hd q5 (by omega)).mpr hx
    unfold Certificate.createCRL
    simp only [h1, Res.bind_ok]
    unfold crlFor
    rw [d1, c1, c2, hce]
    simp only [Option.pure_def, Option.bind_eq_bind, Option.bind_some, Res.ofOption, Res.bind_ok]
    rw [show marshal tbsCrl _ = some tbs from c4]
    simp only [Res.bind_ok]
    rw [← q1] at h4 h5
    rw [(hdig q4 _ _).mpr h4, Res.bind_ok]
    unfold signCrl
    rw [h5]
    simp only [Res.bind_ok, Res.ofOption]
    rw [(crl_enc_out hd q5 hl).mpr ⟨tbs, y, z, k, c4, g2, g3⟩]

/-! ### Lists -/

theorem exCrl_defined : ListDefined exCrlIssuer.subject exCrlTemplate.thisUpdate exCrlTemplate.nextUpdate
    exCrlTemplate.revokedCertificates exCrlTemplate.extraExtensions where
  issuer := fun a ha => by rw [List.mem_singleton.mp ha]; exact ⟨(OidOk.oidIn ⟨_, _, _, rfl, by decide, by decide⟩), trivial⟩
  thisUpdate := by constructor <;> decide
  nextUpdate := by constructor <;> decide
  entries := fun r hr => by
    rw [List.mem_singleton.mp hr]
    exact ⟨by constructor <;> decide, fun l hl => by cases hl⟩
  extra := fun e he => by rw [List.mem_singleton.mp he]; exact (OidOk.oidIn ⟨_, _, _, rfl, by decide, by decide⟩)

/-- The examples of C73 and C74 meet the hypotheses. -/
example : ∃ w, w.length < 1000 ∧ CrlRequires exCrlTemplate exCrlIssuer exSigner ∧
    RevocationListOut (lastRegistered (initCalls toyH)) exCrlTemplate exCrlIssuer exSigner w := by
  have key : okAnd (CreateRevocationList exSignEnv (some exCrlTemplate) (some exCrlIssuer) exSigner) (fun der =>
    der.length < 1000) = true := by decide +kernel
  cases h : CreateRevocationList exSignEnv (some exCrlTemplate) (some exCrlIssuer) exSigner with
  | ok w =>
    rw [h] at key
    have hl : w.length < 1000 := by simpa [okAnd] using key
    exact ⟨w, hl, (C114_revocationList (initRegistry_ok toyH) toyV _ _ _ _ exCrl_defined w (by omega)).mp h⟩
  | err e => rw [h] at key; cases key
  | panic => rw [h] at key; cases key

example : ∃ w, w.length < 1000 ∧ CanSign exSigner.pub ∧ CrlOut (lastRegistered (initCalls toyH)) exCrlIssuer exSigner
    exCrlTemplate.revokedCertificates exCrlTemplate.thisUpdate zeroTime w := by
  have key : okAnd (exCrlIssuer.createCRL exSignEnv (some exSigner) exCrlTemplate.revokedCertificates exCrlTemplate.thisUpdate zeroTime)
    (fun der => der.length < 1000) = true := by decide +kernel
  have hd : ListDefined exCrlIssuer.subject exCrlTemplate.thisUpdate zeroTime exCrlTemplate.revokedCertificates [] :=
    ⟨exCrl_defined.issuer, exCrl_defined.thisUpdate, by constructor <;> decide, exCrl_defined.entries, fun x hx => by cases hx⟩
  cases h : exCrlIssuer.createCRL exSignEnv (some exSigner) exCrlTemplate.revokedCertificates exCrlTemplate.thisUpdate zeroTime with
  | ok w =>
    rw [h] at key
    have hl : w.length < 1000 := by simpa [okAnd] using key
    exact ⟨w, hl, (C114_crl (initRegistry_ok toyH) toyV _ _ _ _ _ _ hd w (by omega)).mp h⟩
  | err e => rw [h] at key; cases key
  | panic => rw [h] at key; cases key

end MCrypto.Props
