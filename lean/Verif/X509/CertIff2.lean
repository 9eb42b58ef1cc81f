import Verif.X509.CertIff
import Verif.X509.KeysLemmas
/-
The certificate parser accepts exactly the certificates of Verif.X509.CertSpec: keys, extensions, and the whole.
-/
namespace MCrypto.X509
open MCrypto MCrypto.Asn1 MCrypto.X509Spec MCrypto.Props

/-! ### Keys -/

theorem parseRSAPub_iff (par der : Bytes) (k : PubKey) : parseRSAPub par der = .ok k ↔
    par = [5, 0] ∧ ∃ e ne ee junk tr n x, der = e ++ tr ∧ Elem 0x30 (ne ++ (ee ++ junk)) e ∧ Elem 0x02 (Der.encInt n) ne ∧
      Elem 0x02 (Der.encInt x) ee ∧ 0 < n ∧ 0 < x ∧ x < 2 ^ 63 ∧ k = .rsa ⟨n, x⟩ := by
  unfold parseRSAPub
  constructor
  · intro h
    rcases ite_or h with g | ⟨hp, g⟩
    · cases g
    refine ⟨not_not.mp hp, ?_⟩
    cases h1 : Der.readASN1 Der.tagSEQUENCE der with
    | none => rw [h1] at g; cases g
    | some q =>
      obtain ⟨b, tr⟩ := q
      rw [h1] at g
      simp only [] at g
      cases h2 : Der.readInt b with
      | none => rw [h2] at g; cases g
      | some q =>
        obtain ⟨n, b2⟩ := q
        rw [h2] at g
        simp only [] at g
        cases h3 : readGoInt b2 with
        | none => rw [h3] at g; cases g
        | some q =>
          obtain ⟨x, junk⟩ := q
          rw [h3] at g
          simp only [] at g
          rcases ite_or g with g | ⟨hn, g⟩
          · cases g
          rcases ite_or g with g | ⟨hx, g⟩
          · cases g
          injection g with g
          obtain ⟨ne, rfl, g2⟩ := (readInt_iff _ _ _).mp h2
          obtain ⟨ee, rfl, g3, _, hx'⟩ := (readGoInt_iff _ _ _).mp h3
          obtain ⟨e, rfl, g1⟩ := (readASN1_iff _ _ _ _).mp h1
          exact ⟨e, ne, ee, junk, tr, n, x, rfl, g1, g2, g3, by omega, by omega, hx', g.symm⟩
  · rintro ⟨rfl, e, ne, ee, junk, tr, n, x, rfl, g1, g2, g3, hn, hx, hx', rfl⟩
    rw [if_neg (by simp), (readASN1_iff Der.tagSEQUENCE _ _ _).mpr ⟨e, rfl, g1⟩]
    simp only []
    rw [(readInt_iff _ _ _).mpr ⟨ne, rfl, g2⟩]
    simp only []
    rw [(readGoInt_iff _ _ _).mpr ⟨ee, rfl, g3, by omega, hx'⟩]
    simp only []
    rw [if_neg (by omega), if_neg (by omega)]

theorem parseDSAPub_iff (par der : Bytes) (k : PubKey) : parseDSAPub par der = .ok k ↔
    ∃ ye tr e pe qe ge junk tr' y p q g, der = ye ++ tr ∧ Elem 0x02 (Der.encInt y) ye ∧ par = e ++ tr' ∧
      Elem 0x30 (pe ++ (qe ++ (ge ++ junk))) e ∧ Elem 0x02 (Der.encInt p) pe ∧ Elem 0x02 (Der.encInt q) qe ∧
      Elem 0x02 (Der.encInt g) ge ∧ 0 < y ∧ 0 < p ∧ 0 < q ∧ 0 < g ∧ k = .dsa ⟨p, q, g, y⟩ := by
  unfold parseDSAPub
  constructor
  · intro h
    cases h1 : Der.readInt der with
    | none => rw [h1] at h; cases h
    | some z =>
      obtain ⟨y, tr⟩ := z
      rw [h1] at h
      simp only [] at h
      cases h2 : readDSAParams par with
      | none => rw [h2] at h; cases h
      | some z =>
        obtain ⟨p, q, g⟩ := z
        rw [h2] at h
        simp only [] at h
        rcases ite_or h with h | ⟨hn, h⟩
        · cases h
        injection h with h
        unfold readDSAParams at h2
        simp only [Option.pure_def, Option.bind_eq_bind, Option.bind_eq_some_iff, Prod.exists, Option.some.injEq,
          Prod.mk.injEq] at h2
        obtain ⟨b, tr', a1, p', b1, a2, q', b2, a3, g', junk, a4, rfl, rfl, rfl⟩ := h2
        obtain ⟨pe, rfl, c2⟩ := (readInt_iff _ _ _).mp a2
        obtain ⟨qe, rfl, c3⟩ := (readInt_iff _ _ _).mp a3
        obtain ⟨ge, rfl, c4⟩ := (readInt_iff _ _ _).mp a4
        obtain ⟨e, rfl, c1⟩ := (readASN1_iff _ _ _ _).mp a1
        obtain ⟨ye, rfl, c0⟩ := (readInt_iff _ _ _).mp h1
        exact ⟨ye, tr, e, pe, qe, ge, junk, tr', y, p', q', g', rfl, c0, rfl, c1, c2, c3, c4, by omega, by omega, by omega,
          by omega, h.symm⟩
  · rintro ⟨ye, tr, e, pe, qe, ge, junk, tr', y, p, q, g, rfl, c0, rfl, c1, c2, c3, c4, d0, d1, d2, d3, rfl⟩
    rw [(readInt_iff _ _ _).mpr ⟨ye, rfl, c0⟩]
    have : readDSAParams (e ++ tr') = some (p, q, g) := by
      unfold readDSAParams
      rw [(readASN1_iff Der.tagSEQUENCE _ _ _).mpr ⟨e, rfl, c1⟩]
      simp only [Option.bind_eq_bind, Option.bind_some]
      rw [(readInt_iff _ _ _).mpr ⟨pe, rfl, c2⟩]
      simp only [Option.bind_some]
      rw [(readInt_iff _ _ _).mpr ⟨qe, rfl, c3⟩]
      simp only [Option.bind_some]
      rw [(readInt_iff _ _ _).mpr ⟨ge, rfl, c4⟩]
      rfl
    rw [this]
    simp only []
    rw [if_neg (by omega)]

theorem curveOid_iff (c : Sm2.CurveId) (o : Oid) : namedCurveFromOID o = some c ↔ curveOid c o := by
  rw [← oidFromNamedCurve_iff]
  unfold curveOid
  simp only [List.mem_cons, List.not_mem_nil, or_false, Prod.mk.injEq]
  unfold oidFromNamedCurve
  constructor
  · intro h
    repeat' split at h
    all_goals first | (injection h with h; subst h; subst_vars; simp [oidNamedCurveP224, oidNamedCurveP256, oidNamedCurveP384, oidNamedCurveP521, oidNamedCurveSM2P256]; done) | cases h
  · rintro (⟨rfl, rfl⟩ | ⟨rfl, rfl⟩ | ⟨rfl, rfl⟩ | ⟨rfl, rfl⟩ | ⟨rfl, rfl⟩) <;> decide

theorem parseECPub_iff (par der : Bytes) (k : PubKey) : parseECPub par der = .ok k ↔
    ∃ oe tr co c cp x y, par = oe ++ tr ∧ OidElem co oe ∧ curveOid c co ∧ X509.params c = some cp ∧
      der = 4 :: (beBytes cp.size x ++ beBytes cp.size y) ∧ Curve.isOnCurve cp.p cp.b (x, y) = true ∧
      k = ecPubKey ⟨c, x, y⟩ := by
  unfold parseECPub
  constructor
  · intro h
    cases h1 : readOID par with
    | none => rw [h1] at h; cases h
    | some z =>
      obtain ⟨o, tr⟩ := z
      rw [h1] at h
      simp only [] at h
      cases h2 : namedCurveFromOID o with
      | none => rw [h2] at h; cases h
      | some c =>
        rw [h2] at h
        simp only [Option.bind_some] at h
        cases h3 : params c with
        | none => rw [h3] at h; cases h
        | some cp =>
          rw [h3] at h
          simp only [] at h
          cases h4 : ellipticUnmarshal cp der with
          | none => rw [h4] at h; cases h
          | some q =>
            obtain ⟨x, y⟩ := q
            rw [h4] at h
            simp only [] at h
            obtain ⟨e1, e2⟩ := ellipticUnmarshal_sound h4
            obtain ⟨oe, rfl, ho⟩ := (readOID_iff _ _ _).mp h1
            refine ⟨oe, tr, o, c, cp, x, y, rfl, ho, (curveOid_iff _ _).mp h2, h3, e1, e2, ?_⟩
            unfold ecPubKey
            split at h
            · rename_i hc; injection h with h; rw [if_pos hc, h]
            · rename_i hc; injection h with h; rw [if_neg hc, h]
  · rintro ⟨oe, tr, o, c, cp, x, y, rfl, ho, hc, hp, rfl, hon, rfl⟩
    rw [(readOID_iff _ _ _).mpr ⟨oe, rfl, ho⟩]
    simp only []
    rw [(curveOid_iff _ _).mpr hc]
    simp only [Option.bind_some]
    rw [hp]
    simp only []
    rw [ellipticUnmarshal_marshal (good_of_params hp).psize hon]
    unfold ecPubKey
    simp only []
    by_cases h : c = SM2P256
    · rw [if_pos h, if_pos h]
    · rw [if_neg h, if_neg h]

theorem parsePublicKey_iff (s : Spki) (k : PubKey) :
    parsePublicKey (getPublicKeyAlgorithmFromOID s.algo.algorithm) s = .ok k ↔
      KeyDer s.algo.algorithm s.algo.parameters.full (rightAlign s.publicKey) k := by
  unfold getPublicKeyAlgorithmFromOID KeyDer parsePublicKey
  by_cases h1 : s.algo.algorithm = [1, 2, 840, 113549, 1, 1, 1]
  · rw [if_pos (show s.algo.algorithm = oidPublicKeyRSA from h1), if_pos h1]
    exact parseRSAPub_iff _ _ _
  rw [if_neg (show ¬ s.algo.algorithm = oidPublicKeyRSA from h1), if_neg h1]
  by_cases h2 : s.algo.algorithm = [1, 2, 840, 10040, 4, 1]
  · rw [if_pos (show s.algo.algorithm = oidPublicKeyDSA from h2), if_pos h2]
    exact parseDSAPub_iff _ _ _
  rw [if_neg (show ¬ s.algo.algorithm = oidPublicKeyDSA from h2), if_neg h2]
  by_cases h3 : s.algo.algorithm = [1, 2, 840, 10045, 2, 1]
  · rw [if_pos (show s.algo.algorithm = oidPublicKeyECDSA from h3), if_pos h3]
    exact parseECPub_iff _ _ _
  rw [if_neg (show ¬ s.algo.algorithm = oidPublicKeyECDSA from h3), if_neg h3]
  by_cases h4 : s.algo.algorithm = [1, 3, 101, 112]
  · rw [if_pos (show s.algo.algorithm = oidPublicKeyEd25519 from h4), if_pos h4]
    show parseEdPub _ _ = _ ↔ _
    unfold parseEdPub
    constructor
    · intro h
      rcases ite_or h with g | ⟨hp, g⟩
      · cases g
      rcases ite_or g with g' | ⟨hl, g'⟩
      · cases g'
      injection g' with g'
      exact ⟨List.length_eq_zero_iff.mp (not_not.mp hp), not_not.mp hl, g'.symm⟩
    · rintro ⟨hp, hl, rfl⟩
      rw [hp, if_neg (by simp), if_neg (by simp [hl])]
  rw [if_neg (show ¬ s.algo.algorithm = oidPublicKeyEd25519 from h4), if_neg h4]
  show Res.ok PubKey.nil = .ok k ↔ _
  simp only [Res.ok.injEq]
  exact eq_comm

/-! ### The tail -/

theorem skipOptional_iff (tag : Der.Tag) (s r : Bytes) : skipOptional tag s = some r ↔ Maybe tag s r := by
  unfold skipOptional Maybe
  constructor
  · intro h
    cases h1 : readOptional tag s with
    | none => rw [h1] at h; cases h
    | some q =>
      obtain ⟨o, rest⟩ := q
      rw [h1] at h
      simp only [Option.some.injEq] at h
      subst h
      obtain ⟨e, rfl, ho, hh⟩ := (readOptional_iff _ _ _ _).mp h1
      cases o with
      | none => left; have : e = [] := ho; subst this; exact ⟨rfl, hh rfl⟩
      | some b => right; exact ⟨b, e, ho, rfl⟩
  · rintro (⟨rfl, hh⟩ | ⟨b, e, he, rfl⟩)
    · rw [(readOptional_iff tag s none s).mpr ⟨[], rfl, rfl, fun _ => hh⟩]
    · rw [(readOptional_iff tag _ (some b) r).mpr ⟨e, rfl, he, by simp⟩]

theorem readExtension_iff (s : Bytes) (x : Ext) (rest : Bytes) :
    readExtension s = some (x, rest) ↔ ∃ e, s = e ++ rest ∧ ExtElem e x := by
  unfold readExtension parseExtension readFlag
  simp only [Option.pure_def, Option.bind_eq_bind, Option.bind_eq_some_iff, Prod.exists, Option.some.injEq, Prod.mk.injEq]
  constructor
  · rintro ⟨b, r, h1, x', ⟨o, r1, h2, cr, r2, h3, v, junk, h4, rfl⟩, rfl, rfl⟩
    obtain ⟨ve, rfl, g4⟩ := (readASN1_iff _ _ _ _).mp h4
    split at h3
    · obtain ⟨fe, rfl, g3⟩ := (readBool_iff _ _ _).mp h3
      obtain ⟨oe, rfl, g2⟩ := (readOID_iff _ _ _).mp h2
      obtain ⟨e, rfl, g1⟩ := (readASN1_iff _ _ _ _).mp h1
      exact ⟨e, rfl, oe, fe, ve, junk, g1, g2, Or.inr g3, g4⟩
    · simp only [Option.some.injEq, Prod.mk.injEq] at h3
      obtain ⟨rfl, rfl⟩ := h3
      obtain ⟨oe, rfl, g2⟩ := (readOID_iff _ _ _).mp h2
      obtain ⟨e, rfl, g1⟩ := (readASN1_iff _ _ _ _).mp h1
      exact ⟨e, rfl, oe, [], ve, junk, g1, g2, Or.inl ⟨rfl, rfl⟩, g4⟩
  · rintro ⟨e, rfl, oe, fe, ve, junk, g1, g2, g3, g4⟩
    refine ⟨_, _, (readASN1_iff _ _ _ _).mpr ⟨e, rfl, g1⟩, x, ⟨x.id, _, (readOID_iff _ _ _).mpr ⟨oe, rfl, g2⟩, x.critical,
      ve ++ junk, ?_, x.value, junk, (readASN1_iff _ _ _ _).mpr ⟨ve, rfl, g4⟩, rfl⟩, rfl, rfl⟩
    rcases g3 with ⟨rfl, hc⟩ | g3
    · rw [List.nil_append, if_neg (by rw [peek_elem g4]; decide), hc]
    · rw [if_pos (by rw [peek_elem g3]; rfl)]
      exact (readBool_iff _ _ _).mpr ⟨fe, rfl, g3⟩

theorem extElem_ne_nil {e : Bytes} {x : Ext} (h : ExtElem e x) : e ≠ [] := by
  obtain ⟨_, _, _, _, h, _⟩ := h; exact h.ne_nil

theorem parseTail_iff (env : Env) (c c' : Certificate) (hc : c.extensions = []) (s : Bytes) :
    parseTail env c s = some c' ↔
      ∃ l, ExtensionsDer c.version s l ∧ processExtensions env { c with extensions := l } = some c' := by
  have nil : ∀ c' : Certificate, processExtensions env { c with extensions := [] } = some c' ↔ c = c' := by
    intro c'
    show some { c with extensions := [] } = some c' ↔ _
    rw [Option.some.injEq, ← hc]
  have hm := readMany_concat' readExtension_iff (fun e n h => extElem_ne_nil h)
  unfold parseTail ExtensionsDer
  by_cases hv : c.version > 1
  · have hv' : ¬ c.version ≤ 1 := by omega
    simp only [if_pos hv, if_neg hv', Option.pure_def, Option.bind_eq_bind, Option.bind_eq_some_iff, skipOptional_iff]
    constructor
    · rintro ⟨s1, h1, s2, h2, h⟩
      by_cases h3 : c.version = 3
      · rw [if_pos h3] at h
        simp only [Option.bind_eq_some_iff, Prod.exists] at h
        obtain ⟨o, r, h4, h⟩ := h
        obtain ⟨e, rfl, ho, hh⟩ := (readOptional_iff _ _ _ _).mp h4
        cases o with
        | none =>
          have : e = [] := ho
          subst this
          simp only [Option.some.injEq] at h
          refine ⟨[], ⟨s1, _, h1, h2, ?_⟩, (nil _).mpr h⟩
          rw [if_pos h3]
          exact Or.inl ⟨hh rfl, rfl⟩
        | some b =>
          simp only [Option.bind_eq_some_iff, Prod.exists] at h
          obtain ⟨body, tr, h5, l, h6, h⟩ := h
          obtain ⟨seqE, rfl, g5⟩ := (readASN1_iff _ _ _ _).mp h5
          rw [hc, List.nil_append] at h
          refine ⟨l, ⟨s1, _, h1, h2, ?_⟩, h⟩
          rw [if_pos h3]
          exact Or.inr ⟨e, seqE, body, tr, r, rfl, ho, g5, (hm _ _).mp h6⟩
      · rw [if_neg h3, Option.some.injEq] at h
        exact ⟨[], ⟨s1, s2, h1, h2, by rw [if_neg h3]⟩, (nil _).mpr h⟩
    · rintro ⟨l, ⟨s1, s2, h1, h2, h⟩, hp⟩
      refine ⟨s1, h1, s2, h2, ?_⟩
      by_cases h3 : c.version = 3
      · rw [if_pos h3] at h ⊢
        rcases h with ⟨hh, rfl⟩ | ⟨xe, seqE, body, tr, junk, rfl, g1, g2, g3⟩
        · rw [(readOptional_iff 0xa3 s2 none s2).mpr ⟨[], rfl, rfl, fun _ => hh⟩]
          simp only [Option.bind_some, Option.some.injEq]
          exact (nil _).mp hp
        · rw [(readOptional_iff 0xa3 _ (some (seqE ++ tr)) junk).mpr ⟨xe, rfl, g1, by simp⟩]
          simp only [Option.bind_some]
          rw [(readASN1_iff _ _ _ _).mpr ⟨seqE, rfl, g2⟩]
          simp only [Option.bind_some]
          rw [(hm _ _).mpr g3]
          simp only [Option.bind_some, hc, List.nil_append]
          exact hp
      · rw [if_neg h3] at h ⊢
        subst h
        rw [Option.some.injEq]
        exact (nil _).mp hp
  · have hv' : c.version ≤ 1 := by omega
    simp only [if_neg hv, if_pos hv', Option.pure_def]
    constructor
    · intro h; exact ⟨[], rfl, (nil _).mpr (Option.some.inj h)⟩
    · rintro ⟨l, rfl, h⟩; rw [(nil _).mp h]

/-! ### The head -/

theorem parseVersion_iff (s : Bytes) (v : Int) (rest : Bytes) (hr : rest.head? ≠ some 0xa0) :
    parseVersion s = some (v, rest) ↔ ∃ e, s = e ++ rest ∧ VersionDer e v := by
  unfold parseVersion readOptionalGoInt
  simp only [Option.bind_eq_bind, Option.bind_eq_some_iff, Prod.exists]
  constructor
  · rintro ⟨w, r, h1, h⟩
    rcases ite_or h with g | ⟨hw, g⟩
    · simp at g
    simp only [Option.pure_def, Option.bind_some] at g
    rcases ite_or g with g' | ⟨hw', g'⟩
    · cases g'
    simp only [Option.some.injEq, Prod.mk.injEq] at g'
    obtain ⟨rfl, rfl⟩ := g'
    cases h2 : readOptional 0xa0 s with
    | none => rw [h2] at h1; cases h1
    | some q =>
      obtain ⟨o, r2⟩ := q
      rw [h2] at h1
      obtain ⟨e, rfl, ho, hh⟩ := (readOptional_iff _ _ _ _).mp h2
      cases o with
      | none =>
        simp only [Option.some.injEq, Prod.mk.injEq] at h1
        obtain ⟨rfl, rfl⟩ := h1
        have : e = [] := ho
        subst this
        exact ⟨[], rfl, Or.inl ⟨rfl, by norm_num⟩⟩
      | some b =>
        simp only [] at h1
        cases h3 : readGoInt b with
        | none => rw [h3] at h1; cases h1
        | some q =>
          obtain ⟨n, t⟩ := q
          rw [h3] at h1
          cases t with
          | cons _ _ => cases h1
          | nil =>
            simp only [Option.some.injEq, Prod.mk.injEq] at h1
            obtain ⟨rfl, rfl⟩ := h1
            obtain ⟨ie, hb, he, _, hn⟩ := (readGoInt_iff _ _ _).mp h3
            rw [List.append_nil] at hb
            subst hb
            refine ⟨e, rfl, Or.inr ⟨b, n, ho, he, ?_⟩⟩
            by_cases hmax : n = 2 ^ 63 - 1
            · right; exact ⟨hmax, by rw [if_pos hmax]⟩
            · left
              rw [if_neg hmax] at hw' ⊢
              exact ⟨by omega, by omega, rfl⟩
  · rintro ⟨e, rfl, (⟨rfl, rfl⟩ | ⟨ie, n, he, hi, hv⟩)⟩
    · refine ⟨0, rest, ?_, by simp⟩
      rw [List.nil_append, (readOptional_iff 0xa0 rest none rest).mpr ⟨[], rfl, rfl, fun _ => hr⟩]
    · refine ⟨n, rest, ?_, ?_⟩
      · rw [(readOptional_iff 0xa0 _ (some ie) rest).mpr ⟨e, rfl, he, by simp⟩]
        simp only []
        rw [(readGoInt_iff ie n []).mpr ⟨ie, by simp, hi, by omega, by omega⟩]
      · rw [if_neg (by omega)]
        simp only [Option.pure_def, Option.bind_some]
        rcases hv with ⟨h1, h2, rfl⟩ | ⟨rfl, rfl⟩
        · rw [if_neg (show ¬ n = 2 ^ 63 - 1 by omega), if_neg (by omega)]
        · simp

theorem elem_nil {tag : Der.Tag} {b e r : Bytes} (h : Elem tag b e) : ∃ t, e ++ r = tag :: t := by
  rw [h.1]; exact ⟨_, rfl⟩

theorem readInt_head {s rest : Bytes} {n : Int} (h : Der.readInt s = some (n, rest)) : s.head? ≠ some 0xa0 := by
  obtain ⟨e, rfl, he⟩ := (readInt_iff _ _ _).mp h
  rw [Ne, head_elem he]; decide

theorem parseCertHead_iff (der : Bytes) (hr : ∃ b, Elem 0x30 b der) (hd : CertHead) :
    parseCertHead der = some hd ↔ hd.raw = der ∧ ∃ algBody algE verE serE,
      Elem 0x30 (hd.rawTbs ++ (algE ++ hd.input)) der ∧
      Elem 0x30 (verE ++ (serE ++ (algE ++ hd.tbs))) hd.rawTbs ∧
      Elem 0x30 algBody algE ∧ parseAI algBody = some hd.sigAI ∧
      VersionDer verE hd.version ∧ Elem 0x02 (Der.encInt hd.serial) serE := by
  obtain ⟨b0, hr⟩ := hr
  have e0 : readElement 0x30 der = some (der, []) := (readElement_iff _ _ _ _).mpr ⟨by simp, b0, hr⟩
  unfold parseCertHead
  rw [e0]
  simp only [Option.pure_def, Option.bind_eq_bind, Option.bind_some, Option.bind_eq_some_iff, Prod.exists]
  constructor
  · rintro ⟨input, j, h1, rawTbs, i2, h2, tbs, j2, h3, ver, t1, h4, ser, t2, h5, ai, t3, h6, ai', i3, h7, h⟩
    rcases ite_or h with g | ⟨hne, g⟩
    · simp at g
    obtain rfl : ai' = ai := not_not.mp hne
    simp only [Option.bind_some, Option.bind_eq_some_iff, Option.some.injEq] at g
    obtain ⟨sa, hsa, rfl⟩ := g
    refine ⟨rfl, ?_⟩
    simp only []
    have k5 := readInt_head h5
    obtain ⟨algE, rfl, g6⟩ := (readASN1_iff _ _ _ _).mp h6
    obtain ⟨serE, rfl, g5⟩ := (readInt_iff _ _ _).mp h5
    obtain ⟨verE, rfl, g4⟩ := (parseVersion_iff _ _ _ k5).mp h4
    obtain ⟨hraw, tb, g2⟩ := (readElement_iff _ _ _ _).mp h2
    obtain ⟨e3, hr3, g3⟩ := (readASN1_iff _ _ _ _).mp h3
    obtain ⟨algE', rfl, g7⟩ := (readASN1_iff _ _ _ _).mp h7
    have ea : algE' = algE := by rw [g7.1, g6.1]
    subst ea
    obtain ⟨_, rfl, rfl, rfl⟩ := elem_unique g2 g3 (r := []) (r' := j2) (by simpa using hr3)
    obtain ⟨e1, hr1, g1⟩ := (readASN1_iff _ _ _ _).mp h1
    obtain ⟨_, rfl, rfl, rfl⟩ := elem_unique hr g1 (r := []) (r' := j) (by simpa using hr1)
    rw [hraw] at g1
    exact ⟨ai', algE', verE, serE, g1, g3, g6, hsa, g4, g5⟩
  · rintro ⟨hraw, algBody, algE, verE, serE, g1, g2, g3, g4, g5, g6⟩
    refine ⟨_, [], (readASN1_iff _ _ _ _).mpr ⟨der, by simp, g1⟩, hd.rawTbs, _, (readElement_iff _ _ _ _).mpr ⟨rfl, _, g2⟩, _, [],
      (readASN1_iff _ _ _ _).mpr ⟨hd.rawTbs, by simp, g2⟩, hd.version, _, (parseVersion_iff _ _ _ ?_).mpr ⟨verE, rfl, g5⟩,
      hd.serial, _, (readInt_iff _ _ _).mpr ⟨serE, rfl, g6⟩, algBody, _, (readASN1_iff _ _ _ _).mpr ⟨algE, rfl, g3⟩, algBody, _,
      (readASN1_iff _ _ _ _).mpr ⟨algE, rfl, g3⟩, ?_⟩
    · rw [Ne, head_elem g6]; decide
    · rw [if_neg (by simp), g4]
      simp only [Option.bind_some, ← hraw]

theorem parseIdentity_iff (s : Bytes) (id : Identity) (rest : Bytes) :
    parseIdentity s = some (id, rest) ↔ ∃ valE, s = id.rawIssuer ++ (valE ++ (id.rawSubject ++ rest)) ∧
      NameDer id.rawIssuer id.issuer ∧ ValidityDer valE id.notBefore id.notAfter ∧ NameDer id.rawSubject id.subject := by
  unfold parseIdentity
  simp only [Option.pure_def, Option.bind_eq_bind, Option.bind_eq_some_iff, Prod.exists, Option.some.injEq, Prod.mk.injEq]
  constructor
  · rintro ⟨ri, t1, h1, iss, h2, v, t2, h3, nb, na, h4, rs, t3, h5, sub, h6, rfl, rfl⟩
    obtain ⟨x, y, junk, rfl, k1, k2⟩ := (parseValidity_iff _ _ _).mp h4
    obtain ⟨rfl, b2, g5⟩ := (readElement_iff _ _ _ _).mp h5
    obtain ⟨valE, rfl, g3⟩ := (readASN1_iff _ _ _ _).mp h3
    obtain ⟨rfl, b1, g1⟩ := (readElement_iff _ _ _ _).mp h1
    exact ⟨valE, rfl, (parseName_iff ⟨_, g1⟩ _).mp h2, ⟨x, y, junk, g3, k1, k2⟩, (parseName_iff ⟨_, g5⟩ _).mp h6⟩
  · rintro ⟨valE, rfl, n1, ⟨x, y, junk, g3, k1, k2⟩, n2⟩
    have m1 : ∃ b, Elem 0x30 b id.rawIssuer := by obtain ⟨b, h, _⟩ := n1; exact ⟨b, h⟩
    have m2 : ∃ b, Elem 0x30 b id.rawSubject := by obtain ⟨b, h, _⟩ := n2; exact ⟨b, h⟩
    exact ⟨id.rawIssuer, _, (readElement_iff _ _ _ _).mpr ⟨rfl, m1⟩, id.issuer, (parseName_iff m1 _).mpr n1, _, _,
      (readASN1_iff _ _ _ _).mpr ⟨valE, rfl, g3⟩, _, _, (parseValidity_iff _ _ _).mpr ⟨x, y, junk, rfl, k1, k2⟩,
      id.rawSubject, _, (readElement_iff _ _ _ _).mpr ⟨rfl, m2⟩, id.subject, (parseName_iff m2 _).mpr n2, rfl, rfl⟩

theorem parseSpki_iff (s raw : Bytes) (sp : Spki) (rest : Bytes) :
    parseSpki s = some (raw, sp, rest) ↔ s = raw ++ rest ∧ ∃ algE algBody bitsE junk bb,
      Elem 0x30 (algE ++ (bitsE ++ junk)) raw ∧ Elem 0x30 algBody algE ∧ parseAI algBody = some sp.algo ∧
      Elem 0x03 bb bitsE ∧ decBits bb = some sp.publicKey := by
  unfold parseSpki
  simp only [Option.pure_def, Option.bind_eq_bind, Option.bind_eq_some_iff, Prod.exists, Option.some.injEq, Prod.mk.injEq]
  constructor
  · rintro ⟨r, t1, h1, b, j, h2, ai, t2, h3, a, h4, spk, junk, h5, rfl, rfl, rfl⟩
    obtain ⟨rfl, b1, g1⟩ := (readElement_iff _ _ _ _).mp h1
    obtain ⟨bitsE, rfl, bb, k1, k2⟩ := (readBits_iff _ _ _).mp h5
    obtain ⟨algE, rfl, g3⟩ := (readASN1_iff _ _ _ _).mp h3
    obtain ⟨e2, hr2, g2⟩ := (readASN1_iff _ _ _ _).mp h2
    obtain ⟨_, rfl, rfl, rfl⟩ := elem_unique g1 g2 (r := []) (r' := j) (by simpa using hr2)
    exact ⟨rfl, algE, ai, bitsE, junk, bb, g2, g3, h4, k1, k2⟩
  · rintro ⟨rfl, algE, ai, bitsE, junk, bb, g2, g3, h4, k1, k2⟩
    exact ⟨raw, rest, (readElement_iff _ _ _ _).mpr ⟨rfl, _, g2⟩, _, [], (readASN1_iff _ _ _ _).mpr ⟨raw, by simp, g2⟩, ai, _,
      (readASN1_iff _ _ _ _).mpr ⟨algE, rfl, g3⟩, sp.algo, h4, sp.publicKey, junk,
      (readBits_iff _ _ _).mpr ⟨bitsE, rfl, bb, k1, k2⟩, rfl, rfl, rfl⟩

/-- What is known of a certificate before its extensions are processed. -/
def recordOf (der : Bytes) (f : CertFields) (k : PubKey) : Certificate :=
  { raw := der, rawTBSCertificate := f.rawTbs, version := f.version, serialNumber := some f.serial,
    signatureAlgorithm := getSignatureAlgorithmFromAI ⟨f.sigOid, { full := f.sigPar }⟩, rawIssuer := f.rawIssuer,
    issuer := .fromRDNSequence (toAny f.issuer), notBefore := f.notBefore, notAfter := f.notAfter, rawSubject := f.rawSubject,
    subject := .fromRDNSequence (toAny f.subject),
    rawSubjectPublicKeyInfo := f.rawSpki, publicKeyAlgorithm := (getPublicKeyAlgorithmFromOID f.keyOid).toInt,
    publicKey := k, extensions := f.extensions }

theorem ParseCertificate_spec (env : Env) (der : Bytes) (c : Certificate) :
    ParseCertificate env der = .ok c ↔ ∃ f k c', CertDer der f ∧ KeyDer f.keyOid f.keyPar f.key k ∧
      processExtensions env (recordOf der f k) = some c' ∧ c = { c' with signature := f.signature } := by
  rw [ParseCertificate_iff]
  constructor
  · rintro ⟨h, hraw⟩
    obtain ⟨b0, rest0, hd0, he0⟩ := parseCertificate_raw h
    unfold parseCertificate at h
    simp only [Res.bind_eq_ok, Res.pure_eq, Prod.exists, Res.ok.injEq] at h
    obtain ⟨hd, h1, id, tbs, h2, rs, sp, tbs', h3, pub, h4, c', h5, sig, r, h6, rfl⟩ := h
    have hel : ∃ b, Elem 0x30 b der := by
      have : c'.raw = der := hraw
      have he0' : Elem 0x30 b0 c'.raw := he0
      rw [this] at he0'; exact ⟨b0, he0'⟩
    obtain ⟨k0, algBody, algE, verE, serE, k1, k2, k3, k4, k5, k6⟩ := (parseCertHead_iff _ hel _).mp (ofOption_ok h1)
    obtain ⟨valE, hs1, n1, n2, n3⟩ := (parseIdentity_iff _ _ _).mp (ofOption_ok h2)
    obtain ⟨hs2, algE2, algBody2, bitsE, junk2, bb, m1, m2, m3, m4, m5⟩ := (parseSpki_iff _ _ _ _).mp (ofOption_ok h3)
    obtain ⟨l, x1, x2⟩ := (parseTail_iff env _ _ rfl _).mp (ofOption_ok h5)
    obtain ⟨sigE, hs3, sb, y1, y2⟩ := (readBits_iff _ _ _).mp (ofOption_ok h6)
    refine ⟨⟨hd.rawTbs, hd.version, hd.serial, hd.sigAI.algorithm, hd.sigAI.parameters.full, id.rawIssuer, id.issuer,
      id.notBefore, id.notAfter, id.rawSubject, id.subject, rs, sp.algo.algorithm, sp.algo.parameters.full,
      rightAlign sp.publicKey, l, rightAlign sig⟩, pub, c', ?_, (parsePublicKey_iff _ _).mp h4, ?_, rfl⟩
    · refine ⟨algBody, algE, sigE, r, verE, serE, valE, tbs', ?_, ?_, k3, parseAI_sound k4, k5, k6, n1, n2, n3, ?_, x1, ?_⟩
      · rw [hs3] at k1; exact k1
      · rw [hs1, hs2] at k2; exact k2
      · exact ⟨algE2, algBody2, bitsE, junk2, m1, m2, parseAI_sound m3, (bitsElem_iff _ _).mpr ⟨bb, _, m4, m5, rfl⟩⟩
      · exact (bitsElem_iff _ _).mpr ⟨sb, _, y1, y2, rfl⟩
    · have e : getSignatureAlgorithmFromAI ⟨hd.sigAI.algorithm, { full := hd.sigAI.parameters.full }⟩ =
          getSignatureAlgorithmFromAI hd.sigAI := algo_congr rfl rfl
      unfold recordOf
      simp only [e]
      rw [← k0]
      exact x2
  · rintro ⟨f, k, c', ⟨algBody, algE, sigE, junk, verE, serE, valE, rest, k1, k2, k3, k4, k5, k6, n1, n2, n3,
      ⟨algE2, algBody2, bitsE, junk2, m1, m2, m3, m4⟩, x1, y⟩, hk, hp, rfl⟩
    obtain ⟨sa, a1, a2, a3⟩ := parseAI_complete k4
    obtain ⟨pa, b1, b2, b3⟩ := parseAI_complete m3
    obtain ⟨bb, bv, c1, c2, c3⟩ := (bitsElem_iff _ _).mp m4
    obtain ⟨sb, sv, d1, d2, d3⟩ := (bitsElem_iff _ _).mp y
    have hcore := core_raw (processLoop_core hp)
    refine ⟨?_, hcore⟩
    have e1 := (parseCertHead_iff der ⟨_, k1⟩ ⟨der, f.rawTbs, f.version, f.serial, sa,
      f.rawIssuer ++ (valE ++ (f.rawSubject ++ (f.rawSpki ++ rest))), sigE ++ junk⟩).mpr
        ⟨rfl, algBody, algE, verE, serE, k1, k2, k3, a1, k5, k6⟩
    have e2 := (parseIdentity_iff (f.rawIssuer ++ (valE ++ (f.rawSubject ++ (f.rawSpki ++ rest))))
      ⟨f.rawIssuer, f.issuer, f.notBefore, f.notAfter, f.rawSubject, f.subject⟩ (f.rawSpki ++ rest)).mpr
        ⟨valE, rfl, n1, n2, n3⟩
    have e3 := (parseSpki_iff (f.rawSpki ++ rest) f.rawSpki ⟨pa, bv⟩ rest).mpr
      ⟨rfl, algE2, algBody2, bitsE, junk2, bb, m1, m2, b1, c1, c2⟩
    have e4 := (parsePublicKey_iff ⟨pa, bv⟩ k).mpr (by simp only [b2, b3, c3]; exact hk)
    have e5 := (readBits_iff (sigE ++ junk) sv junk).mpr ⟨sigE, rfl, sb, d1, d2⟩
    unfold parseCertificate
    simp only [e1, e2, e3, e4, e5, Res.ofOption, Res.bind_ok, Res.pure_eq]
    have e6 := (parseTail_iff env { recordOf der f k with extensions := [] } c' rfl rest).mpr ⟨f.extensions, x1, hp⟩
    have e7 : getSignatureAlgorithmFromAI sa = getSignatureAlgorithmFromAI ⟨f.sigOid, { full := f.sigPar }⟩ :=
      algo_congr a2 a3
    unfold recordOf at e6
    simp only [← e7, ← b2] at e6
    rw [e6]
    simp only [Res.ofOption, Res.bind_ok, d3]

end MCrypto.X509
