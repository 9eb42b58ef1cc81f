import Verif.X509.TableSpec
import Verif.X509.KeysLemmas
import Mathlib.Tactic.IntervalCases
/-
C43: the tables of signature algorithms, curves and extended key usages.
-/
namespace MCrypto.Props
open MCrypto MCrypto.X509 MCrypto.X509Spec MCrypto.Asn1

/-! ## Signature algorithms -/

theorem pssAlgo_eq (full : Bytes) (a : Int) (ha : a ≠ 0) :
    pssAlgo full = a ↔
      (a = 12 ∧ PssIs full (nistAlg ++ [2, 1]) 32) ∨ (a = 13 ∧ PssIs full (nistAlg ++ [2, 2]) 48) ∨
      (a = 14 ∧ PssIs full (nistAlg ++ [2, 3]) 64) := by
  simp only [PssIs]
  unfold pssAlgo
  cases h1 : unmarshal pssParameters full with
  | none => simp; exact fun h => ha h.symm
  | some pr =>
    obtain ⟨p, r⟩ := pr
    simp only []
    cases h2 : unmarshal algId p.mgf.parameters.full with
    | none =>
      simp only [Option.some.injEq, Prod.mk.injEq]
      constructor
      · intro h; exact absurd h.symm ha
      · rintro (⟨_, p', m, r1, r2, ⟨hp, _⟩, hm, _⟩ | ⟨_, p', m, r1, r2, ⟨hp, _⟩, hm, _⟩ |
          ⟨_, p', m, r1, r2, ⟨hp, _⟩, hm, _⟩) <;> (subst hp; rw [h2] at hm; cases hm)
    | some mr =>
      obtain ⟨m, r'⟩ := mr
      simp only []
      have key : ∀ (o : Oid) (s : Int),
          (∃ p' m' r1 r2, (some (p, r) : Option (PssParameters × Bytes)) = some (p', r1) ∧
            unmarshal algId p'.mgf.parameters.full = some (m', r2) ∧
            p'.hash.algorithm = o ∧ p'.mgf.algorithm = pkcs1 ++ [8] ∧ m'.algorithm = o ∧
            (p'.hash.parameters.full = [] ∨ p'.hash.parameters.full = [5, 0]) ∧
            (m'.parameters.full = [] ∨ m'.parameters.full = [5, 0]) ∧
            p'.saltLength = s ∧ p'.trailerField = 1) ↔
          (p.hash.algorithm = o ∧ p.mgf.algorithm = pkcs1 ++ [8] ∧ m.algorithm = o ∧
            (p.hash.parameters.full = [] ∨ p.hash.parameters.full = [5, 0]) ∧
            (m.parameters.full = [] ∨ m.parameters.full = [5, 0]) ∧
            p.saltLength = s ∧ p.trailerField = 1) := by
        intro o s
        constructor
        · rintro ⟨p', m', r1, r2, hp, hm, h⟩
          simp only [Option.some.injEq, Prod.mk.injEq] at hp
          obtain ⟨hp, _⟩ := hp
          subst hp
          rw [h2] at hm
          simp only [Option.some.injEq, Prod.mk.injEq] at hm
          obtain ⟨hm, _⟩ := hm
          subst hm
          exact h
        · intro h
          exact ⟨p, m, r, r', rfl, h2, h⟩
      rw [key, key, key]
      split
      · rename_i hc
        constructor
        · intro h; exact absurd h.symm ha
        · intro h
          exfalso
          have hcom : (p.hash.algorithm = m.algorithm ∧ p.mgf.algorithm = pkcs1 ++ [8] ∧
            (p.hash.parameters.full = [] ∨ p.hash.parameters.full = [5, 0]) ∧
            (m.parameters.full = [] ∨ m.parameters.full = [5, 0]) ∧ p.trailerField = 1) := by
            rcases h with ⟨_, a1, a2, a3, a4, a5, a6, a7⟩ | ⟨_, a1, a2, a3, a4, a5, a6, a7⟩ |
              ⟨_, a1, a2, a3, a4, a5, a6, a7⟩ <;> exact ⟨a1.trans a3.symm, a2, a4, a5, a7⟩
          obtain ⟨c1, c2, c3, c4, c5⟩ := hcom
          rcases hc with ⟨q1, q2⟩ | q | q | ⟨q1, q2⟩ | q
          · rcases c3 with c3 | c3
            · rw [c3] at q1; exact q1 rfl
            · exact q2 c3
          · exact q c2
          · exact q c1.symm
          · rcases c4 with c4 | c4
            · rw [c4] at q1; exact q1 rfl
            · exact q2 c4
          · exact q c5
      · rename_i hc
        simp only [not_or, not_and, ne_eq, not_not, Decidable.not_not] at hc
        obtain ⟨d1, d2, d3, d4, d5⟩ := hc
        have e1 : p.hash.parameters.full = [] ∨ p.hash.parameters.full = [5, 0] := by
          by_cases q : p.hash.parameters.full.length = 0
          · exact Or.inl (List.length_eq_zero_iff.mp q)
          · exact Or.inr (d1 q)
        have e4 : m.parameters.full = [] ∨ m.parameters.full = [5, 0] := by
          by_cases q : m.parameters.full.length = 0
          · exact Or.inl (List.length_eq_zero_iff.mp q)
          · exact Or.inr (d4 q)
        have e2 : p.mgf.algorithm = pkcs1 ++ [8] := d2
        have n12 : oidSHA256 ≠ oidSHA384 := by decide
        have n13 : oidSHA256 ≠ oidSHA512 := by decide
        have n23 : oidSHA384 ≠ oidSHA512 := by decide
        have o1 : nistAlg ++ [2, 1] = oidSHA256 := rfl
        have o2 : nistAlg ++ [2, 2] = oidSHA384 := rfl
        have o3 : nistAlg ++ [2, 3] = oidSHA512 := rfl
        simp only [d3, d5, e1, e2, e4, o1, o2, o3, true_and, and_true]
        split
        · rename_i h; simp [h.1, h.2, n12, n13]; omega
        · split
          · rename_i h; simp [h.1, h.2, n12.symm, n23]; omega
          · split
            · rename_i h; simp [h.1, h.2, n13.symm, n23.symm]; omega
            · rename_i q1 q2 q3
              constructor
              · intro h; exact absurd h.symm ha
              · rintro (⟨_, a1, _, a2⟩ | ⟨_, a1, _, a2⟩ | ⟨_, a1, _, a2⟩)
                · exact absurd ⟨a1, a2⟩ q1
                · exact absurd ⟨a1, a2⟩ q2
                · exact absurd ⟨a1, a2⟩ q3

theorem details_find (o : Oid) {d : AlgoDetails}
    (h : signatureAlgorithmDetails.find? (fun d => o == d.oid) = some d) :
    d ∈ signatureAlgorithmDetails ∧ o = d.oid :=
  ⟨List.mem_of_find?_eq_some h, by simpa using List.find?_some h⟩

theorem details_rows : ∀ d ∈ signatureAlgorithmDetails,
    1 ≤ d.algo ∧ d.algo ≤ 16 ∧ d.oid = algOid d.algo ∧ d.hash = algHash d.algo ∧
    (d.oid ≠ oidSignatureRSAPSS → d.algo ≠ 12 ∧ d.algo ≠ 13 ∧ d.algo ≠ 14) := by decide

theorem algOid_pss (a : Int) (h1 : 1 ≤ a) (h2 : a ≤ 16) :
    algOid a = oidSignatureRSAPSS ↔ a = 12 ∨ a = 13 ∨ a = 14 := by
  interval_cases a <;> decide

theorem algOid_ed (a : Int) (h1 : 1 ≤ a) (h2 : a ≤ 16) :
    algOid a = oidSignatureEd25519 ↔ a = 15 := by
  interval_cases a <;> decide

theorem find_algOid (a : Int) (h1 : 1 ≤ a) (h2 : a ≤ 16) (h : ¬ (a = 12 ∨ a = 13 ∨ a = 14)) :
    ∃ d, signatureAlgorithmDetails.find? (fun d => algOid a == d.oid) = some d ∧ d.algo = a := by
  interval_cases a <;> first | exact ⟨_, rfl, rfl⟩ | (exfalso; revert h; decide)

/-- **C43**, parsing: the algorithm recognised in an AlgorithmIdentifier is `a` exactly when the identifier
identifies `a`. -/
theorem C43_recognised_iff (ai : AlgId) (a : Int) (ha : a ≠ 0) :
    getSignatureAlgorithmFromAI ai = a ↔ Identifies ai a := by
  unfold getSignatureAlgorithmFromAI
  split
  · rename_i h
    constructor
    · intro e; exact absurd e.symm ha
    · rintro ⟨h1, h2, h3, h4, _⟩
      have : a = 15 := (algOid_ed a h1 h2).mp (h3.symm.trans h.1)
      rw [h4 this] at h
      exact absurd rfl h.2
  · rename_i hed
    split
    · rename_i hp
      cases hf : signatureAlgorithmDetails.find? (fun d => ai.algorithm == d.oid) with
      | none =>
        simp only []
        constructor
        · intro e; exact absurd e.symm ha
        · rintro ⟨h1, h2, h3, _⟩
          have hn : ¬ (a = 12 ∨ a = 13 ∨ a = 14) := by
            rw [← algOid_pss a h1 h2, ← h3]; exact hp
          obtain ⟨d, hd, _⟩ := find_algOid a h1 h2 hn
          rw [h3, hd] at hf
          cases hf
      | some d =>
        simp only []
        obtain ⟨hm, ho⟩ := details_find _ hf
        obtain ⟨r1, r2, r3, r4, r5⟩ := details_rows d hm
        have r5 := r5 (ho ▸ hp)
        constructor
        · intro e
          subst e
          refine ⟨r1, r2, ho.trans r3, ?_, fun h => absurd h r5.1, fun h => absurd h r5.2.1, fun h => absurd h r5.2.2⟩
          intro h
          by_contra hc
          apply hed
          refine ⟨?_, fun hl => hc (List.length_eq_zero_iff.mp hl)⟩
          rw [ho, r3]
          exact (algOid_ed _ r1 r2).mpr h
        · rintro ⟨h1, h2, h3, _⟩
          have hn : ¬ (a = 12 ∨ a = 13 ∨ a = 14) := by
            rw [← algOid_pss a h1 h2, ← h3]; exact hp
          obtain ⟨d', hd', he⟩ := find_algOid a h1 h2 hn
          rw [h3, hd'] at hf
          injection hf with hf
          rw [← hf]; exact he
    · rename_i hp
      simp only [ne_eq, Decidable.not_not] at hp
      rw [pssAlgo_eq _ _ ha]
      constructor
      · rintro (⟨h, q⟩ | ⟨h, q⟩ | ⟨h, q⟩) <;> subst h <;>
          exact ⟨by decide, by decide, hp, fun h => absurd h (by decide), fun h => by first | exact q | exact absurd h (by decide),
            fun h => by first | exact q | exact absurd h (by decide), fun h => by first | exact q | exact absurd h (by decide)⟩
      · rintro ⟨h1, h2, h3, h4, q1, q2, q3⟩
        rcases (algOid_pss a h1 h2).mp (h3.symm.trans hp) with h | h | h
        · exact Or.inl ⟨h, q1 h⟩
        · exact Or.inr (Or.inl ⟨h, q2 h⟩)
        · exact Or.inr (Or.inr ⟨h, q3 h⟩)

/-- An identifier identifies at most one algorithm. -/
theorem C43_identifies_unique (ai : AlgId) (a b : Int) (ha : Identifies ai a) (hb : Identifies ai b) : a = b := by
  have h1 := (C43_recognised_iff ai a (by have := ha.1; omega)).mpr ha
  have h2 := (C43_recognised_iff ai b (by have := hb.1; omega)).mpr hb
  exact h1.symm.trans h2

theorem find_requested (a : Int) {d : AlgoDetails}
    (h : signatureAlgorithmDetails.find? (fun d => d.algo == a) = some d) :
    d ∈ signatureAlgorithmDetails ∧ d.algo = a :=
  ⟨List.mem_of_find?_eq_some h, by simpa using List.find?_some h⟩

/-- **C43**, signing: when parameters are found for a key and a requested algorithm (0: none), the identifier
they contain can be encoded, and reading the encoding back gives the requested algorithm (the default of the
key if none was requested) and the hash used is the one of that algorithm. -/
theorem C43_sign_then_parse (pub : PubKey) (requested : Int) (h : Nat) (ai : AlgId)
    (hs : signingParamsForPublicKey pub requested = .ok (h, ai)) :
    ∃ der ai', marshal algId ai = some der ∧ unmarshal algId der = some (ai', []) ∧
      getSignatureAlgorithmFromAI ai' = (if requested = 0 then defaultAlg pub else requested) ∧
      h = algHash (if requested = 0 then defaultAlg pub else requested) := by
  unfold signingParamsForPublicKey at hs
  simp only [Res.bind_eq_ok, Prod.exists] at hs
  obtain ⟨pt, hf, sa, hd, hs⟩ := hs
  by_cases hr : requested = 0
  · simp only [hr, if_true, Res.pure_eq, Res.ok.injEq, Prod.mk.injEq] at hs ⊢
    obtain ⟨hs1, hs2⟩ := hs
    subst hs1; subst hs2
    have done : ∀ (o : Oid) (pr : RawValue) (al : Int), sa = ⟨o, pr⟩ →
        (∃ der ai', marshal algId ⟨o, pr⟩ = some der ∧ unmarshal algId der = some (ai', []) ∧
          getSignatureAlgorithmFromAI ai' = al) → defaultAlg pub = al → hf = algHash al →
        ∃ der ai', marshal algId sa = some der ∧ unmarshal algId der = some (ai', []) ∧
          getSignatureAlgorithmFromAI ai' = defaultAlg pub ∧ hf = algHash (defaultAlg pub) := by
      intro o pr al h1 ⟨der, ai', h2, h3, h4⟩ h5 h6
      exact ⟨der, ai', h1 ▸ h2, h3, h4.trans h5.symm, h5 ▸ h6⟩
    cases pub with
    | rsa k =>
      simp only [signingDefaults, Res.ok.injEq, Prod.mk.injEq] at hd
      exact done _ _ 3 hd.2.2.symm ⟨_, _, rfl, rfl, by decide +kernel⟩ rfl (hd.2.1.symm)
    | ecdsa k =>
      simp only [signingDefaults] at hd
      split at hd
      · rename_i hc
        simp only [Res.ok.injEq, Prod.mk.injEq] at hd
        refine done _ _ 9 hd.2.2.symm ⟨_, _, rfl, rfl, by decide +kernel⟩ ?_ (hd.2.1.symm)
        rcases hc with hc | hc <;> simp [defaultAlg, hc]
      · split at hd
        · rename_i hc
          simp only [Res.ok.injEq, Prod.mk.injEq] at hd
          exact done _ _ 10 hd.2.2.symm ⟨_, _, rfl, rfl, by decide +kernel⟩ (by simp [defaultAlg, hc]) (hd.2.1.symm)
        · split at hd
          · rename_i hc
            simp only [Res.ok.injEq, Prod.mk.injEq] at hd
            exact done _ _ 11 hd.2.2.symm ⟨_, _, rfl, rfl, by decide +kernel⟩ (by simp [defaultAlg, hc]) (hd.2.1.symm)
          · cases hd
    | sm2 k =>
      simp only [signingDefaults] at hd
      split at hd
      · simp only [Res.ok.injEq, Prod.mk.injEq] at hd
        exact done _ _ 16 hd.2.2.symm ⟨_, _, rfl, rfl, by decide +kernel⟩ rfl (hd.2.1.symm)
      · cases hd
    | ed25519 k =>
      simp only [signingDefaults, Res.ok.injEq, Prod.mk.injEq] at hd
      exact done _ _ 15 hd.2.2.symm ⟨_, _, rfl, rfl, by decide +kernel⟩ rfl (hd.2.1.symm)
    | dsa k => cases hd
    | nil => cases hd
    | other k => cases hd
  · simp only [if_neg hr] at hs ⊢
    cases hfd : signatureAlgorithmDetails.find? (fun d => d.algo == requested) with
    | none => rw [hfd] at hs; cases hs
    | some d =>
      rw [hfd] at hs
      simp only [] at hs
      split at hs
      · cases hs
      rename_i hpt
      split at hs
      · cases hs
      simp only [Res.pure_eq, Res.ok.injEq, Prod.mk.injEq] at hs
      obtain ⟨hs1, hs2⟩ := hs
      subst hs1; subst hs2
      obtain ⟨hm, ha⟩ := find_requested _ hfd
      subst ha
      simp only [ne_eq, Decidable.not_not] at hpt
      have hpar : (d.pubKeyAlgo = 1 ∧ sa.parameters = nullRaw) ∨ ((d.pubKeyAlgo = 3 ∨ d.pubKeyAlgo = 4) ∧ sa.parameters = {}) := by
        rw [hpt]
        cases pub with
        | rsa k => simp only [signingDefaults, Res.ok.injEq, Prod.mk.injEq] at hd; left; exact ⟨hd.1.symm, by rw [← hd.2.2]⟩
        | ecdsa k =>
          simp only [signingDefaults] at hd
          split at hd
          · simp only [Res.ok.injEq, Prod.mk.injEq] at hd; right; exact ⟨Or.inl hd.1.symm, by rw [← hd.2.2]⟩
          · split at hd
            · simp only [Res.ok.injEq, Prod.mk.injEq] at hd; right; exact ⟨Or.inl hd.1.symm, by rw [← hd.2.2]⟩
            · split at hd
              · simp only [Res.ok.injEq, Prod.mk.injEq] at hd; right; exact ⟨Or.inl hd.1.symm, by rw [← hd.2.2]⟩
              · cases hd
        | sm2 k =>
          simp only [signingDefaults] at hd
          split at hd
          · simp only [Res.ok.injEq, Prod.mk.injEq] at hd; right; exact ⟨Or.inl hd.1.symm, by rw [← hd.2.2]⟩
          · cases hd
        | ed25519 k => simp only [signingDefaults, Res.ok.injEq, Prod.mk.injEq] at hd; right; exact ⟨Or.inr hd.1.symm, by rw [← hd.2.2]⟩
        | dsa k => cases hd
        | nil => cases hd
        | other k => cases hd
      have hrows : ∀ d ∈ signatureAlgorithmDetails, ∀ pr : RawValue,
          ((d.pubKeyAlgo = 1 ∧ pr = nullRaw) ∨ ((d.pubKeyAlgo = 3 ∨ d.pubKeyAlgo = 4) ∧ pr = {})) →
          ∃ der ai', marshal algId ⟨d.oid, if isRSAPSS d.algo then hashToPSSParameters d.hash else pr⟩ = some der ∧
            unmarshal algId der = some (ai', []) ∧ getSignatureAlgorithmFromAI ai' = d.algo ∧ d.hash = algHash d.algo := by
        intro d hd pr hpr
        simp only [signatureAlgorithmDetails, List.mem_cons, List.not_mem_nil, or_false] at hd
        rcases hd with rfl | rfl | rfl | rfl | rfl | rfl | rfl | rfl | rfl | rfl | rfl | rfl | rfl | rfl | rfl | rfl <;>
        rcases hpr with ⟨h, rfl⟩ | ⟨h, rfl⟩ <;>
        first
        | exact ⟨_, _, rfl, rfl, by decide +kernel, rfl⟩
        | (exfalso; revert h; decide)
      exact hrows d hm _ hpar

/-- **C43**, signing: exactly when parameters are found. -/
theorem C43_signing_ok_iff (pub : PubKey) (requested : Int) :
    (∃ r, signingParamsForPublicKey pub requested = .ok r) ↔
      CanSign pub ∧ (requested = 0 ∨ FamilyFits pub requested) := by
  have hfam : ∀ d ∈ signatureAlgorithmDetails,
      (d.pubKeyAlgo = 1 ↔ ∃ h, scheme d.algo = some (.rsaPkcs1, h) ∨ scheme d.algo = some (.rsaPss, h)) ∧
      (d.pubKeyAlgo = 3 ↔ ∃ h, scheme d.algo = some (.ec, h)) ∧ (d.pubKeyAlgo = 4 ↔ d.algo = PureEd25519) ∧
      (d.hash = 0 → d.pubKeyAlgo = 4) := by
    intro d hd
    simp only [signatureAlgorithmDetails, List.mem_cons, List.not_mem_nil, or_false] at hd
    rcases hd with rfl | rfl | rfl | rfl | rfl | rfl | rfl | rfl | rfl | rfl | rfl | rfl | rfl | rfl | rfl | rfl <;>
      simp [scheme]
  have hnone : ∀ a : Int, signatureAlgorithmDetails.find? (fun d => d.algo == a) = none → scheme a = none ∧ a ≠ PureEd25519 := by
    intro a h
    simp only [signatureAlgorithmDetails, List.find?_eq_none, List.mem_cons, List.not_mem_nil, or_false, forall_eq_or_imp,
      forall_eq, beq_iff_eq] at h
    obtain ⟨h1, h2, h3, h4, h5, h6, h7, h8, h9, h10, h11, h12, h13, h14, h15, h16⟩ := h
    refine ⟨?_, fun e => h15 e.symm⟩
    simp only [scheme]
    rw [if_neg (Ne.symm h1), if_neg (Ne.symm h2), if_neg (Ne.symm h3), if_neg (Ne.symm h4), if_neg (Ne.symm h5),
      if_neg (Ne.symm h9), if_neg (Ne.symm h10), if_neg (Ne.symm h11), if_neg (Ne.symm h12), if_neg (Ne.symm h13),
      if_neg (Ne.symm h14), if_neg (Ne.symm h6), if_neg (Ne.symm h7), if_neg (Ne.symm h8), if_neg (Ne.symm h16)]
  have main : ∀ (pt : Int) (hf : Nat) (sa : AlgId), signingDefaults pub = .ok (pt, hf, sa) →
      ((∃ r, signingParamsForPublicKey pub requested = .ok r) ↔
        requested = 0 ∨ ∃ d ∈ signatureAlgorithmDetails, d.algo = requested ∧ d.pubKeyAlgo = pt) := by
    intro pt hf sa hd
    unfold signingParamsForPublicKey
    simp only [hd, Res.bind_ok]
    by_cases hr : requested = 0
    · simp [hr]
    · simp only [hr, if_false, false_or]
      cases hfd : signatureAlgorithmDetails.find? (fun d => d.algo == requested) with
      | none =>
        simp only [reduceCtorEq, exists_false, false_iff]
        rintro ⟨d, hm, ha, _⟩
        have := List.find?_eq_none.mp hfd d hm
        simp [ha] at this
      | some d =>
        obtain ⟨hm, ha⟩ := find_requested _ hfd
        simp only []
        have huniq : ∀ d ∈ signatureAlgorithmDetails, ∀ d' ∈ signatureAlgorithmDetails, d.algo = d'.algo → d = d' := by decide
        split
        · rename_i hne
          simp only [reduceCtorEq, exists_false, false_iff]
          rintro ⟨d', hm', ha', hp'⟩
          rw [huniq d' hm' d hm (ha'.trans ha.symm)] at hp'
          exact hne hp'
        · rename_i hne
          simp only [ne_eq, Decidable.not_not] at hne
          split
          · rename_i h0
            exact absurd (hne ▸ (hfam d hm).2.2.2 h0.1) h0.2
          · simp only [Res.pure_eq, Res.ok.injEq, exists_eq', true_iff]
            exact ⟨d, hm, ha, hne⟩
  have conv : ∀ (pt : Int) (Q : Int → Prop), (∀ d ∈ signatureAlgorithmDetails, d.pubKeyAlgo = pt ↔ Q d.algo) →
      (∀ a, signatureAlgorithmDetails.find? (fun d => d.algo == a) = none → ¬ Q a) →
      ((∃ d ∈ signatureAlgorithmDetails, d.algo = requested ∧ d.pubKeyAlgo = pt) ↔ Q requested) := by
    intro pt Q h1 h2
    constructor
    · rintro ⟨d, hm, ha, hp⟩; rw [← ha]; exact (h1 d hm).mp hp
    · intro q
      cases hfd : signatureAlgorithmDetails.find? (fun d => d.algo == requested) with
      | none => exact absurd q (h2 _ hfd)
      | some d =>
        obtain ⟨hm, ha⟩ := find_requested _ hfd
        exact ⟨d, hm, ha, (h1 d hm).mpr (ha ▸ q)⟩
  have cRsa := conv 1 (fun a => ∃ h, scheme a = some (.rsaPkcs1, h) ∨ scheme a = some (.rsaPss, h))
    (fun d hd => (hfam d hd).1) (fun a h => by rw [(hnone a h).1]; simp)
  have cEc := conv 3 (fun a => ∃ h, scheme a = some (.ec, h))
    (fun d hd => (hfam d hd).2.1) (fun a h => by rw [(hnone a h).1]; simp)
  have cEd := conv 4 (fun a => a = PureEd25519)
    (fun d hd => (hfam d hd).2.2.1) (fun a h => (hnone a h).2)
  have bad : (∀ r, signingDefaults pub ≠ .ok r) → ¬ ∃ r, signingParamsForPublicKey pub requested = .ok r := by
    rintro h ⟨r, hr⟩
    unfold signingParamsForPublicKey at hr
    simp only [Res.bind_eq_ok, Prod.exists] at hr
    obtain ⟨_, _, _, hd, _⟩ := hr
    exact h _ hd
  cases pub with
  | rsa k => rw [main _ _ _ rfl, cRsa]; simp [CanSign, FamilyFits]
  | ecdsa k =>
    by_cases h1 : k.curve = P224 ∨ k.curve = P256
    · rw [main _ _ _ (by simp only [signingDefaults]; rw [if_pos h1]), cEc]
      have : CanSign (.ecdsa k) := by rcases h1 with h | h <;> simp [CanSign, h]
      simp [this, FamilyFits]
    · by_cases h2 : k.curve = P384
      · rw [main _ _ _ (by simp only [signingDefaults]; rw [if_neg h1, if_pos h2]), cEc]
        simp [CanSign, h2, FamilyFits]
      · by_cases h3 : k.curve = P521
        · rw [main _ _ _ (by simp only [signingDefaults]; rw [if_neg h1, if_neg h2, if_pos h3]), cEc]
          simp [CanSign, h3, FamilyFits]
        · have : ¬ CanSign (.ecdsa k) := by
            simp only [not_or] at h1
            simp only [CanSign]; rintro (h | h | h | h)
            · exact h1.1 h
            · exact h1.2 h
            · exact h2 h
            · exact h3 h
          simp only [this, false_and, iff_false]
          apply bad
          intro r h
          simp only [signingDefaults] at h
          rw [if_neg h1, if_neg h2, if_neg h3] at h
          cases h
  | sm2 k =>
    by_cases h1 : k.curve = SM2P256
    · rw [main _ _ _ (by simp only [signingDefaults]; rw [if_pos h1]), cEc]
      simp [CanSign, h1, FamilyFits]
    · have : ¬ CanSign (.sm2 k) := h1
      simp only [this, false_and, iff_false]
      apply bad
      intro r h
      simp only [signingDefaults] at h
      rw [if_neg h1] at h
      cases h
  | ed25519 k => rw [main _ _ _ rfl, cEd]; simp [CanSign, FamilyFits]
  | dsa k => simp only [CanSign, false_and, iff_false]; exact bad (fun r h => by cases h)
  | nil => simp only [CanSign, false_and, iff_false]; exact bad (fun r h => by cases h)
  | other k => simp only [CanSign, false_and, iff_false]; exact bad (fun r h => by cases h)

/-! ## Curves -/

/-- **C43**, curves: both directions are the published table. -/
theorem C43_curve_from_oid_iff (o : Oid) (c : Sm2.CurveId) : namedCurveFromOID o = some c ↔ (c, o) ∈ curveOids := by
  rw [← oidFromNamedCurve_iff]
  have : ∀ x ∈ curveOids, oidFromNamedCurve x.1 = some x.2 := by decide
  constructor
  · intro h
    simp only [oidFromNamedCurve] at h
    split at h
    · rename_i hc; injection h with h; subst h; subst hc; decide
    split at h
    · rename_i hc; injection h with h; subst h; subst hc; decide
    split at h
    · rename_i hc; injection h with h; subst h; subst hc; decide
    split at h
    · rename_i hc; injection h with h; subst h; subst hc; decide
    split at h
    · rename_i hc; injection h with h; subst h; subst hc; decide
    · cases h
  · intro h; exact this _ h

theorem C43_oid_from_curve_iff (o : Oid) (c : Sm2.CurveId) : oidFromNamedCurve c = some o ↔ (c, o) ∈ curveOids := by
  rw [← C43_curve_from_oid_iff, oidFromNamedCurve_iff]

/-! ## Extended key usages -/

theorem eku_rows : ∀ p ∈ extKeyUsageOIDs, ∃ i : Nat, p.1 = (i : Int) ∧ ekuOids[i]? = some p.2 := by
  intro p hp
  simp only [extKeyUsageOIDs, List.mem_cons, List.not_mem_nil, or_false] at hp
  rcases hp with rfl | rfl | rfl | rfl | rfl | rfl | rfl | rfl | rfl | rfl | rfl | rfl | rfl | rfl
  · exact ⟨0, rfl, rfl⟩
  · exact ⟨1, rfl, rfl⟩
  · exact ⟨2, rfl, rfl⟩
  · exact ⟨3, rfl, rfl⟩
  · exact ⟨4, rfl, rfl⟩
  · exact ⟨5, rfl, rfl⟩
  · exact ⟨6, rfl, rfl⟩
  · exact ⟨7, rfl, rfl⟩
  · exact ⟨8, rfl, rfl⟩
  · exact ⟨9, rfl, rfl⟩
  · exact ⟨10, rfl, rfl⟩
  · exact ⟨11, rfl, rfl⟩
  · exact ⟨12, rfl, rfl⟩
  · exact ⟨13, rfl, rfl⟩

/-- **C43**, extended key usages: the OID of usage number `e` is entry `e` of the published list. -/
theorem C43_eku_to_oid_iff (e : Int) (o : Oid) :
    oidFromExtKeyUsage e = some o ↔ ∃ i : Nat, e = (i : Int) ∧ ekuOids[i]? = some o := by
  constructor
  · intro h
    simp only [oidFromExtKeyUsage, Option.map_eq_some_iff] at h
    obtain ⟨p, hp, rfl⟩ := h
    have h1 : e = p.1 := by simpa using List.find?_some hp
    rw [h1]
    exact eku_rows p (List.mem_of_find?_eq_some hp)
  · rintro ⟨i, rfl, h⟩
    have hi : i < 14 := by
      have := (List.getElem?_eq_some_iff.mp h).1
      exact this
    interval_cases i <;> exact h

/-- The two directions are inverse. -/
theorem C43_eku_inverse (e : Int) (o : Oid) : extKeyUsageFromOID o = some e ↔ oidFromExtKeyUsage e = some o := by
  have h1 : ∀ p ∈ extKeyUsageOIDs, extKeyUsageFromOID p.2 = some p.1 ∧ oidFromExtKeyUsage p.1 = some p.2 := by decide
  constructor
  · intro h
    simp only [extKeyUsageFromOID, Option.map_eq_some_iff] at h
    obtain ⟨p, hp, rfl⟩ := h
    have h2 : o = p.2 := by simpa using List.find?_some hp
    rw [h2]
    exact (h1 p (List.mem_of_find?_eq_some hp)).2
  · intro h
    simp only [oidFromExtKeyUsage, Option.map_eq_some_iff] at h
    obtain ⟨p, hp, rfl⟩ := h
    have h2 : e = p.1 := by simpa using List.find?_some hp
    rw [h2]
    exact (h1 p (List.mem_of_find?_eq_some hp)).1

/-! ## Examples -/

example : ∃ r, signingParamsForPublicKey (.rsa ⟨3233, 17⟩) SHA384WithRSAPSS = .ok r :=
  (C43_signing_ok_iff _ _).mpr ⟨trivial, Or.inr ⟨_, Or.inr rfl⟩⟩

example : ¬ ∃ r, signingParamsForPublicKey (.rsa ⟨3233, 17⟩) SM2WithSM3 = .ok r := by
  rw [C43_signing_ok_iff]; simp [CanSign, FamilyFits, scheme]

example : Identifies ⟨[1, 2, 156, 10197, 1, 501], {}⟩ SM2WithSM3 :=
  (C43_recognised_iff _ _ (by decide)).mp (by decide +kernel)

example : Identifies ⟨[1, 2, 840, 113549, 1, 1, 10], { full := pssDER 1 32 }⟩ SHA256WithRSAPSS :=
  (C43_recognised_iff _ _ (by decide)).mp (by decide +kernel)

example : extKeyUsageFromOID [1, 3, 6, 1, 5, 5, 7, 3, 9] = some 9 :=
  (C43_eku_inverse _ _).mpr ((C43_eku_to_oid_iff _ _).mpr ⟨9, rfl, rfl⟩)

end MCrypto.Props
