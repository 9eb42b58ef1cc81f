import Verif.X509.BuildLemmas
/-
`processExtensions` against Verif.X509.ExtSpec.
-/
namespace MCrypto.X509
open MCrypto MCrypto.Asn1 MCrypto.X509Spec MCrypto.Props

theorem elem_unique {tag tag' : Der.Tag} {b b' e e' r r' : Bytes} (h1 : Elem tag b e) (h2 : Elem tag' b' e')
    (h : e ++ r = e' ++ r') : tag = tag' ∧ b = b' ∧ e = e' ∧ r = r' := by
  have a := (readAny_iff (e ++ r) tag b r).mpr ⟨e, rfl, h1⟩
  have c := (readAny_iff (e ++ r) tag' b' r').mpr ⟨e', h, h2⟩
  rw [a] at c
  simp only [Option.some.injEq, Prod.mk.injEq] at c
  obtain ⟨rfl, rfl, rfl⟩ := c
  exact ⟨rfl, rfl, List.append_cancel_right h, rfl⟩

theorem concat_unique {α : Type} {E : Bytes → α → Prop}
    (hE : ∀ e e' v v' r r', E e v → E e' v' → e ++ r = e' ++ r' → e = e' ∧ v = v')
    (hne : ∀ e v, E e v → e ≠ []) {vs ws : List α} {s : Bytes} (h1 : Concat E vs s) (h2 : Concat E ws s) : vs = ws := by
  obtain ⟨es, rfl, hf⟩ := h1
  obtain ⟨fs, hs, hg⟩ := h2
  induction hf generalizing fs ws with
  | nil =>
    cases hg with
    | nil => rfl
    | cons h _ =>
      simp only [List.flatten_nil, List.flatten_cons] at hs
      exact absurd (List.append_eq_nil_iff.mp hs.symm).1 (hne _ _ h)
  | cons h _ ih =>
    cases hg with
    | nil =>
      simp only [List.flatten_nil, List.flatten_cons] at hs
      exact absurd (List.append_eq_nil_iff.mp hs).1 (hne _ _ h)
    | cons h' hg' =>
      simp only [List.flatten_cons] at hs
      obtain ⟨rfl, rfl⟩ := hE _ _ _ _ _ _ h h' hs
      rw [ih _ (List.append_cancel_left hs) hg']

theorem san_unique {v : Bytes} {ns ms : List GName} (h1 : SanExt v ns) (h2 : SanExt v ms) : ns = ms := by
  obtain ⟨e, tr, b, hv, he, hc⟩ := h1
  obtain ⟨e', tr', b', hv', he', hc'⟩ := h2
  obtain ⟨-, rfl, -, -⟩ := elem_unique he he' (hv ▸ hv')
  refine concat_unique ?_ (fun e v h => h.ne_nil) hc hc'
  rintro e e' ⟨t, b⟩ ⟨t', b'⟩ r r' h h' hh
  obtain ⟨rfl, rfl, rfl, -⟩ := elem_unique h h' hh
  exact ⟨rfl, rfl⟩

theorem subtrees_unique {v : Bytes} {ns ms : List GName} (h1 : SubtreesBody v ns) (h2 : SubtreesBody v ms) : ns = ms := by
  refine concat_unique ?_ (fun e v ⟨_, _, h, _⟩ => h.ne_nil) h1 h2
  rintro e e' ⟨t, b⟩ ⟨t', b'⟩ r r' ⟨ve, q, h, hv⟩ ⟨ve', q', h', hv'⟩ hh
  obtain ⟨-, hb, rfl, -⟩ := elem_unique h h' hh
  obtain ⟨rfl, rfl, -, -⟩ := elem_unique hv hv' hb
  exact ⟨rfl, rfl⟩

theorem nc_unique {v : Bytes} {p x p' x' : List GName} (h1 : NameConstraintsExt v p x) (h2 : NameConstraintsExt v p' x') :
    p = p' ∧ x = x' := by
  obtain ⟨po, xo, pe, xe, he, h3, h4, h5, h6, h7⟩ := h1
  obtain ⟨po', xo', pe', xe', he', h3', h4', h5', h6', h7'⟩ := h2
  have ne : ∀ {p x : List GName} {po xo : Option Bytes}, SubtreesBody (po.getD []) p → SubtreesBody (xo.getD []) x →
      (p ≠ [] ∨ x ≠ []) → (po.getD [] ≠ [] ∨ xo.getD [] ≠ []) := by
    intro p x po xo a b c
    rcases c with c | c
    · exact Or.inl fun h => c ((subtrees_nil a).mp h)
    · exact Or.inr fun h => c ((subtrees_nil b).mp h)
  have e1 := (split_iff v (po.getD []) (xo.getD [])).mpr ⟨po, xo, pe, xe, he, h3, h4, rfl, rfl, ne h5 h6 h7⟩
  have e2 := (split_iff v (po'.getD []) (xo'.getD [])).mpr ⟨po', xo', pe', xe', he', h3', h4', rfl, rfl, ne h5' h6' h7'⟩
  rw [e1] at e2
  simp only [Option.some.injEq, Prod.mk.injEq] at e2
  rw [e2.1] at h5
  rw [e2.2] at h6
  exact ⟨subtrees_unique h5 h5', subtrees_unique h6 h6'⟩

theorem ofTag_nil_iff (t : Der.Tag) (ns : List GName) : ofTag t ns = [] ↔ ∀ n ∈ ns, n.1 ≠ t := by
  unfold ofTag
  rw [List.map_eq_nil_iff, List.filter_eq_nil_iff]
  simp

/-- What is accepted, and what is flagged, does not depend on the certificate built so far. -/
theorem processExtension_iff (env : Env) (out : Certificate) (e : Ext) :
    (∃ r, processExtension env out e = some r) ↔ WellFormed env e := by
  have ex : ∀ {α β : Type} (x : Option α) (f : α → β), (∃ r, (x.bind fun a => some (f a)) = some r) ↔ ∃ a, x = some a := by
    intro α β x f
    cases x <;> simp
  unfold processExtension WellFormed
  by_cases h1 : e.id = [2, 5, 29, 15]
  · simp only [h1, if_true, Option.pure_def, Option.bind_eq_bind, Option.bind_some, ex, oidExtensionAuthorityInfoAccess,
      reduceCtorEq, List.cons.injEq, Nat.reduceEqDiff, Nat.succ_ne_self, true_and, and_true, false_and, and_false, false_imp_iff, true_imp_iff, and_self, if_false]
    simp only [parseKeyUsage_iff]
    constructor
    · rintro ⟨_, ku, -, h⟩; exact ⟨ku, h⟩
    · rintro ⟨ku, h⟩; exact ⟨_, ku, rfl, h⟩
  rw [if_neg h1]
  by_cases h2 : e.id = [2, 5, 29, 19]
  · simp only [h2, if_true, Option.pure_def, Option.bind_eq_bind, Option.bind_some, ex, oidExtensionAuthorityInfoAccess,
      reduceCtorEq, List.cons.injEq, Nat.reduceEqDiff, Nat.succ_ne_self, true_and, and_true, false_and, and_false, false_imp_iff, true_imp_iff, and_self, if_false]
    simp only [Prod.exists, parseBc_iff]
  rw [if_neg h2]
  by_cases h3 : e.id = [2, 5, 29, 17]
  · simp only [h3, if_true, Option.pure_def, Option.bind_eq_bind, Option.bind_some, ex, oidExtensionAuthorityInfoAccess,
      reduceCtorEq, List.cons.injEq, Nat.reduceEqDiff, Nat.succ_ne_self, true_and, and_true, false_and, and_false, false_imp_iff, true_imp_iff, and_self, if_false]
    simp only [parseSan_iff]
    constructor
    · rintro ⟨_, ns, a, b, -⟩; exact ⟨ns, a, b⟩
    · rintro ⟨ns, a, b⟩; exact ⟨_, ns, a, b, rfl⟩
  rw [if_neg h3]
  by_cases h4 : e.id = [2, 5, 29, 30]
  · simp only [h4, if_true, Option.pure_def, Option.bind_eq_bind, Option.bind_some, ex, oidExtensionAuthorityInfoAccess,
      reduceCtorEq, List.cons.injEq, Nat.reduceEqDiff, Nat.succ_ne_self, true_and, and_true, false_and, and_false, false_imp_iff, true_imp_iff, and_self, if_false]
    simp only [Prod.exists, parseNc_iff, List.mem_append]
    constructor
    · rintro ⟨_, _, p, x, a, b, c, -⟩; exact ⟨p, x, a, fun n hn => hn.elim (b n) (c n)⟩
    · rintro ⟨p, x, a, b⟩; exact ⟨_, _, p, x, a, fun n hn => b n (Or.inl hn), fun n hn => b n (Or.inr hn), rfl, rfl⟩
  rw [if_neg h4]
  by_cases h5 : e.id = [2, 5, 29, 31]
  · simp only [h5, if_true, Option.pure_def, Option.bind_eq_bind, Option.bind_some, ex, oidExtensionAuthorityInfoAccess,
      reduceCtorEq, List.cons.injEq, Nat.reduceEqDiff, Nat.succ_ne_self, true_and, and_true, false_and, and_false, false_imp_iff, true_imp_iff, and_self, if_false]
    simp only [parseCrlDp_iff]
    constructor
    · rintro ⟨_, ps, a, -⟩; exact ⟨ps, a⟩
    · rintro ⟨ps, a⟩; exact ⟨_, ps, a, rfl⟩
  rw [if_neg h5]
  by_cases h6 : e.id = [2, 5, 29, 35]
  · simp only [h6, if_true, Option.pure_def, Option.bind_eq_bind, Option.bind_some, ex, oidExtensionAuthorityInfoAccess,
      reduceCtorEq, List.cons.injEq, Nat.reduceEqDiff, Nat.succ_ne_self, true_and, and_true, false_and, and_false, false_imp_iff, true_imp_iff, and_self, if_false]
    simp only [parseAki_iff]
  rw [if_neg h6]
  by_cases h7 : e.id = [2, 5, 29, 37]
  · simp only [h7, if_true, Option.pure_def, Option.bind_eq_bind, Option.bind_some, ex, oidExtensionAuthorityInfoAccess,
      reduceCtorEq, List.cons.injEq, Nat.reduceEqDiff, Nat.succ_ne_self, true_and, and_true, false_and, and_false, false_imp_iff, true_imp_iff, and_self, if_false]
    simp only [Prod.exists, parseEku_iff]
    constructor
    · rintro ⟨_, _, os, a, -⟩; exact ⟨os, a⟩
    · rintro ⟨os, a⟩; exact ⟨_, _, os, a, rfl, rfl⟩
  rw [if_neg h7]
  by_cases h8 : e.id = [2, 5, 29, 14]
  · simp only [h8, if_true, Option.pure_def, Option.bind_eq_bind, Option.bind_some, ex, oidExtensionAuthorityInfoAccess,
      reduceCtorEq, List.cons.injEq, Nat.reduceEqDiff, Nat.succ_ne_self, true_and, and_true, false_and, and_false, false_imp_iff, true_imp_iff, and_self, if_false]
    simp only [Prod.exists, readASN1_iff, SkiExt]
    constructor
    · rintro ⟨k, tr, e', a⟩; exact ⟨k, e', tr, a⟩
    · rintro ⟨k, e', tr, a⟩; exact ⟨k, tr, e', a⟩
  rw [if_neg h8]
  by_cases h9 : e.id = [2, 5, 29, 32]
  · simp only [h9, if_true, Option.pure_def, Option.bind_eq_bind, Option.bind_some, ex, oidExtensionAuthorityInfoAccess,
      reduceCtorEq, List.cons.injEq, Nat.reduceEqDiff, Nat.succ_ne_self, true_and, and_true, false_and, and_false, false_imp_iff, true_imp_iff, and_self, if_false]
    simp only [parsePolicies_iff]
  rw [if_neg h9]
  by_cases h10 : e.id = oidExtensionAuthorityInfoAccess
  · simp only [h10, if_true, Option.pure_def, Option.bind_eq_bind, Option.bind_some, ex, oidExtensionAuthorityInfoAccess,
      reduceCtorEq, List.cons.injEq, Nat.reduceEqDiff, Nat.succ_ne_self, true_and, and_true, false_and, and_false, false_imp_iff, true_imp_iff, and_self, if_false]
    simp only [Prod.exists, parseAia_iff]
    constructor
    · rintro ⟨_, _, os, a, -⟩; exact ⟨os, a⟩
    · rintro ⟨os, a⟩; exact ⟨_, _, os, a, rfl, rfl⟩
  rw [if_neg h10]
  rw [oidExtensionAuthorityInfoAccess] at h10
  simp [h1, h2, h3, h4, h5, h6, h7, h8, h9, h10]

/-- The fields of a certificate that do not come from extensions (and the list of extensions itself). -/
def core (c : Certificate) : Certificate where
  raw := c.raw
  rawTBSCertificate := c.rawTBSCertificate
  rawSubjectPublicKeyInfo := c.rawSubjectPublicKeyInfo
  rawSubject := c.rawSubject
  rawIssuer := c.rawIssuer
  signature := c.signature
  signatureAlgorithm := c.signatureAlgorithm
  publicKeyAlgorithm := c.publicKeyAlgorithm
  publicKey := c.publicKey
  version := c.version
  serialNumber := c.serialNumber
  issuer := c.issuer
  subject := c.subject
  notBefore := c.notBefore
  notAfter := c.notAfter
  extensions := c.extensions
  extraExtensions := c.extraExtensions

/-- The flag, and what is not touched. -/
theorem processExtension_flag (env : Env) (out : Certificate) (e : Ext) (out' : Certificate) (u : Bool)
    (h : processExtension env out e = some (out', u)) :
    (u = true ↔ Unhandled e) ∧ out'.unhandledCriticalExtensions = out.unhandledCriticalExtensions ∧
    core out' = core out := by
  unfold processExtension at h
  have known : ∀ {o : Oid}, e.id = o → o ∈ knownExtensions → o ≠ [2, 5, 29, 17] → o ≠ [2, 5, 29, 30] →
      (false = true ↔ Unhandled e) := by
    intro o he ho hs hn
    unfold Unhandled
    simp [he, ho, hs, hn]
  by_cases h1 : e.id = [2, 5, 29, 15]
  · simp only [h1, if_true, Option.pure_def, Option.bind_eq_bind, Option.bind_eq_some_iff, Option.some.injEq, Prod.mk.injEq] at h
    obtain ⟨_, _, rfl, rfl⟩ := h
    exact ⟨known h1 (by decide) (by decide) (by decide), rfl, rfl⟩
  rw [if_neg h1] at h
  by_cases h2 : e.id = [2, 5, 29, 19]
  · simp only [h2, if_true, Option.pure_def, Option.bind_eq_bind, Option.bind_eq_some_iff, Option.some.injEq, Prod.mk.injEq, Prod.exists] at h
    obtain ⟨_, _, _, rfl, rfl⟩ := h
    exact ⟨known h2 (by decide) (by decide) (by decide), rfl, rfl⟩
  rw [if_neg h2] at h
  by_cases h3 : e.id = [2, 5, 29, 17]
  · simp only [h3, if_true, Option.pure_def, Option.bind_eq_bind, Option.bind_eq_some_iff, Option.some.injEq, Prod.mk.injEq, parseSan_iff] at h
    obtain ⟨_, ⟨names, hn, -, rfl⟩, rfl, rfl⟩ := h
    refine ⟨?_, rfl, rfl⟩
    have hu : Unhandled e ↔ ∀ n ∈ names, n.1 ∉ nameTags := by
      unfold Unhandled
      rw [h3]
      constructor
      · rintro (h | ⟨-, ms, hm, h⟩ | ⟨h, -⟩)
        · exact absurd (by decide) h
        · rw [san_unique hn hm]; exact h
        · exact absurd h (by decide)
      · intro h; exact Or.inr (Or.inl ⟨rfl, names, hn, h⟩)
    rw [hu, decide_eq_true_iff]
    simp only [List.length_eq_zero_iff, List.map_eq_nil_iff, ofTag_nil_iff]
    simp only [nameTags, List.mem_cons, List.not_mem_nil, or_false, not_or]
    constructor
    · rintro ⟨a, b, c, d⟩ n hn; exact ⟨b n hn, a n hn, d n hn, c n hn⟩
    · intro h; exact ⟨fun n hn => (h n hn).2.1, fun n hn => (h n hn).1, fun n hn => (h n hn).2.2.2, fun n hn => (h n hn).2.2.1⟩
  rw [if_neg h3] at h
  by_cases h4 : e.id = [2, 5, 29, 30]
  · simp only [h4, if_true, Option.pure_def, Option.bind_eq_bind, Option.bind_eq_some_iff, Option.some.injEq, Prod.mk.injEq, Prod.exists, parseNc_iff] at h
    obtain ⟨_, _, ⟨p, x, hn, -, -, rfl, rfl⟩, rfl, rfl⟩ := h
    refine ⟨?_, rfl, rfl⟩
    have hu : Unhandled e ↔ ∃ n ∈ p ++ x, n.1 ∉ nameTags := by
      unfold Unhandled
      rw [h4]
      constructor
      · rintro (h | ⟨h, -⟩ | ⟨-, p', x', hm, h⟩)
        · exact absurd (by decide) h
        · exact absurd h (by decide)
        · obtain ⟨rfl, rfl⟩ := nc_unique hn hm; exact h
      · intro h; exact Or.inr (Or.inr ⟨rfl, p, x, hn, h⟩)
    rw [hu]
    simp only [subtreesOf, Bool.or_eq_true, List.any_eq_true, Bool.not_eq_true', List.contains_eq_mem,
      decide_eq_false_iff_not, List.mem_append, nameTags]
    constructor
    · rintro (⟨n, a, b⟩ | ⟨n, a, b⟩)
      exacts [⟨n, Or.inl a, b⟩, ⟨n, Or.inr a, b⟩]
    · rintro ⟨n, a | a, b⟩
      exacts [Or.inl ⟨n, a, b⟩, Or.inr ⟨n, a, b⟩]
  rw [if_neg h4] at h
  by_cases h5 : e.id = [2, 5, 29, 31]
  · simp only [h5, if_true, Option.pure_def, Option.bind_eq_bind, Option.bind_eq_some_iff, Option.some.injEq, Prod.mk.injEq] at h
    obtain ⟨_, _, rfl, rfl⟩ := h
    exact ⟨known h5 (by decide) (by decide) (by decide), rfl, rfl⟩
  rw [if_neg h5] at h
  by_cases h6 : e.id = [2, 5, 29, 35]
  · simp only [h6, if_true, Option.pure_def, Option.bind_eq_bind, Option.bind_eq_some_iff, Option.some.injEq, Prod.mk.injEq] at h
    obtain ⟨_, _, rfl, rfl⟩ := h
    exact ⟨known h6 (by decide) (by decide) (by decide), rfl, rfl⟩
  rw [if_neg h6] at h
  by_cases h7 : e.id = [2, 5, 29, 37]
  · simp only [h7, if_true, Option.pure_def, Option.bind_eq_bind, Option.bind_eq_some_iff, Option.some.injEq, Prod.mk.injEq, Prod.exists] at h
    obtain ⟨_, _, _, rfl, rfl⟩ := h
    exact ⟨known h7 (by decide) (by decide) (by decide), rfl, rfl⟩
  rw [if_neg h7] at h
  by_cases h8 : e.id = [2, 5, 29, 14]
  · simp only [h8, if_true, Option.pure_def, Option.bind_eq_bind, Option.bind_eq_some_iff, Option.some.injEq, Prod.mk.injEq, Prod.exists] at h
    obtain ⟨_, _, _, rfl, rfl⟩ := h
    exact ⟨known h8 (by decide) (by decide) (by decide), rfl, rfl⟩
  rw [if_neg h8] at h
  by_cases h9 : e.id = [2, 5, 29, 32]
  · simp only [h9, if_true, Option.pure_def, Option.bind_eq_bind, Option.bind_eq_some_iff, Option.some.injEq, Prod.mk.injEq] at h
    obtain ⟨_, _, rfl, rfl⟩ := h
    exact ⟨known h9 (by decide) (by decide) (by decide), rfl, rfl⟩
  rw [if_neg h9] at h
  by_cases h10 : e.id = oidExtensionAuthorityInfoAccess
  · simp only [h10, if_true, Option.pure_def, Option.bind_eq_bind, Option.bind_eq_some_iff, Option.some.injEq, Prod.mk.injEq, Prod.exists] at h
    obtain ⟨_, _, _, rfl, rfl⟩ := h
    exact ⟨known h10 (by decide) (by decide) (by decide), rfl, rfl⟩
  rw [if_neg h10] at h
  simp only [Option.some.injEq, Prod.mk.injEq] at h
  obtain ⟨rfl, rfl⟩ := h
  refine ⟨⟨fun _ => Or.inl ?_, fun _ => rfl⟩, rfl, rfl⟩
  rw [oidExtensionAuthorityInfoAccess] at h10
  simp [knownExtensions, h1, h2, h3, h4, h5, h6, h7, h8, h9, h10]

theorem processLoop_iff (env : Env) (l : List Ext) (out : Certificate) :
    (∃ r, processExtensionsLoop env out l = some r) ↔ ∀ e ∈ l, WellFormed env e := by
  induction l generalizing out with
  | nil => simp [processExtensionsLoop]
  | cons e l ih =>
    rw [List.forall_mem_cons, ← processExtension_iff env out e, processExtensionsLoop]
    match h : processExtension env out e with
    | none => simp
    | some (o, u) => simp only []; rw [ih]; simp

theorem processLoop_append (env : Env) (l m : List Ext) (out : Certificate) :
    processExtensionsLoop env out (l ++ m) =
      (processExtensionsLoop env out l).bind fun o => processExtensionsLoop env o m := by
  induction l generalizing out with
  | nil => rfl
  | cons e l ih =>
    rw [List.cons_append, processExtensionsLoop, processExtensionsLoop]
    match processExtension env out e with
    | none => rfl
    | some (o, u) => exact ih _

open Classical in
theorem processLoop_unhandled (env : Env) (l : List Ext) (out out' : Certificate)
    (h : processExtensionsLoop env out l = some out') :
    out'.unhandledCriticalExtensions = out.unhandledCriticalExtensions ++
      (l.filter fun e => decide (e.critical = true ∧ Unhandled e)).map (·.id) := by
  induction l generalizing out with
  | nil => simp [processExtensionsLoop] at h; subst h; simp
  | cons e l ih =>
    rw [processExtensionsLoop] at h
    match hp : processExtension env out e with
    | none => rw [hp] at h; cases h
    | some (o, u) =>
      rw [hp] at h
      simp only [] at h
      obtain ⟨hu, hl, -⟩ := processExtension_flag env out e o u hp
      rw [ih _ h]
      by_cases hc : e.critical = true ∧ Unhandled e
      · rw [if_pos (by simp [hc.1, hu.mpr hc.2]), List.filter_cons_of_pos (by simpa using hc)]
        simp [hl]
      · rw [if_neg (by simpa [hu] using hc), List.filter_cons_of_neg (by simpa using hc), hl]

end MCrypto.X509
