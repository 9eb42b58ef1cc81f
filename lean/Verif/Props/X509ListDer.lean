import Verif.X509.CsrGrammar
import Verif.X509.ListGrammarLemmas
import Verif.Props.X509Csr
import Verif.Props.X509Crl
/-
C94, C95: what the parsers of revocation lists and certificate requests accept, octet by octet. Vocabulary:
Verif/X509/ListGrammar.lean and Verif/X509/CsrGrammar.lean.
-/
namespace MCrypto.Props
open MCrypto MCrypto.X509 MCrypto.Asn1 MCrypto.X509Spec MCrypto.Dg

/-! ## Revocation lists -/

/-- **C94** `ParseDERCRL` accepts exactly the CertificateList structures, to the last octet, and returns their contents. -/
theorem C94_crl_grammar (der : Bytes) (f : CrlFields) :
    (∃ c, ParseDERCRL der = .ok c ∧ crlFields c = f) ↔ CrlDer der f := by
  unfold ParseDERCRL
  constructor
  · rintro ⟨c, h, hf⟩
    cases hu : unmarshal crl der with
    | none => rw [hu] at h; cases h
    | some x =>
      obtain ⟨c', rest⟩ := x
      rw [hu] at h
      simp only [] at h
      split at h
      · cases h
      rename_i hr
      have hr0 : rest = [] := List.length_eq_zero_iff.mp (not_not.mp hr)
      subst hr0
      injection h with h
      subst h
      obtain ⟨e, he, hd⟩ := (crl_iff der [] f).mp ⟨c', hu, hf⟩
      rw [List.append_nil] at he
      exact he ▸ hd
  · intro h
    obtain ⟨c, hc, hf⟩ := (crl_iff der [] f).mpr ⟨der, (List.append_nil _).symm, h⟩
    refine ⟨c, ?_, hf⟩
    rw [show unmarshal crl der = some (c, []) from hc]
    rfl

/-- **C94** `ParseCRL` parses the first PEM block if the input begins with `-----BEGIN X509 CRL` and the block has that
type, else the input itself. -/
theorem C94_pem (pemDecode : Bytes → Option (Bytes × Bytes)) (b : Bytes) :
    (∀ type bytes rest, b = "-----BEGIN X509 CRL".toUTF8.data.toList ++ rest → pemDecode b = some (type, bytes) →
      type = "X509 CRL".toUTF8.data.toList → ParseCRL pemDecode b = ParseDERCRL bytes) ∧
    ((¬ ∃ bytes rest, b = "-----BEGIN X509 CRL".toUTF8.data.toList ++ rest ∧
      pemDecode b = some ("X509 CRL".toUTF8.data.toList, bytes)) → ParseCRL pemDecode b = ParseDERCRL b) := by
  have e1 : "-----BEGIN X509 CRL".toUTF8.data.toList = pemCRLPrefix := by decide +kernel
  have e2 : "X509 CRL".toUTF8.data.toList = pemType := by decide +kernel
  rw [e1, e2]
  constructor
  · rintro type bytes rest rfl h rfl
    unfold ParseCRL
    rw [if_pos (List.isPrefixOf_iff_prefix.mpr ⟨rest, rfl⟩), h]
    simp
  · intro h
    unfold ParseCRL
    split
    · rename_i hp
      obtain ⟨rest, hr⟩ := List.isPrefixOf_iff_prefix.mp hp
      cases hd : pemDecode b with
      | none => rfl
      | some x =>
        obtain ⟨type, bytes⟩ := x
        simp only []
        rw [if_neg]
        rintro rfl
        exact h ⟨bytes, rest, hr.symm, hd⟩
    · rfl

/-! ## Requests -/

theorem setField_iff {α : Type} (c : Codec α) (hc : c.compound = true) (b : Bytes) (v : α) (r : Bytes) :
    parseField c { set := true } b = some (v, r) ↔ ∃ e body, b = e ++ r ∧ El 0x31 body e ∧ c.dec body e = some v := by
  rw [parseField_iff c { set := true } rfl 0 17 rfl rfl (by decide)]
  simp only [reduceCtorEq, false_and, or_false, hc]
  constructor
  · rintro ⟨body, rfl, h1, h2⟩
    exact ⟨_, body, rfl, (el_iff 0 true 17 (by decide) _ _).mpr ⟨rfl, h1⟩, h2⟩
  · rintro ⟨e, body, rfl, h1, h2⟩
    obtain ⟨rfl, h3⟩ := (el_iff 0 true 17 (by decide) _ _).mp h1
    exact ⟨body, rfl, h3, h2⟩

theorem forall₂_raw (es : List Bytes) : (∃ l, List.Forall₂ ReadsRaw es l) ↔ ∀ e ∈ es, AnyEl e := by
  constructor
  · rintro ⟨l, h⟩
    induction h with
    | nil => simp
    | cons h _ ih =>
      intro e he
      rcases List.mem_cons.mp he with rfl | he
      · exact (anyEl_iff _).mpr ⟨_, h⟩
      · exact ih e he
  · intro h
    induction es with
    | nil => exact ⟨[], .nil⟩
    | cons e es ih =>
      obtain ⟨v, hv⟩ := (anyEl_iff _).mp (h e List.mem_cons_self)
      obtain ⟨l, hl⟩ := ih fun x hx => h x (List.mem_cons_of_mem _ hx)
      exact ⟨v :: l, .cons hv hl⟩

theorem readsRaw_inj {es es' : List Bytes} {l : List RawValue} (h : List.Forall₂ ReadsRaw es l)
    (h' : List.Forall₂ ReadsRaw es' l) : es = es' := by
  induction h generalizing es' with
  | nil => cases h'; rfl
  | cons h _ ih =>
    cases h' with
    | cons h' h'' => rw [ih h'', ← h.full, ← h'.full]

theorem single_el {e e' r b : Bytes} (hany : AnyEl e) (h : El 0x30 b e') (he : e = e' ++ r) : r = [] := by
  obtain ⟨h2, h3⟩ := (el_iff 0 true 16 (by decide) b e').mp h
  obtain ⟨v, hv⟩ := (anyEl_iff _).mp hany
  have a1 := (parseRaw_reads e v []).mpr ⟨e, (List.append_nil _).symm, hv⟩
  have a2 := (parseRaw_reads e (rawOf 0 true 16 b) r).mpr ⟨e', he, 0, true, 16, b, rfl, h2, by decide, by decide, h3⟩
  rw [a1] at a2
  simp only [Option.some.injEq, Prod.mk.injEq] at a2
  exact a2.2.symm

theorem atvSeq_iff (b : Bytes) (l : List AtvAny) (r : Bytes) :
    parseField (seqOf atvAny) {} b = some (l, r) ↔ ∃ e, b = e ++ r ∧ ∃ body, El 0x30 body e ∧ Many AtvEl l body := by
  rw [field_iff (seqOf atvAny) (by decide) 0x30 (by decide)]
  simp only [seqOf_iff atvAny (by decide) AtvEl atv_iff]
  constructor
  · rintro ⟨e, body, rfl, h1, h2⟩; exact ⟨e, rfl, body, h1, h2⟩
  · rintro ⟨e, rfl, body, h1, h2⟩; exact ⟨e, body, rfl, h1, h2⟩

theorem attrSet_iff (b : Bytes) (a : AttrSet) (r : Bytes) :
    parseField attrSet {} b = some (a, r) ↔ ∃ e, b = e ++ r ∧ AttrSetEl a e := by
  have key := fun body full l => seqOf_iff (seqOf atvAny) (by decide) _ atvSeq_iff body full l
  rw [field_iff attrSet (by decide) 0x30 (by decide)]
  simp only [attrSet, Option.pure_def, Option.bind_eq_bind, Option.bind_eq_some_iff, Option.some.injEq, Prod.exists, oid_iff,
    setField_iff (Asn1.setOf (seqOf atvAny)) rfl]
  constructor
  · rintro ⟨e, body, rfl, h1, o, _, ⟨oe, rfl, h2⟩, v, junk, ⟨se, sb, rfl, h3, h4⟩, rfl⟩
    exact ⟨e, rfl, oe, se, sb, junk, h1, h2, h3, (key sb se _).mp h4⟩
  · rintro ⟨e, rfl, oe, se, sb, junk, h1, h2, h3, h4⟩
    exact ⟨e, _, rfl, h1, a.type, _, ⟨oe, rfl, h2⟩, a.value, junk, ⟨se, sb, rfl, h3, (key sb se _).mpr h4⟩, rfl⟩

theorem attributes_iff {es : List Bytes} {raws : List RawValue} (h : List.Forall₂ ReadsRaw es raws) (l : List AttrSet) :
    parseRawAttributes raws = l ↔ AttributesAre es l := by
  induction h generalizing l with
  | nil =>
    simp only [parseRawAttributes, List.filterMap_nil]
    constructor
    · rintro rfl; exact .nil
    · intro h; cases h; rfl
  | cons h _ ih =>
    rename_i e v es raws _
    have hstep : parseRawAttributes (v :: raws) = (match unmarshal attrSet e with
          | some (a, []) => a :: parseRawAttributes raws
          | _ => parseRawAttributes raws) := by
      unfold parseRawAttributes
      rw [List.filterMap_cons, h.full]
      rcases unmarshal attrSet e with _ | ⟨a, _ | ⟨x, r⟩⟩ <;> rfl
    rw [hstep]
    by_cases hx : ∃ a, AttrSetEl a e
    · obtain ⟨a, ha⟩ := hx
      have hu : ∀ a, AttrSetEl a e → unmarshal attrSet e = some (a, []) :=
        fun a ha => (attrSet_iff _ _ _).mpr ⟨e, (List.append_nil _).symm, ha⟩
      rw [hu a ha]
      simp only []
      constructor
      · rintro rfl; exact .take _ _ _ _ ha ((ih _).mp rfl)
      · intro hl
        cases hl with
        | take _ a' _ l' ha' hl =>
          have := hu a' ha'
          rw [hu a ha] at this
          simp only [Option.some.injEq, Prod.mk.injEq, and_true] at this
          rw [this, (ih _).mpr hl]
        | skip _ _ _ hno _ => exact absurd ⟨a, ha⟩ hno
    · have hn : (match unmarshal attrSet e with
          | some (a, []) => a :: parseRawAttributes raws
          | _ => parseRawAttributes raws) = parseRawAttributes raws := by
        rcases hu : unmarshal attrSet e with _ | ⟨a, _ | ⟨x, r⟩⟩
        · rfl
        · obtain ⟨e', he, ha⟩ := (attrSet_iff _ _ _).mp hu
          rw [List.append_nil] at he
          exact absurd ⟨a, he ▸ ha⟩ hx
        · rfl
      rw [hn]
      constructor
      · intro hl; exact .skip _ _ _ hx ((ih _).mp hl)
      · intro hl
        cases hl with
        | take _ a _ _ ha _ => exact absurd ⟨a, ha⟩ hx
        | skip _ _ _ _ hl => exact (ih _).mpr hl

theorem rawAttr_iff (b : Bytes) (a : RawAttr) (r : Bytes) :
    parseField rawAttr {} b = some (a, r) ↔ ∃ e oe se es junk, b = e ++ r ∧ El 0x30 (oe ++ (se ++ junk)) e ∧ OidEl a.id oe ∧
      El 0x31 es.flatten se ∧ List.Forall₂ ReadsRaw es a.values := by
  rw [field_iff rawAttr (by decide) 0x30 (by decide)]
  simp only [rawAttr, Option.pure_def, Option.bind_eq_bind, Option.bind_eq_some_iff, Option.some.injEq, Prod.exists, oid_iff,
    setField_iff seqOfRaw rfl, seqOfRaw_dec_iff]
  constructor
  · rintro ⟨e, body, rfl, h1, o, _, ⟨oe, rfl, h2⟩, v, junk, ⟨se, sb, rfl, h3, es, rfl, h4⟩, rfl⟩
    exact ⟨e, oe, se, es, junk, rfl, h1, h2, h3, h4⟩
  · rintro ⟨e, oe, se, es, junk, rfl, h1, h2, h3, h4⟩
    exact ⟨e, _, rfl, h1, a.id, _, ⟨oe, rfl, h2⟩, a.values, junk, ⟨se, _, rfl, h3, es, rfl, h4⟩, rfl⟩

theorem extSeq_iff (b : Bytes) (l : List Ext) (r : Bytes) :
    parseField (seqOf extension) {} b = some (l, r) ↔ ∃ e, b = e ++ r ∧ ExtsEl l e := by
  rw [field_iff (seqOf extension) (by decide) 0x30 (by decide)]
  simp only [seqOf_iff extension (by decide) ExtEl ext_iff]
  constructor
  · rintro ⟨e, body, rfl, h1, h2⟩; exact ⟨e, rfl, body, h1, h2⟩
  · rintro ⟨e, rfl, body, h1, h2⟩; exact ⟨e, body, rfl, h1, h2⟩

theorem oidEl_inj {o o' : Oid} {e : Bytes} (h : OidEl o e) (h' : OidEl o' e) : o = o' := by
  have a1 := (oid_iff e o []).mpr ⟨e, (List.append_nil _).symm, h⟩
  have a2 := (oid_iff e o' []).mpr ⟨e, (List.append_nil _).symm, h'⟩
  rw [a1] at a2
  simp only [Option.some.injEq, Prod.mk.injEq] at a2
  exact a2.1

/-- An extensionRequest attribute as the code sees it. -/
theorem extReq_iff (first e : Bytes) : ExtReqEl first e ↔ ∃ a v l, unmarshal rawAttr e = some (a, []) ∧
    a.id = extensionRequest ∧ a.values = v :: l ∧ v.full = first := by
  constructor
  · rintro ⟨oe, se, es, junk, h1, h2, h3, h4, h5⟩
    obtain ⟨v, hv⟩ := (anyEl_iff _).mp h4
    obtain ⟨l, hl⟩ := (forall₂_raw es).mpr h5
    exact ⟨⟨extensionRequest, v :: l⟩, v, l, (rawAttr_iff e _ []).mpr ⟨e, oe, se, first :: es, junk, (List.append_nil _).symm, h1,
      h2, h3, .cons hv hl⟩, rfl, rfl, hv.full⟩
  · rintro ⟨a, v, l, h1, h2, h3, rfl⟩
    obtain ⟨e', oe, se, es, junk, he, k1, k2, k3, k4⟩ := (rawAttr_iff _ _ _).mp h1
    rw [List.append_nil] at he
    subst he
    rw [h3] at k4
    cases k4 with
    | cons hv hl =>
      rename_i first es
      rw [hv.full]
      exact ⟨oe, se, es, junk, k1, h2 ▸ k2, k3, (anyEl_iff _).mpr ⟨_, hv⟩, (forall₂_raw es).mp ⟨_, hl⟩⟩

theorem attrExts_iff {e : Bytes} {v : RawValue} (h : ReadsRaw e v) (xs : List Ext) :
    attrExtensions v = some xs ↔ (∃ first, ExtReqEl first e ∧ ExtsEl xs first) ∨ ((¬ ∃ first, ExtReqEl first e) ∧ xs = []) := by
  have hany : AnyEl e := (anyEl_iff _).mpr ⟨_, h⟩
  simp only [extReq_iff]
  by_cases hx : ∃ first a w l, unmarshal rawAttr e = some (a, []) ∧ a.id = extensionRequest ∧ a.values = w :: l ∧ w.full = first
  · obtain ⟨first, a, w, l, h1, h2, h3, rfl⟩ := hx
    have hw : ∃ fe, ReadsRaw fe w := by
      obtain ⟨e', oe, se, es, junk, he, k1, k2, k3, k4⟩ := (rawAttr_iff _ _ _).mp h1
      rw [h3] at k4
      cases k4 with
      | cons hv hl => exact ⟨_, hv⟩
    obtain ⟨fe, hw⟩ := hw
    have hval : attrExtensions v = some xs ↔ ExtsEl xs w.full := by
      unfold attrExtensions
      rw [h.full, h1]
      simp only [h3]
      rw [if_neg (by simp [h2, oidExtensionRequest, extensionRequest])]
      constructor
      · intro hh
        cases hu : unmarshal (seqOf extension) w.full with
        | none => rw [hu] at hh; cases hh
        | some x =>
          obtain ⟨x, rr⟩ := x
          rw [hu] at hh
          simp only [Option.some.injEq] at hh
          subst hh
          obtain ⟨e', he, body, k1, k2⟩ := (extSeq_iff _ _ _).mp hu
          have := single_el ((anyEl_iff _).mpr ⟨_, (hw.full ▸ hw : ReadsRaw w.full w)⟩) k1 he
          subst this
          rw [List.append_nil] at he
          exact he ▸ ⟨body, k1, k2⟩
      · intro hh
        rw [show unmarshal (seqOf extension) w.full = some (xs, []) from (extSeq_iff _ _ _).mpr ⟨_, (List.append_nil _).symm, hh⟩]
    rw [hval]
    constructor
    · intro hh; exact Or.inl ⟨_, ⟨a, w, l, h1, h2, h3, rfl⟩, hh⟩
    · rintro (⟨first, ⟨a', w', l', k1, k2, k3, rfl⟩, hh⟩ | ⟨hno, -⟩)
      · rw [h1] at k1
        simp only [Option.some.injEq, Prod.mk.injEq, and_true] at k1
        subst k1
        rw [h3] at k3
        simp only [List.cons.injEq] at k3
        rw [k3.1]
        exact hh
      · exact absurd ⟨_, a, w, l, h1, h2, h3, rfl⟩ hno
  · have hval : attrExtensions v = some [] := by
      unfold attrExtensions
      rw [h.full]
      rcases hu : unmarshal rawAttr e with _ | ⟨a, _ | ⟨x, r⟩⟩
      · rfl
      · simp only []
        rcases hv : a.values with _ | ⟨w, l⟩
        · rfl
        · simp only []
          rw [if_pos]
          intro hid
          exact hx ⟨_, a, w, l, hu, hid, hv, rfl⟩
      · rfl
    rw [hval, or_iff_right, and_iff_right hx, Option.some.injEq, eq_comm]
    rintro ⟨first, h1, -⟩
    exact hx ⟨first, h1⟩

theorem requests_iff {es : List Bytes} {raws : List RawValue} (h : List.Forall₂ ReadsRaw es raws) (l : List Ext) :
    parseCSRExtensions raws = some l ↔ RequestsAre es l := by
  induction h generalizing l with
  | nil =>
    simp only [parseCSRExtensions, Option.some.injEq]
    constructor
    · rintro rfl; exact .nil
    · intro h; cases h; rfl
  | cons h _ ih =>
    rename_i e v es raws _
    simp only [parseCSRExtensions, Option.pure_def, Option.bind_eq_bind, Option.bind_eq_some_iff, Option.some.injEq,
      attrExts_iff h]
    constructor
    · rintro ⟨x, ⟨first, h1, h2⟩ | ⟨h1, rfl⟩, xs, h3, rfl⟩
      · exact .take _ _ _ _ _ h1 h2 ((ih _).mp h3)
      · exact .skip _ _ _ h1 ((ih _).mp h3)
    · intro hl
      cases hl with
      | take _ first xs _ l' h1 h2 h3 => exact ⟨xs, Or.inl ⟨first, h1, h2⟩, l', (ih _).mpr h3, rfl⟩
      | skip _ _ _ h1 h3 => exact ⟨[], Or.inr ⟨h1, rfl⟩, l, (ih _).mpr h3, rfl⟩

/-- A request with these names. -/
def withNames (env : Env) (out : CertificateRequest) (names : List GName) : CertificateRequest :=
  { out with dnsNames := ofTag 0x82 names, emailAddresses := ofTag 0x81 names, ipAddresses := ofTag 0x87 names,
             uris := (ofTag 0x86 names).map fun b => (env.parseURL b).getD ⟨[], []⟩ }

/-- The names of a SubjectAltName are determined. -/
theorem sanExt_inj {v : Bytes} {ns ns' : List GName} (h : SanExt v ns) (h' : SanExt v ns') : ns = ns' := by
  obtain ⟨e1, t1, b1, p1, p2, p3⟩ := h
  obtain ⟨e2, t2, b2, q1, q2, q3⟩ := h'
  have a1 := (readASN1_iff 0x30 v b1 t1).mpr ⟨e1, p1, p2⟩
  have a2 := (readASN1_iff 0x30 v b2 t2).mpr ⟨e2, q1, q2⟩
  rw [a1] at a2
  simp only [Option.some.injEq, Prod.mk.injEq] at a2
  obtain ⟨rfl, -⟩ := a2
  have key := fun l => readMany_concat' (step := fun s => (Der.readAny s).map fun x => ((x.1, x.2.1), x.2.2))
    (E := fun e (n : GName) => Elem n.1 n.2 e) (by
      intro s v rest
      simp only [Option.map_eq_some_iff, Prod.exists, Prod.mk.injEq]
      constructor
      · rintro ⟨t, b, r, hr, rfl, rfl⟩; exact (readAny_iff _ _ _ _).mp hr
      · intro hr; exact ⟨v.1, v.2, rest, (readAny_iff _ _ _ _).mpr hr, rfl, rfl⟩) (fun e n h => h.ne_nil) b1 l
  have k1 := (key ns).mpr p3
  rw [(key ns').mpr q3] at k1
  simp only [Option.some.injEq] at k1
  exact k1.symm

theorem csrSans_iff (env : Env) (l : List Ext) (out c : CertificateRequest) : csrSans env out l = some c ↔
    (∀ x ∈ l, x.id = [2, 5, 29, 17] → ∃ ns, SanExt x.value ns ∧ ∀ n ∈ ns, SanOk env n) ∧
    (((∀ x ∈ l, x.id ≠ [2, 5, 29, 17]) ∧ c = out) ∨
      ∃ pre x post names, l = pre ++ x :: post ∧ x.id = [2, 5, 29, 17] ∧ SanExt x.value names ∧
        (∀ y ∈ post, y.id ≠ [2, 5, 29, 17]) ∧ c = withNames env out names) := by
  induction l generalizing out with
  | nil => simp [csrSans, eq_comm]
  | cons e l ih =>
    rw [csrSans]
    by_cases hid : e.id = oidExtensionSubjectAltName
    · rw [if_pos hid]
      have hid' : e.id = [2, 5, 29, 17] := hid
      cases hp : parseSANExtension env e.value with
      | none =>
        simp only [reduceCtorEq, false_iff, not_and]
        intro hall
        obtain ⟨ns, h1, h2⟩ := hall e List.mem_cons_self hid'
        rw [(parseSan_iff env e.value _).mpr ⟨ns, h1, h2, rfl⟩] at hp
        cases hp
      | some s =>
        obtain ⟨ns, h1, h2, rfl⟩ := (parseSan_iff env e.value s).mp hp
        simp only []
        rw [ih]
        constructor
        · rintro ⟨h3, h4⟩
          refine ⟨?_, Or.inr ?_⟩
          · intro x hx hxi
            rcases List.mem_cons.mp hx with rfl | hx
            · exact ⟨ns, h1, h2⟩
            · exact h3 x hx hxi
          · rcases h4 with ⟨h4, rfl⟩ | ⟨pre, x, post, names, rfl, h5, h6, h7, rfl⟩
            · exact ⟨[], e, l, ns, rfl, hid', h1, h4, rfl⟩
            · exact ⟨e :: pre, x, post, names, rfl, h5, h6, h7, rfl⟩
        · rintro ⟨h3, h4⟩
          refine ⟨fun x hx => h3 x (List.mem_cons_of_mem _ hx), ?_⟩
          rcases h4 with ⟨h4, -⟩ | ⟨pre, x, post, names, hl, h5, h6, h7, rfl⟩
          · exact absurd hid' (h4 e List.mem_cons_self)
          · cases pre with
            | nil =>
              simp only [List.nil_append, List.cons.injEq] at hl
              obtain ⟨rfl, rfl⟩ := hl
              have := sanExt_inj h1 h6
              subst this
              exact Or.inl ⟨h7, rfl⟩
            | cons p pre =>
              simp only [List.cons_append, List.cons.injEq] at hl
              exact Or.inr ⟨pre, x, post, names, hl.2, h5, h6, h7, rfl⟩
    · rw [if_neg hid, ih]
      have hid' : e.id ≠ [2, 5, 29, 17] := hid
      constructor
      · rintro ⟨h3, h4⟩
        refine ⟨?_, ?_⟩
        · intro x hx hxi
          rcases List.mem_cons.mp hx with rfl | hx
          · exact absurd hxi hid'
          · exact h3 x hx hxi
        · rcases h4 with ⟨h4, rfl⟩ | ⟨pre, x, post, names, rfl, h5, h6, h7, rfl⟩
          · refine Or.inl ⟨?_, rfl⟩
            intro x hx
            rcases List.mem_cons.mp hx with rfl | hx
            · exact hid'
            · exact h4 x hx
          · exact Or.inr ⟨e :: pre, x, post, names, rfl, h5, h6, h7, rfl⟩
      · rintro ⟨h3, h4⟩
        refine ⟨fun x hx => h3 x (List.mem_cons_of_mem _ hx), ?_⟩
        rcases h4 with ⟨h4, rfl⟩ | ⟨pre, x, post, names, hl, h5, h6, h7, rfl⟩
        · exact Or.inl ⟨fun x hx => h4 x (List.mem_cons_of_mem _ hx), rfl⟩
        · cases pre with
          | nil =>
            simp only [List.nil_append, List.cons.injEq] at hl
            obtain ⟨rfl, rfl⟩ := hl
            exact absurd h5 hid'
          | cons p pre =>
            simp only [List.cons_append, List.cons.injEq] at hl
            exact Or.inr ⟨pre, x, post, names, hl.2, h5, h6, h7, rfl⟩

theorem sansAre_iff (env : Env) (l : List Ext) (out c : CertificateRequest)
    (ho : out.dnsNames = [] ∧ out.emailAddresses = [] ∧ out.ipAddresses = [] ∧ out.uris = []) :
    csrSans env out l = some c ↔ ∃ names, SansAre env l names ∧ c = withNames env out names := by
  have h0 : withNames env out [] = out := by
    obtain ⟨h1, h2, h3, h4⟩ := ho
    cases out
    simp only at h1 h2 h3 h4
    subst h1 h2 h3 h4
    rfl
  rw [csrSans_iff]
  constructor
  · rintro ⟨h1, ⟨h2, rfl⟩ | ⟨pre, x, post, names, rfl, h2, h3, h4, rfl⟩⟩
    · exact ⟨[], ⟨h1, Or.inl ⟨h2, rfl⟩⟩, h0.symm⟩
    · exact ⟨names, ⟨h1, Or.inr ⟨pre, x, post, rfl, h2, h3, h4⟩⟩, rfl⟩
  · rintro ⟨names, ⟨h1, ⟨h2, rfl⟩ | ⟨pre, x, post, rfl, h2, h3, h4⟩⟩, rfl⟩
    · exact ⟨h1, Or.inl ⟨h2, h0⟩⟩
    · exact ⟨h1, Or.inr ⟨pre, x, post, names, rfl, h2, h3, h4, rfl⟩⟩

/-- The request that these contents stand for. -/
def requestOf (env : Env) (der : Bytes) (f : CsrFields) (k : PubKey) (attrs : List AttrSet) (exts : List Ext)
    (names : List GName) : CertificateRequest :=
  { raw := der, rawTBSCertificateRequest := f.rawTbs, rawSubjectPublicKeyInfo := f.rawSpki, rawSubject := f.rawSubject,
    version := f.version, signature := f.signature,
    signatureAlgorithm := getSignatureAlgorithmFromAI ⟨f.algOid, { full := f.algPar }⟩,
    publicKeyAlgorithm := (getPublicKeyAlgorithmFromOID f.keyOid).toInt, publicKey := k,
    subject := .fromRDNSequence f.subject, attributes := attrs, extensions := exts,
    dnsNames := ofTag 0x82 names, emailAddresses := ofTag 0x81 names, ipAddresses := ofTag 0x87 names,
    uris := (ofTag 0x86 names).map fun b => (env.parseURL b).getD ⟨[], []⟩ }

theorem attrsField_iff (b : Bytes) (v : List RawValue) (r : Bytes) :
    parseField seqOfRaw { tag := some 0 } b = some (v, r) ↔
      ∃ e es, b = e ++ r ∧ El 0xa0 es.flatten e ∧ List.Forall₂ ReadsRaw es v := by
  rw [optField_iff seqOfRaw _ rfl rfl 2 0 rfl rfl (by decide) 0xa0 (by decide)]
  simp only [reduceCtorEq, false_and, or_false, seqOfRaw_dec_iff]
  constructor
  · rintro ⟨e, body, rfl, h1, es, rfl, h2⟩; exact ⟨e, es, rfl, h1, h2⟩
  · rintro ⟨e, es, rfl, h1, h2⟩; exact ⟨e, _, rfl, h1, es, rfl, h2⟩

theorem spkiRaw_iff (b : Bytes) (v : Bytes × Spki) (r : Bytes) :
    parseField spkiWithRaw {} b = some (v, r) ↔ b = v.1 ++ r ∧ parseField spki {} b = some (v.2, r) := by
  obtain ⟨raw, s⟩ := v
  rw [field_iff spkiWithRaw (by decide) 0x30 (by decide), field_iff spki (by decide) 0x30 (by decide)]
  simp only [spkiWithRaw, Option.map_eq_some_iff, Prod.mk.injEq]
  constructor
  · rintro ⟨e, body, rfl, h1, s', h2, rfl, rfl⟩
    exact ⟨rfl, e, body, rfl, h1, h2⟩
  · rintro ⟨h0, e, body, rfl, h1, h2⟩
    have := List.append_cancel_right h0
    exact ⟨e, body, rfl, h1, s, h2, this, rfl⟩

theorem csr_iff (der : Bytes) (f : CsrFields) :
    (∃ c raws, unmarshal csr der = some (c, []) ∧ c.raw = der ∧ c.tbs.raw = f.rawTbs ∧ c.tbs.version = f.version ∧
      c.tbs.subject.full = f.rawSubject ∧ csrParseSubject f.rawSubject = some f.subject ∧ c.tbs.spkiRaw = f.rawSpki ∧
      c.tbs.publicKey.algo.algorithm = f.keyOid ∧ c.tbs.publicKey.algo.parameters.full = f.keyPar ∧
      rightAlign c.tbs.publicKey.publicKey = f.key ∧ c.tbs.rawAttributes = raws ∧ List.Forall₂ ReadsRaw f.attributes raws ∧
      c.signatureAlgorithm.algorithm = f.algOid ∧ c.signatureAlgorithm.parameters.full = f.algPar ∧
      rightAlign c.signatureValue = f.signature) ↔ CsrDer der f := by
  have hsub : ∀ e, csrParseSubject e = some f.subject ↔ NameEl f.subject e := by
    intro e
    unfold csrParseSubject
    constructor
    · intro h
      split at h
      · rename_i s hu
        simp only [Option.some.injEq] at h
        obtain ⟨e', he, hn⟩ := (name_iff _ _ _).mp hu
        rw [List.append_nil] at he
        rw [he, ← h]; exact hn
      · cases h
    · intro h
      rw [show unmarshal rdnSequence e = some (f.subject, []) from (name_iff _ _ _).mpr ⟨e, (List.append_nil _).symm, h⟩]
  rw [hsub]
  unfold unmarshal
  constructor
  · rintro ⟨c, raws, hu, k1, k2, k3, k4, k5, k6, k7, k8, k9, k10, k11, k12, k13, k14⟩
    obtain ⟨e, body, he, h1, h2⟩ := (field_iff csr (by decide) 0x30 (by decide) _ _ _).mp hu
    rw [List.append_nil] at he
    subst he
    simp only [csr, Option.pure_def, Option.bind_eq_bind, Option.bind_eq_some_iff, Option.some.injEq, Prod.exists] at h2
    obtain ⟨t, s, h3, a, s1, h4, sg, junk', h5, rfl⟩ := h2
    obtain ⟨ae, rfl, h4'⟩ := (algId_iff _ _ _ _).mp ⟨a, h4, k12, k13⟩
    obtain ⟨be, rfl, h5'⟩ := (bits_iff _ _ _).mp ⟨sg, h5, k14⟩
    obtain ⟨te, tb, rfl, h6, h7⟩ := (field_iff tbsCsr (by decide) 0x30 (by decide) _ _ _).mp h3
    simp only [tbsCsr, Option.pure_def, Option.bind_eq_bind, Option.bind_eq_some_iff, Option.some.injEq, Prod.exists,
      int64_iff, parseRaw_reads, spkiRaw_iff, attrsField_iff] at h7
    obtain ⟨v, _, ⟨ve, rfl, g1⟩, sub, _, ⟨se, rfl, g2⟩, raw, sp, s2, ⟨rfl, g3⟩, at', junk, ⟨ate, es, rfl, g4, g5⟩, rfl⟩ := h7
    simp only at k1 k2 k3 k4 k6 k7 k8 k9 k10
    obtain ⟨pe, hpe, g6⟩ := (spkiDer_read _ _ _ _ _).mp ⟨sp, g3, k7, k8, k9⟩
    have hpe' := List.append_cancel_right hpe
    subst hpe'
    have hes : es = f.attributes := readsRaw_inj g5 (k10 ▸ k11)
    subst hes
    have hse : se = f.rawSubject := by rw [← k4, g2.full]
    subst k2 k3 k6 hse
    exact ⟨ve, ate, ae, be, junk, junk', h1, h6, g1, k5, g6, g4, (forall₂_raw _).mp ⟨_, g5⟩, h4', h5'⟩
  · rintro ⟨ve, ate, ae, be, junk, junk', h1, h6, g1, g2, g6, g4, g5, h4, h5⟩
    obtain ⟨a, h4, h4a, h4b⟩ := (algId_iff (ae ++ (be ++ junk')) _ _ (be ++ junk')).mpr ⟨ae, rfl, h4⟩
    obtain ⟨sg, h5, h5a⟩ := (bits_iff (be ++ junk') _ junk').mpr ⟨be, rfl, h5⟩
    obtain ⟨sp, g3, g3a, g3b, g3c⟩ := (spkiDer_read (f.rawSpki ++ (ate ++ junk)) _ _ _ (ate ++ junk)).mpr ⟨f.rawSpki, rfl, g6⟩
    obtain ⟨raws, g5⟩ := (forall₂_raw _).mpr g5
    have hsubany : AnyEl f.rawSubject := by
      obtain ⟨body, hb, -⟩ := g2
      obtain ⟨hb1, hb2⟩ := (el_iff 0 true 16 (by decide) _ _).mp hb
      exact (anyEl_iff _).mpr ⟨_, 0, true, 16, body, rfl, hb1, by decide, by decide, hb2⟩
    obtain ⟨sub, hsub'⟩ := (anyEl_iff _).mp hsubany
    refine ⟨⟨der, ⟨f.rawTbs, f.version, sub, f.rawSpki, sp, raws⟩, a, sg⟩, raws,
      (field_iff csr (by decide) 0x30 (by decide) _ _ _).mpr ⟨der, _, (List.append_nil _).symm, h1, ?_⟩, rfl, rfl, rfl,
      hsub'.full, g2, rfl, g3a, g3b, g3c, rfl, g5, h4a, h4b, h5a⟩
    simp only [csr, Option.pure_def, Option.bind_eq_bind, Option.bind_eq_some_iff, Option.some.injEq, Prod.exists]
    refine ⟨_, _, (field_iff tbsCsr (by decide) 0x30 (by decide) _ _ _).mpr ⟨f.rawTbs, _, rfl, h6, ?_⟩, a, _, h4, sg, _, h5, rfl⟩
    simp only [tbsCsr, Option.pure_def, Option.bind_eq_bind, Option.bind_eq_some_iff, Option.some.injEq, Prod.exists,
      int64_iff, parseRaw_reads, spkiRaw_iff, attrsField_iff]
    exact ⟨_, _, ⟨ve, rfl, g1⟩, sub, _, ⟨f.rawSubject, rfl, hsub'⟩, f.rawSpki, sp, _, ⟨rfl, g3⟩, raws, junk,
      ⟨ate, f.attributes, rfl, g4, g5⟩, rfl⟩

/-- **C95** `ParseCertificateRequest` accepts exactly the CertificationRequest structures, to the last octet, whose key (if
of a known algorithm) and requested extensions are well formed, and returns exactly their contents: the attributes
that can be represented, the extensions of all extensionRequest attributes, the names of the last SubjectAltName. -/
theorem C95_csr_grammar (env : Env) (der : Bytes) (c : CertificateRequest) :
    ParseCertificateRequest env der = .ok c ↔ ∃ f k attrs exts names, CsrDer der f ∧ KeyDer f.keyOid f.keyPar f.key k ∧
      AttributesAre f.attributes attrs ∧ RequestsAre f.attributes exts ∧ SansAre env exts names ∧
      c = requestOf env der f k attrs exts names := by
  constructor
  · intro h
    obtain ⟨x, pub, subj, exts, hx, h1, h2, h3, h4⟩ := parsedRequest h
    have hraw : x.raw = der := by
      obtain ⟨e, body, he, g1, g2⟩ := (field_iff csr (by decide) 0x30 (by decide) _ _ _).mp hx
      simp only [csr, Option.pure_def, Option.bind_eq_bind, Option.bind_eq_some_iff, Option.some.injEq, Prod.exists] at g2
      obtain ⟨_, _, _, _, _, _, _, _, _, rfl⟩ := g2
      rw [List.append_nil] at he
      exact he.symm
    have hes : ∃ es, List.Forall₂ ReadsRaw es x.tbs.rawAttributes := by
      obtain ⟨e, body, he, g1, g2⟩ := (field_iff csr (by decide) 0x30 (by decide) _ _ _).mp hx
      simp only [csr, Option.pure_def, Option.bind_eq_bind, Option.bind_eq_some_iff, Option.some.injEq, Prod.exists] at g2
      obtain ⟨t, _, h33, _, _, _, _, _, _, rfl⟩ := g2
      obtain ⟨te, tb, rfl, h6, h7⟩ := (field_iff tbsCsr (by decide) 0x30 (by decide) _ _ _).mp h33
      simp only [tbsCsr, Option.pure_def, Option.bind_eq_bind, Option.bind_eq_some_iff, Option.some.injEq, Prod.exists,
        attrsField_iff] at h7
      obtain ⟨_, _, _, _, _, _, _, _, _, _, _, _, ⟨_, es, _, _, g5⟩, rfl⟩ := h7
      exact ⟨es, g5⟩
    obtain ⟨es, hes⟩ := hes
    obtain ⟨names, hn, hc⟩ := (sansAre_iff env exts _ c ⟨rfl, rfl, rfl, rfl⟩).mp h4
    refine ⟨⟨x.tbs.raw, x.tbs.version, x.tbs.subject.full, subj, x.tbs.spkiRaw, x.tbs.publicKey.algo.algorithm,
      x.tbs.publicKey.algo.parameters.full, rightAlign x.tbs.publicKey.publicKey, es, x.signatureAlgorithm.algorithm,
      x.signatureAlgorithm.parameters.full, rightAlign x.signatureValue⟩, pub, _, exts, names,
      (csr_iff der _).mp ⟨x, _, hx, hraw, rfl, rfl, rfl, h2, rfl, rfl, rfl, rfl, rfl, hes, rfl, rfl, rfl⟩,
      (parsePublicKey_iff _ _).mp h1, (attributes_iff hes _).mp rfl, (requests_iff hes _).mp h3, hn, ?_⟩
    rw [hc]
    have e : getSignatureAlgorithmFromAI ⟨x.signatureAlgorithm.algorithm, { full := x.signatureAlgorithm.parameters.full }⟩ =
        getSignatureAlgorithmFromAI x.signatureAlgorithm := algo_congr rfl rfl
    simp only [withNames, requestOf, hraw, e]
  · rintro ⟨f, k, attrs, exts, names, hd, hk, ha, hr, hs, rfl⟩
    obtain ⟨x, raws, hu, k1, k2, k3, k4, k5, k6, k7, k8, k9, k10, k11, k12, k13, k14⟩ := (csr_iff der f).mpr hd
    unfold ParseCertificateRequest
    rw [hu]
    simp only [List.length_nil, ne_eq, not_true_eq_false, if_false]
    unfold parseCertificateRequest
    have hpk : parsePublicKey (getPublicKeyAlgorithmFromOID x.tbs.publicKey.algo.algorithm) x.tbs.publicKey = .ok k :=
      (parsePublicKey_iff _ _).mpr (by rw [k7, k8, k9]; exact hk)
    have hat : parseRawAttributes x.tbs.rawAttributes = attrs := by rw [k10]; exact (attributes_iff k11 _).mpr ha
    have hex : parseCSRExtensions x.tbs.rawAttributes = some exts := by rw [k10]; exact (requests_iff k11 _).mpr hr
    simp only [Res.bind_eq_ok, ofOption_ok']
    refine ⟨k, hpk, f.subject, by rw [k4]; exact k5, exts, hex, ?_⟩
    refine (sansAre_iff env exts _ _ ⟨rfl, rfl, rfl, rfl⟩).mpr ⟨names, hs, ?_⟩
    have e : getSignatureAlgorithmFromAI ⟨f.algOid, { full := f.algPar }⟩ = getSignatureAlgorithmFromAI x.signatureAlgorithm :=
      algo_congr k12.symm k13.symm
    simp only [withNames, requestOf, k1, k2, k3, k4, k6, k7, k14, hat, e]

/-! ## Examples -/

/-- A list without next update and extensions, with one entry. -/
def exCrlDer : Bytes :=
  [48, 73, 48, 61, 2, 1, 1, 48, 4, 6, 2, 42, 3, 48, 13, 49, 11, 48, 9, 6, 3, 85, 4, 3, 12, 2, 65, 66, 23, 13, 50,
   48, 48, 49, 48, 49, 48, 48, 48, 48, 48, 48, 90, 48, 20, 48, 18, 2, 1, 5, 23, 13, 50, 48, 48, 49, 48, 49, 48, 48,
   48, 48, 48, 48, 90, 48, 4, 6, 2, 42, 3, 3, 2, 0, 255]

example : ∃ f, CrlDer exCrlDer f ∧ f.nextUpdate = zeroTime ∧ f.extensions = none ∧
    f.revoked = some [⟨some 5, ⟨2020, 1, 1, 0, 0, 0, 0⟩, none⟩] := by
  have h : okAnd (ParseDERCRL exCrlDer) (fun c => decide (c.tbs.nextUpdate = zeroTime ∧ c.tbs.extensions = none ∧
      c.tbs.revoked = some [⟨some 5, ⟨2020, 1, 1, 0, 0, 0, 0⟩, none⟩])) = true := by decide +kernel
  cases hc : ParseDERCRL exCrlDer with
  | ok c =>
    rw [hc] at h
    exact ⟨crlFields c, (C94_crl_grammar _ _).mp ⟨c, hc, rfl⟩, of_decide_eq_true h⟩
  | err e => rw [hc] at h; cases h
  | panic => rw [hc] at h; cases h

/-- An octet after the list makes it unacceptable. -/
example : ¬ ∃ f, CrlDer (exCrlDer ++ [0]) f := by
  rintro ⟨f, h⟩
  obtain ⟨c, hc, -⟩ := (C94_crl_grammar _ _).mpr h
  have : okAnd (ParseDERCRL (exCrlDer ++ [0])) (fun _ => true) = false := by decide +kernel
  rw [hc] at this
  cases this

/-- A request for a key of an unknown algorithm, with an attribute that is none and an extensionRequest. -/
def exCsrDer : Bytes :=
  [48, 78, 48, 66, 2, 1, 0, 48, 13, 49, 11, 48, 9, 6, 3, 85, 4, 3, 12, 2, 65, 66, 48, 10, 48, 4, 6, 2, 42, 3, 3, 2,
   0, 1, 160, 34, 2, 1, 7, 48, 29, 6, 9, 42, 134, 72, 134, 247, 13, 1, 9, 14, 49, 16, 48, 14, 48, 12, 6, 3, 85, 29,
   17, 4, 5, 48, 3, 130, 1, 97, 48, 4, 6, 2, 42, 3, 3, 2, 0, 255]

example : ∃ f k attrs exts names, CsrDer exCsrDer f ∧ KeyDer f.keyOid f.keyPar f.key k ∧ AttributesAre f.attributes attrs ∧
    RequestsAre f.attributes exts ∧ SansAre exEnv exts names ∧ f.attributes.length = 2 ∧ ofTag 0x82 names = [[97]] := by
  have h : okAnd (ParseCertificateRequest exEnv exCsrDer) (fun c => decide (c.dnsNames = [[97]])) = true := by decide +kernel
  have hu : (unmarshal csr exCsrDer).map (fun c => c.1.tbs.rawAttributes.length) = some 2 := by decide +kernel
  cases hc : ParseCertificateRequest exEnv exCsrDer with
  | ok c =>
    rw [hc] at h
    obtain ⟨f, k, attrs, exts, names, h1, h2, h3, h4, h5, rfl⟩ := (C95_csr_grammar _ _ _).mp hc
    refine ⟨f, k, attrs, exts, names, h1, h2, h3, h4, h5, ?_, of_decide_eq_true h⟩
    obtain ⟨x, raws, k0, -, -, -, -, -, -, -, -, -, k10, k11, -⟩ := (csr_iff _ _).mpr h1
    rw [k0] at hu
    simp only [Option.map_some, Option.some.injEq] at hu
    rw [k11.length_eq, ← k10, hu]
  | err e => rw [hc] at h; cases h
  | panic => rw [hc] at h; cases h

end MCrypto.Props
