import Verif.X509.ListGrammar
import Verif.Asn1.GrammarLemmas
import Verif.X509.CertIff2
import Verif.Props.X509Strings
import Verif.Props.X509KeyDer
/-
The codecs of X509/Pkix read exactly the grammar of X509/ListGrammar.
-/
namespace MCrypto.X509
open MCrypto MCrypto.Asn1 MCrypto.X509Spec MCrypto.Dg

theorem parseTLV_split {b : Bytes} {t : Hdr} {r : Bytes} (h : parseHdr b = some (t, r)) (hl : ¬ r.length < t.len) :
    b = encTLV t.cls t.compound t.tag (r.take t.len) ++ r.drop t.len ∧ t.cls < 4 ∧ t.tag ≤ 2147483647 ∧
      (r.take t.len).length < 2 ^ 31 := by
  obtain ⟨rfl, h1, h2, h3⟩ := (parseHdr_iff _ _ _).mp h
  have hlen : (r.take t.len).length = t.len := by rw [List.length_take]; omega
  refine ⟨?_, h1, h2, by omega⟩
  rw [encTLV, hlen, List.append_assoc, List.take_append_drop]

theorem parseHdr_tlv (cls : Nat) (comp : Bool) (tag : Nat) (body r : Bytes) (h1 : cls < 4) (h2 : tag ≤ 2147483647)
    (h3 : body.length < 2 ^ 31) :
    parseHdr (encTLV cls comp tag body ++ r) = some (⟨cls, comp, tag, body.length⟩, body ++ r) :=
  (parseHdr_iff _ _ _).mpr ⟨by rw [encTLV, List.append_assoc], h1, h2, h3⟩

theorem parseTime_iff (b : Bytes) (t : Time) (r : Bytes) :
    parseTimeField false b = some (t, r) ↔ ∃ e, b = e ++ r ∧ TimeEl t e := by
  unfold parseTimeField
  simp only [Bool.false_eq_true, if_false]
  constructor
  · intro h
    split at h
    · cases h
    split at h
    · cases h
    rename_i hd r' hh
    split at h
    swap
    · cases h
    rename_i hc
    split at h
    · cases h
    rename_i hl
    obtain ⟨hb, -, -, h3⟩ := parseTLV_split hh hl
    rw [hc.1, hc.2.2] at hb
    by_cases h23 : hd.tag = 23
    · rw [if_pos h23] at h
      rw [h23] at hb
      cases hp : parseUTCTime (r'.take hd.len) with
      | none => rw [hp] at h; cases h
      | some v =>
        rw [hp] at h
        simp only [Option.some.injEq, Prod.mk.injEq] at h
        obtain ⟨rfl, rfl⟩ := h
        exact ⟨_, hb, _, Or.inl ⟨(el_iff 0 false 23 (by decide) _ _).mpr ⟨rfl, h3⟩, (parseUTCTime_iff _ _).mp hp⟩⟩
    · have h24 : hd.tag = 24 := by rcases hc.2.1 with h | h; exact absurd h h23; exact h
      rw [if_neg h23] at h
      rw [h24] at hb
      cases hp : parseGeneralizedTime (r'.take hd.len) with
      | none => rw [hp] at h; cases h
      | some v =>
        rw [hp] at h
        simp only [Option.some.injEq, Prod.mk.injEq] at h
        obtain ⟨rfl, rfl⟩ := h
        exact ⟨_, hb, _, Or.inr ⟨(el_iff 0 false 24 (by decide) _ _).mpr ⟨rfl, h3⟩, (parseGeneralizedTime_iff _ _).mp hp⟩⟩
  · rintro ⟨e, rfl, body, ⟨h1, h2⟩ | ⟨h1, h2⟩⟩
    · rw [if_neg (by simp [el_ne_nil h1])]
      obtain ⟨rfl, h3⟩ := (el_iff 0 false 23 (by decide) _ _).mp h1
      rw [parseHdr_tlv _ _ _ _ _ (by decide) (by decide) h3]
      simp [(parseUTCTime_iff _ _).mpr h2]
    · rw [if_neg (by simp [el_ne_nil h1])]
      obtain ⟨rfl, h3⟩ := (el_iff 0 false 24 (by decide) _ _).mp h1
      rw [parseHdr_tlv _ _ _ _ _ (by decide) (by decide) h3]
      simp [(parseGeneralizedTime_iff _ _).mpr h2]

theorem parseTimeOpt_iff (b : Bytes) (t : Time) (r : Bytes) :
    parseTimeField true b = some (t, r) ↔ (∃ e, b = e ++ r ∧ TimeEl t e) ∨
      (b = r ∧ Goes b ∧ b.head? ≠ some 0x17 ∧ b.head? ≠ some 0x18 ∧ t = zeroTime) := by
  rw [← parseTime_iff]
  unfold parseTimeField
  simp only [Bool.false_eq_true, if_false, if_true]
  by_cases hb : b = []
  · subst hb
    simp only [if_true, Option.some.injEq, Prod.mk.injEq, reduceCtorEq, false_or, List.head?_nil, ne_eq, not_false_eq_true, true_and]
    constructor
    · rintro ⟨rfl, rfl⟩; exact ⟨rfl, Or.inl rfl, rfl⟩
    · rintro ⟨h1, -, h2⟩; exact ⟨h2.symm, h1⟩
  rw [if_neg hb, if_neg hb]
  cases hh : parseHdr b with
  | none =>
    simp only [reduceCtorEq, false_or, false_iff]
    rintro ⟨-, hg, -⟩
    rcases (goes_iff _).mp hg with h | ⟨cls, comp, tag, len, r', rfl, h1, h2, h3, -⟩
    · exact hb h
    · rw [(parseHdr_iff _ ⟨cls, comp, tag, len⟩ r').mpr ⟨rfl, h1, h2, h3⟩] at hh
      cases hh
  | some x =>
    obtain ⟨hd, r'⟩ := x
    simp only []
    obtain ⟨hb', h1, h2, h3⟩ := (parseHdr_iff _ _ _).mp hh
    have e17 := encHdr_head hd.cls hd.compound hd.tag hd.len h1 0 false 23 (by decide) (by decide) r'
    have e18 := encHdr_head hd.cls hd.compound hd.tag hd.len h1 0 false 24 (by decide) (by decide) r'
    rw [← hb', show octet 0 false 23 = 0x17 from rfl] at e17
    rw [← hb', show octet 0 false 24 = 0x18 from rfl] at e18
    rw [ne_eq, ne_eq, e17, e18]
    by_cases hc : hd.cls = 0 ∧ (hd.tag = 23 ∨ hd.tag = 24) ∧ hd.compound = false
    · rw [if_pos hc, if_pos hc]
      rw [or_iff_left]
      rintro ⟨-, -, h4, h5, -⟩
      rcases hc.2.1 with h | h
      · exact h4 ⟨hc.1, hc.2.2, h⟩
      · exact h5 ⟨hc.1, hc.2.2, h⟩
    · rw [if_neg hc, if_neg hc]
      simp only [Option.some.injEq, Prod.mk.injEq, reduceCtorEq, false_or]
      constructor
      · rintro ⟨rfl, rfl⟩
        refine ⟨rfl, ?_, fun h => hc ⟨h.1, Or.inl h.2.2, h.2.1⟩, fun h => hc ⟨h.1, Or.inr h.2.2, h.2.1⟩, rfl⟩
        exact (goes_iff _).mpr (Or.inr ⟨_, _, _, _, _, hb', h1, h2, h3, trivial⟩)
      · rintro ⟨h4, -, -, -, h5⟩
        exact ⟨h5.symm, h4⟩

theorem parseAny_split (b : Bytes) (v : AnyValue) (r : Bytes) :
    parseAny b = some (v, r) ↔ ∃ cls comp tag body, b = encTLV cls comp tag body ++ r ∧ cls < 4 ∧ tag ≤ 2147483647 ∧
      body.length < 2 ^ 31 ∧ (if comp = false ∧ cls = 0 then anyOf tag body = some v else v = .nil) := by
  unfold parseAny
  constructor
  · intro h
    split at h
    · cases h
    rename_i hd r' hh
    split at h
    · cases h
    rename_i hl
    obtain ⟨hb, h1, h2, h3⟩ := parseTLV_split hh hl
    by_cases hc : hd.compound = false ∧ hd.cls = 0
    · rw [if_pos hc] at h
      cases hp : anyOf hd.tag (r'.take hd.len) with
      | none => rw [hp] at h; cases h
      | some w =>
        rw [hp] at h
        simp only [Option.some.injEq, Prod.mk.injEq] at h
        obtain ⟨rfl, rfl⟩ := h
        exact ⟨_, _, _, _, hb, h1, h2, h3, by rw [if_pos hc]; exact hp⟩
    · rw [if_neg hc] at h
      simp only [Option.some.injEq, Prod.mk.injEq] at h
      obtain ⟨rfl, rfl⟩ := h
      exact ⟨_, _, _, _, hb, h1, h2, h3, by rw [if_neg hc]⟩
  · rintro ⟨cls, comp, tag, body, rfl, h1, h2, h3, h4⟩
    rw [parseHdr_tlv _ _ _ _ _ h1 h2 h3]
    simp only [List.length_append, List.take_left', List.drop_left']
    rw [if_neg (by omega)]
    by_cases hc : comp = false ∧ cls = 0
    · rw [if_pos hc] at h4 ⊢
      rw [h4]
    · rw [if_neg hc] at h4 ⊢
      rw [h4]

theorem stringTag {tag : UInt8} {b s : Bytes} (h : StringValue tag b s) :
    tag ∈ ([12, 18, 19, 20, 22, 30] : List UInt8) := by
  rcases h with ⟨rfl, -⟩ | ⟨rfl, -⟩ | ⟨rfl, -⟩ | ⟨rfl, -⟩ | ⟨rfl, -⟩ | ⟨rfl, -⟩ <;> decide

theorem parseAny_iff (b : Bytes) (v : AnyValue) (r : Bytes) :
    parseAny b = some (v, r) ↔ ∃ e, b = e ++ r ∧ AnyIs v e := by
  rw [parseAny_split]
  constructor
  · rintro ⟨cls, comp, tag, body, rfl, h1, h2, h3, h4⟩
    refine ⟨_, rfl, ?_⟩
    have hany : AnyEl (encTLV cls comp tag body) := (anyEl_iff _).mpr ⟨_, cls, comp, tag, body, rfl, rfl, h1, h2, h3⟩
    have hhead : ∀ (o : Nat), o < 31 → ((encTLV cls comp tag body).head? = some (octet 0 false o) ↔ cls = 0 ∧ comp = false ∧ tag = o) :=
      fun o ho => encHdr_head cls comp tag body.length h1 0 false o (by decide) ho body
    by_cases hc : comp = false ∧ cls = 0
    swap
    · rw [if_neg hc] at h4
      refine Or.inr (Or.inr (Or.inr (Or.inr (Or.inr (Or.inr ⟨hany, ?_, h4⟩)))))
      simp only [List.mem_cons, List.not_mem_nil, or_false, forall_eq_or_imp, forall_eq]
      refine ⟨?_, ?_, ?_, ?_, ?_, ?_, ?_, ?_, ?_, ?_, ?_, ?_⟩
      all_goals
        intro h
        first
          | exact hc ⟨((hhead 2 (by decide)).mp h).2.1, ((hhead 2 (by decide)).mp h).1⟩
          | exact hc ⟨((hhead 3 (by decide)).mp h).2.1, ((hhead 3 (by decide)).mp h).1⟩
          | exact hc ⟨((hhead 4 (by decide)).mp h).2.1, ((hhead 4 (by decide)).mp h).1⟩
          | exact hc ⟨((hhead 6 (by decide)).mp h).2.1, ((hhead 6 (by decide)).mp h).1⟩
          | exact hc ⟨((hhead 12 (by decide)).mp h).2.1, ((hhead 12 (by decide)).mp h).1⟩
          | exact hc ⟨((hhead 18 (by decide)).mp h).2.1, ((hhead 18 (by decide)).mp h).1⟩
          | exact hc ⟨((hhead 19 (by decide)).mp h).2.1, ((hhead 19 (by decide)).mp h).1⟩
          | exact hc ⟨((hhead 20 (by decide)).mp h).2.1, ((hhead 20 (by decide)).mp h).1⟩
          | exact hc ⟨((hhead 22 (by decide)).mp h).2.1, ((hhead 22 (by decide)).mp h).1⟩
          | exact hc ⟨((hhead 23 (by decide)).mp h).2.1, ((hhead 23 (by decide)).mp h).1⟩
          | exact hc ⟨((hhead 24 (by decide)).mp h).2.1, ((hhead 24 (by decide)).mp h).1⟩
          | exact hc ⟨((hhead 30 (by decide)).mp h).2.1, ((hhead 30 (by decide)).mp h).1⟩
    rw [if_pos hc] at h4
    obtain ⟨rfl, rfl⟩ := hc
    have hel : ∀ o, tag = o → o < 31 → El (octet 0 false o) body (encTLV 0 false tag body) :=
      fun o ho hlt => (el_iff 0 false o hlt _ _).mpr ⟨by rw [ho], h3⟩
    unfold anyOf at h4
    by_cases hs : tag = 19 ∨ tag = 18 ∨ tag = 22 ∨ tag = 20 ∨ tag = 12 ∨ tag = 30
    · rw [if_pos hs] at h4
      simp only [Option.map_eq_some_iff, Props.C65_parseASN1String_iff] at h4
      obtain ⟨s, h4, rfl⟩ := h4
      exact Or.inl ⟨_, body, s, (el_iff 0 false tag (by omega) _ _).mpr ⟨rfl, h3⟩, by simpa [octet] using h4, rfl⟩
    rw [if_neg hs] at h4
    by_cases h5 : tag = 2
    · rw [if_pos h5] at h4
      split at h4
      · cases h4
      rename_i hl
      simp only [Option.map_eq_some_iff] at h4
      obtain ⟨n, h4, rfl⟩ := h4
      subst h5
      obtain ⟨e, he, hi⟩ := (int64_iff (encTLV 0 false 2 body ++ []) n []).mp ((field_iff goInt (by decide) 0x02 (by decide) _ _ _).mpr
        ⟨_, body, rfl, hel 2 rfl (by decide), by simp only [goInt]; rw [if_neg hl, h4]⟩)
      simp only [List.append_nil] at he
      exact Or.inr (Or.inl ⟨n, he ▸ hi, rfl⟩)
    rw [if_neg h5] at h4
    by_cases h6 : tag = 3
    · rw [if_pos h6] at h4
      simp only [Option.map_eq_some_iff, decBits_spec] at h4
      obtain ⟨⟨bytes, bl⟩, ⟨u, g1, g2⟩, rfl⟩ := h4
      dsimp only at g1 g2
      exact Or.inr (Or.inr (Or.inl ⟨body, bytes, u, hel 3 h6 (by decide), g1, by rw [g2]⟩))
    rw [if_neg h6] at h4
    by_cases h7 : tag = 6
    · rw [if_pos h7] at h4
      simp only [Option.map_eq_some_iff, ← isOid_iff] at h4
      obtain ⟨o, g1, rfl⟩ := h4
      exact Or.inr (Or.inr (Or.inr (Or.inl ⟨o, ⟨body, hel 6 h7 (by decide), g1⟩, rfl⟩)))
    rw [if_neg h7] at h4
    by_cases h8 : tag = 23
    · rw [if_pos h8] at h4
      simp only [Option.map_eq_some_iff, parseUTCTime_iff] at h4
      obtain ⟨t, g1, rfl⟩ := h4
      exact Or.inr (Or.inr (Or.inr (Or.inr (Or.inl ⟨t, ⟨body, Or.inl ⟨hel 23 h8 (by decide), g1⟩⟩, rfl⟩))))
    rw [if_neg h8] at h4
    by_cases h9 : tag = 24
    · rw [if_pos h9] at h4
      simp only [Option.map_eq_some_iff, parseGeneralizedTime_iff] at h4
      obtain ⟨t, g1, rfl⟩ := h4
      exact Or.inr (Or.inr (Or.inr (Or.inr (Or.inl ⟨t, ⟨body, Or.inr ⟨hel 24 h9 (by decide), g1⟩⟩, rfl⟩))))
    rw [if_neg h9] at h4
    by_cases h10 : tag = 4
    · rw [if_pos h10] at h4
      simp only [Option.some.injEq] at h4
      exact Or.inr (Or.inr (Or.inr (Or.inr (Or.inr (Or.inl ⟨body, hel 4 h10 (by decide), h4.symm⟩)))))
    rw [if_neg h10] at h4
    simp only [Option.some.injEq] at h4
    refine Or.inr (Or.inr (Or.inr (Or.inr (Or.inr (Or.inr ⟨hany, ?_, h4.symm⟩)))))
    simp only [not_or] at hs
    simp only [List.mem_cons, List.not_mem_nil, or_false, forall_eq_or_imp, forall_eq]
    exact ⟨fun h => h5 ((hhead 2 (by decide)).mp h).2.2, fun h => h6 ((hhead 3 (by decide)).mp h).2.2,
      fun h => h10 ((hhead 4 (by decide)).mp h).2.2, fun h => h7 ((hhead 6 (by decide)).mp h).2.2,
      fun h => hs.2.2.2.2.1 ((hhead 12 (by decide)).mp h).2.2, fun h => hs.2.1 ((hhead 18 (by decide)).mp h).2.2,
      fun h => hs.1 ((hhead 19 (by decide)).mp h).2.2, fun h => hs.2.2.2.1 ((hhead 20 (by decide)).mp h).2.2,
      fun h => hs.2.2.1 ((hhead 22 (by decide)).mp h).2.2, fun h => h8 ((hhead 23 (by decide)).mp h).2.2,
      fun h => h9 ((hhead 24 (by decide)).mp h).2.2, fun h => hs.2.2.2.2.2 ((hhead 30 (by decide)).mp h).2.2⟩
  · rintro ⟨e, rfl, h⟩
    have prim : ∀ (tag : Nat) (body : Bytes), tag < 31 → El (octet 0 false tag) body e → anyOf tag body = some v →
        ∃ cls comp tag body, e ++ r = encTLV cls comp tag body ++ r ∧ cls < 4 ∧ tag ≤ 2147483647 ∧
        body.length < 2 ^ 31 ∧ (if comp = false ∧ cls = 0 then anyOf tag body = some v else v = .nil) := by
      intro tag body ht he ha
      obtain ⟨rfl, hl⟩ := (el_iff 0 false tag ht _ _).mp he
      exact ⟨0, false, tag, body, rfl, by decide, by omega, hl, by rw [if_pos ⟨rfl, rfl⟩]; exact ha⟩
    rcases h with ⟨tag, b, s, h1, h2, rfl⟩ | ⟨n, ⟨⟨b, h1, h2⟩, h3, h4⟩, rfl⟩ | ⟨b, bytes, u, h1, h2, rfl⟩ | ⟨o, ⟨b, h1, h2⟩, rfl⟩ |
      ⟨t, ⟨b, ⟨h1, h2⟩ | ⟨h1, h2⟩⟩, rfl⟩ | ⟨b, h1, rfl⟩ | ⟨h1, h2, rfl⟩
    · have hm := stringTag h2
      have h2' := (Props.C65_parseASN1String_iff _ _ _).mpr h2
      simp only [List.mem_cons, List.not_mem_nil, or_false] at hm
      rcases hm with rfl | rfl | rfl | rfl | rfl | rfl
      · exact prim 12 b (by decide) h1 (by unfold anyOf; rw [if_pos (by decide)]; exact congrArg (Option.map AnyValue.str) h2')
      · exact prim 18 b (by decide) h1 (by unfold anyOf; rw [if_pos (by decide)]; exact congrArg (Option.map AnyValue.str) h2')
      · exact prim 19 b (by decide) h1 (by unfold anyOf; rw [if_pos (by decide)]; exact congrArg (Option.map AnyValue.str) h2')
      · exact prim 20 b (by decide) h1 (by unfold anyOf; rw [if_pos (by decide)]; exact congrArg (Option.map AnyValue.str) h2')
      · exact prim 22 b (by decide) h1 (by unfold anyOf; rw [if_pos (by decide)]; exact congrArg (Option.map AnyValue.str) h2')
      · exact prim 30 b (by decide) h1 (by unfold anyOf; rw [if_pos (by decide)]; exact congrArg (Option.map AnyValue.str) h2')
    · refine prim 2 b (by decide) h1 ?_
      unfold anyOf
      rw [if_neg (by decide), if_pos rfl, (DerSpec.isInt_iff _ _).mp h2, if_neg (by have := encInt_length_int64 n h3 h4; omega),
        Der.decInt_encInt]
      rfl
    · refine prim 3 b (by decide) h1 ?_
      unfold anyOf
      rw [if_neg (by decide), if_neg (by decide), if_pos rfl, (decBits_spec b ⟨bytes, bytes.length * 8 - u⟩).mpr ⟨u, h2, rfl⟩]
      rfl
    · refine prim 6 b (by decide) h1 ?_
      unfold anyOf
      rw [if_neg (by decide), if_neg (by decide), if_neg (by decide), if_pos rfl, (isOid_iff b o).mp h2]
      rfl
    · refine prim 23 b (by decide) h1 ?_
      unfold anyOf
      rw [if_neg (by decide), if_neg (by decide), if_neg (by decide), if_neg (by decide), if_pos rfl, (parseUTCTime_iff b t).mpr h2]
      rfl
    · refine prim 24 b (by decide) h1 ?_
      unfold anyOf
      rw [if_neg (by decide), if_neg (by decide), if_neg (by decide), if_neg (by decide), if_neg (by decide), if_pos rfl,
        (parseGeneralizedTime_iff b t).mpr h2]
      rfl
    · exact prim 4 b (by decide) h1 rfl
    · obtain ⟨_, cls, comp, tag, body, -, rfl, g1, g2, g3⟩ := (anyEl_iff _).mp h1
      refine ⟨cls, comp, tag, body, rfl, g1, g2, g3, ?_⟩
      have hhead : ∀ (o : Nat), o < 31 → ((encTLV cls comp tag body).head? = some (octet 0 false o) ↔ cls = 0 ∧ comp = false ∧ tag = o) :=
        fun o ho => encHdr_head cls comp tag body.length g1 0 false o (by decide) ho body
      by_cases hc : comp = false ∧ cls = 0
      swap
      · rw [if_neg hc]
      rw [if_pos hc]
      obtain ⟨rfl, rfl⟩ := hc
      have hno : ∀ o : Nat, o < 31 → octet 0 false o ∈ ([2, 3, 4, 6, 12, 18, 19, 20, 22, 23, 24, 30] : List UInt8) → tag ≠ o :=
        fun o ho hm ht => h2 _ hm ((hhead o ho).mpr ⟨rfl, rfl, ht⟩)
      have k2 := hno 2 (by decide) (by decide)
      have k3 := hno 3 (by decide) (by decide)
      have k4 := hno 4 (by decide) (by decide)
      have k6 := hno 6 (by decide) (by decide)
      have k12 := hno 12 (by decide) (by decide)
      have k18 := hno 18 (by decide) (by decide)
      have k19 := hno 19 (by decide) (by decide)
      have k20 := hno 20 (by decide) (by decide)
      have k22 := hno 22 (by decide) (by decide)
      have k23 := hno 23 (by decide) (by decide)
      have k24 := hno 24 (by decide) (by decide)
      have k30 := hno 30 (by decide) (by decide)
      unfold anyOf
      rw [if_neg (by omega), if_neg k2, if_neg k3, if_neg k6, if_neg k23, if_neg k24, if_neg k4]

/-! ## Names, extensions -/

theorem atv_iff (b : Bytes) (a : AtvAny) (r : Bytes) :
    parseField atvAny {} b = some (a, r) ↔ ∃ e, b = e ++ r ∧ AtvEl a e := by
  rw [field_iff atvAny (by decide) 0x30 (by decide)]
  simp only [atvAny, Option.pure_def, Option.bind_eq_bind, Option.bind_eq_some_iff, Option.some.injEq, Prod.exists, oid_iff,
    parseAny_iff]
  constructor
  · rintro ⟨e, body, rfl, h1, o, _, ⟨oe, rfl, h2⟩, v, junk, ⟨ve, rfl, h3⟩, rfl⟩
    exact ⟨e, rfl, oe, ve, junk, h1, h2, h3⟩
  · rintro ⟨e, rfl, oe, ve, junk, h1, h2, h3⟩
    exact ⟨e, _, rfl, h1, a.type, _, ⟨oe, rfl, h2⟩, a.value, junk, ⟨ve, rfl, h3⟩, rfl⟩

theorem rdn_iff (b : Bytes) (l : List AtvAny) (r : Bytes) :
    parseField rdnSet {} b = some (l, r) ↔ ∃ e, b = e ++ r ∧ RdnEl l e := by
  rw [field_iff rdnSet (by decide) 0x31 (by decide)]
  have key := fun body full => seqOf_iff atvAny (by decide) AtvEl atv_iff body full l
  constructor
  · rintro ⟨e, body, rfl, h1, h2⟩
    exact ⟨e, rfl, body, h1, (key body e).mp h2⟩
  · rintro ⟨e, rfl, body, h1, h2⟩
    exact ⟨e, body, rfl, h1, (key body e).mpr h2⟩

theorem name_iff (b : Bytes) (n : List (List AtvAny)) (r : Bytes) :
    parseField rdnSequence {} b = some (n, r) ↔ ∃ e, b = e ++ r ∧ NameEl n e := by
  rw [field_iff rdnSequence (by decide) 0x30 (by decide)]
  have key := fun body full => seqOf_iff rdnSet (by decide) RdnEl rdn_iff body full n
  constructor
  · rintro ⟨e, body, rfl, h1, h2⟩
    exact ⟨e, rfl, body, h1, (key body e).mp h2⟩
  · rintro ⟨e, rfl, body, h1, h2⟩
    exact ⟨e, body, rfl, h1, (key body e).mpr h2⟩

theorem el_goes {t : UInt8} {body e : Bytes} (cls : Nat) (comp : Bool) (tag : Nat) (ht : t = octet cls comp tag) (hc : cls < 4)
    (hl : tag < 31) (h : El t body e) (r : Bytes) : Goes (e ++ r) ∧ (e ++ r).head? = some t := by
  subst ht
  obtain ⟨rfl, h2⟩ := (el_iff _ _ _ hl _ _).mp h
  refine ⟨(goes_iff _).mpr (Or.inr ⟨_, _, _, _, body ++ r, by rw [encTLV, List.append_assoc], hc, by omega, h2, trivial⟩), ?_⟩
  rw [encTLV, List.append_assoc]
  exact (encHdr_head _ _ _ _ hc _ _ _ hc hl _).mpr ⟨rfl, rfl, rfl⟩

theorem boolDec_iff (b f : Bytes) (v : Bool) : Asn1.bool.dec b f = some v ↔ b = [if v then 0xff else 0] := by
  simp only [Asn1.bool]
  constructor
  · intro h
    split at h
    · rename_i hb
      simp only [Option.some.injEq] at h
      subst h
      exact hb
    split at h
    · rename_i hb
      simp only [Option.some.injEq] at h
      subst h
      exact hb
    · cases h
  · rintro rfl
    cases v <;> rfl

theorem ext_iff (b : Bytes) (x : Ext) (r : Bytes) :
    parseField extension {} b = some (x, r) ↔ ∃ e, b = e ++ r ∧ ExtEl x e := by
  rw [field_iff extension (by decide) 0x30 (by decide)]
  simp only [extension, Option.pure_def, Option.bind_eq_bind, Option.bind_eq_some_iff, Option.some.injEq, Prod.exists, oid_iff,
    octets_iff, optField_iff Asn1.bool { opt := some false } rfl rfl 0 1 rfl rfl (by decide) 0x01 (by decide), boolDec_iff]
  constructor
  · rintro ⟨e, body, rfl, h1, o, _, ⟨oe, rfl, h2⟩, c, _, h3, v, junk, ⟨ve, rfl, h4⟩, rfl⟩
    refine ⟨e, rfl, ?_⟩
    rcases h3 with ⟨fe, fb, rfl, h5, rfl⟩ | ⟨rfl, rfl, -⟩
    · exact ⟨oe, fe, ve, junk, h1, h2, Or.inr h5, h4⟩
    · exact ⟨oe, [], ve, junk, h1, h2, Or.inl ⟨rfl, rfl⟩, h4⟩
  · rintro ⟨e, rfl, oe, fe, ve, junk, h1, h2, h3, h4⟩
    refine ⟨e, _, rfl, h1, x.id, _, ⟨oe, rfl, h2⟩, x.critical, _, ?_, x.value, junk, ⟨ve, rfl, h4⟩, rfl⟩
    rcases h3 with ⟨rfl, h3⟩ | h3
    · obtain ⟨g1, g2⟩ := el_goes 0 false 4 rfl (by decide) (by decide) h4 junk
      exact Or.inr ⟨h3.symm, rfl, g1, by rw [List.nil_append, g2]; decide⟩
    · exact Or.inl ⟨fe, _, rfl, h3, rfl⟩

/-- Contents of a slice of extensions that can be nil. -/
theorem extsDec_iff (body full : Bytes) (v : Option (List Ext)) :
    (nilable (seqOf extension)).dec body full = some v ↔ ∃ xs, v = some xs ∧ Many ExtEl xs body := by
  simp only [nilable, Option.map_eq_some_iff, seqOf_iff extension (by decide) ExtEl ext_iff]
  constructor
  · rintro ⟨xs, h, rfl⟩; exact ⟨xs, rfl, h⟩
  · rintro ⟨xs, rfl, h⟩; exact ⟨xs, h, rfl⟩

theorem optExts_iff (b : Bytes) (v : Option (List Ext)) (r : Bytes) :
    parseField (nilable (seqOf extension)) { opt := some none } b = some (v, r) ↔
      (∃ xe xs, b = xe ++ r ∧ ExtsEl xs xe ∧ v = some xs) ∨ (b = r ∧ Goes r ∧ r.head? ≠ some 0x30 ∧ v = none) := by
  rw [optField_iff (nilable (seqOf extension)) _ rfl rfl 0 16 rfl rfl (by decide) 0x30 (by decide)]
  simp only [extsDec_iff, Option.some.injEq]
  constructor
  · rintro (⟨e, body, rfl, h1, xs, rfl, h2⟩ | ⟨rfl, rfl, h1, h2⟩)
    · exact Or.inl ⟨e, xs, rfl, ⟨body, h1, h2⟩, rfl⟩
    · exact Or.inr ⟨rfl, h1, h2, rfl⟩
  · rintro (⟨e, xs, rfl, ⟨body, h1, h2⟩, rfl⟩ | ⟨rfl, h1, h2, rfl⟩)
    · exact Or.inl ⟨e, body, rfl, h1, xs, rfl, h2⟩
    · exact Or.inr ⟨rfl, rfl, h1, h2⟩

theorem explExts_iff (b : Bytes) (v : Option (List Ext)) (r : Bytes) :
    parseField (nilable (seqOf extension)) { opt := some none, tag := some 0, explicit := true } b = some (v, r) ↔
      (∃ xs, Expl 0xa0 (ExtsEl xs) b r ∧ v = some xs) ∨ (b = r ∧ NoExpl 0xa0 0x80 0x30 b ∧ v = none) := by
  rw [explField_iff (nilable (seqOf extension)) (by decide) (fun _ _ _ => rfl) none 0 (by decide) 0xa0 0x80 0x30 (by decide)
    (by decide) (by decide)]
  simp only [extsDec_iff]
  refine or_congr ?_ ?_
  · constructor
    · rintro ⟨h, len, e, h1, h2, h3, h4, body, h5, xs, rfl, h6⟩
      exact ⟨xs, ⟨h, len, e, h1, h2, h3, h4, body, h5, h6⟩, rfl⟩
    · rintro ⟨xs, ⟨h, len, e, h1, h2, h3, h4, body, h5, h6⟩, rfl⟩
      exact ⟨h, len, e, h1, h2, h3, h4, body, h5, xs, rfl, h6⟩
  · constructor
    · rintro ⟨rfl, rfl, h⟩; exact ⟨rfl, h, rfl⟩
    · rintro ⟨rfl, h, rfl⟩; exact ⟨rfl, rfl, h⟩

/-! ## Revocation lists -/

theorem revoked_iff (b : Bytes) (v : Revoked) (r : Bytes) :
    parseField revoked {} b = some (v, r) ↔ ∃ e, b = e ++ r ∧ RevokedEl v e := by
  rw [field_iff revoked (by decide) 0x30 (by decide)]
  simp only [revoked, Option.pure_def, Option.bind_eq_bind, Option.bind_eq_some_iff, Option.some.injEq, Prod.exists, optInt_iff,
    parseTime_iff, optExts_iff]
  constructor
  · rintro ⟨e, body, rfl, h1, _, _, ⟨ne, n, rfl, rfl, h2⟩, t, s, ⟨te, rfl, h3⟩, x, junk, h4, rfl⟩
    exact ⟨e, rfl, ne, te, s, junk, n, h1, h2, rfl, h3, h4⟩
  · rintro ⟨e, rfl, ne, te, s, junk, n, h1, h2, h2', h3, h4⟩
    refine ⟨e, _, rfl, h1, _, _, ⟨ne, n, rfl, rfl, h2⟩, _, s, ⟨te, rfl, h3⟩, _, junk, h4, ?_⟩
    rw [← h2']

theorem optRevoked_iff (b : Bytes) (v : Option (List Revoked)) (r : Bytes) :
    parseField (nilable (seqOf revoked)) { opt := some none } b = some (v, r) ↔
      (∃ re body rs, b = re ++ r ∧ El 0x30 body re ∧ Many RevokedEl rs body ∧ v = some rs) ∨
      (b = r ∧ Goes b ∧ b.head? ≠ some 0x30 ∧ v = none) := by
  rw [optField_iff (nilable (seqOf revoked)) _ rfl rfl 0 16 rfl rfl (by decide) 0x30 (by decide)]
  simp only [nilable, Option.map_eq_some_iff, seqOf_iff revoked (by decide) RevokedEl revoked_iff, Option.some.injEq]
  constructor
  · rintro (⟨e, body, rfl, h1, rs, h2, rfl⟩ | ⟨rfl, rfl, h1, h2⟩)
    · exact Or.inl ⟨e, body, rs, rfl, h1, h2, rfl⟩
    · exact Or.inr ⟨rfl, h1, h2, rfl⟩
  · rintro (⟨e, body, rs, rfl, h1, h2, rfl⟩ | ⟨rfl, h1, h2, rfl⟩)
    · exact Or.inl ⟨e, body, rfl, h1, rs, h2, rfl⟩
    · exact Or.inr ⟨rfl, rfl, h1, h2⟩

/-- The version of a revocation list in front of the algorithm identifier. -/
theorem optVersion_iff (b : Bytes) (v : Int) (r : Bytes) (hr : Goes r) (hr' : r.head? = some 0x30) :
    parseField goInt { opt := some 0 } b = some (v, r) ↔ ∃ ve, b = ve ++ r ∧ ((ve = [] ∧ v = 0) ∨ Int64El v ve) := by
  rw [optField_iff goInt _ rfl rfl 0 2 rfl rfl (by decide) 0x02 (by decide)]
  have key : ∀ v, (∃ e body, b = e ++ r ∧ El 0x02 body e ∧ goInt.dec body e = some v) ↔ ∃ e, b = e ++ r ∧ Int64El v e := by
    intro v
    rw [← int64_iff, field_iff goInt (by decide) 0x02 (by decide)]
  rw [key]
  simp only [Option.some.injEq]
  constructor
  · rintro (⟨e, rfl, h⟩ | ⟨rfl, rfl, -⟩)
    · exact ⟨e, rfl, Or.inr h⟩
    · exact ⟨[], rfl, Or.inl ⟨rfl, rfl⟩⟩
  · rintro ⟨ve, rfl, ⟨rfl, rfl⟩ | h⟩
    · exact Or.inr ⟨rfl, rfl, hr, by rw [List.nil_append, hr']; decide⟩
    · exact Or.inl ⟨ve, rfl, h⟩

/-- What a parsed list holds. -/
def crlFields (c : Crl) : CrlFields :=
  ⟨c.tbs.raw, c.tbs.version, c.tbs.signature.algorithm, c.tbs.signature.parameters.full, c.tbs.issuer, c.tbs.thisUpdate,
   c.tbs.nextUpdate, c.tbs.revoked, c.tbs.extensions, c.signatureAlgorithm.algorithm, c.signatureAlgorithm.parameters.full,
   c.signatureValue.bytes, c.signatureValue.bitLength⟩

theorem algEl_goes {o : Oid} {par e : Bytes} (h : AlgEl o par e) (r : Bytes) : Goes (e ++ r) ∧ (e ++ r).head? = some 0x30 := by
  obtain ⟨_, _, h, _⟩ := h
  exact el_goes 0 true 16 rfl (by decide) (by decide) h r

theorem tbsCrl_iff (b r : Bytes) (c : Crl) :
    (∃ t, parseField tbsCrl {} b = some (t, r) ∧ crlFields { c with tbs := t } = crlFields c) ↔
      b = c.tbs.raw ++ r ∧ TbsCrlEl (crlFields c) c.tbs.raw := by
  simp only [field_iff tbsCrl (by decide) 0x30 (by decide), crlFields, CrlFields.mk.injEq]
  constructor
  · rintro ⟨t, ⟨e, body, rfl, h1, h2⟩, h⟩
    simp only [tbsCrl, Option.pure_def, Option.bind_eq_bind, Option.bind_eq_some_iff, Option.some.injEq, Prod.exists, name_iff,
      parseTime_iff, parseTimeOpt_iff, optRevoked_iff, explExts_iff] at h2
    obtain ⟨v, s0, h3, a, s00, h4, i, _, ⟨ie, rfl, h5⟩, tu, s, ⟨te, rfl, h6⟩, nu, s1, h7, rv, s2, h8, x, junk, h9, rfl⟩ := h2
    obtain ⟨ae, rfl, h4'⟩ := (algId_iff _ _ _ _).mp ⟨a, h4, rfl, rfl⟩
    obtain ⟨g1, g2⟩ := algEl_goes h4' (ie ++ (te ++ s))
    obtain ⟨ve, rfl, h3'⟩ := (optVersion_iff _ _ _ g1 g2).mp h3
    simp only at h
    obtain ⟨k1, k2, k3, k4, k5, k6, k7, k8, k9, -⟩ := h
    rw [← k1, ← k2, ← k3, ← k4, ← k5, ← k6, ← k7, ← k8, ← k9]
    exact ⟨rfl, ve, ae, ie, te, s, s1, s2, junk, h1, h3', h4', h5, h6, h7, h8, h9⟩
  · rintro ⟨rfl, ve, ae, ie, te, s, s1, s2, junk, h1, h3, h4, h5, h6, h7, h8, h9⟩
    obtain ⟨g1, g2⟩ := algEl_goes h4 (ie ++ (te ++ s))
    obtain ⟨a, h4, h4a, h4b⟩ := (algId_iff (ae ++ (ie ++ (te ++ s))) _ _ (ie ++ (te ++ s))).mpr ⟨ae, rfl, h4⟩
    have h3' := (optVersion_iff (ve ++ (ae ++ (ie ++ (te ++ s)))) _ _ g1 g2).mpr ⟨ve, rfl, h3⟩
    refine ⟨⟨c.tbs.raw, c.tbs.version, a, c.tbs.issuer, c.tbs.thisUpdate, c.tbs.nextUpdate, c.tbs.revoked, c.tbs.extensions⟩,
      ⟨c.tbs.raw, _, rfl, h1, ?_⟩, by simp [h4a, h4b]⟩
    simp only [tbsCrl, Option.pure_def, Option.bind_eq_bind, Option.bind_eq_some_iff, Option.some.injEq, Prod.exists, name_iff,
      parseTime_iff, parseTimeOpt_iff, optRevoked_iff, explExts_iff]
    exact ⟨_, _, h3', a, _, h4, _, _, ⟨ie, rfl, h5⟩, _, s, ⟨te, rfl, h6⟩, _, s1, h7, _, s2, h8, _, junk, h9, rfl⟩

theorem crl_iff (b r : Bytes) (f : CrlFields) :
    (∃ c, parseField crl {} b = some (c, r) ∧ crlFields c = f) ↔ ∃ e, b = e ++ r ∧ CrlDer e f := by
  constructor
  · rintro ⟨c, h, rfl⟩
    obtain ⟨e, body, rfl, h1, h2⟩ := (field_iff crl (by decide) 0x30 (by decide) _ _ _).mp h
    simp only [crl, Option.pure_def, Option.bind_eq_bind, Option.bind_eq_some_iff, Option.some.injEq, Prod.exists] at h2
    obtain ⟨t, s, h3, a, s1, h4, sg, junk, h5, rfl⟩ := h2
    obtain ⟨ae, rfl, h4'⟩ := (algId_iff _ _ _ _).mp ⟨a, h4, rfl, rfl⟩
    obtain ⟨be, bb, rfl, h6, h7⟩ := (field_iff bits (by decide) 0x03 (by decide) _ _ _).mp h5
    obtain ⟨u, h7, h8⟩ := (decBits_spec _ _).mp h7
    obtain ⟨rfl, h3'⟩ := (tbsCrl_iff _ _ ⟨t, a, sg⟩).mp ⟨t, h3, rfl⟩
    exact ⟨e, rfl, ae, be, junk, bb, u, h1, h3', h4', h6, h7, by simp only [crlFields, h8]; omega⟩
  · rintro ⟨e, rfl, ae, be, junk, bb, u, h1, h3, h4, h6, h7, h8⟩
    obtain ⟨a, h4, h4a, h4b⟩ := (algId_iff (ae ++ (be ++ junk)) _ _ (be ++ junk)).mpr ⟨ae, rfl, h4⟩
    have hf : crlFields ⟨⟨f.rawTbs, f.version, ⟨f.sigOid, { full := f.sigPar }⟩, f.issuer, f.thisUpdate, f.nextUpdate, f.revoked,
        f.extensions⟩, a, ⟨f.signature, f.sigBits⟩⟩ = f := by
      simp only [crlFields, h4a, h4b]
    obtain ⟨t, h5, h9⟩ := (tbsCrl_iff (f.rawTbs ++ (ae ++ (be ++ junk))) (ae ++ (be ++ junk)) ⟨⟨f.rawTbs, f.version, ⟨f.sigOid, { full := f.sigPar }⟩, f.issuer, f.thisUpdate, f.nextUpdate, f.revoked,
        f.extensions⟩, a, ⟨f.signature, f.sigBits⟩⟩).mpr ⟨rfl, by rw [hf]; exact h3⟩
    refine ⟨⟨t, a, ⟨f.signature, f.sigBits⟩⟩, (field_iff crl (by decide) 0x30 (by decide) _ _ _).mpr ⟨e, _, rfl, h1, ?_⟩,
      h9.trans hf⟩
    simp only [crl, Option.pure_def, Option.bind_eq_bind, Option.bind_eq_some_iff, Option.some.injEq, Prod.exists]
    refine ⟨t, _, h5, a, _, h4, _, junk, (field_iff bits (by decide) 0x03 (by decide) _ _ _).mpr ⟨be, bb, rfl, h6, ?_⟩, rfl⟩
    exact (decBits_spec _ _).mpr ⟨u, h7, by simp only [h8]; omega⟩

end MCrypto.X509
