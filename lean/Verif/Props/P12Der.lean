import Verif.Pkcs12.PfxGrammarLemmas
import Verif.Props.P12Helpers
import Verif.Props.P12Ex
import Verif.Props.X509Strings
/-
C97, C98: `Decode`, `DecodeAll` and `ToPEM`, octet by octet. Vocabulary: Verif/Pkcs12/PfxGrammar.lean.
-/
namespace MCrypto.Props
open MCrypto Asn1 P12 MCrypto.Dg MCrypto.X509 MCrypto.X509Spec P12Spec

theorem bmpPassword_iff (password pw : Bytes) : bmpString password = .ok pw ↔ BmpPassword password pw := by
  unfold BmpPassword
  have hval : (∀ r ∈ Utf.runes password, r ≤ 0xFFFF) → bmpString password = .ok (be16 (Utf.runes password ++ [0])) := by
    intro h
    rw [bmpString, P12.bmpLoop_ok _ h, be16_append]
    rfl
  constructor
  · intro h
    have h1 := (C30_bmpString_fails_iff password).mp ⟨pw, h⟩
    rw [hval h1] at h
    injection h with h
    exact ⟨h1, h.symm⟩
  · rintro ⟨h1, rfl⟩; exact hval h1

/-- The contents as a list of sums. -/
def toSum {κ : Type} : Item κ → Option (κ ⊕ PrivKey)
  | .cert c => some (.inl c)
  | .key k => some (.inr k)
  | .other => none

theorem contents_iff {κ : Type} (P : Prims) (edPub : Bytes → Bytes) (parseCerts : Bytes → Res (List κ)) (pw : Bytes)
    (sbs : List SafeBag) (l : List (κ ⊕ PrivKey)) :
    Contents P edPub parseCerts pw (sbs.map bagOf) l ↔
      ∃ is, List.Forall₂ (Holds P edPub parseCerts pw) sbs is ∧ l = is.filterMap toSum := by
  induction sbs generalizing l with
  | nil =>
    constructor
    · intro h; cases h; exact ⟨[], .nil, rfl⟩
    · rintro ⟨is, h, rfl⟩; cases h; exact .nil
  | cons b sbs ih =>
    rw [List.map_cons]
    constructor
    · intro h
      cases h with
      | cert _ _ l raw c h1 h2 h3 h4 =>
        obtain ⟨is, k1, rfl⟩ := (ih _).mp h4
        exact ⟨.cert c :: is, .cons (.cert c raw h1 ((certBag_iff _ _).mpr h2) h3) k1, rfl⟩
      | key _ _ l k h1 h2 h3 =>
        obtain ⟨is, k1, rfl⟩ := (ih _).mp h3
        exact ⟨.key k :: is, .cons (.key k h1 ((keyBag_iff _ _ _ _ _).mpr h2)) k1, rfl⟩
      | other _ _ _ h1 h2 h3 =>
        obtain ⟨is, k1, rfl⟩ := (ih _).mp h3
        exact ⟨.other :: is, .cons (.other h1 h2) k1, rfl⟩
    · rintro ⟨is, h, rfl⟩
      cases h with
      | cons h1 h2 =>
        rename_i i is
        have h3 := (ih _).mpr ⟨is, h2, rfl⟩
        cases h1 with
        | cert c raw g1 g2 g3 => exact .cert _ _ _ raw c g1 ((certBag_iff _ _).mp g2) g3 h3
        | key k g1 g2 => exact .key _ _ _ k g1 ((keyBag_iff _ _ _ _ _).mp g2) h3
        | other g1 g2 => exact .other _ _ _ g1 g2 h3

theorem certs_sum {κ : Type} (is : List (Item κ)) : certs is = (is.filterMap toSum).filterMap Sum.getLeft? := by
  induction is with
  | nil => rfl
  | cons i is ih =>
    cases i with
    | cert c => simp [certs, toSum, ih]
    | key k =>
      rw [List.filterMap_cons]
      exact ih
    | other =>
      rw [List.filterMap_cons]
      exact ih

theorem keys_sum {κ : Type} (is : List (Item κ)) : keys is = [] ↔ ∀ x ∈ is.filterMap toSum, x.isLeft := by
  induction is with
  | nil => simp [keys]
  | cons i is ih => cases i <;> simp [keys, toSum, ih]

theorem split_sum {κ : Type} (is : List (Item κ)) (pre post : List (κ ⊕ PrivKey)) (k : PrivKey)
    (h : is.filterMap toSum = pre ++ .inr k :: post) :
    ∃ p q, is = p ++ .key k :: q ∧ p.filterMap toSum = pre ∧ q.filterMap toSum = post := by
  obtain ⟨p, q, rfl, h1, h2⟩ := List.filterMap_eq_append_iff.mp h
  obtain ⟨q1, i, q2, rfl, h3, h4, h5⟩ := List.filterMap_eq_cons_iff.mp h2
  have hi : i = .key k := by
    cases i <;> simp [toSum] at h4
    subst h4; rfl
  subst hi
  refine ⟨p ++ q1, q2, by simp, ?_, h5⟩
  rw [List.filterMap_append, h1, List.filterMap_eq_nil_iff.mpr h3, List.append_nil]

/-- The last key and the certificates before and after it, as octets. -/
theorem bridge {κ : Type} (P : Prims) (edPub : Bytes → Bytes) (parseCerts : Bytes → Res (List κ)) (data password : Bytes)
    (k : PrivKey) (G : List κ → List κ → Prop) :
    (∃ pw sbs pw', bmpString password = .ok pw ∧ Opens P data pw sbs pw' ∧
      ∃ pre post, List.Forall₂ (Holds P edPub parseCerts pw') sbs (pre ++ .key k :: post) ∧ keys post = [] ∧
        G (certs pre) (certs post)) ↔
    (∃ pw bags pw' pre post, BmpPassword password pw ∧ PfxDer P data pw bags pw' ∧
      Contents P edPub parseCerts pw' bags (pre ++ .inr k :: post) ∧ (∀ x ∈ post, x.isLeft) ∧
        G (pre.filterMap Sum.getLeft?) (post.filterMap Sum.getLeft?)) := by
  constructor
  · rintro ⟨pw, sbs, pw', h1, h2, pre, post, h3, h4, h5⟩
    refine ⟨pw, sbs.map bagOf, pw', pre.filterMap toSum, post.filterMap toSum, (bmpPassword_iff _ _).mp h1,
      (opens_iff P data pw _ pw').mp ⟨sbs, h2, rfl⟩, (contents_iff ..).mpr ⟨_, h3, by simp [toSum]⟩, (keys_sum _).mp h4, ?_⟩
    rw [← certs_sum, ← certs_sum]; exact h5
  · rintro ⟨pw, bags, pw', pre, post, h1, h2, h3, h4, h5⟩
    obtain ⟨sbs, h6, rfl⟩ := (opens_iff P data pw bags pw').mpr h2
    obtain ⟨is, h7, h8⟩ := (contents_iff ..).mp h3
    obtain ⟨p, q, rfl, rfl, rfl⟩ := split_sum is pre post k h8.symm
    refine ⟨pw, sbs, pw', (bmpPassword_iff _ _).mpr h1, h6, p, q, h7, (keys_sum _).mpr h4, ?_⟩
    rw [certs_sum, certs_sum]; exact h5

/-- C97: `DecodeAll` returns key `k` and certificates `cs` exactly if the octets are a PFX for the password, all its bags are
well formed, and the last key is `k`; `cs` are all certificates, at least one, and they come before the last key,
unless there is only one. (Keys before the last one are dropped silently.) -/
theorem C97_decodeAll_grammar {κ : Type} (P : Prims) (edPub : Bytes → Bytes) (parseCerts : Bytes → Res (List κ))
    (data password : Bytes) (k : PrivKey) (cs : List κ) :
    decodeAll P edPub parseCerts data password = .ok (k, cs) ↔
      ∃ pw bags pw' pre post, BmpPassword password pw ∧ PfxDer P data pw bags pw' ∧
        Contents P edPub parseCerts pw' bags (pre ++ .inr k :: post) ∧ (∀ x ∈ post, x.isLeft) ∧
        cs = pre.filterMap Sum.getLeft? ++ post.filterMap Sum.getLeft? ∧ cs ≠ [] ∧
        (post = [] ∨ cs.length = 1) := by
  have hb := bridge P edPub parseCerts data password k
    (fun a b => cs = a ++ b ∧ cs ≠ [] ∧ (b = [] ∨ (a = [] ∧ b.length = 1)))
  have hpost : ∀ pre post : List (κ ⊕ PrivKey), (∀ x ∈ post, x.isLeft) →
      (cs = pre.filterMap Sum.getLeft? ++ post.filterMap Sum.getLeft? ∧ cs ≠ [] ∧ (post = [] ∨ cs.length = 1) ↔
      cs = pre.filterMap Sum.getLeft? ++ post.filterMap Sum.getLeft? ∧ cs ≠ [] ∧ (post.filterMap Sum.getLeft? = [] ∨
        (pre.filterMap Sum.getLeft? = [] ∧ (post.filterMap Sum.getLeft?).length = 1))) := by
    intro pre post hp
    have hnil : post.filterMap Sum.getLeft? = [] ↔ post = [] := by
      rw [List.filterMap_eq_nil_iff]
      constructor
      · intro h
        cases post with
        | nil => rfl
        | cons x l =>
          have h1 := h x (by simp)
          have h2 := hp x (by simp)
          cases x <;> simp at h1 h2
      · rintro rfl; simp
    refine and_congr_right fun hcs => and_congr_right fun hne => ?_
    rw [hnil]
    constructor
    · rintro (h | h)
      · exact Or.inl h
      · by_cases h0 : post = []
        · exact Or.inl h0
        · right
          have h1 : 1 ≤ (post.filterMap Sum.getLeft?).length := by
            rcases hl : post.filterMap Sum.getLeft? with _ | _
            · exact absurd (hnil.mp hl) h0
            · simp
          have h2 := congrArg List.length hcs
          rw [List.length_append] at h2
          exact ⟨List.length_eq_zero_iff.mp (by omega), by omega⟩
    · rintro (h | ⟨h, h1⟩)
      · exact Or.inl h
      · right; rw [hcs, h]; simpa using h1
  have hl : decodeAll P edPub parseCerts data password = .ok (k, cs) ↔
      ∃ pw sbs pw', bmpString password = .ok pw ∧ Opens P data pw sbs pw' ∧
        ∃ pre post, List.Forall₂ (Holds P edPub parseCerts pw') sbs (pre ++ .key k :: post) ∧ keys post = [] ∧
          cs = certs pre ++ certs post ∧ cs ≠ [] ∧ (certs post = [] ∨ (certs pre = [] ∧ (certs post).length = 1)) := by
    constructor
    · intro h
      obtain ⟨pw, sbs, pw', h1, h2⟩ := (C36_decode_needs_mac P edPub parseCerts data password).1 _ h
      exact ⟨pw, sbs, pw', h1, h2, (C38_decodeAll_iff_partial P edPub parseCerts data password pw pw' sbs h1 h2 k cs).mp h⟩
    · rintro ⟨pw, sbs, pw', h1, h2, h3⟩
      exact (C38_decodeAll_iff_partial P edPub parseCerts data password pw pw' sbs h1 h2 k cs).mpr h3
  rw [hl, hb]
  constructor
  · rintro ⟨pw, bags, pw', pre, post, h1, h2, h3, h4, h5⟩
    exact ⟨pw, bags, pw', pre, post, h1, h2, h3, h4, (hpost pre post h4).mpr h5⟩
  · rintro ⟨pw, bags, pw', pre, post, h1, h2, h3, h4, h5⟩
    exact ⟨pw, bags, pw', pre, post, h1, h2, h3, h4, (hpost pre post h4).mp h5⟩

/-- C97: `Decode` likewise; it returns the last certificate. -/
theorem C97_decode_grammar {κ : Type} (P : Prims) (edPub : Bytes → Bytes) (parseCerts : Bytes → Res (List κ))
    (data password : Bytes) (k : PrivKey) (c : κ) :
    decode P edPub parseCerts data password = .ok (k, c) ↔
      ∃ pw bags pw' pre post, BmpPassword password pw ∧ PfxDer P data pw bags pw' ∧
        Contents P edPub parseCerts pw' bags (pre ++ .inr k :: post) ∧ (∀ x ∈ post, x.isLeft) ∧
        (pre.filterMap Sum.getLeft? ++ post.filterMap Sum.getLeft?).getLast? = some c ∧
        (post = [] ∨ (pre.filterMap Sum.getLeft? = [] ∧ post.length = 1)) := by
  have hb := bridge P edPub parseCerts data password k
    (fun a b => (a ++ b).getLast? = some c ∧ (b = [] ∨ (a = [] ∧ b.length = 1)))
  have hlen : ∀ post : List (κ ⊕ PrivKey), (∀ x ∈ post, x.isLeft) → (post.filterMap Sum.getLeft?).length = post.length := by
    intro post
    induction post with
    | nil => simp
    | cons x l ih =>
      intro h
      have h1 := h x (by simp)
      have h2 := ih fun y hy => h y (by simp [hy])
      cases x with
      | inl c =>
        rw [List.filterMap_cons]
        show (c :: l.filterMap Sum.getLeft?).length = _
        rw [List.length_cons, List.length_cons, h2]
      | inr k => simp at h1
  have hl : decode P edPub parseCerts data password = .ok (k, c) ↔
      ∃ pw sbs pw', bmpString password = .ok pw ∧ Opens P data pw sbs pw' ∧
        ∃ pre post, List.Forall₂ (Holds P edPub parseCerts pw') sbs (pre ++ .key k :: post) ∧ keys post = [] ∧
          (certs pre ++ certs post).getLast? = some c ∧
          (certs post = [] ∨ (certs pre = [] ∧ (certs post).length = 1)) := by
    constructor
    · intro h
      obtain ⟨pw, sbs, pw', h1, h2⟩ := (C36_decode_needs_mac P edPub parseCerts data password).2 _ h
      exact ⟨pw, sbs, pw', h1, h2, (C38_decode_iff_partial P edPub parseCerts data password pw pw' sbs h1 h2 k c).mp h⟩
    · rintro ⟨pw, sbs, pw', h1, h2, h3⟩
      exact (C38_decode_iff_partial P edPub parseCerts data password pw pw' sbs h1 h2 k c).mpr h3
  rw [hl, hb]
  have hn : ∀ post : List (κ ⊕ PrivKey), (∀ x ∈ post, x.isLeft) → (post.filterMap Sum.getLeft? = [] ↔ post = []) := by
    intro post h
    rw [← List.length_eq_zero_iff, hlen post h, List.length_eq_zero_iff]
  constructor
  · rintro ⟨pw, bags, pw', pre, post, h1, h2, h3, h4, h5, h6⟩
    rw [hlen post h4, hn post h4] at h6
    exact ⟨pw, bags, pw', pre, post, h1, h2, h3, h4, h5, h6⟩
  · rintro ⟨pw, bags, pw', pre, post, h1, h2, h3, h4, h5, h6⟩
    refine ⟨pw, bags, pw', pre, post, h1, h2, h3, h4, h5, ?_⟩
    rw [hlen post h4, hn post h4]; exact h6

/-! ### ToPEM -/

/-- A block with its headers as a map. -/
def asPem (b : PemBlock) : Pem := ⟨b.type, fun k => (b.headers.find? (·.1 = k)).map (·.2), b.bytes⟩

theorem bmpUnits_eq : ∀ b : Bytes, P12.bmpUnits b = X509.units16 b
  | [] => rfl
  | [_] => rfl
  | a :: b :: t => by rw [P12.bmpUnits, X509.units16, bmpUnits_eq t]

theorem bmp_iff (b s : Bytes) : decodeBMPString b = .ok s ↔ StringValue 30 b s := by
  rw [← C65_parseASN1String_iff]
  have h30 : parseASN1String 30 b = if b.length % 2 ≠ 0 then none
      else some (Utf.ofRunes (Utf.decode16 (X509.units16 (X509.stripTerminator b)))) := rfl
  rw [h30]
  unfold decodeBMPString
  by_cases hb : b.length % 2 ≠ 0
  · rw [if_pos hb, if_pos hb]; simp
  · rw [if_neg hb, if_neg hb]
    have hs : (if 2 ≤ b.length ∧ b.getD (b.length - 1) 0 = 0 ∧ b.getD (b.length - 2) 0 = 0 then b.take (b.length - 2) else b)
        = X509.stripTerminator b := by
      unfold X509.stripTerminator
      have e1 : b.getLastD 0 = b.getD (b.length - 1) 0 := by
        rw [List.getD_eq_getElem?_getD, ← List.getLast?_eq_getElem?, List.getLastD_eq_getLast?]
      have e2 : 2 ≤ b.length → b.dropLast.getLastD 0 = b.getD (b.length - 2) 0 := by
        intro h
        rw [List.getD_eq_getElem?_getD, List.getLastD_eq_getLast?, List.getLast?_eq_getElem?, List.length_dropLast,
          List.getElem?_dropLast, if_pos (by omega), show b.length - 1 - 1 = b.length - 2 by omega]
      by_cases h2 : 2 ≤ b.length
      · rw [e1, e2 h2]
      · rw [if_neg (by tauto), if_neg (by simp; omega)]
    simp only [hs, bmpUnits_eq, Res.ok.injEq, Option.some.injEq]

theorem hexEncode_eq (b : Bytes) : hexEncode b = hex b := by
  unfold hexEncode hex
  have h : ∀ n < 16, hexDigit n = hexDigits.getD n 0 := by decide
  congr 1
  funext x
  have := x.toNat_lt
  rw [h _ (by omega), h _ (by omega)]

theorem attrText_iff (a : Attribute) (h : String × Bytes) :
    convertAttribute a = .ok h ↔ AttrText (a.id, a.value.bytes) h := by
  obtain ⟨k, v⟩ := h
  have hstr : ∀ key : String, ((do
      let v ← unmarshalAllRaw a.value.bytes
      let s ← decodeBMPString v.bytes
      pure (key, s)) : Res (String × Bytes)) = .ok (k, v) ↔
      k = key ∧ ∃ s, Whole s a.value.bytes ∧ StringValue 30 s v := by
    intro key
    simp only [Res.bind_eq_ok, Res.pure_eq, Res.ok.injEq, Prod.mk.injEq, bmp_iff, ← allRaw_iff]
    constructor
    · rintro ⟨w, h1, t, h2, rfl, rfl⟩; exact ⟨rfl, _, ⟨w, h1, rfl⟩, h2⟩
    · rintro ⟨rfl, _, ⟨w, h1, rfl⟩, h2⟩; exact ⟨w, h1, v, h2, rfl, rfl⟩
  unfold convertAttribute AttrText
  simp only []
  by_cases h1 : a.id = oidFriendlyName
  · rw [if_pos h1, hstr]
    have n1 : a.id ≠ [1, 2, 840, 113549, 1, 9, 21] := by rw [h1]; decide
    have n2 : a.id ≠ [1, 3, 6, 1, 4, 1, 311, 17, 1] := by rw [h1]; decide
    have n3 : a.id = [1, 2, 840, 113549, 1, 9, 20] := h1
    simp only [n1, n2, eq_true n3, false_and, or_false, true_and]
  rw [if_neg h1]
  have n1 : a.id ≠ [1, 2, 840, 113549, 1, 9, 20] := h1
  by_cases h2 : a.id = oidLocalKeyID
  · rw [if_pos h2]
    have n2 : a.id ≠ [1, 3, 6, 1, 4, 1, 311, 17, 1] := by rw [h2]; decide
    have n3 : a.id = [1, 2, 840, 113549, 1, 9, 21] := h2
    simp only [n1, n2, eq_true n3, false_and, or_false, false_or, true_and, Res.bind_eq_ok, Res.pure_eq, Res.ok.injEq,
      Prod.mk.injEq, all_iff, octets_iff, hexEncode_eq, List.append_nil]
    constructor
    · rintro ⟨i, ⟨e, rfl, h⟩, rfl, rfl⟩; exact ⟨rfl, i, h, rfl⟩
    · rintro ⟨rfl, i, h, rfl⟩; exact ⟨i, ⟨_, rfl, h⟩, rfl, rfl⟩
  rw [if_neg h2]
  have n2 : a.id ≠ [1, 2, 840, 113549, 1, 9, 21] := h2
  by_cases h3 : a.id = oidMicrosoftCSPName
  · rw [if_pos h3, hstr]
    have n3 : a.id = [1, 3, 6, 1, 4, 1, 311, 17, 1] := h3
    simp only [n1, n2, eq_true n3, false_and, false_or, true_and]
  rw [if_neg h3]
  have n3 : a.id ≠ [1, 3, 6, 1, 4, 1, 311, 17, 1] := h3
  simp [n1, n2, n3]

/-- Assignment to a header, as a map. -/
theorem setHeader_find (h : List (String × Bytes)) (k : String) (v : Bytes) (k' : String) :
    ((setHeader h k v).find? (·.1 = k')).map (·.2) = if k' = k then some v else (h.find? (·.1 = k')).map (·.2) := by
  unfold setHeader
  by_cases hk : k' = k
  · subst hk
    rw [if_pos rfl, List.find?_append]
    have : (h.filter (fun e => e.1 ≠ k')).find? (·.1 = k') = none := by
      rw [List.find?_eq_none]
      intro x hx
      have := (List.mem_filter.mp hx).2
      simpa using this
    rw [this]
    simp
  · rw [if_neg hk, List.find?_append]
    have h1 : (h.filter (fun e => e.1 ≠ k)).find? (·.1 = k') = h.find? (·.1 = k') := by
      rw [List.find?_filter]
      congr 1
      funext e
      by_cases he : e.1 = k'
      · simp [he, hk]
      · simp [he]
    rw [h1]
    have h2 : [(k, v)].find? (·.1 = k') = none := by
      simp [List.find?, Ne.symm hk]
    rw [h2]
    simp

theorem last_or (l : List (String × Bytes)) (k : String) (v : Bytes) (o : Option Bytes) :
    (l.getLast?.map (·.2)).or (some v) = (((k, v) :: l).getLast?.map (·.2)).or o := by
  cases l using List.reverseRecOn with
  | nil => rfl
  | append_singleton l x =>
    rw [← List.cons_append, List.getLast?_append, List.getLast?_append]
    rfl

theorem convertAttributes_ok (as : List Attribute) : ∀ (h0 h : List (String × Bytes)), convertAttributes as h0 = .ok h →
    ∃ kvs, List.Forall₂ AttrText (as.map fun a => (a.id, a.value.bytes)) kvs ∧
      ∀ k, (h.find? (·.1 = k)).map (·.2) =
        (((kvs.filter (·.1 = k)).getLast?).map (·.2)).or ((h0.find? (·.1 = k)).map (·.2)) := by
  induction as with
  | nil =>
    intro h0 h hh
    rw [convertAttributes] at hh
    injection hh with hh
    subst hh
    exact ⟨[], .nil, fun k => by simp⟩
  | cons a as ih =>
    intro h0 h hh
    rw [convertAttributes] at hh
    simp only [Res.bind_eq_ok, Prod.exists] at hh
    obtain ⟨k0, v0, h1, h2⟩ := hh
    obtain ⟨kvs, h3, h4⟩ := ih _ _ h2
    refine ⟨(k0, v0) :: kvs, .cons ((attrText_iff _ _).mp h1) h3, fun k => ?_⟩
    rw [h4, setHeader_find]
    by_cases hk : k = k0
    · subst hk
      rw [if_pos rfl, List.filter_cons_of_pos (by simp)]
      exact last_or _ _ _ _
    · rw [if_neg hk, List.filter_cons_of_neg (by simpa using Ne.symm hk)]

theorem convertAttributes_total (as : List Attribute) (kvs : List (String × Bytes))
    (h : List.Forall₂ AttrText (as.map fun a => (a.id, a.value.bytes)) kvs) :
    ∀ h0 : List (String × Bytes), ∃ hs, convertAttributes as h0 = .ok hs ∧
      ∀ k, (hs.find? (·.1 = k)).map (·.2) =
        (((kvs.filter (·.1 = k)).getLast?).map (·.2)).or ((h0.find? (·.1 = k)).map (·.2)) := by
  induction as generalizing kvs with
  | nil =>
    cases h
    intro h0; exact ⟨h0, rfl, fun k => by simp⟩
  | cons a as ih =>
    rw [List.map_cons] at h
    cases h with
    | cons h1 h2 =>
      rename_i kv kvs
      obtain ⟨k0, v0⟩ := kv
      intro h0
      obtain ⟨hs, h3, h4⟩ := ih _ h2 (setHeader h0 k0 v0)
      refine ⟨hs, ?_, fun k => ?_⟩
      · rw [convertAttributes, (attrText_iff _ _).mpr h1]
        exact h3
      · rw [h4, setHeader_find]
        by_cases hk : k = k0
        · subst hk
          rw [if_pos rfl, List.filter_cons_of_pos (by simp)]
          exact last_or _ _ _ _
        · rw [if_neg hk, List.filter_cons_of_neg (by simpa using Ne.symm hk)]

/-- The headers of a bag. -/
theorem headers_iff (as : List Attribute) (hd : String → Option Bytes) :
    (∃ h, convertAttributes as [] = .ok h ∧ (fun k => (h.find? (·.1 = k)).map (·.2)) = hd) ↔
      HeadersAre (as.map fun a => (a.id, a.value.bytes)) hd := by
  unfold HeadersAre
  constructor
  · rintro ⟨h, h1, rfl⟩
    obtain ⟨kvs, h2, h3⟩ := convertAttributes_ok as _ _ h1
    exact ⟨kvs, h2, fun k => (h3 k).trans (by simp)⟩
  · rintro ⟨kvs, h1, h2⟩
    obtain ⟨hs, h3, h4⟩ := convertAttributes_total as kvs h1 []
    refine ⟨hs, h3, ?_⟩
    funext k
    rw [h2, h4]; simp

theorem ecdsa_curve {P : Prims} {edPub : Bytes → Bytes} {pw v : Bytes} {k : Sm2.PrivateKey}
    (h : KeyBagDer P edPub pw (.ecdsa k) v) : k.pub.curve ≠ SM2P256 := by
  obtain ⟨ae, de, junk, alg, par, enc, pk, o, par', key, -, -, -, -, -, -, h⟩ := h
  have hk : ∀ c d, EcKeyIs c d (.ecdsa k) → k.pub.curve ≠ SM2P256 := by
    rintro c d ⟨k', h1, h2, h3, h4⟩ hc
    unfold ecPrivKey at h1
    split at h1
    · cases h1
    · rename_i hne
      injection h1 with h1
      subst h1
      exact hne hc
  rcases h with ⟨-, r, -, -, h⟩ | ⟨-, d, inner, -, ⟨c, -, h⟩ | ⟨-, c, -, h⟩⟩ | ⟨-, -, e, tr, seed, -, -, -, h⟩
  · cases h
  · exact hk _ _ h
  · exact hk _ _ h
  · cases h

theorem block_iff (P : Prims) (edPub : Bytes → Bytes) (b : SafeBag) (pw : Bytes) (p : Pem) :
    (∃ x, convertBag P edPub b pw = .ok x ∧ asPem x = p) ↔ BlockIs P edPub pw (bagOf b) p := by
  have hH := headers_iff (b.attrs.getD []) p.headers
  obtain ⟨ty, hd, by'⟩ := p
  have hcc : certBagId = oidCertBag := rfl
  have hkk : keyBagId = oidPKCS8ShroundedKeyBag := rfl
  have hne : oidCertBag ≠ oidPKCS8ShroundedKeyBag := by decide
  unfold BlockIs
  show _ ↔ HeadersAre ((b.attrs.getD []).map fun a => (a.id, a.value.bytes)) hd ∧
    ((b.id = certBagId ∧ ty = "CERTIFICATE" ∧ CertBagDer by' b.value.bytes) ∨
     (b.id = keyBagId ∧ ty = "PRIVATE KEY" ∧
      ((∃ k, KeyBagDer P edPub pw (.rsa k) b.value.bytes ∧ X509.marshalPKCS1PrivateKey k = .ok by') ∨
       (∃ k, KeyBagDer P edPub pw (.ecdsa k) b.value.bytes ∧ X509.marshalECPrivateKey k = .ok by'))))
  rw [← hH, hcc, hkk]
  unfold convertBag
  simp only [Res.bind_eq_ok]
  constructor
  · rintro ⟨x, ⟨hs, h1, h2⟩, hx⟩
    by_cases hc : b.id = oidCertBag
    · rw [if_pos hc] at h2
      simp only [Res.bind_eq_ok, Res.pure_eq, Res.ok.injEq] at h2
      obtain ⟨d, h3, rfl⟩ := h2
      injection hx with e1 e2 e3
      subst e1 e3
      exact ⟨⟨hs, h1, e2⟩, Or.inl ⟨hc, rfl, (certBag_iff _ _).mp h3⟩⟩
    · rw [if_neg hc] at h2
      by_cases hk : b.id = oidPKCS8ShroundedKeyBag
      · rw [if_pos hk] at h2
        simp only [Res.bind_eq_ok, Res.pure_eq, Res.ok.injEq, keyBag_iff] at h2
        obtain ⟨k, h3, d, h4, rfl⟩ := h2
        injection hx with e1 e2 e3
        subst e1 e3
        refine ⟨⟨hs, h1, e2⟩, Or.inr ⟨hk, rfl, ?_⟩⟩
        cases k with
        | rsa k => exact Or.inl ⟨k, h3, h4⟩
        | ecdsa k =>
          rw [convertKey, if_neg (ecdsa_curve h3)] at h4
          exact Or.inr ⟨k, h3, h4⟩
        | _ => simp [convertKey] at h4
      · rw [if_neg hk] at h2; cases h2
  · rintro ⟨⟨hs, h1, rfl⟩, ⟨h2, rfl, h3⟩ | ⟨h2, rfl, h3⟩⟩
    · refine ⟨⟨"CERTIFICATE", hs, by'⟩, ⟨hs, h1, ?_⟩, rfl⟩
      rw [if_pos h2, (certBag_iff _ _).mpr h3]; rfl
    · refine ⟨⟨"PRIVATE KEY", hs, by'⟩, ⟨hs, h1, ?_⟩, rfl⟩
      rw [if_neg (by rw [h2]; decide), if_pos h2]
      rcases h3 with ⟨k, h3, h4⟩ | ⟨k, h3, h4⟩
      · rw [(keyBag_iff _ _ _ _ _).mpr h3, Res.bind_ok]
        show (marshalPKCS1PrivateKey k >>= _) = _
        rw [h4]; rfl
      · rw [(keyBag_iff _ _ _ _ _).mpr h3, Res.bind_ok, convertKey, if_neg (ecdsa_curve h3), h4]; rfl

theorem blocks_iff (P : Prims) (edPub : Bytes → Bytes) (pw : Bytes) (bs : List SafeBag) (ps : List Pem) :
    (∃ xs, convertBags P edPub pw bs = .ok xs ∧ xs.map asPem = ps) ↔
      List.Forall₂ (BlockIs P edPub pw) (bs.map bagOf) ps := by
  induction bs generalizing ps with
  | nil =>
    rw [convertBags, List.map_nil, List.forall₂_nil_left_iff]
    constructor
    · rintro ⟨xs, h, rfl⟩; injection h with h; subst h; rfl
    · rintro rfl; exact ⟨[], rfl, rfl⟩
  | cons b bs ih =>
    rw [convertBags, List.map_cons, List.forall₂_cons_left_iff]
    simp only [Res.bind_eq_ok, Res.pure_eq, Res.ok.injEq]
    constructor
    · rintro ⟨_, ⟨x, h1, xs, h2, rfl⟩, rfl⟩
      exact ⟨asPem x, xs.map asPem, (block_iff ..).mp ⟨x, h1, rfl⟩, (ih _).mp ⟨xs, h2, rfl⟩, rfl⟩
    · rintro ⟨p, ps, h1, h2, rfl⟩
      obtain ⟨x, h3, rfl⟩ := (block_iff ..).mpr h1
      obtain ⟨xs, h4, rfl⟩ := (ih _).mpr h2
      exact ⟨x :: xs, ⟨x, h3, xs, h4, rfl⟩, rfl⟩

/-- C98: `ToPEM` returns exactly these blocks without error: if the octets are a PFX for the password, one block for every
bag in order, and otherwise - the error is lost - none. It fails if the password is not in the BMP, or if the PFX opens
and some bag has no block. -/
theorem C98_toPEM_grammar (P : Prims) (edPub : Bytes → Bytes) (data password : Bytes) (blocks : List Pem) :
    (∃ bl, toPEM P edPub data password = .ok bl ∧ bl.map asPem = blocks) ↔
      ∃ pw, BmpPassword password pw ∧
        (((¬ ∃ bags pw', PfxDer P data pw bags pw') ∧ blocks = []) ∨
         ∃ bags pw', PfxDer P data pw bags pw' ∧ List.Forall₂ (BlockIs P edPub pw') bags blocks) := by
  unfold toPEM
  simp only [← bmpPassword_iff]
  cases hb : bmpString password with
  | panic => simp
  | err e => simp
  | ok pw =>
    simp only [Res.ok.injEq, exists_eq_left']
    have hno : (¬ ∃ bags pw', PfxDer P data pw bags pw') ↔ ∀ v, getSafeContents P data pw ≠ .ok v := by
      constructor
      · rintro h ⟨sbs, pw'⟩ hv
        exact h ⟨_, pw', (opens_iff ..).mp ⟨sbs, (C36_getSafeContents_iff ..).mp hv, rfl⟩⟩
      · rintro h ⟨bags, pw', hv⟩
        obtain ⟨sbs, h1, -⟩ := (opens_iff ..).mpr hv
        exact h _ ((C36_getSafeContents_iff ..).mpr h1)
    cases hg : getSafeContents P data pw with
    | panic => exact absurd hg (C66_getSafeContents_no_panic _ _ _)
    | err e =>
      have hn := hno.mpr (by intro v; rw [hg]; simp)
      constructor
      · rintro ⟨bl, h1, rfl⟩
        injection h1 with h1
        subst h1
        exact Or.inl ⟨hn, rfl⟩
      · rintro (⟨-, rfl⟩ | ⟨bags, pw', h1, -⟩)
        · exact ⟨[], rfl, rfl⟩
        · exact absurd ⟨bags, pw', h1⟩ hn
    | ok v =>
      obtain ⟨sbs, pw'⟩ := v
      show (∃ bl, convertBags P edPub pw' sbs = .ok bl ∧ _) ↔ _
      rw [blocks_iff]
      have ho := (C36_getSafeContents_iff ..).mp hg
      constructor
      · intro h
        exact Or.inr ⟨_, pw', (opens_iff ..).mp ⟨sbs, ho, rfl⟩, h⟩
      · rintro (⟨h, -⟩ | ⟨bags, pw'', h1, h2⟩)
        · exact absurd hg (hno.mp h _)
        · obtain ⟨sbs', h3, rfl⟩ := (opens_iff ..).mpr h1
          rw [(C36_getSafeContents_iff ..).mpr h3] at hg
          injection hg with hg
          injection hg with e1 e2
          subst e1 e2
          exact h2

theorem convert_leaf (P : Prims) {leaf fp : Bytes} (hfp : marshal octets (P.sha1 leaf) = some fp) :
    convertAttributes [⟨oidLocalKeyID, rawOf 0 true 17 fp⟩] [] = .ok [("localKeyId", hex (P.sha1 leaf))] := by
  have hl : fp.length < 2 ^ 31 := by
    have h1 : marshal octets (P.sha1 leaf) = some (encHdr 0 false 4 (P.sha1 leaf).length ++ P.sha1 leaf) := rfl
    rw [h1] at hfp
    injection hfp with hfp
    rw [← hfp, List.length_append, P.sha1_length]
    decide
  have h : unmarshalAll octets fp = .ok (P.sha1 leaf) := unmarshalAll_to (octets_to _) hfp hl
  have h1 : convertAttribute ⟨oidLocalKeyID, rawOf 0 true 17 fp⟩ = .ok ("localKeyId", hex (P.sha1 leaf)) := by
    unfold convertAttribute
    simp only []
    rw [if_neg (by decide), if_pos trivial]
    show (unmarshalAll octets fp >>= _) = _
    rw [h, Res.bind_ok, hexEncode_eq]; rfl
  rw [convertAttributes, h1]
  rfl

theorem convert_cert (P : Prims) (edPub : Bytes → Bytes) (pw : Bytes) {raw : Bytes} {b : SafeBag} (hb : IsCertBag raw b)
    {h : List (String × Bytes)} (ha : convertAttributes (b.attrs.getD []) [] = .ok h) :
    convertBag P edPub b pw = .ok ⟨"CERTIFICATE", h, raw⟩ := by
  obtain ⟨h1, d, h2, h3, h4⟩ := hb
  unfold convertBag
  rw [ha, Res.bind_ok, if_pos h1, h3, certBag_roundtrip h2 h4]
  rfl

theorem convertBags_append (P : Prims) (edPub : Bytes → Bytes) (pw : Bytes) (l l' : List SafeBag) :
    convertBags P edPub pw (l ++ l') = (do
      let xs ← convertBags P edPub pw l
      let ys ← convertBags P edPub pw l'
      pure (xs ++ ys)) := by
  induction l with
  | nil =>
    rw [convertBags, Res.bind_ok, List.nil_append]
    cases convertBags P edPub pw l' <;> rfl
  | cons b l ih =>
    rw [List.cons_append, convertBags, convertBags, ih]
    cases convertBag P edPub b pw with
    | ok x => cases convertBags P edPub pw l with
      | ok xs => cases convertBags P edPub pw l' <;> rfl
      | _ => rfl
    | _ => rfl

theorem convertBags_cas (P : Prims) (edPub : Bytes → Bytes) (pw : Bytes) {cas : List Bytes} {bs : List SafeBag}
    (hb : List.Forall₂ IsCertBag cas bs) (ha : ∀ b ∈ bs, b.attrs = some []) :
    convertBags P edPub pw bs = .ok (cas.map fun c => ⟨"CERTIFICATE", [], c⟩) := by
  induction hb with
  | nil => rfl
  | cons h1 _ ih =>
    rename_i c b cs bs _
    rw [convertBags, convert_cert P edPub pw h1 (h := []) (by rw [ha b (by simp)]; rfl), Res.bind_ok,
      ih fun b hb => ha b (by simp [hb])]
    rfl

/-- C98, end to end: what `Encode` made of a key, a certificate and CA certificates, `ToPEM` gives out in this order:
the certificate, with the SHA-1 of the certificate as local key id, the CA certificates without headers, the key with the
same local key id. This for RSA keys (as PKCS #1) and ECDSA keys (as SEC 1). -/
theorem C98_encode_toPEM (P : Prims) (edPub : Bytes → Bytes)
    (key : PrivKey) (leaf : Bytes) (cas : List Bytes) (password : Bytes) (rnd rnd' : Reader) (pfx kd : Bytes)
    (h : encode P key leaf cas password rnd = .ok (pfx, rnd')) (hlen : pfx.length < 2 ^ 31)
    (hk : ∀ kb, marshalPKCS8PrivateKey key = .ok kb → parsePKCS8PrivateKey edPub kb = .ok key)
    (hkd : (∃ k, key = .rsa k ∧ marshalPKCS1PrivateKey k = .ok kd) ∨
      ∃ k, key = .ecdsa k ∧ k.pub.curve ≠ SM2P256 ∧ marshalECPrivateKey k = .ok kd) :
    toPEM P edPub pfx password = .ok (
      ⟨"CERTIFICATE", [("localKeyId", hex (P.sha1 leaf))], leaf⟩ ::
      (cas.map fun c => ⟨"CERTIFICATE", [], c⟩) ++
      [⟨"PRIVATE KEY", [("localKeyId", hex (P.sha1 leaf))], kd⟩]) := by
  obtain ⟨pw, lb, cb, kb, kd', h1, h2, h3, h4, h5, h6, h7, fp, a1, a2, a3, a4⟩ := encode_getSafeContents' P edPub h hlen
  have hat := convert_leaf P a1
  unfold toPEM
  rw [h1]
  simp only []
  rw [h3]
  simp only []
  have hkey : convertBag P edPub kb pw = .ok ⟨"PRIVATE KEY", [("localKeyId", hex (P.sha1 leaf))], kd⟩ := by
    unfold convertBag
    rw [a3]
    simp only [Option.getD_some]
    rw [hat, Res.bind_ok, if_neg (by rw [h6]; decide), if_pos h6, h7 _ (hk _ h2), Res.bind_ok]
    have : convertKey key = .ok kd := by
      rcases hkd with ⟨k, rfl, hm⟩ | ⟨k, rfl, hc, hm⟩
      · exact hm
      · rw [convertKey, if_neg hc]; exact hm
    rw [this]; rfl
  rw [List.cons_append, convertBags, convert_cert P edPub pw h4 (by rw [a2]; exact hat), Res.bind_ok, convertBags_append,
    convertBags_cas P edPub pw h5 a4, Res.bind_ok, convertBags, hkey]
  rfl

/-- C98: a PFX that the package made for an SM2 key (or an Ed25519 key) cannot be converted: `ToPEM` fails although
password and file are right. -/
theorem C98_toPEM_rejects_own_sm2_files (P : Prims) (edPub : Bytes → Bytes)
    (key : PrivKey) (leaf : Bytes) (cas : List Bytes) (password : Bytes) (rnd rnd' : Reader) (pfx : Bytes)
    (h : encode P key leaf cas password rnd = .ok (pfx, rnd')) (hlen : pfx.length < 2 ^ 31)
    (hk : ∀ kb, marshalPKCS8PrivateKey key = .ok kb → parsePKCS8PrivateKey edPub kb = .ok key)
    (hne : (∀ k, key ≠ .rsa k) ∧ ∀ k, key ≠ .ecdsa k) :
    ∃ e, toPEM P edPub pfx password = .err e := by
  obtain ⟨pw, lb, cb, kb, kd', h1, h2, h3, h4, h5, h6, h7, fp, a1, a2, a3, a4⟩ := encode_getSafeContents' P edPub h hlen
  have hat := convert_leaf P a1
  unfold toPEM
  rw [h1]
  simp only []
  rw [h3]
  simp only []
  have hck : convertKey key = .err "found unknown private key type in PKCS#8 wrapping" := by
    cases key with
    | rsa k => exact absurd rfl (hne.1 k)
    | ecdsa k => exact absurd rfl (hne.2 k)
    | _ => rfl
  have hkey : convertBag P edPub kb pw = .err "found unknown private key type in PKCS#8 wrapping" := by
    unfold convertBag
    rw [a3]
    simp only [Option.getD_some]
    rw [hat, Res.bind_ok, if_neg (by rw [h6]; decide), if_pos h6, h7 _ (hk _ h2), Res.bind_ok, hck]
    rfl
  refine ⟨"found unknown private key type in PKCS#8 wrapping", ?_⟩
  rw [List.cons_append, convertBags, convert_cert P edPub pw h4 (by rw [a2]; exact hat), Res.bind_ok, convertBags_append,
    convertBags_cas P edPub pw h5 a4, Res.bind_ok, convertBags, hkey]
  rfl

end MCrypto.Props

/-! ### Concrete files -/
namespace MCrypto.Props.P12Ex
open MCrypto Asn1 P12 P12Spec MCrypto.X509 MCrypto.X509Spec MCrypto.Props

/-- C97: the example file is in the grammar, with three certificates and then the key. -/
example : ∃ pw bags pw' pre post, BmpPassword [0x41] pw ∧ PfxDer toy pfx pw bags pw' ∧
    Contents toy id parse1 pw' bags (pre ++ .inr (.sm2 key2) :: post) ∧ (∀ x ∈ post, x.isLeft) ∧
    [7, 8, 9] = pre.filterMap Sum.getLeft? ++ post.filterMap Sum.getLeft? ∧ [7, 8, 9] ≠ [] ∧
    (post = [] ∨ [7, 8, 9].length = 1) :=
  (C97_decodeAll_grammar toy id parse1 pfx [0x41] (.sm2 key2) [7, 8, 9]).mp (pfx_decodes id)

/-- C97: the same octets with another MAC value are not in the grammar, nor is the file under another password. -/
example : ¬ ∃ bags pw', PfxDer toy tampered [0, 0x41, 0, 0] bags pw' := by
  rintro ⟨bags, pw', h⟩
  obtain ⟨sbs, h1, -⟩ := (opens_iff ..).mpr h
  have h2 := (C36_getSafeContents_iff ..).mpr h1
  rw [show getSafeContents toy tampered [0, 0x41, 0, 0] = .err "ErrIncorrectPassword" by decide +kernel] at h2
  cases h2

/-- C98: `ToPEM` of the example file with an SM2 key fails. -/
example : ∃ e, toPEM toy id pfx [0x41] = .err e := by
  obtain ⟨r, hr⟩ := pfx_eq
  refine C98_toPEM_rejects_own_sm2_files toy id _ _ _ _ _ _ _ hr (by rw [pfx_length]; decide) ?_ ⟨by simp, by simp⟩
  obtain ⟨kb, hkb, hp⟩ := C53_pkcs8_sm2_roundtrip id key2 key2_pair rfl []
  rw [List.append_nil] at hp
  intro kb' hkb'
  rw [hkb] at hkb'
  injection hkb' with hkb'
  subst hkb'
  exact hp

/-- A key on P-256 with D = 2, and its file. -/
def ecKey : Sm2.PrivateKey :=
  let q := Curve.scalarMult p256.p p256.g [2]
  ⟨⟨P256, q.1, q.2⟩, 2⟩
def ecPfx : Bytes := match encode toy (.ecdsa ecKey) [7] [[8]] [0x41] rnd with | .ok (b, _) => b | _ => []
theorem ecPfx_length : ecPfx.length = 530 := by decide +kernel
theorem ecPfx_eq : ∃ r, encode toy (.ecdsa ecKey) [7] [[8]] [0x41] rnd = .ok (ecPfx, r) := by
  have hl := ecPfx_length
  unfold ecPfx at hl ⊢
  cases h : encode toy (.ecdsa ecKey) [7] [[8]] [0x41] rnd with
  | ok v => exact ⟨v.2, rfl⟩
  | err e => rw [h] at hl; simp at hl
  | panic => rw [h] at hl; simp at hl

theorem ecKey_pair : IsKeyPair ecKey := by
  refine ⟨p256, rfl, ?_, ?_⟩
  · show 2 < p256.n
    decide +kernel
  · show ((Curve.scalarMult p256.p p256.g [2]).1, (Curve.scalarMult p256.p p256.g [2]).2) =
      Curve.scalarMult p256.p p256.g (toBytes 2)
    rw [show toBytes 2 = [2] by decide]

theorem ecKey_curve : ecKey.pub.curve ≠ SM2P256 := by
  show P256 ≠ SM2P256
  decide

/-- C98: the hypotheses are met; three blocks come out. -/
example : ∃ kd, toPEM toy id ecPfx [0x41] = .ok [
    ⟨"CERTIFICATE", [("localKeyId", hex (List.replicate 20 0x5a))], [7]⟩, ⟨"CERTIFICATE", [], [8]⟩,
    ⟨"PRIVATE KEY", [("localKeyId", hex (List.replicate 20 0x5a))], kd⟩] := by
  obtain ⟨r, hr⟩ := ecPfx_eq
  have hm : (marshalECPrivateKey ecKey).isOk = true := by decide +kernel
  cases hkd : marshalECPrivateKey ecKey with
  | ok kd =>
    refine ⟨kd, C98_encode_toPEM toy id _ _ _ _ _ _ _ kd hr (by rw [ecPfx_length]; decide) ?_
      (Or.inr ⟨ecKey, rfl, ecKey_curve, hkd⟩)⟩
    obtain ⟨kb, hkb, hp⟩ := C53_pkcs8_ecdsa_roundtrip id ecKey ecKey_pair ecKey_curve []
    rw [List.append_nil] at hp
    intro kb' hkb'
    have he : kb = kb' := Res.ok.inj (hkb.symm.trans hkb')
    rw [← he]
    exact hp
  | err e => rw [hkd] at hm; cases hm
  | panic => rw [hkd] at hm; cases hm

end MCrypto.Props.P12Ex
