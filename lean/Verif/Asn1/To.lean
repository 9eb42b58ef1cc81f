import Verif.Asn1.Lemmas
/-
`c.To v v'`: what `Marshal` writes for `v`, `Unmarshal` reads as `v'` (for contents shorter than 2^31
bytes, the limit of the parser). `v'` differs from `v` where Go normalises: RawValue fields, BIT STRING
lengths.
-/
namespace MCrypto.Asn1
open MCrypto

def Codec.To {α : Type} (c : Codec α) (v v' : α) : Prop :=
  ∀ body full, c.enc v = some body → body.length < 2 ^ 31 → c.dec body full = some v'

theorem Codec.LawAt.to {α : Type} {c : Codec α} {v : α} (h : c.LawAt v) : c.To v v :=
  fun body full he _ => h body full he

theorem octets_to (b : Bytes) : octets.To b b := Codec.LawAt.to (octets_law b)
theorem bigInt_to (n : Int) : bigInt.To n n := Codec.LawAt.to (bigInt_law n)
theorem goInt_to (n : Int) (h1 : -(2 ^ 63 : Int) ≤ n) (h2 : n < 2 ^ 63) : goInt.To n n :=
  Codec.LawAt.to (goInt_law n h1 h2)
theorem bool_to (b : Bool) : bool.To b b := Codec.LawAt.to (bool_law b)
theorem oid_to {o : Oid} (h : OidOk o) : oid.To o o := Codec.LawAt.to (oid_law h)
theorem bits_to (b : Bytes) (n : Nat) (h : n % 8 = 0) : bits.To ⟨b, n⟩ ⟨b, b.length * 8⟩ := by
  intro body full he _
  simp only [bits, Option.some.injEq] at he ⊢
  subst he
  exact decBits_encBits b n h

/-- The octets a field that is not left out marshals to. -/
theorem marshalField_some {α : Type} [DecidableEq α] (c : Codec α) (p : Params α) (v : α) (e : Bytes)
    (hm : marshalField c p v = some e) (hp : p.opt ≠ some v) :
    ∃ body, c.enc v = some body ∧ body.length < e.length := by
  unfold marshalField at hm
  rw [if_neg hp] at hm
  match hb : c.enc v with
  | none => rw [hb] at hm; cases hm
  | some body =>
    rw [hb] at hm
    refine ⟨body, rfl, ?_⟩
    simp only [] at hm
    split at hm
    · injection hm with hm; subst hm; exact encTLV_length_lt _ _ _ _
    · split at hm
      · injection hm with hm; subst hm
        exact Nat.lt_trans (encTLV_length_lt _ _ _ _) (encTLV_length_lt _ _ _ _)
      · injection hm with hm; subst hm; exact encTLV_length_lt _ _ _ _

theorem parseField_to {α : Type} [DecidableEq α] {c : Codec α} {p : Params α} {v v' : α} {e : Bytes} (rest : Bytes)
    (hto : c.To v v') (hm : marshalField c p v = some e) (hp : p.opt ≠ some v)
    (hlen : e.length < 2 ^ 31) (hct : c.tag ≤ 2147483647) (hpt : ∀ n, p.tag = some n → n ≤ 2147483647)
    (hex : p.explicit = true → p.tag ≠ none) :
    parseField c p (e ++ rest) = some (v', rest) := by
  obtain ⟨body, hb, hbl⟩ := marshalField_some c p v e hm hp
  unfold marshalField at hm
  rw [if_neg hp] at hm
  rw [hb] at hm
  simp only [] at hm
  have hdec : ∀ full, c.dec body full = some v' := fun full => hto body full hb (by omega)
  have hset : (if p.set then 17 else c.tag) ≤ 2147483647 := by split <;> omega
  match hpt' : p.tag with
  | none =>
    have hexF : p.explicit = false := by
      by_contra hc
      exact hex (by simpa using hc) hpt'
    rw [hpt'] at hm
    simp only [Option.some.injEq] at hm
    subst hm
    unfold parseField
    rw [if_neg (by intro h; exact encTLV_ne_nil _ _ _ _ (List.append_eq_nil_iff.mp h).1),
      parseHdr_encTLV _ _ _ _ _ (by decide) hset (by omega)]
    simp only [hexF, Bool.false_eq_true, if_false]
    refine parseBody_body c p _ _ body rest v' ?_ ?_ rfl rfl hdec
    · simp [expCls, hexF, hpt']
    · simp [expTag, hexF, hpt']
  | some n =>
    have hn := hpt n hpt'
    rw [hpt'] at hm
    simp only [] at hm
    cases hexp : p.explicit with
    | false =>
      rw [hexp] at hm
      simp only [Bool.false_eq_true, if_false, Option.some.injEq] at hm
      subst hm
      unfold parseField
      rw [if_neg (by intro h; exact encTLV_ne_nil _ _ _ _ (List.append_eq_nil_iff.mp h).1),
        parseHdr_encTLV _ _ _ _ _ (by decide) hn (by omega)]
      simp only [hexp, Bool.false_eq_true, if_false]
      refine parseBody_body c p _ _ body rest v' ?_ ?_ rfl rfl hdec
      · simp [expCls, hexp, hpt']
      · simp [expTag, hexp, hpt']
    | true =>
      rw [hexp] at hm
      simp only [if_true, Option.some.injEq] at hm
      subst hm
      have hbl1 := encTLV_length_lt 0 c.compound (if p.set then 17 else c.tag) body
      have hbl2 := encTLV_length_lt 2 true n (encTLV 0 c.compound (if p.set then 17 else c.tag) body)
      have hne := encTLV_ne_nil 0 c.compound (if p.set then 17 else c.tag) body
      unfold parseField
      rw [if_neg (by intro h; exact encTLV_ne_nil _ _ _ _ (List.append_eq_nil_iff.mp h).1),
        parseHdr_encTLV _ _ _ _ _ (by decide) hn (by omega)]
      simp only [hexp, if_true]
      rw [if_neg (by intro h; exact hne (List.append_eq_nil_iff.mp h).1),
        if_pos ⟨trivial, hpt'.symm, Or.inr trivial⟩,
        if_neg (by omega), parseHdr_encTLV _ _ _ _ _ (by decide) hset (by omega)]
      refine parseBody_body c p _ _ body rest v' ?_ ?_ rfl rfl hdec
      · simp [expCls, hexp]
      · simp [expTag, hexp]

/-- The common case: a plain field. -/
theorem parseField_plain {α : Type} [DecidableEq α] {c : Codec α} {v v' : α} {e : Bytes} (rest : Bytes)
    (hto : c.To v v') (hm : marshalField c {} v = some e) (hlen : e.length < 2 ^ 31)
    (hct : c.tag ≤ 2147483647 := by decide) : parseField c {} (e ++ rest) = some (v', rest) :=
  parseField_to rest hto hm (by simp) hlen hct (by simp) (by simp)

/-- A plain field at the end. -/
theorem parseField_last {α : Type} [DecidableEq α] {c : Codec α} {v v' : α} {e : Bytes}
    (hto : c.To v v') (hm : marshalField c {} v = some e) (hlen : e.length < 2 ^ 31)
    (hct : c.tag ≤ 2147483647 := by decide) : parseField c {} e = some (v', []) := by
  have := parseField_plain [] hto hm hlen hct
  rwa [List.append_nil] at this

theorem unmarshal_to {α : Type} [DecidableEq α] {c : Codec α} {v v' : α} {e : Bytes} (rest : Bytes)
    (hto : c.To v v') (hm : marshal c v = some e) (hlen : e.length < 2 ^ 31) (hct : c.tag ≤ 2147483647) :
    unmarshal c (e ++ rest) = some (v', rest) := parseField_plain rest hto hm hlen hct

/-! ### Optional fields -/

/-- The next element cannot be taken for the field `p` (or there is none). -/
def Skips {α : Type} (c : Codec α) (p : Params α) (rest : Bytes) : Prop :=
  rest = [] ∨ ∃ cls comp tag body r, rest = encTLV cls comp tag body ++ r ∧ cls < 4 ∧ tag ≤ 2147483647 ∧
    body.length < 2 ^ 31 ∧ (if p.explicit then (cls ≠ 2 ∨ some tag ≠ p.tag) ∧ body ≠ []
      else ¬ (cls = expCls p ∧ tag = expTag c p))

theorem parseField_skips {α : Type} {c : Codec α} {p : Params α} {d : α} (hd : p.opt = some d) {rest : Bytes}
    (h : Skips c p rest) : parseField c p rest = some (d, rest) := by
  rcases h with rfl | ⟨cls, comp, tag, body, r, rfl, h1, h2, h3, h4⟩
  · exact parseField_nil c p d hd
  · refine parseField_skip c p d hd cls comp tag body r h1 h2 h3 ?_
    cases hexp : p.explicit with
    | true =>
      rw [hexp] at h4
      simp only [if_true] at h4 ⊢
      exact ⟨h4.1, fun hh => h4.2 (List.append_eq_nil_iff.mp hh).1⟩
    | false => rw [hexp] at h4; simpa using h4

theorem parseField_opt {α : Type} [DecidableEq α] {c : Codec α} {p : Params α} {v v' d : α} {e : Bytes} (rest : Bytes)
    (hd : p.opt = some d) (hto : v ≠ d → c.To v v') (hv : v = d → v' = d) (hm : marshalField c p v = some e)
    (hskip : v = d → Skips c p rest) (hlen : e.length < 2 ^ 31)
    (hct : c.tag ≤ 2147483647 := by decide) (hpt : ∀ n, p.tag = some n → n ≤ 2147483647 := by simp)
    (hex : p.explicit = true → p.tag ≠ none := by simp) :
    parseField c p (e ++ rest) = some (v', rest) := by
  by_cases h : v = d
  · rw [marshalField_absent c p v (by rw [hd, h])] at hm
    injection hm with hm
    subst hm
    rw [List.nil_append, parseField_skips hd (hskip h), hv h]
  · exact parseField_to rest (hto h) hm (by rw [hd]; intro hh; injection hh with hh; exact h hh.symm) hlen hct hpt hex

/-- A field that is not left out starts with its own tag. -/
theorem marshalField_head {α : Type} [DecidableEq α] {c : Codec α} {p : Params α} {v : α} {e : Bytes}
    (hm : marshalField c p v = some e) (hp : p.opt ≠ some v) :
    ∃ comp body, e = encTLV (if p.tag.isSome then 2 else 0) comp (p.tag.getD (if p.set then 17 else c.tag)) body ∧
      body.length < e.length ∧ (p.explicit = true → p.tag ≠ none → body ≠ []) := by
  unfold marshalField at hm
  rw [if_neg hp] at hm
  match hb : c.enc v with
  | none => rw [hb] at hm; cases hm
  | some body =>
    rw [hb] at hm
    simp only [] at hm
    match ht : p.tag with
    | none =>
      rw [ht] at hm
      simp only [Option.some.injEq] at hm
      subst hm
      exact ⟨_, body, rfl, encTLV_length_lt _ _ _ _, fun _ h => absurd rfl h⟩
    | some n =>
      rw [ht] at hm
      cases hx : p.explicit with
      | true =>
        rw [hx] at hm
        simp only [if_true, Option.some.injEq] at hm
        subst hm
        exact ⟨_, _, rfl, encTLV_length_lt _ _ _ _, fun _ _ => encTLV_ne_nil _ _ _ _⟩
      | false =>
        rw [hx] at hm
        simp only [Bool.false_eq_true, if_false, Option.some.injEq] at hm
        subst hm
        exact ⟨_, body, rfl, encTLV_length_lt _ _ _ _, fun h => by cases h⟩

/-- An optional field is skipped in front of a marshalled field with another tag. -/
theorem skips_field {α β : Type} [DecidableEq β] {c : Codec α} {p : Params α} {c' : Codec β} {p' : Params β} {w : β}
    {e : Bytes} (r : Bytes) (hm : marshalField c' p' w = some e)
    (hp : p'.opt ≠ some w) (hlen : e.length < 2 ^ 31) (htag : p'.tag.getD (if p'.set then 17 else c'.tag) ≤ 2147483647)
    (h : if p.explicit then ((if p'.tag.isSome then 2 else 0) ≠ 2 ∨
        some (p'.tag.getD (if p'.set then 17 else c'.tag)) ≠ p.tag) ∧ p'.explicit = true ∧ p'.tag ≠ none
      else ¬ ((if p'.tag.isSome then 2 else 0) = expCls p ∧
        p'.tag.getD (if p'.set then 17 else c'.tag) = expTag c p)) : Skips c p (e ++ r) := by
  obtain ⟨comp, body, rfl, hl, hne⟩ := marshalField_head hm hp
  refine Or.inr ⟨_, comp, _, body, r, rfl, by split <;> omega, htag, by omega, ?_⟩
  cases hx : p.explicit with
  | true =>
    rw [hx] at h
    simp only [if_true] at h ⊢
    exact ⟨h.1, hne h.2.1 h.2.2⟩
  | false => rw [hx] at h; simpa using h

/-- The same, followed by an optional field that may be missing as well. -/
theorem skips_opt {α β : Type} [DecidableEq β] {c : Codec α} {p : Params α} {c' : Codec β} {p' : Params β} {w : β}
    {e : Bytes} (r : Bytes) (hm : marshalField c' p' w = some e)
    (hlen : e.length < 2 ^ 31) (htag : p'.tag.getD (if p'.set then 17 else c'.tag) ≤ 2147483647)
    (h : if p.explicit then ((if p'.tag.isSome then 2 else 0) ≠ 2 ∨
        some (p'.tag.getD (if p'.set then 17 else c'.tag)) ≠ p.tag) ∧ p'.explicit = true ∧ p'.tag ≠ none
      else ¬ ((if p'.tag.isSome then 2 else 0) = expCls p ∧
        p'.tag.getD (if p'.set then 17 else c'.tag) = expTag c p)) (hr : Skips c p r) : Skips c p (e ++ r) := by
  by_cases hp : p'.opt = some w
  · rw [marshalField_absent c' p' w hp] at hm
    injection hm with hm
    subst hm
    exact hr
  · exact skips_field r hm hp hlen htag h

theorem skips_nil {α : Type} (c : Codec α) (p : Params α) : Skips c p [] := Or.inl rfl

/-! ### RawValue fields -/

/-- The RawValue marshals to the element with these parts. -/
def RawIs (p : Params RawValue) (v : RawValue) (cls : Nat) (comp : Bool) (tag : Nat) (body : Bytes) : Prop :=
  marshalRaw p v = some (encTLV cls comp tag body)

theorem parseRaw_to {p : Params RawValue} {v : RawValue} {cls : Nat} {comp : Bool} {tag : Nat} {body e : Bytes}
    (rest : Bytes) (hr : RawIs p v cls comp tag body) (hm : marshalRaw p v = some e) (hlen : e.length < 2 ^ 31)
    (hc : cls < 4) (ht : tag ≤ 2147483647)
    (h : if p.explicit then cls = 2 ∧ some tag = p.tag ∧ comp = true ∧ body ≠ []
      else p.tag = none ∨ (cls = 2 ∧ some tag = p.tag)) :
    parseRaw p (e ++ rest) = some (rawOf cls comp tag body, rest) := by
  have : e = encTLV cls comp tag body := by
    have := hr.symm.trans hm
    injection this with this
    exact this.symm
  subst this
  have hl := encTLV_length_lt cls comp tag body
  refine parseRaw_encTLV p cls comp tag body rest hc ht (by omega) ?_
  split
  · rename_i hx
    rw [if_pos hx] at h
    exact ⟨h.1, h.2.1, h.2.2.1, fun hh => h.2.2.2 (List.append_eq_nil_iff.mp hh).1⟩
  · rename_i hx
    rw [if_neg hx] at h
    exact h

theorem RawIs.full {p : Params RawValue} {e : Bytes} {cls : Nat} {comp : Bool} {tag : Nat} {body : Bytes}
    (he : e = encTLV cls comp tag body) : RawIs p { full := e } cls comp tag body ∨ p.opt = some { full := e } := by
  subst he
  by_cases h : p.opt = some { full := encTLV cls comp tag body }
  · exact Or.inr h
  · exact Or.inl (marshalRaw_full p _ (encTLV_ne_nil _ _ _ _) h)

/-- A RawValue given by its parts. -/
theorem RawIs.parts {p : Params RawValue} (cls : Nat) (tag : Nat) (comp : Bool) (body : Bytes)
    (h : p.opt ≠ some ⟨cls, tag, comp, body, []⟩) : RawIs p ⟨cls, tag, comp, body, []⟩ cls comp tag body :=
  marshalRaw_parts p _ rfl h

/-! ### AlgorithmIdentifier -/

theorem algId_to_none {o : Oid} (ho : OidOk o) : algId.To ⟨o, {}⟩ ⟨o, {}⟩ := by
  intro body full h hl
  simp only [algId, Option.pure_def, Option.bind_eq_bind, Option.bind_eq_some_iff] at h ⊢
  obtain ⟨e1, h1, e2, h2, hb⟩ := h
  injection hb with hb
  subst hb
  rw [List.length_append] at hl
  have : e2 = [] := by
    unfold marshalRaw at h2; rw [if_pos rfl] at h2; injection h2 with h2; exact h2.symm
  subst this
  exact ⟨_, parseField_plain [] (oid_to ho) h1 (by omega), ({}, []), parseRaw_nil _ _ rfl, rfl⟩

theorem algId_to {o : Oid} (ho : OidOk o) {p : RawValue} {cls : Nat} {comp : Bool} {tag : Nat} {pb : Bytes}
    (hp : RawIs { opt := some {} } p cls comp tag pb) (hc : cls < 4) (ht : tag ≤ 2147483647) :
    algId.To ⟨o, p⟩ ⟨o, rawOf cls comp tag pb⟩ := by
  intro body full h hl
  simp only [algId, Option.pure_def, Option.bind_eq_bind, Option.bind_eq_some_iff] at h ⊢
  obtain ⟨e1, h1, e2, h2, hb⟩ := h
  injection hb with hb
  subst hb
  rw [List.length_append] at hl
  refine ⟨_, parseField_plain e2 (oid_to ho) h1 (by omega), (rawOf cls comp tag pb, []), ?_, rfl⟩
  have := parseRaw_to [] hp h2 (by omega) hc ht (by rw [if_neg (by simp)]; exact Or.inl rfl)
  rwa [List.append_nil] at this

theorem algId_enc {o : Oid} (ho : OidOk o) (p : RawValue) : ∃ b, algId.enc ⟨o, p⟩ = some b := by
  obtain ⟨e, he⟩ := encOid_ok ho
  have h2 : ∃ b, marshalRaw { opt := some {} } p = some b := by
    unfold marshalRaw
    split
    · exact ⟨_, rfl⟩
    · split <;> exact ⟨_, rfl⟩
  obtain ⟨b, hb⟩ := h2
  refine ⟨encTLV 0 false 6 e ++ b, ?_⟩
  have h1 : marshalField oid {} o = some (encTLV 0 false 6 e) := by
    unfold marshalField
    rw [if_neg (by simp)]
    show (match encOid o with | none => none | some body => _) = _
    rw [he]; rfl
  simp only [algId, h1, hb, Option.bind_eq_bind, Option.bind_some, Option.pure_def]

/-! ### Slices -/

theorem parseElems_to {α : Type} (pf : Bytes → Option (α × Bytes)) (mf : α → Option Bytes) (l l' : List α)
    (es : List Bytes) (h : marshalElems mf l = some es)
    (hrt : List.Forall₂ (fun v v' => ∀ e rest, mf v = some e → pf (e ++ rest) = some (v', rest)) l l') :
    parseElems pf l.length es.flatten = some l' := by
  induction hrt generalizing es with
  | nil => rfl
  | cons hv _ ih =>
    obtain ⟨e, es', h1, h2, rfl⟩ := marshalElems_cons _ _ _ _ h
    rw [List.length_cons, parseElems, List.flatten_cons, hv e _ h1]
    simp only [ih es' h2]

theorem forall₂_mem {α β : Type} {R : α → β → Prop} {S : α → β → Prop} {l : List α} {l' : List β}
    (h : List.Forall₂ R l l') (hs : ∀ a ∈ l, ∀ b, R a b → S a b) : List.Forall₂ S l l' := by
  induction h with
  | nil => exact .nil
  | cons hab _ ih => exact .cons (hs _ (by simp) _ hab) (ih fun a ha b => hs a (by simp [ha]) b)

theorem parseSeqOf_to {α : Type} [DecidableEq α] (c : Codec α) (hct : c.tag ≤ 2147483647) (l l' : List α)
    (hto : List.Forall₂ c.To l l') (es : List Bytes) (h : marshalElems (marshalField c {}) l = some es)
    (hlen : es.flatten.length < 2 ^ 31) :
    parseSeqOf (fun t => decide (t.cls = 0 ∧ t.tag = c.tag ∧ t.compound = c.compound)) (parseField c {})
      es.flatten = some l' := by
  have hels : ∃ els : List (Nat × Bool × Nat × Bytes), es = els.map (fun x => encTLV x.1 x.2.1 x.2.2.1 x.2.2.2) ∧
      ∀ x ∈ els, x.1 = 0 ∧ x.2.1 = c.compound ∧ x.2.2.1 = c.tag := by
    clear hto hlen
    induction l generalizing es with
    | nil => simp [marshalElems] at h; subst h; exact ⟨[], rfl, by simp⟩
    | cons w l ih =>
      obtain ⟨e1, es', h1, h2, rfl⟩ := marshalElems_cons _ w l es h
      obtain ⟨els, rfl, hx⟩ := ih es' h2
      obtain ⟨body, _, rfl⟩ := marshal_tlv c w e1 h1
      refine ⟨(0, c.compound, c.tag, body) :: els, rfl, ?_⟩
      intro x hx'
      rcases List.mem_cons.mp hx' with rfl | hx'
      · exact ⟨rfl, rfl, rfl⟩
      · exact hx x hx'
  obtain ⟨els, rfl, hx⟩ := hels
  have hfl : (els.map (fun x => encTLV x.1 x.2.1 x.2.2.1 x.2.2.2)).flatten =
      els.flatMap (fun x => encTLV x.1 x.2.1 x.2.2.1 x.2.2.2) := by rw [List.flatMap_def]
  unfold parseSeqOf
  rw [hfl, checkElems_tlvs _ els _ _ (Nat.le_refl _), ← hfl]
  · simp only []
    have hl := marshalElems_length _ _ _ h
    rw [List.length_map] at hl
    rw [hl]
    refine parseElems_to _ (marshalField c {}) l l' _ h (forall₂_mem hto ?_)
    intro v hv v' hvv e rest he
    obtain ⟨e', he', hm⟩ := marshalElems_mem _ _ _ h v hv
    rw [hm] at he; injection he with he; subst he
    have := flatten_mem_length he'
    exact parseField_plain rest hvv hm (by omega) hct
  · intro x hx'
    obtain ⟨h1, h2, h3⟩ := hx x hx'
    have hm : encTLV x.1 x.2.1 x.2.2.1 x.2.2.2 ∈ els.map (fun x => encTLV x.1 x.2.1 x.2.2.1 x.2.2.2) :=
      List.mem_map.mpr ⟨x, hx', rfl⟩
    have a1 := flatten_mem_length hm
    have a2 := encTLV_length_lt x.1 x.2.1 x.2.2.1 x.2.2.2
    refine ⟨by omega, by omega, by omega, by simp [h1, h2, h3]⟩

theorem seqOf_to {α : Type} [DecidableEq α] (c : Codec α) (hct : c.tag ≤ 2147483647) (l l' : List α)
    (hto : List.Forall₂ c.To l l') : (seqOf c).To l l' := by
  intro body full h hb
  simp only [seqOf] at h ⊢
  match hm : marshalElems (marshalField c {}) l with
  | none => rw [hm] at h; cases h
  | some es =>
    rw [hm] at h
    simp only [Option.map_some, Option.some.injEq] at h
    subst h
    exact parseSeqOf_to c hct l l' hto es hm hb

theorem marshalElems_some {α : Type} (mf : α → Option Bytes) (l : List α) (h : ∀ v ∈ l, ∃ e, mf v = some e) :
    ∃ es, marshalElems mf l = some es := by
  induction l with
  | nil => exact ⟨[], rfl⟩
  | cons v l ih =>
    obtain ⟨e, he⟩ := h v (by simp)
    obtain ⟨es, hes⟩ := ih fun w hw => h w (by simp [hw])
    exact ⟨e :: es, by rw [marshalElems, he, hes]⟩

/-! ### Lengths and trailing data -/

/-- A marshalled field is at most twelve octets longer than its contents. -/
theorem marshalField_length {α : Type} [DecidableEq α] {c : Codec α} {p : Params α} {v : α} {e body : Bytes}
    (hm : marshalField c p v = some e) (hb : c.enc v = some body) (hl : body.length + 6 < 2 ^ 31)
    (ht : c.tag < 31) (hpt : ∀ n, p.tag = some n → n < 31) : e.length ≤ body.length + 12 := by
  unfold marshalField at hm
  split at hm
  · injection hm with hm; subst hm; simp
  · rw [hb] at hm
    simp only [] at hm
    have hs : (if p.set then 17 else c.tag) < 31 := by split <;> omega
    have h1 := encTLV_length_le 0 c.compound (if p.set then 17 else c.tag) body hs (by omega)
    match hpt' : p.tag with
    | none =>
      rw [hpt'] at hm
      simp only [Option.some.injEq] at hm
      subst hm; omega
    | some n =>
      rw [hpt'] at hm
      have hn := hpt n hpt'
      simp only [] at hm
      split at hm
      · injection hm with hm; subst hm
        have := encTLV_length_le 2 true n (encTLV 0 c.compound (if p.set then 17 else c.tag) body) hn (by omega)
        omega
      · injection hm with hm; subst hm
        have := encTLV_length_le 2 c.compound n body hn (by omega)
        omega

/-- A field can be marshalled when its contents can. -/
theorem marshalField_isSome {α : Type} [DecidableEq α] (c : Codec α) (p : Params α) (v : α)
    (h : ∃ b, c.enc v = some b) : ∃ e, marshalField c p v = some e := by
  obtain ⟨b, hb⟩ := h
  unfold marshalField
  rw [hb]
  simp only []
  split
  · exact ⟨_, rfl⟩
  · split
    · exact ⟨_, rfl⟩
    · split <;> exact ⟨_, rfl⟩

theorem parse128_append (sh acc : Nat) (b s : Bytes) {v : Nat} {r : Bytes} (h : parse128 sh acc b = some (v, r)) :
    parse128 sh acc (b ++ s) = some (v, r ++ s) := by
  induction b generalizing sh acc with
  | nil => cases h
  | cons x b ih =>
    rw [List.cons_append]
    rw [parse128] at h ⊢
    split at h
    · cases h
    · split at h
      · cases h
      · rename_i h1 h2
        rw [if_neg h1, if_neg h2]
        simp only [] at h ⊢
        split at h
        · rename_i h3
          rw [if_pos h3]
          split at h
          · cases h
          · rename_i h4
            rw [if_neg h4]
            injection h with h; injection h with ha hb
            subst ha; subst hb; rfl
        · rename_i h3
          rw [if_neg h3]
          exact ih _ _ h

theorem parseLen_append (n acc : Nat) (b s : Bytes) {v : Nat} {r : Bytes} (h : parseLen n acc b = some (v, r)) :
    parseLen n acc (b ++ s) = some (v, r ++ s) := by
  induction n generalizing b acc with
  | zero =>
    rw [parseLen] at h ⊢
    injection h with h; injection h with ha hb
    subst ha; subst hb; rfl
  | succ n ih =>
    cases b with
    | nil => cases h
    | cons x b =>
      rw [List.cons_append]
      rw [parseLen] at h ⊢
      split at h
      · cases h
      · rename_i h1
        rw [if_neg h1]
        simp only [] at h ⊢
        split at h
        · cases h
        · rename_i h2
          rw [if_neg h2]
          exact ih _ _ h

theorem parseHdr_append (b s : Bytes) {t : Hdr} {r : Bytes} (h : parseHdr b = some (t, r)) :
    parseHdr (b ++ s) = some (t, r ++ s) := by
  cases b with
  | nil => cases h
  | cons x b =>
    rw [List.cons_append]
    unfold parseHdr at h ⊢
    simp only [] at h ⊢
    match h1 : parseTagNo x b with
    | none => rw [h1] at h; cases h
    | some (tag, r1) =>
      have h1' : parseTagNo x (b ++ s) = some (tag, r1 ++ s) := by
        unfold parseTagNo at h1 ⊢
        split at h1
        · rename_i hx
          rw [if_pos hx]
          match h2 : parse128 0 0 b with
          | none => rw [h2] at h1; cases h1
          | some (t, r') =>
            rw [h2] at h1
            rw [parse128_append 0 0 b s h2]
            simp only [] at h1 ⊢
            split at h1
            · cases h1
            · rename_i hx'
              rw [if_neg hx']
              injection h1 with h1; injection h1 with ha hb
              subst ha; subst hb; rfl
        · rename_i hx
          rw [if_neg hx]
          injection h1 with h1; injection h1 with ha hb
          subst ha; subst hb; rfl
      rw [h1] at h
      rw [h1']
      simp only [] at h ⊢
      match h2 : parseLength r1 with
      | none => rw [h2] at h; cases h
      | some (len, r2) =>
        have h2' : parseLength (r1 ++ s) = some (len, r2 ++ s) := by
          cases r1 with
          | nil => cases h2
          | cons y r1 =>
            rw [List.cons_append]
            unfold parseLength at h2 ⊢
            simp only [] at h2 ⊢
            split at h2
            · rename_i hy
              rw [if_pos hy]
              injection h2 with h2; injection h2 with ha hb
              subst ha; subst hb; rfl
            · split at h2
              · cases h2
              · rename_i hy hy'
                rw [if_neg hy, if_neg hy']
                generalize y.toNat - 128 = n at h2 ⊢
                match h3 : parseLen n 0 r1 with
                | none => rw [h3] at h2; cases h2
                | some (l, r') =>
                  rw [h3] at h2
                  rw [parseLen_append _ _ r1 s h3]
                  simp only [] at h2 ⊢
                  split at h2
                  · cases h2
                  · rename_i hx
                    rw [if_neg hx]
                    injection h2 with h2; injection h2 with ha hb
                    subst ha; subst hb; rfl
        rw [h2] at h
        rw [h2']
        simp only [] at h ⊢
        injection h with h; injection h with ha hb
        subst ha; subst hb; rfl

theorem parse128_length (sh acc : Nat) (b : Bytes) {v : Nat} {r : Bytes} (h : parse128 sh acc b = some (v, r)) :
    r.length ≤ b.length := by
  induction b generalizing sh acc with
  | nil => cases h
  | cons x b ih =>
    rw [parse128] at h
    split at h
    · cases h
    · split at h
      · cases h
      · simp only [] at h
        split at h
        · split at h
          · cases h
          · injection h with h; injection h with ha hb
            subst hb; simp
        · have := ih _ _ h; simp; omega

theorem parseLen_length (n acc : Nat) (b : Bytes) {v : Nat} {r : Bytes} (h : parseLen n acc b = some (v, r)) :
    r.length ≤ b.length := by
  induction n generalizing b acc with
  | zero =>
    rw [parseLen] at h
    injection h with h; injection h with ha hb
    subst hb; simp
  | succ n ih =>
    cases b with
    | nil => cases h
    | cons x b =>
      rw [parseLen] at h
      split at h
      · cases h
      · simp only [] at h
        split at h
        · cases h
        · have := ih _ _ h; simp; omega

theorem parseHdr_length (b : Bytes) {t : Hdr} {r : Bytes} (h : parseHdr b = some (t, r)) :
    r.length < b.length := by
  cases b with
  | nil => cases h
  | cons x b =>
    unfold parseHdr at h
    simp only [] at h
    match h1 : parseTagNo x b with
    | none => rw [h1] at h; cases h
    | some (tag, r1) =>
      have h1' : r1.length ≤ b.length := by
        unfold parseTagNo at h1
        split at h1
        · match h2 : parse128 0 0 b with
          | none => rw [h2] at h1; cases h1
          | some (t, r') =>
            rw [h2] at h1
            simp only [] at h1
            split at h1
            · cases h1
            · injection h1 with h1; injection h1 with ha hb
              subst hb; exact parse128_length _ _ _ h2
        · injection h1 with h1; injection h1 with ha hb
          subst hb; exact Nat.le_refl _
      rw [h1] at h
      simp only [] at h
      match h2 : parseLength r1 with
      | none => rw [h2] at h; cases h
      | some (len, r2) =>
        have h2' : r2.length ≤ r1.length := by
          cases r1 with
          | nil => cases h2
          | cons y r1 =>
            unfold parseLength at h2
            simp only [] at h2
            split at h2
            · injection h2 with h2; injection h2 with ha hb
              subst hb; simp
            · split at h2
              · cases h2
              · generalize y.toNat - 128 = n at h2
                match h3 : parseLen n 0 r1 with
                | none => rw [h3] at h2; cases h2
                | some (l, r') =>
                  rw [h3] at h2
                  simp only [] at h2
                  split at h2
                  · cases h2
                  · injection h2 with h2; injection h2 with ha hb
                    subst hb
                    have := parseLen_length _ _ _ h3
                    simp; omega
        rw [h2] at h
        simp only [] at h
        injection h with h; injection h with ha hb
        subst hb
        simp; omega

/-- `Unmarshal` looks at the first element only: bytes behind it are returned as trailing data. -/
theorem unmarshal_append {α : Type} (c : Codec α) (b s : Bytes) {v : α} {r : Bytes}
    (h : unmarshal c b = some (v, r)) : unmarshal c (b ++ s) = some (v, r ++ s) := by
  unfold unmarshal parseField at h ⊢
  split at h
  · cases h
  · rename_i hb
    rw [if_neg (by intro hh; exact hb (List.append_eq_nil_iff.mp hh).1)]
    match h1 : parseHdr b with
    | none => rw [h1] at h; cases h
    | some (t, r1) =>
      rw [h1] at h
      have hlen := parseHdr_length b h1
      rw [parseHdr_append b s h1]
      simp only [Bool.false_eq_true, if_false] at h ⊢
      unfold parseBody at h ⊢
      simp only [] at h ⊢
      by_cases hc : ¬ (t.cls = 0 ∧ t.tag = c.tag) ∨ t.compound ≠ c.compound
      · replace h := (if_pos hc).symm.trans h
        cases h
      · replace h := (if_neg hc).symm.trans h
        refine (if_neg hc).trans ?_
        by_cases h3 : r1.length < t.len
        · rw [if_pos h3] at h; cases h
        · rw [if_neg h3] at h
          rw [if_neg (by rw [List.length_append]; omega)]
          have e1 : (b ++ s).take ((b ++ s).length - ((r1 ++ s).length - t.len)) =
              b.take (b.length - (r1.length - t.len)) := by
            simp only [List.length_append]
            rw [List.take_append_of_le_length (by omega)]
            congr 1; omega
          have e2 : (r1 ++ s).take t.len = r1.take t.len := List.take_append_of_le_length (by omega)
          have e3 : (r1 ++ s).drop t.len = r1.drop t.len ++ s := List.drop_append_of_le_length (by omega)
          rw [e1, e2, e3]
          split at h
          · injection h with h; injection h with ha hb
            subst ha; subst hb; rfl
          · cases h

end MCrypto.Asn1
