import Verif.Asn1.SeqInv
/-
What `parseField` accepts for fields that are optional or carry a tag.
-/
namespace MCrypto.Asn1
open MCrypto

/-- The input is at its end, or begins with an element header for which `P` holds (class, constructed, tag number). -/
def HdrIf (P : Nat → Bool → Nat → Prop) (b : Bytes) : Prop :=
  b = [] ∨ ∃ cls comp tag len s, b = encHdr cls comp tag len ++ s ∧ cls < 4 ∧ tag ≤ 2147483647 ∧ len < 2 ^ 31 ∧
    P cls comp tag

theorem absent_iff {α : Type} (p : Params α) (b : Bytes) (v : α) (r : Bytes) :
    absent p b = some (v, r) ↔ p.opt = some v ∧ r = b := by
  unfold absent
  cases p.opt with
  | none => simp
  | some d => simp [eq_comm]

theorem parseBody_iff {α : Type} (c : Codec α) (p : Params α) (pre : Bytes) (ecls etag : Nat)
    (he : ecls = if (if p.explicit then none else p.tag).isSome then 2 else 0)
    (ht : etag = (if p.explicit then none else p.tag).getD (if p.set then 17 else c.tag))
    (cls : Nat) (comp : Bool) (tag len : Nat) (s : Bytes) (v : α) (r : Bytes) :
    parseBody c p (pre ++ (encHdr cls comp tag len ++ s)) ⟨cls, comp, tag, len⟩ s = some (v, r) ↔
      (∃ body, encHdr cls comp tag len ++ s = encTLV ecls c.compound etag body ++ r ∧ body.length = len ∧
        cls = ecls ∧ comp = c.compound ∧ tag = etag ∧ s = body ++ r ∧
        c.dec body (pre ++ encTLV ecls c.compound etag body) = some v) ∨
      (p.opt = some v ∧ r = pre ++ (encHdr cls comp tag len ++ s) ∧ ¬ (cls = ecls ∧ comp = c.compound ∧ tag = etag)) := by
  unfold parseBody
  simp only []
  rw [← he, ← ht]
  by_cases hm : cls = ecls ∧ comp = c.compound ∧ tag = etag
  · obtain ⟨h1, h2, h3⟩ := hm
    rw [if_neg (by simp [h1, h2, h3])]
    constructor
    · intro h
      split at h
      · cases h
      rename_i hlen
      cases hd : c.dec (s.take len) ((pre ++ (encHdr cls comp tag len ++ s)).take
        ((pre ++ (encHdr cls comp tag len ++ s)).length - (s.length - len))) with
      | none => rw [hd] at h; cases h
      | some w =>
        rw [hd] at h
        simp only [Option.some.injEq, Prod.mk.injEq] at h
        obtain ⟨rfl, rfl⟩ := h
        have htl : (s.take len).length = len := by rw [List.length_take]; omega
        have es : s = s.take len ++ s.drop len := (List.take_append_drop _ _).symm
        have e1 : encHdr cls comp tag len ++ s = encTLV ecls c.compound etag (s.take len) ++ s.drop len := by
          unfold encTLV
          rw [htl, ← h1, ← h2, ← h3, List.append_assoc, ← es]
        refine Or.inl ⟨s.take len, e1, htl, h1, h2, h3, es, ?_⟩
        rw [← hd]
        congr 1
        rw [e1, ← List.append_assoc]
        have : (pre ++ encTLV ecls c.compound etag (s.take len) ++ s.drop len).length - (s.length - len) =
            (pre ++ encTLV ecls c.compound etag (s.take len)).length := by
          simp only [List.length_append, List.length_drop]; omega
        rw [this, List.take_left]
    · rintro (⟨body, he1, hl, -, -, -, hs, hd⟩ | ⟨-, -, hn⟩)
      · subst hs
        rw [if_neg (by simp [hl]), he1, ← hl, List.take_left, List.drop_left, ← List.append_assoc]
        have : (pre ++ encTLV ecls c.compound etag body ++ r).length - ((body ++ r).length - body.length) =
            (pre ++ encTLV ecls c.compound etag body).length := by
          simp only [List.length_append]; omega
        rw [this, List.take_left, hd]
      · exact absurd ⟨h1, h2, h3⟩ hn
  · rw [if_pos (by
      by_contra hh
      simp only [not_or, not_not, ne_eq] at hh
      exact hm ⟨hh.1.1, hh.2, hh.1.2⟩), absent_iff]
    constructor
    · rintro ⟨h1, h2⟩; exact Or.inr ⟨h1, h2, hm⟩
    · rintro (⟨_, _, _, h1, h2, h3, _⟩ | ⟨h1, h2, -⟩)
      · exact absurd ⟨h1, h2, h3⟩ hm
      · exact ⟨h1, h2⟩

/-- A field without explicit tag: an element with the expected header, or, for an optional field, nothing. -/
theorem parseField_iff {α : Type} (c : Codec α) (p : Params α) (hx : p.explicit = false) (ecls etag : Nat)
    (he : ecls = if p.tag.isSome then 2 else 0) (ht : etag = p.tag.getD (if p.set then 17 else c.tag))
    (htl : etag ≤ 2147483647) (b : Bytes) (v : α) (r : Bytes) :
    parseField c p b = some (v, r) ↔
      (∃ body, b = encTLV ecls c.compound etag body ++ r ∧ body.length < 2 ^ 31 ∧
        c.dec body (encTLV ecls c.compound etag body) = some v) ∨
      (p.opt = some v ∧ r = b ∧ HdrIf (fun cls comp tag => ¬ (cls = ecls ∧ comp = c.compound ∧ tag = etag)) b) := by
  have hecls : ecls < 4 := by rw [he]; split <;> decide
  constructor
  · intro h
    unfold parseField at h
    split at h
    · rename_i hb
      rw [absent_iff] at h
      exact Or.inr ⟨h.1, h.2, Or.inl hb⟩
    cases hp : parseHdr b with
    | none => rw [hp] at h; cases h
    | some x =>
      obtain ⟨⟨cls, comp, tag, len⟩, s⟩ := x
      rw [hp] at h
      simp only [hx, Bool.false_eq_true, if_false] at h
      obtain ⟨rfl, h1, h2, h3⟩ := (parseHdr_iff _ _ _).mp hp
      simp only [] at h h1 h2 h3
      rcases (parseBody_iff c p [] ecls etag (by simp [hx, he]) (by simp [hx, ht]) cls comp tag len s v r).mp h with
        ⟨body, e1, e2, _, _, _, _, hd⟩ | ⟨ho, hr, hn⟩
      · exact Or.inl ⟨body, e1, by omega, hd⟩
      · exact Or.inr ⟨ho, hr, Or.inr ⟨_, _, _, _, _, rfl, h1, h2, h3, hn⟩⟩
  · rintro (⟨body, rfl, hl, hd⟩ | ⟨ho, rfl, hh⟩)
    · unfold parseField
      rw [if_neg (by intro h; exact encTLV_ne_nil _ _ _ _ (List.append_eq_nil_iff.mp h).1),
        parseHdr_encTLV _ _ _ _ _ hecls htl hl]
      simp only [hx, Bool.false_eq_true, if_false]
      have := (parseBody_iff c p [] ecls etag (by simp [hx, he]) (by simp [hx, ht]) ecls c.compound etag body.length
        (body ++ r) v r).mpr (Or.inl ⟨body, by simp [encTLV], rfl, rfl, rfl, rfl, rfl, hd⟩)
      simpa [encTLV] using this
    · rcases hh with rfl | ⟨cls, comp, tag, len, s, rfl, h1, h2, h3, hn⟩
      · unfold parseField
        rw [if_pos rfl, absent_iff]
        exact ⟨ho, rfl⟩
      · unfold parseField
        rw [if_neg (by intro h; exact encHdr_ne_nil _ _ _ _ (List.append_eq_nil_iff.mp h).1),
          parseHdr_encHdr _ _ _ _ _ h1 h2 h3]
        simp only [hx, Bool.false_eq_true, if_false]
        exact (parseBody_iff c p [] ecls etag (by simp [hx, he]) (by simp [hx, ht]) cls comp tag len s v _).mpr
          (Or.inr ⟨ho, rfl, hn⟩)

/-- A field with explicit tag `n`: a constructed element with that tag and any non-zero length, and in it the element of
the type (the lengths are not compared); or, for an optional field, nothing. -/
theorem parseField_explicit_iff {α : Type} (c : Codec α) (p : Params α) (hx : p.explicit = true) (n : Nat)
    (hn : p.tag = some n) (hnl : n ≤ 2147483647) (hs : p.set = false) (hct : c.tag ≤ 2147483647) (b : Bytes) (v : α)
    (r : Bytes) :
    parseField c p b = some (v, r) ↔
      (∃ len body, b = encHdr 2 true n len ++ (encTLV 0 c.compound c.tag body ++ r) ∧ 0 < len ∧ len < 2 ^ 31 ∧
        body.length < 2 ^ 31 ∧ c.dec body (encHdr 2 true n len ++ encTLV 0 c.compound c.tag body) = some v) ∨
      (p.opt = some v ∧ r = b ∧ (b = [] ∨ ∃ cls comp tag len s, b = encHdr cls comp tag len ++ s ∧ cls < 4 ∧
        tag ≤ 2147483647 ∧ len < 2 ^ 31 ∧ s ≠ [] ∧
        (¬ (cls = 2 ∧ tag = n ∧ (len = 0 ∨ comp = true)) ∨
          (cls = 2 ∧ tag = n ∧ comp = true ∧ 0 < len ∧
            HdrIf (fun cls comp tag => ¬ (cls = 0 ∧ comp = c.compound ∧ tag = c.tag)) s)))) := by
  constructor
  · intro h
    unfold parseField at h
    split at h
    · rename_i hb
      rw [absent_iff] at h
      exact Or.inr ⟨h.1, h.2, Or.inl hb⟩
    cases hp : parseHdr b with
    | none => rw [hp] at h; cases h
    | some x =>
      obtain ⟨⟨cls, comp, tag, len⟩, s⟩ := x
      rw [hp] at h
      simp only [hx, if_true] at h
      obtain ⟨rfl, h1, h2, h3⟩ := (parseHdr_iff _ _ _).mp hp
      simp only [] at h h1 h2 h3
      split at h
      · cases h
      rename_i hs0
      split at h
      · rename_i hm
        obtain ⟨rfl, htn, hlc⟩ := hm
        rw [hn, Option.some.injEq] at htn
        subst htn
        split at h
        · cases h
        rename_i hl0
        have hcomp : comp = true := by rcases hlc with h' | h' <;> [exact absurd h' hl0; exact h']
        subst hcomp
        cases hq : parseHdr s with
        | none => rw [hq] at h; cases h
        | some y =>
          obtain ⟨⟨cls', comp', tag', len'⟩, s'⟩ := y
          rw [hq] at h
          obtain ⟨rfl, k1, k2, k3⟩ := (parseHdr_iff _ _ _).mp hq
          simp only [] at h k1 k2 k3
          rcases (parseBody_iff c p _ 0 c.tag (by simp [hx]) (by simp [hx, hs]) cls' comp' tag' len' s' v r).mp h with
            ⟨body, e1, e2, _, _, _, _, hd⟩ | ⟨ho, hr, hnn⟩
          · exact Or.inl ⟨len, body, by rw [e1], by omega, h3, by omega, hd⟩
          · exact Or.inr ⟨ho, hr, Or.inr ⟨_, _, _, _, _, rfl, h1, h2, h3, hs0, Or.inr ⟨rfl, rfl, rfl, Nat.pos_of_ne_zero hl0,
              Or.inr ⟨_, _, _, _, _, rfl, k1, k2, k3, hnn⟩⟩⟩⟩
      · rename_i hm
        rw [absent_iff] at h
        refine Or.inr ⟨h.1, h.2, Or.inr ⟨_, _, _, _, _, rfl, h1, h2, h3, hs0, Or.inl ?_⟩⟩
        rintro ⟨a1, a2, a3⟩
        exact hm ⟨a1, by rw [hn]; exact congrArg some a2, a3⟩
  · rintro (⟨len, body, rfl, hl0, hl, hbl, hd⟩ | ⟨ho, rfl, hh⟩)
    · unfold parseField
      rw [if_neg (by intro h; exact encHdr_ne_nil _ _ _ _ (List.append_eq_nil_iff.mp h).1),
        parseHdr_encHdr _ _ _ _ _ (by decide) hnl hl]
      simp only [hx, if_true]
      rw [if_neg (by intro h; exact encTLV_ne_nil _ _ _ _ (List.append_eq_nil_iff.mp h).1),
        if_pos (by simp [hn]), if_neg (by omega), parseHdr_encTLV _ _ _ _ _ (by decide) hct hbl]
      simp only []
      have := (parseBody_iff c p (encHdr 2 true n len) 0 c.tag (by simp [hx]) (by simp [hx, hs]) 0 c.compound c.tag
        body.length (body ++ r) v r).mpr (Or.inl ⟨body, by simp [encTLV], rfl, rfl, rfl, rfl, rfl, hd⟩)
      simpa [encTLV] using this
    · rcases hh with rfl | ⟨cls, comp, tag, len, s, rfl, h1, h2, h3, hs0, hh⟩
      · unfold parseField
        rw [if_pos rfl, absent_iff]
        exact ⟨ho, rfl⟩
      · unfold parseField
        rw [if_neg (by intro h; exact encHdr_ne_nil _ _ _ _ (List.append_eq_nil_iff.mp h).1),
          parseHdr_encHdr _ _ _ _ _ h1 h2 h3]
        simp only [hx, if_true]
        rw [if_neg hs0]
        rcases hh with hh | ⟨rfl, rfl, rfl, hl0, hh⟩
        · rw [if_neg (by
            rintro ⟨a1, a2, a3⟩
            rw [hn, Option.some.injEq] at a2
            exact hh ⟨a1, a2, a3⟩), absent_iff]
          exact ⟨ho, rfl⟩
        · rw [if_pos (by simp [hn]), if_neg (by omega)]
          rcases hh with rfl | ⟨cls', comp', tag', len', s', rfl, k1, k2, k3, hnn⟩
          · exact absurd rfl hs0
          · rw [parseHdr_encHdr _ _ _ _ _ k1 k2 k3]
            simp only []
            exact (parseBody_iff c p (encHdr 2 true tag len) 0 c.tag (by simp [hx]) (by simp [hx, hs]) cls' comp' tag' len'
              s' v _).mpr (Or.inr ⟨ho, rfl, hnn⟩)

/-- An optional RawValue: any element, or the end of the input. -/
theorem parseRaw_opt_iff (d : RawValue) (b : Bytes) (v : RawValue) (r : Bytes) :
    parseRaw { opt := some d } b = some (v, r) ↔
      (∃ e, b = e ++ r ∧ ReadsRaw e v) ∨ (b = [] ∧ r = [] ∧ v = d) := by
  by_cases hb : b = []
  · subst hb
    constructor
    · intro h
      simp [parseRaw, absent] at h
      exact Or.inr ⟨rfl, h.2.symm ▸ rfl, h.1.symm⟩
    · rintro (⟨e, he, cls, comp, tag, body, -, rfl, -⟩ | ⟨-, rfl, rfl⟩)
      · exact absurd (List.append_eq_nil_iff.mp he.symm).1 (encTLV_ne_nil _ _ _ _)
      · rfl
  · have : parseRaw { opt := some d } b = parseRaw {} b := by
      unfold parseRaw
      rw [if_neg hb, if_neg hb]
      cases parseHdr b with
      | none => rfl
      | some x => obtain ⟨t, s⟩ := x; simp
    rw [this, parseRaw_reads]
    constructor
    · exact Or.inl
    · rintro (h | ⟨h, -⟩)
      · exact h
      · exact absurd h hb

end MCrypto.Asn1
