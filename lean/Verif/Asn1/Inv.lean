import Verif.Asn1.OidLemmas
import Mathlib.Tactic.ByContra
/-
The decoder of encoding/asn1 accepts only the DER header the encoder writes: `parseHdr` inverted, and with it
`Unmarshal` for a plain type and for RawValue.
-/
namespace MCrypto.Asn1
open MCrypto

theorem parseLen_sound (n : Nat) : ∀ (acc : Nat) (s : Bytes) (v : Nat) (r : Bytes), parseLen n acc s = some (v, r) →
    ∃ bs, s = bs ++ r ∧ bs.length = n ∧ v = acc * 256 ^ n + ofBytes bs ∧ (acc < 2 ^ 31 → v < 2 ^ 31) ∧
      (acc = 0 → 0 < n → bs.headD 0 ≠ 0) := by
  induction n with
  | zero =>
    intro acc s v r h
    simp only [parseLen, Option.some.injEq, Prod.mk.injEq] at h
    obtain ⟨rfl, rfl⟩ := h
    exact ⟨[], rfl, rfl, by simp, id, by omega⟩
  | succ n ih =>
    intro acc s v r h
    match s with
    | [] => simp [parseLen] at h
    | b :: t =>
      rw [parseLen] at h
      split at h
      · cases h
      simp only [] at h
      split at h
      · cases h
      rename_i h1 h2
      obtain ⟨bs, rfl, hl, hv, hlt, _⟩ := ih _ _ _ _ h
      have hb := b.toNat_lt
      refine ⟨b :: bs, rfl, by simp [hl], ?_, fun _ => hlt (by omega), ?_⟩
      · rw [ofBytes_cons, hl, hv, Nat.pow_succ]; ring
      · rintro rfl _ h0
        rw [List.headD_cons] at h0
        subst h0
        simp at h2

theorem parseLength_iff (s : Bytes) (n : Nat) (r : Bytes) :
    parseLength s = some (n, r) ↔ s = Der.lenOctets n ++ r ∧ n < 2 ^ 31 := by
  constructor
  · intro h
    match s with
    | [] => simp [parseLength] at h
    | b :: t =>
      rw [parseLength] at h
      have hb := b.toNat_lt
      split at h
      · rename_i h1
        simp only [Option.some.injEq, Prod.mk.injEq] at h
        obtain ⟨rfl, rfl⟩ := h
        refine ⟨?_, by omega⟩
        rw [Der.lenOctets, if_pos (by omega), UInt8.ofNat_toNat]
        rfl
      split at h
      · cases h
      rename_i h1 h2
      cases hp : parseLen (b.toNat - 128) 0 t with
      | none => rw [hp] at h; cases h
      | some x =>
        obtain ⟨l, r'⟩ := x
        rw [hp] at h
        simp only [] at h
        split at h
        · cases h
        rename_i hl
        simp only [Option.some.injEq, Prod.mk.injEq] at h
        obtain ⟨rfl, rfl⟩ := h
        obtain ⟨bs, rfl, hbl, hv, hlt, hh⟩ := parseLen_sound _ _ _ _ _ hp
        simp only [Nat.zero_mul, Nat.zero_add] at hv
        refine ⟨?_, hlt (by omega)⟩
        have hh' := hh rfl (by omega)
        obtain ⟨c, cs, rfl⟩ : ∃ c cs, bs = c :: cs := by
          cases bs with
          | nil => simp at hh'
          | cons c cs => exact ⟨c, cs, rfl⟩
        rw [List.headD_cons] at hh'
        have e := Der.toBytes_ofBytes_cons c cs hh'
        have el : byteLen (ofBytes (c :: cs)) = (c :: cs).length := by rw [← toBytes_length, e]
        rw [Der.lenOctets, if_neg (by omega), hv, e, el, hbl,
          show 0x80 + (b.toNat - 128) = b.toNat by omega, UInt8.ofNat_toNat]
        rfl
  · rintro ⟨rfl, h⟩
    exact parseLength_lenOctets n h r

/-- `parseTagAndLength` accepts exactly the canonical headers. -/
theorem parseHdr_iff (b : Bytes) (t : Hdr) (r : Bytes) :
    parseHdr b = some (t, r) ↔
      b = encHdr t.cls t.compound t.tag t.len ++ r ∧ t.cls < 4 ∧ t.tag ≤ 2147483647 ∧ t.len < 2 ^ 31 := by
  constructor
  · intro h
    match b with
    | [] => simp [parseHdr] at h
    | x :: s =>
      rw [parseHdr] at h
      have hx := x.toNat_lt
      cases ht : parseTagNo x s with
      | none => rw [ht] at h; cases h
      | some p =>
        obtain ⟨tag, r'⟩ := p
        rw [ht] at h
        simp only [] at h
        cases hl : parseLength r' with
        | none => rw [hl] at h; cases h
        | some q =>
          obtain ⟨len, r''⟩ := q
          rw [hl] at h
          simp only [Option.some.injEq, Prod.mk.injEq] at h
          obtain ⟨rfl, rfl⟩ := h
          obtain ⟨rfl, hlen⟩ := (parseLength_iff _ _ _).mp hl
          have hc : (if decide (x.toNat / 32 % 2 = 1) = true then 32 else 0) = x.toNat / 32 % 2 * 32 := by
            have := Nat.mod_two_eq_zero_or_one (x.toNat / 32)
            rcases this with h | h <;> simp [h]
          unfold parseTagNo at ht
          split at ht
          · rename_i h31
            cases hp : parse128 0 0 s with
            | none => rw [hp] at ht; cases ht
            | some y =>
              obtain ⟨tg, r3⟩ := y
              rw [hp] at ht
              simp only [] at ht
              split at ht
              · cases ht
              rename_i hge
              simp only [Option.some.injEq, Prod.mk.injEq] at ht
              obtain ⟨rfl, rfl⟩ := ht
              obtain ⟨rfl, hle⟩ := (parse128_iff _ _ _).mp hp
              refine ⟨?_, by simp only []; omega, hle, hlen⟩
              unfold encHdr
              simp only []
              rw [if_pos (by omega), hc, show x.toNat / 64 * 64 + x.toNat / 32 % 2 * 32 + 31 = x.toNat by omega,
                UInt8.ofNat_toNat]
              simp
          · rename_i h31
            simp only [Option.some.injEq, Prod.mk.injEq] at ht
            obtain ⟨rfl, rfl⟩ := ht
            refine ⟨?_, by simp only []; omega, by simp only []; omega, hlen⟩
            unfold encHdr
            simp only []
            rw [if_neg (by omega), hc, show x.toNat / 64 * 64 + x.toNat / 32 % 2 * 32 + x.toNat % 32 = x.toNat by omega,
              UInt8.ofNat_toNat]
            simp
  · rintro ⟨rfl, h1, h2, h3⟩
    exact parseHdr_encHdr _ _ _ _ _ h1 h2 h3

/-- `Unmarshal` of a plain type: the input begins with the element of that type. -/
theorem unmarshal_iff {α : Type} (c : Codec α) (hct : c.tag ≤ 2147483647) (b : Bytes) (v : α) (r : Bytes) :
    parseField c {} b = some (v, r) ↔ ∃ body, b = encTLV 0 c.compound c.tag body ++ r ∧ body.length < 2 ^ 31 ∧
      c.dec body (encTLV 0 c.compound c.tag body) = some v := by
  constructor
  · intro h
    unfold parseField at h
    split at h
    · cases h
    cases hp : parseHdr b with
    | none => rw [hp] at h; cases h
    | some x =>
      obtain ⟨t, s⟩ := x
      rw [hp] at h
      simp only [Bool.false_eq_true, if_false] at h
      obtain ⟨rfl, h1, h2, h3⟩ := (parseHdr_iff _ _ _).mp hp
      unfold parseBody at h
      simp only [Bool.false_eq_true, if_false, Option.isSome_none, Option.getD_none] at h
      split at h
      · cases h
      rename_i hm
      split at h
      · cases h
      rename_i hlen
      cases hd : c.dec (s.take t.len) ((encHdr t.cls t.compound t.tag t.len ++ s).take
        ((encHdr t.cls t.compound t.tag t.len ++ s).length - (s.length - t.len))) with
      | none => rw [hd] at h; cases h
      | some w =>
        rw [hd] at h
        simp only [Option.some.injEq, Prod.mk.injEq] at h
        obtain ⟨rfl, rfl⟩ := h
        simp only [not_or, not_not, ne_eq] at hm
        obtain ⟨⟨hc0, htg⟩, hcm⟩ := hm
        have htl : (s.take t.len).length = t.len := by rw [List.length_take]; omega
        have es : s = s.take t.len ++ s.drop t.len := (List.take_append_drop _ _).symm
        have e1 : encHdr t.cls t.compound t.tag t.len ++ s = encTLV 0 c.compound c.tag (s.take t.len) ++ s.drop t.len := by
          unfold encTLV
          rw [htl, hc0, htg, hcm, List.append_assoc, ← es]
        refine ⟨s.take t.len, e1, by omega, ?_⟩
        rw [← hd]
        congr 1
        rw [e1]
        have : (encTLV 0 c.compound c.tag (s.take t.len) ++ s.drop t.len).length - (s.length - t.len) =
            (encTLV 0 c.compound c.tag (s.take t.len)).length := by
          rw [List.length_append, List.length_drop]; omega
        rw [this, List.take_left]
  · rintro ⟨body, rfl, hl, hd⟩
    unfold parseField
    rw [if_neg (by intro h; exact encTLV_ne_nil _ _ _ _ (List.append_eq_nil_iff.mp h).1),
      parseHdr_encTLV _ _ _ _ _ (by decide) hct hl]
    simp only [Bool.false_eq_true, if_false]
    unfold parseBody
    simp only [Bool.false_eq_true, if_false, Option.isSome_none, Option.getD_none]
    rw [if_neg (by simp), if_neg (by simp), List.take_left, List.drop_left]
    have : (encTLV 0 c.compound c.tag body ++ r).length - ((body ++ r).length - body.length) =
        (encTLV 0 c.compound c.tag body).length := by
      simp only [List.length_append]; omega
    rw [this, List.take_left, hd]

/-- `Unmarshal` into a RawValue: any element. -/
theorem parseRaw_iff (b : Bytes) (v : RawValue) (r : Bytes) :
    parseRaw {} b = some (v, r) ↔ ∃ cls comp tag body, v = rawOf cls comp tag body ∧ b = encTLV cls comp tag body ++ r ∧
      cls < 4 ∧ tag ≤ 2147483647 ∧ body.length < 2 ^ 31 := by
  constructor
  · intro h
    unfold parseRaw at h
    split at h
    · cases h
    cases hp : parseHdr b with
    | none => rw [hp] at h; cases h
    | some x =>
      obtain ⟨t, s⟩ := x
      rw [hp] at h
      obtain ⟨rfl, h1, h2, h3⟩ := (parseHdr_iff _ _ _).mp hp
      simp only [Bool.false_eq_true, if_false, false_and, not_true_eq_false] at h
      split at h
      · cases h
      rename_i hlen
      simp only [Option.some.injEq, Prod.mk.injEq] at h
      obtain ⟨rfl, rfl⟩ := h
      have htl : (s.take t.len).length = t.len := by rw [List.length_take]; omega
      have es : s = s.take t.len ++ s.drop t.len := (List.take_append_drop _ _).symm
      have e1 : encHdr t.cls t.compound t.tag t.len ++ s = encTLV t.cls t.compound t.tag (s.take t.len) ++ s.drop t.len := by
        unfold encTLV
        rw [htl, List.append_assoc, ← es]
      refine ⟨t.cls, t.compound, t.tag, s.take t.len, ?_, e1, h1, h2, by omega⟩
      unfold rawOf
      congr 1
      rw [e1]
      have : (encTLV t.cls t.compound t.tag (s.take t.len) ++ s.drop t.len).length - (s.length - t.len) =
          (encTLV t.cls t.compound t.tag (s.take t.len)).length := by
        rw [List.length_append, List.length_drop]; omega
      rw [this, List.take_left]
  · rintro ⟨cls, comp, tag, body, rfl, rfl, h1, h2, h3⟩
    exact parseRaw_encTLV {} cls comp tag body r h1 h2 h3 (by simp)

end MCrypto.Asn1
