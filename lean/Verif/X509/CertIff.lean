import Verif.X509.CertSpec
import Verif.X509.CertParts
import Verif.X509.TimeLemmas
import Verif.X509.ExtLemmas
import Verif.Props.X509Strings
/-
The certificate parser accepts exactly the certificates of Verif.X509.CertSpec.
-/
namespace MCrypto.X509
open MCrypto MCrypto.Asn1 MCrypto.X509Spec MCrypto.Props

theorem elem_inj {tag tag' : Der.Tag} {b b' e : Bytes} (h1 : Elem tag b e) (h2 : Elem tag' b' e) : tag = tag' ∧ b = b' := by
  have a := (readAny_iff (e ++ []) tag b []).mpr ⟨e, rfl, h1⟩
  have c := (readAny_iff (e ++ []) tag' b' []).mpr ⟨e, rfl, h2⟩
  rw [a] at c
  simp only [Option.some.injEq, Prod.mk.injEq, and_true] at c
  exact c

theorem readInt_iff (s : Bytes) (n : Int) (rest : Bytes) :
    Der.readInt s = some (n, rest) ↔ ∃ e, s = e ++ rest ∧ Elem 0x02 (Der.encInt n) e := by
  constructor
  · intro h
    obtain ⟨h1, h2⟩ := Der.readInt_sound h
    exact ⟨_, h1, rfl, by decide, h2⟩
  · rintro ⟨e, rfl, rfl, _, h3⟩
    exact Der.readInt_enc n rest h3

theorem head_elem {tag t : Der.Tag} {b e r : Bytes} (h : Elem tag b e) : (e ++ r).head? = some t ↔ tag = t := by
  rw [h.1]; simp [Der.tlv]

/-! ### Bit strings -/

theorem bitsElem_iff (e r : Bytes) : BitsElem e r ↔ ∃ b v, Elem 0x03 b e ∧ decBits b = some v ∧ rightAlign v = r := by
  have key : ∀ (pad : UInt8) (bytes : Bytes), pad.toNat ≤ 7 → (bytes = [] → pad = 0) →
      (r.length = bytes.length ∧ ofBytes r = ofBytes bytes / 2 ^ pad.toNat ↔
        rightAlign ⟨bytes, bytes.length * 8 - pad.toNat⟩ = r) := by
    intro pad bytes h1 h2
    unfold rightAlign
    simp only []
    by_cases h0 : bytes = []
    · subst h0
      rw [h2 rfl]
      simp
      intro h; subst h; rfl
    · have hp := List.length_pos_of_ne_nil h0
      by_cases hp0 : pad.toNat = 0
      · rw [hp0, if_pos (by omega)]
        simp only [Nat.pow_zero, Nat.div_one]
        constructor
        · rintro ⟨a, b⟩; exact (ofBytes_inj a b).symm
        · rintro rfl; exact ⟨rfl, rfl⟩
      · rw [if_neg (by omega), show 8 - (bytes.length * 8 - pad.toNat) % 8 = pad.toNat by omega]
        have hlt : ofBytes bytes / 2 ^ pad.toNat < 256 ^ bytes.length :=
          Nat.lt_of_le_of_lt (Nat.div_le_self _ _) (ofBytes_lt bytes)
        constructor
        · rintro ⟨a, b⟩
          rw [← b, ← a]; exact beBytes_ofBytes r
        · rintro rfl
          exact ⟨by simp, ofBytes_beBytes_of_lt hlt⟩
  have last : ∀ (pad : UInt8) (bytes : Bytes), bytes ≠ [] → (pad :: bytes).getLastD 0 = bytes.getLastD 0 := by
    intro pad bytes h
    cases bytes with
    | nil => exact absurd rfl h
    | cons x t => simp [List.getLastD]
  constructor
  · rintro ⟨pad, bytes, h1, h2, h3, h4, h5⟩
    refine ⟨_, _, h1, ?_, (key pad bytes h2 h3).mp h5⟩
    simp only [decBits]
    rw [if_neg]
    rintro (h | ⟨h, h'⟩ | h)
    · omega
    · rw [h3 h] at h'; simp at h'
    · by_cases hb : bytes = []
      · rw [h3 hb] at h; simp [Nat.mod_one] at h
      · rw [last pad bytes hb] at h; exact h h4
  · rintro ⟨b, v, h1, h2, rfl⟩
    cases b with
    | nil => simp [decBits] at h2
    | cons pad bytes =>
      simp only [decBits] at h2
      split at h2
      · cases h2
      · rename_i hc
        injection h2 with h2
        subst h2
        have a1 : pad.toNat ≤ 7 := by
          by_contra hh; exact hc (Or.inl (by omega))
        have a2 : bytes = [] → pad = 0 := by
          intro hb
          by_contra hh
          refine hc (Or.inr (Or.inl ⟨hb, ?_⟩))
          have : pad.toNat ≠ 0 := fun h => hh (UInt8.toNat_inj.mp (by simpa using h))
          omega
        refine ⟨pad, bytes, h1, a1, a2, ?_, (key pad bytes a1 a2).mpr rfl⟩
        by_contra hh
        by_cases hb : bytes = []
        · rw [hb] at hh; simp at hh
        · exact hc (Or.inr (Or.inr (by rw [last pad bytes hb]; exact hh)))

/-! ### Algorithm identifiers -/

theorem parseAI_sound {b : Bytes} {a : AlgId} (h : parseAI b = some a) : AlgIdBody b a.algorithm a.parameters.full := by
  unfold parseAI at h
  simp only [Option.bind_eq_bind, Option.bind_eq_some_iff, Prod.exists] at h
  obtain ⟨o, r, h1, h⟩ := h
  obtain ⟨oe, rfl, ho⟩ := (readOID_iff _ _ _).mp h1
  split at h
  · rename_i hr
    simp only [Option.pure_def, Option.some.injEq] at h
    subst h hr
    exact ⟨oe, [], rfl, ho, Or.inl ⟨rfl, rfl⟩⟩
  · simp only [Option.pure_def, Option.bind_eq_some_iff, Prod.exists, Option.some.injEq] at h
    obtain ⟨tag, e, tr, h2, rfl⟩ := h
    obtain ⟨rfl, b, he⟩ := (readAnyElement_iff _ _ _ _).mp h2
    exact ⟨oe, tr, rfl, ho, Or.inr ⟨tag, b, he⟩⟩

theorem parseAI_complete {b : Bytes} {o : Oid} {par : Bytes} (h : AlgIdBody b o par) :
    ∃ a, parseAI b = some a ∧ a.algorithm = o ∧ a.parameters.full = par := by
  obtain ⟨oe, tr, rfl, ho, h⟩ := h
  unfold parseAI
  rw [(readOID_iff _ _ _).mpr ⟨oe, rfl, ho⟩]
  simp only [Option.bind_eq_bind, Option.bind_some]
  rcases h with ⟨rfl, rfl⟩ | ⟨tag, b, he⟩
  · exact ⟨_, rfl, rfl, rfl⟩
  · have hne := he.ne_nil
    rw [if_neg (by simp [hne]), (readAnyElement_iff _ _ _ _).mpr ⟨rfl, b, he⟩]
    exact ⟨_, rfl, rfl, rfl⟩

theorem algo_congr {a a' : AlgId} (h1 : a.algorithm = a'.algorithm) (h2 : a.parameters.full = a'.parameters.full) :
    getSignatureAlgorithmFromAI a = getSignatureAlgorithmFromAI a' := by
  unfold getSignatureAlgorithmFromAI
  rw [h1, h2]

/-! ### Names -/

theorem readAtv_iff (s : Bytes) (a : Atv) (rest : Bytes) :
    readAtv s = some (a, rest) ↔ ∃ e, s = e ++ rest ∧ AtvElem e a := by
  unfold readAtv
  simp only [Option.pure_def, Option.bind_eq_bind, Option.bind_eq_some_iff, Prod.exists, Option.some.injEq, Prod.mk.injEq]
  constructor
  · rintro ⟨b, r, h1, o, r2, h2, tag, raw, junk, h3, v, h4, rfl, rfl⟩
    obtain ⟨e, rfl, he⟩ := (readASN1_iff _ _ _ _).mp h1
    obtain ⟨oe, rfl, ho⟩ := (readOID_iff _ _ _).mp h2
    obtain ⟨ve, rfl, hv⟩ := (readAny_iff _ _ _ _).mp h3
    exact ⟨e, rfl, oe, tag, raw, ve, junk, he, ho, hv, (C65_parseASN1String_iff _ _ _).mp h4⟩
  · rintro ⟨e, rfl, oe, tag, raw, ve, junk, he, ho, hv, hs⟩
    exact ⟨_, _, (readASN1_iff _ _ _ _).mpr ⟨e, rfl, he⟩, _, _, (readOID_iff _ _ _).mpr ⟨oe, rfl, ho⟩, tag, raw, junk,
      (readAny_iff _ _ _ _).mpr ⟨ve, rfl, hv⟩, _, (C65_parseASN1String_iff _ _ _).mpr hs, rfl, rfl⟩

theorem readRdn_iff (s : Bytes) (l : List Atv) (rest : Bytes) :
    readRdn s = some (l, rest) ↔ ∃ e, s = e ++ rest ∧ RdnElem e l := by
  have hm := readMany_concat' readAtv_iff (fun e n (h : AtvElem e n) => by
    obtain ⟨_, _, _, _, _, he, _⟩ := h; exact he.ne_nil)
  unfold readRdn
  simp only [Option.pure_def, Option.bind_eq_bind, Option.bind_eq_some_iff, Prod.exists, Option.some.injEq, Prod.mk.injEq]
  constructor
  · rintro ⟨b, r, h1, l', h2, rfl, rfl⟩
    obtain ⟨e, rfl, he⟩ := (readASN1_iff _ _ _ _).mp h1
    exact ⟨e, rfl, b, he, (hm _ _).mp h2⟩
  · rintro ⟨e, rfl, b, he, hc⟩
    exact ⟨_, _, (readASN1_iff _ _ _ _).mpr ⟨e, rfl, he⟩, _, (hm _ _).mpr hc, rfl, rfl⟩

theorem parseName_iff {e : Bytes} (he : ∃ b, Elem 0x30 b e) (n : List (List Atv)) :
    parseName e = some n ↔ NameDer e n := by
  have hm := readMany_concat' readRdn_iff (fun e n (h : RdnElem e n) => by
    obtain ⟨_, he, _⟩ := h; exact he.ne_nil)
  obtain ⟨b, he⟩ := he
  have hr : Der.readASN1 0x30 e = some (b, []) := (readASN1_iff _ _ _ _).mpr ⟨e, by simp, he⟩
  unfold parseName
  rw [hr]
  simp only [Option.bind_eq_bind, Option.bind_some]
  rw [hm]
  constructor
  · intro h; exact ⟨b, he, h⟩
  · rintro ⟨b', he', h⟩
    obtain ⟨_, rfl⟩ := elem_inj he he'
    exact h

/-! ### Times -/

theorem digits2_length {b : Bytes} {n : Nat} (h : Digits2 b n) : b.length = 2 := by rw [h.2]; rfl

theorem num2_iff (s : Bytes) (n : Nat) (rest : Bytes) : num2 s = some (n, rest) ↔ ∃ e, s = e ++ rest ∧ Digits2 e n := by
  constructor
  · intro h
    match s, h with
    | a :: b :: t, h =>
      simp only [num2, digit, Option.pure_def, Option.bind_eq_bind, Option.bind_eq_some_iff, Option.some.injEq,
        Prod.mk.injEq, Option.ite_none_right_eq_some] at h
      obtain ⟨x, ⟨hx, hx'⟩, y, ⟨hy, hy'⟩, rfl, rfl⟩ := h
      refine ⟨[a, b], rfl, by omega, ?_⟩
      have e1 : (10 * x + y) / 10 = x := by omega
      have e2 : (10 * x + y) % 10 = y := by omega
      rw [e1, e2, ← hx', ← hy', show 48 + (a.toNat - 48) = a.toNat by omega, show 48 + (b.toNat - 48) = b.toNat by omega]
      simp
  · rintro ⟨e, rfl, hn, rfl⟩
    have := num2_twoDigits hn rest
    unfold twoDigits at this
    rw [show n / 10 % 10 = n / 10 by omega] at this
    exact this

theorem parseZone_iff (z : Bytes) (o : Int) : parseZone z = some o ↔ ZoneText z o := by
  unfold ZoneText
  match z with
  | [] =>
    constructor
    · intro h; cases h
    · rintro (⟨h, _⟩ | ⟨hb, h, mb, m, _, _, _, _, (⟨h', _⟩ | ⟨h', _⟩)⟩) <;> cases ‹[] = _›
  | [c] =>
    simp only [parseZone]
    constructor
    · intro h
      left
      split at h
      · rename_i hc; injection h with h; exact ⟨by rw [hc], h.symm⟩
      · cases h
    · rintro (⟨h, h'⟩ | ⟨hb, h, mb, m, h1, h2, _, _, h3⟩)
      · injection h with h; rw [if_pos h, h']
      · have := digits2_length h1
        exfalso
        rcases h3 with ⟨h', _⟩ | ⟨h', _⟩ <;>
        · have := congrArg List.length h'; simp only [List.length_cons, List.length_append, List.length_nil] at this; omega
  | c :: d :: t =>
    have e : parseZone (c :: d :: t) = (do
        let (hh, t) ← num2 (d :: t)
        let (mm, t) ← num2 t
        if t ≠ [] ∨ mm ≥ 60 ∨ hh * 60 + mm = 0 then none
        else if c = 43 then some ((hh * 60 + mm : Nat) : Int)
        else if c = 45 then some (-((hh * 60 + mm : Nat) : Int))
        else none) := rfl
    rw [e]
    constructor
    · intro h
      right
      simp only [Option.bind_eq_bind, Option.bind_eq_some_iff, Prod.exists] at h
      obtain ⟨hh, t1, h1, mm, t2, h2, h⟩ := h
      obtain ⟨hb, hd, g1⟩ := (num2_iff _ _ _).mp h1
      obtain ⟨mb, rfl, g2⟩ := (num2_iff _ _ _).mp h2
      rw [hd]
      rcases ite_or h with g | ⟨hc, g⟩
      · cases g
      have ht2 : t2 = [] := by
        by_contra hh'; exact hc (Or.inl hh')
      subst ht2
      rw [List.append_nil]
      refine ⟨hb, hh, mb, mm, g1, g2, by omega, by omega, ?_⟩
      by_cases c43 : c = 43
      · rw [if_pos c43] at g
        injection g with g; left; rw [c43]; exact ⟨rfl, by rw [← g]; push_cast; omega⟩
      · rw [if_neg c43] at g
        by_cases c45 : c = 45
        · rw [if_pos c45] at g
          injection g with g; right; rw [c45]; exact ⟨rfl, by rw [← g]; push_cast; omega⟩
        · rw [if_neg c45] at g; cases g
    · rintro (⟨h, _⟩ | ⟨hb, hh, mb, mm, h1, h2, h3, h4, h5⟩)
      · cases h
      · have h5' : (c = 43 ∧ d :: t = hb ++ mb ∧ o = 60 * hh + mm) ∨ (c = 45 ∧ d :: t = hb ++ mb ∧ o = -(60 * hh + mm)) := by
          rcases h5 with ⟨h5, h6⟩ | ⟨h5, h6⟩
          · injection h5 with h5 h5'; exact Or.inl ⟨h5, h5', h6⟩
          · injection h5 with h5 h5'; exact Or.inr ⟨h5, h5', h6⟩
        have hdt : d :: t = hb ++ mb := by rcases h5' with ⟨_, h, _⟩ | ⟨_, h, _⟩ <;> exact h
        rw [hdt, (num2_iff _ _ _).mpr ⟨hb, rfl, h1⟩]
        simp only [Option.bind_eq_bind, Option.bind_some]
        rw [(num2_iff mb mm []).mpr ⟨mb, by simp, h2⟩]
        simp only [Option.bind_some]
        rw [if_neg (by rintro (h | h | h); exact h rfl; omega; omega)]
        rcases h5' with ⟨rfl, _, rfl⟩ | ⟨rfl, _, rfl⟩
        · rw [if_pos rfl]; congr 1; push_cast; omega
        · rw [if_neg (by decide), if_pos rfl]; congr 1; push_cast; omega

theorem parseMDHM_iff (y : Nat) (s : Bytes) (mo d h mi : Nat) (rest : Bytes) :
    parseMDHM y s = some (mo, d, h, mi, rest) ↔
      (1 ≤ mo ∧ mo ≤ 12 ∧ 1 ≤ d ∧ d ≤ monthLength y mo ∧ h < 24 ∧ mi < 60) ∧
      ∃ a b c e, s = a ++ (b ++ (c ++ (e ++ rest))) ∧ Digits2 a mo ∧ Digits2 b d ∧ Digits2 c h ∧ Digits2 e mi := by
  unfold parseMDHM
  simp only [Option.bind_eq_bind, Option.bind_eq_some_iff, Prod.exists, daysIn_eq]
  constructor
  · rintro ⟨mo', s1, h1, d', s2, h2, h', s3, h3, mi', s4, h4, hh⟩
    split at hh
    · rename_i hc
      simp only [Option.pure_def, Option.some.injEq, Prod.mk.injEq] at hh
      obtain ⟨rfl, rfl, rfl, rfl, rfl⟩ := hh
      obtain ⟨a, rfl, g1⟩ := (num2_iff _ _ _).mp h1
      obtain ⟨b, rfl, g2⟩ := (num2_iff _ _ _).mp h2
      obtain ⟨c, rfl, g3⟩ := (num2_iff _ _ _).mp h3
      obtain ⟨e, rfl, g4⟩ := (num2_iff _ _ _).mp h4
      exact ⟨hc, a, b, c, e, rfl, g1, g2, g3, g4⟩
    · cases hh
  · rintro ⟨hc, a, b, c, e, rfl, h1, h2, h3, h4⟩
    refine ⟨mo, _, (num2_iff _ _ _).mpr ⟨a, rfl, h1⟩, d, _, (num2_iff _ _ _).mpr ⟨b, rfl, h2⟩, h, _,
      (num2_iff _ _ _).mpr ⟨c, rfl, h3⟩, mi, _, (num2_iff _ _ _).mpr ⟨e, rfl, h4⟩, ?_⟩
    rw [if_pos hc]; rfl

theorem zone_head {z : Bytes} {o : Int} (h : ZoneText z o) : ∃ c t, z = c :: t ∧ (c = 90 ∨ c = 43 ∨ c = 45) := by
  rcases h with ⟨rfl, _⟩ | ⟨hb, h, mb, m, _, _, _, _, (⟨rfl, _⟩ | ⟨rfl, _⟩)⟩
  · exact ⟨_, _, rfl, Or.inl rfl⟩
  · exact ⟨_, _, rfl, Or.inr (Or.inl rfl)⟩
  · exact ⟨_, _, rfl, Or.inr (Or.inr rfl)⟩

theorem digits_not_zone {s z : Bytes} {n : Nat} (h : Digits2 s n) : parseZone (s ++ z) = none := by
  match hz : parseZone (s ++ z) with
  | none => rfl
  | some o =>
    exfalso
    obtain ⟨c, t, h1, h2⟩ := zone_head ((parseZone_iff _ _).mp hz)
    rw [h.2] at h1
    simp only [List.cons_append, List.nil_append, List.cons.injEq] at h1
    have hc := congrArg UInt8.toNat h1.1
    rw [UInt8.toNat_ofNat', Nat.mod_eq_of_lt (by have := h.1; omega)] at hc
    have := h.1
    rcases h2 with rfl | rfl | rfl
    · rw [show (90 : UInt8).toNat = 90 from rfl] at hc; omega
    · rw [show (43 : UInt8).toNat = 43 from rfl] at hc; omega
    · rw [show (45 : UInt8).toNat = 45 from rfl] at hc; omega

theorem utcLeap (yy m : Nat) (h : yy < 100) :
    monthLength (if yy ≥ 69 then 1900 + yy else 2000 + yy) m = monthLength (if yy < 50 then 2000 + yy else 1900 + yy) m := by
  unfold monthLength
  have : LeapYear (if yy ≥ 69 then 1900 + yy else 2000 + yy) ↔ LeapYear (if yy < 50 then 2000 + yy else 1900 + yy) := by
    unfold LeapYear
    split <;> split <;> omega
  simp only [this]

theorem utcYear (yy : Nat) (h : yy < 100) :
    (if (if yy ≥ 69 then 1900 + yy else 2000 + yy) ≥ 2050 then (if yy ≥ 69 then 1900 + yy else 2000 + yy) - 100
      else (if yy ≥ 69 then 1900 + yy else 2000 + yy)) = if yy < 50 then 2000 + yy else 1900 + yy := by
  split <;> split <;> split <;> omega

theorem parseUTCTime_iff (b : Bytes) (t : Time) : parseUTCTime b = some t ↔ UtcTimeText b t := by
  unfold parseUTCTime UtcTimeText
  simp only [Option.bind_eq_bind, Option.bind_eq_some_iff, Prod.exists]
  constructor
  · rintro ⟨yy, s1, h1, mo, d, h, mi, s2, h2, hh⟩
    obtain ⟨y, rfl, g1⟩ := (num2_iff _ _ _).mp h1
    obtain ⟨hc, a, b, c, e, rfl, d1, d2, d3, d4⟩ := (parseMDHM_iff _ _ _ _ _ _ _).mp h2
    rw [utcLeap yy mo g1.1] at hc
    rw [utcYear yy g1.1] at hh
    split at hh
    · rename_i z hz
      simp only [Option.pure_def, Option.some.injEq] at hh
      subst hh
      refine ⟨⟨⟨hc.1, hc.2.1⟩, ⟨hc.2.2.1, hc.2.2.2.1⟩, hc.2.2.2.2.1, hc.2.2.2.2.2, show 0 < 60 by decide⟩, y, a ++ (b ++ (c ++ e)), [],
        s2, yy, ?_, g1, rfl, ⟨a, b, c, e, rfl, d1, d2, d3, d4⟩, Or.inl ⟨rfl, rfl⟩, (parseZone_iff _ _).mp hz⟩
      simp only [List.append_assoc, List.nil_append]
    · simp only [Option.pure_def, Option.bind_eq_bind, Option.bind_eq_some_iff, Option.some.injEq, Prod.exists, parseSec] at hh
      obtain ⟨sec, s3, ⟨sec', s4, h3, h3'⟩, z, hz, hh⟩ := hh
      split at h3'
      · rename_i hs
        simp only [Option.bind_eq_bind, Option.bind_some, Option.some.injEq, Prod.mk.injEq] at h3'
        obtain ⟨rfl, rfl⟩ := h3'
        obtain ⟨s, rfl, g3⟩ := (num2_iff _ _ _).mp h3
        subst hh
        refine ⟨⟨⟨hc.1, hc.2.1⟩, ⟨hc.2.2.1, hc.2.2.2.1⟩, hc.2.2.2.2.1, hc.2.2.2.2.2, hs⟩, y, a ++ (b ++ (c ++ e)), s,
          s4, yy, ?_, g1, rfl, ⟨a, b, c, e, rfl, d1, d2, d3, d4⟩, Or.inr g3, (parseZone_iff _ _).mp hz⟩
        simp only [List.append_assoc]
      · cases h3'
  · rintro ⟨⟨v1, v2, v3, v4, v5⟩, y, d, s, z, yy, rfl, h1, hy, ⟨a, b, c, e, rfl, d1, d2, d3, d4⟩, hs, hz⟩
    refine ⟨yy, _, (num2_iff _ _ _).mpr ⟨y, rfl, h1⟩, t.month, t.day, t.hour, t.minute, s ++ z, ?_, ?_⟩
    · refine (parseMDHM_iff _ _ _ _ _ _ _).mpr ⟨?_, a, b, c, e, by simp only [List.append_assoc], d1, d2, d3, d4⟩
      rw [utcLeap yy _ h1.1, ← hy]
      exact ⟨v1.1, v1.2, v2.1, v2.2, v3, v4⟩
    · rw [utcYear yy h1.1, ← hy]
      rcases hs with ⟨rfl, h0⟩ | hs
      · rw [List.nil_append, (parseZone_iff _ _).mpr hz]
        simp only [Option.pure_def, Option.some.injEq, ← h0]
      · rw [digits_not_zone hs]
        simp only [parseSec, (num2_iff _ _ _).mpr ⟨s, rfl, hs⟩, Option.bind_eq_bind, Option.bind_some, if_pos v5,
          Option.pure_def, (parseZone_iff _ _).mpr hz]

theorem parseGeneralizedTime_iff (b : Bytes) (t : Time) : parseGeneralizedTime b = some t ↔ GenTimeText b t := by
  unfold parseGeneralizedTime GenTimeText
  simp only [Option.pure_def, Option.bind_eq_bind, Option.bind_eq_some_iff, Prod.exists, Option.some.injEq, parseSec]
  constructor
  · rintro ⟨y1, s1, h1, y2, s2, h2, mo, d, h, mi, s3, h3, sec, s4, ⟨sec', s5, h4, h4'⟩, z, hz, rfl⟩
    obtain ⟨y, rfl, g1⟩ := (num2_iff _ _ _).mp h1
    obtain ⟨y', rfl, g2⟩ := (num2_iff _ _ _).mp h2
    obtain ⟨hc, a, b, c, e, rfl, d1, d2, d3, d4⟩ := (parseMDHM_iff _ _ _ _ _ _ _).mp h3
    split at h4'
    · rename_i hs
      simp only [Option.some.injEq, Prod.mk.injEq] at h4'
      obtain ⟨rfl, rfl⟩ := h4'
      obtain ⟨s, rfl, g4⟩ := (num2_iff _ _ _).mp h4
      refine ⟨⟨⟨hc.1, hc.2.1⟩, ⟨hc.2.2.1, hc.2.2.2.1⟩, hc.2.2.2.2.1, hc.2.2.2.2.2, hs⟩, y, y', a ++ (b ++ (c ++ e)), s, s5,
        ?_, ?_, ?_, ⟨a, b, c, e, rfl, d1, d2, d3, d4⟩, g4, (parseZone_iff _ _).mp hz⟩
      · simp only [List.append_assoc]
      · rw [show (100 * y1 + y2) / 100 = y1 by have := g2.1; omega]; exact g1
      · rw [show (100 * y1 + y2) % 100 = y2 by have := g2.1; omega]; exact g2
    · cases h4'
  · rintro ⟨⟨v1, v2, v3, v4, v5⟩, y, y', d, s, z, rfl, h1, h2, ⟨a, b, c, e, rfl, d1, d2, d3, d4⟩, hs, hz⟩
    have hy : 100 * (t.year / 100) + t.year % 100 = t.year := by omega
    refine ⟨_, _, (num2_iff _ _ _).mpr ⟨y, rfl, h1⟩, _, _, (num2_iff _ _ _).mpr ⟨y', rfl, h2⟩, t.month, t.day, t.hour,
      t.minute, s ++ z, ?_, t.second, z, ⟨_, _, (num2_iff _ _ _).mpr ⟨s, rfl, hs⟩, by rw [if_pos v5]⟩, _,
      (parseZone_iff _ _).mpr hz, ?_⟩
    · refine (parseMDHM_iff _ _ _ _ _ _ _).mpr ⟨?_, a, b, c, e, by simp only [List.append_assoc], d1, d2, d3, d4⟩
      rw [hy]
      exact ⟨v1.1, v1.2, v2.1, v2.2, v3, v4⟩
    · rw [hy]

theorem readTime_iff (s : Bytes) (t : Time) (rest : Bytes) :
    readTime s = some (t, rest) ↔ ∃ e, s = e ++ rest ∧ TimeElem e t := by
  unfold readTime
  constructor
  · intro h
    split at h
    · simp only [Option.pure_def, Option.bind_eq_bind, Option.bind_eq_some_iff, Prod.exists, Option.some.injEq,
        Prod.mk.injEq] at h
      obtain ⟨b, r, h1, t', h2, rfl, rfl⟩ := h
      obtain ⟨e, rfl, he⟩ := (readASN1_iff _ _ _ _).mp h1
      exact ⟨e, rfl, b, Or.inl ⟨he, (parseUTCTime_iff _ _).mp h2⟩⟩
    · split at h
      · simp only [Option.pure_def, Option.bind_eq_bind, Option.bind_eq_some_iff, Prod.exists, Option.some.injEq,
          Prod.mk.injEq] at h
        obtain ⟨b, r, h1, t', h2, rfl, rfl⟩ := h
        obtain ⟨e, rfl, he⟩ := (readASN1_iff _ _ _ _).mp h1
        exact ⟨e, rfl, b, Or.inr ⟨he, (parseGeneralizedTime_iff _ _).mp h2⟩⟩
      · cases h
  · rintro ⟨e, rfl, b, ⟨he, ht⟩ | ⟨he, ht⟩⟩
    · rw [if_pos (by rw [peek_elem he]; rfl), (readASN1_iff _ _ _ _).mpr ⟨e, rfl, he⟩]
      simp only [Option.bind_eq_bind, Option.bind_some, (parseUTCTime_iff _ _).mpr ht]; rfl
    · rw [if_neg (by rw [peek_elem he]; decide), if_pos (by rw [peek_elem he]; rfl),
        (readASN1_iff _ _ _ _).mpr ⟨e, rfl, he⟩]
      simp only [Option.bind_eq_bind, Option.bind_some, (parseGeneralizedTime_iff _ _).mpr ht]; rfl

theorem timeElem_ne_nil {e : Bytes} {t : Time} (h : TimeElem e t) : e ≠ [] := by
  obtain ⟨b, ⟨h, _⟩ | ⟨h, _⟩⟩ := h <;> exact h.ne_nil

theorem parseValidity_iff (b : Bytes) (nb na : Time) :
    parseValidity b = some (nb, na) ↔ ∃ x y junk, b = x ++ (y ++ junk) ∧ TimeElem x nb ∧ TimeElem y na := by
  unfold parseValidity
  simp only [Option.pure_def, Option.bind_eq_bind, Option.bind_eq_some_iff, Prod.exists, Option.some.injEq, Prod.mk.injEq]
  constructor
  · rintro ⟨t, r, h1, t', r', h2, rfl, rfl⟩
    obtain ⟨x, rfl, g1⟩ := (readTime_iff _ _ _).mp h1
    obtain ⟨y, rfl, g2⟩ := (readTime_iff _ _ _).mp h2
    exact ⟨x, y, r', rfl, g1, g2⟩
  · rintro ⟨x, y, junk, rfl, h1, h2⟩
    exact ⟨_, _, (readTime_iff _ _ _).mpr ⟨x, rfl, h1⟩, _, _, (readTime_iff _ _ _).mpr ⟨y, rfl, h2⟩, rfl, rfl⟩

end MCrypto.X509
