import Verif.Asn1.Grammar
import Verif.Asn1.FieldInv
/-
The codec model reads exactly the grammar of Asn1/Grammar.
-/
namespace MCrypto.Dg
open MCrypto MCrypto.Asn1

/-! ## Base 128 -/

theorem septets_enc (k n : Nat) (hk : 1 ≤ k) : Septets (enc128 k n) ∧ (enc128 k n).length = k := by
  induction k with
  | zero => omega
  | succ k ih =>
    by_cases h : k = 0
    · subst h
      refine ⟨?_, rfl⟩
      simp only [enc128, Septets, UInt8.toNat_ofNat']
      omega
    · obtain ⟨h1, h2⟩ := ih (by omega)
      rw [enc128_succ k n (by omega)]
      refine ⟨?_, by simp [h2]⟩
      match he : enc128 k n, h1 with
      | [], h1 => exact absurd h1 (by simp [Septets])
      | y :: r, h1 =>
        refine ⟨?_, h1⟩
        simp only [UInt8.toNat_ofNat']
        omega

theorem val128_enc (k n : Nat) (hk : 1 ≤ k) : val128 (enc128 k n) = n % 128 ^ k := by
  induction k with
  | zero => omega
  | succ k ih =>
    by_cases h : k = 0
    · subst h
      simp only [enc128, val128, UInt8.toNat_ofNat', List.length_nil]
      omega
    · have h2 := (septets_enc k n (by omega)).2
      rw [enc128_succ k n (by omega), val128, h2, ih (by omega)]
      simp only [UInt8.toNat_ofNat']
      have e1 : (128 + n / 128 ^ k % 128) % 2 ^ 8 % 128 = n / 128 ^ k % 128 := by omega
      rw [e1, Nat.pow_succ, Nat.mod_mul, Nat.mul_comm, Nat.add_comm]

theorem enc_of_septets (b : Bytes) : ∀ n, Septets b → val128 b = n % 128 ^ b.length → b = enc128 b.length n := by
  induction b with
  | nil => intro n h; exact absurd h (by simp [Septets])
  | cons x r ih =>
    intro n hs hv
    cases r with
    | nil =>
      simp only [Septets] at hs
      simp only [val128, List.length_nil, List.length_cons] at hv
      simp only [enc128, List.length_nil, List.length_cons]
      congr 1
      rw [← UInt8.toNat_inj]
      simp only [UInt8.toNat_ofNat']
      omega
    | cons y r =>
      obtain ⟨hx, hs⟩ := hs
      have hlt : ∀ b : Bytes, val128 b < 128 ^ b.length := by
        intro b
        induction b with
        | nil => simp [val128]
        | cons z t iht =>
          rw [val128, List.length_cons, Nat.pow_succ]
          have : z.toNat % 128 * 128 ^ t.length ≤ 127 * 128 ^ t.length := Nat.mul_le_mul_right _ (by omega)
          omega
      have hl := hlt (y :: r)
      rw [val128, List.length_cons (a := x)] at hv
      rw [Nat.pow_succ, Nat.mod_mul, Nat.add_comm, Nat.mul_comm (128 ^ _)] at hv
      have hpos : 0 < 128 ^ (y :: r).length := Nat.pow_pos (by decide)
      have h1 : val128 (y :: r) = n % 128 ^ (y :: r).length := by
        have := congrArg (· % 128 ^ (y :: r).length) hv
        simp only [Nat.add_mul_mod_self_right, Nat.mod_mod] at this
        rwa [Nat.mod_eq_of_lt hl] at this
      have h2 : x.toNat % 128 = n / 128 ^ (y :: r).length % 128 := by
        have := congrArg (· / 128 ^ (y :: r).length) hv
        simp only [Nat.add_mul_div_right _ _ hpos, Nat.div_eq_of_lt hl, Nat.div_eq_of_lt (Nat.mod_lt _ hpos), Nat.zero_add] at this
        exact this
      rw [List.length_cons (a := x), enc128_succ _ _ (by simp), ← ih n hs h1]
      congr 1
      rw [← UInt8.toNat_inj, ← h2]
      simp only [UInt8.toNat_ofNat']
      have := x.toNat_lt
      omega

theorem arc_iff (b : Bytes) (n : Nat) : Arc b n ↔ b = base128 n := by
  constructor
  · rintro ⟨hs, hh, hv⟩
    have hlt : ∀ b : Bytes, val128 b < 128 ^ b.length := by
      intro b
      induction b with
      | nil => simp [val128]
      | cons z t iht =>
        rw [val128, List.length_cons, Nat.pow_succ]
        have : z.toNat % 128 * 128 ^ t.length ≤ 127 * 128 ^ t.length := Nat.mul_le_mul_right _ (by omega)
        omega
    have hl := hlt b
    have hlen : len128 n = b.length := by
      refine len128_unique ?_ (by omega) ?_
      · cases b with
        | nil => exact absurd hs (by simp [Septets])
        | cons => simp
      · intro h1
        match b, hs, hh, hv, h1 with
        | x :: y :: r, hs, hh, hv, _ =>
          have hx : x.toNat ≠ 128 := by
            intro h; apply hh; simp only [List.head?_cons]; congr 1; rw [← UInt8.toNat_inj]; exact h
          have := hs.1
          have := x.toNat_lt
          rw [← hv, val128]
          have : 1 * 128 ^ (y :: r).length ≤ x.toNat % 128 * 128 ^ (y :: r).length := Nat.mul_le_mul_right _ (by omega)
          simp only [List.length_cons, Nat.add_sub_cancel] at *
          omega
    unfold base128
    rw [hlen]
    exact enc_of_septets b n hs (by rw [hv, Nat.mod_eq_of_lt (by omega)])
  · rintro rfl
    have hk : 1 ≤ len128 n := by unfold len128; split <;> omega
    have hub : n < 128 ^ len128 n := by
      unfold len128
      split
      · omega
      · rename_i h0
        have e : 128 ^ (n.log2 / 7 + 1) = 2 ^ (7 * (n.log2 / 7 + 1)) := by rw [Nat.pow_mul]
        rw [e, ← Nat.log2_lt h0]
        omega
    refine ⟨(septets_enc _ _ hk).1, ?_, ?_⟩
    · unfold base128
      by_cases h0 : n = 0
      · subst h0; decide
      intro hh
      unfold len128 at hh hub
      rw [if_neg h0] at hh hub
      have hlb : 128 ^ (n.log2 / 7) ≤ n := by
        have e : 128 ^ (n.log2 / 7) = 2 ^ (7 * (n.log2 / 7)) := by rw [Nat.pow_mul]
        rw [e, ← Nat.le_log2 h0]
        omega
      generalize n.log2 / 7 = m at hh hlb hub
      cases m with
      | zero =>
        simp only [enc128, List.head?_cons, Option.some.injEq] at hh
        have := congrArg UInt8.toNat hh
        simp at this
        omega
      | succ m =>
        simp only [enc128, List.head?_cons, Option.some.injEq] at hh
        have := congrArg UInt8.toNat hh
        simp only [UInt8.toNat_ofNat', UInt8.reduceToNat] at this
        have h1 : n / 128 ^ (m + 1) < 128 := by
          rw [Nat.div_lt_iff_lt_mul (Nat.pow_pos (by decide)), Nat.mul_comm, ← Nat.pow_succ]; exact hub
        have h2 : 1 ≤ n / 128 ^ (m + 1) := (Nat.le_div_iff_mul_le (Nat.pow_pos (by decide))).mpr (by omega)
        omega
    · unfold base128
      rw [val128_enc _ _ hk, Nat.mod_eq_of_lt hub]

/-! ## Headers and elements -/

theorem isLen_iff' (l : Bytes) {n : Nat} (hn : n < 2 ^ 31) : DerSpec.IsLen l n ↔ l = Der.lenOctets n :=
  DerSpec.isLen_iff l n (Nat.lt_trans hn (by decide))

theorem header_iff (h : Bytes) (n : Nat) : Header h n ↔
    ∃ cls comp tag, h = encHdr cls comp tag n ∧ cls < 4 ∧ tag ≤ 2147483647 ∧ n < 2 ^ 31 := by
  constructor
  · rintro ⟨t, s, l, rfl, hid, hl, hn⟩
    rw [isLen_iff' l hn] at hl
    subst hl
    have ht := t.toNat_lt
    have hcls : t.toNat / 64 < 4 := by omega
    have hcomp : (if decide (t.toNat / 32 % 2 = 1) then 32 else 0 : Nat) = t.toNat / 32 % 2 * 32 := by
      by_cases hh : t.toNat / 32 % 2 = 1
      · simp [hh]
      · rw [if_neg (by simpa using hh)]; omega
    rcases hid with ⟨h31, rfl⟩ | ⟨h31, m, ha, hm1, hm2⟩
    · refine ⟨t.toNat / 64, decide (t.toNat / 32 % 2 = 1), t.toNat % 32, ?_, hcls, by omega, hn⟩
      unfold encHdr
      simp only []
      rw [hcomp, if_neg (by omega), show t.toNat / 64 * 64 + t.toNat / 32 % 2 * 32 + t.toNat % 32 = t.toNat by omega,
        UInt8.ofNat_toNat]
      rfl
    · rw [arc_iff] at ha
      subst ha
      refine ⟨t.toNat / 64, decide (t.toNat / 32 % 2 = 1), m, ?_, hcls, by omega, hn⟩
      unfold encHdr
      simp only []
      rw [hcomp, if_pos (by omega), show t.toNat / 64 * 64 + t.toNat / 32 % 2 * 32 + 31 = t.toNat by omega,
        UInt8.ofNat_toNat]
      rfl
  · rintro ⟨cls, comp, tag, rfl, hc, ht, hn⟩
    have hcomp : (if comp then 32 else 0 : Nat) = 0 ∨ (if comp then 32 else 0 : Nat) = 32 := by cases comp <;> simp
    unfold encHdr
    simp only []
    generalize (if comp then 32 else 0 : Nat) = cb at hcomp
    by_cases h31 : tag ≥ 31
    · rw [if_pos h31]
      refine ⟨UInt8.ofNat (cls * 64 + cb + 31), base128 tag, Der.lenOctets n, rfl, Or.inr ⟨?_, tag, (arc_iff _ _).mpr rfl, h31,
        by omega⟩, (isLen_iff' _ hn).mpr rfl, hn⟩
      simp only [UInt8.toNat_ofNat']
      omega
    · rw [if_neg h31]
      refine ⟨UInt8.ofNat (cls * 64 + cb + tag), [], Der.lenOctets n, rfl, Or.inl ⟨?_, rfl⟩, (isLen_iff' _ hn).mpr rfl, hn⟩
      simp only [UInt8.toNat_ofNat']
      omega

theorem header_ne_nil {h : Bytes} {n : Nat} (hh : Header h n) : h ≠ [] := by
  obtain ⟨t, s, l, rfl, -⟩ := hh; simp

/-- The identifier octet of a tag number below 31. -/
def octet (cls : Nat) (comp : Bool) (tag : Nat) : UInt8 := UInt8.ofNat (cls * 64 + (if comp then 32 else 0) + tag)

theorem el_iff (cls : Nat) (comp : Bool) (tag : Nat) (ht : tag < 31) (body e : Bytes) :
    El (octet cls comp tag) body e ↔ e = encTLV cls comp tag body ∧ body.length < 2 ^ 31 := by
  unfold El
  refine and_congr_left fun hl => ?_
  rw [DerSpec.isTLV_iff _ _ _ (Nat.lt_trans hl (by decide))]
  unfold encTLV encHdr Der.tlv octet
  simp only []
  rw [if_neg (show ¬ tag ≥ 31 by omega)]
  simp

theorem el_ne_nil {t : UInt8} {b e : Bytes} (h : El t b e) : e ≠ [] := by
  obtain ⟨⟨l, _, rfl⟩, -⟩ := h; simp

theorem anyEl_iff (e : Bytes) : AnyEl e ↔ ∃ v, ReadsRaw e v := by
  unfold AnyEl ReadsRaw
  constructor
  · rintro ⟨h, body, rfl, hh⟩
    obtain ⟨cls, comp, tag, rfl, h1, h2, h3⟩ := (header_iff _ _).mp hh
    exact ⟨_, cls, comp, tag, body, rfl, rfl, h1, h2, h3⟩
  · rintro ⟨v, cls, comp, tag, body, -, rfl, h1, h2, h3⟩
    exact ⟨encHdr cls comp tag body.length, body, rfl, (header_iff _ _).mpr ⟨_, _, _, rfl, h1, h2, h3⟩⟩

theorem anyEl_ne_nil {e : Bytes} (h : AnyEl e) : e ≠ [] := by
  obtain ⟨h, body, rfl, hh⟩ := h
  intro hn
  exact header_ne_nil hh (List.append_eq_nil_iff.mp hn).1

theorem encHdr_head (cls : Nat) (comp : Bool) (tag len : Nat) (hc : cls < 4) (ecls : Nat) (ecomp : Bool)
    (etag : Nat) (hec : ecls < 4) (het : etag < 31) (s : Bytes) :
    (encHdr cls comp tag len ++ s).head? = some (octet ecls ecomp etag) ↔ cls = ecls ∧ comp = ecomp ∧ tag = etag := by
  have hcomp : ((if comp then 32 else 0 : Nat) = 0 ∧ comp = false) ∨ ((if comp then 32 else 0 : Nat) = 32 ∧ comp = true) := by
    cases comp <;> simp
  have hecomp : ((if ecomp then 32 else 0 : Nat) = 0 ∧ ecomp = false) ∨ ((if ecomp then 32 else 0 : Nat) = 32 ∧ ecomp = true) := by
    cases ecomp <;> simp
  have hce : comp = ecomp ↔ (if comp then 32 else 0 : Nat) = (if ecomp then 32 else 0 : Nat) := by
    cases comp <;> cases ecomp <;> simp
  rw [hce]
  unfold encHdr octet
  simp only []
  generalize (if comp then 32 else 0 : Nat) = cb at *
  generalize (if ecomp then 32 else 0 : Nat) = eb at *
  by_cases h31 : tag ≥ 31
  · rw [if_pos h31]
    simp only [List.cons_append, List.head?_cons, Option.some.injEq]
    rw [← UInt8.toNat_inj]
    simp only [UInt8.toNat_ofNat']
    omega
  · rw [if_neg h31]
    simp only [List.cons_append, List.head?_cons, Option.some.injEq]
    rw [← UInt8.toNat_inj]
    simp only [UInt8.toNat_ofNat']
    omega

theorem goes_iff (s : Bytes) : Goes s ↔ HdrIf (fun _ _ _ => True) s := by
  unfold Goes HdrIf
  refine or_congr_right ?_
  constructor
  · rintro ⟨h, n, r, rfl, hh⟩
    obtain ⟨cls, comp, tag, rfl, h1, h2, h3⟩ := (header_iff _ _).mp hh
    exact ⟨cls, comp, tag, n, r, rfl, h1, h2, h3, trivial⟩
  · rintro ⟨cls, comp, tag, n, r, rfl, h1, h2, h3, -⟩
    exact ⟨_, n, r, rfl, (header_iff _ _).mpr ⟨_, _, _, rfl, h1, h2, h3⟩⟩

/-- Another element than the expected one, or the end. -/
theorem missing_iff (ecls : Nat) (ecomp : Bool) (etag : Nat) (hec : ecls < 4) (het : etag < 31) (s : Bytes) :
    HdrIf (fun cls comp tag => ¬ (cls = ecls ∧ comp = ecomp ∧ tag = etag)) s ↔
      Goes s ∧ s.head? ≠ some (octet ecls ecomp etag) := by
  rw [goes_iff]
  constructor
  · rintro (rfl | ⟨cls, comp, tag, n, r, rfl, h1, h2, h3, h4⟩)
    · exact ⟨Or.inl rfl, by simp⟩
    · exact ⟨Or.inr ⟨_, _, _, _, _, rfl, h1, h2, h3, trivial⟩, fun h => h4 ((encHdr_head _ _ _ _ h1 _ _ _ hec het _).mp h)⟩
  · rintro ⟨rfl | ⟨cls, comp, tag, n, r, rfl, h1, h2, h3, -⟩, h⟩
    · exact Or.inl rfl
    · exact Or.inr ⟨_, _, _, _, _, rfl, h1, h2, h3, fun hh => h ((encHdr_head _ _ _ _ h1 _ _ _ hec het _).mpr hh)⟩

/-! ## Fields -/

/-- A mandatory field. -/
theorem field_iff {α : Type} (c : Codec α) (hct : c.tag < 31) (t : UInt8) (ht : t = octet 0 c.compound c.tag) (b : Bytes) (v : α)
    (r : Bytes) : parseField c {} b = some (v, r) ↔ ∃ e body, b = e ++ r ∧ El t body e ∧ c.dec body e = some v := by
  subst ht
  rw [unmarshal_iff c (by omega)]
  constructor
  · rintro ⟨body, rfl, h1, h2⟩
    exact ⟨_, body, rfl, (el_iff _ _ _ hct _ _).mpr ⟨rfl, h1⟩, h2⟩
  · rintro ⟨e, body, rfl, h1, h2⟩
    obtain ⟨rfl, h3⟩ := (el_iff _ _ _ hct _ _).mp h1
    exact ⟨body, rfl, h3, h2⟩

/-- An optional field, perhaps with an implicit tag. -/
theorem optField_iff {α : Type} (c : Codec α) (p : Params α) (hx : p.explicit = false) (hp : p.set = false)
    (ecls etag : Nat) (he : ecls = if p.tag.isSome then 2 else 0) (ht : etag = p.tag.getD c.tag) (htl : etag < 31)
    (t : UInt8) (hto : t = octet ecls c.compound etag) (b : Bytes) (v : α) (r : Bytes) :
    parseField c p b = some (v, r) ↔
      (∃ e body, b = e ++ r ∧ El t body e ∧ c.dec body e = some v) ∨
      (p.opt = some v ∧ r = b ∧ Goes b ∧ b.head? ≠ some t) := by
  subst hto
  rw [parseField_iff c p hx ecls etag he (by simp [hp, ht]) (by omega) b v r,
    missing_iff ecls c.compound etag (by rw [he]; split <;> decide) htl]
  refine or_congr_left ?_
  constructor
  · rintro ⟨body, rfl, h1, h2⟩
    exact ⟨_, body, rfl, (el_iff _ _ _ htl _ _).mpr ⟨rfl, h1⟩, h2⟩
  · rintro ⟨e, body, rfl, h1, h2⟩
    obtain ⟨rfl, h3⟩ := (el_iff _ _ _ htl _ _).mp h1
    exact ⟨body, rfl, h3, h2⟩

theorem int_iff (b : Bytes) (n : Int) (r : Bytes) :
    parseField bigInt {} b = some (n, r) ↔ ∃ e, b = e ++ r ∧ IntEl n e := by
  rw [field_iff bigInt (by decide) 0x02 (by decide)]
  simp only [bigInt, DerSpec.decInt_spec, IntEl]
  constructor
  · rintro ⟨e, body, h1, h2, h3⟩; exact ⟨e, h1, body, h2, h3⟩
  · rintro ⟨e, h1, body, h2, h3⟩; exact ⟨e, body, h1, h2, h3⟩

theorem octets_iff (b v r : Bytes) : parseField octets {} b = some (v, r) ↔ ∃ e, b = e ++ r ∧ El 0x04 v e := by
  rw [field_iff octets (by decide) 0x04 (by decide)]
  simp only [octets, Option.some.injEq]
  constructor
  · rintro ⟨e, body, h1, h2, rfl⟩; exact ⟨e, h1, h2⟩
  · rintro ⟨e, h1, h2⟩; exact ⟨e, v, h1, h2, rfl⟩

theorem int64_iff (b : Bytes) (n : Int) (r : Bytes) :
    parseField goInt {} b = some (n, r) ↔ ∃ e, b = e ++ r ∧ Int64El n e := by
  rw [field_iff goInt (by decide) 0x02 (by decide)]
  simp only [goInt, Int64El, IntEl]
  constructor
  · rintro ⟨e, body, h1, h2, h3⟩
    split at h3
    · cases h3
    rename_i hl
    have h4 := (DerSpec.decInt_spec _ _).mp h3
    refine ⟨e, h1, ⟨body, h2, h4⟩, ?_⟩
    obtain ⟨hne, hv, -⟩ := h4
    cases body with
    | nil => exact absurd rfl hne
    | cons c t =>
      have := DerSpec.twosVal_range c t
      rw [hv] at this
      have h7 : (256 ^ t.length : Int) ≤ 256 ^ 7 := by
        exact_mod_cast Nat.pow_le_pow_right (by decide) (by simp only [List.length_cons] at hl; omega)
      omega
  · rintro ⟨e, h1, ⟨body, h2, h3⟩, h4, h5⟩
    refine ⟨e, body, h1, h2, ?_⟩
    rw [(DerSpec.isInt_iff _ _).mp h3] at *
    rw [if_neg (by have := encInt_length_int64 n h4 h5; omega)]
    exact Der.decInt_encInt n

theorem many_arcs (l : List Nat) (b : Bytes) : (∃ es, b = es.flatten ∧ List.Forall₂ Arc es l) ↔ b = l.flatMap base128 := by
  constructor
  · rintro ⟨es, rfl, h⟩
    induction h with
    | nil => rfl
    | cons h _ ih => rw [List.flatten_cons, List.flatMap_cons, ih, (arc_iff _ _).mp h]
  · rintro rfl
    refine ⟨l.map base128, by rw [List.flatMap_def], ?_⟩
    induction l with
    | nil => exact List.Forall₂.nil
    | cons n l ih => exact List.Forall₂.cons ((arc_iff _ _).mpr rfl) ih

theorem isOid_iff (b : Bytes) (o : Oid) : IsOid b o ↔ decOid b = some o := by
  rw [decOid_iff]
  constructor
  · rintro ⟨a, c, l, es, rfl, hac, hb, hes, hlt⟩
    have hb' := (many_arcs _ _).mp ⟨es, hb, hes⟩
    have h0 := hlt _ List.mem_cons_self
    refine ⟨⟨a, c, l, rfl, by omega, fun n hn => by have := hlt n (by simp [hn]); omega⟩, ?_⟩
    rw [encOid, if_neg (by omega), hb', List.flatMap_cons, Nat.mul_comm 40]
  · rintro ⟨⟨a, c, l, rfl, hac, hl⟩, he⟩
    rw [encOid, if_neg (by omega), Option.some.injEq] at he
    obtain ⟨es, h1, h2⟩ := (many_arcs ((40 * a + c) :: l) b).mpr (by
      rw [← he, List.flatMap_cons, Nat.mul_comm 40])
    refine ⟨a, c, l, es, rfl, by omega, h1, h2, ?_⟩
    intro n hn
    rcases List.mem_cons.mp hn with rfl | hn
    · omega
    · have := hl n hn; omega

theorem oid_iff (b : Bytes) (o : Oid) (r : Bytes) :
    parseField oid {} b = some (o, r) ↔ ∃ e, b = e ++ r ∧ OidEl o e := by
  rw [field_iff oid (by decide) 0x06 (by decide)]
  simp only [oid, ← isOid_iff, OidEl]
  constructor
  · rintro ⟨e, body, h1, h2, h3⟩; exact ⟨e, h1, body, h2, h3⟩
  · rintro ⟨e, h1, body, h2, h3⟩; exact ⟨e, body, h1, h2, h3⟩

theorem ofBytes_mod_last (bytes : Bytes) (u : Nat) (h : u ≤ 7) :
    ofBytes bytes % 2 ^ u = (bytes.getLastD 0).toNat % 2 ^ u := by
  rcases List.eq_nil_or_concat bytes with rfl | ⟨t, x, rfl⟩
  · simp
  · have e1 : (t ++ [x]).getLastD 0 = x := by simp [List.getLastD_eq_getLast?]
    rw [List.concat_eq_append, e1, ofBytes_append]
    have e2 : (256 : Nat) ^ [x].length = 2 ^ u * 2 ^ (8 - u) := by
      rw [← Nat.pow_add, show u + (8 - u) = 8 by omega]; rfl
    have e3 : ofBytes [x] = x.toNat := by simp [ofBytes_cons]
    rw [e2, e3, Nat.mul_comm, Nat.mul_assoc, Nat.mul_add_mod]

theorem decBits_spec (b : Bytes) (v : BitString) :
    decBits b = some v ↔ ∃ unused, IsBits b v.bytes unused ∧ v.bitLength = v.bytes.length * 8 - unused := by
  have last : ∀ (pad : UInt8) (bytes : Bytes), bytes ≠ [] → (pad :: bytes).getLastD 0 = bytes.getLastD 0 := by
    intro pad bytes h
    cases bytes with
    | nil => exact absurd rfl h
    | cons x t => simp [List.getLastD]
  cases b with
  | nil =>
    simp only [decBits, IsBits]
    constructor
    · intro h; cases h
    · rintro ⟨u, ⟨p, h, -⟩, -⟩; cases h
  | cons pad t =>
    obtain ⟨bytes, bl⟩ := v
    simp only [decBits, IsBits, List.cons.injEq]
    constructor
    · intro h
      split at h
      · cases h
      rename_i hc
      simp only [Option.some.injEq, BitString.mk.injEq] at h
      obtain ⟨rfl, rfl⟩ := h
      simp only [not_or, not_and] at hc
      refine ⟨pad.toNat, ⟨pad, ⟨rfl, rfl⟩, rfl, by omega, fun h0 => by have := hc.2.1 h0; omega, ?_⟩, rfl⟩
      by_cases h0 : t = []
      · subst h0; simp
      · rw [ofBytes_mod_last _ _ (by omega), ← last pad t h0]
        by_contra hh
        exact hc.2.2 hh
    · rintro ⟨u, ⟨p, ⟨rfl, rfl⟩, rfl, h1, h2, h3⟩, h4⟩
      rw [if_neg, h4]
      rintro (h | ⟨h, h'⟩ | h)
      · omega
      · have := h2 h; omega
      · by_cases h0 : t = []
        · have h20 := h2 h0
          rw [h20] at h
          simp [Nat.mod_one] at h
        · rw [last _ t h0, ← ofBytes_mod_last _ _ h1] at h
          exact h h3

theorem algId_iff (b : Bytes) (o : Oid) (par : Bytes) (r : Bytes) :
    (∃ a, parseField algId {} b = some (a, r) ∧ a.algorithm = o ∧ a.parameters.full = par) ↔
      ∃ e, b = e ++ r ∧ AlgEl o par e := by
  constructor
  · rintro ⟨a, h, rfl, rfl⟩
    obtain ⟨e, body, rfl, h1, h2⟩ := (field_iff algId (by decide) 0x30 (by decide) _ _ _).mp h
    simp only [algId, Option.pure_def, Option.bind_eq_bind, Option.bind_eq_some_iff, Option.some.injEq, Prod.exists] at h2
    obtain ⟨o, s, h3, p, tr, h4, rfl⟩ := h2
    obtain ⟨oe, rfl, h5⟩ := (oid_iff _ _ _).mp h3
    refine ⟨e, rfl, oe, tr, ?_, h5, ?_⟩
    · rcases (parseRaw_opt_iff _ _ _ _).mp h4 with ⟨pe, rfl, h6⟩ | ⟨rfl, rfl, rfl⟩
      · rw [h6.full]; exact h1
      · exact h1
    · rcases (parseRaw_opt_iff _ _ _ _).mp h4 with ⟨pe, rfl, h6⟩ | ⟨rfl, rfl, rfl⟩
      · rw [h6.full]; exact Or.inr ((anyEl_iff _).mpr ⟨_, h6⟩)
      · exact Or.inl ⟨rfl, rfl⟩
  · rintro ⟨e, rfl, oe, tr, h1, h2, h3⟩
    have : ∃ p, parseRaw { opt := some {} } (par ++ tr) = some (p, tr) ∧ p.full = par := by
      rcases h3 with ⟨rfl, rfl⟩ | h3
      · exact ⟨{}, rfl, rfl⟩
      · obtain ⟨v, hv⟩ := (anyEl_iff _).mp h3
        exact ⟨v, (parseRaw_opt_iff _ _ _ _).mpr (Or.inl ⟨par, rfl, hv⟩), hv.full⟩
    obtain ⟨p, hp, rfl⟩ := this
    refine ⟨⟨o, p⟩, (field_iff algId (by decide) 0x30 (by decide) _ _ _).mpr ⟨e, _, rfl, h1, ?_⟩, rfl, rfl⟩
    simp only [algId, Option.pure_def, Option.bind_eq_bind]
    rw [(oid_iff _ _ _).mpr ⟨oe, rfl, h2⟩]
    simp only [Option.bind_some, hp]

/-- A SEQUENCE OF with elements read as `E`. -/
theorem seqOf_iff {α : Type} [DecidableEq α] (c : Codec α) (hct : c.tag < 31) (E : α → Bytes → Prop)
    (hE : ∀ b v r, parseField c {} b = some (v, r) ↔ ∃ e, b = e ++ r ∧ E v e) (body full : Bytes) (l : List α) :
    (seqOf c).dec body full = some l ↔ Many E l body := by
  rw [seqOf_dec_iff c (by omega)]
  have key : ∀ e v, Reads c e v ↔ E v e := by
    intro e v
    have h1 := parseField_reads c (by omega) e v []
    have h2 := hE e v []
    simp only [List.append_nil] at h1 h2
    rw [h1] at h2
    simpa using h2
  have key' : Reads c = fun e v => E v e := by funext e v; exact propext (key e v)
  rw [key']
  rfl

theorem encHdr_head' (cls : Nat) (comp : Bool) (tag len : Nat) (hc : cls < 4) (ecls : Nat) (ecomp : Bool)
    (etag : Nat) (hec : ecls < 4) (het : etag < 31) :
    (encHdr cls comp tag len).head? = some (octet ecls ecomp etag) ↔ cls = ecls ∧ comp = ecomp ∧ tag = etag := by
  have := encHdr_head cls comp tag len hc ecls ecomp etag hec het []
  rwa [List.append_nil] at this

/-- An optional field with an explicit tag. -/
theorem explField_iff {α : Type} (c : Codec α) (hct : c.tag < 31) (hfull : ∀ b f f', c.dec b f = c.dec b f') (d : α) (n : Nat)
    (hn : n < 31) (outer outer' inner : UInt8) (ho : outer = octet 2 true n) (ho' : outer' = octet 2 false n)
    (hi : inner = octet 0 c.compound c.tag) (b : Bytes) (v : α) (r : Bytes) :
    parseField c { opt := some d, tag := some n, explicit := true } b = some (v, r) ↔
      Expl outer (fun e => ∃ body, El inner body e ∧ c.dec body e = some v) b r ∨
      (v = d ∧ r = b ∧ NoExpl outer outer' inner b) := by
  subst ho ho' hi
  rw [parseField_explicit_iff c _ rfl n rfl (by omega) rfl (by omega)]
  simp only [Option.some.injEq]
  refine or_congr ?_ ?_
  · constructor
    · rintro ⟨len, body, rfl, h1, h2, h3, h4⟩
      exact ⟨_, len, _, rfl, (header_iff _ _).mpr ⟨_, _, _, rfl, by decide, by omega, h2⟩,
        (encHdr_head' _ _ _ _ (by decide) _ _ _ (by decide) hn).mpr ⟨rfl, rfl, rfl⟩, h1, body, (el_iff _ _ _ hct _ _).mpr ⟨rfl, h3⟩,
        by rw [← h4]; exact hfull _ _ _⟩
    · rintro ⟨h, len, e, rfl, hh, h1, h2, body, h3, h4⟩
      obtain ⟨cls, comp, tag, rfl, k1, k2, k3⟩ := (header_iff _ _).mp hh
      obtain ⟨rfl, rfl, rfl⟩ := (encHdr_head' _ _ _ _ k1 _ _ _ (by decide) hn).mp h1
      obtain ⟨rfl, k4⟩ := (el_iff _ _ _ hct _ _).mp h3
      exact ⟨len, body, rfl, h2, k3, k4, by rw [← h4]; exact hfull _ _ _⟩
  · rw [eq_comm (a := d)]
    refine and_congr_right fun _ => and_congr_right fun _ => ?_
    unfold NoExpl
    refine or_congr_right ?_
    constructor
    · rintro ⟨cls, comp, tag, len, s, rfl, h1, h2, h3, hs, hh⟩
      refine ⟨_, len, s, rfl, (header_iff _ _).mpr ⟨_, _, _, rfl, h1, h2, h3⟩, hs, ?_⟩
      rw [ne_eq, encHdr_head' _ _ _ _ h1 _ _ _ (by decide) hn, encHdr_head' _ _ _ _ h1 _ _ _ (by decide) hn]
      rcases hh with hh | ⟨rfl, rfl, rfl, hl, hh⟩
      · by_cases hc : cls = 2 ∧ comp = true ∧ tag = n
        · exact absurd ⟨hc.1, hc.2.2, Or.inr hc.2.1⟩ hh
        · exact Or.inl ⟨hc, fun hx => hh ⟨hx.1.1, hx.1.2.2, Or.inl hx.2⟩⟩
      · rw [missing_iff 0 c.compound c.tag (by decide) hct] at hh
        exact Or.inr ⟨⟨rfl, rfl, rfl⟩, hl, hh⟩
    · rintro ⟨h, len, t, rfl, hh, ht, hcase⟩
      obtain ⟨cls, comp, tag, rfl, k1, k2, k3⟩ := (header_iff _ _).mp hh
      rw [ne_eq, encHdr_head' _ _ _ _ k1 _ _ _ (by decide) hn, encHdr_head' _ _ _ _ k1 _ _ _ (by decide) hn] at hcase
      refine ⟨cls, comp, tag, len, t, rfl, k1, k2, k3, ht, ?_⟩
      rcases hcase with ⟨c1, c2⟩ | ⟨⟨rfl, rfl, rfl⟩, hl, hg⟩
      · refine Or.inl ?_
        rintro ⟨a1, a2, a3⟩
        by_cases hcm : comp = true
        · exact c1 ⟨a1, hcm, a2⟩
        · rcases a3 with a3 | a3
          · exact c2 ⟨⟨a1, by simpa using hcm, a2⟩, a3⟩
          · exact hcm a3
      · exact Or.inr ⟨rfl, rfl, rfl, hl, (missing_iff 0 c.compound c.tag (by decide) hct _).mpr hg⟩

end MCrypto.Dg
