import Verif.X509.Pkcs7WriteSpec
import Verif.Props.PfxWrite
import Verif.Props.Pkcs7Ex
/-
C112: exactly which octets `NewSignedData` and `NewSignedDataCallBack` return (x509/pkcs7.go:176-319, 359-440).
-/
namespace MCrypto.Props
open MCrypto MCrypto.Asn1 MCrypto.X509 MCrypto.X509Spec MCrypto.Dg
open MCrypto.Sm2 (exRd exKey)

/-! ## Times -/

theorem digits2_iff {n : Nat} (h : n < 100) (b : Bytes) : Digits2 b n ↔ b = twoDigits n := by
  unfold Digits2 twoDigits
  rw [Nat.mod_eq_of_lt (show n / 10 < 10 by omega)]
  simp [h]

theorem zoneText_iff {o : Int} (h : o.natAbs < 6000) (b : Bytes) : ZoneText b o ↔ b = zoneBytes o := by
  unfold ZoneText zoneBytes
  constructor
  · rintro (⟨rfl, rfl⟩ | ⟨hb, hh, mb, m, ⟨h1, rfl⟩, ⟨h2, rfl⟩, h3, h4, ⟨rfl, rfl⟩ | ⟨rfl, rfl⟩⟩)
    · rfl
    · rw [if_neg (by omega), if_pos (by omega)]
      have e1 : (60 * (hh : Int) + m).natAbs / 60 = hh := by omega
      have e2 : (60 * (hh : Int) + m).natAbs % 60 = m := by omega
      rw [e1, e2]
      unfold twoDigits
      rw [Nat.mod_eq_of_lt (show hh / 10 < 10 by omega), Nat.mod_eq_of_lt (show m / 10 < 10 by omega)]
    · rw [if_neg (by omega), if_neg (by omega)]
      have e1 : (-(60 * (hh : Int) + m)).natAbs / 60 = hh := by omega
      have e2 : (-(60 * (hh : Int) + m)).natAbs % 60 = m := by omega
      rw [e1, e2]
      unfold twoDigits
      rw [Nat.mod_eq_of_lt (show hh / 10 < 10 by omega), Nat.mod_eq_of_lt (show m / 10 < 10 by omega)]
  · rintro rfl
    by_cases h0 : o = 0
    · left; simp [h0]
    · right
      rw [if_neg h0]
      refine ⟨_, o.natAbs / 60, _, o.natAbs % 60, (digits2_iff (by omega) _).mpr rfl, (digits2_iff (by omega) _).mpr rfl, by omega,
        by omega, ?_⟩
      by_cases hp : 0 < o
      · left; rw [if_pos hp]; exact ⟨rfl, by omega⟩
      · right; rw [if_neg hp]; exact ⟨rfl, by omega⟩

/-- The fields of a clock: a valid time of a year up to 9999, in a zone of less than 100 hours. -/
structure ClockTime (t : Time) : Prop where
  valid : ValidTime t
  year : t.year ≤ 9999
  zone : t.offset.natAbs < 6000

theorem monthLength_le (y m : Nat) : monthLength y m ≤ 31 := by
  unfold monthLength; split_ifs <;> omega

theorem dateText_iff {t : Time} (h : ValidTime t) (b : Bytes) : DateText b t ↔
    b = twoDigits t.month ++ (twoDigits t.day ++ (twoDigits t.hour ++ twoDigits t.minute)) := by
  have h1 := h.month
  have h2 := h.day
  have h3 := h.hour
  have h4 := h.minute
  have h5 := monthLength_le t.year t.month
  unfold DateText
  simp only [digits2_iff (show t.month < 100 by omega), digits2_iff (show t.day < 100 by omega), digits2_iff (show t.hour < 100 by omega),
    digits2_iff (show t.minute < 100 by omega)]
  constructor
  · rintro ⟨_, _, _, _, rfl, rfl, rfl, rfl, rfl⟩; rfl
  · rintro rfl; exact ⟨_, _, _, _, rfl, rfl, rfl, rfl, rfl⟩

/-- The text of a time. -/
def timeText (t : Time) : UInt8 × Bytes :=
  if outsideUTCRange t then (0x18, twoDigits (t.year / 100) ++ twoDigits (t.year % 100) ++ timeCommon t)
  else (0x17, twoDigits (t.year % 100) ++ timeCommon t)

theorem timeOut_iff {t : Time} (h : ClockTime t) (e : Bytes) : TimeOut t e ↔ El (timeText t).1 (timeText t).2 e := by
  have hs := h.valid.second
  have hy := h.year
  unfold TimeOut timeText outsideUTCRange
  simp only [digits2_iff (show t.second < 100 by omega), digits2_iff (show t.year % 100 < 100 by omega),
    digits2_iff (show t.year / 100 < 100 by omega), dateText_iff h.valid, zoneText_iff h.zone, timeCommon]
  by_cases hr : t.year < 1950 ∨ 2050 ≤ t.year
  · rw [if_pos (by simp; omega)]
    constructor
    · rintro (⟨h1, h2, -⟩ | ⟨-, _, _, _, _, _, g, rfl, rfl, rfl, rfl, rfl⟩)
      · omega
      · simpa only [List.append_assoc] using g
    · intro g
      exact Or.inr ⟨hr, _, _, _, _, _, by simpa only [List.append_assoc] using g, rfl, rfl, rfl, rfl, rfl⟩
  · rw [if_neg (by simp; omega)]
    constructor
    · rintro (⟨-, -, _, _, _, _, g, rfl, rfl, rfl, rfl⟩ | ⟨h1, -⟩)
      · simpa only [List.append_assoc] using g
      · exact absurd h1 hr
    · intro g
      exact Or.inl ⟨by omega, by omega, _, _, _, _, by simpa only [List.append_assoc] using g, rfl, rfl, rfl, rfl⟩

theorem zoneBytes_length (o : Int) : (zoneBytes o).length = 1 ∨ (zoneBytes o).length = 5 := by
  unfold zoneBytes twoDigits; split <;> simp

theorem timeText_length (t : Time) : 13 ≤ (timeText t).2.length ∧ (timeText t).2.length ≤ 19 := by
  have := zoneBytes_length t.offset
  unfold timeText timeCommon
  split <;> simp only [List.length_append, twoDigits, List.length_cons, List.length_nil] <;> omega

theorem small_tlv (cls : Nat) (comp : Bool) (tag : Nat) (ht : tag < 31) (body : Bytes) (hl : body.length < 128) :
    encTLV cls comp tag body = octet cls comp tag :: UInt8.ofNat body.length :: body := by
  unfold encTLV encHdr Der.lenOctets octet
  simp only []
  rw [if_neg (by omega)]
  rw [if_pos (show body.length ≤ 0x7f by omega)]
  simp

theorem marshalTime_eq {t : Time} (h : ClockTime t) :
    marshalTime t = some ((timeText t).1 :: UInt8.ofNat (timeText t).2.length :: (timeText t).2) := by
  have hl := timeText_length t
  unfold marshalTime
  unfold timeText at *
  have hy := h.year
  split
  · rename_i hr
    simp only [hr, if_true] at hl
    rw [if_neg (by omega), small_tlv _ _ _ (by decide) _ (by omega)]
    rfl
  · rename_i hr
    simp only [hr] at hl
    rw [small_tlv _ _ _ (by decide) _ (by simpa using hl.2.trans_lt (by decide))]
    rfl

theorem small_el (t : UInt8) (body e : Bytes) (hl : body.length < 128) : El t body e ↔ e = t :: UInt8.ofNat body.length :: body := by
  unfold El
  rw [DerSpec.isTLV_iff _ _ _ (by omega)]
  unfold Der.tlv Der.lenOctets
  rw [if_pos (by omega)]
  constructor
  · rintro ⟨h, -⟩; simpa using h
  · intro h; exact ⟨by simpa using h, by omega⟩

/-! ## The signed attributes -/

theorem raw_set {v e : Bytes} (hl : e.length < 2 ^ 31) : marshalRaw {} ⟨0, 17, true, v, []⟩ = some e ↔ El 0x31 v e := by
  rw [marshalRaw_parts _ _ rfl (by simp)]
  simp only [Option.some.injEq, show (0x31 : UInt8) = octet 0 true 17 by decide, el_iff 0 true 17 (by decide)]
  constructor
  · rintro rfl; exact ⟨rfl, Nat.lt_trans (encTLV_length_lt _ _ _ _) hl⟩
  · rintro ⟨rfl, -⟩; rfl

def setAttr (o : Oid) (v : Bytes) : P7Attr := ⟨o, ⟨0, 17, true, v, []⟩⟩

theorem p7Attr_out {o : Oid} (ho : OidOk o) {v e : Bytes} (hl : e.length < 2 ^ 31) :
    marshalField p7Attr {} (setAttr o v) = some e ↔ ∃ oe se, El 0x30 (oe ++ se) e ∧ OidEl o oe ∧ El 0x31 v se :=
  two_out rfl rfl rfl (fun _ he => oid_mf ho he) (fun _ he => raw_set he) hl

/-- The encoding of a small attribute whose type has nine octets. -/
theorem p7Attr_small {o : Oid} {oe : Bytes} (ho : marshalField oid {} o = some oe) (hoe : oe.length = 11) {v : Bytes} (hv : v.length < 100) :
    marshalField p7Attr {} (setAttr o v) = some (0x30 :: UInt8.ofNat (v.length + 13) :: (oe ++ 0x31 :: UInt8.ofNat v.length :: v)) := by
  unfold marshalField
  rw [if_neg (by simp)]
  simp only [p7Attr, setAttr, ho, Option.bind_eq_bind, Option.bind_some, Option.pure_def,
    marshalRaw_parts {} ⟨0, 17, true, v, []⟩ rfl (by simp), Bool.false_eq_true, if_false]
  rw [small_tlv 0 true 17 (by decide) v (by omega), small_tlv 0 true 16 (by decide) _ (by simp; omega)]
  have : (oe ++ octet 0 true 17 :: UInt8.ofNat v.length :: v).length = v.length + 13 := by
    simp only [List.length_append, List.length_cons, hoe]; omega
  rw [this]
  rfl

theorem oid_ct_ok : OidOk oidAttributeContentType := ⟨_, _, _, rfl, by decide, by decide⟩
theorem oid_md_ok : OidOk oidAttributeMessageDigest := ⟨_, _, _, rfl, by decide, by decide⟩
theorem oid_st_ok : OidOk oidAttributeSigningTime := ⟨_, _, _, rfl, by decide, by decide⟩
theorem oid_gmdata_ok : OidOk oidGMData := ⟨_, _, _, rfl, by decide, by decide⟩
theorem oid_gmsigned_ok : OidOk oidGMSignedData := ⟨_, _, _, rfl, by decide, by decide⟩
theorem oid_sm3_ok : OidOk oidDigestAlgorithmSM3 := ⟨_, _, _, rfl, by decide, by decide⟩
theorem oid_sm2_ok : OidOk oidSignatureECDSASM2 := ⟨_, _, _, rfl, by decide, by decide⟩

theorem bytesLe_second {a b : UInt8} {x y : Bytes} (h : a < b) : bytesLe (0x30 :: a :: x) (0x30 :: b :: y) = true := by
  unfold bytesLe bytesLe
  simp [h]

theorem bytesLe_second' {a b : UInt8} {x y : Bytes} (h : a < b) : bytesLe (0x30 :: b :: y) (0x30 :: a :: x) = false := by
  unfold bytesLe bytesLe
  rw [if_neg (by decide), if_neg (by decide), if_neg (by rw [UInt8.lt_iff_toNat_lt] at h ⊢; omega), if_pos h]

theorem sort3 {α : Type} {le : α → α → Bool} {a b c : α} (h1 : le b c = false) (h2 : le a c = true) :
    sortBy le [a, b, c] = [a, c, b] := by
  simp [sortBy, insertBy, h1, h2]

/-- The octets of the value of the content type. -/
def ctValue : Bytes := (marshalField oid {} oidGMData).getD []

/-- The signed attributes are written in a fixed order, and so is the set that is signed. -/
theorem attrs_eq {now : Time} (h : ClockTime now) (data : Bytes) :
    ∃ tv k1 k2 k3, marshalTime now = some tv ∧
      forMarshaling (signedAttrs now data) = some [setAttr oidAttributeContentType ctValue, setAttr oidAttributeSigningTime tv,
        setAttr oidAttributeMessageDigest (0x04 :: 32 :: Sm3.sum data)] ∧
      marshalField p7Attr {} (setAttr oidAttributeContentType ctValue) = some k1 ∧
      marshalField p7Attr {} (setAttr oidAttributeSigningTime tv) = some k2 ∧
      marshalField p7Attr {} (setAttr oidAttributeMessageDigest (0x04 :: 32 :: Sm3.sum data)) = some k3 ∧
      k1.length < 100 ∧ k2.length < 100 ∧ k3.length < 100 ∧
      sortBy bytesLe [k1, k2, k3] = [k1, k2, k3] := by
  have hs : (Sm3.sum data).length = 32 := by
    rw [Sm3.sum_eq]; exact sm3_length data
  have ht := timeText_length now
  have hm1 : marshalAny (.oid oidGMData) = some ctValue := by decide
  have hm2 : marshalAny (.octets (Sm3.sum data)) = some (0x04 :: 32 :: Sm3.sum data) := by
    unfold marshalAny marshalField
    rw [if_neg (by simp)]
    simp only [octets, Bool.false_eq_true, if_false]
    rw [small_tlv 0 false 4 (by decide) _ (by omega), hs]
    rfl
  generalize htv : ((timeText now).1 :: UInt8.ofNat (timeText now).2.length :: (timeText now).2) = tv
  have hm3 : marshalTime now = some tv := by rw [marshalTime_eq h, htv]
  have htl : 15 ≤ tv.length ∧ tv.length ≤ 21 := by rw [← htv]; simp only [List.length_cons]; omega
  obtain ⟨o1, e1, l1⟩ : ∃ oe, marshalField oid {} oidAttributeContentType = some oe ∧ oe.length = 11 := ⟨_, rfl, by decide⟩
  obtain ⟨o2, e2, l2⟩ : ∃ oe, marshalField oid {} oidAttributeSigningTime = some oe ∧ oe.length = 11 := ⟨_, rfl, by decide⟩
  obtain ⟨o3, e3, l3⟩ : ∃ oe, marshalField oid {} oidAttributeMessageDigest = some oe ∧ oe.length = 11 := ⟨_, rfl, by decide⟩
  have k1 := p7Attr_small (v := ctValue) e1 l1 (by decide)
  have k2 := p7Attr_small (v := tv) e2 l2 (by omega)
  have k3 := p7Attr_small (v := 0x04 :: 32 :: Sm3.sum data) e3 l3 (by simp only [List.length_cons]; omega)
  have hc : ctValue.length = 12 := by decide
  have h34 : (0x04 :: 32 :: Sm3.sum data).length = 34 := by simp only [List.length_cons]; omega
  rw [hc] at k1
  rw [h34] at k3
  have lt12 : UInt8.ofNat (12 + 13) < UInt8.ofNat (tv.length + 13) := by
    rw [UInt8.lt_iff_toNat_lt, UInt8.toNat_ofNat', UInt8.toNat_ofNat']; omega
  have lt23 : UInt8.ofNat (tv.length + 13) < UInt8.ofNat (34 + 13) := by
    rw [UInt8.lt_iff_toNat_lt, UInt8.toNat_ofNat', UInt8.toNat_ofNat']; omega
  refine ⟨tv, _, _, _, hm3, ?_, k1, k2, k3, ?_, ?_, ?_, ?_⟩
  · unfold forMarshaling
    simp only [signedAttrs, sortableAttrs, sortableAttr, Option.pure_def, Option.bind_eq_bind, hm1, hm2, Option.bind_some]
    have hm3' : marshalAny (.time now) = some tv := hm3
    rw [hm3']
    simp only [Option.bind_some]
    unfold marshal
    unfold setAttr at k1 k2 k3
    rw [k1, k2, k3]
    simp only [Option.bind_some]
    rw [sort3 (le := fun (a b : Bytes × P7Attr) => bytesLe a.1 b.1) (bytesLe_second' lt23) (bytesLe_second lt12)]
    rfl
  · simp only [List.length_cons, List.length_append]; omega
  · simp only [List.length_cons, List.length_append]; omega
  · simp only [List.length_cons, List.length_append]; omega
  · simp only [sortBy, insertBy, bytesLe_second lt12, bytesLe_second lt23, if_true]

theorem oidEl_eq {o : Oid} (ho : OidOk o) {e e' : Bytes} (hl : e.length < 2 ^ 31) (h : marshalField oid {} o = some e) : OidEl o e' ↔ e' = e := by
  have h1 := (oid_mf ho hl).mp h
  constructor
  · intro h2
    have hl2 : e'.length < 2 ^ 31 ∨ ¬ e'.length < 2 ^ 31 := by omega
    obtain ⟨b, g, k⟩ := h1
    obtain ⟨b', g', k'⟩ := h2
    rw [isOid_iff, decOid_iff] at k k'
    obtain rfl : b = b' := Option.some.inj (k.2.symm.trans k'.2)
    have e1 := (el_iff 0 false 6 (by decide) _ _).mp g
    have e2 := (el_iff 0 false 6 (by decide) _ _).mp g'
    rw [e1.1, e2.1]
  · rintro rfl; exact h1

theorem attr1_eq {o : Oid} (ho : OidOk o) {V : Bytes → Prop} {v k e : Bytes} (hV : ∀ v', V v' ↔ v' = v)
    (hk : marshalField p7Attr {} (setAttr o v) = some k) (hl : k.length < 2 ^ 31) : Attr1Out o V e ↔ e = k := by
  have h1 := (p7Attr_out ho hl).mp hk
  obtain ⟨oe, se, g1, g2, g3⟩ := h1
  unfold Attr1Out
  simp only [hV]
  constructor
  · rintro ⟨oe', _, se', f1, f2, f3, rfl⟩
    obtain ⟨b, a1, a2⟩ := g2
    obtain ⟨b', a1', a2'⟩ := f2
    rw [isOid_iff, decOid_iff] at a2 a2'
    obtain rfl : b = b' := Option.some.inj (a2.2.symm.trans a2'.2)
    obtain rfl : oe = oe' := by
      rw [((el_iff 0 false 6 (by decide) _ _).mp a1).1, ((el_iff 0 false 6 (by decide) _ _).mp a1').1]
    obtain rfl : se = se' := by
      rw [((el_iff 0 true 17 (by decide) _ _).mp g3).1, ((el_iff 0 true 17 (by decide) _ _).mp f3).1]
    rw [((el_iff 0 true 16 (by decide) _ _).mp g1).1, ((el_iff 0 true 16 (by decide) _ _).mp f1).1]
  · rintro rfl; exact ⟨oe, v, se, g1, g2, g3, rfl⟩

/-- The attributes the code writes and signs are those of the specification. -/
theorem attrs_spec {now : Time} (h : ClockTime now) (data : Bytes) : ∃ (al : List P7Attr) (attrs m : Bytes),
    forMarshaling (signedAttrs now data) = some al ∧ (∀ s, SignedAttrsOut now data s ↔ s = attrs) ∧
    marshalAttributes al = some m ∧ (∀ m', El 0x31 attrs m' ↔ m' = m) ∧
    marshalElems (marshalField p7Attr {}) al ≠ none ∧
    ∀ es, marshalElems (marshalField p7Attr {}) al = some es → es.flatten = attrs := by
  obtain ⟨tv, k1, k2, k3, ht, hf, h1, h2, h3, l1, l2, l3, hs⟩ := attrs_eq h data
  have hct : ctValue.length = 12 := by decide
  have hsum : (Sm3.sum data).length = 32 := by rw [Sm3.sum_eq]; exact sm3_length data
  have htx := timeText_length now
  have hset : (Asn1.setOf p7Attr).enc [setAttr oidAttributeContentType ctValue, setAttr oidAttributeSigningTime tv,
      setAttr oidAttributeMessageDigest (0x04 :: 32 :: Sm3.sum data)] = some (k1 ++ (k2 ++ k3)) := by
    simp only [Asn1.setOf, marshalElems, h1, h2, h3, Option.map_some, hs]
    simp
  have hel : marshalElems (marshalField p7Attr {}) [setAttr oidAttributeContentType ctValue, setAttr oidAttributeSigningTime tv,
      setAttr oidAttributeMessageDigest (0x04 :: 32 :: Sm3.sum data)] = some [k1, k2, k3] := by
    simp only [marshalElems, h1, h2, h3]
  have hlen : (k1 ++ (k2 ++ k3)).length < 300 := by simp only [List.length_append]; omega
  refine ⟨_, k1 ++ (k2 ++ k3), encTLV 0 true 17 (k1 ++ (k2 ++ k3)), hf, ?_, ?_, ?_, ?_, ?_⟩
  · intro s
    unfold SignedAttrsOut
    rw [show (∃ a b c, s = a ++ (b ++ c) ∧
      Attr1Out [1, 2, 840, 113549, 1, 9, 3] (OidEl [1, 2, 156, 10197, 6, 1, 4, 2, 1]) a ∧
      Attr1Out [1, 2, 840, 113549, 1, 9, 5] (TimeOut now) b ∧
      Attr1Out [1, 2, 840, 113549, 1, 9, 4] (El 0x04 (Sm3.sum data)) c) ↔ (∃ a b c, s = a ++ (b ++ c) ∧ a = k1 ∧ b = k2 ∧ c = k3) from by
        refine exists_congr fun a => exists_congr fun b => exists_congr fun c => and_congr_right fun _ => ?_
        refine and_congr ?_ (and_congr ?_ ?_)
        · refine attr1_eq oid_ct_ok (fun v' => ?_) h1 (by omega)
          exact oidEl_eq oid_gmdata_ok (by omega) (by decide)
        · refine attr1_eq oid_st_ok (fun v' => ?_) h2 (by omega)
          rw [timeOut_iff h, small_el _ _ _ (by omega)]
          rw [marshalTime_eq h] at ht
          obtain rfl := Option.some.inj ht
          rfl
        · refine attr1_eq oid_md_ok (fun v' => ?_) h3 (by omega)
          rw [small_el _ _ _ (by omega), hsum]
          rfl]
    constructor
    · rintro ⟨_, _, _, rfl, rfl, rfl, rfl⟩; rfl
    · rintro rfl; exact ⟨_, _, _, rfl, rfl, rfl, rfl⟩
  · unfold marshalAttributes
    have : marshalField (Asn1.setOf p7Attr) { set := true } [setAttr oidAttributeContentType ctValue, setAttr oidAttributeSigningTime tv,
        setAttr oidAttributeMessageDigest (0x04 :: 32 :: Sm3.sum data)] = some (encTLV 0 true 17 (k1 ++ (k2 ++ k3))) := by
      unfold marshalField
      rw [if_neg (by simp), hset]
      rfl
    rw [this]
    have hle := encTLV_length_le 0 true 17 (k1 ++ (k2 ++ k3)) (by decide) (by omega)
    have := parseRaw_encTLV {} 0 true 16 (encTLV 0 true 17 (k1 ++ (k2 ++ k3))) [] (by decide) (by decide) (by omega) (by simp)
    rw [List.append_nil] at this
    simp only [Option.bind_eq_bind, Option.bind_some, Option.pure_def, this]
    rfl
  · intro m'
    rw [show (0x31 : UInt8) = octet 0 true 17 by decide, el_iff 0 true 17 (by decide)]
    exact ⟨fun g => g.1, fun g => ⟨g, by omega⟩⟩
  · rw [hel]; simp
  · intro es he
    rw [hel] at he
    obtain rfl := Option.some.inj he
    simp

/-! ## The signer -/

/-- A field whose tag is given by its parameters: not explicit, not absent. -/
theorem mf_tag_iff {α : Type} [DecidableEq α] {c : Codec α} {p : Params α} {v : α} {e : Bytes} (t : UInt8) (n : Nat) (cls : Nat)
    (hn : n < 31) (hp : p.explicit = false) (ho : p.opt ≠ some v)
    (hc : (p.tag = some n ∧ cls = 2) ∨ (p.tag = none ∧ cls = 0 ∧ n = if p.set then 17 else c.tag))
    (ht : t = octet cls c.compound n) (hl : e.length < 2 ^ 31) :
    marshalField c p v = some e ↔ ∃ body, El t body e ∧ c.enc v = some body := by
  subst ht
  unfold marshalField
  rw [if_neg ho]
  simp only [el_iff cls c.compound n hn]
  cases c.enc v with
  | none => simp
  | some b =>
    rcases hc with ⟨h1, rfl⟩ | ⟨h1, rfl, rfl⟩
    all_goals simp only [h1, hp, Bool.false_eq_true, if_false, Option.some.injEq]
    all_goals constructor
    · rintro rfl; exact ⟨b, ⟨rfl, Nat.lt_trans (encTLV_length_lt _ _ _ _) hl⟩, rfl⟩
    · rintro ⟨_, ⟨rfl, -⟩, rfl⟩; rfl
    · rintro rfl; exact ⟨b, ⟨rfl, Nat.lt_trans (encTLV_length_lt _ _ _ _) hl⟩, rfl⟩
    · rintro ⟨_, ⟨rfl, -⟩, rfl⟩; rfl

theorem set_one {α : Type} [DecidableEq α] {c : Codec α} {v : α} {A : Bytes → Prop}
    (hA : ∀ e : Bytes, e.length < 2 ^ 31 → (marshalField c {} v = some e ↔ A e)) {e : Bytes} (hl : e.length < 2 ^ 31) :
    marshalField (Asn1.setOf c) { set := true } [v] = some e ↔ ∃ de, El 0x31 de e ∧ A de := by
  have : (Asn1.setOf c).enc [v] = marshalField c {} v := by
    simp only [Asn1.setOf, marshalElems]
    cases marshalField c {} v with
    | none => rfl
    | some x => simp [sortBy, insertBy]
  rw [mf_tag_iff 0x31 17 0 (by decide) rfl (by simp) (Or.inr ⟨rfl, rfl, rfl⟩) (show (0x31 : UInt8) = octet 0 true 17 by decide) hl, this]
  exact exists_congr fun b => and_congr_right fun g => hA b g.2

/-- A structure of six fields. -/
theorem six_out {α : Type} [DecidableEq α] {c : Codec α} {v : α} {A1 A2 A3 A4 A5 A6 : Bytes → Prop} {f1 f2 f3 f4 f5 f6 : Option Bytes}
    (hc : c.tag = 16) (hcc : c.compound = true)
    (he : c.enc v = f1.bind fun a1 => f2.bind fun a2 => f3.bind fun a3 => f4.bind fun a4 => f5.bind fun a5 => f6.bind fun a6 =>
      some (a1 ++ (a2 ++ (a3 ++ (a4 ++ (a5 ++ a6))))))
    (h1 : ∀ e : Bytes, e.length < 2 ^ 31 → (f1 = some e ↔ A1 e)) (h2 : ∀ e : Bytes, e.length < 2 ^ 31 → (f2 = some e ↔ A2 e))
    (h3 : ∀ e : Bytes, e.length < 2 ^ 31 → (f3 = some e ↔ A3 e)) (h4 : ∀ e : Bytes, e.length < 2 ^ 31 → (f4 = some e ↔ A4 e))
    (h5 : ∀ e : Bytes, e.length < 2 ^ 31 → (f5 = some e ↔ A5 e)) (h6 : ∀ e : Bytes, e.length < 2 ^ 31 → (f6 = some e ↔ A6 e))
    {e : Bytes} (hl : e.length < 2 ^ 31) : marshalField c {} v = some e ↔
      ∃ x1 x2 x3 x4 x5 x6, El 0x30 (x1 ++ (x2 ++ (x3 ++ (x4 ++ (x5 ++ x6))))) e ∧ A1 x1 ∧ A2 x2 ∧ A3 x3 ∧ A4 x4 ∧ A5 x5 ∧ A6 x6 := by
  rw [seq_out (Q := fun b => ∃ x1 x2 x3 x4 x5 x6, b = x1 ++ (x2 ++ (x3 ++ (x4 ++ (x5 ++ x6)))) ∧ A1 x1 ∧ A2 x2 ∧ A3 x3 ∧ A4 x4 ∧ A5 x5 ∧ A6 x6)
    hc hcc ?_ hl]
  · constructor
    · rintro ⟨_, h, x1, x2, x3, x4, x5, x6, rfl, g⟩; exact ⟨x1, x2, x3, x4, x5, x6, h, g⟩
    · rintro ⟨x1, x2, x3, x4, x5, x6, h, g⟩; exact ⟨_, h, x1, x2, x3, x4, x5, x6, rfl, g⟩
  · intro body hb
    simp only [he, Option.bind_eq_some_iff, Option.some.injEq]
    constructor
    · rintro ⟨e1, k1, e2, k2, e3, k3, e4, k4, e5, k5, e6, k6, rfl⟩
      simp only [List.length_append] at hb
      exact ⟨e1, e2, e3, e4, e5, e6, rfl, (h1 _ (by omega)).mp k1, (h2 _ (by omega)).mp k2, (h3 _ (by omega)).mp k3, (h4 _ (by omega)).mp k4,
        (h5 _ (by omega)).mp k5, (h6 _ (by omega)).mp k6⟩
    · rintro ⟨e1, e2, e3, e4, e5, e6, rfl, k1, k2, k3, k4, k5, k6⟩
      simp only [List.length_append] at hb
      exact ⟨e1, (h1 _ (by omega)).mpr k1, e2, (h2 _ (by omega)).mpr k2, e3, (h3 _ (by omega)).mpr k3, e4, (h4 _ (by omega)).mpr k4,
        e5, (h5 _ (by omega)).mpr k5, e6, (h6 _ (by omega)).mpr k6, rfl⟩

theorem ias_out {cert : Certificate} (hi : cert.rawIssuer ≠ []) {e : Bytes} (hl : e.length < 2 ^ 31) :
    marshalField issuerAndSerial {} ⟨{ full := cert.rawIssuer }, cert.serialNumber⟩ = some e ↔
      ∃ n ne, El 0x30 (cert.rawIssuer ++ ne) e ∧ cert.serialNumber = some n ∧ IntEl n ne := by
  rw [two_out (A := fun b => b = cert.rawIssuer) (B := fun b => ∃ n, cert.serialNumber = some n ∧ IntEl n b) rfl rfl rfl ?_ ?_ hl]
  · constructor
    · rintro ⟨_, y, h, rfl, n, g⟩; exact ⟨n, y, h, g⟩
    · rintro ⟨n, y, h, g⟩; exact ⟨_, y, h, rfl, n, g⟩
  · intro b _
    rw [marshalRaw_full _ _ hi (by simp)]
    simp [eq_comm]
  · intro b hb
    cases hs : cert.serialNumber with
    | none =>
      constructor
      · intro h
        have h : marshalField optInt {} none = some b := h
        rw [show marshalField optInt {} none = none by decide] at h
        cases h
      · rintro ⟨n, h, -⟩; cases h
    | some n =>
      rw [optInt_mf (d := none) (Or.inl rfl) hb]
      constructor
      · intro h; exact ⟨n, rfl, h⟩
      · rintro ⟨m, h, g⟩; obtain rfl := Option.some.inj h; exact g

/-- The signer the code makes, from its attributes and signature (pkcs7.go:276-283). -/
def signerOf (cert : Certificate) (al : List P7Attr) (sig : Bytes) : SignerInfo :=
  { version := 1, issuerAndSerialNumber := ⟨{ full := cert.rawIssuer }, cert.serialNumber⟩,
    authenticatedAttributes := some al, digestAlgorithm := ⟨oidDigestAlgorithmSM3, {}⟩,
    digestEncryptionAlgorithm := ⟨oidSignatureECDSASM2, {}⟩, encryptedDigest := sig }

/-- SignerInfo. -/
theorem signer_out {cert : Certificate} (hi : cert.rawIssuer ≠ []) {al : List P7Attr} {attrs sig : Bytes}
    (ha : marshalElems (marshalField p7Attr {}) al ≠ none) (ha' : ∀ es, marshalElems (marshalField p7Attr {}) al = some es → es.flatten = attrs)
    {e : Bytes} (hl : e.length < 2 ^ 31) :
    marshalField signerInfo {} (signerOf cert al sig) = some e ↔ SignerOut cert attrs sig e := by
  rw [six_out (f1 := marshalField goInt {} 1) (f2 := marshalField issuerAndSerial {} ⟨{ full := cert.rawIssuer }, cert.serialNumber⟩)
    (f3 := marshalField algId {} ⟨oidDigestAlgorithmSM3, {}⟩)
    (f4 := marshalField (nilable (seqOf p7Attr)) { opt := some none, tag := some 0 } (some al))
    (f5 := marshalField algId {} ⟨oidSignatureECDSASM2, {}⟩) (f6 := marshalField octets {} sig)
    (A4 := El 0xa0 attrs) rfl rfl ?_ (fun e he => goInt_mf he) (fun e he => ias_out hi he) (fun e he => algId_out oid_sm3_ok no_par he) ?_
    (fun e he => algId_out oid_sm2_ok no_par he) (fun e he => octets_mf he) hl]
  · unfold SignerOut
    constructor
    · rintro ⟨x1, x2, x3, x4, x5, x6, h, h1, ⟨n, ne, h2, h2', h2''⟩, h3, h4, h5, h6⟩
      exact ⟨x1, x2, ne, n, x3, x4, x5, x6, h, h1, h2, h2', h2'', h3, h4, h5, h6⟩
    · rintro ⟨x1, x2, ne, n, x3, x4, x5, x6, h, h1, h2, h2', h2'', h3, h4, h5, h6⟩
      exact ⟨x1, x2, x3, x4, x5, x6, h, h1, ⟨n, ne, h2, h2', h2''⟩, h3, h4, h5, h6⟩
  · have : marshalField (nilable (seqOf p7Attr)) { opt := some none, tag := some 1 } none = some [] := by decide
    simp only [signerInfo, signerOf, this, Option.bind_eq_bind, Option.bind_some, Option.pure_def, List.append_nil]
  · intro b hb
    rw [mf_tag_iff 0xa0 0 2 (by decide) rfl (by simp) (Or.inl ⟨rfl, rfl⟩) (show (0xa0 : UInt8) = octet 2 true 0 by decide) hb]
    obtain ⟨es, hes⟩ := Option.ne_none_iff_exists'.mp ha
    have : (nilable (seqOf p7Attr)).enc (some al) = some attrs := by
      simp only [nilable, seqOf, Option.getD_some, hes, Option.map_some, ha' _ hes]
    rw [this]
    constructor
    · rintro ⟨_, h, g⟩; obtain rfl := Option.some.inj g; exact h
    · intro h; exact ⟨_, h, rfl⟩

theorem p7content_out {o : Oid} (ho : OidOk o) {c e : Bytes} (hl : e.length < 2 ^ 31) :
    marshalField X509.contentInfo {} ⟨o, ⟨2, 0, true, c, []⟩⟩ = some e ↔ X509Spec.ContentOut o c e := by
  refine two_out rfl rfl rfl (fun _ he => oid_mf ho he) (fun e he => ?_) hl
  rw [marshalRaw_parts _ _ rfl (by simp)]
  simp only [Option.some.injEq, show (0xa0 : UInt8) = octet 2 true 0 by decide, el_iff 2 true 0 (by decide)]
  constructor
  · rintro rfl; exact ⟨rfl, Nat.lt_trans (encTLV_length_lt _ _ _ _) he⟩
  · rintro ⟨rfl, -⟩; rfl

theorem certs_out {cert : Certificate} (hr : cert.raw.length < 2 ^ 31) {e : Bytes} (hl : e.length < 2 ^ 31) :
    marshalField rawCertificates { opt := some [], tag := some 0 } (marshalCertificates [cert]) = some e ↔ El 0xa0 cert.raw e := by
  have hm : marshalCertificates [cert] = encTLV 2 true 0 cert.raw := by simp [marshalCertificates]
  rw [hm, mf_tag_iff 0xa0 0 2 (by decide) rfl (by
    intro h; exact encTLV_ne_nil _ _ _ _ (Option.some.inj h).symm) (Or.inl ⟨rfl, rfl⟩) (show (0xa0 : UInt8) = octet 2 true 0 by decide) hl]
  simp only [rawCertificates, Option.some.injEq]
  rw [if_neg (encTLV_ne_nil _ _ _ _), stripTagAndLength_tlv _ _ _ _ (by decide) (by decide) hr]
  simp

theorem crls_out {e : Bytes} (hl : e.length < 2 ^ 31) :
    marshalField (nilable (seqOf crl)) { opt := some none, tag := some 1 } (some []) = some e ↔ El 0xa1 [] e := by
  rw [mf_tag_iff 0xa1 1 2 (by decide) rfl (by simp) (Or.inl ⟨rfl, rfl⟩) (show (0xa1 : UInt8) = octet 2 true 1 by decide) hl]
  have : (nilable (seqOf crl)).enc (some []) = some [] := rfl
  rw [this]
  simp

/-- Everything, for any way of signing. -/
theorem newSignedData_out {cert : Certificate} (hi : cert.rawIssuer ≠ []) (hr : cert.raw.length < 2 ^ 31) {now : Time} (ht : ClockTime now)
    (sign : Bytes → Res Bytes) {data out : Bytes} (hl : out.length < 2 ^ 31) :
    newSignedDataWith cert (getSignerInfo cert sign now data) data = .ok out ↔
      ∃ attrs m sig, SignedAttrsOut now data attrs ∧ El 0x31 attrs m ∧ sign m = .ok sig ∧ SignedDataOut cert data attrs sig out := by
  obtain ⟨al, attrs, m, h1, h2, h3, h4, h5, h6⟩ := attrs_spec ht data
  have hsi : ∀ s, getSignerInfo cert sign now data = .ok s ↔ ∃ sig, sign m = .ok sig ∧
      s = signerOf cert al sig := by
    intro s
    unfold getSignerInfo
    rw [h1]
    simp only [h3, Res.bind_eq_ok, Res.pure_eq, Res.ok.injEq, ofOption_ok', Option.some.injEq, exists_eq_left']
    exact exists_congr fun _ => and_congr_right fun _ => eq_comm
  have hdata : ∀ sig, newSignedDataWith cert (.ok (signerOf cert al sig)) data = .ok out ↔ SignedDataOut cert data attrs sig out := by
    intro sig
    unfold newSignedDataWith
    simp only [Res.bind_eq_ok, ofOption_ok', Res.ok.injEq, exists_eq_left', marshal]
    have hd : ∀ content inner : Bytes, inner.length < 2 ^ 31 → (marshalField signedData {} (⟨1, [⟨oidDigestAlgorithmSM3, {}⟩],
        ⟨oidGMData, ⟨2, 0, true, content, []⟩⟩, marshalCertificates [cert], some [], [signerOf cert al sig]⟩) = some inner ↔
        ∃ x1 x2 x3 x4 x5 x6, El 0x30 (x1 ++ (x2 ++ (x3 ++ (x4 ++ (x5 ++ x6))))) inner ∧ IntEl 1 x1 ∧
          (∃ de, El 0x31 de x2 ∧ AlgOut oidDigestAlgorithmSM3 [] de) ∧ X509Spec.ContentOut oidGMData content x3 ∧
          El 0xa0 cert.raw x4 ∧ El 0xa1 [] x5 ∧ ∃ se, El 0x31 se x6 ∧ SignerOut cert attrs sig se) := by
      intro content inner hin
      exact six_out rfl rfl rfl (fun e he => goInt_mf he) (fun e he => set_one (fun e he => algId_out oid_sm3_ok no_par he) he)
        (fun e he => p7content_out oid_gmdata_ok he) (fun e he => certs_out hr he) (fun e he => crls_out he)
        (fun e he => set_one (fun e he => signer_out hi h5 h6 he) he) hin
    constructor
    · rintro ⟨content, g1, inner, g2, g3⟩
      have g3' := (p7content_out oid_gmsigned_ok hl).mp g3
      obtain ⟨oe, ce, k1, k2, k3⟩ := id g3'
      obtain ⟨x1, x2, x3, x4, x5, x6, f, f1, ⟨de, f2, f2'⟩, f3, f4, f5, se, f6, f6'⟩ := (hd content inner k3.2).mp g2
      obtain ⟨oe', ce', p1, p2, p3⟩ := id f3
      exact ⟨inner, x1, x2, de, x3, content, x4, x5, x6, se, g3', f, f1, f2, f2', f3, (octets_mf p3.2).mp g1, f4, f5, f6, f6'⟩
    · rintro ⟨inner, x1, x2, de, x3, content, x4, x5, x6, se, g3, f, f1, f2, f2', f3, g1, f4, f5, f6, f6'⟩
      obtain ⟨oe, ce, k1, k2, k3⟩ := id g3
      obtain ⟨oe', ce', p1, p2, p3⟩ := id f3
      exact ⟨content, (octets_mf p3.2).mpr g1, inner, (hd content inner k3.2).mpr ⟨x1, x2, x3, x4, x5, x6, f, f1, ⟨de, f2, f2'⟩, f3, f4, f5,
        se, f6, f6'⟩, (p7content_out oid_gmsigned_ok hl).mpr g3⟩
  constructor
  · intro h
    obtain ⟨s, hs⟩ := signer_ok h
    rw [hs] at h
    obtain ⟨sig, g1, rfl⟩ := (hsi _).mp hs
    exact ⟨attrs, m, sig, (h2 _).mpr rfl, (h4 _).mpr rfl, g1, (hdata sig).mp h⟩
  · rintro ⟨attrs', m', sig, g1, g2, g3, g4⟩
    obtain rfl := (h2 _).mp g1
    obtain rfl := (h4 _).mp g2
    rw [(hsi _).mpr ⟨sig, g3, rfl⟩]
    exact (hdata sig).mpr g4

/-! ## C112 -/

/-- C112: for every certificate, SM2 key (or any other), content, random source and reading of the clock, `NewSignedData` returns
exactly the octets of the specification with a signature by the key over the SET of the signed attributes; with another key
than SM2 or if the signature fails it returns no message. -/
theorem C112_new_signed_data (rd : Reader) (now : Time) (ht : ClockTime now) (cert : Certificate) (hi : cert.rawIssuer ≠ [])
    (hr : cert.raw.length < 2 ^ 31) (key : PrivKey) (data out : Bytes) (hl : out.length < 2 ^ 31) :
    NewSignedData rd now cert key data = .ok out ↔ ∃ k attrs m sig, key = .sm2 k ∧ SignedAttrsOut now data attrs ∧ El 0x31 attrs m ∧
      Sm2.sign rd k m [] = .ok sig ∧ SignedDataOut cert data attrs sig out := by
  unfold NewSignedData
  rw [newSignedData_out hi hr ht _ hl]
  constructor
  · rintro ⟨attrs, m, sig, h1, h2, h3, h4⟩
    cases key with
    | sm2 k => exact ⟨k, attrs, m, sig, rfl, h1, h2, h3, h4⟩
    | rsa k => cases h3
    | ecdsa k => cases h3
    | ed25519 k => cases h3
    | other k => cases h3
  · rintro ⟨k, attrs, m, sig, rfl, h1, h2, h3, h4⟩
    exact ⟨attrs, m, sig, h1, h2, h3, h4⟩

/-- C112: the same for `NewSignedDataCallBack`: the callback is given the SET of the signed attributes, its result is the
signature. -/
theorem C112_callback (now : Time) (ht : ClockTime now) (cert : Certificate) (hi : cert.rawIssuer ≠ [])
    (hr : cert.raw.length < 2 ^ 31) (f : Bytes → Option Bytes) (data out : Bytes) (hl : out.length < 2 ^ 31) :
    NewSignedDataCallBack now cert f data = .ok out ↔ ∃ attrs m sig, SignedAttrsOut now data attrs ∧ El 0x31 attrs m ∧
      f m = some sig ∧ SignedDataOut cert data attrs sig out := by
  unfold NewSignedDataCallBack
  rw [newSignedData_out hi hr ht _ hl]
  simp only [signWithCallback, ofOption_ok']

theorem p7Now_clock : ClockTime p7Now := ⟨by constructor <;> decide, by decide, by decide⟩

theorem p7Cert_issuer : p7Cert.rawIssuer ≠ [] := by rw [p7Cert_name.1]; simp

theorem p7Cert_rawlen : p7Cert.raw.length < 2 ^ 31 := by rw [p7Cert_raw.1]; decide +kernel

/-- The example of C58 is such a message. -/
example : ∃ attrs sig, SignedAttrsOut p7Now [97] attrs ∧ SignedDataOut p7Cert [97] attrs sig p7Out := by
  obtain ⟨_, attrs, _, sig, -, h1, -, -, h2⟩ := (C112_new_signed_data exRd p7Now p7Now_clock p7Cert p7Cert_issuer p7Cert_rawlen
    (.sm2 exKey) [97] p7Out (by rw [p7Out_length]; decide)).mp p7Out_ok
  exact ⟨attrs, sig, h1, h2⟩

/-- A callback that fails: there is no message. -/
example (out : Bytes) (hl : out.length < 2 ^ 31) : NewSignedDataCallBack p7Now p7Cert (fun _ => none) [97] ≠ .ok out := by
  intro h
  obtain ⟨_, _, _, -, -, h, -⟩ := (C112_callback p7Now p7Now_clock p7Cert p7Cert_issuer p7Cert_rawlen _ _ _ hl).mp h
  cases h

/-- A callback that signs: there is one. -/
example : ∃ out, NewSignedDataCallBack p7Now p7Cert (fun m => if m = p7M then some p7Sig else none) [97] = .ok out := by
  refine ⟨p7Out, ?_⟩
  have hs : getSignerInfo p7Cert (signWithCallback fun m => if m = p7M then some p7Sig else none) p7Now [97] = .ok p7Signer := by
    unfold getSignerInfo
    rw [p7Attrs_ok, Res.ofOption, Res.bind_ok, p7M_ok, Res.ofOption, Res.bind_ok, signWithCallback, if_pos rfl, Res.ofOption, Res.bind_ok,
      p7Cert_name.1, p7Cert_name.2]
    rfl
  have := p7Out_ok
  unfold NewSignedData at this
  rw [p7Signer_ok] at this
  unfold NewSignedDataCallBack
  rw [hs, this]

end MCrypto.Props
