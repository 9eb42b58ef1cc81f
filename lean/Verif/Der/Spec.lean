import Verif.Der.Lemmas
import Mathlib.Tactic.Ring
import Mathlib.Tactic.Positivity
import Mathlib.Tactic.Zify
import Mathlib.Tactic.ByContra
/-
X.690 (DER) rules for lengths and INTEGER contents, stated by value and minimality, and the proof
that the modelled cryptobyte routines implement exactly them.
-/
namespace MCrypto.DerSpec
open MCrypto MCrypto.Der

/-- X.690 8.3.3: the two's complement value of the contents octets. -/
def twosVal : Bytes → Int
  | [] => 0
  | c :: t => (ofBytes (c :: t) : Int) - (if 128 ≤ c.toNat then (256 ^ (t.length + 1) : Nat) else (0 : Nat))

/-- X.690 8.3: `b` is the contents of a DER INTEGER of value `n`: non-empty, right value, and no
shorter octet string has that value. -/
def IsInt (b : Bytes) (n : Int) : Prop :=
  b ≠ [] ∧ twosVal b = n ∧ ∀ c : Bytes, c ≠ [] → twosVal c = n → b.length ≤ c.length

/-- X.690 8.1.3 / 10.1: `l` are the DER length octets for `n`: the short form below 128, otherwise
a count octet followed by the base-256 digits of `n` without leading zero. -/
def IsLen (l : Bytes) (n : Nat) : Prop :=
  (n < 128 ∧ ∃ c : UInt8, l = [c] ∧ c.toNat = n) ∨
  (128 ≤ n ∧ ∃ c d : UInt8, ∃ t : Bytes, l = c :: d :: t ∧ c.toNat = 128 + (t.length + 1) ∧ d ≠ 0 ∧
    ofBytes (d :: t) = n)

/-- A DER element: identifier octet, length octets, contents. -/
def IsTLV (e : Bytes) (tag : UInt8) (body : Bytes) : Prop :=
  ∃ l, IsLen l body.length ∧ e = tag :: (l ++ body)

/-- SM2 signature value (GB/T 35276 / RFC 3279 style): SEQUENCE { r INTEGER, s INTEGER }. -/
def IsSig (b : Bytes) (r s : Int) : Prop :=
  ∃ rb sb re se, IsInt rb r ∧ IsInt sb s ∧ IsTLV re 0x02 rb ∧ IsTLV se 0x02 sb ∧ IsTLV b 0x30 (re ++ se)

/-! ### Agreement with the model -/

theorem isLen_iff (l : Bytes) (n : Nat) (hn : n < 256 ^ 127) : IsLen l n ↔ l = lenOctets n := by
  unfold IsLen lenOctets
  by_cases h : n ≤ 0x7f
  · rw [if_pos h]
    constructor
    · rintro (⟨-, c, rfl, hc⟩ | ⟨hh, -⟩)
      · rw [← hc, UInt8.ofNat_toNat]
      · omega
    · rintro rfl
      exact Or.inl ⟨by omega, _, rfl, u8_ofNat_toNat (by omega)⟩
  · rw [if_neg h]
    have hb : byteLen n ≤ 127 := (byteLen_le_iff _ _).mpr hn
    constructor
    · rintro (⟨hh, -⟩ | ⟨-, c, d, t, rfl, hc, hd, rfl⟩)
      · omega
      · have e := toBytes_ofBytes_cons d t hd
        have el : byteLen (ofBytes (d :: t)) = t.length + 1 := by
          rw [← toBytes_length, e]; rfl
        rw [e, el, show 0x80 + (t.length + 1) = c.toNat by omega, UInt8.ofNat_toNat]
    · rintro rfl
      right
      refine ⟨by omega, ?_⟩
      rcases hm : toBytes n with _ | ⟨d, t⟩
      · have := toBytes_eq_nil.mp hm; omega
      · have hl : byteLen n = t.length + 1 := by rw [← toBytes_length, hm]; rfl
        refine ⟨_, d, t, rfl, ?_, toBytes_cons_ne hm, ?_⟩
        · rw [hl, u8_ofNat_toNat (by omega)]
        · rw [← hm, ofBytes_toBytes]

theorem isTLV_iff (e : Bytes) (tag : UInt8) (body : Bytes) (h : body.length < 256 ^ 127) :
    IsTLV e tag body ↔ e = tlv tag body := by
  unfold IsTLV tlv
  constructor
  · rintro ⟨l, hl, rfl⟩; rw [(isLen_iff _ _ h).mp hl]
  · rintro rfl; exact ⟨_, (isLen_iff _ _ h).mpr rfl, rfl⟩

theorem twosVal_cons (c : UInt8) (t : Bytes) : twosVal (c :: t) =
    (ofBytes (c :: t) : Int) - (if 128 ≤ c.toNat then (256 ^ (t.length + 1) : Nat) else (0 : Nat) : Nat) := rfl

theorem ofBytes_not (b : Bytes) : ofBytes (b.map fun x => ~~~x) + ofBytes b + 1 = 256 ^ b.length := by
  induction b with
  | nil => rfl
  | cons c t ih =>
    rw [List.map_cons, ofBytes_cons, ofBytes_cons, List.length_map, List.length_cons, u8_not, pow_succ]
    have hc : c.toNat < 256 := c.toNat_lt
    have : (255 - c.toNat) * 256 ^ t.length + c.toNat * 256 ^ t.length = 255 * 256 ^ t.length := by
      rw [← Nat.add_mul]; congr 1; omega
    omega

theorem twosVal_range (c : UInt8) (t : Bytes) :
    -(128 * 256 ^ t.length : Int) ≤ twosVal (c :: t) ∧ twosVal (c :: t) < 128 * 256 ^ t.length := by
  simp only [twosVal_cons]
  rw [ofBytes_cons]
  have h1 := ofBytes_lt t
  have hc : c.toNat < 256 := c.toNat_lt
  have key : ((256 ^ t.length : Nat) : Int) = 256 ^ t.length := by push_cast; rfl
  have key2 : ((256 ^ (t.length + 1) : Nat) : Int) = 256 * 256 ^ t.length := by push_cast; ring
  rw [← key]
  generalize hm : 256 ^ t.length = m at *
  generalize ofBytes t = v at *
  by_cases h : 128 ≤ c.toNat
  · rw [if_pos h, key2, ← key]
    have a1 : 128 * m ≤ c.toNat * m := Nat.mul_le_mul_right m h
    have a2 : c.toNat * m ≤ 255 * m := Nat.mul_le_mul_right m (by omega)
    push_cast
    constructor <;> zify at a1 a2 h1 <;> omega
  · rw [if_neg h]
    have a2 : c.toNat * m ≤ 127 * m := Nat.mul_le_mul_right m (by omega)
    have a3 : (0 : Int) ≤ c.toNat * m := by positivity
    push_cast
    constructor <;> zify at a2 h1 <;> omega

theorem decInt_val {b : Bytes} (h : checkInt b = true) : decInt b = some (twosVal b) := by
  unfold decInt
  rw [if_pos h]
  rcases b with _ | ⟨c, t⟩
  · simp [checkInt] at h
  · simp only [List.headD_cons, u8_and80']
    simp only [twosVal_cons]
    by_cases hc : 128 ≤ c.toNat
    · rw [if_pos hc, if_pos hc]
      have := ofBytes_not (c :: t)
      rw [List.length_cons] at this
      congr 1
      omega
    · rw [if_neg hc, if_neg hc]
      simp

/-- Non-minimal contents can be shortened. -/
theorem twosVal_tail {c d : UInt8} {t : Bytes} (h : checkInt (c :: d :: t) = false) :
    twosVal (d :: t) = twosVal (c :: d :: t) := by
  simp only [checkInt, Bool.not_eq_false', Bool.or_eq_true, Bool.and_eq_true, beq_iff_eq,
    u8_and80, u8_and80'] at h
  simp only [twosVal_cons]
  rcases h with ⟨rfl, hd⟩ | ⟨rfl, hd⟩
  · rw [if_neg (by omega), if_neg (by decide), ofBytes_cons 0 (d :: t)]
    simp
  · rw [if_pos (by omega), if_pos (by decide), ofBytes_cons 0xff (d :: t), List.length_cons]
    have : ((256 ^ (t.length + 1 + 1) : Nat) : Int) = 256 * (256 ^ (t.length + 1) : Nat) := by
      push_cast; ring
    rw [this]
    have : ((0xff : UInt8).toNat) = 255 := rfl
    rw [this]
    push_cast
    ring

/-- Minimal contents of length ≥ 2 have a value that does not fit in fewer octets. -/
theorem twosVal_big {c d : UInt8} {t : Bytes} (h : checkInt (c :: d :: t) = true) :
    twosVal (c :: d :: t) < -(128 * 256 ^ t.length : Int) ∨ (128 * 256 ^ t.length : Int) ≤ twosVal (c :: d :: t) := by
  simp only [checkInt, Bool.not_eq_true', Bool.or_eq_false_iff, Bool.and_eq_false_iff, beq_eq_false_iff_ne,
    ne_eq, u8_and80, u8_and80'] at h
  obtain ⟨h1, h2⟩ := h
  simp only [twosVal_cons]
  rw [ofBytes_cons c (d :: t), ofBytes_cons d t, List.length_cons, pow_succ, pow_succ]
  have hv := ofBytes_lt t
  have key : ((256 ^ t.length : Nat) : Int) = 256 ^ t.length := by push_cast; rfl
  rw [← key]
  generalize hm : 256 ^ t.length = m at *
  generalize ofBytes t = v at *
  have hc : c.toNat < 256 := c.toNat_lt
  have hd : d.toNat < 256 := d.toNat_lt
  have c0 : c = 0 ↔ c.toNat = 0 := u8_eq_iff _ _
  have c1 : c = 0xff ↔ c.toNat = 255 := u8_eq_iff _ _
  rw [c0] at h1
  rw [c1] at h2
  have hmpos : 0 < m := by omega
  by_cases hcc : 128 ≤ c.toNat
  · rw [if_pos hcc]
    left
    rcases h2 with h2 | h2
    · have a1 : c.toNat * (m * 256) ≤ 254 * (m * 256) := Nat.mul_le_mul_right _ (by omega)
      have a2 : d.toNat * m ≤ 255 * m := Nat.mul_le_mul_right _ (by omega)
      push_cast
      zify at a1 a2 hv hmpos
      omega
    · have a1 : c.toNat * (m * 256) ≤ 255 * (m * 256) := Nat.mul_le_mul_right _ (by omega)
      have a2 : d.toNat * m ≤ 127 * m := Nat.mul_le_mul_right _ (by omega)
      push_cast
      zify at a1 a2 hv hmpos
      omega
  · rw [if_neg hcc]
    right
    rcases h1 with h1 | h1
    · have a1 : 1 * (m * 256) ≤ c.toNat * (m * 256) := Nat.mul_le_mul_right _ (by omega)
      push_cast
      zify at a1 hmpos
      have : (0 : Int) ≤ d.toNat * m := by positivity
      omega
    · have a2 : 128 * m ≤ d.toNat * m := Nat.mul_le_mul_right _ (by omega)
      push_cast
      zify at a2
      have : (0 : Int) ≤ c.toNat * (m * 256) := by positivity
      omega

theorem decInt_spec (b : Bytes) (n : Int) : decInt b = some n ↔ IsInt b n := by
  constructor
  · intro h
    have hck : checkInt b = true := by
      unfold decInt at h
      by_contra hh
      rw [if_neg hh] at h
      cases h
    rw [decInt_val hck] at h
    have hv := Option.some.inj h
    refine ⟨by rintro rfl; simp [checkInt] at hck, hv, ?_⟩
    intro e he hev
    rcases e with _ | ⟨e0, et⟩
    · exact absurd rfl he
    · rcases b with _ | ⟨c, _ | ⟨d, t⟩⟩
      · simp
      · simp
      · by_contra hlen
        simp only [List.length_cons, not_le] at hlen
        have h1 := twosVal_range e0 et
        have h2 := twosVal_big hck
        rw [hev, ← hv] at h1
        have h3 : (256 ^ et.length : Int) ≤ 256 ^ t.length := by
          exact_mod_cast Nat.pow_le_pow_right (by decide) (by omega)
        omega
  · rintro ⟨h1, h2, h3⟩
    have hck : checkInt b = true := by
      rcases b with _ | ⟨c, _ | ⟨d, t⟩⟩
      · exact absurd rfl h1
      · rfl
      · by_contra hh
        have hf : checkInt (c :: d :: t) = false := by simpa using hh
        have := h3 (d :: t) (by simp) (by rw [twosVal_tail hf, h2])
        simp at this
    rw [decInt_val hck, h2]

theorem isInt_iff (b : Bytes) (n : Int) : IsInt b n ↔ b = encInt n := by
  rw [← decInt_spec, decInt_iff]

end MCrypto.DerSpec
