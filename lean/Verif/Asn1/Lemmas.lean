import Verif.Asn1.Model
import Verif.Der.Lemmas
import Mathlib.Tactic.Ring
/-
Round-trip lemmas for the encoding/asn1 model.
-/
namespace MCrypto.Asn1
open MCrypto

/-! ## Headers -/

theorem parseLen_bytes (bs : Bytes) (acc : Nat) (r : Bytes)
    (h1 : acc * 256 ^ bs.length + ofBytes bs < 2 ^ 31)
    (h2 : acc ≠ 0 ∨ bs = [] ∨ bs.headD 0 ≠ 0) :
    parseLen bs.length acc (bs ++ r) = some (acc * 256 ^ bs.length + ofBytes bs, r) := by
  induction bs generalizing acc with
  | nil => simp [parseLen]
  | cons b t ih =>
    rw [ofBytes_cons] at h1
    rw [List.length_cons, List.cons_append, parseLen, ofBytes_cons]
    have hp : 1 ≤ 256 ^ t.length := Nat.pow_pos (by decide)
    have e1 : acc * 256 ^ (t.length + 1) + (b.toNat * 256 ^ t.length + ofBytes t) =
        (acc * 256 + b.toNat) * 256 ^ t.length + ofBytes t := by rw [Nat.pow_succ]; ring
    rw [List.length_cons, e1] at h1
    have hle : acc * 256 + b.toNat ≤ (acc * 256 + b.toNat) * 256 ^ t.length := Nat.le_mul_of_pos_right _ hp
    rw [if_neg (by omega)]
    simp only []
    have hnz : acc * 256 + b.toNat ≠ 0 := by
      rcases h2 with h2 | h2 | h2
      · omega
      · cases h2
      · have : b.toNat ≠ 0 := fun e => h2 (by rw [List.headD_cons]; exact UInt8.toNat_inj.mp e)
        omega
    rw [if_neg hnz, ih _ h1 (Or.inl hnz), e1]

theorem byteLen_le_four {n : Nat} (h : n < 2 ^ 31) : byteLen n ≤ 4 := by
  rw [byteLen_le_iff]; omega

theorem parseLength_lenOctets (n : Nat) (h : n < 2 ^ 31) (r : Bytes) :
    parseLength (Der.lenOctets n ++ r) = some (n, r) := by
  unfold Der.lenOctets
  split
  · rename_i hn
    rw [List.cons_append, List.nil_append, parseLength, UInt8.toNat_ofNat', if_pos (by omega)]
    congr 1; rw [Nat.mod_eq_of_lt (by omega)]
  · rename_i hn
    have h4 := byteLen_le_four h
    have h0 : n ≠ 0 := by omega
    have h1 := Der.byteLen_pos h0
    rw [List.cons_append, parseLength, Der.u8_ofNat_toNat (by omega), if_neg (by omega), if_neg (by omega)]
    rw [show 0x80 + byteLen n - 128 = (toBytes n).length by rw [toBytes_length]; omega]
    have hh : toBytes n = [] ∨ (toBytes n).headD 0 ≠ 0 := by
      match he : toBytes n with
      | [] => exact Or.inl rfl
      | c :: t => exact Or.inr (Der.toBytes_cons_ne he)
    have := parseLen_bytes (toBytes n) 0 r (by rw [Nat.zero_mul, ofBytes_toBytes]; omega) (Or.inr hh)
    rw [this, Nat.zero_mul, Nat.zero_add, ofBytes_toBytes]
    simp only []
    rw [if_neg (by omega)]

theorem parse128_enc (l n shifted acc : Nat) (r : Bytes) (hl : 1 ≤ l) (hs : shifted + l ≤ 5)
    (h0 : shifted ≠ 0 ∨ l = 1 ∨ n / 128 ^ (l - 1) % 128 ≠ 0)
    (hv : acc * 128 ^ l + n % 128 ^ l ≤ 2147483647) :
    parse128 shifted acc (enc128 l n ++ r) = some (acc * 128 ^ l + n % 128 ^ l, r) := by
  induction l generalizing shifted acc with
  | zero => omega
  | succ l ih =>
    match l with
    | 0 =>
      have hm : n % 128 < 256 := by omega
      rw [enc128, List.cons_append, List.nil_append, parse128, Der.u8_ofNat_toNat hm, if_neg (by omega),
        if_neg (by omega)]
      simp only [Nat.zero_add, Nat.pow_one] at hv ⊢
      rw [if_pos (by omega), Nat.mod_mod, if_neg (by omega)]
    | l + 1 =>
      have hd : n / 128 ^ (l + 1) % 128 < 128 := Nat.mod_lt _ (by decide)
      rw [enc128, List.cons_append, parse128, Der.u8_ofNat_toNat (by omega), if_neg (by omega), if_neg (by
        simp only [show l + 1 + 1 - 1 = l + 1 by omega] at h0; omega)]
      simp only []
      have e : (acc * 128 + (128 + n / 128 ^ (l + 1) % 128) % 128) * 128 ^ (l + 1) + n % 128 ^ (l + 1) =
          acc * 128 ^ (l + 1 + 1) + n % 128 ^ (l + 1 + 1) := by
        rw [Nat.add_mod_left, Nat.mod_mod, Nat.pow_succ 128 (l + 1), Nat.mod_mul]; ring
      rw [if_neg (by omega), ih _ _ (by omega) (by omega) (Or.inl (by omega)) (by rw [e]; exact hv), e]

theorem lt_pow_len128 (n : Nat) : n < 128 ^ len128 n := by
  unfold len128
  split
  · omega
  · have h : n < 2 ^ (n.log2 + 1) := Nat.lt_log2_self
    refine Nat.lt_of_lt_of_le h ?_
    rw [show (128 : Nat) = 2 ^ 7 from rfl, ← Nat.pow_mul]
    exact Nat.pow_le_pow_right (by decide) (by omega)

theorem len128_le_five {n : Nat} (h : n ≤ 2147483647) : len128 n ≤ 5 := by
  unfold len128
  split
  · omega
  · rename_i h0
    have : n.log2 < 31 := (Nat.log2_lt h0).mpr (by omega)
    omega

theorem parse128_base128 (n : Nat) (h : n ≤ 2147483647) (r : Bytes) :
    parse128 0 0 (base128 n ++ r) = some (n, r) := by
  have h1 : 1 ≤ len128 n := by unfold len128; split <;> omega
  have hm : n % 128 ^ len128 n = n := Nat.mod_eq_of_lt (lt_pow_len128 n)
  have := parse128_enc (len128 n) n 0 0 r h1 (by have := len128_le_five h; omega) (by
    right
    by_cases hn : n = 0
    · left; simp [len128, hn]
    · right
      unfold len128
      rw [if_neg hn]
      have hle : 2 ^ n.log2 ≤ n := Nat.log2_self_le hn
      have hpow : 128 ^ (n.log2 / 7 + 1 - 1) ≤ n := by
        refine Nat.le_trans ?_ hle
        rw [show (128 : Nat) = 2 ^ 7 from rfl, ← Nat.pow_mul]
        exact Nat.pow_le_pow_right (by decide) (by omega)
      have h3 : 1 ≤ n / 128 ^ (n.log2 / 7 + 1 - 1) := (Nat.one_le_div_iff (Nat.pow_pos (by decide))).mpr hpow
      have h4 : n / 128 ^ (n.log2 / 7 + 1 - 1) < 128 := by
        rw [Nat.div_lt_iff_lt_mul (Nat.pow_pos (by decide))]
        have := lt_pow_len128 n
        unfold len128 at this
        rw [if_neg hn] at this
        rw [Nat.add_sub_cancel, Nat.mul_comm, ← Nat.pow_succ]; exact this
      rw [Nat.mod_eq_of_lt h4]; omega) (by rw [hm]; omega)
  rw [base128, this, hm, Nat.zero_mul, Nat.zero_add]

theorem parseHdr_encHdr (cls : Nat) (comp : Bool) (tag len : Nat) (r : Bytes) (hc : cls < 4)
    (ht : tag ≤ 2147483647) (hl : len < 2 ^ 31) :
    parseHdr (encHdr cls comp tag len ++ r) = some (⟨cls, comp, tag, len⟩, r) := by
  have hcomp : (if comp then 32 else 0 : Nat) ≤ 32 := by cases comp <;> simp
  unfold encHdr
  simp only []
  by_cases h : tag ≥ 31
  · rw [if_pos h, List.append_assoc, List.cons_append, parseHdr]
    have hb : (UInt8.ofNat (cls * 64 + (if comp then 32 else 0) + 31)).toNat =
        cls * 64 + (if comp then 32 else 0) + 31 := Der.u8_ofNat_toNat (by omega)
    have : parseTagNo (UInt8.ofNat (cls * 64 + (if comp then 32 else 0) + 31))
        (base128 tag ++ (Der.lenOctets len ++ r)) = some (tag, Der.lenOctets len ++ r) := by
      unfold parseTagNo
      rw [hb, if_pos (by cases comp <;> simp <;> omega), parse128_base128 _ ht]
      simp only []
      rw [if_neg (by omega)]
    rw [this]
    simp only []
    rw [parseLength_lenOctets _ hl]
    simp only [hb]
    cases comp <;> simp <;> omega
  · rw [if_neg h, List.append_assoc, List.cons_append, List.nil_append, parseHdr]
    have hb : (UInt8.ofNat (cls * 64 + (if comp then 32 else 0) + tag)).toNat =
        cls * 64 + (if comp then 32 else 0) + tag := Der.u8_ofNat_toNat (by omega)
    have : parseTagNo (UInt8.ofNat (cls * 64 + (if comp then 32 else 0) + tag))
        (Der.lenOctets len ++ r) = some (tag, Der.lenOctets len ++ r) := by
      unfold parseTagNo
      rw [hb, if_neg (by cases comp <;> simp <;> omega)]
      congr 2
      cases comp <;> simp <;> omega
    rw [this]
    simp only []
    rw [parseLength_lenOctets _ hl]
    simp only [hb]
    cases comp <;> simp <;> omega

theorem encHdr_ne_nil (cls : Nat) (comp : Bool) (tag len : Nat) : encHdr cls comp tag len ≠ [] := by
  unfold encHdr; simp only []; split <;> simp

theorem encTLV_ne_nil (cls : Nat) (comp : Bool) (tag : Nat) (body : Bytes) : encTLV cls comp tag body ≠ [] := by
  unfold encTLV
  intro h
  exact encHdr_ne_nil _ _ _ _ (List.append_eq_nil_iff.mp h).1

theorem encTLV_length_lt (cls : Nat) (comp : Bool) (tag : Nat) (body : Bytes) :
    body.length < (encTLV cls comp tag body).length := by
  unfold encTLV
  rw [List.length_append]
  have := List.length_pos_iff.mpr (encHdr_ne_nil cls comp tag body.length)
  omega

theorem parseHdr_encTLV (cls : Nat) (comp : Bool) (tag : Nat) (body r : Bytes) (hc : cls < 4)
    (ht : tag ≤ 2147483647) (hl : body.length < 2 ^ 31) :
    parseHdr (encTLV cls comp tag body ++ r) = some (⟨cls, comp, tag, body.length⟩, body ++ r) := by
  unfold encTLV
  rw [List.append_assoc, parseHdr_encHdr _ _ _ _ _ hc ht hl]

/-! ## Fields -/

/-- The expected class and tag of a field after explicit unwrapping. -/
def expTag {α : Type} (c : Codec α) (p : Params α) : Nat :=
  (if p.explicit then none else p.tag).getD (if p.set then 17 else c.tag)

def expCls {α : Type} (p : Params α) : Nat :=
  if (if p.explicit then none else p.tag).isSome then 2 else 0

theorem take_full (pre body rest : Bytes) :
    ((pre ++ (body ++ rest)).take ((pre ++ (body ++ rest)).length - ((body ++ rest).length - body.length))) =
      pre ++ body := by
  rw [show (pre ++ (body ++ rest)).length - ((body ++ rest).length - body.length) = (pre ++ body).length by
    simp [List.length_append]; omega]
  rw [← List.append_assoc, List.take_left]

/-- What a codec must satisfy: decoding what it encoded gives the value back. -/
def Codec.Law {α : Type} (c : Codec α) : Prop :=
  ∀ v body full, c.enc v = some body → c.dec body full = some v

/-- The value `v` is recovered from its own encoding. -/
def Codec.LawAt {α : Type} (c : Codec α) (v : α) : Prop :=
  ∀ body full, c.enc v = some body → c.dec body full = some v

theorem parseBody_ok {α : Type} (c : Codec α) (p : Params α) (pre body rest : Bytes) (v : α)
    (hd : c.dec body (pre ++ body) = some v) :
    parseBody c p (pre ++ (body ++ rest)) ⟨expCls p, c.compound, expTag c p, body.length⟩ (body ++ rest) =
      some (v, rest) := by
  unfold parseBody
  simp only []
  rw [if_neg (by
    intro h
    rcases h with h | h
    · exact h ⟨rfl, rfl⟩
    · exact h rfl), if_neg (by simp), take_full, List.take_left, List.drop_left, hd]

theorem parseBody_body {α : Type} (c : Codec α) (p : Params α) (b : Bytes) (t : Hdr) (body rest : Bytes) (v : α)
    (h1 : t.cls = expCls p) (h2 : t.tag = expTag c p) (h3 : t.compound = c.compound) (h4 : t.len = body.length)
    (hd : ∀ full, c.dec body full = some v) :
    parseBody c p b t (body ++ rest) = some (v, rest) := by
  unfold parseBody
  simp only []
  rw [if_neg (by
    intro h
    rcases h with h | h
    · exact h ⟨h1, h2⟩
    · exact h h3), if_neg (by rw [h4]; simp), h4, List.take_left, List.drop_left, hd]

/-- Parsing a marshalled field that was not left out. -/
theorem parseField_marshal {α : Type} [DecidableEq α] (c : Codec α) (p : Params α) (v : α) (e rest : Bytes)
    (hlaw : c.LawAt v) (hm : marshalField c p v = some e) (hp : p.opt ≠ some v)
    (hlen : e.length < 2 ^ 31) (hct : c.tag ≤ 2147483647) (hpt : ∀ n, p.tag = some n → n ≤ 2147483647)
    (hex : p.explicit = true → p.tag ≠ none) :
    parseField c p (e ++ rest) = some (v, rest) := by
  unfold marshalField at hm
  rw [if_neg hp] at hm
  match hb : c.enc v with
  | none => rw [hb] at hm; cases hm
  | some body =>
    rw [hb] at hm
    simp only [] at hm
    have hdec : ∀ full, c.dec body full = some v := fun full => hlaw body full hb
    have hset : (if p.set then 17 else c.tag) ≤ 2147483647 := by split <;> omega
    match hpt' : p.tag with
    | none =>
      have hexF : p.explicit = false := by
        by_contra hc
        exact hex (by simpa using hc) hpt'
      rw [hpt'] at hm
      simp only [Option.some.injEq] at hm
      subst hm
      have hbl := encTLV_length_lt 0 c.compound (if p.set then 17 else c.tag) body
      unfold parseField
      rw [if_neg (by intro h; exact encTLV_ne_nil _ _ _ _ (List.append_eq_nil_iff.mp h).1),
        parseHdr_encTLV _ _ _ _ _ (by decide) hset (by omega)]
      simp only [hexF, Bool.false_eq_true, if_false]
      refine parseBody_body c p _ _ body rest v ?_ ?_ rfl rfl hdec
      · simp [expCls, hexF, hpt']
      · simp [expTag, hexF, hpt']
    | some n =>
      have hn := hpt n hpt'
      rw [hpt'] at hm
      simp only [] at hm
      cases hexp : p.explicit with
      | false =>
        rw [hexp] at hm
        simp only [Bool.false_eq_true, if_false, Option.some.injEq] at hm
        subst hm
        have hbl := encTLV_length_lt 2 c.compound n body
        unfold parseField
        rw [if_neg (by intro h; exact encTLV_ne_nil _ _ _ _ (List.append_eq_nil_iff.mp h).1),
          parseHdr_encTLV _ _ _ _ _ (by decide) hn (by omega)]
        simp only [hexp, Bool.false_eq_true, if_false]
        refine parseBody_body c p _ _ body rest v ?_ ?_ rfl rfl hdec
        · simp [expCls, hexp, hpt']
        · simp [expTag, hexp, hpt']
      | true =>
        rw [hexp] at hm
        simp only [if_true, Option.some.injEq] at hm
        subst hm
        have hbl := encTLV_length_lt 0 c.compound (if p.set then 17 else c.tag) body
        have hbl2 := encTLV_length_lt 2 true n (encTLV 0 c.compound (if p.set then 17 else c.tag) body)
        have hne := encTLV_ne_nil 0 c.compound (if p.set then 17 else c.tag) body
        unfold parseField
        rw [if_neg (by intro h; exact encTLV_ne_nil _ _ _ _ (List.append_eq_nil_iff.mp h).1),
          parseHdr_encTLV _ _ _ _ _ (by decide) hn (by omega)]
        simp only [hexp, if_true]
        rw [if_neg (by intro h; exact hne (List.append_eq_nil_iff.mp h).1),
          if_pos ⟨trivial, hpt'.symm, Or.inr trivial⟩,
          if_neg (by omega), parseHdr_encTLV _ _ _ _ _ (by decide) hset (by omega)]
        refine parseBody_body c p _ _ body rest v ?_ ?_ rfl rfl hdec
        · simp [expCls, hexp]
        · simp [expTag, hexp]

/-- Marshalling an optional field with its default value gives nothing. -/
theorem marshalField_absent {α : Type} [DecidableEq α] (c : Codec α) (p : Params α) (v : α) (h : p.opt = some v) :
    marshalField c p v = some [] := by
  unfold marshalField; rw [if_pos h]

theorem parseField_nil {α : Type} (c : Codec α) (p : Params α) (v : α) (h : p.opt = some v) :
    parseField c p [] = some (v, []) := by
  unfold parseField; rw [if_pos rfl]; unfold absent; rw [h]

/-- An optional field is skipped when the next element has another class or tag. -/
theorem parseField_skip {α : Type} (c : Codec α) (p : Params α) (v : α) (h : p.opt = some v)
    (cls : Nat) (comp : Bool) (tag : Nat) (body rest : Bytes)
    (hc : cls < 4) (ht : tag ≤ 2147483647) (hl : body.length < 2 ^ 31)
    (hne : if p.explicit then (cls ≠ 2 ∨ some tag ≠ p.tag) ∧ body ++ rest ≠ []
      else ¬ (cls = expCls p ∧ tag = expTag c p)) :
    parseField c p (encTLV cls comp tag body ++ rest) = some (v, encTLV cls comp tag body ++ rest) := by
  unfold parseField
  rw [if_neg (by intro h; exact encTLV_ne_nil _ _ _ _ (List.append_eq_nil_iff.mp h).1),
    parseHdr_encTLV _ _ _ _ _ hc ht hl]
  simp only []
  cases hexp : p.explicit with
  | true =>
    rw [hexp] at hne
    simp only [if_true] at hne
    rw [if_pos rfl, if_neg hne.2, if_neg (by
      rintro ⟨a, b, _⟩
      rcases hne.1 with h' | h'
      · exact h' a
      · exact h' b)]
    unfold absent; rw [h]
  | false =>
    rw [hexp] at hne
    simp only [Bool.false_eq_true, if_false] at hne ⊢
    unfold parseBody
    simp only []
    unfold expCls expTag at hne
    rw [if_pos (Or.inl hne)]
    unfold absent; rw [h]

/-! ## RawValue -/

/-- The RawValue of an element. -/
def rawOf (cls : Nat) (comp : Bool) (tag : Nat) (body : Bytes) : RawValue :=
  ⟨cls, tag, comp, body, encTLV cls comp tag body⟩

theorem parseRaw_encTLV (p : Params RawValue) (cls : Nat) (comp : Bool) (tag : Nat) (body rest : Bytes)
    (hc : cls < 4) (ht : tag ≤ 2147483647) (hl : body.length < 2 ^ 31)
    (h : if p.explicit then cls = 2 ∧ some tag = p.tag ∧ comp = true ∧ body ++ rest ≠ []
      else p.tag = none ∨ (cls = 2 ∧ some tag = p.tag)) :
    parseRaw p (encTLV cls comp tag body ++ rest) = some (rawOf cls comp tag body, rest) := by
  unfold parseRaw
  rw [if_neg (by intro h; exact encTLV_ne_nil _ _ _ _ (List.append_eq_nil_iff.mp h).1),
    parseHdr_encTLV _ _ _ _ _ hc ht hl]
  simp only []
  have hfull : (encTLV cls comp tag body ++ rest).take
      ((encTLV cls comp tag body ++ rest).length - ((body ++ rest).length - body.length)) =
      encTLV cls comp tag body := by
    rw [show (encTLV cls comp tag body ++ rest).length - ((body ++ rest).length - body.length) =
      (encTLV cls comp tag body).length by simp [List.length_append]]
    rw [List.take_left]
  cases hexp : p.explicit with
  | true =>
    rw [hexp] at h
    simp only [if_true] at h
    obtain ⟨h1, h2, h3, h4⟩ := h
    rw [if_neg (by rintro ⟨_, h⟩; exact h4 h), if_neg (by simp [h1, h2, h3]), if_neg (by simp), hfull,
      List.take_left, List.drop_left]
    rfl
  | false =>
    rw [hexp] at h
    simp only [Bool.false_eq_true, if_false, false_and] at h ⊢
    rw [if_neg (by
      rcases h with h | ⟨h1, h2⟩
      · simp [h]
      · rw [← h2]; simp [h1]), if_neg (by simp), hfull, List.take_left, List.drop_left]
    rfl

theorem marshalRaw_full (p : Params RawValue) (v : RawValue) (hf : v.full ≠ []) (h : p.opt ≠ some v) :
    marshalRaw p v = some v.full := by
  unfold marshalRaw; rw [if_neg h, if_pos hf]

theorem marshalRaw_parts (p : Params RawValue) (v : RawValue) (hf : v.full = []) (h : p.opt ≠ some v) :
    marshalRaw p v = some (encTLV v.cls v.compound v.tag v.bytes) := by
  unfold marshalRaw; rw [if_neg h, if_neg (by simpa using hf)]

theorem parseRaw_nil (p : Params RawValue) (v : RawValue) (h : p.opt = some v) :
    parseRaw p [] = some (v, []) := by
  unfold parseRaw; rw [if_pos rfl]; unfold absent; rw [h]

/-! ## Primitive codecs -/

theorem octets_law : octets.Law := by
  intro v body full h
  simp only [octets, Option.some.injEq] at h ⊢
  exact h.symm

theorem bigInt_law : bigInt.Law := by
  intro v body full h
  simp only [bigInt, Option.some.injEq] at h
  subst h
  exact Der.decInt_encInt v

theorem encInt_length_int64 (n : Int) (h1 : -(2 ^ 63 : Int) ≤ n) (h2 : n < 2 ^ 63) :
    (Der.encInt n).length ≤ 8 := by
  have key : ∀ m : Nat, m < 2 ^ 63 → (Der.encNat m).length ≤ 8 := by
    intro m hm
    have hl : byteLen m ≤ 8 := (byteLen_le_iff m 8).mpr (by
      have : (256 : Nat) ^ 8 = 2 ^ 64 := by norm_num
      omega)
    match hb : toBytes m with
    | [] => simp [Der.encNat, hb]
    | c :: t =>
      have hlen : (toBytes m).length = byteLen m := toBytes_length m
      rw [hb, List.length_cons] at hlen
      unfold Der.encNat
      rw [hb]
      simp only []
      split
      · rename_i hc
        -- the first byte is at least 128: then m ≥ 128 * 256 ^ t.length
        have hv : ofBytes (c :: t) = m := by rw [← hb, ofBytes_toBytes]
        rw [ofBytes_cons] at hv
        have hc' : 128 ≤ c.toNat := hc
        by_contra hgt
        have htl : 7 ≤ t.length := by simp only [List.length_cons] at hgt; omega
        have hp : (256 : Nat) ^ 7 ≤ 256 ^ t.length := Nat.pow_le_pow_right (by decide) htl
        have : 128 * 256 ^ 7 ≤ c.toNat * 256 ^ t.length := Nat.mul_le_mul hc' hp
        have e : 128 * (256 : Nat) ^ 7 = 2 ^ 63 := by norm_num
        omega
      · rw [List.length_cons]; omega
  rcases Der.int_cases n with ⟨m, rfl⟩ | ⟨m, rfl⟩
  · rw [Der.encInt_nonneg]; exact key m (by omega)
  · rw [Der.encInt_neg, List.length_map]; exact key m (by omega)

theorem goInt_law (n : Int) (h1 : -(2 ^ 63 : Int) ≤ n) (h2 : n < 2 ^ 63) : goInt.LawAt n := by
  intro body full h
  simp only [goInt, Option.some.injEq] at h ⊢
  subst h
  rw [if_neg (by have := encInt_length_int64 n h1 h2; omega), Der.decInt_encInt]

theorem bool_law : bool.Law := by
  intro v body full h
  simp only [bool, Option.some.injEq] at h
  subst h
  cases v <;> rfl

theorem parseArcs_enc (l : List Nat) (h : ∀ n ∈ l, n ≤ 2147483647) (k : Nat)
    (hk : (l.flatMap base128).length ≤ k) : parseArcs k (l.flatMap base128) = some l := by
  induction l generalizing k with
  | nil => cases k <;> rfl
  | cons a l ih =>
    rw [List.flatMap_cons] at hk ⊢
    have hp := parse128_base128 a (h a (by simp)) (l.flatMap base128)
    have hpos : 0 < (base128 a).length := by
      unfold base128 len128
      split
      · simp [enc128]
      · generalize a.log2 / 7 = m
        cases m <;> simp [enc128]
    rw [List.length_append] at hk
    match k, hk with
    | 0, hk => omega
    | k + 1, hk =>
      match he : base128 a ++ l.flatMap base128, hp with
      | [], hp => simp [parse128] at hp
      | b :: r, hp =>
        rw [parseArcs, hp]
        simp only []
        rw [ih (fun n hn => h n (by simp [hn])) k (by omega)]

/-- An OID that `encoding/asn1` can represent. -/
def OidOk (o : Oid) : Prop :=
  ∃ a b l, o = a :: b :: l ∧ (a < 2 ∧ b < 40 ∨ a = 2 ∧ b ≤ 2147483567) ∧ ∀ n ∈ l, n ≤ 2147483647

theorem encOid_ok {o : Oid} (h : OidOk o) : ∃ e, encOid o = some e := by
  obtain ⟨a, b, l, rfl, hab, _⟩ := h
  exact ⟨_, by rw [encOid, if_neg (by omega)]⟩

theorem oid_law {o : Oid} (h : OidOk o) : oid.LawAt o := by
  intro body full he
  obtain ⟨a, b, l, rfl, hab, hl⟩ := h
  simp only [oid] at he ⊢
  rw [encOid, if_neg (by omega)] at he
  injection he with he
  subst he
  unfold decOid
  rw [parse128_base128 _ (by omega)]
  simp only []
  rw [parseArcs_enc l hl _ (Nat.le_refl _)]
  simp only []
  split
  · congr 2
    · omega
    · congr 1; omega
  · congr 2
    · omega
    · congr 1; omega

/-- A whole number of octets (what /repo marshals): decoding gives the bytes and their bit count. -/
theorem decBits_encBits (b : Bytes) (n : Nat) (h : n % 8 = 0) :
    decBits (encBits ⟨b, n⟩) = some ⟨b, b.length * 8⟩ := by
  unfold encBits decBits
  simp only [h, Nat.sub_zero]
  rw [if_neg (by simp [Nat.mod_one])]
  rfl

/-! ## Slices -/

theorem marshalElems_cons {α : Type} (mf : α → Option Bytes) (v : α) (l : List α) (es : List Bytes)
    (h : marshalElems mf (v :: l) = some es) :
    ∃ e es', mf v = some e ∧ marshalElems mf l = some es' ∧ es = e :: es' := by
  rw [marshalElems] at h
  match h1 : mf v, h2 : marshalElems mf l with
  | some e, some es' => rw [h1, h2] at h; simp only [Option.some.injEq] at h; exact ⟨e, es', rfl, rfl, h.symm⟩
  | none, _ => rw [h1] at h; simp at h
  | some e, none => rw [h1, h2] at h; simp at h

theorem marshalElems_length {α : Type} (mf : α → Option Bytes) (l : List α) (es : List Bytes)
    (h : marshalElems mf l = some es) : es.length = l.length := by
  induction l generalizing es with
  | nil => simp [marshalElems] at h; subst h; rfl
  | cons v l ih =>
    obtain ⟨e, es', _, h2, rfl⟩ := marshalElems_cons mf v l es h
    simp [ih _ h2]

theorem checkElems_tlvs (chk : Hdr → Bool) (els : List (Nat × Bool × Nat × Bytes))
    (hok : ∀ x ∈ els, x.1 < 4 ∧ x.2.2.1 ≤ 2147483647 ∧ x.2.2.2.length < 2 ^ 31 ∧
      chk ⟨x.1, x.2.1, x.2.2.1, x.2.2.2.length⟩ = true) (n : Nat)
    (hn : (els.flatMap fun x => encTLV x.1 x.2.1 x.2.2.1 x.2.2.2).length ≤ n) :
    checkElems chk n (els.flatMap fun x => encTLV x.1 x.2.1 x.2.2.1 x.2.2.2) = some els.length := by
  induction els generalizing n with
  | nil => cases n <;> rfl
  | cons x els ih =>
    obtain ⟨h1, h2, h3, h4⟩ := hok x (by simp)
    rw [List.flatMap_cons] at hn ⊢
    have hpos := List.length_pos_iff.mpr (encTLV_ne_nil x.1 x.2.1 x.2.2.1 x.2.2.2)
    rw [List.length_append] at hn
    have hp := parseHdr_encTLV x.1 x.2.1 x.2.2.1 x.2.2.2
      (els.flatMap fun x => encTLV x.1 x.2.1 x.2.2.1 x.2.2.2) h1 h2 h3
    match n, hn with
    | 0, hn => omega
    | n + 1, hn =>
      match he : encTLV x.1 x.2.1 x.2.2.1 x.2.2.2 ++ (els.flatMap fun x => encTLV x.1 x.2.1 x.2.2.1 x.2.2.2), hp with
      | [], hp => simp [parseHdr] at hp
      | b :: r, hp =>
        rw [checkElems, hp]
        simp only []
        rw [if_neg (by simp [h4]), if_neg (by simp), List.drop_left, ih (fun y hy => hok y (by simp [hy])) n (by omega)]
        rfl

theorem parseElems_ok {α : Type} (pf : Bytes → Option (α × Bytes)) (mf : α → Option Bytes) (l : List α)
    (es : List Bytes) (h : marshalElems mf l = some es)
    (hrt : ∀ v ∈ l, ∀ e rest, mf v = some e → pf (e ++ rest) = some (v, rest)) :
    parseElems pf l.length es.flatten = some l := by
  induction l generalizing es with
  | nil => rfl
  | cons v l ih =>
    obtain ⟨e, es', h1, h2, rfl⟩ := marshalElems_cons mf v l es h
    rw [List.length_cons, parseElems, List.flatten_cons, hrt v (by simp) e es'.flatten h1]
    simp only []
    rw [ih es' h2 (fun w hw => hrt w (by simp [hw]))]

/-- A codec whose encodings are single elements with the universal tag. -/
theorem marshal_tlv {α : Type} [DecidableEq α] (c : Codec α) (v : α) (e : Bytes)
    (h : marshalField c {} v = some e) : ∃ body, c.enc v = some body ∧ e = encTLV 0 c.compound c.tag body := by
  unfold marshalField at h
  rw [if_neg (by simp)] at h
  match hb : c.enc v with
  | none => rw [hb] at h; cases h
  | some body => rw [hb] at h; simp at h; exact ⟨body, rfl, h.symm⟩

/-- If the parts concatenate to fewer than 2^31 bytes, so is each. -/
theorem flatten_mem_length {es : List Bytes} {e : Bytes} (h : e ∈ es) : e.length ≤ es.flatten.length := by
  induction es with
  | nil => cases h
  | cons x es ih =>
    rw [List.flatten_cons, List.length_append]
    rcases List.mem_cons.mp h with rfl | h
    · omega
    · have := ih h; omega

theorem marshalElems_mem {α : Type} (mf : α → Option Bytes) (l : List α) (es : List Bytes)
    (h : marshalElems mf l = some es) (v : α) (hv : v ∈ l) : ∃ e ∈ es, mf v = some e := by
  induction l generalizing es with
  | nil => cases hv
  | cons w l ih =>
    obtain ⟨e, es', h1, h2, rfl⟩ := marshalElems_cons mf w l es h
    rcases List.mem_cons.mp hv with rfl | hv
    · exact ⟨e, by simp, h1⟩
    · obtain ⟨e', he', h'⟩ := ih es' h2 hv
      exact ⟨e', by simp [he'], h'⟩

theorem marshalElems_mem' {α : Type} (mf : α → Option Bytes) (l : List α) (es : List Bytes)
    (h : marshalElems mf l = some es) (e : Bytes) (he : e ∈ es) : ∃ v ∈ l, mf v = some e := by
  induction l generalizing es with
  | nil => simp [marshalElems] at h; subst h; cases he
  | cons w l ih =>
    obtain ⟨e1, es', h1, h2, rfl⟩ := marshalElems_cons mf w l es h
    rcases List.mem_cons.mp he with rfl | he
    · exact ⟨w, by simp, h1⟩
    · obtain ⟨v, hv, h'⟩ := ih es' h2 he
      exact ⟨v, by simp [hv], h'⟩

theorem parseSeqOf_ok {α : Type} [DecidableEq α] (c : Codec α) (hct : c.tag ≤ 2147483647) (l : List α)
    (hlaw : ∀ v ∈ l, c.LawAt v) (es : List Bytes) (h : marshalElems (marshalField c {}) l = some es)
    (hlen : es.flatten.length < 2 ^ 31) :
    parseSeqOf (fun t => decide (t.cls = 0 ∧ t.tag = c.tag ∧ t.compound = c.compound)) (parseField c {})
      es.flatten = some l := by
  -- the elements as tagged elements
  have hels : ∃ els : List (Nat × Bool × Nat × Bytes), es = els.map (fun x => encTLV x.1 x.2.1 x.2.2.1 x.2.2.2) ∧
      ∀ x ∈ els, x.1 = 0 ∧ x.2.1 = c.compound ∧ x.2.2.1 = c.tag := by
    clear hlaw hlen
    induction l generalizing es with
    | nil => simp [marshalElems] at h; subst h; exact ⟨[], rfl, by simp⟩
    | cons w l ih =>
      obtain ⟨e1, es', h1, h2, rfl⟩ := marshalElems_cons _ w l es h
      obtain ⟨els, rfl, hx⟩ := ih es' h2
      obtain ⟨body, _, rfl⟩ := marshal_tlv c w e1 h1
      refine ⟨(0, c.compound, c.tag, body) :: els, rfl, ?_⟩
      intro x hx'
      rcases List.mem_cons.mp hx' with rfl | hx'
      · exact ⟨rfl, rfl, rfl⟩
      · exact hx x hx'
  obtain ⟨els, rfl, hx⟩ := hels
  have hfl : (els.map (fun x => encTLV x.1 x.2.1 x.2.2.1 x.2.2.2)).flatten =
      els.flatMap (fun x => encTLV x.1 x.2.1 x.2.2.1 x.2.2.2) := by rw [List.flatMap_def]
  unfold parseSeqOf
  rw [hfl, checkElems_tlvs _ els _ _ (Nat.le_refl _), ← hfl]
  · simp only []
    have hl := marshalElems_length _ _ _ h
    rw [List.length_map] at hl
    rw [hl]
    refine parseElems_ok _ (marshalField c {}) l _ h ?_
    intro v hv e rest he
    obtain ⟨e', he', hm⟩ := marshalElems_mem _ _ _ h v hv
    rw [hm] at he; injection he with he; subst he
    have := flatten_mem_length he'
    exact parseField_marshal c {} v e' rest (hlaw v hv) hm (by simp) (by omega) hct (by simp) (by simp)
  · intro x hx'
    obtain ⟨h1, h2, h3⟩ := hx x hx'
    have hm : encTLV x.1 x.2.1 x.2.2.1 x.2.2.2 ∈ els.map (fun x => encTLV x.1 x.2.1 x.2.2.1 x.2.2.2) :=
      List.mem_map.mpr ⟨x, hx', rfl⟩
    have a1 := flatten_mem_length hm
    have a2 := encTLV_length_lt x.1 x.2.1 x.2.2.1 x.2.2.2
    refine ⟨by omega, by omega, by omega, by simp [h1, h2, h3]⟩

theorem seqOf_law {α : Type} [DecidableEq α] (c : Codec α) (hct : c.tag ≤ 2147483647) (l : List α)
    (hlaw : ∀ v ∈ l, c.LawAt v) (hlen : ∀ b, (seqOf c).enc l = some b → b.length < 2 ^ 31) :
    (seqOf c).LawAt l := by
  intro body full h
  have hb := hlen body h
  simp only [seqOf] at h ⊢
  match hm : marshalElems (marshalField c {}) l with
  | none => rw [hm] at h; cases h
  | some es =>
    rw [hm] at h
    simp only [Option.map_some, Option.some.injEq] at h
    subst h
    exact parseSeqOf_ok c hct l hlaw es hm hb

/-! ## Lengths -/

theorem lenOctets_length_le {n : Nat} (h : n < 2 ^ 31) : (Der.lenOctets n).length ≤ 5 := by
  unfold Der.lenOctets
  split
  · simp
  · have := byteLen_le_four h
    simp; omega

/-- A header of a low tag number has at most six octets. -/
theorem encTLV_length_le (cls : Nat) (comp : Bool) (tag : Nat) (body : Bytes) (ht : tag < 31)
    (hl : body.length < 2 ^ 31) : (encTLV cls comp tag body).length ≤ body.length + 6 := by
  have := lenOctets_length_le hl
  unfold encTLV encHdr
  simp only []
  rw [if_neg (by omega)]
  simp only [List.length_append, List.length_cons, List.length_nil]
  omega

/-- Top level: what `Marshal` produced, `Unmarshal` reads back and leaves the rest. -/
theorem unmarshal_marshal {α : Type} [DecidableEq α] (c : Codec α) (v : α) (e rest : Bytes)
    (hlaw : c.LawAt v) (hm : marshal c v = some e) (hlen : e.length < 2 ^ 31) (hct : c.tag ≤ 2147483647) :
    unmarshal c (e ++ rest) = some (v, rest) :=
  parseField_marshal c {} v e rest hlaw hm (by simp) hlen hct (by simp) (by simp)

end MCrypto.Asn1
