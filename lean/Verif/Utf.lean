import Verif.Base
import Mathlib.Tactic.IntervalCases
/-
Model of the parts of Go's run-time and `unicode/utf8`, `unicode/utf16` that /repo relies on:
`for _, r := range s`, `utf8.Valid`, `string(runes)`, `utf16.EncodeRune`, `utf16.Decode`.
Trusted (standard library), not part of /repo.
-/
namespace MCrypto.Utf
open MCrypto

/-- A Unicode scalar value. -/
def IsScalar (r : Nat) : Prop := r < 0xD800 ∨ (0xE000 ≤ r ∧ r < 0x110000)

instance (r : Nat) : Decidable (IsScalar r) := inferInstanceAs (Decidable (_ ∨ _))

/-- `utf8.AppendRune` / the conversion of a rune to a string: surrogates and values above U+10FFFF
become U+FFFD. -/
def encodeRune (r : Nat) : Bytes :=
  if r < 0x80 then [UInt8.ofNat r]
  else if r < 0x800 then [UInt8.ofNat (0xC0 + r / 64), UInt8.ofNat (0x80 + r % 64)]
  else if (0xD800 ≤ r ∧ r < 0xE000) ∨ 0x110000 ≤ r then [0xEF, 0xBF, 0xBD]
  else if r < 0x10000 then
    [UInt8.ofNat (0xE0 + r / 4096), UInt8.ofNat (0x80 + r / 64 % 64), UInt8.ofNat (0x80 + r % 64)]
  else
    [UInt8.ofNat (0xF0 + r / 262144), UInt8.ofNat (0x80 + r / 4096 % 64),
     UInt8.ofNat (0x80 + r / 64 % 64), UInt8.ofNat (0x80 + r % 64)]

/-- Well-formed UTF-8 in the sense of the Unicode standard: the encoding of a sequence of scalar
values. -/
def Valid (b : Bytes) : Prop := ∃ rs : List Nat, (∀ r ∈ rs, IsScalar r) ∧ b = rs.flatMap encodeRune

/-- continuation byte 80..BF -/
def cont (n : Nat) : Bool := decide (0x80 ≤ n ∧ n ≤ 0xBF)

/-- `utf8.DecodeRune` on a non-empty input: `some (rune, size)`, or `none` for an invalid sequence
(where Go returns `(RuneError, 1)`). The accept ranges are those of `unicode/utf8`. -/
def decode1 (b : Bytes) : Option (Nat × Nat) :=
  match b with
  | [] => none
  | b0 :: t =>
    let n0 := b0.toNat
    if n0 < 0x80 then some (n0, 1)
    else if n0 < 0xC2 then none
    else if n0 < 0xE0 then
      match t with
      | b1 :: _ => if cont b1.toNat then some ((n0 - 0xC0) * 64 + (b1.toNat - 0x80), 2) else none
      | _ => none
    else if n0 < 0xF0 then
      match t with
      | b1 :: b2 :: _ =>
        let lo := if n0 = 0xE0 then 0xA0 else 0x80
        let hi := if n0 = 0xED then 0x9F else 0xBF
        if lo ≤ b1.toNat ∧ b1.toNat ≤ hi ∧ cont b2.toNat then
          some ((n0 - 0xE0) * 4096 + (b1.toNat - 0x80) * 64 + (b2.toNat - 0x80), 3)
        else none
      | _ => none
    else if n0 < 0xF5 then
      match t with
      | b1 :: b2 :: b3 :: _ =>
        let lo := if n0 = 0xF0 then 0x90 else 0x80
        let hi := if n0 = 0xF4 then 0x8F else 0xBF
        if lo ≤ b1.toNat ∧ b1.toNat ≤ hi ∧ cont b2.toNat ∧ cont b3.toNat then
          some ((n0 - 0xF0) * 262144 + (b1.toNat - 0x80) * 4096 + (b2.toNat - 0x80) * 64 +
            (b3.toNat - 0x80), 4)
        else none
      | _ => none
    else none

/-- `for _, r := range s`: the runes of a Go string; an invalid byte gives U+FFFD and advances by one.
The counter (initially the length) bounds the iterations; each consumes at least a byte. -/
def runesAux : Nat → Bytes → List Nat
  | 0, _ => []
  | _, [] => []
  | n + 1, b :: t =>
    match decode1 (b :: t) with
    | some (r, k) => r :: runesAux n ((b :: t).drop k)
    | none => 0xFFFD :: runesAux n t

def runes (s : Bytes) : List Nat := runesAux s.length s

/-- `utf8.Valid(s)` -/
def validAux : Nat → Bytes → Bool
  | 0, _ => true
  | _, [] => true
  | n + 1, b :: t =>
    match decode1 (b :: t) with
    | some (_, k) => validAux n ((b :: t).drop k)
    | none => false

def valid (s : Bytes) : Bool := validAux s.length s

/-- `string(rs)` for `rs []rune`. -/
def ofRunes (rs : List Nat) : Bytes := rs.flatMap encodeRune

/-- `utf16.EncodeRune`: the surrogate pair, or (U+FFFD, U+FFFD) if none is needed. -/
def encodeRune16 (r : Nat) : Nat × Nat :=
  if r < 0x10000 ∨ 0x10FFFF < r then (0xFFFD, 0xFFFD)
  else (0xD800 + (r - 0x10000) / 1024 % 1024, 0xDC00 + (r - 0x10000) % 1024)

/-- `utf16.Decode` on 16-bit units. -/
def decode16 : List Nat → List Nat
  | [] => []
  | [r] => if r < 0xD800 ∨ 0xE000 ≤ r then [r] else [0xFFFD]
  | r :: r2 :: t =>
    if r < 0xD800 ∨ 0xE000 ≤ r then r :: decode16 (r2 :: t)
    else if r < 0xDC00 ∧ 0xDC00 ≤ r2 ∧ r2 < 0xE000 then
      ((r - 0xD800) * 1024 + (r2 - 0xDC00) + 0x10000) :: decode16 t
    else 0xFFFD :: decode16 (r2 :: t)

/-! ## Facts -/

theorem decode1_encodeRune {r : Nat} (h : IsScalar r) (rest : Bytes) :
    decode1 (encodeRune r ++ rest) = some (r, (encodeRune r).length) := by
  unfold IsScalar at h
  unfold encodeRune
  split
  · have e : (UInt8.ofNat r).toNat = r := by rw [UInt8.toNat_ofNat']; omega
    simp only [List.cons_append, List.nil_append, decode1, e]
    rw [if_pos (by omega)]; rfl
  split
  · simp only [List.cons_append, List.nil_append, decode1, UInt8.toNat_ofNat', cont]
    rw [if_neg (by omega), if_neg (by omega), if_pos (by omega)]
    rw [if_pos (by simp; omega)]
    simp; omega
  split
  · omega
  split
  · simp only [List.cons_append, List.nil_append, decode1, UInt8.toNat_ofNat', cont]
    have e0 : (224 + r / 4096) % 2 ^ 8 = 224 + r / 4096 := by omega
    have e1 : (128 + r / 64 % 64) % 2 ^ 8 = 128 + r / 64 % 64 := by omega
    have e2 : (128 + r % 64) % 2 ^ 8 = 128 + r % 64 := by omega
    rw [e0, e1, e2]
    rw [if_neg (by omega), if_neg (by omega), if_neg (by omega), if_pos (by omega), if_pos]
    · simp; omega
    · refine ⟨?_, ?_, ?_⟩
      · split <;> omega
      · split <;> omega
      · simp; omega
  · simp only [List.cons_append, List.nil_append, decode1, UInt8.toNat_ofNat', cont]
    have e0 : (240 + r / 262144) % 2 ^ 8 = 240 + r / 262144 := by omega
    have e1 : (128 + r / 4096 % 64) % 2 ^ 8 = 128 + r / 4096 % 64 := by omega
    have e2 : (128 + r / 64 % 64) % 2 ^ 8 = 128 + r / 64 % 64 := by omega
    have e3 : (128 + r % 64) % 2 ^ 8 = 128 + r % 64 := by omega
    rw [e0, e1, e2, e3]
    rw [if_neg (by omega), if_neg (by omega), if_neg (by omega), if_neg (by omega), if_pos (by omega),
      if_pos]
    · simp; omega
    · refine ⟨?_, ?_, ?_, ?_⟩
      · split <;> omega
      · split <;> omega
      · simp; omega
      · simp; omega

theorem encodeRune_length_pos (r : Nat) : 0 < (encodeRune r).length := by
  unfold encodeRune
  split
  · simp
  split
  · simp
  split
  · simp
  split <;> simp

/-- What decoding accepts is a scalar value in its unique (shortest) encoding. -/
theorem decode1_some {b : Bytes} {r k : Nat} (h : decode1 b = some (r, k)) :
    IsScalar r ∧ b = encodeRune r ++ b.drop k ∧ k = (encodeRune r).length := by
  unfold decode1 at h
  match b, h with
  | b0 :: t, h =>
    simp only at h
    have hb0 := b0.toNat_lt
    split at h
    · obtain ⟨h1, h2⟩ := Prod.mk.inj (Option.some.inj h)
      rename_i hlt
      have he : encodeRune r = [b0] := by
        unfold encodeRune; rw [if_pos (by omega), ← h1]; simp
      refine ⟨Or.inl (by omega), ?_, ?_⟩
      · rw [he, ← h2]; simp
      · rw [he, ← h2]; rfl
    split at h
    · cases h
    split at h
    · match t, h with
      | b1 :: t, h =>
        simp only at h
        split at h
        · rename_i h80 hc2 he0 hcont
          have hb1 := b1.toNat_lt
          simp only [cont, decide_eq_true_eq] at hcont
          obtain ⟨h1, h2⟩ := Prod.mk.inj (Option.some.inj h)
          have he : encodeRune r = [b0, b1] := by
            unfold encodeRune
            have e0 : UInt8.ofNat (0xC0 + r / 64) = b0 := by
              rw [← UInt8.toNat_inj, UInt8.toNat_ofNat']; omega
            have e1 : UInt8.ofNat (0x80 + r % 64) = b1 := by
              rw [← UInt8.toNat_inj, UInt8.toNat_ofNat']; omega
            rw [if_neg (by omega), if_pos (by omega), e0, e1]
          refine ⟨Or.inl (by omega), ?_, ?_⟩
          · rw [he, ← h2]; simp
          · rw [he, ← h2]; rfl
        · cases h
    split at h
    · match t, h with
      | b1 :: b2 :: t, h =>
        by_cases hcc : ((if b0.toNat = 0xE0 then 0xA0 else 0x80) ≤ b1.toNat ∧
            b1.toNat ≤ (if b0.toNat = 0xED then 0x9F else 0xBF) ∧ cont b2.toNat)
        swap
        · exact absurd (h.symm.trans (if_neg hcc)) (by simp)
        replace h := (if_pos hcc).symm.trans h
        · rename_i h80 hc2 he0 hf0
          have hcont := hcc
          have hb1 := b1.toNat_lt
          have hb2 := b2.toNat_lt
          simp only [cont, decide_eq_true_eq] at hcont
          obtain ⟨h1, h2⟩ := Prod.mk.inj (Option.some.inj h)
          obtain ⟨hlo, hhi, hc⟩ := hcont
          have hs : 0x800 ≤ r ∧ ¬ (0xD800 ≤ r ∧ r < 0xE000) ∧ r < 0x10000 := by
            split at hlo <;> split at hhi <;> omega
          have hlo' : 0x80 ≤ b1.toNat := by split at hlo <;> omega
          have hhi' : b1.toNat ≤ 0xBF := by split at hhi <;> omega
          have he : encodeRune r = [b0, b1, b2] := by
            unfold encodeRune
            have e0 : UInt8.ofNat (0xE0 + r / 4096) = b0 := by
              rw [← UInt8.toNat_inj, UInt8.toNat_ofNat']; omega
            have e1 : UInt8.ofNat (0x80 + r / 64 % 64) = b1 := by
              rw [← UInt8.toNat_inj, UInt8.toNat_ofNat']; omega
            have e2 : UInt8.ofNat (0x80 + r % 64) = b2 := by
              rw [← UInt8.toNat_inj, UInt8.toNat_ofNat']; omega
            rw [if_neg (by omega), if_neg (by omega), if_neg (by omega), if_pos (by omega), e0, e1, e2]
          refine ⟨by unfold IsScalar; omega, ?_, ?_⟩
          · rw [he, ← h2]; simp
          · rw [he, ← h2]; rfl
    split at h
    · match t, h with
      | b1 :: b2 :: b3 :: t, h =>
        by_cases hcc : ((if b0.toNat = 0xF0 then 0x90 else 0x80) ≤ b1.toNat ∧
            b1.toNat ≤ (if b0.toNat = 0xF4 then 0x8F else 0xBF) ∧ cont b2.toNat ∧ cont b3.toNat)
        swap
        · exact absurd (h.symm.trans (if_neg hcc)) (by simp)
        replace h := (if_pos hcc).symm.trans h
        · rename_i h80 hc2 he0 hf0 hf5
          have hcont := hcc
          have hb1 := b1.toNat_lt
          have hb2 := b2.toNat_lt
          have hb3 := b3.toNat_lt
          simp only [cont, decide_eq_true_eq] at hcont
          obtain ⟨h1, h2⟩ := Prod.mk.inj (Option.some.inj h)
          obtain ⟨hlo, hhi, hc, hc'⟩ := hcont
          have hs : 0x10000 ≤ r ∧ r < 0x110000 := by
            split at hlo <;> split at hhi <;> omega
          have hlo' : 0x80 ≤ b1.toNat := by split at hlo <;> omega
          have hhi' : b1.toNat ≤ 0xBF := by split at hhi <;> omega
          have he : encodeRune r = [b0, b1, b2, b3] := by
            unfold encodeRune
            have e0 : UInt8.ofNat (0xF0 + r / 262144) = b0 := by
              rw [← UInt8.toNat_inj, UInt8.toNat_ofNat']; omega
            have e1 : UInt8.ofNat (0x80 + r / 4096 % 64) = b1 := by
              rw [← UInt8.toNat_inj, UInt8.toNat_ofNat']; omega
            have e2 : UInt8.ofNat (0x80 + r / 64 % 64) = b2 := by
              rw [← UInt8.toNat_inj, UInt8.toNat_ofNat']; omega
            have e3 : UInt8.ofNat (0x80 + r % 64) = b3 := by
              rw [← UInt8.toNat_inj, UInt8.toNat_ofNat']; omega
            rw [if_neg (by omega), if_neg (by omega), if_neg (by omega), if_neg (by omega), e0, e1, e2, e3]
          refine ⟨by unfold IsScalar; omega, ?_, ?_⟩
          · rw [he, ← h2]; simp
          · rw [he, ← h2]; rfl
    · cases h

theorem runesAux_encode (rs : List Nat) (h : ∀ r ∈ rs, IsScalar r) (n : Nat)
    (hn : (rs.flatMap encodeRune).length ≤ n) : runesAux n (rs.flatMap encodeRune) = rs := by
  induction rs generalizing n with
  | nil => cases n <;> rfl
  | cons r rs ih =>
    rw [List.flatMap_cons] at hn ⊢
    have hp := encodeRune_length_pos r
    rw [List.length_append] at hn
    have hd := decode1_encodeRune (h r (by simp)) (rs.flatMap encodeRune)
    match n, hn with
    | 0, hn => omega
    | n + 1, hn =>
      match he : encodeRune r ++ rs.flatMap encodeRune, hd with
      | [], hd => cases hd
      | b :: t, hd =>
        rw [runesAux, hd]
        simp only
        rw [← he, List.drop_left, ih (fun r hr => h r (by simp [hr])) n (by omega)]

/-- Ranging over the UTF-8 encoding of scalar values yields those values. -/
theorem runes_encode (rs : List Nat) (h : ∀ r ∈ rs, IsScalar r) : runes (ofRunes rs) = rs :=
  runesAux_encode rs h _ (Nat.le_refl _)

theorem runesAux_scalar (n : Nat) (s : Bytes) : ∀ r ∈ runesAux n s, IsScalar r := by
  induction n generalizing s with
  | zero => simp [runesAux]
  | succ n ih =>
    match s with
    | [] => simp [runesAux]
    | b :: t =>
      rw [runesAux]
      split
      · rename_i r k h
        intro x hx
        rcases List.mem_cons.mp hx with hx | hx
        · rw [hx]; exact (decode1_some h).1
        · exact ih _ x hx
      · intro x hx
        rcases List.mem_cons.mp hx with hx | hx
        · rw [hx]; decide
        · exact ih _ x hx

/-- Ranging over any Go string only yields scalar values. -/
theorem runes_scalar (s : Bytes) : ∀ r ∈ runes s, IsScalar r := runesAux_scalar _ _

theorem validAux_iff (n : Nat) (s : Bytes) (hn : s.length ≤ n) : validAux n s = true ↔ Valid s := by
  induction n generalizing s with
  | zero =>
    have : s = [] := List.eq_nil_of_length_eq_zero (by omega)
    subst this
    exact ⟨fun _ => ⟨[], by simp, rfl⟩, fun _ => rfl⟩
  | succ n ih =>
    match s, hn with
    | [], _ => exact ⟨fun _ => ⟨[], by simp, rfl⟩, fun _ => rfl⟩
    | b :: t, hn =>
      rw [validAux]
      constructor
      · intro h
        split at h
        · rename_i r k hd
          obtain ⟨hs, hb, hk⟩ := decode1_some hd
          have hp := encodeRune_length_pos r
          obtain ⟨rs, hrs, he⟩ := (ih ((b :: t).drop k) (by
            rw [List.length_drop]; omega)).mp h
          refine ⟨r :: rs, ?_, ?_⟩
          · intro x hx
            rcases List.mem_cons.mp hx with hx | hx
            · rw [hx]; exact hs
            · exact hrs x hx
          · rw [List.flatMap_cons, ← he]; exact hb
        · cases h
      · rintro ⟨rs, hrs, he⟩
        match rs, hrs, he with
        | [], _, he => simp at he
        | r :: rs, hrs, he =>
          rw [List.flatMap_cons] at he
          rw [he, decode1_encodeRune (hrs r (by simp))]
          simp only
          rw [List.drop_left]
          have hp := encodeRune_length_pos r
          have hlen := congrArg List.length he
          rw [List.length_append] at hlen
          exact (ih _ (by omega)).mpr ⟨rs, fun x hx => hrs x (by simp [hx]), rfl⟩

/-- `utf8.Valid` decides well-formedness. -/
theorem valid_iff (s : Bytes) : valid s = true ↔ Valid s := validAux_iff _ _ (Nat.le_refl _)

theorem ofRunes_runes {s : Bytes} (h : Valid s) : ofRunes (runes s) = s := by
  obtain ⟨rs, hrs, rfl⟩ := h
  show ofRunes (runes (ofRunes rs)) = _
  rw [runes_encode rs hrs]; rfl

/-- UTF-16 decoding of units outside the surrogate range is the identity. -/
theorem decode16_bmp (l : List Nat) (h : ∀ r ∈ l, r < 0xD800 ∨ 0xE000 ≤ r) : decode16 l = l := by
  induction l with
  | nil => rfl
  | cons r t ih =>
    have hr := h r (by simp)
    have ht := ih (fun x hx => h x (by simp [hx]))
    cases t with
    | nil => simp [decode16, hr]
    | cons r2 t => rw [decode16, if_pos hr, ht]

end MCrypto.Utf
