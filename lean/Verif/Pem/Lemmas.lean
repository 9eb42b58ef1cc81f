import Verif.Pem.Model
import Verif.Pem.Spec
import Mathlib.Tactic.ByContra
/-
`base64Decode` and `decode` against the relations of Pem/Spec.lean.
-/
namespace MCrypto.Pem
open MCrypto MCrypto.PemSpec

def sextetOf (i : Nat) : Option Nat :=
  if 65 ≤ i ∧ i ≤ 90 then some (i - 65) else if 97 ≤ i ∧ i ≤ 122 then some (i - 97 + 26)
  else if 48 ≤ i ∧ i ≤ 57 then some (i - 48 + 52) else if i = 43 then some 62 else if i = 47 then some 63 else none

theorem sextet_table : ∀ i : Fin 256, sextet (UInt8.ofNat i) = sextetOf i := by decide +kernel

theorem sextet_eq (c : UInt8) : sextet c = sextetOf c.toNat := by
  have h := sextet_table ⟨c.toNat, c.toNat_lt⟩
  simpa using h

theorem sextet_iff (c : UInt8) (v : Nat) : sextet c = some v ↔ Value c v := by
  rw [sextet_eq]
  have h43 : c = 43 ↔ c.toNat = 43 := by rw [← UInt8.toNat_inj]; rfl
  have h47 : c = 47 ↔ c.toNat = 47 := by rw [← UInt8.toNat_inj]; rfl
  unfold sextetOf Value
  rw [h43, h47]
  repeat' split
  all_goals simp
  all_goals omega

theorem value_lt {c : UInt8} {v : Nat} (h : Value c v) : v < 64 := by
  unfold Value at h; omega

theorem sextet_pad : sextet 61 = none := by decide +kernel

theorem value_nat {a b c d : Nat} (hb : b < 64) (hc : c < 64) (hd : d < 64) :
    a <<< 18 ||| b <<< 12 ||| c <<< 6 ||| d = a * 262144 + b * 4096 + c * 64 + d := by
  have e1 : c <<< 6 ||| d = c * 64 + d := by
    rw [← Nat.shiftLeft_add_eq_or_of_lt (by omega), Nat.shiftLeft_eq]
  have e2 : b <<< 12 ||| (c * 64 + d) = b * 4096 + (c * 64 + d) := by
    rw [← Nat.shiftLeft_add_eq_or_of_lt (by omega), Nat.shiftLeft_eq]
  have e3 : a <<< 18 ||| (b * 4096 + (c * 64 + d)) = a * 262144 + (b * 4096 + (c * 64 + d)) := by
    rw [← Nat.shiftLeft_add_eq_or_of_lt (by omega), Nat.shiftLeft_eq]
  rw [Nat.or_assoc, Nat.or_assoc, e1, e2, e3]; omega

theorem quantum_iff {a b c d : Nat} (ha : a < 64) (hb : b < 64) (hc : c < 64) (hd : d < 64) (p q r : UInt8) :
    quantum a b c d = [p, q, r] ↔ p.toNat * 65536 + q.toNat * 256 + r.toNat = a * 262144 + b * 4096 + c * 64 + d := by
  unfold quantum
  simp only [value_nat hb hc hd, List.cons.injEq, and_true, ← UInt8.toNat_inj, UInt8.toNat_ofNat', Nat.shiftRight_eq_div_pow]
  have := p.toNat_lt; have := q.toNat_lt; have := r.toNat_lt
  omega

theorem quantum_val {a b c d : Nat} (ha : a < 64) (hb : b < 64) (hc : c < 64) (hd : d < 64) :
    (UInt8.ofNat ((a <<< 18 ||| b <<< 12 ||| c <<< 6 ||| d) >>> 16)).toNat * 65536 +
    (UInt8.ofNat ((a <<< 18 ||| b <<< 12 ||| c <<< 6 ||| d) >>> 8)).toNat * 256 +
    (UInt8.ofNat (a <<< 18 ||| b <<< 12 ||| c <<< 6 ||| d)).toNat = a * 262144 + b * 4096 + c * 64 + d := by
  rw [← quantum_iff ha hb hc hd]; rfl

theorem quantum_two {a b c : Nat} (ha : a < 64) (hb : b < 64) (hc : c < 64) (p q : UInt8) :
    (quantum a b c 0).take 2 = [p, q] ↔ ∃ e, p.toNat * 1024 + q.toNat * 4 + e = a * 4096 + b * 64 + c ∧ e < 4 := by
  unfold quantum
  simp only [value_nat hb hc (by omega : 0 < 64), List.take_succ_cons, List.take_zero, List.cons.injEq, and_true, ← UInt8.toNat_inj, UInt8.toNat_ofNat',
    Nat.shiftRight_eq_div_pow]
  have := p.toNat_lt; have := q.toNat_lt
  constructor
  · intro h; exact ⟨c % 4, by omega, by omega⟩
  · rintro ⟨e, h⟩; omega

theorem quantum_one {a b : Nat} (ha : a < 64) (hb : b < 64) (p : UInt8) :
    (quantum a b 0 0).take 1 = [p] ↔ ∃ e, p.toNat * 16 + e = a * 64 + b ∧ e < 16 := by
  unfold quantum
  simp only [value_nat hb (by omega : 0 < 64) (by omega : 0 < 64), List.take_succ_cons, List.take_zero, List.cons.injEq, and_true, ← UInt8.toNat_inj, UInt8.toNat_ofNat',
    Nat.shiftRight_eq_div_pow]
  have := p.toNat_lt
  constructor
  · intro h; exact ⟨b % 16, by omega, by omega⟩
  · rintro ⟨e, h⟩; omega

theorem decodeQuanta_of {s d : Bytes} (h : Base64 s d) : decodeQuanta s = some d := by
  induction h with
  | nil => rfl
  | group hw hx hy hz h _ ih =>
    have := (quantum_iff (value_lt hw) (value_lt hx) (value_lt hy) (value_lt hz) _ _ _).2 h
    simp [decodeQuanta, (sextet_iff _ _).2 hw, (sextet_iff _ _).2 hx, (sextet_iff _ _).2 hy, (sextet_iff _ _).2 hz, ih, this]
  | two hw hx hy h he =>
    have := (quantum_two (value_lt hw) (value_lt hx) (value_lt hy) _ _).2 ⟨_, h, he⟩
    simp [decodeQuanta, (sextet_iff _ _).2 hw, (sextet_iff _ _).2 hx, (sextet_iff _ _).2 hy, sextet_pad, this]
  | one hw hx h he =>
    have := (quantum_one (value_lt hw) (value_lt hx) _).2 ⟨_, h, he⟩
    simp [decodeQuanta, (sextet_iff _ _).2 hw, (sextet_iff _ _).2 hx, sextet_pad, this]

theorem of_decodeQuanta (s d : Bytes) (h : decodeQuanta s = some d) : Base64 s d := by
  fun_induction decodeQuanta s generalizing d with
  | case1 => obtain rfl := Option.some.inj h; exact .nil
  | case2 w x y z r a b hx hw c hy e hz l hl ih =>
    obtain rfl := Option.some.inj h
    have hw' := (sextet_iff _ _).1 hw; have hx' := (sextet_iff _ _).1 hx
    have hy' := (sextet_iff _ _).1 hy; have hz' := (sextet_iff _ _).1 hz
    exact .group hw' hx' hy' hz' (quantum_val (value_lt hw') (value_lt hx') (value_lt hy') (value_lt hz')) (ih _ hl)
  | case3 => simp at h
  | case4 w x y z r a b hx hw c hy hz hr =>
    obtain ⟨rfl, rfl⟩ := hr
    obtain rfl := Option.some.inj h
    have hw' := (sextet_iff _ _).1 hw; have hx' := (sextet_iff _ _).1 hx
    have hy' := (sextet_iff _ _).1 hy
    obtain ⟨e, h1, h2⟩ := (quantum_two (value_lt hw') (value_lt hx') (value_lt hy') _ _).1 rfl
    exact .two hw' hx' hy' h1 h2
  | case5 => simp at h
  | case6 w x y z r a b hx hw hy hr =>
    obtain ⟨rfl, rfl, rfl⟩ := hr
    obtain rfl := Option.some.inj h
    have hw' := (sextet_iff _ _).1 hw; have hx' := (sextet_iff _ _).1 hx
    obtain ⟨e, h1, h2⟩ := (quantum_one (value_lt hw') (value_lt hx') _).1 rfl
    exact .one hw' hx' h1 h2
  | case7 => simp at h
  | case8 => simp at h
  | case9 => simp at h

theorem decodeQuanta_iff (s d : Bytes) : decodeQuanta s = some d ↔ Base64 s d := ⟨of_decodeQuanta s d, decodeQuanta_of⟩

theorem base64_iff (s d : Bytes) :
    base64Decode (s.filter fun c => c != 32 && c != 9) = some d ↔ Base64 (s.filter fun c => !white c) d := by
  unfold base64Decode
  rw [List.filter_filter, decodeQuanta_iff]
  have : (fun c : UInt8 => (c != 10 && c != 13) && (c != 32 && c != 9)) = fun c => !white c := by
    funext c
    unfold white
    generalize h1 : (c == 10) = x; generalize h2 : (c == 13) = y; generalize h3 : (c == 32) = z; generalize h4 : (c == 9) = w
    simp only [bne, h1, h2, h3, h4]
    cases x <;> cases y <;> cases z <;> cases w <;> rfl
  rw [this]

/-! ## Lines -/

theorem nil_or_last (l : Bytes) : l = [] ∨ ∃ x c, l = x ++ [c] := by
  rcases l.eq_nil_or_concat with h | ⟨x, c, h⟩
  · exact .inl h
  · exact .inr ⟨x, c, by rw [h, List.concat_eq_append]⟩

theorem takeWhile_line {l : Bytes} (hl : 10 ∉ l) (r : Bytes) : (l ++ 10 :: r).takeWhile (· != 10) = l := by
  induction l with
  | nil => simp
  | cons a t ih =>
    simp only [List.mem_cons, not_or] at hl
    have : (a != 10) = true := by simpa using fun h => hl.1 h.symm
    simp only [List.cons_append, List.takeWhile_cons, this, if_true, ih hl.2]

theorem dropWhile_line {l : Bytes} (hl : 10 ∉ l) (r : Bytes) : (l ++ 10 :: r).dropWhile (· != 10) = 10 :: r := by
  induction l with
  | nil => simp
  | cons a t ih =>
    simp only [List.mem_cons, not_or] at hl
    have : (a != 10) = true := by simpa using fun h => hl.1 h.symm
    simp only [List.cons_append, List.dropWhile_cons, this, if_true, ih hl.2]

theorem takeWhile_end {l : Bytes} (hl : 10 ∉ l) : l.takeWhile (· != 10) = l := by
  induction l with
  | nil => simp
  | cons a t ih =>
    simp only [List.mem_cons, not_or] at hl
    have : (a != 10) = true := by simpa using fun h => hl.1 h.symm
    simp only [List.takeWhile_cons, this, if_true, ih hl.2]

theorem dropWhile_end {l : Bytes} (hl : 10 ∉ l) : l.dropWhile (· != 10) = [] := by
  induction l with
  | nil => simp
  | cons a t ih =>
    simp only [List.mem_cons, not_or] at hl
    have : (a != 10) = true := by simpa using fun h => hl.1 h.symm
    simp only [List.dropWhile_cons, this, if_true, ih hl.2]

theorem line_or (d : Bytes) : (∃ l r, d = l ++ 10 :: r ∧ 10 ∉ l) ∨ 10 ∉ d := by
  induction d with
  | nil => right; simp
  | cons a t ih =>
    by_cases ha : a = 10
    · left; exact ⟨[], t, by rw [ha]; rfl, by simp⟩
    · rcases ih with ⟨l, r, rfl, hl⟩ | h
      · left; exact ⟨a :: l, r, rfl, by simp [hl, Ne.symm ha]⟩
      · right; simp [h, Ne.symm ha]

theorem getLine_line {l : Bytes} (hl : 10 ∉ l) (r : Bytes) :
    getLine (l ++ 10 :: r) = (trimRight (if l.getLast? = some 13 then l.dropLast else l), r) := by
  unfold getLine
  simp only [takeWhile_line hl, dropWhile_line hl]
  simp

theorem getLine_last {l : Bytes} (hl : 10 ∉ l) : getLine l = (trimRight l, []) := by
  unfold getLine
  simp only [takeWhile_end hl, dropWhile_end hl]
  simp

theorem trimRight_blank (l s : Bytes) (hs : Blank s) : trimRight (l ++ s) = trimRight l := by
  unfold trimRight
  rw [List.reverse_append]
  congr 1
  have hall : ∀ c ∈ s.reverse, c = 32 ∨ c = 9 := fun c h => hs c (by simpa using h)
  generalize s.reverse = u at hall ⊢
  induction u with
  | nil => rfl
  | cons a t ih =>
    have ha := hall a (by simp)
    have : (a == 32 || a == 9) = true := by rcases ha with rfl | rfl <;> decide
    simp only [List.cons_append, List.dropWhile_cons, this, if_true]
    exact ih fun c hc => hall c (by simp [hc])

/-- The last octet of a line that trimming leaves alone. -/
def Tight (l : Bytes) : Prop := ∀ c, l.getLast? = some c → c ≠ 32 ∧ c ≠ 9 ∧ c ≠ 13

theorem trimRight_tight {l : Bytes} (h : Tight l) : trimRight l = l := by
  unfold trimRight
  rcases nil_or_last l with rfl | ⟨x, c, rfl⟩
  · rfl
  · obtain ⟨h1, h2, _⟩ := h c (by simp)
    have : (c == 32 || c == 9) = false := by simp [h1, h2]
    simp [List.dropWhile_cons, this]

theorem trimRight_split (l : Bytes) : ∃ s, l = trimRight l ++ s ∧ Blank s := by
  unfold trimRight
  refine ⟨(l.reverse.takeWhile fun c => c == 32 || c == 9).reverse, ?_, ?_⟩
  · rw [← List.reverse_append, List.takeWhile_append_dropWhile, List.reverse_reverse]
  · intro c hc
    rw [List.mem_reverse] at hc
    have := List.all_eq_true.1 (List.all_takeWhile (p := fun c : UInt8 => c == 32 || c == 9) (l := l.reverse)) c hc
    simpa using this

theorem blank_no {s : Bytes} (h : Blank s) : (10 : UInt8) ∉ s := fun hm => by
  rcases h _ hm with h | h <;> simp at h

/-- A line, with blanks and a line end. -/
theorem getLine_of {l s e : Bytes} (hl : 10 ∉ l) (ht : Tight l) (hs : Blank s) (he : Eol e) (r : Bytes) :
    getLine (l ++ (s ++ (e ++ r))) = (l, r) := by
  have hn : (10 : UInt8) ∉ l ++ s := by simp [hl, blank_no hs]
  rcases he with rfl | rfl
  · have : l ++ (s ++ ([10] ++ r)) = (l ++ s) ++ 10 :: r := by simp
    rw [this, getLine_line hn]
    have h13 : (l ++ s).getLast? ≠ some 13 := by
      intro h
      rcases nil_or_last s with rfl | ⟨x, c, rfl⟩
      · rw [List.append_nil] at h; exact (ht 13 h).2.2 rfl
      · have hc := hs c (by simp)
        rw [← List.append_assoc, List.getLast?_concat] at h
        obtain rfl := Option.some.inj h
        rcases hc with h | h <;> simp at h
    rw [if_neg h13, trimRight_blank _ _ hs, trimRight_tight ht]
  · have : l ++ (s ++ ([13, 10] ++ r)) = (l ++ s ++ [13]) ++ 10 :: r := by simp
    have hn' : (10 : UInt8) ∉ l ++ s ++ [13] := by simp [hl, blank_no hs]
    rw [this, getLine_line hn', if_pos (by simp), List.dropLast_concat, trimRight_blank _ _ hs, trimRight_tight ht]

/-- The last line. -/
theorem getLine_of_end {l s : Bytes} (hl : 10 ∉ l) (ht : Tight l) (hs : Blank s) : getLine (l ++ s) = (l, []) := by
  have hn : (10 : UInt8) ∉ l ++ s := by simp [hl, blank_no hs]
  rw [getLine_last hn, trimRight_blank _ _ hs, trimRight_tight ht]

theorem getLine_inv (d : Bytes) : 10 ∉ (getLine d).1 ∧
    ((∃ s e, d = (getLine d).1 ++ (s ++ (e ++ (getLine d).2)) ∧ Blank s ∧ Eol e) ∨
     (∃ s, d = (getLine d).1 ++ s ∧ Blank s ∧ (getLine d).2 = [])) := by
  rcases line_or d with ⟨l, r, rfl, hl⟩ | h
  · rw [getLine_line hl]
    by_cases h13 : l.getLast? = some 13
    · rcases nil_or_last l with rfl | ⟨x, c, rfl⟩
      · simp at h13
      rw [if_pos h13]
      simp only [List.getLast?_concat, Option.some.injEq] at h13
      subst h13
      rw [List.dropLast_concat]
      obtain ⟨s, h1, h2⟩ := trimRight_split x
      have h1' : x ++ [13] ++ 10 :: r = trimRight x ++ (s ++ ([13, 10] ++ r)) := by
        conv => lhs; rw [h1]
        simp
      refine ⟨?_, .inl ⟨s, [13, 10], h1', h2, .inr rfl⟩⟩
      intro hm; apply hl; rw [h1]; simp [hm]
    · rw [if_neg h13]
      obtain ⟨s, h1, h2⟩ := trimRight_split l
      have h1' : l ++ 10 :: r = trimRight l ++ (s ++ ([10] ++ r)) := by
        conv => lhs; rw [h1]
        simp
      refine ⟨?_, .inl ⟨s, [10], h1', h2, .inl rfl⟩⟩
      intro hm; apply hl; rw [h1]; simp [hm]
  · rw [getLine_last h]
    obtain ⟨s, h1, h2⟩ := trimRight_split d
    refine ⟨?_, .inr ⟨s, h1, h2, rfl⟩⟩
    intro hm; apply h; rw [h1]; simp [hm]

/-! ## Cutting -/

theorem cut_split {sep s x y : Bytes} (h : cut sep s = some (x, y)) : s = x ++ (sep ++ y) := by
  induction s generalizing x y with
  | nil =>
    simp only [cut] at h
    split at h
    · rename_i hp
      simp only [Option.some.injEq, Prod.mk.injEq] at h
      obtain ⟨rfl, rfl⟩ := h
      have := List.prefix_nil.1 (List.isPrefixOf_iff_prefix.1 hp)
      simp [this]
    · simp at h
  | cons b t ih =>
    simp only [cut] at h
    split at h
    · rename_i hp
      simp only [Option.some.injEq, Prod.mk.injEq] at h
      obtain ⟨rfl, rfl⟩ := h
      obtain ⟨u, hu⟩ := List.isPrefixOf_iff_prefix.1 hp
      rw [← hu]; simp
    · split at h
      · rename_i hc
        simp only [Option.some.injEq, Prod.mk.injEq] at h
        obtain ⟨rfl, rfl⟩ := h
        rw [ih hc]; rfl
      · simp at h

theorem cut_colon (l : Bytes) : cut [58] l = none ↔ 58 ∉ l := by
  induction l with
  | nil => simp [cut, List.isPrefixOf]
  | cons b t ih =>
    simp only [cut, List.isPrefixOf_cons₂, List.isPrefixOf_nil_left, Bool.and_true]
    by_cases hb : (58 : UInt8) = b
    · subst hb; simp
    · rw [if_neg (by simpa using hb)]
      split
      · rename_i hc
        simp only [hc] at ih
        simp [hb]
        by_contra hn
        exact absurd (ih.2 hn) (by simp)
      · rename_i hc
        simp only [hc] at ih
        simp [hb]
        simpa using ih

/-- The first line that begins with a dash. -/
theorem cut_first {w x : Bytes} (hx : 45 ∉ x) (y : Bytes) : cut (10 :: 45 :: w) (x ++ (10 :: 45 :: (w ++ y))) = some (x, y) := by
  induction x with
  | nil =>
    have : (10 :: 45 :: w : Bytes).isPrefixOf (10 :: 45 :: (w ++ y)) = true := by
      rw [List.isPrefixOf_iff_prefix]; exact ⟨y, by simp⟩
    simp only [List.nil_append, cut, this, if_true]
    simp
  | cons b t ih =>
    simp only [List.mem_cons, not_or] at hx
    have hn : (10 :: 45 :: w : Bytes).isPrefixOf (b :: (t ++ (10 :: 45 :: (w ++ y)))) = false := by
      rw [Bool.eq_false_iff, Ne, List.isPrefixOf_iff_prefix]
      rintro ⟨u, hu⟩
      cases t with
      | nil => simp at hu
      | cons c t' =>
        simp only [List.cons_append, List.cons.injEq] at hu
        exact hx.2 (by rw [hu.2.1]; simp)
    simp only [List.cons_append, cut, hn]
    rw [ih hx.2]
    simp

/-! ## Headers -/

theorem headerLoop_inv {n : Nat} {rest rest' : Bytes} {hs₀ hs : List (Bytes × Bytes)} (h : headerLoop n rest hs₀ = some (hs, rest')) :
    ∃ ls : List Bytes, (∀ l ∈ ls, HeaderLine l) ∧ rest = ls.flatten ++ rest' ∧ hs.length = hs₀.length + ls.length := by
  induction n generalizing rest hs₀ with
  | zero => simp [headerLoop] at h
  | succ n ih =>
    unfold headerLoop at h
    split at h
    · simp at h
    rename_i hne
    dsimp only at h
    split at h
    · simp only [Option.some.injEq, Prod.mk.injEq] at h
      obtain ⟨rfl, rfl⟩ := h
      exact ⟨[], by simp, by simp, by simp⟩
    · rename_i k v hc
      have hl : 58 ∈ (getLine rest).1 := by
        by_contra hn; rw [(cut_colon _).2 hn] at hc; simp at hc
      obtain ⟨ls, h1, h2, h3⟩ := ih h
      obtain ⟨g0, ⟨s, e, g1, g2, g3⟩ | ⟨s, g1, g2, g3⟩⟩ := getLine_inv rest
      · refine ⟨((getLine rest).1 ++ (s ++ e)) :: ls, ?_, ?_, ?_⟩
        · intro l hm
          rcases List.mem_cons.1 hm with rfl | hm
          · rcases g3 with rfl | rfl
            · exact ⟨(getLine rest).1 ++ s, by simp, by simp [g0, blank_no g2], by simp [hl]⟩
            · exact ⟨(getLine rest).1 ++ (s ++ [13]), by simp, by simp [g0, blank_no g2], by simp [hl]⟩
          · exact h1 l hm
        · rw [List.flatten_cons, List.append_assoc, List.append_assoc, ← h2, List.append_assoc, ← g1]
        · simp at h3 ⊢; omega
      · exfalso
        rw [g3] at h
        cases n <;> simp [headerLoop] at h

theorem getLine_colon {l : Bytes} (hl : 10 ∉ l) (hc : 58 ∈ l) (r : Bytes) : ∃ l', getLine (l ++ 10 :: r) = (l', r) ∧ 58 ∈ l' := by
  rw [getLine_line hl]
  refine ⟨_, rfl, ?_⟩
  have key : ∀ x : Bytes, 58 ∈ x → 58 ∈ trimRight x := by
    intro x hx
    obtain ⟨s, h1, h2⟩ := trimRight_split x
    rw [h1] at hx
    rcases List.mem_append.1 hx with h | h
    · exact h
    · rcases h2 _ h with h | h <;> simp at h
  apply key
  split
  · rename_i h13
    rcases nil_or_last l with rfl | ⟨x, c, rfl⟩
    · simp at h13
    · simp only [List.getLast?_concat, Option.some.injEq] at h13
      subst h13
      rw [List.dropLast_concat]
      simpa using hc
  · exact hc

theorem headerLoop_of {ls : List Bytes} (h : ∀ l ∈ ls, HeaderLine l) {rest : Bytes} (hne : rest ≠ [])
    (hc : 58 ∉ (getLine rest).1) {n : Nat} (hn : ls.length < n) (hs₀ : List (Bytes × Bytes)) :
    ∃ hs, headerLoop n (ls.flatten ++ rest) hs₀ = some (hs, rest) ∧ hs.length = hs₀.length + ls.length := by
  induction ls generalizing n hs₀ with
  | nil =>
    obtain ⟨m, rfl⟩ : ∃ m, n = m + 1 := ⟨n - 1, by simp at hn; omega⟩
    refine ⟨hs₀, ?_, by simp⟩
    simp only [List.flatten_nil, List.nil_append, headerLoop, if_neg hne, (cut_colon _).2 hc]
  | cons l ls ih =>
    obtain ⟨m, rfl⟩ : ∃ m, n = m + 1 := ⟨n - 1, by simp at hn; omega⟩
    obtain ⟨x, rfl, hx, hx'⟩ := h l (by simp)
    obtain ⟨x', e1, e2⟩ := getLine_colon hx hx' (ls.flatten ++ rest)
    have e0 : ((x ++ [10]) :: ls).flatten ++ rest = x ++ 10 :: (ls.flatten ++ rest) := by simp
    rw [e0]
    have e3 : ¬ (x ++ 10 :: (ls.flatten ++ rest) = []) := by simp
    simp only [headerLoop, if_neg e3, e1]
    cases hcut : cut [58] x' with
    | none => exact absurd e2 ((cut_colon _).1 hcut)
    | some kv =>
      obtain ⟨k, v⟩ := kv
      obtain ⟨hs, g1, g2⟩ := ih (fun l hl => h l (by simp [hl])) (n := m) (by simp at hn; omega) (hs₀ ++ [(k, v)])
      exact ⟨hs, g1, by simp at g2 ⊢; omega⟩

/-! ## The END line -/

theorem base64_chars {s d : Bytes} (h : Base64 s d) : ∀ c ∈ s, Base64Char c := by
  induction h with
  | nil => simp
  | group hw hx hy hz _ _ ih =>
    intro c hc
    simp only [List.mem_cons] at hc
    rcases hc with rfl | rfl | rfl | rfl | hc
    · exact .inr ⟨_, hw⟩
    · exact .inr ⟨_, hx⟩
    · exact .inr ⟨_, hy⟩
    · exact .inr ⟨_, hz⟩
    · exact ih c hc
  | two hw hx hy _ _ =>
    intro c hc
    simp only [List.mem_cons, List.not_mem_nil, or_false] at hc
    rcases hc with rfl | rfl | rfl | rfl
    · exact .inr ⟨_, hw⟩
    · exact .inr ⟨_, hx⟩
    · exact .inr ⟨_, hy⟩
    · exact .inl rfl
  | one hw hx _ _ =>
    intro c hc
    simp only [List.mem_cons, List.not_mem_nil, or_false] at hc
    rcases hc with rfl | rfl | rfl | rfl
    · exact .inr ⟨_, hw⟩
    · exact .inr ⟨_, hx⟩
    · exact .inl rfl
    · exact .inl rfl

theorem body_no {body d : Bytes} (h : Base64 (body.filter fun c => !white c) d) : 45 ∉ body ∧ 58 ∉ body := by
  have key : ∀ c ∈ body, ¬ white c → Base64Char c := fun c hc hw =>
    base64_chars h c (List.mem_filter.2 ⟨hc, by simpa using hw⟩)
  have h45 : ¬ Base64Char 45 := by
    rintro (h | ⟨v, h⟩)
    · simp at h
    · have := (sextet_iff _ _).2 h
      revert this
      have : sextet 45 = none := by decide +kernel
      rw [this]; simp
  have h58 : ¬ Base64Char 58 := by
    rintro (h | ⟨v, h⟩)
    · simp at h
    · have := (sextet_iff _ _).2 h
      revert this
      have : sextet 58 = none := by decide +kernel
      rw [this]; simp
  exact ⟨fun hm => h45 (key _ hm (by decide)), fun hm => h58 (key _ hm (by decide))⟩

theorem tight_nil : Tight [] := by intro c h; simp at h

theorem tail_blank {s r : Bytes} (hs : Blank s) (hr : r = [] ∨ ∃ e more, Eol e ∧ r = e ++ more) : (getLine (s ++ r)).1 = [] := by
  rcases hr with rfl | ⟨e, more, he, rfl⟩
  · have := getLine_of_end (l := []) (by simp) tight_nil hs
    simp only [List.nil_append] at this
    rw [List.append_nil, this]
  · have := getLine_of (l := []) (by simp) tight_nil hs he more
    simp only [List.nil_append] at this
    rw [this]

theorem blank_tail {d : Bytes} (h : (getLine d).1 = []) : ∃ s r, d = s ++ r ∧ Blank s ∧ (r = [] ∨ ∃ e more, Eol e ∧ r = e ++ more) := by
  obtain ⟨_, ⟨s, e, g1, g2, g3⟩ | ⟨s, g1, g2, _⟩⟩ := getLine_inv d
  · rw [h] at g1
    exact ⟨s, _, g1, g2, .inr ⟨e, _, g3, rfl⟩⟩
  · rw [h] at g1
    exact ⟨s, [], by simpa using g1, g2, .inl rfl⟩

theorem endIndex_of {hs : List (Bytes × Bytes)} {ls : List Bytes} (hlen : hs.length = ls.length) {body : Bytes}
    (hb : body = [] ∧ ls = [] ∨ body.getLast? = some 10) (hno : 45 ∉ body) (t : Bytes) :
    ∃ e, endIndex hs (body ++ (end_ ++ t)) = some (e, (body ++ end_).length) ∧
      (body.take e).filter (fun c => !white c) = body.filter (fun c => !white c) ∧ e ≤ body.length := by
  rcases hb with ⟨rfl, rfl⟩ | hb
  · have : hs = [] := List.eq_nil_of_length_eq_zero (by simpa using hlen)
    subst this
    refine ⟨0, ?_, by simp, by simp⟩
    unfold endIndex
    rw [if_pos]
    · simp
    · refine ⟨rfl, ?_⟩
      rw [List.isPrefixOf_iff_prefix]
      exact ⟨t, by simp⟩
  · rcases nil_or_last body with rfl | ⟨x, c, rfl⟩
    · simp at hb
    simp only [List.getLast?_concat, Option.some.injEq] at hb
    subst hb
    refine ⟨x.length, ?_, by simp [white], by simp⟩
    unfold endIndex
    rw [if_neg]
    · have hx : 45 ∉ x := by simp at hno; exact hno
      have := cut_first (w := [45, 45, 45, 45, 69, 78, 68, 32]) hx t
      have e1 : x ++ [10] ++ (end_ ++ t) = x ++ (10 :: 45 :: ([45, 45, 45, 45, 69, 78, 68, 32] ++ t)) := by simp [end_]
      have e2 : (10 :: end_ : Bytes) = 10 :: 45 :: [45, 45, 45, 45, 69, 78, 68, 32] := rfl
      rw [e1, e2, this]
      simp only [Option.some.injEq, Prod.mk.injEq, true_and, List.length_append, List.length_cons, List.length_nil]
      have : end_.length = 9 := rfl
      omega
    · rintro ⟨_, hp⟩
      rw [List.isPrefixOf_iff_prefix] at hp
      obtain ⟨u, hu⟩ := hp
      cases x with
      | nil => simp [end_] at hu
      | cons b t' =>
        simp only [end_, List.cons_append, List.cons.injEq] at hu
        apply hno
        rw [hu.1]; simp

theorem finish_of {label d body s₂ r : Bytes} {hs : List (Bytes × Bytes)} {ls : List Bytes} (hlen : hs.length = ls.length)
    (hb : body = [] ∧ ls = [] ∨ body.getLast? = some 10) (hd : Base64 (body.filter fun c => !white c) d)
    (hs₂ : Blank s₂) (hr : r = [] ∨ ∃ e more, Eol e ∧ r = e ++ more) :
    finish label hs (body ++ (pemEnd ++ (label ++ (pemDashes ++ (s₂ ++ r))))) = .found ⟨label, hs, d⟩ := by
  obtain ⟨e, h1, h2, h3⟩ := endIndex_of hlen hb (body_no hd).1 (label ++ (pemDashes ++ (s₂ ++ r)))
  have hE : pemEnd = end_ := rfl
  have hD : pemDashes = dashes := rfl
  rw [hD] at h1
  rw [hE, hD]
  unfold finish
  rw [h1]
  have e1 : (body ++ (end_ ++ (label ++ (dashes ++ (s₂ ++ r))))).drop (body ++ end_).length = (label ++ dashes) ++ (s₂ ++ r) := by
    rw [← List.append_assoc, List.drop_left, List.append_assoc]
  have hn : label.length + dashes.length = (label ++ dashes).length := by simp
  simp only [e1, hn, List.take_left, List.drop_left]
  rw [if_neg (by simp), if_neg, if_neg, List.take_append_of_le_length h3]
  · have := (base64_iff (body.take e) d).2 (by rw [h2]; exact hd)
    rw [this]
  · rw [tail_blank hs₂ hr]; simp
  · rw [List.isPrefixOf_iff_prefix, List.isSuffixOf_iff_suffix]
    simp

theorem finish_inv {type rest : Bytes} {hs : List (Bytes × Bytes)} {ls : List Bytes} (hlen : hs.length = ls.length) {b : Block}
    (h : finish type hs rest = .found b) :
    b.type = type ∧ ∃ body s₂ r, rest = body ++ (pemEnd ++ (type ++ (pemDashes ++ (s₂ ++ r)))) ∧
      (body = [] ∧ ls = [] ∨ body.getLast? = some 10) ∧ Base64 (body.filter fun c => !white c) b.bytes ∧
      Blank s₂ ∧ (r = [] ∨ ∃ e more, Eol e ∧ r = e ++ more) := by
  unfold finish at h
  split at h
  · simp at h
  rename_i e tr hidx
  dsimp only at h
  split at h
  · simp at h
  rename_i hle
  split at h
  · simp at h
  rename_i hps
  split at h
  · simp at h
  rename_i hgl
  split at h
  · simp at h
  rename_i bytes hdec
  obtain rfl := Step.found.inj h
  refine ⟨rfl, ?_⟩
  rw [base64_iff] at hdec
  -- the line
  have hline : ∃ s₂ r, rest.drop tr = type ++ (pemDashes ++ (s₂ ++ r)) ∧ Blank s₂ ∧ (r = [] ∨ ∃ e more, Eol e ∧ r = e ++ more) := by
    obtain ⟨s, r, g1, g2, g3⟩ := blank_tail (d := (rest.drop tr).drop (type.length + dashes.length)) (by
      have : (getLine ((rest.drop tr).drop (type.length + dashes.length))).1.length = 0 := by omega
      exact List.eq_nil_of_length_eq_zero this)
    refine ⟨s, r, ?_, g2, g3⟩
    simp only [not_or, Decidable.not_not, List.isPrefixOf_iff_prefix, List.isSuffixOf_iff_suffix] at hps
    obtain ⟨⟨u, hu⟩, ⟨v, hv⟩⟩ := hps
    have hl : ((rest.drop tr).take (type.length + dashes.length)).length = type.length + dashes.length := by
      rw [List.length_take]; omega
    have hul : v.length = type.length := by rw [← hv, List.length_append] at hl; omega
    have : v = type := by
      have := hv.trans hu.symm
      exact (List.append_inj this hul).1
    rw [← List.take_append_drop (type.length + dashes.length) (rest.drop tr), ← hv, this, g1]
    simp [dashes, pemDashes]
  obtain ⟨s₂, r, k1, k2, k3⟩ := hline
  unfold endIndex at hidx
  split at hidx
  · rename_i hp
    simp only [Option.some.injEq, Prod.mk.injEq] at hidx
    obtain ⟨rfl, rfl⟩ := hidx
    obtain ⟨hhs, hpre⟩ := hp
    rw [List.isPrefixOf_iff_prefix] at hpre
    obtain ⟨u, rfl⟩ := hpre
    rw [List.drop_left] at k1
    refine ⟨[], s₂, r, by rw [k1]; rfl, .inl ⟨rfl, ?_⟩, by simpa using hdec, k2, k3⟩
    exact List.eq_nil_of_length_eq_zero (by rw [← hlen, hhs]; rfl)
  · split at hidx
    · rename_i x y hcut
      simp only [Option.some.injEq, Prod.mk.injEq] at hidx
      obtain ⟨rfl, rfl⟩ := hidx
      have hrest := cut_split hcut
      have e1 : rest = (x ++ 10 :: end_) ++ y := by rw [hrest]; simp
      have e2 : x.length + (end_.length + 1) = (x ++ 10 :: end_).length := by simp
      rw [e1, e2, List.drop_left] at k1
      refine ⟨x ++ [10], s₂, r, ?_, .inr (by simp), ?_, k2, k3⟩
      · rw [e1, k1]; simp [pemEnd, end_]
      · rw [hrest, List.take_left] at hdec
        simpa [white] using hdec
    · simp at hidx

/-! ## Blocks -/

theorem tight_dashes (l : Bytes) : Tight (l ++ dashes) := by
  intro c h
  have : l ++ dashes = (l ++ [45, 45, 45, 45]) ++ [45] := by simp [dashes]
  rw [this, List.getLast?_concat] at h
  obtain rfl := Option.some.inj h
  decide

theorem flatten_length {ls : List Bytes} (h : ∀ l ∈ ls, HeaderLine l) : ls.length ≤ ls.flatten.length := by
  induction ls with
  | nil => simp
  | cons l ls ih =>
    obtain ⟨x, rfl, _⟩ := h l (by simp)
    have := ih fun l hl => h l (by simp [hl])
    simp only [List.flatten_cons, List.length_cons, List.length_append, List.length_nil]
    omega

theorem step_of {label d text : Bytes} (hl : 10 ∉ label) (hc : 58 ∉ label) (h : Armour label d text) :
    ∃ hs, step text = .found ⟨label, hs, d⟩ := by
  obtain ⟨s₁, e₁, ls, body, s₂, r, rfl, hs₁, he₁, hls, hb, hd, hs₂, hr⟩ := h
  unfold step
  have hst : start (pemBegin ++ (label ++ (pemDashes ++ (s₁ ++ (e₁ ++ (ls.flatten ++ (body ++
      (pemEnd ++ (label ++ (pemDashes ++ (s₂ ++ r))))))))))) = some ((label ++ dashes) ++ (s₁ ++ (e₁ ++ (ls.flatten ++ (body ++
      (pemEnd ++ (label ++ (pemDashes ++ (s₂ ++ r)))))))))  := by
    unfold start
    rw [if_pos (by rw [List.isPrefixOf_iff_prefix]; exact ⟨_, rfl⟩)]
    have : begin_ = pemBegin := rfl
    rw [this, List.drop_left, List.append_assoc]; rfl
  rw [hst]
  have hg := getLine_of (l := label ++ dashes) (by simp [hl, dashes]) (tight_dashes label) hs₁ he₁ (ls.flatten ++ (body ++
      (pemEnd ++ (label ++ (pemDashes ++ (s₂ ++ r))))))
  simp only [hg]
  rw [if_neg (by rw [List.isSuffixOf_iff_suffix]; simp)]
  have hno := body_no hd
  have hcolon : 58 ∉ (getLine (body ++ (pemEnd ++ (label ++ (pemDashes ++ (s₂ ++ r)))))).1 := by
    rcases hb with ⟨rfl, _⟩ | hb
    · have hgg : (getLine ((pemEnd ++ (label ++ dashes)) ++ (s₂ ++ r))).1 = pemEnd ++ (label ++ dashes) := by
        have h10 : (10 : UInt8) ∉ pemEnd ++ (label ++ dashes) := by simp [hl, dashes, pemEnd]
        have ht : Tight (pemEnd ++ (label ++ dashes)) := by rw [← List.append_assoc]; exact tight_dashes _
        rcases hr with rfl | ⟨e, more, he, rfl⟩
        · rw [List.append_nil, getLine_of_end h10 ht hs₂]
        · rw [getLine_of h10 ht hs₂ he]
      have : [] ++ (pemEnd ++ (label ++ (pemDashes ++ (s₂ ++ r)))) = (pemEnd ++ (label ++ dashes)) ++ (s₂ ++ r) := by
        simp [pemDashes, dashes]
      rw [this, hgg]
      simp [hc, dashes, pemEnd]
    · rcases line_or body with ⟨x, y, rfl, hx⟩ | hx
      · intro hm
        have h58 : 58 ∉ x := fun h => hno.2 (by simp [h])
        have e : x ++ 10 :: y ++ (pemEnd ++ (label ++ (pemDashes ++ (s₂ ++ r)))) = x ++ 10 :: (y ++ (pemEnd ++ (label ++ (pemDashes ++ (s₂ ++ r))))) := by simp
        rw [e, getLine_line hx] at hm
        apply h58
        have key : ∀ z : Bytes, 58 ∈ trimRight z → 58 ∈ z := by
          intro z hz
          obtain ⟨s, h1, h2⟩ := trimRight_split z
          rw [h1]; simp [hz]
        have := key _ hm
        split at this
        · exact List.dropLast_subset x this
        · exact this
      · exact absurd (List.mem_of_getLast? hb) hx
  have hne : body ++ (pemEnd ++ (label ++ (pemDashes ++ (s₂ ++ r)))) ≠ [] := by simp [pemEnd]
  obtain ⟨hs, g1, g2⟩ := headerLoop_of hls hne hcolon (n := (ls.flatten ++ (body ++
      (pemEnd ++ (label ++ (pemDashes ++ (s₂ ++ r)))))).length) (by
        have := flatten_length hls
        have : (pemEnd ++ (label ++ (pemDashes ++ (s₂ ++ r)))).length ≠ 0 := by simp [pemEnd]
        rw [List.length_append, List.length_append]; omega) []
  simp only [g1]
  refine ⟨hs, ?_⟩
  have hlab : (label ++ dashes).take ((label ++ dashes).length - dashes.length) = label := by simp
  rw [hlab]
  exact finish_of (by simpa using g2) hb hd hs₂ hr

theorem decode_of {label d text : Bytes} (hl : 10 ∉ label) (hc : 58 ∉ label) (h : Armour label d text) :
    ∃ hs, decode text = some ⟨label, hs, d⟩ := by
  obtain ⟨hs, h⟩ := step_of hl hc h
  exact ⟨hs, by simp [decode, loop, h]⟩

/-- What comes before is empty or ends a line. -/
def LineStart (before : Bytes) : Prop := before = [] ∨ before.getLast? = some 10

theorem start_inv {data rest : Bytes} (h : start data = some rest) :
    ∃ before, data = before ++ (pemBegin ++ rest) ∧ LineStart before := by
  unfold start at h
  split at h
  · rename_i hp
    rw [List.isPrefixOf_iff_prefix] at hp
    obtain ⟨u, rfl⟩ := hp
    rw [List.drop_left] at h
    obtain rfl := Option.some.inj h
    exact ⟨[], rfl, .inl rfl⟩
  · split at h
    · rename_i x y hc
      obtain rfl := Option.some.inj h
      refine ⟨x ++ [10], ?_, .inr (by simp)⟩
      rw [cut_split hc]; simp [pemBegin, begin_]
    · simp at h

theorem step_found {data : Bytes} {b : Block} (h : step data = .found b) : Holds b.type b.bytes data := by
  unfold step at h
  split at h
  · simp at h
  rename_i rest hst
  obtain ⟨before, rfl, hbef⟩ := start_inv hst
  dsimp only at h
  split at h
  · simp at h
  rename_i hsuf
  simp only [Decidable.not_not, List.isSuffixOf_iff_suffix] at hsuf
  obtain ⟨label, hlab⟩ := hsuf
  split at h
  · simp at h
  rename_i hs rest' hh
  obtain ⟨ls, h1, h2, h3⟩ := headerLoop_inv hh
  have hl : (getLine rest).1.take ((getLine rest).1.length - dashes.length) = label := by rw [← hlab]; simp
  rw [hl] at h
  obtain ⟨rfl, body, s₂, r, k1, k2, k3, k4, k5⟩ := finish_inv (by simpa using h3) h
  obtain ⟨_, ⟨s, e, g1, g2, g3⟩ | ⟨s, g1, g2, g3⟩⟩ := getLine_inv rest
  · refine ⟨before, _, rfl, hbef, s, e, ls, body, s₂, r, ?_, g2, g3, h1, k2, k3, k4, k5⟩
    conv => lhs; rw [g1, ← hlab, h2, k1]
    simp [pemDashes, dashes]
  · rw [g3] at h2
    have := congrArg List.length h2
    rw [k1] at this
    simp [pemEnd] at this

theorem rest_split (d : Bytes) : ∃ pre, d = pre ++ (getLine d).2 ∧ ((getLine d).2 = [] ∨ pre.getLast? = some 10) := by
  obtain ⟨_, ⟨s, e, g1, _, g3⟩ | ⟨s, g1, _, g3⟩⟩ := getLine_inv d
  · refine ⟨(getLine d).1 ++ (s ++ e), by conv => lhs; rw [g1]
                                          simp, .inr ?_⟩
    rcases g3 with rfl | rfl
    · rw [← List.append_assoc, List.getLast?_concat]
    · have : (getLine d).1 ++ (s ++ [13, 10]) = ((getLine d).1 ++ (s ++ [13])) ++ [10] := by simp
      rw [this, List.getLast?_concat]
  · exact ⟨d, by rw [g3]; simp, .inl g3⟩

theorem flatten_last {ls : List Bytes} (h : ∀ l ∈ ls, HeaderLine l) : LineStart ls.flatten := by
  rcases List.eq_nil_or_concat ls with rfl | ⟨x, c, rfl⟩
  · left; rfl
  · obtain ⟨l, rfl, _⟩ := h c (by simp)
    right; simp [← List.append_assoc]

theorem lineStart_append {a b : Bytes} (ha : LineStart a) (hb : LineStart b) : LineStart (a ++ b) := by
  rcases hb with rfl | hb
  · simpa using ha
  · right; rw [List.getLast?_append, hb]; rfl

theorem finish_again {type rest r : Bytes} {hs : List (Bytes × Bytes)} (h : finish type hs rest = .again r) : r = rest := by
  unfold finish at h
  split at h
  · exact (Step.again.inj h).symm
  dsimp only at h
  repeat' split at h
  all_goals first | exact (Step.again.inj h).symm | simp at h

theorem step_again {data r : Bytes} (h : step data = .again r) :
    ∃ pre, data = pre ++ r ∧ pre ≠ [] ∧ (r = [] ∨ LineStart pre) := by
  unfold step at h
  split at h
  · simp at h
  rename_i rest hst
  obtain ⟨before, rfl, hbef⟩ := start_inv hst
  obtain ⟨pre, hp1, hp2⟩ := rest_split rest
  have hne : ∀ q : Bytes, before ++ (pemBegin ++ q) ≠ [] := by simp [pemBegin]
  dsimp only at h
  split at h
  · obtain rfl := Step.again.inj h
    refine ⟨before ++ (pemBegin ++ pre), by conv => lhs; rw [hp1]
                                            simp, hne _, ?_⟩
    refine hp2.imp_right fun h => .inr ?_
    rw [List.getLast?_append, List.getLast?_append, h]; rfl
  split at h
  · simp at h
  rename_i hs rest' hh
  obtain ⟨ls, h1, h2, h3⟩ := headerLoop_inv hh
  obtain rfl := finish_again h
  refine ⟨before ++ (pemBegin ++ (pre ++ ls.flatten)), by conv => lhs; rw [hp1, h2]
                                                          simp, hne _, ?_⟩
  rcases hp2 with hp2 | hp2
  · left
    rw [hp2] at h2
    have := congrArg List.length h2
    simp only [List.length_nil, List.length_append] at this
    exact List.eq_nil_of_length_eq_zero (by omega)
  · right
    rcases flatten_last h1 with h | h
    · right; rw [h, List.append_nil, List.getLast?_append, List.getLast?_append, hp2]; rfl
    · right; rw [List.getLast?_append, List.getLast?_append, List.getLast?_append, h]; rfl

/-- Each iteration shortens the input, so the counter of `decode` is large enough. -/
theorem again_shorter {data r : Bytes} (h : step data = .again r) : r.length < data.length := by
  obtain ⟨pre, rfl, hne, _⟩ := step_again h
  have := List.length_pos_iff.2 hne
  simp; omega

theorem loop_enough {n m : Nat} {data : Bytes} (hn : data.length < n) (hm : data.length < m) : loop n data = loop m data := by
  induction n generalizing m data with
  | zero => omega
  | succ n ih =>
    obtain ⟨m, rfl⟩ : ∃ k, m = k + 1 := ⟨m - 1, by omega⟩
    simp only [loop]
    cases h : step data with
    | stop => rfl
    | found b => rfl
    | again r => have := again_shorter h; exact ih (by omega) (by omega)

/-- The loop of `Decode`, without the counter. -/
theorem decode_eq (data : Bytes) : decode data = match step data with
    | .stop => none
    | .again rest => decode rest
    | .found b => some b := by
  rw [decode, loop]
  cases h : step data with
  | stop => rfl
  | found b => rfl
  | again r => have := again_shorter h; exact loop_enough (by omega) (by omega)

/-- The loop over the headers, without the counter. -/
theorem headerLoop_enough {n m : Nat} {rest : Bytes} (hn : rest.length ≤ n) (hm : rest.length ≤ m) (hs : List (Bytes × Bytes)) :
    headerLoop n rest hs = headerLoop m rest hs := by
  induction n generalizing m rest hs with
  | zero =>
    have : rest = [] := List.eq_nil_of_length_eq_zero (by omega)
    subst this
    cases m <;> simp [headerLoop]
  | succ n ih =>
    cases m with
    | zero =>
      have : rest = [] := List.eq_nil_of_length_eq_zero (by omega)
      subst this
      simp [headerLoop]
    | succ m =>
      unfold headerLoop
      split
      · rfl
      rename_i hne
      have hlt : (getLine rest).2.length < rest.length := by
        obtain ⟨pre, h1, h2⟩ := rest_split rest
        have := List.length_pos_iff.2 hne
        rcases h2 with h2 | h2
        · rw [h2]; simpa using this
        · have : pre ≠ [] := by rintro rfl; simp at h2
          have := List.length_pos_iff.2 this
          have := congrArg List.length h1
          rw [List.length_append] at this
          omega
      dsimp only
      split
      · rfl
      · exact ih (by omega) (by omega) _

theorem decode_found {data : Bytes} {b : Block} (h : decode data = some b) : Holds b.type b.bytes data := by
  have key : ∀ n data b, loop n data = some b → Holds b.type b.bytes data := by
    intro n
    induction n with
    | zero => intro data b h; simp [loop] at h
    | succ n ih =>
      intro data b h
      unfold loop at h
      split at h
      · simp at h
      · rename_i r hr
        obtain ⟨pre, rfl, hne, hst⟩ := step_again hr
        obtain ⟨before, piece, rfl, h1, h2⟩ := ih _ _ h
        rcases hst with hst | hst
        · exfalso
          have := congrArg List.length hst
          obtain ⟨_, _, _, _, _, _, rfl, _⟩ := h2
          simp [pemBegin] at this
        · exact ⟨pre ++ before, piece, by simp, lineStart_append hst h1, h2⟩
      · rename_i hb
        obtain rfl := Option.some.inj h
        exact step_found hb
  exact key _ _ _ h

/-! ## Encoding -/

theorem alphabet_value : ∀ v : Fin 64, sextet (alphabet.getD v 0) = some v.1 := by decide +kernel

theorem value_alphabet {v : Nat} (h : v < 64) : Value (alphabet.getD v 0) v :=
  (sextet_iff _ _).1 (alphabet_value ⟨v, h⟩)

theorem or3 {a b c : Nat} (hb : b < 256) (hc : c < 256) : a <<< 16 ||| b <<< 8 ||| c = a * 65536 + b * 256 + c := by
  have e1 : b <<< 8 ||| c = b * 256 + c := by
    rw [← Nat.shiftLeft_add_eq_or_of_lt (by omega), Nat.shiftLeft_eq]
  have e2 : a <<< 16 ||| (b * 256 + c) = a * 65536 + (b * 256 + c) := by
    rw [← Nat.shiftLeft_add_eq_or_of_lt (by omega), Nat.shiftLeft_eq]
  rw [Nat.or_assoc, e1, e2]; omega

theorem base64_encode (d : Bytes) : Base64 (base64Encode d) d := by
  fun_induction base64Encode d with
  | case1 => exact .nil
  | case2 x v =>
    have hv : v = x.toNat * 65536 := by simp only [v, Nat.shiftLeft_eq]
    have hx := x.toNat_lt
    refine .one (value_alphabet (Nat.mod_lt _ (by omega))) (value_alphabet (Nat.mod_lt _ (by omega))) (e := 0) ?_ (by omega)
    simp only [Nat.shiftRight_eq_div_pow]; omega
  | case3 x y v =>
    have hx := x.toNat_lt; have hy := y.toNat_lt
    have hv : v = x.toNat * 65536 + y.toNat * 256 + 0 := by
      rw [← or3 (by omega) (by omega), Nat.or_zero]
    refine .two (value_alphabet (Nat.mod_lt _ (by omega))) (value_alphabet (Nat.mod_lt _ (by omega)))
      (value_alphabet (Nat.mod_lt _ (by omega))) (e := 0) ?_ (by omega)
    simp only [Nat.shiftRight_eq_div_pow]; omega
  | case4 x y z r v ih =>
    have hx := x.toNat_lt; have hy := y.toNat_lt; have hz := z.toNat_lt
    have hv : v = x.toNat * 65536 + y.toNat * 256 + z.toNat := or3 (by omega) (by omega)
    refine .group (value_alphabet (Nat.mod_lt _ (by omega))) (value_alphabet (Nat.mod_lt _ (by omega)))
      (value_alphabet (Nat.mod_lt _ (by omega))) (value_alphabet (Nat.mod_lt _ (by omega))) ?_ ih
    simp only [Nat.shiftRight_eq_div_pow]; omega

theorem breakLines_filter {n : Nat} {s : Bytes} (hn : s.length ≤ n) (hs : ∀ c ∈ s, white c = false) :
    (breakLines n s).filter (fun c => !white c) = s := by
  induction n generalizing s with
  | zero =>
    have : s = [] := List.eq_nil_of_length_eq_zero (by omega)
    subst this; rfl
  | succ n ih =>
    unfold breakLines
    split
    · rename_i h; subst h; rfl
    · rename_i h
      have h1 : (s.take 64).filter (fun c => !white c) = s.take 64 := by
        rw [List.filter_eq_self]
        intro c hc
        simp [hs c (List.mem_of_mem_take hc)]
      have hp := List.length_pos_iff.2 h
      rw [List.filter_append, h1, List.filter_cons_of_neg (by decide),
        ih (by rw [List.length_drop]; omega) (fun c hc => hs c (List.mem_of_mem_drop hc)), List.take_append_drop]

theorem breakLines_last {n : Nat} {s : Bytes} (hn : s.length ≤ n) : LineStart (breakLines n s) := by
  induction n generalizing s with
  | zero => left; rfl
  | succ n ih =>
    unfold breakLines
    split
    · left; rfl
    · rename_i h
      have hp := List.length_pos_iff.2 h
      have : s.take 64 ++ 10 :: breakLines n (s.drop 64) = (s.take 64 ++ [10]) ++ breakLines n (s.drop 64) := by simp
      rw [this]
      exact lineStart_append (.inr (by simp)) (ih (by rw [List.length_drop]; omega))

theorem base64_not_white {c : UInt8} (h : Base64Char c) : white c = false := by
  rcases h with rfl | ⟨v, h⟩
  · rfl
  · have := (sextet_iff _ _).2 h
    cases hw : white c with
    | false => rfl
    | true =>
      exfalso
      simp only [white, Bool.or_eq_true, beq_iff_eq] at hw
      have h32 : sextet 32 = none := by decide +kernel
      have h9 : sextet 9 = none := by decide +kernel
      have h13 : sextet 13 = none := by decide +kernel
      have h10 : sextet 10 = none := by decide +kernel
      rcases hw with ((rfl | rfl) | rfl) | rfl <;> simp [h32, h9, h13, h10] at this

theorem encode_armour (label d : Bytes) : Armour label d (encode label d) := by
  have hb := base64_encode d
  have hw : ∀ c ∈ base64Encode d, white c = false := fun c hc => base64_not_white (base64_chars hb c hc)
  refine ⟨[], [10], [], breakLines (base64Encode d).length (base64Encode d), [], [10], ?_, by simp [Blank], .inl rfl, by simp,
    (breakLines_last (Nat.le_refl _)).imp_left (fun h => ⟨h, rfl⟩), ?_, by simp [Blank], .inr ⟨[10], [], .inl rfl, rfl⟩⟩
  · simp [encode, begin_, end_, dashes, pemBegin, pemEnd, pemDashes]
  · rw [breakLines_filter (Nat.le_refl _) hw]; exact hb

end MCrypto.Pem
