import Verif.X509.Strings
import Verif.X509.StringSpec
import Mathlib.Tactic.ByContra
/-
C48 (address masks), C49 (host names), C50 (mailboxes), C65 (ASN.1 strings).
-/
namespace MCrypto.Props
open MCrypto MCrypto.X509 MCrypto.X509Spec

/-- A property of bytes that can be checked on all 256 of them. -/
theorem u8_forall (p : Nat → Prop) [DecidablePred p] (h : ∀ n < 256, p n) (b : UInt8) : p b.toNat := h _ b.toNat_lt

/-! ## Runes and bytes -/

theorem runesAux_ascii (n : Nat) (s : Bytes) (hn : s.length ≤ n) :
    ((∀ r ∈ Utf.runesAux n s, r < 128) ↔ ∀ b ∈ s, b.toNat < 128) ∧
    ((∀ b ∈ s, b.toNat < 128) → Utf.runesAux n s = s.map UInt8.toNat) := by
  induction n generalizing s with
  | zero =>
    have : s = [] := List.eq_nil_of_length_eq_zero (by omega)
    subst this
    simp [Utf.runesAux]
  | succ n ih =>
    cases s with
    | nil => simp [Utf.runesAux]
    | cons b t =>
      simp only [List.length_cons] at hn
      rw [Utf.runesAux]
      by_cases hb : b.toNat < 128
      · have hd : Utf.decode1 (b :: t) = some (b.toNat, 1) := by simp [Utf.decode1, hb]
        rw [hd]
        simp only [List.drop_succ_cons, List.drop_zero, List.mem_cons, forall_eq_or_imp, hb, true_and, List.map_cons]
        obtain ⟨i1, i2⟩ := ih t (by omega)
        exact ⟨i1, fun h => by rw [i2 h]⟩
      · have hf : ¬ ∀ b' ∈ b :: t, b'.toNat < 128 := fun h => hb (h b (by simp))
        refine ⟨⟨fun h => ?_, fun h => absurd h hf⟩, fun h => absurd h hf⟩
        exfalso
        cases hd : Utf.decode1 (b :: t) with
        | none => rw [hd] at h; exact absurd (h 0xFFFD (by simp)) (by decide)
        | some rk =>
          obtain ⟨r, k⟩ := rk
          rw [hd] at h
          have hr := h r (by simp)
          obtain ⟨_, he, _⟩ := Utf.decode1_some hd
          unfold Utf.encodeRune at he
          rw [if_pos (by omega)] at he
          simp only [List.cons_append, List.cons.injEq] at he
          have := congrArg UInt8.toNat he.1
          rw [UInt8.toNat_ofNat'] at this
          omega

theorem runes_ascii_iff (s : Bytes) : (∀ r ∈ Utf.runes s, r < 128) ↔ ∀ b ∈ s, b.toNat < 128 :=
  (runesAux_ascii _ s (Nat.le_refl _)).1

theorem runes_ascii {s : Bytes} (h : ∀ b ∈ s, b.toNat < 128) : Utf.runes s = s.map UInt8.toNat :=
  (runesAux_ascii _ s (Nat.le_refl _)).2 h

/-- `isIA5String` accepts exactly the ASCII strings. -/
theorem isIA5String_iff (s : Bytes) : isIA5String s = true ↔ ∀ b ∈ s, b.toNat < 128 := by
  rw [← runes_ascii_iff]
  simp only [isIA5String, List.all_eq_true, decide_eq_true_eq]
  exact ⟨fun h r hr => by have := h r hr; omega, fun h r hr => by have := h r hr; omega⟩

/-! ## C48 -/

instance : DecidableRel (fun a b : Bool => b = true → a = true) := fun _ _ => inferInstance

/-- Bits in non-increasing order. -/
def Mono (l : List Bool) : Prop := l.Pairwise (fun a b => b = true → a = true)

theorem mono_iff (l : List Bool) : Mono l ↔ ∃ k m, l = List.replicate k true ++ List.replicate m false := by
  constructor
  · intro h
    induction l with
    | nil => exact ⟨0, 0, rfl⟩
    | cons a t ih =>
      obtain ⟨h1, h2⟩ := List.pairwise_cons.mp h
      cases a with
      | true =>
        obtain ⟨k, m, e⟩ := ih h2
        exact ⟨k + 1, m, by rw [List.replicate_succ, List.cons_append, ← e]⟩
      | false =>
        refine ⟨0, t.length + 1, ?_⟩
        rw [List.replicate_zero, List.nil_append, List.replicate_succ]
        congr 1
        rw [List.eq_replicate_iff]
        refine ⟨rfl, fun x hx => ?_⟩
        cases x with
        | false => rfl
        | true => exact absurd (h1 true hx rfl) (by decide)
  · rintro ⟨k, m, rfl⟩
    unfold Mono
    rw [List.pairwise_append]
    refine ⟨?_, ?_, ?_⟩
    · rw [List.pairwise_replicate]; exact Or.inr (fun h => h)
    · rw [List.pairwise_replicate]; exact Or.inr (fun h => h)
    · intro a ha b hb hbt
      rw [List.mem_replicate] at ha
      exact ha.2

def bits8 (x : UInt8) : List Bool := (List.range 8).map fun i => x.toNat.testBit (7 - i)

theorem bitsOf_cons (x : UInt8) (t : Bytes) : bitsOf (x :: t) = bits8 x ++ bitsOf t := by
  simp only [bitsOf, List.flatMap_cons, bits8]

def maskByte (x : UInt8) : Prop := x ∈ ([0x00, 0x80, 0xc0, 0xe0, 0xf0, 0xf8, 0xfc, 0xfe] : Bytes)

theorem bits8_cases (x : UInt8) :
    (maskByte x → Mono (bits8 x) ∧ false ∈ bits8 x) ∧ (x = 0xff → bits8 x = List.replicate 8 true) ∧
    (¬ maskByte x → x ≠ 0xff → ¬ Mono (bits8 x)) ∧ ((∀ y ∈ bits8 x, y = false) ↔ x = 0) := by
  have k1 : ∀ n < 256, n ∈ [0x00, 0x80, 0xc0, 0xe0, 0xf0, 0xf8, 0xfc, 0xfe] →
        ((List.range 8).map fun i => n.testBit (7 - i)).Pairwise (fun a b => b = true → a = true) ∧
        false ∈ (List.range 8).map fun i => n.testBit (7 - i) := by decide +kernel
  have k3 : ∀ n < 256, ¬ n ∈ [0x00, 0x80, 0xc0, 0xe0, 0xf0, 0xf8, 0xfc, 0xfe] → n ≠ 0xff →
        ¬ ((List.range 8).map fun i => n.testBit (7 - i)).Pairwise (fun a b => b = true → a = true) := by
    decide +kernel
  have k4 : ∀ n < 256, ((∀ y ∈ (List.range 8).map fun i => n.testBit (7 - i), y = false) ↔ n = 0) := by
    decide +kernel
  have k2 : ∀ n < 256, n = 0xff → ((List.range 8).map fun i => n.testBit (7 - i)) = List.replicate 8 true := by
    decide +kernel
  have key := fun (n : Nat) (h : n < 256) => And.intro (k1 n h) (And.intro (k2 n h) (And.intro (k3 n h) (k4 n h)))
  have hx := key x.toNat x.toNat_lt
  have e1 : maskByte x ↔ x.toNat ∈ [0x00, 0x80, 0xc0, 0xe0, 0xf0, 0xf8, 0xfc, 0xfe] := by
    simp only [maskByte, List.mem_cons, List.not_mem_nil, or_false, ← UInt8.toNat_inj]
    exact Iff.rfl
  have e2 : x = 0xff ↔ x.toNat = 0xff := by rw [← UInt8.toNat_inj]; exact Iff.rfl
  have e3 : x = 0 ↔ x.toNat = 0 := by rw [← UInt8.toNat_inj]; exact Iff.rfl
  rw [e1, e3]
  simp only [ne_eq, e2]
  exact hx

theorem maskLoop_true (t : Bytes) : maskLoop true t = true ↔ ∀ y ∈ bitsOf t, y = false := by
  induction t with
  | nil => simp [maskLoop, bitsOf]
  | cons b t ih =>
    rw [bitsOf_cons]
    simp only [maskLoop, List.mem_append]
    by_cases hb : b = 0
    · rw [if_neg (by simpa using hb), ih]
      have h0 := (bits8_cases b).2.2.2.mpr hb
      constructor
      · rintro h y (hy | hy)
        · exact h0 y hy
        · exact h y hy
      · exact fun h y hy => h y (Or.inr hy)
    · rw [if_pos hb]
      simp only [Bool.false_eq_true, false_iff]
      intro h
      exact hb ((bits8_cases b).2.2.2.mp fun y hy => h y (Or.inl hy))

/-- **C48**: a mask is accepted exactly when its bits are ones followed by zeros. -/
theorem C48_isValidIPMask_iff (mask : Bytes) :
    isValidIPMask mask = true ↔ ∃ k m, bitsOf mask = List.replicate k true ++ List.replicate m false := by
  rw [← mono_iff]
  unfold isValidIPMask
  induction mask with
  | nil => simp [maskLoop, bitsOf, Mono]
  | cons b t ih =>
    obtain ⟨c1, c2, c3, _⟩ := bits8_cases b
    rw [bitsOf_cons]
    simp only [maskLoop]
    unfold Mono
    rw [List.pairwise_append]
    by_cases hm : maskByte b
    · have hm' := hm
      unfold maskByte at hm'
      rw [if_pos hm', maskLoop_true]
      obtain ⟨d1, d2⟩ := c1 hm
      constructor
      · intro h
        refine ⟨d1, ?_, fun a _ b hb hbt => ?_⟩
        · exact List.pairwise_of_forall_mem_list (fun a ha b hb hbt => by rw [h b hb] at hbt; cases hbt)
        · rw [h b hb] at hbt; cases hbt
      · rintro ⟨_, _, h⟩ y hy
        cases y with
        | false => rfl
        | true => exact absurd (h false d2 true hy rfl) (by decide)
    · have hm' := hm
      unfold maskByte at hm'
      rw [if_neg hm']
      by_cases hff : b = 0xff
      · rw [if_pos hff, ih, c2 hff]
        constructor
        · intro h
          refine ⟨?_, h, ?_⟩
          · rw [List.pairwise_replicate]; exact Or.inr (fun h => h)
          · intro a ha _ _ _; exact (List.mem_replicate.mp ha).2
        · exact fun h => h.2.1
      · rw [if_neg hff]
        simp only [Bool.false_eq_true, false_iff]
        exact fun h => c3 hm hff h.1

example : isValidIPMask [255, 255, 240, 0] = true := (C48_isValidIPMask_iff _).mpr ⟨20, 12, by decide +kernel⟩
example : isValidIPMask [255, 0, 255, 0] = false := by decide +kernel

/-! ## C49 -/

theorem lastDot_none {s : Bytes} (h : (46 : UInt8) ∉ s) : lastDot s = none := by
  unfold lastDot
  have : (s.reverse).findIdx? (fun b => b == 46) = none := by
    rw [List.findIdx?_eq_none_iff]
    intro x hx
    rw [List.mem_reverse] at hx
    simp only [beq_eq_false_iff_ne, ne_eq]
    intro e
    exact h (e ▸ hx)
  rw [this]

theorem lastDot_append (a l : Bytes) (h : (46 : UInt8) ∉ l) : lastDot (a ++ 46 :: l) = some a.length := by
  unfold lastDot
  have : ((a ++ 46 :: l).reverse).findIdx? (fun b => b == 46) = some l.length := by
    rw [List.reverse_append, List.reverse_cons, List.append_assoc, List.findIdx?_append]
    have h1 : (l.reverse).findIdx? (fun b => b == (46 : UInt8)) = none := by
      rw [List.findIdx?_eq_none_iff]
      intro x hx
      rw [List.mem_reverse] at hx
      simp only [beq_eq_false_iff_ne, ne_eq]
      intro e
      exact h (e ▸ hx)
    rw [h1]
    simp [List.findIdx?_cons]
  rw [this]
  simp only [List.length_append, List.length_cons, Option.some.injEq]
  omega

theorem drop_dot (a l : Bytes) (c : UInt8) : (a ++ c :: l).drop (a.length + 1) = l := by
  rw [← List.drop_drop, List.drop_left]; rfl

theorem split_last_dot (s : Bytes) (h : (46 : UInt8) ∈ s) : ∃ a l, s = a ++ 46 :: l ∧ (46 : UInt8) ∉ l := by
  induction s with
  | nil => cases h
  | cons b t ih =>
    by_cases ht : (46 : UInt8) ∈ t
    · obtain ⟨a, l, e, hl⟩ := ih ht
      exact ⟨b :: a, l, by rw [e]; rfl, hl⟩
    · rcases List.mem_cons.mp h with e | h'
      · exact ⟨[], t, by rw [← e]; rfl, ht⟩
      · exact absurd h' ht

/-- Labels in reverse order joined by periods. -/
def rjoin : List Bytes → Bytes
  | [] => []
  | [l] => l
  | l :: l' :: r => rjoin (l' :: r) ++ 46 :: l

theorem joinDots_append (ls : List Bytes) (l : Bytes) (h : ls ≠ []) :
    joinDots (ls ++ [l]) = joinDots ls ++ 46 :: l := by
  induction ls with
  | nil => exact absurd rfl h
  | cons x t ih =>
    cases t with
    | nil => simp [joinDots, List.intersperse]
    | cons y t =>
      have := ih (by simp)
      simp only [joinDots, List.cons_append, List.intersperse_cons_cons, List.flatten_cons, List.append_assoc] at this ⊢
      rw [this]

theorem rjoin_eq (ls : List Bytes) : rjoin ls = joinDots ls.reverse := by
  induction ls with
  | nil => rfl
  | cons l t ih =>
    cases t with
    | nil => simp [rjoin, joinDots, List.intersperse]
    | cons l' r =>
      rw [rjoin, ih, List.reverse_cons (a := l), joinDots_append _ _ (by simp)]

theorem rjoin_cons (l : Bytes) (t : List Bytes) (h : t ≠ []) : rjoin (l :: t) = rjoin t ++ 46 :: l := by
  cases t with
  | nil => exact absurd rfl h
  | cons l' r => rfl

theorem reverseLabelsLoop_sound (n : Nat) (s : Bytes) (hn : s.length ≤ n) :
    (s = [] ∧ reverseLabelsLoop n s = []) ∨
    (reverseLabelsLoop n s ≠ [] ∧ (∀ l ∈ reverseLabelsLoop n s, (46 : UInt8) ∉ l) ∧
      (s = rjoin (reverseLabelsLoop n s) ∨ s = 46 :: rjoin (reverseLabelsLoop n s))) := by
  induction n generalizing s with
  | zero =>
    have : s = [] := List.eq_nil_of_length_eq_zero (by omega)
    exact Or.inl ⟨this, rfl⟩
  | succ n ih =>
    rw [reverseLabelsLoop]
    by_cases hs : s.length = 0
    · rw [if_pos hs]; exact Or.inl ⟨List.length_eq_zero_iff.mp hs, rfl⟩
    · rw [if_neg hs]
      right
      by_cases hd : (46 : UInt8) ∈ s
      · obtain ⟨a, l, e, hl⟩ := split_last_dot s hd
        have hld := lastDot_append a l hl
        rw [← e] at hld
        rw [hld]
        have e1 : s.drop (a.length + 1) = l := by
          rw [e, drop_dot]
        have e2 : s.take a.length = a := by rw [e]; simp
        simp only [e1, e2]
        have hlen : a.length ≤ n := by
          have := congrArg List.length e
          simp only [List.length_append, List.length_cons] at this
          omega
        refine ⟨by simp, ?_, ?_⟩
        · intro x hx
          rcases List.mem_cons.mp hx with hx | hx
          · rw [hx]; exact hl
          · rcases ih a hlen with ⟨_, h2⟩ | ⟨_, h2, _⟩
            · rw [h2] at hx; cases hx
            · exact h2 x hx
        · rcases ih a hlen with ⟨h1, h2⟩ | ⟨h1, _, h3⟩
          · right; rw [h2]; rw [e, h1]; rfl
          · rw [rjoin_cons _ _ h1]
            rcases h3 with h3 | h3
            · left; rw [← h3]; exact e
            · right; rw [← List.cons_append, ← h3]; exact e
      · rw [lastDot_none hd]
        refine ⟨by simp, ?_, Or.inl rfl⟩
        intro x hx
        rw [List.mem_singleton] at hx
        rw [hx]; exact hd

theorem reverseLabelsLoop_complete (ls : List Bytes) (hl : ∀ l ∈ ls, (46 : UInt8) ∉ l) (hne : ∀ l ∈ ls, l ≠ [])
    (hls : ls ≠ []) (pre : Bytes) (hpre : pre = [] ∨ pre = [46]) (n : Nat) (hn : (pre ++ rjoin ls).length ≤ n) :
    reverseLabelsLoop n (pre ++ rjoin ls) = ls := by
  induction ls generalizing n with
  | nil => exact absurd rfl hls
  | cons l t ih =>
    have hll := hl l (by simp)
    have hln := hne l (by simp)
    have hlp : 0 < l.length := List.length_pos_of_ne_nil hln
    by_cases ht : t = []
    · subst ht
      simp only [rjoin, List.length_append] at hn ⊢
      obtain ⟨n, rfl⟩ : ∃ k, n = k + 1 := ⟨n - 1, by omega⟩
      rw [reverseLabelsLoop, if_neg (by rw [List.length_append]; omega)]
      rcases hpre with rfl | rfl
      · rw [List.nil_append, lastDot_none hll]
      · have := lastDot_append [] l hll
        simp only [List.nil_append, List.length_nil] at this
        simp only [List.cons_append, List.nil_append, this, List.take_zero, Nat.zero_add, List.drop_succ_cons, List.drop_zero]
        cases n <;> simp [reverseLabelsLoop]
    · rw [rjoin_cons _ _ ht] at hn ⊢
      rw [← List.append_assoc] at hn ⊢
      simp only [List.length_append, List.length_cons] at hn
      obtain ⟨n, rfl⟩ : ∃ k, n = k + 1 := ⟨n - 1, by omega⟩
      rw [reverseLabelsLoop, if_neg (by simp only [List.length_append, List.length_cons]; omega)]
      rw [lastDot_append _ _ hll]
      simp only []
      rw [drop_dot, List.take_left']
      · rw [ih (fun x hx => hl x (by simp [hx])) (fun x hx => hne x (by simp [hx])) ht n
          (by rw [List.length_append]; omega)]
      · rfl

theorem labelOk_iff (l : Bytes) : labelOk l = true ↔ l ≠ [] ∧ ∀ b ∈ l, 33 ≤ b.toNat ∧ b.toNat ≤ 126 := by
  have e0 : (!(l.length == 0)) = true ↔ l ≠ [] := by simp
  unfold labelOk
  rw [Bool.and_eq_true, e0]
  apply and_congr_right
  intro _
  simp only [List.all_eq_true, Bool.not_eq_true', Bool.or_eq_false_iff, decide_eq_false_iff_not]
  constructor
  · intro h b hb
    have ha : ∀ b ∈ l, b.toNat < 128 := (runes_ascii_iff l).mp fun r hr => by have := h r hr; omega
    have := h b.toNat (by rw [runes_ascii ha]; exact List.mem_map_of_mem hb)
    omega
  · intro h r hr
    rw [runes_ascii fun b hb => by have := h b hb; omega, List.mem_map] at hr
    obtain ⟨b, hb, rfl⟩ := hr
    have := h b hb
    omega

/-- **C49**: a host name is accepted with exactly its labels in reverse: it must be those labels joined by
periods, each a non-empty string of printable ASCII characters; one leading period is ignored, and the empty
name has no labels. -/
theorem C49_domainToReverseLabels_iff (domain : Bytes) (labels : List Bytes) :
    domainToReverseLabels domain = some labels ↔
      (∀ l ∈ labels, Label l) ∧
      (domain = joinDots labels.reverse ∨ (labels ≠ [] ∧ domain = 46 :: joinDots labels.reverse)) := by
  unfold domainToReverseLabels
  simp only []
  have hs := reverseLabelsLoop_sound domain.length domain (Nat.le_refl _)
  constructor
  · intro h
    cases hL : reverseLabelsLoop domain.length domain with
    | nil =>
      rw [hL] at h
      simp only [Option.some.injEq] at h
      subst h
      rcases hs with ⟨h1, _⟩ | ⟨h1, _⟩
      · exact ⟨by simp, Or.inl h1⟩
      · exact absurd hL h1
    | cons l t =>
      rw [hL] at h hs
      simp only [] at h
      split at h
      · cases h
      · split at h
        · rename_i hok
          simp only [Option.some.injEq] at h
          subst h
          rcases hs with ⟨_, h2⟩ | ⟨h1, h2, h3⟩
          · cases h2
          · rw [rjoin_eq] at h3
            refine ⟨?_, ?_⟩
            · intro x hx
              obtain ⟨g1, g2⟩ := (labelOk_iff x).mp (List.all_eq_true.mp hok x hx)
              refine ⟨g1, fun b hb => ⟨(g2 b hb).1, (g2 b hb).2, fun e => h2 x hx (e ▸ hb)⟩⟩
            · rcases h3 with h3 | h3
              · exact Or.inl h3
              · exact Or.inr ⟨h1, h3⟩
        · cases h
  · rintro ⟨h1, h2⟩
    by_cases hlab : labels = []
    · subst hlab
      have : domain = [] := by
        rcases h2 with h2 | h2
        · exact h2
        · exact absurd rfl h2.1
      subst this
      rfl
    · have hLoop : reverseLabelsLoop domain.length domain = labels := by
        have hd : ∃ pre : Bytes, (pre = [] ∨ pre = [46]) ∧ domain = pre ++ rjoin labels := by
          rcases h2 with h2 | h2
          · exact ⟨[], Or.inl rfl, by rw [rjoin_eq]; exact h2⟩
          · exact ⟨[46], Or.inr rfl, by rw [rjoin_eq]; exact h2.2⟩
        obtain ⟨pre, hp, e⟩ := hd
        have := reverseLabelsLoop_complete labels (fun l hl hm => ((h1 l hl).2 46 hm).2.2 rfl)
          (fun l hl => (h1 l hl).1) hlab pre hp domain.length (by rw [← e])
        rw [← e] at this
        exact this
      rw [hLoop]
      cases labels with
      | nil => exact absurd rfl hlab
      | cons l t =>
        have hl := (h1 l (by simp)).1
        simp only []
        rw [if_neg (by simpa using hl), if_pos]
        rw [List.all_eq_true]
        intro x hx
        exact (labelOk_iff x).mpr ⟨(h1 x hx).1, fun b hb => ⟨((h1 x hx).2 b hb).1, ((h1 x hx).2 b hb).2.1⟩⟩

theorem domain_ok_iff (d : Bytes) : (∃ ls, domainToReverseLabels d = some ls) ↔ HostName d := by
  constructor
  · rintro ⟨ls, h⟩
    obtain ⟨h1, h2⟩ := (C49_domainToReverseLabels_iff d ls).mp h
    refine ⟨ls.reverse, fun l hl => h1 l (List.mem_reverse.mp hl), ?_⟩
    rcases h2 with h2 | ⟨h2, h3⟩
    · exact Or.inl h2
    · exact Or.inr ⟨by simpa using h2, h3⟩
  · rintro ⟨ls, h1, h2⟩
    refine ⟨ls.reverse, (C49_domainToReverseLabels_iff d _).mpr ⟨fun l hl => h1 l (List.mem_reverse.mp hl), ?_⟩⟩
    rw [List.reverse_reverse]
    rcases h2 with h2 | ⟨h2, h3⟩
    · exact Or.inl h2
    · exact Or.inr ⟨by simpa using h2, h3⟩

/-- "www.x-y" -/
example : domainToReverseLabels [119, 119, 119, 46, 120, 45, 121] = some [[120, 45, 121], [119, 119, 119]] :=
  (C49_domainToReverseLabels_iff _ _).mpr ⟨by simp [Label], Or.inl rfl⟩
/-- An empty label in the middle or at the end, and a space, are rejected. -/
example : domainToReverseLabels [97, 46, 46, 98] = none := by decide +kernel
example : domainToReverseLabels [97, 46] = none := by decide +kernel
example : domainToReverseLabels [97, 32, 98] = none := by decide +kernel
example : domainToReverseLabels [46, 97] = some [[97]] := by decide +kernel

/-! ## C50 -/

theorem qtextChar_iff (c : UInt8) : qtextChar c.toNat = true ↔
    (c.toNat ≠ 0 ∧ c.toNat < 128 ∧ c ≠ 9 ∧ c ≠ 10 ∧ c ≠ 13 ∧ c ≠ 34 ∧ c ≠ 92) := by
  simp only [qtextChar, Bool.or_eq_true, decide_eq_true_eq, ne_eq, ← UInt8.toNat_inj, UInt8.reduceToNat]
  omega

theorem quotedPairChar_iff (c : UInt8) : quotedPairChar c.toNat = true ↔
    (c.toNat ≠ 0 ∧ c.toNat < 128 ∧ c ≠ 10 ∧ c ≠ 13) := by
  simp only [quotedPairChar, Bool.or_eq_true, decide_eq_true_eq, ne_eq, ← UInt8.toNat_inj, UInt8.reduceToNat]
  omega

theorem quotedLoop_iff (s : Bytes) : ∀ (acc l rest : Bytes),
    quotedLoop acc s = some (l, rest) ↔ ∃ q m, Quoted q m ∧ l = acc ++ m ∧ s = q ++ 34 :: rest := by
  suffices H : ∀ (n : Nat) (s : Bytes), s.length ≤ n → ∀ (acc l rest : Bytes),
      quotedLoop acc s = some (l, rest) ↔ ∃ q m, Quoted q m ∧ l = acc ++ m ∧ s = q ++ 34 :: rest from
    H s.length s (Nat.le_refl _)
  intro n
  induction n with
  | zero =>
    intro s hs acc l rest
    have : s = [] := List.eq_nil_of_length_eq_zero (by omega)
    subst this
    simp [quotedLoop]
  | succ n ih =>
    intro s hs acc l rest
    cases s with
    | nil => simp [quotedLoop]
    | cons c t =>
      simp only [List.length_cons] at hs
      rw [quotedLoop.eq_def]
      simp only []
      by_cases hc : c = 34
      · rw [if_pos hc]
        subst hc
        simp only [Option.some.injEq, Prod.mk.injEq]
        constructor
        · rintro ⟨rfl, rfl⟩
          exact ⟨[], [], Quoted.nil, by simp, rfl⟩
        · rintro ⟨q, m, hq, hm, e⟩
          cases hq with
          | nil => simp at hm e; exact ⟨hm.symm, e⟩
          | text c q l h1 h2 =>
            simp only [List.cons_append, List.cons.injEq] at e
            exact absurd e.1.symm (h1.2.2.2.2.2.1)
          | pair c q l h1 h2 =>
            simp only [List.cons_append, List.cons.injEq] at e
            exact absurd e.1 (by decide)
      · rw [if_neg hc]
        by_cases hb : c = 92
        · rw [if_pos hb]
          subst hb
          cases t with
          | nil =>
            simp only [reduceCtorEq, false_iff]
            rintro ⟨q, m, hq, hm, e⟩
            cases hq with
            | nil => simp at e
            | text c q l h1 h2 =>
              simp only [List.cons_append, List.cons.injEq] at e
              exact absurd e.1.symm h1.2.2.2.2.2.2
            | pair c q l h1 h2 => simp at e
          | cons d t =>
            simp only [List.length_cons] at hs
            simp only []
            by_cases hd : quotedPairChar d.toNat = true
            · rw [if_pos hd, ih t (by omega)]
              constructor
              · rintro ⟨q, m, hq, hm, e⟩
                exact ⟨92 :: d :: q, d :: m, Quoted.pair d q m ((quotedPairChar_iff d).mp hd) hq, by rw [hm]; simp, by rw [e]; rfl⟩
              · rintro ⟨q, m, hq, hm, e⟩
                cases hq with
                | nil => simp at e
                | text c q l h1 h2 =>
                  simp only [List.cons_append, List.cons.injEq] at e
                  exact absurd e.1.symm h1.2.2.2.2.2.2
                | pair c q l h1 h2 =>
                  simp only [List.cons_append, List.cons.injEq, true_and] at e
                  obtain ⟨rfl, e⟩ := e
                  exact ⟨q, l, h2, by rw [hm]; simp, e⟩
            · rw [if_neg hd]
              simp only [reduceCtorEq, false_iff]
              rintro ⟨q, m, hq, hm, e⟩
              cases hq with
              | nil => simp at e
              | text c q l h1 h2 =>
                simp only [List.cons_append, List.cons.injEq] at e
                exact absurd e.1.symm h1.2.2.2.2.2.2
              | pair c q l h1 h2 =>
                simp only [List.cons_append, List.cons.injEq, true_and] at e
                exact hd ((quotedPairChar_iff d).mpr (e.1 ▸ h1))
        · rw [if_neg hb]
          by_cases hq : qtextChar c.toNat = true
          · rw [if_pos hq, ih t (by omega)]
            constructor
            · rintro ⟨q, m, hq', hm, e⟩
              exact ⟨c :: q, c :: m, Quoted.text c q m ((qtextChar_iff c).mp hq) hq', by rw [hm]; simp, by rw [e]; rfl⟩
            · rintro ⟨q, m, hq', hm, e⟩
              cases hq' with
              | nil => simp only [List.nil_append, List.cons.injEq] at e; exact absurd e.1 hc
              | text c' q l h1 h2 =>
                simp only [List.cons_append, List.cons.injEq] at e
                obtain ⟨rfl, e⟩ := e
                exact ⟨q, l, h2, by rw [hm]; simp, e⟩
              | pair c' q l h1 h2 =>
                simp only [List.cons_append, List.cons.injEq] at e
                exact absurd e.1 hb
          · rw [if_neg hq]
            simp only [reduceCtorEq, false_iff]
            rintro ⟨q, m, hq', hm, e⟩
            cases hq' with
            | nil => simp only [List.nil_append, List.cons.injEq] at e; exact hc e.1
            | text c' q l h1 h2 =>
              simp only [List.cons_append, List.cons.injEq] at e
              exact hq ((qtextChar_iff c).mpr (e.1 ▸ h1))
            | pair c' q l h1 h2 =>
              simp only [List.cons_append, List.cons.injEq] at e
              exact hb e.1

theorem atomChar_iff (c : UInt8) : atomChar c.toNat = true ↔ (atext c.toNat ∨ c = 46) := by
  have key : ∀ n < 256, (atomChar n = true ↔ (atext n ∨ n = 46)) := by decide +kernel
  rw [← UInt8.toNat_inj]
  exact key c.toNat c.toNat_lt

/-- The loop stops at the first character that is neither an escape nor an atom character. -/
def Stops (rest : Bytes) : Prop := ∀ c t, rest = c :: t → c ≠ 92 ∧ ¬ (atext c.toNat ∨ c = 46)

theorem atomLoop_iff (s : Bytes) : ∀ (acc l rest : Bytes),
    atomLoop acc s = some (l, rest) ↔ ∃ q m, Dotted q m ∧ l = acc ++ m ∧ s = q ++ rest ∧ Stops rest := by
  have not92 : ¬ (atext (92 : UInt8).toNat ∨ (92 : UInt8) = 46) := by decide
  suffices H : ∀ (n : Nat) (s : Bytes), s.length ≤ n → ∀ (acc l rest : Bytes),
      atomLoop acc s = some (l, rest) ↔ ∃ q m, Dotted q m ∧ l = acc ++ m ∧ s = q ++ rest ∧ Stops rest from
    H s.length s (Nat.le_refl _)
  intro n
  induction n with
  | zero =>
    intro s hs acc l rest
    have : s = [] := List.eq_nil_of_length_eq_zero (by omega)
    subst this
    simp only [atomLoop, Option.some.injEq, Prod.mk.injEq]
    constructor
    · rintro ⟨rfl, rfl⟩
      exact ⟨[], [], Dotted.nil, by simp, rfl, fun c t h => by cases h⟩
    · rintro ⟨q, m, hq, hm, e, _⟩
      have := List.append_eq_nil_iff.mp e.symm
      obtain ⟨rfl, rfl⟩ := this
      cases hq
      simp [hm]
  | succ n ih =>
    intro s hs acc l rest
    cases s with
    | nil =>
      simp only [atomLoop, Option.some.injEq, Prod.mk.injEq]
      constructor
      · rintro ⟨rfl, rfl⟩
        exact ⟨[], [], Dotted.nil, by simp, rfl, fun c t h => by cases h⟩
      · rintro ⟨q, m, hq, hm, e, _⟩
        have := List.append_eq_nil_iff.mp e.symm
        obtain ⟨rfl, rfl⟩ := this
        cases hq
        simp [hm]
    | cons c t =>
      simp only [List.length_cons] at hs
      rw [atomLoop.eq_def]
      simp only []
      by_cases hb : c = 92
      · rw [if_pos hb]
        subst hb
        cases t with
        | nil =>
          simp only [reduceCtorEq, false_iff]
          rintro ⟨q, m, hq, hm, e, hst⟩
          cases hq with
          | nil => exact (hst _ _ e.symm).1 rfl
          | text c q l h1 h2 =>
            simp only [List.cons_append, List.cons.injEq] at e
            exact not92 (e.1 ▸ h1)
          | pair c q l h2 => simp at e
        | cons d t =>
          simp only [List.length_cons] at hs
          simp only []
          rw [ih t (by omega)]
          constructor
          · rintro ⟨q, m, hq, hm, e, hst⟩
            exact ⟨92 :: d :: q, d :: m, Dotted.pair d q m hq, by rw [hm]; simp, by rw [e]; rfl, hst⟩
          · rintro ⟨q, m, hq, hm, e, hst⟩
            cases hq with
            | nil => exact absurd rfl (hst _ _ e.symm).1
            | text c q l h1 h2 =>
              simp only [List.cons_append, List.cons.injEq] at e
              exact absurd (e.1 ▸ h1) not92
            | pair c q l h2 =>
              simp only [List.cons_append, List.cons.injEq, true_and] at e
              obtain ⟨rfl, e⟩ := e
              exact ⟨q, l, h2, by rw [hm]; simp, e, hst⟩
      · rw [if_neg hb]
        by_cases hq : atomChar c.toNat = true
        · rw [if_pos hq, ih t (by omega)]
          have ha := (atomChar_iff c).mp hq
          constructor
          · rintro ⟨q, m, hq', hm, e, hst⟩
            exact ⟨c :: q, c :: m, Dotted.text c q m ha hq', by rw [hm]; simp, by rw [e]; rfl, hst⟩
          · rintro ⟨q, m, hq', hm, e, hst⟩
            cases hq' with
            | nil => exact absurd ha (hst _ _ e.symm).2
            | text c' q l h1 h2 =>
              simp only [List.cons_append, List.cons.injEq] at e
              obtain ⟨rfl, e⟩ := e
              exact ⟨q, l, h2, by rw [hm]; simp, e, hst⟩
            | pair c' q l h2 =>
              simp only [List.cons_append, List.cons.injEq] at e
              exact absurd e.1 hb
        · rw [if_neg hq]
          have ha : ¬ (atext c.toNat ∨ c = 46) := fun h => hq ((atomChar_iff c).mpr h)
          simp only [Option.some.injEq, Prod.mk.injEq]
          constructor
          · rintro ⟨rfl, rfl⟩
            refine ⟨[], [], Dotted.nil, by simp, rfl, fun c' t' h => ?_⟩
            simp only [List.cons.injEq] at h
            rw [← h.1]
            exact ⟨hb, ha⟩
          · rintro ⟨q, m, hq', hm, e, hst⟩
            cases hq' with
            | nil => simp at hm e; exact ⟨hm.symm, e⟩
            | text c' q l h1 h2 =>
              simp only [List.cons_append, List.cons.injEq] at e
              exact absurd (e.1 ▸ h1) ha
            | pair c' q l h2 =>
              simp only [List.cons_append, List.cons.injEq] at e
              exact absurd e.1 hb

theorem hasTwoDots_iff (l : Bytes) : hasTwoDots l = true ↔ ∃ a b, l = a ++ 46 :: 46 :: b := by
  induction l with
  | nil => simp [hasTwoDots]
  | cons x t ih =>
    cases t with
    | nil =>
      simp only [hasTwoDots, Bool.false_eq_true, false_iff]
      rintro ⟨a, b, e⟩
      have := congrArg List.length e
      simp at this
      omega
    | cons y t =>
      rw [hasTwoDots, Bool.or_eq_true, ih]
      simp only [Bool.and_eq_true, beq_iff_eq]
      constructor
      · rintro (⟨rfl, rfl⟩ | ⟨a, b, e⟩)
        · exact ⟨[], t, rfl⟩
        · exact ⟨x :: a, b, by rw [e]; rfl⟩
      · rintro ⟨a, b, e⟩
        cases a with
        | nil => simp at e; exact Or.inl ⟨e.1, e.2.1⟩
        | cons z a => simp at e; exact Or.inr ⟨a, b, e.2⟩

theorem atomLocalOk_iff (l : Bytes) : atomLocalOk l = true ↔ DotAtom l := by
  unfold atomLocalOk DotAtom
  rw [Bool.and_eq_true, Bool.not_eq_true', Bool.not_eq_true', Bool.or_eq_false_iff, Bool.or_eq_false_iff]
  rw [show (hasTwoDots l = false ↔ ¬ ∃ a b, l = a ++ 46 :: 46 :: b) from by
    rw [← hasTwoDots_iff]; simp]
  cases l with
  | nil => simp
  | cons x t =>
    rw [List.getLastD_eq_getLast?]
    cases h : (x :: t).getLast? with
    | none => simp at h
    | some y => simp [and_assoc]

theorem stops_at (d : Bytes) : Stops (64 :: d) := by
  intro c t h
  simp only [List.cons.injEq] at h
  rw [← h.1]
  decide

/-- **C50**: a mailbox is accepted exactly when it has the documented form, and the result is the unescaped
local part and the domain. (Since the model reads the input by pattern matching, an index out of range in the
code would be a missing case here; there is none.) -/
theorem C50_parseRFC2821Mailbox_iff (s loc domain : Bytes) :
    parseRFC2821Mailbox s = some (loc, domain) ↔ Mailbox s loc domain := by
  have dom : ∀ (l rest : Bytes), mailboxDomain l rest = some (loc, domain) ↔
      l = loc ∧ rest = 64 :: domain ∧ HostName domain := by
    unfold mailboxDomain
    intro l rest
    cases rest with
    | nil => simp
    | cons c d =>
      simp only [ne_eq, ite_not, List.cons.injEq]
      by_cases hc : c = 64
      · rw [if_pos hc]
        cases hd : domainToReverseLabels d with
        | none =>
          simp only [reduceCtorEq, false_iff]
          rintro ⟨_, ⟨_, rfl⟩, hh⟩
          obtain ⟨ls, h⟩ := (domain_ok_iff d).mpr hh
          rw [hd] at h; cases h
        | some ls =>
          have := (domain_ok_iff d).mp ⟨ls, hd⟩
          simp only [Option.some.injEq, Prod.mk.injEq, hc, true_and]
          constructor
          · rintro ⟨rfl, rfl⟩; exact ⟨rfl, rfl, this⟩
          · rintro ⟨rfl, rfl, _⟩; exact ⟨rfl, rfl⟩
      · rw [if_neg hc]; simp [hc]
  unfold parseRFC2821Mailbox
  have step : (∃ l rest, mailboxLocal s = some (l, rest) ∧ l = loc ∧ rest = 64 :: domain ∧ HostName domain) ↔
      Mailbox s loc domain := by
    unfold Mailbox
    constructor
    · rintro ⟨l, rest, h, rfl, rfl, hh⟩
      refine ⟨hh, ?_⟩
      cases s with
      | nil => cases h
      | cons c t =>
        simp only [mailboxLocal] at h
        split at h
        · rename_i hc
          left
          obtain ⟨q, m, hq, hm, e⟩ := (quotedLoop_iff t _ _ _).mp h
          rw [List.nil_append] at hm
          exact ⟨q, hm ▸ hq, by rw [hc, e]⟩
        · right
          cases ha : atomLoop [] (c :: t) with
          | none => rw [ha] at h; cases h
          | some lr =>
            obtain ⟨l', r'⟩ := lr
            rw [ha] at h
            simp only [] at h
            split at h
            · rename_i hok
              simp only [Option.some.injEq, Prod.mk.injEq] at h
              obtain ⟨rfl, rfl⟩ := h
              obtain ⟨q, m, hq, hm, e, _⟩ := (atomLoop_iff _ _ _ _).mp ha
              rw [List.nil_append] at hm
              exact ⟨q, hm ▸ hq, (atomLocalOk_iff _).mp hok, e⟩
            · cases h
    · rintro ⟨hh, (⟨q, hq, e⟩ | ⟨q, hq, hd, e⟩)⟩
      · refine ⟨loc, _, ?_, rfl, rfl, hh⟩
        rw [e]
        simp only [mailboxLocal, if_true]
        exact (quotedLoop_iff _ _ _ _).mpr ⟨q, loc, hq, rfl, rfl⟩
      · refine ⟨loc, _, ?_, rfl, rfl, hh⟩
        have hal : atomLoop [] s = some (loc, 64 :: domain) :=
          (atomLoop_iff _ _ _ _).mpr ⟨q, loc, hq, rfl, e, stops_at domain⟩
        cases s with
        | nil => simp at e
        | cons c t =>
          simp only [mailboxLocal]
          have hc : c ≠ 34 := by
            cases hq with
            | nil => exact absurd rfl hd.1
            | text c' q l h1 h2 =>
              simp only [List.cons_append, List.cons.injEq] at e
              rw [e.1]
              intro h
              rw [h] at h1
              revert h1
              decide
            | pair c' q l h2 =>
              simp only [List.cons_append, List.cons.injEq] at e
              rw [e.1]; decide
          rw [if_neg hc, hal]
          simp only []
          rw [if_pos ((atomLocalOk_iff _).mpr hd)]
  rw [← step]
  cases hm : mailboxLocal s with
  | none => simp
  | some lr =>
    obtain ⟨l, rest⟩ := lr
    simp only []
    rw [dom l rest]
    constructor
    · intro h; exact ⟨l, rest, rfl, h⟩
    · rintro ⟨l', r', e, h⟩
      simp only [Option.some.injEq, Prod.mk.injEq] at e
      rw [e.1, e.2]; exact h

/-- `"a@b"@x` has the local part `a@b`. -/
example : parseRFC2821Mailbox [34, 97, 64, 98, 34, 64, 120] = some ([97, 64, 98], [120]) := by decide +kernel
example : Mailbox [34, 97, 64, 98, 34, 64, 120] [97, 64, 98] [120] :=
  (C50_parseRFC2821Mailbox_iff _ _ _).mp (by decide +kernel)
/-- `a..b@x` is rejected. -/
example : parseRFC2821Mailbox [97, 46, 46, 98, 64, 120] = none := by decide +kernel

/-! ## C65 -/

theorem isPrintable_iff (b : UInt8) : isPrintable b = true ↔ printableChar b.toNat := by
  have key : ∀ n < 256, (isPrintable (UInt8.ofNat n) = true ↔ printableChar n) := by decide +kernel
  have := key b.toNat b.toNat_lt
  rwa [UInt8.ofNat_toNat] at this

theorem numeric_iff (b : UInt8) :
    (decide (48 ≤ b.toNat ∧ b.toNat ≤ 57) || decide (b.toNat = 32)) = true ↔ numericChar b.toNat := by
  simp only [Bool.or_eq_true, decide_eq_true_eq, numericChar, asciiDigit]
  exact Iff.rfl

theorem units16_be16 (us : List Nat) (h : ∀ u ∈ us, u < 65536) : units16 (be16 us) = us := by
  induction us with
  | nil => rfl
  | cons u t ih =>
    have hu := h u (by simp)
    simp only [be16, List.flatMap_cons, List.cons_append, List.nil_append, units16] at ih ⊢
    rw [ih fun x hx => h x (by simp [hx])]
    congr 1
    rw [UInt8.toNat_ofNat', UInt8.toNat_ofNat']
    omega

theorem be16_units16 (v : Bytes) (h : v.length % 2 = 0) :
    be16 (units16 v) = v ∧ ∀ u ∈ units16 v, u < 65536 := by
  suffices H : ∀ n, ∀ v : Bytes, v.length = 2 * n → be16 (units16 v) = v ∧ ∀ u ∈ units16 v, u < 65536 from
    H (v.length / 2) v (by omega)
  intro n
  induction n with
  | zero =>
    intro v hv
    have : v = [] := List.eq_nil_of_length_eq_zero (by omega)
    subst this
    simp [units16, be16]
  | succ n ih =>
    intro v hv
    match v, hv with
    | a :: b :: t, hv =>
      simp only [List.length_cons] at hv
      obtain ⟨i1, i2⟩ := ih t (by omega)
      have ha := a.toNat_lt
      have hb := b.toNat_lt
      refine ⟨?_, ?_⟩
      · simp only [be16, units16, List.flatMap_cons, List.cons_append, List.nil_append] at i1 ⊢
        rw [i1]
        congr 1
        · rw [show (a.toNat * 256 + b.toNat) / 256 = a.toNat by omega, UInt8.ofNat_toNat]
        · rw [show (a.toNat * 256 + b.toNat) % 256 = b.toNat by omega, UInt8.ofNat_toNat]
      · intro u hu
        simp only [units16, List.mem_cons] at hu
        rcases hu with hu | hu
        · omega
        · exact i2 u hu

theorem be16_append (us vs : List Nat) : be16 (us ++ vs) = be16 us ++ be16 vs := by
  simp [be16]

theorem be16_length (us : List Nat) : (be16 us).length = 2 * us.length := by
  induction us with
  | nil => rfl
  | cons u t ih =>
    simp only [be16, List.flatMap_cons, List.length_append, List.length_cons, List.length_nil] at ih ⊢
    omega

theorem stripTerminator_zero (us : List Nat) : stripTerminator (be16 (us ++ [0])) = be16 us := by
  have e : be16 (us ++ [0]) = be16 us ++ [0, 0] := by rw [be16_append]; rfl
  unfold stripTerminator
  rw [e]
  rw [if_pos]
  · simp
  · simp

theorem stripTerminator_other (us : List Nat) (hu : ∀ u ∈ us, u < 65536) (h : us.getLast? ≠ some 0) :
    stripTerminator (be16 us) = be16 us := by
  unfold stripTerminator
  rcases List.eq_nil_or_concat us with rfl | ⟨vs, u, rfl⟩
  · rfl
  · rw [List.concat_eq_append] at hu h ⊢
    rw [be16_append]
    have e : be16 [u] = [UInt8.ofNat (u / 256), UInt8.ofNat (u % 256)] := rfl
    rw [e, if_neg]
    rintro ⟨_, h1, h2⟩
    have hu' := hu u (by simp)
    have d1 : (be16 vs ++ [UInt8.ofNat (u / 256), UInt8.ofNat (u % 256)]) =
        (be16 vs ++ [UInt8.ofNat (u / 256)]) ++ [UInt8.ofNat (u % 256)] := by simp
    rw [d1, List.getLastD_eq_getLast?, List.getLast?_concat] at h1
    rw [d1, List.dropLast_concat, List.getLastD_eq_getLast?, List.getLast?_concat] at h2
    simp only [Option.getD_some] at h1 h2
    have g1 := congrArg UInt8.toNat h1
    have g2 := congrArg UInt8.toNat h2
    rw [UInt8.toNat_ofNat'] at g1 g2
    apply h
    rw [List.getLast?_concat]
    congr 1
    simp only [UInt8.reduceToNat] at g1 g2
    omega

/-- **C65**: every string type accepts exactly the legal contents, and the value is what they denote. -/
theorem C65_parseASN1String_iff (tag : Der.Tag) (body value : Bytes) :
    parseASN1String tag body = some value ↔ StringValue tag body value := by
  unfold parseASN1String StringValue
  by_cases h1 : tag = 20
  · subst h1
    rw [if_pos (by decide)]
    simp only [Option.some.injEq, true_and]
    constructor
    · intro h; exact Or.inl h.symm
    · rintro (h | ⟨h, _⟩ | ⟨h, _⟩ | ⟨h, _⟩ | ⟨h, _⟩ | ⟨h, _⟩)
      · exact h.symm
      all_goals exact absurd h (by decide)
  rw [if_neg h1]
  by_cases h2 : tag = 19
  · subst h2
    rw [if_pos (by decide)]
    have e : body.all isPrintable = true ↔ ∀ b ∈ body, printableChar b.toNat := by
      rw [List.all_eq_true]; exact forall₂_congr fun b _ => isPrintable_iff b
    constructor
    · intro h
      split at h
      · rename_i hp; injection h with h; exact Or.inr (Or.inl ⟨rfl, e.mp hp, h.symm⟩)
      · cases h
    · rintro (⟨h, _⟩ | ⟨_, h, hv⟩ | ⟨h, _⟩ | ⟨h, _⟩ | ⟨h, _⟩ | ⟨h, _⟩)
      · exact absurd h (by decide)
      · rw [if_pos (e.mpr h), hv]
      all_goals exact absurd h (by decide)
  rw [if_neg h2]
  by_cases h3 : tag = 12
  · subst h3
    rw [if_pos (by decide)]
    constructor
    · intro h
      split at h
      · rename_i hp; injection h with h; exact Or.inr (Or.inr (Or.inl ⟨rfl, (Utf.valid_iff _).mp hp, h.symm⟩))
      · cases h
    · rintro (⟨h, _⟩ | ⟨h, _⟩ | ⟨_, h, hv⟩ | ⟨h, _⟩ | ⟨h, _⟩ | ⟨h, _⟩)
      · exact absurd h (by decide)
      · exact absurd h (by decide)
      · rw [if_pos ((Utf.valid_iff _).mpr h), hv]
      all_goals exact absurd h (by decide)
  rw [if_neg h3]
  by_cases h4 : tag = 30
  · subst h4
    rw [if_pos (by decide)]
    constructor
    · intro h
      refine Or.inr (Or.inr (Or.inr (Or.inr (Or.inr ⟨rfl, ?_⟩))))
      split at h
      · cases h
      rename_i hl
      simp only [ne_eq, Decidable.not_not] at hl
      injection h with h
      obtain ⟨b1, b2⟩ := be16_units16 body hl
      by_cases hz : (units16 body).getLast? = some 0
      · obtain ⟨vs, hvs⟩ := List.getLast?_eq_some_iff.mp hz
        refine ⟨vs, fun u hu => b2 u (by rw [hvs]; simp [hu]), Or.inl (by rw [← hvs, b1]), ?_⟩
        rw [← h, ← b1, hvs, stripTerminator_zero, units16_be16 vs (fun u hu => b2 u (by rw [hvs]; simp [hu]))]
        rfl
      · refine ⟨units16 body, b2, Or.inr ⟨hz, b1.symm⟩, ?_⟩
        rw [← h]
        rw [show stripTerminator body = body by
          have := stripTerminator_other _ b2 hz
          rwa [b1] at this]
        rfl
    · rintro (⟨h, _⟩ | ⟨h, _⟩ | ⟨h, _⟩ | ⟨h, _⟩ | ⟨h, _⟩ | ⟨_, us, hu, hb, hv⟩)
      iterate 5 exact absurd h (by decide)
      rcases hb with hb | ⟨hz, hb⟩
      · rw [if_neg (by rw [hb, be16_length]; simp), hb, stripTerminator_zero, units16_be16 us hu, hv]
        rfl
      · rw [if_neg (by rw [hb, be16_length]; simp), hb, stripTerminator_other us hu hz, units16_be16 us hu, hv]
        rfl
  rw [if_neg h4]
  by_cases h5 : tag = 22
  · subst h5
    rw [if_pos (by decide)]
    constructor
    · intro h
      split at h
      · rename_i hp; injection h with h
        exact Or.inr (Or.inr (Or.inr (Or.inl ⟨rfl, (isIA5String_iff _).mp hp, h.symm⟩)))
      · cases h
    · rintro (⟨h, _⟩ | ⟨h, _⟩ | ⟨h, _⟩ | ⟨_, h, hv⟩ | ⟨h, _⟩ | ⟨h, _⟩)
      iterate 3 exact absurd h (by decide)
      · rw [if_pos ((isIA5String_iff _).mpr h), hv]
      all_goals exact absurd h (by decide)
  rw [if_neg h5]
  by_cases h6 : tag = 18
  · subst h6
    rw [if_pos (by decide)]
    have e : body.all (fun b => decide (48 ≤ b.toNat ∧ b.toNat ≤ 57) || decide (b.toNat = 32)) = true ↔
        ∀ b ∈ body, numericChar b.toNat := by
      rw [List.all_eq_true]; exact forall₂_congr fun b _ => numeric_iff b
    constructor
    · intro h
      split at h
      · rename_i hp; injection h with h
        exact Or.inr (Or.inr (Or.inr (Or.inr (Or.inl ⟨rfl, e.mp hp, h.symm⟩))))
      · cases h
    · rintro (⟨h, _⟩ | ⟨h, _⟩ | ⟨h, _⟩ | ⟨h, _⟩ | ⟨_, h, hv⟩ | ⟨h, _⟩)
      iterate 4 exact absurd h (by decide)
      · rw [if_pos (e.mpr h), hv]
      · exact absurd h (by decide)
  rw [if_neg h6]
  simp only [reduceCtorEq, h1, h2, h3, h4, h5, h6, false_and, or_self]

/-- "GM" as a terminated BMPString; a lone byte is rejected. -/
example : parseASN1String 30 [0, 71, 0, 77, 0, 0] = some [71, 77] := by decide +kernel
example : StringValue 30 [0, 71, 0, 77, 0, 0] [71, 77] := (C65_parseASN1String_iff _ _ _).mp (by decide +kernel)
example : parseASN1String 30 [0] = none := by decide +kernel
example : parseASN1String 19 [95] = none := by decide +kernel

end MCrypto.Props
