import Verif.Props.Sm3
import Mathlib.Tactic.ByContra
/-
C123 What a digest of SM3 gives away, and what a collision would be.
-/
namespace MCrypto.Props
open MCrypto MCrypto.Sm3 MCrypto.Sm3Spec

/-- The octets that the padding adds to a message of `n` bytes. They depend on the length only. -/
def padTail (n : Nat) : Bytes := 0x80 :: List.replicate (zeros n) 0 ++ beBytes 8 (8 * n)

/-- The eight words of a digest. -/
def digestReg (d : Bytes) : Reg := fun i => blockWord d i

/-- The octets of eight words. -/
def regDigest (V : Reg) : Bytes := (List.finRange 8).flatMap fun i => beBytes 4 (V i).toNat

/-- The compression function iterated over the first `n` blocks of `z`, from `V`. -/
def iterFrom (V : Reg) (z : Bytes) : Nat → Reg
  | 0 => V
  | i + 1 => CF (iterFrom V z i) (blockAt z i)

/-- What anyone can compute from the digest `d` of an unknown message of known length `n`, for a chosen continuation `x`. -/
def extend (d : Bytes) (n : Nat) (x : Bytes) : Bytes :=
  let total := n + (padTail n).length + x.length
  let z := x ++ padTail total
  regDigest (iterFrom (digestReg d) z (z.length / 64))

theorem pad_eq_tail (m : Bytes) : pad m = m ++ padTail m.length := by
  unfold pad padTail
  simp

theorem iter_append (a z : Bytes) (k : Nat) (ha : a.length = 64 * k) (n : Nat) (hn : 64 * n ≤ z.length) :
    iter (a ++ z) (k + n) = iterFrom (iter a k) z n := by
  have h0 : ∀ j, j ≤ k → iter (a ++ z) j = iter a j := by
    intro j
    induction j with
    | zero => intro _; rfl
    | succ j ih =>
      intro hj
      rw [iter, iter, ih (by omega)]
      congr 1
      unfold blockAt
      rw [List.drop_append_of_le_length (by omega), List.take_append_of_le_length (by simp; omega)]
  induction n with
  | zero => exact h0 k (Nat.le_refl _)
  | succ n ih =>
    rw [show k + (n + 1) = (k + n) + 1 by omega, iter, iterFrom, ih (by omega)]
    congr 1
    unfold blockAt
    rw [show 64 * (k + n) = a.length + 64 * n by omega, List.drop_append, List.drop_of_length_le (l := a) (by omega), List.nil_append,
      show a.length + 64 * n - a.length = 64 * n by omega]

theorem regDigest_eight (V : Reg) : regDigest V = beBytes 4 (V 0).toNat ++ (beBytes 4 (V 1).toNat ++ (beBytes 4 (V 2).toNat ++
    (beBytes 4 (V 3).toNat ++ (beBytes 4 (V 4).toNat ++ (beBytes 4 (V 5).toNat ++ (beBytes 4 (V 6).toNat ++ beBytes 4 (V 7).toNat)))))) := by
  simp only [regDigest, List.finRange, List.ofFn, Fin.foldr, Fin.foldr.loop, List.flatMap_cons, List.flatMap_nil, List.append_nil]
  rfl

theorem word_of (w : Word) (pre rest : Bytes) (i : Nat) (h : pre.length = 4 * i) : blockWord (pre ++ (beBytes 4 w.toNat ++ rest)) i = w := by
  unfold blockWord
  rw [← h, List.drop_append, List.drop_length, Nat.sub_self, List.drop_zero, List.nil_append, List.take_append_of_le_length (by simp),
    List.take_of_length_le (by simp), ofBytes_beBytes]
  have := w.isLt
  rw [Nat.mod_eq_of_lt (by omega), BitVec.ofNat_toNat, BitVec.setWidth_eq]

theorem take_word (w : Word) (rest : Bytes) : BitVec.ofNat 32 (ofBytes ((beBytes 4 w.toNat ++ rest).take 4)) = w := word_of w [] rest 0 rfl

theorem drop_word (k : Nat) (w : Word) (rest : Bytes) : (beBytes 4 w.toNat ++ rest).drop (k + 4) = rest.drop k := by
  rw [List.drop_append, List.drop_of_length_le (by simp), List.nil_append, beBytes_length, Nat.add_sub_cancel]

theorem digestReg_regDigest (V : Reg) : digestReg (regDigest V) = V := by
  funext i
  unfold digestReg blockWord
  rw [regDigest_eight]
  have last : BitVec.ofNat 32 (ofBytes ((beBytes 4 (V 7).toNat).take 4)) = V 7 := by
    have := take_word (V 7) []
    rwa [List.append_nil] at this
  match i with
  | 0 => exact take_word (V 0) _
  | 1 => rw [show 4 * ((1 : Fin 8) : Nat) = 0 + 4 from rfl, drop_word]; exact take_word (V 1) _
  | 2 => rw [show 4 * ((2 : Fin 8) : Nat) = 0 + 4 + 4 from rfl, drop_word, drop_word]; exact take_word (V 2) _
  | 3 => rw [show 4 * ((3 : Fin 8) : Nat) = 0 + 4 + 4 + 4 from rfl, drop_word, drop_word, drop_word]; exact take_word (V 3) _
  | 4 => rw [show 4 * ((4 : Fin 8) : Nat) = 0 + 4 + 4 + 4 + 4 from rfl, drop_word, drop_word, drop_word, drop_word]; exact take_word (V 4) _
  | 5 => rw [show 4 * ((5 : Fin 8) : Nat) = 0 + 4 + 4 + 4 + 4 + 4 from rfl, drop_word, drop_word, drop_word, drop_word, drop_word]
         exact take_word (V 5) _
  | 6 => rw [show 4 * ((6 : Fin 8) : Nat) = 0 + 4 + 4 + 4 + 4 + 4 + 4 from rfl, drop_word, drop_word, drop_word, drop_word, drop_word, drop_word]
         exact take_word (V 6) _
  | 7 => rw [show 4 * ((7 : Fin 8) : Nat) = 0 + 4 + 4 + 4 + 4 + 4 + 4 + 4 from rfl, drop_word, drop_word, drop_word, drop_word, drop_word, drop_word,
           drop_word]
         exact last

theorem sm3_reg (m : Bytes) : Sm3Spec.sm3 m = regDigest (iter (pad m) ((pad m).length / 64)) := rfl

/-- **C123** Length extension: from the digest `Sum` returns for a message and from its length, without the message, anyone
computes what `Sum` returns for the message followed by its padding and any continuation. -/
theorem C123_length_extension (m x d : Bytes) (h : sumR m = .ok d) :
    sumR (m ++ padTail m.length ++ x) = .ok (extend d m.length x) := by
  rw [sumR_eq, Res.ok.injEq] at h ⊢
  subst h
  obtain ⟨k, hk⟩ := pad_length m
  have hl : (m ++ padTail m.length).length = 64 * k := by rw [← pad_eq_tail, hk]
  rw [sm3_reg, sm3_reg, extend, digestReg_regDigest]
  congr 1
  rw [pad_eq_tail (m ++ padTail m.length ++ x), List.append_assoc _ x]
  have e : (m ++ padTail m.length ++ x).length = m.length + (padTail m.length).length + x.length := by simp only [List.length_append]
  rw [e]
  generalize hz : x ++ padTail (m.length + (padTail m.length).length + x.length) = z
  rw [List.length_append, hl, hk, show (64 * k + z.length) / 64 = k + z.length / 64 by omega, show 64 * k / 64 = k by omega,
    iter_append _ _ k hl _ (by omega), ← pad_eq_tail]

/-- **C123** So a digest of a secret followed by a message does not authenticate the message: with the digest and the two lengths
anyone makes a longer message with its digest. -/
theorem C123_secret_prefix (key m x tag : Bytes) (h : sumR (key ++ m) = .ok tag) :
    sumR (key ++ (m ++ padTail (key.length + m.length) ++ x)) = .ok (extend tag (key.length + m.length) x) := by
  have := C123_length_extension (key ++ m) x tag h
  simpa only [List.length_append, List.append_assoc] using this

/-- **C123** A colliding pair of messages of one length gives a colliding pair for every continuation. -/
theorem C123_collision_extends (m m' : Bytes) (hl : m.length = m'.length) (hne : m ≠ m') (h : sumR m = sumR m') (x : Bytes) :
    m ++ padTail m.length ++ x ≠ m' ++ padTail m'.length ++ x ∧
      sumR (m ++ padTail m.length ++ x) = sumR (m' ++ padTail m'.length ++ x) := by
  constructor
  · intro he
    rw [List.append_assoc, List.append_assoc] at he
    exact hne (List.append_inj_left he hl)
  · have e1 := sumR_eq m
    have e2 := sumR_eq m'
    rw [C123_length_extension m x _ e1, C123_length_extension m' x _ e2, hl]
    rw [e1, e2, Res.ok.injEq] at h
    rw [h]

/-- In the computation of the two digests the compression function is called with two different inputs, one in each, and
gives the same output. -/
def CollidesIn (m m' : Bytes) : Prop :=
  ∃ i j, 64 * (i + 1) ≤ (pad m).length ∧ 64 * (j + 1) ≤ (pad m').length ∧
    (iter (pad m) i, blockAt (pad m) i) ≠ (iter (pad m') j, blockAt (pad m') j) ∧
    CF (iter (pad m) i) (blockAt (pad m) i) = CF (iter (pad m') j) (blockAt (pad m') j)

theorem blocks_eq {p q : Bytes} {n : Nat} (hp : p.length = 64 * n) (hq : q.length = 64 * n) (h : ∀ i < n, blockAt p i = blockAt q i) : p = q := by
  induction n generalizing p q with
  | zero => rw [List.length_eq_zero_iff.mp (by omega : p.length = 0), List.length_eq_zero_iff.mp (by omega : q.length = 0)]
  | succ n ih =>
    have h0 := h 0 (by omega)
    simp only [blockAt, Nat.mul_zero, List.drop_zero] at h0
    have : p.drop 64 = q.drop 64 := by
      refine ih (by simp; omega) (by simp; omega) fun i hi => ?_
      have := h (i + 1) (by omega)
      simpa only [blockAt, List.drop_drop, Nat.mul_add, Nat.mul_one, Nat.add_comm] using this
    rw [← List.take_append_drop 64 p, ← List.take_append_drop 64 q, h0, this]

/-- If the compression function has no collision, the last blocks agree as far as both go. -/
theorem walk_back {p q : Bytes} {n k : Nat} (hc : ∀ i < n, ∀ j < k, CF (iter p i) (blockAt p i) = CF (iter q j) (blockAt q j) →
      (iter p i, blockAt p i) = (iter q j, blockAt q j)) (h : iter p n = iter q k) (i : Nat) (hi : i ≤ n) (hk : i ≤ k) :
    iter p (n - i) = iter q (k - i) ∧ ∀ j < i, blockAt p (n - 1 - j) = blockAt q (k - 1 - j) := by
  induction i with
  | zero => exact ⟨h, fun j hj => by omega⟩
  | succ i ih =>
    obtain ⟨h1, h2⟩ := ih (by omega) (by omega)
    rw [show n - i = (n - (i + 1)) + 1 by omega, show k - i = (k - (i + 1)) + 1 by omega, iter, iter] at h1
    have : (iter p (n - (i + 1)), blockAt p (n - (i + 1))) = (iter q (k - (i + 1)), blockAt q (k - (i + 1))) :=
      hc _ (by omega) _ (by omega) h1
    rw [Prod.mk.injEq] at this
    refine ⟨this.1, fun j hj => ?_⟩
    by_cases hji : j = i
    · subst hji
      rw [show n - 1 - j = n - (j + 1) by omega, show k - 1 - j = k - (j + 1) by omega]
      exact this.2
    · exact h2 j (by omega)

theorem pad_last {m : Bytes} {n : Nat} (hp : (pad m).length = 64 * n) (hn : 0 < n) : (blockAt (pad m) (n - 1)).drop 56 = beBytes 8 (8 * m.length) := by
  have e : pad m = (m ++ 0x80 :: List.replicate (zeros m.length) 0) ++ beBytes 8 (8 * m.length) := by unfold pad; simp
  have hl : (m ++ 0x80 :: List.replicate (zeros m.length) 0).length = 64 * n - 8 := by
    have := congrArg List.length e
    rw [hp, List.length_append, beBytes_length] at this
    omega
  unfold blockAt
  rw [List.take_of_length_le (by simp; omega), List.drop_drop, e, List.drop_append, List.drop_of_length_le (by omega), List.nil_append, hl,
    show 64 * (n - 1) + 56 - (64 * n - 8) = 0 by omega, List.drop_zero]

/-- **C123** A collision of `Sum` on messages of less than 2^61 bytes contains a collision of the compression function
of the standard, among the blocks of these messages: nothing else in the construction can collide. -/
theorem C123_collision_reduction (m m' : Bytes) (hm : m.length < 2 ^ 61) (hm' : m'.length < 2 ^ 61) (hne : m ≠ m')
    (h : sumR m = sumR m') : CollidesIn m m' := by
  by_contra hcol
  apply hne
  rw [sumR_eq, sumR_eq, Res.ok.injEq, sm3_reg, sm3_reg] at h
  have h := congrArg digestReg h
  rw [digestReg_regDigest, digestReg_regDigest] at h
  obtain ⟨n, hn⟩ := pad_length m
  obtain ⟨k, hk⟩ := pad_length m'
  rw [hn, hk, show 64 * n / 64 = n by omega, show 64 * k / 64 = k by omega] at h
  have hpos : ∀ {a : Bytes} {c}, (pad a).length = 64 * c → 0 < c := by
    intro a c ha
    rw [pad] at ha
    simp only [List.length_append, List.length_cons, beBytes_length] at ha
    omega
  have hc : ∀ i < n, ∀ j < k, CF (iter (pad m) i) (blockAt (pad m) i) = CF (iter (pad m') j) (blockAt (pad m') j) →
      (iter (pad m) i, blockAt (pad m) i) = (iter (pad m') j, blockAt (pad m') j) := by
    intro i hi j hj he
    by_contra hne
    exact hcol ⟨i, j, by omega, by omega, hne, he⟩
  have hn0 := hpos hn
  have hk0 := hpos hk
  have h1 := (walk_back hc h 1 (by omega) (by omega)).2 0 (by omega)
  have h2 := pad_last hn hn0
  have h3 := pad_last hk hk0
  rw [Nat.sub_zero, Nat.sub_zero] at h1
  rw [h1, h3] at h2
  have h4 := congrArg ofBytes h2
  rw [ofBytes_beBytes_of_lt (by omega), ofBytes_beBytes_of_lt (by omega)] at h4
  have hlen : m.length = m'.length := by omega
  have hnk : n = k := by
    have : (pad m).length = (pad m').length := by
      rw [pad_eq_tail, pad_eq_tail, List.length_append, List.length_append, hlen]
    omega
  subst hnk
  have hall := (walk_back hc h n (Nat.le_refl _) (Nat.le_refl _)).2
  have hp : pad m = pad m' := by
    refine blocks_eq hn hk fun i hi => ?_
    have := hall (n - 1 - i) (by omega)
    rwa [show n - 1 - (n - 1 - i) = i by omega] at this
  rw [pad_eq_tail, pad_eq_tail] at hp
  exact List.append_inj_left hp hlen

/-- **C123** Why the bound is there: from 2^61 bytes on the octets of the padding no longer determine the length. -/
theorem C123_same_tail (n : Nat) : padTail (n + 2 ^ 61) = padTail n := by
  unfold padTail zeros
  have h1 : (n + 2 ^ 61) % 64 = n % 64 := by omega
  have h2 := C05_length_field_wraps n
  rw [h1, h2]

/-- A case: the message of one byte. -/
example : sumR [97] = .ok (Sm3.sum [97]) ∧ sumR ([97] ++ padTail 1 ++ [98]) = .ok (extend (Sm3.sum [97]) 1 [98]) := by
  have h : sumR [97] = .ok (Sm3.sum [97]) := by rw [sumR_eq, sum_eq]
  exact ⟨h, C123_length_extension [97] [98] _ h⟩

end MCrypto.Props
