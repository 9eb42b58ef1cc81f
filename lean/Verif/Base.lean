/-
Basic vocabulary shared by every part of the model: byte strings, results of Go calls,
big-endian integers (`math/big`), and `io.Reader`.
Nothing in this file is specific to /repo; it models the Go run-time and standard library
notions that /repo relies on (trusted, see DESIGN.md).
-/
namespace MCrypto

/-- A Go `[]byte` value (contents only; capacity is added where it matters). -/
abbrev Bytes := List UInt8

/-- Outcome of a Go call that returns `(T, error)` and may panic. -/
inductive Res (α : Type) where
  | ok (a : α)
  | err (e : String)
  | panic
  deriving DecidableEq, Repr

namespace Res
/-- Sequencing: `x, err := f(); if err != nil { return err }`, panics propagate. -/
def bind {α β : Type} : Res α → (α → Res β) → Res β
  | ok a, f => f a
  | err e, _ => err e
  | panic, _ => panic
instance : Monad Res where
  pure := ok
  bind := bind
def map' {α β : Type} (f : α → β) : Res α → Res β
  | ok a => ok (f a)
  | err e => err e
  | panic => panic
def isOk {α : Type} : Res α → Bool
  | ok _ => true
  | _ => false
def isPanic {α : Type} : Res α → Bool
  | panic => true
  | _ => false
/-- Turn an optional value into an error return. -/
def ofOption {α : Type} (e : String) : Option α → Res α
  | some a => ok a
  | none => err e
@[simp] theorem bind_ok {α β : Type} (a : α) (f : α → Res β) : (ok a >>= f) = f a := rfl
@[simp] theorem bind_err {α β : Type} (e : String) (f : α → Res β) : (err e >>= f) = err e := rfl
@[simp] theorem bind_panic {α β : Type} (f : α → Res β) : ((panic : Res α) >>= f) = panic := rfl
@[simp] theorem pure_eq {α : Type} (a : α) : (pure a : Res α) = ok a := rfl
theorem bind_eq_ok {α β : Type} {x : Res α} {f : α → Res β} {b : β} :
    (x >>= f) = .ok b ↔ ∃ a, x = .ok a ∧ f a = .ok b := by
  cases x with
  | ok a => simp
  | err e => simp
  | panic => simp

end Res

/-! ## Big-endian integers (`math/big`, `encoding/binary`) -/

/-- `new(big.Int).SetBytes(b)`: big-endian unsigned value. -/
def ofBytes (b : Bytes) : Nat := b.foldl (fun a x => a * 256 + x.toNat) 0

/-- The low `k` bytes of `n`, big-endian (`binary.BigEndian.PutUint…`). -/
def beBytes : Nat → Nat → Bytes
  | 0, _ => []
  | k + 1, n => UInt8.ofNat (n / 256 ^ k) :: beBytes k n

/-- Number of bytes of the minimal big-endian representation. -/
def byteLen (n : Nat) : Nat := if n = 0 then 0 else n.log2 / 8 + 1

/-- `(*big.Int).Bytes()`: minimal big-endian bytes of `|n|`, empty for `0`. -/
def toBytes (n : Nat) : Bytes := beBytes (byteLen n) n

theorem ofBytes_foldl (a : Nat) (b : Bytes) :
    b.foldl (fun a x => a * 256 + x.toNat) a = a * 256 ^ b.length + ofBytes b := by
  unfold ofBytes
  induction b generalizing a with
  | nil => simp
  | cons x b ih =>
    rw [List.foldl_cons, ih, List.foldl_cons, ih (0 * 256 + x.toNat)]
    simp only [Nat.zero_mul, Nat.zero_add, List.length_cons, Nat.pow_succ, Nat.add_mul]
    rw [Nat.mul_assoc, Nat.mul_comm 256 (256 ^ b.length), Nat.add_assoc]

@[simp] theorem ofBytes_nil : ofBytes [] = 0 := rfl

theorem ofBytes_cons (x : UInt8) (b : Bytes) :
    ofBytes (x :: b) = x.toNat * 256 ^ b.length + ofBytes b := by
  have := ofBytes_foldl x.toNat b
  simp [ofBytes] at this ⊢
  exact this

theorem ofBytes_append (a b : Bytes) : ofBytes (a ++ b) = ofBytes a * 256 ^ b.length + ofBytes b := by
  induction a with
  | nil => simp
  | cons x a ih =>
    rw [List.cons_append, ofBytes_cons, ofBytes_cons, ih, List.length_append, Nat.pow_add]
    rw [Nat.add_mul, Nat.mul_assoc]; omega

theorem ofBytes_lt (b : Bytes) : ofBytes b < 256 ^ b.length := by
  induction b with
  | nil => simp
  | cons x b ih =>
    rw [ofBytes_cons, List.length_cons, Nat.pow_succ]
    have hx : x.toNat < 256 := x.toNat_lt
    have : x.toNat * 256 ^ b.length + 256 ^ b.length ≤ 256 * 256 ^ b.length := by
      have := Nat.mul_le_mul_right (256 ^ b.length) (show x.toNat + 1 ≤ 256 by omega)
      rwa [Nat.add_mul, Nat.one_mul] at this
    rw [Nat.mul_comm (256 ^ b.length) 256]
    omega

@[simp] theorem beBytes_length (k n : Nat) : (beBytes k n).length = k := by
  induction k with
  | zero => rfl
  | succ k ih => simp [beBytes, ih]

theorem ofBytes_beBytes (k n : Nat) : ofBytes (beBytes k n) = n % 256 ^ k := by
  induction k with
  | zero => simp [beBytes, Nat.mod_one]
  | succ k ih =>
    rw [beBytes, ofBytes_cons, ih, beBytes_length, UInt8.toNat_ofNat',
      show (2 ^ 8 : Nat) = 256 from rfl, Nat.pow_succ, Nat.mod_mul, Nat.mul_comm, Nat.add_comm]

theorem ofBytes_beBytes_of_lt {k n : Nat} (h : n < 256 ^ k) : ofBytes (beBytes k n) = n := by
  rw [ofBytes_beBytes, Nat.mod_eq_of_lt h]

theorem ofBytes_inj {a b : Bytes} (hl : a.length = b.length) (h : ofBytes a = ofBytes b) : a = b := by
  induction a generalizing b with
  | nil => cases b with
    | nil => rfl
    | cons => simp at hl
  | cons x a ih =>
    cases b with
    | nil => simp at hl
    | cons y b =>
      have hl' : a.length = b.length := by simpa using hl
      rw [ofBytes_cons, ofBytes_cons, hl'] at h
      have ha := ofBytes_lt a
      have hb := ofBytes_lt b
      rw [hl'] at ha
      have hpos : 0 < 256 ^ b.length := Nat.pow_pos (by decide)
      have e1 : x.toNat = y.toNat := by
        have h1 : (x.toNat * 256 ^ b.length + ofBytes a) / 256 ^ b.length = x.toNat := by
          rw [Nat.mul_comm, Nat.mul_add_div hpos, Nat.div_eq_of_lt ha]; rfl
        have h2 : (y.toNat * 256 ^ b.length + ofBytes b) / 256 ^ b.length = y.toNat := by
          rw [Nat.mul_comm, Nat.mul_add_div hpos, Nat.div_eq_of_lt hb]; rfl
        rw [← h1, ← h2, h]
      have e2 : ofBytes a = ofBytes b := by rw [e1] at h; omega
      rw [UInt8.toNat_inj.mp e1, ih hl' e2]

theorem beBytes_ofBytes (b : Bytes) : beBytes b.length (ofBytes b) = b := by
  apply ofBytes_inj
  · simp
  · rw [ofBytes_beBytes_of_lt (ofBytes_lt b)]

theorem lt_pow_byteLen (n : Nat) : n < 256 ^ byteLen n := by
  unfold byteLen
  split
  · subst_vars; simp
  · have h : n < 2 ^ (n.log2 + 1) := Nat.lt_log2_self
    refine Nat.lt_of_lt_of_le h ?_
    rw [show (256 : Nat) = 2 ^ 8 from rfl, ← Nat.pow_mul]
    apply Nat.pow_le_pow_right (by decide)
    omega

theorem pow_byteLen_le {n : Nat} (h : n ≠ 0) : 256 ^ (byteLen n - 1) ≤ n := by
  unfold byteLen
  rw [if_neg h]
  have h1 : 2 ^ n.log2 ≤ n := Nat.log2_self_le h
  refine Nat.le_trans ?_ h1
  rw [show (256 : Nat) = 2 ^ 8 from rfl, ← Nat.pow_mul]
  apply Nat.pow_le_pow_right (by decide)
  omega

theorem byteLen_le_iff (n k : Nat) : byteLen n ≤ k ↔ n < 256 ^ k := by
  constructor
  · intro h
    exact Nat.lt_of_lt_of_le (lt_pow_byteLen n) (Nat.pow_le_pow_right (by decide) h)
  · intro h
    by_cases hn : n = 0
    · simp [byteLen, hn]
    · have h1 := pow_byteLen_le hn
      have h2 := Nat.lt_of_le_of_lt h1 h
      have := (Nat.pow_lt_pow_iff_right (by decide : 1 < 256)).mp h2
      omega

@[simp] theorem toBytes_length (n : Nat) : (toBytes n).length = byteLen n := by simp [toBytes]

@[simp] theorem ofBytes_toBytes (n : Nat) : ofBytes (toBytes n) = n :=
  ofBytes_beBytes_of_lt (lt_pow_byteLen n)

@[simp] theorem toBytes_zero : toBytes 0 = [] := by simp [toBytes, byteLen, beBytes]

theorem ofBytes_replicate_zero (k : Nat) : ofBytes (List.replicate k 0) = 0 := by
  induction k with
  | zero => rfl
  | succ k ih => rw [List.replicate_succ, ofBytes_cons, ih]; simp

theorem ofBytes_zero_append (k : Nat) (b : Bytes) : ofBytes (List.replicate k 0 ++ b) = ofBytes b := by
  rw [ofBytes_append, ofBytes_replicate_zero]; simp

/-- Left padding the minimal representation gives the fixed-width one. -/
theorem pad_toBytes {k n : Nat} (h : n < 256 ^ k) :
    List.replicate (k - byteLen n) 0 ++ toBytes n = beBytes k n := by
  have hle := (byteLen_le_iff n k).mpr h
  apply ofBytes_inj
  · simp; omega
  · rw [ofBytes_zero_append, ofBytes_toBytes, ofBytes_beBytes_of_lt h]

theorem toBytes_eq_beBytes {k n : Nat} (h : byteLen n = k) : toBytes n = beBytes k n := by
  rw [toBytes, h]

/-! ## Readers -/

/-- An `io.Reader`: the bytes it still delivers before reporting `io.EOF`. -/
abbrev Reader := Bytes

/-- `io.ReadFull(r, make([]byte, n))`: `n` bytes, or `io.EOF` when none could be read
and `io.ErrUnexpectedEOF` when fewer than `n` were. -/
def readFull (n : Nat) (r : Reader) : Res (Bytes × Reader) :=
  if n ≤ r.length then .ok (r.take n, r.drop n)
  else if r.length = 0 then .err "EOF" else .err "unexpected EOF"

end MCrypto
