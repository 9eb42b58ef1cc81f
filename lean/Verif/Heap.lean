import Verif.Base
/-
Go's byte slices and `append`: memory is a list of arrays, a slice is a window on one of them. Used where aliasing matters
(Verif/Props/Memory.lean).
-/
namespace MCrypto.Go
open MCrypto

/-- A `[]byte`: array, first index, `len` and `cap`. The nil slice has `cap = 0`. -/
structure Slice where
  arr : Nat
  off : Nat
  len : Nat
  cap : Nat
  deriving DecidableEq, Repr

/-- The arrays that have been allocated. Allocation adds one at the end; nothing is freed. -/
abbrev Heap := List Bytes

/-- The contents of array `a`. -/
def Heap.array (h : Heap) (a : Nat) : Bytes := h.getD a []

/-- The contents of a slice. -/
def Heap.read (h : Heap) (s : Slice) : Bytes := ((h.array s.arr).drop s.off).take s.len

/-- The octet at index `i` of array `a`, if there is one. -/
def Heap.byte (h : Heap) (a i : Nat) : Option UInt8 := (h.array a)[i]?

/-- The slice lies in its array. -/
def Heap.Valid (h : Heap) (s : Slice) : Prop := s.len ≤ s.cap ∧ s.off + s.cap ≤ (h.array s.arr).length

/-- `b` with `x` written from index `pos` on. -/
def splice (b : Bytes) (pos : Nat) (x : Bytes) : Bytes := b.take pos ++ (x ++ b.drop (pos + x.length))

/-- Array `a` with `x` written from index `pos` on. -/
def Heap.store (h : Heap) (a pos : Nat) (x : Bytes) : Heap := h.modify a (splice · pos x)

/-- A new array. -/
def Heap.alloc (h : Heap) (x : Bytes) : Heap := h ++ [x]

/-- `append(s, x...)`: into the capacity behind the slice if it suffices, otherwise into a new array; how much capacity
the new array has to spare (`spare`) is up to the implementation. -/
def Heap.append (h : Heap) (s : Slice) (x : Bytes) (spare : Nat) : Heap × Slice :=
  if s.len + x.length ≤ s.cap then (h.store s.arr (s.off + s.len) x, { s with len := s.len + x.length })
  else (h.alloc (h.read s ++ (x ++ List.replicate spare 0)), ⟨h.length, 0, s.len + x.length, s.len + x.length + spare⟩)

/-! ### Lemmas -/

theorem splice_length {b : Bytes} {pos : Nat} {x : Bytes} (h : pos + x.length ≤ b.length) : (splice b pos x).length = b.length := by
  simp only [splice, List.length_append, List.length_take, List.length_drop]; omega

theorem splice_get {b : Bytes} {pos : Nat} {x : Bytes} (h : pos + x.length ≤ b.length) (i : Nat) :
    (splice b pos x)[i]? = if pos ≤ i ∧ i < pos + x.length then x[i - pos]? else b[i]? := by
  unfold splice
  have ht : (b.take pos).length = pos := by rw [List.length_take]; omega
  by_cases h1 : i < pos
  · rw [List.getElem?_append_left (by omega), if_neg (by omega), List.getElem?_take, if_pos h1]
  · rw [List.getElem?_append_right (by omega), ht]
    by_cases h2 : i < pos + x.length
    · rw [if_pos ⟨by omega, h2⟩, List.getElem?_append_left (by omega)]
    · rw [if_neg (by omega), List.getElem?_append_right (by omega), List.getElem?_drop]
      congr 1; omega

theorem array_store (h : Heap) (a pos : Nat) (x : Bytes) (b : Nat) :
    (h.store a pos x).array b = if b = a ∧ a < h.length then splice (h.array b) pos x else h.array b := by
  unfold Heap.store Heap.array
  rw [List.getD_eq_getElem?_getD, List.getD_eq_getElem?_getD, List.getElem?_modify]
  by_cases hb : b = a
  · subst hb
    by_cases hl : b < h.length
    · rw [if_pos ⟨rfl, hl⟩, List.getElem?_eq_getElem hl]; simp
    · rw [if_neg (by simp [hl]), List.getElem?_eq_none (by omega)]; simp
  · have hb' : ¬ a = b := fun e => hb e.symm
    rw [if_neg (by simp [hb])]; simp [hb']

theorem length_store (h : Heap) (a pos : Nat) (x : Bytes) : (h.store a pos x).length = h.length := by simp [Heap.store]

/-- What a write changes. -/
theorem byte_store {h : Heap} {a pos : Nat} {x : Bytes} (hl : pos + x.length ≤ (h.array a).length) (b i : Nat) :
    (h.store a pos x).byte b i = if b = a ∧ pos ≤ i ∧ i < pos + x.length then x[i - pos]? else h.byte b i := by
  unfold Heap.byte
  rw [array_store]
  by_cases hb : b = a
  · subst hb
    by_cases hlt : b < h.length
    · rw [if_pos ⟨rfl, hlt⟩, splice_get hl]; simp
    · have h0 : h.array b = [] := by unfold Heap.array; rw [List.getD_eq_getElem?_getD, List.getElem?_eq_none (by omega)]; rfl
      rw [h0] at hl
      simp only [List.length_nil] at hl
      have : ¬ (pos ≤ i ∧ i < pos + x.length) := by omega
      simp [hlt, this]
  · rw [if_neg (by simp [hb]), if_neg (by simp [hb])]

theorem byte_alloc (h : Heap) (x : Bytes) (a i : Nat) (ha : a < h.length) : (h.alloc x).byte a i = h.byte a i := by
  unfold Heap.byte Heap.array Heap.alloc
  rw [List.getD_eq_getElem?_getD, List.getD_eq_getElem?_getD, List.getElem?_append_left ha]

theorem read_length {h : Heap} {s : Slice} (hv : h.Valid s) : (h.read s).length = s.len := by
  unfold Heap.read
  obtain ⟨h1, h2⟩ := hv
  rw [List.length_take, List.length_drop]; omega

theorem read_get (h : Heap) (s : Slice) (i : Nat) : (h.read s)[i]? = if i < s.len then h.byte s.arr (s.off + i) else none := by
  unfold Heap.read Heap.byte
  rw [List.getElem?_take, List.getElem?_drop]

/-- Two memories that agree on the octets of a slice agree on its contents. -/
theorem read_congr {h h' : Heap} {s : Slice} (hb : ∀ i, s.off ≤ i → i < s.off + s.len → h'.byte s.arr i = h.byte s.arr i) : h'.read s = h.read s := by
  apply List.ext_getElem?
  intro i
  rw [read_get, read_get]
  split
  · exact hb _ (by omega) (by omega)
  · rfl

theorem valid_lt {h : Heap} {s : Slice} (hv : h.Valid s) (hc : 0 < s.cap) : s.arr < h.length := by
  obtain ⟨h1, h2⟩ := hv
  by_cases hl : s.arr < h.length
  · exact hl
  · unfold Heap.array at h2
    rw [List.getD_eq_getElem?_getD, List.getElem?_eq_none (by omega)] at h2
    simp at h2; omega

theorem array_alloc_new (h : Heap) (x : Bytes) : (h.alloc x).array h.length = x := by
  unfold Heap.alloc Heap.array
  simp [List.getD_eq_getElem?_getD]

theorem array_alloc_old (h : Heap) (x : Bytes) {a : Nat} (ha : a ≠ h.length) : (h.alloc x).array a = h.array a := by
  unfold Heap.alloc Heap.array
  rw [List.getD_eq_getElem?_getD, List.getD_eq_getElem?_getD]
  by_cases hl : a < h.length
  · rw [List.getElem?_append_left hl]
  · rw [List.getElem?_eq_none (by simp; omega), List.getElem?_eq_none (by omega)]

/-- What `append` returns, and what it changes. -/
theorem append_spec {h : Heap} {s : Slice} (hv : h.Valid s) (x : Bytes) (hx : 0 < x.length) (spare : Nat) :
    (h.append s x spare).1.read (h.append s x spare).2 = h.read s ++ x ∧
    (h.append s x spare).1.Valid (h.append s x spare).2 ∧
    (h.append s x spare).2.len = s.len + x.length ∧
    (s.len + x.length ≤ s.cap → (h.append s x spare).2.arr = s.arr ∧ (h.append s x spare).2.off = s.off ∧
      (h.append s x spare).1.length = h.length ∧
      ∀ a i, (h.append s x spare).1.byte a i = if a = s.arr ∧ s.off + s.len ≤ i ∧ i < s.off + s.len + x.length
        then x[i - (s.off + s.len)]? else h.byte a i) ∧
    (s.cap < s.len + x.length → (h.append s x spare).2.arr = h.length ∧
      ∀ a, a < h.length → ∀ i, (h.append s x spare).1.byte a i = h.byte a i) := by
  have hrl := read_length hv
  unfold Heap.append
  by_cases hc : s.len + x.length ≤ s.cap
  · rw [if_pos hc]
    have hlt := valid_lt hv (by omega)
    have hfit : s.off + s.len + x.length ≤ (h.array s.arr).length := by have := hv.2; omega
    dsimp only
    refine ⟨?_, ⟨hc, ?_⟩, rfl, fun _ => ⟨rfl, rfl, length_store .., fun a i => byte_store hfit a i⟩, fun h' => absurd hc (by omega)⟩
    · apply List.ext_getElem?
      intro i
      rw [read_get]
      dsimp only
      rw [byte_store hfit]
      by_cases h1 : i < s.len
      · rw [if_pos (by omega), if_neg (by omega), List.getElem?_append_left (by omega), read_get, if_pos h1]
      · rw [List.getElem?_append_right (by omega), hrl]
        by_cases h2 : i < s.len + x.length
        · rw [if_pos h2, if_pos ⟨rfl, by omega, by omega⟩]; congr 1; omega
        · rw [if_neg h2, List.getElem?_eq_none (by omega)]
    · dsimp only
      rw [array_store, if_pos ⟨rfl, hlt⟩, splice_length hfit]
      exact hv.2
  · rw [if_neg hc]
    dsimp only
    refine ⟨?_, ⟨by dsimp only; omega, ?_⟩, rfl, fun h' => absurd h' hc, fun _ => ⟨rfl, fun a ha i => byte_alloc _ _ _ _ ha⟩⟩
    · unfold Heap.read
      dsimp only
      rw [array_alloc_new, List.drop_zero, ← List.append_assoc, List.take_left' (by
        rw [List.length_append]
        have : ((h.array s.arr).drop s.off).take s.len = h.read s := rfl
        rw [this, hrl])]
    · dsimp only
      rw [array_alloc_new]
      simp only [List.length_append, List.length_replicate, hrl]; omega

end MCrypto.Go
