import Verif.Heap
import Verif.Props.Sm3
import Verif.Props.P12Prim
/-
C126, C127: SM3 and RC2 in memory. The other theorems treat slices as values; these say what the calls read and write when
the slices of the caller share memory, and that nothing of the caller's is kept.
-/
namespace MCrypto.Sm3
open MCrypto MCrypto.Go

/-- What a program does that uses hash objects (numbered; object `o` is the `o`-th that `New` made) and its own memory. -/
inductive MemOp where
  | write (o : Nat) (p : Slice)
  | sum (o : Nat) (inp : Slice) (spare : Nat)
  | reset (o : Nat)
  /-- the program writes to its memory -/
  | store (a pos : Nat) (x : Bytes)
  /-- the program allocates memory -/
  | alloc (x : Bytes)

/-- Memory and the states of the objects. -/
structure MemState where
  heap : Heap
  objs : Nat → Digest

/-- sm3.go:34-85 with memory. `Write` reads its slice and copies what it keeps into the array `x` inside the object
(sm3.go:61,75); `Sum` works on a copy of the object, makes the digest in memory of its own and appends it (sm3.go:80-85).
The result is that of `Sum`. -/
def memStep (s : MemState) : MemOp → MemState × Option (Res Slice)
  | .write o p => (⟨s.heap, Function.update s.objs o ((s.objs o).write (s.heap.read p))⟩, none)
  | .sum o inp spare =>
    match (s.objs o).checkSum with
    | .ok hash => (⟨(s.heap.append inp hash spare).1, s.objs⟩, some (.ok (s.heap.append inp hash spare).2))
    | .err e => (s, some (.err e))
    | .panic => (s, some .panic)
  | .reset o => (⟨s.heap, Function.update s.objs o (s.objs o).reset⟩, none)
  | .store a pos x => (⟨s.heap.store a pos x, s.objs⟩, none)
  | .alloc x => (⟨s.heap.alloc x, s.objs⟩, none)

/-- A program. -/
def memRun (s : MemState) : List MemOp → MemState
  | [] => s
  | op :: ops => memRun (memStep s op).1 ops

end MCrypto.Sm3

namespace MCrypto.Rc2
open MCrypto MCrypto.Go

/-- `binary.LittleEndian.PutUint16(dst[i:], w)`, rc2.go:176-179: `dst[i:]` must have two octets. The second component is
whether it panics. -/
def put16 (h : Heap) (dst : Slice) (i : Nat) (w : Rc2.W) : Heap × Bool :=
  if i + 2 ≤ dst.len then (h.store dst.arr (dst.off + i) (storeW w), false) else (h, true)

/-- The four stores at the end of `Encrypt` and `Decrypt` (rc2.go:176-179, 270-273), up to a panic. -/
def putS (h : Heap) (dst : Slice) (s : S) : Heap × Bool :=
  let r := put16 h dst 0 s.r0
  if r.2 then r else
  let r := put16 r.1 dst 2 s.r1
  if r.2 then r else
  let r := put16 r.1 dst 4 s.r2
  if r.2 then r else
  put16 r.1 dst 6 s.r3

/-- rc2.go:87-180: `Encrypt(dst, src)` in memory; whether it panics. All of `src` is read before `dst` is written. -/
def encryptMem (k : List Rc2.W) (h : Heap) (dst src : Slice) : Heap × Bool :=
  if src.len < 8 then (h, true) else putS h dst (encS k (loadS (h.read src)))

/-- rc2.go:182-274 -/
def decryptMem (k : List Rc2.W) (h : Heap) (dst src : Slice) : Heap × Bool :=
  if src.len < 8 then (h, true) else putS h dst (decS k (loadS (h.read src)))

end MCrypto.Rc2

namespace MCrypto.Props
open MCrypto MCrypto.Go MCrypto.Sm3

/-! ### C126 SM3 -/

/-- The program's memory and, for every object, the octets that have been written to it since the last `Reset`: those
that the slices held at the time. -/
structure MemSpec where
  heap : Heap
  logs : Nat → Bytes

/-- What the operations should do. -/
def memSpecStep (H : Bytes → Bytes) (s : MemSpec) : MemOp → MemSpec × Option (Res Slice)
  | .write o p => (⟨s.heap, Function.update s.logs o (s.logs o ++ s.heap.read p)⟩, none)
  | .sum o inp spare => (⟨(s.heap.append inp (H (s.logs o)) spare).1, s.logs⟩, some (.ok (s.heap.append inp (H (s.logs o)) spare).2))
  | .reset o => (⟨s.heap, Function.update s.logs o []⟩, none)
  | .store a pos x => (⟨s.heap.store a pos x, s.logs⟩, none)
  | .alloc x => (⟨s.heap.alloc x, s.logs⟩, none)

def memSpecRun (H : Bytes → Bytes) (s : MemSpec) : List MemOp → MemSpec
  | [] => s
  | op :: ops => memSpecRun H (memSpecStep H s op).1 ops

/-- Memory is the same, and the objects hold what has been written to them. -/
def Agree (s : MemState) (t : MemSpec) : Prop := s.heap = t.heap ∧ ∀ o, Inv (s.objs o) (t.logs o)

theorem agree_step {s : MemState} {t : MemSpec} (h : Agree s t) (op : MemOp) :
    Agree (memStep s op).1 (memSpecStep Sm3Spec.sm3 t op).1 ∧ (memStep s op).2 = (memSpecStep Sm3Spec.sm3 t op).2 := by
  obtain ⟨heap, objs⟩ := s
  obtain ⟨heap', logs⟩ := t
  obtain ⟨h1, h2⟩ := h
  dsimp only at h1 h2
  subst h1
  have hupd : ∀ (o : Nat) (d : Digest) (l : Bytes), Inv d l → ∀ o', Inv (Function.update objs o d o') (Function.update logs o l o') := by
    intro o d l hd o'
    by_cases ho : o' = o
    · subst ho; simpa using hd
    · simpa [Function.update_of_ne ho] using h2 o'
  cases op with
  | write o p => exact ⟨⟨rfl, hupd _ _ _ (inv_write (h2 o) _)⟩, rfl⟩
  | sum o inp spare =>
    simp only [memStep, memSpecStep, checkSum_of_inv (h2 o)]
    exact ⟨⟨rfl, h2⟩, trivial⟩
  | reset o => exact ⟨⟨rfl, hupd _ _ _ (inv_reset (h2 o))⟩, rfl⟩
  | store a pos x => exact ⟨⟨rfl, h2⟩, rfl⟩
  | alloc x => exact ⟨⟨rfl, h2⟩, rfl⟩

theorem agree_run {s : MemState} {t : MemSpec} (h : Agree s t) (ops : List MemOp) :
    Agree (memRun s ops) (memSpecRun Sm3Spec.sm3 t ops) := by
  induction ops generalizing s t with
  | nil => exact h
  | cons op ops ih => exact ih (agree_step h op).1

/-- **C126** Every program with any number of hash objects, that uses its memory as it likes between the calls, sees what
the specification says: the digests are those of the octets that the slices held when they were written (so nothing
that happens to the memory later, and nothing that is written to another object, changes a digest), and memory
changes by the appended digests only. -/
theorem C126_history (h : Heap) (ops : List MemOp) (op : MemOp) :
    (memRun ⟨h, fun _ => new⟩ ops).heap = (memSpecRun Sm3Spec.sm3 ⟨h, fun _ => []⟩ ops).heap ∧
    (memStep (memRun ⟨h, fun _ => new⟩ ops) op).2 = (memSpecStep Sm3Spec.sm3 (memSpecRun Sm3Spec.sm3 ⟨h, fun _ => []⟩ ops) op).2 := by
  have ha : Agree ⟨h, fun _ => new⟩ ⟨h, fun _ => []⟩ := ⟨rfl, fun _ => inv_new⟩
  exact ⟨(agree_run ha ops).1, (agree_step (agree_run ha ops) op).2⟩

/-- **C126** What a `Sum(in)` does after any such program: it never fails; the result holds what `in` held and the digest.
If `in` has room for 32 octets behind it, the result shares its memory: those 32 octets are overwritten, all other
memory stays. Otherwise the result is in new memory and none of the old memory changes. -/
theorem C126_sum (h : Heap) (ops : List MemOp) (o : Nat) (inp : Slice) (spare : Nat) :
    let s := memRun ⟨h, fun _ => new⟩ ops
    let dig := Sm3Spec.sm3 ((memSpecRun Sm3Spec.sm3 ⟨h, fun _ => []⟩ ops).logs o)
    s.heap.Valid inp →
    ∃ s' r, memStep s (.sum o inp spare) = (s', some (.ok r)) ∧ s'.heap.Valid r ∧ r.len = inp.len + 32 ∧ s'.objs = s.objs ∧
      s'.heap.read r = s.heap.read inp ++ dig ∧
      (inp.len + 32 ≤ inp.cap → r.arr = inp.arr ∧ r.off = inp.off ∧ ∀ a i, s'.heap.byte a i =
        if a = inp.arr ∧ inp.off + inp.len ≤ i ∧ i < inp.off + inp.len + 32 then dig[i - (inp.off + inp.len)]? else s.heap.byte a i) ∧
      (inp.cap < inp.len + 32 → r.arr = s.heap.length ∧ ∀ a, a < s.heap.length → ∀ i, s'.heap.byte a i = s.heap.byte a i) := by
  intro s dig hv
  have ha : Agree ⟨h, fun _ => new⟩ ⟨h, fun _ => []⟩ := ⟨rfl, fun _ => inv_new⟩
  have hi := (agree_run ha ops).2 o
  have hl : dig.length = 32 := sm3_length _
  obtain ⟨g1, g2, g3, g4, g5⟩ := append_spec hv dig (by omega) spare
  rw [hl] at g3 g4 g5
  refine ⟨⟨(s.heap.append inp dig spare).1, s.objs⟩, (s.heap.append inp dig spare).2, ?_, g2, g3, rfl, g1, ?_, g5⟩
  · simp only [memStep]
    rw [show (s.objs o).checkSum = .ok dig from checkSum_of_inv hi]
  · intro hc
    obtain ⟨e1, e2, _, e4⟩ := g4 hc
    exact ⟨e1, e2, e4⟩

theorem memSpecRun_append (H : Bytes → Bytes) (t : MemSpec) (a b : List MemOp) :
    memSpecRun H t (a ++ b) = memSpecRun H (memSpecRun H t a) b := by
  induction a generalizing t with
  | nil => rfl
  | cons x a ih => exact ih _

theorem memRun_append (t : MemState) (a b : List MemOp) : memRun t (a ++ b) = memRun (memRun t a) b := by
  induction a generalizing t with
  | nil => rfl
  | cons x a ih => exact ih _

theorem bytes_length (v : V) : v.bytes.length = 32 := by
  unfold V.bytes
  simp only [List.length_append, beBytes_length]

theorem if_ok {c : Prop} [Decidable c] {x y : Bytes} (h : (if c then Res.panic else .ok x) = .ok y) : y = x := by
  by_cases hc : c
  · rw [if_pos hc] at h; cases h
  · rw [if_neg hc] at h; exact (Res.ok.inj h).symm

theorem checkSum_length {d : Digest} {hash : Bytes} (h : d.checkSum = .ok hash) : hash.length = 32 := by
  rw [Digest.checkSum] at h
  rw [if_ok h, bytes_length]

/-- **C126** The pitfall: two results of `Sum` on the same slice with room behind it are the same memory, so the second call
replaces the first digest. -/
theorem C126_overwrite (s : MemState) (o o' : Nat) (inp : Slice) (spare spare' : Nat) (hv : s.heap.Valid inp)
    (hc : inp.len + 32 ≤ inp.cap) (s1 s2 : MemState) (r1 r2 : Slice)
    (h1 : memStep s (.sum o inp spare) = (s1, some (.ok r1))) (h2 : memStep s1 (.sum o' inp spare') = (s2, some (.ok r2))) :
    r1 = r2 ∧ s2.heap.read r1 = s2.heap.read r2 := by
  have app : ∀ (t t' : MemState) (i sp : Nat) (r : Slice), memStep t (.sum i inp sp) = (t', some (.ok r)) → r = { inp with len := inp.len + 32 } := by
    intro t t' i sp r ht
    simp only [memStep] at ht
    cases hd : (t.objs i).checkSum with
    | ok hash =>
      rw [hd] at ht
      simp only [Prod.mk.injEq, Option.some.injEq, Res.ok.injEq] at ht
      rw [← ht.2, Heap.append, checkSum_length hd, if_pos hc]
    | err e => rw [hd] at ht; simp at ht
    | panic => rw [hd] at ht; simp at ht
  have e1 := app _ _ _ _ _ h1
  have e2 := app _ _ _ _ _ h2
  rw [e1, e2]
  exact ⟨rfl, rfl⟩

/-- **C126** Without room (as with `Sum(nil)`) the first digest is kept whatever the hash objects do afterwards, as long as
the program itself writes to none of its octets, and appends nothing into them. -/
theorem C126_kept (s : MemState) (o : Nat) (inp : Slice) (spare : Nat) (hv : s.heap.Valid inp) (r : Slice)
    (hlt : r.arr < s.heap.length) (hn : inp.cap < inp.len + 32 ∨ inp.arr ≠ r.arr ∨ r.off + r.len ≤ inp.off + inp.len ∨ inp.off + inp.len + 32 ≤ r.off) :
    (memStep s (.sum o inp spare)).1.heap.read r = s.heap.read r := by
  simp only [memStep]
  cases hd : (s.objs o).checkSum with
  | ok hash =>
    have hl : hash.length = 32 := checkSum_length hd
    dsimp only
    obtain ⟨-, -, -, g4, g5⟩ := append_spec hv hash (by omega) spare
    rw [hl] at g4 g5
    apply read_congr
    intro i h1 h2
    by_cases hc : inp.len + 32 ≤ inp.cap
    · rw [(g4 hc).2.2.2, if_neg]
      rintro ⟨k1, k2, k3⟩
      rcases hn with hn | hn | hn | hn
      · omega
      · exact hn k1.symm
      · omega
      · omega
    · exact (g5 (by omega)).2 _ hlt _
  | err e => rfl
  | panic => rfl

/-- A case: a message is written, its memory is overwritten, and `Sum` appends the digest of the message that was there to a
slice with room for it. -/
example : let h : Heap := [[0x61, 0x62, 0x63] ++ List.replicate 40 0]
    let ops := [MemOp.write 0 ⟨0, 0, 3, 43⟩, .store 0 0 [1, 2, 3], .write 1 ⟨0, 0, 3, 43⟩]
    (memRun ⟨h, fun _ => new⟩ ops).heap.Valid ⟨0, 0, 3, 43⟩ ∧
    (memSpecRun Sm3Spec.sm3 ⟨h, fun _ => []⟩ ops).logs 0 = [0x61, 0x62, 0x63] ∧
    (memSpecRun Sm3Spec.sm3 ⟨h, fun _ => []⟩ ops).logs 1 = [1, 2, 3] := by
  refine ⟨?_, by decide +kernel, by decide +kernel⟩
  unfold Heap.Valid
  decide +kernel

/-! ### C127 RC2 -/

open MCrypto.Rc2

theorem store_store {h : Heap} {a p : Nat} {x y : Bytes} (hl : p + x.length + y.length ≤ (h.array a).length) :
    (h.store a p x).store a (p + x.length) y = h.store a p (x ++ y) := by
  have key : ∀ b : Bytes, p + x.length + y.length ≤ b.length → splice (splice b p x) (p + x.length) y = splice b p (x ++ y) := by
    intro b hb
    apply List.ext_getElem?
    intro i
    rw [splice_get (by rw [splice_length (by omega)]; omega), splice_get (by omega),
      splice_get (by rw [List.length_append]; omega), List.length_append]
    by_cases h1 : p + x.length ≤ i ∧ i < p + x.length + y.length
    · rw [if_pos h1, if_pos (by omega), List.getElem?_append_right (by omega)]; congr 1; omega
    · rw [if_neg h1]
      by_cases h2 : p ≤ i ∧ i < p + x.length
      · rw [if_pos h2, if_pos (by omega), List.getElem?_append_left (by omega)]
      · rw [if_neg h2, if_neg (by omega)]
  apply List.ext_getElem?
  intro j
  unfold Heap.store
  simp only [List.getElem?_modify]
  by_cases hj : a = j
  · subst hj
    unfold Heap.array at hl
    rw [List.getD_eq_getElem?_getD] at hl
    cases hg : h[a]? with
    | none => simp
    | some b =>
      rw [hg] at hl
      simp only [Option.getD_some] at hl
      simp [key b hl]
  · simp [hj]

theorem store_nil {h : Heap} {a p : Nat} : h.store a p [] = h := by
  have key : ∀ b : Bytes, splice b p [] = b := by
    intro b; simp [splice]
  apply List.ext_getElem?
  intro j
  unfold Heap.store
  simp only [List.getElem?_modify, key]
  simp

theorem storeW_length (w : Rc2.W) : (storeW w).length = 2 := rfl

/-- What the stores do: the octets are written in pairs as far as the destination goes. -/
theorem putS_eq {h : Heap} {dst : Slice} (hv : h.Valid dst) (s : S) :
    putS h dst s = (h.store dst.arr dst.off ((storeS s).take (2 * (dst.len / 2))), decide (dst.len < 8)) := by
  obtain ⟨hv1, hv2⟩ := hv
  have s2 : ∀ x y : Bytes, dst.off + x.length + y.length ≤ (h.array dst.arr).length →
      (h.store dst.arr dst.off x).store dst.arr (dst.off + x.length) y = h.store dst.arr dst.off (x ++ y) := fun x y hxy => store_store hxy
  have t2 := s2 (storeW s.r0) (storeW s.r1)
  have t3 := s2 (storeW s.r0 ++ storeW s.r1) (storeW s.r2)
  have t4 := s2 (storeW s.r0 ++ storeW s.r1 ++ storeW s.r2) (storeW s.r3)
  simp only [List.length_append, storeW_length] at t2 t3 t4
  unfold putS put16
  simp only [Nat.add_zero]
  by_cases h1 : 0 + 2 ≤ dst.len
  · simp only [if_pos h1, Bool.false_eq_true, if_false]
    by_cases h2 : 2 + 2 ≤ dst.len
    · simp only [if_pos h2, Bool.false_eq_true, if_false]
      rw [t2 (by omega)]
      by_cases h3 : 4 + 2 ≤ dst.len
      · simp only [if_pos h3, Bool.false_eq_true, if_false]
        rw [show dst.off + 4 = dst.off + (2 + 2) from rfl, t3 (by omega)]
        by_cases h4 : 6 + 2 ≤ dst.len
        · simp only [if_pos h4]
          rw [show dst.off + 6 = dst.off + (2 + 2 + 2) from rfl, t4 (by omega), List.take_of_length_le (by rw [storeS_length]; omega)]
          rw [show decide (dst.len < 8) = false from by simp; omega]
          rfl
        · simp only [if_neg h4]
          rw [show dst.len / 2 = 3 from by omega, show decide (dst.len < 8) = true from by simp; omega]
          rfl
      · simp only [if_neg h3, if_true]
        rw [show dst.len / 2 = 2 from by omega, show decide (dst.len < 8) = true from by simp; omega]
        rfl
    · simp only [if_neg h2, if_true]
      rw [show dst.len / 2 = 1 from by omega, show decide (dst.len < 8) = true from by simp; omega]
      rfl
  · simp only [if_neg h1, if_true]
    rw [show dst.len / 2 = 0 from by omega, show decide (dst.len < 8) = true from by simp; omega]
    simp [store_nil]

/-- **C127** `Encrypt(dst, src)` and `Decrypt(dst, src)`, however the two slices lie in memory, overlapping in any way: if both have
8 octets, the first 8 of `dst` become the (de)cipherment of the first 8 that `src` had before the call, and no other octet of
memory changes. -/
theorem C127_block (k : List Rc2.W) (h : Heap) (dst src : Slice) (hd : h.Valid dst) (hs : h.Valid src) (ld : 8 ≤ dst.len) (ls : 8 ≤ src.len) :
    (∃ c, Rc2.encrypt k (h.read src) = .ok c ∧ c.length = 8 ∧ ∃ h', encryptMem k h dst src = (h', false) ∧
      (∀ a i, h'.byte a i = if a = dst.arr ∧ dst.off ≤ i ∧ i < dst.off + 8 then c[i - dst.off]? else h.byte a i)) ∧
    (∃ m, Rc2.decrypt k (h.read src) = .ok m ∧ m.length = 8 ∧ ∃ h', decryptMem k h dst src = (h', false) ∧
      (∀ a i, h'.byte a i = if a = dst.arr ∧ dst.off ≤ i ∧ i < dst.off + 8 then m[i - dst.off]? else h.byte a i)) := by
  have hr := read_length hs
  have aux : ∀ s : S, ∃ h', putS h dst s = (h', false) ∧
      ∀ a i, h'.byte a i = if a = dst.arr ∧ dst.off ≤ i ∧ i < dst.off + 8 then (storeS s)[i - dst.off]? else h.byte a i := by
    intro s
    refine ⟨_, by rw [putS_eq hd, List.take_of_length_le (by rw [storeS_length]; omega), show decide (dst.len < 8) = false from by simp; omega], ?_⟩
    intro a i
    have := hd.2
    have := hd.1
    rw [byte_store (by rw [storeS_length]; omega), storeS_length]
  refine ⟨⟨_, by rw [Rc2.encrypt, if_neg (by omega)], storeS_length _, ?_⟩, ⟨_, by rw [Rc2.decrypt, if_neg (by omega)], storeS_length _, ?_⟩⟩
  · rw [encryptMem, if_neg (by omega)]; exact aux _
  · rw [decryptMem, if_neg (by omega)]; exact aux _

/-- **C127** With a shorter slice both functions panic: a short `src` before anything is written; a short `dst` after the first pairs of octets
of the result that fit have been written to it. -/
theorem C127_short (k : List Rc2.W) (h : Heap) (dst src : Slice) (hd : h.Valid dst) (hs : h.Valid src) :
    (src.len < 8 → encryptMem k h dst src = (h, true) ∧ decryptMem k h dst src = (h, true)) ∧
    (8 ≤ src.len → dst.len < 8 →
      (∃ c, Rc2.encrypt k (h.read src) = .ok c ∧ encryptMem k h dst src = (h.store dst.arr dst.off (c.take (2 * (dst.len / 2))), true)) ∧
      (∃ m, Rc2.decrypt k (h.read src) = .ok m ∧ decryptMem k h dst src = (h.store dst.arr dst.off (m.take (2 * (dst.len / 2))), true))) := by
  have hr := read_length hs
  refine ⟨fun hl => ⟨by rw [encryptMem, if_pos hl], by rw [decryptMem, if_pos hl]⟩, fun hl hdl => ⟨⟨_, by rw [Rc2.encrypt, if_neg (by omega)], ?_⟩,
    ⟨_, by rw [Rc2.decrypt, if_neg (by omega)], ?_⟩⟩⟩
  · rw [encryptMem, if_neg (by omega), putS_eq hd, show decide (dst.len < 8) = true from by simpa using hdl]
  · rw [decryptMem, if_neg (by omega), putS_eq hd, show decide (dst.len < 8) = true from by simpa using hdl]

/-- **C127** A block encrypted and decrypted where it is: memory is what it was. -/
theorem C127_in_place (k : List Rc2.W) (h : Heap) (b : Slice) (hb : h.Valid b) (hl : 8 ≤ b.len) :
    ∃ h1, encryptMem k h b b = (h1, false) ∧ ∃ h2, decryptMem k h1 b b = (h2, false) ∧ ∀ a i, h2.byte a i = h.byte a i := by
  obtain ⟨⟨c, e1, lc, h1, e2, e3⟩, -⟩ := C127_block k h b b hb hb hl hl
  have hlt := valid_lt hb (by have := hb.1; omega)
  have hb1 : h1.Valid b := by
    have : h1 = h.store b.arr b.off (storeS (encS k (loadS (h.read b)))) := by
      rw [encryptMem, if_neg (by omega), putS_eq hb, List.take_of_length_le (by rw [storeS_length]; omega)] at e2
      exact ((Prod.mk.injEq ..).mp e2).1.symm
    have h8 := hb.2
    have h9 := hb.1
    refine ⟨hb.1, ?_⟩
    rw [this, array_store, if_pos ⟨rfl, hlt⟩, splice_length (by rw [storeS_length]; omega)]
    exact h8
  obtain ⟨-, m, e4, lm, h2, e5, e6⟩ := C127_block k h1 b b hb1 hb1 hl hl
  refine ⟨h1, e2, h2, e5, fun a i => ?_⟩
  rw [e6]
  split
  · rename_i hc
    obtain ⟨rfl, hc1, hc2⟩ := hc
    have hr1 : (h1.read b).take 8 = c := by
      apply List.ext_getElem?
      intro j
      rw [List.getElem?_take, read_get, e3]
      by_cases hj : j < 8
      · rw [if_pos hj, if_pos (by omega), if_pos ⟨rfl, by omega, by omega⟩]; congr 1; omega
      · rw [if_neg hj, List.getElem?_eq_none (by omega)]
    have take8 : ∀ x : Bytes, 8 ≤ x.length → loadS x = loadS (x.take 8) := by
      intro x hx
      unfold loadS loadW
      simp [List.getD_eq_getElem?_getD, List.getElem?_take]
    have hm : m = (h.read b).take 8 := by
      have hr := read_length hb
      have hr' := read_length hb1
      rw [Rc2.decrypt, if_neg (by omega)] at e4
      rw [Rc2.encrypt, if_neg (by omega)] at e1
      have f1 := Res.ok.inj e4
      have f2 := Res.ok.inj e1
      rw [← f1, take8 _ (by omega), hr1, ← f2, loadS_storeS, decS_encS, take8 _ (by omega), storeS_loadS (by rw [List.length_take]; omega)]
    rw [hm, List.getElem?_take, if_pos (by omega), read_get, if_pos (by omega)]
    congr 1; omega
  · rename_i hc
    rw [e3, if_neg hc]

/-- A case: destination and source overlap by four octets. -/
example : let h : Heap := [List.replicate 16 7]
    h.Valid ⟨0, 4, 8, 12⟩ ∧ h.Valid ⟨0, 0, 8, 16⟩ := by
  unfold Heap.Valid
  decide +kernel

end MCrypto.Props
