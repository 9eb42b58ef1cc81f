import Verif.Heap
import Verif.Pkcs12.Kdf
/-
/repo/pkcs12/pbkdf.go:20-163 with memory: the slices are windows on arrays (Verif/Heap.lean), `append` writes behind a slice if there is
room. In Kdf the octets are values; here the password and the salt are slices of the caller, several local slices are extended and one is
overwritten in place.

How much room `append` leaves in a new array is up to the Go implementation: `room n` for the array number `n`.
Simplifications: integers (`big.Int`) are values; the counters are as in Kdf.
-/
namespace MCrypto.P12.Mem
open MCrypto MCrypto.Go MCrypto.P12

/-- The nil slice. -/
def nil : Slice := ⟨0, 0, 0, 0⟩

/-- `append(s, x...)` -/
def app (room : Nat → Nat) (h : Heap) (s : Slice) (x : Bytes) : Heap × Slice := h.append s x (room h.length)

/-- `make([]byte, n)` with the contents given at once -/
def fresh (h : Heap) (x : Bytes) : Heap × Slice := (h.alloc x, ⟨h.length, 0, x.length, x.length⟩)

/-- `copy(dst[off:], src)` -/
def copyTo (h : Heap) (dst : Slice) (off : Nat) (src : Bytes) : Heap := h.store dst.arr (dst.off + off) (src.take (dst.len - off))

/-- pbkdf.go:79-82: `var D []byte; for i := 0; i < v; i++ { D = append(D, ID) }` -/
def makeD (room : Nat → Nat) (ID : UInt8) : Nat → Heap → Slice → Heap × Slice
  | 0, h, s => (h, s)
  | n + 1, h, s =>
    let (h, s) := app room h s [ID]
    makeD room ID n h s

/-- pbkdf.go:25-31. `bytes.Repeat` makes an array of exactly the length it needs; the slice ends before its end. -/
def fill (h : Heap) (pattern : Slice) (v : Nat) : Heap × Slice :=
  if pattern.len = 0 then (h, nil)
  else
    let outputLen := v * ((pattern.len + v - 1) / v)
    let buf := repeatBytes (h.read pattern) ((outputLen + pattern.len - 1) / pattern.len)
    (h.alloc buf, ⟨h.length, 0, outputLen, buf.length⟩)

/-- pbkdf.go:20-23, `sum[:]` is a new array -/
def sum (hash : Bytes → Bytes) (h : Heap) (s : Slice) : Heap × Slice := fresh h (hash (h.read s))

/-- pbkdf.go:111-113 -/
def again (hash : Bytes → Bytes) : Nat → Heap → Slice → Heap × Slice
  | 0, h, s => (h, s)
  | n + 1, h, s =>
    let (h, s) := sum hash h s
    again hash n h s

/-- pbkdf.go:119-123 -/
def makeB (room : Nat → Nat) (Ai : Slice) (v : Nat) : Nat → Heap → Slice → Heap × Slice
  | 0, h, B => (h, { B with len := min v B.len })
  | n + 1, h, B =>
    if B.len < v then
      let (h, B) := app room h B (h.read Ai)
      makeB room Ai v n h B
    else (h, { B with len := v })

/-- pbkdf.go:133-154: one block. `buf` is `IjBuf`. -/
def block (v Bbi : Nat) (I : Slice) (j : Nat) (h : Heap) (buf : Slice) : Heap × Slice :=
  let (h, Ijb) := fresh h (toBytes (ofBytes (((h.read I).drop (j * v)).take v) + Bbi + 1))
  let Ijb := if Ijb.len > v then ⟨Ijb.arr, Ijb.off + (Ijb.len - v), v, Ijb.cap - (Ijb.len - v)⟩ else Ijb
  if Ijb.len < v then
    let (h, buf) := if buf.cap = 0 then fresh h (List.replicate v 0) else (h, buf)
    let short := v - Ijb.len
    let h := h.store buf.arr buf.off (List.replicate short 0)
    let h := copyTo h buf short (h.read Ijb)
    (copyTo h I (j * v) ((h.read buf).take v), buf)
  else (copyTo h I (j * v) ((h.read Ijb).take v), buf)

/-- pbkdf.go:132-155; the counter is `len(I)/v - j` -/
def blocks (v Bbi : Nat) (I : Slice) : Nat → Nat → Heap → Slice → Heap × Slice
  | 0, _, h, buf => (h, buf)
  | n + 1, j, h, buf =>
    let (h, buf) := block v Bbi I j h buf
    blocks v Bbi I n (j + 1) h buf

/-- pbkdf.go:107-158; `n` iterations are left -/
def loop (room : Nat → Nat) (hash : Bytes → Bytes) (v : Nat) (D I A : Slice) (r : Int) (c : Nat) : Nat → Heap → Slice → Heap
  | 0, h, _ => h
  | n + 1, h, buf =>
    let i := c - (n + 1)
    let (h, t) := app room h D (h.read I)
    let (h, Ai) := sum hash h t
    let (h, Ai) := again hash (r - 1).toNat h Ai
    let h := copyTo h A (i * 20) (h.read Ai)
    if i < c - 1 then
      let (h, B) := makeB room Ai v v h nil
      let (h, buf) := blocks v (ofBytes (h.read B)) I (I.len / v) 0 h buf
      loop room hash v D I A r c n h buf
    else loop room hash v D I A r c n h buf

/-- pbkdf.go:33-163 -/
def pbkdf (room : Nat → Nat) (hash : Bytes → Bytes) (u v : Nat) (h : Heap) (salt password : Slice) (r : Int) (ID : UInt8) (size : Nat) :
    Heap × Res Slice :=
  let (h, D) := makeD room ID v h nil
  let (h, S) := fill h salt v
  let (h, P) := fill h password v
  let (h, I) := app room h S (h.read P)
  let c := (size + u - 1) / u
  let (h, A) := fresh h (List.replicate (c * 20) 0)
  let h := loop room hash v D I A r c c h nil
  (h, if size ≤ A.cap then .ok { A with len := size } else .panic)

end MCrypto.P12.Mem
