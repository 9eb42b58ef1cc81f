import Verif.Sm3.Model
/-
SM3 hash objects used by several goroutines at the same time. /repo/sm3/sm3.go starts no goroutine and takes no lock; what is modelled here is
the use of its objects by a concurrent program: the accesses of the methods to the fields of an object are interleaved by a scheduler.

Simplifications: one access to a word of `h`, an octet of `x`, to `nx` or to `len` is one step; a goroutine can be interrupted between any two
accesses, and memory is sequentially consistent (Go promises even less for a program with data races). `copy` and the copy of the whole
struct go through the fields in order. The octets passed to `Write` are values, and `Sum` returns the digest alone (for the
memory of the arguments see C126). Fields are natural numbers in memory; they are cut to their types when read.
-/
namespace MCrypto.Sm3Mem
open MCrypto Sm3

/-- The fields of `digest` (sm3.go:27-32). -/
inductive Cell where
  | len
  | nx
  | x (i : Nat)
  | h (i : Nat)
  deriving DecidableEq, Repr

/-- The hash objects, by number, with their fields. -/
abbrev Mem := Nat → Cell → Nat

/-- Memory after an assignment. -/
def Mem.set (m : Mem) (o : Nat) (c : Cell) (v : Nat) : Mem := fun o' c' => if o' = o ∧ c' = c then v else m o' c'

/-- A part of a function: it has ended, or makes an access to a field of an object and goes on. -/
inductive P (α : Type) where
  | done (r : Res α)
  | load (o : Nat) (c : Cell) (k : Nat → P α)
  | store (o : Nat) (c : Cell) (v : Nat) (k : P α)

namespace P
/-- `;` -/
def bind {α β : Type} : P α → (α → P β) → P β
  | done (.ok a), f => f a
  | done (.err e), _ => done (.err e)
  | done .panic, _ => done .panic
  | load o c k, f => load o c fun v => (k v).bind f
  | store o c v k, f => store o c v (k.bind f)

instance : Monad P where
  pure a := done (.ok a)
  bind := bind

/-- Executed without interruption: memory afterwards, and how it ended. -/
def run {α : Type} : P α → Mem → Mem × Res α
  | done r, m => (m, r)
  | load o c k, m => (k (m o c)).run m
  | store o c v k, m => k.run (m.set o c v)

/-- The next access. -/
def step {α : Type} : P α → Mem → Mem × P α
  | done r, m => (m, done r)
  | load o c k, m => (m, k (m o c))
  | store o c v k, m => (m.set o c v, k)

/-- The number of accesses when executed without interruption. -/
def steps {α : Type} : P α → Mem → Nat
  | done _, _ => 0
  | load o c k, m => (k (m o c)).steps m + 1
  | store o c v k, m => k.steps (m.set o c v) + 1
end P

def get (o : Nat) (c : Cell) : P Nat := .load o c fun v => .done (.ok v)
def put (o : Nat) (c : Cell) (v : Nat) : P Unit := .store o c v (.done (.ok ()))

/-- `copy(d.x[off:], p)`, for a `p` that fits. -/
def copyX (o : Nat) : Nat → Bytes → P Unit
  | _, [] => pure ()
  | off, b :: p => do
    put o (.x off) b.toNat
    copyX o (off + 1) p

/-- `n` octets of `d.x` from number `i` on. -/
def readX (o : Nat) : Nat → Nat → P Bytes
  | 0, _ => pure []
  | n + 1, i => do
    let v ← get o (.x i)
    let r ← readX o n (i + 1)
    pure (UInt8.ofNat v :: r)

/-- Reading `d.h`: sm3.go:126-127. -/
def readH (o : Nat) : P V := do
  let a ← get o (.h 0)
  let b ← get o (.h 1)
  let c ← get o (.h 2)
  let d ← get o (.h 3)
  let e ← get o (.h 4)
  let f ← get o (.h 5)
  let g ← get o (.h 6)
  let h ← get o (.h 7)
  pure ⟨BitVec.ofNat 32 a, BitVec.ofNat 32 b, BitVec.ofNat 32 c, BitVec.ofNat 32 d,
    BitVec.ofNat 32 e, BitVec.ofNat 32 f, BitVec.ofNat 32 g, BitVec.ofNat 32 h⟩

/-- Writing `d.h`: sm3.go:190, sm3.go:35-42. -/
def writeH (o : Nat) (v : V) : P Unit := do
  put o (.h 0) v.a.toNat
  put o (.h 1) v.b.toNat
  put o (.h 2) v.c.toNat
  put o (.h 3) v.d.toNat
  put o (.h 4) v.e.toNat
  put o (.h 5) v.f.toNat
  put o (.h 6) v.g.toNat
  put o (.h 7) v.h.toNat

/-- sm3.go:34-45 `Reset` -/
def reset (o : Nat) : P Unit := do
  writeH o initV
  put o .nx 0
  put o .len 0

/-- sm3.go:60-68: `if d.nx > 0`; the rest of `p`. `d.x[d.nx:]` panics if `d.nx` is more than 64. -/
def writeHead (o : Nat) (p : Bytes) : P Bytes := do
  let nx ← get o .nx
  if nx > 0 then do
    let nx ← get o .nx
    if nx > 64 then P.done .panic
    else do
      let n := min (64 - nx) p.length
      copyX o nx (p.take n)
      let v ← get o .nx
      put o .nx (v + n)
      let v ← get o .nx
      if v = 64 then do
        let h ← readH o
        let x ← readX o 64 0
        writeH o (block h x)
        put o .nx 0
        pure (p.drop n)
      else pure (p.drop n)
  else pure p

/-- sm3.go:69-73 -/
def writeBlocks (o : Nat) (p : Bytes) : P Bytes :=
  if p.length ≥ 64 then do
    let n := p.length / 64 * 64
    let h ← readH o
    writeH o (block h (p.take n))
    pure (p.drop n)
  else pure p

/-- sm3.go:74-76 -/
def writeTail (o : Nat) (p : Bytes) : P Unit :=
  if p.length > 0 then do
    copyX o 0 (p.take 64)
    put o .nx (min 64 p.length)
  else pure ()

/-- sm3.go:57-78 `Write` -/
def write (o : Nat) (p : Bytes) : P Nat := do
  let len ← get o .len
  put o .len (UInt64.ofNat len + UInt64.ofNat p.length).toNat
  let q ← writeHead o p
  let q ← writeBlocks o q
  writeTail o q
  pure p.length

/-- `checkSum` of a private copy (sm3.go:87-118). Its `Write` panics if `nx` is more than 64. -/
def checkSum (d : Digest) : Res Bytes := if d.nx > 64 then .panic else d.checkSum

/-- sm3.go:80-85 `Sum`: `d0 := *d`, the rest works on the copy. -/
def sum (o : Nat) : P Bytes := do
  let h ← readH o
  let x ← readX o 64 0
  let nx ← get o .nx
  let len ← get o .len
  P.done (checkSum ⟨h, x, nx, UInt64.ofNat len⟩)

/-- What one may call on an object. -/
inductive Call where
  | write (p : Bytes)
  | sum
  | reset
  deriving DecidableEq

/-- What a call returns. -/
inductive Out where
  | wrote (r : Res Nat)
  | summed (r : Res Bytes)
  | reset
  deriving DecidableEq

/-- A function with its error or panic as a value. -/
def P.attempt {α β : Type} (f : Res α → β) : P α → P β
  | .done r => .done (.ok (f r))
  | .load o c k => .load o c fun v => (k v).attempt f
  | .store o c v k => .store o c v (k.attempt f)

def Call.prog (o : Nat) : Call → P Out
  | .write p => (Sm3Mem.write o p).attempt .wrote
  | .sum => (Sm3Mem.sum o).attempt .summed
  | .reset => (Sm3Mem.reset o).attempt fun _ => .reset

/-- What a goroutine does: calls on objects, each of which may depend on what the calls before it have returned. -/
inductive Client where
  | stop
  | call (o : Nat) (c : Call) (k : Out → Client)

/-- The accesses that the goroutine makes; its result is the list of what its calls have returned. (A goroutine that does not
recover from a panic stops the program; here it goes on, with the panic as the result of the call.) -/
def Client.prog : Client → P (List Out)
  | .stop => pure []
  | .call o c k => do
    let r ← c.prog o
    let l ← (k r).prog
    pure (r :: l)

/-- Memory and what remains to be executed of each goroutine. -/
structure Sys where
  mem : Mem
  gs : List (P (List Out))

/-- The scheduler lets goroutine number `i` make its next access. -/
def Sys.step (s : Sys) (i : Nat) : Sys :=
  match s.gs[i]? with
  | none => s
  | some t => ⟨(t.step s.mem).1, s.gs.set i (t.step s.mem).2⟩

/-- The accesses made according to a schedule, the list of the numbers of the goroutines. -/
def Sys.exec (s : Sys) (schedule : List Nat) : Sys := schedule.foldl Sys.step s

/-- The goroutines are started. -/
def Sys.start (m : Mem) (clients : List Client) : Sys := ⟨m, clients.map Client.prog⟩

/-- Goroutines that hold a lock during each call, so that calls are not interrupted: memory, what remains of each goroutine, and what the calls have
returned so far (with the number of the goroutine, the last first). -/
structure Locked where
  mem : Mem
  gs : List Client
  log : List (Nat × Out)

/-- Goroutine number `i` gets the lock and makes its next call. -/
def Locked.step (s : Locked) (i : Nat) : Locked :=
  match s.gs[i]? with
  | some (.call o c k) =>
    match (c.prog o).run s.mem with
    | (m, .ok r) => ⟨m, s.gs.set i (k r), (i, r) :: s.log⟩
    | _ => s
  | _ => s

/-- The state of an object in the sense of Model.lean. -/
def Mem.digest (m : Mem) (o : Nat) : Digest :=
  ⟨⟨BitVec.ofNat 32 (m o (.h 0)), BitVec.ofNat 32 (m o (.h 1)), BitVec.ofNat 32 (m o (.h 2)), BitVec.ofNat 32 (m o (.h 3)),
    BitVec.ofNat 32 (m o (.h 4)), BitVec.ofNat 32 (m o (.h 5)), BitVec.ofNat 32 (m o (.h 6)), BitVec.ofNat 32 (m o (.h 7))⟩,
   (List.range 64).map fun i => UInt8.ofNat (m o (.x i)), m o .nx, UInt64.ofNat (m o .len)⟩

end MCrypto.Sm3Mem
