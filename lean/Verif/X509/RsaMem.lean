import Verif.X509.Keys
/-
`MarshalPKCS1PrivateKey` (/repo/x509/pkcs1.go:104-133) with the memory of the key: the function begins with `key.Precompute()`, which writes the
`Precomputed` part of the key that the caller has passed, if its field `Dp` is nil. In Keys the values of this part are a function of the other
fields; here they are what is in memory, and several goroutines may pass the same key at the same time (nothing in /repo takes a lock).

`Precompute` is the one of crypto/rsa of the Go version of /repo/go.mod (1.18).

Simplifications: N, E, D and Primes are values (nobody assigns to them while the goroutines run). One access to a pointer, a slice header or
an integer is one step; a goroutine can be interrupted between any two of them, but not within one, and the memory is sequentially consistent
(Go promises even less for a program with data races). The field `R` of `CRTValue` is not modelled: it is not written to the file.
-/
namespace MCrypto.RsaMem
open MCrypto MCrypto.Asn1 MCrypto.X509

/-- The `*big.Int` variables of `Precomputed`: three fields, and two fields of element `i` of the array of CRT values number `a`. -/
inductive Cell where
  | dp
  | dq
  | qinv
  | exp (a i : Nat)
  | coeff (a i : Nat)
  deriving DecidableEq, Repr

/-- The memory of the key. Integers and arrays are numbered in the order of their allocation. -/
structure Mem where
  /-- the integers -/
  ints : List Int
  /-- the pointers to them; nil is `none` -/
  ptr : Cell → Option Nat
  /-- `Precomputed.CRTValues`: nil, or the whole of an array -/
  crt : Option Nat
  /-- the lengths of the arrays of CRT values -/
  arrays : List Nat

/-- The value of an integer. -/
def Mem.get (m : Mem) (r : Nat) : Int := m.ints.getD r 0

/-- The value that a pointer points to. -/
def Mem.value (m : Mem) (c : Cell) : Option Int := (m.ptr c).map m.get

/-- The accesses to memory. -/
inductive Op : Type → Type 1 where
  | newInt (v : Int) : Op Nat
  | int (r : Nat) : Op Int
  | setInt (r : Nat) (v : Int) : Op Unit
  | ptr (c : Cell) : Op (Option Nat)
  | setPtr (c : Cell) (v : Option Nat) : Op Unit
  /-- the slice header: the array and its length -/
  | crt : Op (Option (Nat × Nat))
  | newArr (n : Nat) : Op Nat
  | setCrt (a : Nat) : Op Unit

/-- What an access does and returns. The elements of a new array are zero. -/
def Op.run : {β : Type} → Op β → Mem → Mem × β
  | _, .newInt v, m => ({ m with ints := m.ints ++ [v] }, m.ints.length)
  | _, .int r, m => (m, m.get r)
  | _, .setInt r v, m => ({ m with ints := m.ints.set r v }, ())
  | _, .ptr c, m => (m, m.ptr c)
  | _, .setPtr c v, m => ({ m with ptr := fun x => if x = c then v else m.ptr x }, ())
  | _, .crt, m => (m, m.crt.map fun a => (a, m.arrays.getD a 0))
  | _, .newArr n, m =>
    ({ m with arrays := m.arrays ++ [n],
              ptr := fun x => match x with
                | .exp a i => if a = m.arrays.length then none else m.ptr (.exp a i)
                | .coeff a i => if a = m.arrays.length then none else m.ptr (.coeff a i)
                | c => m.ptr c }, m.arrays.length)
  | _, .setCrt a, m => ({ m with crt := some a }, ())

/-- A part of a function: it has ended, or it makes an access and goes on. -/
inductive P (α : Type) : Type 1 where
  | done (r : Res α)
  | op {β : Type} (o : Op β) (k : β → P α)

namespace P
/-- `;` -/
def bind {α β : Type} : P α → (α → P β) → P β
  | done (.ok a), f => f a
  | done (.err e), _ => done (.err e)
  | done .panic, _ => done .panic
  | op o k, f => op o fun b => (k b).bind f

instance : Monad P where
  pure a := done (.ok a)
  bind := bind

/-- Executed without interruption: memory afterwards, and how it ended. -/
def run {α : Type} : P α → Mem → Mem × Res α
  | done r, m => (m, r)
  | op o k, m => (k (o.run m).2).run (o.run m).1

/-- The next access. -/
def step {α : Type} : P α → Mem → Mem × P α
  | done r, m => (m, done r)
  | op o k, m => ((o.run m).1, k (o.run m).2)
end P

/-- One access. -/
def acc {β : Type} (o : Op β) : P β := .op o fun b => .done (.ok b)

/-- `c.Mod(d, c)` where `c` is a field: both operands are read from the field. Division by zero and a nil pointer panic. -/
def modInto (d : Int) (c : Cell) : P Unit := do
  let z ← acc (.ptr c)
  let y ← acc (.ptr c)
  match z, y with
  | some z, some y =>
    let v ← acc (.int y)
    if v = 0 then P.done .panic else acc (.setInt z (d % v))
  | _, _ => P.done .panic

/-- `c = new(big.Int).Sub(p, bigOne); c.Mod(d, c)` -/
def exponent (d p : Int) (c : Cell) : P Unit := do
  let r ← acc (.newInt (p - 1))
  acc (.setPtr c (some r))
  modInto d c

/-- `c = new(big.Int).ModInverse(g, n)`: nil if there is no inverse -/
def inverse (g n : Int) (c : Cell) : P Unit :=
  match modInverse g n with
  | none => acc (.setPtr c none)
  | some v => do
    let r ← acc (.newInt v)
    acc (.setPtr c (some r))

/-- The loop of `Precompute` over the primes after the second; `i` is the index into `CRTValues`, whose header is read in each iteration, and `r` the
product of the primes before. -/
def crtLoop (d : Int) : Nat → Int → List Int → P Unit
  | _, _, [] => pure ()
  | i, r, p :: ps => do
    match ← acc .crt with
    | none => P.done .panic
    | some (a, len) =>
      if i < len then do
        exponent d p (.exp a i)
        inverse r p (.coeff a i)
        crtLoop d (i + 1) (r * p) ps
      else P.done .panic

/-- `(*PrivateKey).Precompute` of crypto/rsa, called in pkcs1.go:105 -/
def precompute (k : RsaPriv) : P Unit :=
  match k.primes with
  | p :: q :: more => do
    match ← acc (.ptr .dp) with
    | some _ => pure ()
    | none =>
      exponent k.d p .dp
      exponent k.d q .dq
      inverse q p .qinv
      let a ← acc (.newArr more.length)
      acc (.setCrt a)
      crtLoop k.d 0 (p * q) more
  | _ => do
    match ← acc (.ptr .dp) with
    | some _ => pure ()
    | none => P.done .panic

/-- The loop pkcs1.go:125-129 over `CRTValues`: `n` elements of array `a` from number `i` on; `primes` are `key.Primes[2+i:]` and `room` the
elements of `AdditionalPrimes` that remain. -/
def copyCrt (a : Nat) : Nat → Nat → Nat → List Int → P (List (Int × Option Nat × Option Nat))
  | 0, _, _, _ => pure []
  | n + 1, i, room + 1, p :: ps => do
    let e ← acc (.ptr (.exp a i))
    let c ← acc (.ptr (.coeff a i))
    let l ← copyCrt a n (i + 1) room ps
    pure ((p, e, c) :: l)
  | _ + 1, _, _, _ => P.done .panic

/-- The value of a `*big.Int` when Marshal reads it. -/
def deref : Option Nat → P (Option Int)
  | none => pure none
  | some r => do
    let v ← acc (.int r)
    pure (some v)

/-- Marshal reads the elements of `AdditionalPrimes`. -/
def derefAll : List (Int × Option Nat × Option Nat) → P (List AddPrime)
  | [] => pure []
  | (p, e, c) :: l => do
    let e ← deref e
    let c ← deref c
    let rest ← derefAll l
    pure (⟨some p, e, c⟩ :: rest)

/-- pkcs1.go:104-133. The header of `CRTValues` is read twice, in lines 124 and 125. The error of Marshal is dropped. -/
def marshalPKCS1 (k : RsaPriv) : P Bytes := do
  precompute k
  match k.primes with
  | p :: q :: more =>
    let dp ← acc (.ptr .dp)
    let dq ← acc (.ptr .dq)
    let qinv ← acc (.ptr .qinv)
    let h1 ← acc .crt
    let h2 ← acc .crt
    let l ← match h2 with
      | none => pure []
      | some (a, len) => copyCrt a len 0 ((h1.map Prod.snd).getD 0) more
    let dp ← deref dp
    let dq ← deref dq
    let qinv ← deref qinv
    let add ← derefAll l
    pure ((marshal pkcs1Priv
      ⟨if k.primes.length > 2 then 1 else 0, k.pub.n, k.pub.e, k.d, p, q, dp, dq, qinv, add⟩).getD [])
  | _ => P.done .panic

/-- A goroutine that calls the function `n` times; it ends with the list of the results. -/
def calls (k : RsaPriv) : Nat → P (List Bytes)
  | 0 => pure []
  | n + 1 => do
    let b ← marshalPKCS1 k
    let l ← calls k n
    pure (b :: l)

/-- Memory and what remains to be executed of each goroutine. -/
structure Sys where
  mem : Mem
  gs : List (P (List Bytes))

/-- The scheduler lets goroutine number `i` make its next access. -/
def Sys.step (s : Sys) (i : Nat) : Sys :=
  match s.gs[i]? with
  | none => s
  | some t => ⟨(t.step s.mem).1, s.gs.set i (t.step s.mem).2⟩

/-- A schedule is a list of numbers of goroutines. -/
def Sys.exec (s : Sys) (schedule : List Nat) : Sys := schedule.foldl Sys.step s

/-- Goroutines are started, each of which will make the given number of calls with the same key. -/
def start (k : RsaPriv) (m : Mem) (counts : List Nat) : Sys := ⟨m, counts.map (calls k)⟩

/-- The `Precomputed` part of a key that was just made by hand, `&rsa.PrivateKey{PublicKey: …, D: …, Primes: …}`. -/
def fresh : Mem := ⟨[], fun _ => none, none, []⟩

end MCrypto.RsaMem
