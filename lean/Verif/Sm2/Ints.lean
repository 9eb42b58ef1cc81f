import Verif.Sm2.Model
/-
/repo/sm2/sm2.go with its `*big.Int` arguments, variables and results as references to memory. The functions of Sm2/Model take and
return the values; here one can see which integers a function writes to, and what happens if two arguments are the same integer.

Simplifications: as in Sm2/Model the curve is y² = x³ - 3x + b with the methods of the embedded `*elliptic.CurveParams`. These methods are not
followed into crypto/elliptic: they read their arguments and the parameters, and return two new integers
(`affineFromJacobian` of params.go returns results of `new(big.Int)` in each case). Byte slices are values here (see Heap for those).
-/
namespace MCrypto.Sm2Mem
open MCrypto MCrypto.Curve

/-- The `big.Int` variables that have been allocated. -/
abbrev Ints := List Int

/- A `*big.Int` that is not nil is the number of the variable. -/
scoped notation "Ref" => Nat

/-- The value of an integer. -/
def Ints.get (m : Ints) (p : Ref) : Int := m.getD p 0

/-- A part of a function, as the accesses to integers that it makes, one after the other: it has ended; or it allocates an integer, reads one or
assigns to one, and goes on. -/
inductive M (α : Type) : Type where
  | done (r : Res α)
  | alloc (v : Int) (k : Ref → M α)
  | load (p : Ref) (k : Int → M α)
  | store (z : Ref) (v : Int) (k : M α)

namespace M
/-- `;` -/
def bind {α β : Type} : M α → (α → M β) → M β
  | done (.ok a), f => f a
  | done (.err e), _ => done (.err e)
  | done .panic, _ => done .panic
  | alloc v k, f => alloc v fun p => (k p).bind f
  | load p k, f => load p fun v => (k v).bind f
  | store z v k, f => store z v (k.bind f)

instance : Monad M where
  pure a := done (.ok a)
  bind := bind

/-- Executed without interruption: memory afterwards, and how it ended. -/
def run {α : Type} : M α → Ints → Ints × Res α
  | done r, m => (m, r)
  | alloc v k, m => (k m.length).run (m ++ [v])
  | load p k, m => (k (m.get p)).run m
  | store z v k, m => k.run (m.set z v)

instance {α : Type} : CoeFun (M α) (fun _ => Ints → Ints × Res α) := ⟨run⟩
end M

/-- Something that does not touch integers. -/
def lift {α : Type} (r : Res α) : M α := .done r

/-- `new(big.Int)` followed by the assignment of a value (`new(big.Int).SetBytes(…)`). -/
def new (v : Int) : M Ref := .alloc v fun p => .done (.ok p)

/-- The value that is read through a pointer. -/
def val (p : Ref) : M Int := .load p fun v => .done (.ok v)

/-- Assignment to `*z`. -/
def put (z : Ref) (v : Int) : M Unit := .store z v (.done (.ok ()))

/-- `z.Add(x, y)` -/
def add (z x y : Ref) : M Unit := do
  let a ← val x
  let b ← val y
  put z (a + b)

/-- `z.Sub(x, y)` -/
def sub (z x y : Ref) : M Unit := do
  let a ← val x
  let b ← val y
  put z (a - b)

/-- `z.Mul(x, y)` -/
def mul (z x y : Ref) : M Unit := do
  let a ← val x
  let b ← val y
  put z (a * b)

/-- `z.Mod(x, y)`: the result is not negative; division by zero panics. -/
def mod (z x y : Ref) : M Unit := do
  let a ← val x
  let b ← val y
  if b = 0 then lift .panic else put z (a % b)

/-- `new(big.Int).ModInverse(g, n)` for the order of the group: nil if there is no inverse. -/
def newModInverse (g n : Ref) : M (Option Ref) := do
  let a ← val g
  let _ ← val n
  match Sm2.modInverseN a.toNat with
  | none => pure none
  | some v => do
    let p ← new v
    pure (some p)

/-- A pointer that a method is called on. -/
def deref {α : Type} : Option α → M α
  | some a => pure a
  | none => lift .panic

/-- `*elliptic.CurveParams` and `A` of `P256V1Curve` (sm2.go:28-31). -/
structure CurveRefs where
  p : Ref
  n : Ref
  b : Ref
  gx : Ref
  gy : Ref
  a : Ref
  deriving DecidableEq, Repr

/-- The variables of the package: `one` (sm2.go:19) and `sm2P256V1` (sm2.go:25). -/
structure Globals where
  one : Ref
  curve : CurveRefs
  deriving DecidableEq, Repr

/-- sm2.go:59-62 -/
structure PubRef where
  curve : CurveRefs
  x : Ref
  y : Ref
  deriving DecidableEq, Repr

/-- sm2.go:65-68 -/
structure PrivRef where
  pub : PubRef
  d : Ref
  deriving DecidableEq, Repr

/-- `curve.ScalarMult(x, y, k)`: two new integers (see above). -/
def scalarMult (c : CurveRefs) (x y : Ref) (k : Bytes) : M (Ref × Ref) := do
  let p ← val c.p
  let a ← val x
  let b ← val y
  let q := Curve.scalarMult p.toNat (a.toNat, b.toNat) k
  let rx ← new q.1
  let ry ← new q.2
  pure (rx, ry)

/-- `curve.ScalarBaseMult(k)` -/
def scalarBaseMult (c : CurveRefs) (k : Bytes) : M (Ref × Ref) := scalarMult c c.gx c.gy k

/-- `curve.Add(x1, y1, x2, y2)` -/
def curveAdd (c : CurveRefs) (x1 y1 x2 y2 : Ref) : M (Ref × Ref) := do
  let p ← val c.p
  let a1 ← val x1
  let b1 ← val y1
  let a2 ← val x2
  let b2 ← val y2
  let q := Curve.add p.toNat (a1.toNat, b1.toNat) (a2.toNat, b2.toNat)
  let rx ← new q.1
  let ry ← new q.2
  pure (rx, ry)

/-- `curve.IsOnCurve(x, y)` -/
def isOnCurve (c : CurveRefs) (x y : Ref) : M Bool := do
  let p ← val c.p
  let b ← val c.b
  let a ← val x
  let e ← val y
  pure (Curve.isOnCurve p.toNat b.toNat (a.toNat, e.toNat))

/-- `x.Bytes()` -/
def bytes (x : Ref) : M Bytes := do
  let a ← val x
  pure (toBytes a.natAbs)

/-- `(*PublicKey).Equal` for an argument of type `*PublicKey`: sm2.go:84-91. The curves are compared as pointers. -/
def PubRef.equal (pub xx : PubRef) : M Bool := do
  let a ← val pub.x
  let b ← val xx.x
  if a ≠ b then pure false
  else do
    let a ← val pub.y
    let b ← val xx.y
    pure (decide (a = b) && decide (pub.curve = xx.curve))

/-- `(*PrivateKey).Equal` for an argument of type `*PrivateKey`: sm2.go:75-81 -/
def PrivRef.equal (priv xx : PrivRef) : M Bool := do
  let q ← priv.pub.equal xx.pub
  if !q then pure false
  else do
    let a ← val priv.d
    let b ← val xx.d
    pure (decide (a = b))

/-- `GenerateKey`: sm2.go:94-107. `elliptic.GenerateKey` returns octets and the integers of `ScalarBaseMult`. -/
def generateKey (g : Globals) (rd : Reader) : M (PrivRef × Reader) := do
  let (d, rd) ← lift (Sm2.genLoop rd)
  let (x, y) ← scalarBaseMult g.curve d
  let dd ← new (ofBytes d)
  pure (⟨⟨g.curve, x, y⟩, dd⟩, rd)

/-- `z`: sm2.go:167-180, and the rest of `SM3Digest`, sm2.go:134-139, on the values of the integers. -/
def digestOf (a b gx gy x y : Nat) (uid msg : Bytes) : Bytes :=
  let digest := Sm3.new
  let h := digest.reset
  let userIdLen := uid.length * 8 % 65536
  let h := h.write [UInt8.ofNat (userIdLen / 256)]
  let h := h.write [UInt8.ofNat (userIdLen % 256)]
  let h := h.write uid
  let h := h.write (toBytes a)
  let h := h.write (toBytes b)
  let h := h.write (toBytes gx)
  let h := h.write (toBytes gy)
  let h := h.write (Sm2.appendBigIntTo32Bytes x)
  let h := h.write (Sm2.appendBigIntTo32Bytes y)
  let zz := h.sumNil
  let h := digest.reset
  let h := h.write zz
  let h := h.write msg
  h.sumNil

/-- `z` reads `SM2P256V1()` and its two arguments: sm2.go:173-178 -/
def zDigest (g : Globals) (x y : Ref) (uid msg : Bytes) : M Bytes := do
  let a ← val g.curve.a
  let b ← val g.curve.b
  let gx ← val g.curve.gx
  let gy ← val g.curve.gy
  let vx ← val x
  let vy ← val y
  pure (digestOf a.natAbs b.natAbs gx.natAbs gy.natAbs vx.natAbs vy.natAbs uid msg)

/-- `SM3Digest`: sm2.go:130-140 -/
def sm3Digest (g : Globals) (pub : PubRef) (msg uid : Bytes) : M Bytes :=
  zDigest g pub.x pub.y (if uid.length = 0 then Sm2.defaultUid else uid) msg

/-- `UnmarshalSign`: sm2.go:211-225; the integers are new even if the function fails. -/
def unmarshalSign (sig : Bytes) : M (Ref × Ref) := do
  let rx ← new 0
  let sx ← new 0
  let (r, s) ← lift (Sm2.unmarshalSign sig)
  put rx r
  put sx s
  pure (rx, sx)

/-- `MarshalSign`: sm2.go:202-209 -/
def marshalSign (r s : Ref) : M Bytes := do
  let a ← val r
  let b ← val s
  lift (Sm2.marshalSign a b)

/-- `nextk`: sm2.go:228-241 -/
def nextk (g : Globals) (c : CurveRefs) (rd : Reader) : M (Ref × Reader) := do
  let (b, rd) ← lift (readFull 40 rd)
  let k ← new (ofBytes b)
  let n ← new 0
  sub n c.n g.one
  mod k k n
  add k k g.one
  pure (k, rd)

/-- The inner loop of `SignDigestRS`: sm2.go:279-296. The first argument bounds the number of rounds, each of which takes 40 octets. -/
def signInner (g : Globals) (c : CurveRefs) (e : Ref) : Nat → Reader → M (Ref × Ref × Reader)
  | 0, _ => lift (.err "unreachable")
  | fuel + 1, rd => do
    let (k, rd) ← nextk g c rd
    let kb ← bytes k
    let (r, _) ← scalarBaseMult c kb
    add r e r
    mod r r c.n
    let rv ← val r
    if rv = 0 then signInner g c e fuel rd
    else do
      let t ← new 0
      add t r k
      let tv ← val t
      let n ← val c.n
      if tv = n then signInner g c e fuel rd
      else pure (r, k, rd)

/-- The outer loop of `SignDigestRS`: sm2.go:276-309 -/
def signOuter (g : Globals) (priv : PrivRef) (e : Ref) : Nat → Reader → M (Ref × Ref × Reader)
  | 0, _ => lift (.err "unreachable")
  | fuel + 1, rd => do
    let c := priv.pub.curve
    let (r, k, rd) ← signInner g c e (rd.length + 1) rd
    let rD ← new 0
    mul rD r priv.d
    let s ← new 0
    sub s k rD
    let d1 ← new 0
    add d1 priv.d g.one
    let d1Inv ← newModInverse d1 c.n
    let d1Inv ← deref d1Inv
    mul s s d1Inv
    mod s s c.n
    let sv ← val s
    if sv = 0 then signOuter g priv e fuel rd
    else pure (r, s, rd)

/-- `SignDigestRS`: sm2.go:268-310 -/
def signDigestRS (g : Globals) (rd : Reader) (priv : PrivRef) (digest : Bytes) : M (Ref × Ref × Reader) := do
  let e ← new (ofBytes digest)
  let n ← val priv.pub.curve.n
  if n = 0 then lift (.err "zero parameter")
  else signOuter g priv e (rd.length + 1) rd

/-- `SignRS`: sm2.go:253-256 -/
def signRS (g : Globals) (rd : Reader) (priv : PrivRef) (inp uid : Bytes) : M (Ref × Ref × Reader) := do
  let hash ← sm3Digest g priv.pub inp uid
  signDigestRS g rd priv hash

/-- `Sign`: sm2.go:244-250 -/
def sign (g : Globals) (rd : Reader) (priv : PrivRef) (inp uid : Bytes) : M Bytes := do
  let (r, s, _) ← signRS g rd priv inp uid
  marshalSign r s

/-- `SignDigest`: sm2.go:259-265 -/
def signDigest (g : Globals) (rd : Reader) (priv : PrivRef) (digest : Bytes) : M Bytes := do
  let (r, s, _) ← signDigestRS g rd priv digest
  marshalSign r s

/-- The ranges of `r` and `s`: sm2.go:323-328, 360-365 -/
def outOfRange (g : Globals) (c : CurveRefs) (r : Ref) : M Bool := do
  let a ← val r
  let one ← val g.one
  if a < one then pure true
  else do
    let n ← val c.n
    pure (decide (a ≥ n))

/-- What `VerifyRS` and `VerifyDigestRS` do with the digest: sm2.go:334-348, 367-382 -/
def verifyTail (pub : PubRef) (hash : Bytes) (r s : Ref) : M Bool := do
  let e ← new (ofBytes hash)
  let t ← new 0
  add t r s
  mod t t pub.curve.n
  let tv ← val t
  if tv = 0 then pure false
  else do
    let sb ← bytes s
    let (x1, y1) ← scalarBaseMult pub.curve sb
    let tb ← bytes t
    let (x2, y2) ← scalarMult pub.curve pub.x pub.y tb
    let (x, y) ← curveAdd pub.curve x1 y1 x2 y2
    let xv ← val x
    let yv ← val y
    if xv = 0 ∨ yv = 0 then pure false
    else do
      add x x e
      mod x x pub.curve.n
      let xv ← val x
      let rv ← val r
      pure (decide (xv = rv))

/-- `VerifyRS`: sm2.go:322-349 -/
def verifyRS (g : Globals) (pub : PubRef) (inp uid : Bytes) (r s : Ref) : M Bool := do
  if ← outOfRange g pub.curve r then pure false
  else if ← outOfRange g pub.curve s then pure false
  else do
    let hash ← sm3Digest g pub inp uid
    verifyTail pub hash r s

/-- `VerifyDigestRS`: sm2.go:359-383 -/
def verifyDigestRS (g : Globals) (pub : PubRef) (digest : Bytes) (r s : Ref) : M Bool := do
  if ← outOfRange g pub.curve r then pure false
  else if ← outOfRange g pub.curve s then pure false
  else verifyTail pub digest r s

/-- `UnmarshalSign` as `Verify` and `VerifyDigest` use it: sm2.go:211-225, 314-317, 352-355 -/
def unmarshalOr (sig : Bytes) : M (Option (Ref × Ref)) := do
  let rx ← new 0
  let sx ← new 0
  match Sm2.unmarshalSign sig with
  | .ok (r, s) => do
    put rx r
    put sx s
    pure (some (rx, sx))
  | _ => pure none

/-- `Verify`: sm2.go:313-320 -/
def verify (g : Globals) (pub : PubRef) (inp uid sig : Bytes) : M Bool := do
  match ← unmarshalOr sig with
  | some (r, s) => verifyRS g pub inp uid r s
  | none => pure false

/-- `VerifyDigest`: sm2.go:351-357 -/
def verifyDigest (g : Globals) (pub : PubRef) (digest sig : Bytes) : M Bool := do
  match ← unmarshalOr sig with
  | some (r, s) => verifyDigestRS g pub digest r s
  | none => pure false

/-- `Encryt`: sm2.go:387-416. The first argument bounds the number of rounds. -/
def encrytLoop (g : Globals) (pub : PubRef) (msg : Bytes) : Nat → Reader → M (Bytes × Reader)
  | 0, _ => lift (.err "unreachable")
  | fuel + 1, rd => do
    let (k, rd) ← nextk g pub.curve rd
    let kBytes ← bytes k
    let (c1x, c1y) ← scalarBaseMult pub.curve kBytes
    let b1 ← bytes c1x
    let b2 ← bytes c1y
    let (kpx, kpy) ← scalarMult pub.curve pub.x pub.y kBytes
    let b3 ← bytes kpx
    let b4 ← bytes kpy
    let c := b1 ++ b2 ++ Sm3.sum (b3 ++ msg ++ b4)
    let vx ← val kpx
    let vy ← val kpy
    match Sm2.kdf msg.length vx.natAbs vy.natAbs with
    | none => encrytLoop g pub msg fuel rd
    | some t => do
      let c ← lift (Sm2.xorInto (c ++ t) 96 msg)
      pure (0x04 :: c, rd)

/-- `Encryt`: sm2.go:385-417 -/
def encryt (g : Globals) (rd : Reader) (pub : PubRef) (msg : Bytes) : M (Bytes × Reader) := encrytLoop g pub msg (rd.length + 1) rd

/-- `Decryt`: sm2.go:453-493 -/
def decryt (g : Globals) (priv : PrivRef) (data tail : Bytes) : M Sm2.DecOut := do
  if data.length < 1 then lift .panic
  else do
    let data := data.drop 1
    let b1 ← lift (Sm2.sliceCap data tail 0 32)
    let c1x ← new (ofBytes b1)
    let b2 ← lift (Sm2.sliceCap data tail 32 64)
    let c1y ← new (ofBytes b2)
    let c := priv.pub.curve
    let vx ← val c1x
    let vy ← val c1y
    let p ← val c.p
    if vx ≥ p ∨ vy ≥ p then pure ⟨none, some "C1 is not on the curve"⟩
    else do
      let on ← isOnCurve c c1x c1y
      if on = false then pure ⟨none, some "C1 is not on the curve"⟩
      else do
        let oneB ← bytes g.one
        let (sx, sy) ← scalarMult c c1x c1y oneB
        let vsx ← val sx
        let vsy ← val sy
        if vsx = 0 ∧ vsy = 0 then pure ⟨none, some "[h]C1 at infinity"⟩
        else do
          let db ← bytes priv.d
          let (x2, y2) ← scalarMult c c1x c1y db
          let v2x ← val x2
          let v2y ← val y2
          match Sm2.kdf ((data.length : Int) - 96) v2x.natAbs v2y.natAbs with
          | none => pure ⟨none, some "failed to decrypt:kdf error"⟩
          | some t => do
            let pt ← lift (Sm2.xorInto t 0 (data.drop 96))
            let bx ← bytes x2
            let bY ← bytes y2
            let hash := Sm3.sum (bx ++ pt ++ bY)
            let h3 ← lift (Sm2.sliceCap data tail 64 96)
            if hash ≠ h3 then pure ⟨some pt, some "failed to decrypt:hash compared error"⟩
            else pure ⟨some pt, none⟩

/-! ### Any call -/

/-- A call of a function or method of the package with its arguments; the ones that only pass their arguments on are left out. `Equal` is called
with an argument of the same type. -/
inductive SmCall where
  | generateKey (rd : Reader)
  | signRS (rd : Reader) (priv : PrivRef) (inp uid : Bytes)
  | signDigestRS (rd : Reader) (priv : PrivRef) (digest : Bytes)
  | sign (rd : Reader) (priv : PrivRef) (inp uid : Bytes)
  | signDigest (rd : Reader) (priv : PrivRef) (digest : Bytes)
  | sm3Digest (pub : PubRef) (msg uid : Bytes)
  | verify (pub : PubRef) (inp uid sig : Bytes)
  | verifyRS (pub : PubRef) (inp uid : Bytes) (r s : Ref)
  | verifyDigest (pub : PubRef) (digest sig : Bytes)
  | verifyDigestRS (pub : PubRef) (digest : Bytes) (r s : Ref)
  | marshalSign (r s : Ref)
  | unmarshalSign (sig : Bytes)
  | encryt (rd : Reader) (pub : PubRef) (msg : Bytes)
  | decryt (priv : PrivRef) (data tail : Bytes)
  | equalPub (a b : PubRef)
  | equalPriv (a b : PrivRef)

/-- What a call returns. -/
inductive Out where
  | key (k : PrivRef)
  | ints (r s : Ref)
  | bytes (b : Bytes)
  | bool (b : Bool)
  | decrypted (d : Sm2.DecOut)
  deriving DecidableEq

/-- The integers that a result consists of. -/
def Out.refs : Out → List Ref
  | .key k => [k.d, k.pub.x, k.pub.y]
  | .ints r s => [r, s]
  | _ => []

/-- What the call executes. -/
def SmCall.prog (g : Globals) : SmCall → M Out
  | .generateKey rd => do
    let (k, _) ← Sm2Mem.generateKey g rd
    pure (.key k)
  | .signRS rd priv inp uid => do
    let (r, s, _) ← Sm2Mem.signRS g rd priv inp uid
    pure (.ints r s)
  | .signDigestRS rd priv digest => do
    let (r, s, _) ← Sm2Mem.signDigestRS g rd priv digest
    pure (.ints r s)
  | .sign rd priv inp uid => do
    let b ← Sm2Mem.sign g rd priv inp uid
    pure (.bytes b)
  | .signDigest rd priv digest => do
    let b ← Sm2Mem.signDigest g rd priv digest
    pure (.bytes b)
  | .sm3Digest pub msg uid => do
    let b ← Sm2Mem.sm3Digest g pub msg uid
    pure (.bytes b)
  | .verify pub inp uid sig => do
    let b ← Sm2Mem.verify g pub inp uid sig
    pure (.bool b)
  | .verifyRS pub inp uid r s => do
    let b ← Sm2Mem.verifyRS g pub inp uid r s
    pure (.bool b)
  | .verifyDigest pub digest sig => do
    let b ← Sm2Mem.verifyDigest g pub digest sig
    pure (.bool b)
  | .verifyDigestRS pub digest r s => do
    let b ← Sm2Mem.verifyDigestRS g pub digest r s
    pure (.bool b)
  | .marshalSign r s => do
    let b ← Sm2Mem.marshalSign r s
    pure (.bytes b)
  | .unmarshalSign sig => do
    let (r, s) ← Sm2Mem.unmarshalSign sig
    pure (.ints r s)
  | .encryt rd pub msg => do
    let (b, _) ← Sm2Mem.encryt g rd pub msg
    pure (.bytes b)
  | .decryt priv data tail => do
    let d ← Sm2Mem.decryt g priv data tail
    pure (.decrypted d)
  | .equalPub a b => do
    let e ← a.equal b
    pure (.bool e)
  | .equalPriv a b => do
    let e ← a.equal b
    pure (.bool e)

end MCrypto.Sm2Mem
