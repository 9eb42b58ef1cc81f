import Verif.Sm3.Lemmas
import Verif.Curve.Model
import Verif.Der.Model
/-
Model of /repo/sm2/sm2.go (all exported functions and methods, and their helpers).

Simplifications: the curve of a key is sm2p256v1 (the only curve the package constructs keys for),
coordinates and the private scalar are non-negative integers, readers end with io.EOF.
-/
namespace MCrypto.Sm2
open MCrypto MCrypto.Curve MCrypto.Der

/-- The dynamic value of the `elliptic.Curve` interface; only its identity matters (sm2.go:89-90). -/
inductive CurveId where
  | sm2p256v1
  | other (n : Nat)
  deriving DecidableEq, Repr

/-- sm2.go:59-62 -/
structure PublicKey where
  curve : CurveId
  x : Nat
  y : Nat
  deriving DecidableEq, Repr

/-- sm2.go:65-68 -/
structure PrivateKey where
  pub : PublicKey
  d : Nat
  deriving DecidableEq, Repr

/-- The dynamic value passed as `crypto.PublicKey` / `crypto.PrivateKey` to `Equal`. -/
inductive AnyKey where
  | sm2pub (k : PublicKey)
  | sm2priv (k : PrivateKey)
  | otherType (n : Nat)
  deriving DecidableEq, Repr

/-- sm2.go:70-72 -/
def PrivateKey.public (k : PrivateKey) : AnyKey := .sm2pub k.pub

/-- sm2.go:84-91 -/
def PublicKey.equal (k : PublicKey) : AnyKey → Bool
  | .sm2pub xx => decide (k.x = xx.x) && decide (k.y = xx.y) && decide (k.curve = xx.curve)
  | _ => false

/-- sm2.go:75-81 -/
def PrivateKey.equal (k : PrivateKey) : AnyKey → Bool
  | .sm2priv xx => k.pub.equal (.sm2pub xx.pub) && decide (k.d = xx.d)
  | _ => false

/-- `ScalarBaseMult(k)` -/
def baseMult (k : Bytes) : Pt := scalarMult P G k

/-- One candidate of `elliptic.GenerateKey`: the mask for a 256-bit order is 0xff and byte 1 is
xored with 0x42. -/
def genCandidate (b : Bytes) : Bytes :=
  match b with
  | b0 :: b1 :: t => (b0 &&& 0xff) :: (b1 ^^^ 0x42) :: t
  | b => b

theorem readFull_lt {n : Nat} {rd : Reader} {b : Bytes} {rd' : Reader} (hn : 0 < n)
    (h : readFull n rd = .ok (b, rd')) : rd'.length < rd.length := by
  unfold readFull at h
  split at h
  · simp only [Res.ok.injEq, Prod.mk.injEq] at h
    obtain ⟨-, rfl⟩ := h
    simp; omega
  · split at h <;> cases h

/-- `elliptic.GenerateKey` (crypto/elliptic), the sampling loop, as called at sm2.go:95. -/
def genLoop (rd : Reader) : Res (Bytes × Reader) :=
  match h : readFull 32 rd with
  | .ok (b, rd') =>
    have : rd'.length < rd.length := readFull_lt (by decide) h
    let priv := genCandidate b
    if ofBytes priv ≥ N then genLoop rd' else .ok (priv, rd')
  | .err e => .err e
  | .panic => .panic
termination_by rd.length

/-- sm2.go:94-107 -/
def generateKey (rd : Reader) : Res (PrivateKey × Reader) :=
  match genLoop rd with
  | .ok (priv, rd') =>
    let q := baseMult priv
    .ok (⟨⟨.sm2p256v1, q.1, q.2⟩, ofBytes priv⟩, rd')
  | .err e => .err e
  | .panic => .panic

/-- sm2.go:20-22 -/
def defaultUid : Bytes :=
  [0x31, 0x32, 0x33, 0x34, 0x35, 0x36, 0x37, 0x38,
   0x31, 0x32, 0x33, 0x34, 0x35, 0x36, 0x37, 0x38]

/-- sm2.go:182-200 -/
def appendBigIntTo32Bytes (bn : Nat) : Bytes :=
  let buf := toBytes bn
  if buf.length < 32 then List.replicate (32 - buf.length) 0 ++ buf else buf

/-- sm2.go:167-180. `userIdLen` is a `uint16`. -/
def z (digest : Sm3.Digest) (x y : Nat) (uid : Bytes) : Bytes :=
  let h := digest.reset
  let userIdLen := uid.length * 8 % 65536
  let h := h.write [UInt8.ofNat (userIdLen / 256)]
  let h := h.write [UInt8.ofNat (userIdLen % 256)]
  let h := h.write uid
  let h := h.write (toBytes A)
  let h := h.write (toBytes B)
  let h := h.write (toBytes G.1)
  let h := h.write (toBytes G.2)
  let h := h.write (appendBigIntTo32Bytes x)
  let h := h.write (appendBigIntTo32Bytes y)
  h.sumNil

/-- sm2.go:130-140; the error is always nil. -/
def PublicKey.sm3Digest (pub : PublicKey) (msg uid : Bytes) : Bytes :=
  let uid := if uid.length = 0 then defaultUid else uid
  let digest := Sm3.new
  let zz := z digest pub.x pub.y uid
  -- `z` has used the same hash object; `Reset` discards that history
  let h := digest.reset
  let h := h.write zz
  let h := h.write msg
  h.sumNil

/-- sm2.go:202-209 -/
def marshalSign (r s : Int) : Res Bytes :=
  match addASN1 tagINTEGER (encInt r), addASN1 tagINTEGER (encInt s) with
  | some rb, some sb => Res.ofOption "pending ASN.1 child too long" (addASN1 tagSEQUENCE (rb ++ sb))
  | _, _ => .err "pending ASN.1 child too long"

/-- sm2.go:211-225 -/
def unmarshalSign (sig : Bytes) : Res (Int × Int) :=
  match readASN1 tagSEQUENCE sig with
  | some (inner, []) =>
    match readInt inner with
    | some (r, rest) =>
      match readInt rest with
      | some (s, []) => .ok (r, s)
      | _ => .err "not sm2 sign"
    | none => .err "not sm2 sign"
  | _ => .err "not sm2 sign"

/-- sm2.go:228-241: `params.BitSize/8+8 = 40` bytes. -/
def nextk (rd : Reader) : Res (Nat × Reader) :=
  match readFull 40 rd with
  | .ok (b, rd') => .ok (ofBytes b % (N - 1) + 1, rd')
  | .err e => .err e
  | .panic => .panic

theorem nextk_lt {rd : Reader} {k : Nat} {rd' : Reader} (h : nextk rd = .ok (k, rd')) :
    rd'.length < rd.length := by
  unfold nextk at h
  split at h
  · rename_i b r hr
    simp only [Res.ok.injEq, Prod.mk.injEq] at h
    obtain ⟨-, rfl⟩ := h
    exact readFull_lt (by decide) hr
  · cases h
  · cases h

/-- sm2.go:279-296: the inner loop, returning `r`, `k` and the rest of the random stream. -/
def signInner (e : Nat) (rd : Reader) : Res (Nat × Nat × Reader) :=
  match h : nextk rd with
  | .ok (k, rd') =>
    have : rd'.length < rd.length := nextk_lt h
    let x := (baseMult (toBytes k)).1
    let r := (e + x) % N
    if r ≠ 0 ∧ r + k ≠ N then .ok (r, k, rd') else signInner e rd'
  | .err er => .err er
  | .panic => .panic
termination_by rd.length

theorem signInner_lt {e : Nat} {rd : Reader} {r k : Nat} {rd' : Reader}
    (h : signInner e rd = .ok (r, k, rd')) : rd'.length < rd.length := by
  induction rd using signInner.induct e with
  | case1 rd k' rd1 hn hlt x r' hc =>
    rw [signInner] at h
    split at h
    · rename_i k2 rd2 hn2
      rw [hn] at hn2
      simp only [Res.ok.injEq, Prod.mk.injEq] at hn2
      obtain ⟨rfl, rfl⟩ := hn2
      simp only at h
      rw [if_pos hc] at h
      simp only [Res.ok.injEq, Prod.mk.injEq] at h
      obtain ⟨-, -, rfl⟩ := h
      exact hlt
    · cases h
    · cases h
  | case2 rd k' rd1 hn hlt x r' hc ih =>
    rw [signInner] at h
    split at h
    · rename_i k2 rd2 hn2
      rw [hn] at hn2
      simp only [Res.ok.injEq, Prod.mk.injEq] at hn2
      obtain ⟨rfl, rfl⟩ := hn2
      simp only at h
      rw [if_neg hc] at h
      have := ih h
      omega
    · cases h
    · cases h
  | case3 rd er hn =>
    rw [signInner] at h
    split at h <;> rename_i hh <;> rw [hn] at hh <;> cases hh
    cases h
  | case4 rd hn =>
    rw [signInner] at h
    split at h <;> rename_i hh <;> rw [hn] at hh <;> cases hh
    cases h

/-- `new(big.Int).ModInverse(a, N)`: nil when `a` is not invertible. N is prime (Curve/Prime), so
that is exactly `N ∣ a`, and Fermat's power is the inverse. -/
def modInverseN (a : Nat) : Option Nat :=
  if a % N = 0 then none else some (powMod (a % N) (N - 2) N)

/-- sm2.go:276-309: the outer loop. Multiplying by the nil result of `ModInverse` panics. -/
def signOuter (d e : Nat) (rd : Reader) : Res (Nat × Nat × Reader) :=
  match h : signInner e rd with
  | .ok (r, k, rd') =>
    have : rd'.length < rd.length := signInner_lt h
    match modInverseN (d + 1) with
    | none => .panic
    | some d1Inv =>
      let s := (((k : Int) - (r : Int) * (d : Int)) * (d1Inv : Int) % (N : Int)).toNat
      if s ≠ 0 then .ok (r, s, rd') else signOuter d e rd'
  | .err er => .err er
  | .panic => .panic
termination_by rd.length

/-- sm2.go:268-310 (`N.Sign() == 0` is impossible for this curve). -/
def signDigestRS (rd : Reader) (priv : PrivateKey) (digest : Bytes) : Res (Int × Int × Reader) :=
  match signOuter priv.d (ofBytes digest) rd with
  | .ok (r, s, rd') => .ok ((r : Int), (s : Int), rd')
  | .err e => .err e
  | .panic => .panic

/-- sm2.go:253-256 -/
def signRS (rd : Reader) (priv : PrivateKey) (inp userId : Bytes) : Res (Int × Int × Reader) :=
  let hash := priv.pub.sm3Digest inp userId
  signDigestRS rd priv hash

/-- sm2.go:244-250 -/
def sign (rd : Reader) (priv : PrivateKey) (inp uid : Bytes) : Res Bytes :=
  match signRS rd priv inp uid with
  | .ok (r, s, _) => marshalSign r s
  | .err e => .err e
  | .panic => .panic

/-- sm2.go:259-265 -/
def signDigest (rd : Reader) (priv : PrivateKey) (digest : Bytes) : Res Bytes :=
  match signDigestRS rd priv digest with
  | .ok (r, s, _) => marshalSign r s
  | .err e => .err e
  | .panic => .panic

/-- sm2.go:359-383 -/
def verifyDigestRS (pub : PublicKey) (digest : Bytes) (r s : Int) : Bool :=
  if r < 1 ∨ r ≥ (N : Int) then false
  else if s < 1 ∨ s ≥ (N : Int) then false
  else
    let e := ofBytes digest
    let t := (r + s) % (N : Int)
    if t = 0 then false
    else
      let p1 := baseMult (toBytes s.natAbs)
      let p2 := scalarMult P (pub.x, pub.y) (toBytes t.natAbs)
      let q := add P p1 p2
      if q.1 = 0 ∨ q.2 = 0 then false
      else decide ((((q.1 + e) % N : Nat) : Int) = r)

/-- sm2.go:322-349 -/
def verifyRS (pub : PublicKey) (inp uid : Bytes) (r s : Int) : Bool :=
  if r < 1 ∨ r ≥ (N : Int) then false
  else if s < 1 ∨ s ≥ (N : Int) then false
  else
    let hash := pub.sm3Digest inp uid
    let e := ofBytes hash
    let t := (r + s) % (N : Int)
    if t = 0 then false
    else
      let p1 := baseMult (toBytes s.natAbs)
      let p2 := scalarMult P (pub.x, pub.y) (toBytes t.natAbs)
      let q := add P p1 p2
      if q.1 = 0 ∨ q.2 = 0 then false
      else decide ((((q.1 + e) % N : Nat) : Int) = r)

/-- sm2.go:313-320 -/
def verify (pub : PublicKey) (inp uid signature : Bytes) : Bool :=
  match unmarshalSign signature with
  | .ok (r, s) => verifyRS pub inp uid r s
  | _ => false

/-- sm2.go:351-357 -/
def verifyDigest (pub : PublicKey) (inp signature : Bytes) : Bool :=
  match unmarshalSign signature with
  | .ok (r, s) => verifyDigestRS pub inp r s
  | _ => false

/-! Methods (sm2.go:109-164) -/
/-- sm2.go:110-112 -/
def PrivateKey.signRS (priv : PrivateKey) (rd : Reader) (inp uid : Bytes) := Sm2.signRS rd priv inp uid
/-- sm2.go:115-117 -/
def PrivateKey.sign (priv : PrivateKey) (rd : Reader) (inp uid : Bytes) := Sm2.sign rd priv inp uid
/-- sm2.go:120-122 -/
def PrivateKey.signDigestRS (priv : PrivateKey) (rd : Reader) (digest : Bytes) := Sm2.signDigestRS rd priv digest
/-- sm2.go:125-127 -/
def PrivateKey.signDigest (priv : PrivateKey) (rd : Reader) (digest : Bytes) := Sm2.signDigest rd priv digest
/-- sm2.go:142-148 -/
def PublicKey.verify (pub : PublicKey) (inp uid signature : Bytes) : Bool :=
  match unmarshalSign signature with
  | .ok (r, s) => verifyRS pub inp uid r s
  | _ => false
/-- sm2.go:150-152: the arguments are passed to `VerifyRS` in the order `uid, in`. -/
def PublicKey.verifyRS (pub : PublicKey) (inp uid : Bytes) (r s : Int) : Bool := Sm2.verifyRS pub uid inp r s
/-- sm2.go:154-160 -/
def PublicKey.verifyDigest (pub : PublicKey) (inp signature : Bytes) : Bool :=
  match unmarshalSign signature with
  | .ok (r, s) => verifyDigestRS pub inp r s
  | _ => false
/-- sm2.go:162-164 -/
def PublicKey.verifyDigestRS (pub : PublicKey) (inp : Bytes) (r s : Int) : Bool := Sm2.verifyDigestRS pub inp r s

/-! ## Encryption -/

/-- sm2.go:447-451: low 32 bits, big-endian. -/
def intToBytes (x : Nat) : Bytes := beBytes 4 x

/-- sm2.go:427-438: the loop of `kdf`; `h` is the hash object, which is never reset. -/
def kdfLoop (klen : Nat) (xB yB : Bytes) : Nat → Sm3.Digest → Nat → Bytes → Bytes
  | 0, _, _, out => out
  | n + 1, h, ct, out =>
    let h := h.write xB
    let h := h.write yB
    let h := h.write (intToBytes ct)
    let hash := h.sumNil
    let out := if klen % 32 ≠ 0 then out ++ hash.take (klen % 32) else out ++ hash
    kdfLoop klen xB yB n h (ct + 1) out

/-- sm2.go:419-445. The iteration count is Go's truncated quotient, 0 when `klen <= 0`. -/
def kdf (klen : Int) (x y : Nat) : Option Bytes :=
  let n := ((klen + 31).tdiv 32).toNat
  let out := kdfLoop klen.toNat (appendBigIntTo32Bytes x) (appendBigIntTo32Bytes y) n Sm3.new 1 []
  if out.any (fun b => b != 0) then some out else none

/-- `for i := 0; i != len(msg); i++ { c[off+i] ^= msg[i] }` (sm2.go:412-414, 480-482):
index out of range panics. -/
def xorInto (c : Bytes) (off : Nat) (msg : Bytes) : Res Bytes :=
  if msg = [] then .ok c
  else if off + msg.length ≤ c.length then
    .ok (c.take off ++ List.zipWith (· ^^^ ·) ((c.drop off).take msg.length) msg ++ c.drop (off + msg.length))
  else .panic

/-- sm2.go:387-416 -/
def encryt (rd : Reader) (pub : PublicKey) (msg : Bytes) : Res (Bytes × Reader) :=
  match h : nextk rd with
  | .ok (k, rd') =>
    have : rd'.length < rd.length := nextk_lt h
    let kBytes := toBytes k
    let c1 := baseMult kBytes
    let c := toBytes c1.1 ++ toBytes c1.2
    let kp := scalarMult P (pub.x, pub.y) kBytes
    let c3 := toBytes kp.1 ++ msg ++ toBytes kp.2
    let c := c ++ Sm3.sum c3
    match kdf msg.length kp.1 kp.2 with
    | none => encryt rd' pub msg
    | some t =>
      match xorInto (c ++ t) 96 msg with
      | .ok c => .ok (0x04 :: c, rd')
      | .err e => .err e
      | .panic => .panic
  | .err e => .err e
  | .panic => .panic
termination_by rd.length

/-- What `Decryt` returns: a possibly nil slice and a possibly nil error. -/
structure DecOut where
  pt : Option Bytes
  err : Option String
  deriving DecidableEq, Repr

/-- Go's `s[lo:hi]` on a slice with contents `vis` and further backing bytes `tail` (capacity). -/
def sliceCap (vis tail : Bytes) (lo hi : Nat) : Res Bytes :=
  if lo ≤ hi ∧ hi ≤ vis.length + tail.length then .ok (((vis ++ tail).take hi).drop lo) else .panic

/-- sm2.go:453-493. `tail` holds the bytes of the backing array after `data` (its spare capacity). -/
def decryt (priv : PrivateKey) (data tail : Bytes) : Res DecOut :=
  if data.length < 1 then .panic
  else
    let data := data.drop 1
    match sliceCap data tail 0 32 with
    | .ok b1 =>
      match sliceCap data tail 32 64 with
      | .ok b2 =>
        let c1x := ofBytes b1
        let c1y := ofBytes b2
        if c1x ≥ P ∨ c1y ≥ P then .ok ⟨none, some "C1 is not on the curve"⟩
        else if isOnCurve P B (c1x, c1y) = false then .ok ⟨none, some "C1 is not on the curve"⟩
        else
          let s := scalarMult P (c1x, c1y) (toBytes 1)
          if s.1 = 0 ∧ s.2 = 0 then .ok ⟨none, some "[h]C1 at infinity"⟩
          else
            let q := scalarMult P (c1x, c1y) (toBytes priv.d)
            let length : Int := (data.length : Int) - 96
            match kdf length q.1 q.2 with
            | none => .ok ⟨none, some "failed to decrypt:kdf error"⟩
            | some c =>
              match xorInto c 0 (data.drop 96) with
              | .ok c =>
                let tm := toBytes q.1 ++ c ++ toBytes q.2
                let hash := Sm3.sum tm
                match sliceCap data tail 64 96 with
                | .ok h3 =>
                  if hash ≠ h3 then .ok ⟨some c, some "failed to decrypt:hash compared error"⟩
                  else .ok ⟨some c, none⟩
                | .err e => .err e
                | .panic => .panic
              | .err e => .err e
              | .panic => .panic
      | .err e => .err e
      | .panic => .panic
    | .err e => .err e
    | .panic => .panic

end MCrypto.Sm2
