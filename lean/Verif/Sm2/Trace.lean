import Verif.Sm2.Model
/-
The functions of /repo/sm2/sm2.go with the curve operations they make, in order: what somebody sees who can tell a doubling from an
addition and these from the conversion to affine coordinates (by the time they take, the power they draw, the code that is in the cache).

Simplifications: the events are the calls that `CurveParams.ScalarMult` and `CurveParams.Add` (crypto/elliptic, Go 1.18) make; a doubling that `addJacobian`
makes itself when its arguments are equal, and everything that is not a curve operation, are not observed.
-/
namespace MCrypto.Sm2Trace
open MCrypto MCrypto.Curve MCrypto.Sm2

/-- A call of `doubleJacobian`, of `addJacobian`, of `affineFromJacobian`. -/
inductive Op where
  | dbl
  | add
  | affine
  deriving DecidableEq, Repr

/-- `CurveParams.ScalarMult` (crypto/elliptic/params.go): for each bit a doubling, for each bit that is set an addition, and the conversion at the end. -/
def scalarMultT (p : Nat) (pt : Pt) (k : Bytes) : List Op × Pt :=
  let r := (bitsOf k).foldl (fun (acc : List Op × Jac) b =>
    if b then (acc.1 ++ [.dbl, .add], jAdd p (toJac pt) (jDouble p acc.2)) else (acc.1 ++ [.dbl], jDouble p acc.2)) ([], ⟨0, 0, 0⟩)
  (r.1 ++ [.affine], toAffine p r.2)

/-- `CurveParams.ScalarBaseMult` -/
def baseMultT (k : Bytes) : List Op × Pt := scalarMultT P G k

/-- `CurveParams.Add` -/
def addT (p : Nat) (a b : Pt) : List Op × Pt := ([.add, .affine], toAffine p (jAdd p (toJac a) (toJac b)))

/-- sm2.go:94-107 -/
def generateKeyT (rd : Reader) : List Op × Res (PrivateKey × Reader) :=
  match genLoop rd with
  | .ok (priv, rd') =>
    let q := baseMultT priv
    (q.1, .ok (⟨⟨.sm2p256v1, q.2.1, q.2.2⟩, ofBytes priv⟩, rd'))
  | .err e => ([], .err e)
  | .panic => ([], .panic)

/-- sm2.go:279-296 -/
def signInnerT (e : Nat) (rd : Reader) : List Op × Res (Nat × Nat × Reader) :=
  match h : nextk rd with
  | .ok (k, rd') =>
    have : rd'.length < rd.length := nextk_lt h
    let x := baseMultT (toBytes k)
    let r := (e + x.2.1) % N
    if r ≠ 0 ∧ r + k ≠ N then (x.1, .ok (r, k, rd'))
    else
      let t := signInnerT e rd'
      (x.1 ++ t.1, t.2)
  | .err er => ([], .err er)
  | .panic => ([], .panic)
termination_by rd.length

theorem scalarMultT_snd (p : Nat) (pt : Pt) (k : Bytes) : (scalarMultT p pt k).2 = scalarMult p pt k := by
  unfold scalarMultT scalarMult
  dsimp only
  congr 1
  generalize bitsOf k = l
  have : ∀ (l : List Bool) (a : List Op × Jac), (l.foldl (fun (acc : List Op × Jac) b =>
      if b then (acc.1 ++ [.dbl, .add], jAdd p (toJac pt) (jDouble p acc.2)) else (acc.1 ++ [.dbl], jDouble p acc.2)) a).2 =
      l.foldl (fun acc b => if b then jAdd p (toJac pt) (jDouble p acc) else jDouble p acc) a.2 := by
    intro l
    induction l with
    | nil => intro a; rfl
    | cons b l ih =>
      intro a
      rw [List.foldl_cons, List.foldl_cons, ih]
      cases b <;> rfl
  exact this l _

theorem baseMultT_snd (k : Bytes) : (baseMultT k).2 = baseMult k := scalarMultT_snd _ _ _

theorem signInnerT_snd (e : Nat) (rd : Reader) : (signInnerT e rd).2 = signInner e rd := by
  induction rd using signInner.induct e with
  | case1 rd k' rd1 hn hlt x r' hc =>
    rw [signInnerT, signInner]
    split <;> rename_i h1 <;> rw [hn] at h1 <;> cases h1
    split <;> rename_i h2 <;> rw [hn] at h2 <;> cases h2
    dsimp only
    rw [baseMultT_snd]
    rw [if_pos hc, if_pos hc]
  | case2 rd k' rd1 hn hlt x r' hc ih =>
    rw [signInnerT, signInner]
    split <;> rename_i h1 <;> rw [hn] at h1 <;> cases h1
    split <;> rename_i h2 <;> rw [hn] at h2 <;> cases h2
    dsimp only
    rw [baseMultT_snd]
    rw [if_neg hc, if_neg hc]
    exact ih
  | case3 rd er hn =>
    rw [signInnerT, signInner]
    split <;> rename_i h1 <;> rw [hn] at h1 <;> cases h1
    split <;> rename_i h2 <;> rw [hn] at h2 <;> cases h2
    rfl
  | case4 rd hn =>
    rw [signInnerT, signInner]
    split <;> rename_i h1 <;> rw [hn] at h1 <;> cases h1
    split <;> rename_i h2 <;> rw [hn] at h2 <;> cases h2

/-- sm2.go:276-309 -/
def signOuterT (d e : Nat) (rd : Reader) : List Op × Res (Nat × Nat × Reader) :=
  match h : signInnerT e rd with
  | (tr, .ok (r, k, rd')) =>
    have : rd'.length < rd.length := signInner_lt (by rw [← signInnerT_snd, h])
    match modInverseN (d + 1) with
    | none => (tr, .panic)
    | some d1Inv =>
      let s := (((k : Int) - (r : Int) * (d : Int)) * (d1Inv : Int) % (N : Int)).toNat
      if s ≠ 0 then (tr, .ok (r, s, rd'))
      else
        let t := signOuterT d e rd'
        (tr ++ t.1, t.2)
  | (tr, .err er) => (tr, .err er)
  | (tr, .panic) => (tr, .panic)
termination_by rd.length

/-- sm2.go:268-310 -/
def signDigestRST (rd : Reader) (priv : PrivateKey) (digest : Bytes) : List Op × Res (Int × Int × Reader) :=
  match signOuterT priv.d (ofBytes digest) rd with
  | (tr, .ok (r, s, rd')) => (tr, .ok ((r : Int), (s : Int), rd'))
  | (tr, .err e) => (tr, .err e)
  | (tr, .panic) => (tr, .panic)

/-- sm2.go:359-383 -/
def verifyDigestRST (pub : PublicKey) (digest : Bytes) (r s : Int) : List Op × Bool :=
  if r < 1 ∨ r ≥ (N : Int) then ([], false)
  else if s < 1 ∨ s ≥ (N : Int) then ([], false)
  else
    let e := ofBytes digest
    let t := (r + s) % (N : Int)
    if t = 0 then ([], false)
    else
      let p1 := baseMultT (toBytes s.natAbs)
      let p2 := scalarMultT P (pub.x, pub.y) (toBytes t.natAbs)
      let q := addT P p1.2 p2.2
      (p1.1 ++ p2.1 ++ q.1, if q.2.1 = 0 ∨ q.2.2 = 0 then false else decide ((((q.2.1 + e) % N : Nat) : Int) = r))

/-- sm2.go:387-416 -/
def encrytT (rd : Reader) (pub : PublicKey) (msg : Bytes) : List Op × Res (Bytes × Reader) :=
  match h : nextk rd with
  | .ok (k, rd') =>
    have : rd'.length < rd.length := nextk_lt h
    let kBytes := toBytes k
    let c1 := baseMultT kBytes
    let c := toBytes c1.2.1 ++ toBytes c1.2.2
    let kp := scalarMultT P (pub.x, pub.y) kBytes
    let c3 := toBytes kp.2.1 ++ msg ++ toBytes kp.2.2
    let c := c ++ Sm3.sum c3
    match kdf msg.length kp.2.1 kp.2.2 with
    | none =>
      let t := encrytT rd' pub msg
      (c1.1 ++ kp.1 ++ t.1, t.2)
    | some t =>
      match xorInto (c ++ t) 96 msg with
      | .ok c => (c1.1 ++ kp.1, .ok (0x04 :: c, rd'))
      | .err e => (c1.1 ++ kp.1, .err e)
      | .panic => (c1.1 ++ kp.1, .panic)
  | .err e => ([], .err e)
  | .panic => ([], .panic)
termination_by rd.length

/-- sm2.go:453-493: the part of `Decryt` up to the second multiplication, after which there are no more curve operations. -/
def decrytT (priv : PrivateKey) (data tail : Bytes) : List Op × Res DecOut :=
  if data.length < 1 then ([], .panic)
  else
    let data' := data.drop 1
    match sliceCap data' tail 0 32 with
    | .ok b1 =>
      match sliceCap data' tail 32 64 with
      | .ok b2 =>
        let c1x := ofBytes b1
        let c1y := ofBytes b2
        if c1x ≥ P ∨ c1y ≥ P then ([], .ok ⟨none, some "C1 is not on the curve"⟩)
        else if isOnCurve P B (c1x, c1y) = false then ([], .ok ⟨none, some "C1 is not on the curve"⟩)
        else
          let s := scalarMultT P (c1x, c1y) (toBytes 1)
          if s.2.1 = 0 ∧ s.2.2 = 0 then (s.1, .ok ⟨none, some "[h]C1 at infinity"⟩)
          else
            let q := scalarMultT P (c1x, c1y) (toBytes priv.d)
            (s.1 ++ q.1,
              match kdf ((data'.length : Int) - 96) q.2.1 q.2.2 with
              | none => .ok ⟨none, some "failed to decrypt:kdf error"⟩
              | some c =>
                match xorInto c 0 (data'.drop 96) with
                | .ok c =>
                  match sliceCap data' tail 64 96 with
                  | .ok h3 =>
                    if Sm3.sum (toBytes q.2.1 ++ c ++ toBytes q.2.2) ≠ h3 then
                      .ok ⟨some c, some "failed to decrypt:hash compared error"⟩
                    else .ok ⟨some c, none⟩
                  | .err e => .err e
                  | .panic => .panic
                | .err e => .err e
                | .panic => .panic)
      | .err e => ([], .err e)
      | .panic => ([], .panic)
    | .err e => ([], .err e)
    | .panic => ([], .panic)

end MCrypto.Sm2Trace
