import Verif.Sm2.Model
/-
The functions of /repo/sm2/sm2.go that read from an `io.Reader`, for an arbitrary one: any chunk sizes, errors at any point, errors together with data,
empty reads. A call may fail to return (a reader can deliver rejected numbers, or nothing, for ever), so the functions are relations: each rule is one way
a call can go, and the octets the reader put into the buffers, in order, are part of the relation.
-/
namespace MCrypto.Sm2.Rd
open MCrypto MCrypto.Curve MCrypto.Sm2

/-- An `io.Reader` with any inner state: `Read` of a buffer of `n` octets gives octets, an error or nil, and a new state. It never gives more than `n` octets
(io.Reader's documentation: 0 <= n <= len(p)). -/
structure GoReader where
  State : Type
  read : State → Nat → Bytes × Option String × State
  le : ∀ s n, (read s n).1.length ≤ n

/-- io.EOF, io.ErrUnexpectedEOF -/
def eof : String := "EOF"
def unexpectedEOF : String := "unexpected EOF"

/-- The loop of `io.ReadAtLeast`: `for n < min && err == nil { nn, err = r.Read(buf[n:]); n += nn }`. -/
inductive ReadLoop (r : GoReader) (n : Nat) : Bytes → Option String → r.State → Bytes → Option String → r.State → Prop
  | stop {got e s} : (n ≤ got.length ∨ e ≠ none) → ReadLoop r n got e s got e s
  | step {got s out e' s'} : got.length < n →
      ReadLoop r n (got ++ (r.read s (n - got.length)).1) (r.read s (n - got.length)).2.1 (r.read s (n - got.length)).2.2 out e' s' →
      ReadLoop r n got none s out e' s'

/-- What `io.ReadAtLeast` returns as the error after the loop. -/
def readError (n : Nat) (got : Bytes) (e : Option String) : Option String :=
  if n ≤ got.length then none else if 0 < got.length ∧ e = some eof then some unexpectedEOF else e

/-- `io.ReadFull(r, make([]byte, n))`: state before, octets in the buffer, error, state after. -/
def ReadFull (r : GoReader) (n : Nat) (s : r.State) (b : Bytes) (e : Option String) (s' : r.State) : Prop :=
  ∃ e0, ReadLoop r n [] none s b e0 s' ∧ e = readError n b e0

/-- sm2.go:228-241 -/
inductive Nextk (r : GoReader) : r.State → Bytes → Res Nat → r.State → Prop
  | ok {s b s'} : ReadFull r 40 s b none s' → Nextk r s b (.ok (ofBytes b % (N - 1) + 1)) s'
  | err {s b e s'} : ReadFull r 40 s b (some e) s' → Nextk r s b (.err e) s'

/-- `elliptic.GenerateKey` (crypto/elliptic), the sampling loop, as called at sm2.go:95. -/
inductive GenLoop (r : GoReader) : r.State → Bytes → Res Bytes → r.State → Prop
  | err {s b e s'} : ReadFull r 32 s b (some e) s' → GenLoop r s b (.err e) s'
  | done {s b s'} : ReadFull r 32 s b none s' → ¬ ofBytes (genCandidate b) ≥ N → GenLoop r s b (.ok (genCandidate b)) s'
  | again {s b s1 tr out s'} : ReadFull r 32 s b none s1 → ofBytes (genCandidate b) ≥ N → GenLoop r s1 tr out s' → GenLoop r s (b ++ tr) out s'

/-- sm2.go:94-107 -/
inductive GenerateKey (r : GoReader) : r.State → Bytes → Res PrivateKey → r.State → Prop
  | ok {s tr priv s'} : GenLoop r s tr (.ok priv) s' →
      GenerateKey r s tr (.ok ⟨⟨.sm2p256v1, (baseMult priv).1, (baseMult priv).2⟩, ofBytes priv⟩) s'
  | err {s tr e s'} : GenLoop r s tr (.err e) s' → GenerateKey r s tr (.err e) s'

/-- sm2.go:279-296: the inner loop. -/
inductive SignInner (r : GoReader) (e : Nat) : r.State → Bytes → Res (Nat × Nat) → r.State → Prop
  | err {s b er s'} : Nextk r s b (.err er) s' → SignInner r e s b (.err er) s'
  | done {s b k s'} : Nextk r s b (.ok k) s' →
      (e + (baseMult (toBytes k)).1) % N ≠ 0 ∧ (e + (baseMult (toBytes k)).1) % N + k ≠ N →
      SignInner r e s b (.ok ((e + (baseMult (toBytes k)).1) % N, k)) s'
  | again {s b k s1 tr out s'} : Nextk r s b (.ok k) s1 →
      ¬ ((e + (baseMult (toBytes k)).1) % N ≠ 0 ∧ (e + (baseMult (toBytes k)).1) % N + k ≠ N) →
      SignInner r e s1 tr out s' → SignInner r e s (b ++ tr) out s'

/-- `s` of sm2.go:298-303 -/
def sOf (d r k d1Inv : Nat) : Nat := (((k : Int) - (r : Int) * (d : Int)) * (d1Inv : Int) % (N : Int)).toNat

/-- sm2.go:276-309: the outer loop. -/
inductive SignOuter (r : GoReader) (d e : Nat) : r.State → Bytes → Res (Nat × Nat) → r.State → Prop
  | err {s tr er s'} : SignInner r e s tr (.err er) s' → SignOuter r d e s tr (.err er) s'
  | panic {s tr r0 k s'} : SignInner r e s tr (.ok (r0, k)) s' → modInverseN (d + 1) = none → SignOuter r d e s tr .panic s'
  | done {s tr r0 k di s'} : SignInner r e s tr (.ok (r0, k)) s' → modInverseN (d + 1) = some di → sOf d r0 k di ≠ 0 →
      SignOuter r d e s tr (.ok (r0, sOf d r0 k di)) s'
  | again {s tr r0 k di s1 tr' out s'} : SignInner r e s tr (.ok (r0, k)) s1 → modInverseN (d + 1) = some di → sOf d r0 k di = 0 →
      SignOuter r d e s1 tr' out s' → SignOuter r d e s (tr ++ tr') out s'

/-- A result without the numbers' sign. -/
def ints : Res (Nat × Nat) → Res (Int × Int)
  | .ok (r, s) => .ok ((r : Int), (s : Int))
  | .err e => .err e
  | .panic => .panic

/-- sm2.go:268-310 -/
def SignDigestRS (r : GoReader) (priv : PrivateKey) (digest : Bytes) (s : r.State) (tr : Bytes) (out : Res (Int × Int)) (s' : r.State) : Prop :=
  ∃ o, SignOuter r priv.d (ofBytes digest) s tr o s' ∧ out = ints o

/-- sm2.go:253-256 -/
def SignRS (r : GoReader) (priv : PrivateKey) (inp userId : Bytes) (s : r.State) (tr : Bytes) (out : Res (Int × Int)) (s' : r.State) : Prop :=
  SignDigestRS r priv (priv.pub.sm3Digest inp userId) s tr out s'

/-- `r, s, err := …; if err != nil { return nil, err }; return MarshalSign(r, s)` (sm2.go:245-249, 260-264) -/
def marshalled (o : Res (Int × Int)) : Res Bytes := o >>= fun p => marshalSign p.1 p.2

/-- sm2.go:244-250 -/
def Sign (r : GoReader) (priv : PrivateKey) (inp uid : Bytes) (s : r.State) (tr : Bytes) (out : Res Bytes) (s' : r.State) : Prop :=
  ∃ o, SignRS r priv inp uid s tr o s' ∧ out = marshalled o

/-- sm2.go:259-265 -/
def SignDigest (r : GoReader) (priv : PrivateKey) (digest : Bytes) (s : r.State) (tr : Bytes) (out : Res Bytes) (s' : r.State) : Prop :=
  ∃ o, SignDigestRS r priv digest s tr o s' ∧ out = marshalled o

/-- sm2.go:396-407: C1, C3 and the key stream, for the number `k`. -/
def encHead (pub : PublicKey) (msg : Bytes) (k : Nat) : Bytes :=
  let c1 := baseMult (toBytes k)
  let kp := scalarMult P (pub.x, pub.y) (toBytes k)
  toBytes c1.1 ++ toBytes c1.2 ++ Sm3.sum (toBytes kp.1 ++ msg ++ toBytes kp.2)

/-- sm2.go:409 -/
def encStream (pub : PublicKey) (msg : Bytes) (k : Nat) : Option Bytes :=
  let kp := scalarMult P (pub.x, pub.y) (toBytes k)
  kdf msg.length kp.1 kp.2

/-- sm2.go:412-416 -/
def encTail (c : Res Bytes) : Res Bytes :=
  match c with
  | .ok c => .ok (0x04 :: c)
  | .err e => .err e
  | .panic => .panic

/-- sm2.go:387-416 -/
inductive Encryt (r : GoReader) (pub : PublicKey) (msg : Bytes) : r.State → Bytes → Res Bytes → r.State → Prop
  | err {s b e s'} : Nextk r s b (.err e) s' → Encryt r pub msg s b (.err e) s'
  | done {s b k s' t} : Nextk r s b (.ok k) s' → encStream pub msg k = some t →
      Encryt r pub msg s b (encTail (xorInto (encHead pub msg k ++ t) 96 msg)) s'
  | again {s b k s1 tr out s'} : Nextk r s b (.ok k) s1 → encStream pub msg k = none → Encryt r pub msg s1 tr out s' →
      Encryt r pub msg s (b ++ tr) out s'

end MCrypto.Sm2.Rd
