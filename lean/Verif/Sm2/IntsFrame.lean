import Verif.Sm2.IntsLemmas
/-
No function of Sm2/Ints writes to an integer that existed before it was called, whatever is in memory.
-/
namespace MCrypto.Sm2Mem
open MCrypto MCrypto.Curve

/-- Whatever it reads, `x` assigns only to integers from number `n` on, provided that the ones it allocates are; and what it returns satisfies `Q`. -/
def Fr {α : Type} (n : Nat) (x : M α) (Q : α → Prop) : Prop :=
  match x with
  | .done r => ∀ a, r = .ok a → Q a
  | .alloc _ k => ∀ p, n ≤ p → Fr n (k p) Q
  | .load _ k => ∀ v, Fr n (k v) Q
  | .store z _ k => n ≤ z ∧ Fr n k Q

theorem Fr.bind {α β : Type} {n : Nat} {x : M α} {Q : α → Prop} {f : α → M β} {R : β → Prop} (hx : Fr n x Q) (hf : ∀ a, Q a → Fr n (f a) R) :
    Fr n (x >>= f) R := by
  show Fr n (M.bind x f) R
  induction x with
  | done r =>
    cases r with
    | ok a => exact hf a (hx a rfl)
    | err e => exact fun a h => by cases h
    | panic => exact fun a h => by cases h
  | alloc v k ih => exact fun p hp => ih p (hx p hp)
  | load p k ih => exact fun v => ih v (hx v)
  | store z v k ih => exact ⟨hx.1, ih hx.2⟩

/-- Executed without interruption from a memory of at least `n` integers it changes none of the first `n`. -/
theorem Fr.run {α : Type} {n : Nat} {x : M α} {Q : α → Prop} (h : Fr n x Q) (m : Ints) (hm : n ≤ m.length) :
    (n ≤ (x m).1.length ∧ ∀ p, p < n → (x m).1.get p = m.get p) ∧ ∀ a, (x m).2 = .ok a → Q a := by
  induction x generalizing m with
  | done r => exact ⟨⟨hm, fun _ _ => rfl⟩, h⟩
  | alloc v k ih =>
    obtain ⟨⟨h1, h2⟩, h3⟩ := ih m.length (h _ hm) (m ++ [v]) (by rw [List.length_append]; omega)
    exact ⟨⟨h1, fun p hp => (h2 p hp).trans (get_old (by omega) _)⟩, h3⟩
  | load p k ih => exact ih _ (h _) m hm
  | store z v k ih =>
    obtain ⟨hz, hk⟩ := h
    obtain ⟨⟨h1, h2⟩, h3⟩ := ih hk (m.set z v) (by rw [List.length_set]; exact hm)
    refine ⟨⟨h1, fun p hp => (h2 p hp).trans ?_⟩, h3⟩
    unfold Ints.get
    rw [List.getD_eq_getElem?_getD, List.getD_eq_getElem?_getD, List.getElem?_set_ne (by omega)]

theorem Fr.pure {α : Type} {n : Nat} {a : α} {Q : α → Prop} (h : Q a) : Fr n (Pure.pure a : M α) Q :=
  fun b hb => by obtain rfl := Res.ok.inj hb; exact h
theorem Fr.lift {α : Type} {n : Nat} {r : Res α} {Q : α → Prop} (h : ∀ a, r = .ok a → Q a) : Fr n (Sm2Mem.lift r) Q := h
theorem Fr.lift' {α : Type} {n : Nat} {r : Res α} : Fr n (Sm2Mem.lift r) (fun _ => True) := Fr.lift fun _ _ => trivial
theorem Fr.mono {α : Type} {n : Nat} {x : M α} {Q R : α → Prop} (h : Fr n x Q) (hq : ∀ a, Q a → R a) : Fr n x R := by
  induction x with
  | done r => exact fun a ha => hq a (h a ha)
  | alloc v k ih => exact fun p hp => ih p (h p hp)
  | load p k ih => exact fun v => ih v (h v)
  | store z v k ih => exact ⟨h.1, ih h.2⟩
theorem Fr.true {α : Type} {n : Nat} {x : M α} {Q : α → Prop} (h : Fr n x Q) : Fr n x (fun _ => True) := h.mono fun _ _ => trivial
theorem Fr.ite {α : Type} {n : Nat} {c : Prop} [Decidable c] {x y : M α} {Q : α → Prop} (hx : Fr n x Q) (hy : Fr n y Q) :
    Fr n (if c then x else y) Q := by
  split
  · exact hx
  · exact hy

theorem fr_new {n : Nat} (v : Int) : Fr n (new v) (fun p => n ≤ p) := fun p hp a h => by obtain rfl := Res.ok.inj h; exact hp
theorem fr_val {n : Nat} (p : Ref) : Fr n (val p) (fun _ => True) := fun _ _ _ => trivial
theorem fr_put {n : Nat} {z : Ref} (v : Int) (h : n ≤ z) : Fr n (put z v) (fun _ => True) := ⟨h, fun _ _ => trivial⟩
theorem fr_alloc {α : Type} {n : Nat} {v : Int} {k : Ref → M α} {Q : α → Prop} (h : Fr n (.alloc v k) Q) {p : Ref} (hp : n ≤ p) : Fr n (k p) Q := h p hp
theorem fr_load {α : Type} {n : Nat} {p : Ref} {k : Int → M α} {Q : α → Prop} (h : Fr n (.load p k) Q) (v : Int) : Fr n (k v) Q := h v
theorem fr_store {α : Type} {n : Nat} {z : Ref} {v : Int} {k : M α} {Q : α → Prop} (h : Fr n (.store z v k) Q) : n ≤ z ∧ Fr n k Q := h
theorem fr_done_iff {α : Type} {n : Nat} {r : Res α} {Q : α → Prop} : Fr n (.done r) Q ↔ ∀ a, r = .ok a → Q a := Iff.rfl
theorem fr_alloc_iff {α : Type} {n : Nat} {v : Int} {k : Ref → M α} {Q : α → Prop} : Fr n (.alloc v k) Q ↔ ∀ p, n ≤ p → Fr n (k p) Q := Iff.rfl
theorem fr_load_iff {α : Type} {n : Nat} {p : Ref} {k : Int → M α} {Q : α → Prop} : Fr n (.load p k) Q ↔ ∀ v, Fr n (k v) Q := Iff.rfl
theorem fr_store_iff {α : Type} {n : Nat} {z : Ref} {v : Int} {k : M α} {Q : α → Prop} : Fr n (.store z v k) Q ↔ n ≤ z ∧ Fr n k Q := Iff.rfl

attribute [irreducible] Fr

theorem fr_add {n : Nat} {z : Ref} (x y : Ref) (h : n ≤ z) : Fr n (add z x y) (fun _ => True) :=
  (fr_val _).bind fun _ _ => (fr_val _).bind fun _ _ => fr_put _ h
theorem fr_sub {n : Nat} {z : Ref} (x y : Ref) (h : n ≤ z) : Fr n (sub z x y) (fun _ => True) :=
  (fr_val _).bind fun _ _ => (fr_val _).bind fun _ _ => fr_put _ h
theorem fr_mul {n : Nat} {z : Ref} (x y : Ref) (h : n ≤ z) : Fr n (mul z x y) (fun _ => True) :=
  (fr_val _).bind fun _ _ => (fr_val _).bind fun _ _ => fr_put _ h
theorem fr_mod {n : Nat} {z : Ref} (x y : Ref) (h : n ≤ z) : Fr n (mod z x y) (fun _ => True) :=
  (fr_val _).bind fun _ _ => (fr_val _).bind fun _ _ => Fr.ite Fr.lift' (fr_put _ h)
theorem fr_bytes {n : Nat} (x : Ref) : Fr n (bytes x) (fun _ => True) := (fr_val _).bind fun _ _ => .pure trivial
theorem fr_inv {n : Nat} (a b : Ref) : Fr n (newModInverse a b) (fun _ => True) := by
  refine (fr_val _).bind fun _ _ => (fr_val _).bind fun _ _ => ?_
  split
  · exact .pure trivial
  · exact (fr_new _).bind fun _ _ => .pure trivial
theorem fr_deref {α : Type} {n : Nat} (o : Option α) : Fr n (deref o) (fun _ => True) := by
  cases o with
  | none => exact Fr.lift'
  | some a => exact .pure trivial
theorem fr_scalarMult {n : Nat} (c : CurveRefs) (x y : Ref) (k : Bytes) : Fr n (scalarMult c x y k) (fun r => n ≤ r.1 ∧ n ≤ r.2) :=
  (fr_val _).bind fun _ _ => (fr_val _).bind fun _ _ => (fr_val _).bind fun _ _ => (fr_new _).bind fun _ h1 => (fr_new _).bind fun _ h2 => .pure ⟨h1, h2⟩
theorem fr_baseMult {n : Nat} (c : CurveRefs) (k : Bytes) : Fr n (scalarBaseMult c k) (fun r => n ≤ r.1 ∧ n ≤ r.2) := fr_scalarMult _ _ _ _
theorem fr_curveAdd {n : Nat} (c : CurveRefs) (x1 y1 x2 y2 : Ref) : Fr n (curveAdd c x1 y1 x2 y2) (fun r => n ≤ r.1 ∧ n ≤ r.2) :=
  (fr_val _).bind fun _ _ => (fr_val _).bind fun _ _ => (fr_val _).bind fun _ _ => (fr_val _).bind fun _ _ => (fr_val _).bind fun _ _ =>
    (fr_new _).bind fun _ h1 => (fr_new _).bind fun _ h2 => .pure ⟨h1, h2⟩
theorem fr_isOnCurve {n : Nat} (c : CurveRefs) (x y : Ref) : Fr n (isOnCurve c x y) (fun _ => True) :=
  (fr_val _).bind fun _ _ => (fr_val _).bind fun _ _ => (fr_val _).bind fun _ _ => (fr_val _).bind fun _ _ => .pure trivial

theorem fr_pubEqual {n : Nat} (a b : PubRef) : Fr n (a.equal b) (fun _ => True) :=
  (fr_val _).bind fun _ _ => (fr_val _).bind fun _ _ => Fr.ite (.pure trivial) ((fr_val _).bind fun _ _ => (fr_val _).bind fun _ _ => .pure trivial)
theorem fr_privEqual {n : Nat} (a b : PrivRef) : Fr n (a.equal b) (fun _ => True) :=
  (fr_pubEqual _ _).bind fun _ _ => Fr.ite (.pure trivial) ((fr_val _).bind fun _ _ => (fr_val _).bind fun _ _ => .pure trivial)

/-- A new key has integers of its own. -/
theorem fr_generateKey {n : Nat} (g : Globals) (rd : Reader) :
    Fr n (generateKey g rd) (fun r => n ≤ r.1.d ∧ n ≤ r.1.pub.x ∧ n ≤ r.1.pub.y) :=
  Fr.lift'.bind fun _ _ => (fr_baseMult _ _).bind fun _ h => (fr_new _).bind fun _ hd => .pure ⟨hd, h.1, h.2⟩

theorem fr_sm3Digest {n : Nat} (g : Globals) (pub : PubRef) (msg uid : Bytes) : Fr n (sm3Digest g pub msg uid) (fun _ => True) :=
  (fr_val _).bind fun _ _ => (fr_val _).bind fun _ _ => (fr_val _).bind fun _ _ => (fr_val _).bind fun _ _ => (fr_val _).bind fun _ _ =>
    (fr_val _).bind fun _ _ => .pure trivial

theorem fr_unmarshalSign {n : Nat} (sig : Bytes) : Fr n (unmarshalSign sig) (fun r => n ≤ r.1 ∧ n ≤ r.2) :=
  (fr_new _).bind fun _ h1 => (fr_new _).bind fun _ h2 => Fr.lift'.bind fun _ _ => (fr_put _ h1).bind fun _ _ => (fr_put _ h2).bind fun _ _ =>
    .pure ⟨h1, h2⟩

theorem fr_marshalSign {n : Nat} (r s : Ref) : Fr n (marshalSign r s) (fun _ => True) :=
  (fr_val _).bind fun _ _ => (fr_val _).bind fun _ _ => Fr.lift'

theorem fr_nextk {n : Nat} (g : Globals) (c : CurveRefs) (rd : Reader) : Fr n (nextk g c rd) (fun r => n ≤ r.1) :=
  Fr.lift'.bind fun _ _ => (fr_new _).bind fun _ hk => (fr_new _).bind fun _ hn => (fr_sub _ _ hn).bind fun _ _ => (fr_mod _ _ hk).bind fun _ _ =>
    (fr_add _ _ hk).bind fun _ _ => .pure hk

theorem fr_signInner {n : Nat} (g : Globals) (c : CurveRefs) (e : Ref) : ∀ (fuel : Nat) (rd : Reader),
    Fr n (signInner g c e fuel rd) (fun r => n ≤ r.1 ∧ n ≤ r.2.1) := by
  intro fuel
  induction fuel with
  | zero => intro rd; exact Fr.lift fun a h => by cases h
  | succ fuel ih =>
    intro rd
    exact (fr_nextk _ _ _).bind fun k hk => (fr_bytes _).bind fun _ _ => (fr_baseMult _ _).bind fun r hr => (fr_add _ _ hr.1).bind fun _ _ =>
      (fr_mod _ _ hr.1).bind fun _ _ => (fr_val _).bind fun _ _ => Fr.ite (ih _) ((fr_new _).bind fun _ ht => (fr_add _ _ ht).bind fun _ _ =>
        (fr_val _).bind fun _ _ => (fr_val _).bind fun _ _ => Fr.ite (ih _) (.pure ⟨hr.1, hk⟩))

theorem fr_signOuter {n : Nat} (g : Globals) (priv : PrivRef) (e : Ref) : ∀ (fuel : Nat) (rd : Reader),
    Fr n (signOuter g priv e fuel rd) (fun r => n ≤ r.1 ∧ n ≤ r.2.1) := by
  intro fuel
  induction fuel with
  | zero => intro rd; exact Fr.lift fun a h => by cases h
  | succ fuel ih =>
    intro rd
    exact (fr_signInner _ _ _ _ _).bind fun r hr => (fr_new _).bind fun _ h1 => (fr_mul _ _ h1).bind fun _ _ => (fr_new _).bind fun _ hs =>
      (fr_sub _ _ hs).bind fun _ _ => (fr_new _).bind fun _ h2 => (fr_add _ _ h2).bind fun _ _ => (fr_inv _ _).bind fun _ _ =>
        (fr_deref _).bind fun _ _ => (fr_mul _ _ hs).bind fun _ _ => (fr_mod _ _ hs).bind fun _ _ => (fr_val _).bind fun _ _ =>
          Fr.ite (ih _) (.pure ⟨hr.1, hs⟩)

theorem fr_signDigestRS {n : Nat} (g : Globals) (rd : Reader) (priv : PrivRef) (digest : Bytes) :
    Fr n (signDigestRS g rd priv digest) (fun r => n ≤ r.1 ∧ n ≤ r.2.1) :=
  (fr_new _).bind fun _ _ => (fr_val _).bind fun _ _ => Fr.ite (Fr.lift fun a h => by cases h) (fr_signOuter _ _ _ _ _)

theorem fr_signRS {n : Nat} (g : Globals) (rd : Reader) (priv : PrivRef) (inp uid : Bytes) :
    Fr n (signRS g rd priv inp uid) (fun r => n ≤ r.1 ∧ n ≤ r.2.1) :=
  (fr_sm3Digest _ _ _ _).bind fun _ _ => fr_signDigestRS _ _ _ _

theorem fr_sign {n : Nat} (g : Globals) (rd : Reader) (priv : PrivRef) (inp uid : Bytes) : Fr n (sign g rd priv inp uid) (fun _ => True) :=
  (fr_signRS _ _ _ _ _).bind fun _ _ => fr_marshalSign _ _

theorem fr_signDigest {n : Nat} (g : Globals) (rd : Reader) (priv : PrivRef) (digest : Bytes) : Fr n (signDigest g rd priv digest) (fun _ => True) :=
  (fr_signDigestRS _ _ _ _).bind fun _ _ => fr_marshalSign _ _

theorem fr_outOfRange {n : Nat} (g : Globals) (c : CurveRefs) (r : Ref) : Fr n (outOfRange g c r) (fun _ => True) :=
  (fr_val _).bind fun _ _ => (fr_val _).bind fun _ _ => Fr.ite (.pure trivial) ((fr_val _).bind fun _ _ => .pure trivial)

theorem fr_verifyTail {n : Nat} (pub : PubRef) (hash : Bytes) (r s : Ref) : Fr n (verifyTail pub hash r s) (fun _ => True) :=
  (fr_new _).bind fun _ _ => (fr_new _).bind fun _ ht => (fr_add _ _ ht).bind fun _ _ => (fr_mod _ _ ht).bind fun _ _ => (fr_val _).bind fun _ _ =>
    Fr.ite (.pure trivial) ((fr_bytes _).bind fun _ _ => (fr_baseMult _ _).bind fun _ _ => (fr_bytes _).bind fun _ _ => (fr_scalarMult _ _ _ _).bind fun _ _ =>
      (fr_curveAdd _ _ _ _ _).bind fun _ hx => (fr_val _).bind fun _ _ => (fr_val _).bind fun _ _ => Fr.ite (.pure trivial)
        ((fr_add _ _ hx.1).bind fun _ _ => (fr_mod _ _ hx.1).bind fun _ _ => (fr_val _).bind fun _ _ => (fr_val _).bind fun _ _ => .pure trivial))

theorem fr_verifyRS {n : Nat} (g : Globals) (pub : PubRef) (inp uid : Bytes) (r s : Ref) : Fr n (verifyRS g pub inp uid r s) (fun _ => True) :=
  (fr_outOfRange _ _ _).bind fun _ _ => Fr.ite (.pure trivial) ((fr_outOfRange _ _ _).bind fun _ _ => Fr.ite (.pure trivial)
    ((fr_sm3Digest _ _ _ _).bind fun _ _ => fr_verifyTail _ _ _ _))

theorem fr_verifyDigestRS {n : Nat} (g : Globals) (pub : PubRef) (digest : Bytes) (r s : Ref) : Fr n (verifyDigestRS g pub digest r s) (fun _ => True) :=
  (fr_outOfRange _ _ _).bind fun _ _ => Fr.ite (.pure trivial) ((fr_outOfRange _ _ _).bind fun _ _ => Fr.ite (.pure trivial) (fr_verifyTail _ _ _ _))

theorem fr_encrytLoop {n : Nat} (g : Globals) (pub : PubRef) (msg : Bytes) : ∀ (fuel : Nat) (rd : Reader),
    Fr n (encrytLoop g pub msg fuel rd) (fun _ => True) := by
  intro fuel
  induction fuel with
  | zero => intro rd; exact Fr.lift'
  | succ fuel ih =>
    intro rd
    refine (fr_nextk _ _ _).bind fun k hk => (fr_bytes _).bind fun _ _ => (fr_baseMult _ _).bind fun _ _ => (fr_bytes _).bind fun _ _ =>
      (fr_bytes _).bind fun _ _ => (fr_scalarMult _ _ _ _).bind fun _ _ => (fr_bytes _).bind fun _ _ => (fr_bytes _).bind fun _ _ =>
        (fr_val _).bind fun _ _ => (fr_val _).bind fun _ _ => ?_
    split
    · exact ih _
    · exact Fr.lift'.bind fun _ _ => .pure trivial

theorem fr_decryt {n : Nat} (g : Globals) (priv : PrivRef) (data tail : Bytes) : Fr n (decryt g priv data tail) (fun _ => True) := by
  refine Fr.ite Fr.lift' (Fr.lift'.bind fun _ _ => (fr_new _).bind fun _ _ => Fr.lift'.bind fun _ _ => (fr_new _).bind fun _ _ =>
    (fr_val _).bind fun _ _ => (fr_val _).bind fun _ _ => (fr_val _).bind fun _ _ => Fr.ite (.pure trivial) ((fr_isOnCurve _ _ _).bind fun _ _ =>
      Fr.ite (.pure trivial) ((fr_bytes _).bind fun _ _ => (fr_scalarMult _ _ _ _).bind fun _ _ => (fr_val _).bind fun _ _ => (fr_val _).bind fun _ _ =>
        Fr.ite (.pure trivial) ((fr_bytes _).bind fun _ _ => (fr_scalarMult _ _ _ _).bind fun _ _ => (fr_val _).bind fun _ _ =>
          (fr_val _).bind fun _ _ => ?_))))
  split
  · exact .pure trivial
  · exact Fr.lift'.bind fun _ _ => (fr_bytes _).bind fun _ _ => (fr_bytes _).bind fun _ _ => Fr.lift'.bind fun _ _ =>
      Fr.ite (.pure trivial) (.pure trivial)

theorem fr_unmarshalOr {n : Nat} (sig : Bytes) : Fr n (unmarshalOr sig) (fun _ => True) := by
  refine (fr_new _).bind fun _ h1 => (fr_new _).bind fun _ h2 => ?_
  split
  · exact (fr_put _ h1).bind fun _ _ => (fr_put _ h2).bind fun _ _ => .pure trivial
  · exact .pure trivial

theorem fr_verify {n : Nat} (g : Globals) (pub : PubRef) (inp uid sig : Bytes) : Fr n (verify g pub inp uid sig) (fun _ => True) := by
  refine (fr_unmarshalOr _).bind fun o _ => ?_
  cases o with
  | none => exact .pure trivial
  | some p => exact fr_verifyRS _ _ _ _ _ _

theorem fr_verifyDigest {n : Nat} (g : Globals) (pub : PubRef) (digest sig : Bytes) : Fr n (verifyDigest g pub digest sig) (fun _ => True) := by
  refine (fr_unmarshalOr _).bind fun o _ => ?_
  cases o with
  | none => exact .pure trivial
  | some p => exact fr_verifyDigestRS _ _ _ _ _

/-- A call assigns only to integers that it has allocated, and the integers it returns are among them. -/
theorem fr_call {n : Nat} (g : Globals) (c : SmCall) : Fr n (c.prog g) (fun o => ∀ p ∈ o.refs, n ≤ p) := by
  have e : ∀ {p : Ref}, p ∈ ([] : List Ref) → n ≤ p := fun h => by cases h
  cases c with
  | generateKey rd =>
    refine (fr_generateKey g rd).bind fun r h => .pure fun p hp => ?_
    simp only [Out.refs, List.mem_cons, List.not_mem_nil, or_false] at hp
    rcases hp with rfl | rfl | rfl
    exacts [h.1, h.2.1, h.2.2]
  | signRS rd priv inp uid =>
    refine (fr_signRS g rd priv inp uid).bind fun r h => .pure fun p hp => ?_
    simp only [Out.refs, List.mem_cons, List.not_mem_nil, or_false] at hp
    rcases hp with rfl | rfl
    exacts [h.1, h.2]
  | signDigestRS rd priv digest =>
    refine (fr_signDigestRS g rd priv digest).bind fun r h => .pure fun p hp => ?_
    simp only [Out.refs, List.mem_cons, List.not_mem_nil, or_false] at hp
    rcases hp with rfl | rfl
    exacts [h.1, h.2]
  | sign rd priv inp uid => exact (fr_sign g rd priv inp uid).bind fun _ _ => .pure fun _ => e
  | signDigest rd priv digest => exact (fr_signDigest g rd priv digest).bind fun _ _ => .pure fun _ => e
  | sm3Digest pub msg uid => exact (fr_sm3Digest g pub msg uid).bind fun _ _ => .pure fun _ => e
  | verify pub inp uid sig => exact (fr_verify g pub inp uid sig).bind fun _ _ => .pure fun _ => e
  | verifyRS pub inp uid r s => exact (fr_verifyRS g pub inp uid r s).bind fun _ _ => .pure fun _ => e
  | verifyDigest pub digest sig => exact (fr_verifyDigest g pub digest sig).bind fun _ _ => .pure fun _ => e
  | verifyDigestRS pub digest r s => exact (fr_verifyDigestRS g pub digest r s).bind fun _ _ => .pure fun _ => e
  | marshalSign r s => exact (fr_marshalSign r s).bind fun _ _ => .pure fun _ => e
  | unmarshalSign sig =>
    refine (fr_unmarshalSign sig).bind fun r h => .pure fun p hp => ?_
    simp only [Out.refs, List.mem_cons, List.not_mem_nil, or_false] at hp
    rcases hp with rfl | rfl
    exacts [h.1, h.2]
  | encryt rd pub msg => exact (fr_encrytLoop g pub msg _ _).bind fun _ _ => .pure fun _ => e
  | decryt priv data tail => exact (fr_decryt g priv data tail).bind fun _ _ => .pure fun _ => e
  | equalPub a b => exact (fr_pubEqual a b).bind fun _ _ => .pure fun _ => e
  | equalPriv a b => exact (fr_privEqual a b).bind fun _ _ => .pure fun _ => e

end MCrypto.Sm2Mem
