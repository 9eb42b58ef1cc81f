import Verif.Sm2.IntsFrame
/-
The results of the functions of Sm2/Ints are those of Sm2/Model on the values of the integers.
-/
namespace MCrypto.Sm2Mem
open MCrypto MCrypto.Curve

attribute [local irreducible] Sm2.baseMult Curve.scalarMult Curve.add Curve.isOnCurve Sm2.kdf

theorem digestOf_eq (v : Sm2.PublicKey) (msg uid : Bytes) :
    v.sm3Digest msg uid = digestOf A B G.1 G.2 v.x v.y (if uid.length = 0 then Sm2.defaultUid else uid) msg := by
  unfold digestOf Sm2.PublicKey.sm3Digest Sm2.z
  rfl

theorem zDigest_eval (g : Globals) (x y : Ref) (uid msg : Bytes) (m : Ints) : zDigest g x y uid msg m =
    (m, .ok (digestOf (m.get g.curve.a).natAbs (m.get g.curve.b).natAbs (m.get g.curve.gx).natAbs (m.get g.curve.gy).natAbs (m.get x).natAbs
      (m.get y).natAbs uid msg)) := by
  unfold zDigest
  generalize digestOf = f
  rfl

theorem sm3Digest_run {m : Ints} {g : Globals} (hi : Intact m g) {pub : PubRef} {v : Sm2.PublicKey} (hp : pub.Holds m g v) (msg uid : Bytes) :
    sm3Digest g pub msg uid m = (m, .ok (v.sm3Digest msg uid)) := by
  unfold sm3Digest
  rw [zDigest_eval, digestOf_eq, hi.a.2, hi.b.2, hi.gx.2, hi.gy.2, hp.x.2, hp.y.2]
  rw [Int.natAbs_natCast, Int.natAbs_natCast, Int.natAbs_natCast, Int.natAbs_natCast, Int.natAbs_natCast, Int.natAbs_natCast]

theorem signDigestRS_run {m : Ints} {g : Globals} (hi : Intact m g) {priv : PrivRef} {v : Sm2.PrivateKey} (hp : priv.Holds m g v) (rd : Reader) (digest : Bytes) :
    SignOut m (signDigestRS g rd priv digest m) (Sm2.signOuter v.d (ofBytes digest) rd) := by
  have hN : (N : Int) ≠ 0 := by have := one_lt_N; omega
  unfold signDigestRS
  simp only [bind_run, new_run, val_run]
  rw [hp.pub.curve.1, get_old hi.n.1, hi.n.2, if_neg hN]
  exact (signOuter_run _ rd (Nat.lt_succ_self _) _ (hi.ext _) (hp.ext _) (by simp) (by rw [get_new0]; rfl)).mono

theorem signRS_run {m : Ints} {g : Globals} (hi : Intact m g) {priv : PrivRef} {v : Sm2.PrivateKey} (hp : priv.Holds m g v) (rd : Reader) (inp uid : Bytes) :
    SignOut m (signRS g rd priv inp uid m) (Sm2.signOuter v.d (ofBytes (v.pub.sm3Digest inp uid)) rd) := by
  unfold signRS
  rw [bind_run, sm3Digest_run hi hp.pub]
  exact signDigestRS_run hi hp rd _

/-- The encoded signature. -/
def encoded : Res (Nat × Nat × Reader) → Res Bytes
  | .ok (r, s, _) => Sm2.marshalSign r s
  | .err e => .err e
  | .panic => .panic

theorem marshal_out {m : Ints} {x : M (Ref × Ref × Reader)} {v : Res (Nat × Nat × Reader)} (h : SignOut m (x m) v) :
    ((x >>= fun p => marshalSign p.1 p.2.1) m).2 = encoded v := by
  obtain ⟨l, h1, h2⟩ := h
  rw [bind_run]
  generalize x m = y at *
  obtain ⟨m', r⟩ := y
  simp only [] at h1 h2
  subst h1
  split at h2
  · obtain ⟨pa, pb, rfl, ⟨-, -, a3⟩, ⟨-, -, b3⟩, -⟩ := h2
    simp only [marshalSign, bind_run, val_run, lift_run, a3, b3, encoded]
  · subst h2; rfl
  · subst h2; rfl

theorem sign_run {m : Ints} {g : Globals} (hi : Intact m g) {priv : PrivRef} {v : Sm2.PrivateKey} (hp : priv.Holds m g v) (rd : Reader) (inp uid : Bytes) :
    (sign g rd priv inp uid m).2 = Sm2.sign rd v inp uid := by
  refine (marshal_out (signRS_run hi hp rd inp uid)).trans ?_
  unfold Sm2.sign Sm2.signRS Sm2.signDigestRS
  dsimp only
  cases Sm2.signOuter v.d (ofBytes (v.pub.sm3Digest inp uid)) rd with
  | ok x => rfl
  | err e => rfl
  | panic => rfl

theorem signDigest_run {m : Ints} {g : Globals} (hi : Intact m g) {priv : PrivRef} {v : Sm2.PrivateKey} (hp : priv.Holds m g v) (rd : Reader) (digest : Bytes) :
    (signDigest g rd priv digest m).2 = Sm2.signDigest rd v digest := by
  refine (marshal_out (signDigestRS_run hi hp rd digest)).trans ?_
  unfold Sm2.signDigest Sm2.signDigestRS
  cases Sm2.signOuter v.d (ofBytes digest) rd with
  | ok x => rfl
  | err e => rfl
  | panic => rfl

theorem outOfRange_run {m : Ints} {g : Globals} (hi : Intact m g) (r : Ref) :
    outOfRange g g.curve r m = (m, .ok (decide (m.get r < 1 ∨ m.get r ≥ (N : Int)))) := by
  unfold outOfRange
  simp only [bind_run, val_run, hi.one.2, hi.n.2]
  by_cases h : m.get r < 1
  · rw [if_pos h, pure_run, decide_eq_true (Or.inl h)]
  · rw [if_neg h]
    simp only [bind_run, val_run, pure_run, hi.n.2, h, false_or]

theorem verifyTail_run {m : Ints} {g : Globals} (hi : Intact m g) {pub : PubRef} {v : Sm2.PublicKey} (hp : pub.Holds m g v) (hash : Bytes) {r s : Ref}
    (hr : r < m.length) (hs : s < m.length) (hs0 : 0 ≤ m.get s) :
    (verifyTail pub hash r s m).2 = .ok (if (m.get r + m.get s) % (N : Int) = 0 then false
      else
        let q := Curve.add P (Sm2.baseMult (toBytes (m.get s).natAbs)) (Curve.scalarMult P (v.x, v.y) (toBytes ((m.get r + m.get s) % (N : Int)).natAbs))
        if q.1 = 0 ∨ q.2 = 0 then false else decide ((((q.1 + ofBytes hash) % N : Nat) : Int) = m.get r)) := by
  have hN : (N : Int) ≠ 0 := by have := one_lt_N; omega
  unfold verifyTail
  rw [hp.curve.1]
  simp only [bind_run, new_run, add_run, List.append_assoc, List.length_append, List.length_cons, List.length_nil, List.cons_append, List.nil_append,
    get_old hr, get_old hs, set_new, List.set_cons_zero, List.set_cons_succ, Nat.zero_add]
  rw [mod_run _ _ _ _ (by rw [get_old hi.n.1, hi.n.2]; exact hN)]
  simp only [get_old hi.n.1, hi.n.2, get_new, set_new, List.getD_cons_zero, List.getD_cons_succ, List.set_cons_zero, List.set_cons_succ, val_run]
  by_cases h0 : (m.get r + m.get s) % (N : Int) = 0
  · rw [if_pos h0, if_pos h0, pure_run]
  · rw [if_neg h0, if_neg h0]
    simp only [bind_run, bytes_run, get_old hs]
    rw [scalarBaseMult_run (hi.ext _)]
    generalize hq1 : Sm2.baseMult (toBytes (m.get s).natAbs) = q1
    simp only [List.append_assoc, List.length_append, List.length_cons, List.length_nil, List.cons_append, List.nil_append, get_new, get_old hs,
      List.getD_cons_zero, List.getD_cons_succ]
    rw [scalarMult_run (hi.ext _) (a := v.x) (b := v.y) (by rw [get_old hp.x.1]; exact hp.x.2) (by rw [get_old hp.y.1]; exact hp.y.2)]
    generalize hq2 : Curve.scalarMult P (v.x, v.y) (toBytes ((m.get r + m.get s) % (N : Int)).natAbs) = q2
    simp only [List.append_assoc, List.length_append, List.length_cons, List.length_nil, List.cons_append, List.nil_append]
    rw [curveAdd_run (hi.ext _) (a1 := q1.1) (b1 := q1.2) (a2 := q2.1) (b2 := q2.2) (by rw [get_new]; rfl)
      (by rw [Nat.add_assoc, get_new]; rfl) (by rw [get_new]; rfl) (by rw [Nat.add_assoc, get_new]; rfl)]
    generalize hq : Curve.add P (q1.1, q1.2) (q2.1, q2.2) = q
    simp only [List.append_assoc, List.length_append, List.length_cons, List.length_nil, List.cons_append, List.nil_append]
    simp only [val_run, get_new, Nat.add_assoc, Nat.reduceAdd, List.getD_cons_zero, List.getD_cons_succ]
    by_cases hz : q.1 = 0 ∨ q.2 = 0
    · rw [if_pos (by rcases hz with h | h <;> simp [h]), if_pos hz, pure_run]
    · rw [if_neg (by simpa using hz), if_neg hz]
      simp only [bind_run, add_run, get_new, get_new0, set_new, List.getD_cons_zero, List.getD_cons_succ, List.set_cons_zero, List.set_cons_succ, val_run]
      rw [mod_run _ _ _ _ (by rw [get_old hi.n.1, hi.n.2]; exact hN)]
      simp only [get_old hi.n.1, hi.n.2, get_old hr, get_new, set_new, List.getD_cons_zero, List.getD_cons_succ, List.set_cons_zero, List.set_cons_succ, pure_run]
      rw [Int.natCast_mod, Nat.cast_add]

theorem verifyRS_run {m : Ints} {g : Globals} (hi : Intact m g) {pub : PubRef} {v : Sm2.PublicKey} (hp : pub.Holds m g v) (inp uid : Bytes) {r s : Ref}
    (hr : r < m.length) (hs : s < m.length) :
    (verifyRS g pub inp uid r s m).2 = .ok (Sm2.verifyRS v inp uid (m.get r) (m.get s)) := by
  unfold verifyRS Sm2.verifyRS
  rw [hp.curve.1]
  simp only [bind_run, outOfRange_run hi]
  by_cases h1 : m.get r < 1 ∨ m.get r ≥ (N : Int)
  · rw [if_pos (decide_eq_true h1), if_pos h1, pure_run]
  · rw [if_neg (by rw [decide_eq_false h1]; decide), if_neg h1]
    simp only [bind_run, outOfRange_run hi]
    by_cases h2 : m.get s < 1 ∨ m.get s ≥ (N : Int)
    · rw [if_pos (decide_eq_true h2), if_pos h2, pure_run]
    · rw [if_neg (by rw [decide_eq_false h2]; decide), if_neg h2]
      simp only [bind_run, sm3Digest_run hi hp]
      exact verifyTail_run hi hp _ hr hs (by omega)

theorem verifyDigestRS_run {m : Ints} {g : Globals} (hi : Intact m g) {pub : PubRef} {v : Sm2.PublicKey} (hp : pub.Holds m g v) (digest : Bytes) {r s : Ref}
    (hr : r < m.length) (hs : s < m.length) :
    (verifyDigestRS g pub digest r s m).2 = .ok (Sm2.verifyDigestRS v digest (m.get r) (m.get s)) := by
  unfold verifyDigestRS Sm2.verifyDigestRS
  rw [hp.curve.1]
  simp only [bind_run, outOfRange_run hi]
  by_cases h1 : m.get r < 1 ∨ m.get r ≥ (N : Int)
  · rw [if_pos (decide_eq_true h1), if_pos h1, pure_run]
  · rw [if_neg (by rw [decide_eq_false h1]; decide), if_neg h1]
    simp only [bind_run, outOfRange_run hi]
    by_cases h2 : m.get s < 1 ∨ m.get s ≥ (N : Int)
    · rw [if_pos (decide_eq_true h2), if_pos h2, pure_run]
    · rw [if_neg (by rw [decide_eq_false h2]; decide), if_neg h2]
      exact verifyTail_run hi hp _ hr hs (by omega)

theorem generateKey_run {m : Ints} {g : Globals} (hi : Intact m g) (rd : Reader) : match Sm2.generateKey rd with
    | .ok (v, rd') => ∃ l priv, generateKey g rd m = (m ++ l, .ok (priv, rd')) ∧ priv.Holds (m ++ l) g v ∧
        priv.pub.x ≠ priv.pub.y ∧ priv.pub.x ≠ priv.d ∧ priv.pub.y ≠ priv.d
    | .err e => generateKey g rd m = (m, .err e)
    | .panic => generateKey g rd m = (m, .panic) := by
  unfold generateKey Sm2.generateKey
  cases hg : Sm2.genLoop rd with
  | ok x =>
    obtain ⟨d, rd'⟩ := x
    simp only [bind_run, lift_run]
    rw [scalarBaseMult_run hi]
    generalize Sm2.baseMult d = q
    simp only [new_run, pure_run, List.append_assoc, List.length_append, List.length_cons, List.length_nil, List.cons_append, List.nil_append]
    refine ⟨_, _, rfl, ⟨⟨⟨rfl, rfl⟩, ⟨?_, ?_⟩, ⟨?_, ?_⟩⟩, ?_, ?_⟩, ?_, ?_, ?_⟩
    · simp
    · exact get_new0 _ _
    · simp
    · exact get_new _ _ _
    · simp
    · exact get_new _ _ _
    · dsimp only; omega
    · dsimp only; omega
    · dsimp only; omega
  | err e => simp only [bind_run, lift_run]
  | panic => simp only [bind_run, lift_run]

theorem encryt_run {g : Globals} {pub : PubRef} {v : Sm2.PublicKey} (msg : Bytes) : ∀ (fuel : Nat) (rd : Reader), rd.length < fuel → ∀ m : Ints, Intact m g →
    pub.Holds m g v → (encrytLoop g pub msg fuel rd m).2 = Sm2.encryt rd v msg := by
  intro fuel
  induction fuel with
  | zero => intro rd h; exact absurd h (Nat.not_lt_zero _)
  | succ fuel ih =>
    intro rd hlt m hi hp
    have hk := nextk_run hi rd
    unfold encrytLoop
    rw [Sm2.encryt, hp.curve.1]
    split
    · rename_i k rd' hn
      rw [hn] at hk
      have hshort := Sm2.nextk_lt hn
      simp only [] at hk
      rw [bind_run, hk]
      simp only [bind_run, bytes_run, get_new0, List.getD_cons_zero, Int.natAbs_natCast]
      rw [scalarBaseMult_run (hi.ext _)]
      generalize hq : Sm2.baseMult (toBytes k) = q
      simp only [List.append_assoc, List.length_append, List.length_cons, List.length_nil, List.cons_append, List.nil_append, get_new, Nat.add_assoc,
        List.getD_cons_zero, List.getD_cons_succ, Int.natAbs_natCast]
      rw [scalarMult_run (hi.ext _) (a := v.x) (b := v.y) (by rw [get_old hp.x.1]; exact hp.x.2) (by rw [get_old hp.y.1]; exact hp.y.2)]
      generalize hq2 : Curve.scalarMult P (v.x, v.y) (toBytes k) = q2
      simp only [List.append_assoc, List.length_append, List.length_cons, List.length_nil, List.cons_append, List.nil_append, get_new, Nat.add_assoc,
        List.getD_cons_zero, List.getD_cons_succ, Int.natAbs_natCast, val_run]
      cases hkdf : Sm2.kdf (msg.length : Int) q2.1 q2.2 with
      | none =>
        simp only []
        exact ih rd' (by omega) _ (hi.ext _) (hp.ext _)
      | some t =>
        simp only [bind_run, lift_run]
        generalize Sm2.xorInto _ 96 msg = z
        cases z <;> rfl
    · rename_i er hn
      rw [hn] at hk
      simp only [] at hk
      rw [bind_run, hk]
    · rename_i hn
      rw [hn] at hk
      simp only [] at hk
      rw [bind_run, hk]

theorem isOnCurve_run {m : Ints} {g : Globals} (hi : Intact m g) {x y : Ref} {a b : Nat} (hx : m.get x = a) (hy : m.get y = b) :
    isOnCurve g.curve x y m = (m, .ok (Curve.isOnCurve P B (a, b))) := by
  have e : isOnCurve g.curve x y m =
      (m, .ok (Curve.isOnCurve (m.get g.curve.p).toNat (m.get g.curve.b).toNat ((m.get x).toNat, (m.get y).toNat))) := by
    unfold isOnCurve
    generalize Curve.isOnCurve = f
    rfl
  rw [e, hi.p.2, hi.b.2, hx, hy, Int.toNat_natCast, Int.toNat_natCast, Int.toNat_natCast, Int.toNat_natCast]

theorem decryt_run {m : Ints} {g : Globals} (hi : Intact m g) {priv : PrivRef} {v : Sm2.PrivateKey} (hp : priv.Holds m g v) (data tail : Bytes) :
    (decryt g priv data tail m).2 = Sm2.decryt v data tail := by
  unfold decryt Sm2.decryt
  by_cases h1 : data.length < 1
  · rw [if_pos h1, if_pos h1, lift_run]
  rw [if_neg h1, if_neg h1]
  dsimp only
  rw [hp.pub.curve.1]
  cases Sm2.sliceCap (data.drop 1) tail 0 32 with
  | err e => simp only [bind_run, lift_run]
  | panic => simp only [bind_run, lift_run]
  | ok b1 =>
    cases Sm2.sliceCap (data.drop 1) tail 32 64 with
    | err e => simp only [bind_run, lift_run, new_run]
    | panic => simp only [bind_run, lift_run, new_run]
    | ok b2 =>
      simp only [bind_run, lift_run, new_run, val_run, List.append_assoc, List.length_append, List.length_cons, List.length_nil, List.cons_append,
        List.nil_append, get_new, get_new0, get_old hi.p.1, hi.p.2, List.getD_cons_zero, List.getD_cons_succ]
      by_cases h2 : ofBytes b1 ≥ P ∨ ofBytes b2 ≥ P
      · rw [if_pos (by rcases h2 with h | h; exact .inl (by exact_mod_cast h); exact .inr (by exact_mod_cast h)), if_pos h2, pure_run]
      rw [if_neg (fun h => h2 (by rcases h with h | h; exact .inl (by exact_mod_cast h); exact .inr (by exact_mod_cast h))), if_neg h2]
      rw [bind_run, isOnCurve_run (hi.ext _) (a := ofBytes b1) (b := ofBytes b2) (get_new0 _ _) (get_new _ _ _)]
      simp only []
      by_cases h3 : Curve.isOnCurve P B (ofBytes b1, ofBytes b2) = false
      · rw [if_pos h3, if_pos h3, pure_run]
      rw [if_neg h3, if_neg h3]
      simp only [bind_run, bytes_run, get_old hi.one.1, hi.one.2]
      rw [scalarMult_run (hi.ext _) (a := ofBytes b1) (b := ofBytes b2) (get_new0 _ _) (get_new _ _ _)]
      rw [show (1 : Int).natAbs = 1 from rfl]
      generalize Curve.scalarMult P (ofBytes b1, ofBytes b2) (toBytes 1) = q1
      simp only [List.append_assoc, List.length_append, List.length_cons, List.length_nil, List.cons_append, List.nil_append]
      simp only [val_run, get_new, Nat.add_assoc, Nat.reduceAdd, List.getD_cons_zero, List.getD_cons_succ]
      by_cases h4 : q1.1 = 0 ∧ q1.2 = 0
      · rw [if_pos (by rw [h4.1, h4.2]; exact ⟨rfl, rfl⟩), if_pos h4, pure_run]
      rw [if_neg (fun h => h4 ⟨Int.natCast_eq_zero.mp h.1, Int.natCast_eq_zero.mp h.2⟩), if_neg h4]
      simp only [bind_run, bytes_run, get_old hp.d.1, hp.d.2, Int.natAbs_natCast]
      rw [scalarMult_run (hi.ext _) (a := ofBytes b1) (b := ofBytes b2) (get_new0 _ _) (get_new _ _ _)]
      generalize Curve.scalarMult P (ofBytes b1, ofBytes b2) (toBytes v.d) = q2
      simp only [List.append_assoc, List.length_append, List.length_cons, List.length_nil, List.cons_append, List.nil_append]
      simp only [val_run, get_new, Nat.add_assoc, Nat.reduceAdd, List.getD_cons_zero, List.getD_cons_succ, Int.natAbs_natCast]
      cases Sm2.kdf (((data.drop 1).length : Int) - 96) q2.1 q2.2 with
      | none => rfl
      | some t =>
        simp only [bind_run, lift_run]
        cases Sm2.xorInto t 0 ((data.drop 1).drop 96) with
        | err e => rfl
        | panic => rfl
        | ok pt =>
          simp only [bytes_run, get_new, List.getD_cons_zero, List.getD_cons_succ, Int.natAbs_natCast]
          generalize Sm3.sum _ = hash
          cases Sm2.sliceCap (data.drop 1) tail 64 96 with
          | err e => rfl
          | panic => rfl
          | ok h3 =>
            simp only []
            split <;> rfl

theorem pubEqual_run {m : Ints} {g : Globals} {pub xx : PubRef} {v w : Sm2.PublicKey} (hp : pub.Holds m g v) (hx : xx.Holds m g w) :
    pub.equal xx m = (m, .ok (v.equal (.sm2pub w))) := by
  unfold PubRef.equal Sm2.PublicKey.equal
  simp only [bind_run, val_run, hp.x.2, hx.x.2]
  by_cases h : v.x = w.x
  · rw [if_neg (fun k => k (by rw [h]))]
    simp only [bind_run, val_run, pure_run, hp.y.2, hx.y.2, hp.curve.1, hp.curve.2, hx.curve.1, hx.curve.2, Nat.cast_inj, h, decide_true, Bool.true_and, Bool.and_true]
  · rw [if_pos (fun k => h (Nat.cast_inj.mp k)), pure_run, decide_eq_false h]
    rfl

theorem privEqual_run {m : Ints} {g : Globals} {priv xx : PrivRef} {v w : Sm2.PrivateKey} (hp : priv.Holds m g v) (hx : xx.Holds m g w) :
    priv.equal xx m = (m, .ok (v.equal (.sm2priv w))) := by
  unfold PrivRef.equal Sm2.PrivateKey.equal
  rw [bind_run, pubEqual_run hp.pub hx.pub]
  simp only []
  cases v.pub.equal (.sm2pub w.pub) with
  | false => rfl
  | true =>
    simp only [bind_run, val_run, pure_run, hp.d.2, hx.d.2, Nat.cast_inj, Bool.not_true, Bool.false_eq_true, if_false, Bool.true_and]

theorem unmarshalSign_run {m : Ints} (sig : Bytes) : match Sm2.unmarshalSign sig with
    | .ok (r, s) => unmarshalSign sig m = (m ++ [r, s], .ok (m.length, m.length + 1))
    | .err e => (unmarshalSign sig m).2 = .err e
    | .panic => (unmarshalSign sig m).2 = .panic := by
  unfold unmarshalSign
  cases Sm2.unmarshalSign sig with
  | ok x =>
    obtain ⟨r, s⟩ := x
    simp only [bind_run, new_run, lift_run, put_run, pure_run, List.append_assoc, List.length_append, List.length_cons, List.length_nil, List.cons_append,
      List.nil_append, set_new, set_new0, List.set_cons_zero, List.set_cons_succ, Nat.zero_add]
  | err e => rfl
  | panic => rfl

theorem unmarshalOr_run {m : Ints} (sig : Bytes) : match Sm2.unmarshalSign sig with
    | .ok (r, s) => unmarshalOr sig m = (m ++ [r, s], .ok (some (m.length, m.length + 1)))
    | _ => (unmarshalOr sig m).2 = .ok none := by
  unfold unmarshalOr
  cases Sm2.unmarshalSign sig with
  | ok x =>
    obtain ⟨r, s⟩ := x
    simp only [bind_run, new_run, put_run, pure_run, List.append_assoc, List.length_append, List.length_cons, List.length_nil, List.cons_append,
      List.nil_append, set_new, set_new0, List.set_cons_zero, List.set_cons_succ, Nat.zero_add]
  | err e => rfl
  | panic => rfl

theorem verify_run {m : Ints} {g : Globals} (hi : Intact m g) {pub : PubRef} {v : Sm2.PublicKey} (hp : pub.Holds m g v) (inp uid sig : Bytes) :
    (verify g pub inp uid sig m).2 = .ok (Sm2.verify v inp uid sig) := by
  have h := unmarshalOr_run (m := m) sig
  unfold verify Sm2.verify
  rw [bind_run]
  generalize unmarshalOr sig m = y at *
  obtain ⟨m', res⟩ := y
  cases hs : Sm2.unmarshalSign sig with
  | ok x =>
    obtain ⟨r, s⟩ := x
    rw [hs] at h
    simp only [Prod.mk.injEq] at h
    obtain ⟨rfl, rfl⟩ := h
    refine (verifyRS_run (hi.ext _) (hp.ext _) inp uid (r := m.length) (s := m.length + 1) (by simp) (by simp)).trans ?_
    rw [get_new0, get_new]
    rfl
  | err e => rw [hs] at h; simp only [] at h; subst h; rfl
  | panic => rw [hs] at h; simp only [] at h; subst h; rfl

theorem verifyDigest_run {m : Ints} {g : Globals} (hi : Intact m g) {pub : PubRef} {v : Sm2.PublicKey} (hp : pub.Holds m g v) (digest sig : Bytes) :
    (verifyDigest g pub digest sig m).2 = .ok (Sm2.verifyDigest v digest sig) := by
  have h := unmarshalOr_run (m := m) sig
  unfold verifyDigest Sm2.verifyDigest
  rw [bind_run]
  generalize unmarshalOr sig m = y at *
  obtain ⟨m', res⟩ := y
  cases hs : Sm2.unmarshalSign sig with
  | ok x =>
    obtain ⟨r, s⟩ := x
    rw [hs] at h
    simp only [Prod.mk.injEq] at h
    obtain ⟨rfl, rfl⟩ := h
    refine (verifyDigestRS_run (hi.ext _) (hp.ext _) digest (r := m.length) (s := m.length + 1) (by simp) (by simp)).trans ?_
    rw [get_new0, get_new]
    rfl
  | err e => rw [hs] at h; simp only [] at h; subst h; rfl
  | panic => rw [hs] at h; simp only [] at h; subst h; rfl

end MCrypto.Sm2Mem
