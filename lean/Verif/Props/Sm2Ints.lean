import Verif.Sm2.IntsRefine
/-
C135: the integers that are passed to and returned from package sm2 by reference.
-/
namespace MCrypto.Props
open MCrypto MCrypto.Curve MCrypto.Sm2Mem

/-- A call, or an assignment by the program that uses the package: `p` is set to `v`. -/
inductive SmEvent where
  | call (c : SmCall)
  | assign (p : Nat) (v : Int)

/-- Memory after the event. -/
def SmEvent.after (g : Globals) (m : Ints) : SmEvent → Ints
  | .call c => (c.prog g m).1
  | .assign p v => m.set p v

/-- Memory after a history of calls and assignments. -/
def smHistory (g : Globals) (m : Ints) (calls : List SmEvent) : Ints := calls.foldl (fun m c => c.after g m) m

/-- **C135** No call writes to an integer that exists: not to the key, the signature or the parameters of the curve it was given, nor to any
other, whatever is in memory and however the arguments coincide; also not if it fails or panics. -/
theorem C135_no_writes (g : Globals) (m : Ints) (c : SmCall) (p : Nat) (hp : p < m.length) :
    p < (c.prog g m).1.length ∧ (c.prog g m).1.get p = m.get p := by
  obtain ⟨⟨h1, h2⟩, -⟩ := (fr_call g c).run m (Nat.le_refl _)
  exact ⟨by omega, h2 p hp⟩

/-- **C135** The integers that a call returns did not exist before. -/
theorem C135_results_new (g : Globals) (m : Ints) (c : SmCall) (o : Out) (h : (c.prog g m).2 = .ok o) : ∀ p ∈ o.refs, m.length ≤ p :=
  ((fr_call g c).run m (Nat.le_refl _)).2 o h

theorem event_no_writes (g : Globals) (m : Ints) (c : SmEvent) (p : Nat) (hp : p < m.length) (hc : ∀ v, c ≠ .assign p v) :
    p < (c.after g m).length ∧ (c.after g m).get p = m.get p := by
  cases c with
  | call c => exact C135_no_writes g m c p hp
  | assign q v =>
    have hne : q ≠ p := fun e => hc v (by rw [e])
    show p < (m.set q v).length ∧ Ints.get (m.set q v) p = m.get p
    refine ⟨by rw [List.length_set]; exact hp, ?_⟩
    unfold Ints.get
    rw [List.getD_eq_getElem?_getD, List.getD_eq_getElem?_getD, List.getElem?_set_ne hne]

/-- **C135** So after any history of calls an integer that the program itself did not assign to has the value it had. -/
theorem C135_history (g : Globals) (calls : List SmEvent) (m : Ints) (p : Nat) (hp : p < m.length) (hc : ∀ v, SmEvent.assign p v ∉ calls) :
    p < (smHistory g m calls).length ∧ (smHistory g m calls).get p = m.get p := by
  induction calls generalizing m with
  | nil => exact ⟨hp, rfl⟩
  | cons c l ih =>
    obtain ⟨h1, h2⟩ := event_no_writes g m c p hp (fun v e => hc v (by rw [e]; exact List.mem_cons_self))
    obtain ⟨h3, h4⟩ := ih (c.after g m) h1 (fun v h => hc v (List.mem_cons_of_mem _ h))
    exact ⟨h3, h4.trans h2⟩

/-- The program has assigned neither to the variables of the package nor to the integers of the key. -/
structure HandsOff (g : Globals) (priv : PrivRef) (calls : List SmEvent) : Prop where
  globals : ∀ p ∈ [g.one, g.curve.p, g.curve.n, g.curve.b, g.curve.gx, g.curve.gy, g.curve.a], ∀ v, SmEvent.assign p v ∉ calls
  key : ∀ p ∈ [priv.d, priv.pub.x, priv.pub.y], ∀ v, SmEvent.assign p v ∉ calls

theorem intact_history {g : Globals} {m : Ints} {calls : List SmEvent} (hi : Intact m g)
    (h : ∀ p ∈ [g.one, g.curve.p, g.curve.n, g.curve.b, g.curve.gx, g.curve.gy, g.curve.a], ∀ v, SmEvent.assign p v ∉ calls) :
    Intact (smHistory g m calls) g := by
  have k : ∀ {p : Nat} {v : Int}, p ∈ [g.one, g.curve.p, g.curve.n, g.curve.b, g.curve.gx, g.curve.gy, g.curve.a] →
      (p < m.length ∧ m.get p = v) → p < (smHistory g m calls).length ∧ (smHistory g m calls).get p = v := by
    intro p v hm ⟨a, b⟩
    obtain ⟨c, d⟩ := C135_history g calls m p a (h p hm)
    exact ⟨c, d.trans b⟩
  obtain ⟨h1, h2, h3, h4, h5, h6, h7⟩ := hi
  exact ⟨k (by simp) h1, k (by simp) h2, k (by simp) h3, k (by simp) h4, k (by simp) h5, k (by simp) h6, k (by simp) h7⟩

theorem holds_history {g : Globals} {m : Ints} {calls : List SmEvent} {priv : PrivRef} {v : Sm2.PrivateKey} (hp : priv.Holds m g v)
    (h : ∀ p ∈ [priv.d, priv.pub.x, priv.pub.y], ∀ v, SmEvent.assign p v ∉ calls) : priv.Holds (smHistory g m calls) g v := by
  have k : ∀ {p : Nat} {w : Int}, p ∈ [priv.d, priv.pub.x, priv.pub.y] →
      (p < m.length ∧ m.get p = w) → p < (smHistory g m calls).length ∧ (smHistory g m calls).get p = w := by
    intro p w hm ⟨a, b⟩
    obtain ⟨c, d⟩ := C135_history g calls m p a (h p hm)
    exact ⟨c, d.trans b⟩
  exact ⟨⟨hp.pub.curve, k (by simp) hp.pub.x, k (by simp) hp.pub.y⟩, k (by simp) hp.d⟩

/-- **C135** After any such history the key still signs, decrypts and is compared as its value at the beginning does. -/
theorem C135_key_after (g : Globals) (m : Ints) (calls : List SmEvent) (hi : Intact m g) (priv : PrivRef) (v : Sm2.PrivateKey) (hp : priv.Holds m g v)
    (h : HandsOff g priv calls) :
    (∀ rd inp uid, (sign g rd priv inp uid (smHistory g m calls)).2 = Sm2.sign rd v inp uid) ∧
    (∀ rd digest, (signDigest g rd priv digest (smHistory g m calls)).2 = Sm2.signDigest rd v digest) ∧
    (∀ data tail, (decryt g priv data tail (smHistory g m calls)).2 = Sm2.decryt v data tail) ∧
    (∀ rd msg, (encryt g rd priv.pub msg (smHistory g m calls)).2 = Sm2.encryt rd v.pub msg) ∧
    (∀ inp uid sig, (verify g priv.pub inp uid sig (smHistory g m calls)).2 = .ok (Sm2.verify v.pub inp uid sig)) ∧
    (∀ digest sig, (verifyDigest g priv.pub digest sig (smHistory g m calls)).2 = .ok (Sm2.verifyDigest v.pub digest sig)) ∧
    (∀ inp uid r s, r < (smHistory g m calls).length → s < (smHistory g m calls).length →
      (verifyRS g priv.pub inp uid r s (smHistory g m calls)).2 =
        .ok (Sm2.verifyRS v.pub inp uid ((smHistory g m calls).get r) ((smHistory g m calls).get s))) ∧
    (∀ digest r s, r < (smHistory g m calls).length → s < (smHistory g m calls).length →
      (verifyDigestRS g priv.pub digest r s (smHistory g m calls)).2 =
        .ok (Sm2.verifyDigestRS v.pub digest ((smHistory g m calls).get r) ((smHistory g m calls).get s))) := by
  have i := intact_history hi h.globals
  have k := holds_history hp h.key
  exact ⟨fun rd inp uid => sign_run i k rd inp uid, fun rd digest => signDigest_run i k rd digest, fun data tail => decryt_run i k data tail,
    fun rd msg => encryt_run msg _ rd (Nat.lt_succ_self _) _ i k.pub, fun inp uid sig => verify_run i k.pub inp uid sig,
    fun digest sig => verifyDigest_run i k.pub digest sig, fun inp uid r s hr hs => verifyRS_run i k.pub inp uid hr hs,
    fun digest r s hr hs => verifyDigestRS_run i k.pub digest hr hs⟩

/-- **C135** The two numbers of a signature are new integers, different from each other, with the values that the key, the digest and the random
stream determine. -/
theorem C135_signature_new (g : Globals) (m : Ints) (hi : Intact m g) (priv : PrivRef) (v : Sm2.PrivateKey) (hp : priv.Holds m g v) (rd : Reader)
    (digest : Bytes) :
    (∀ r s rd', Sm2.signDigestRS rd v digest = .ok (r, s, rd') → ∃ m' pr ps, signDigestRS g rd priv digest m = (m', .ok (pr, ps, rd')) ∧
      m'.get pr = r ∧ m'.get ps = s ∧ m.length ≤ pr ∧ pr < m'.length ∧ m.length ≤ ps ∧ ps < m'.length ∧ pr ≠ ps) ∧
    (∀ e, Sm2.signDigestRS rd v digest = .err e → (signDigestRS g rd priv digest m).2 = .err e) ∧
    (Sm2.signDigestRS rd v digest = .panic → (signDigestRS g rd priv digest m).2 = .panic) := by
  obtain ⟨l, h1, h2⟩ := signDigestRS_run hi hp rd digest
  unfold Sm2.signDigestRS
  generalize signDigestRS g rd priv digest m = y at *
  obtain ⟨m', res⟩ := y
  simp only [] at h1 h2
  subst h1
  cases hv : Sm2.signOuter v.d (ofBytes digest) rd with
  | ok x =>
    obtain ⟨a, b, rd1⟩ := x
    rw [hv] at h2
    obtain ⟨pa, pb, rfl, ⟨a1, a2, a3⟩, ⟨b1, b2, b3⟩, hne⟩ := h2
    refine ⟨fun r s rd' h => ?_, fun e h => (by cases h), fun h => (by cases h)⟩
    simp only [Res.ok.injEq, Prod.mk.injEq] at h
    obtain ⟨rfl, rfl, rfl⟩ := h
    exact ⟨_, pa, pb, rfl, a3, b3, a1, a2, b1, b2, hne⟩
  | err e =>
    rw [hv] at h2
    exact ⟨fun _ _ _ h => (by cases h), fun e' h => (by injection h with h; rw [← h]; exact h2), fun h => (by cases h)⟩
  | panic =>
    rw [hv] at h2
    exact ⟨fun _ _ _ h => (by cases h), fun e' h => (by cases h), fun _ => h2⟩

/-- **C135** So is a generated key: three new integers, different from each other. -/
theorem C135_key_new (g : Globals) (m : Ints) (hi : Intact m g) (rd : Reader) (v : Sm2.PrivateKey) (rd' : Reader)
    (h : Sm2.generateKey rd = .ok (v, rd')) : ∃ m' priv, generateKey g rd m = (m', .ok (priv, rd')) ∧ priv.Holds m' g v ∧
      (m.length ≤ priv.d ∧ m.length ≤ priv.pub.x ∧ m.length ≤ priv.pub.y) ∧
      priv.pub.x ≠ priv.pub.y ∧ priv.pub.x ≠ priv.d ∧ priv.pub.y ≠ priv.d := by
  have k := generateKey_run hi rd
  rw [h] at k
  obtain ⟨l, priv, k1, k2, k3⟩ := k
  have f := ((fr_generateKey (n := m.length) g rd).run m (Nat.le_refl _)).2 (priv, rd') (by rw [k1])
  exact ⟨_, priv, k1, k2, f, k3⟩

/-- **C135** Equal compares values, for keys on the curve of the package. -/
theorem C135_equal (g : Globals) (m : Ints) (a b : PrivRef) (v w : Sm2.PrivateKey) (ha : a.Holds m g v) (hb : b.Holds m g w) :
    a.equal b m = (m, .ok (v.equal (.sm2priv w))) ∧ a.pub.equal b.pub m = (m, .ok (v.pub.equal (.sm2pub w.pub))) :=
  ⟨privEqual_run ha hb, pubEqual_run ha.pub hb.pub⟩

/-- **C135** A signature that was decoded is two new integers. -/
theorem C135_unmarshal_new (m : Ints) (sig : Bytes) (r s : Int) (h : Sm2.unmarshalSign sig = .ok (r, s)) :
    unmarshalSign sig m = (m ++ [r, s], .ok (m.length, m.length + 1)) := by
  have k := unmarshalSign_run (m := m) sig
  rw [h] at k
  exact k

/-- **C135** What keys do share are the parameters of the curve, which `Params` hands out: if the program sets the order of the group to
zero through one key, then no key of the package signs any more. -/
theorem C135_shared_parameters (g : Globals) (m : Ints) (one other : PrivRef) (h1 : one.pub.curve = g.curve) (h2 : other.pub.curve = g.curve)
    (hn : g.curve.n < m.length) (rd : Reader) (digest : Bytes) :
    (signDigestRS g rd other digest ((SmEvent.assign one.pub.curve.n 0).after g m)).2 = .err "zero parameter" := by
  show (signDigestRS g rd other digest (m.set one.pub.curve.n 0)).2 = _
  unfold signDigestRS
  have e : Ints.get (m.set g.curve.n 0 ++ [(ofBytes digest : Int)]) g.curve.n = 0 := by
    rw [get_old (by rw [List.length_set]; exact hn)]
    unfold Ints.get
    rw [List.getD_eq_getElem?_getD, List.getElem?_set_self hn]
    rfl
  simp only [bind_run, new_run, val_run]
  rw [h1, h2, if_pos e, lift_run]

/-! ### Examples -/

/-- Memory as `init` leaves it, followed by the integers of the key with private number 5 and of a signature. -/
def exInts : Ints := [1, (P : Int), (N : Int), (B : Int), (G.1 : Int), (G.2 : Int), (A : Int), 5, ((Sm2.baseMult [5]).1 : Int), ((Sm2.baseMult [5]).2 : Int), 77, 78]
def exGlobals : Globals := ⟨0, ⟨1, 2, 3, 4, 5, 6⟩⟩
def exPriv : PrivRef := ⟨⟨exGlobals.curve, 8, 9⟩, 7⟩
def exPrivVal : Sm2.PrivateKey := ⟨⟨.sm2p256v1, (Sm2.baseMult [5]).1, (Sm2.baseMult [5]).2⟩, 5⟩

theorem exInts_intact : Intact exInts exGlobals :=
  ⟨⟨by decide, rfl⟩, ⟨by decide, rfl⟩, ⟨by decide, rfl⟩, ⟨by decide, rfl⟩, ⟨by decide, rfl⟩, ⟨by decide, rfl⟩, ⟨by decide, rfl⟩⟩
theorem exPriv_holds : exPriv.Holds exInts exGlobals exPrivVal :=
  ⟨⟨⟨rfl, rfl⟩, ⟨by decide, rfl⟩, ⟨by decide, rfl⟩⟩, ⟨by decide, rfl⟩⟩

/-- A history with a signature, a verification in which `r` and `s` are the same integer, one in which they are the integers of the key, and an
assignment by the program to an integer of a signature. -/
def exCalls (rd : Reader) : List SmEvent :=
  [.call (.signDigestRS rd exPriv [1, 2]), .call (.verifyDigestRS exPriv.pub [1, 2] 10 10), .call (.verifyDigestRS exPriv.pub [1, 2] 7 8),
   .assign 10 (-3), .call (.decryt exPriv [4, 1] [])]

theorem exCalls_handsOff (rd : Reader) : HandsOff exGlobals exPriv (exCalls rd) := by
  constructor
  · intro p hp v hm
    simp only [exCalls, List.mem_cons, reduceCtorEq, SmEvent.assign.injEq, false_or, or_false, List.not_mem_nil] at hm
    obtain ⟨rfl, -⟩ := hm
    revert hp; decide
  · intro p hp v hm
    simp only [exCalls, List.mem_cons, reduceCtorEq, SmEvent.assign.injEq, false_or, or_false, List.not_mem_nil] at hm
    obtain ⟨rfl, -⟩ := hm
    revert hp; decide

example (rd rd' : Reader) (digest : Bytes) :
    (signDigest exGlobals rd exPriv digest (smHistory exGlobals exInts (exCalls rd'))).2 = Sm2.signDigest rd exPrivVal digest :=
  (C135_key_after _ _ _ exInts_intact _ _ exPriv_holds (exCalls_handsOff rd')).2.1 rd digest

end MCrypto.Props
