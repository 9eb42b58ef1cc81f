import Verif.Sm3.SharedSched
import Verif.Props.Sm3
/-
C145: SM3 hash objects and goroutines. Model: Verif/Sm3/Shared.lean.
-/
namespace MCrypto.Props
open MCrypto MCrypto.Sm3Mem

/-! ## Specification -/

/-- Object `o` was made by `New` and used by nobody else so far; `data` are the octets written to it since the last `Reset`. -/
def HoldsData (m : Mem) (o : Nat) (data : Bytes) : Prop :=
  ∃ ops : List Sm3.Op, m.digest o = (Sm3.run Sm3.new ops).1 ∧ data = logAfter [] ops

/-- `data` with another value for `o`. -/
def upd (data : Nat → Bytes) (o : Nat) (p : Bytes) : Nat → Bytes := fun o' => if o' = o then p else data o'

/-- What the calls of a goroutine return, and the contents of the objects afterwards, if each object is the list of the octets written to
it since the last `Reset` and nobody else is there. -/
def ideal : Client → (Nat → Bytes) → List Sm3Mem.Out × (Nat → Bytes)
  | .stop, data => ([], data)
  | .call o (.write p) k, data =>
    (.wrote (.ok p.length) :: (ideal (k (.wrote (.ok p.length))) (upd data o (data o ++ p))).1,
      (ideal (k (.wrote (.ok p.length))) (upd data o (data o ++ p))).2)
  | .call o .sum k, data =>
    (.summed (.ok (Sm3Spec.sm3 (data o))) :: (ideal (k (.summed (.ok (Sm3Spec.sm3 (data o))))) data).1,
      (ideal (k (.summed (.ok (Sm3Spec.sm3 (data o))))) data).2)
  | .call o .reset k, data => (.reset :: (ideal (k .reset) (upd data o [])).1, (ideal (k .reset) (upd data o [])).2)

/-- No goroutine uses an object that another one writes to or resets. (Objects on which all call `Sum` only may be shared.) `W i` are the
objects that goroutine `i` may write to or reset, `R i` those it may use. -/
def NoConflict (W R : Nat → Nat → Prop) (clients : List Client) : Prop :=
  (∀ (i : Nat) (c : Client), clients[i]? = some c → c.Uses (W i) (R i)) ∧ (∀ i o, W i o → R i o) ∧ ∀ i j, i ≠ j → ∀ o, W j o → ¬R i o

/-- One goroutine after the other makes one call, in the order of the list: what the calls return if each object is the list of the octets written to
it since the last `Reset`, however many goroutines write. -/
def idealLocked (data : Nat → Bytes) (gs : List Client) (log : List (Nat × Sm3Mem.Out)) : List Nat → List (Nat × Sm3Mem.Out)
  | [] => log
  | i :: order =>
    match gs[i]? with
    | some (.call o (.write p) k) =>
      idealLocked (upd data o (data o ++ p)) (gs.set i (k (.wrote (.ok p.length)))) ((i, .wrote (.ok p.length)) :: log) order
    | some (.call o .sum k) =>
      idealLocked data (gs.set i (k (.summed (.ok (Sm3Spec.sm3 (data o)))))) ((i, .summed (.ok (Sm3Spec.sm3 (data o)))) :: log) order
    | some (.call o .reset k) => idealLocked (upd data o []) (gs.set i (k .reset)) ((i, .reset) :: log) order
    | _ => idealLocked data gs log order

/-! ## Proofs -/

theorem inv_of_holds {m : Mem} {o : Nat} {data : Bytes} (h : HoldsData m o data) : Sm3.Inv (m.digest o) data := by
  obtain ⟨ops, h1, h2⟩ := h
  rw [h1, h2]
  exact (run_spec Sm3.inv_new ops).2

theorem nx_of_inv {m : Mem} {o : Nat} {data : Bytes} (h : Sm3.Inv (m.digest o) data) : m o .nx < 64 := by
  obtain ⟨_, _, _, _, _, h, _⟩ := h
  exact h

theorem sum_of_inv {m : Mem} {o : Nat} {data : Bytes} (h : Sm3.Inv (m.digest o) data) : (sum o).run m = (m, .ok (Sm3Spec.sm3 data)) := by
  rw [run_sum, Sm3Mem.checkSum, if_neg (by have := nx_of_inv h; rw [digest_nx]; omega), Sm3.checkSum_of_inv h]

theorem digest_other {o o' : Nat} {m m' : Mem} (h : Only o m m') (ho : o' ≠ o) : m'.digest o' = m.digest o' := by
  simp only [Mem.digest, h o' ho]

/-- A goroutine alone. -/
theorem run_ideal (c : Client) (W R : Nat → Prop) (hwr : ∀ o, W o → R o) : ∀ (m : Mem) (data : Nat → Bytes), c.Uses W R →
    (∀ o, R o → Sm3.Inv (m.digest o) (data o)) → ∃ m', c.prog.run m = (m', .ok (ideal c data).1) ∧
      ∀ o, R o → Sm3.Inv (m'.digest o) ((ideal c data).2 o) := by
  induction c with
  | stop => intro m data _ h; exact ⟨m, rfl, h⟩
  | call o c k ih =>
    intro m data hu h
    -- the first call, then the rest
    have fin : ∀ (m1 : Mem) (r : Sm3Mem.Out) (data1 : Nat → Bytes), (c.prog o).run m = (m1, .ok r) →
        (∀ o', R o' → Sm3.Inv (m1.digest o') (data1 o')) → ideal (.call o c k) data = (r :: (ideal (k r) data1).1, (ideal (k r) data1).2) →
        ∃ m', (Client.call o c k).prog.run m = (m', .ok (ideal (.call o c k) data).1) ∧
          ∀ o', R o' → Sm3.Inv (m'.digest o') ((ideal (.call o c k) data).2 o') := by
      intro m1 r data1 h1 h2 h3
      obtain ⟨m2, r2, i2⟩ := ih r m1 data1 (hu.2 r) h2
      refine ⟨m2, ?_, ?_⟩
      · show (c.prog o >>= fun r => (k r).prog >>= fun l => pure (r :: l)).run m = _
        rw [run_do h1, run_do r2, h3]
        rfl
      · rw [h3]; exact i2
    have h0 := hu.1
    cases c with
    | write p =>
      have hi := h o (hwr o h0)
      obtain ⟨m1, r1, d1, o1⟩ := run_write o p m (by have := nx_of_inv hi; omega)
      refine fin m1 (.wrote (.ok p.length)) (upd data o (data o ++ p)) ?_ ?_ (by rw [ideal])
      · show ((write o p).attempt Sm3Mem.Out.wrote).run m = _
        rw [run_attempt, r1]
      · intro o' ho'
        unfold upd
        by_cases he : o' = o
        · subst he
          rw [if_pos rfl, d1]
          exact Sm3.inv_write hi p
        · rw [if_neg he, digest_other o1 he]
          exact h o' ho'
    | sum =>
      have hi := h o h0
      refine fin m (.summed (.ok (Sm3Spec.sm3 (data o)))) data ?_ h (by rw [ideal])
      show ((sum o).attempt Sm3Mem.Out.summed).run m = _
      rw [run_attempt, sum_of_inv hi]
    | reset =>
      have hi := h o (hwr o h0)
      obtain ⟨m1, r1, d1, o1⟩ := run_reset o m
      refine fin m1 .reset (upd data o []) ?_ ?_ (by rw [ideal])
      · show ((reset o).attempt _).run m = _
        rw [run_attempt, r1]
      · intro o' ho'
        unfold upd
        by_cases he : o' = o
        · subst he
          rw [if_pos rfl, d1]
          exact Sm3.inv_reset hi
        · rw [if_neg he, digest_other o1 he]
          exact h o' ho'

/-- C145: goroutines that do not write to each other's objects. Whatever the scheduler does, what each of them gets from its calls, if it has come to
the end, is what it would get alone: every `Sum` the SM3 digest of the octets written to the object, no panic. Each comes to the end when it
has had its turn often enough, and then its objects are as it left them. -/
theorem C145_own (m : Mem) (data : Nat → Bytes) (clients : List Client) (W R : Nat → Nat → Prop) (hc : NoConflict W R clients)
    (hm : ∀ i < clients.length, ∀ o, R i o → HoldsData m o (data o)) (i : Nat) (c : Client) (hi : clients[i]? = some c) :
    (∀ schedule r, ((Sys.start m clients).exec schedule).gs[i]? = some (.done r) →
      r = .ok (ideal c data).1 ∧
      ∀ o, R i o → ((sum o).run ((Sys.start m clients).exec schedule).mem).2 = .ok (Sm3Spec.sm3 ((ideal c data).2 o))) ∧
    ∃ n, ∀ schedule : List Nat, n ≤ schedule.count i → ∃ r, ((Sys.start m clients).exec schedule).gs[i]? = some (.done r) := by
  obtain ⟨huse, hwr, hsep⟩ := hc
  have hin : ∀ (i : Nat) (t : P (List Sm3Mem.Out)), (clients.map Client.prog)[i]? = some t → t.Within (W i) (R i) := by
    intro i t ht
    rw [List.getElem?_map, Option.map_eq_some_iff] at ht
    obtain ⟨c, hc, rfl⟩ := ht
    exact within_client (hwr i) (huse i c hc)
  have hp : (clients.map Client.prog)[i]? = some c.prog := by rw [List.getElem?_map, hi]; rfl
  have hlt : i < clients.length := by
    by_contra hx
    rw [List.getElem?_eq_none (by omega)] at hi
    cases hi
  obtain ⟨m', hr, hinv⟩ := run_ideal c (W i) (R i) (hwr i) m data (huse i c hi) (fun o ho => inv_of_holds (hm i hlt o ho))
  refine ⟨fun schedule r hd => ?_, c.prog.steps m, fun schedule hn => ?_⟩
  · obtain ⟨h1, h2⟩ := (exec_alone (m := m) hin hsep schedule).2 i c.prog hp
    have hd' := hd
    unfold Sys.start at hd'
    rw [h1] at hd'
    have hfin : c.prog.after (turns i schedule) m = ((c.prog.after (turns i schedule) m).1, .done r) :=
      Prod.ext rfl (Option.some.inj hd')
    have hst := after_steps _ _ _ _ _ hfin
    have har := after_run c.prog (turns i schedule) m hst
    rw [hr] at har
    rw [har] at h1 h2 hd'
    refine ⟨?_, fun o ho => ?_⟩
    · have := Option.some.inj hd'
      injection this with this
      exact this.symm
    · have heq : ((Sys.start m clients).exec schedule).mem.digest o = m'.digest o := by
        simp only [Mem.digest]
        simp only [Sys.start, h2 o ho]
      have := hinv o ho
      rw [← heq] at this
      rw [sum_of_inv this]
  · obtain ⟨h1, _⟩ := (exec_alone (m := m) hin hsep schedule).2 i c.prog hp
    refine ⟨.ok (ideal c data).1, ?_⟩
    unfold Sys.start
    rw [h1, after_run c.prog (turns i schedule) m hn, hr]

theorem locked_aux (order : List Nat) : ∀ (m : Mem) (data : Nat → Bytes) (clients : List Client) (log : List (Nat × Sm3Mem.Out)),
    (∀ o, Sm3.Inv (m.digest o) (data o)) →
    (order.foldl Locked.step ⟨m, clients, log⟩).log = idealLocked data clients log order := by
  induction order with
  | nil => intro m data clients log _; rfl
  | cons i order ih =>
    intro m data clients log hm
    rw [List.foldl_cons]
    unfold Locked.step idealLocked
    dsimp only
    cases hi : clients[i]? with
    | none => exact ih m data clients log hm
    | some c =>
      cases c with
      | stop => exact ih m data clients log hm
      | call o c k =>
        cases c with
        | write p =>
          have hinv := hm o
          obtain ⟨m1, r1, d1, o1⟩ := run_write o p m (by have := nx_of_inv hinv; omega)
          have hr : ((Call.write p).prog o).run m = (m1, .ok (.wrote (.ok p.length))) := by
            show ((write o p).attempt Sm3Mem.Out.wrote).run m = _
            rw [run_attempt, r1]
          dsimp only
          rw [hr]
          refine ih m1 _ _ _ fun o' => ?_
          unfold upd
          by_cases he : o' = o
          · subst he
            rw [if_pos rfl, d1]
            exact Sm3.inv_write hinv p
          · rw [if_neg he, digest_other o1 he]
            exact hm o'
        | sum =>
          have hr : (Call.sum.prog o).run m = (m, .ok (.summed (.ok (Sm3Spec.sm3 (data o))))) := by
            show ((sum o).attempt Sm3Mem.Out.summed).run m = _
            rw [run_attempt, sum_of_inv (hm o)]
          dsimp only
          rw [hr]
          exact ih m data _ _ hm
        | reset =>
          obtain ⟨m1, r1, d1, o1⟩ := run_reset o m
          have hr : (Call.reset.prog o).run m = (m1, .ok .reset) := by
            show ((reset o).attempt _).run m = _
            rw [run_attempt, r1]
          dsimp only
          rw [hr]
          refine ih m1 _ _ _ fun o' => ?_
          unfold upd
          by_cases he : o' = o
          · subst he
            rw [if_pos rfl, d1]
            exact Sm3.inv_reset (hm o')
          · rw [if_neg he, digest_other o1 he]
            exact hm o'

/-- C145: with a lock around every call any objects may be shared: in whatever order the goroutines get the lock, every `Sum` returns the SM3 digest
of the octets that have been written to the object, by anyone, since the last `Reset`, and no call panics. -/
theorem C145_locked (m : Mem) (data : Nat → Bytes) (hm : ∀ o, HoldsData m o (data o)) (clients : List Client) (order : List Nat) :
    (order.foldl Locked.step ⟨m, clients, []⟩).log = idealLocked data clients [] order :=
  locked_aux order m data clients [] fun o => inv_of_holds (hm o)

/-! ## Goroutines that share an object -/

theorem Steps_run {α : Type} {t t' : P α} {m m' : Mem} (h : Steps t m t' m') : t.run m = t'.run m' := by
  induction h with
  | refl => rfl
  | @tail t' m' _ _ ih =>
    rw [ih]
    cases t' with
    | done r => rfl
    | load o c k => rfl
    | store o c v k => rfl

theorem write_nx {d : Sm3.Digest} (h : d.nx < 64) (p : Bytes) : (d.write p).nx = (d.nx + p.length) % 64 := by
  have hb : ∀ (d : Sm3.Digest) (p : Bytes), d.nx = 0 →
      ((d.writeBlocks p).1.writeTail (d.writeBlocks p).2).nx = p.length % 64 := by
    intro d p h
    unfold Sm3.Digest.writeBlocks Sm3.Digest.writeTail
    by_cases h64 : p.length ≥ 64
    · rw [if_pos h64]
      simp only [List.length_drop]
      split
      · simp only; omega
      · simp only [h]; omega
    · rw [if_neg h64]
      dsimp only
      by_cases h0 : p.length > 0
      · rw [if_pos h0]
        show min 64 p.length = _
        omega
      · rw [if_neg h0, h]
        omega
  unfold Sm3.Digest.write
  dsimp only
  generalize hd0 : ({ d with len := d.len + UInt64.ofNat p.length } : Sm3.Digest) = d0
  have hn : d0.nx = d.nx := by rw [← hd0]
  rw [← hn] at h ⊢
  clear hd0 hn
  unfold Sm3.Digest.writeHead
  by_cases h0 : d0.nx > 0
  · rw [if_pos h0]
    dsimp only
    by_cases h64 : d0.nx + min (64 - d0.nx) p.length = 64
    · rw [if_pos h64, hb _ _ rfl]
      simp only [List.length_drop]
      omega
    · rw [if_neg h64]
      have hle : p.length ≤ 64 - d0.nx := by omega
      have : p.drop (min (64 - d0.nx) p.length) = [] := by simp; omega
      rw [this]
      show d0.nx + min (64 - d0.nx) p.length = _
      omega
  · rw [if_neg h0]
    have : d0.nx = 0 := by omega
    rw [hb _ _ this, this, Nat.zero_add]

theorem nx_of_holds {d : Sm3.Digest} {data : Bytes} (h : Sm3.Inv d data) : d.nx = data.length % 64 := by
  obtain ⟨hx, _, full, hdata, hfull, hnx, _⟩ := h
  rw [hdata, List.length_append, List.length_take, hx]
  omega

/-- An object that is caught after `Write` has counted the octets and before it has taken them. -/
theorem caught_sum (d : Sm3.Digest) (data p : Bytes) (h : Sm3.Inv d data) (hp : p.length % 64 ≠ 0) :
    Sm3Mem.checkSum { d with len := d.len + UInt64.ofNat p.length } = .panic := by
  have hnx := nx_of_holds h
  have hlt : d.nx < 64 := by omega
  unfold Sm3Mem.checkSum
  rw [if_neg (by show ¬ d.nx > 64; omega)]
  unfold Sm3.Digest.checkSum
  dsimp only
  rw [if_pos]
  have hl : d.len + UInt64.ofNat p.length = UInt64.ofNat (data.length + p.length) := by rw [h.len, UInt64.ofNat_add]
  rw [hl, Sm3.padding_eq]
  have h1 := write_nx (d := { d with len := UInt64.ofNat (data.length + p.length) }) hlt
    (0x80 :: List.replicate (Sm3Spec.zeros (data.length + p.length)) 0)
  rw [write_nx (by rw [h1]; omega), h1]
  simp only [List.length_cons, List.length_replicate, beBytes_length]
  have hz := (C01_padding_minimal (data.length + p.length)).1
  rw [hnx]
  omega

/-- A goroutine that makes one call. -/
def once (o : Nat) (c : Call) : Client := .call o c fun _ => .stop

theorem once_steps {o : Nat} {c : Call} {t : P Sm3Mem.Out} {m m' : Mem} (h : Steps (c.prog o) m t m') :
    Steps (once o c).prog m (t.bind fun r => (pure [] : P (List Sm3Mem.Out)) >>= fun l => pure (r :: l)) m' := h.bind _

/-- C145: `Sum` while another goroutine is in a `Write` to the same object: whatever has been written to the object, and for every argument whose
length is not a multiple of 64, there is a schedule in which `Sum` panics. -/
theorem C145_sum_during_write (m : Mem) (o : Nat) (data p : Bytes) (h : HoldsData m o data) (hp : p.length % 64 ≠ 0) :
    ∃ schedule, ((Sys.start m [once o (.write p), once o .sum]).exec schedule).gs =
      [.done (.ok [.wrote (.ok p.length)]), .done (.ok [.summed .panic])] := by
  have hi := inv_of_holds h
  have hn := nx_of_inv hi
  obtain ⟨m', hr, _⟩ := run_write o p m (by omega)
  -- the first two accesses of Write
  have s1 : Steps (write o p) m ((writeHead o p) >>= fun q => writeBlocks o q >>= fun q => writeTail o q >>= fun _ => pure p.length)
      (m.set o .len (UInt64.ofNat (m o .len) + UInt64.ofNat p.length).toNat) := ((Steps.refl (write o p) m).tail).tail
  generalize hm1 : m.set o .len (UInt64.ofNat (m o .len) + UInt64.ofNat p.length).toNat = m1 at s1
  generalize (writeHead o p >>= fun q => writeBlocks o q >>= fun q => writeTail o q >>= fun _ => pure p.length : P Nat) = t1 at s1
  have r1 : t1.run m1 = (m', .ok p.length) := by rw [← Steps_run s1, hr]
  have d1 : m1.digest o = { m.digest o with len := (m.digest o).len + UInt64.ofNat p.length } := by
    rw [← hm1, setLen_digest]; rfl
  have s2 : Steps (sum o) m1 (.done .panic) m1 := by
    have := Steps.run (sum o) m1
    rw [run_sum, d1, caught_sum _ data p hi hp] at this
    exact this
  have s3 : Steps t1 m1 (.done (.ok p.length)) m' := by
    have := Steps.run t1 m1
    rwa [r1] at this
  generalize hk : (fun r => (pure [] : P (List Sm3Mem.Out)) >>= fun l => pure (r :: l) : Sm3Mem.Out → P (List Sm3Mem.Out)) = k
  have hkr : ∀ r, k r = .done (.ok [r]) := by intro r; rw [← hk]; rfl
  have b1 := once_steps (o := o) (c := .write p) (s1.attempt Sm3Mem.Out.wrote)
  have b2 := once_steps (o := o) (c := .sum) (s2.attempt Sm3Mem.Out.summed)
  rw [hk] at b1 b2
  have b3 := (s3.attempt Sm3Mem.Out.wrote).bind k
  have f2 : ((P.done .panic : P Bytes).attempt Sm3Mem.Out.summed).bind k = .done (.ok [.summed .panic]) := hkr _
  have f3 : ((P.done (.ok p.length) : P Nat).attempt Sm3Mem.Out.wrote).bind k = .done (.ok [.wrote (.ok p.length)]) := hkr _
  rw [f2] at b2
  rw [f3] at b3
  obtain ⟨l1, _, e1⟩ := exec_steps b1 [(once o (.write p)).prog, (once o .sum).prog] 0 rfl
  obtain ⟨l2, _, e2⟩ := exec_steps b2 [(t1.attempt Sm3Mem.Out.wrote).bind k, (once o .sum).prog] 1 rfl
  obtain ⟨l3, _, e3⟩ := exec_steps b3 [(t1.attempt Sm3Mem.Out.wrote).bind k, .done (.ok [.summed .panic])] 0 rfl
  refine ⟨l1 ++ l2 ++ l3, ?_⟩
  rw [exec_append, exec_append]
  have e1' : (Sys.start m [once o (.write p), once o .sum]).exec l1 = ⟨m1, [(t1.attempt Sm3Mem.Out.wrote).bind k, (once o .sum).prog]⟩ := e1
  rw [e1', e2]
  show (Sys.exec ⟨m1, [(t1.attempt Sm3Mem.Out.wrote).bind k, .done (.ok [.summed .panic])]⟩ l3).gs = _
  rw [e3]
  rfl

/-! Two goroutines that write to the same object -/

/-- `Write` after it has copied octets into the buffer and before it counts them there (sm3.go:61-62). -/
def afterCopy (o : Nat) (p : Bytes) : P Nat :=
  (get o .nx >>= fun v => put o .nx (v + p.length) >>= fun _ => get o .nx >>= fun v =>
    if v = 64 then readH o >>= fun h => readX o 64 0 >>= fun x => writeH o (Sm3.block h x) >>= fun _ => put o .nx 0 >>= fun _ =>
      pure (p.drop p.length)
    else pure (p.drop p.length)) >>= fun q => writeBlocks o q >>= fun q => writeTail o q >>= fun _ => pure p.length

theorem write_to_copy (o : Nat) (p : Bytes) (m : Mem) (h0 : 0 < m o .nx) (h1 : m o .nx + p.length ≤ 64) :
    ∃ m', Steps (write o p) m (afterCopy o p) m' ∧ m' o .nx = m o .nx := by
  have s1 : Steps (write o p) m ((writeHead o p) >>= fun q => writeBlocks o q >>= fun q => writeTail o q >>= fun _ => pure p.length)
      (m.set o .len (UInt64.ofNat (m o .len) + UInt64.ofNat p.length).toNat) := ((Steps.refl (write o p) m).tail).tail
  have hnx : (m.set o .len (UInt64.ofNat (m o .len) + UInt64.ofNat p.length).toNat) o .nx = m o .nx := by simp
  generalize m.set o .len (UInt64.ofNat (m o .len) + UInt64.ofNat p.length).toNat = m1 at s1 hnx
  rw [← hnx] at h0 h1 ⊢
  refine ⟨m1.fill o (m1 o .nx) p, s1.trans ?_, by simp [Mem.fill]⟩
  refine Steps.bind ?_ _
  have hg : (get o .nx).run m1 = (m1, .ok (m1 o .nx)) := rfl
  unfold writeHead
  refine (Steps.runBind hg _).trans ?_
  rw [if_pos h0]
  refine (Steps.runBind hg _).trans ?_
  rw [if_neg (by omega), show min (64 - m1 o .nx) p.length = p.length by omega]
  dsimp only
  rw [List.take_length]
  exact Steps.runBind (run_copyX o p _ m1) _

theorem copy_to_end (o : Nat) (p : Bytes) (m : Mem) (h : m o .nx + p.length ≠ 64) :
    Steps (afterCopy o p) m (.done (.ok p.length)) (m.set o .nx (m o .nx + p.length)) := by
  have hr : (afterCopy o p).run m = (m.set o .nx (m o .nx + p.length), .ok p.length) := by
    unfold afterCopy
    have hhead : (get o .nx >>= fun v => put o .nx (v + p.length) >>= fun _ => get o .nx >>= fun v =>
        if v = 64 then readH o >>= fun h => readX o 64 0 >>= fun x => writeH o (Sm3.block h x) >>= fun _ => put o .nx 0 >>= fun _ =>
          pure (p.drop p.length)
        else pure (p.drop p.length) : P Bytes).run m = (m.set o .nx (m o .nx + p.length), .ok []) := by
      have hg : ∀ m : Mem, (get o .nx).run m = (m, .ok (m o .nx)) := fun _ => rfl
      have hput : ∀ (m : Mem) (v : Nat), (put o .nx v).run m = (m.set o .nx v, .ok ()) := fun _ _ => rfl
      rw [run_do (hg _), run_do (hput _ _), run_do (hg _), set_same, if_neg h, List.drop_length]
      rfl
    rw [run_do hhead]
    rfl
  have := Steps.run (afterCopy o p) m
  rwa [hr] at this

/-- C145: two goroutines write to the same object, which has room for either argument but not for both. There is a schedule in which both
`Write`s report success, and from then on every `Write` and every `Sum` on the object panics, until `Reset`. -/
theorem C145_two_writes (m : Mem) (o : Nat) (data p q : Bytes) (h : HoldsData m o data) (h0 : 0 < data.length % 64)
    (hp : data.length % 64 + p.length < 64) (hq : data.length % 64 + q.length < 64) (hpq : 64 < data.length % 64 + p.length + q.length) :
    ∃ schedule, ((Sys.start m [once o (.write p), once o (.write q)]).exec schedule).gs =
        [.done (.ok [.wrote (.ok p.length)]), .done (.ok [.wrote (.ok q.length)])] ∧
      (∀ r, ((write o r).run ((Sys.start m [once o (.write p), once o (.write q)]).exec schedule).mem).2 = .panic) ∧
      ((sum o).run ((Sys.start m [once o (.write p), once o (.write q)]).exec schedule).mem).2 = .panic ∧
      ((reset o >>= fun _ => sum o).run ((Sys.start m [once o (.write p), once o (.write q)]).exec schedule).mem).2 =
        .ok (Sm3Spec.sm3 []) := by
  have hi := inv_of_holds h
  have hn : m o .nx = data.length % 64 := nx_of_holds hi
  obtain ⟨m1, s1, n1⟩ := write_to_copy o p m (by omega) (by omega)
  obtain ⟨m2, s2, n2⟩ := write_to_copy o q m1 (by omega) (by omega)
  have s3 := copy_to_end o p m2 (by omega)
  have n3 : (m2.set o .nx (m2 o .nx + p.length)) o .nx = m o .nx + p.length := by rw [set_same]; omega
  generalize m2.set o .nx (m2 o .nx + p.length) = m3 at s3 n3
  have s4 := copy_to_end o q m3 (by omega)
  have n4 : (m3.set o .nx (m3 o .nx + q.length)) o .nx = m o .nx + p.length + q.length := by rw [set_same]; omega
  generalize m3.set o .nx (m3 o .nx + q.length) = m4 at s4 n4
  generalize hk : (fun r => (pure [] : P (List Sm3Mem.Out)) >>= fun l => pure (r :: l) : Sm3Mem.Out → P (List Sm3Mem.Out)) = k
  have hkr : ∀ r, k r = .done (.ok [r]) := by intro r; rw [← hk]; rfl
  have b1 := once_steps (o := o) (c := .write p) (s1.attempt Sm3Mem.Out.wrote)
  have b2 := once_steps (o := o) (c := .write q) (s2.attempt Sm3Mem.Out.wrote)
  rw [hk] at b1 b2
  have b3 := (s3.attempt Sm3Mem.Out.wrote).bind k
  have b4 := (s4.attempt Sm3Mem.Out.wrote).bind k
  have f3 : ((P.done (.ok p.length) : P Nat).attempt Sm3Mem.Out.wrote).bind k = .done (.ok [.wrote (.ok p.length)]) := hkr _
  have f4 : ((P.done (.ok q.length) : P Nat).attempt Sm3Mem.Out.wrote).bind k = .done (.ok [.wrote (.ok q.length)]) := hkr _
  rw [f3] at b3
  rw [f4] at b4
  obtain ⟨l1, _, e1⟩ := exec_steps b1 [(once o (.write p)).prog, (once o (.write q)).prog] 0 rfl
  obtain ⟨l2, _, e2⟩ := exec_steps b2 [((afterCopy o p).attempt Sm3Mem.Out.wrote).bind k, (once o (.write q)).prog] 1 rfl
  obtain ⟨l3, _, e3⟩ := exec_steps b3 [((afterCopy o p).attempt Sm3Mem.Out.wrote).bind k, ((afterCopy o q).attempt Sm3Mem.Out.wrote).bind k] 0 rfl
  obtain ⟨l4, _, e4⟩ := exec_steps b4 [.done (.ok [.wrote (.ok p.length)]), ((afterCopy o q).attempt Sm3Mem.Out.wrote).bind k] 1 rfl
  have he : (Sys.start m [once o (.write p), once o (.write q)]).exec (l1 ++ l2 ++ l3 ++ l4) =
      ⟨m4, [.done (.ok [.wrote (.ok p.length)]), .done (.ok [.wrote (.ok q.length)])]⟩ := by
    rw [exec_append, exec_append, exec_append]
    have e1' : (Sys.start m [once o (.write p), once o (.write q)]).exec l1 = ⟨m1, [((afterCopy o p).attempt Sm3Mem.Out.wrote).bind k, (once o (.write q)).prog]⟩ := e1
    rw [e1', e2]
    have e3' : Sys.exec ⟨m2, [((afterCopy o p).attempt Sm3Mem.Out.wrote).bind k, ((afterCopy o q).attempt Sm3Mem.Out.wrote).bind k]⟩ l3 = _ := e3
    have e4' : Sys.exec ⟨m3, [.done (.ok [.wrote (.ok p.length)]), ((afterCopy o q).attempt Sm3Mem.Out.wrote).bind k]⟩ l4 = _ := e4
    show Sys.exec (Sys.exec ⟨m2, [((afterCopy o p).attempt Sm3Mem.Out.wrote).bind k, ((afterCopy o q).attempt Sm3Mem.Out.wrote).bind k]⟩ l3) l4 = _
    rw [e3']
    show Sys.exec ⟨m3, [.done (.ok [.wrote (.ok p.length)]), ((afterCopy o q).attempt Sm3Mem.Out.wrote).bind k]⟩ l4 = _
    rw [e4']
    rfl
  refine ⟨l1 ++ l2 ++ l3 ++ l4, ?_⟩
  rw [he]
  dsimp only
  refine ⟨rfl, fun r => ?_, ?_, ?_⟩
  · have s := ((Steps.refl (write o r) m4).tail).tail
    rw [Steps_run s]
    show ((writeHead o r >>= fun q => writeBlocks o q >>= fun q => writeTail o q >>= fun _ => pure r.length).run
      (m4.set o .len (UInt64.ofNat (m4 o .len) + UInt64.ofNat r.length).toNat)).2 = _
    have hnx : (m4.set o .len (UInt64.ofNat (m4 o .len) + UInt64.ofNat r.length).toNat) o .nx = m4 o .nx := by simp
    generalize m4.set o .len (UInt64.ofNat (m4 o .len) + UInt64.ofNat r.length).toNat = m5 at hnx
    have hh : (writeHead o r).run m5 = (m5, .panic) := by
      have hg : (get o .nx).run m5 = (m5, .ok (m5 o .nx)) := rfl
      unfold writeHead
      rw [run_do hg, if_pos (by omega), run_do hg, if_pos (by omega)]
      rfl
    rw [run_do_panic hh]
  · rw [run_sum, Sm3Mem.checkSum, if_pos (by rw [digest_nx]; omega)]
  · obtain ⟨m5, r5, d5, _⟩ := run_reset o m4
    rw [run_do r5]
    have : Sm3.Inv (m5.digest o) [] := by
      rw [d5]
      exact ⟨digest_xlen m4 o, rfl, [], by simp [Sm3.Digest.reset], by simp, by simp [Sm3.Digest.reset], rfl⟩
    rw [sum_of_inv this]

/-! ## Concrete cases -/

/-- All objects are fresh from `New`. -/
def fresh : Mem := fun _ c => match c with
  | .h 0 => Sm3.initV.a.toNat
  | .h 1 => Sm3.initV.b.toNat
  | .h 2 => Sm3.initV.c.toNat
  | .h 3 => Sm3.initV.d.toNat
  | .h 4 => Sm3.initV.e.toNat
  | .h 5 => Sm3.initV.f.toNat
  | .h 6 => Sm3.initV.g.toNat
  | .h 7 => Sm3.initV.h.toNat
  | _ => 0

theorem fresh_digest (o : Nat) : fresh.digest o = Sm3.new := by
  simp only [Mem.digest, fresh]
  decide

theorem fresh_holds (o : Nat) : HoldsData fresh o [] := ⟨[], fresh_digest o, rfl⟩

/-- Object `o` with `p` written to it. -/
theorem holds_after_write (o : Nat) (p : Bytes) : ∃ m, HoldsData m o p := by
  obtain ⟨m, _, h, _⟩ := run_write o p fresh (Nat.zero_le _)
  exact ⟨m, [.write p], by rw [h, fresh_digest]; rfl, by simp [logAfter]⟩

/-- Three goroutines: the first hashes in two parts with object 0, the second writes to object 1 and sums 2, the third sums 2 also. What the first
does after its first `Sum` depends on the digest. -/
def threeClients : List Client :=
  [.call 0 (.write [1, 2]) fun _ => .call 0 .sum fun r => if r = .summed .panic then .stop else .call 0 (.write [3]) fun _ => .call 0 .sum fun _ => .stop,
   .call 1 (.write [9]) fun _ => .call 2 .sum fun _ => .call 1 .reset fun _ => .stop,
   .call 2 .sum fun _ => .stop]

theorem C145_case : NoConflict (fun i o => i = o ∧ i < 2) (fun i o => (i = o ∧ i < 2) ∨ (o = 2 ∧ 1 ≤ i)) threeClients ∧
    (∀ i < threeClients.length, ∀ o, (i = o ∧ i < 2) ∨ (o = 2 ∧ 1 ≤ i) → HoldsData fresh o []) ∧
    threeClients.map (fun c => (ideal c fun _ => []).1) =
      [[.wrote (.ok 2), .summed (.ok (Sm3Spec.sm3 [1, 2])), .wrote (.ok 1), .summed (.ok (Sm3Spec.sm3 [1, 2, 3]))],
       [.wrote (.ok 1), .summed (.ok (Sm3Spec.sm3 [])), .reset],
       [.summed (.ok (Sm3Spec.sm3 []))]] := by
  refine ⟨⟨?_, fun i o h => .inl h, fun i j hij o h => ?_⟩, fun _ _ o _ => fresh_holds o, ?_⟩
  · intro i c hc
    match i, hc with
    | 0, hc =>
      obtain rfl := Option.some.inj hc
      refine ⟨⟨rfl, by decide⟩, fun _ => ⟨.inl ⟨rfl, by decide⟩, fun r => ?_⟩⟩
      dsimp only
      split
      · trivial
      · exact ⟨⟨rfl, by decide⟩, fun _ => ⟨.inl ⟨rfl, by decide⟩, fun _ => trivial⟩⟩
    | 1, hc =>
      obtain rfl := Option.some.inj hc
      exact ⟨⟨rfl, by decide⟩, fun _ => ⟨.inr ⟨rfl, by decide⟩, fun _ => ⟨⟨rfl, by decide⟩, fun _ => trivial⟩⟩⟩
    | 2, hc =>
      obtain rfl := Option.some.inj hc
      exact ⟨.inr ⟨rfl, by decide⟩, fun _ => trivial⟩
  · dsimp only at h ⊢
    omega
  · simp [threeClients, ideal, upd]

/-- Two goroutines with a lock and one object. -/
theorem C145_locked_case : (∀ o, HoldsData fresh o []) ∧
    idealLocked (fun _ => []) [.call 0 (.write [1]) fun _ => .call 0 .sum fun _ => .stop, .call 0 (.write [2]) fun _ => .call 0 .reset fun _ => .stop]
      [] [0, 1, 0, 1] =
      [(1, .reset), (0, .summed (.ok (Sm3Spec.sm3 [1, 2]))), (1, .wrote (.ok 1)), (0, .wrote (.ok 1))] := by
  refine ⟨fresh_holds, ?_⟩
  simp [idealLocked, upd]

/-- The conditions of `C145_sum_during_write` and `C145_two_writes` can be met: an object with 60 octets and two arguments of 3 octets. -/
theorem C145_race_case : ∃ m, HoldsData m 0 (List.replicate 60 7) ∧ 0 < (List.replicate 60 (7 : UInt8)).length % 64 ∧
    ([1, 2, 3] : Bytes).length % 64 ≠ 0 ∧ (List.replicate 60 (7 : UInt8)).length % 64 + ([1, 2, 3] : Bytes).length < 64 ∧
    64 < (List.replicate 60 (7 : UInt8)).length % 64 + ([1, 2, 3] : Bytes).length + ([4, 5, 6] : Bytes).length := by
  obtain ⟨m, h⟩ := holds_after_write 0 (List.replicate 60 7)
  exact ⟨m, h, by decide, by decide, by decide, by decide⟩

end MCrypto.Props
