import Verif.Props.Sm2Ints
import Verif.Sm2.Sched
/-
C136: goroutines that use package sm2 at the same time.
-/
namespace MCrypto.Props
open MCrypto MCrypto.Curve MCrypto.Sm2Mem

theorem fr_attempt {α : Type} {n : Nat} {x : M α} {Q : α → Prop} (h : Fr n x Q) : Fr n x.attempt (fun r => ∀ a, r = .ok a → Q a) := by
  induction x with
  | done r => exact Fr.pure (fr_done_iff.mp h)
  | alloc v k ih => exact fr_alloc_iff.mpr fun p hp => ih p (fr_alloc h hp)
  | load p k ih => exact fr_load_iff.mpr fun v => ih v (fr_load h v)
  | store z v k ih => exact fr_store_iff.mpr ⟨(fr_store h).1, ih (fr_store h).2⟩

theorem fr_client {n : Nat} (g : Globals) (c : Client) (h : c.Local n) : Fr n (c.prog g) (fun _ => True) := by
  induction c with
  | stop => exact Fr.pure trivial
  | call c k ih => exact (fr_attempt (fr_call g c)).bind fun r hr => (ih r (h r hr)).bind fun _ _ => .pure trivial
  | assign z v k ih => exact (fr_put v h.1).bind fun _ _ => ih h.2

/-- Goroutine `t` has come as far as `k` accesses in an uninterrupted execution of `x` lead. -/
structure Along (shared : Ints) (x : M (List (Res Out))) (k : Nat) (t : Goroutine) : Prop where
  fr : Fr shared.length t.rest (fun _ => True)
  run : t.rest.run (shared ++ t.own) = x.run shared
  steps : t.rest.steps (shared ++ t.own) = x.steps shared - k

theorem along_step {shared : Ints} {x : M (List (Res Out))} {k : Nat} {t : Goroutine} (h : Along shared x k t) :
    (t.step shared).1 = shared ∧ Along shared x (k + 1) (t.step shared).2 := by
  obtain ⟨own, rest⟩ := t
  obtain ⟨h1, h2, h3⟩ := h
  cases rest with
  | done r =>
    refine ⟨rfl, h1, h2, ?_⟩
    simp only [M.steps, Goroutine.step] at h3 ⊢
    omega
  | alloc v f =>
    refine ⟨rfl, fr_alloc h1 (by omega), ?_, ?_⟩
    · simp only [M.run, Goroutine.step, List.length_append, List.append_assoc] at h2 ⊢
      exact h2
    · simp only [M.steps, Goroutine.step, List.length_append, List.append_assoc] at h3 ⊢
      omega
  | load p f =>
    have e : (if p < shared.length then shared.get p else Ints.get own (p - shared.length)) = Ints.get (shared ++ own) p := by
      by_cases hp : p < shared.length
      · rw [if_pos hp, get_old hp]
      · rw [if_neg hp]
        have := get_new shared own (p - shared.length)
        rw [show shared.length + (p - shared.length) = p by omega] at this
        rw [this]; rfl
    refine ⟨rfl, fr_load h1 _, ?_, ?_⟩
    · simp only [M.run, Goroutine.step] at h2 ⊢
      rw [e]
      exact h2
    · simp only [M.steps, Goroutine.step] at h3 ⊢
      rw [e]
      omega
  | store z v f =>
    obtain ⟨hz, hf⟩ := fr_store h1
    have e : (shared ++ own).set z v = shared ++ own.set (z - shared.length) v := List.set_append_right _ _ hz
    have hs : Goroutine.step shared ⟨own, .store z v f⟩ = (shared, ⟨own.set (z - shared.length) v, f⟩) := by
      simp only [Goroutine.step]
      rw [if_neg (by omega)]
    rw [hs]
    refine ⟨rfl, hf, ?_, ?_⟩
    · simp only [M.run] at h2 ⊢
      rw [← e]
      exact h2
    · simp only [M.steps] at h3 ⊢
      rw [← e]
      omega

/-- All goroutines have come as far as the schedule says. -/
structure SysAlong (g : Globals) (shared : Ints) (clients : List Client) (schedule : List Nat) (s : Sys) : Prop where
  same : s.shared = shared
  gs : ∀ (i : Nat) (c : Client), clients[i]? = some c → ∃ t, s.gs[i]? = some t ∧ Along shared (c.prog g) (schedule.count i) t
  len : s.gs.length = clients.length

theorem exec_along (g : Globals) (shared : Ints) (clients : List Client) (hl : ∀ c ∈ clients, c.Local shared.length) (schedule : List Nat) :
    SysAlong g shared clients schedule ((Sys.start g shared clients).exec schedule) := by
  induction schedule using List.reverseRecOn with
  | nil =>
    refine ⟨rfl, fun i c h => ⟨⟨[], c.prog g⟩, ?_, ?_⟩, ?_⟩
    · simp only [Sys.exec, Sys.start, List.foldl_nil, List.getElem?_map, h, Option.map_some]
    · refine ⟨fr_client g c (hl c (List.mem_of_getElem? h)), ?_, ?_⟩
      · dsimp only; rw [List.append_nil]
      · dsimp only; rw [List.append_nil, List.count_nil, Nat.sub_zero]
    · simp only [Sys.exec, Sys.start, List.foldl_nil, List.length_map]
  | append_singleton l j ih =>
    have e : (Sys.start g shared clients).exec (l ++ [j]) = ((Sys.start g shared clients).exec l).step j := by
      unfold Sys.exec
      rw [List.foldl_append]; rfl
    rw [e]
    generalize (Sys.start g shared clients).exec l = s at *
    obtain ⟨h1, h2, h3⟩ := ih
    unfold Sys.step
    cases hj : s.gs[j]? with
    | none =>
      refine ⟨h1, fun i c hc => ?_, h3⟩
      obtain ⟨t, ht, ha⟩ := h2 i c hc
      have hne : j ≠ i := fun e => by rw [e, ht] at hj; cases hj
      refine ⟨t, ht, ?_⟩
      rw [List.count_append, List.count_singleton, if_neg (by simpa using hne), Nat.add_zero]
      exact ha
    | some tj =>
      have hjl : j < s.gs.length := (List.getElem?_eq_some_iff.mp hj).1
      obtain ⟨tj', htj, haj⟩ := h2 j clients[j] (List.getElem?_eq_getElem (by omega))
      rw [hj] at htj
      obtain rfl := Option.some.inj htj
      obtain ⟨k1, k2⟩ := along_step haj
      refine ⟨by dsimp only; rw [h1]; exact k1, fun i c hc => ?_, by dsimp only; rw [List.length_set]; exact h3⟩
      dsimp only
      rw [h1]
      by_cases hij : j = i
      · subst hij
        refine ⟨_, by rw [List.getElem?_set_self hjl], ?_⟩
        rw [List.count_append, List.count_singleton, if_pos (by simp)]
        have : clients[j] = c := by
          have := List.getElem?_eq_getElem (l := clients) (i := j) (by omega)
          rw [this] at hc
          exact Option.some.inj hc
        rw [← this]
        exact k2
      · obtain ⟨t, ht, ha⟩ := h2 i c hc
        refine ⟨t, by rw [List.getElem?_set_ne hij]; exact ht, ?_⟩
        rw [List.count_append, List.count_singleton, if_neg (by simpa using hij), Nat.add_zero]
        exact ha

/-- **C136** Whatever the goroutines call and however they are scheduled, the shared integers keep their values at every moment. -/
theorem C136_shared_unchanged (g : Globals) (shared : Ints) (clients : List Client) (hl : ∀ c ∈ clients, c.Local shared.length)
    (schedule : List Nat) : ((Sys.start g shared clients).exec schedule).shared = shared :=
  (exec_along g shared clients hl schedule).same

/-- **C136** There are no data races: at no moment is a goroutine about to assign to an integer that others can access. -/
theorem C136_no_race (g : Globals) (shared : Ints) (clients : List Client) (hl : ∀ c ∈ clients, c.Local shared.length) (schedule : List Nat)
    (i : Nat) (t : Goroutine) (ht : ((Sys.start g shared clients).exec schedule).gs[i]? = some t) (z : Nat) (v : Int) (k : M (List (Res Out)))
    (hs : t.rest = .store z v k) : shared.length ≤ z := by
  have h := exec_along g shared clients hl schedule
  have hi : i < clients.length := by rw [← h.len]; exact (List.getElem?_eq_some_iff.mp ht).1
  obtain ⟨t', ht', ha⟩ := h.gs i clients[i] (List.getElem?_eq_getElem hi)
  rw [ht] at ht'
  obtain rfl := Option.some.inj ht'
  have := ha.fr
  rw [hs] at this
  exact (fr_store this).1

/-- **C136** A goroutine that has ended has got from its calls what it would have got had it been alone, and has left the integers that it
allocated with the same values. -/
theorem C136_results (g : Globals) (shared : Ints) (clients : List Client) (hl : ∀ c ∈ clients, c.Local shared.length) (schedule : List Nat)
    (i : Nat) (c : Client) (hc : clients[i]? = some c) (t : Goroutine) (ht : ((Sys.start g shared clients).exec schedule).gs[i]? = some t)
    (r : Res (List (Res Out))) (hr : t.rest = .done r) : (shared ++ t.own, r) = c.prog g shared := by
  obtain ⟨t', ht', ha⟩ := (exec_along g shared clients hl schedule).gs i c hc
  rw [ht] at ht'
  obtain rfl := Option.some.inj ht'
  have := ha.run
  rw [hr] at this
  exact this

/-- **C136** No goroutine waits for another: it has ended as soon as it was scheduled as often as the number of its accesses when it is alone. -/
theorem C136_ends (g : Globals) (shared : Ints) (clients : List Client) (hl : ∀ c ∈ clients, c.Local shared.length) (schedule : List Nat)
    (i : Nat) (c : Client) (hc : clients[i]? = some c) (hn : (c.prog g).steps shared ≤ schedule.count i) :
    ∃ own, ((Sys.start g shared clients).exec schedule).gs[i]? = some ⟨own, .done (c.prog g shared).2⟩ := by
  obtain ⟨t, ht, ha⟩ := (exec_along g shared clients hl schedule).gs i c hc
  obtain ⟨own, rest⟩ := t
  have hs := ha.steps
  have hr := ha.run
  rw [Nat.sub_eq_zero_of_le hn] at hs
  cases rest with
  | done r =>
    refine ⟨own, ?_⟩
    rw [ht, ← hr]
    rfl
  | alloc v k => simp only [M.steps] at hs; omega
  | load p k => simp only [M.steps] at hs; omega
  | store z v k => simp only [M.steps] at hs; omega

theorem attempt_run {α : Type} (x : M α) (m : Ints) : x.attempt m = ((x m).1, .ok (x m).2) := by
  induction x generalizing m with
  | done r => rfl
  | alloc v k ih => exact ih _ _
  | load p k ih => exact ih _ _
  | store z v k ih => exact ih _

theorem one_call (g : Globals) (m : Ints) (c : SmCall) : (Client.prog g (.call c fun _ => .stop) m).2 = .ok [(c.prog g m).2] := by
  unfold Client.prog
  simp only [bind_run, attempt_run, Client.prog, pure_run]

/-- What a call returns: a value, an error or a panic. -/
def asOut {α : Type} (f : α → Out) : Res α → Res Out
  | .ok a => .ok (f a)
  | .err e => .err e
  | .panic => .panic

theorem bytes_out {α : Type} {x : M α} {m : Ints} {y : Res α} {f : α → Out} (h : (x m).2 = y) :
    ((x >>= fun b => pure (f b)) m).2 = asOut f y := by
  rw [bind_run]
  generalize x m = z at *
  obtain ⟨m', r⟩ := z
  simp only [] at h
  subst h
  cases r <;> rfl

/-- **C136** So a key that several goroutines use at the same time signs, verifies, encrypts and decrypts in each of them as its value
determines. -/
theorem C136_key_shared (g : Globals) (shared : Ints) (clients : List Client) (hl : ∀ c ∈ clients, c.Local shared.length) (schedule : List Nat)
    (hi : Intact shared g) (priv : PrivRef) (v : Sm2.PrivateKey) (hp : priv.Holds shared g v)
    (i : Nat) (c : SmCall) (hc : clients[i]? = some (.call c fun _ => .stop)) (own : Ints) (r : Res (List (Res Out)))
    (ht : ((Sys.start g shared clients).exec schedule).gs[i]? = some ⟨own, .done r⟩) :
    (∀ rd inp uid, c = .sign rd priv inp uid → r = .ok [asOut .bytes (Sm2.sign rd v inp uid)]) ∧
    (∀ rd digest, c = .signDigest rd priv digest → r = .ok [asOut .bytes (Sm2.signDigest rd v digest)]) ∧
    (∀ inp uid sig, c = .verify priv.pub inp uid sig → r = .ok [.ok (.bool (Sm2.verify v.pub inp uid sig))]) ∧
    (∀ digest sig, c = .verifyDigest priv.pub digest sig → r = .ok [.ok (.bool (Sm2.verifyDigest v.pub digest sig))]) ∧
    (∀ rd msg, c = .encryt rd priv.pub msg → r = .ok [asOut (fun x => .bytes x.1) (Sm2.encryt rd v.pub msg)]) ∧
    (∀ data tail, c = .decryt priv data tail → r = .ok [asOut .decrypted (Sm2.decryt v data tail)]) := by
  have hr := C136_results g shared clients hl schedule i _ hc _ ht r rfl
  have h2 : r = .ok [(c.prog g shared).2] := by rw [← one_call, ← hr]
  rw [h2]
  refine ⟨?_, ?_, ?_, ?_, ?_, ?_⟩
  · rintro rd inp uid rfl
    rw [show (SmCall.prog g (.sign rd priv inp uid) shared).2 = asOut .bytes (Sm2.sign rd v inp uid) from
      bytes_out (sign_run hi hp rd inp uid)]
  · rintro rd digest rfl
    rw [show (SmCall.prog g (.signDigest rd priv digest) shared).2 = asOut .bytes (Sm2.signDigest rd v digest) from
      bytes_out (signDigest_run hi hp rd digest)]
  · rintro inp uid sig rfl
    rw [show (SmCall.prog g (.verify priv.pub inp uid sig) shared).2 = .ok (.bool (Sm2.verify v.pub inp uid sig)) from
      bytes_out (verify_run hi hp.pub inp uid sig)]
  · rintro digest sig rfl
    rw [show (SmCall.prog g (.verifyDigest priv.pub digest sig) shared).2 = .ok (.bool (Sm2.verifyDigest v.pub digest sig)) from
      bytes_out (verifyDigest_run hi hp.pub digest sig)]
  · rintro rd msg rfl
    rw [show (SmCall.prog g (.encryt rd priv.pub msg) shared).2 = asOut (fun x => .bytes x.1) (Sm2.encryt rd v.pub msg) from
      bytes_out (encryt_run msg _ rd (Nat.lt_succ_self _) _ hi hp.pub)]
  · rintro data tail rfl
    rw [show (SmCall.prog g (.decryt priv data tail) shared).2 = asOut .decrypted (Sm2.decryt v data tail) from
      bytes_out (decryt_run hi hp data tail)]

/-! ### Examples -/

/-- A goroutine that makes a key, signs with it and with a shared one, and then erases its own private number. -/
def exGoroutine (rd1 rd2 rd3 : Reader) (digest : Bytes) : Client :=
  .call (.generateKey rd1) fun r =>
    match r with
    | .ok (.key k) => .call (.signDigest rd2 k digest) fun _ => .call (.signDigest rd3 exPriv digest) fun _ => .assign k.d 0 .stop
    | _ => .stop

theorem exGoroutine_local (rd1 rd2 rd3 : Reader) (digest : Bytes) : (exGoroutine rd1 rd2 rd3 digest).Local exInts.length := by
  intro r hr
  cases r with
  | err e => exact trivial
  | panic => exact trivial
  | ok o =>
    cases o with
    | key k => exact fun _ _ _ _ => ⟨hr (.key k) rfl k.d (by simp [Out.refs]), trivial⟩
    | ints a b => exact trivial
    | bytes b => exact trivial
    | bool b => exact trivial
    | decrypted d => exact trivial

/-- Three goroutines use the key 5: two sign, and one verifies with the integers of the key itself as the signature. -/
def exClients (rd1 rd2 rd3 rd4 : Reader) : List Client :=
  [exGoroutine rd1 rd2 rd3 [1], .call (.sign rd4 exPriv [7] []) fun _ => .stop, .call (.verifyDigestRS exPriv.pub [1] 7 8) fun _ => .stop]

theorem exClients_local (rd1 rd2 rd3 rd4 : Reader) : ∀ c ∈ exClients rd1 rd2 rd3 rd4, c.Local exInts.length := by
  intro c hc
  simp only [exClients, List.mem_cons, List.not_mem_nil, or_false] at hc
  rcases hc with rfl | rfl | rfl
  · exact exGoroutine_local _ _ _ _
  · exact fun _ _ => trivial
  · exact fun _ _ => trivial

example (rd1 rd2 rd3 rd4 : Reader) (schedule : List Nat) (hn : (Client.prog exGlobals (.call (.sign rd4 exPriv [7] []) fun _ => .stop)).steps exInts ≤ schedule.count 1) :
    ∃ own, ((Sys.start exGlobals exInts (exClients rd1 rd2 rd3 rd4)).exec schedule).gs[1]? =
      some ⟨own, .done (.ok [asOut .bytes (Sm2.sign rd4 exPrivVal [7] [])])⟩ := by
  obtain ⟨own, h⟩ := C136_ends exGlobals exInts _ (exClients_local rd1 rd2 rd3 rd4) schedule 1 _ rfl hn
  have := (C136_key_shared exGlobals exInts _ (exClients_local rd1 rd2 rd3 rd4) schedule exInts_intact exPriv exPrivVal exPriv_holds 1 _ rfl own _ h).1 _ _ _ rfl
  rw [this] at h
  exact ⟨own, h⟩

end MCrypto.Props
