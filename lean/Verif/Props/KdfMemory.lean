import Verif.Pkcs12.CryptoMemLemmas
import Verif.Props.P12Ex
/-
Property C143: the password, the salt, the message and the data handed to the key derivation, the encryption, the decryption and the MAC of
pkcs12 are not written to, and the results are new memory with the right contents, whatever `append` leaves behind a slice.
-/
namespace MCrypto.Props
open MCrypto MCrypto.Go MCrypto.P12 Asn1

/-! ### Specification -/

/-- Nothing that was there has been written to. -/
def Untouched (h h' : Heap) : Prop := h.length ≤ h'.length ∧ ∀ a, a < h.length → h'.array a = h.array a

/-- What a function returned (`r`) in memory `h'`, against the value `v` it should return: contents `x` in memory that was not in use in `h`, or the
same error, or the same panic. -/
structure Returns (h h' : Heap) (r : Res Slice) (v : Res Bytes) : Prop where
  ok : ∀ x, v = .ok x → ∃ s, r = .ok s ∧ h'.Valid s ∧ h'.read s = x ∧ (0 < s.cap → h.length ≤ s.arr)
  err : ∀ e, v = .err e → r = .err e
  panic : v = .panic → r = .panic

theorem Returns.of_gives {h h' : Heap} {r : Res Slice} {v : Res Bytes} (g : Mem.Gives h.length h' r v) : Returns h h' r v := by
  refine ⟨fun x hx => ?_, fun e he => ?_, fun hp => ?_⟩
  · subst hx
    cases r with
    | ok s => exact ⟨s, rfl, g.valid, g.read, g.new⟩
    | err _ => exact g.elim
    | panic => exact g.elim
  · subst he
    cases r with
    | ok s => exact g.elim
    | err f => exact congrArg _ g
    | panic => exact g.elim
  · subst hp
    cases r with
    | ok s => exact g.elim
    | err f => exact g.elim
    | panic => rfl

theorem Untouched.of_only {h h' : Heap} (o : Mem.Only (fun _ => False) h h') : Untouched h h' := ⟨o.more, fun a ha => o.same a ha fun hf => hf⟩

/-! ### One call -/

/-- The key derivation, for every hash function, output and block length, salt, password, number of iterations, identifier and size. -/
theorem C143_pbkdf (room : Nat → Nat) (hash : Bytes → Bytes) (u v : Nat) (hv : 0 < v) (h : Heap) (salt password : Slice) (hs : h.Valid salt) (hp : h.Valid password)
    (r : Int) (ID : UInt8) (size : Nat) :
    Untouched h (Mem.pbkdf room hash u v h salt password r ID size).1 ∧
    Returns h (Mem.pbkdf room hash u v h salt password r ID size).1 (Mem.pbkdf room hash u v h salt password r ID size).2
      (P12.pbkdf hash u v (h.read salt) (h.read password) r ID size) := by
  obtain ⟨h1, h2⟩ := Mem.pbkdf_spec room hash u hv h hs hp r ID size
  refine ⟨.of_only h1, .of_gives ?_⟩
  generalize Mem.pbkdf room hash u v h salt password r ID size = y at *
  generalize P12.pbkdf hash u v (h.read salt) (h.read password) r ID size = x at *
  obtain ⟨h', y⟩ := y
  dsimp only at *
  cases y <;> cases x <;> first | exact h2 | exact h2.elim

theorem C143_decrypt (room : Nat → Nat) (P : Prims) (alg : AlgId) (h : Heap) (data password : Slice) (hd : h.Valid data) (hp : h.Valid password) :
    Untouched h (Mem.pbDecrypt room P alg h data password).1 ∧
    Returns h (Mem.pbDecrypt room P alg h data password).1 (Mem.pbDecrypt room P alg h data password).2 (P12.pbDecrypt P alg (h.read data) (h.read password)) :=
  have t := Mem.pbDecrypt_spec room P alg h hd hp
  ⟨.of_only t.1, .of_gives t.2⟩

theorem C143_encrypt (room : Nat → Nat) (P : Prims) (alg : AlgId) (h : Heap) (data password : Slice) (hd : h.Valid data) (hp : h.Valid password) :
    Untouched h (Mem.pbEncrypt room P alg h data password).1 ∧
    Returns h (Mem.pbEncrypt room P alg h data password).1 (Mem.pbEncrypt room P alg h data password).2 (P12.pbEncrypt P alg (h.read data) (h.read password)) :=
  have t := Mem.pbEncrypt_spec room P alg h hd hp
  ⟨.of_only t.1, .of_gives t.2⟩

theorem verifyMac_mem (room : Nat → Nat) (P : Prims) (md : MacData) (h : Heap) (digest salt message password : Slice) (hg : h.Valid digest) (hs : h.Valid salt)
    (hm : h.Valid message) (hp : h.Valid password) (h1 : md.mac.digest = h.read digest) (h2 : md.macSalt = h.read salt) :
    Mem.Only (fun _ => False) h (Mem.verifyMac room P md.mac.algorithm.algorithm h digest salt md.iterations message password).1 ∧
    (Mem.verifyMac room P md.mac.algorithm.algorithm h digest salt md.iterations message password).2 = P12.verifyMac P md (h.read message) (h.read password) := by
  unfold Mem.verifyMac P12.verifyMac
  by_cases ha : md.mac.algorithm.algorithm ≠ oidSHA1
  · rw [if_pos ha, if_pos ha]; exact ⟨Mem.Only.refl _ _, rfl⟩
  rw [if_neg ha, if_neg ha]
  obtain ⟨h', s, x, e1, e2, o, l⟩ := Mem.macOf_spec room P h hs hm hp md h2
  rw [e1, e2]
  simp only [Mem.andThen, Res.bind_ok]
  rw [l.read, Mem.read_keep hg o fun _ hf => hf, ← h1]
  split
  · exact ⟨o, rfl⟩
  · exact ⟨o, rfl⟩

theorem computeMac_mem (room : Nat → Nat) (P : Prims) (md : MacData) (h : Heap) (salt message password : Slice) (hs : h.Valid salt)
    (hm : h.Valid message) (hp : h.Valid password) (h2 : md.macSalt = h.read salt) :
    Mem.Only (fun _ => False) h (Mem.computeMac room P md.mac.algorithm.algorithm h salt md.iterations message password).1 ∧
    Mem.Gives h.length (Mem.computeMac room P md.mac.algorithm.algorithm h salt md.iterations message password).1
      (Mem.computeMac room P md.mac.algorithm.algorithm h salt md.iterations message password).2
      (P12.computeMac P md (h.read message) (h.read password) >>= fun m => .ok m.mac.digest) := by
  unfold Mem.computeMac P12.computeMac
  by_cases ha : md.mac.algorithm.algorithm ≠ oidSHA1
  · rw [if_pos ha, if_pos ha]; exact ⟨Mem.Only.refl _ _, rfl⟩
  rw [if_neg ha, if_neg ha]
  obtain ⟨h', s, x, e1, e2, o, l⟩ := Mem.macOf_spec room P h hs hm hp md h2
  rw [e1, e2]
  exact ⟨o, l⟩

/-- `verifyMac`: the stored digest, the salt, the message and the password are only read; the verdict is the one for their contents. -/
theorem C143_verify_mac (room : Nat → Nat) (P : Prims) (md : MacData) (h : Heap) (digest salt message password : Slice) (hg : h.Valid digest) (hs : h.Valid salt)
    (hm : h.Valid message) (hp : h.Valid password) (h1 : md.mac.digest = h.read digest) (h2 : md.macSalt = h.read salt) :
    Untouched h (Mem.verifyMac room P md.mac.algorithm.algorithm h digest salt md.iterations message password).1 ∧
    (Mem.verifyMac room P md.mac.algorithm.algorithm h digest salt md.iterations message password).2 = P12.verifyMac P md (h.read message) (h.read password) :=
  have t := verifyMac_mem room P md h digest salt message password hg hs hm hp h1 h2
  ⟨.of_only t.1, t.2⟩

theorem C143_compute_mac (room : Nat → Nat) (P : Prims) (md : MacData) (h : Heap) (salt message password : Slice) (hs : h.Valid salt)
    (hm : h.Valid message) (hp : h.Valid password) (h2 : md.macSalt = h.read salt) :
    Untouched h (Mem.computeMac room P md.mac.algorithm.algorithm h salt md.iterations message password).1 ∧
    Returns h (Mem.computeMac room P md.mac.algorithm.algorithm h salt md.iterations message password).1
      (Mem.computeMac room P md.mac.algorithm.algorithm h salt md.iterations message password).2
      (P12.computeMac P md (h.read message) (h.read password) >>= fun m => .ok m.mac.digest) :=
  have t := computeMac_mem room P md h salt message password hs hm hp h2
  ⟨.of_only t.1, .of_gives t.2⟩

/-! ### Any history of calls -/

/-- One call with slices of the caller. -/
inductive P12Call where
  | derive (salt password : Slice) (r : Int) (ID : UInt8) (size : Nat)
  | decrypt (alg : AlgId) (data password : Slice)
  | encrypt (alg : AlgId) (data password : Slice)
  | mac (alg : AlgId) (salt : Slice) (iterations : Int) (message password : Slice)

/-- The call in memory `h`. -/
def P12Call.run (room : Nat → Nat) (P : Prims) (h : Heap) : P12Call → Heap × Res Slice
  | .derive salt password r ID size => Mem.pbkdf room P.sha1 20 64 h salt password r ID size
  | .decrypt alg data password => Mem.pbDecrypt room P alg h data password
  | .encrypt alg data password => Mem.pbEncrypt room P alg h data password
  | .mac alg salt n message password => Mem.computeMac room P alg.algorithm h salt n message password

/-- The value it should return, from the contents of its arguments. -/
def P12Call.value (P : Prims) (h : Heap) : P12Call → Res Bytes
  | .derive salt password r ID size => P12.pbkdf P.sha1 20 64 (h.read salt) (h.read password) r ID size
  | .decrypt alg data password => P12.pbDecrypt P alg (h.read data) (h.read password)
  | .encrypt alg data password => P12.pbEncrypt P alg (h.read data) (h.read password)
  | .mac alg salt n message password =>
    P12.computeMac P ⟨⟨alg, []⟩, h.read salt, n⟩ (h.read message) (h.read password) >>= fun m => .ok m.mac.digest

/-- Its arguments are slices of `h`. -/
def P12Call.Valid (h : Heap) : P12Call → Prop
  | .derive salt password _ _ _ => h.Valid salt ∧ h.Valid password
  | .decrypt _ data password => h.Valid data ∧ h.Valid password
  | .encrypt _ data password => h.Valid data ∧ h.Valid password
  | .mac _ salt _ message password => h.Valid salt ∧ h.Valid message ∧ h.Valid password

/-- Several calls, one after the other. -/
def p12Run (room : Nat → Nat) (P : Prims) : List P12Call → Heap → Heap × List (Res Slice)
  | [], h => (h, [])
  | c :: t, h =>
    let (h, r) := c.run room P h
    let (h, rs) := p12Run room P t h
    (h, r :: rs)

theorem P12Call.step (room : Nat → Nat) (P : Prims) (h : Heap) (c : P12Call) (hc : c.Valid h) :
    Mem.Only (fun _ => False) h (c.run room P h).1 ∧ Mem.Gives h.length (c.run room P h).1 (c.run room P h).2 (c.value P h) := by
  cases c with
  | derive salt password r ID size =>
    obtain ⟨h', s, x, e1, e2, o, l⟩ := Mem.kdf_ok room P h hc.1 hc.2 r ID size
    unfold P12Call.run P12Call.value
    dsimp only
    rw [e1, e2]
    exact ⟨o, l⟩
  | decrypt alg data password => exact Mem.pbDecrypt_spec room P alg h hc.1 hc.2
  | encrypt alg data password => exact Mem.pbEncrypt_spec room P alg h hc.1 hc.2
  | mac alg salt n message password => exact computeMac_mem room P ⟨⟨alg, []⟩, h.read salt, n⟩ h salt message password hc.1 hc.2.1 hc.2.2 rfl

theorem P12Call.valid_keep {h h' : Heap} (o : Mem.Only (fun _ => False) h h') {c : P12Call} (hc : c.Valid h) : c.Valid h' := by
  cases c with
  | derive => exact ⟨Mem.valid_keep hc.1 o, Mem.valid_keep hc.2 o⟩
  | decrypt => exact ⟨Mem.valid_keep hc.1 o, Mem.valid_keep hc.2 o⟩
  | encrypt => exact ⟨Mem.valid_keep hc.1 o, Mem.valid_keep hc.2 o⟩
  | mac => exact ⟨Mem.valid_keep hc.1 o, Mem.valid_keep hc.2.1 o, Mem.valid_keep hc.2.2 o⟩

theorem P12Call.value_keep (P : Prims) {h h' : Heap} (o : Mem.Only (fun _ => False) h h') {c : P12Call} (hc : c.Valid h) : c.value P h' = c.value P h := by
  cases c with
  | derive => unfold P12Call.value; dsimp only; rw [Mem.read_keep hc.1 o fun _ hf => hf, Mem.read_keep hc.2 o fun _ hf => hf]
  | decrypt => unfold P12Call.value; dsimp only; rw [Mem.read_keep hc.1 o fun _ hf => hf, Mem.read_keep hc.2 o fun _ hf => hf]
  | encrypt => unfold P12Call.value; dsimp only; rw [Mem.read_keep hc.1 o fun _ hf => hf, Mem.read_keep hc.2 o fun _ hf => hf]
  | mac => unfold P12Call.value; dsimp only; rw [Mem.read_keep hc.1 o fun _ hf => hf, Mem.read_keep hc.2.1 o fun _ hf => hf, Mem.read_keep hc.2.2 o fun _ hf => hf]

theorem gives_keep {n m : Nat} (hnm : n ≤ m) {h h' : Heap} (o : Mem.Only (fun _ => False) h h') {r : Res Slice} {v : Res Bytes} (g : Mem.Gives m h r v) : Mem.Gives n h' r v := by
  cases r <;> cases v <;> first | exact g.elim | exact g | skip
  have l := Mem.Live.keep g o fun _ hf => hf
  exact ⟨l.valid, l.read, fun hc => hnm.trans (l.new hc)⟩

theorem p12Run_spec (room : Nat → Nat) (P : Prims) (cs : List P12Call) : ∀ (h : Heap), (∀ c ∈ cs, c.Valid h) →
    Mem.Only (fun _ => False) h (p12Run room P cs h).1 ∧
    List.Forall₂ (fun c r => Mem.Gives h.length (p12Run room P cs h).1 r (c.value P h)) cs (p12Run room P cs h).2 ∧
    List.Pairwise (fun r q => ∀ s t : Slice, r = .ok s → q = .ok t → 0 < s.cap → 0 < t.cap → s.arr ≠ t.arr) (p12Run room P cs h).2 ∧
    ∀ r ∈ (p12Run room P cs h).2, ∀ s : Slice, r = .ok s → 0 < s.cap → h.length ≤ s.arr := by
  induction cs with
  | nil => intro h _; exact ⟨Mem.Only.refl _ _, .nil, .nil, fun _ hr => absurd hr List.not_mem_nil⟩
  | cons c t ih =>
    intro h hv
    obtain ⟨o1, g1⟩ := P12Call.step room P h c (hv c List.mem_cons_self)
    unfold p12Run
    generalize c.run room P h = y at *
    obtain ⟨h1, r⟩ := y
    dsimp only at *
    obtain ⟨o2, f2, p2, n2⟩ := ih h1 fun d hd => P12Call.valid_keep o1 (hv d (List.mem_cons_of_mem _ hd))
    generalize p12Run room P t h1 = z at *
    obtain ⟨h2, rs⟩ := z
    dsimp only at *
    refine ⟨o1.trans o2 fun _ _ hf => hf, .cons (gives_keep le_rfl o2 g1) ?_, List.pairwise_cons.mpr ⟨?_, p2⟩, ?_⟩
    · have key : ∀ {l : List P12Call} {m : List (Res Slice)}, (∀ d ∈ l, d.Valid h) → List.Forall₂ (fun c r => Mem.Gives h1.length h2 r (c.value P h1)) l m →
          List.Forall₂ (fun c r => Mem.Gives h.length h2 r (c.value P h)) l m := by
        intro l m hl hf
        induction hf with
        | nil => exact .nil
        | @cons a b l m hab _ ihf =>
          refine .cons ?_ (ihf fun d hd => hl d (List.mem_cons_of_mem _ hd))
          rw [← P12Call.value_keep P o1 (hl a List.mem_cons_self)]
          exact gives_keep o1.more (Mem.Only.refl _ _) hab
      exact key (fun d hd => hv d (List.mem_cons_of_mem _ hd)) f2
    · intro q hq s t' hs ht hcs hct
      have hsl : s.arr < h1.length := by
        subst hs
        cases hval : c.value P h with
        | ok x => rw [hval] at g1; exact Mem.Live.lt g1 hcs
        | err _ => rw [hval] at g1; exact g1.elim
        | panic => rw [hval] at g1; exact g1.elim
      have := n2 q hq t' ht hct
      omega
    · intro q hq s hs hcs
      rcases List.mem_cons.mp hq with e | hq
      · subst e; subst hs
        cases hval : c.value P h with
        | ok x => rw [hval] at g1; exact Mem.Live.new g1 hcs
        | err _ => rw [hval] at g1; exact g1.elim
        | panic => rw [hval] at g1; exact g1.elim
      · exact o1.more.trans (n2 q hq s hs hcs)

/-- Any number of derivations, encryptions, decryptions and MACs with the same or different slices of the caller, as when a file is written or
opened with one password: the caller's memory is the same afterwards, every call returned (and its result still is, at the end) the value for
the original contents of its arguments, and no two results share memory with each other or with the caller. -/
theorem C143_history (room : Nat → Nat) (P : Prims) (cs : List P12Call) (h : Heap) (hv : ∀ c ∈ cs, c.Valid h) :
    Untouched h (p12Run room P cs h).1 ∧
    List.Forall₂ (fun c r => Returns h (p12Run room P cs h).1 r (c.value P h)) cs (p12Run room P cs h).2 ∧
    List.Pairwise (fun r q => ∀ s t : Slice, r = .ok s → q = .ok t → 0 < s.cap → 0 < t.cap → s.arr ≠ t.arr) (p12Run room P cs h).2 := by
  obtain ⟨a, b, c, -⟩ := p12Run_spec room P cs h hv
  exact ⟨.of_only a, b.imp fun _ _ g => .of_gives g, c⟩

/-! ### A case -/

/-- The hash of the case: 20 octets that depend on the input. -/
def caseHash (b : Bytes) : Bytes := List.replicate 19 0x5a ++ [b.foldl (fun x y => 3 * x + y) 1]

/-- A caller with one array that holds a salt of two octets and, behind it, a password of three (with more octets behind it that `append` to the
slices would overwrite). -/
def caseHeap : Heap := [[1, 2, 0, 0x41, 0, 9, 9, 9, 9, 9]]
def caseSalt : Slice := ⟨0, 0, 2, 10⟩
def casePw : Slice := ⟨0, 2, 3, 8⟩

/-- Two blocks, two iterations, block length 8, with capacity to spare: 24 octets, the caller's array as it was. -/
theorem C143_case : (Mem.pbkdf (fun n => n + 40) caseHash 20 8 caseHeap caseSalt casePw 2 1 24).1.array 0 = [1, 2, 0, 0x41, 0, 9, 9, 9, 9, 9] ∧
    (Mem.pbkdf (fun n => n + 40) caseHash 20 8 caseHeap caseSalt casePw 2 1 24).2 = .ok ⟨5, 0, 24, 40⟩ ∧
    P12.pbkdf caseHash 20 8 [1, 2] [0, 0x41, 0] 2 1 24 = .ok ((Mem.pbkdf (fun n => n + 40) caseHash 20 8 caseHeap caseSalt casePw 2 1 24).1.read ⟨5, 0, 24, 40⟩) ∧
    caseHeap.Valid caseSalt ∧ caseHeap.Valid casePw := by
  refine ⟨by decide +kernel, by decide +kernel, by decide +kernel, ⟨by decide, by decide⟩, ⟨by decide, by decide⟩⟩

/-- Had `append(salt...)` been used on the caller's slice instead of the copy made by `fillWithRepeats`, the caller would see it. -/
theorem C143_case_alias : (Mem.app (fun n => n + 40) caseHeap caseSalt [7, 7]).1.array 0 = [1, 2, 7, 7, 0, 9, 9, 9, 9, 9] := by decide +kernel

end MCrypto.Props
