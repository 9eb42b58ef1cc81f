import Verif.Pkcs12.CryptoMem
import Verif.Pkcs12.KdfMemLemmas
import Verif.Pkcs12.CryptoLemmas2
/-
What the functions of CryptoMem read and write.
-/
namespace MCrypto.P12.Mem
open MCrypto MCrypto.Go MCrypto.P12 Asn1

/-- The result: the value `x` in an array beyond the first `n`, the same error, or the same panic. -/
def Gives (n : Nat) (h : Heap) : Res Slice → Res Bytes → Prop
  | .ok s, .ok x => Live n h s x
  | .err e, .err f => e = f
  | .panic, .panic => True
  | _, _ => False

set_option linter.constructorNameAsVariable false in
theorem kdf_ok (room : Nat → Nat) (P : Prims) (h : Heap) {salt password : Slice} (hs : h.Valid salt) (hp : h.Valid password) (r : Int) (ID : UInt8) (size : Nat) :
    ∃ h' s x, pbkdf room P.sha1 20 64 h salt password r ID size = (h', .ok s) ∧ P12.pbkdf P.sha1 20 64 (h.read salt) (h.read password) r ID size = .ok x ∧
      Only (fun _ => False) h h' ∧ Live h.length h' s x := by
  obtain ⟨h1, h2⟩ := pbkdf_spec room P.sha1 20 (v := 64) (by decide) h hs hp r ID size
  have e := pbkdf_eq P (h.read salt) (h.read password) r ID size
  generalize pbkdf room P.sha1 20 64 h salt password r ID size = y at *
  obtain ⟨h', y⟩ := y
  generalize Rfc7292.kdf P.sha1 20 64 (h.read salt) (h.read password) (P12Spec.iters r) ID size = x at *
  rw [e] at h2 ⊢
  dsimp only at h1 h2
  cases y with
  | ok s => exact ⟨h', s, x, rfl, rfl, h1, h2⟩
  | err _ => exact h2.elim
  | panic => exact h2.elim

theorem pbeCipherFor_spec (room : Nat → Nat) (P : Prims) (alg : AlgId) (h : Heap) {password : Slice} (hp : h.Valid password) :
    Only (fun _ => False) h (pbeCipherFor room P alg h password).1 ∧ (pbeCipherFor room P alg h password).2 = P12.pbeCipherFor P alg (h.read password) := by
  unfold pbeCipherFor P12.pbeCipherFor deriveKey deriveIV
  cases cipherTypeFor alg.algorithm with
  | err e => exact ⟨Only.refl _ _, rfl⟩
  | panic => exact ⟨Only.refl _ _, rfl⟩
  | ok t =>
    cases unmarshalAll pbeParams alg.parameters.full with
    | err e => exact ⟨Only.refl _ _, rfl⟩
    | panic => exact ⟨Only.refl _ _, rfl⟩
    | ok params =>
      simp only [Res.bind_ok, andThen]
      obtain ⟨a1, a2, -⟩ := fresh_spec h.length h le_rfl params.salt
      generalize fresh h params.salt = f at *
      obtain ⟨h1, salt⟩ := f
      dsimp only at *
      obtain ⟨h2, key, x, e1, e2, o2, l2⟩ := kdf_ok room P h1 a1.valid (valid_keep hp a2) params.iterations 1 t.keyLen
      have o02 := a2.trans o2 fun _ _ hf => hf
      have s2 := a1.keep o2 fun _ hf => hf
      obtain ⟨h3, iv, y, e3, e4, o3, l3⟩ := kdf_ok room P h2 s2.valid (valid_keep hp o02) params.iterations 2 8
      rw [read_keep hp a2 fun _ hf => hf, a1.read] at e2
      rw [read_keep hp o02 fun _ hf => hf, s2.read] at e4
      rw [e1, e2]
      simp only [Res.bind_ok]
      rw [e3, e4]
      simp only [Res.bind_ok]
      have l2' := l2.keep o3 fun _ hf => hf
      rw [l2'.read]
      cases create P t x with
      | err e => exact ⟨o02.trans o3 fun _ _ hf => hf, rfl⟩
      | panic => exact ⟨o02.trans o3 fun _ _ hf => hf, rfl⟩
      | ok b =>
        refine ⟨o02.trans o3 fun _ _ hf => hf, ?_⟩
        simp only [Res.bind_ok]
        rw [l3.read]; rfl

theorem copyAt_all (A x : Bytes) (h : x.length = A.length) : copyAt A 0 x = x := by
  unfold copyAt
  simp [← h]

theorem pbDecrypt_spec (room : Nat → Nat) (P : Prims) (alg : AlgId) (h : Heap) {data password : Slice} (hd : h.Valid data) (hp : h.Valid password) :
    Only (fun _ => False) h (pbDecrypt room P alg h data password).1 ∧
    Gives h.length (pbDecrypt room P alg h data password).1 (pbDecrypt room P alg h data password).2 (P12.pbDecrypt P alg (h.read data) (h.read password)) := by
  obtain ⟨o1, e1⟩ := pbeCipherFor_spec room P alg h hp
  unfold pbDecrypt
  have hl := read_length hd
  generalize pbeCipherFor room P alg h password = y at *
  obtain ⟨h1, y⟩ := y
  dsimp only at *
  subst e1
  rcases pbeCipherFor_cases P alg (h.read password) with ⟨e, he⟩ | ⟨t, ps, ha, hps⟩
  · unfold P12.pbDecrypt; rw [he]; exact ⟨o1, rfl⟩
  · obtain ⟨blk, D, hc, hr⟩ := pbeCipherFor_ok P t alg (h.read password) ps ha hps
    rw [hc]
    unfold P12.pbDecrypt
    rw [hc]
    simp only [Res.bind_ok, andThen]
    rw [hl]
    by_cases h0 : data.len = 0
    · rw [if_pos h0, if_pos h0]; exact ⟨o1, rfl⟩
    rw [if_neg h0, if_neg h0]
    by_cases h8 : data.len % 8 ≠ 0
    · rw [if_pos h8, if_pos h8]; exact ⟨o1, rfl⟩
    rw [if_neg h8, if_neg h8]
    obtain ⟨a1, a2, a3, a4, a5, -⟩ := fresh_spec h.length h1 o1.more (List.replicate data.len 0)
    generalize fresh h1 (List.replicate data.len 0) = f at *
    obtain ⟨h2, dec⟩ := f
    dsimp only at *
    have o2 := o1.trans a2 fun _ _ hf => hf
    rw [read_keep hd o2 fun _ hf => hf]
    obtain ⟨d, hdd, hdl, -⟩ := cryptBlocks_dec hr _ (h.read data) (iv_length P ps.salt (h.read password) ps.iterations) (by omega)
    rw [hdd]
    simp only [Res.bind_ok]
    obtain ⟨c1, c2⟩ := copyTo_spec a1 0 d (Nat.zero_le _)
    rw [copyAt_all _ _ (by rw [hdl, hl, List.length_replicate])] at c1
    generalize copyTo h2 dec 0 d = h3 at *
    have o3 : Only (fun _ => False) h h3 := o2.trans c2 fun a hh hw => by
      have := hw.1; have := o1.more; omega
    rw [c1.read, c1.len]
    split
    · exact ⟨o3, rfl⟩
    · split
      · exact ⟨o3, rfl⟩
      · split
        · exact ⟨o3, rfl⟩
        · exact ⟨o3, c1.prefix (by rw [c1.len]; exact Nat.sub_le _ _)⟩

theorem pbEncrypt_spec (room : Nat → Nat) (P : Prims) (alg : AlgId) (h : Heap) {data password : Slice} (hd : h.Valid data) (hp : h.Valid password) :
    Only (fun _ => False) h (pbEncrypt room P alg h data password).1 ∧
    Gives h.length (pbEncrypt room P alg h data password).1 (pbEncrypt room P alg h data password).2 (P12.pbEncrypt P alg (h.read data) (h.read password)) := by
  obtain ⟨o1, e1⟩ := pbeCipherFor_spec room P alg h hp
  unfold pbEncrypt
  have hl := read_length hd
  generalize pbeCipherFor room P alg h password = y at *
  obtain ⟨h1, y⟩ := y
  dsimp only at *
  subst e1
  rcases pbeCipherFor_cases P alg (h.read password) with ⟨e, he⟩ | ⟨t, ps, ha, hps⟩
  · unfold P12.pbEncrypt; rw [he]; exact ⟨o1, rfl⟩
  · obtain ⟨blk, D, hc, hr⟩ := pbeCipherFor_ok P t alg (h.read password) ps ha hps
    rw [hc]
    unfold P12.pbEncrypt
    rw [hc]
    simp only [Res.bind_ok, andThen]
    rw [hl]
    generalize hps : 8 - data.len % 8 = k
    obtain ⟨a1, a2, a3, a4, a5, -⟩ := fresh_spec h.length h1 o1.more (List.replicate (data.len + k) 0)
    generalize fresh h1 (List.replicate (data.len + k) 0) = f at *
    obtain ⟨h2, en⟩ := f
    dsimp only at *
    have o2 := o1.trans a2 fun _ _ hf => hf
    rw [read_keep hd o2 fun _ hf => hf]
    have hpre := a1.prefix (k := data.len) (by rw [a4, List.length_replicate]; omega)
    have e1 : copyTo h2 { en with len := data.len } 0 (h.read data) = copyTo h2 en 0 (h.read data) := by
      unfold copyTo
      dsimp only
      rw [List.take_of_length_le (by omega), List.take_of_length_le (by rw [a4, List.length_replicate]; omega)]
    rw [e1]
    obtain ⟨c1, c2⟩ := copyTo_spec a1 0 (h.read data) (Nat.zero_le _)
    generalize copyTo h2 en 0 (h.read data) = h3 at *
    have hne : ∀ {h' h'' : Heap}, Only (fun _ => False) h h' → Only (fun a => a = en.arr ∧ 0 < en.cap) h' h'' → Only (fun _ => False) h h'' := fun o o' =>
      o.trans o' fun a hh hw => by have := hw.1; have := o1.more; omega
    have o3 := hne o2 c2
    have e2 : copyAt (List.replicate (data.len + k) 0) 0 (h.read data) = h.read data ++ List.replicate k 0 := by
      unfold copyAt
      rw [List.take_zero, List.nil_append, List.take_of_length_le (by rw [List.length_replicate]; omega), List.drop_zero, List.drop_replicate, hl]
      congr 2; omega
    rw [e2] at c1
    obtain ⟨d1, d2⟩ := copyTo_spec c1 data.len (List.replicate k (UInt8.ofNat k)) (by rw [List.length_append]; omega)
    generalize copyTo h3 en data.len (List.replicate k (UInt8.ofNat k)) = h4 at *
    have o4 := hne o3 d2
    have e3 : copyAt (h.read data ++ List.replicate k 0) data.len (List.replicate k (UInt8.ofNat k)) = h.read data ++ List.replicate k (UInt8.ofNat k) := by
      unfold copyAt
      rw [← hl, List.take_left, List.length_append, List.take_of_length_le (by simp), List.drop_left, List.drop_of_length_le (by simp), List.append_nil]
    rw [e3] at d1
    rw [d1.read]
    have hm : (h.read data ++ List.replicate k (UInt8.ofNat k)).length % 8 = 0 := by
      rw [List.length_append, List.length_replicate, hl]; omega
    have hiv := iv_length P ps.salt (h.read password) ps.iterations
    rw [cryptBlocks_enc hr _ _ hiv hm]
    have hcl := cbc_length hr _ _ hiv hm
    obtain ⟨g1, g2⟩ := copyTo_spec d1 0 (P12Spec.cbc (specE P t ps.salt (h.read password) ps.iterations) (P12Spec.iv P ps.salt (h.read password) ps.iterations) (h.read data ++ List.replicate k (UInt8.ofNat k))) (Nat.zero_le _)
    rw [copyAt_all _ _ hcl] at g1
    exact ⟨hne o4 g2, g1⟩

theorem macOf_spec (room : Nat → Nat) (P : Prims) (h : Heap) {salt message password : Slice} (hs : h.Valid salt) (hm : h.Valid message) (hp : h.Valid password) (md : MacData)
    (hsalt : md.macSalt = h.read salt) :
    ∃ h' s x, macOf room P h salt md.iterations message password = (h', .ok s) ∧ P12.macOf P md (h.read message) (h.read password) = .ok x ∧
      Only (fun _ => False) h h' ∧ Live h.length h' s x := by
  obtain ⟨h1, key, x, e1, e2, o1, l1⟩ := kdf_ok room P h hs hp md.iterations 3 20
  unfold macOf P12.macOf
  rw [e1, hsalt, e2]
  simp only [andThen, Res.bind_ok]
  rw [l1.read, read_keep hm o1 fun _ hf => hf]
  obtain ⟨a1, a2, -⟩ := fresh_spec h.length h1 o1.more (hmac P.sha1 x (h.read message))
  exact ⟨_, _, _, rfl, rfl, o1.trans a2 fun _ _ hf => hf, a1⟩

end MCrypto.P12.Mem
