import Verif.Pkcs12.Crypto
import Verif.Pkcs12.CryptoSpec
import Verif.Props.P12Prim
import Mathlib.Tactic.ByContra
/-
Lemmas about the model of crypto.go and mac.go.
-/
namespace MCrypto.P12
open MCrypto Asn1

theorem pbkdf_eq (P : Prims) (salt pw : Bytes) (r : Int) (ID : UInt8) (n : Nat) :
    pbkdf P.sha1 20 64 salt pw r ID n = .ok (Rfc7292.kdf P.sha1 20 64 salt pw (P12Spec.iters r) ID n) := by
  unfold P12Spec.iters
  by_cases h0 : r ≤ 0
  · rw [if_pos (by omega), Props.C28_pbkdf_nonpositive_iterations P.sha1 P.sha1_length 64 (by decide) _ _ _ h0]
  · by_cases h1 : r = 1
    · subst h1
      have := Props.C28_pbkdf_rfc7292 P.sha1 P.sha1_length 64 (by decide) salt pw 1 (by decide) ID n
      rw [if_pos (by decide)]
      exact this
    · rw [if_neg (by omega)]
      have := Props.C28_pbkdf_rfc7292 P.sha1 P.sha1_length 64 (by decide) salt pw r.toNat (by omega) ID n
      rw [← this]
      congr 1
      omega

theorem kdf_length (P : Prims) (salt pw : Bytes) (r : Int) (ID : UInt8) (n : Nat) :
    (Rfc7292.kdf P.sha1 20 64 salt pw (P12Spec.iters r) ID n).length = n := by
  obtain ⟨k, hk, hl⟩ := Props.C28_pbkdf_length P.sha1 P.sha1_length 64 (by decide) salt pw r ID n
  rw [pbkdf_eq] at hk
  injection hk with hk
  rw [hk, hl]

/-- `blk` realises the block permutation `E` with inverse `D`. -/
structure Realises (blk : Block) (E D : Bytes → Bytes) : Prop where
  enc : ∀ b, b.length = 8 → blk.enc b = .ok (E b)
  dec : ∀ b, b.length = 8 → blk.dec b = .ok (D b)
  encLen : ∀ b, b.length = 8 → (E b).length = 8
  decLen : ∀ b, b.length = 8 → (D b).length = 8
  decEnc : ∀ b, b.length = 8 → D (E b) = b
  encDec : ∀ b, b.length = 8 → E (D b) = b

theorem xorBytes_length (a b : Bytes) (ha : a.length = 8) (hb : b.length = 8) : (xorBytes a b).length = 8 := by
  simp [xorBytes, ha, hb]

theorem xorBytes_xor (a b : Bytes) (h : a.length = b.length) : xorBytes a (xorBytes a b) = b := by
  unfold xorBytes
  induction a generalizing b with
  | nil => cases b with
    | nil => rfl
    | cons => simp at h
  | cons x a ih =>
    cases b with
    | nil => simp at h
    | cons y b =>
      simp only [List.zipWith_cons_cons, List.cons.injEq]
      refine ⟨?_, ih b (by simpa using h)⟩
      rw [← UInt8.xor_assoc, UInt8.xor_self, UInt8.zero_xor]

theorem take8 {m : Bytes} {n : Nat} (h : m.length = 8 * (n + 1)) : (m.take 8).length = 8 := by
  rw [List.length_take]; omega

theorem cbcEnc_ok {blk : Block} {E D : Bytes → Bytes} (h : Realises blk E D) (n : Nat) (iv m : Bytes)
    (hiv : iv.length = 8) (hm : m.length = 8 * n) :
    ∃ c, cbcEnc blk n iv m = .ok c ∧ c.length = 8 * n := by
  induction n generalizing iv m with
  | zero => exact ⟨[], rfl, rfl⟩
  | succ n ih =>
    have hx := xorBytes_length iv _ hiv (take8 hm)
    obtain ⟨c, hc, hl⟩ := ih (E (xorBytes iv (m.take 8))) (m.drop 8) (h.encLen _ hx) (by rw [List.length_drop]; omega)
    refine ⟨E (xorBytes iv (m.take 8)) ++ c, ?_, ?_⟩
    · rw [cbcEnc, h.enc _ hx]; simp [hc]
    · rw [List.length_append, h.encLen _ hx, hl]; omega

theorem cbcDec_cbcEnc {blk : Block} {E D : Bytes → Bytes} (h : Realises blk E D) (n : Nat) (iv m c : Bytes)
    (hiv : iv.length = 8) (hm : m.length = 8 * n) (hc : cbcEnc blk n iv m = .ok c) :
    cbcDec blk n iv c = .ok m := by
  induction n generalizing iv m c with
  | zero =>
    have : m = [] := List.eq_nil_of_length_eq_zero (by omega)
    subst this; rfl
  | succ n ih =>
    have hx := xorBytes_length iv _ hiv (take8 hm)
    have hEl := h.encLen _ hx
    have hdl : (m.drop 8).length = 8 * n := by rw [List.length_drop]; omega
    obtain ⟨c', hc', hl⟩ := cbcEnc_ok h n (E (xorBytes iv (m.take 8))) (m.drop 8) hEl hdl
    rw [cbcEnc, h.enc _ hx] at hc
    simp only [Res.bind_ok, hc', Res.pure_eq, Res.ok.injEq] at hc
    subst hc
    have t : (E (xorBytes iv (m.take 8)) ++ c').take 8 = E (xorBytes iv (m.take 8)) := by
      rw [List.take_append_of_le_length (by omega), List.take_of_length_le (by omega)]
    have d : (E (xorBytes iv (m.take 8)) ++ c').drop 8 = c' := by
      rw [List.drop_append_of_le_length (by omega), List.drop_of_length_le (by omega), List.nil_append]
    rw [cbcDec, t, d, h.dec _ hEl, h.decEnc _ hx]
    simp only [Res.bind_ok, ih _ _ _ hEl hdl hc', Res.pure_eq, Res.ok.injEq]
    rw [xorBytes_xor _ _ (by rw [hiv, take8 hm]), List.take_append_drop]

theorem cbcDec_ok {blk : Block} {E D : Bytes → Bytes} (h : Realises blk E D) (n : Nat) (iv c : Bytes)
    (hiv : iv.length = 8) (hc : c.length = 8 * n) :
    ∃ m, cbcDec blk n iv c = .ok m ∧ m.length = 8 * n ∧ cbcEnc blk n iv m = .ok c := by
  induction n generalizing iv c with
  | zero =>
    have : c = [] := List.eq_nil_of_length_eq_zero (by omega)
    subst this; exact ⟨[], rfl, rfl, rfl⟩
  | succ n ih =>
    have ht := take8 hc
    obtain ⟨m, hm, hl, he⟩ := ih (c.take 8) (c.drop 8) ht (by rw [List.length_drop]; omega)
    have hd := h.decLen _ ht
    have hx := xorBytes_length iv _ hiv hd
    refine ⟨xorBytes iv (D (c.take 8)) ++ m, ?_, ?_, ?_⟩
    · rw [cbcDec, h.dec _ ht]; simp [hm]
    · rw [List.length_append, hx, hl]; omega
    · have t : (xorBytes iv (D (c.take 8)) ++ m).take 8 = xorBytes iv (D (c.take 8)) := by
        rw [List.take_append_of_le_length (by omega), List.take_of_length_le (by omega)]
      have d : (xorBytes iv (D (c.take 8)) ++ m).drop 8 = m := by
        rw [List.drop_append_of_le_length (by omega), List.drop_of_length_le (by omega), List.nil_append]
      rw [cbcEnc, t, d, xorBytes_xor _ _ (by omega), h.enc _ hd, h.encDec _ ht]
      simp [he]

/-! ### CBC of the model is CBC of the specification -/

theorem cbcBlock_shift (E : Bytes → Bytes) (iv m : Bytes) (i : Nat) :
    P12Spec.cbcBlock E iv m (i + 1) = P12Spec.cbcBlock E (P12Spec.cbcBlock E iv m 1) (m.drop 8) i := by
  induction i with
  | zero => rfl
  | succ i ih =>
    have e : ∀ (iv m : Bytes) (i : Nat), P12Spec.cbcBlock E iv m (i + 1) =
        E (List.zipWith (· ^^^ ·) (P12Spec.cbcBlock E iv m i) ((m.drop (8 * i)).take 8)) := fun _ _ _ => rfl
    rw [e iv m (i + 1), ih, e _ (m.drop 8) i, List.drop_drop]
    rw [show 8 + 8 * i = 8 * (i + 1) by omega]

theorem cbcEnc_spec {blk : Block} {E D : Bytes → Bytes} (h : Realises blk E D) (n : Nat) (iv m : Bytes)
    (hiv : iv.length = 8) (hm : m.length = 8 * n) :
    cbcEnc blk n iv m = .ok ((List.range n).flatMap fun i => P12Spec.cbcBlock E iv m (i + 1)) := by
  induction n generalizing iv m with
  | zero => rfl
  | succ n ih =>
    have hx := xorBytes_length iv _ hiv (take8 hm)
    have hEl := h.encLen _ hx
    have h1 : P12Spec.cbcBlock E iv m 1 = E (xorBytes iv (m.take 8)) := by
      simp [P12Spec.cbcBlock, xorBytes]
    rw [cbcEnc, h.enc _ hx]
    simp only [Res.bind_ok, Res.pure_eq]
    rw [ih _ _ hEl (by rw [List.length_drop]; omega)]
    simp only [Res.bind_ok, Res.ok.injEq]
    rw [List.range_succ_eq_map, List.flatMap_cons, List.flatMap_map, h1]
    congr 1
    apply List.flatMap_congr
    intro i _
    rw [Nat.succ_eq_add_one, cbcBlock_shift E iv m (i + 1), h1]

/-! ### The ciphers -/

theorem tdesBlock_realises (P : Prims) (key : Bytes) (h : key.length = 24) :
    ∃ blk, tdesBlock P key = .ok blk ∧ Realises blk (P.tdesEnc key) (P.tdesDec key) :=
  ⟨_, by rw [tdesBlock, if_neg (by omega)], {
    enc := fun _ _ => rfl
    dec := fun _ _ => rfl
    encLen := fun b hb => P.tdesEnc_length key b h hb
    decLen := fun b hb => P.tdesDec_length key b h hb
    decEnc := fun b hb => P.tdes_dec_enc key b h hb
    encDec := fun b hb => P.tdes_enc_dec key b h hb }⟩

theorem map_ofNat_toNat (b : Bytes) : (b.map UInt8.toNat).map UInt8.ofNat = b := by
  induction b with
  | nil => rfl
  | cons x b ih => simp only [List.map_cons, ih, UInt8.ofNat_toNat]

theorem rc2Block_realises (key : Bytes) (h : key.length = 5) :
    ∃ blk D, rc2Block key = .ok blk ∧ Realises blk
      (fun b => (Rc2Spec.encrypt (key.map UInt8.toNat) 40 (b.map UInt8.toNat)).map UInt8.ofNat) D := by
  obtain ⟨k, hk, hb⟩ := Props.C26_rc2_rfc2268 key 40 (by omega) (by omega) (by decide) (by decide)
  have hE : ∀ b : Bytes, b.length = 8 → Rc2.encrypt k b =
      .ok ((Rc2Spec.encrypt (key.map UInt8.toNat) 40 (b.map UInt8.toNat)).map UInt8.ofNat) := by
    intro b hl
    obtain ⟨c, hc, hs, _⟩ := hb b hl
    rw [hc, ← hs, map_ofNat_toNat]
  have inv := Props.C25_rc2_inverse key 40 k hk
  refine ⟨⟨Rc2.encrypt k, Rc2.decrypt k⟩, fun b => match Rc2.decrypt k b with | .ok p => p | _ => [], ?_, ?_⟩
  · rw [rc2Block, h]
    show (Rc2.new key ((40 : Nat) : Int) >>= _) = _
    rw [hk]; rfl
  · refine { enc := hE, dec := ?_, encLen := ?_, decLen := ?_, decEnc := ?_, encDec := ?_ }
    · intro b hl
      obtain ⟨p, hp, _, _⟩ := (inv b hl).2
      simp only [hp]
    · intro b hl
      obtain ⟨c, hc, hcl, _⟩ := (inv b hl).1
      rw [hE b hl] at hc
      injection hc with hc
      rw [← hcl, ← hc]
    · intro b hl
      obtain ⟨p, hp, hpl, _⟩ := (inv b hl).2
      simp only [hp, hpl]
    · intro b hl
      obtain ⟨c, hc, hcl, hd⟩ := (inv b hl).1
      rw [hE b hl] at hc
      injection hc with hc
      simp only [hc, hd]
    · intro b hl
      obtain ⟨p, hp, hpl, he⟩ := (inv b hl).2
      simp only [hp]
      have := hE p hpl
      rw [he] at this
      injection this with this
      exact this.symm

/-- The algorithm an identifier selects, with its block permutation. -/
def specE (P : Prims) (t : CipherType) (salt pw : Bytes) (n : Int) : Bytes → Bytes :=
  match t with
  | .tdes => P12Spec.tdesE P salt pw n
  | .rc2 => P12Spec.rc2E P salt pw n

theorem create_realises (P : Prims) (t : CipherType) (salt pw : Bytes) (n : Int) :
    ∃ blk D, (deriveKey P t salt pw n >>= create P t) = .ok blk ∧ Realises blk (specE P t salt pw n) D := by
  cases t with
  | tdes =>
    obtain ⟨blk, hb, hr⟩ := tdesBlock_realises P _ (kdf_length P salt pw n 1 24)
    refine ⟨blk, _, ?_, hr⟩
    rw [deriveKey, CipherType.keyLen, pbkdf_eq]
    exact hb
  | rc2 =>
    obtain ⟨blk, D, hb, hr⟩ := rc2Block_realises _ (kdf_length P salt pw n 1 5)
    refine ⟨blk, D, ?_, hr⟩
    rw [deriveKey, CipherType.keyLen, pbkdf_eq]
    exact hb

def CipherType.oid : CipherType → Oid
  | .tdes => oid3DES
  | .rc2 => oidRC2_40

theorem pbeCipherFor_ok (P : Prims) (t : CipherType) (alg : AlgId) (pw : Bytes) (ps : PbeParams)
    (ha : alg.algorithm = t.oid) (hp : unmarshalAll pbeParams alg.parameters.full = .ok ps) :
    ∃ blk D, pbeCipherFor P alg pw = .ok (blk, P12Spec.iv P ps.salt pw ps.iterations) ∧
      Realises blk (specE P t ps.salt pw ps.iterations) D := by
  obtain ⟨blk, D, hc, hr⟩ := create_realises P t ps.salt pw ps.iterations
  refine ⟨blk, D, ?_, hr⟩
  have hk : deriveKey P t ps.salt pw ps.iterations =
      .ok (Rfc7292.kdf P.sha1 20 64 ps.salt pw (P12Spec.iters ps.iterations) 1 t.keyLen) := pbkdf_eq _ _ _ _ _ _
  have hi : deriveIV P t ps.salt pw ps.iterations = .ok (P12Spec.iv P ps.salt pw ps.iterations) :=
    pbkdf_eq _ _ _ _ _ _
  rw [hk, Res.bind_ok] at hc
  unfold pbeCipherFor
  have ht : cipherTypeFor alg.algorithm = .ok t := by rw [ha]; cases t <;> rfl
  rw [ht]
  simp only [Res.bind_ok, hp, hk, hi, hc, Res.pure_eq]

theorem iv_length (P : Prims) (salt pw : Bytes) (n : Int) : (P12Spec.iv P salt pw n).length = 8 :=
  kdf_length P salt pw n 2 8

/-- In every case: an error before any cipher is made, or a cipher of one of the two kinds. -/
theorem pbeCipherFor_cases (P : Prims) (alg : AlgId) (pw : Bytes) :
    (∃ e, pbeCipherFor P alg pw = .err e) ∨
    (∃ t ps, alg.algorithm = CipherType.oid t ∧ unmarshalAll pbeParams alg.parameters.full = .ok ps) := by
  by_cases h1 : alg.algorithm = oid3DES
  · match h : unmarshalAll pbeParams alg.parameters.full with
    | .ok ps => exact Or.inr ⟨.tdes, ps, h1, rfl⟩
    | .err e => exact Or.inl ⟨e, by unfold pbeCipherFor cipherTypeFor; rw [if_pos h1]; simp [h]⟩
    | .panic =>
      exfalso; unfold unmarshalAll at h
      split at h
      · cases h
      · split at h <;> cases h
  · by_cases h2 : alg.algorithm = oidRC2_40
    · match h : unmarshalAll pbeParams alg.parameters.full with
      | .ok ps => exact Or.inr ⟨.rc2, ps, h2, rfl⟩
      | .err e => exact Or.inl ⟨e, by unfold pbeCipherFor cipherTypeFor; rw [if_neg h1, if_pos h2]; simp [h]⟩
      | .panic =>
        exfalso; unfold unmarshalAll at h
        split at h
        · cases h
        · split at h <;> cases h
    · exact Or.inl ⟨"NotImplementedError", by unfold pbeCipherFor cipherTypeFor; rw [if_neg h1, if_neg h2]; rfl⟩

end MCrypto.P12
