import Verif.Props.PfxWrite
import Verif.Props.Disjoint
import Verif.Props.Sm2Prob
/-
C147: what a PKCS #12 file made by Encode shows without its password (pkcs12.go:430-560, crypto.go:31-57; models Verif/Pkcs12/{Pfx,Crypto,Rc2}.lean).
-/
namespace MCrypto.Props
open MCrypto MCrypto.X509 MCrypto.X509Spec MCrypto.Asn1 MCrypto.Dg MCrypto.P12 MCrypto.P12Spec

/-- `x` is the encrypted part of the file `w` (RFC 7292 4, RFC 2315 13), found without a password. -/
def CertPart (w x : Bytes) : Prop :=
  ∃ ve ce me c auth e1 e2 c1 ve' ie te ae xe salt, El 0x30 (ve ++ (ce ++ me)) w ∧ IntEl 3 ve ∧
    P12Spec.ContentOut [1, 2, 840, 113549, 1, 7, 1] c ce ∧ El 0x04 auth c ∧ El 0x30 (e1 ++ e2) auth ∧ P12Spec.ContentOut [1, 2, 840, 113549, 1, 7, 6] c1 e1 ∧
    El 0x30 (ve' ++ ie) c1 ∧ IntEl 0 ve' ∧ El 0x30 (te ++ (ae ++ xe)) ie ∧ OidEl [1, 2, 840, 113549, 1, 7, 1] te ∧
    PbeAlgOut [1, 2, 840, 113549, 1, 12, 1, 6] salt ae ∧ El 0x80 x xe

/-- Decrypting `x` with the RC2 key `k` of the package and an initialisation vector of zeros: no password, no salt. -/
def openWith (k x : Bytes) : Res Bytes := do
  let blk ← rc2Block k
  cryptBlocks (cbcDec blk) (List.replicate 8 0) x

theorem contentOut_el {o : List Nat} {c e : Bytes} (h : P12Spec.ContentOut o c e) : ∃ b, El 0x30 b e := by
  obtain ⟨oe, ce, h, -⟩ := h; exact ⟨_, h⟩

theorem contentOut_unique {o o' : List Nat} {c c' e : Bytes} (h : P12Spec.ContentOut o c e) (h' : P12Spec.ContentOut o' c' e) : c = c' := by
  obtain ⟨oe, ce, h1, ⟨b, h2, -⟩, h3⟩ := h
  obtain ⟨oe', ce', h1', ⟨b', h2', -⟩, h3'⟩ := h'
  obtain ⟨-, hb, -⟩ := elem_unique (el_elem h1) (el_elem h1') (r := []) (r' := []) rfl
  obtain ⟨-, -, -, rfl⟩ := elem_unique (el_elem h2) (el_elem h2') hb
  exact (elem_unique (el_elem h3) (el_elem h3') (r := []) (r' := []) rfl).2.1

/-- **C147** The encrypted part of a file is determined by the file. -/
theorem C147_part_unique (w x x' : Bytes) (h : CertPart w x) (h' : CertPart w x') : x = x' := by
  obtain ⟨ve, ce, me, c, auth, e1, e2, c1, vf, ie, te, ae, xe, salt, a1, ⟨_, a2, -⟩, a3, a4, a5, a6, a7, ⟨_, a8, -⟩, a9, ⟨_, a10, -⟩, ⟨_, _, _, ⟨_, a11, -⟩, -⟩, a12⟩ := h
  obtain ⟨ve', ce', me', c', auth', e1', e2', c1', vf', ie', te', ae', xe', salt', b1, ⟨_, b2, -⟩, b3, b4, b5, b6, b7, ⟨_, b8, -⟩, b9, ⟨_, b10, -⟩, ⟨_, _, _, ⟨_, b11, -⟩, -⟩, b12⟩ := h'
  obtain ⟨-, h1, -⟩ := elem_unique (el_elem a1) (el_elem b1) (r := []) (r' := []) rfl
  obtain ⟨-, -, -, h2⟩ := elem_unique (el_elem a2) (el_elem b2) h1
  obtain ⟨_, k1⟩ := contentOut_el a3
  obtain ⟨_, k2⟩ := contentOut_el b3
  obtain ⟨-, -, rfl, -⟩ := elem_unique (el_elem k1) (el_elem k2) h2
  obtain rfl := contentOut_unique a3 b3
  obtain ⟨-, rfl, -⟩ := elem_unique (el_elem a4) (el_elem b4) (r := []) (r' := []) rfl
  obtain ⟨-, h3, -⟩ := elem_unique (el_elem a5) (el_elem b5) (r := []) (r' := []) rfl
  obtain ⟨_, k3⟩ := contentOut_el a6
  obtain ⟨_, k4⟩ := contentOut_el b6
  obtain ⟨-, -, rfl, -⟩ := elem_unique (el_elem k3) (el_elem k4) h3
  obtain rfl := contentOut_unique a6 b6
  obtain ⟨-, h4, -⟩ := elem_unique (el_elem a7) (el_elem b7) (r := []) (r' := []) rfl
  obtain ⟨-, -, -, rfl⟩ := elem_unique (el_elem a8) (el_elem b8) h4
  obtain ⟨-, h5, -⟩ := elem_unique (el_elem a9) (el_elem b9) (r := []) (r' := []) rfl
  obtain ⟨-, -, -, h6⟩ := elem_unique (el_elem a10) (el_elem b10) h5
  obtain ⟨-, -, -, rfl⟩ := elem_unique (el_elem a11) (el_elem b11) h6
  exact (elem_unique (el_elem a12) (el_elem b12) (r := []) (r' := []) rfl).2.1

/-- Decryption with another initialisation vector changes the first block only. -/
theorem cbcDec_iv (blk : Block) (n : Nat) (iv iv' c m : Bytes) (hi : iv.length = 8) (hi' : iv'.length = 8)
    (hd : ∀ b p, b.length = 8 → blk.dec b = .ok p → p.length = 8) (hc : c.length = 8 * n) (h : cbcDec blk n iv c = .ok m) :
    ∃ m', cbcDec blk n iv' c = .ok m' ∧ m'.drop 8 = m.drop 8 := by
  cases n with
  | zero => exact ⟨[], rfl, by cases h; rfl⟩
  | succ n =>
    rw [cbcDec] at h ⊢
    cases h1 : blk.dec (c.take 8) with
    | err e => rw [h1] at h; cases h
    | panic => rw [h1] at h; cases h
    | ok p =>
      rw [h1, Res.bind_ok] at h
      rw [Res.bind_ok]
      have hp := hd _ _ (take8 hc) h1
      cases h2 : cbcDec blk n (c.take 8) (c.drop 8) with
      | err e => rw [h2] at h; cases h
      | panic => rw [h2] at h; cases h
      | ok r =>
        rw [h2, Res.bind_ok] at h
        rw [Res.bind_ok]
        cases h
        refine ⟨_, rfl, ?_⟩
        rw [List.drop_left' (xorBytes_length _ _ hi' hp), List.drop_left' (xorBytes_length _ _ hi hp)]

/-- What `openWith` finds with the right key. -/
theorem openWith_right (P : Prims) (salt pw m x : Bytes) (h : Encrypts (rc2E P salt pw 2048) (P12Spec.iv P salt pw 2048) m x) :
    ∃ d pad, openWith (Rfc7292.kdf P.sha1 20 64 salt pw (iters 2048) 1 5) x = .ok d ∧ d.drop 8 = (m ++ pad).drop 8 := by
  obtain ⟨j, h1, h2, h3, rfl⟩ := h
  have hk := kdf_length P salt pw 2048 1 5
  obtain ⟨blk, D, hb, hr⟩ := rc2Block_realises _ hk
  have hiv := iv_length P salt pw 2048
  have hm : (m ++ List.replicate j (UInt8.ofNat j)).length % 8 = 0 := by rw [List.length_append, List.length_replicate]; exact h3
  have hcl : (cbc (rc2E P salt pw 2048) (P12Spec.iv P salt pw 2048) (m ++ List.replicate j (UInt8.ofNat j))).length = _ := cbc_length hr _ _ hiv hm
  have hdec : cryptBlocks (cbcDec blk) (P12Spec.iv P salt pw 2048) (cbc (rc2E P salt pw 2048) (P12Spec.iv P salt pw 2048) (m ++ List.replicate j (UInt8.ofNat j))) = _ :=
    cryptBlocks_dec_cbc hr _ _ hiv hm
  generalize cbc (rc2E P salt pw 2048) (P12Spec.iv P salt pw 2048) (m ++ List.replicate j (UInt8.ofNat j)) = x at hcl hdec ⊢
  rw [cryptBlocks, if_neg (by omega), if_neg (by omega)] at hdec
  obtain ⟨d, hd, he⟩ := cbcDec_iv blk _ _ (List.replicate 8 0) x _ hiv (by simp) (fun b p hb hp => by
    rw [hr.dec b hb] at hp
    cases hp
    exact hr.decLen b hb) (by omega) hdec
  refine ⟨d, _, ?_, he⟩
  unfold openWith
  rw [hb, Res.bind_ok, cryptBlocks, if_neg (by simp), if_neg (by omega)]
  exact hd

theorem isLen_ne_nil {l : Bytes} {n : Nat} (h : DerSpec.IsLen l n) : 1 ≤ l.length := by
  rcases h with ⟨-, c, rfl, -⟩ | ⟨-, c, d, t, rfl, -⟩ <;> simp

theorem el_head {t : UInt8} {b e : Bytes} (h : El t b e) : ∃ hd, e = hd ++ b ∧ 2 ≤ hd.length := by
  obtain ⟨⟨l, h1, rfl⟩, -⟩ := h
  have := isLen_ne_nil h1
  exact ⟨t :: l, by simp, by simp; omega⟩

theorem el_infix {t : UInt8} {b e : Bytes} (h : El t b e) : b <:+: e := by
  obtain ⟨hd, rfl, -⟩ := el_head h
  exact (List.suffix_append hd b).isInfix

theorem infix_left (a b : Bytes) : a <:+: a ++ b := (List.prefix_append a b).isInfix
theorem infix_right (a b : Bytes) : b <:+: a ++ b := (List.suffix_append a b).isInfix

theorem certValue_infix {raw v : Bytes} (h : CertValueOut raw v) : raw <:+: v := by
  obtain ⟨oe, xe, de, h1, -, h2, h3⟩ := h
  exact (el_infix h3).trans ((el_infix h2).trans ((infix_right _ _).trans (el_infix h1)))

theorem bag_value {id : List Nat} {v attrs e : Bytes} (h : BagOut id v attrs e) : ∃ pre suf, e = pre ++ (v ++ suf) ∧ 6 ≤ pre.length := by
  obtain ⟨oe, ve, se, h1, ⟨b, h2, -⟩, h3, -⟩ := h
  obtain ⟨a1, rfl, l1⟩ := el_head h1
  obtain ⟨a2, rfl, l2⟩ := el_head h2
  obtain ⟨a3, rfl, l3⟩ := el_head h3
  exact ⟨a1 ++ (a2 ++ b ++ a3), se, by simp, by simp; omega⟩

theorem contentOut_infix {o : List Nat} {c e : Bytes} (h : P12Spec.ContentOut o c e) : c <:+: e := by
  obtain ⟨oe, ce, h1, -, h2⟩ := h
  exact (el_infix h2).trans ((infix_right _ _).trans (el_infix h1))

theorem caBag_infix {raw e : Bytes} (h : CaBagOut raw e) : raw <:+: e := by
  obtain ⟨v, h1, h2⟩ := h
  obtain ⟨pre, suf, rfl, -⟩ := bag_value h2
  exact (certValue_infix h1).trans ((infix_left _ _).trans (infix_right _ _))

theorem many_infix {cas : List Bytes} {rest : Bytes} (h : Many CaBagOut cas rest) : ∀ ca ∈ cas, ca <:+: rest := by
  obtain ⟨es, rfl, h⟩ := h
  induction h with
  | nil => intro ca h; cases h
  | @cons e v es vs h1 _ ih =>
    intro ca hm
    rw [List.flatten_cons]
    rcases List.mem_cons.mp hm with rfl | hm
    · exact (caBag_infix h1).trans (infix_left _ _)
    · exact (ih ca hm).trans (infix_right _ _)

/-- The certificates are behind the first eight octets of the encrypted part. -/
theorem certBags_infix {P : Prims} {leaf : Bytes} {cas : List Bytes} {d : Bytes} (h : CertBagsOut P leaf cas d) (pad : Bytes) :
    ∀ c ∈ leaf :: cas, c <:+: (d ++ pad).drop 8 := by
  obtain ⟨a, v, l, rest, h1, -, h3, h4, h5⟩ := h
  obtain ⟨hd, rfl, l1⟩ := el_head h1
  obtain ⟨pre, suf, rfl, l2⟩ := bag_value h4
  have key : (hd ++ (pre ++ (v ++ suf) ++ rest) ++ pad).drop 8 = (hd ++ pre).drop 8 ++ ((v ++ suf) ++ (rest ++ pad)) := by
    rw [← List.drop_append_of_le_length (by simp; omega)]
    simp
  rw [key]
  intro c hc
  rcases List.mem_cons.mp hc with rfl | hc
  · exact ((certValue_infix h3).trans (infix_left _ _)).trans ((infix_left _ _).trans (infix_right _ _))
  · exact (many_infix h5 c hc).trans ((infix_left _ _).trans ((infix_right _ _).trans (infix_right _ _)))

/-- **C147** However good the password: every file made by `Encode` has exactly one encrypted part, and one of the 2^40 keys of five octets opens
it, with no password, salt or initialisation vector, so far that every certificate in it can be read. -/
theorem C147_forty_bits (P : Prims) (key : PrivKey) (leaf : Bytes) (cas : List Bytes) (password : Bytes) (rnd rnd' : Reader) (w : Bytes)
    (hl : w.length < 2 ^ 31) (hr : ∀ r, key = .rsa r → ProperRsa r) (h : encode P key leaf cas password rnd = .ok (w, rnd')) :
    ∃ x, CertPart w x ∧ ∃ k d, k.length = 5 ∧ openWith k x = .ok d ∧ ∀ c ∈ leaf :: cas, c <:+: d := by
  obtain ⟨pw, s1, s2, s3, -, -, -, -, -, auth, ve, ce, me, c, a1, a2, a3, a4, ⟨d1, d2, c1, c2, e1, e2, b1, b2, b3, b4, -⟩, -⟩ :=
    (C111_encode P key leaf cas password rnd rnd' w hl hr).mp h
  obtain ⟨vf, ie, te, ae, xe, x, g1, g2, g3, g4, g5, g6, g7⟩ := b3
  refine ⟨x, ⟨ve, ce, me, c, auth, e1, e2, c1, vf, ie, te, ae, xe, s2, a1, a2, a3, a4, b1, b4, g1, g2, g3, g4, g5, g6⟩, ?_⟩
  obtain ⟨d, pad, k2, k3⟩ := openWith_right P s2 pw d1 x g7
  refine ⟨_, d, kdf_length P s2 pw 2048 1 5, k2, fun c hc => ?_⟩
  have := certBags_infix b2 pad c hc
  rw [← k3] at this
  exact this.trans (List.drop_suffix 8 d).isInfix

/-- **C147** There are 2^40 such keys. -/
theorem C147_keys : {k : Bytes | k.length = 5}.ncard = 2 ^ 40 := by
  have := count_all 5
  unfold count at this
  simp only [and_true] at this
  rw [this]
  decide

/-- **C147** The SHA-1 of the leaf certificate stands in the file unencrypted. -/
theorem C147_fingerprint (P : Prims) (key : PrivKey) (leaf : Bytes) (cas : List Bytes) (password : Bytes) (rnd rnd' : Reader) (w : Bytes)
    (hl : w.length < 2 ^ 31) (hr : ∀ r, key = .rsa r → ProperRsa r) (h : encode P key leaf cas password rnd = .ok (w, rnd')) :
    P.sha1 leaf <:+: w := by
  obtain ⟨pw, s1, s2, s3, -, -, -, -, -, auth, ve, ce, me, c, a1, a2, a3, a4, ⟨d1, d2, c1, c2, e1, e2, b1, -, -, -, ⟨a, v, k, f1, f2, -, f4⟩, b6, b7⟩, -⟩ :=
    (C111_encode P key leaf cas password rnd rnd' w hl hr).mp h
  obtain ⟨oe, se, de, i1, -, i3, i4⟩ := f2
  obtain ⟨oe', ve', se', j1, -, -, j4⟩ := f4
  have t1 : P.sha1 leaf <:+: a := (el_infix i4).trans ((el_infix i3).trans ((infix_right _ _).trans (el_infix i1)))
  have t2 : a <:+: k := (el_infix j4).trans ((infix_right _ _).trans ((infix_right _ _).trans (el_infix j1)))
  have t3 : k <:+: e2 := (el_infix f1).trans ((el_infix b6).trans (contentOut_infix b7))
  have t4 : e2 <:+: ce := ((infix_right _ _).trans (el_infix b1)).trans ((el_infix a4).trans (contentOut_infix a3))
  have t5 : ce <:+: w := ((infix_left _ _).trans (infix_right _ _)).trans (el_infix a1)
  exact t1.trans (t2.trans (t3.trans (t4.trans t5)))

theorem iterH_len (P : Prims) (n : Int) (x : Bytes) : (Rfc7292.iterH P.sha1 (iters n) x).length = 20 := by
  have key : ∀ m x, (Rfc7292.iterH P.sha1 (m + 1) x).length = 20 := by
    intro m
    induction m with
    | zero => intro x; exact P.sha1_length x
    | succ m ih => intro x; exact ih (P.sha1 x)
  have : iters n = iters n - 1 + 1 := by unfold iters; split <;> omega
  rw [this]; exact key _ x

/-- The derivation of five octets gives the first five of the 24. -/
theorem kdf_five (P : Prims) (salt pw : Bytes) (n : Int) :
    Rfc7292.kdf P.sha1 20 64 salt pw (iters n) 1 5 = (Rfc7292.kdf P.sha1 20 64 salt pw (iters n) 1 24).take 5 := by
  unfold Rfc7292.kdf
  rw [List.take_take]
  have key : ∀ c I, (Rfc7292.stream P.sha1 64 (iters n) (List.replicate 64 1) (c + 1) I).take 5 =
      (Rfc7292.iterH P.sha1 (iters n) (List.replicate 64 1 ++ I)).take 5 := by
    intro c I
    rw [Rfc7292.stream]
    exact List.take_append_of_le_length (by rw [iterH_len]; decide)
  exact (key 0 _).trans (key 1 _).symm

/-- **C147** If the random source gives the same salt twice, what opens the certificates are the first five octets of the Triple-DES key with which the
private key is encrypted. -/
theorem C147_same_salt (P : Prims) (key : PrivKey) (leaf : Bytes) (cas : List Bytes) (password salt : Bytes) (rnd rnd' : Reader) (w : Bytes)
    (hl : w.length < 2 ^ 31) (hr : ∀ r, key = .rsa r → ProperRsa r) (hs : salt.length = 8)
    (h : encode P key leaf cas password (salt ++ (salt ++ rnd)) = .ok (w, rnd')) :
    ∃ x k iv m c, CertPart w x ∧ k.length = 24 ∧ c <:+: w ∧ Pkcs8Out key m ∧ Encrypts (P.tdesEnc k) iv m c ∧
      ∃ d, openWith (k.take 5) x = .ok d ∧ ∀ c ∈ leaf :: cas, c <:+: d := by
  obtain ⟨pw, s1, s2, s3, -, l1, l2, -, hrnd, auth, ve, ce, me, c, a1, a2, a3, a4, ⟨d1, d2, c1, c2, e1, e2, b1, b2, b3, b4, ⟨a, v, kb, f1, f2, f3, f4⟩, b6, b7⟩, -⟩ :=
    (C111_encode P key leaf cas password _ rnd' w hl hr).mp h
  obtain ⟨e1', hrnd⟩ := List.append_inj hrnd (by omega)
  obtain ⟨e2', -⟩ := List.append_inj hrnd (by omega)
  subst e1'
  subst e2'
  obtain ⟨vf, ie, te, ae, xe, x, g1, g2, g3, g4, g5, g6, g7⟩ := b3
  obtain ⟨ke, oe, m, kc, i1, i2, i3, i4, i5⟩ := f3
  obtain ⟨d, pad, k2, k3⟩ := openWith_right P salt pw d1 x g7
  refine ⟨x, _, _, m, kc, ⟨ve, ce, me, c, auth, e1, e2, c1, vf, ie, te, ae, xe, salt, a1, a2, a3, a4, b1, b4, g1, g2, g3, g4, g5, g6⟩,
    kdf_length P salt pw 2048 1 24, ?_, i4, i5, d, by rw [← kdf_five]; exact k2, fun c hc => ?_⟩
  · obtain ⟨oe', ve', se', j1, -, j3, -⟩ := f4
    have t0 : kc <:+: v := (el_infix i3).trans ((infix_right _ _).trans (el_infix i1))
    have t2 : v <:+: kb := (el_infix j3).trans ((infix_left _ _).trans ((infix_right _ _).trans (el_infix j1)))
    have t3 : kb <:+: e2 := (el_infix f1).trans ((el_infix b6).trans (contentOut_infix b7))
    have t4 : e2 <:+: ce := ((infix_right _ _).trans (el_infix b1)).trans ((el_infix a4).trans (contentOut_infix a3))
    have t5 : ce <:+: w := ((infix_left _ _).trans (infix_right _ _)).trans (el_infix a1)
    exact t0.trans (t2.trans (t3.trans (t4.trans t5)))
  · have := certBags_infix b2 pad c hc
    rw [← k3] at this
    exact this.trans (List.drop_suffix 8 d).isInfix

/-- The hypotheses are met by the file of P12Ex.lean (SM2 key, leaf, two further certificates). -/
theorem C147_case : (∃ x, CertPart P12Ex.pfx x ∧ ∃ k d, k.length = 5 ∧ openWith k x = .ok d ∧ ∀ c ∈ [[7], [8], [9]], c <:+: d) ∧
    P12Ex.toyHash [7] <:+: P12Ex.pfx := by
  obtain ⟨r, hr⟩ := P12Ex.pfx_eq
  have hl : P12Ex.pfx.length < 2 ^ 31 := by rw [P12Ex.pfx_length]; decide
  exact ⟨C147_forty_bits _ _ _ _ _ _ _ _ hl (by intro r h; cases h) hr, C147_fingerprint _ _ _ _ _ _ _ _ hl (by intro r h; cases h) hr⟩

/-- The hypotheses of C147_same_salt are met: a random source of 24 equal octets. -/
example : ∃ w r, encode P12Ex.toy (.sm2 P12Ex.key2) [7] [[8], [9]] [0x41] (List.replicate 8 5 ++ (List.replicate 8 5 ++ List.replicate 8 5)) = .ok (w, r) ∧
    w.length < 2 ^ 31 := by
  have hl : (match encode P12Ex.toy (.sm2 P12Ex.key2) [7] [[8], [9]] [0x41] (List.replicate 8 5 ++ (List.replicate 8 5 ++ List.replicate 8 5)) with
    | .ok (b, _) => b.length | _ => 0) = 579 := by decide +kernel
  revert hl
  cases encode P12Ex.toy (.sm2 P12Ex.key2) [7] [[8], [9]] [0x41] (List.replicate 8 5 ++ (List.replicate 8 5 ++ List.replicate 8 5)) with
  | ok v => intro hl; exact ⟨v.1, v.2, rfl, by dsimp only at hl; omega⟩
  | err e => intro hl; cases hl
  | panic => intro hl; cases hl

end MCrypto.Props
