import Verif.Props.P12Tamper
import Verif.Props.P12Ex
/-
C148: which passwords are one and the same for PKCS #12 (pbkdf.go:25-163, bmp-string.go:13-31, pkcs12.go:105-124, 207-403, 405-492; models
Verif/Pkcs12/{Kdf,Crypto,Pfx}.lean).
-/
namespace MCrypto.Props
open MCrypto MCrypto.X509 MCrypto.X509Spec MCrypto.Asn1 MCrypto.Dg MCrypto.P12 MCrypto.P12Spec

/-- The characters of a password as RFC 7292 B.1 counts them: with a NUL at the end. -/
def passChars (s : Bytes) : List Nat := Utf.runes s ++ [0]

/-- Two passwords, with the NUL at the end and written again and again until a multiple of 32 characters is full (RFC 7292 B.2 3), give the same
characters. -/
def SamePass (s t : Bytes) : Prop :=
  ((passChars s).length + 31) / 32 = ((passChars t).length + 31) / 32 ∧
  ∀ i, i < 32 * (((passChars s).length + 31) / 32) →
    (passChars s).getD (i % (passChars s).length) 0 = (passChars t).getD (i % (passChars t).length) 0

/-! ### From characters to octets -/

theorem range_two_mul {α : Type} (f : Nat → α) (m : Nat) :
    (List.range (2 * m)).map f = (List.range m).flatMap fun i => [f (2 * i), f (2 * i + 1)] := by
  induction m with
  | zero => rfl
  | succ m ih =>
    rw [show 2 * (m + 1) = 2 * m + 1 + 1 by omega, List.range_succ, List.range_succ, List.map_append, List.map_append, ih, List.range_succ,
      List.flatMap_append]
    simp

theorem flat_getD (a : List Nat) (k : Nat) (h : k < a.length) :
    (a.flatMap unitBytes).getD (2 * k) 0 = UInt8.ofNat (a.getD k 0 / 256) ∧
    (a.flatMap unitBytes).getD (2 * k + 1) 0 = UInt8.ofNat (a.getD k 0 % 256) := by
  induction a generalizing k with
  | nil => cases h
  | cons x xs ih =>
    cases k with
    | zero => simp [unitBytes]
    | succ k =>
      have := ih k (by simpa using h)
      rw [List.flatMap_cons, unitBytes, show 2 * (k + 1) = 2 * k + 1 + 1 by omega]
      simpa using this

/-- The stretched characters. -/
def stretchC (a : List Nat) : List Nat := (List.range (32 * ((a.length + 31) / 32))).map fun i => a.getD (i % a.length) 0

theorem stretch_flat (a : List Nat) (h : a ≠ []) : Rfc7292.stretch (a.flatMap unitBytes) 64 = (stretchC a).flatMap unitBytes := by
  have hl : 0 < a.length := List.length_pos_iff.mpr h
  unfold Rfc7292.stretch stretchC
  rw [flatMap_unit_length, show 64 * ((2 * a.length + 64 - 1) / 64) = 2 * (32 * ((a.length + 31) / 32)) by omega, range_two_mul, List.flatMap_map]
  congr 1
  funext i
  obtain ⟨h1, h2⟩ := flat_getD a (i % a.length) (Nat.mod_lt _ hl)
  have e1 : 2 * i % (2 * a.length) = 2 * (i % a.length) := Nat.mul_mod_mul_left 2 i a.length
  have e2 : (2 * i + 1) % (2 * a.length) = 2 * (i % a.length) + 1 := by
    have := Nat.mod_lt i hl
    have hd := Nat.div_add_mod i a.length
    conv_lhs => rw [← hd]
    rw [show 2 * (a.length * (i / a.length) + i % a.length) + 1 = 2 * (i % a.length) + 1 + 2 * a.length * (i / a.length) by
      rw [Nat.mul_add, Nat.mul_assoc]; omega, Nat.add_mul_mod_self_left, Nat.mod_eq_of_lt (by omega)]
  rw [e1, e2, h1, h2]
  rfl

theorem samePass_stretchC (s t : Bytes) : SamePass s t ↔ stretchC (passChars s) = stretchC (passChars t) := by
  unfold SamePass stretchC
  constructor
  · rintro ⟨h1, h2⟩
    rw [← h1]
    exact List.map_congr_left fun i hi => h2 i (List.mem_range.mp hi)
  · intro h
    have hl := congrArg List.length h
    simp only [List.length_map, List.length_range] at hl
    have h1 : ((passChars s).length + 31) / 32 = ((passChars t).length + 31) / 32 := by omega
    refine ⟨h1, fun i hi => ?_⟩
    rw [← h1] at h
    have := congrArg (fun l => l[i]?) h
    simpa [hi] using this

theorem be16_flat (a : List Nat) : be16 a = a.flatMap unitBytes := by
  first | rfl | (unfold be16 unitBytes; rfl)

theorem stretchC_bmp {a : List Nat} (h : ∀ r ∈ a, r ≤ 0xFFFF) : ∀ r ∈ stretchC a, r ≤ 0xFFFF := by
  intro r hr
  obtain ⟨i, -, rfl⟩ := List.mem_map.mp hr
  rw [List.getD_eq_getElem?_getD]
  cases he : a[i % a.length]? with
  | none => simp
  | some x => simpa using h x (List.mem_of_getElem? he)

theorem passChars_bmp {s p : Bytes} (h : BmpPassword s p) : ∀ r ∈ passChars s, r ≤ 0xFFFF := by
  intro r hr
  rcases List.mem_append.mp hr with hr | hr
  · exact h.1 r hr
  · simp at hr; omega

theorem passChars_ne (s : Bytes) : passChars s ≠ [] := by unfold passChars; simp

/-- The octets the derivation works with are the same exactly for the same passwords. -/
theorem samePass_iff {s t p q : Bytes} (hs : BmpPassword s p) (ht : BmpPassword t q) :
    SamePass s t ↔ Rfc7292.stretch p 64 = Rfc7292.stretch q 64 := by
  have e1 : p = (passChars s).flatMap unitBytes := by rw [hs.2, be16_flat]; rfl
  have e2 : q = (passChars t).flatMap unitBytes := by rw [ht.2, be16_flat]; rfl
  rw [samePass_stretchC, e1, e2, stretch_flat _ (passChars_ne s), stretch_flat _ (passChars_ne t)]
  constructor
  · intro h; rw [h]
  · intro h
    rw [← bmpUnits_flatMap _ (stretchC_bmp (passChars_bmp hs)), h, bmpUnits_flatMap _ (stretchC_bmp (passChars_bmp ht))]

/-! ### What the package does with them -/

theorem pbkdf_same {p q : Bytes} (h : fillWithRepeats p 64 = fillWithRepeats q 64) (H : Bytes → Bytes) (salt : Bytes) (r : Int) (ID : UInt8) (n : Nat) :
    pbkdf H 20 64 salt p r ID n = pbkdf H 20 64 salt q r ID n := by unfold pbkdf; rw [h]

theorem cipher_same {p q : Bytes} (h : fillWithRepeats p 64 = fillWithRepeats q 64) (P : Prims) (a : AlgId) : pbeCipherFor P a p = pbeCipherFor P a q := by
  unfold pbeCipherFor deriveKey deriveIV
  simp only [pbkdf_same h]

theorem pbDecrypt_same {p q : Bytes} (h : fillWithRepeats p 64 = fillWithRepeats q 64) (P : Prims) (a : AlgId) (d : Bytes) :
    pbDecrypt P a d p = pbDecrypt P a d q := by
  unfold pbDecrypt; rw [cipher_same h]

theorem pbEncrypt_same {p q : Bytes} (h : fillWithRepeats p 64 = fillWithRepeats q 64) (P : Prims) (a : AlgId) (d : Bytes) :
    pbEncrypt P a d p = pbEncrypt P a d q := by
  unfold pbEncrypt; rw [cipher_same h]

theorem macOf_same {p q : Bytes} (h : fillWithRepeats p 64 = fillWithRepeats q 64) (P : Prims) (md : MacData) (m : Bytes) :
    macOf P md m p = macOf P md m q := by
  unfold macOf; rw [pbkdf_same h]

theorem verifyMac_same {p q : Bytes} (h : fillWithRepeats p 64 = fillWithRepeats q 64) (P : Prims) (md : MacData) (m : Bytes) :
    verifyMac P md m p = verifyMac P md m q := by
  unfold verifyMac; rw [macOf_same h]

theorem safeData_same {p q : Bytes} (h : fillWithRepeats p 64 = fillWithRepeats q 64) (P : Prims) (ci : P12.ContentInfo) :
    safeData P ci p = safeData P ci q := by
  unfold safeData
  simp only [pbDecrypt_same h]

theorem collectBags_same {p q : Bytes} (h : fillWithRepeats p 64 = fillWithRepeats q 64) (P : Prims) (cis : List P12.ContentInfo) (bs : List SafeBag) :
    collectBags P p cis bs = collectBags P q cis bs := by
  induction cis generalizing bs with
  | nil => rfl
  | cons ci cis ih =>
    rw [collectBags, collectBags, safeData_same h]
    simp only [ih]

theorem keyBag_same {p q : Bytes} (h : fillWithRepeats p 64 = fillWithRepeats q 64) (P : Prims) (edPub : Bytes → Bytes) (d : Bytes) :
    decodePkcs8ShroudedKeyBag P edPub d p = decodePkcs8ShroudedKeyBag P edPub d q := by
  unfold decodePkcs8ShroudedKeyBag
  simp only [pbDecrypt_same h]

theorem decodeBags_same {p q : Bytes} (h : fillWithRepeats p 64 = fillWithRepeats q 64) {κ : Type} (P : Prims) (edPub : Bytes → Bytes)
    (parseCerts : Bytes → Res (List κ)) (keep : Bool) (bs : List SafeBag) (st : DecState κ) :
    decodeBags P edPub parseCerts keep p bs st = decodeBags P edPub parseCerts keep q bs st := by
  induction bs generalizing st with
  | nil => rfl
  | cons b bs ih =>
    rw [decodeBags, decodeBags]
    unfold decodeBag
    simp only [keyBag_same h, ih]

theorem convertBags_same {p q : Bytes} (h : fillWithRepeats p 64 = fillWithRepeats q 64) (P : Prims) (edPub : Bytes → Bytes) (bs : List SafeBag) :
    convertBags P edPub p bs = convertBags P edPub q bs := by
  induction bs with
  | nil => rfl
  | cons b bs ih =>
    rw [convertBags, convertBags, ih]
    unfold convertBag
    simp only [keyBag_same h]

theorem checkMac_same {p q : Bytes} (h : fillWithRepeats p 64 = fillWithRepeats q 64) (hp : p ≠ [0, 0]) (hq : q ≠ [0, 0]) (P : Prims) (md : MacData)
    (m : Bytes) : checkMac P md m q = (do let _ ← checkMac P md m p; pure q) := by
  unfold checkMac
  rw [verifyMac_same h]
  cases verifyMac P md m q with
  | ok u => rfl
  | panic => rfl
  | err e =>
    simp only [hp, hq, and_false, if_false]
    rfl

theorem getSafeContents_same {p q : Bytes} (h : fillWithRepeats p 64 = fillWithRepeats q 64) (hp : p ≠ [0, 0]) (hq : q ≠ [0, 0]) (P : Prims) (d : Bytes) :
    (∃ e, getSafeContents P d p = .err e ∧ getSafeContents P d q = .err e) ∨
    (getSafeContents P d p = .panic ∧ getSafeContents P d q = .panic) ∨
    ∃ bs, getSafeContents P d p = .ok (bs, p) ∧ getSafeContents P d q = .ok (bs, q) := by
  unfold getSafeContents
  cases unmarshalAll pfxPdu d with
  | err e => exact .inl ⟨e, rfl, rfl⟩
  | panic => exact .inr (.inl ⟨rfl, rfl⟩)
  | ok pfx =>
    simp only [Res.bind_ok]
    split
    · exact .inl ⟨_, rfl, rfl⟩
    · split
      · exact .inl ⟨_, rfl, rfl⟩
      · cases unmarshalAllRaw pfx.authSafe.content.bytes with
        | err e => exact .inl ⟨e, rfl, rfl⟩
        | panic => exact .inr (.inl ⟨rfl, rfl⟩)
        | ok c =>
          simp only [Res.bind_ok]
          split
          · exact .inl ⟨_, rfl, rfl⟩
          · rw [checkMac_same h hp hq]
            have hc : ∀ x, checkMac P pfx.mac c.bytes p = .ok x → x = p := by
              intro x hx
              unfold checkMac at hx
              split at hx
              · exact (Res.ok.inj hx).symm
              · cases hx
              · rw [if_neg (by simp [hp])] at hx; cases hx
            cases hk : checkMac P pfx.mac c.bytes p with
            | err e => exact .inl ⟨e, rfl, rfl⟩
            | panic => exact .inr (.inl ⟨rfl, rfl⟩)
            | ok x =>
              obtain rfl := hc x hk
              simp only [Res.bind_ok, Res.pure_eq]
              cases unmarshalAll (seqOf P12.contentInfo) c.bytes with
              | err e => exact .inl ⟨e, rfl, rfl⟩
              | panic => exact .inr (.inl ⟨rfl, rfl⟩)
              | ok cis =>
                simp only [Res.bind_ok]
                split
                · exact .inl ⟨_, rfl, rfl⟩
                · rw [collectBags_same h]
                  cases collectBags P q cis [] with
                  | err e => exact .inl ⟨e, rfl, rfl⟩
                  | panic => exact .inr (.inl ⟨rfl, rfl⟩)
                  | ok bs => exact .inr (.inr ⟨bs, rfl, rfl⟩)

theorem runes_nil {s : Bytes} (h : Utf.runes s = []) : s = [] := by
  cases s with
  | nil => rfl
  | cons b t =>
    exfalso
    unfold Utf.runes at h
    rw [List.length_cons, Utf.runesAux] at h
    split at h <;> simp_all

theorem bmp_empty {s p : Bytes} (h : BmpPassword s p) (hs : s ≠ []) : p ≠ [0, 0] := by
  intro hp
  have h2 := h.2
  rw [be16_flat] at h2
  have hl := congrArg List.length h2
  rw [flatMap_unit_length, hp] at hl
  simp at hl
  exact hs (runes_nil (List.length_eq_zero_iff.mp (by simpa using hl)))

/-- What the readers and the writer do with a password depends on its characters in the sense of `SamePass` alone. -/
theorem fill_of_same {s t p q : Bytes} (hs : BmpPassword s p) (ht : BmpPassword t q) (h : SamePass s t) :
    fillWithRepeats p 64 = fillWithRepeats q 64 := by
  rw [fillWithRepeats_eq _ _ (by decide), fillWithRepeats_eq _ _ (by decide)]
  exact (samePass_iff hs ht).mp h

/-- **C148** Two such passwords, neither of them empty, open the same files, with the same result, error or not, in `DecodeAll`, `Decode` and `ToPEM`. -/
theorem C148_decode {κ : Type} (P : Prims) (edPub : Bytes → Bytes) (parseCerts : Bytes → Res (List κ)) (s t : Bytes)
    (hs : ∀ r ∈ Utf.runes s, r ≤ 0xFFFF) (ht : ∀ r ∈ Utf.runes t, r ≤ 0xFFFF) (h : SamePass s t) (h1 : s ≠ []) (h2 : t ≠ []) (data : Bytes) :
    decodeAll P edPub parseCerts data s = decodeAll P edPub parseCerts data t ∧
    decode P edPub parseCerts data s = decode P edPub parseCerts data t ∧
    toPEM P edPub data s = toPEM P edPub data t := by
  have bs : BmpPassword s _ := ⟨hs, rfl⟩
  have bt : BmpPassword t _ := ⟨ht, rfl⟩
  have hf := fill_of_same bs bt h
  have n1 := bmp_empty bs h1
  have n2 := bmp_empty bt h2
  have e1 := (bmpPassword_iff _ _).mpr bs
  have e2 := (bmpPassword_iff _ _).mpr bt
  generalize be16 (Utf.runes s ++ [0]) = p at *
  generalize be16 (Utf.runes t ++ [0]) = q at *
  have hw : ∀ keep, decodeWith P edPub parseCerts keep data s = decodeWith P edPub parseCerts keep data t := by
    intro keep
    unfold decodeWith
    rw [e1, e2, Res.bind_ok, Res.bind_ok]
    rcases getSafeContents_same hf n1 n2 P data with ⟨e, a, b⟩ | ⟨a, b⟩ | ⟨l, a, b⟩ <;> rw [a, b]
    simp only [Res.bind_ok, decodeBags_same hf]
  refine ⟨hw true, ?_, ?_⟩
  · unfold decode; rw [hw false]
  · unfold toPEM
    rw [e1, e2]
    rcases getSafeContents_same hf n1 n2 P data with ⟨e, a, b⟩ | ⟨a, b⟩ | ⟨l, a, b⟩ <;> dsimp only <;> rw [a, b]
    exact convertBags_same hf P edPub l

/-- **C148** `Encode` makes of them the same file, to the last octet. -/
theorem C148_encode (P : Prims) (s t : Bytes) (hs : ∀ r ∈ Utf.runes s, r ≤ 0xFFFF) (ht : ∀ r ∈ Utf.runes t, r ≤ 0xFFFF) (h : SamePass s t)
    (key : PrivKey) (leaf : Bytes) (cas : List Bytes) (rnd : Reader) :
    encode P key leaf cas s rnd = encode P key leaf cas t rnd := by
  have bs : BmpPassword s _ := ⟨hs, rfl⟩
  have bt : BmpPassword t _ := ⟨ht, rfl⟩
  have hf := fill_of_same bs bt h
  have e1 := (bmpPassword_iff _ _).mpr bs
  have e2 := (bmpPassword_iff _ _).mpr bt
  generalize be16 (Utf.runes s ++ [0]) = p at *
  generalize be16 (Utf.runes t ++ [0]) = q at *
  unfold encode
  rw [e1, e2]
  simp only [Res.bind_ok, encodePkcs8ShroudedKeyBag, makeSafeContents, computeMac, pbEncrypt_same hf, macOf_same hf]

/-- **C148** Every password of at most 15 characters has others that are the same: itself, a NUL, and itself again. -/
theorem C148_doubled (s t : Bytes) (hl : (Utf.runes s).length ≤ 15) (ht : Utf.runes t = Utf.runes s ++ 0 :: Utf.runes s) : SamePass s t ∧ s ≠ t := by
  refine ⟨?_, fun h => by rw [h] at ht; simpa using congrArg List.length ht⟩
  have e : passChars t = passChars s ++ passChars s := by unfold passChars; rw [ht]; simp
  have hp : (passChars s).length = (Utf.runes s).length + 1 := by unfold passChars; simp
  unfold SamePass
  rw [e, List.length_append]
  generalize passChars s = a at *
  refine ⟨by omega, fun i hi => ?_⟩
  have h0 : i % a.length < a.length := Nat.mod_lt _ (by omega)
  have hm : i % (a.length + a.length) % a.length = i % a.length := Nat.mod_mod_of_dvd i ⟨2, by omega⟩
  rcases Nat.lt_or_ge (i % (a.length + a.length)) a.length with hlt | hge
  · rw [Nat.mod_eq_of_lt hlt] at hm
    rw [hm, List.getD_eq_getElem?_getD, List.getD_eq_getElem?_getD, List.getElem?_append_left h0]
  · rw [List.getD_eq_getElem?_getD, List.getD_eq_getElem?_getD, List.getElem?_append_right hge]
    have : i % (a.length + a.length) < a.length + a.length := Nat.mod_lt _ (by omega)
    rw [Nat.mod_eq_sub_mod hge, Nat.mod_eq_of_lt (by omega)] at hm
    rw [hm]

/-- **C148** The octets: `s`, a zero octet, `s`. -/
theorem C148_doubled_utf8 (s : Bytes) (hv : Utf.Valid s) (hl : (Utf.runes s).length ≤ 15) : SamePass s (s ++ 0 :: s) ∧ s ≠ s ++ 0 :: s := by
  refine C148_doubled s _ hl ?_
  obtain ⟨rs, hr, rfl⟩ := hv
  have e : rs.flatMap Utf.encodeRune ++ 0 :: rs.flatMap Utf.encodeRune = Utf.ofRunes (rs ++ 0 :: rs) := by
    unfold Utf.ofRunes
    rw [List.flatMap_append, List.flatMap_cons]
    rfl
  have e1 : Utf.runes (rs.flatMap Utf.encodeRune) = rs := Utf.runes_encode rs hr
  rw [e, e1, Utf.runes_encode]
  intro r h
  rcases List.mem_append.mp h with h | h
  · exact hr r h
  · rcases List.mem_cons.mp h with rfl | h
    · unfold Utf.IsScalar; omega
    · exact hr r h

/-- **C148** Passwords without NUL characters are never the same. -/
theorem C148_no_nul (s t : Bytes) (hs : Utf.Valid s) (ht : Utf.Valid t) (h1 : 0 ∉ Utf.runes s) (h2 : 0 ∉ Utf.runes t) (h : SamePass s t) : s = t := by
  rw [← Utf.ofRunes_runes hs, ← Utf.ofRunes_runes ht]
  congr 1
  have key : ∀ a b : List Nat, 0 ∉ a → 0 ∉ b → (∀ i, i < a.length + 1 → i < b.length + 1 → (a ++ [0]).getD i 0 = (b ++ [0]).getD i 0) → a = b := by
    intro a
    induction a with
    | nil =>
      intro b _ hb hh
      cases b with
      | nil => rfl
      | cons y b => exact absurd (by simpa using hh 0 (by simp) (by simp)) (fun e : 0 = y => hb (by simp [e]))
    | cons x a ih =>
      intro b ha hb hh
      cases b with
      | nil => exact absurd (by simpa using hh 0 (by simp) (by simp)) (fun e : x = 0 => ha (by simp [e]))
      | cons y b =>
        have e0 : x = y := by simpa using hh 0 (by simp) (by simp)
        rw [e0, ih b (fun q => ha (by simp [q])) (fun q => hb (by simp [q])) (fun i q1 q2 => by
          have := hh (i + 1) (by simp; omega) (by simp; omega)
          rw [List.cons_append, List.cons_append, List.getD_cons_succ, List.getD_cons_succ] at this
          exact this)]
  refine key _ _ h1 h2 fun i q1 q2 => ?_
  have l1 : (passChars s).length = (Utf.runes s).length + 1 := by unfold passChars; simp
  have l2 : (passChars t).length = (Utf.runes t).length + 1 := by unfold passChars; simp
  have := h.2 i (by omega)
  rw [Nat.mod_eq_of_lt (by omega), Nat.mod_eq_of_lt (by omega)] at this
  exact this

/-- **C148** The empty password is the same as one of up to 31 NUL characters, for writing; for reading it accepts at least as much. -/
theorem C148_empty {κ : Type} (P : Prims) (edPub : Bytes → Bytes) (parseCerts : Bytes → Res (List κ)) (t : Bytes)
    (ht : ∀ r ∈ Utf.runes t, r ≤ 0xFFFF) (h : SamePass [] t) (data : Bytes) :
    (∀ x, decodeAll P edPub parseCerts data t = .ok x → decodeAll P edPub parseCerts data [] = .ok x) ∧
    (∀ x, decode P edPub parseCerts data t = .ok x → decode P edPub parseCerts data [] = .ok x) := by
  by_cases h0 : t = []
  · subst h0; exact ⟨fun _ h => h, fun _ h => h⟩
  have bs : BmpPassword [] [0, 0] := ⟨(by intro r hr; cases hr), rfl⟩
  have bt : BmpPassword t _ := ⟨ht, rfl⟩
  have hf := fill_of_same bs bt h
  have n2 := bmp_empty bt h0
  have e1 := (bmpPassword_iff _ _).mpr bs
  have e2 := (bmpPassword_iff _ _).mpr bt
  generalize be16 (Utf.runes t ++ [0]) = q at *
  have hg : ∀ bags q', getSafeContents P data q = .ok (bags, q') → q' = q ∧ getSafeContents P data [0, 0] = .ok (bags, [0, 0]) := by
    intro bags q' hg
    obtain ⟨pfx, auth, ci1, ci2, d1, d2, b1, b2, g1, g2, g3, g4, g5, g6, g7, g8, g9, g10, g11, g12, g13⟩ := (C36_getSafeContents_iff ..).mp hg
    have hq : q' = q := by
      rcases g7 with g7 | ⟨g7, -⟩
      · exact g7
      · exact absurd g7 n2
    subst hq
    refine ⟨rfl, (C36_getSafeContents_iff ..).mpr ⟨pfx, auth, ci1, ci2, d1, d2, b1, b2, g1, g2, g3, g4, g5, ?_, .inl rfl, g8, ?_, g10, ?_, g12, g13⟩⟩
    · have a := (C34_verifyMac_iff P pfx.mac auth.bytes q').1.mpr ⟨g5, g6⟩
      rw [← verifyMac_same hf] at a
      exact ((C34_verifyMac_iff P pfx.mac auth.bytes [0, 0]).1.mp a).2
    · rw [safeData_same hf]; exact g9
    · rw [safeData_same hf]; exact g11
  have hw : ∀ keep x, decodeWith P edPub parseCerts keep data t = .ok x → decodeWith P edPub parseCerts keep data [] = .ok x := by
    intro keep x hx
    unfold decodeWith at hx ⊢
    rw [e2, Res.bind_ok] at hx
    rw [e1, Res.bind_ok]
    simp only [Res.bind_eq_ok, Prod.exists] at hx ⊢
    obtain ⟨bags, q', k1, st, k2, k3⟩ := hx
    obtain ⟨rfl, k4⟩ := hg _ _ k1
    exact ⟨bags, _, k4, st, by rw [decodeBags_same hf]; exact k2, k3⟩
  refine ⟨hw true, fun x hx => ?_⟩
  unfold decode at hx ⊢
  simp only [Res.bind_eq_ok, Prod.exists] at hx ⊢
  obtain ⟨a, b, k1, k2⟩ := hx
  exact ⟨a, b, hw false _ k1, k2⟩

/-- **C148** There are no others: the derivation gives the same for every hash function, salt, iteration count, purpose and length exactly if the
passwords are the same in this sense. -/
theorem C148_exact (s t p q : Bytes) (hs : bmpString s = .ok p) (ht : bmpString t = .ok q) :
    (∀ (H : Bytes → Bytes), (∀ x, (H x).length = 20) → ∀ (salt : Bytes) (r : Int) (ID : UInt8) (n : Nat), pbkdf H 20 64 salt p r ID n = pbkdf H 20 64 salt q r ID n) ↔ SamePass s t := by
  have bs := (bmpPassword_iff _ _).mp hs
  have bt := (bmpPassword_iff _ _).mp ht
  constructor
  · intro h
    rw [samePass_iff bs bt, ← fillWithRepeats_eq _ _ (by decide), ← fillWithRepeats_eq _ _ (by decide)]
    have := h (fun x => if x = List.replicate 64 1 ++ fillWithRepeats p 64 then List.replicate 20 1 else List.replicate 20 0) (by intro x; split <;> simp) [] 1 1 1
    by_contra hne
    have hx : ¬ (List.replicate 64 (1 : UInt8) ++ fillWithRepeats q 64 = List.replicate 64 1 ++ fillWithRepeats p 64) :=
      fun e => hne (List.append_cancel_left e).symm
    have ef : fillWithRepeats [] 64 = [] := rfl
    unfold pbkdf at this
    simp only [ef, List.nil_append] at this
    generalize fillWithRepeats p 64 = a at *
    generalize fillWithRepeats q 64 = b at *
    simp [kdfLoop, hashIter, copyAt, Ne.symm hne] at this
  · intro h H _ salt r ID n
    exact pbkdf_same (fill_of_same bs bt h) H salt r ID n

/-! ### A password that is not the same -/

/-- What is hashed first for the key of the MAC: 64 octets 3, the salt and the password, each repeated to whole blocks. -/
def macStart (salt u : Bytes) : Bytes := List.replicate 64 3 ++ (Rfc7292.stretch salt 64 ++ Rfc7292.stretch u 64)

/-- What is hashed last for the MAC (RFC 2104), with the key `k`. -/
def macLast (H : Bytes → Bytes) (k m : Bytes) : Bytes :=
  (k ++ List.replicate 44 0).map (· ^^^ 0x5c) ++ H ((k ++ List.replicate 44 0).map (· ^^^ 0x36) ++ m)

/-- Two different strings with one hash value. -/
def HashClash (H : Bytes → Bytes) (x y : Bytes) : Prop := x ≠ y ∧ H x = H y

theorem iterH_clash (H : Bytes → Bytes) (n : Nat) (x y : Bytes) (hne : x ≠ y) (h : Rfc7292.iterH H n x = Rfc7292.iterH H n y) :
    ∃ j, j < n ∧ HashClash H (Rfc7292.iterH H j x) (Rfc7292.iterH H j y) := by
  induction n generalizing x y with
  | zero => exact absurd h hne
  | succ n ih =>
    by_cases he : H x = H y
    · exact ⟨0, by omega, hne, he⟩
    · obtain ⟨j, hj, hc⟩ := ih (H x) (H y) he h
      exact ⟨j + 1, by omega, hc⟩

theorem iterH_length (P : Prims) (n : Nat) (x : Bytes) : (Rfc7292.iterH P.sha1 (n + 1) x).length = 20 := by
  induction n generalizing x with
  | zero => exact P.sha1_length x
  | succ n ih => exact ih (P.sha1 x)

theorem iters_succ (n : Int) : ∃ m, iters n = m + 1 := by
  unfold iters
  split
  · exact ⟨0, rfl⟩
  · exact ⟨n.toNat - 1, by omega⟩

theorem kdf_mac (P : Prims) (salt u : Bytes) (n : Int) :
    Rfc7292.kdf P.sha1 20 64 salt u (iters n) 3 20 = Rfc7292.iterH P.sha1 (iters n) (macStart salt u) := by
  obtain ⟨m, hm⟩ := iters_succ n
  rw [hm]
  show (Rfc7292.iterH P.sha1 (m + 1) (macStart salt u) ++ []).take 20 = _
  rw [List.append_nil]
  exact List.take_of_length_le (by rw [iterH_length])

theorem mac_eq (P : Prims) (salt u : Bytes) (n : Int) (m : Bytes) :
    mac P salt u n m = P.sha1 (macLast P.sha1 (Rfc7292.iterH P.sha1 (iters n) (macStart salt u)) m) := by
  unfold mac
  rw [kdf_mac]
  obtain ⟨j, hj⟩ := iters_succ n
  have hl : (Rfc7292.iterH P.sha1 (iters n) (macStart salt u)).length = 20 := by rw [hj]; exact iterH_length ..
  generalize Rfc7292.iterH P.sha1 (iters n) (macStart salt u) = k at *
  unfold hmac macLast
  dsimp only
  rw [if_neg (by omega), hl]

theorem macLast_inj (H : Bytes → Bytes) (k k' m : Bytes) (h : k.length = 20) (h' : k'.length = 20) (e : macLast H k m = macLast H k' m) : k = k' := by
  unfold macLast at e
  have e1 := (List.append_inj e (by simp [h, h'])).1
  have hinj : Function.Injective (fun x : UInt8 => x ^^^ 0x5c) := by
    intro a b hab
    have := congrArg (fun x : UInt8 => x ^^^ 0x5c) hab
    simpa [UInt8.xor_assoc] using this
  have e2 := (List.map_injective_iff.mpr hinj) e1
  exact List.append_cancel_right e2

theorem stretch_nil_ne {t q : Bytes} (h : BmpPassword t q) : Rfc7292.stretch q 64 ≠ [] := by
  intro e
  have hl := congrArg List.length e
  rw [stretch_length, h.2, be16_flat, flatMap_unit_length] at hl
  simp at hl
  omega

/-- The octets with which the MAC may have been computed: those of the password; for the empty one also none. -/
def MacOctets (s u : Bytes) : Prop := BmpPassword s u ∨ (s = [] ∧ u = [])

/-- **C148** Two passwords that are not the same and both open a file, whoever made it: then the file names two different strings with one SHA-1 value:
in the chain of hashes that starts with the salt and the passwords, or in the last hash of the MAC. -/
theorem C148_two_passwords {κ : Type} (P : Prims) (edPub : Bytes → Bytes) (parseCerts : Bytes → Res (List κ)) (data s t : Bytes) (x y : PrivKey × List κ)
    (hs : decodeAll P edPub parseCerts data s = .ok x) (ht : decodeAll P edPub parseCerts data t = .ok y) (hne : ¬ SamePass s t) :
    ∃ digest salt n auth u v, PfxMac data digest salt n auth ∧ MacOctets s u ∧ MacOctets t v ∧
      ((∃ j, j < iters n ∧ HashClash P.sha1 (Rfc7292.iterH P.sha1 j (macStart salt u)) (Rfc7292.iterH P.sha1 j (macStart salt v))) ∨
       HashClash P.sha1 (macLast P.sha1 (Rfc7292.iterH P.sha1 (iters n) (macStart salt u)) auth)
         (macLast P.sha1 (Rfc7292.iterH P.sha1 (iters n) (macStart salt v)) auth)) := by
  have key : ∀ s x, decodeAll P edPub parseCerts data s = .ok x → ∃ digest salt n auth p u, PfxMac data digest salt n auth ∧ BmpPassword s p ∧
      (u = p ∨ (s = [] ∧ u = [])) ∧ digest = mac P salt u n auth := by
    intro s x hs
    obtain ⟨p, bags, u, hb, hop⟩ := (C36_decode_needs_mac P edPub parseCerts data s).1 x hs
    obtain ⟨pfx, auth, ci1, ci2, d1, d2, b1, b2, g1, g2, g3, g4, g5, g6, g7, -⟩ := hop
    have hb' := (bmpPassword_iff _ _).mp hb
    refine ⟨_, _, _, auth.bytes, p, u, (pfxMac_iff ..).mpr ⟨pfx, auth, g1, g2, g3, g4, g5, rfl, rfl, rfl, rfl⟩, hb', ?_, g6⟩
    rcases g7 with g7 | ⟨g7, g8, -⟩
    · exact .inl g7
    · refine .inr ⟨?_, g8⟩
      by_contra h0
      exact bmp_empty hb' h0 g7
  obtain ⟨d, sa, n, au, p, u, m1, b1, o1, f1⟩ := key s x hs
  obtain ⟨d', sa', n', au', q, v, m2, b2, o2, f2⟩ := key t y ht
  obtain ⟨rfl, rfl, rfl, rfl⟩ := C125_unique m1 m2
  refine ⟨d, sa, n, au, u, v, m1, ?_, ?_, ?_⟩
  · rcases o1 with rfl | h
    · exact .inl b1
    · exact .inr h
  · rcases o2 with rfl | h
    · exact .inl b2
    · exact .inr h
  have hst : Rfc7292.stretch u 64 ≠ Rfc7292.stretch v 64 := by
    intro e
    have e0 : Rfc7292.stretch [] 64 = [] := rfl
    rcases o1 with rfl | ⟨rfl, rfl⟩ <;> rcases o2 with rfl | ⟨rfl, rfl⟩
    · exact hne ((samePass_iff b1 b2).mpr e)
    · exact stretch_nil_ne b1 (by rw [e, e0])
    · exact stretch_nil_ne b2 (by rw [← e, e0])
    · exact hne ⟨rfl, fun _ _ => rfl⟩
  have hms : macStart sa u ≠ macStart sa v := by
    intro e
    unfold macStart at e
    exact hst (List.append_cancel_left (List.append_cancel_left e))
  have hh := f1.symm.trans f2
  rw [mac_eq, mac_eq] at hh
  by_cases hk : Rfc7292.iterH P.sha1 (iters n) (macStart sa u) = Rfc7292.iterH P.sha1 (iters n) (macStart sa v)
  · exact .inl (iterH_clash _ _ _ _ hms hk)
  · refine .inr ⟨fun e => hk ?_, hh⟩
    obtain ⟨j, hj⟩ := iters_succ n
    exact macLast_inj _ _ _ _ (by rw [hj]; exact iterH_length ..) (by rw [hj]; exact iterH_length ..) e

/-- The file of P12Ex.lean, made with the password "A": "A\0A" opens it too, and makes the same file. -/
theorem C148_case (edPub : Bytes → Bytes) :
    SamePass [0x41] [0x41, 0, 0x41] ∧ decodeAll P12Ex.toy edPub P12Ex.parse1 P12Ex.pfx [0x41, 0, 0x41] = .ok (.sm2 P12Ex.key2, [7, 8, 9]) ∧
    (∃ r, encode P12Ex.toy (.sm2 P12Ex.key2) [7] [[8], [9]] [0x41, 0, 0x41] P12Ex.rnd = .ok (P12Ex.pfx, r)) ∧
    SamePass [] [0] ∧ ¬ SamePass [0x41] [0x42] ∧ ¬ SamePass [0x41] [0x41, 0] := by
  have h1 : SamePass [0x41] [0x41, 0, 0x41] := (C148_doubled [0x41] [0x41, 0, 0x41] (by decide +kernel) (by decide +kernel)).1
  refine ⟨h1, ?_, ?_, (C148_doubled [] [0] (by decide +kernel) (by decide +kernel)).1, ?_, ?_⟩
  · rw [← (C148_decode P12Ex.toy edPub P12Ex.parse1 [0x41] _ (by decide +kernel) (by decide +kernel) h1 (by decide) (by decide) P12Ex.pfx).1]
    exact P12Ex.pfx_decodes edPub
  · obtain ⟨r, hr⟩ := P12Ex.pfx_eq
    exact ⟨r, by rw [← C148_encode P12Ex.toy [0x41] _ (by decide +kernel) (by decide +kernel) h1]; exact hr⟩
  · intro h; exact absurd (h.2 0 (by decide +kernel)) (by decide +kernel)
  · intro h; exact absurd (h.2 2 (by decide +kernel)) (by decide +kernel)

/-- The hypotheses of C148_two_passwords: "B" is not the same password as "A", and opens the file because the hash function of the example has one
value only. -/
example : (decodeAll P12Ex.toy id P12Ex.parse1 P12Ex.pfx [0x41]).isOk = true ∧ (decodeAll P12Ex.toy id P12Ex.parse1 P12Ex.pfx [0x42]).isOk = true ∧
    ¬ SamePass [0x41] [0x42] := ⟨by rw [P12Ex.pfx_decodes]; rfl, by decide +kernel, (C148_case id).2.2.2.2.1⟩

end MCrypto.Props
