import Verif.X509.ReadLemmas
import Verif.Props.X509Strings
/-
The extension parsers accept exactly what Verif.X509.ExtSpec describes.
-/
namespace MCrypto.X509
open MCrypto MCrypto.Asn1 MCrypto.X509Spec MCrypto.Props

theorem oidElem_ne_nil {o : Oid} {e : Bytes} (h : OidElem o e) : e ≠ [] := by
  obtain ⟨b, h, _⟩ := h; exact h.ne_nil

theorem head_ne_of_peek {t : Der.Tag} {s : Bytes} (h : peek t s = false) : s.head? ≠ some t := by
  unfold peek at h; simpa using h

theorem peek_of_head_ne {t : Der.Tag} {s : Bytes} (h : s.head? ≠ some t) : peek t s = false := by
  unfold peek; simpa using h

/-- A sequence around a list, with trailing data ignored. -/
theorem seq_iff {α : Type} {f : Bytes → Option α} {P : Bytes → α → Prop} (hf : ∀ b v, f b = some v ↔ P b v)
    (value : Bytes) (v : α) :
    ((Der.readASN1 0x30 value).bind fun x => f x.1) = some v ↔
      ∃ e tr body, value = e ++ tr ∧ Elem 0x30 body e ∧ P body v := by
  rw [Option.bind_eq_some_iff]
  constructor
  · rintro ⟨⟨b, r⟩, h1, h2⟩
    obtain ⟨e, h3, h4⟩ := (readASN1_iff _ _ _ _).mp h1
    exact ⟨e, r, b, h3, h4, (hf _ _).mp h2⟩
  · rintro ⟨e, tr, b, h1, h2, h3⟩
    exact ⟨(b, tr), (readASN1_iff _ _ _ _).mpr ⟨e, h1, h2⟩, (hf _ _).mpr h3⟩

/-! ### Key usage -/

theorem bitsOf_getD (bytes : Bytes) (i : Nat) :
    (bitsOf bytes).getD i false = (bytes.getD (i / 8) 0).toNat.testBit (7 - i % 8) := by
  induction bytes generalizing i with
  | nil => simp [bitsOf]
  | cons x t ih =>
    rw [bitsOf_cons]
    by_cases h : i < 8
    · have hi : i / 8 = 0 := by omega
      have hm : i % 8 = i := by omega
      rw [hi, hm, List.getD_cons_zero, List.getD_eq_getElem?_getD, List.getElem?_append_left (by simp [bits8]; omega)]
      simp [bits8, h]
    · have : i / 8 = (i - 8) / 8 + 1 := by omega
      have hm : i % 8 = (i - 8) % 8 := by omega
      rw [this, hm, List.getD_cons_succ, ← ih (i - 8), List.getD_eq_getElem?_getD, List.getD_eq_getElem?_getD,
        List.getElem?_append_right (by simp [bits8]; omega)]
      simp [bits8]

theorem decBits_iff (b : Bytes) (v : BitString) : decBits b = some v ↔
    ∃ pad bytes, b = pad :: bytes ∧ pad.toNat ≤ 7 ∧ (bytes = [] → pad = 0) ∧
      (bytes.getLastD 0).toNat % 2 ^ pad.toNat = 0 ∧ v = ⟨bytes, bytes.length * 8 - pad.toNat⟩ := by
  unfold decBits
  match b with
  | [] => simp
  | pad :: t =>
    have hz : pad = 0 ↔ pad.toNat = 0 := Der.u8_eq_iff pad 0
    simp only []
    have hlast : t ≠ [] → (pad :: t).getLastD 0 = t.getLastD 0 := by
      intro h
      cases t with
      | nil => exact absurd rfl h
      | cons a t => rfl
    constructor
    · intro h
      split at h
      · cases h
      rename_i hc
      injection h with h
      refine ⟨pad, t, rfl, by omega, ?_, ?_, h.symm⟩
      · intro ht; rw [hz]; by_contra hp; exact hc (Or.inr (Or.inl ⟨ht, by omega⟩))
      · by_cases ht : t = []
        · subst ht; simp
        · rw [← hlast ht]; by_contra hp; exact hc (Or.inr (Or.inr hp))
    · rintro ⟨pad', t', he, h1, h2, h3, rfl⟩
      injection he with he1 he2
      subst he1 he2
      rw [if_neg]
      rintro (h | ⟨ht, h⟩ | h)
      · omega
      · have := hz.mp (h2 ht); omega
      · by_cases ht : t = []
        · subst ht
          have := h2 rfl
          subst this
          simp [Nat.mod_one] at h
        · rw [hlast ht] at h; exact h h3

/-- Beyond the stated length there are only zero bits. -/
theorem bitAt_eq (bytes : Bytes) (pad : Nat) (hp : pad ≤ 7) (hl : (bytes.getLastD 0).toNat % 2 ^ pad = 0)
    (i : Nat) : bitAt ⟨bytes, bytes.length * 8 - pad⟩ i = ((bitsOf bytes).getD i false).toNat := by
  rw [bitsOf_getD]
  unfold bitAt
  have tb : ∀ n j : Nat, n / 2 ^ j % 2 = (n.testBit j).toNat := by
    intro n j
    rw [Nat.testBit_eq_decide_div_mod_eq]
    rcases Nat.mod_two_eq_zero_or_one (n / 2 ^ j) with h | h <;> simp [h]
  split
  · rename_i hge
    simp only [] at hge
    by_cases hi : i < bytes.length * 8
    · have hidx : i / 8 = bytes.length - 1 := by omega
      have hlast : bytes.getD (i / 8) 0 = bytes.getLastD 0 := by
        rw [hidx, List.getD_eq_getElem?_getD, List.getLastD_eq_getLast?, List.getLast?_eq_getElem?]
      rw [hlast]
      have hj : 7 - i % 8 < pad := by omega
      have : (bytes.getLastD 0).toNat.testBit (7 - i % 8) = false := by
        have hm : ((bytes.getLastD 0).toNat % 2 ^ pad).testBit (7 - i % 8) = false := by rw [hl]; simp
        rw [Nat.testBit_mod_two_pow] at hm
        simpa [hj] using hm
      rw [this]; rfl
    · rw [List.getD_eq_getElem?_getD, List.getElem?_eq_none (by omega)]; simp
  · exact tb _ _

theorem usage_fold (p : Nat → Bool) (n : Nat) :
    ∀ i, ((List.range n).foldl (fun u i => if (p i).toNat ≠ 0 then u ||| 2 ^ i else u) 0).testBit i =
      (decide (i < n) && p i) := by
  induction n with
  | zero => intro i; simp
  | succ n ih =>
    intro i
    rw [List.range_succ, List.foldl_append]
    simp only [List.foldl_cons, List.foldl_nil]
    by_cases hp : p n = true
    · rw [if_pos (by simp [hp]), Nat.testBit_or, ih, Nat.testBit_two_pow]
      by_cases h : i = n
      · subst h; simp [hp]
      · by_cases h2 : i < n
        · simp [h2, show i < n + 1 by omega, Ne.symm h]
        · simp [h2, show ¬ i < n + 1 by omega, Ne.symm h]
    · rw [if_neg (by simp [hp]), ih]
      by_cases h : i = n
      · subst h; simp [hp]
      · by_cases h2 : i < n
        · simp [h2, show i < n + 1 by omega]
        · simp [h2, show ¬ i < n + 1 by omega]

theorem parseKeyUsage_iff (value : Bytes) (k : Int) :
    parseKeyUsageExtension value = some k ↔ ∃ ku : Nat, k = ku ∧ KeyUsageExt value ku := by
  unfold parseKeyUsageExtension KeyUsageExt
  simp only [Option.pure_def, Option.bind_eq_bind, Option.bind_eq_some_iff, Prod.exists, Option.some.injEq]
  have fold : ∀ (bytes : Bytes) (pad : Nat), pad ≤ 7 → (bytes.getLastD 0).toNat % 2 ^ pad = 0 → ∀ i,
      ((List.range 9).foldl (fun u i => if bitAt ⟨bytes, bytes.length * 8 - pad⟩ i ≠ 0 then u ||| 2 ^ i else u)
        0).testBit i = (decide (i < 9) && (bitsOf bytes).getD i false) := by
    intro bytes pad hp hl i
    have : (fun (u i : Nat) => if bitAt ⟨bytes, bytes.length * 8 - pad⟩ i ≠ 0 then u ||| 2 ^ i else u) =
        fun u i => if ((bitsOf bytes).getD i false).toNat ≠ 0 then u ||| 2 ^ i else u := by
      funext u i
      rw [bitAt_eq bytes pad hp hl]
    rw [this]
    exact usage_fold (fun i => (bitsOf bytes).getD i false) 9 i
  constructor
  · rintro ⟨v, r, h, rfl⟩
    obtain ⟨e, rfl, b, he, hd⟩ := (readBits_iff _ _ _).mp h
    obtain ⟨pad, bytes, rfl, h1, h2, h3, rfl⟩ := (decBits_iff _ _).mp hd
    exact ⟨_, rfl, e, r, pad, bytes, rfl, he, h1, h2, h3, fold bytes pad.toNat h1 h3⟩
  · rintro ⟨ku, rfl, e, tr, pad, bytes, rfl, he, h1, h2, h3, h4⟩
    refine ⟨_, tr, (readBits_iff _ _ _).mpr ⟨e, rfl, _, he,
      (decBits_iff _ _).mpr ⟨pad, bytes, rfl, h1, h2, h3, rfl⟩⟩, ?_⟩
    congr 1
    apply Nat.eq_of_testBit_eq
    intro i
    rw [fold bytes pad.toNat h1 h3, h4]

/-! ### Basic constraints -/

theorem parseBc_iff (value : Bytes) (ca : Bool) (m : Int) :
    parseBasicConstraintsExtension value = some (ca, m) ↔ BasicConstraintsExt value ca m := by
  unfold parseBasicConstraintsExtension BasicConstraintsExt readFlag readPathLen
  simp only [Option.pure_def, Option.bind_eq_bind, Option.bind_eq_some_iff, Prod.exists, Option.some.injEq,
    Prod.mk.injEq]
  constructor
  · rintro ⟨b, tr, h1, c, s, h2, n, r, h3, rfl, rfl⟩
    obtain ⟨e, rfl, he⟩ := (readASN1_iff _ _ _ _).mp h1
    have hn : ∃ len le junk, s = le ++ junk ∧ n = len.getD (-1) ∧ (match len with
        | none => le = [] ∧ junk.head? ≠ some 0x02
        | some n => Elem 0x02 (Der.encInt n) le ∧ -(2 ^ 63 : Int) ≤ n ∧ n < 2 ^ 63) := by
      by_cases hp : s ≠ [] ∧ peek 0x02 s = true
      · rw [if_pos hp] at h3
        obtain ⟨le, rfl, hle⟩ := (readGoInt_iff _ _ _).mp h3
        exact ⟨some n, le, r, rfl, rfl, hle⟩
      · rw [if_neg hp] at h3
        simp only [Option.some.injEq, Prod.mk.injEq] at h3
        refine ⟨none, [], s, rfl, h3.1.symm, rfl, ?_⟩
        intro hh
        apply hp
        refine ⟨fun hs => ?_, ?_⟩
        · subst hs; cases hh
        · unfold peek; simpa using hh
    obtain ⟨len, le, junk, rfl, rfl, hlen⟩ := hn
    by_cases hp : peek 0x01 b = true
    · rw [if_pos hp] at h2
      obtain ⟨ce, rfl, hce⟩ := (readBool_iff _ _ _).mp h2
      exact ⟨e, tr, _, some c, len, rfl, he, ⟨ce, le, junk, by simp, hce, hlen⟩, rfl, rfl⟩
    · rw [if_neg hp] at h2
      simp only [Option.some.injEq, Prod.mk.injEq] at h2
      obtain ⟨rfl, rfl⟩ := h2
      exact ⟨e, tr, _, none, len, rfl, he,
        ⟨[], le, junk, by simp, ⟨rfl, head_ne_of_peek (by simpa using hp)⟩, hlen⟩, rfl, rfl⟩
  · rintro ⟨e, tr, body, ca', len, rfl, he, ⟨ce, le, junk, rfl, h1, h2⟩, rfl, rfl⟩
    refine ⟨_, tr, (readASN1_iff _ _ _ _).mpr ⟨e, rfl, he⟩, ca'.getD false, le ++ junk, ?_, len.getD (-1), ?_⟩
    · match ca', h1 with
      | none, ⟨hce, hh⟩ =>
        subst hce
        rw [peek_of_head_ne hh]
        simp
      | some v, hce =>
        rw [List.append_assoc, peek_elem hce]
        simp only [decide_true, if_true]
        exact (readBool_iff _ _ _).mpr ⟨ce, rfl, hce⟩
    · match len, h2 with
      | none, ⟨hle, hh⟩ =>
        subst hle
        refine ⟨junk, ?_, rfl, rfl⟩
        rw [List.nil_append, peek_of_head_ne hh]
        simp
      | some n, ⟨hle, hr⟩ =>
        refine ⟨junk, ?_, rfl, rfl⟩
        rw [if_pos ⟨fun hh => hle.ne_nil (List.append_eq_nil_iff.mp hh).1, by rw [peek_elem hle]; rfl⟩]
        exact (readGoInt_iff _ _ _).mpr ⟨le, rfl, hle, hr⟩

/-! ### Extended key usage, policies -/

theorem parseEku_iff (value : Bytes) (k : List Int) (u : List Oid) :
    parseExtKeyUsageExtension value = some (k, u) ↔ ∃ oids, EkuExt value oids ∧
      k = oids.filterMap extKeyUsageFromOID ∧ u = oids.filter fun o => (extKeyUsageFromOID o).isNone := by
  unfold parseExtKeyUsageExtension EkuExt
  simp only [Option.pure_def, Option.bind_eq_bind, Option.bind_eq_some_iff, Prod.exists, Option.some.injEq,
    Prod.mk.injEq]
  have hm := readMany_concat' (step := readOID) (E := fun e o => OidElem o e) (fun s v rest => readOID_iff s v rest)
    (fun e o h => oidElem_ne_nil h)
  constructor
  · rintro ⟨b, tr, h1, l, h2, rfl, rfl⟩
    obtain ⟨e, rfl, he⟩ := (readASN1_iff _ _ _ _).mp h1
    exact ⟨l, ⟨e, tr, b, rfl, he, (hm _ _).mp h2⟩, rfl, rfl⟩
  · rintro ⟨l, ⟨e, tr, b, rfl, he, h2⟩, rfl, rfl⟩
    exact ⟨b, tr, (readASN1_iff _ _ _ _).mpr ⟨e, rfl, he⟩, l, (hm _ _).mpr h2, rfl, rfl⟩

theorem readPolicy_iff (s : Bytes) (o : Oid) (rest : Bytes) : readPolicy s = some (o, rest) ↔
    ∃ e, s = e ++ rest ∧ ∃ oe q, Elem 0x30 (oe ++ q) e ∧ OidElem o oe := by
  unfold readPolicy
  simp only [Option.pure_def, Option.bind_eq_bind, Option.bind_eq_some_iff, Prod.exists, Option.some.injEq,
    Prod.mk.injEq]
  constructor
  · rintro ⟨b, r, h1, o', q, h2, rfl, rfl⟩
    obtain ⟨e, rfl, he⟩ := (readASN1_iff _ _ _ _).mp h1
    obtain ⟨oe, rfl, ho⟩ := (readOID_iff _ _ _).mp h2
    exact ⟨e, rfl, oe, q, he, ho⟩
  · rintro ⟨e, rfl, oe, q, he, ho⟩
    exact ⟨_, rest, (readASN1_iff _ _ _ _).mpr ⟨e, rfl, he⟩, o, q, (readOID_iff _ _ _).mpr ⟨oe, rfl, ho⟩, rfl, rfl⟩

theorem parsePolicies_iff (value : Bytes) (oids : List Oid) :
    parseCertificatePoliciesExtension value = some oids ↔ PoliciesExt value oids := by
  unfold parseCertificatePoliciesExtension PoliciesExt
  simp only [Option.bind_eq_bind, Option.bind_eq_some_iff, Prod.exists]
  have hm := readMany_concat' (step := readPolicy)
    (E := fun e o => ∃ oe q, Elem 0x30 (oe ++ q) e ∧ OidElem o oe) readPolicy_iff
    (fun e o ⟨_, _, h, _⟩ => h.ne_nil)
  constructor
  · rintro ⟨b, tr, h1, h2⟩
    obtain ⟨e, rfl, he⟩ := (readASN1_iff _ _ _ _).mp h1
    exact ⟨e, tr, b, rfl, he, (hm _ _).mp h2⟩
  · rintro ⟨e, tr, b, rfl, he, h2⟩
    exact ⟨b, tr, (readASN1_iff _ _ _ _).mpr ⟨e, rfl, he⟩, (hm _ _).mpr h2⟩

/-! ### Subject alternative names -/

/-- What is stored for a well-formed name. -/
def sanOf (env : Env) (n : GName) : San :=
  if n.1 = 0x81 then .email n.2
  else if n.1 = 0x82 then .dns n.2
  else if n.1 = 0x86 then .uri ((env.parseURL n.2).getD ⟨[], []⟩)
  else if n.1 = 0x87 then .ip n.2
  else .other

theorem xor80 (t : UInt8) (k : UInt8) : t ^^^ 0x80 = k ↔ t = k ^^^ 0x80 := by
  constructor
  · rintro rfl; rw [UInt8.xor_assoc]; simp
  · rintro rfl; rw [UInt8.xor_assoc]; simp

theorem hostOpt_iff (u : Url) : (u.host ≠ [] → HostName u.host) ↔
    (u.host.length > 0 → ∃ ls, domainToReverseLabels u.host = some ls) := by
  rw [domain_ok_iff, gt_iff_lt, List.length_pos_iff]

theorem sanItem_iff (env : Env) (t : Der.Tag) (b : Bytes) (x : San) :
    sanItem env (t ^^^ 0x80) b = some x ↔ SanOk env (t, b) ∧ x = sanOf env (t, b) := by
  have h1 : (t ^^^ 0x80 = 1) ↔ t = 0x81 := xor80 t 1
  have h2 : (t ^^^ 0x80 = 2) ↔ t = 0x82 := xor80 t 2
  have h6 : (t ^^^ 0x80 = 6) ↔ t = 0x86 := xor80 t 6
  have h7 : (t ^^^ 0x80 = 7) ↔ t = 0x87 := xor80 t 7
  have asc : isIA5String b = true ↔ Ascii b := isIA5String_iff b
  unfold sanItem sanOf SanOk
  simp only [h1, h2, h6, h7]
  by_cases e1 : t = 0x81
  · subst e1
    by_cases ha : isIA5String b = true
    · simp [ha, asc.mp ha, eq_comm]
    · have : ¬ Ascii b := fun h => ha (asc.mpr h)
      simp [ha, this]
  by_cases e2 : t = 0x82
  · subst e2
    by_cases ha : isIA5String b = true
    · simp [ha, asc.mp ha, eq_comm]
    · have : ¬ Ascii b := fun h => ha (asc.mpr h)
      simp [ha, this]
  by_cases e6 : t = 0x86
  · subst e6
    by_cases ha : isIA5String b = true
    · have has := asc.mp ha
      match hu : env.parseURL b with
      | none => simp [ha, hu]
      | some u =>
        have hh := hostOpt_iff u
        by_cases hl : u.host.length > 0
        · match hd : domainToReverseLabels u.host with
          | none =>
            have : ¬ (u.host ≠ [] → HostName u.host) := by
              rw [hh]; intro hc; obtain ⟨ls, hls⟩ := hc hl; rw [hd] at hls; cases hls
            simp only [ha, hl, hd]
            simp [has, this]
          | some ls =>
            have : (u.host ≠ [] → HostName u.host) := hh.mpr fun _ => ⟨ls, hd⟩
            simp [ha, has, hl, hd]
            constructor
            · rintro rfl; exact ⟨by simpa using this, rfl⟩
            · rintro ⟨_, rfl⟩; rfl
        · have : (u.host ≠ [] → HostName u.host) := hh.mpr fun h => absurd h hl
          simp [ha, has, hl]
          constructor
          · rintro rfl; exact ⟨by simpa using this, rfl⟩
          · rintro ⟨_, rfl⟩; rfl
    · have : ¬ Ascii b := fun h => ha (asc.mpr h)
      simp [ha, this]
  by_cases e7 : t = 0x87
  · subst e7
    by_cases hl : b.length = 4 ∨ b.length = 16
    · simp [hl, eq_comm]
    · simp [hl]
  · simp [e1, e2, e6, e7, eq_comm]

theorem readSan_iff (env : Env) (s : Bytes) (x : San) (rest : Bytes) : readSan env s = some (x, rest) ↔
    ∃ e, s = e ++ rest ∧ ∃ n : GName, Elem n.1 n.2 e ∧ SanOk env n ∧ x = sanOf env n := by
  unfold readSan
  constructor
  · intro h
    match hr : Der.readAny s with
    | none => rw [hr] at h; cases h
    | some (t, b, r) =>
      rw [hr] at h
      simp only [] at h
      obtain ⟨e, rfl, he⟩ := (readAny_iff _ _ _ _).mp hr
      match hi : sanItem env (t ^^^ 0x80) b with
      | none => rw [hi] at h; cases h
      | some y =>
        rw [hi] at h
        simp only [Option.some.injEq, Prod.mk.injEq] at h
        obtain ⟨rfl, rfl⟩ := h
        exact ⟨e, rfl, (t, b), he, (sanItem_iff _ _ _ _).mp hi⟩
  · rintro ⟨e, rfl, ⟨t, b⟩, he, hn⟩
    rw [(readAny_iff _ _ _ _).mpr ⟨e, rfl, he⟩]
    simp only [(sanItem_iff _ _ _ _).mpr hn]

theorem collectSans_map (env : Env) (ns : List GName) :
    collectSans (ns.map (sanOf env)) =
      ⟨ofTag 0x82 ns, ofTag 0x81 ns, ofTag 0x87 ns,
        (ofTag 0x86 ns).map fun b => (env.parseURL b).getD ⟨[], []⟩⟩ := by
  induction ns with
  | nil => rfl
  | cons n ns ih =>
    obtain ⟨t, b⟩ := n
    simp only [collectSans, ofTag, SanLists.mk.injEq] at ih ⊢
    obtain ⟨i1, i2, i3, i4⟩ := ih
    simp only [List.map_cons, List.filterMap_cons, sanOf]
    by_cases e1 : t = 0x81
    · subst e1; refine ⟨?_, ?_, ?_, ?_⟩ <;> simp [i1, i2, i3, i4]
    by_cases e2 : t = 0x82
    · subst e2; refine ⟨?_, ?_, ?_, ?_⟩ <;> simp [i1, i2, i3, i4]
    by_cases e6 : t = 0x86
    · subst e6; refine ⟨?_, ?_, ?_, ?_⟩ <;> simp [i1, i2, i3, i4]
    by_cases e7 : t = 0x87
    · subst e7; refine ⟨?_, ?_, ?_, ?_⟩ <;> simp [i1, i2, i3, i4]
    · refine ⟨?_, ?_, ?_, ?_⟩ <;> simp [i1, i2, i3, i4, e1, e2, e6, e7]

theorem parseSan_iff (env : Env) (value : Bytes) (l : SanLists) :
    parseSANExtension env value = some l ↔ ∃ names, SanExt value names ∧ (∀ n ∈ names, SanOk env n) ∧
      l = ⟨ofTag 0x82 names, ofTag 0x81 names, ofTag 0x87 names,
        (ofTag 0x86 names).map fun b => (env.parseURL b).getD ⟨[], []⟩⟩ := by
  unfold parseSANExtension SanExt
  simp only [Option.pure_def, Option.bind_eq_bind, Option.bind_eq_some_iff, Prod.exists, Option.some.injEq]
  have hm := readMany_concat (step := readSan env) (E := fun e (n : GName) => Elem n.1 n.2 e) (P := SanOk env)
    (g := sanOf env) (readSan_iff env) (fun e n h => h.ne_nil)
  constructor
  · rintro ⟨b, tr, h1, l', h2, rfl⟩
    obtain ⟨e, rfl, he⟩ := (readASN1_iff _ _ _ _).mp h1
    obtain ⟨ns, h3, h4, rfl⟩ := (hm _ _).mp h2
    exact ⟨ns, ⟨e, tr, b, rfl, he, h3⟩, h4, collectSans_map env ns⟩
  · rintro ⟨ns, ⟨e, tr, b, rfl, he, h2⟩, h3, rfl⟩
    exact ⟨b, tr, (readASN1_iff _ _ _ _).mpr ⟨e, rfl, he⟩, _, (hm _ _).mpr ⟨ns, h2, h3, rfl⟩,
      collectSans_map env ns⟩

/-! ### Name constraints -/

theorem trimDot_iff (b : Bytes) : (∃ ls, domainToReverseLabels (trimDot b) = some ls) ↔ ConstraintHost b := by
  rw [domain_ok_iff]
  unfold trimDot ConstraintHost
  match b with
  | [] => simp
  | c :: t =>
    by_cases hc : c = 46
    · subst hc; simp
    · simp [hc]

theorem trimDot_none {b : Bytes} (h : domainToReverseLabels (trimDot b) = none) : ¬ ConstraintHost b := by
  rw [← trimDot_iff]; rintro ⟨ls, hl⟩; rw [h] at hl; cases hl

theorem trimDot_some {b : Bytes} {ls : List Bytes} (h : domainToReverseLabels (trimDot b) = some ls) :
    ConstraintHost b := (trimDot_iff b).mp ⟨ls, h⟩

/-- What is stored for a well-formed constraint. -/
def constraintOf (n : GName) : Constraint :=
  if n.1 = 0x82 then .dns n.2
  else if n.1 = 0x87 then .ip (netOf n.2)
  else if n.1 = 0x81 then .email n.2
  else if n.1 = 0x86 then .uri n.2
  else .other

theorem constraintItem_iff (env : Env) (t : Der.Tag) (b : Bytes) (x : Constraint) :
    constraintItem env t b = some x ↔ ConstraintOk env (t, b) ∧ x = constraintOf (t, b) := by
  have asc : isIA5String b = true ↔ Ascii b := isIA5String_iff b
  unfold constraintItem constraintOf ConstraintOk
  by_cases e2 : t = 0x82
  · subst e2
    by_cases ha : isIA5String b = true
    · match hd : domainToReverseLabels (trimDot b) with
      | none => simp [ha, hd, trimDot_none hd]
      | some ls => simp [ha, hd, trimDot_some hd, asc.mp ha, @eq_comm _ x]
    · have : ¬ Ascii b := fun h => ha (asc.mpr h)
      simp [ha, this]
  by_cases e7 : t = 0x87
  · subst e7
    have hm : ∀ m, isValidIPMask m = true ↔ MaskOk m := C48_isValidIPMask_iff
    by_cases h8 : b.length = 8
    · by_cases hv : isValidIPMask (b.drop 4) = true
      · simp [h8, hv, (hm _).mp hv, netOf, @eq_comm _ x]
      · have : ¬ MaskOk (b.drop 4) := fun h => hv ((hm _).mpr h)
        simp [h8, hv, this]
    · by_cases h32 : b.length = 32
      · by_cases hv : isValidIPMask (b.drop 16) = true
        · simp [h32, hv, (hm _).mp hv, netOf, @eq_comm _ x]
        · have : ¬ MaskOk (b.drop 16) := fun h => hv ((hm _).mpr h)
          simp [h32, hv, this]
      · simp [h8, h32]
  by_cases e1 : t = 0x81
  · subst e1
    by_cases ha : isIA5String b = true
    · have has := asc.mp ha
      by_cases h64 : (64 : UInt8) ∈ b
      · match hd : parseRFC2821Mailbox b with
        | none =>
          have : ¬ ∃ l d, Mailbox b l d := by
            rintro ⟨l, d, h⟩
            rw [(C50_parseRFC2821Mailbox_iff b l d).mpr h] at hd; cases hd
          simp [ha, h64, hd]
          intro _ l d h; exact absurd ⟨l, d, h⟩ this
        | some (l, d) =>
          have : ∃ l d, Mailbox b l d := ⟨l, d, (C50_parseRFC2821Mailbox_iff b l d).mp hd⟩
          simp [ha, has, h64, hd, this, @eq_comm _ x]
      · match hd : domainToReverseLabels (trimDot b) with
        | none => simp [ha, h64, hd, trimDot_none hd]
        | some ls => simp [ha, h64, hd, trimDot_some hd, has, @eq_comm _ x]
    · have : ¬ Ascii b := fun h => ha (asc.mpr h)
      simp [ha, this]
  by_cases e6 : t = 0x86
  · subst e6
    by_cases ha : isIA5String b = true
    · have has := asc.mp ha
      by_cases hi : env.isIP b = true
      · simp [ha, hi]
      · match hd : domainToReverseLabels (trimDot b) with
        | none => simp [ha, hi, hd, trimDot_none hd]
        | some ls => simp [ha, hi, hd, trimDot_some hd, has, @eq_comm _ x]
    · have : ¬ Ascii b := fun h => ha (asc.mpr h)
      simp [ha, this]
  · simp [e1, e2, e6, e7, @eq_comm _ x]

theorem readConstraint_iff (env : Env) (s : Bytes) (x : Constraint) (rest : Bytes) :
    readConstraint env s = some (x, rest) ↔ ∃ e, s = e ++ rest ∧ ∃ n : GName,
      (∃ ve q, Elem 0x30 (ve ++ q) e ∧ Elem n.1 n.2 ve) ∧ ConstraintOk env n ∧ x = constraintOf n := by
  unfold readConstraint
  simp only [Option.pure_def, Option.bind_eq_bind, Option.bind_eq_some_iff, Prod.exists, Option.some.injEq,
    Prod.mk.injEq]
  constructor
  · rintro ⟨b, r, h1, t, v, q, h2, y, h3, rfl, rfl⟩
    obtain ⟨e, rfl, he⟩ := (readASN1_iff _ _ _ _).mp h1
    obtain ⟨ve, rfl, hv⟩ := (readAny_iff _ _ _ _).mp h2
    exact ⟨e, rfl, t, v, ⟨ve, q, he, hv⟩, (constraintItem_iff _ _ _ _).mp h3⟩
  · rintro ⟨e, rfl, t, v, ⟨ve, q, he, hv⟩, hn⟩
    exact ⟨_, rest, (readASN1_iff _ _ _ _).mpr ⟨e, rfl, he⟩, t, v, q, (readAny_iff _ _ _ _).mpr ⟨ve, rfl, hv⟩, x,
      (constraintItem_iff _ _ _ _).mpr hn, rfl, rfl⟩

/-- The lists that stand for the subtrees. -/
def subtreesOf (ns : List GName) : Subtrees :=
  ⟨ofTag 0x82 ns, (ofTag 0x87 ns).map netOf, ofTag 0x81 ns, ofTag 0x86 ns,
    ns.any fun n => !(([0x81, 0x82, 0x86, 0x87] : List Der.Tag).contains n.1)⟩

theorem collectConstraints_map (ns : List GName) : collectConstraints (ns.map constraintOf) = subtreesOf ns := by
  induction ns with
  | nil => rfl
  | cons n ns ih =>
    obtain ⟨t, b⟩ := n
    simp only [collectConstraints, subtreesOf, ofTag, Subtrees.mk.injEq] at ih ⊢
    obtain ⟨i1, i2, i3, i4, i5⟩ := ih
    simp only [List.map_cons, List.filterMap_cons, List.any_cons, constraintOf, i5]
    by_cases e1 : t = 0x81
    · subst e1; refine ⟨?_, ?_, ?_, ?_, ?_⟩ <;> simp [i1, i2, i3, i4]
    by_cases e2 : t = 0x82
    · subst e2; refine ⟨?_, ?_, ?_, ?_, ?_⟩ <;> simp [i1, i2, i3, i4]
    by_cases e6 : t = 0x86
    · subst e6; refine ⟨?_, ?_, ?_, ?_, ?_⟩ <;> simp [i1, i2, i3, i4]
    by_cases e7 : t = 0x87
    · subst e7; refine ⟨?_, ?_, ?_, ?_, ?_⟩ <;> simp [i1, i2, i3, i4]
    · refine ⟨?_, ?_, ?_, ?_, ?_⟩ <;> simp [i1, i2, i3, i4, e1, e2, e6, e7]

theorem readSubtrees_iff (env : Env) (s : Bytes) (l : List Constraint) :
    readMany (readConstraint env) s = some l ↔
      ∃ ns, SubtreesBody s ns ∧ (∀ n ∈ ns, ConstraintOk env n) ∧ l = ns.map constraintOf :=
  readMany_concat (step := readConstraint env)
    (E := fun e (n : GName) => ∃ ve q, Elem 0x30 (ve ++ q) e ∧ Elem n.1 n.2 ve) (P := ConstraintOk env)
    (g := constraintOf) (readConstraint_iff env) (fun e n ⟨_, _, h, _⟩ => h.ne_nil) s l

theorem subtrees_nil {s : Bytes} {ns : List GName} (h : SubtreesBody s ns) : s = [] ↔ ns = [] := by
  obtain ⟨es, rfl, hf⟩ := h
  cases hf with
  | nil => simp
  | cons h _ =>
    obtain ⟨_, _, h, _⟩ := h
    constructor
    · intro hh; rw [List.flatten_cons] at hh; exact absurd (List.append_eq_nil_iff.mp hh).1 h.ne_nil
    · intro hh; cases hh

theorem readOptional_iff (tag : Der.Tag) (s : Bytes) (o : Option Bytes) (rest : Bytes) :
    readOptional tag s = some (o, rest) ↔
      ∃ e, s = e ++ rest ∧ OptElem tag o e ∧ (o = none → rest.head? ≠ some tag) := by
  unfold readOptional
  constructor
  · intro h
    by_cases hp : peek tag s = true
    · rw [if_pos hp] at h
      match hr : Der.readASN1 tag s with
      | none => rw [hr] at h; cases h
      | some (b, r) =>
        rw [hr] at h
        simp only [Option.some.injEq, Prod.mk.injEq] at h
        obtain ⟨rfl, rfl⟩ := h
        obtain ⟨e, rfl, he⟩ := (readASN1_iff _ _ _ _).mp hr
        exact ⟨e, rfl, he, by simp⟩
    · rw [if_neg hp] at h
      simp only [Option.some.injEq, Prod.mk.injEq] at h
      obtain ⟨rfl, rfl⟩ := h
      exact ⟨[], rfl, rfl, fun _ => head_ne_of_peek (by simpa using hp)⟩
  · rintro ⟨e, rfl, he, hh⟩
    match o, he with
    | none, he =>
      have he' : e = [] := he
      subst he'
      rw [List.nil_append, peek_of_head_ne (hh rfl)]
      simp
    | some b, he =>
      have he' : Elem tag b e := he
      rw [peek_elem he']
      simp only [decide_true, if_true, (readASN1_iff _ _ _ _).mpr ⟨e, rfl, he'⟩]

theorem optElem_head {tag : Der.Tag} {o : Option Bytes} {e : Bytes} (h : OptElem tag o e) (t : Der.Tag) (ht : tag ≠ t) :
    e.head? ≠ some t := by
  match o, h with
  | none, h => have h' : e = [] := h; subst h'; simp
  | some b, h => have h' : Elem tag b e := h; rw [h'.1]; simp [Der.tlv, ht]

theorem split_iff (value p x : Bytes) : splitNameConstraints value = some (p, x) ↔
    ∃ po xo pe xe, Elem 0x30 (pe ++ xe) value ∧ OptElem 0xa0 po pe ∧ OptElem 0xa1 xo xe ∧
      p = po.getD [] ∧ x = xo.getD [] ∧ (p ≠ [] ∨ x ≠ []) := by
  unfold splitNameConstraints
  constructor
  · intro h
    split at h
    · rename_i top h1
      obtain ⟨e, h1, he⟩ := (readASN1_iff _ _ _ _).mp h1
      rw [List.append_nil] at h1
      subst h1
      match h2 : readOptional 0xa0 top with
      | none => rw [h2] at h; cases h
      | some (po, top') =>
        rw [h2] at h
        simp only [] at h
        split at h
        · rename_i xo h3
          split at h
          · cases h
          rename_i hc
          simp only [Option.some.injEq, Prod.mk.injEq] at h
          obtain ⟨rfl, rfl⟩ := h
          obtain ⟨pe, rfl, hp, _⟩ := (readOptional_iff _ _ _ _).mp h2
          obtain ⟨xe, rfl, hx, _⟩ := (readOptional_iff _ _ _ _).mp h3
          rw [List.append_nil] at he
          refine ⟨po, xo, pe, xe, he, hp, hx, rfl, rfl, ?_⟩
          by_contra hcon
          apply hc
          rw [not_or, not_not, not_not] at hcon
          right
          rw [hcon.1, hcon.2]
          exact ⟨rfl, rfl⟩
        · cases h
    · cases h
  · rintro ⟨po, xo, pe, xe, he, hp, hx, rfl, rfl, hne⟩
    have h1 : Der.readASN1 0x30 value = some (pe ++ xe, []) := (readASN1_iff _ _ _ _).mpr ⟨value, by simp, he⟩
    have h2 : readOptional 0xa0 (pe ++ xe) = some (po, xe) :=
      (readOptional_iff _ _ _ _).mpr ⟨pe, rfl, hp, fun _ => optElem_head hx _ (by decide)⟩
    have h3 : readOptional 0xa1 xe = some (xo, []) :=
      (readOptional_iff _ _ _ _).mpr ⟨xe, by simp, hx, fun _ => by simp⟩
    simp only [h1, h2, h3]
    rw [if_neg]
    rintro (h | ⟨h, h'⟩)
    · simp only [Bool.and_eq_true, Option.isNone_iff_eq_none] at h
      rw [h.1, h.2] at hne
      rcases hne with hne | hne <;> exact hne rfl
    · rw [List.length_eq_zero_iff] at h h'
      rcases hne with hne | hne
      · exact hne h
      · exact hne h'

theorem parseNc_iff (env : Env) (value : Bytes) (p x : Subtrees) :
    parseNameConstraintsExtension env value = some (p, x) ↔ ∃ permitted excluded,
      NameConstraintsExt value permitted excluded ∧ (∀ n ∈ permitted, ConstraintOk env n) ∧
      (∀ n ∈ excluded, ConstraintOk env n) ∧ p = subtreesOf permitted ∧ x = subtreesOf excluded := by
  unfold parseNameConstraintsExtension NameConstraintsExt
  simp only [Option.pure_def, Option.bind_eq_bind, Option.bind_eq_some_iff, Prod.exists, Option.some.injEq,
    Prod.mk.injEq]
  constructor
  · rintro ⟨pb, xb, h1, lp, h2, lx, h3, rfl, rfl⟩
    obtain ⟨po, xo, pe, xe, he, hp, hx, rfl, rfl, hne⟩ := (split_iff _ _ _).mp h1
    obtain ⟨np, a1, a2, rfl⟩ := (readSubtrees_iff _ _ _).mp h2
    obtain ⟨nx, b1, b2, rfl⟩ := (readSubtrees_iff _ _ _).mp h3
    refine ⟨np, nx, ⟨po, xo, pe, xe, he, hp, hx, a1, b1, ?_⟩, a2, b2, collectConstraints_map np,
      collectConstraints_map nx⟩
    exact hne.imp (fun h hh => h ((subtrees_nil a1).mpr hh)) (fun h hh => h ((subtrees_nil b1).mpr hh))
  · rintro ⟨np, nx, ⟨po, xo, pe, xe, he, hp, hx, a1, b1, hne⟩, a2, b2, rfl, rfl⟩
    refine ⟨_, _, (split_iff _ _ _).mpr ⟨po, xo, pe, xe, he, hp, hx, rfl, rfl, ?_⟩, _,
      (readSubtrees_iff _ _ _).mpr ⟨np, a1, a2, rfl⟩, _, (readSubtrees_iff _ _ _).mpr ⟨nx, b1, b2, rfl⟩,
      collectConstraints_map np, collectConstraints_map nx⟩
    exact hne.imp (fun h hh => h ((subtrees_nil a1).mp hh)) (fun h hh => h ((subtrees_nil b1).mp hh))

/-! ### Distribution points -/

theorem dpUris_iff (n : Nat) : ∀ (s : Bytes) (us : List Bytes), s.length ≤ n →
    (dpUris n s = some us ↔ ∃ u junk, s = u ++ junk ∧ Concat (fun e u => Elem 0x86 u e) us u ∧
      junk.head? ≠ some 0x86) := by
  have nilc : ∀ {us : List Bytes} {u : Bytes}, Concat (fun e u => Elem 0x86 u e) us u → u = [] → us = [] := by
    rintro us u ⟨es, rfl, hf⟩ hu
    cases hf with
    | nil => rfl
    | cons h _ => rw [List.flatten_cons] at hu; exact absurd (List.append_eq_nil_iff.mp hu).1 h.ne_nil
  induction n with
  | zero =>
    intro s us hl
    have : s = [] := List.length_eq_zero_iff.mp (by omega)
    subst this
    simp only [dpUris, Option.some.injEq]
    constructor
    · rintro rfl; exact ⟨[], [], rfl, ⟨[], rfl, .nil⟩, by simp⟩
    · rintro ⟨u, junk, he, hc, _⟩
      exact (nilc hc (List.append_eq_nil_iff.mp he.symm).1).symm
  | succ n ih =>
    intro s us hl
    rw [dpUris]
    by_cases hs : s = []
    · subst hs
      simp only [if_true, Option.some.injEq]
      constructor
      · rintro rfl; exact ⟨[], [], rfl, ⟨[], rfl, .nil⟩, by simp⟩
      · rintro ⟨u, junk, he, hc, _⟩
        exact (nilc hc (List.append_eq_nil_iff.mp he.symm).1).symm
    · rw [if_neg hs]
      by_cases hp : peek 0x86 s = true
      · rw [if_neg (by simp [hp])]
        constructor
        · intro h
          match hr : Der.readASN1 0x86 s with
          | none => rw [hr] at h; cases h
          | some (u, rest) =>
            rw [hr] at h
            simp only [] at h
            obtain ⟨e, rfl, he⟩ := (readASN1_iff _ _ _ _).mp hr
            have hep : 0 < e.length := List.length_pos_of_ne_nil he.ne_nil
            rw [List.length_append] at hl
            match hd : dpUris n rest with
            | none => rw [hd] at h; cases h
            | some l =>
              rw [hd] at h
              simp only [Option.some.injEq] at h
              subst h
              obtain ⟨u', junk, rfl, ⟨es, rfl, hf⟩, hj⟩ := (ih rest l (by omega)).mp hd
              exact ⟨_, junk, by rw [← List.append_assoc]; rfl, ⟨e :: es, rfl, .cons he hf⟩, hj⟩
        · rintro ⟨u, junk, rfl, ⟨es, rfl, hf⟩, hj⟩
          cases hf with
          | nil => rw [show ([] : List Bytes).flatten = [] from rfl, List.nil_append, peek_of_head_ne hj] at hp; cases hp
          | @cons e v es' l' he hf =>
            rw [List.flatten_cons, List.append_assoc] at hl ⊢
            have hep : 0 < e.length := List.length_pos_of_ne_nil he.ne_nil
            rw [List.length_append] at hl
            rw [(readASN1_iff _ _ _ _).mpr ⟨e, rfl, he⟩]
            simp only []
            rw [(ih (es'.flatten ++ junk) l' (by omega)).mpr ⟨_, junk, rfl, ⟨es', rfl, hf⟩, hj⟩]
      · rw [if_pos (by simp [hp])]
        simp only [Option.some.injEq]
        constructor
        · rintro rfl
          exact ⟨[], s, rfl, ⟨[], rfl, .nil⟩, head_ne_of_peek (by simpa using hp)⟩
        · rintro ⟨u, junk, rfl, ⟨es, rfl, hf⟩, hj⟩
          cases hf with
          | nil => rfl
          | cons he hf =>
            rw [List.flatten_cons, List.append_assoc, peek_elem he] at hp
            simp at hp

theorem readDp_iff (s : Bytes) (us : List Bytes) (rest : Bytes) : readDistributionPoint s = some (us, rest) ↔
    ∃ e, s = e ++ rest ∧ DpElem e us := by
  unfold readDistributionPoint DpElem
  simp only [Option.pure_def, Option.bind_eq_bind, Option.bind_eq_some_iff, Prod.exists]
  constructor
  · rintro ⟨b, r, h1, o, tr, h2, h3⟩
    obtain ⟨e, rfl, he⟩ := (readASN1_iff _ _ _ _).mp h1
    obtain ⟨ne, rfl, hne, hh⟩ := (readOptional_iff _ _ _ _).mp h2
    match o, hne with
    | none, hne =>
      have h' : ne = [] := hne
      subst h'
      simp only [Option.some.injEq, Prod.mk.injEq] at h3
      obtain ⟨rfl, rfl⟩ := h3
      exact ⟨e, rfl, _, he, Or.inl ⟨by simpa using hh rfl, rfl⟩⟩
    | some n, hne =>
      simp only [Option.bind_eq_some_iff, Prod.exists, Option.some.injEq, Prod.mk.injEq] at h3
      obtain ⟨full, tr', h4, us', h5, rfl, rfl⟩ := h3
      obtain ⟨fe, rfl, hfe⟩ := (readASN1_iff _ _ _ _).mp h4
      obtain ⟨u, junk, rfl, hc, hj⟩ := (dpUris_iff _ _ _ (Nat.le_refl _)).mp h5
      exact ⟨e, rfl, _, he, Or.inr ⟨ne, tr, fe, tr', u, junk, rfl, hne, hfe, hc, hj⟩⟩
  · rintro ⟨e, rfl, b, he, h | ⟨ne, tr, fe, tr', u, junk, rfl, hne, hfe, hc, hj⟩⟩
    · obtain ⟨hh, rfl⟩ := h
      refine ⟨b, rest, (readASN1_iff _ _ _ _).mpr ⟨e, rfl, he⟩, none, b,
        (readOptional_iff _ _ _ _).mpr ⟨[], rfl, rfl, fun _ => hh⟩, rfl⟩
    · refine ⟨_, rest, (readASN1_iff _ _ _ _).mpr ⟨e, rfl, he⟩, some _, tr,
        (readOptional_iff _ _ _ _).mpr ⟨ne, rfl, hne, by simp⟩, ?_⟩
      have h4 := (readASN1_iff _ _ _ tr').mpr ⟨fe, rfl, hfe⟩
      have h5 := (dpUris_iff _ _ _ (Nat.le_refl _)).mpr ⟨u, junk, rfl, hc, hj⟩
      simp only [Option.bind_eq_some_iff, Prod.exists]
      exact ⟨_, tr', h4, us, h5, rfl⟩

theorem parseCrlDp_iff (value : Bytes) (us : List Bytes) :
    parseCRLDistributionPoints value = some us ↔ ∃ points, CrlDpExt value points ∧ us = points.flatten := by
  unfold parseCRLDistributionPoints CrlDpExt
  simp only [Option.pure_def, Option.bind_eq_bind, Option.bind_eq_some_iff, Prod.exists, Option.some.injEq]
  have hm := readMany_concat' (step := readDistributionPoint) (E := DpElem) readDp_iff
    (fun e o ⟨_, h, _⟩ => h.ne_nil)
  constructor
  · rintro ⟨b, tr, h1, l, h2, rfl⟩
    obtain ⟨e, rfl, he⟩ := (readASN1_iff _ _ _ _).mp h1
    exact ⟨l, ⟨e, tr, b, rfl, he, (hm _ _).mp h2⟩, rfl⟩
  · rintro ⟨l, ⟨e, tr, b, rfl, he, h2⟩, rfl⟩
    exact ⟨b, tr, (readASN1_iff _ _ _ _).mpr ⟨e, rfl, he⟩, l, (hm _ _).mpr h2, rfl⟩

/-! ### Key identifiers, information access -/

theorem parseAki_iff (value : Bytes) (k : Option Bytes) : parseAuthorityKeyId value = some k ↔ AkiExt value k := by
  unfold parseAuthorityKeyId AkiExt
  simp only [Option.pure_def, Option.bind_eq_bind, Option.bind_eq_some_iff, Prod.exists]
  constructor
  · rintro ⟨b, tr, h1, h2⟩
    obtain ⟨e, rfl, he⟩ := (readASN1_iff _ _ _ _).mp h1
    refine ⟨e, tr, b, rfl, he, ?_⟩
    by_cases hp : peek 0x80 b = true
    · rw [if_pos hp] at h2
      simp only [Option.bind_eq_some_iff, Prod.exists, Option.some.injEq] at h2
      obtain ⟨k', q, h3, rfl⟩ := h2
      obtain ⟨ke, rfl, hk⟩ := (readASN1_iff _ _ _ _).mp h3
      exact ⟨ke, q, rfl, hk⟩
    · rw [if_neg hp] at h2
      simp only [Option.some.injEq] at h2
      subst h2
      exact head_ne_of_peek (by simpa using hp)
  · rintro ⟨e, tr, b, rfl, he, h⟩
    refine ⟨b, tr, (readASN1_iff _ _ _ _).mpr ⟨e, rfl, he⟩, ?_⟩
    match k, h with
    | none, h => rw [peek_of_head_ne h]; simp
    | some k, ⟨ke, q, hb, hk⟩ =>
      subst hb
      rw [peek_elem hk]
      simp only [decide_true, if_true, Option.bind_eq_some_iff, Prod.exists, Option.some.injEq]
      exact ⟨k, q, (readASN1_iff _ _ _ _).mpr ⟨ke, rfl, hk⟩, rfl⟩

theorem readAccess_iff (s : Bytes) (v : Option (Oid × Bytes)) (rest : Bytes) :
    readAccess s = some (v, rest) ↔ ∃ e, s = e ++ rest ∧ ∃ d : Oid × Option Bytes, AccessElem e d ∧ True ∧
      v = d.2.map fun u => (d.1, u) := by
  unfold readAccess AccessElem
  simp only [Option.pure_def, Option.bind_eq_bind, Option.bind_eq_some_iff, Prod.exists, true_and]
  constructor
  · rintro ⟨b, r, h1, m, loc, h2, h3⟩
    obtain ⟨e, rfl, he⟩ := (readASN1_iff _ _ _ _).mp h1
    obtain ⟨oe, rfl, ho⟩ := (readOID_iff _ _ _).mp h2
    by_cases hp : peek 0x86 loc = true
    · rw [if_pos hp] at h3
      simp only [Option.bind_eq_some_iff, Prod.exists, Option.some.injEq, Prod.mk.injEq] at h3
      obtain ⟨u, q, h4, rfl, rfl⟩ := h3
      obtain ⟨ue, rfl, hu⟩ := (readASN1_iff _ _ _ _).mp h4
      exact ⟨e, rfl, m, some u, ⟨oe, _, he, ho, ue, q, rfl, hu⟩, rfl⟩
    · rw [if_neg hp] at h3
      simp only [Option.some.injEq, Prod.mk.injEq] at h3
      obtain ⟨rfl, rfl⟩ := h3
      exact ⟨e, rfl, m, none, ⟨oe, _, he, ho, head_ne_of_peek (by simpa using hp)⟩, rfl⟩
  · rintro ⟨e, rfl, m, u, ⟨oe, loc, he, ho, h⟩, rfl⟩
    refine ⟨_, rest, (readASN1_iff _ _ _ _).mpr ⟨e, rfl, he⟩, m, loc, (readOID_iff _ _ _).mpr ⟨oe, rfl, ho⟩, ?_⟩
    match u, h with
    | none, h => rw [peek_of_head_ne h]; simp
    | some u, ⟨ue, q, hb, hu⟩ =>
      subst hb
      rw [peek_elem hu]
      simp only [decide_true, if_true, Option.bind_eq_some_iff, Prod.exists]
      exact ⟨u, q, (readASN1_iff _ _ _ _).mpr ⟨ue, rfl, hu⟩, rfl⟩

theorem parseAia_iff (value : Bytes) (o i : List Bytes) :
    parseAuthorityInfoAccess value = some (o, i) ↔ ∃ ds, AiaExt value ds ∧
      o = urisOf [1, 3, 6, 1, 5, 5, 7, 48, 1] ds ∧ i = urisOf [1, 3, 6, 1, 5, 5, 7, 48, 2] ds := by
  have key : ∀ ds : List (Oid × Option Bytes),
      (ds.map fun d => d.2.map fun u => (d.1, u)).filterMap ocspOf = urisOf [1, 3, 6, 1, 5, 5, 7, 48, 1] ds ∧
      (ds.map fun d => d.2.map fun u => (d.1, u)).filterMap issuerOf = urisOf [1, 3, 6, 1, 5, 5, 7, 48, 2] ds := by
    intro ds
    induction ds with
    | nil => exact ⟨rfl, rfl⟩
    | cons d ds ih =>
      obtain ⟨m, u⟩ := d
      obtain ⟨i1, i2⟩ := ih
      simp only [urisOf] at i1 i2 ⊢
      simp only [List.map_cons, List.filterMap_cons, i1, i2]
      by_cases h1 : m = [1, 3, 6, 1, 5, 5, 7, 48, 1]
      · subst h1
        cases u with
        | none => simp [ocspOf, issuerOf]
        | some u => simp [ocspOf, issuerOf, oidAuthorityInfoAccessOcsp]
      · by_cases h2 : m = [1, 3, 6, 1, 5, 5, 7, 48, 2]
        · subst h2
          cases u with
          | none => simp [ocspOf, issuerOf]
          | some u => simp [ocspOf, issuerOf, oidAuthorityInfoAccessOcsp, oidAuthorityInfoAccessIssuers]
        · cases u with
          | none => simp [ocspOf, issuerOf, h1, h2]
          | some u => simp [ocspOf, issuerOf, oidAuthorityInfoAccessOcsp, oidAuthorityInfoAccessIssuers, h1, h2]
  unfold parseAuthorityInfoAccess AiaExt
  simp only [Option.pure_def, Option.bind_eq_bind, Option.bind_eq_some_iff, Prod.exists, Option.some.injEq,
    Prod.mk.injEq]
  have hm := readMany_concat (step := readAccess) (E := AccessElem) (P := fun _ => True)
    (g := fun d => d.2.map fun u => (d.1, u)) readAccess_iff (fun e o ⟨_, _, h, _⟩ => h.ne_nil)
  constructor
  · rintro ⟨b, tr, h1, l, h2, rfl, rfl⟩
    obtain ⟨e, rfl, he⟩ := (readASN1_iff _ _ _ _).mp h1
    obtain ⟨ds, h3, _, rfl⟩ := (hm _ _).mp h2
    exact ⟨ds, ⟨e, tr, b, rfl, he, h3⟩, (key ds).1, (key ds).2⟩
  · rintro ⟨ds, ⟨e, tr, b, rfl, he, h2⟩, rfl, rfl⟩
    exact ⟨b, tr, (readASN1_iff _ _ _ _).mpr ⟨e, rfl, he⟩, _, (hm _ _).mpr ⟨ds, h2, fun _ _ => trivial, rfl⟩,
      (key ds).1, (key ds).2⟩

end MCrypto.X509
