import Verif.X509.SigSpec
import Verif.Props.Sm2Sign
import Mathlib.Tactic.IntervalCases
/-
C40 (hash registry), C41 (checkSignature), C42 (CheckSignatureFrom), C67 (insecure algorithms).
-/
namespace MCrypto.Props
open MCrypto MCrypto.X509 MCrypto.X509Spec MCrypto.Sm2 MCrypto.Sm2Spec
open MCrypto.Asn1 (AlgId)

/-! ## C40 -/

theorem registerAll_length (reg : Registry) (calls : List (Nat × Option HashFn)) {r : Registry}
    (h : registerAll reg calls = .ok r) : r.length = reg.length := by
  induction calls generalizing reg with
  | nil => simp only [registerAll, Res.ok.injEq] at h; rw [h]
  | cons c l ih =>
    obtain ⟨k, f⟩ := c
    simp only [registerAll, registerHash] at h
    split at h
    · cases h
    · simp only [Res.bind_ok] at h
      rw [ih _ h, List.length_set]

/-- What a registry answers for `h` after a history of calls. -/
theorem registerAll_get (reg : Registry) (calls : List (Nat × Option HashFn)) {r : Registry}
    (h : registerAll reg calls = .ok r) (hr : reg.length = maxHash) (k : Nat) (hk : k < maxHash) :
    r[k]? = some (match calls.reverse.find? (fun c => c.1 == k) with
      | some (_, f) => f
      | none => reg.getD k none) := by
  simp only [maxHash] at hr hk
  induction calls generalizing reg with
  | nil =>
    simp only [registerAll, Res.ok.injEq] at h
    subst h
    simp only [List.reverse_nil, List.find?_nil]
    rw [List.getD_eq_getElem?_getD]
    have : k < reg.length := by omega
    simp [List.getElem?_eq_getElem this]
  | cons c l ih =>
    obtain ⟨j, f⟩ := c
    simp only [registerAll, registerHash] at h
    split at h
    · cases h
    rename_i hj
    simp only [Res.bind_ok] at h
    rw [ih _ h (by rw [List.length_set]; exact hr)]
    congr 1
    rw [List.reverse_cons, List.find?_append]
    cases hf : l.reverse.find? (fun c => c.1 == k) with
    | some p => simp
    | none =>
      simp only [Option.none_or]
      by_cases hjk : j = k
      · subst hjk
        have : j < reg.length := by omega
        simp [List.getD_eq_getElem?_getD, this]
      · have hb : (j == k) = false := by simpa using hjk
        simp [List.find?_cons, hb, List.getD_eq_getElem?_getD, List.getElem?_set_ne hjk]

theorem noHashes_getD (h : Nat) : List.getD noHashes h none = none := by
  unfold noHashes
  generalize maxHash = m
  rw [List.getD_eq_getElem?_getD, List.getElem?_replicate]
  split <;> rfl

/-- C40: a history of `RegisterHash` calls panics exactly when one of them names an identifier that is not
below `maxHash`. -/
theorem C40_register_panics_iff (calls : List (Nat × Option HashFn)) :
    (registerAll noHashes calls = .panic ↔ ∃ c ∈ calls, 21 ≤ c.1) ∧
    ((∀ c ∈ calls, c.1 < 21) → ∃ r, registerAll noHashes calls = .ok r) := by
  have key : ∀ (calls : List (Nat × Option HashFn)) (reg : Registry),
      (registerAll reg calls = .panic ↔ ∃ c ∈ calls, 21 ≤ c.1) ∧
      ((∀ c ∈ calls, c.1 < 21) → ∃ r, registerAll reg calls = .ok r) := by
    intro calls
    induction calls with
    | nil => intro reg; simp [registerAll]
    | cons c l ih =>
      intro reg
      obtain ⟨k, f⟩ := c
      by_cases hk : k ≥ maxHash
      · simp only [registerAll, registerHash, hk, if_true, Res.bind_panic]
        refine ⟨⟨fun _ => ⟨_, List.mem_cons_self, hk⟩, fun _ => trivial⟩, ?_⟩
        intro h
        exact absurd (h _ List.mem_cons_self) (Nat.not_lt.mpr hk)
      · simp only [registerAll, registerHash, hk, if_false, Res.bind_ok]
        obtain ⟨h1, h2⟩ := ih (reg.set k f)
        rw [h1]
        refine ⟨⟨?_, ?_⟩, fun h => h2 fun c hc => h c (List.mem_cons_of_mem _ hc)⟩
        · rintro ⟨c, hc, h⟩; exact ⟨c, List.mem_cons_of_mem _ hc, h⟩
        · rintro ⟨c, hc, h⟩
          rcases List.mem_cons.mp hc with rfl | hc
          · exact absurd h hk
          · exact ⟨c, hc, h⟩
  exact key calls noHashes

/-- C40: after any history of registrations, `Available(h)` is true exactly when `h` is a known identifier
whose last registration is a function. -/
theorem C40_available_iff (calls : List (Nat × Option HashFn)) (reg : Registry)
    (hr : registerAll noHashes calls = .ok reg) (h : Nat) :
    hashAvailable reg h = true ↔ h < 21 ∧ lastRegistered calls h ≠ none := by
  unfold hashAvailable
  rw [Bool.and_eq_true, decide_eq_true_iff]
  refine and_congr_right fun hk => ?_
  have hg := registerAll_get noHashes calls hr (by simp [noHashes]) h hk
  rw [List.getD_eq_getElem?_getD, hg, Option.getD_some, Option.isSome_iff_ne_none]
  unfold lastRegistered
  cases List.find? (fun c => c.1 == h) calls.reverse with
  | some p => rfl
  | none => simp only [noHashes_getD]

/-- C40: after any history of registrations, `New(h)` returns an instance of the function registered last
for `h`, and panics when there is none, when `h` is unknown and when `h` is 0. -/
theorem C40_new (calls : List (Nat × Option HashFn)) (reg : Registry)
    (hr : registerAll noHashes calls = .ok reg) (h : Nat) :
    hashNew reg h = (match lastRegistered calls h with
      | some f => if 0 < h ∧ h < 21 then .ok f else .panic
      | none => .panic) := by
  unfold hashNew
  by_cases hk : 0 < h ∧ h < maxHash
  · have hg := registerAll_get noHashes calls hr (by simp [noHashes]) h hk.2
    rw [if_pos hk, hg]
    unfold lastRegistered
    cases List.find? (fun c => c.1 == h) calls.reverse with
    | some p =>
      obtain ⟨j, f⟩ := p
      cases f with
      | none => rfl
      | some f => simp only; rw [if_pos (show 0 < h ∧ h < 21 from hk)]
    | none =>
      simp only [noHashes_getD]
  · rw [if_neg hk]
    split
    · rw [if_neg (show ¬ (0 < h ∧ h < 21) from hk)]
    · rfl

/-- C40: for every hash other than 0, `New` panics exactly when `Available` is false. -/
theorem C40_new_iff_available (calls : List (Nat × Option HashFn)) (reg : Registry)
    (hr : registerAll noHashes calls = .ok reg) (h : Nat) (h0 : h ≠ 0) :
    (hashAvailable reg h = true ↔ ∃ f, hashNew reg h = .ok f) ∧
    (hashAvailable reg h = false ↔ hashNew reg h = .panic) := by
  have ha := C40_available_iff calls reg hr h
  have hn := C40_new calls reg hr h
  cases hl : lastRegistered calls h with
  | none =>
    rw [hl] at ha hn
    simp only [ne_eq, not_true_eq_false, and_false, iff_false, Bool.not_eq_true] at ha
    rw [hn, ha]; simp
  | some f =>
    rw [hl] at ha hn
    by_cases hk : h < 21
    · have : hashAvailable reg h = true := ha.mpr ⟨hk, by simp⟩
      simp only [show 0 < h ∧ h < 21 from ⟨by omega, hk⟩, if_true] at hn
      rw [hn, this]; simp
    · have : hashAvailable reg h = false := by
        rw [← Bool.not_eq_true, ha]; simp [hk]
      simp only [show ¬ (0 < h ∧ h < 21) from fun h => hk h.2, if_false] at hn
      rw [hn, this]; simp

/-- C40: the exception. After `RegisterHash(0, f)`, `Available(0)` is true and `New(0)` panics. -/
theorem C40_zero_exception (f : HashFn) : ∃ reg, registerAll noHashes [(0, some f)] = .ok reg ∧
    hashAvailable reg 0 = true ∧ hashNew reg 0 = .panic := by
  obtain ⟨reg, hreg⟩ := (C40_register_panics_iff [(0, some f)]).2 (by simp)
  refine ⟨reg, hreg, (C40_available_iff _ _ hreg 0).mpr ⟨by decide, by simp [lastRegistered]⟩, ?_⟩
  rw [C40_new _ _ hreg]
  simp [lastRegistered]

theorem initRegistry_ok (H : StdHashes) : registerAll noHashes (initCalls H) = .ok (initRegistry H) := by
  obtain ⟨r, hr⟩ := (C40_register_panics_iff (initCalls H)).2 (by
    intro c hc
    simp only [initCalls, List.mem_cons, List.not_mem_nil, or_false] at hc
    rcases hc with rfl | rfl | rfl | rfl | rfl | rfl | rfl | rfl | rfl | rfl | rfl | rfl | rfl | rfl | rfl <;>
      simp)
  unfold initRegistry
  rw [hr]

/-- C40: after package initialisation exactly fourteen hashes are available; MD4, MD5+SHA1, the BLAKE2 family,
the zero hash and the identifiers from 21 on are not. SM3 is the SM3 of this module. -/
theorem C40_init (H : StdHashes) (h : Nat) :
    (hashAvailable (initRegistry H) h = true ↔ h ∈ [2, 3, 4, 5, 6, 7, 9, 10, 11, 12, 13, 14, 15, 20]) ∧
    hashNew (initRegistry H) hSM3 = .ok Sm3.sum ∧ hashNew (initRegistry H) hSHA256 = .ok H.sha256 := by
  refine ⟨?_, ?_, ?_⟩
  · rw [C40_available_iff _ _ (initRegistry_ok H)]
    by_cases hk : h < 21
    · simp only [hk, true_and]
      simp only [lastRegistered, initCalls]
      interval_cases h <;> simp
    · simp only [hk, false_and, false_iff, List.mem_cons, List.not_mem_nil, or_false]
      omega
  · rw [C40_new _ _ (initRegistry_ok H)]; rfl
  · rw [C40_new _ _ (initRegistry_ok H)]; rfl

/-- C40: `Size` is defined exactly for the identifiers 1 to 20 and is the digest length of the standard
hash of that name. -/
theorem C40_size (h : Nat) :
    (hashSize h = .panic ↔ h = 0 ∨ 21 ≤ h) ∧
    (0 < h → h < 21 → ∃ n, hashSize h = .ok n ∧
      (n = 16 ↔ h ∈ [hMD4, hMD5]) ∧ (n = 20 ↔ h ∈ [hSHA1, hRIPEMD160]) ∧
      (n = 28 ↔ h ∈ [hSHA224, hSHA3_224, hSHA512_224]) ∧
      (n = 32 ↔ h ∈ [hSHA256, hSHA3_256, hSHA512_256, hBLAKE2s_256, hBLAKE2b_256, hSM3]) ∧
      (n = 36 ↔ h = hMD5SHA1) ∧ (n = 48 ↔ h ∈ [hSHA384, hSHA3_384, hBLAKE2b_384]) ∧
      (n = 64 ↔ h ∈ [hSHA512, hSHA3_512, hBLAKE2b_512])) := by
  by_cases hk : 0 < h ∧ h < 21
  · obtain ⟨h0, h1⟩ := hk
    interval_cases h <;> simp [hashSize, digestSizes]
  · have : hashSize h = .panic := by unfold hashSize; rw [if_neg hk]
    refine ⟨⟨fun _ => by omega, fun _ => this⟩, fun a b => absurd ⟨a, b⟩ hk⟩

/-! ## C41 -/

theorem scheme_range {a : Int} {p : Scheme × Nat} (h : scheme a = some p) : 1 ≤ a ∧ a ≤ 16 := by
  by_contra hr
  have hne : ∀ k : Int, 1 ≤ k → k ≤ 16 → ¬ a = k := fun k h1 h2 => by omega
  have hs : scheme a = none := by
    unfold scheme
    repeat rw [if_neg (hne _ (by decide) (by decide))]
  rw [hs] at h
  cases h

theorem scheme_hash_lt {a : Int} {s : Scheme} {h : Nat} (hsc : scheme a = some (s, h)) : h < 21 := by
  obtain ⟨h1, h2⟩ := scheme_range hsc
  interval_cases a <;> simp [scheme] at hsc <;> obtain ⟨-, rfl⟩ := hsc <;> decide

/-- The key algorithm of a family. -/
def famAlgo : Scheme → Int
  | .rsaPkcs1 => pkRSA
  | .rsaPss => pkRSA
  | .dsa => pkDSA
  | .ec => pkECDSA

/-- The algorithm table says what the specification says. -/
theorem algoLookup_spec (a : Int) :
    (∀ s h, scheme a = some (s, h) → h ≠ 0 ∧
      algoLookup a = (h, famAlgo s) ∧
      (isRSAPSS a = true ↔ s = .rsaPss)) ∧
    (scheme a = none → (algoLookup a).1 = 0 ∧ (a ≠ PureEd25519 → (algoLookup a).2 = pkUnknown)) := by
  by_cases hr : 1 ≤ a ∧ a ≤ 16
  · obtain ⟨h1, h2⟩ := hr
    interval_cases a <;>
      simp [scheme, algoLookup, signatureAlgorithmDetails, isRSAPSS, famAlgo] <;> (try (rintro s h rfl rfl; simp))
  · have hne : ∀ k : Int, 1 ≤ k → k ≤ 16 → ¬ a = k ∧ ¬ k = a := fun k h1 h2 => ⟨by omega, by omega⟩
    have hs : scheme a = none := by
      unfold scheme
      repeat rw [if_neg (hne _ (by decide) (by decide)).1]
    have hl : algoLookup a = (0, pkUnknown) := by
      simp only [algoLookup, signatureAlgorithmDetails, List.foldl_cons, List.foldl_nil]
      repeat rw [if_neg (hne _ (by decide) (by decide)).2]
    rw [hs, hl]; simp

/-- C41 (exact): with any registry in which hash 0 is not registered, `checkSignature` returns nil exactly
when the algorithm is a known hash-then-sign algorithm, its hash is registered, the type of the public key
belongs to the algorithm and the primitive of that key type accepts the signature over the given bytes; in
every other case it returns an error, and it never panics. -/
theorem C41_accepts_iff (calls : List (Nat × Option HashFn)) (reg : Registry)
    (hr : registerAll noHashes calls = .ok reg) (h0 : lastRegistered calls 0 = none)
    (V : Verifiers) (a : Int) (plain sig : Bytes) (key : PubKey) :
    (checkSignature reg V a plain sig key = .ok () ↔
      SigAccepted (lastRegistered calls) V a plain sig key) ∧
    checkSignature reg V a plain sig key ≠ .panic := by
  obtain ⟨hs, hn⟩ := algoLookup_spec a
  cases hsc : scheme a with
  | none =>
    have hh := (hn hsc).1
    unfold checkSignature
    have : hashAvailable reg (algoLookup a).1 = false := by
      rw [← Bool.not_eq_true, C40_available_iff calls reg hr, hh, h0]; simp
    simp only [this, Bool.false_eq_true, not_false_eq_true, if_true]
    refine ⟨⟨fun h => (by cases h), ?_⟩, by simp⟩
    rintro ⟨s, h, f, h1, -⟩
    rw [hsc] at h1; cases h1
  | some p =>
    obtain ⟨s, h⟩ := p
    obtain ⟨hne, hl, hp⟩ := hs s h hsc
    unfold checkSignature
    rw [hl]
    simp only [hne, false_and, if_false]
    have hmax : h < 21 := scheme_hash_lt hsc
    have ha := C40_available_iff calls reg hr h
    have hnew := C40_new calls reg hr h
    cases hf : lastRegistered calls h with
    | none =>
      rw [hf] at ha
      simp only [ne_eq, not_true_eq_false, and_false, iff_false] at ha
      rw [if_pos ha]
      refine ⟨⟨fun h => (by cases h), ?_⟩, by simp⟩
      rintro ⟨s', h', f, h1, h2, -⟩
      rw [hsc] at h1
      simp only [Option.some.injEq, Prod.mk.injEq] at h1
      obtain ⟨-, rfl⟩ := h1
      rw [hf] at h2; cases h2
    | some f =>
      rw [hf] at ha hnew
      have hav : hashAvailable reg h = true := ha.mpr ⟨hmax, by simp⟩
      simp only [show 0 < h ∧ h < 21 from ⟨Nat.pos_of_ne_zero hne, hmax⟩, if_true] at hnew
      simp only [hav, not_true_eq_false, if_false, hnew, Res.bind_ok]
      have hacc : SigAccepted (lastRegistered calls) V a plain sig key ↔ PrimitiveAccepts V h f plain sig s key := by
        constructor
        · rintro ⟨s', h', f', h1, h2, h3⟩
          rw [hsc] at h1
          simp only [Option.some.injEq, Prod.mk.injEq] at h1
          obtain ⟨rfl, rfl⟩ := h1
          rw [hf] at h2
          cases h2
          exact h3
        · intro h3; exact ⟨s, h, f, hsc, hf, h3⟩
      rw [hacc]
      cases s <;> cases key <;> simp [checkByKey, PrimitiveAccepts, accept, hp, famAlgo] <;> (try split_ifs) <;> simp_all

/-- The registry after initialisation has no hash 0. -/
theorem lastRegistered_init (H : StdHashes) (h : Nat) : lastRegistered (initCalls H) h =
    (if h = 2 then some H.md5 else if h = 3 then some H.sha1 else if h = 4 then some H.sha224
     else if h = 5 then some H.sha256 else if h = 6 then some H.sha384 else if h = 7 then some H.sha512
     else if h = 9 then some H.ripemd160 else if h = 10 then some H.sha3_224 else if h = 11 then some H.sha3_256
     else if h = 12 then some H.sha3_384 else if h = 13 then some H.sha3_512 else if h = 14 then some H.sha512_224
     else if h = 15 then some H.sha512_256 else if h = 20 then some Sm3.sum else none) := by
  by_cases hk : h < 21
  · simp only [lastRegistered, initCalls]
    interval_cases h <;> simp
  · simp only [lastRegistered, initCalls]
    repeat rw [if_neg (by omega)]
    rw [List.find?_eq_none.mpr]
    intro c hc
    simp only [List.mem_reverse, List.mem_cons, List.not_mem_nil, or_false] at hc
    rcases hc with rfl | rfl | rfl | rfl | rfl | rfl | rfl | rfl | rfl | rfl | rfl | rfl | rfl | rfl | rfl <;>
      (simp; omega)

/-- C41 for the package as initialised. -/
theorem C41_accepts_iff_init (H : StdHashes) (V : Verifiers) (a : Int) (plain sig : Bytes) (key : PubKey) :
    (checkSignature (initRegistry H) V a plain sig key = .ok () ↔
      SigAccepted (lastRegistered (initCalls H)) V a plain sig key) ∧
    checkSignature (initRegistry H) V a plain sig key ≠ .panic :=
  C41_accepts_iff (initCalls H) _ (initRegistry_ok H) (by rw [lastRegistered_init]; simp) V a plain sig key

/-- C41: the type of key the algorithm names decides: an RSA algorithm accepts only RSA keys, an elliptic curve
algorithm (SM2WithSM3 included) only ECDSA and SM2 keys; DSA, Ed25519, unknown and absent keys never verify, and
unknown algorithms, DSA algorithms and Ed25519 never verify with any key. -/
theorem C41_mismatch_rejected (calls : List (Nat × Option HashFn)) (reg : Registry)
    (hr : registerAll noHashes calls = .ok reg) (h0 : lastRegistered calls 0 = none)
    (V : Verifiers) (a : Int) (plain sig : Bytes) (key : PubKey)
    (h : checkSignature reg V a plain sig key = .ok ()) :
    (∃ k, key = .rsa k ∧ a ∈ [MD5WithRSA, SHA1WithRSA, SHA256WithRSA, SHA384WithRSA, SHA512WithRSA,
      SHA256WithRSAPSS, SHA384WithRSAPSS, SHA512WithRSAPSS]) ∨
    (∃ k, (key = .ecdsa k ∨ (key = .sm2 k ∧ k.curve = .sm2p256v1)) ∧
      a ∈ [ECDSAWithSHA1, ECDSAWithSHA256, ECDSAWithSHA384, ECDSAWithSHA512, SM2WithSM3]) := by
  obtain ⟨s, hh, f, h1, -, h3⟩ := ((C41_accepts_iff calls reg hr h0 V a plain sig key).1).mp h
  have hs : (s = .rsaPkcs1 ∨ s = .rsaPss → a ∈ [MD5WithRSA, SHA1WithRSA, SHA256WithRSA, SHA384WithRSA, SHA512WithRSA,
      SHA256WithRSAPSS, SHA384WithRSAPSS, SHA512WithRSAPSS]) ∧
      (s = .ec → a ∈ [ECDSAWithSHA1, ECDSAWithSHA256, ECDSAWithSHA384, ECDSAWithSHA512, SM2WithSM3]) := by
    obtain ⟨r1, r2⟩ := scheme_range h1
    interval_cases a <;> simp [scheme] at h1 <;> obtain ⟨rfl, rfl⟩ := h1 <;> simp
  cases s <;> cases key <;> simp only [PrimitiveAccepts] at h3
  · exact .inl ⟨_, rfl, hs.1 (.inl rfl)⟩
  · exact .inl ⟨_, rfl, hs.1 (.inr rfl)⟩
  · exact .inr ⟨_, .inl rfl, hs.2 rfl⟩
  · exact .inr ⟨_, .inr ⟨rfl, h3.1⟩, hs.2 rfl⟩

/-- C41: a signature accepted for an SM2 public key on the curve is a valid GB/T 32918.2 signature of exactly
the given bytes under the default identifier, whatever the algorithm. -/
theorem C41_sm2_sound (calls : List (Nat × Option HashFn)) (reg : Registry)
    (hr : registerAll noHashes calls = .ok reg) (h0 : lastRegistered calls 0 = none)
    (V : Verifiers) (a : Int) (plain sig : Bytes) (k : Sm2.PublicKey) (Q : Curve.EP) (hQ : Represents k Q)
    (hx : k.x < 256 ^ 32) (hy : k.y < 256 ^ 32)
    (h : checkSignature reg V a plain sig (.sm2 k) = .ok ()) : Sm2Valid k Q plain sig := by
  obtain ⟨s, hh, f, h1, -, h3⟩ := ((C41_accepts_iff calls reg hr h0 V a plain sig (.sm2 k)).1).mp h
  have hv : Sm2.verify k plain [] sig = true := by
    cases s <;> simp only [PrimitiveAccepts] at h3
    exact h3.2
  unfold Sm2.verify at hv
  split at hv
  · rename_i r s' hu
    refine ⟨r, s', ((C11_accepts_iff _ _ _).mp hu).1, ?_⟩
    have hd := C14_digest k hx hy plain []
    rw [if_pos rfl] at hd
    have := C09_sound k Q hQ (k.sm3Digest plain []) r s' hv
    rw [hd] at this
    exact this
  · cases hv

/-- C41, completeness for SM2: with SM3 registered, every valid signature (except those with r equal to the
digest, which the library rejects by C09) verifies under SM2WithSM3. -/
theorem C41_sm2_complete (calls : List (Nat × Option HashFn)) (reg : Registry)
    (hr : registerAll noHashes calls = .ok reg) (h0 : lastRegistered calls 0 = none)
    (hsm3 : lastRegistered calls hSM3 ≠ none) (V : Verifiers) (plain sig : Bytes) (k : Sm2.PublicKey) (Q : Curve.EP)
    (hc : k.curve = .sm2p256v1) (hQ : Represents k Q) (hx : k.x < 256 ^ 32) (hy : k.y < 256 ^ 32)
    (hl : sig.length < 2 ^ 32) (r s : Int) (hs : DerSpec.IsSig sig r s)
    (hv : ValidSig Q (ofBytes (Sm3Spec.sm3 (Z defaultId k.x k.y ++ plain))) r s)
    (hne : r ≠ ((ofBytes (Sm3Spec.sm3 (Z defaultId k.x k.y ++ plain)) % Curve.N : Nat) : Int)) :
    checkSignature reg V SM2WithSM3 plain sig (.sm2 k) = .ok () := by
  rw [(C41_accepts_iff calls reg hr h0 V _ plain sig _).1]
  obtain ⟨f, hf⟩ := Option.ne_none_iff_exists'.mp hsm3
  refine ⟨.ec, hSM3, f, by simp [scheme], hf, hc, ?_⟩
  unfold Sm2.verify
  have hu := (C11_accepts_iff sig r s).mpr ⟨hs, hl⟩
  rw [hu]
  have hd := C14_digest k hx hy plain []
  rw [if_pos rfl] at hd
  have hd' : k.sm3Digest plain [] = Sm3Spec.sm3 (Z defaultId k.x k.y ++ plain) := hd
  have := C09_complete_partial k Q hQ (k.sm3Digest plain []) r s (by rw [hd']; exact hv) (by rw [hd']; exact hne)
  exact this

/-! ## C67: algorithms documented as "only supported for signing, not verification" -/

/-- C67 is false: the package as initialised accepts every MD5WithRSA, SHA1WithRSA and ECDSAWithSHA1 signature
the primitives accept, although the constants are documented "Only supported for signing, not verification". -/
theorem C67_weak_hash_accepted_counterexample (H : StdHashes) (V : Verifiers) (plain sig : Bytes) (k : RsaPub)
    (e : Sm2.PublicKey) :
    (V.rsaPKCS1v15 k hMD5 (H.md5 plain) sig = true →
      checkSignature (initRegistry H) V MD5WithRSA plain sig (.rsa k) = .ok ()) ∧
    (V.rsaPKCS1v15 k hSHA1 (H.sha1 plain) sig = true →
      checkSignature (initRegistry H) V SHA1WithRSA plain sig (.rsa k) = .ok ()) ∧
    (V.ecdsaASN1 e (H.sha1 plain) sig = true →
      checkSignature (initRegistry H) V ECDSAWithSHA1 plain sig (.ecdsa e) = .ok ()) := by
  refine ⟨fun h => ?_, fun h => ?_, fun h => ?_⟩ <;> rw [(C41_accepts_iff_init H V _ plain sig _).1]
  · exact ⟨.rsaPkcs1, hMD5, H.md5, by simp [scheme], by rw [lastRegistered_init]; simp, h⟩
  · exact ⟨.rsaPkcs1, hSHA1, H.sha1, by simp [scheme], by rw [lastRegistered_init]; simp, h⟩
  · exact ⟨.ec, hSHA1, H.sha1, by simp [scheme], by rw [lastRegistered_init]; simp, h⟩

/-! ## C42 -/

/-- C42 (exact): `c.CheckSignatureFrom(parent)` returns nil exactly when the parent may sign certificates, its
public key algorithm is known, and the signature of `c` over its to-be-signed part is accepted for the parent's
key under the algorithm recorded in `c`. -/
theorem C42_checkSignatureFrom_iff (calls : List (Nat × Option HashFn)) (reg : Registry)
    (hr : registerAll noHashes calls = .ok reg) (h0 : lastRegistered calls 0 = none)
    (V : Verifiers) (c parent : Certificate) :
    (c.checkSignatureFrom reg V parent = .ok () ↔
      MaySignCerts parent ∧ parent.publicKeyAlgorithm ≠ 0 ∧
      SigAccepted (lastRegistered calls) V c.signatureAlgorithm c.rawTBSCertificate c.signature parent.publicKey) ∧
    c.checkSignatureFrom reg V parent ≠ .panic := by
  obtain ⟨hi, hp⟩ := C41_accepts_iff calls reg hr h0 V c.signatureAlgorithm c.rawTBSCertificate c.signature
    parent.publicKey
  unfold Certificate.checkSignatureFrom
  have hbit : hasBit parent.keyUsage 5 = true ↔ ∃ k : Int, parent.keyUsage / 32 = 2 * k + 1 := by
    unfold hasBit
    rw [decide_eq_true_iff]
    constructor
    · intro h
      have h' : parent.keyUsage / 32 % 2 = 1 := h
      exact ⟨parent.keyUsage / 32 / 2, by omega⟩
    · rintro ⟨k, hk⟩
      show parent.keyUsage / 32 % 2 = 1
      omega
  unfold MaySignCerts
  rw [← hbit]
  split
  · rename_i h
    refine ⟨⟨fun h => (by cases h), ?_⟩, by simp⟩
    rintro ⟨⟨h1, h2, -⟩, -, -⟩
    rcases h with ⟨ha, hb⟩ | ⟨ha, hb⟩
    · exact absurd (h1 ha) hb
    · exact absurd (h2 ha) hb
  · rename_i h
    split
    · rename_i h'
      refine ⟨⟨fun h => (by cases h), ?_⟩, by simp⟩
      rintro ⟨⟨-, -, h3⟩, -, -⟩
      exact absurd (h3 h'.1) h'.2
    · rename_i h'
      split
      · rename_i h''
        refine ⟨⟨fun h => (by cases h), ?_⟩, by simp⟩
        rintro ⟨-, h3, -⟩
        exact absurd h'' h3
      · rename_i h''
        refine ⟨?_, hp⟩
        show X509.checkSignature _ _ _ _ _ _ = _ ↔ _
        rw [hi]
        constructor
        · intro hacc
          refine ⟨⟨?_, ?_, ?_⟩, h'', hacc⟩
          · intro hv; by_contra hb; exact h (.inl ⟨hv, hb⟩)
          · intro hv; by_contra hb; exact h (.inr ⟨hv, hb⟩)
          · intro hv; by_contra hb; exact h' ⟨hv, hb⟩
        · intro hx; exact hx.2.2

/-- C42: the path length constraint of the parent is not considered: changing it does not change the outcome. -/
theorem C42_path_length_ignored (reg : Registry) (V : Verifiers) (c parent : Certificate) (n : Int) (z : Bool) :
    c.checkSignatureFrom reg V { parent with maxPathLen := n, maxPathLenZero := z } =
      c.checkSignatureFrom reg V parent := rfl

/-! ## Concrete cases -/

/-- Hypotheses of C40-C42 are met by the package as initialised. -/
example (H : StdHashes) : registerAll noHashes (initCalls H) = .ok (initRegistry H) ∧
    lastRegistered (initCalls H) 0 = none := ⟨initRegistry_ok H, by rw [lastRegistered_init]; simp⟩

/-- A toy verifier that accepts when the signature equals the digest. -/
def toyV : Verifiers := ⟨fun _ _ d s => d == s, fun _ _ d s => d == s, fun _ d s => d == s, fun _ d s => d == s⟩
def toyH : StdHashes :=
  ⟨id, id, id, id, id, id, id, id, id, id, id, id, id⟩

/-- A parent that may sign, and a child that it signed. -/
example : (Certificate.checkSignatureFrom (initRegistry toyH) toyV
    { rawTBSCertificate := [1, 2], signature := [1, 2], signatureAlgorithm := SHA256WithRSA }
    { version := 3, basicConstraintsValid := true, isCA := true, keyUsage := 32, publicKeyAlgorithm := pkRSA,
      publicKey := .rsa ⟨33, 3⟩ }) = .ok () := by decide +kernel

/-- The same parent without the CA flag. -/
example : (Certificate.checkSignatureFrom (initRegistry toyH) toyV
    { rawTBSCertificate := [1, 2], signature := [1, 2], signatureAlgorithm := SHA256WithRSA }
    { version := 3, basicConstraintsValid := true, isCA := false, keyUsage := 32, publicKeyAlgorithm := pkRSA,
      publicKey := .rsa ⟨33, 3⟩ }) ≠ .ok () := by decide +kernel

end MCrypto.Props
