import Verif.Pkcs12.Queries
import Verif.Pkcs12.CryptoLemmas2
/-
The computations of Queries.lean give the results of the plain model, and how often they hash (no property statements here).
-/
namespace MCrypto.P12
open MCrypto Asn1 MCrypto.X509

namespace Q
variable {α β : Type} (H : Bytes → Bytes)

@[simp] theorem run_ret (r : Res α) : run H (ret r) = r := rfl
@[simp] theorem run_pure (a : α) : run H (pure a : Q α) = .ok a := rfl
@[simp] theorem asked_ret (r : Res α) : asked H (ret r) = [] := rfl
@[simp] theorem asked_pure (a : α) : asked H (pure a : Q α) = [] := rfl

/-- What is asked after a first part that gave `r`. -/
def then' (r : Res α) (f : α → List Bytes) : List Bytes :=
  match r with
  | .ok a => f a
  | _ => []

theorem run_bind (q : Q α) (f : α → Q β) : run H (q >>= f) = (run H q >>= fun a => run H (f a)) := by
  show run H (bind q f) = _
  induction q with
  | ret r => cases r <;> rfl
  | ask m k ih => exact ih (H m)

theorem asked_bind (q : Q α) (f : α → Q β) : asked H (q >>= f) = asked H q ++ then' (run H q) (fun a => asked H (f a)) := by
  show asked H (bind q f) = _
  induction q with
  | ret r => cases r <;> rfl
  | ask m k ih => exact congrArg (m :: ·) (ih (H m))

theorem run_attempt (q : Q α) (f : Res α → Q β) : run H (attempt q f) = run H (f (run H q)) := by
  induction q with
  | ret r => rfl
  | ask m k ih => exact ih (H m)

theorem asked_attempt (q : Q α) (f : Res α → Q β) : asked H (attempt q f) = asked H q ++ asked H (f (run H q)) := by
  induction q with
  | ret r => rfl
  | ask m k ih => exact congrArg (m :: ·) (ih (H m))

theorem run_ite (c : Prop) [Decidable c] (a b : Q α) : run H (if c then a else b) = if c then run H a else run H b := by
  split <;> rfl
theorem asked_ite (c : Prop) [Decidable c] (a b : Q α) : asked H (if c then a else b) = if c then asked H a else asked H b := by
  split <;> rfl

@[simp] theorem then'_ok (a : α) (f : α → List Bytes) : then' (.ok a) f = f a := rfl
end Q
open Q

/-! ### Results -/

theorem run_hashQ (H : Bytes → Bytes) (m : Bytes) : run H (hashQ m) = .ok (H m) := rfl
theorem asked_hashQ (H : Bytes → Bytes) (m : Bytes) : asked H (hashQ m) = [m] := rfl

theorem run_rehashQ (H : Bytes → Bytes) (n : Nat) (a : Bytes) :
    run H (rehashQ n a) = .ok ((List.range n).foldl (fun a _ => H a) a) := by
  induction n generalizing a with
  | zero => rfl
  | succ n ih =>
    rw [rehashQ, run_bind, run_hashQ, Res.bind_ok, ih]
    congr 1
    rw [List.range_succ_eq_map, List.foldl_cons, List.foldl_map]

theorem asked_rehashQ (H : Bytes → Bytes) (n : Nat) (a : Bytes) : (asked H (rehashQ n a)).length = n := by
  induction n generalizing a with
  | zero => rfl
  | succ n ih =>
    rw [rehashQ, asked_bind, run_hashQ, asked_hashQ, then'_ok, List.length_append, ih]
    simp; omega

theorem run_hashIterQ (H : Bytes → Bytes) (r : Int) (x : Bytes) : run H (hashIterQ r x) = .ok (hashIter H r x) := by
  rw [hashIterQ, run_bind, run_hashQ, Res.bind_ok, run_rehashQ]; rfl

theorem asked_hashIterQ (H : Bytes → Bytes) (r : Int) (x : Bytes) : (asked H (hashIterQ r x)).length = max 1 r.toNat := by
  rw [hashIterQ, asked_bind, run_hashQ, asked_hashQ, then'_ok, List.length_append, asked_rehashQ]
  simp; omega

theorem run_kdfLoopQ (H : Bytes → Bytes) (v : Nat) (D : Bytes) (r : Int) (c n : Nat) (I A : Bytes) :
    run H (kdfLoopQ v D r c n I A) = .ok (kdfLoop H v D r c n I A) := by
  induction n generalizing I A with
  | zero => rfl
  | succ n ih =>
    rw [kdfLoopQ, kdfLoop, run_bind, run_hashIterQ, Res.bind_ok]
    simp only []
    split <;> exact ih _ _

theorem asked_kdfLoopQ (H : Bytes → Bytes) (v : Nat) (D : Bytes) (r : Int) (c n : Nat) (I A : Bytes) :
    (asked H (kdfLoopQ v D r c n I A)).length = n * max 1 r.toNat := by
  induction n generalizing I A with
  | zero => simp [kdfLoopQ]
  | succ n ih =>
    rw [kdfLoopQ, asked_bind, run_hashIterQ, then'_ok, List.length_append, asked_hashIterQ]
    simp only []
    have : ∀ q : Q Bytes, (asked H q).length = n * max 1 r.toNat → max 1 r.toNat + (asked H q).length = (n + 1) * max 1 r.toNat := by
      intro q hq; rw [hq, Nat.add_mul]; omega
    split <;> exact this _ (ih _ _)

theorem run_pbkdfQ (H : Bytes → Bytes) (u v : Nat) (salt pw : Bytes) (r : Int) (ID : UInt8) (size : Nat) :
    run H (pbkdfQ u v salt pw r ID size) = pbkdf H u v salt pw r ID size := by
  unfold pbkdfQ pbkdf
  simp only []
  rw [run_bind, run_kdfLoopQ, Res.bind_ok, run_ite]; rfl

theorem asked_pbkdfQ (H : Bytes → Bytes) (u v : Nat) (salt pw : Bytes) (r : Int) (ID : UInt8) (size : Nat) :
    (asked H (pbkdfQ u v salt pw r ID size)).length = (size + u - 1) / u * max 1 r.toNat := by
  unfold pbkdfQ
  simp only []
  rw [asked_bind, run_kdfLoopQ, then'_ok, List.length_append, asked_kdfLoopQ, asked_ite]
  simp

theorem run_hmacQ (H : Bytes → Bytes) (key text : Bytes) : run H (hmacQ key text) = .ok (hmac H key text) := by
  unfold hmacQ hmac
  by_cases h : key.length > 64
  · simp only [if_pos h, run_bind, run_hashQ, Res.bind_ok]
  · simp only [if_neg h, run_bind, run_hashQ, run_pure, Res.bind_ok]

theorem asked_hmacQ (H : Bytes → Bytes) (key text : Bytes) (hk : key.length ≤ 64) :
    (asked H (hmacQ key text)).length = 2 := by
  unfold hmacQ
  rw [if_neg (by omega)]
  simp only [asked_bind, run_pure, asked_pure, then'_ok, asked_hashQ, run_hashQ]
  rfl

theorem run_deriveKeyQ (P : Prims) (t : CipherType) (s pw : Bytes) (n : Int) :
    run P.sha1 (deriveKeyQ t s pw n) = deriveKey P t s pw n := run_pbkdfQ ..
theorem run_deriveIVQ (P : Prims) (t : CipherType) (s pw : Bytes) (n : Int) :
    run P.sha1 (deriveIVQ t s pw n) = deriveIV P t s pw n := run_pbkdfQ ..

theorem run_pbeCipherForQ (P : Prims) (alg : AlgId) (pw : Bytes) :
    run P.sha1 (pbeCipherForQ P alg pw) = pbeCipherFor P alg pw := by
  unfold pbeCipherForQ pbeCipherFor
  simp only [run_bind, run_ret, run_deriveKeyQ, run_deriveIVQ, run_pure, Res.pure_eq]

theorem run_pbDecryptQ (P : Prims) (alg : AlgId) (data pw : Bytes) :
    run P.sha1 (pbDecryptQ P alg data pw) = pbDecrypt P alg data pw := by
  unfold pbDecryptQ pbDecrypt
  rw [run_bind, run_pbeCipherForQ]; rfl

theorem run_pbEncryptQ (P : Prims) (alg : AlgId) (data pw : Bytes) :
    run P.sha1 (pbEncryptQ P alg data pw) = pbEncrypt P alg data pw := by
  unfold pbEncryptQ pbEncrypt
  rw [run_bind, run_pbeCipherForQ]; rfl

theorem run_macOfQ (P : Prims) (md : MacData) (m pw : Bytes) : run P.sha1 (macOfQ md m pw) = macOf P md m pw := by
  unfold macOfQ macOf
  rw [run_bind, run_pbkdfQ]
  congr 1; funext k; exact run_hmacQ ..

theorem run_verifyMacQ (P : Prims) (md : MacData) (m pw : Bytes) : run P.sha1 (verifyMacQ md m pw) = verifyMac P md m pw := by
  unfold verifyMacQ verifyMac
  rw [run_ite, run_bind, run_macOfQ]
  simp only [run_ret, run_ite, run_pure]

theorem run_computeMacQ (P : Prims) (md : MacData) (m pw : Bytes) : run P.sha1 (computeMacQ md m pw) = computeMac P md m pw := by
  unfold computeMacQ computeMac
  rw [run_ite, run_bind, run_macOfQ]
  simp only [run_ret, run_pure, Res.pure_eq]

theorem run_checkMacQ (P : Prims) (md : MacData) (m pw : Bytes) : run P.sha1 (checkMacQ md m pw) = checkMac P md m pw := by
  unfold checkMacQ checkMac
  rw [run_attempt, run_verifyMacQ]
  cases verifyMac P md m pw with
  | ok a => rfl
  | panic => rfl
  | err e =>
    simp only [run_ite, run_bind, run_verifyMacQ, run_pure, run_ret, Res.pure_eq]

theorem run_safeDataQ (P : Prims) (ci : ContentInfo) (pw : Bytes) : run P.sha1 (safeDataQ P ci pw) = safeData P ci pw := by
  unfold safeDataQ safeData
  simp only [run_ite, run_bind, run_ret, run_pbDecryptQ]

theorem run_collectBagsQ (P : Prims) (pw : Bytes) (cis : List ContentInfo) (bags : List SafeBag) :
    run P.sha1 (collectBagsQ P pw cis bags) = collectBags P pw cis bags := by
  induction cis generalizing bags with
  | nil => rfl
  | cons ci cis ih =>
    rw [collectBagsQ, collectBags]
    simp only [run_bind, run_ret, run_safeDataQ, ih]

theorem run_getSafeContentsQ (P : Prims) (d pw : Bytes) : run P.sha1 (getSafeContentsQ P d pw) = getSafeContents P d pw := by
  unfold getSafeContentsQ getSafeContents
  simp only [run_ite, run_bind, run_ret, run_checkMacQ, run_collectBagsQ, run_pure, Res.pure_eq]

theorem run_keyBagQ (P : Prims) (edPub : Bytes → Bytes) (d pw : Bytes) :
    run P.sha1 (decodePkcs8ShroudedKeyBagQ P edPub d pw) = decodePkcs8ShroudedKeyBag P edPub d pw := by
  unfold decodePkcs8ShroudedKeyBagQ decodePkcs8ShroudedKeyBag
  simp only [run_bind, run_ret, run_pbDecryptQ]

theorem run_decodeBagQ {κ : Type} (P : Prims) (edPub : Bytes → Bytes) (parseCerts : Bytes → Res (List κ)) (keep : Bool)
    (pw : Bytes) (bag : SafeBag) (s : DecState κ) :
    run P.sha1 (decodeBagQ P edPub parseCerts keep pw bag s) = decodeBag P edPub parseCerts keep pw bag s := by
  unfold decodeBagQ decodeBag
  simp only [run_ite, run_bind, run_ret, run_keyBagQ, run_pure]
  rfl

theorem run_decodeBagsQ {κ : Type} (P : Prims) (edPub : Bytes → Bytes) (parseCerts : Bytes → Res (List κ)) (keep : Bool)
    (pw : Bytes) (bags : List SafeBag) (s : DecState κ) :
    run P.sha1 (decodeBagsQ P edPub parseCerts keep pw bags s) = decodeBags P edPub parseCerts keep pw bags s := by
  induction bags generalizing s with
  | nil => rfl
  | cons b bs ih =>
    rw [decodeBagsQ, decodeBags]
    simp only [run_bind, run_decodeBagQ, ih]

theorem run_decodeWithQ {κ : Type} (P : Prims) (edPub : Bytes → Bytes) (parseCerts : Bytes → Res (List κ)) (keep : Bool)
    (d pw : Bytes) : run P.sha1 (decodeWithQ P edPub parseCerts keep d pw) = decodeWith P edPub parseCerts keep d pw := by
  unfold decodeWithQ decodeWith
  simp only [run_bind, run_ret, run_getSafeContentsQ, run_decodeBagsQ]

theorem run_convertBagQ (P : Prims) (edPub : Bytes → Bytes) (b : SafeBag) (pw : Bytes) :
    run P.sha1 (convertBagQ P edPub b pw) = convertBag P edPub b pw := by
  unfold convertBagQ convertBag
  simp only [run_ite, run_bind, run_ret, run_keyBagQ, run_pure, Res.pure_eq]

theorem run_convertBagsQ (P : Prims) (edPub : Bytes → Bytes) (pw : Bytes) (bags : List SafeBag) :
    run P.sha1 (convertBagsQ P edPub pw bags) = convertBags P edPub pw bags := by
  induction bags with
  | nil => rfl
  | cons b bs ih =>
    rw [convertBagsQ, convertBags]
    simp only [run_bind, run_convertBagQ, ih, run_pure, Res.pure_eq]

theorem run_toPEMQ (P : Prims) (edPub : Bytes → Bytes) (d pw : Bytes) :
    run P.sha1 (toPEMQ P edPub d pw) = toPEM P edPub d pw := by
  unfold toPEMQ toPEM
  cases bmpString pw with
  | err e => rfl
  | panic => rfl
  | ok pw =>
    simp only []
    rw [run_attempt, run_getSafeContentsQ]
    cases getSafeContents P d pw with
    | err e => rfl
    | panic => rfl
    | ok x => exact run_convertBagsQ ..

theorem run_encodeKeyQ (P : Prims) (key : PrivKey) (pw : Bytes) (rnd : Reader) :
    run P.sha1 (encodePkcs8ShroudedKeyBagQ P key pw rnd) = encodePkcs8ShroudedKeyBag P key pw rnd := by
  unfold encodePkcs8ShroudedKeyBagQ encodePkcs8ShroudedKeyBag
  simp only [run_bind, run_ret, run_pbEncryptQ, run_pure, Res.pure_eq]

theorem run_makeSafeContentsQ (P : Prims) (bags : List SafeBag) (pw : Option Bytes) (rnd : Reader) :
    run P.sha1 (makeSafeContentsQ P bags pw rnd) = makeSafeContents P bags pw rnd := by
  unfold makeSafeContentsQ makeSafeContents
  cases pw <;> simp only [run_bind, run_ret, run_pbEncryptQ, run_pure, Res.pure_eq]

theorem run_localKeyIdAttrQ (P : Prims) (raw : Bytes) : run P.sha1 (localKeyIdAttrQ raw) = localKeyIdAttr P raw := by
  unfold localKeyIdAttrQ localKeyIdAttr
  simp only [run_bind, run_hashQ, Res.bind_ok, run_ret, run_pure, Res.pure_eq]

theorem run_encodeQ (P : Prims) (key : PrivKey) (leaf : Bytes) (cas : List Bytes) (pw : Bytes) (rnd : Reader) :
    run P.sha1 (encodeQ P key leaf cas pw rnd) = encode P key leaf cas pw rnd := by
  unfold encodeQ encode
  simp only [run_bind, run_ret, run_localKeyIdAttrQ, run_encodeKeyQ, run_makeSafeContentsQ, run_computeMacQ, run_pure, Res.pure_eq]

/-! ### Counts -/

/-- Number of derivation blocks for key and IV. -/
def cipherBlocks : CipherType → Nat
  | .tdes => 3
  | .rc2 => 2

theorem asked_pbeCipherForQ (P : Prims) (t : CipherType) (alg : AlgId) (pw : Bytes) (ps : PbeParams)
    (ht : cipherTypeFor alg.algorithm = .ok t) (hp : unmarshalAll pbeParams alg.parameters.full = .ok ps) :
    (asked P.sha1 (pbeCipherForQ P alg pw)).length = cipherBlocks t * max 1 ps.iterations.toNat := by
  unfold pbeCipherForQ
  rw [asked_bind, run_ret, asked_ret, ht, then'_ok, asked_bind, run_ret, asked_ret, hp, then'_ok, asked_bind, run_deriveKeyQ]
  unfold deriveKey
  rw [pbkdf_eq, then'_ok, asked_bind, run_deriveIVQ]
  unfold deriveIV
  rw [pbkdf_eq, then'_ok, asked_bind, run_ret, asked_ret]
  simp only [List.length_append, List.length_nil, Nat.zero_add, List.nil_append]
  unfold deriveKeyQ deriveIVQ
  rw [asked_pbkdfQ, asked_pbkdfQ]
  have : ∀ r : Res Block, ∀ iv : Bytes, (then' r fun b => asked P.sha1 (pure (b, iv) : Q (Block × Bytes))) = [] := by
    intro r iv; cases r <;> rfl
  rw [this]
  generalize max 1 ps.iterations.toNat = N
  cases t <;> simp only [CipherType.keyLen, cipherBlocks, List.length_nil] <;> omega

theorem asked_pbeCipherForQ_err (P : Prims) (alg : AlgId) (pw : Bytes)
    (h : ¬ ((∃ t, cipherTypeFor alg.algorithm = .ok t) ∧ ∃ ps, unmarshalAll pbeParams alg.parameters.full = .ok ps)) :
    asked P.sha1 (pbeCipherForQ P alg pw) = [] := by
  unfold pbeCipherForQ
  rw [asked_bind, run_ret, asked_ret, List.nil_append]
  cases ht : cipherTypeFor alg.algorithm with
  | ok t =>
    rw [then'_ok, asked_bind, run_ret, asked_ret, List.nil_append]
    cases hp : unmarshalAll pbeParams alg.parameters.full with
    | ok ps => exact absurd ⟨⟨t, ht⟩, ps, hp⟩ h
    | err e => rfl
    | panic => rfl
  | err e => rfl
  | panic => rfl

theorem then'_ret {α β : Type} (H : Bytes → Bytes) (r : Res α) (f : α → Res β) : (then' r fun a => asked H (Q.ret (f a))) = [] := by
  cases r <;> rfl

theorem asked_pbDecryptQ (P : Prims) (alg : AlgId) (data pw : Bytes) :
    asked P.sha1 (pbDecryptQ P alg data pw) = asked P.sha1 (pbeCipherForQ P alg pw) := by
  unfold pbDecryptQ
  rw [asked_bind]
  have := then'_ret P.sha1 (run P.sha1 (pbeCipherForQ P alg pw)) fun x => decryptWith data x.1 x.2
  rw [this, List.append_nil]

theorem asked_pbEncryptQ (P : Prims) (alg : AlgId) (data pw : Bytes) :
    asked P.sha1 (pbEncryptQ P alg data pw) = asked P.sha1 (pbeCipherForQ P alg pw) := by
  unfold pbEncryptQ
  rw [asked_bind]
  have := then'_ret P.sha1 (run P.sha1 (pbeCipherForQ P alg pw)) fun x => cryptBlocks (cbcEnc x.1) x.2
    (data ++ List.replicate (8 - data.length % 8) (UInt8.ofNat (8 - data.length % 8)))
  rw [this, List.append_nil]

theorem asked_macOfQ (P : Prims) (md : MacData) (m pw : Bytes) :
    (asked P.sha1 (macOfQ md m pw)).length = max 1 md.iterations.toNat + 2 := by
  unfold macOfQ
  rw [asked_bind, run_pbkdfQ, pbkdf_eq, then'_ok, List.length_append, asked_pbkdfQ, asked_hmacQ]
  · rw [show (20 + 20 - 1) / 20 = 1 from rfl, Nat.one_mul]
  · rw [kdf_length]; decide

theorem asked_verifyMacQ (P : Prims) (md : MacData) (m pw : Bytes) (h : md.mac.algorithm.algorithm = oidSHA1) :
    (asked P.sha1 (verifyMacQ md m pw)).length = max 1 md.iterations.toNat + 2 := by
  unfold verifyMacQ
  rw [if_neg (by simp [h]), asked_bind, List.length_append, asked_macOfQ]
  have : ∀ r : Res Bytes, (then' r fun e => asked P.sha1 (if md.mac.digest ≠ e then Q.ret (.err "ErrIncorrectPassword") else pure ())) = [] := by
    intro r
    cases r with
    | ok a => rw [then'_ok]; split <;> rfl
    | err e => rfl
    | panic => rfl
  rw [this]; rfl

theorem asked_computeMacQ (P : Prims) (md : MacData) (m pw : Bytes) (h : md.mac.algorithm.algorithm = oidSHA1) :
    (asked P.sha1 (computeMacQ md m pw)).length = max 1 md.iterations.toNat + 2 := by
  unfold computeMacQ
  rw [if_neg (by simp [h]), asked_bind, List.length_append, asked_macOfQ]
  cases run P.sha1 (macOfQ md m pw) <;> rfl

end MCrypto.P12
