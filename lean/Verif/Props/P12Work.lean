import Verif.Pkcs12.QueriesEncode
import Verif.Props.P12Tamper
import Verif.Props.Sizes
import Verif.Props.P12Ex
/-
C144: how much work opening a PKCS#12 file is, in calls of SHA-1. The iteration counts stand in the file and nothing limits them.
-/
namespace MCrypto.P12Spec
open MCrypto P12

/-- A program `counted` that asks for its SHA-1 values is the program with the result `plain`, and it hashes `n` times. -/
def Hashes {α : Type} (P : Prims) (counted : Q α) (plain : Res α) (n : Nat) : Prop :=
  counted.run P.sha1 = plain ∧ (counted.asked P.sha1).length = n

/-- At least `n` times. -/
def HashesAtLeast {α : Type} (P : Prims) (counted : Q α) (plain : Res α) (n : Nat) : Prop :=
  ∃ m, n ≤ m ∧ Hashes P counted plain m

/-- How often a count from a file makes the derivation of 20 octets hash: once if it is not positive. -/
def rounds (n : Int) : Nat := max 1 n.toNat

/-- A file of at most 49 octets: version 3, an empty authenticated safe, a MAC with empty digest and empty salt, and the iteration
count in the octets `b`. -/
def demanding (b : Bytes) : Bytes :=
  0x30 :: UInt8.ofNat (b.length + 39) :: ([0x02, 0x01, 0x03] ++
    ([0x30, 0x0f, 0x06, 0x09, 0x2a, 0x86, 0x48, 0x86, 0xf7, 0x0d, 0x01, 0x07, 0x01, 0xa0, 0x02, 0x04, 0x00] ++
      0x30 :: UInt8.ofNat (b.length + 17) :: ([0x30, 0x0b, 0x30, 0x07, 0x06, 0x05, 0x2b, 0x0e, 0x03, 0x02, 0x1a, 0x04, 0x00] ++
        ([0x04, 0x00] ++ (0x02 :: UInt8.ofNat b.length :: b)))))

end MCrypto.P12Spec

namespace MCrypto.Props
open MCrypto Asn1 P12 MCrypto.Dg MCrypto.X509 MCrypto.X509Spec P12Spec P12.Q

theorem verify_wrong (P : Prims) (md : MacData) (a pw : Bytes) (h1 : md.mac.algorithm.algorithm = oidSHA1)
    (h : md.mac.digest ≠ mac P md.macSalt pw md.iterations a) : verifyMac P md a pw = .err "ErrIncorrectPassword" :=
  (C34_verifyMac_iff P md a pw).2.2.1.mpr ⟨h1, h⟩

theorem verify_right (P : Prims) (md : MacData) (a pw : Bytes) (h1 : md.mac.algorithm.algorithm = oidSHA1)
    (h : md.mac.digest = mac P md.macSalt pw md.iterations a) : verifyMac P md a pw = .ok () :=
  (C34_verifyMac_iff P md a pw).1.mpr ⟨h1, h⟩

/-- The hashes of the MAC check. -/
theorem asked_checkMacQ (P : Prims) (md : MacData) (a pw : Bytes) (h1 : md.mac.algorithm.algorithm = oidSHA1) :
    (asked P.sha1 (checkMacQ md a pw)).length =
      if pw = [0, 0] ∧ md.mac.digest ≠ mac P md.macSalt pw md.iterations a then 2 * (rounds md.iterations + 2)
      else rounds md.iterations + 2 := by
  unfold checkMacQ
  rw [asked_attempt, List.length_append, asked_verifyMacQ P md a pw h1, run_verifyMacQ]
  by_cases h : md.mac.digest = mac P md.macSalt pw md.iterations a
  · rw [verify_right P md a pw h1 h, if_neg (fun hh => hh.2 h)]; rfl
  · rw [verify_wrong P md a pw h1 h]
    by_cases hp : pw = [0, 0]
    · rw [if_pos ⟨hp, h⟩]
      simp only [hp, and_self, if_true]
      rw [asked_bind, List.length_append, asked_verifyMacQ P md a [] h1]
      have : ∀ r : Res Unit, (then' r fun _ => asked P.sha1 (pure [] : Q Bytes)) = [] := by intro r; cases r <;> rfl
      rw [this]
      unfold rounds
      simp only [List.length_nil]; omega
    · rw [if_neg (fun hh => hp hh.1)]
      simp only [hp, and_false, if_false]; rfl

/-- What opening asks: the hashes of the MAC check, then those of the two safes. -/
theorem asked_open (P : Prims) {data d s : Bytes} {n : Int} {a : Bytes} (pw : Bytes) (h : PfxMac data d s n a) :
    ∃ md : MacData, md.mac.algorithm.algorithm = oidSHA1 ∧ md.mac.digest = d ∧ md.macSalt = s ∧ md.iterations = n ∧
      asked P.sha1 (getSafeContentsQ P data pw) = asked P.sha1 (checkMacQ md a pw) ++
        then' (checkMac P md a pw) (fun pw' => asked P.sha1 (do
          let authSafe ← Q.ret (unmarshalAll (seqOf P12.contentInfo) a)
          if authSafe.length ≠ 2 then .ret (.err "NotImplementedError")
          else do
            let bags ← collectBagsQ P pw' authSafe []
            pure (bags, pw'))) ∧
      ∀ e, checkMac P md a pw = .err e → getSafeContents P data pw = .err e := by
  obtain ⟨pfx, au, h1, hv, ht, h2, m1, rfl, rfl, rfl, rfl⟩ := (pfxMac_iff ..).mp h
  refine ⟨pfx.mac, m1, rfl, rfl, rfl, ?_, fun e he => ?_⟩
  rotate_left
  · unfold getSafeContents
    rw [h1, Res.bind_ok, if_neg (by rw [hv]; simp), if_neg (by rw [ht]; simp [oidDataContentType]), h2, Res.bind_ok,
      if_neg (by rw [m1]; simp), he]; rfl
  unfold getSafeContentsQ
  rw [asked_bind, run_ret, asked_ret, h1, then'_ok, List.nil_append, if_neg (by rw [hv]; simp),
    if_neg (by rw [ht]; simp [oidDataContentType]), asked_bind, run_ret, asked_ret, h2, then'_ok, List.nil_append,
    if_neg (by rw [m1]; simp), asked_bind, run_checkMacQ]

theorem decodeWith_ge {κ : Type} (P : Prims) (edPub : Bytes → Bytes) (parseCerts : Bytes → Res (List κ)) (keep : Bool)
    (data password pw : Bytes) (hpw : bmpString password = .ok pw) :
    (asked P.sha1 (getSafeContentsQ P data pw)).length ≤ (asked P.sha1 (decodeWithQ P edPub parseCerts keep data password)).length := by
  unfold decodeWithQ
  rw [asked_bind, run_ret, asked_ret, hpw, then'_ok, List.nil_append, asked_bind, List.length_append]
  omega

theorem toPEM_ge (P : Prims) (edPub : Bytes → Bytes) (data password pw : Bytes) (hpw : bmpString password = .ok pw) :
    (asked P.sha1 (getSafeContentsQ P data pw)).length ≤ (asked P.sha1 (toPEMQ P edPub data password)).length := by
  unfold toPEMQ
  rw [hpw]
  simp only []
  rw [asked_attempt, List.length_append]
  omega

/-- **C144** Opening a file costs at least the iteration count of its MAC, and two, in hashes, whatever the password. -/
theorem C144_mac {κ : Type} (P : Prims) (edPub : Bytes → Bytes) (parseCerts : Bytes → Res (List κ)) (keep : Bool)
    (password pw : Bytes) (hpw : BmpPassword password pw) (data d s : Bytes) (n : Int) (auth : Bytes) (h : PfxMac data d s n auth) :
    HashesAtLeast P (decodeWithQ P edPub parseCerts keep data password) (decodeWith P edPub parseCerts keep data password) (rounds n + 2) ∧
    HashesAtLeast P (toPEMQ P edPub data password) (toPEM P edPub data password) (rounds n + 2) := by
  have hb := (bmpPassword_iff _ _).mpr hpw
  have hg : rounds n + 2 ≤ (asked P.sha1 (getSafeContentsQ P data pw)).length := by
    obtain ⟨md, h1, rfl, rfl, rfl, h2, -⟩ := asked_open P pw h
    rw [h2, List.length_append, asked_checkMacQ P md auth pw h1]
    split <;> omega
  exact ⟨⟨_, le_trans hg (decodeWith_ge P edPub parseCerts keep data password pw hb), run_decodeWithQ .., rfl⟩,
    ⟨_, le_trans hg (toPEM_ge P edPub data password pw hb), run_toPEMQ .., rfl⟩⟩

theorem password_nil {password : Bytes} (h : BmpPassword password [0, 0]) : password = [] := by
  obtain ⟨hr, he⟩ := h
  have hl : (Utf.runes password) = [] := by
    have := congrArg List.length he
    rw [be16_append] at this
    cases hq : Utf.runes password with
    | nil => rfl
    | cons a l => rw [hq] at this; simp [be16] at this
  cases password with
  | nil => rfl
  | cons a l =>
    rw [Utf.runes, List.length_cons, Utf.runesAux] at hl
    split at hl <;> simp at hl

/-- **C144** A wrong password costs exactly that, a wrong empty password twice that: the file is not read further. -/
theorem C144_wrong {κ : Type} (P : Prims) (edPub : Bytes → Bytes) (parseCerts : Bytes → Res (List κ)) (keep : Bool)
    (password pw : Bytes) (hpw : BmpPassword password pw) (data d s : Bytes) (n : Int) (auth : Bytes) (h : PfxMac data d s n auth)
    (hw : d ≠ mac P s pw n auth) (hw' : password = [] → d ≠ mac P s [] n auth) :
    let cost := if password = [] then 2 * (rounds n + 2) else rounds n + 2
    Hashes P (decodeWithQ P edPub parseCerts keep data password) (decodeWith P edPub parseCerts keep data password) cost ∧
    Hashes P (toPEMQ P edPub data password) (toPEM P edPub data password) cost := by
  intro cost
  have hb := (bmpPassword_iff _ _).mpr hpw
  have hiff : pw = [0, 0] ↔ password = [] := by
    constructor
    · rintro rfl; exact password_nil hpw
    · rintro rfl; exact hpw.2
  obtain ⟨md, h1, rfl, rfl, rfl, h2, h3⟩ := asked_open P pw h
  have hck : ∃ e, checkMac P md auth pw = .err e := by
    unfold checkMac
    rw [verify_wrong P md auth pw h1 hw]
    simp only []
    split
    · rename_i hh
      rw [verify_wrong P md auth [] h1 (hw' (hiff.mp hh.2))]
      exact ⟨_, rfl⟩
    · exact ⟨_, rfl⟩
  obtain ⟨e, hck⟩ := hck
  have hg : (asked P.sha1 (getSafeContentsQ P data pw)).length = cost := by
    rw [h2, hck, List.length_append, asked_checkMacQ P md auth pw h1]
    show (if pw = [0, 0] ∧ _ then _ else _) + 0 = _
    by_cases hp : password = []
    · rw [if_pos ⟨hiff.mpr hp, hw⟩]; simp only [cost, if_pos hp, Nat.add_zero]
    · rw [if_neg (fun hh => hp (hiff.mp hh.1))]; simp only [cost, if_neg hp, Nat.add_zero]
  have hrun : Q.run P.sha1 (getSafeContentsQ P data pw) = .err e := by
    rw [run_getSafeContentsQ]; exact h3 e hck
  refine ⟨⟨run_decodeWithQ .., ?_⟩, ⟨run_toPEMQ .., ?_⟩⟩
  · unfold decodeWithQ
    rw [asked_bind, run_ret, asked_ret, hb, then'_ok, List.nil_append, asked_bind, hrun, List.length_append, hg]; rfl
  · unfold toPEMQ
    rw [hb]
    simp only []
    rw [asked_attempt, hrun, List.length_append, hg]; rfl

/-- **C144** Reading a password-encrypted part or key: the cipher costs the iteration count of its parameters three times for
Triple DES and twice for RC2, before the encrypted octets are looked at, even if there are none; with unknown algorithms or
unreadable parameters nothing is hashed. -/
theorem C144_cipher (P : Prims) (alg : AlgId) (data pw : Bytes) :
    (∀ salt n, alg.algorithm = [1, 2, 840, 113549, 1, 12, 1, 3] → PbeParDer salt n alg.parameters.full →
      Hashes P (pbDecryptQ P alg data pw) (pbDecrypt P alg data pw) (3 * rounds n) ∧
      Hashes P (pbEncryptQ P alg data pw) (pbEncrypt P alg data pw) (3 * rounds n)) ∧
    (∀ salt n, alg.algorithm = [1, 2, 840, 113549, 1, 12, 1, 6] → PbeParDer salt n alg.parameters.full →
      Hashes P (pbDecryptQ P alg data pw) (pbDecrypt P alg data pw) (2 * rounds n) ∧
      Hashes P (pbEncryptQ P alg data pw) (pbEncrypt P alg data pw) (2 * rounds n)) ∧
    ((alg.algorithm ≠ [1, 2, 840, 113549, 1, 12, 1, 3] ∧ alg.algorithm ≠ [1, 2, 840, 113549, 1, 12, 1, 6]) ∨
      (∀ salt n, ¬ PbeParDer salt n alg.parameters.full) →
      Hashes P (pbDecryptQ P alg data pw) (pbDecrypt P alg data pw) 0 ∧
      Hashes P (pbEncryptQ P alg data pw) (pbEncrypt P alg data pw) 0) := by
  refine ⟨fun salt n h1 h2 => ?_, fun salt n h1 h2 => ?_, fun h => ?_⟩
  · have := asked_pbeCipherForQ P .tdes alg pw ⟨salt, n⟩ (by rw [h1]; rfl) ((pbePar_iff _ ⟨salt, n⟩).mpr h2)
    exact ⟨⟨run_pbDecryptQ .., by rw [asked_pbDecryptQ]; exact this⟩, ⟨run_pbEncryptQ .., by rw [asked_pbEncryptQ]; exact this⟩⟩
  · have := asked_pbeCipherForQ P .rc2 alg pw ⟨salt, n⟩ (by rw [h1]; rfl) ((pbePar_iff _ ⟨salt, n⟩).mpr h2)
    exact ⟨⟨run_pbDecryptQ .., by rw [asked_pbDecryptQ]; exact this⟩, ⟨run_pbEncryptQ .., by rw [asked_pbEncryptQ]; exact this⟩⟩
  · have := asked_pbeCipherForQ_err P alg pw (by
      rintro ⟨⟨t, ht⟩, ps, hps⟩
      rcases h with ⟨ha, hb⟩ | h
      · unfold cipherTypeFor at ht
        rw [if_neg (show ¬ alg.algorithm = oid3DES from ha), if_neg (show ¬ alg.algorithm = oidRC2_40 from hb)] at ht
        cases ht
      · exact h _ _ ((pbePar_iff _ ps).mp hps))
    exact ⟨⟨run_pbDecryptQ .., by rw [asked_pbDecryptQ, this]; rfl⟩, ⟨run_pbEncryptQ .., by rw [asked_pbEncryptQ, this]; rfl⟩⟩

/-- **C144** Making a file costs 10244 hashes: 3 times and 2 times 2048 for the ciphers, 3 for the MAC, 1 for the key id. -/
theorem C144_encode (P : Prims) (key : PrivKey) (leaf : Bytes) (cas : List Bytes) (password : Bytes) (rnd : Reader) (out : Bytes × Reader)
    (h : encode P key leaf cas password rnd = .ok out) :
    Hashes P (encodeQ P key leaf cas password rnd) (.ok out) 10244 := by
  refine ⟨by rw [run_encodeQ, h], ?_⟩
  have h0 := h
  unfold encode at h
  simp only [Res.bind_eq_ok, Res.pure_eq, Prod.exists, Res.ok.injEq] at h
  obtain ⟨pw, hpw, attr, hattr, lb, hlb, cbs, hcbs, kv, rnd1, hkv, safe0, rnd2, hs0, safe1, rnd3, hs1, auth, hauth,
    salt, rnd4, hsalt, md, hmd, content, hcontent, pfx', hpfx, rfl⟩ := h
  have e1 : asked P.sha1 (localKeyIdAttrQ leaf) = [leaf] := by
    unfold localKeyIdAttrQ
    rw [asked_bind, asked_hashQ, run_hashQ, then'_ok, asked_bind, asked_ret, run_ret]
    cases marshalR octets (P.sha1 leaf) <;> rfl
  have e2 : (asked P.sha1 (encodePkcs8ShroudedKeyBagQ P key pw rnd)).length = 6144 := by
    unfold encodePkcs8ShroudedKeyBag at hkv
    simp only [Res.bind_eq_ok, Res.pure_eq, Prod.exists, Res.ok.injEq, Prod.mk.injEq] at hkv
    obtain ⟨kb, hkb, salt, rnd1, hsalt, pb, hpb, data, hdata, d', hd', rfl, rfl⟩ := hkv
    obtain ⟨hr1, _, hr2, hs8⟩ := readSalt_ok hsalt
    unfold encodePkcs8ShroudedKeyBagQ
    simp only [asked_bind, asked_ret, run_ret, hkb, hsalt, hpb, run_pbEncryptQ, hdata, hd', then'_ok, List.nil_append, asked_pure,
      List.append_nil, asked_pbEncryptQ]
    rw [cipher2048 P .tdes _ pw hs8 rfl (marshalR_ok hpb) rfl]; rfl
  have e3 : (asked P.sha1 (makeSafeContentsQ P (lb :: cbs) (some pw) rnd1)).length = 4096 := by
    unfold makeSafeContents at hs0
    simp only [Res.bind_eq_ok, Res.pure_eq, Prod.exists, Res.ok.injEq, Prod.mk.injEq] at hs0
    obtain ⟨data, hdata, salt, rnd1, hsalt, pb, hpb, enc, henc, c, hc, rfl, rfl⟩ := hs0
    obtain ⟨_, _, _, hs8⟩ := readSalt_ok hsalt
    unfold makeSafeContentsQ
    simp only [asked_bind, asked_ret, run_ret, hsalt, hpb, run_pbEncryptQ, hdata, henc, hc, then'_ok, List.nil_append, asked_pure,
      List.append_nil, asked_pbEncryptQ]
    rw [cipher2048 P .rc2 _ pw hs8 rfl (marshalR_ok hpb) rfl]; rfl
  have e4 : asked P.sha1 (makeSafeContentsQ P [⟨oidPKCS8ShroundedKeyBag, ctx0 kv, some [attr]⟩] none rnd2) = [] := by
    unfold makeSafeContentsQ
    rw [asked_bind, asked_ret, run_ret]
    cases marshalR (seqOf safeBag) [⟨oidPKCS8ShroundedKeyBag, ctx0 kv, some [attr]⟩] with
    | ok x => rw [then'_ok]; simp only [asked_bind, asked_ret, run_ret]; cases marshalR octets x <;> rfl
    | err e => rfl
    | panic => rfl
  have e5 := asked_computeMacQ P ⟨⟨⟨oidSHA1, {}⟩, []⟩, salt, 1⟩ auth pw rfl
  unfold encodeQ
  simp only [asked_bind, asked_ret, run_ret, hpw, run_localKeyIdAttrQ, hattr, hlb, hcbs, run_encodeKeyQ, hkv, run_makeSafeContentsQ,
    hs0, hs1, hauth, hsalt, run_computeMacQ, hmd, hcontent, hpfx, then'_ok, List.nil_append, List.append_nil, asked_pure,
    List.length_append, e1, e2, e3, e4, e5, List.length_nil, List.length_cons]
  rfl

theorem asked_certBags {κ : Type} (P : Prims) (edPub : Bytes → Bytes) (parseCerts : Bytes → Res (List κ)) (keep : Bool)
    (pw : Bytes) {raws : List Bytes} {bs : List SafeBag} (hb : List.Forall₂ IsCertBag raws bs) (rest : List SafeBag)
    (hc : ∀ raw ∈ raws, ∃ c, parseCerts raw = .ok [c]) (s : DecState κ) :
    ∃ s', asked P.sha1 (decodeBagsQ P edPub parseCerts keep pw (bs ++ rest) s) =
      asked P.sha1 (decodeBagsQ P edPub parseCerts keep pw rest s') := by
  induction hb generalizing s with
  | nil => exact ⟨s, rfl⟩
  | @cons raw b raws bs h1 _ ih =>
    obtain ⟨c, hc1⟩ := hc raw (by simp)
    obtain ⟨s', hs⟩ := ih (fun r hr => hc r (by simp [hr]))
      { s with certs := if keep then s.certs ++ [c] else [c], dup := if s.certs.length ≠ 0 then true else s.dup }
    refine ⟨s', ?_⟩
    rw [List.cons_append, decodeBagsQ, asked_bind, run_decodeBagQ, decodeBag_cert P edPub parseCerts keep pw h1 hc1, then'_ok, hs]
    have : asked P.sha1 (decodeBagQ P edPub parseCerts keep pw b s) = [] := by
      unfold decodeBagQ; rw [if_pos h1.1]; rfl
    rw [this, List.nil_append]

theorem asked_keyBag {κ : Type} (P : Prims) (edPub : Bytes → Bytes) (parseCerts : Bytes → Res (List κ)) (keep : Bool)
    (pw : Bytes) (b : SafeBag) (hb : b.id = oidPKCS8ShroundedKeyBag) (s : DecState κ) :
    asked P.sha1 (decodeBagsQ P edPub parseCerts keep pw [b] s) = asked P.sha1 (decodePkcs8ShroudedKeyBagQ P edPub b.value.bytes pw) := by
  rw [decodeBagsQ, asked_bind]
  have e1 : asked P.sha1 (decodeBagQ P edPub parseCerts keep pw b s) = asked P.sha1 (decodePkcs8ShroudedKeyBagQ P edPub b.value.bytes pw) := by
    unfold decodeBagQ
    rw [if_neg (by rw [hb]; decide), if_pos hb, asked_bind]
    cases Q.run P.sha1 (decodePkcs8ShroudedKeyBagQ P edPub b.value.bytes pw) <;> simp [then']
  rw [e1]
  have : ∀ r : Res (DecState κ), (then' r fun a => asked P.sha1 (decodeBagsQ P edPub parseCerts keep pw [] a)) = [] := by
    intro r; cases r <;> rfl
  rw [this, List.append_nil]

/-- What opening a file of `Encode` with its password asks. -/
theorem asked_encoded (P : Prims) (edPub : Bytes → Bytes) {leaf : Bytes} {cas : List Bytes} {pfx pw : Bytes} {lb : SafeBag}
    {cbs : List SafeBag} {kb : SafeBag} (h : EncodedParts P edPub leaf cas pfx pw lb cbs kb) :
    (asked P.sha1 (getSafeContentsQ P pfx pw)).length = 4099 ∧
    Q.run P.sha1 (getSafeContentsQ P pfx pw) = .ok (lb :: cbs ++ [kb], pw) := by
  obtain ⟨auth, content, dg, salt, ci0, ci1, data0, data1, hu, hraw, hv, ha, g2, g5, k2, k5, g6, k6⟩ := h.parts
  have hck : checkMac P ⟨⟨⟨oidSHA1, {}⟩, dg⟩, salt, 1⟩ auth pw = .ok pw := by
    unfold checkMac; rw [hv]
  have hrun : Q.run P.sha1 (getSafeContentsQ P pfx pw) = .ok (lb :: cbs ++ [kb], pw) := by
    rw [run_getSafeContentsQ]
    unfold getSafeContents
    rw [hu, Res.bind_ok]
    simp only [ne_eq, not_true_eq_false, if_false]
    have hcont : (rawOf 2 true 0 content).bytes = content := rfl
    have hauthb : (rawOf 0 false 4 auth).bytes = auth := rfl
    rw [hcont, hraw, Res.bind_ok, hauthb, if_neg (by decide), hck, Res.bind_ok, ha, Res.bind_ok, if_neg (by simp)]
    simp only [collectBags, g2, g5, k2, k5, Res.bind_ok, List.nil_append, Res.pure_eq]
  refine ⟨?_, hrun⟩
  have ec : (asked P.sha1 (checkMacQ ⟨⟨⟨oidSHA1, {}⟩, dg⟩, salt, 1⟩ auth pw)).length = 3 := by
    rw [asked_checkMacQ P _ auth pw rfl, if_neg]
    · rfl
    · rintro ⟨-, hh⟩
      exact hh ((C34_verifyMac_iff P _ auth pw).1.mp hv).2
  have eb : (asked P.sha1 (collectBagsQ P pw [ci0, ci1] [])).length = 4096 := by
    simp only [collectBagsQ, asked_bind, run_safeDataQ, run_ret, asked_ret, asked_pure, g2, g5, k2, k5, then'_ok, List.length_append, g6, k6,
      List.length_nil]
  unfold getSafeContentsQ
  rw [asked_bind, run_ret, asked_ret, hu, then'_ok, List.nil_append]
  simp only [ne_eq, not_true_eq_false, if_false]
  have hcont : (rawOf 2 true 0 content).bytes = content := rfl
  have hauthb : (rawOf 0 false 4 auth).bytes = auth := rfl
  rw [hcont, asked_bind, run_ret, asked_ret, hraw, then'_ok, List.nil_append, hauthb, if_neg (by decide), asked_bind, run_checkMacQ, hck,
    then'_ok, asked_bind, run_ret, asked_ret, ha, then'_ok, List.nil_append, if_neg (by simp), asked_bind, List.length_append,
    List.length_append, ec, eb, run_collectBagsQ]
  cases collectBags P pw [ci0, ci1] [] <;> rfl

/-- **C144** Opening a file made by `Encode` with its password costs 10243 hashes (the certificates being readable). -/
theorem C144_open {κ : Type} (P : Prims) (edPub : Bytes → Bytes) (parseCerts : Bytes → Res (List κ)) (keep : Bool)
    (key : PrivKey) (leaf : Bytes) (cas : List Bytes) (password : Bytes) (rnd rnd' : Reader) (pfx : Bytes)
    (h : encode P key leaf cas password rnd = .ok (pfx, rnd')) (hlen : pfx.length < 2 ^ 31)
    (hc : ∀ raw ∈ leaf :: cas, ∃ c, parseCerts raw = .ok [c]) :
    Hashes P (decodeWithQ P edPub parseCerts keep pfx password) (decodeWith P edPub parseCerts keep pfx password) 10243 := by
  refine ⟨run_decodeWithQ .., ?_⟩
  obtain ⟨pw, lb, cbs, kb, hpw, hp⟩ := encode_parts P edPub h hlen
  obtain ⟨e1, e2⟩ := asked_encoded P edPub hp
  unfold decodeWithQ
  rw [asked_bind, run_ret, asked_ret, hpw, then'_ok, List.nil_append, asked_bind, List.length_append, e1, e2, then'_ok]
  simp only []
  rw [asked_bind, List.length_append]
  obtain ⟨s', hs⟩ := asked_certBags P edPub parseCerts keep pw (.cons hp.leaf hp.cas) [kb] hc {}
  rw [hs, asked_keyBag P edPub parseCerts keep pw kb hp.keyId, hp.key]
  rw [then'_ret P.sha1 (Q.run P.sha1 (decodeBagsQ P edPub parseCerts keep pw (lb :: cbs ++ [kb]) {})) finish]; rfl

/-- **C144** But to find out that a password is not the one of a file made by `Encode` takes three hashes only, however many
the ciphers would take (for the empty password six): the MAC is made with the iteration count 1. -/
theorem C144_guess {κ : Type} (P : Prims) (edPub : Bytes → Bytes) (parseCerts : Bytes → Res (List κ)) (keep : Bool)
    (key : PrivKey) (leaf : Bytes) (cas : List Bytes) (password guess : Bytes) (rnd rnd' : Reader) (pfx gpw : Bytes)
    (h : encode P key leaf cas password rnd = .ok (pfx, rnd')) (hlen : pfx.length < 2 ^ 31) (hg : BmpPassword guess gpw) :
    ∃ d s auth, PfxMac pfx d s 1 auth ∧
      (d ≠ mac P s gpw 1 auth → (guess = [] → d ≠ mac P s [] 1 auth) →
        Hashes P (decodeWithQ P edPub parseCerts keep pfx guess) (decodeWith P edPub parseCerts keep pfx guess)
          (if guess = [] then 6 else 3)) := by
  obtain ⟨pw, lb, cbs, kb, hpw, hp⟩ := encode_parts P edPub h hlen
  obtain ⟨auth, content, dg, salt, ci0, ci1, data0, data1, hu, hraw, -⟩ := hp.parts
  have hm : PfxMac pfx dg salt 1 auth := (pfxMac_iff ..).mpr ⟨_, _, hu, rfl, rfl, hraw, rfl, rfl, rfl, rfl, rfl⟩
  exact ⟨dg, salt, auth, hm, fun hw hw' => (C144_wrong P edPub parseCerts keep guess gpw hg _ _ _ _ _ hm hw hw').1⟩

theorem el_of_length (t : UInt8) {b : Bytes} {k : Nat} (hk : b.length = k) (h : k < 128) : El t b (t :: UInt8.ofNat k :: b) := by
  subst hk; exact el_short t h

theorem demanding_pfx {b : Bytes} {n : Int} (hb : DerSpec.IsInt b n) (h1 : -2 ^ 63 ≤ n) (h2 : n < 2 ^ 63) :
    PfxMac (demanding b) [] [] n [] ∧ (demanding b).length ≤ 49 := by
  have hl : b.length ≤ 8 := by
    rw [(DerSpec.isInt_iff _ _).mp hb]; exact encInt_length_int64 n h1 h2
  have hne : b ≠ [] := hb.1
  refine ⟨⟨[0x02, 0x01, 0x03], [0x30, 0x0f, 0x06, 0x09, 0x2a, 0x86, 0x48, 0x86, 0xf7, 0x0d, 0x01, 0x07, 0x01, 0xa0, 0x02, 0x04, 0x00],
    0x30 :: UInt8.ofNat (b.length + 17) :: ([0x30, 0x0b, 0x30, 0x07, 0x06, 0x05, 0x2b, 0x0e, 0x03, 0x02, 0x1a, 0x04, 0x00] ++
        ([0x04, 0x00] ++ (0x02 :: UInt8.ofNat b.length :: b))), [], [0x04, 0x00], ?_, ?_, ?_, ?_, ?_⟩, ?_⟩
  · rw [List.append_nil]
    exact el_of_length 0x30 (by simp) (by omega)
  · exact ⟨⟨[3], el_short 2 (by decide), (DerSpec.isInt_iff _ _).mpr (by decide)⟩, by decide, by decide⟩
  · exact ⟨[0x06, 0x09, 0x2a, 0x86, 0x48, 0x86, 0xf7, 0x0d, 0x01, 0x07, 0x01], [0xa0, 0x02, 0x04, 0x00], [],
      el_short 0x30 (b := [0x06, 0x09, 0x2a, 0x86, 0x48, 0x86, 0xf7, 0x0d, 0x01, 0x07, 0x01, 0xa0, 0x02, 0x04, 0x00]) (by decide),
      oidEl_of (b := [0x2a, 0x86, 0x48, 0x86, 0xf7, 0x0d, 0x01, 0x07, 0x01]) rfl (by decide) (by decide +kernel),
      el_short 0xa0 (b := [0x04, 0x00]) (by decide)⟩
  · exact ⟨[0x04, 0x00], rfl, 0x04, [], [0x00], rfl, Or.inl ⟨by decide, rfl⟩, Or.inl ⟨by decide, 0, rfl, rfl⟩, by decide⟩
  · refine ⟨[0x30, 0x0b, 0x30, 0x07, 0x06, 0x05, 0x2b, 0x0e, 0x03, 0x02, 0x1a, 0x04, 0x00], [0x04, 0x00], 0x02 :: UInt8.ofNat b.length :: b,
      [0x30, 0x07, 0x06, 0x05, 0x2b, 0x0e, 0x03, 0x02, 0x1a], [0x04, 0x00], [], [], [], ?_, ?_, ?_, ?_, ?_, Or.inl ⟨_, (List.append_nil _).symm, ⟨b, ?_, hb⟩, h1, h2⟩⟩
    · exact el_of_length 0x30 (by simp) (by omega)
    · exact el_short 0x30 (b := [0x30, 0x07, 0x06, 0x05, 0x2b, 0x0e, 0x03, 0x02, 0x1a, 0x04, 0x00]) (by decide)
    · exact ⟨[0x06, 0x05, 0x2b, 0x0e, 0x03, 0x02, 0x1a], [], el_short 0x30 (b := [0x06, 0x05, 0x2b, 0x0e, 0x03, 0x02, 0x1a]) (by decide),
        oidEl_of (b := [0x2b, 0x0e, 0x03, 0x02, 0x1a]) rfl (by decide) (by decide +kernel), Or.inl ⟨rfl, rfl⟩⟩
    · exact el_short 4 (b := []) (by decide)
    · exact el_short 4 (b := []) (by decide)
    · exact el_short 2 (by omega)
  · simp [demanding]; omega

/-- **C144** Nothing relates the work to the size of the file: for every count below 2^63 there is a file of at most 49 octets
that makes `DecodeAll`, `Decode` and `ToPEM` hash more often than that, whatever the password. -/
theorem C144_demand (n : Int) (h1 : 1 ≤ n) (h2 : n < 2 ^ 63) : ∃ file : Bytes, file.length ≤ 49 ∧
    ∀ {κ : Type} (P : Prims) (edPub : Bytes → Bytes) (parseCerts : Bytes → Res (List κ)) (keep : Bool) (password pw : Bytes),
      BmpPassword password pw →
      HashesAtLeast P (decodeWithQ P edPub parseCerts keep file password) (decodeWith P edPub parseCerts keep file password) (n.toNat + 2) ∧
      HashesAtLeast P (toPEMQ P edPub file password) (toPEM P edPub file password) (n.toNat + 2) := by
  have hi := (DerSpec.isInt_iff (Der.encInt n) n).mpr rfl
  obtain ⟨hp, hl⟩ := demanding_pfx hi (by omega) h2
  refine ⟨demanding (Der.encInt n), hl, fun {κ} P edPub parseCerts keep password pw hpw => ?_⟩
  have hr : rounds n = n.toNat := by unfold rounds; omega
  have := C144_mac P edPub parseCerts keep password pw hpw _ _ _ _ _ hp
  rw [hr] at this
  exact this

/-- The 49 octets of the worst file: with the password "A" more than 2^63 hashes are made. -/
theorem C144_demand_case : demanding [0x7f, 0xff, 0xff, 0xff, 0xff, 0xff, 0xff, 0xff] =
      [0x30, 0x2f, 0x02, 0x01, 0x03, 0x30, 0x0f, 0x06, 0x09, 0x2a, 0x86, 0x48, 0x86, 0xf7, 0x0d, 0x01, 0x07, 0x01, 0xa0, 0x02, 0x04,
       0x00, 0x30, 0x19, 0x30, 0x0b, 0x30, 0x07, 0x06, 0x05, 0x2b, 0x0e, 0x03, 0x02, 0x1a, 0x04, 0x00, 0x04, 0x00, 0x02, 0x08, 0x7f,
       0xff, 0xff, 0xff, 0xff, 0xff, 0xff, 0xff] ∧
    BmpPassword [0x41] [0, 0x41, 0, 0] ∧
    PfxMac (demanding [0x7f, 0xff, 0xff, 0xff, 0xff, 0xff, 0xff, 0xff]) [] [] 9223372036854775807 [] := by
  refine ⟨by decide, ?_, (demanding_pfx ((DerSpec.isInt_iff _ _).mpr (by decide +kernel)) (by decide) (by decide)).1⟩
  exact (bmpPassword_iff _ _).mp (by decide +kernel)

end MCrypto.Props

namespace MCrypto.Props.P12Ex
open MCrypto Asn1 P12 P12Spec MCrypto.X509 MCrypto.X509Spec MCrypto.Props

/-- As `toy`, with a hash that depends on all octets. -/
def toySum : Prims where
  sha1 m := List.replicate 20 (m.foldl (· + ·) 1)
  tdesEnc _ b := b
  tdesDec _ b := b
  sha1_length := by intro m; simp
  tdesEnc_length := by intro _ _ _ h; exact h
  tdesDec_length := by intro _ _ _ h; exact h
  tdes_dec_enc := by intro _ _ _ _; rfl
  tdes_enc_dec := by intro _ _ _ _; rfl

def pfxSum : Bytes := match encode toySum (.sm2 key2) [7] [[8], [9]] [0x41] rnd with | .ok (b, _) => b | _ => []

theorem pfxSum_length : pfxSum.length = 579 := by decide +kernel
theorem pfxSum_eq : ∃ r, encode toySum (.sm2 key2) [7] [[8], [9]] [0x41] rnd = .ok (pfxSum, r) := by
  have hl := pfxSum_length
  unfold pfxSum at hl ⊢
  cases h : encode toySum (.sm2 key2) [7] [[8], [9]] [0x41] rnd with
  | ok v => exact ⟨v.2, rfl⟩
  | err e => rw [h] at hl; simp at hl
  | panic => rw [h] at hl; simp at hl

/-- Only the MAC check of the file. -/
def macOutcome (P : Prims) (data pw : Bytes) : Option (Res Unit) :=
  match unmarshalAll pfxPdu data with
  | .ok pfx =>
    match unmarshalAllRaw pfx.authSafe.content.bytes with
    | .ok au => some (verifyMac P pfx.mac au.bytes pw)
    | _ => none
  | _ => none

theorem pfxSum_wrong : macOutcome toySum pfxSum [0, 0x42, 0, 0] = some (.err "ErrIncorrectPassword") := by decide +kernel

/-- A file under the password "A": making it takes 10244 hashes, opening it 10243, refusing the password "B" 3. -/
theorem C144_case : (∃ r, Hashes toySum (encodeQ toySum (.sm2 key2) [7] [[8], [9]] [0x41] rnd) (.ok (pfxSum, r)) 10244) ∧
    Hashes toySum (decodeWithQ toySum id parse1 true pfxSum [0x41]) (decodeWith toySum id parse1 true pfxSum [0x41]) 10243 ∧
    Hashes toySum (decodeWithQ toySum id parse1 true pfxSum [0x42]) (decodeWith toySum id parse1 true pfxSum [0x42]) 3 := by
  obtain ⟨r, hr⟩ := pfxSum_eq
  have hlen : pfxSum.length < 2 ^ 31 := by rw [pfxSum_length]; decide
  have hB : BmpPassword [0x42] [0, 0x42, 0, 0] := (bmpPassword_iff _ _).mp (by decide +kernel)
  refine ⟨⟨r, C144_encode _ _ _ _ _ _ _ hr⟩, C144_open _ _ _ _ _ _ _ _ _ _ _ hr hlen ?_, ?_⟩
  · intro raw hraw
    simp only [List.mem_cons, List.not_mem_nil, or_false] at hraw
    rcases hraw with rfl | rfl | rfl <;> exact ⟨_, rfl⟩
  · obtain ⟨d, s, auth, hm, hh⟩ := C144_guess toySum id parse1 true _ _ _ _ [0x42] _ _ _ _ hr hlen hB
    refine hh (fun hd => ?_) (fun h => by cases h)
    have hw := pfxSum_wrong
    obtain ⟨pfx, au, g1, hv, ht, g2, m1, m2, m3, m4, m5⟩ := (pfxMac_iff ..).mp hm
    unfold macOutcome at hw
    rw [g1] at hw
    simp only [] at hw
    rw [g2] at hw
    simp only [Option.some.injEq] at hw
    have := ((C34_verifyMac_iff toySum pfx.mac au.bytes [0, 0x42, 0, 0]).2.2.1.mp hw).2
    rw [m2, m3, m4, m5] at this
    exact this hd

end MCrypto.Props.P12Ex
