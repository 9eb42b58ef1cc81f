import Verif.Sm2.TraceLemmas
import Verif.Props.Sm2Leak
import Verif.Props.Sm2Tamper
/-
C146: which curve operations the functions of package sm2 make, and what they tell (sm2.go:94-107, 244-416, 453-493; model Verif/Sm2/Trace.lean,
observer Verif/Sm2/TraceSpec.lean).
-/
namespace MCrypto.Props
open MCrypto MCrypto.Sm2 MCrypto.Sm2Spec MCrypto.Curve MCrypto.Sm2Trace

/-- **C146** The functions with their operations return what the functions of the model return. -/
theorem C146_same_results (rd : Reader) (priv : PrivateKey) (pub : PublicKey) (digest msg data tail : Bytes) (r s : Int) :
    (generateKeyT rd).2 = generateKey rd ∧ (signDigestRST rd priv digest).2 = signDigestRS rd priv digest ∧
    (verifyDigestRST pub digest r s).2 = verifyDigestRS pub digest r s ∧ (encrytT rd pub msg).2 = encryt rd pub msg ∧
    (decrytT priv data tail).2 = decryt priv data tail :=
  ⟨generateKeyT_snd rd, signDigestRST_snd rd priv digest, verifyDigestRST_snd pub digest r s, encrytT_snd pub msg _ rd (Nat.le_refl _),
    decrytT_snd priv data tail⟩

/-- **C146** The operations of a multiplication depend on the scalar alone, and they show it. -/
theorem C146_mult (p p' : Nat) (pt pt' : Pt) (k : Bytes) :
    (scalarMultT p pt k).1 = (scalarMultT p' pt' k).1 ∧ seen (scalarMultT p pt k).1 = [ofBytes k] := by
  refine ⟨?_, (shows_mult p pt k).seen⟩
  rw [scalarMultT_fst, scalarMultT_fst]

theorem opsOf_count (l : List Bool) : (opsOf l).count .dbl = l.length ∧ (opsOf l).count .add = l.count true := by
  induction l with
  | nil => exact ⟨rfl, rfl⟩
  | cons b l ih =>
    have : opsOf (b :: l) = (if b then [.dbl, .add] else [.dbl]) ++ opsOf l := rfl
    rw [this, List.count_append, List.count_append, ih.1, ih.2]
    cases b
    · exact ⟨by simp [Nat.add_comm], by simp⟩
    · exact ⟨by simp [Nat.add_comm], by simp [Nat.add_comm]⟩

theorem bitsOf_length (k : Bytes) : (bitsOf k).length = 8 * k.length := by
  induction k with
  | nil => rfl
  | cons c k ih =>
    unfold bitsOf at ih ⊢
    rw [List.flatMap_cons, List.length_append, ih, List.length_map, List.length_range, List.length_cons]
    omega

/-- **C146** The number of operations alone shows how many octets the scalar has: a multiplication by `k` makes eight doublings for each octet
of the shortest representation of `k`, and no more additions than that. -/
theorem C146_cost (p : Nat) (pt : Pt) (k : Nat) : (scalarMultT p pt (toBytes k)).1.count .dbl = 8 * byteLen k ∧
    (scalarMultT p pt (toBytes k)).1.count .add ≤ 8 * byteLen k ∧ (scalarMultT p pt (toBytes k)).1.count .affine = 1 := by
  have hb := bitsOf_length (toBytes k)
  rw [toBytes_length] at hb
  rw [scalarMultT_fst, List.count_append, List.count_append, List.count_append, (opsOf_count _).1, (opsOf_count _).2, hb]
  refine ⟨rfl, ?_, ?_⟩
  · have : (bitsOf (toBytes k)).count true ≤ (bitsOf (toBytes k)).length := List.count_le_length
    rw [hb] at this
    exact this
  · have : (opsOf (bitsOf (toBytes k))).count .affine = 0 := by
      rw [List.count_eq_zero]
      intro hm
      unfold opsOf at hm
      rw [List.mem_flatMap] at hm
      obtain ⟨b, -, hb⟩ := hm
      cases b <;> simp at hb
    rw [this]
    rfl

/-- **C146** Whoever sees the operations of a signature sees every nonce that was tried, in order. -/
theorem C146_sign (rd rd' : Reader) (priv : PrivateKey) (digest : Bytes) (r s : Int) (h : (signDigestRST rd priv digest).2 = .ok (r, s, rd')) :
    ∃ j, 40 * (j + 1) ≤ rd.length ∧ rd' = rd.drop (40 * (j + 1)) ∧ seen (signDigestRST rd priv digest).1 = (List.range (j + 1)).map (nonce rd) := by
  have hr := signOuterT_reads priv.d (ofBytes digest) _ rd (Nat.le_refl _)
  unfold signDigestRST at h ⊢
  split at h <;> rename_i h1 <;> try cases h
  rw [h1] at hr
  obtain ⟨i, h2, h3, h4, h5⟩ := hr
  obtain ⟨j, rfl⟩ := Nat.exists_eq_succ_of_ne_zero (Nat.ne_of_gt h4)
  exact ⟨j, h3, h5, h2.seen⟩

/-- **C146** A signature together with the operations that made it give the private key away: the last number seen is the nonce. -/
theorem C146_sign_key (rd rd' : Reader) (priv : PrivateKey) (digest : Bytes) (r s : Int) (h : (signDigestRST rd priv digest).2 = .ok (r, s, rd')) :
    ∃ k, (seen (signDigestRST rd priv digest).1).getLast? = some k ∧ ((r + s : Int) : ZMod N) ≠ 0 ∧
      (priv.d : ZMod N) = ((k : ZMod N) - (s : ZMod N)) / ((r + s : Int) : ZMod N) := by
  obtain ⟨j, h1, rfl, h3⟩ := C146_sign rd rd' priv digest r s h
  rw [signDigestRST_snd] at h
  obtain ⟨h4, h5⟩ := C101_known_randomness rd priv digest r s j h1 h
  refine ⟨nonce rd j, ?_, h4, h5⟩
  rw [h3, List.range_succ, List.map_append, List.map_singleton, List.getLast?_append]
  rfl

/-- **C146** A signature that fails because the random source has ended shows the nonces too. -/
theorem C146_sign_fails (rd : Reader) (priv : PrivateKey) (digest : Bytes) (e : String) (h : (signDigestRST rd priv digest).2 = .err e) :
    seen (signDigestRST rd priv digest).1 = (List.range (rd.length / 40)).map (nonce rd) := by
  have hr := signOuterT_reads priv.d (ofBytes digest) _ rd (Nat.le_refl _)
  unfold signDigestRST at h ⊢
  split at h <;> rename_i h1 <;> try cases h
  rw [h1] at hr
  obtain ⟨i, h2, h3, h4⟩ := hr
  have h4 : rd.length < 40 * (i + 1) := h4
  have : rd.length / 40 = i := by omega
  rw [this]
  exact h2.seen

/-- **C146** Whoever sees the operations of `Encryt` sees every nonce that was tried, twice. -/
theorem C146_encrypt (rd rd' : Reader) (pub : PublicKey) (msg ct : Bytes) (h : (encrytT rd pub msg).2 = .ok (ct, rd')) :
    ∃ j, 40 * (j + 1) ≤ rd.length ∧ rd' = rd.drop (40 * (j + 1)) ∧
      seen (encrytT rd pub msg).1 = ((List.range (j + 1)).map (nonce rd)).flatMap fun k => [k, k] := by
  obtain ⟨i, h2, h3, h4⟩ := encrytT_reads pub msg _ rd (Nat.le_refl _)
  rw [h] at h4
  obtain ⟨h4, h5⟩ := h4
  obtain ⟨j, rfl⟩ := Nat.exists_eq_succ_of_ne_zero (Nat.ne_of_gt h4)
  exact ⟨j, h3, h5, h2.seen⟩

/-- **C146** A ciphertext together with the operations that made it give the message away, without the private key. -/
theorem C146_encrypt_message (rd rd' : Reader) (pub : PublicKey) (Q : EP) (hQ : Represents pub Q) (hQ0 : Q ≠ 0) (msg ct : Bytes)
    (h : (encrytT rd pub msg).2 = .ok (ct, rd')) (hl : msg.length ≤ 32) :
    ∃ k x2 y2, (seen (encrytT rd pub msg).1).getLast? = some k ∧ coords (k • Q) = some (x2, y2) ∧
      msg = xorBytes (Sm2Spec.kdf (ct.length - 97) x2 y2) (ct.drop 97) := by
  obtain ⟨j, h1, rfl, h3⟩ := C146_encrypt rd rd' pub msg ct h
  rw [encrytT_snd pub msg _ rd (Nat.le_refl _)] at h
  obtain ⟨j', x2, y2, h7, h4, h5, h6⟩ := C124_known_randomness rd _ pub Q hQ msg ct h hl hQ0
  have hj : j' = j := by
    have := congrArg List.length h4
    simp only [List.length_drop] at this
    omega
  subst hj
  refine ⟨nonce rd j', x2, y2, ?_, h5, h6⟩
  rw [h3, List.range_succ, List.map_append, List.map_singleton, List.flatMap_append, List.getLast?_append]
  rfl

theorem onCurve_of_coords {Q : EP} {x y : Nat} (h : coords Q = some (x, y)) : isOnCurve P B (x, y) = true := by
  rw [isOnCurve_rep]
  obtain ⟨d, -, rfl⟩ := exists_dlog Q
  have hr := rep_base d
  rw [coords_rep hr] at h
  split at h
  · cases h
  · rename_i hne
    have h := Option.some.inj h
    refine ⟨_, ?_, h ▸ hr⟩
    intro h0
    exact hne ((Rep.zero_iff bF_ne hr).mpr h0)

/-- **C146** Whoever sees the operations of one call of `Decryt` with any octets that begin with a point on the curve, sees the private key. -/
theorem C146_decrypt (priv : PrivateKey) (data tail : Bytes) (hl : 65 ≤ data.length) (C1 : EP)
    (hC : coords C1 = some (ofBytes ((data.drop 1).take 32), ofBytes ((data.drop 33).take 32))) :
    seen (decrytT priv data tail).1 = [1, priv.d] := by
  have hc := onCurve_of_coords hC
  have e1 : sliceCap (data.drop 1) tail 0 32 = .ok ((data.drop 1).take 32) := by
    unfold sliceCap
    rw [if_pos (by rw [List.length_drop]; omega), List.drop_zero, List.take_append_of_le_length (by rw [List.length_drop]; omega)]
  have e2 : sliceCap (data.drop 1) tail 32 64 = .ok ((data.drop 33).take 32) := by
    unfold sliceCap
    rw [if_pos (by rw [List.length_drop]; omega), List.take_append_of_le_length (by rw [List.length_drop]; omega), List.drop_take, List.drop_drop]
  have hr := onCurve_range hc
  have hne := onCurve_ne hc
  unfold decrytT
  rw [if_neg (by omega)]
  dsimp only
  rw [e1]
  dsimp only
  rw [e2]
  dsimp only
  rw [if_neg (by rintro (h | h) <;> [have h1 := hr.1; have h1 := hr.2] <;> dsimp only at h1 <;> omega), if_neg (by rw [hc]; decide),
    scalarMultT_snd, scalarMult_one hc, if_neg (fun h => hne (Prod.ext h.1 h.2))]
  have h1 := shows_mult P (ofBytes ((data.drop 1).take 32), ofBytes ((data.drop 33).take 32)) (toBytes 1)
  have h2 := shows_mult P (ofBytes ((data.drop 1).take 32), ofBytes ((data.drop 33).take 32)) (toBytes priv.d)
  rw [ofBytes_toBytes] at h1 h2
  exact (h1.append h2).seen

/-- **C146** With octets that do not begin with a point on the curve `Decryt` makes no curve operation. -/
theorem C146_decrypt_refused (priv : PrivateKey) (data tail : Bytes) (hl : 65 ≤ data.length)
    (hC : ∀ C1 : EP, coords C1 ≠ some (ofBytes ((data.drop 1).take 32), ofBytes ((data.drop 33).take 32))) :
    (decrytT priv data tail).1 = [] := by
  have hc : isOnCurve P B (ofBytes ((data.drop 1).take 32), ofBytes ((data.drop 33).take 32)) = false := by
    cases hb : isOnCurve P B (ofBytes ((data.drop 1).take 32), ofBytes ((data.drop 33).take 32)) with
    | false => rfl
    | true =>
      obtain ⟨A, hA, hR⟩ := (isOnCurve_rep _).mp hb
      refine absurd ?_ (hC A)
      rw [coords_rep hR, if_neg (onCurve_ne hb)]
  have e1 : sliceCap (data.drop 1) tail 0 32 = .ok ((data.drop 1).take 32) := by
    unfold sliceCap
    rw [if_pos (by rw [List.length_drop]; omega), List.drop_zero, List.take_append_of_le_length (by rw [List.length_drop]; omega)]
  have e2 : sliceCap (data.drop 1) tail 32 64 = .ok ((data.drop 33).take 32) := by
    unfold sliceCap
    rw [if_pos (by rw [List.length_drop]; omega), List.take_append_of_le_length (by rw [List.length_drop]; omega), List.drop_take, List.drop_drop]
  unfold decrytT
  rw [if_neg (by omega)]
  dsimp only
  rw [e1]
  dsimp only
  rw [e2]
  dsimp only
  split
  · rfl
  · rfl

/-- **C146** Whoever sees the operations of `GenerateKey` sees the key. -/
theorem C146_keygen (rd rd' : Reader) (key : PrivateKey) (h : (generateKeyT rd).2 = .ok (key, rd')) : seen (generateKeyT rd).1 = [key.d] := by
  unfold generateKeyT at h ⊢
  split at h
  · cases h
    exact (shows_base _).seen
  · cases h
  · cases h

theorem addT_fst (p : Nat) (a b : Pt) : (addT p a b).1 = [.add, .affine] := rfl

theorem verifyDigestRST_fst (pub : PublicKey) (digest : Bytes) (r s : Int) : (verifyDigestRST pub digest r s).1 =
    if r < 1 ∨ r ≥ (N : Int) then [] else if s < 1 ∨ s ≥ (N : Int) then [] else if (r + s) % (N : Int) = 0 then []
    else opsOf (bitsOf (toBytes s.natAbs)) ++ [.affine] ++ (opsOf (bitsOf (toBytes ((r + s) % (N : Int)).natAbs)) ++ [.affine]) ++ [.add, .affine] := by
  unfold verifyDigestRST
  by_cases h1 : r < 1 ∨ r ≥ (N : Int)
  · rw [if_pos h1, if_pos h1]
  rw [if_neg h1, if_neg h1]
  by_cases h2 : s < 1 ∨ s ≥ (N : Int)
  · rw [if_pos h2, if_pos h2]
  rw [if_neg h2, if_neg h2]
  dsimp only
  by_cases h3 : (r + s) % (N : Int) = 0
  · rw [if_pos h3, if_pos h3]
  rw [if_neg h3, if_neg h3]
  dsimp only
  rw [addT_fst]
  unfold baseMultT
  rw [scalarMultT_fst, scalarMultT_fst]

/-- **C146** The operations of a verification tell nothing that the signature does not: they are the same for every key and digest, and
show `s` and `r + s` (the last number is the addition of the two points), or there are none. -/
theorem C146_verify (pub pub' : PublicKey) (digest digest' : Bytes) (r s : Int) :
    (verifyDigestRST pub digest r s).1 = (verifyDigestRST pub' digest' r s).1 ∧
    seen (verifyDigestRST pub digest r s).1 =
      if 1 ≤ r ∧ r < N ∧ 1 ≤ s ∧ s < N ∧ (r + s) % N ≠ 0 then [s.natAbs, ((r + s) % N).natAbs, 1] else [] := by
  refine ⟨by rw [verifyDigestRST_fst, verifyDigestRST_fst], ?_⟩
  rw [verifyDigestRST_fst]
  by_cases h1 : r < 1 ∨ r ≥ (N : Int)
  · rw [if_pos h1, if_neg (by omega)]; rfl
  rw [if_neg h1]
  by_cases h2 : s < 1 ∨ s ≥ (N : Int)
  · rw [if_pos h2, if_neg (by omega)]; rfl
  rw [if_neg h2]
  by_cases h3 : (r + s) % (N : Int) = 0
  · rw [if_pos h3, if_neg (fun h => h.2.2.2.2 h3)]; rfl
  rw [if_neg h3, if_pos (by refine ⟨?_, ?_, ?_, ?_, h3⟩ <;> omega)]
  have a1 := shows_mult P G (toBytes s.natAbs)
  have a2 := shows_mult P G (toBytes ((r + s) % (N : Int)).natAbs)
  rw [ofBytes_toBytes, scalarMultT_fst] at a1 a2
  have a3 : Shows [.add, .affine] [1] := fun out => rfl
  exact ((a1.append a2).append a3).seen

/-- The hypotheses are met: with the key and the random octets of the standard's example a signature and a ciphertext are made; and one call of
`Decryt` with the 65 octets of the base point shows the key. -/
theorem C146_case : (∃ r s rd', (signDigestRST exRd exKey [1]).2 = .ok (r, s, rd')) ∧
    (∃ ct rd', (encrytT exRd exKey.pub [0x61, 0x62, 0x63]).2 = .ok (ct, rd')) ∧
    seen (decrytT exKey (0x04 :: (beBytes 32 G.1 ++ beBytes 32 G.2)) []).1 = [1, exKey.d] ∧ exKey.d ≠ 1 := by
  obtain ⟨r, s, h⟩ := ex_first 1 ex_two.1
  obtain ⟨ct, -, rd', -, h', -⟩ := C124_case
  refine ⟨⟨r, s, _, by rw [signDigestRST_snd]; exact h⟩, ⟨ct, rd', by rw [encrytT_snd _ _ _ _ (Nat.le_refl _)]; exact h'⟩, ?_, by decide +kernel⟩
  have hb : (ofBytes (((0x04 :: (beBytes 32 G.1 ++ beBytes 32 G.2) : Bytes).drop 1).take 32),
      ofBytes (((0x04 :: (beBytes 32 G.1 ++ beBytes 32 G.2) : Bytes).drop 33).take 32)) = G := by decide +kernel
  have ho : isOnCurve P B G = true := by decide +kernel
  obtain ⟨A, hA, hR⟩ := (isOnCurve_rep _).mp ho
  refine C146_decrypt exKey _ [] (by decide +kernel) A ?_
  rw [hb, coords_rep hR, if_neg (onCurve_ne ho)]

end MCrypto.Props
