import Verif.Sm2.TraceSpec
import Verif.Sm2.EncLemmas
import Verif.Sm2.DecLemmas
namespace MCrypto.Sm2Trace
open MCrypto MCrypto.Curve MCrypto.Sm2 MCrypto.Sm2Spec

/-- The operations `tr` show the numbers `ns` and leave nothing in the register. -/
def Shows (tr : List Op) (ns : List Nat) : Prop := ∀ out, tr.foldl see (0, out) = (0, out ++ ns)

theorem Shows.seen {tr : List Op} {ns : List Nat} (h : Shows tr ns) : seen tr = ns := by
  unfold Sm2Trace.seen; rw [h]; rfl

theorem shows_nil : Shows [] [] := fun out => by simp

theorem Shows.append {t t' : List Op} {n n' : List Nat} (h : Shows t n) (h' : Shows t' n') : Shows (t ++ t') (n ++ n') := fun out => by
  rw [List.foldl_append, h, h', List.append_assoc]

/-- The operations of a multiplication, from the bits of the scalar. -/
def opsOf (l : List Bool) : List Op := l.flatMap fun b => if b then [.dbl, .add] else [.dbl]

theorem scalarMultT_fst (p : Nat) (pt : Pt) (k : Bytes) : (scalarMultT p pt k).1 = opsOf (bitsOf k) ++ [.affine] := by
  unfold scalarMultT
  dsimp only
  congr 1
  have : ∀ (l : List Bool) (a : List Op × Jac), (l.foldl (fun (acc : List Op × Jac) b =>
      if b then (acc.1 ++ [.dbl, .add], jAdd p (toJac pt) (jDouble p acc.2)) else (acc.1 ++ [.dbl], jDouble p acc.2)) a).1 = a.1 ++ opsOf l := by
    intro l
    induction l with
    | nil => intro a; simp [opsOf]
    | cons b l ih =>
      intro a
      rw [List.foldl_cons, ih]
      cases b <;> simp [opsOf]
  rw [this]
  rfl

theorem shows_mult (p : Nat) (pt : Pt) (k : Bytes) : Shows (scalarMultT p pt k).1 [ofBytes k] := by
  intro out
  rw [scalarMultT_fst, List.foldl_append]
  have : ∀ (l : List Bool) (a : Nat), (opsOf l).foldl see (a, out) = (l.foldl (fun a c => 2 * a + c.toNat) a, out) := by
    intro l
    induction l with
    | nil => intro a; rfl
    | cons b l ih =>
      intro a
      have : opsOf (b :: l) = (if b then [.dbl, .add] else [.dbl]) ++ opsOf l := rfl
      rw [this, List.foldl_append, List.foldl_cons, ← ih]
      cases b <;> rfl
  rw [this]
  have hb := bitVal_bitsOf k
  unfold bitVal at hb
  rw [hb]
  rfl

theorem shows_base (k : Bytes) : Shows (baseMultT k).1 [ofBytes k] := shows_mult _ _ _

theorem range_nonce (rd : Reader) (i j : Nat) :
    (List.range i).map (nonce rd) ++ (List.range j).map (nonce (rd.drop (40 * i))) = (List.range (i + j)).map (nonce rd) := by
  rw [List.range_add, List.map_append, List.map_map]
  congr 1
  apply List.map_congr_left
  intro a _
  exact nonce_drop rd a i

/-- How `SignDigestRS`'s inner loop reads and what it shows. -/
def Reads (rd : Reader) (tr : List Op) (out : Res (Nat × Nat × Reader)) : Prop :=
  ∃ i, Shows tr ((List.range i).map (nonce rd)) ∧ 40 * i ≤ rd.length ∧
    match out with
    | .ok (_, _, rd') => 0 < i ∧ rd' = rd.drop (40 * i)
    | .err _ => rd.length < 40 * (i + 1)
    | .panic => 0 < i

theorem signInnerT_eq (e : Nat) (rd : Reader) : signInnerT e rd =
    if 40 ≤ rd.length then
      if (e + (baseMultT (toBytes (nonce rd 0))).2.1) % N ≠ 0 ∧ (e + (baseMultT (toBytes (nonce rd 0))).2.1) % N + nonce rd 0 ≠ N then
        ((baseMultT (toBytes (nonce rd 0))).1, .ok ((e + (baseMultT (toBytes (nonce rd 0))).2.1) % N, nonce rd 0, rd.drop 40))
      else ((baseMultT (toBytes (nonce rd 0))).1 ++ (signInnerT e (rd.drop 40)).1, (signInnerT e (rd.drop 40)).2)
    else ([], .err (endErr rd)) := by
  rw [signInnerT]
  by_cases hl : 40 ≤ rd.length
  · have hn := nextk_ok hl
    rw [if_pos hl, nonce_zero]
    split <;> rename_i h1 <;> rw [hn] at h1 <;> cases h1
    rfl
  · have hn := nextk_err (rd := rd) (by omega)
    rw [if_neg hl]
    split <;> rename_i h1 <;> rw [hn] at h1 <;> cases h1
    unfold endErr
    rw [Nat.mod_eq_of_lt (by omega)]

theorem Reads.cons {rd : Reader} {tr t : List Op} {out : Res (Nat × Nat × Reader)} {i : Nat} (hi : 40 * i ≤ rd.length)
    (ht : Shows t ((List.range i).map (nonce rd))) (h : Reads (rd.drop (40 * i)) tr out) : Reads rd (t ++ tr) out := by
  obtain ⟨j, h1, h2, h3⟩ := h
  rw [List.length_drop] at h2
  refine ⟨i + j, ?_, by omega, ?_⟩
  · rw [← range_nonce]; exact ht.append h1
  · match out, h3 with
    | .ok (_, _, rd'), h3 =>
      refine ⟨by omega, ?_⟩
      rw [h3.2, List.drop_drop]
      congr 1
      omega
    | .err _, h3 =>
      have h3 : (rd.drop (40 * i)).length < 40 * (j + 1) := h3
      rw [List.length_drop] at h3
      show rd.length < 40 * (i + j + 1)
      omega
    | .panic, h3 => 
      have h3 : 0 < j := h3
      show 0 < i + j
      omega

theorem shows_first (rd : Reader) : Shows (baseMultT (toBytes (nonce rd 0))).1 ((List.range 1).map (nonce rd)) := by
  have := shows_base (toBytes (nonce rd 0))
  rw [ofBytes_toBytes] at this
  exact this

theorem signInnerT_reads (e : Nat) : ∀ (n : Nat) (rd : Reader), rd.length ≤ n → Reads rd (signInnerT e rd).1 (signInnerT e rd).2 := by
  intro n
  induction n with
  | zero =>
    intro rd h
    rw [signInnerT_eq, if_neg (by omega)]
    exact ⟨0, shows_nil, by omega, by show rd.length < 40 * (0 + 1); omega⟩
  | succ n ih =>
    intro rd h
    rw [signInnerT_eq]
    by_cases hl : 40 ≤ rd.length
    · rw [if_pos hl]
      split
      · exact ⟨1, shows_first rd, by omega, by omega, rfl⟩
      · have := ih (rd.drop 40) (by rw [List.length_drop]; omega)
        exact Reads.cons (i := 1) (by omega) (shows_first rd) this
    · rw [if_neg hl]
      exact ⟨0, shows_nil, by omega, by show rd.length < 40 * (0 + 1); omega⟩

theorem signOuterT_reads (d e : Nat) : ∀ (n : Nat) (rd : Reader), rd.length ≤ n → Reads rd (signOuterT d e rd).1 (signOuterT d e rd).2 := by
  intro n
  induction n with
  | zero =>
    intro rd h
    have hi := signInnerT_reads e 0 rd h
    rw [signOuterT]
    split <;> rename_i h1 <;> rw [h1] at hi
    · obtain ⟨i, -, h2, h3, -⟩ := hi
      omega
    · exact hi
    · exact hi
  | succ n ih =>
    intro rd h
    have hi := signInnerT_reads e (n + 1) rd h
    rw [signOuterT]
    split <;> rename_i h1 <;> rw [h1] at hi
    · obtain ⟨i, ht, h2, h3, h4⟩ := hi
      split
      · exact ⟨i, ht, h2, h3⟩
      · dsimp only
        split
        · exact ⟨i, ht, h2, h3, h4⟩
        · subst h4
          exact Reads.cons h2 ht (ih _ (by rw [List.length_drop]; omega))
    · exact hi
    · exact hi

theorem signOuterT_snd (d e : Nat) : ∀ (n : Nat) (rd : Reader), rd.length ≤ n → (signOuterT d e rd).2 = signOuter d e rd := by
  intro n
  induction n with
  | zero =>
    intro rd h
    have hs := signInnerT_snd e rd
    have hl := @signInner_lt e rd
    cases hm : modInverseN (d + 1) with
    | none =>
      rw [signOuter_bad e rd hm, signOuterT]
      split <;> rename_i h1 <;> rw [h1] at hs <;> dsimp only at hs ⊢ <;> rw [← hs]
      rw [hm]
    | some i =>
      rw [signOuter_step e rd hm, signOuterT]
      split <;> rename_i h1 <;> rw [h1] at hs <;> dsimp only at hs ⊢ <;> rw [← hs]
      have := hl hs.symm
      omega
  | succ n ih =>
    intro rd h
    have hs := signInnerT_snd e rd
    have hl := @signInner_lt e rd
    cases hm : modInverseN (d + 1) with
    | none =>
      rw [signOuter_bad e rd hm, signOuterT]
      split <;> rename_i h1 <;> rw [h1] at hs <;> dsimp only at hs ⊢ <;> rw [← hs]
      rw [hm]
    | some i =>
      rw [signOuter_step e rd hm, signOuterT]
      split <;> rename_i h1 <;> rw [h1] at hs <;> dsimp only at hs ⊢ <;> rw [← hs]
      have := hl hs.symm
      rw [hm]
      dsimp only
      split
      · rfl
      · exact ih _ (by omega)

/-- What `SignDigestRS` returns is what the model without operations returns. -/
theorem signDigestRST_snd (rd : Reader) (priv : PrivateKey) (digest : Bytes) : (signDigestRST rd priv digest).2 = signDigestRS rd priv digest := by
  unfold signDigestRST signDigestRS
  rw [← signOuterT_snd _ _ _ rd (Nat.le_refl _)]
  split <;> rename_i h <;> rw [h]

theorem generateKeyT_snd (rd : Reader) : (generateKeyT rd).2 = generateKey rd := by
  unfold generateKeyT generateKey
  cases genLoop rd with
  | ok v => dsimp only; rw [baseMultT_snd]
  | err e => rfl
  | panic => rfl

theorem verifyDigestRST_snd (pub : PublicKey) (digest : Bytes) (r s : Int) : (verifyDigestRST pub digest r s).2 = verifyDigestRS pub digest r s := by
  unfold verifyDigestRST verifyDigestRS
  split
  · rfl
  split
  · rfl
  dsimp only
  split
  · rfl
  dsimp only
  rw [baseMultT_snd, scalarMultT_snd]
  rfl

theorem decrytT_snd (priv : PrivateKey) (data tail : Bytes) : (decrytT priv data tail).2 = decryt priv data tail := by
  unfold decrytT decryt
  split
  · rfl
  dsimp only
  cases sliceCap (data.drop 1) tail 0 32 with
  | err e => rfl
  | panic => rfl
  | ok b1 =>
    dsimp only
    cases sliceCap (data.drop 1) tail 32 64 with
    | err e => rfl
    | panic => rfl
    | ok b2 =>
      dsimp only
      split
      · rfl
      split
      · rfl
      rw [scalarMultT_snd, scalarMultT_snd]
      split
      · rfl
      · rfl

/-- How `Encryt` reads and what it shows: every nonce twice. -/
def ReadsE (rd : Reader) (tr : List Op) (out : Res (Bytes × Reader)) : Prop :=
  ∃ i, Shows tr (((List.range i).map (nonce rd)).flatMap fun k => [k, k]) ∧ 40 * i ≤ rd.length ∧
    match out with
    | .ok (_, rd') => 0 < i ∧ rd' = rd.drop (40 * i)
    | .err _ => rd.length < 40 * (i + 1)
    | .panic => 0 < i

theorem shows_both (rd : Reader) (pt : Pt) : Shows ((baseMultT (toBytes (nonce rd 0))).1 ++ (scalarMultT P pt (toBytes (nonce rd 0))).1)
    (((List.range 1).map (nonce rd)).flatMap fun k => [k, k]) := by
  have h1 := shows_base (toBytes (nonce rd 0))
  have h2 := shows_mult P pt (toBytes (nonce rd 0))
  rw [ofBytes_toBytes] at h1 h2
  exact h1.append h2

theorem ReadsE.cons {rd : Reader} {tr t : List Op} {out : Res (Bytes × Reader)} (hi : 40 ≤ rd.length)
    (ht : Shows t (((List.range 1).map (nonce rd)).flatMap fun k => [k, k])) (h : ReadsE (rd.drop 40) tr out) : ReadsE rd (t ++ tr) out := by
  obtain ⟨j, h1, h2, h3⟩ := h
  rw [List.length_drop] at h2
  refine ⟨1 + j, ?_, by omega, ?_⟩
  · rw [← range_nonce, List.flatMap_append]; exact ht.append h1
  · match out, h3 with
    | .ok (_, rd'), h3 =>
      refine ⟨by omega, ?_⟩
      rw [h3.2, List.drop_drop]
      congr 1
      omega
    | .err _, h3 =>
      have h3 : (rd.drop 40).length < 40 * (j + 1) := h3
      rw [List.length_drop] at h3
      show rd.length < 40 * (1 + j + 1)
      omega
    | .panic, h3 =>
      show 0 < 1 + j
      omega

theorem xorInto_no_err (dst : Bytes) (off : Nat) (src : Bytes) (e : String) : xorInto dst off src ≠ .err e := by
  unfold xorInto
  split
  · simp
  · split <;> simp

theorem encrytT_reads (pub : PublicKey) (msg : Bytes) : ∀ (n : Nat) (rd : Reader), rd.length ≤ n →
    ReadsE rd (encrytT rd pub msg).1 (encrytT rd pub msg).2 := by
  intro n
  induction n with
  | zero =>
    intro rd h
    have hn := nextk_err (rd := rd) (by omega)
    rw [encrytT]
    split <;> rename_i h1 <;> rw [hn] at h1 <;> cases h1
    exact ⟨0, shows_nil, by omega, by show rd.length < 40 * (0 + 1); omega⟩
  | succ n ih =>
    intro rd h
    rw [encrytT]
    by_cases hl : 40 ≤ rd.length
    · have hn := nextk_ok hl
      rw [← nonce_zero] at hn
      split <;> rename_i h1 <;> rw [hn] at h1 <;> cases h1
      dsimp only
      split
      · exact ReadsE.cons hl (shows_both rd _) (ih _ (by rw [List.length_drop]; omega))
      · split
        · exact ⟨1, shows_both rd _, by omega, by omega, rfl⟩
        · rename_i hx
          exact absurd hx (xorInto_no_err _ _ _ _)
        · exact ⟨1, shows_both rd _, by omega, by show 0 < 1; omega⟩
    · have hn := nextk_err (rd := rd) (by omega)
      split <;> rename_i h1 <;> rw [hn] at h1 <;> cases h1
      exact ⟨0, shows_nil, by omega, by show rd.length < 40 * (0 + 1); omega⟩

theorem encrytT_snd (pub : PublicKey) (msg : Bytes) : ∀ (n : Nat) (rd : Reader), rd.length ≤ n → (encrytT rd pub msg).2 = encryt rd pub msg := by
  intro n
  induction n with
  | zero =>
    intro rd h
    have hn := nextk_err (rd := rd) (by omega)
    generalize (if rd.length = 0 then "EOF" else "unexpected EOF" : String) = er at hn
    rw [encrytT, encryt]
    split <;> rename_i h1 <;> rw [hn] at h1 <;> cases h1
    split <;> rename_i h2 <;> rw [hn] at h2 <;> cases h2
    rfl
  | succ n ih =>
    intro rd h
    rw [encrytT, encryt]
    by_cases hl : 40 ≤ rd.length
    · have hn := nextk_ok hl
      split <;> rename_i h1 <;> rw [hn] at h1 <;> cases h1
      split <;> rename_i h2 <;> rw [hn] at h2 <;> cases h2
      dsimp only
      rw [baseMultT_snd, scalarMultT_snd]
      generalize Sm2.kdf _ _ _ = o
      cases o with
      | none => exact ih _ (by rw [List.length_drop]; omega)
      | some t =>
        dsimp only
        generalize xorInto _ _ _ = x
        cases x <;> rfl
    · have hn := nextk_err (rd := rd) (by omega)
      generalize (if rd.length = 0 then "EOF" else "unexpected EOF" : String) = er at hn
      split <;> rename_i h1 <;> rw [hn] at h1 <;> cases h1
      split <;> rename_i h2 <;> rw [hn] at h2 <;> cases h2
      rfl

end MCrypto.Sm2Trace
