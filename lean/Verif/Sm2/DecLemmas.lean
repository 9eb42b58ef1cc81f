import Verif.Sm2.EncLemmas
/-
What `Decryt` computes, by cases.
-/
namespace MCrypto.Sm2
open MCrypto MCrypto.Curve MCrypto.Sm2Spec

/-- The point encoded in the first 64 bytes after the prefix byte (possibly reaching into the spare
capacity of the slice). -/
def ctPoint (data tail : Bytes) : Pt :=
  (ofBytes ((data.drop 1 ++ tail).take 32), ofBytes (((data.drop 1 ++ tail).drop 32).take 32))

theorem onCurve_range {q : Pt} (h : isOnCurve P B q = true) : q.1 < P ∧ q.2 < P := by
  obtain ⟨x, y⟩ := q
  have := (isOnCurve_iff x y).mp h
  exact ⟨this.1, this.2.1⟩

theorem onCurve_ne {q : Pt} (h : isOnCurve P B q = true) : q ≠ (0, 0) := by
  obtain ⟨A, hA, hR⟩ := (isOnCurve_rep q).mp h
  intro hq
  exact hA ((Rep.zero_iff bF_ne hR).mp hq)

theorem scalarMult_one {q : Pt} (h : isOnCurve P B q = true) : scalarMult P q (toBytes 1) = q := by
  obtain ⟨A, hA, hR⟩ := (isOnCurve_rep q).mp h
  have h1 := rep_mult hR 1
  rw [one_smul] at h1
  exact Rep.pt_eq h1 hR

theorem take_drop_comm (l : Bytes) (a b : Nat) : (l.take (a + b)).drop a = (l.drop a).take b := by
  rw [List.drop_take, Nat.add_sub_cancel_left]

theorem decryt_nil (priv : PrivateKey) (tail : Bytes) : decryt priv [] tail = .panic := by
  simp [decryt]

theorem decryt_short (priv : PrivateKey) (data tail : Bytes) (h0 : data ≠ [])
    (h : data.length - 1 + tail.length < 64) : decryt priv data tail = .panic := by
  unfold decryt
  have hl : ¬ data.length < 1 := by
    have := List.length_pos_iff.mpr h0; omega
  rw [if_neg hl]
  simp only
  have h2 : sliceCap (data.drop 1) tail 32 64 = .panic := by
    unfold sliceCap; rw [if_neg]; rw [List.length_drop]; omega
  unfold sliceCap at h2 ⊢
  by_cases h1 : 0 ≤ 32 ∧ 32 ≤ (data.drop 1).length + tail.length
  · rw [if_pos h1]; simp only [h2]
  · rw [if_neg h1]

theorem decryt_offCurve (priv : PrivateKey) (data tail : Bytes) (h0 : data ≠ [])
    (h : 64 ≤ data.length - 1 + tail.length) (hc : isOnCurve P B (ctPoint data tail) = false) :
    decryt priv data tail = .ok ⟨none, some "C1 is not on the curve"⟩ := by
  unfold decryt
  have hl : ¬ data.length < 1 := by
    have := List.length_pos_iff.mpr h0; omega
  rw [if_neg hl]
  have e1 : sliceCap (data.drop 1) tail 0 32 = .ok ((data.drop 1 ++ tail).take 32) := by
    unfold sliceCap; rw [if_pos (by rw [List.length_drop]; omega)]; rfl
  have e2 : sliceCap (data.drop 1) tail 32 64 = .ok (((data.drop 1 ++ tail).drop 32).take 32) := by
    unfold sliceCap; rw [if_pos (by rw [List.length_drop]; omega)]
    rw [show (64 : Nat) = 32 + 32 by rfl, take_drop_comm]
  simp only [e1, e2]
  split
  · rfl
  · have hc' : isOnCurve P B (ofBytes ((data.drop 1 ++ tail).take 32),
        ofBytes (((data.drop 1 ++ tail).drop 32).take 32)) = false := hc
    rw [if_pos hc']

theorem decryt_onCurve (priv : PrivateKey) (data tail : Bytes) (h0 : data ≠ [])
    (h : 64 ≤ data.length - 1 + tail.length) (hc : isOnCurve P B (ctPoint data tail) = true)
    (q : Pt) (hq : q = scalarMult P (ctPoint data tail) (toBytes priv.d)) :
    (kdf ((data.length : Int) - 97) q.1 q.2 = none →
      decryt priv data tail = .ok ⟨none, some "failed to decrypt:kdf error"⟩) ∧
    (kdf ((data.length : Int) - 97) q.1 q.2 ≠ none → 98 ≤ data.length ∧
      (goodLen (data.length - 97) →
        decryt priv data tail =
          .ok ⟨some (List.zipWith (· ^^^ ·) (stream (data.length - 97) q.1 q.2) (data.drop 97)),
            if Sm3Spec.sm3 (toBytes q.1 ++
              List.zipWith (· ^^^ ·) (stream (data.length - 97) q.1 q.2) (data.drop 97) ++ toBytes q.2) =
                (data.drop 65).take 32 then none else some "failed to decrypt:hash compared error"⟩) ∧
      (¬ goodLen (data.length - 97) → decryt priv data tail = .panic)) := by
  have hl : ¬ data.length < 1 := by
    have := List.length_pos_iff.mpr h0; omega
  have e1 : sliceCap (data.drop 1) tail 0 32 = .ok ((data.drop 1 ++ tail).take 32) := by
    unfold sliceCap; rw [if_pos (by rw [List.length_drop]; omega)]; rfl
  have e2 : sliceCap (data.drop 1) tail 32 64 = .ok (((data.drop 1 ++ tail).drop 32).take 32) := by
    unfold sliceCap; rw [if_pos (by rw [List.length_drop]; omega)]
    rw [show (64 : Nat) = 32 + 32 by rfl, take_drop_comm]
  have hcp : (ofBytes ((data.drop 1 ++ tail).take 32), ofBytes (((data.drop 1 ++ tail).drop 32).take 32)) =
    ctPoint data tail := rfl
  have hlen : (((data.drop 1).length : Int) - 96) = (data.length : Int) - 97 := by
    rw [List.length_drop]; omega
  have hr := onCurve_range hc
  have hne := onCurve_ne hc
  have hx1 : ¬ (ofBytes ((data.drop 1 ++ tail).take 32) ≥ P ∨
      ofBytes (((data.drop 1 ++ tail).drop 32).take 32) ≥ P) := by
    intro hh
    have h1 : ofBytes ((data.drop 1 ++ tail).take 32) < P := hr.1
    have h2 : ofBytes (((data.drop 1 ++ tail).drop 32).take 32) < P := hr.2
    omega
  have hs : ¬ ((ctPoint data tail).1 = 0 ∧ (ctPoint data tail).2 = 0) := by
    rintro ⟨h1, h2⟩; exact hne (Prod.ext h1 h2)
  have key : decryt priv data tail =
      match kdf ((data.length : Int) - 97) q.1 q.2 with
      | none => .ok ⟨none, some "failed to decrypt:kdf error"⟩
      | some c =>
        match xorInto c 0 ((data.drop 1).drop 96) with
        | .ok c =>
          match sliceCap (data.drop 1) tail 64 96 with
          | .ok h3 =>
            if Sm3.sum (toBytes q.1 ++ c ++ toBytes q.2) ≠ h3 then
              .ok ⟨some c, some "failed to decrypt:hash compared error"⟩
            else .ok ⟨some c, none⟩
          | .err e => .err e
          | .panic => .panic
        | .err e => .err e
        | .panic => .panic := by
    unfold decryt
    rw [if_neg hl]
    simp only [e1, e2, hcp, hc, hlen, scalarMult_one hc, ← hq]
    rw [if_neg hx1, if_neg (by simp), if_neg hs]
    rfl
  rw [key]
  constructor
  · intro hk; rw [hk]
  · intro hk
    have hpos : 98 ≤ data.length := by
      by_contra hh
      exact hk (kdf_nonpos (by omega) _ _)
    refine ⟨hpos, ?_⟩
    have hcast : (data.length : Int) - 97 = ((data.length - 97 : Nat) : Int) := by omega
    rw [hcast] at hk ⊢
    rw [kdf_eq] at hk ⊢
    by_cases hany : (stream (data.length - 97) q.1 q.2).any (fun b => b != 0) = true
    · rw [if_pos hany]
      simp only
      have hd : (data.drop 1).drop 96 = data.drop 97 := by rw [List.drop_drop]
      have hdl : (data.drop 97).length = data.length - 97 := by simp
      have hdne : data.drop 97 ≠ [] := by
        intro hh; rw [hh] at hdl; simp at hdl; omega
      rw [hd]
      constructor
      · intro hg
        have hx := xorInto_append (pre := []) (t := stream (data.length - 97) q.1 q.2) (m := data.drop 97)
          (by rw [stream_length_good hg, hdl])
        simp only [List.nil_append, List.length_nil] at hx
        rw [hx]
        have e3 : sliceCap (data.drop 1) tail 64 96 = .ok ((data.drop 65).take 32) := by
          unfold sliceCap
          rw [if_pos (by rw [List.length_drop]; omega), show (96 : Nat) = 64 + 32 by rfl, take_drop_comm,
            List.drop_append_of_le_length (by rw [List.length_drop]; omega), List.drop_drop,
            List.take_append_of_le_length (by rw [List.length_drop]; omega)]
        simp only [e3, Sm3.sum_eq]
        split
        · rename_i h1; first | rfl | rw [if_neg h1]
        · rename_i h1; first | rfl | rw [if_pos (by simpa using h1)]
      · intro hg
        have hx : xorInto (stream (data.length - 97) q.1 q.2) 0 (data.drop 97) = .panic := by
          unfold xorInto
          rw [if_neg hdne, if_neg]
          have := stream_length_bad hg q.1 q.2
          omega
        rw [hx]
    · rw [if_neg hany] at hk
      exact absurd rfl hk

end MCrypto.Sm2
