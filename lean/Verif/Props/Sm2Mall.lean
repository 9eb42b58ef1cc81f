import Verif.Props.Sm2Leak
import Mathlib.Data.Int.Interval
/-
C118: the signatures of one digest that share their first number (sm2.go:259-383; model Verif/Sm2/Model.lean).
-/
namespace MCrypto.Props
open MCrypto MCrypto.Sm2 MCrypto.Sm2Spec MCrypto.Curve

/-- The other number: `(1 + d)(s + s') + 2 r d = 0` modulo N. -/
def Mirror (d : Nat) (r s s' : Int) : Prop := ((1 + (d : Int)) * (s + s') + 2 * r * d) % N = 0

theorem mirror_cast {d : Nat} {r s s' : Int} :
    Mirror d r s s' ↔ (1 + (d : ZMod N)) * ((s : ZMod N) + s') + 2 * r * d = 0 := by
  unfold Mirror
  rw [← Int.dvd_iff_emod_eq_zero, ← ZMod.intCast_zmod_eq_zero_iff_dvd]
  push_cast
  rfl

/-- The scalar of the point that verification computes. -/
def kOf (d : Nat) (r s : Int) : Nat := s.toNat + ((r + s) % N).toNat * d

theorem kOf_point (d : Nat) (r s : Int) : s.toNat • Gp + ((r + s) % N).toNat • (d • Gp) = kOf d r s • Gp := by
  unfold kOf
  rw [add_smul, mul_smul]

theorem kOf_cast {d : Nat} {r s : Int} (hs : 1 ≤ s) : (kOf d r s : ZMod N) = (1 + (d : ZMod N)) * s + r * d := by
  unfold kOf
  have hN := N_pos
  have h1 : ((s.toNat : Nat) : ZMod N) = (s : ZMod N) := by
    rw [← Int.cast_natCast, Int.toNat_of_nonneg (by omega)]
  have h2 : (((r + s) % N).toNat : ZMod N) = (r : ZMod N) + s := by
    rw [← Int.cast_natCast, Int.toNat_of_nonneg (Int.emod_nonneg _ (by omega)), ZMod.intCast_mod]
    push_cast; rfl
  push_cast
  rw [h1, h2]
  ring

theorem smul_eq_cast {a b : Nat} : a • Gp = b • Gp ↔ (a : ZMod N) = b := by
  rw [nsmul_Gp_eq_iff, ZMod.natCast_eq_natCast_iff']

theorem smul_neg_cast {a b : Nat} : a • Gp = -(b • Gp) ↔ (a : ZMod N) = -b := by
  rw [eq_neg_iff_add_eq_zero, ← add_smul, nsmul_Gp_eq_zero_iff, ← ZMod.natCast_eq_zero_iff, eq_neg_iff_add_eq_zero]
  push_cast; rfl

theorem d_cast_ne {d : Nat} (hd : (d + 1) % N ≠ 0) : (1 + (d : ZMod N)) ≠ 0 := by
  have : ((d + 1 : Nat) : ZMod N) ≠ 0 := by
    rw [Ne, ZMod.natCast_eq_zero_iff, Nat.dvd_iff_mod_eq_zero]; exact hd
  push_cast at this
  rwa [add_comm]

theorem int_eq_of_cast {s s' : Int} (hs : 1 ≤ s ∧ s ≤ N - 1) (hs' : 1 ≤ s' ∧ s' ≤ N - 1) (h : (s : ZMod N) = s') : s = s' := by
  rw [ZMod.intCast_eq_intCast_iff'] at h
  rwa [Int.emod_eq_of_lt (by omega) (by omega), Int.emod_eq_of_lt (by omega) (by omega)] at h

/-- **C118** The owner of a key has, next to almost every signature `(r, s)` of a digest, a second one `(r, s')`: the mirrored number is
always valid too (if it and the sum are not zero). -/
theorem C118_mirror (d e : Nat) (r s s' : Int) (h : ValidSig (d • Gp) e r s) (hm : Mirror d r s s') (hs' : 1 ≤ s' ∧ s' ≤ N - 1)
    (ht : (r + s') % N ≠ 0) : ValidSig (d • Gp) e r s' := by
  obtain ⟨hr, hs, -, x, y, h1, h2⟩ := h
  rw [kOf_point] at h1
  obtain ⟨y', h3⟩ := coords_neg h1
  refine ⟨hr, hs', ht, x, y', ?_, h2⟩
  rw [kOf_point, ← h3]
  congr 1
  rw [smul_neg_cast, kOf_cast hs'.1, kOf_cast hs.1]
  rw [mirror_cast] at hm
  linear_combination hm

/-- Such a number exists, and only one below N, unless D = -1. -/
theorem C118_mirror_exists (d : Nat) (hd : (d + 1) % N ≠ 0) (r s : Int) : ∃! s' : Int, 0 ≤ s' ∧ s' < N ∧ Mirror d r s s' := by
  have hne := d_cast_ne hd
  have hN := N_pos
  let v : ZMod N := -(s : ZMod N) - 2 * r * d / (1 + d)
  haveI : NeZero N := ⟨by omega⟩
  have hv : ((v.val : Int) : ZMod N) = v := by rw [Int.cast_natCast, ZMod.natCast_zmod_val]
  refine ⟨v.val, ⟨by omega, by have := ZMod.val_lt v; omega, ?_⟩, ?_⟩
  · rw [mirror_cast, hv]
    simp only [v]
    field_simp
    ring
  · rintro t ⟨h1, h2, h3⟩
    rw [mirror_cast] at h3
    have : (t : ZMod N) = v := by
      simp only [v]
      field_simp
      linear_combination h3
    rw [← hv, ZMod.intCast_eq_intCast_iff', Int.emod_eq_of_lt h1 h2,
      Int.emod_eq_of_lt (by omega) (by have := ZMod.val_lt v; omega)] at this
    exact this

theorem coords_xlt {R : EP} {x y : Nat} (h : coords R = some (x, y)) : x < P := by
  cases R with
  | zero => cases h
  | some a b _ =>
    simp only [coords, Option.some.injEq, Prod.mk.injEq] at h
    rw [← h.1]; exact ZMod.val_lt a

/-- The x-coordinate modulo N is given by `r` and the digest. -/
theorem x_mod {e x : Nat} {r : Int} (h : (((e + x) % N : Nat) : Int) = r) : ((x % N : Nat) : Int) = (r - e) % N := by
  have : (r - e) % N = (x : Int) % N := by
    rw [← h]
    push_cast
    rw [Int.emod_sub_emod]
    congr 1; ring
  rw [this]; push_cast; rfl

/-- **C118** Nobody else has one: if `(r - e) mod N` is not among the few numbers below P - N (one in 2^128 is), every valid
signature with the same digest and the same `r` is the given one or the mirrored one. -/
theorem C118_only_mirror (d e : Nat) (hd : (d + 1) % N ≠ 0) (r s s' : Int) (hx : (P : Int) - N ≤ (r - e) % N)
    (h : ValidSig (d • Gp) e r s) (h' : ValidSig (d • Gp) e r s') : s' = s ∨ Mirror d r s s' := by
  obtain ⟨hr, hs, -, x, y, h1, h2⟩ := h
  obtain ⟨-, hs', -, x', y', h1', h2'⟩ := h'
  rw [kOf_point] at h1 h1'
  have small : ∀ z : Nat, z < P → ((z % N : Nat) : Int) = (r - e) % N → (z : Int) = (r - e) % N := by
    intro z hz hm
    by_cases hzN : z < N
    · rwa [Nat.mod_eq_of_lt hzN] at hm
    · exfalso
      have hPN : P < 2 * N := by decide +kernel
      have : z % N = z - N := by rw [Nat.mod_eq_sub_mod (by omega), Nat.mod_eq_of_lt (by omega)]
      omega
  have e1 := small x (coords_xlt h1) (x_mod h2)
  have e2 := small x' (coords_xlt h1') (x_mod h2')
  have e3 : x' = x := by omega
  subst e3
  rcases coords_same h1' h1 with e4 | e4
  · left
    rw [smul_eq_cast, kOf_cast hs'.1, kOf_cast hs.1] at e4
    refine int_eq_of_cast hs' hs ?_
    have : (1 + (d : ZMod N)) * ((s' : ZMod N) - s) = 0 := by linear_combination e4
    rcases mul_eq_zero.mp this with h3 | h3
    · exact absurd h3 (d_cast_ne hd)
    · linear_combination h3
  · right
    rw [smul_neg_cast, kOf_cast hs'.1, kOf_cast hs.1] at e4
    rw [mirror_cast]
    linear_combination e4

/-- **C118** So to change a signature into another one of the same digest with the same `r` is as hard as to find the private key: from
the two of them the key is computed by one division. -/
theorem C118_two_reveal_key (d e : Nat) (hd : (d + 1) % N ≠ 0) (r s s' : Int) (hx : (P : Int) - N ≤ (r - e) % N)
    (h : ValidSig (d • Gp) e r s) (h' : ValidSig (d • Gp) e r s') (hne : s ≠ s') :
    ((s + s' + 2 * r : Int) : ZMod N) ≠ 0 ∧
    (d : ZMod N) = -((s + s' : Int) : ZMod N) / ((s + s' + 2 * r : Int) : ZMod N) := by
  have hm : Mirror d r s s' := (C118_only_mirror d e hd r s s' hx h h').resolve_left (Ne.symm hne)
  rw [mirror_cast] at hm
  have hz : ((s + s' + 2 * r : Int) : ZMod N) ≠ 0 := by
    intro hz
    push_cast at hz
    have h1 : (s : ZMod N) + s' = 0 := by linear_combination hm - (d : ZMod N) * hz
    have h2 : (2 : ZMod N) * r = 0 := by linear_combination hz - h1
    have two : (2 : ZMod N) ≠ 0 := by
      have : ((2 : Nat) : ZMod N) ≠ 0 := by
        rw [Ne, ZMod.natCast_eq_zero_iff]; intro hdv
        have := Nat.le_of_dvd (by omega) hdv
        revert this; decide +kernel
      simpa using this
    rcases mul_eq_zero.mp h2 with h3 | h3
    · exact two h3
    · rw [ZMod.intCast_zmod_eq_zero_iff_dvd] at h3
      have hr := h.1
      have := Int.le_of_dvd (by omega) h3
      omega
  refine ⟨hz, ?_⟩
  rw [eq_div_iff hz]
  push_cast
  linear_combination hm

/-- **C118** In any case at most four signatures of a digest share their `r`, for every key but one. -/
theorem C118_at_most_four (Q : EP) (hQ : Q ≠ -Gp) (e : Nat) (r : Int) : {s : Int | ValidSig Q e r s}.ncard ≤ 4 := by
  obtain ⟨d, -, rfl⟩ := exists_dlog Q
  have hd : (d + 1) % N ≠ 0 := by
    intro h
    apply hQ
    rw [eq_neg_iff_add_eq_zero]
    have : (d + 1) • Gp = 0 := (nsmul_Gp_eq_zero_iff _).mpr (Nat.dvd_of_mod_eq_zero h)
    rwa [add_smul, one_smul] at this
  have hfin : Finite EP := Nat.finite_of_card_ne_zero (by rw [card_EP]; have := N_pos; omega)
  have hR : {R : EP | GivesR e r R}.ncard ≤ 4 := givesR_card e r
  refine le_trans ?_ hR
  refine Set.ncard_le_ncard_of_injOn (fun s : Int => kOf d r s • Gp) ?_ ?_ (Set.toFinite _)
  · rintro s ⟨-, hs, -, x, y, h1, h2⟩
    rw [kOf_point] at h1
    exact ⟨x, y, h1, h2⟩
  · rintro s ⟨-, hs, -⟩ s' ⟨-, hs', -⟩ heq
    simp only [smul_eq_cast, kOf_cast hs.1, kOf_cast hs'.1] at heq
    refine int_eq_of_cast hs hs' ?_
    have : (1 + (d : ZMod N)) * ((s : ZMod N) - s') = 0 := by linear_combination heq
    rcases mul_eq_zero.mp this with h3 | h3
    · exact absurd h3 (d_cast_ne hd)
    · linear_combination h3

/-- **C118** The exception: for the public key -G the second number does not matter at all. -/
theorem C118_minus_G (e : Nat) (r s s' : Int) (h : ValidSig (-Gp) e r s) (hs' : 1 ≤ s' ∧ s' ≤ N - 1) (ht : (r + s') % N ≠ 0) :
    ValidSig (-Gp) e r s' := by
  have hN := N_pos
  have hneg : -Gp = (N - 1) • Gp := by
    rw [eq_comm, eq_neg_iff_add_eq_zero]
    nth_rewrite 2 [← one_smul Nat Gp]
    rw [← add_smul, nsmul_Gp_eq_zero_iff]
    exact ⟨1, by omega⟩
  rw [hneg] at h ⊢
  obtain ⟨hr, hs, -, x, y, h1, h2⟩ := h
  refine ⟨hr, hs', ht, x, y, ?_, h2⟩
  rw [kOf_point] at h1 ⊢
  rw [← h1]
  congr 1
  rw [smul_eq_cast, kOf_cast hs'.1, kOf_cast hs.1]
  have : ((N - 1 : Nat) : ZMod N) = -1 := by
    rw [eq_neg_iff_add_eq_zero]
    have : ((N - 1 + 1 : Nat) : ZMod N) = 0 := by rw [ZMod.natCast_eq_zero_iff]; exact ⟨1, by omega⟩
    push_cast at this; exact this
  rw [this]; ring

/-- **C118** For this key there is a digest of which `(1, s)` is an accepted signature for every `s`. -/
theorem C118_minus_G_case : ∃ (pub : PublicKey) (digest : Bytes), Represents pub (-Gp) ∧
    ∀ s : Int, 1 ≤ s → s ≤ N - 2 → verifyDigestRS pub digest 1 s = true := by
  obtain ⟨pub, -, hp⟩ := exists_pub .sm2p256v1 (-Gp)
  have hGc : coords Gp = some G := by
    have := coords_rep rep_G
    rwa [if_neg (by decide +kernel)] at this
  obtain ⟨y', hneg⟩ := coords_neg (x := G.1) (y := G.2) hGc
  have hN := N_pos
  refine ⟨pub, beBytes 32 ((1 + (N - G.1 % N)) % N), hp, ?_⟩
  have hlt : (1 + (N - G.1 % N)) % N < 256 ^ 32 := Nat.lt_trans (Nat.mod_lt _ hN) N_lt
  intro s h1 h2
  have hpt : s.toNat • Gp + ((1 + s) % N).toNat • (-Gp) = -Gp := by
    have : ((1 + s) % N).toNat = s.toNat + 1 := by
      rw [Int.emod_eq_of_lt (by omega) (by omega)]; omega
    rw [this, add_smul, one_smul, smul_neg, add_neg_cancel_left]
  rw [C09_verify_iff pub _ hp]
  constructor
  · refine ⟨by omega, by omega, ?_, G.1, y', by rw [hpt]; exact hneg, ?_⟩
    · rw [Int.emod_eq_of_lt (by omega) (by omega)]; omega
    · rw [ofBytes_beBytes_of_lt hlt]
      decide +kernel
  · intro x y hc
    rw [hpt, hneg] at hc
    obtain ⟨rfl, -⟩ := Prod.mk.inj (Option.some.inj hc)
    decide +kernel

/-! ## The same for `VerifyDigestRS` -/

/-- **C118** `VerifyDigestRS` accepts the mirrored number exactly when it accepts the given one. -/
theorem C118_verify_mirror (pub : PublicKey) (d : Nat) (hQ : Represents pub (d • Gp)) (digest : Bytes) (r s s' : Int)
    (h : verifyDigestRS pub digest r s = true) (hm : Mirror d r s s') (hs' : 1 ≤ s' ∧ s' ≤ N - 1) (ht : (r + s') % N ≠ 0) :
    verifyDigestRS pub digest r s' = true := by
  rw [C09_verify_iff pub _ hQ] at h ⊢
  refine ⟨C118_mirror d _ r s s' h.1 hm hs' ht, ?_⟩
  intro x y hc
  obtain ⟨⟨hr, hs, -, x0, y0, h1, h2⟩, h3⟩ := h
  have hx0 := h3 x0 y0 h1
  rw [kOf_point] at h1 hc
  obtain ⟨y', h4⟩ := coords_neg h1
  have : kOf d r s' • Gp = -(kOf d r s • Gp) := by
    rw [smul_neg_cast, kOf_cast hs'.1, kOf_cast hs.1]
    rw [mirror_cast] at hm
    linear_combination hm
  rw [this, h4] at hc
  obtain ⟨rfl, -⟩ := Prod.mk.inj (Option.some.inj hc)
  exact hx0

/-- **C118** `VerifyDigestRS` accepts at most four numbers for one digest and one `r`, for every key on the curve but -G. -/
theorem C118_verify_at_most_four (pub : PublicKey) (Q : EP) (hQ : Represents pub Q) (hne : Q ≠ -Gp) (digest : Bytes) (r : Int) :
    {s : Int | verifyDigestRS pub digest r s = true}.ncard ≤ 4 := by
  refine le_trans (Set.ncard_le_ncard (t := {s : Int | ValidSig Q (ofBytes digest) r s}) ?_ ?_) (C118_at_most_four Q hne _ r)
  · intro s hs; exact C09_sound pub Q hQ digest r s hs
  · refine Set.Finite.subset (Set.finite_Icc (1 : Int) (N - 1)) ?_
    rintro s ⟨-, hs, -⟩; exact hs

/-- **C118** Two accepted numbers give the private key of the public key that was used. -/
theorem C118_verify_reveals (priv : PrivateKey) (hk : KeyPair priv) (hd : (priv.d + 1) % N ≠ 0) (digest : Bytes) (r s s' : Int)
    (hx : (P : Int) - N ≤ (r - ofBytes digest) % N) (h : verifyDigestRS priv.pub digest r s = true)
    (h' : verifyDigestRS priv.pub digest r s' = true) (hne : s ≠ s') :
    (priv.d : ZMod N) = -((s + s' : Int) : ZMod N) / ((s + s' + 2 * r : Int) : ZMod N) :=
  (C118_two_reveal_key priv.d (ofBytes digest) hd r s s' hx (C09_sound _ _ hk digest r s h) (C09_sound _ _ hk digest r s' h') hne).2

/-- The signature of the standard's example, and its mirror image: both are accepted, and all hypotheses above are met. -/
theorem C118_case :
    verifyDigestRS exKey.pub exE 0xF5A03B0648D2C4630EEAC513E1BB81A15944DA3827D5B74143AC7EACEEE720B3
      0xB1B6AA29DF212FD8763182BC0D421CA1BB9038FD1F7F42D4840B69C485BBC1AA = true ∧
    verifyDigestRS exKey.pub exE 0xF5A03B0648D2C4630EEAC513E1BB81A15944DA3827D5B74143AC7EACEEE720B3
      0x947902376e968aca3e2617cbe54f6f4edfec1e142fdc1a8ac78e6173e1c81654 = true ∧
    Mirror exKey.d 0xF5A03B0648D2C4630EEAC513E1BB81A15944DA3827D5B74143AC7EACEEE720B3
      0xB1B6AA29DF212FD8763182BC0D421CA1BB9038FD1F7F42D4840B69C485BBC1AA
      0x947902376e968aca3e2617cbe54f6f4edfec1e142fdc1a8ac78e6173e1c81654 ∧
    (exKey.d + 1) % N ≠ 0 ∧
    (P : Int) - N ≤ (0xF5A03B0648D2C4630EEAC513E1BB81A15944DA3827D5B74143AC7EACEEE720B3 - (ofBytes exE : Int)) % N := by
  have hv : verifyDigestRS exKey.pub exE 0xF5A03B0648D2C4630EEAC513E1BB81A15944DA3827D5B74143AC7EACEEE720B3
      0xB1B6AA29DF212FD8763182BC0D421CA1BB9038FD1F7F42D4840B69C485BBC1AA = true :=
    C06_sign_verify_partial exRd exKey exKey_keyPair exE _ _ []
      (by rw [← exE_ok]; exact ex_signRS) (by decide +kernel)
  have hm : Mirror exKey.d 0xF5A03B0648D2C4630EEAC513E1BB81A15944DA3827D5B74143AC7EACEEE720B3
      0xB1B6AA29DF212FD8763182BC0D421CA1BB9038FD1F7F42D4840B69C485BBC1AA
      0x947902376e968aca3e2617cbe54f6f4edfec1e142fdc1a8ac78e6173e1c81654 := by unfold Mirror; decide +kernel
  exact ⟨hv, C118_verify_mirror exKey.pub exKey.d exKey_keyPair exE _ _ _ hv hm (by decide +kernel) (by decide +kernel), hm,
    by decide +kernel, by decide +kernel⟩

end MCrypto.Props
