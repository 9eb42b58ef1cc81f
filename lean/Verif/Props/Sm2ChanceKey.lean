import Verif.Props.Sm2Chance
/-
C142: encryption and key generation (counting over all strings of the octets read; `count` in Sm2Prob.lean).
-/
namespace MCrypto.Props
open MCrypto MCrypto.Sm2 MCrypto.Sm2Spec MCrypto.Curve

/-! ### encryption -/

/-- A nonce point with a coordinate of fewer than 32 octets. -/
def ShortPoint (R : EP) : Prop := ∃ x y, coords R = some (x, y) ∧ (x < 256 ^ 31 ∨ y < 256 ^ 31)

theorem shortPoints : {R : EP | ShortPoint R}.ncard ≤ 5 * 256 ^ 31 := by
  have := EP_finite
  have h1 := ncard_family (fun x => {R : EP | ∃ y, coords R = some (x, y)}) 2 points_x (256 ^ 31)
  have h2 := ncard_family (fun y => {R : EP | ∃ x, coords R = some (x, y)}) 3 points_y (256 ^ 31)
  refine le_trans (Set.ncard_le_ncard ?_ (Set.toFinite _)) ((Set.ncard_union_le
    {R : EP | ∃ x, x < 256 ^ 31 ∧ R ∈ {R : EP | ∃ y, coords R = some (x, y)}}
    {R : EP | ∃ y, y < 256 ^ 31 ∧ R ∈ {R : EP | ∃ x, coords R = some (x, y)}}).trans ?_)
  · rintro R ⟨x, y, h, h3 | h3⟩
    · exact Or.inl ⟨x, h3, y, h⟩
    · exact Or.inr ⟨y, h3, x, h⟩
  · calc _ ≤ 2 * 256 ^ 31 + 3 * 256 ^ 31 := Nat.add_le_add h1 h2
      _ = 5 * 256 ^ 31 := by ring

theorem fullC1_of (rd : Bytes) (j : Nat) (h : ¬ ShortPoint (nonce rd j • Gp)) : fullC1 (nonce rd j) := by
  obtain ⟨y, hy⟩ := coords_nonce rd j
  have e1 := hy
  rw [coords_rep (rep_base (nonce rd j))] at e1
  split at e1
  · cases e1
  · have e := Option.some.inj e1
    unfold fullC1 c1Of
    rw [e]
    constructor <;> by_contra hlt
    · exact h ⟨_, _, hy, Or.inl (by omega)⟩
    · exact h ⟨_, _, hy, Or.inr (by omega)⟩

/-- **C142** For messages of the lengths `Encryt` supports (at most 32 octets or a multiple of 32) it
panics for at most `n/51` of the streams of `n` attempts: with one attempt, in less than two calls of a hundred. -/
theorem C142_encrypt (pub : PublicKey) (msg : Bytes) (hm : msg.length ≤ 32 ∨ msg.length % 32 = 0) (n : Nat) :
    count (40 * n) (fun b => encryt b pub msg = .panic) * 51 ≤ n * 256 ^ (40 * n) := by
  refine share (m := 5 * 256 ^ 31) (le_trans (count_mono fun b hb => ?_) (count_attempts n (fun k => ShortPoint (k • Gp)) _
    ((nonces_le_points _ ShortPoint fun _ _ _ h => h).trans shortPoints))) ?_
  · intro h
    obtain ⟨j, h1, -, -, h4⟩ := (C18_panics_iff b pub msg).mp h
    refine ⟨j, by omega, ?_⟩
    by_contra hs
    exact h4 ⟨fullC1_of b j hs, hm⟩
  · decide +kernel

theorem points_xy (x y : Nat) : {R : EP | coords R = some (x, y)}.ncard ≤ 1 := by
  have := EP_finite
  rw [Set.ncard_le_one_iff]
  intro R S hR hS
  have hR' : coords R = some (x, y) := hR
  have hS' : coords S = some (x, y) := hS
  cases R with
  | zero => cases hR'
  | some a b hab =>
    cases S with
    | zero => cases hS'
    | some a' b' hab' =>
      simp only [coords, Option.some.injEq, Prod.mk.injEq] at hR' hS'
      have e1 : a = a' := ZMod.val_injective _ (hR'.1.trans hS'.1.symm)
      have e2 : b = b' := ZMod.val_injective _ (hR'.2.trans hS'.2.symm)
      subst e1; subst e2; rfl

/-- **C142** Encryption is randomised: a given ciphertext comes out, whatever the key and the message, for at most
`n·2⁻²⁵⁵` of the streams of `n` attempts. -/
theorem C142_ciphertext (ct : Bytes) (n : Nat) :
    count (40 * n) (fun b => ∃ pub msg rd', encryt b pub msg = .ok (ct, rd')) * 2 ^ 255 ≤ n * 256 ^ (40 * n) := by
  refine share (m := 1) (le_trans (count_mono fun b hb => ?_) (count_attempts n
    (fun k => coords (k • Gp) = some (ofBytes ((ct.drop 1).take 32), ofBytes ((ct.drop 33).take 32))) _
    ((nonces_le_points _ _ fun _ _ _ h => h).trans (points_xy _ _)))) ?_
  · rintro ⟨pub, msg, rd', h⟩
    obtain ⟨j, h1, -, -, hf, -, -, hct⟩ := encryt_ok h
    refine ⟨j, by omega, ?_⟩
    have hlt := c1_lt (nonce b j)
    have e := coords_rep (rep_base (nonce b j))
    have hne : c1Of (nonce b j) ≠ (0, 0) := by
      intro h0
      have := hf.1
      rw [h0] at this
      exact absurd this (by decide +kernel)
    rw [if_neg (show ¬ baseMult (toBytes (nonce b j)) = (0, 0) from hne)] at e
    rw [e, hct, show (33 : Nat) = 1 + 32 from rfl, ← List.drop_drop, List.drop_succ_cons, List.drop_zero]
    rw [List.append_assoc, List.append_assoc, List.take_left' (beBytes_length _ _), List.drop_left' (beBytes_length _ _),
      List.take_left' (beBytes_length _ _), ofBytes_beBytes_of_lt hlt.1, ofBytes_beBytes_of_lt hlt.2]
    rfl
  · decide +kernel

/-! ### key generation -/

theorem flip_length (b : Bytes) : (genCandidate b).length = b.length := by
  rcases b with _ | ⟨a, _ | ⟨c, t⟩⟩ <;> simp [genCandidate]

theorem flip_flip (b : Bytes) : genCandidate (genCandidate b) = b := by
  rcases b with _ | ⟨a, _ | ⟨c, t⟩⟩
  · rfl
  · rfl
  · have e : a &&& 0xff = a := by
      have key : ∀ b : BitVec 8, b &&& 0xff#8 = b := by decide +kernel
      exact UInt8.toBitVec_inj.mp (key a.toBitVec)
    simp only [genCandidate, e, UInt8.xor_assoc, UInt8.xor_self, UInt8.xor_zero]

/-- The candidate made of one 32-octet chunk. -/
def candOf (b : Bytes) : Nat := ofBytes (genCandidate b)

theorem keyCand_candOf (rd : Bytes) (i : Nat) (h : 32 * (i + 1) ≤ rd.length) : keyCand rd i = candOf ((rd.drop (32 * i)).take 32) := by
  have := keyCand_drop rd 0 i
  rw [Nat.add_zero] at this
  rw [← this, ← genCandidate_eq _ (by rw [List.length_drop]; omega)]
  rfl

theorem count_cand (p : Nat → Prop) [DecidablePred p] : count 32 (fun b => p (candOf b)) = Nat.count p (256 ^ 32) := by
  rw [← count_numbers]
  unfold count
  refine Set.ncard_congr (fun b _ => genCandidate b) ?_ ?_ ?_
  · rintro b ⟨h1, h2⟩
    exact ⟨(flip_length b).trans h1, h2⟩
  · intro a b _ _ h
    rw [← flip_flip a, h, flip_flip]
  · rintro b ⟨h1, h2⟩
    refine ⟨genCandidate b, ⟨(flip_length b).trans h1, ?_⟩, flip_flip b⟩
    dsimp only [candOf] at h2 ⊢
    rw [flip_flip]; exact h2

theorem count_cand_one (d : Nat) (hd : d < 256 ^ 32) : count 32 (fun b => candOf b = d) = 1 := by
  rw [count_cand (fun x => x = d), Nat.count_eq_card_filter_range]
  rw [show (Finset.range (256 ^ 32)).filter (fun x => x = d) = {d} from by
    ext x; simp only [Finset.mem_filter, Finset.mem_range, Finset.mem_singleton]
    exact ⟨fun h => h.2, fun h => ⟨h ▸ hd, h⟩⟩]
  rfl

theorem count_cand_reject : count 32 (fun b => N ≤ candOf b) = 256 ^ 32 - N := by
  rw [count_cand (fun x => N ≤ x), Nat.count_eq_card_filter_range]
  rw [show (Finset.range (256 ^ 32)).filter (fun x => N ≤ x) = Finset.Ico N (256 ^ 32) from by
    ext x; simp only [Finset.mem_filter, Finset.mem_range, Finset.mem_Ico]; exact and_comm]
  exact Nat.card_Ico _ _

/-- The first candidate below N is `d`, within `n`. -/
def Picks (n d : Nat) (b : Bytes) : Prop := ∃ j, j < n ∧ candOf ((b.drop (32 * j)).take 32) = d ∧ ∀ l, l < j → N ≤ candOf ((b.drop (32 * l)).take 32)

theorem picks_succ (n d : Nat) (hd : d < N) (b : Bytes) :
    Picks (n + 1) d b ↔ (candOf (b.take 32) = d ∨ (N ≤ candOf (b.take 32) ∧ Picks n d (b.drop 32))) := by
  have e : ∀ j, (b.drop (32 * (j + 1))).take 32 = ((b.drop 32).drop (32 * j)).take 32 := by
    intro j; rw [List.drop_drop]; congr 2; omega
  constructor
  · rintro ⟨j, h1, h2, h3⟩
    cases j with
    | zero => left; simpa using h2
    | succ j =>
      right
      refine ⟨by simpa using h3 0 (by omega), j, by omega, by rw [← e]; exact h2, ?_⟩
      intro l hl
      rw [← e]; exact h3 (l + 1) (by omega)
  · rintro (h | ⟨h, j, h1, h2, h3⟩)
    · exact ⟨0, by omega, by simpa using h, by intro l hl; omega⟩
    · refine ⟨j + 1, by omega, by rw [e]; exact h2, ?_⟩
      intro l hl
      cases l with
      | zero => simpa using h
      | succ l => rw [e]; exact h3 l (by omega)

theorem picks_step {M W c w n : Nat} (h : M < W) (ih : M * c + (W - M) ^ n = w) : M * (w + (W - M) * c) + (W - M) ^ (n + 1) = W * w := by
  subst ih
  obtain ⟨t, rfl⟩ := Nat.exists_eq_add_of_lt h
  rw [show M + t + 1 - M = t + 1 by omega]
  ring

theorem count_picks (n d : Nat) (hd : d < N) : N * count (32 * n) (Picks n d) + (256 ^ 32 - N) ^ n = 256 ^ (32 * n) := by
  have hN : N < 256 ^ 32 := N_lt
  induction n with
  | zero =>
    have : count (32 * 0) (Picks 0 d) = 0 := by
      unfold count Picks
      simp
    rw [this]; simp
  | succ n ih =>
    have e1 : 32 * (n + 1) = 32 + 32 * n := by omega
    have e2 : count (32 + 32 * n) (Picks (n + 1) d) = 256 ^ (32 * n) + (256 ^ 32 - N) * count (32 * n) (Picks n d) := by
      have h1 := count_prod 32 (32 * n) (fun b => candOf b = d) (fun _ => True)
      have h2 := count_prod 32 (32 * n) (fun b => N ≤ candOf b) (Picks n d)
      rw [count_cand_one d (by omega), count_all, Nat.one_mul] at h1
      rw [count_cand_reject] at h2
      rw [← h1, ← h2, ← count_or_disjoint]
      · refine count_congr fun b _ => ?_
        rw [picks_succ n d hd]
        simp only [and_true]
      · rintro b - ⟨h3, -⟩ ⟨h4, -⟩
        omega
    rw [e1, e2, pow_add 256 32 (32 * n)]
    exact picks_step hN ih

theorem generateKey_picks (n d : Nat) (hd : d < N) (b : Bytes) (hb : b.length = 32 * n) :
    (∃ key rd', generateKey b = .ok (key, rd') ∧ key.d = d) ↔ Picks n d b := by
  constructor
  · rintro ⟨key, rd', h1, h2⟩
    rcases C23_generateKey b with ⟨j, key', g1, g2, g3, g4, g5, -⟩ | ⟨-, g2⟩
    · rw [g2] at h1
      simp only [Res.ok.injEq, Prod.mk.injEq] at h1
      obtain ⟨rfl, -⟩ := h1
      refine ⟨j, by omega, by rw [← keyCand_candOf b j g1, ← g3]; exact h2, ?_⟩
      intro l hl
      rw [← keyCand_candOf b l (by omega)]
      exact g5 l hl
    · rw [g2] at h1; cases h1
  · rintro ⟨j, h1, h2, h3⟩
    rw [← keyCand_candOf b j (by omega)] at h2
    rcases C23_generateKey b with ⟨i, key, g1, g2, g3, g4, g5, -⟩ | ⟨g1, -⟩
    · refine ⟨key, _, g2, ?_⟩
      have : i = j := by
        rcases Nat.lt_trichotomy i j with h | h | h
        · have := h3 i h
          rw [← keyCand_candOf b i (by omega)] at this
          omega
        · exact h
        · have := g5 j h; omega
      rw [g3, this, h2]
    · have := g1 j (by omega); omega

/-- **C142** `GenerateKey` is exactly uniform: of the streams of `n` candidates, every `D` in [0, N-1] is the
private key for the same number, `(256^(32n) - (256^32 - N)^n) / N`. -/
theorem C142_key_uniform (n d : Nat) (hd : d < N) :
    N * count (32 * n) (fun b => ∃ key rd', generateKey b = .ok (key, rd') ∧ key.d = d) + (256 ^ 32 - N) ^ n = 256 ^ (32 * n) := by
  rw [count_congr fun b hb => generateKey_picks n d hd b hb]
  exact count_picks n d hd

/-- **C142** `GenerateKey` gives up on exactly `(256^32 - N)^n` of the streams of `n` candidates, a share of
less than `2^(-32 n)·2^n`. -/
theorem C142_key_fails (n : Nat) :
    count (32 * n) (fun b => ∃ e, generateKey b = .err e) = (256 ^ 32 - N) ^ n ∧ (256 ^ 32 - N) ^ n * 2 ^ (31 * n) ≤ 256 ^ (32 * n) := by
  constructor
  · have key : ∀ m, count (32 * m) (fun b => ∀ j, j < m → N ≤ candOf ((b.drop (32 * j)).take 32)) = (256 ^ 32 - N) ^ m := by
      intro m
      induction m with
      | zero =>
        have := count_all 0
        rw [Nat.mul_zero]
        refine Eq.trans (count_congr fun b _ => ?_) this
        simp
      | succ m ih =>
        have h := count_prod 32 (32 * m) (fun b => N ≤ candOf b) (fun b => ∀ j, j < m → N ≤ candOf ((b.drop (32 * j)).take 32))
        rw [count_cand_reject, ih] at h
        rw [show 32 * (m + 1) = 32 + 32 * m by omega, pow_succ', ← h]
        refine count_congr fun b _ => ?_
        have e : ∀ j, (b.drop (32 * (j + 1))).take 32 = ((b.drop 32).drop (32 * j)).take 32 := by
          intro j; rw [List.drop_drop]; congr 2; omega
        constructor
        · intro hh
          refine ⟨by simpa using hh 0 (by omega), fun j hj => ?_⟩
          rw [← e]; exact hh (j + 1) (by omega)
        · rintro ⟨h0, hs⟩ j hj
          cases j with
          | zero => simpa using h0
          | succ j => rw [e]; exact hs j (by omega)
    rw [← key n]
    refine count_congr fun b hb => ?_
    rcases C23_generateKey b with ⟨i, key, g1, g2, g3, g4, g5, -⟩ | ⟨g1, g2⟩
    · constructor
      · rintro ⟨e, h⟩; rw [g2] at h; cases h
      · intro h
        have := h i (by omega)
        rw [← keyCand_candOf b i g1] at this
        omega
    · constructor
      · intro _ j hj
        rw [← keyCand_candOf b j (by omega)]
        exact g1 j (by omega)
      · intro _; exact ⟨_, g2⟩
  · have h : (256 ^ 32 - N) * 2 ^ 31 ≤ 256 ^ 32 := by decide +kernel
    calc (256 ^ 32 - N) ^ n * 2 ^ (31 * n) = ((256 ^ 32 - N) * 2 ^ 31) ^ n := by rw [mul_pow, ← pow_mul 2]
      _ ≤ (256 ^ 32) ^ n := Nat.pow_le_pow_left h n
      _ = 256 ^ (32 * n) := by rw [← pow_mul]

/-- **C142** The keys `GenerateKey` should not return (C23: `D = 0` and `D = N-1`) are returned for at most
`2⁻²⁵⁴` of the streams, however long. -/
theorem C142_bad_key (n : Nat) :
    count (32 * n) (fun b => ∃ key rd', generateKey b = .ok (key, rd') ∧ (key.d = 0 ∨ key.d = N - 1)) * 2 ^ 254 ≤ 256 ^ (32 * n) := by
  have hN := one_lt_N
  have h0 := C142_key_uniform n 0 (by omega)
  have h1 := C142_key_uniform n (N - 1) (by omega)
  have hc : count (32 * n) (fun b => ∃ key rd', generateKey b = .ok (key, rd') ∧ (key.d = 0 ∨ key.d = N - 1)) ≤
      count (32 * n) (fun b => ∃ key rd', generateKey b = .ok (key, rd') ∧ key.d = 0) +
      count (32 * n) (fun b => ∃ key rd', generateKey b = .ok (key, rd') ∧ key.d = N - 1) := by
    refine le_trans (count_mono fun b _ hb => ?_) (count_or _ _)
    obtain ⟨key, rd', g1, g2 | g2⟩ := hb
    · exact Or.inl ⟨key, rd', g1, g2⟩
    · exact Or.inr ⟨key, rd', g1, g2⟩
  have hN2 : 2 * 2 ^ 254 ≤ N := by decide +kernel
  generalize count (32 * n) (fun b => ∃ key rd', generateKey b = .ok (key, rd') ∧ key.d = 0) = c0 at *
  generalize count (32 * n) (fun b => ∃ key rd', generateKey b = .ok (key, rd') ∧ key.d = N - 1) = c1 at *
  have e : c0 = c1 := Nat.eq_of_mul_eq_mul_left (show 0 < N by omega) (by omega)
  subst e
  calc _ ≤ (c0 + c0) * 2 ^ 254 := Nat.mul_le_mul_right _ hc
    _ = c0 * (2 * 2 ^ 254) := by ring
    _ ≤ c0 * N := Nat.mul_le_mul_left _ hN2
    _ = N * c0 := Nat.mul_comm _ _
    _ ≤ 256 ^ (32 * n) := by omega

/-! ### cases -/

/-- The hypotheses are met: the key 1 is a key pair, the nonces 1 and 107 and the keys 0 and N-1 are in range. -/
theorem C142_case : KeyPair privOne ∧ (privOne.d + 1) % N ≠ 0 ∧ (∃ digest r s, ValidSig (privOne.d • Gp) (ofBytes digest) r s) ∧
    1 ≤ 107 ∧ 107 ≤ N - 1 ∧ 0 < N ∧ N - 1 < N := by
  have := one_lt_N
  refine ⟨keyPair_one, by decide +kernel, ?_, by decide, by decide +kernel, by omega, by omega⟩
  obtain ⟨rd, digest, r, s, rd', -, h1, -⟩ := C06_fails
  exact ⟨digest, r, s, C06_sign_valid _ _ _ _ _ _ h1⟩

/-- The counted events do occur, so none of the bounds is about an empty set: a rejected signature (C06), a panic of
`Encryt` for the nonce 107 (C18), the key 0 (C23). -/
theorem C142_occurs :
    (∃ n digest, 0 < count (40 * n) (fun b => ∃ r s rd', signDigestRS b privOne digest = .ok (r, s, rd') ∧ verifyDigestRS privOne.pub digest r s = false)) ∧
    0 < count (40 * 1) (fun b => encryt b exKey.pub [0x61] = .panic) ∧
    0 < count (32 * 1) (fun b => ∃ key rd', generateKey b = .ok (key, rd') ∧ (key.d = 0 ∨ key.d = N - 1)) := by
  have pos : ∀ (n : Nat) (Q : Bytes → Prop) (b : Bytes), b.length = n → Q b → 0 < count n Q := fun n Q b h1 h2 =>
    (Set.ncard_pos (strings_finite n Q)).mpr ⟨b, h1, h2⟩
  refine ⟨?_, ?_, ?_⟩
  · obtain ⟨rd, digest, r, s, rd', h0, h1, -, h3⟩ := C06_fails
    exact ⟨1, digest, pos _ _ rd h0 ⟨r, s, rd', h1, h3⟩⟩
  · exact pos _ _ _ (beBytes_length 40 106) C18_fails.2
  · exact pos _ _ (0 :: 0x42 :: List.replicate 30 0) (by decide) ⟨_, _, C23_fails.1, Or.inl rfl⟩

end MCrypto.Props
