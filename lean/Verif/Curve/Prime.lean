import Mathlib.NumberTheory.LucasPrimality
/-
Primality of the SM2 field prime and group order (sm2.go:47,50), by Pratt certificates checked
in the kernel (Lucas' criterion from Mathlib).
-/
namespace MCrypto.Curve

/-- `b^e mod m` by repeated squaring; `fuel` bounds the number of bits of `e`. -/
def powModF : Nat → Nat → Nat → Nat → Nat
  | 0, _, _, m => 1 % m
  | f + 1, b, e, m =>
    let h := powModF f (b * b % m) (e / 2) m
    if e % 2 = 1 then b * h % m else h

def powMod (b e m : Nat) : Nat := powModF (e.log2 + 1) b e m

theorem powModF_eq (f b e m : Nat) (h : e < 2 ^ f) : powModF f b e m = b ^ e % m := by
  induction f generalizing b e with
  | zero =>
    have : e = 0 := by simpa using h
    subst this; simp [powModF]
  | succ f ih =>
    have h2 : e / 2 < 2 ^ f := by rw [Nat.pow_succ] at h; omega
    rw [powModF]
    simp only [ih (b * b % m) (e / 2) h2]
    have e1 : (b * b % m) ^ (e / 2) % m = b ^ (2 * (e / 2)) % m := by
      rw [← Nat.pow_mod, Nat.pow_mul, Nat.pow_two]
    rw [e1]
    split
    · rename_i ho
      rw [Nat.mul_mod_mod, ← Nat.pow_succ']
      congr 2; omega
    · congr 2; omega

theorem powMod_eq (b e m : Nat) : powMod b e m = b ^ e % m :=
  powModF_eq _ _ _ _ Nat.lt_log2_self

/-- One step of a Pratt certificate: `p`, a generator `a`, the factorisation of `p-1`. -/
abbrev Step := Nat × Nat × List (Nat × Nat)

def checkStep (known : List Nat) (s : Step) : Bool :=
  decide (1 < s.1) && ((s.2.2.map fun x => x.1 ^ x.2).prod == s.1 - 1) &&
  (s.2.2.all fun x => known.contains x.1 && powMod s.2.1 ((s.1 - 1) / x.1) s.1 != 1) &&
  powMod s.2.1 (s.1 - 1) s.1 == 1

def checkAll (known : List Nat) : List Step → Option (List Nat)
  | [] => some known
  | s :: ss => if checkStep known s then checkAll (s.1 :: known) ss else none

theorem checkStep_sound {known : List Nat} (hk : ∀ q ∈ known, q.Prime) {s : Step}
    (h : checkStep known s = true) : s.1.Prime := by
  obtain ⟨p, a, fs⟩ := s
  simp only [checkStep, Bool.and_eq_true, decide_eq_true_eq, beq_iff_eq, List.all_eq_true,
    List.contains_iff_mem, bne_iff_ne, powMod_eq] at h
  obtain ⟨⟨⟨h1, h2⟩, h3⟩, h4⟩ := h
  have cast : ∀ e : Nat, (a : ZMod p) ^ e = 1 ↔ a ^ e % p = 1 := by
    intro e
    rw [show (a : ZMod p) ^ e = ((a ^ e : Nat) : ZMod p) by push_cast; rfl,
      show (1 : ZMod p) = ((1 : Nat) : ZMod p) by simp, ZMod.natCast_eq_natCast_iff', Nat.mod_eq_of_lt h1]
  refine lucas_primality p (a : ZMod p) ((cast _).mpr h4) ?_
  intro q hq hd
  have hd' : q ∣ (fs.map fun x => x.1 ^ x.2).prod := h2 ▸ hd
  rw [Prime.dvd_prod_iff hq.prime] at hd'
  obtain ⟨y, hy, hqy⟩ := hd'
  obtain ⟨x, hx, rfl⟩ := List.mem_map.mp hy
  have hqx : q ∣ x.1 := hq.dvd_of_dvd_pow hqy
  have hxp := hk _ (h3 x hx).1
  have : q = x.1 := (Nat.prime_dvd_prime_iff_eq hq hxp).mp hqx
  rw [this]
  exact fun hc => (h3 x hx).2 ((cast _).mp hc)

theorem checkAll_sound (ss : List Step) (known out : List Nat) (hk : ∀ q ∈ known, q.Prime)
    (h : checkAll known ss = some out) : ∀ q ∈ out, q.Prime := by
  induction ss generalizing known with
  | nil => simp only [checkAll, Option.some.injEq] at h; exact h ▸ hk
  | cons s ss ih =>
    rw [checkAll] at h
    split at h
    · rename_i hc
      refine ih _ ?_ h
      intro q hq
      rcases List.mem_cons.mp hq with rfl | hq
      · exact checkStep_sound hk hc
      · exact hk q hq
    · cases h

/-- Pratt certificates for P and N and every prime they depend on. -/
def cert : List Step := [
  (3, 2, [(2, 1)]),
  (7, 3, [(2, 1), (3, 1)]),
  (43, 3, [(2, 1), (3, 1), (7, 1)]),
  (5, 2, [(2, 2)]),
  (11, 2, [(2, 1), (5, 1)]),
  (23, 5, [(2, 1), (11, 1)]),
  (73, 5, [(2, 3), (3, 2)]),
  (30223, 3, [(2, 1), (3, 2), (23, 1), (73, 1)]),
  (13, 2, [(2, 2), (3, 1)]),
  (101, 2, [(2, 2), (5, 2)]),
  (1213, 2, [(2, 2), (3, 1), (101, 1)]),
  (71209, 7, [(2, 3), (3, 2), (23, 1), (43, 1)]),
  (17, 3, [(2, 4)]),
  (137, 3, [(2, 3), (17, 1)]),
  (823, 3, [(2, 1), (3, 1), (137, 1)]),
  (29, 2, [(2, 2), (7, 1)]),
  (34511, 7, [(2, 1), (5, 1), (7, 1), (17, 1), (29, 1)]),
  (71, 7, [(2, 1), (5, 1), (7, 1)]),
  (2273, 3, [(2, 5), (71, 1)]),
  (4547, 2, [(2, 1), (2273, 1)]),
  (363761, 3, [(2, 4), (5, 1), (4547, 1)]),
  (4773264379806847, 3, [(2, 1), (3, 1), (7, 1), (11, 1), (823, 1), (34511, 1), (363761, 1)]),
  (37, 2, [(2, 2), (3, 2)]),
  (53, 2, [(2, 2), (13, 1)]),
  (743, 5, [(2, 1), (7, 1), (53, 1)]),
  (54983, 5, [(2, 1), (37, 1), (743, 1)]),
  (3079049, 3, [(2, 3), (7, 1), (54983, 1)]),
  (6158099, 2, [(2, 1), (3079049, 1)]),
  (66013261729388519804782124120027, 2, [(2, 1), (13, 1), (1213, 1), (71209, 1), (6158099, 1), (4773264379806847, 1)]),
  (769, 11, [(2, 8), (3, 1)]),
  (337, 10, [(2, 4), (3, 1), (7, 1)]),
  (19, 2, [(2, 1), (3, 2)]),
  (571, 3, [(2, 1), (3, 1), (5, 1), (19, 1)]),
  (5711, 19, [(2, 1), (5, 1), (571, 1)]),
  (3017783777, 3, [(2, 5), (7, 2), (337, 1), (5711, 1)]),
  (4641351449027, 2, [(2, 1), (769, 1), (3017783777, 1)]),
  (61, 2, [(2, 2), (3, 1), (5, 1)]),
  (241, 7, [(2, 4), (3, 1), (5, 1)]),
  (5303, 5, [(2, 1), (11, 1), (241, 1)]),
  (31, 3, [(2, 1), (3, 1), (5, 1)]),
  (1447, 3, [(2, 1), (3, 1), (241, 1)]),
  (179429, 2, [(2, 2), (31, 1), (1447, 1)]),
  (348253387243, 3, [(2, 1), (3, 1), (61, 1), (5303, 1), (179429, 1)]),
  (367, 6, [(2, 1), (3, 1), (61, 1)]),
  (103, 5, [(2, 1), (3, 1), (17, 1)]),
  (2473, 5, [(2, 3), (3, 1), (103, 1)]),
  (67, 2, [(2, 1), (3, 1), (11, 1)]),
  (79, 3, [(2, 1), (3, 1), (13, 1)]),
  (97, 5, [(2, 5), (3, 1)]),
  (8214737, 3, [(2, 4), (67, 1), (79, 1), (97, 1)]),
  (417514796639753, 3, [(2, 3), (7, 1), (367, 1), (2473, 1), (8214737, 1)]),
  (115792089210356248756420345214020892766250353991924191454421193933289684991999, 13, [(2, 1), (43, 1), (30223, 1), (348253387243, 1), (4641351449027, 1), (417514796639753, 1), (66013261729388519804782124120027, 1)]),
  (431, 7, [(2, 1), (5, 1), (43, 1)]),
  (7759, 3, [(2, 1), (3, 2), (431, 1)]),
  (251, 6, [(2, 1), (5, 3)]),
  (14057, 3, [(2, 3), (7, 1), (251, 1)]),
  (127, 3, [(2, 1), (3, 2), (7, 1)]),
  (5801, 3, [(2, 3), (5, 2), (29, 1)]),
  (9061163, 2, [(2, 1), (11, 1), (71, 1), (5801, 1)]),
  (5636460199499, 2, [(2, 1), (31, 1), (79, 1), (127, 1), (9061163, 1)]),
  (101456283590983, 3, [(2, 1), (3, 2), (5636460199499, 1)]),
  (3037, 2, [(2, 2), (3, 1), (11, 1), (23, 1)]),
  (12149, 2, [(2, 2), (3037, 1)]),
  (107615843, 2, [(2, 1), (43, 1), (103, 1), (12149, 1)]),
  (3049, 11, [(2, 3), (3, 1), (127, 1)]),
  (41, 6, [(2, 3), (5, 1)]),
  (83, 2, [(2, 1), (41, 1)]),
  (84163, 2, [(2, 1), (3, 1), (13, 2), (83, 1)]),
  (2566129871, 7, [(2, 1), (5, 1), (3049, 1), (84163, 1)]),
  (181, 2, [(2, 2), (3, 2), (5, 1)]),
  (233, 3, [(2, 3), (29, 1)]),
  (17965699, 2, [(2, 1), (3, 1), (71, 1), (181, 1), (233, 1)]),
  (18120927127286907576013935251791662753637, 6, [(2, 2), (3, 2), (17965699, 1), (107615843, 1), (2566129871, 1), (101456283590983, 1)]),
  (89, 3, [(2, 3), (11, 1)]),
  (179, 2, [(2, 1), (89, 1)]),
  (359, 7, [(2, 1), (179, 1)]),
  (719, 11, [(2, 1), (359, 1)]),
  (1013, 3, [(2, 2), (11, 1), (23, 1)]),
  (59, 2, [(2, 1), (29, 1)]),
  (4957, 2, [(2, 2), (3, 1), (7, 1), (59, 1)]),
  (10042883, 2, [(2, 1), (1013, 1), (4957, 1)]),
  (2368433183657, 3, [(2, 3), (41, 1), (719, 1), (10042883, 1)]),
  (3258964060712033, 3, [(2, 5), (43, 1), (2368433183657, 1)]),
  (125197554539772723432468576818475380947471091418362477724521, 3, [(2, 3), (5, 1), (53, 1), (3258964060712033, 1), (18120927127286907576013935251791662753637, 1)]),
  (110899, 3, [(2, 1), (3, 2), (61, 1), (101, 1)]),
  (117774739, 2, [(2, 1), (3, 2), (59, 1), (110899, 1)]),
  (1413296869, 6, [(2, 2), (3, 1), (117774739, 1)]),
  (115792089210356248756420345214020892766061623724957744567843809356293439045923, 3, [(2, 1), (3, 1), (7759, 1), (14057, 1), (1413296869, 1), (125197554539772723432468576818475380947471091418362477724521, 1)])]

/-- sm2.go:47 -/
def P : Nat := 0xFFFFFFFEFFFFFFFFFFFFFFFFFFFFFFFFFFFFFFFF00000000FFFFFFFFFFFFFFFF
/-- sm2.go:50 -/
def N : Nat := 0xFFFFFFFEFFFFFFFFFFFFFFFFFFFFFFFF7203DF6B21C6052B53BBF40939D54123

theorem cert_ok : ((checkAll [2] cert).map fun l => decide (P ∈ l ∧ N ∈ l)) = some true := by
  decide +kernel

theorem cert_primes : P.Prime ∧ N.Prime := by
  have h := cert_ok
  rw [Option.map_eq_some_iff] at h
  obtain ⟨l, hl, hd⟩ := h
  have hs := checkAll_sound cert [2] l (by simp [Nat.prime_two]) hl
  have := of_decide_eq_true hd
  exact ⟨hs _ this.1, hs _ this.2⟩

attribute [irreducible] P N

theorem P_prime : P.Prime := cert_primes.1
theorem N_prime : N.Prime := cert_primes.2

instance : Fact P.Prime := ⟨P_prime⟩
instance : Fact N.Prime := ⟨N_prime⟩

end MCrypto.Curve
