import Verif.Props.X509KeyDer
import Mathlib.FieldTheory.Finite.Basic
import Mathlib.Data.Int.GCD
/-
C103: what `ParsePKCS1PrivateKey` and `ParsePKCS8PrivateKey` guarantee about RSA keys (pkcs1.go:47-97, pkcs8.go:33-82;
model Verif/X509/Keys.lean).
-/
namespace MCrypto.Props
open MCrypto MCrypto.X509 MCrypto.X509Spec

theorem list_prod_dvd {x : Int} : ∀ {l : List Int}, (l.Pairwise fun p q => IsCoprime p q) → (∀ p ∈ l, p ∣ x) → l.prod ∣ x
  | [], _, _ => one_dvd x
  | p :: l, h, hd => by
    rw [List.pairwise_cons] at h
    rw [List.prod_cons]
    refine IsCoprime.mul_dvd ?_ (hd p (by simp)) (list_prod_dvd h.2 fun q hq => hd q (by simp [hq]))
    have : ∀ {l : List Int}, (∀ q ∈ l, IsCoprime p q) → IsCoprime p l.prod := by
      intro l
      induction l with
      | nil => intro _; exact isCoprime_one_right
      | cons q l ih =>
        intro h
        rw [List.prod_cons]
        exact IsCoprime.mul_right (h q (by simp)) (ih fun r hr => h r (by simp [hr]))
    exact this h.1

theorem fermat {p n : Nat} (hp : p.Prime) (m : Int) (h : (p - 1) ∣ (n - 1)) (hn : 1 ≤ n) : (p : Int) ∣ m ^ n - m := by
  have : Fact p.Prime := ⟨hp⟩
  rw [← ZMod.intCast_zmod_eq_zero_iff_dvd]
  push_cast
  by_cases h0 : (m : ZMod p) = 0
  · rw [h0, zero_pow (by omega), sub_zero]
  · obtain ⟨c, hc⟩ := h
    have e : n = (p - 1) * c + 1 := by omega
    rw [e, pow_succ, pow_mul, ZMod.pow_card_sub_one_eq_one h0, one_pow, one_mul, sub_self]

theorem rsa_works {k : RsaPriv} (hk : IsRsaKey k) (hp : ∀ p ∈ k.primes, p.toNat.Prime) (hd : k.primes.Nodup) (m : Int) :
    (m ^ k.pub.e.toNat) ^ k.d.toNat % k.pub.n = m % k.pub.n := by
  have h1 : (k.pub.e.toNat * k.d.toNat : Nat) = k.pub.e * k.d := by
    have := hk.e_ge; have := hk.dpos
    push_cast
    rw [Int.toNat_of_nonneg (by omega), Int.toNat_of_nonneg (by omega)]
  have h2 : 1 ≤ k.pub.e.toNat * k.d.toNat := by
    have := hk.e_ge; have := hk.dpos
    exact Nat.mul_pos (by omega) (by omega)
  rw [← pow_mul]
  show Int.ModEq k.pub.n _ _
  refine Int.ModEq.symm ?_
  rw [Int.modEq_iff_dvd, ← hk.prod]
  refine list_prod_dvd ?_ fun p hpm => ?_
  · refine hd.imp_of_mem fun {p q} hpm hqm hne => ?_
    have a := hk.primes p hpm
    have b := hk.primes q hqm
    rw [show p = (p.toNat : Int) by omega, show q = (q.toNat : Int) by omega, Nat.isCoprime_iff_coprime]
    exact (Nat.coprime_primes (hp p hpm) (hp q hqm)).mpr (by omega)
  · have a := hk.primes p hpm
    have e := hk.exps p hpm
    rw [← h1] at e
    rw [show p = (p.toNat : Int) by omega] at e ⊢
    refine fermat (hp p hpm) m ?_ h2
    have e2 : ((p.toNat - 1 : Nat) : Int) ∣ ((k.pub.e.toNat * k.d.toNat - 1 : Nat) : Int) := by
      rw [Nat.cast_sub h2, Nat.cast_sub (by omega)]
      exact_mod_cast e
    exact Int.natCast_dvd_natCast.mp e2

/-- **C103** An accepted RSA key whose factors are distinct primes works: raising to the public and the private exponent gives
back every number modulo the modulus. -/
theorem C103_key_works (der : Bytes) (k : RsaPriv) (h : parsePKCS1PrivateKey der = .ok k)
    (hp : ∀ p ∈ k.primes, p.toNat.Prime) (hd : k.primes.Nodup) (m : Int) :
    (m ^ k.pub.e.toNat) ^ k.d.toNat % k.pub.n = m % k.pub.n :=
  rsa_works (C55_pkcs1_private_sound der k h) hp hd m

/-- **C103** The same for PKCS #8. -/
theorem C103_pkcs8_key_works (edPub : Bytes → Bytes) (der : Bytes) (k : RsaPriv) (h : parsePKCS8PrivateKey edPub der = .ok (.rsa k))
    (hp : ∀ p ∈ k.primes, p.toNat.Prime) (hd : k.primes.Nodup) (m : Int) :
    (m ^ k.pub.e.toNat) ^ k.d.toNat % k.pub.n = m % k.pub.n := by
  obtain ⟨o, par, key, -, hk⟩ := (C92_pkcs8_grammar edPub der _).mp h
  rcases hk with ⟨-, r, h1, h2, h3⟩ | ⟨-, d, _, -, ⟨_, -, k', h3, -⟩ | ⟨-, _, -, k', h3, -⟩⟩ | ⟨-, -, _, _, _, -, -, -, h3⟩
  · obtain rfl := PrivKey.rsa.inj h3
    exact C103_key_works key k ((C92_pkcs1_private_grammar key k).mpr ⟨h1, h2⟩) hp hd m
  · unfold ecPrivKey at h3; split at h3 <;> cases h3
  · unfold ecPrivKey at h3; split at h3 <;> cases h3
  · cases h3

/-- **C103** The parser does not check that the factors are primes, or distinct: keys that do not work are accepted. -/
theorem C103_not_checked :
    (parsePKCS1PrivateKey [0x30, 18, 2, 1, 0, 2, 1, 45, 2, 1, 3, 2, 1, 3, 2, 1, 9, 2, 1, 5] = .ok ⟨⟨45, 3⟩, 3, [9, 5]⟩ ∧
      (3 ^ 3) ^ 3 % 45 ≠ 3 % 45) ∧
    (parsePKCS1PrivateKey [0x30, 18, 2, 1, 0, 2, 1, 9, 2, 1, 3, 2, 1, 3, 2, 1, 3, 2, 1, 3] = .ok ⟨⟨9, 3⟩, 3, [3, 3]⟩ ∧
      (3 ^ 3) ^ 3 % 9 ≠ 3 % 9) := by decide +kernel

/-- The hypotheses of C103 are met. -/
example : ∃ k, parsePKCS1PrivateKey exRsaDer = .ok k ∧ (∀ p ∈ k.primes, p.toNat.Prime) ∧ k.primes.Nodup :=
  ⟨⟨⟨15, 3⟩, 3, [3, 5]⟩, by decide +kernel, by decide, by decide⟩

end MCrypto.Props
