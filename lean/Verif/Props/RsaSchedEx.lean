import Verif.Props.RsaSched
import Verif.Props.X509Pub
/- C141: what can happen to a small key that has not been precomputed; the hypotheses of C141 are met. -/
namespace MCrypto.RsaMem
open MCrypto MCrypto.Asn1 MCrypto.X509 MCrypto.X509Spec

/-- How each goroutine has ended, none while it has not. -/
def results (s : Sys) : List (Option (Res (List Bytes))) := s.gs.map fun t => match t with
  | .done r => some r
  | _ => none

theorem fresh_inRange : InRange fresh := by intro c r h; cases h
theorem toyRsa_key : IsRsaKey toyRsa := (rsaValidate_iff toyRsa).mp (by decide +kernel)
theorem toyRsa3_key : IsRsaKey toyRsa3 := (rsaValidate_iff toyRsa3).mp (by decide +kernel)

/-- The hypotheses of C141_alone, C141_never_other_key and C141_race. -/
example : IsRsaKey toyRsa ∧ toyRsa.primes = [11, 23] ∧ InRange fresh ∧ fresh.ptr .dp = none ∧ ∀ n ∈ fresh.arrays, n + 2 = toyRsa.primes.length :=
  ⟨toyRsa_key, rfl, fresh_inRange, rfl, by intro n hn; cases hn⟩

/-- The hypotheses of C141_precomputed, C141_ends and C141_stale. -/
example : ∃ m a, Holds m toyRsa ∧ m.ptr .dp ≠ none ∧ m.crt = some a ∧ m.arrays.getD a 0 = 0 := by
  obtain ⟨m', w, _, _, _, h⟩ := C141_alone toyRsa toyRsa_key fresh fresh_inRange rfl
  obtain ⟨p, q, more, a, h0, h1, _, _, h4, h5, _⟩ := id h
  have : more = [] := by
    have : [11, 23] = p :: q :: more := h0
    injection this with _ this
    injection this with _ this
    exact this.symm
  subst this
  exact ⟨m', a, h, value_ptr h1, h4, h5⟩
example : ∃ m, Holds m toyRsa3 :=
  have ⟨m', _, _, _, _, h⟩ := C141_alone toyRsa3 toyRsa3_key fresh fresh_inRange rfl
  ⟨m', h⟩

/-- **C141** A goroutine begins after another one has stored the first pointer: the octets it gets have p - 1 in place of the first exponent and lack the
other two CRT values, so they are not an RSAPrivateKey of RFC 8017. -/
theorem C141_incomplete :
    results ((start toyRsa fresh [1, 1]).exec ([0, 0, 0] ++ List.replicate 30 1)) =
      [none, some (.ok [[0x30, 23, 2, 1, 0, 2, 2, 0, 253, 2, 1, 3, 2, 2, 0, 147, 2, 1, 11, 2, 1, 23, 2, 1, 10]])] := by
  decide +kernel

/-- **C141** Three goroutines: the first exponent is reduced twice, to 0, and the third goroutine divides by it. The panic ends the program. -/
theorem C141_crash :
    results ((start toyRsa fresh [1, 1, 1]).exec [0, 1, 2, 0, 0, 1, 1, 2, 2, 0, 0, 0, 0, 1, 1, 1, 1, 2, 2, 2]) =
      [none, none, some .panic] := by
  decide +kernel

/-- **C141** Three primes: a goroutine gets octets without the third prime, which ParsePKCS1PrivateKey does not accept … -/
theorem C141_prime_lost :
    results ((start toyRsa3 fresh [1, 1]).exec (List.replicate 7 0 ++ List.replicate 30 1)) =
      [none, some (.ok [[0x30, 23, 2, 1, 1, 2, 2, 4, 241, 2, 1, 3, 2, 2, 0, 147, 2, 1, 11, 2, 1, 23, 2, 1, 7]])] ∧
    parsePKCS1PrivateKey [0x30, 23, 2, 1, 1, 2, 2, 4, 241, 2, 1, 3, 2, 2, 0, 147, 2, 1, 11, 2, 1, 23, 2, 1, 7] = .err "crypto/rsa" := by
  constructor <;> decide +kernel

/-- **C141** … or none at all (nil). -/
theorem C141_nothing :
    results ((start toyRsa3 fresh [1, 1]).exec (List.replicate 17 0 ++ List.replicate 30 1)) = [none, some (.ok [[]])] := by
  decide +kernel

end MCrypto.RsaMem
