import Verif.X509.Display
/-
C81 The `String` methods: names of algorithms.
-/
namespace MCrypto.Props
open MCrypto MCrypto.X509

/-- The value of decimal digits. -/
def digitsValue (l : List Char) : Nat := l.foldl (fun acc c => 10 * acc + (c.toNat - 48)) 0

def IsDigit (c : Char) : Prop := 48 ≤ c.toNat ∧ c.toNat ≤ 57

theorem digit_char {d : Nat} (h : d < 10) : (Char.ofNat (48 + d)).toNat = 48 + d := by
  have : ∀ d < 10, (Char.ofNat (48 + d)).toNat = 48 + d := by decide
  exact this d h

theorem decimal_spec (n : Nat) : digitsValue (decimal n) = n ∧ (∀ c ∈ decimal n, IsDigit c) ∧ decimal n ≠ [] := by
  induction n using Nat.strongRecOn with
  | ind n ih =>
    rw [decimal]
    split
    · rename_i h
      refine ⟨?_, ?_, by simp⟩
      · simp [digitsValue, digit_char h]
      · intro c hc
        rw [List.mem_singleton.mp hc]
        unfold IsDigit
        rw [digit_char h]; omega
    · rename_i h
      obtain ⟨h1, h2, -⟩ := ih (n / 10) (by omega)
      refine ⟨?_, ?_, by simp⟩
      · unfold digitsValue at h1 ⊢
        rw [List.foldl_append, h1]
        simp only [List.foldl_cons, List.foldl_nil, digit_char (Nat.mod_lt n (by decide : 10 > 0))]
        omega
      · intro c hc
        rcases List.mem_append.mp hc with hc | hc
        · exact h2 c hc
        · rw [List.mem_singleton.mp hc]
          unfold IsDigit
          rw [digit_char (Nat.mod_lt n (by decide))]; omega

theorem decimal_inj {n m : Nat} (h : decimal n = decimal m) : n = m := by
  rw [← (decimal_spec n).1, ← (decimal_spec m).1, h]

theorem decimal_no_minus (n : Nat) (l : List Char) : decimal n ≠ '-' :: l := by
  intro h
  have := (decimal_spec n).2.1 '-' (by rw [h]; simp)
  exact absurd this.1 (by decide)

theorem itoa_inj {i j : Int} (h : itoa i = itoa j) : i = j := by
  unfold itoa at h
  split at h <;> split at h
  · injection h with _ h; have := decimal_inj h; omega
  · exact absurd h.symm (decimal_no_minus _ _)
  · exact absurd h (decimal_no_minus _ _)
  · have := decimal_inj h; omega

/-- The first character is a sign or a digit. -/
theorem itoa_head (i : Int) : ∃ c l, itoa i = c :: l ∧ (c = '-' ∨ IsDigit c) := by
  unfold itoa
  split
  · exact ⟨_, _, rfl, .inl rfl⟩
  · obtain ⟨-, h2, h3⟩ := decimal_spec i.natAbs
    match hd : decimal i.natAbs, h3 with
    | c :: l, _ => exact ⟨c, l, rfl, .inr (h2 c (by rw [hd]; simp))⟩

/-- Not a number: starts with a capital letter. -/
theorem not_itoa {s : List Char} (h : ∃ c l, s = c :: l ∧ 65 ≤ c.toNat) (i : Int) : s ≠ itoa i := by
  rintro rfl
  obtain ⟨c, l, h1, h2⟩ := h
  obtain ⟨c', l', h3, h4⟩ := itoa_head i
  rw [h3] at h1
  injection h1 with h1 _
  subst h1
  rcases h4 with rfl | h4
  · exact absurd h2 (by decide)
  · have := h4.2; omega

theorem sigAlg_cases (a : Int) : (∃ x ∈ signatureAlgorithmDetails.zip sigAlgNames, x.1.algo = a ∧ sigAlgString a = x.2.toList) ∨
    ((∀ x ∈ signatureAlgorithmDetails.zip sigAlgNames, x.1.algo ≠ a) ∧ sigAlgString a = itoa a) := by
  unfold sigAlgString
  cases h : (signatureAlgorithmDetails.zip sigAlgNames).find? (fun x => x.1.algo == a) with
  | some x => exact .inl ⟨x, List.mem_of_find?_eq_some h, by have := List.find?_some h; simpa using this, rfl⟩
  | none => exact .inr ⟨fun x hx => by have := List.find?_eq_none.mp h x hx; simpa using this, rfl⟩

/-- **C81** Different signature algorithms have different strings, for all values of the type. -/
theorem C81_sigAlg_injective (a b : Int) (h : sigAlgString a = sigAlgString b) : a = b := by
  have caps : ∀ x ∈ signatureAlgorithmDetails.zip sigAlgNames, ∃ c l, x.2.toList = c :: l ∧ 65 ≤ c.toNat := by
    have : ∀ x ∈ signatureAlgorithmDetails.zip sigAlgNames, (x.2.toList.head?.map fun c => decide (65 ≤ c.toNat)) = some true := by
      decide +kernel
    intro x hx
    have := this x hx
    match hl : x.2.toList with
    | [] => rw [hl] at this; cases this
    | c :: l => rw [hl] at this; exact ⟨c, l, rfl, by simpa using this⟩
  have inj : ∀ x ∈ signatureAlgorithmDetails.zip sigAlgNames, ∀ y ∈ signatureAlgorithmDetails.zip sigAlgNames,
      x.2.toList = y.2.toList → x.1.algo = y.1.algo := by decide +kernel
  rcases sigAlg_cases a with ⟨x, hx, ha, hs⟩ | ⟨-, hs⟩ <;> rcases sigAlg_cases b with ⟨y, hy, hb, ht⟩ | ⟨-, ht⟩
  · rw [← ha, ← hb]; exact inj x hx y hy (by rw [← hs, ← ht, h])
  · exact absurd (by rw [← hs, ← ht, h]) (not_itoa (caps x hx) b)
  · exact absurd (by rw [← hs, ← ht, h]) (not_itoa (caps y hy) a)
  · rw [hs, ht] at h; exact itoa_inj h

/-- **C81** Different public key algorithms have different strings, for all values of the type. -/
theorem C81_pubKeyAlg_injective (a b : Int) (h : pubKeyAlgString a = pubKeyAlgString b) : a = b := by
  have hlen : (publicKeyAlgoName.length : Int) = 6 := rfl
  have named : ∀ a : Int, 0 < a ∧ a < publicKeyAlgoName.length → ∃ n : Nat, n ∈ [1, 2, 3, 4, 5] ∧ a = n ∧
      pubKeyAlgString a = (publicKeyAlgoName.getD n "").toList := by
    intro a ha
    refine ⟨a.toNat, ?_, by omega, by unfold pubKeyAlgString; rw [if_pos ha]⟩
    have h1 : 0 < a.toNat ∧ a.toNat < 6 := by omega
    generalize a.toNat = n at h1
    have : n = 1 ∨ n = 2 ∨ n = 3 ∨ n = 4 ∨ n = 5 := by omega
    simpa using this
  have caps : ∀ n ∈ [1, 2, 3, 4, 5], ∃ c l, (publicKeyAlgoName.getD n "").toList = c :: l ∧ 65 ≤ c.toNat := by
    have : ∀ n ∈ [1, 2, 3, 4, 5], ((publicKeyAlgoName.getD n "").toList.head?.map fun c => decide (65 ≤ c.toNat)) = some true := by
      decide +kernel
    intro n hn
    have := this n hn
    match hl : (publicKeyAlgoName.getD n "").toList with
    | [] => rw [hl] at this; cases this
    | c :: l => rw [hl] at this; exact ⟨c, l, rfl, by simpa using this⟩
  have inj : ∀ n ∈ [1, 2, 3, 4, 5], ∀ m ∈ [1, 2, 3, 4, 5], (publicKeyAlgoName.getD n "").toList = (publicKeyAlgoName.getD m "").toList →
      n = m := by decide +kernel
  have num : ∀ a : Int, ¬ (0 < a ∧ a < publicKeyAlgoName.length) → pubKeyAlgString a = itoa a := by
    intro a ha; unfold pubKeyAlgString; rw [if_neg ha]
  by_cases ha : 0 < a ∧ a < publicKeyAlgoName.length <;> by_cases hb : 0 < b ∧ b < publicKeyAlgoName.length
  · obtain ⟨n, hn, rfl, hs⟩ := named a ha
    obtain ⟨m, hm, rfl, ht⟩ := named b hb
    rw [inj n hn m hm (by rw [← hs, ← ht, h])]
  · obtain ⟨n, hn, rfl, hs⟩ := named a ha
    exact absurd (by rw [← hs, h, num b hb]) (not_itoa (caps n hn) b)
  · obtain ⟨m, hm, rfl, ht⟩ := named b hb
    exact absurd (by rw [← ht, ← h, num a ha]) (not_itoa (caps m hm) a)
  · rw [num a ha, num b hb] at h; exact itoa_inj h

/-- **C81** Different hashes have different strings, for all values of the type (unsigned 64-bit numbers). -/
theorem C81_hash_injective (h k : Nat) (hh : h < 2 ^ 64) (hk : k < 2 ^ 64) (heq : hashString h = hashString k) : h = k := by
  have cases : ∀ h, (∃ x ∈ hashNames, x.1 = h ∧ hashString h = x.2.toList) ∨
      hashString h = "unknown hash value ".toList ++ itoa (asInt h) := by
    intro h
    unfold hashString
    cases hf : hashNames.find? (fun x => x.1 == h) with
    | some x => exact .inl ⟨x, List.mem_of_find?_eq_some hf, by have := List.find?_some hf; simpa using this, rfl⟩
    | none => exact .inr rfl
  have inj : ∀ x ∈ hashNames, ∀ y ∈ hashNames, x.2.toList = y.2.toList → x.1 = y.1 := by decide +kernel
  have nou : ∀ x ∈ hashNames, x.2.toList.head? ≠ some 'u' := by decide +kernel
  have hu : "unknown hash value ".toList.head? = some 'u' := by decide +kernel
  have head : ∀ l, ("unknown hash value ".toList ++ l).head? = some 'u' := fun l => by
    rw [List.head?_append, hu]; rfl
  rcases cases h with ⟨x, hx, rfl, hs⟩ | hs <;> rcases cases k with ⟨y, hy, rfl, ht⟩ | ht
  · exact inj x hx y hy (by rw [← hs, ← ht, heq])
  · exact absurd (by rw [← hs, heq, ht, head]) (nou x hx)
  · exact absurd (by rw [← ht, ← heq, hs, head]) (nou y hy)
  · rw [hs, ht] at heq
    have := itoa_inj (List.append_cancel_left heq)
    unfold asInt at this
    split at this <;> split at this <;> omega

/-- **C81** The names: every algorithm of the package has one, other values are numbers; MD4, alone among the hashes of
the package, has none. -/
theorem C81_names :
    (∀ a : Int, 1 ≤ a → a ≤ 16 → ∃ s ∈ sigAlgNames, sigAlgString a = s.toList) ∧
    (∀ a : Int, a < 1 ∨ 16 < a → sigAlgString a = itoa a) ∧
    (∀ h : Nat, 2 ≤ h → h ≤ 20 → ∃ x ∈ hashNames, x.1 = h ∧ hashString h = x.2.toList) ∧
    hashString 1 = "unknown hash value 1".toList := by
  refine ⟨fun a h1 h2 => ?_, fun a ha => ?_, fun h h1 h2 => ?_, by decide +kernel⟩
  · rcases sigAlg_cases a with ⟨x, hx, -, hs⟩ | ⟨hn, -⟩
    · exact ⟨x.2, (List.of_mem_zip hx).2, hs⟩
    · exfalso
      have : ∀ n : Nat, n < 16 → ∃ x ∈ signatureAlgorithmDetails.zip sigAlgNames, x.1.algo = ((n + 1 : Nat) : Int) := by decide +kernel
      obtain ⟨x, hx, h⟩ := this (a.toNat - 1) (by omega)
      exact hn x hx (by rw [h]; omega)
  · rcases sigAlg_cases a with ⟨x, hx, h, -⟩ | ⟨-, hs⟩
    · exfalso
      have : ∀ x ∈ signatureAlgorithmDetails.zip sigAlgNames, 1 ≤ x.1.algo ∧ x.1.algo ≤ 16 := by decide +kernel
      have := this x hx
      omega
    · exact hs
  · have : ∀ n : Nat, n < 19 → ∃ x ∈ hashNames, x.1 = n + 2 := by decide +kernel
    obtain ⟨x, hx, hxn⟩ := this (h - 2) (by omega)
    unfold hashString
    cases hf : hashNames.find? (fun x => x.1 == h) with
    | some y => exact ⟨y, List.mem_of_find?_eq_some hf, by have := List.find?_some hf; simpa using this, rfl⟩
    | none =>
      have := List.find?_eq_none.mp hf x hx
      exact absurd (by simp; omega) this

/-- **C81** The names by value: they tell the key type and the hash. -/
theorem C81_table :
    (List.range 16).map (fun n => String.ofList (sigAlgString (n + 1))) = ["MD5-RSA", "SHA1-RSA", "SHA256-RSA", "SHA384-RSA", "SHA512-RSA", "DSA-SHA1",
      "DSA-SHA256", "ECDSA-SHA1", "ECDSA-SHA256", "ECDSA-SHA384", "ECDSA-SHA512", "SHA256-RSAPSS", "SHA384-RSAPSS",
      "SHA512-RSAPSS", "Ed25519", "SM2WithSM3"] ∧
    (List.range 6).map (fun n => String.ofList (pubKeyAlgString n)) = ["0", "RSA", "DSA", "ECDSA", "Ed25519", "SM2"] ∧
    (List.range 19).map (fun n => String.ofList (hashString (n + 2))) = ["MD5", "SHA-1", "SHA-224", "SHA-256", "SHA-384", "SHA-512", "MD5+SHA1", "RIPEMD-160",
      "SHA3-224", "SHA3-256", "SHA3-384", "SHA3-512", "SHA-512/224", "SHA-512/256", "BLAKE2s-256", "BLAKE2b-256",
      "BLAKE2b-384", "BLAKE2b-512", "SM3"] := by
  refine ⟨?_, ?_, ?_⟩ <;> decide +kernel

example : sigAlgString 16 = "SM2WithSM3".toList ∧ sigAlgString 0 = ['0'] ∧ sigAlgString (-12) = ['-', '1', '2'] ∧
    pubKeyAlgString 5 = "SM2".toList ∧ hashString 20 = "SM3".toList := by decide +kernel

end MCrypto.Props
