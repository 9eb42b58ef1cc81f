import Verif.Props.P7Memory
import Verif.Props.Pkcs7Ex
/-
C140: examples.
-/
namespace MCrypto.Props
open MCrypto Asn1 MCrypto.Go MCrypto.X509 MCrypto.X509Spec MCrypto.Pkcs7Spec

/-- The signed message of Props/Pkcs7Ex in the middle of an array. -/
def p7Mem : Heap := [[1], 9 :: 9 :: (p7Out ++ [0, 0])]

def p7Slice : Slice := ⟨1, 2, 450, 452⟩

theorem p7Mem_valid : p7Mem.Valid p7Slice := by
  unfold Heap.Valid p7Mem p7Slice Heap.array
  constructor
  · decide
  · simp [p7Out_length]

theorem p7Mem_read : p7Mem.read p7Slice = p7Out := by
  show ((9 :: 9 :: (p7Out ++ [0, 0]) : Bytes).drop 2).take 450 = p7Out
  rw [List.drop_succ_cons, List.drop_succ_cons, List.drop_zero, ← p7Out_length, List.take_left]

/-- The content is the octet at index 61 of the array. -/
theorem p7Mem_content : (p7Refs p7Mem p7Slice).content.map (fun w => (w.arr, w.off, w.len)) = some (1, 61, 1) := by decide +kernel

/-- The hypotheses of C140_check_then_use are met: `Verify` approves of the message with content `a`; after a `b` has been written over it, `Content`
is `b`, and `Verify` disapproves. -/
example (V : Verifiers) : ∃ m w, parseP7Mem p7Env p7Mem p7Slice = .ok m ∧ m.refs.content = some w ∧ (m.at p7Mem).content = [97] ∧
    (m.at p7Mem).verify (initRegistry p7Hashes) V = .ok () ∧
    (m.at (p7Mem.store w.arr w.off [98])).content = [98] ∧ (m.at (p7Mem.store w.arr w.off [98])).verify (initRegistry p7Hashes) V ≠ .ok () := by
  obtain ⟨p7, s, h1, h2, h3, h4, h5, -⟩ := p7Out_verifies_any V
  rw [← p7Mem_read] at h1
  obtain ⟨m, hm, hat⟩ := (C140_parse p7Env p7Mem p7Slice p7Mem_valid).1 p7 h1
  have hr : m.refs = p7Refs p7Mem p7Slice := by
    unfold parseP7Mem at hm
    rw [h1] at hm
    rw [← Res.ok.inj hm]
  obtain ⟨w, hw, hw2⟩ := Option.map_eq_some_iff.mp p7Mem_content
  simp only [Prod.mk.injEq] at hw2
  rw [← hr] at hw
  have hd : Sm3Spec.sm3 [98] ≠ Sm3Spec.sm3 (m.at p7Mem).content := by
    rw [hat, h2, ← Sm3.sum_eq, ← Sm3.sum_eq]
    decide +kernel
  have ha : s.authenticatedAttributes.getD [] ≠ [] := by
    rcases h4 with ⟨_, h⟩ | ⟨h, _⟩
    · exact absurd h (by decide)
    · exact h
  have k := C140_check_then_use p7Env p7Mem p7Slice p7Mem_valid m hm w hw [98] (by rw [hw2.2.2]; rfl) (initRegistry p7Hashes) V (by rw [hat]; exact h5)
    s (by rw [hat, h3]; simp) ha hd
  exact ⟨m, w, hm, hw, by rw [hat, h2], by rw [hat]; exact h5, k.1, k.2⟩

end MCrypto.Props
