import Verif.Props.ListMemory
import Verif.Props.X509ListDer
/-
C134: examples.
-/
namespace MCrypto.Props
open MCrypto Asn1 MCrypto.Go MCrypto.X509 MCrypto.X509Spec

/-- A request for the name with this letter. -/
def exReqDer (name : UInt8) : Bytes :=
  match CreateCertificateRequest exSignEnv.reg { subject := { commonName := [name] }, dnsNames := [[name]] } (some exSigner) with
  | .ok d => d
  | _ => []

/-- It lies in the middle of an array. -/
def exReqMem (name : UInt8) : Heap := [[1], 9 :: 9 :: (exReqDer name ++ [0, 0])]

def exReqSlice : Slice := ⟨1, 2, (exReqDer 97).length, (exReqDer 97).length + 2⟩

theorem exReqMem_valid (name : UInt8) (hl : (exReqDer name).length = (exReqDer 97).length) : (exReqMem name).Valid exReqSlice := by
  unfold Heap.Valid exReqMem exReqSlice Heap.array
  constructor
  · exact Nat.le_add_right _ _
  · simp; omega

/-- Whether it parses, the names, the slices of the signed part and the signature, the algorithm and the key. -/
def exReqInfo (name : UInt8) : Option (List Bytes × Slice × Option Slice × Int × Bool) :=
  match parseRequestMem exEnv (exReqMem name) exReqSlice with
  | .ok m => some (m.val.dnsNames, m.refs.rawTBS, m.refs.signature, m.val.signatureAlgorithm, decide (m.val.publicKey = .rsa ⟨33, 3⟩))
  | _ => none

/-- The hypotheses of C134_request_reused are met: with the buffer used again, the request that shows the name `a` passes the check of its
signature whenever the one for `b` does. -/
example : ∃ m m', parseRequestMem exEnv (exReqMem 97) exReqSlice = .ok m ∧ parseRequestMem exEnv (exReqMem 98) exReqSlice = .ok m' ∧
    (m.at (exReqMem 98)).dnsNames = [[97]] ∧ (m'.at (exReqMem 98)).dnsNames = [[98]] ∧
    ∀ reg V, (m.at (exReqMem 98)).checkSignature reg V = (m'.at (exReqMem 98)).checkSignature reg V := by
  have k : ∃ t w a, exReqInfo 97 = some ([[97]], t, some w, a, true) ∧ exReqInfo 98 = some ([[98]], t, some w, a, true) :=
    ⟨⟨1, 5, 80, 180⟩, ⟨1, 103, 80, 82⟩, 3, by decide +kernel, by decide +kernel⟩
  obtain ⟨t, w, a, k1, k2⟩ := k
  unfold exReqInfo at k1 k2
  cases h1 : parseRequestMem exEnv (exReqMem 97) exReqSlice with
  | ok m =>
    cases h2 : parseRequestMem exEnv (exReqMem 98) exReqSlice with
    | ok m' =>
      rw [h1] at k1
      rw [h2] at k2
      simp only [Option.some.injEq, Prod.mk.injEq, decide_eq_true_eq] at k1 k2
      obtain ⟨a1, a2, a3, a4, a5⟩ := k1
      obtain ⟨b1, b2, b3, b4, b5⟩ := k2
      have hk : (m'.at (exReqMem 98)).publicKey = (m.at (exReqMem 98)).publicKey := by
        show keyAt _ _ m'.val.publicKey = keyAt _ _ m.val.publicKey
        rw [a5, b5]; rfl
      exact ⟨m, m', rfl, rfl, a1, b1, (C134_request_reused exEnv _ _ _ (exReqMem_valid _ rfl) (exReqMem_valid _ (by decide +kernel)) m m' h1 h2
        (by rw [a2, b2]) w a3 b3 (by rw [a4, b4]) hk).1⟩
    | err e => rw [h2] at k2; cases k2
    | panic => rw [h2] at k2; cases k2
  | err e => rw [h1] at k1; cases k1
  | panic => rw [h1] at k1; cases k1

/-- The example list, revoking the number `n`, in the middle of an array. -/
def exCrlMem (n : UInt8) : Heap := [[1], 9 :: 9 :: (exCrlDer.map (fun b => if b = 5 then n else b) ++ [0, 0])]

def exCrlSlice : Slice := ⟨1, 2, exCrlDer.length, exCrlDer.length + 2⟩

theorem exCrlMem_valid (n : UInt8) : (exCrlMem n).Valid exCrlSlice := by
  unfold Heap.Valid exCrlMem exCrlSlice Heap.array
  constructor
  · exact Nat.le_add_right _ _
  · simp; omega

/-- Whether it parses, the revoked numbers, the slices and the algorithm. -/
def exCrlInfo (n : UInt8) : Option (List (Option Int) × CrlRefs × Oid × Nat) :=
  match parseCrlMem (exCrlMem n) exCrlSlice with
  | .ok m => some ((m.val.tbs.revoked.getD []).map (·.serialNumber), m.refs, m.val.signatureAlgorithm.algorithm, m.val.signatureValue.bitLength)
  | _ => none

/-- The hypotheses of C134_crl_reused are met: with the buffer used again for a list that revokes the number 6, the list that shows the
number 5 passes the check of its signature whenever the new one does. -/
example : ∃ m m', parseCrlMem (exCrlMem 5) exCrlSlice = .ok m ∧ parseCrlMem (exCrlMem 6) exCrlSlice = .ok m' ∧
    ((m.at (exCrlMem 6)).tbs.revoked.getD []).map (·.serialNumber) = [some 5] ∧
    ((m'.at (exCrlMem 6)).tbs.revoked.getD []).map (·.serialNumber) = [some 6] ∧
    ∀ reg V (cert : Certificate), cert.checkCRLSignature reg V (m.at (exCrlMem 6)).signedPart =
      cert.checkCRLSignature reg V (m'.at (exCrlMem 6)).signedPart := by
  have k : ∃ t w a b, exCrlInfo 5 = some ([some 5], ⟨t, none, w⟩, a, b) ∧ exCrlInfo 6 = some ([some 6], ⟨t, none, w⟩, a, b) :=
    ⟨⟨1, 4, 63, 75⟩, ⟨1, 76, 1, 3⟩, [1, 2, 3], 8, by decide +kernel, by decide +kernel⟩
  obtain ⟨t, w, a, b, k1, k2⟩ := k
  unfold exCrlInfo at k1 k2
  cases h1 : parseCrlMem (exCrlMem 5) exCrlSlice with
  | ok m =>
    cases h2 : parseCrlMem (exCrlMem 6) exCrlSlice with
    | ok m' =>
      rw [h1] at k1
      rw [h2] at k2
      simp only [Option.some.injEq, Prod.mk.injEq] at k1 k2
      obtain ⟨a1, a2, a3, a4⟩ := k1
      obtain ⟨b1, b2, b3, b4⟩ := k2
      exact ⟨m, m', rfl, rfl, a1, b1, (C134_crl_reused (exCrlMem 5) _ _ (exCrlMem_valid _) (exCrlMem_valid _) m m' h1 h2 (by rw [a2, b2])
        (by rw [a3, b3]) (fun f b hf => by rw [a2] at hf; cases hf) (by rw [a4, b4])).1⟩
    | err e => rw [h2] at k2; cases k2
    | panic => rw [h2] at k2; cases k2
  | err e => rw [h1] at k1; cases k1
  | panic => rw [h1] at k1; cases k1

end MCrypto.Props
