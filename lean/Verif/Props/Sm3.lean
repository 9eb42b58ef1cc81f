import Verif.Sm3.Lemmas
/-
Property theorems C01-C05 (SM3).  Model: Verif/Sm3/Model.lean; specification: Verif/Sm3/Spec.lean.
-/
namespace MCrypto.Props
open MCrypto MCrypto.Sm3

/-! ## Specification of a history: the append log -/

/-- The bytes written since the last `Reset`, after a history. -/
def logAfter (log : Bytes) : List Op → Bytes
  | [] => log
  | .write p :: ops => logAfter (log ++ p) ops
  | .sum _ :: ops => logAfter log ops
  | .reset :: ops => logAfter [] ops

/-- What a caller should observe: `Write` reports all bytes, `Sum(in)` returns `in` followed by the
digest `H` of the log, `Reset` clears the log. -/
def specRun (H : Bytes → Bytes) (log : Bytes) : List Op → List Out
  | [] => []
  | .write p :: ops => .wrote p.length none :: specRun H (log ++ p) ops
  | .sum inp :: ops => .summed (.ok (inp ++ H log)) :: specRun H log ops
  | .reset :: ops => .unit :: specRun H [] ops

/-- C01: `sm3.Sum(m)` is the GB/T 32905 digest of `m`, for all messages the standard covers. -/
theorem C01_sm3_conforms (m : Bytes) (_h : 8 * m.length < 2 ^ 64) :
    sumR m = .ok (Sm3Spec.sm3 m) :=
  sumR_eq m

/-- The zero count of the specification is the least one reaching 56 mod 64 (5.2 of the standard). -/
theorem C01_padding_minimal (l : Nat) :
    (l + 1 + Sm3Spec.zeros l) % 64 = 56 ∧ ∀ k, (l + 1 + k) % 64 = 56 → Sm3Spec.zeros l ≤ k := by
  unfold Sm3Spec.zeros
  constructor
  · omega
  · intro k hk; omega

example : 8 * ([0x61, 0x62, 0x63] : Bytes).length < 2 ^ 64 := by decide
/-- Test (not a proof of C01): the standard's example 1, "abc". -/
example : sumR [0x61, 0x62, 0x63] = .ok [
    0x66, 0xc7, 0xf0, 0xf4, 0x62, 0xee, 0xed, 0xd9, 0xd1, 0xf2, 0xd4, 0x6b, 0xdc, 0x10, 0xe4, 0xe2,
    0x41, 0x67, 0xc4, 0x87, 0x5c, 0xf2, 0xf7, 0xa2, 0x29, 0x7d, 0xa0, 0x2b, 0x8f, 0x4b, 0xa8, 0xe0] := by
  decide +kernel

/-- C02: any chunking of the input gives the digest of the concatenation. -/
theorem C02_chunking (chunks : List Bytes) :
    (chunks.foldl Digest.write new).sum [] = sumR chunks.flatten := by
  have key : ∀ (d : Digest) (data : Bytes), Inv d data →
      Inv (chunks.foldl Digest.write d) (data ++ chunks.flatten) := by
    induction chunks with
    | nil => intro d data h; simpa using h
    | cons c cs ih =>
      intro d data h
      simpa using ih _ _ (inv_write h c)
  have h1 := checkSum_of_inv (key new [] inv_new)
  rw [sumR_eq]
  rw [Digest.sum, h1, List.nil_append]
  rfl

example : ((new.write [1, 2]).write [3]).sum [] = sumR [1, 2, 3] := C02_chunking [[1, 2], [3]]

theorem run_spec {d : Digest} {log : Bytes} (h : Inv d log) (ops : List Op) :
    (run d ops).2 = specRun Sm3Spec.sm3 log ops ∧ Inv (run d ops).1 (logAfter log ops) := by
  induction ops generalizing d log with
  | nil => exact ⟨rfl, h⟩
  | cons op ops ih =>
    cases op with
    | write p =>
      have := ih (inv_write h p)
      exact ⟨by simp only [run, step, specRun, Digest.writeRet, this.1], this.2⟩
    | sum inp =>
      have := ih h
      refine ⟨?_, this.2⟩
      simp only [run, step, specRun, Digest.sum, checkSum_of_inv h, this.1]
      simp
    | reset =>
      have := ih (inv_reset h)
      exact ⟨by simp only [run, step, specRun, this.1], this.2⟩

/-- C03: every history of `Write`, `Sum`, `Reset` on a fresh hash is observed exactly as the append
log prescribes. -/
theorem C03_history (ops : List Op) : (run new ops).2 = specRun Sm3Spec.sm3 [] ops := (run_spec inv_new ops).1

/-- C03: in particular `Sum` leaves no trace: removing a `Sum` changes no other observation. -/
theorem C03_sum_pure (pre post : List Op) (inp : Bytes) :
    (run new (pre ++ .sum inp :: post)).1 = (run new (pre ++ post)).1 := by
  have app : ∀ (d : Digest) (a b : List Op), (run d (a ++ b)).1 = (run (run d a).1 b).1 := by
    intro d a b
    induction a generalizing d with
    | nil => rfl
    | cons x a ih => simp only [List.cons_append, run, ih]
  rw [app, app]; rfl

example (H : Bytes → Bytes) : specRun H [] [.write [1], .sum [9], .write [2], .reset, .sum []] =
    [.wrote 1 none, .summed (.ok (9 :: H [1])), .wrote 1 none, .unit, .summed (.ok (H []))] := rfl

/-- C04: no history makes any call panic or fail: every `Write` reports all its bytes without error
and every `Sum` returns its argument followed by 32 bytes. -/
theorem C04_no_panic (ops : List Op) (i : Nat) (hi : i < ops.length) :
    match ops[i], (run new ops).2[i]? with
    | .write p, some o => o = .wrote p.length none
    | .sum inp, some o => ∃ dig : Bytes, dig.length = 32 ∧ o = .summed (.ok (inp ++ dig))
    | .reset, some o => o = .unit
    | _, none => False := by
  rw [C03_history]
  suffices ∀ log : Bytes, match ops[i], (specRun Sm3Spec.sm3 log ops)[i]? with
    | .write p, some o => o = .wrote p.length none
    | .sum inp, some o => ∃ dig : Bytes, dig.length = 32 ∧ o = .summed (.ok (inp ++ dig))
    | .reset, some o => o = .unit
    | _, none => False from this []
  induction ops generalizing i with
  | nil => simp at hi
  | cons op ops ih =>
    intro log
    cases i with
    | zero =>
      cases op with
      | write p => simp [specRun]
      | sum inp => exact ⟨_, sm3_length log, rfl⟩
      | reset => simp [specRun]
    | succ i =>
      have hi' : i < ops.length := by simpa using hi
      cases op with
      | write p => simpa [specRun] using ih i hi' (log ++ p)
      | sum inp => simpa [specRun] using ih i hi' log
      | reset => simpa [specRun] using ih i hi' []

example : (2 : Nat) < [Op.write [1], Op.reset, Op.sum []].length := by decide

/-- C05: without a length bound, `sm3.Sum` hashes the message padded with the bit length reduced
modulo 2^64 (`beBytes 8` keeps the low 64 bits); it never fails. -/
theorem C05_any_length (m : Bytes) : sumR m = .ok (Sm3Spec.sm3 m) :=
  sumR_eq m

/-- C05: the length field wraps: messages of 2^61 bytes and the empty message carry the same field. -/
theorem C05_length_field_wraps (n : Nat) : beBytes 8 (8 * (n + 2 ^ 61)) = beBytes 8 (8 * n) := by
  apply ofBytes_inj
  · simp
  · rw [ofBytes_beBytes, ofBytes_beBytes]; omega

end MCrypto.Props
