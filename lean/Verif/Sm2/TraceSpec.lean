import Verif.Sm2.Trace
/-
What an observer of the curve operations computes (specification for C146). The observer knows no key, no random octet and no point.
-/
namespace MCrypto.Sm2Trace

/-- The observer's register: the number built so far (doubled at a doubling, one more at an addition), and the numbers that were finished. -/
def see (st : Nat × List Nat) : Op → Nat × List Nat
  | .dbl => (2 * st.1, st.2)
  | .add => (st.1 + 1, st.2)
  | .affine => (0, st.2 ++ [st.1])

/-- The numbers that an observer of the operations `tr` writes down. -/
def seen (tr : List Op) : List Nat := (tr.foldl see (0, [])).2

end MCrypto.Sm2Trace
