import Verif.Base
import Verif.Sm2.Readers
/-
Vocabulary for C139: what a reader delivers, and what it means that a call with an arbitrary reader does what the same call does with a list of octets.
-/
namespace MCrypto.RdSpec
open MCrypto MCrypto.Sm2.Rd

/-- Whatever buffers it is asked to fill, the reader in this state delivers the octets `L`, in order and without an error, in pieces of its choosing (empty
pieces among them, but not for ever). -/
inductive Delivers (r : GoReader) : r.State → Bytes → Prop
  | nil {s} : Delivers r s []
  | more {s L} : (∀ n, 0 < n → (r.read s n).2.1 = none) → (∀ n, 0 < n → (r.read s n).1 <+: L) →
      (∀ n, 0 < n → Delivers r (r.read s n).2.2 (L.drop (r.read s n).1.length)) → Delivers r s L

/-- The last thing the reader did before it was in state `s'` was to return the error `e`. -/
def LastError (r : GoReader) (e : String) (s' : r.State) : Prop :=
  ∃ s n, 0 < n ∧ (r.read s n).2.1 = some e ∧ (r.read s n).2.2 = s'

/-- A kind of call, for an arbitrary reader: state before, octets delivered, outcome, state after. -/
abbrev Call (r : GoReader) (α : Type) := r.State → Bytes → Res α → r.State → Prop

/-- Every call with the reader `r` that returns does what `f` does with the octets delivered, whatever `f` would find after them; a call that returns an error
returns the one the reader gave, or io.ErrUnexpectedEOF for an io.EOF in the middle of a number, and then `f` finds too few octets. -/
def Follows (r : GoReader) {α : Type} (call : Call r α) (f : Bytes → Res (α × Bytes)) : Prop :=
  ∀ s tr out s', call s tr out s' →
    (∀ a, out = .ok a → ∀ rest, f (tr ++ rest) = .ok (a, rest)) ∧
    (out = .panic → ∀ rest, f (tr ++ rest) = .panic) ∧
    ∀ e, out = .err e → ∃ e0, LastError r e0 s' ∧ (f tr = .err "EOF" ∧ e = e0 ∨ f tr = .err "unexpected EOF" ∧ e = if e0 = "EOF" then "unexpected EOF" else e0)

/-- If the reader delivers `L` and `f` finds what it needs in `L`, the call returns, with the result of `f`, and leaves the rest to be delivered. -/
def Returns (r : GoReader) {α : Type} (call : Call r α) (f : Bytes → Res (α × Bytes)) : Prop :=
  ∀ s L, Delivers r s L →
    (∀ a rest, f L = .ok (a, rest) → ∃ tr s', call s tr (.ok a) s' ∧ L = tr ++ rest ∧ Delivers r s' rest) ∧
    (f L = .panic → ∃ tr s' rest, call s tr .panic s' ∧ L = tr ++ rest ∧ Delivers r s' rest)

/-- The same for a function whose model does not give what is left to be read. -/
def FollowsOut (r : GoReader) {α : Type} (call : Call r α) (f : Bytes → Res α) : Prop :=
  ∀ s tr out s', call s tr out s' →
    ((∀ e, out ≠ .err e) → ∀ rest, f (tr ++ rest) = out) ∧
    ∀ e, out = .err e → ∃ e0, LastError r e0 s' ∧ (f tr = .err "EOF" ∧ e = e0 ∨ f tr = .err "unexpected EOF" ∧ e = if e0 = "EOF" then "unexpected EOF" else e0)

/-- The same for a function whose model does not give what is left to be read. -/
def ReturnsOut (r : GoReader) {α : Type} (call : Call r α) (f : Bytes → Res α) : Prop :=
  ∀ s L, Delivers r s L → ∀ out, f L = out → (∀ e, out ≠ .err e) → ∃ tr s' rest, call s tr out s' ∧ L = tr ++ rest ∧ Delivers r s' rest

/-- A call has at most one outcome. -/
def Determined (r : GoReader) {α : Type} (call : Call r α) : Prop :=
  ∀ s tr out s' tr2 out2 s2, call s tr out s' → call s tr2 out2 s2 → tr2 = tr ∧ out2 = out ∧ s2 = s'

end MCrypto.RdSpec
