import Verif.Sm2.Ints
/-
Several goroutines that use package sm2 at the same time. Nothing in /repo/sm2/sm2.go starts one or takes a lock; what is modelled here is
the use of its functions by a concurrent program: the accesses to integers that the functions of Sm2/Ints make are interleaved by a scheduler.

An integer is either shared, that is, it existed when the goroutines were started (the variables of the package, the integers of keys and
signatures that the goroutines were given), or was allocated by one of them. A goroutine has no pointers to integers that another one has
allocated, so it has its own numbers for the ones it has allocated, beginning after those of the shared ones.

Simplifications: one access to an integer is one step (a goroutine can be interrupted between any two of them). Each call has a random
stream of its own (crypto/rand.Reader serialises the reads of its users). Pointers do not pass from one goroutine to another while they run.
-/
namespace MCrypto.Sm2Mem
open MCrypto

/-- A call whose error or panic the caller receives. -/
def M.attempt {α : Type} : M α → M (Res α)
  | .done r => .done (.ok r)
  | .alloc v k => .alloc v fun p => (k p).attempt
  | .load p k => .load p fun v => (k v).attempt
  | .store z v k => .store z v k.attempt

/-- What a goroutine does: calls, each of which may depend on what the calls before it have returned, and assignments. -/
inductive Client where
  | stop
  | call (c : SmCall) (k : Res Out → Client)
  | assign (z : Ref) (v : Int) (k : Client)

/-- The accesses to integers that the goroutine makes; its result is the list of what its calls have returned. -/
def Client.prog (g : Globals) : Client → M (List (Res Out))
  | .stop => pure []
  | .call c k => do
    let r ← (c.prog g).attempt
    let l ← (k r).prog g
    pure (r :: l)
  | .assign z v k => do
    put z v
    k.prog g

/-- A goroutine: the integers it has allocated, and what remains to be executed. -/
structure Goroutine where
  own : Ints
  rest : M (List (Res Out))

/-- The next access of a goroutine. Afterwards: the shared integers, and the goroutine. -/
def Goroutine.step (shared : Ints) (t : Goroutine) : Ints × Goroutine :=
  match t.rest with
  | .done r => (shared, ⟨t.own, .done r⟩)
  | .alloc v k => (shared, ⟨t.own ++ [v], k (shared.length + t.own.length)⟩)
  | .load p k => (shared, ⟨t.own, k (if p < shared.length then shared.get p else t.own.get (p - shared.length))⟩)
  | .store z v k =>
    if z < shared.length then (shared.set z v, ⟨t.own, k⟩) else (shared, ⟨t.own.set (z - shared.length) v, k⟩)

/-- Memory and the goroutines. -/
structure Sys where
  shared : Ints
  gs : List Goroutine

/-- The scheduler lets goroutine number `i` make its next access. -/
def Sys.step (s : Sys) (i : Nat) : Sys :=
  match s.gs[i]? with
  | none => s
  | some t => ⟨(t.step s.shared).1, s.gs.set i (t.step s.shared).2⟩

/-- The accesses made according to a schedule, the list of the numbers of the goroutines. -/
def Sys.exec (s : Sys) (schedule : List Nat) : Sys := schedule.foldl Sys.step s

/-- The goroutines are started. -/
def Sys.start (g : Globals) (shared : Ints) (clients : List Client) : Sys := ⟨shared, clients.map fun c => ⟨[], c.prog g⟩⟩

/-- The number of accesses when executed without interruption. -/
def M.steps {α : Type} : M α → Ints → Nat
  | .done _, _ => 0
  | .alloc v k, m => (k m.length).steps (m ++ [v]) + 1
  | .load p k, m => (k (m.get p)).steps m + 1
  | .store z v k, m => k.steps (m.set z v) + 1

/-- The goroutine itself assigns only to integers that it got from calls that it has made, not to shared ones (of which there are `n`). -/
def Client.Local (n : Nat) : Client → Prop
  | .stop => True
  | .call _ k => ∀ r : Res Out, (∀ o, r = .ok o → ∀ p ∈ o.refs, n ≤ p) → (k r).Local n
  | .assign z _ k => n ≤ z ∧ k.Local n

end MCrypto.Sm2Mem
