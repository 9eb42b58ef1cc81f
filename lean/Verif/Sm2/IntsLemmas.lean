import Verif.Sm2.Ints
import Verif.Sm2.Lemmas
/-
The functions of Sm2/Ints compute what those of Sm2/Model do, and only add integers to the memory.
-/
namespace MCrypto.Sm2Mem
open MCrypto MCrypto.Curve

/-! ### Evaluation -/

theorem bind_run {α β : Type} (x : M α) (f : α → M β) (m : Ints) : (x >>= f) m = match x m with
  | (m', .ok a) => f a m'
  | (m', .err e) => (m', .err e)
  | (m', .panic) => (m', .panic) := by
  show M.run (M.bind x f) m = _
  induction x generalizing m with
  | done r => cases r <;> rfl
  | alloc v k ih => exact ih _ _
  | load p k ih => exact ih _ _
  | store z v k ih => exact ih _
theorem pure_run {α : Type} (a : α) (m : Ints) : (pure a : M α) m = (m, .ok a) := rfl
theorem lift_run {α : Type} (r : Res α) (m : Ints) : lift r m = (m, r) := rfl
theorem new_run (v : Int) (m : Ints) : new v m = (m ++ [v], .ok m.length) := rfl
theorem val_run (p : Ref) (m : Ints) : val p m = (m, .ok (m.get p)) := rfl
theorem put_run (p : Ref) (v : Int) (m : Ints) : put p v m = (m.set p v, .ok ()) := rfl
theorem add_run (z x y : Ref) (m : Ints) : add z x y m = (m.set z (m.get x + m.get y), .ok ()) := rfl
theorem sub_run (z x y : Ref) (m : Ints) : sub z x y m = (m.set z (m.get x - m.get y), .ok ()) := rfl
theorem mul_run (z x y : Ref) (m : Ints) : mul z x y m = (m.set z (m.get x * m.get y), .ok ()) := rfl
theorem mod_run (z x y : Ref) (m : Ints) (h : m.get y ≠ 0) : mod z x y m = (m.set z (m.get x % m.get y), .ok ()) := by
  unfold mod
  simp only [bind_run, val_run]
  rw [if_neg h, put_run]
theorem bytes_run (x : Ref) (m : Ints) : bytes x m = (m, .ok (toBytes (m.get x).natAbs)) := rfl

theorem get_old {m : Ints} {p : Ref} (h : p < m.length) (l : Ints) : Ints.get (m ++ l) p = Ints.get m p := by
  unfold Ints.get
  rw [List.getD_eq_getElem?_getD, List.getD_eq_getElem?_getD, List.getElem?_append_left h]
theorem get_new (m l : Ints) (i : Nat) : Ints.get (m ++ l) (m.length + i) = l.getD i 0 := by
  unfold Ints.get
  rw [List.getD_eq_getElem?_getD, List.getD_eq_getElem?_getD, List.getElem?_append_right (by omega)]
  congr 2; omega
theorem get_new0 (m l : Ints) : Ints.get (m ++ l) m.length = l.getD 0 0 := get_new m l 0
theorem set_new (m l : Ints) (i : Nat) (v : Int) : (m ++ l).set (m.length + i) v = m ++ l.set i v := by
  rw [List.set_append_right _ _ (by omega)]
  congr 2; omega
theorem set_new0 (m l : Ints) (v : Int) : (m ++ l).set m.length v = m ++ l.set 0 v := set_new m l 0 v

/-! ### What is in memory -/

/-- The variables of the package have the values that `init` gives them (sm2.go:19, 44-56). -/
structure Intact (m : Ints) (g : Globals) : Prop where
  one : g.one < m.length ∧ m.get g.one = 1
  p : g.curve.p < m.length ∧ m.get g.curve.p = P
  n : g.curve.n < m.length ∧ m.get g.curve.n = N
  b : g.curve.b < m.length ∧ m.get g.curve.b = B
  gx : g.curve.gx < m.length ∧ m.get g.curve.gx = G.1
  gy : g.curve.gy < m.length ∧ m.get g.curve.gy = G.2
  a : g.curve.a < m.length ∧ m.get g.curve.a = A

theorem Intact.ext {m : Ints} {g : Globals} (h : Intact m g) (l : Ints) : Intact (m ++ l) g := by
  obtain ⟨h1, h2, h3, h4, h5, h6, h7⟩ := h
  have k : ∀ {p : Ref} {v : Int}, (p < m.length ∧ m.get p = v) → p < (m ++ l).length ∧ Ints.get (m ++ l) p = v := by
    intro p v ⟨a, b⟩
    exact ⟨by rw [List.length_append]; omega, by rw [get_old a]; exact b⟩
  exact ⟨k h1, k h2, k h3, k h4, k h5, k h6, k h7⟩

/-- The integers of a public key. -/
structure PubRef.Holds (m : Ints) (g : Globals) (pub : PubRef) (v : Sm2.PublicKey) : Prop where
  curve : pub.curve = g.curve ∧ v.curve = .sm2p256v1
  x : pub.x < m.length ∧ m.get pub.x = v.x
  y : pub.y < m.length ∧ m.get pub.y = v.y

/-- The integers of a private key. -/
structure PrivRef.Holds (m : Ints) (g : Globals) (priv : PrivRef) (v : Sm2.PrivateKey) : Prop where
  pub : priv.pub.Holds m g v.pub
  d : priv.d < m.length ∧ m.get priv.d = v.d

theorem PubRef.Holds.ext {m : Ints} {g : Globals} {pub : PubRef} {v : Sm2.PublicKey} (h : pub.Holds m g v) (l : Ints) : pub.Holds (m ++ l) g v := by
  obtain ⟨h1, h2, h3⟩ := h
  refine ⟨h1, ⟨?_, ?_⟩, ⟨?_, ?_⟩⟩
  · rw [List.length_append]; omega
  · rw [get_old h2.1]; exact h2.2
  · rw [List.length_append]; omega
  · rw [get_old h3.1]; exact h3.2

theorem PrivRef.Holds.ext {m : Ints} {g : Globals} {priv : PrivRef} {v : Sm2.PrivateKey} (h : priv.Holds m g v) (l : Ints) :
    priv.Holds (m ++ l) g v :=
  ⟨h.pub.ext l, by rw [List.length_append]; have := h.d.1; omega, by rw [get_old h.d.1]; exact h.d.2⟩

/-! ### The curve -/

theorem scalarMult_eval (c : CurveRefs) (x y : Ref) (k : Bytes) (m : Ints) :
    scalarMult c x y k m = (m ++ [((Curve.scalarMult (m.get c.p).toNat ((m.get x).toNat, (m.get y).toNat) k).1 : Int),
      ((Curve.scalarMult (m.get c.p).toNat ((m.get x).toNat, (m.get y).toNat) k).2 : Int)], .ok (m.length, m.length + 1)) := by
  unfold scalarMult
  generalize hq : Curve.scalarMult = f
  simp only [bind_run, val_run, new_run, pure_run, List.append_assoc, List.length_append, List.length_cons,
    List.length_nil, List.cons_append, List.nil_append]

theorem scalarMult_run {m : Ints} {g : Globals} (hi : Intact m g) {x y : Ref} {a b : Nat} (hx : m.get x = a) (hy : m.get y = b) (k : Bytes) :
    scalarMult g.curve x y k m = (m ++ [((Curve.scalarMult P (a, b) k).1 : Int), ((Curve.scalarMult P (a, b) k).2 : Int)], .ok (m.length, m.length + 1)) := by
  rw [scalarMult_eval, hi.p.2, hx, hy, Int.toNat_natCast, Int.toNat_natCast, Int.toNat_natCast]

theorem scalarBaseMult_run {m : Ints} {g : Globals} (hi : Intact m g) (k : Bytes) :
    scalarBaseMult g.curve k m = (m ++ [((Sm2.baseMult k).1 : Int), ((Sm2.baseMult k).2 : Int)], .ok (m.length, m.length + 1)) :=
  scalarMult_run hi hi.gx.2 hi.gy.2 k

theorem curveAdd_eval (c : CurveRefs) (x1 y1 x2 y2 : Ref) (m : Ints) :
    curveAdd c x1 y1 x2 y2 m = (m ++ [((Curve.add (m.get c.p).toNat ((m.get x1).toNat, (m.get y1).toNat) ((m.get x2).toNat, (m.get y2).toNat)).1 : Int),
      ((Curve.add (m.get c.p).toNat ((m.get x1).toNat, (m.get y1).toNat) ((m.get x2).toNat, (m.get y2).toNat)).2 : Int)], .ok (m.length, m.length + 1)) := by
  unfold curveAdd
  generalize hq : Curve.add = f
  simp only [bind_run, val_run, new_run, pure_run, List.append_assoc, List.length_append, List.length_cons,
    List.length_nil, List.cons_append, List.nil_append]

theorem curveAdd_run {m : Ints} {g : Globals} (hi : Intact m g) {x1 y1 x2 y2 : Ref} {a1 b1 a2 b2 : Nat} (h1 : m.get x1 = a1) (h2 : m.get y1 = b1)
    (h3 : m.get x2 = a2) (h4 : m.get y2 = b2) :
    curveAdd g.curve x1 y1 x2 y2 m = (m ++ [((Curve.add P (a1, b1) (a2, b2)).1 : Int), ((Curve.add P (a1, b1) (a2, b2)).2 : Int)],
      .ok (m.length, m.length + 1)) := by
  rw [curveAdd_eval, hi.p.2, h1, h2, h3, h4]
  simp only [Int.toNat_natCast]

/-! ### Random numbers -/

theorem nextk_run {m : Ints} {g : Globals} (hi : Intact m g) (rd : Reader) : match Sm2.nextk rd with
    | .ok (k, rd') => nextk g g.curve rd m = (m ++ [(k : Int), ((N : Int) - 1)], .ok (m.length, rd'))
    | .err e => nextk g g.curve rd m = (m, .err e)
    | .panic => nextk g g.curve rd m = (m, .panic) := by
  have h1N := one_lt_N
  have hN : (N : Int) - 1 ≠ 0 := by omega
  unfold Sm2.nextk nextk
  cases hr : readFull 40 rd with
  | ok x =>
    obtain ⟨b, rd'⟩ := x
    simp only [bind_run, lift_run, new_run, List.append_assoc, List.length_append, List.length_cons,
      List.length_nil, List.cons_append, List.nil_append, sub_run, get_old hi.n.1, get_old hi.one.1, hi.n.2, hi.one.2, set_new]
    rw [mod_run _ _ _ _ (by rw [get_new]; exact hN)]
    simp only [get_new, get_new0, set_new0, add_run, pure_run, get_old hi.one.1, hi.one.2, List.set_cons_zero, List.set_cons_succ, List.getD_cons_zero, List.getD_cons_succ]
    have : ((ofBytes b % (N - 1) + 1 : Nat) : Int) = (ofBytes b : Int) % ((N : Int) - 1) + 1 := by
      rw [Nat.cast_add, Int.natCast_mod, Nat.cast_sub (Nat.le_of_lt h1N)]; rfl
    rw [this]
  | err e => simp only [bind_run, lift_run]
  | panic => simp only [bind_run, lift_run]

/-! ### Signing -/

/-- Memory has only grown, and the result of a signing loop is two new, different integers with the values `v`. -/
def SignOut (m : Ints) (res : Ints × Res (Ref × Ref × Reader)) (v : Res (Nat × Nat × Reader)) : Prop :=
  ∃ l, res.1 = m ++ l ∧ match v with
    | .ok (a, b, rd) => ∃ pa pb, res.2 = .ok (pa, pb, rd) ∧ (m.length ≤ pa ∧ pa < (m ++ l).length ∧ Ints.get (m ++ l) pa = a) ∧
        (m.length ≤ pb ∧ pb < (m ++ l).length ∧ Ints.get (m ++ l) pb = b) ∧ pa ≠ pb
    | .err e => res.2 = .err e
    | .panic => res.2 = .panic

theorem SignOut.mono {m l0 : Ints} {res : Ints × Res (Ref × Ref × Reader)} {v : Res (Nat × Nat × Reader)} (h : SignOut (m ++ l0) res v) :
    SignOut m res v := by
  obtain ⟨l, h1, h2⟩ := h
  refine ⟨l0 ++ l, by rw [h1, List.append_assoc], ?_⟩
  split at h2
  · obtain ⟨pa, pb, h3, ⟨a1, a2, a3⟩, ⟨b1, b2, b3⟩, h4⟩ := h2
    rw [List.append_assoc] at a2 a3 b2 b3
    rw [List.length_append] at a1 b1
    exact ⟨pa, pb, h3, ⟨by omega, a2, a3⟩, ⟨by omega, b2, b3⟩, h4⟩
  · exact h2
  · exact h2

attribute [local irreducible] Sm2.baseMult Curve.scalarMult Curve.add

theorem signInner_run {g : Globals} {e : Ref} {E : Nat} : ∀ (fuel : Nat) (rd : Reader), rd.length < fuel → ∀ m : Ints, Intact m g →
    e < m.length → m.get e = E → SignOut m (signInner g g.curve e fuel rd m) (Sm2.signInner E rd) := by
  intro fuel
  induction fuel with
  | zero => intro rd h; exact absurd h (Nat.not_lt_zero _)
  | succ fuel ih =>
    intro rd hlt m hi he hE
    have hk := nextk_run hi rd
    have hN : (N : Int) ≠ 0 := by have := one_lt_N; omega
    unfold signInner
    rw [Sm2.signInner]
    split
    · rename_i k rd' hn
      rw [hn] at hk
      have hshort := Sm2.nextk_lt hn
      simp only [] at hk
      rw [bind_run, hk]
      simp only [bind_run, bytes_run, get_new0, List.getD_cons_zero, Int.natAbs_natCast]
      rw [scalarBaseMult_run (hi.ext _)]
      generalize hq : Sm2.baseMult (toBytes k) = q
      simp only [List.append_assoc, List.length_append, List.length_cons, List.length_nil, List.cons_append, List.nil_append, add_run, get_old he, hE,
        get_new, set_new, List.getD_cons_zero, List.getD_cons_succ, List.set_cons_zero, List.set_cons_succ, Nat.zero_add]
      rw [mod_run _ _ _ _ (by rw [get_old hi.n.1, hi.n.2]; exact hN)]
      have hr : ((E : Int) + (q.1 : Int)) % (N : Int) = (((E + q.1) % N : Nat) : Int) := by rw [Int.natCast_mod, Nat.cast_add]
      simp only [get_old hi.n.1, hi.n.2, get_new, set_new, List.getD_cons_zero, List.getD_cons_succ, List.set_cons_zero, List.set_cons_succ, hr, val_run]
      by_cases h0 : (E + q.1) % N = 0
      · rw [if_pos (by rw [h0]; rfl), if_neg (fun h => h.1 h0)]
        exact (ih rd' (by omega) _ (hi.ext _) (by rw [List.length_append]; omega) (by rw [get_old he]; exact hE)).mono
      · rw [if_neg (fun h => h0 (Int.natCast_eq_zero.mp h))]
        simp only [bind_run, new_run, List.append_assoc, List.length_append, List.length_cons, List.length_nil, List.cons_append, List.nil_append, add_run, val_run,
          get_new, get_new0, get_old hi.n.1, hi.n.2, set_new, List.getD_cons_zero, List.getD_cons_succ, List.set_cons_zero, List.set_cons_succ, Nat.zero_add]
        by_cases h1 : (E + q.1) % N + k = N
        · rw [if_pos (by rw [← Nat.cast_add, h1]), if_neg (fun h => h.2 h1)]
          exact (ih rd' (by omega) _ (hi.ext _) (by rw [List.length_append]; omega) (by rw [get_old he]; exact hE)).mono
        · rw [if_neg (fun h => h1 (by exact_mod_cast h)), if_pos ⟨h0, h1⟩, pure_run]
          refine ⟨_, rfl, _, _, rfl, ⟨by omega, by rw [List.length_append]; simp, ?_⟩, ⟨by omega, by rw [List.length_append]; simp, ?_⟩, by omega⟩
          · rw [get_new]; rfl
          · rw [get_new0]; rfl
    · rename_i er hn
      rw [hn] at hk
      simp only [] at hk
      rw [bind_run, hk]
      exact ⟨[], (List.append_nil m).symm, rfl⟩
    · rename_i hn
      rw [hn] at hk
      simp only [] at hk
      rw [bind_run, hk]
      exact ⟨[], (List.append_nil m).symm, rfl⟩

theorem signOuter_run {g : Globals} {e : Ref} {E : Nat} {priv : PrivRef} {v : Sm2.PrivateKey} : ∀ (fuel : Nat) (rd : Reader), rd.length < fuel →
    ∀ m : Ints, Intact m g → priv.Holds m g v → e < m.length → m.get e = E → SignOut m (signOuter g priv e fuel rd m) (Sm2.signOuter v.d E rd) := by
  intro fuel
  induction fuel with
  | zero => intro rd h; exact absurd h (Nat.not_lt_zero _)
  | succ fuel ih =>
    intro rd hlt m hi hp he hE
    have hk := signInner_run (g := g) (rd.length + 1) rd (Nat.lt_succ_self _) m hi he hE
    have hN : (N : Int) ≠ 0 := by have := one_lt_N; omega
    have hN0 : (0 : Int) < N := by have := one_lt_N; omega
    unfold signOuter
    rw [Sm2.signOuter]
    dsimp only
    rw [hp.pub.curve.1]
    obtain ⟨l, hk1, hk2⟩ := hk
    generalize hin : signInner g g.curve e (rd.length + 1) rd m = inn at hk1 hk2
    obtain ⟨mi, ri⟩ := inn
    simp only [] at hk1 hk2
    subst hk1
    split
    · rename_i r k rd' hn
      rw [hn] at hk2
      rw [bind_run, hin]
      have hshort := Sm2.signInner_lt hn
      simp only [] at hk2
      obtain ⟨pr, pk, rfl, ⟨r1, r2, r3⟩, ⟨k1, k2, k3⟩, hne⟩ := hk2
      have hi1 := hi.ext l
      have hp1 := hp.ext l
      have hd := hp1.d
      have he1 : e < (m ++ l).length := by rw [List.length_append]; omega
      have hE1 : Ints.get (m ++ l) e = E := by rw [get_old he]; exact hE
      clear hin
      generalize hm : m ++ l = m1 at *
      simp only [bind_run, new_run, mul_run, sub_run, add_run, List.append_assoc, List.length_append, List.length_cons, List.length_nil, List.cons_append, List.nil_append,
        get_new, get_new0, get_old r2, r3, get_old k2, k3, get_old hd.1, hd.2, get_old hi1.one.1, hi1.one.2, set_new, set_new0, List.getD_cons_zero, List.getD_cons_succ,
        List.set_cons_zero, List.set_cons_succ, Nat.zero_add, newModInverse, val_run]
      have hd1 : ((v.d : Int) + 1).toNat = v.d + 1 := by omega
      rw [hd1]
      have hml : m.length ≤ m1.length := by rw [← hm, List.length_append]; omega
      cases hw : Sm2.modInverseN (v.d + 1) with
      | none =>
        simp only [pure_run, deref, lift_run]
        exact ⟨l ++ [_, _, _], by rw [← List.append_assoc, hm], rfl⟩
      | some w =>
        simp only [bind_run, new_run, pure_run, deref, mul_run, List.append_assoc, List.length_append, List.length_cons, List.length_nil, List.cons_append, List.nil_append,
          get_new, get_new0, set_new, set_new0, List.getD_cons_zero, List.getD_cons_succ, List.set_cons_zero, List.set_cons_succ, Nat.zero_add]
        rw [mod_run _ _ _ _ (by rw [get_old hi1.n.1, hi1.n.2]; exact hN)]
        simp only [get_old hi1.n.1, hi1.n.2, get_new, set_new, List.getD_cons_zero, List.getD_cons_succ, List.set_cons_zero, List.set_cons_succ, val_run]
        generalize hs : ((k : Int) - (r : Int) * (v.d : Int)) * (w : Int) % (N : Int) = sv
        have hs0 : 0 ≤ sv := by rw [← hs]; exact Int.emod_nonneg _ hN
        by_cases h0 : sv = 0
        · rw [if_pos h0, if_neg (by simp [h0])]
          refine SignOut.mono (l0 := l) ?_
          rw [hm]
          exact (ih rd' (by omega) _ (hi1.ext _) (hp1.ext _) (by rw [List.length_append]; omega) (by rw [get_old he1]; exact hE1)).mono
        · rw [if_neg h0, if_pos (by omega), pure_run]
          refine ⟨l ++ [_, _, _, _], by rw [← List.append_assoc, hm], _, _, rfl, ?_⟩
          rw [← List.append_assoc, hm]
          refine ⟨⟨r1, ?_, ?_⟩, ⟨?_, ?_, ?_⟩, ?_⟩
          · rw [List.length_append]; omega
          · rw [get_old r2]; exact r3
          · omega
          · rw [List.length_append]; simp
          · rw [get_new]; simp only [List.getD_cons_zero, List.getD_cons_succ]; omega
          · omega
    · rename_i er hn
      rw [hn] at hk2
      rw [bind_run, hin]
      simp only [] at hk2
      subst hk2
      exact ⟨l, rfl, rfl⟩
    · rename_i hn
      rw [hn] at hk2
      rw [bind_run, hin]
      simp only [] at hk2
      subst hk2
      exact ⟨l, rfl, rfl⟩

end MCrypto.Sm2Mem
