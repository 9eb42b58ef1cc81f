import Verif.X509.RsaMem
/- Executions of the functions of X509/RsaMem. -/
namespace MCrypto.RsaMem
open MCrypto MCrypto.Asn1 MCrypto.X509

@[simp] theorem pure_run {α : Type} (a : α) (m : Mem) : (pure a : P α).run m = (m, .ok a) := rfl
@[simp] theorem done_run {α : Type} (r : Res α) (m : Mem) : (P.done r).run m = (m, r) := rfl
@[simp] theorem acc_run {β : Type} (o : Op β) (m : Mem) : (acc o).run m = ((o.run m).1, .ok (o.run m).2) := rfl

theorem bind_run {α β : Type} (x : P α) (f : α → P β) (m : Mem) :
    (x >>= f).run m = match x.run m with
      | (m', .ok a) => (f a).run m'
      | (m', .err e) => (m', .err e)
      | (m', .panic) => (m', .panic) := by
  show (x.bind f).run m = _
  induction x generalizing m with
  | done r => cases r <;> rfl
  | op o k ih => exact ih _ _

theorem bind_run_ok {α β : Type} {x : P α} {f : α → P β} {m m' : Mem} {a : α} (h : x.run m = (m', .ok a)) :
    (x >>= f).run m = (f a).run m' := by rw [bind_run, h]

/-! ## Goroutines that do not write -/

/-- The accesses made from memory `m` leave it as it is. -/
def ReadOnly {α : Type} (m : Mem) : P α → Prop
  | .done _ => True
  | .op o k => (o.run m).1 = m ∧ ReadOnly m (k (o.run m).2)

theorem readOnly_bind {α β : Type} {m : Mem} {x : P α} {f : α → P β} (h : ReadOnly m x)
    (hf : ∀ a, (x.run m).2 = .ok a → ReadOnly m (f a)) : ReadOnly m (x >>= f) := by
  show ReadOnly m (x.bind f)
  induction x with
  | done r =>
    cases r with
    | ok a => exact hf a rfl
    | err e => trivial
    | panic => trivial
  | op o k ih =>
    refine ⟨h.1, ih _ h.2 ?_⟩
    intro a ha
    apply hf a
    show ((k (o.run m).2).run (o.run m).1).2 = _
    rw [h.1]
    exact ha

theorem readOnly_acc {β : Type} {m : Mem} {o : Op β} (h : (o.run m).1 = m) : ReadOnly m (acc o) := ⟨h, trivial⟩

theorem readOnly_run {α : Type} {m : Mem} {x : P α} (h : ReadOnly m x) : (x.run m).1 = m := by
  induction x with
  | done r => rfl
  | op o k ih =>
    show ((k (o.run m).2).run (o.run m).1).1 = m
    rw [h.1]
    exact ih _ h.2

theorem readOnly_step {α : Type} {m : Mem} {x : P α} (h : ReadOnly m x) :
    (x.step m).1 = m ∧ ReadOnly m (x.step m).2 ∧ (x.step m).2.run m = x.run m := by
  cases x with
  | done r => exact ⟨rfl, trivial, rfl⟩
  | op o k =>
    refine ⟨h.1, h.2, ?_⟩
    show _ = (k (o.run m).2).run (o.run m).1
    rw [h.1]
    rfl

/-- Goroutines of which none writes: in each schedule memory stays the same, and what remains of a goroutine has the result that it had from the
beginning. -/
theorem readOnly_exec (m : Mem) (gs : List (P (List Bytes))) (h : ∀ t ∈ gs, ReadOnly m t) (schedule : List Nat) :
    ((Sys.mk m gs).exec schedule).mem = m ∧
      List.Forall₂ (fun t t' => ReadOnly m t' ∧ t'.run m = t.run m) gs ((Sys.mk m gs).exec schedule).gs := by
  suffices H : ∀ (schedule : List Nat) (s : Sys), s.mem = m → List.Forall₂ (fun t t' => ReadOnly m t' ∧ t'.run m = t.run m) gs s.gs →
      (s.exec schedule).mem = m ∧ List.Forall₂ (fun t t' => ReadOnly m t' ∧ t'.run m = t.run m) gs (s.exec schedule).gs by
    exact H schedule _ rfl (List.forall₂_same.mpr fun t ht => ⟨h t ht, rfl⟩)
  intro schedule
  induction schedule with
  | nil => intro s h1 h2; exact ⟨h1, h2⟩
  | cons i schedule ih =>
    intro s h1 h2
    refine ih (s.step i) ?_ ?_
    · unfold Sys.step
      split
      · exact h1
      · rename_i t ht
        rw [h1]
        obtain ⟨j, hj, rfl⟩ := List.getElem?_eq_some_iff.mp ht
        have := List.forall₂_iff_get.mp h2
        exact (readOnly_step (this.2 i (by omega) j).1).1
    · unfold Sys.step
      split
      · exact h2
      · rename_i t ht
        obtain ⟨j, rfl⟩ := List.getElem?_eq_some_iff.mp ht
        rw [List.forall₂_iff_get] at h2 ⊢
        refine ⟨by simpa using h2.1, ?_⟩
        intro n hn hn'
        simp only [List.get_eq_getElem, List.getElem_set]
        split
        · rename_i e
          subst e
          have h3 := h2.2 i hn j
          rw [h1]
          obtain ⟨_, g2, g3⟩ := readOnly_step h3.1
          exact ⟨g2, g3.trans h3.2⟩
        · exact h2.2 n hn (by simpa using hn')

/-! ## The key has been precomputed: the function only reads -/

/-- The `AdditionalPrimes` made from array `a`, element `i` on. -/
def adds (m : Mem) (a : Nat) : Nat → List Int → List AddPrime
  | _, [] => []
  | i, p :: ps => ⟨some p, m.value (.exp a i), m.value (.coeff a i)⟩ :: adds m a (i + 1) ps

theorem deref_run (m : Mem) (r : Option Nat) : (deref r).run m = (m, .ok (r.map m.get)) := by
  cases r <;> rfl

theorem deref_ro (m : Mem) (r : Option Nat) : ReadOnly m (deref r) := by
  cases r with
  | none => trivial
  | some r => exact ⟨rfl, trivial⟩

theorem derefAll_ro (m : Mem) (l : List (Int × Option Nat × Option Nat)) : ReadOnly m (derefAll l) := by
  induction l with
  | nil => trivial
  | cons x l ih =>
    obtain ⟨p, e, c⟩ := x
    exact readOnly_bind (deref_ro m e) fun _ _ => readOnly_bind (deref_ro m c) fun _ _ => readOnly_bind ih fun _ _ => trivial

theorem derefAll_run (m : Mem) (l : List (Int × Option Nat × Option Nat)) :
    (derefAll l).run m = (m, .ok (l.map fun x => ⟨some x.1, x.2.1.map m.get, x.2.2.map m.get⟩)) := by
  induction l with
  | nil => rfl
  | cons x l ih =>
    obtain ⟨p, e, c⟩ := x
    rw [derefAll, bind_run_ok (deref_run m e), bind_run_ok (deref_run m c), bind_run_ok ih]
    rfl

theorem copyCrt_ro (m : Mem) (a n i room : Nat) (ps : List Int) : ReadOnly m (copyCrt a n i room ps) := by
  induction n generalizing i room ps with
  | zero => simp only [copyCrt]; trivial
  | succ n ih =>
    cases room with
    | zero => simp only [copyCrt]; trivial
    | succ room =>
      cases ps with
      | nil => simp only [copyCrt]; trivial
      | cons p ps =>
        simp only [copyCrt]
        exact readOnly_bind (readOnly_acc rfl) fun _ _ => readOnly_bind (readOnly_acc rfl) fun _ _ =>
          readOnly_bind (ih _ _ _) fun _ _ => trivial

theorem copyCrt_run (m : Mem) (a i : Nat) (ps : List Int) :
    ∃ l, (copyCrt a ps.length i ps.length ps).run m = (m, .ok l) ∧
      (l.map fun x => (⟨some x.1, x.2.1.map m.get, x.2.2.map m.get⟩ : AddPrime)) = adds m a i ps := by
  induction ps generalizing i with
  | nil => exact ⟨[], rfl, rfl⟩
  | cons p ps ih =>
    obtain ⟨l, h1, h2⟩ := ih (i + 1)
    refine ⟨(p, m.ptr (.exp a i), m.ptr (.coeff a i)) :: l, ?_, ?_⟩
    · simp only [List.length_cons, copyCrt]
      rw [bind_run_ok (acc_run _ _), bind_run_ok (acc_run _ _)]
      simp only [Op.run]
      rw [bind_run_ok h1]
      rfl
    · rw [List.map_cons, h2]; rfl

theorem precompute_ro (m : Mem) (k : RsaPriv) (h : m.ptr .dp ≠ none) : ReadOnly m (precompute k) := by
  unfold precompute
  obtain ⟨r, hr⟩ := Option.ne_none_iff_exists'.mp h
  split
  · refine readOnly_bind (readOnly_acc rfl) fun a ha => ?_
    obtain rfl : m.ptr .dp = a := Res.ok.inj ha
    rw [hr]; trivial
  · refine readOnly_bind (readOnly_acc rfl) fun a ha => ?_
    obtain rfl : m.ptr .dp = a := Res.ok.inj ha
    rw [hr]; trivial

theorem precompute_run (m : Mem) (k : RsaPriv) (h : m.ptr .dp ≠ none) : (precompute k).run m = (m, .ok ()) := by
  unfold precompute
  obtain ⟨r, hr⟩ := Option.ne_none_iff_exists'.mp h
  split
  · rw [bind_run_ok (acc_run _ _)]; simp only [Op.run, hr]; rfl
  · rw [bind_run_ok (acc_run _ _)]; simp only [Op.run, hr]; rfl

theorem marshal_ro (m : Mem) (k : RsaPriv) (h : m.ptr .dp ≠ none) : ReadOnly m (marshalPKCS1 k) := by
  unfold marshalPKCS1
  refine readOnly_bind (precompute_ro m k h) fun _ _ => ?_
  split
  · refine readOnly_bind (readOnly_acc rfl) fun _ _ => readOnly_bind (readOnly_acc rfl) fun _ _ =>
      readOnly_bind (readOnly_acc rfl) fun _ _ => readOnly_bind (readOnly_acc rfl) fun _ _ =>
      readOnly_bind (readOnly_acc rfl) fun h2 _ => ?_
    have hm : ∀ (x : List (Int × Option Nat × Option Nat)) (dp dq qinv : Option Nat) (f : Option Int → Option Int → Option Int →
        List AddPrime → P Bytes) (_ : ∀ a b c d, ReadOnly m (f a b c d)), ReadOnly m (do
          let dp ← deref dp
          let dq ← deref dq
          let qinv ← deref qinv
          let add ← derefAll x
          f dp dq qinv add) := by
      intro x dp dq qinv f hf
      exact readOnly_bind (deref_ro m _) fun _ _ => readOnly_bind (deref_ro m _) fun _ _ => readOnly_bind (deref_ro m _) fun _ _ =>
        readOnly_bind (derefAll_ro m _) fun _ _ => hf _ _ _ _
    cases h2 with
    | none => exact hm _ _ _ _ _ fun _ _ _ _ => trivial
    | some x => exact readOnly_bind (copyCrt_ro _ _ _ _ _ _) fun _ _ => hm _ _ _ _ _ fun _ _ _ _ => trivial
  · trivial

theorem calls_ro (m : Mem) (k : RsaPriv) (h : m.ptr .dp ≠ none) (n : Nat) : ReadOnly m (calls k n) := by
  induction n with
  | zero => trivial
  | succ n ih => exact readOnly_bind (marshal_ro m k h) fun _ _ => readOnly_bind ih fun _ _ => trivial

/-- The octets for the values in memory. -/
def written (m : Mem) (k : RsaPriv) (p q : Int) (add : List AddPrime) : Bytes :=
  (marshal pkcs1Priv ⟨if k.primes.length > 2 then 1 else 0, k.pub.n, k.pub.e, k.d, p, q, m.value .dp, m.value .dq, m.value .qinv,
    add⟩).getD []

theorem marshal_run (m : Mem) (k : RsaPriv) (h : m.ptr .dp ≠ none) (p q : Int) (more : List Int) (hk : k.primes = p :: q :: more)
    (a : Nat) (ha : m.crt = some a) (hl : m.arrays.getD a 0 = more.length) :
    (marshalPKCS1 k).run m = (m, .ok (written m k p q (adds m a 0 more))) := by
  unfold marshalPKCS1
  rw [bind_run_ok (precompute_run m k h)]
  rw [hk]
  simp only []
  obtain ⟨l, h1, h2⟩ := copyCrt_run m a 0 more
  rw [bind_run_ok (acc_run _ _), bind_run_ok (acc_run _ _), bind_run_ok (acc_run _ _), bind_run_ok (acc_run _ _),
    bind_run_ok (acc_run _ _)]
  simp only [Op.run, ha, Option.map_some, Option.getD_some, hl]
  rw [bind_run_ok h1, bind_run_ok (deref_run m _), bind_run_ok (deref_run m _), bind_run_ok (deref_run m _),
    bind_run_ok (derefAll_run m _), h2, pure_run, written, hk]
  rfl

/-- No CRT values. -/
theorem marshal_run_nil (m : Mem) (k : RsaPriv) (h : m.ptr .dp ≠ none) (p q : Int) (more : List Int) (hk : k.primes = p :: q :: more)
    (ha : m.crt = none) :
    (marshalPKCS1 k).run m = (m, .ok (written m k p q [])) := by
  unfold marshalPKCS1
  rw [bind_run_ok (precompute_run m k h)]
  rw [hk]
  simp only []
  rw [bind_run_ok (acc_run _ _), bind_run_ok (acc_run _ _), bind_run_ok (acc_run _ _), bind_run_ok (acc_run _ _),
    bind_run_ok (acc_run _ _)]
  simp only [Op.run, ha, Option.map_none]
  rw [bind_run_ok (pure_run _ _), bind_run_ok (deref_run m _), bind_run_ok (deref_run m _), bind_run_ok (deref_run m _),
    bind_run_ok (derefAll_run m _), pure_run, written, hk]
  rfl

theorem calls_run (m : Mem) (k : RsaPriv) (w : Bytes) (h : (marshalPKCS1 k).run m = (m, .ok w)) (n : Nat) :
    (calls k n).run m = (m, .ok (List.replicate n w)) := by
  induction n with
  | zero => rfl
  | succ n ih =>
    rw [calls, bind_run_ok h, bind_run_ok ih]
    rfl

/-! ## The key has not been precomputed: one call, executed without interruption -/

/-- Pointers point to integers that exist. -/
def InRange (m : Mem) : Prop := ∀ c r, m.ptr c = some r → r < m.ints.length

/-- A new integer in a field. -/
def putOpt (m : Mem) (c : Cell) : Option Int → Mem
  | none => { m with ptr := fun x => if x = c then none else m.ptr x }
  | some v => { m with ints := m.ints ++ [v], ptr := fun x => if x = c then some m.ints.length else m.ptr x }

theorem putOpt_same (m : Mem) (c : Cell) (v : Option Int) : (putOpt m c v).value c = v := by
  cases v with
  | none => simp [putOpt, Mem.value]
  | some v => simp [putOpt, Mem.value, Mem.get]

theorem putOpt_other {m : Mem} (h : InRange m) {c c' : Cell} (hc : c' ≠ c) (v : Option Int) : (putOpt m c v).value c' = m.value c' := by
  cases v with
  | none => simp only [putOpt, Mem.value, if_neg hc]; rfl
  | some v =>
    simp only [putOpt, Mem.value, if_neg hc]
    cases hp : m.ptr c' with
    | none => rfl
    | some r =>
      have := h _ _ hp
      simp only [Option.map_some, Mem.get, List.getD_eq_getElem?_getD, List.getElem?_append_left this]

theorem putOpt_inRange {m : Mem} (h : InRange m) (c : Cell) (v : Option Int) : InRange (putOpt m c v) := by
  intro x r hr
  cases v with
  | none =>
    simp only [putOpt] at hr ⊢
    split at hr
    · cases hr
    · exact h _ _ hr
  | some v =>
    simp only [putOpt, List.length_append, List.length_singleton] at hr ⊢
    split at hr
    · have := Option.some.inj hr; omega
    · have := h _ _ hr; omega

@[simp] theorem putOpt_crt (m : Mem) (c : Cell) (v : Option Int) : (putOpt m c v).crt = m.crt := by cases v <;> rfl
@[simp] theorem putOpt_arrays (m : Mem) (c : Cell) (v : Option Int) : (putOpt m c v).arrays = m.arrays := by cases v <;> rfl

theorem exponent_run (m : Mem) (d p : Int) (c : Cell) (hp : p ≠ 1) :
    (exponent d p c).run m = (putOpt m c (some (d % (p - 1))), .ok ()) := by
  unfold exponent modInto
  rw [bind_run_ok (acc_run _ _), bind_run_ok (acc_run _ _), bind_run_ok (acc_run _ _), bind_run_ok (acc_run _ _)]
  simp only [Op.run, if_true]
  rw [bind_run_ok (acc_run _ _)]
  have h0 : Mem.get ⟨m.ints ++ [p - 1], fun x => if x = c then some m.ints.length else m.ptr x, m.crt, m.arrays⟩ m.ints.length = p - 1 := by
    simp [Mem.get]
  simp only [Op.run, h0]
  rw [if_neg (by omega), acc_run]
  simp only [Op.run, putOpt]
  congr 2
  rw [List.set_append_right _ _ (Nat.le_refl _), Nat.sub_self]
  rfl

theorem inverse_run (m : Mem) (g n : Int) (c : Cell) : (inverse g n c).run m = (putOpt m c (modInverse g n), .ok ()) := by
  unfold inverse
  cases modInverse g n with
  | none => rfl
  | some v => rfl

theorem crtLoop_run (d : Int) (a len : Nat) (ps : List Int) (hps : ∀ p ∈ ps, p ≠ 1) (i : Nat) (r : Int) (m : Mem) (hm : InRange m)
    (hc : m.crt = some a) (hl : m.arrays.getD a 0 = len) (hi : i + ps.length ≤ len) :
    ∃ m', (crtLoop d i r ps).run m = (m', .ok ()) ∧ InRange m' ∧ m'.crt = some a ∧ m'.arrays = m.arrays ∧
      (∀ c, (∀ j, i ≤ j → c ≠ .exp a j ∧ c ≠ .coeff a j) → m'.value c = m.value c) ∧ adds m' a i ps = crtValues d r ps := by
  induction ps generalizing i r m with
  | nil => exact ⟨m, rfl, hm, hc, rfl, fun _ _ => rfl, rfl⟩
  | cons p ps ih =>
    rw [List.length_cons] at hi
    have hm1 := putOpt_inRange hm (.exp a i) (some (d % (p - 1)))
    have hm2 := putOpt_inRange hm1 (.coeff a i) (modInverse r p)
    obtain ⟨m', h1, h2, h3, h4, h5, h6⟩ := ih (fun x hx => hps x (by simp [hx])) (i + 1) (r * p) _ hm2 (by simpa using hc)
      (by simpa using hl) (by omega)
    refine ⟨m', ?_, h2, h3, by simpa using h4, ?_, ?_⟩
    · rw [crtLoop, bind_run_ok (acc_run _ _)]
      simp only [Op.run, hc, Option.map_some, hl, if_pos (show i < len by omega)]
      rw [bind_run_ok (exponent_run _ _ _ _ (hps p (by simp))), bind_run_ok (inverse_run _ _ _ _), h1]
    · intro c hcc
      rw [h5 c (fun j hj => hcc j (by omega)), putOpt_other hm1 (hcc i (Nat.le_refl _)).2, putOpt_other hm (hcc i (Nat.le_refl _)).1]
    · rw [adds, crtValues, h6, h5 _ (fun j hj => ⟨(by intro e; injection e; omega), (by intro e; cases e)⟩),
        h5 _ (fun j hj => ⟨(by intro e; cases e), (by intro e; injection e; omega)⟩), putOpt_same,
        putOpt_other hm1 (by intro e; cases e), putOpt_same]

theorem precompute_fresh (m : Mem) (k : RsaPriv) (hm : InRange m) (h : m.ptr .dp = none) (p q : Int) (more : List Int)
    (hk : k.primes = p :: q :: more) (h1 : p ≠ 1) (h2 : q ≠ 1) (h3 : ∀ x ∈ more, x ≠ 1) :
    ∃ m' a, (precompute k).run m = (m', .ok ()) ∧ InRange m' ∧ m'.value .dp = some (k.d % (p - 1)) ∧
      m'.value .dq = some (k.d % (q - 1)) ∧ m'.value .qinv = modInverse q p ∧ m'.crt = some a ∧ m'.arrays.getD a 0 = more.length ∧
      adds m' a 0 more = crtValues k.d (p * q) more := by
  have g1 := putOpt_inRange hm .dp (some (k.d % (p - 1)))
  have g2 := putOpt_inRange g1 .dq (some (k.d % (q - 1)))
  have g3 := putOpt_inRange g2 .qinv (modInverse q p)
  generalize hM : putOpt (putOpt (putOpt m .dp (some (k.d % (p - 1)))) .dq (some (k.d % (q - 1)))) .qinv (modInverse q p) = M at g3
  have v1 : M.value .dp = some (k.d % (p - 1)) := by
    rw [← hM, putOpt_other g2 (by decide), putOpt_other g1 (by decide), putOpt_same]
  have v2 : M.value .dq = some (k.d % (q - 1)) := by
    rw [← hM, putOpt_other g2 (by decide), putOpt_same]
  have v3 : M.value .qinv = modInverse q p := by rw [← hM, putOpt_same]
  generalize hM' : ((Op.setCrt M.arrays.length).run ((Op.newArr more.length).run M).1).1 = M'
  have g4 : InRange M' := by
    subst hM'
    intro c r hr
    simp only [Op.run] at hr ⊢
    cases c with
    | dp => exact g3 _ _ hr
    | dq => exact g3 _ _ hr
    | qinv => exact g3 _ _ hr
    | exp a i =>
      simp only [] at hr
      split at hr
      · cases hr
      · exact g3 _ _ hr
    | coeff a i =>
      simp only [] at hr
      split at hr
      · cases hr
      · exact g3 _ _ hr
  have c1 : M'.crt = some M.arrays.length := by rw [← hM']; rfl
  have c2 : M'.arrays = M.arrays ++ [more.length] := by rw [← hM']; rfl
  have w : ∀ c, c = .dp ∨ c = .dq ∨ c = .qinv → M'.value c = M.value c := by
    rintro c (rfl | rfl | rfl) <;> rw [← hM'] <;> rfl
  have hlen : M'.arrays.getD M.arrays.length 0 = more.length := by rw [c2]; simp
  obtain ⟨m', r1, r2, r3, r4, r5, r6⟩ := crtLoop_run k.d M.arrays.length more.length more h3 0 (p * q) M' g4 c1 hlen (by omega)
  refine ⟨m', M.arrays.length, ?_, r2, ?_, ?_, ?_, r3, ?_, r6⟩
  · unfold precompute
    rw [hk]
    simp only []
    rw [bind_run_ok (acc_run _ _)]
    simp only [Op.run, h]
    rw [bind_run_ok (exponent_run _ _ _ _ h1), bind_run_ok (exponent_run _ _ _ _ h2), bind_run_ok (inverse_run _ _ _ _), hM,
      bind_run_ok (acc_run _ _), bind_run_ok (acc_run _ _)]
    have : ((Op.newArr more.length).run M).2 = M.arrays.length := rfl
    rw [this, hM', r1]
  · rw [r5 _ (fun j _ => ⟨(by intro e; cases e), (by intro e; cases e)⟩), w _ (by simp), v1]
  · rw [r5 _ (fun j _ => ⟨(by intro e; cases e), (by intro e; cases e)⟩), w _ (by simp), v2]
  · rw [r5 _ (fun j _ => ⟨(by intro e; cases e), (by intro e; cases e)⟩), w _ (by simp), v3]
  · rw [r4, hlen]

/-- Calling `Precompute` before makes no difference. -/
theorem marshal_after (m m' : Mem) (k : RsaPriv) (h : (precompute k).run m = (m', .ok ())) (h' : m'.ptr .dp ≠ none) :
    (marshalPKCS1 k).run m = (marshalPKCS1 k).run m' := by
  unfold marshalPKCS1
  rw [bind_run_ok h, bind_run_ok (precompute_run m' k h')]

/-! ## What holds in every schedule -/

/-- Whatever the other goroutines do, as long as they keep `Q`: this goroutine keeps it too, and if it ends normally its result satisfies `post`. -/
def Safe {α : Type} (Q : Mem → Prop) (post : α → Prop) : P α → Prop
  | .done r => ∀ a, r = .ok a → post a
  | .op o k => ∀ m, Q m → Q (o.run m).1 ∧ Safe Q post (k (o.run m).2)

theorem safe_bind {α β : Type} {Q : Mem → Prop} {x : P α} {f : α → P β} {post : α → Prop} {post' : β → Prop} (h : Safe Q post x)
    (hf : ∀ a, post a → Safe Q post' (f a)) : Safe Q post' (x >>= f) := by
  show Safe Q post' (x.bind f)
  induction x with
  | done r =>
    cases r with
    | ok a => exact hf a (h a rfl)
    | err e => intro a ha; cases ha
    | panic => intro a ha; cases ha
  | op o k ih => exact fun m hm => ⟨(h m hm).1, ih _ (h m hm).2⟩

theorem safe_mono {α : Type} {Q : Mem → Prop} {x : P α} {post post' : α → Prop} (h : Safe Q post x) (hp : ∀ a, post a → post' a) :
    Safe Q post' x := by
  induction x with
  | done r => exact fun a ha => hp a (h a ha)
  | op o k ih => exact fun m hm => ⟨(h m hm).1, ih _ (h m hm).2⟩

theorem safe_exec {Q : Mem → Prop} {post : List Bytes → Prop} (schedule : List Nat) (s : Sys) (hq : Q s.mem)
    (h : ∀ t ∈ s.gs, Safe Q post t) : Q (s.exec schedule).mem ∧ ∀ t ∈ (s.exec schedule).gs, Safe Q post t := by
  induction schedule generalizing s with
  | nil => exact ⟨hq, h⟩
  | cons i schedule ih =>
    have hs : Q (s.step i).mem ∧ ∀ t ∈ (s.step i).gs, Safe Q post t := by
      unfold Sys.step
      split
      · exact ⟨hq, h⟩
      · rename_i t ht
        have h1 := h t (List.mem_of_getElem? ht)
        have h2 : Q (t.step s.mem).1 ∧ Safe Q post (t.step s.mem).2 := by
          cases t with
          | done r => exact ⟨hq, h1⟩
          | op o k => exact h1 _ hq
        refine ⟨h2.1, ?_⟩
        intro t' ht'
        rcases List.mem_or_eq_of_mem_set ht' with h' | rfl
        · exact h _ h'
        · exact h2.2
    exact ih _ hs.1 hs.2

end MCrypto.RsaMem
