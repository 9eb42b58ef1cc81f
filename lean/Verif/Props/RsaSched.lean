import Verif.Props.RsaCache
import Verif.X509.RsaMemLemmas
import Mathlib.Tactic.ByContra
import Mathlib.Tactic.Linarith
import Mathlib.Tactic.Positivity
/- C141: MarshalPKCS1PrivateKey with the memory of the key, and called by several goroutines at the same time. -/
namespace MCrypto.RsaMem
open MCrypto MCrypto.Asn1 MCrypto.X509 MCrypto.X509Spec

/-- The `Precomputed` part of the key is what belongs to the other fields (RFC 8017, 3.2): the exponents d mod (p - 1), and the coefficients, each the
inverse of the product of the primes before modulo the prime. -/
def Holds (m : Mem) (k : RsaPriv) : Prop :=
  ∃ p q more a, k.primes = p :: q :: more ∧
    m.value .dp = some (k.d % (p - 1)) ∧ m.value .dq = some (k.d % (q - 1)) ∧ m.value .qinv = modInverse q p ∧
    m.crt = some a ∧ m.arrays.getD a 0 = more.length ∧
    ∀ i (hi : i < more.length), m.value (.exp a i) = some (k.d % (more[i] - 1)) ∧
      m.value (.coeff a i) = modInverse (p * q * (more.take i).prod) more[i]

theorem adds_eq_iff (m : Mem) (a : Nat) (d : Int) (ps : List Int) (i : Nat) (r : Int) :
    adds m a i ps = crtValues d r ps ↔ ∀ j (hj : j < ps.length), m.value (.exp a (i + j)) = some (d % (ps[j] - 1)) ∧
      m.value (.coeff a (i + j)) = modInverse (r * (ps.take j).prod) ps[j] := by
  induction ps generalizing i r with
  | nil => simp [adds, crtValues]
  | cons p ps ih =>
    rw [adds, crtValues, List.cons.injEq, ih]
    simp only [AddPrime.mk.injEq, true_and]
    constructor
    · rintro ⟨h1, h2⟩ j hj
      cases j with
      | zero => simpa using h1
      | succ j =>
        have := h2 j (by simpa using hj)
        rw [show i + (j + 1) = i + 1 + j by omega]
        simpa [List.take_succ_cons, Int.mul_assoc] using this
    · intro h
      refine ⟨?_, ?_⟩
      · have := h 0 (Nat.succ_pos _)
        simp only [List.getElem_cons_zero, List.take_zero, List.prod_nil, Int.mul_one, Nat.add_zero] at this
        exact this
      intro j hj
      have := h (j + 1) (by simpa using hj)
      rw [show i + (j + 1) = i + 1 + j by omega] at this
      simpa [List.take_succ_cons, Int.mul_assoc] using this

theorem value_ptr {m : Mem} {c : Cell} {v : Int} (h : m.value c = some v) : m.ptr c ≠ none := by
  intro hn
  rw [Mem.value, hn] at h
  cases h

theorem holds_run {m : Mem} {k : RsaPriv} (h : Holds m k) (hk : IsRsaKey k) :
    m.ptr .dp ≠ none ∧ ∃ w, marshalPKCS1PrivateKey k = .ok w ∧ (marshalPKCS1 k).run m = (m, .ok w) := by
  obtain ⟨p, q, more, a, h0, h1, h2, h3, h4, h5, h6⟩ := h
  have hp := hk.primes
  rw [h0] at hp
  have hr := marshal_run m k (value_ptr h1) p q more h0 a h4 h5
  have ha : adds m a 0 more = crtValues k.d (p * q) more := (adds_eq_iff _ _ _ _ _ _).mpr (by simpa using h6)
  refine ⟨value_ptr h1, _, ?_, hr⟩
  unfold marshalPKCS1PrivateKey
  rw [h0]
  simp only []
  rw [if_neg (by
    rintro (h | h | h)
    · have := hp p (by simp); omega
    · have := hp q (by simp); omega
    · have := hp 1 (by simp [h]); omega)]
  rw [written, h1, h2, h3, ha, h0]

/-- **C141** The key has been precomputed, as it is when it comes from ParsePKCS1PrivateKey: any number of goroutines may call
MarshalPKCS1PrivateKey with it any number of times. In each schedule all of them get the octets of the sequential function, none crashes, and the key
is unchanged all the time. -/
theorem C141_precomputed (k : RsaPriv) (hk : IsRsaKey k) (m : Mem) (hm : Holds m k) (counts : List Nat) :
    ∃ w, marshalPKCS1PrivateKey k = .ok w ∧ ∀ schedule : List Nat, ((start k m counts).exec schedule).mem = m ∧
      ∀ (i n : Nat) (r : Res (List Bytes)), counts[i]? = some n → ((start k m counts).exec schedule).gs[i]? = some (.done r) → r = .ok (List.replicate n w) := by
  obtain ⟨h1, w, h2, h3⟩ := holds_run hm hk
  refine ⟨w, h2, fun schedule => ?_⟩
  obtain ⟨g1, g2⟩ := readOnly_exec m (counts.map (calls k)) (by
    intro t ht
    obtain ⟨n, _, rfl⟩ := List.mem_map.mp ht
    exact calls_ro m k h1 n) schedule
  refine ⟨g1, ?_⟩
  intro i n r hi hr
  rw [List.forall₂_iff_get] at g2
  obtain ⟨hi1, hi2⟩ := List.getElem?_eq_some_iff.mp hi
  obtain ⟨hr1, hr2⟩ := List.getElem?_eq_some_iff.mp hr
  have := (g2.2 i (by simpa using hi1) hr1).2
  simp only [List.get_eq_getElem, List.getElem_map, hi2] at this
  rw [calls_run m k w h3 n] at this
  have hr3 : ((Sys.mk m (counts.map (calls k))).exec schedule).gs[i] = P.done r := hr2
  exact congrArg Prod.snd ((congrArg (fun x => P.run x m) hr3.symm).trans this)

/-- **C141** The fields of `Precomputed` hold something else, for instance because the caller has changed D or the primes of a parsed key: they are never
corrected. Each call returns the octets with those values. Stated for two primes. -/
theorem C141_stale (k : RsaPriv) (p q : Int) (hk : k.primes = [p, q]) (m : Mem) (a : Nat) (hd : m.ptr .dp ≠ none) (hc : m.crt = some a)
    (ha : m.arrays.getD a 0 = 0) (counts schedule : List Nat) :
    ((start k m counts).exec schedule).mem = m ∧
      ∀ (i n : Nat) (r : Res (List Bytes)), counts[i]? = some n → ((start k m counts).exec schedule).gs[i]? = some (.done r) →
        r = .ok (List.replicate n ((marshal pkcs1Priv
          ⟨0, k.pub.n, k.pub.e, k.d, p, q, m.value .dp, m.value .dq, m.value .qinv, []⟩).getD [])) := by
  have h3 := marshal_run m k hd p q [] hk a hc ha
  obtain ⟨g1, g2⟩ := readOnly_exec m (counts.map (calls k)) (by
    intro t ht
    obtain ⟨n, _, rfl⟩ := List.mem_map.mp ht
    exact calls_ro m k hd n) schedule
  refine ⟨g1, ?_⟩
  intro i n r hi hr
  rw [List.forall₂_iff_get] at g2
  obtain ⟨hi1, hi2⟩ := List.getElem?_eq_some_iff.mp hi
  obtain ⟨hr1, hr2⟩ := List.getElem?_eq_some_iff.mp hr
  have := (g2.2 i (by simpa using hi1) hr1).2
  simp only [List.get_eq_getElem, List.getElem_map, hi2] at this
  rw [calls_run m k _ h3 n] at this
  have hr3 : ((Sys.mk m (counts.map (calls k))).exec schedule).gs[i] = P.done r := hr2
  have := congrArg Prod.snd ((congrArg (fun x => P.run x m) hr3.symm).trans this)
  simp only [done_run] at this
  rw [this, written, hk]
  rfl

/-- The number of accesses that remain. -/
def stepsLeft {α : Type} (m : Mem) : P α → Nat
  | .done _ => 0
  | .op o k => stepsLeft (o.run m).1 (k (o.run m).2) + 1

theorem left_step {α : Type} {m : Mem} {x : P α} (h : ReadOnly m x) : stepsLeft m (x.step m).2 = stepsLeft m x - 1 := by
  cases x with
  | done r => rfl
  | op o k =>
    show stepsLeft m (k (o.run m).2) = stepsLeft (o.run m).1 (k (o.run m).2) + 1 - 1
    rw [h.1]; rfl

theorem left_exec (m : Mem) (schedule : List Nat) (s : Sys) (h : s.mem = m) (hs : ∀ t ∈ s.gs, ReadOnly m t) (i : Nat) (t : P (List Bytes))
    (ht : s.gs[i]? = some t) : ∃ t', (s.exec schedule).gs[i]? = some t' ∧ stepsLeft m t' = stepsLeft m t - schedule.count i := by
  induction schedule generalizing s t with
  | nil => exact ⟨t, ht, rfl⟩
  | cons j schedule ih =>
    have hstep : (s.step j).mem = m ∧ (∀ t ∈ (s.step j).gs, ReadOnly m t) := by
      unfold Sys.step
      split
      · exact ⟨h, hs⟩
      · rename_i u hu
        have hu' := readOnly_step (hs u (List.mem_of_getElem? hu))
        rw [h]
        refine ⟨hu'.1, ?_⟩
        intro t' ht'
        rcases List.mem_or_eq_of_mem_set ht' with h' | rfl
        · exact hs _ h'
        · exact hu'.2.1
    by_cases hj : j = i
    · subst hj
      have hgs : (s.step j).gs[j]? = some (t.step m).2 := by
        unfold Sys.step
        rw [ht]
        simp only [h]
        rw [List.getElem?_set_self (List.getElem?_eq_some_iff.mp ht).1]
      obtain ⟨t', h1, h2⟩ := ih _ hstep.1 hstep.2 _ hgs
      refine ⟨t', h1, ?_⟩
      rw [h2, left_step (hs t (List.mem_of_getElem? ht)), List.count_cons_self]
      omega
    · have hgs : (s.step j).gs[i]? = some t := by
        unfold Sys.step
        split
        · exact ht
        · rw [List.getElem?_set_ne hj]; exact ht
      obtain ⟨t', h1, h2⟩ := ih _ hstep.1 hstep.2 _ hgs
      refine ⟨t', h1, ?_⟩
      rw [h2, List.count_cons_of_ne (by simpa using hj)]

/-- **C141** … and each of them ends: none waits for another. -/
theorem C141_ends (k : RsaPriv) (hk : IsRsaKey k) (m : Mem) (hm : Holds m k) (counts : List Nat) (i n : Nat) (hi : counts[i]? = some n) :
    ∃ N, ∀ schedule : List Nat, N ≤ schedule.count i → ∃ w, marshalPKCS1PrivateKey k = .ok w ∧
      ((start k m counts).exec schedule).gs[i]? = some (.done (.ok (List.replicate n w))) := by
  obtain ⟨w, hw, H⟩ := C141_precomputed k hk m hm counts
  refine ⟨stepsLeft m (calls k n), fun schedule hs => ⟨w, hw, ?_⟩⟩
  obtain ⟨t', h1, h2⟩ := left_exec m schedule (start k m counts) rfl (by
    intro t ht
    obtain ⟨n, _, rfl⟩ := List.mem_map.mp ht
    exact calls_ro m k (holds_run hm hk).1 n) i (calls k n) (by simp [start, hi])
  rw [Nat.sub_eq_zero_of_le hs] at h2
  cases t' with
  | op o k => simp [stepsLeft] at h2
  | done r => rw [h1, (H schedule).2 i n r hi h1]

/-- **C141** The key has not been precomputed, and one call is executed alone: it returns the octets of the sequential function, and afterwards the key is
precomputed. So `Precompute` in ParsePKCS1PrivateKey (pkcs1.go:94), or one call before the goroutines are started, is enough for C141_precomputed. -/
theorem C141_alone (k : RsaPriv) (hk : IsRsaKey k) (m : Mem) (hm : InRange m) (h : m.ptr .dp = none) :
    ∃ m' w, marshalPKCS1PrivateKey k = .ok w ∧ (marshalPKCS1 k).run m = (m', .ok w) ∧ (precompute k).run m = (m', .ok ()) ∧ Holds m' k := by
  obtain ⟨p, q, more, h0⟩ : ∃ p q more, k.primes = p :: q :: more := by
    have := hk.two
    rcases hp : k.primes with _ | ⟨p, _ | ⟨q, more⟩⟩
    · rw [hp] at this; simp at this
    · rw [hp] at this; simp at this
    · exact ⟨p, q, more, rfl⟩
  have hp := hk.primes
  rw [h0] at hp
  obtain ⟨m', a, r1, r2, r3, r4, r5, r6, r7, r8⟩ := precompute_fresh m k hm h p q more h0 (by have := hp p (by simp); omega)
    (by have := hp q (by simp); omega) (by intro x hx; have := hp x (by simp [hx]); omega)
  have hh : Holds m' k := ⟨p, q, more, a, h0, r3, r4, r5, r6, r7, by simpa using (adds_eq_iff _ _ _ _ _ _).mp r8⟩
  obtain ⟨_, w, h2, h3⟩ := holds_run hh hk
  exact ⟨m', w, h2, (marshal_after m m' k r1 (value_ptr r3)).trans h3, r1, hh⟩

/-! ## Keys that have not been precomputed, and goroutines at the same time -/

/-- Each array of CRT values has as many elements as there are primes after the second. -/
def Arrays (N : Nat) (m : Mem) : Prop := ∀ n ∈ m.arrays, n = N

theorem arrays_getD {N : Nat} {m : Mem} (h : Arrays N m) (a : Nat) : m.arrays.getD a 0 = 0 ∨ m.arrays.getD a 0 = N := by
  rw [List.getD_eq_getElem?_getD]
  rcases hg : m.arrays[a]? with _ | n
  · exact Or.inl rfl
  · exact Or.inr (h n (List.mem_of_getElem? hg))

theorem safe_acc {β : Type} {N : Nat} (o : Op β) (h : ∀ m, (o.run m).1.arrays = m.arrays) : Safe (Arrays N) (fun _ => True) (acc o) := by
  intro m hm
  refine ⟨?_, fun _ _ => trivial⟩
  unfold Arrays
  rw [h]
  exact hm

theorem safe_panic {β : Type} {Q : Mem → Prop} {post : β → Prop} : Safe Q post (P.done .panic) := by intro a ha; cases ha

theorem safe_pure {β : Type} {Q : Mem → Prop} {post : β → Prop} {a : β} (h : post a) : Safe Q post (pure a) := by
  intro b hb
  rw [← Res.ok.inj hb]
  exact h

theorem safe_crt (N : Nat) : Safe (Arrays N) (fun h => ∀ x, h = some x → x.2 = 0 ∨ x.2 = N) (acc .crt) := by
  intro m hm
  refine ⟨hm, ?_⟩
  intro h hh x hx
  simp only [Op.run, Res.ok.injEq] at hh
  rw [← hh] at hx
  obtain ⟨a, _, rfl⟩ := Option.map_eq_some_iff.mp hx
  exact arrays_getD hm a

theorem safe_modInto (N : Nat) (d : Int) (c : Cell) : Safe (Arrays N) (fun _ => True) (modInto d c) := by
  unfold modInto
  refine safe_bind (safe_acc _ fun _ => rfl) fun z _ => safe_bind (safe_acc _ fun _ => rfl) fun y _ => ?_
  split
  · refine safe_bind (safe_acc _ fun _ => rfl) fun v _ => ?_
    split
    · exact safe_panic
    · exact safe_acc _ fun _ => rfl
  · exact safe_panic

theorem safe_exponent (N : Nat) (d p : Int) (c : Cell) : Safe (Arrays N) (fun _ => True) (exponent d p c) :=
  safe_bind (safe_acc _ fun _ => rfl) fun _ _ => safe_bind (safe_acc _ fun _ => rfl) fun _ _ => safe_modInto N d c

theorem safe_inverse (N : Nat) (g n : Int) (c : Cell) : Safe (Arrays N) (fun _ => True) (inverse g n c) := by
  unfold inverse
  split
  · exact safe_acc _ fun _ => rfl
  · exact safe_bind (safe_acc _ fun _ => rfl) fun _ _ => safe_acc _ fun _ => rfl

theorem safe_crtLoop (N : Nat) (d : Int) (ps : List Int) (i : Nat) (r : Int) : Safe (Arrays N) (fun _ => True) (crtLoop d i r ps) := by
  induction ps generalizing i r with
  | nil => exact safe_pure trivial
  | cons p ps ih =>
    rw [crtLoop]
    refine safe_bind (safe_acc _ fun _ => rfl) fun h _ => ?_
    split
    · exact safe_panic
    · split
      · exact safe_bind (safe_exponent _ _ _ _) fun _ _ => safe_bind (safe_inverse _ _ _ _) fun _ _ => ih _ _
      · exact safe_panic

theorem safe_precompute (k : RsaPriv) : Safe (Arrays (k.primes.length - 2)) (fun _ => True) (precompute k) := by
  unfold precompute
  split
  · rename_i p q more hp
    rw [hp, show (p :: q :: more).length - 2 = more.length by simp]
    refine safe_bind (safe_acc _ fun _ => rfl) fun h _ => ?_
    split
    · exact safe_pure trivial
    · refine safe_bind (safe_exponent _ _ _ _) fun _ _ => safe_bind (safe_exponent _ _ _ _) fun _ _ =>
        safe_bind (safe_inverse _ _ _ _) fun _ _ => safe_bind (post := fun _ => True) ?_ fun _ _ =>
        safe_bind (safe_acc _ fun _ => rfl) fun _ _ => safe_crtLoop _ _ _ _ _
      intro m hm
      refine ⟨?_, fun _ _ => trivial⟩
      intro n hn
      rcases List.mem_append.mp hn with h | h
      · exact hm n h
      · simpa using h
  · refine safe_bind (safe_acc _ fun _ => rfl) fun h _ => ?_
    split
    · exact safe_pure trivial
    · exact safe_panic

theorem safe_deref (N : Nat) (r : Option Nat) : Safe (Arrays N) (fun _ => True) (deref r) := by
  cases r with
  | none => exact safe_pure trivial
  | some r => exact safe_bind (safe_acc _ fun _ => rfl) fun _ _ => safe_pure trivial

theorem safe_derefAll (N : Nat) (l : List (Int × Option Nat × Option Nat)) :
    Safe (Arrays N) (fun add => add.map (·.prime) = l.map (fun x => some x.1)) (derefAll l) := by
  induction l with
  | nil => exact safe_pure rfl
  | cons x l ih =>
    obtain ⟨p, e, c⟩ := x
    refine safe_bind (safe_deref N e) fun _ _ => safe_bind (safe_deref N c) fun _ _ => safe_bind ih fun add h => safe_pure ?_
    simp only [List.map_cons, h]

theorem safe_copyCrt (N : Nat) (a n : Nat) (ps : List Int) (i room : Nat) :
    Safe (Arrays N) (fun l => l.map (·.1) = ps.take n) (copyCrt a n i room ps) := by
  induction ps generalizing n i room with
  | nil =>
    cases n with
    | zero => simp only [copyCrt]; exact safe_pure rfl
    | succ n => cases room <;> simp only [copyCrt] <;> exact safe_panic
  | cons p ps ih =>
    cases n with
    | zero => simp only [copyCrt]; exact safe_pure rfl
    | succ n =>
      cases room with
      | zero => simp only [copyCrt]; exact safe_panic
      | succ room =>
        simp only [copyCrt]
        refine safe_bind (safe_acc _ fun _ => rfl) fun e _ => safe_bind (safe_acc _ fun _ => rfl) fun c _ =>
          safe_bind (ih n (i + 1) room) fun l hl => safe_pure ?_
        rw [List.map_cons, hl, List.take_succ_cons]

/-- The octets are those of the key with some CRT values, and with all or none of the primes after the second. -/
def SomeFile (k : RsaPriv) (b : Bytes) : Prop :=
  ∃ p q more dp dq qi add, k.primes = p :: q :: more ∧ (add = [] ∨ add.map (·.prime) = more.map some) ∧
    b = (marshal pkcs1Priv ⟨if k.primes.length > 2 then 1 else 0, k.pub.n, k.pub.e, k.d, p, q, dp, dq, qi, add⟩).getD []

theorem safe_tail (N : Nat) (k : RsaPriv) (p q : Int) (more : List Int) (h : k.primes = p :: q :: more) (dp dq qi : Option Nat)
    (l : List (Int × Option Nat × Option Nat)) (hl : l = [] ∨ l.map (·.1) = more) :
    Safe (Arrays N) (SomeFile k) (do
      let dp ← deref dp
      let dq ← deref dq
      let qinv ← deref qi
      let add ← derefAll l
      pure ((marshal pkcs1Priv
        ⟨if (p :: q :: more).length > 2 then 1 else 0, k.pub.n, k.pub.e, k.d, p, q, dp, dq, qinv, add⟩).getD [])) := by
  refine safe_bind (safe_deref N _) fun a1 _ => safe_bind (safe_deref N _) fun a2 _ => safe_bind (safe_deref N _) fun a3 _ =>
    safe_bind (safe_derefAll N l) fun add hadd => safe_pure ⟨p, q, more, a1, a2, a3, add, h, ?_, by rw [h]⟩
  rcases hl with rfl | hl
  · left; simpa using hadd
  · right
    rw [hadd, ← hl, List.map_map]
    rfl

theorem safe_marshal (k : RsaPriv) : Safe (Arrays (k.primes.length - 2)) (SomeFile k) (marshalPKCS1 k) := by
  unfold marshalPKCS1
  refine safe_bind (safe_precompute k) fun _ _ => ?_
  rcases hk : k.primes with _ | ⟨p, _ | ⟨q, more⟩⟩
  · exact safe_panic
  · exact safe_panic
  · simp only []
    have hN : (p :: q :: more).length - 2 = more.length := by simp
    rw [hN]
    refine safe_bind (safe_acc _ fun _ => rfl) fun dp _ => safe_bind (safe_acc _ fun _ => rfl) fun dq _ =>
      safe_bind (safe_acc _ fun _ => rfl) fun qi _ => safe_bind (safe_acc _ fun _ => rfl) fun h1 _ =>
      safe_bind (safe_crt _) fun h2 hh => ?_
    rcases h2 with _ | ⟨a, len⟩
    · exact safe_tail _ k p q more hk dp dq qi [] (Or.inl rfl)
    · refine safe_bind (safe_copyCrt more.length a len more 0 _) fun l hl => safe_tail _ k p q more hk dp dq qi l ?_
      rcases hh _ rfl with h | h
      · simp only [] at h
        subst h
        left
        simpa using hl
      · simp only [] at h
        subst h
        right
        rw [hl, List.take_length]

theorem safe_calls (k : RsaPriv) (n : Nat) : Safe (Arrays (k.primes.length - 2)) (fun l => ∀ b ∈ l, SomeFile k b) (calls k n) := by
  induction n with
  | zero => exact safe_pure (by intro b hb; cases hb)
  | succ n ih =>
    refine safe_bind (safe_marshal k) fun b hb => safe_bind ih fun l hl => safe_pure ?_
    intro x hx
    rcases List.mem_cons.mp hx with rfl | hx
    · exact hb
    · exact hl x hx

theorem parse_some (k : RsaPriv) (hk : IsRsaKey k) (b : Bytes) (h : SomeFile k b) (hl : b.length < 2 ^ 31) :
    (∀ k', parsePKCS1PrivateKey b = .ok k' → k' = k) ∧ (k.primes.length = 2 → parsePKCS1PrivateKey b = .ok k) := by
  obtain ⟨p, q, more, dp, dq, qi, add, h0, hadd, hb⟩ := h
  have hver : (if k.primes.length > 2 then (1 : Int) else 0) = 0 ∨ (if k.primes.length > 2 then (1 : Int) else 0) = 1 := by
    split <;> simp
  have e1 := hk.e_ge
  have e2 := hk.e_lt
  have hp := hk.primes
  rw [h0] at hp
  obtain ⟨hval, _, hd⟩ := (rsaValidate_iff k).mpr hk
  rcases hm : marshal pkcs1Priv ⟨if k.primes.length > 2 then 1 else 0, k.pub.n, k.pub.e, k.d, p, q, dp, dq, qi, add⟩ with _ | b'
  · rw [hm] at hb
    have : b = [] := hb
    subst this
    refine ⟨?_, ?_⟩
    · intro k' hk'
      have : parsePKCS1PrivateKey [] ≠ .ok k' := by
        intro h
        have hn : unmarshal pkcs1Priv [] = none := by decide +kernel
        unfold parsePKCS1PrivateKey at h
        rw [hn] at h
        cases h
      exact absurd hk' this
    · intro h2
      have : add = [] := by
        have hmore : more = [] := by rw [h0] at h2; simpa using h2
        subst hmore
        rcases hadd with h | h
        · exact h
        · simpa using h
      subst this
      rw [pack_enc] at hm
      exfalso
      have := pkcs1Priv_some (if k.primes.length > 2 then 1 else 0) k.pub.n k.pub.e k.d p q (pack dp dq qi).1 (pack dp dq qi).2.1
        (pack dp dq qi).2.2
      rw [hm] at this
      obtain ⟨_, h⟩ := this
      cases h
  · rw [hm] at hb
    have : b = b' := hb
    subst this
    obtain ⟨dp', dq', qi', hu⟩ := parse_any _ k.pub.n k.pub.e k.d p q hver (by omega) (by omega) dp dq qi add b hm hl
    have hn : 0 < k.pub.n := by
      rw [← hk.prod]
      exact List.prod_pos (fun a ha => by have := hk.primes a ha; omega)
    have hp1 := hp p (by simp)
    have hq1 := hp q (by simp)
    have hget : add = [] ∨ add.map (·.prime.getD 0) = more := by
      rcases hadd with h | h
      · exact Or.inl h
      · right
        have := congrArg (List.map (fun x : Option Int => x.getD 0)) h
        simpa [List.map_map, Function.comp_def] using this
    have hparse : parsePKCS1PrivateKey b =
        if rsaValidate ⟨⟨k.pub.n, k.pub.e⟩, k.d, p :: q :: add.map (·.prime.getD 0)⟩ then
          .ok ⟨⟨k.pub.n, k.pub.e⟩, k.d, p :: q :: add.map (·.prime.getD 0)⟩ else .err "crypto/rsa" := by
      unfold parsePKCS1PrivateKey
      rw [hu]
      simp only [List.length_nil, gt_iff_lt, Nat.lt_irrefl, if_false]
      have hver' : ¬ ((1 : Int) < if 2 < k.primes.length then 1 else 0) := by split <;> omega
      rw [if_neg hver', if_neg (by omega), if_neg]
      rw [List.any_eq_true]
      rintro ⟨a, ha, hle⟩
      rcases hget with h | h
      · subst h; cases ha
      · have : a.prime.getD 0 ∈ more := by rw [← h]; exact List.mem_map.mpr ⟨a, ha, rfl⟩
        have := hp _ (show a.prime.getD 0 ∈ p :: q :: more by simp [this])
        simp only [decide_eq_true_eq] at hle
        omega
    have hkeq : (⟨⟨k.pub.n, k.pub.e⟩, k.d, p :: q :: more⟩ : RsaPriv) = k := by rw [← h0]
    refine ⟨?_, ?_⟩
    · intro k' hk'
      rw [hparse] at hk'
      split at hk'
      · rename_i hv
        rcases hget with h | h
        · subst h
          have h3 := ((rsaValidate_iff _).mp ⟨hv, by simp, hd⟩).prod
          simp only [List.map_nil] at h3
          have h4 := hk.prod
          rw [h0] at h4
          have hmore : more = [] := by
            by_contra hne
            have hpos : (1 : Int) < more.prod := by
              obtain ⟨x, xs, rfl⟩ := List.exists_cons_of_ne_nil hne
              rw [List.prod_cons]
              have h5 := hp x (by simp)
              have h6 : 0 < xs.prod := List.prod_pos (fun a ha => by have := hp a (by simp [ha]); omega)
              nlinarith
            rw [← h3] at h4
            simp only [List.prod_cons, List.prod_nil, mul_one] at h4
            have h7 : 0 < p * q := by positivity
            nlinarith
          subst hmore
          rw [← Res.ok.inj hk', ← hkeq]
          rfl
        · rw [h, hkeq] at hk'
          exact (Res.ok.inj hk').symm
      · cases hk'
    · intro h2
      have hmore : more = [] := by rw [h0] at h2; simpa using h2
      have : add.map (·.prime.getD 0) = more := by
        rcases hget with h | h
        · rw [h, hmore]; rfl
        · exact h
      rw [hparse, this, hkeq, if_pos hval]

/-- **C141** The key may not have been precomputed, or another goroutine may be about to do it: whatever the schedule, the octets that a goroutine gets are
never those of another key. With two primes, they always parse to the key that was passed. -/
theorem C141_never_other_key (k : RsaPriv) (hk : IsRsaKey k) (m : Mem) (hm : ∀ n ∈ m.arrays, n + 2 = k.primes.length) (counts : List Nat)
    (schedule : List Nat) (i : Nat) (l : List Bytes) (h : ((start k m counts).exec schedule).gs[i]? = some (.done (.ok l)))
    (b : Bytes) (hb : b ∈ l) (hl : b.length < 2 ^ 31) :
    (∀ k', parsePKCS1PrivateKey b = .ok k' → k' = k) ∧ (k.primes.length = 2 → parsePKCS1PrivateKey b = .ok k) := by
  have := (safe_exec (Q := Arrays (k.primes.length - 2)) (post := fun l => ∀ b ∈ l, SomeFile k b) schedule (start k m counts)
    (fun n hn => by have := hm n hn; omega) (by
      intro t ht
      obtain ⟨n, _, rfl⟩ := List.mem_map.mp ht
      exact safe_calls k n)).2 _ (List.mem_of_getElem? h)
  exact parse_some k hk b (this l rfl b hb) hl

/-! ## The race -/

theorem bind_assoc' {α β γ : Type} (x : P α) (f : α → P β) (g : β → P γ) : (x >>= f) >>= g = x >>= fun a => f a >>= g := by
  show (x.bind f).bind g = x.bind fun a => (f a).bind g
  induction x with
  | done r => cases r <;> rfl
  | op o k ih =>
    show P.op o _ = P.op o _
    congr 1
    funext b
    exact ih b

theorem pure_bind' {α β : Type} (a : α) (f : α → P β) : (pure a : P α) >>= f = f a := rfl

theorem exec_append (s : Sys) (l l' : List Nat) : s.exec (l ++ l') = (s.exec l).exec l' := by
  unfold Sys.exec; rw [List.foldl_append]

/-- The scheduler lets a goroutine execute a part of its program. -/
theorem exec_block {α : Type} (x : P α) (f : α → P (List Bytes)) (s : Sys) (i : Nat) (a : α) (m' : Mem) (hs : s.gs[i]? = some (x >>= f))
    (hr : x.run s.mem = (m', .ok a)) : ∃ n, s.exec (List.replicate n i) = ⟨m', s.gs.set i (f a)⟩ := by
  change s.gs[i]? = some (x.bind f) at hs
  induction x generalizing s with
  | done r =>
    refine ⟨0, ?_⟩
    obtain ⟨rfl, rfl⟩ := Prod.mk.inj hr
    show s = ⟨s.mem, _⟩
    obtain ⟨h1, h2⟩ := List.getElem?_eq_some_iff.mp hs
    have : s.gs.set i (f a) = s.gs := by
      show s.gs.set i ((P.done (.ok a)).bind f) = s.gs
      rw [← h2, List.set_getElem_self]
    rw [this]
  | op o k ih =>
    have hstep : s.step i = ⟨(o.run s.mem).1, s.gs.set i ((k (o.run s.mem).2).bind f)⟩ := by
      unfold Sys.step
      rw [hs]
      rfl
    obtain ⟨n, hn⟩ := ih (o.run s.mem).2 (s.step i) (by rw [hstep]; exact hr) (by
      rw [hstep]
      simp only []
      rw [List.getElem?_set_self (List.getElem?_eq_some_iff.mp hs).1])
    refine ⟨n + 1, ?_⟩
    show (s.step i).exec (List.replicate n i) = _
    rw [hn, hstep, List.set_set]

/-- … to its end. -/
theorem exec_end (x : P (List Bytes)) (s : Sys) (i : Nat) (r : Res (List Bytes)) (m' : Mem) (hs : s.gs[i]? = some x)
    (hr : x.run s.mem = (m', r)) : ∃ n, s.exec (List.replicate n i) = ⟨m', s.gs.set i (.done r)⟩ := by
  induction x generalizing s with
  | done r' =>
    refine ⟨0, ?_⟩
    obtain ⟨rfl, rfl⟩ := Prod.mk.inj hr
    show s = ⟨s.mem, _⟩
    obtain ⟨h1, h2⟩ := List.getElem?_eq_some_iff.mp hs
    rw [← h2, List.set_getElem_self]
  | op o k ih =>
    have hstep : s.step i = ⟨(o.run s.mem).1, s.gs.set i (k (o.run s.mem).2)⟩ := by
      unfold Sys.step
      rw [hs]
      rfl
    obtain ⟨n, hn⟩ := ih (o.run s.mem).2 (s.step i) (by
      rw [hstep]
      simp only []
      rw [List.getElem?_set_self (List.getElem?_eq_some_iff.mp hs).1]) (by rw [hstep]; exact hr)
    refine ⟨n + 1, ?_⟩
    show (s.step i).exec (List.replicate n i) = _
    rw [hn, hstep, List.set_set]

/-- What remains of a call, and of the goroutine, after `Precompute`. -/
theorem calls_split (k : RsaPriv) : ∃ A : P (List Bytes), calls k 1 = precompute k >>= fun _ => A :=
  ⟨_, by rw [calls, marshalPKCS1, bind_assoc']⟩

/-- The first accesses of a goroutine that makes one call with a key of two primes. -/
theorem calls_first (k : RsaPriv) (p q : Int) (hk : k.primes = [p, q]) (A : P (List Bytes)) (hA : calls k 1 = precompute k >>= fun _ => A) :
    ∃ G : Option Nat → P (List Bytes), calls k 1 = acc (.ptr .dp) >>= G ∧
      G none = ((acc (.newInt (p - 1)) >>= fun r => acc (.setPtr .dp (some r))) >>= fun _ => modInto k.d .dp >>= fun _ =>
        exponent k.d q .dq >>= fun _ => inverse q p .qinv >>= fun _ => acc (.newArr 0) >>= fun a => acc (.setCrt a) >>= fun _ => A) := by
  rw [hA, precompute, hk]
  simp only []
  rw [bind_assoc']
  refine ⟨_, rfl, ?_⟩
  simp only [exponent, bind_assoc']
  rfl

theorem modInto_run (m : Mem) (d : Int) (c : Cell) (r : Nat) (v : Int) (h : m.ptr c = some r) (hv : m.get r = v) (hv0 : v ≠ 0) :
    (modInto d c).run m = ({ m with ints := m.ints.set r (d % v) }, .ok ()) := by
  unfold modInto
  rw [bind_run_ok (acc_run _ _), bind_run_ok (acc_run _ _)]
  simp only [Op.run, h]
  rw [bind_run_ok (acc_run _ _)]
  simp only [Op.run, hv]
  rw [if_neg hv0]
  rfl

theorem exp_ne_zero (k : RsaPriv) (hk : IsRsaKey k) (p : Int) (hp : p ∈ k.primes) : k.d % (p - 1) ≠ 0 := by
  intro h
  have h1 := hk.exps p hp
  have h2 := hk.primes p hp
  have h3 : (p - 1) ∣ k.d := Int.dvd_of_emod_eq_zero h
  have h4 : (p - 1) ∣ 1 := by
    have := Int.dvd_sub (Dvd.dvd.mul_left h3 k.pub.e) h1
    rwa [show k.pub.e * k.d - (k.pub.e * k.d - 1) = 1 by omega] at this
  have := Int.le_of_dvd (by decide) h4
  omega

/-- **C141** The race, for each key with two primes that has not been precomputed: there is a schedule for two goroutines, each of which makes one call, after
which both have returned octets with a wrong first exponent, d mod (d mod (p - 1)) in place of d mod (p - 1), and this value stays in the key
(by C141_stale each later call writes it too). -/
theorem C141_race (k : RsaPriv) (hk : IsRsaKey k) (p q : Int) (h0 : k.primes = [p, q]) (m : Mem) (hm : InRange m) (hd : m.ptr .dp = none) :
    k.d % (k.d % (p - 1)) ≠ k.d % (p - 1) ∧
    ∃ schedule m' a w, (start k m [1, 1]).exec schedule = ⟨m', [.done (.ok [w]), .done (.ok [w])]⟩ ∧
      marshal pkcs1Priv ⟨0, k.pub.n, k.pub.e, k.d, p, q, some (k.d % (k.d % (p - 1))), some (k.d % (q - 1)), modInverse q p, []⟩ = some w ∧
      m'.value .dp = some (k.d % (k.d % (p - 1))) ∧ m'.crt = some a ∧ m'.arrays.getD a 0 = 0 := by
  have hp2 := hk.primes p (by rw [h0]; simp)
  have hq2 := hk.primes q (by rw [h0]; simp)
  have hne := exp_ne_zero k hk p (by rw [h0]; simp)
  have hpos : 0 < k.d % (p - 1) := by
    have := Int.emod_nonneg k.d (show p - 1 ≠ 0 by omega)
    omega
  refine ⟨?_, ?_⟩
  · have := Int.emod_lt_of_pos k.d hpos
    omega
  obtain ⟨A, hA⟩ := calls_split k
  obtain ⟨G, hG, hG0⟩ := calls_first k p q h0 A hA
  -- what remains after the first `Mod`
  generalize hR : (exponent k.d q .dq >>= fun _ => inverse q p .qinv >>= fun _ => acc (.newArr 0) >>= fun a => acc (.setCrt a) >>= fun _ => A) = R
    at hG0
  have hRrun : ∀ (M : Mem) (dp : Int), InRange M → M.value .dp = some dp → ∃ M' a, InRange M' ∧ M'.value .dp = some dp ∧ M'.crt = some a ∧
      M'.arrays.getD a 0 = 0 ∧ R.run M = (M', .ok [(marshal pkcs1Priv ⟨0, k.pub.n, k.pub.e, k.d, p, q, some dp, some (k.d % (q - 1)),
        modInverse q p, []⟩).getD []]) := by
    intro M dp hM hdp
    have g1 := putOpt_inRange hM .dq (some (k.d % (q - 1)))
    have g2 := putOpt_inRange g1 .qinv (modInverse q p)
    generalize hM2 : putOpt (putOpt M .dq (some (k.d % (q - 1)))) .qinv (modInverse q p) = M2 at g2
    have v1 : M2.value .dp = some dp := by
      rw [← hM2, putOpt_other g1 (by decide), putOpt_other hM (by decide), hdp]
    have v2 : M2.value .dq = some (k.d % (q - 1)) := by rw [← hM2, putOpt_other g1 (by decide), putOpt_same]
    have v3 : M2.value .qinv = modInverse q p := by rw [← hM2, putOpt_same]
    generalize hM3 : ((Op.setCrt M2.arrays.length).run ((Op.newArr 0).run M2).1).1 = M3
    have w : ∀ c, c = .dp ∨ c = .dq ∨ c = .qinv → M3.value c = M2.value c := by
      rintro c (rfl | rfl | rfl) <;> rw [← hM3] <;> rfl
    have c1 : M3.crt = some M2.arrays.length := by rw [← hM3]; rfl
    have c2 : M3.arrays.getD M2.arrays.length 0 = 0 := by rw [← hM3]; simp [Op.run]
    have g3 : InRange M3 := by
      subst hM3
      intro c r hr
      simp only [Op.run] at hr ⊢
      cases c with
      | dp => exact g2 _ _ hr
      | dq => exact g2 _ _ hr
      | qinv => exact g2 _ _ hr
      | exp a i =>
        simp only [] at hr
        split at hr
        · cases hr
        · exact g2 _ _ hr
      | coeff a i =>
        simp only [] at hr
        split at hr
        · cases hr
        · exact g2 _ _ hr
    have hdp3 : M3.ptr .dp ≠ none := value_ptr ((w _ (by simp)).trans v1)
    refine ⟨M3, M2.arrays.length, g3, (w _ (by simp)).trans v1, c1, c2, ?_⟩
    rw [← hR, bind_run_ok (exponent_run _ _ _ _ (by omega)), bind_run_ok (inverse_run _ _ _ _), hM2, bind_run_ok (acc_run _ _),
      bind_run_ok (acc_run _ _)]
    have hn : ((Op.newArr 0).run M2).2 = M2.arrays.length := rfl
    rw [hn, hM3]
    have h1 : A.run M3 = (calls k 1).run M3 := by rw [hA, bind_run_ok (precompute_run M3 k hdp3)]
    have h2 := marshal_run M3 k hdp3 p q [] h0 _ c1 c2
    rw [h1, calls_run M3 k _ h2 1, written, w _ (by simp), w _ (by simp), w _ (by simp), v1, v2, v3, h0]
    rfl
  -- both goroutines see that nothing is there
  obtain ⟨n1, e1⟩ := exec_block (acc (.ptr .dp)) G (start k m [1, 1]) 0 none m (by rw [← hG]; rfl) (by rw [acc_run]; simp [Op.run, hd, start])
  obtain ⟨n2, e2⟩ := exec_block (acc (.ptr .dp)) G ⟨m, [G none, calls k 1]⟩ 1 none m (by rw [← hG]; rfl) (by rw [acc_run]; simp [Op.run, hd])
  -- each allocates an integer for the first exponent
  generalize hB : (acc (.newInt (p - 1)) >>= fun r => acc (.setPtr .dp (some r))) = B at hG0
  have hBrun : ∀ M : Mem, B.run M = (putOpt M .dp (some (p - 1)), .ok ()) := by
    intro M
    rw [← hB, bind_run_ok (acc_run _ _)]
    rfl
  generalize hC : (modInto k.d .dp >>= fun _ => R) = C at hG0
  have hm1 := putOpt_inRange hm .dp (some (p - 1))
  obtain ⟨n3, e3⟩ := exec_block B (fun _ => C) ⟨m, [G none, G none]⟩ 0 () _ (by rw [hG0]; rfl) (hBrun m)
  generalize hma : putOpt m .dp (some (p - 1)) = ma at e3 hm1
  have hm2 := putOpt_inRange hm1 .dp (some (p - 1))
  obtain ⟨n4, e4⟩ := exec_block B (fun _ => C) ⟨ma, [C, G none]⟩ 1 () _ (by rw [hG0]; rfl) (hBrun ma)
  generalize hmb : putOpt ma .dp (some (p - 1)) = mb at e4 hm2
  -- both reduce in place the one that was stored last
  have hptr : mb.ptr .dp = some ma.ints.length := by rw [← hmb]; simp [putOpt]
  have hlen : ma.ints.length < mb.ints.length := by rw [← hmb]; simp [putOpt]
  have hget : mb.get ma.ints.length = p - 1 := by rw [← hmb]; simp [putOpt, Mem.get]
  obtain ⟨n5, e5⟩ := exec_block (modInto k.d .dp) (fun _ => R) ⟨mb, [C, C]⟩ 0 () _ (by rw [← hC]; rfl)
    (modInto_run mb k.d .dp _ _ hptr hget (by omega))
  generalize hmc : ({ mb with ints := mb.ints.set ma.ints.length (k.d % (p - 1)) } : Mem) = mc at e5
  have hptr' : mc.ptr .dp = some ma.ints.length := by rw [← hmc]; exact hptr
  have hget' : mc.get ma.ints.length = k.d % (p - 1) := by rw [← hmc]; simp [Mem.get, hlen]
  obtain ⟨n6, e6⟩ := exec_block (modInto k.d .dp) (fun _ => R) ⟨mc, [R, C]⟩ 1 () _ (by rw [← hC]; rfl)
    (modInto_run mc k.d .dp _ _ hptr' hget' hne)
  generalize hmd : ({ mc with ints := mc.ints.set ma.ints.length (k.d % (k.d % (p - 1))) } : Mem) = md at e6
  have hmd1 : md.value .dp = some (k.d % (k.d % (p - 1))) := by
    rw [← hmd, ← hmc]
    simp [Mem.value, Mem.get, hptr, hlen]
  have hmd2 : InRange md := by
    rw [← hmd, ← hmc]
    intro c r hr
    simpa using hm2 c r hr
  -- the rest
  obtain ⟨me, a1, i1, v1, _, _, r1⟩ := hRrun md _ hmd2 hmd1
  obtain ⟨n7, e7⟩ := exec_end R ⟨md, [R, R]⟩ 0 _ me rfl r1
  obtain ⟨mf, a2, i2, v2, c2, l2, r2⟩ := hRrun me _ i1 v1
  generalize hw : (marshal pkcs1Priv ⟨0, k.pub.n, k.pub.e, k.d, p, q, some (k.d % (k.d % (p - 1))), some (k.d % (q - 1)),
    modInverse q p, []⟩).getD [] = w at e7 r2
  obtain ⟨n8, e8⟩ := exec_end R ⟨me, [.done (.ok [w]), R]⟩ 1 _ mf rfl r2
  refine ⟨List.replicate n1 0 ++ (List.replicate n2 1 ++ (List.replicate n3 0 ++ (List.replicate n4 1 ++ (List.replicate n5 0 ++
    (List.replicate n6 1 ++ (List.replicate n7 0 ++ List.replicate n8 1)))))), mf, a2, w, ?_, ?_, v2, c2, l2⟩
  · have e1' : (start k m [1, 1]).exec (List.replicate n1 0) = ⟨m, [G none, calls k 1]⟩ := e1
    have e2' : (Sys.mk m [G none, calls k 1]).exec (List.replicate n2 1) = ⟨m, [G none, G none]⟩ := e2
    have e3' : (Sys.mk m [G none, G none]).exec (List.replicate n3 0) = ⟨ma, [C, G none]⟩ := e3
    have e4' : (Sys.mk ma [C, G none]).exec (List.replicate n4 1) = ⟨mb, [C, C]⟩ := e4
    have e5' : (Sys.mk mb [C, C]).exec (List.replicate n5 0) = ⟨mc, [R, C]⟩ := e5
    have e6' : (Sys.mk mc [R, C]).exec (List.replicate n6 1) = ⟨md, [R, R]⟩ := e6
    have e7' : (Sys.mk md [R, R]).exec (List.replicate n7 0) = ⟨me, [.done (.ok [w]), R]⟩ := e7
    have e8' : (Sys.mk me [.done (.ok [w]), R]).exec (List.replicate n8 1) = ⟨mf, [.done (.ok [w]), .done (.ok [w])]⟩ := e8
    rw [exec_append, e1', exec_append, e2', exec_append, e3', exec_append, e4', exec_append, e5', exec_append, e6', exec_append, e7', e8']
  · obtain ⟨b, hb⟩ := pkcs1Priv_some 0 k.pub.n k.pub.e k.d p q (some (k.d % (k.d % (p - 1)))) (some (k.d % (q - 1))) (modInverse q p)
    rw [hb] at hw ⊢
    rw [← hw]
    rfl

end MCrypto.RsaMem
