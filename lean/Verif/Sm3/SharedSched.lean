import Verif.Sm3.SharedLemmas
import Mathlib.Tactic.ByContra
import Mathlib.Data.List.Induction
/- Schedules: goroutines with their own objects, and goroutines that share one. -/
namespace MCrypto.Sm3Mem
open MCrypto Sm3

/-! ### Footprints -/
/-- The program reads only objects in `R` and assigns only to objects in `W`, whatever it reads. -/
def P.Within {α : Type} (W R : Nat → Prop) : P α → Prop
  | .done _ => True
  | .load o _ k => R o ∧ ∀ v, (k v).Within W R
  | .store o _ _ k => (W o ∧ R o) ∧ k.Within W R

theorem within_bind {α β : Type} {W R : Nat → Prop} {t : P α} (h : t.Within W R) {f : α → P β} (hf : ∀ a, (f a).Within W R) :
    (t.bind f).Within W R := by
  induction t with
  | done r =>
    cases r with
    | ok a => exact hf a
    | err e => trivial
    | panic => trivial
  | load o c k ih => exact ⟨h.1, fun v => ih v (h.2 v)⟩
  | store o c v k ih => exact ⟨h.1, ih h.2⟩

theorem within_do {α β : Type} {W R : Nat → Prop} {t : P α} (h : t.Within W R) {f : α → P β} (hf : ∀ a, (f a).Within W R) :
    (t >>= f).Within W R := within_bind h hf

theorem within_pure {α : Type} {W R : Nat → Prop} (a : α) : (pure a : P α).Within W R := trivial

theorem within_attempt {α β : Type} {W R : Nat → Prop} {t : P α} (h : t.Within W R) (f : Res α → β) : (t.attempt f).Within W R := by
  induction t with
  | done r => trivial
  | load o c k ih => exact ⟨h.1, fun v => ih v (h.2 v)⟩
  | store o c v k ih => exact ⟨h.1, ih h.2⟩

section
variable {W R : Nat → Prop} {o : Nat}

theorem within_get (hr : R o) (c : Cell) : (get o c).Within W R := ⟨hr, fun _ => trivial⟩
theorem within_put (hw : W o) (hr : R o) (c : Cell) (v : Nat) : (put o c v).Within W R := ⟨⟨hw, hr⟩, trivial⟩

theorem within_copyX (hw : W o) (hr : R o) (p : Bytes) : ∀ off, (copyX o off p).Within W R := by
  induction p with
  | nil => intro off; trivial
  | cons b p ih => intro off; exact within_do (within_put hw hr _ _) fun _ => ih _

theorem within_readX (hr : R o) : ∀ n i, (readX o n i).Within W R := by
  intro n
  induction n with
  | zero => intro i; trivial
  | succ n ih => intro i; exact within_do (within_get hr _) fun _ => within_do (ih _) fun _ => within_pure _

theorem within_readH (hr : R o) : (readH o).Within W R :=
  ⟨hr, fun _ => ⟨hr, fun _ => ⟨hr, fun _ => ⟨hr, fun _ => ⟨hr, fun _ => ⟨hr, fun _ => ⟨hr, fun _ => ⟨hr, fun _ => trivial⟩⟩⟩⟩⟩⟩⟩⟩

theorem within_writeH (hw : W o) (hr : R o) (v : V) : (writeH o v).Within W R :=
  ⟨⟨hw, hr⟩, ⟨hw, hr⟩, ⟨hw, hr⟩, ⟨hw, hr⟩, ⟨hw, hr⟩, ⟨hw, hr⟩, ⟨hw, hr⟩, ⟨hw, hr⟩, trivial⟩

theorem within_reset (hw : W o) (hr : R o) : (reset o).Within W R :=
  within_do (within_writeH hw hr _) fun _ => within_do (within_put hw hr _ _) fun _ => within_put hw hr _ _

theorem within_sum (hr : R o) : (sum o).Within W R :=
  within_do (within_readH hr) fun _ => within_do (within_readX hr _ _) fun _ => within_do (within_get hr _) fun _ =>
    within_do (within_get hr _) fun _ => trivial

theorem within_writeHead (hw : W o) (hr : R o) (p : Bytes) : (writeHead o p).Within W R := by
  unfold writeHead
  refine within_do (within_get hr _) fun nx => ?_
  split
  · refine within_do (within_get hr _) fun nx => ?_
    split
    · trivial
    · refine within_do (within_copyX hw hr _ _) fun _ => within_do (within_get hr _) fun v =>
        within_do (within_put hw hr _ _) fun _ => within_do (within_get hr _) fun v => ?_
      split
      · exact within_do (within_readH hr) fun h => within_do (within_readX hr _ _) fun x =>
          within_do (within_writeH hw hr _) fun _ => within_do (within_put hw hr _ _) fun _ => within_pure _
      · exact within_pure _
  · exact within_pure _

theorem within_writeBlocks (hw : W o) (hr : R o) (p : Bytes) : (writeBlocks o p).Within W R := by
  unfold writeBlocks
  split
  · exact within_do (within_readH hr) fun h => within_do (within_writeH hw hr _) fun _ => within_pure _
  · exact within_pure _

theorem within_writeTail (hw : W o) (hr : R o) (p : Bytes) : (writeTail o p).Within W R := by
  unfold writeTail
  split
  · exact within_do (within_copyX hw hr _ _) fun _ => within_put hw hr _ _
  · exact within_pure _

theorem within_write (hw : W o) (hr : R o) (p : Bytes) : (write o p).Within W R :=
  within_do (within_get hr _) fun _ => within_do (within_put hw hr _ _) fun _ => within_do (within_writeHead hw hr _) fun _ =>
    within_do (within_writeBlocks hw hr _) fun _ => within_do (within_writeTail hw hr _) fun _ => within_pure _
end

/-- The goroutine calls `Write` and `Reset` only on objects in `W`, and `Sum` only on objects in `R`, whatever its calls return. -/
def Client.Uses (W R : Nat → Prop) : Client → Prop
  | .stop => True
  | .call o c k => (match c with
      | .sum => R o
      | _ => W o) ∧ ∀ r, (k r).Uses W R

theorem within_client {W R : Nat → Prop} (hwr : ∀ o, W o → R o) {c : Client} (h : c.Uses W R) : c.prog.Within W R := by
  induction c with
  | stop => trivial
  | call o c k ih =>
    refine within_do ?_ fun r => within_do (ih r (h.2 r)) fun _ => within_pure _
    have h1 := h.1
    cases c with
    | write p => exact within_attempt (within_write h1 (hwr o h1) p) _
    | sum => exact within_attempt (within_sum h1) _
    | reset => exact within_attempt (within_reset h1 (hwr o h1)) _

/-! ### One goroutine alone -/
/-- After `n` accesses. -/
def P.after {α : Type} : Nat → P α → Mem → Mem × P α
  | 0, t, m => (m, t)
  | n + 1, t, m => (t.step m).2.after n (t.step m).1

theorem after_done {α : Type} (n : Nat) (r : Res α) (m : Mem) : (P.done r).after n m = (m, .done r) := by
  induction n with
  | zero => rfl
  | succ n ih => exact ih

theorem after_run {α : Type} (t : P α) : ∀ (n : Nat) (m : Mem), t.steps m ≤ n → t.after n m = ((t.run m).1, .done (t.run m).2) := by
  induction t with
  | done r => intro n m _; exact after_done n r m
  | load o c k ih =>
    intro n m h
    simp only [P.steps] at h
    obtain ⟨n, rfl⟩ : ∃ j, n = j + 1 := ⟨n - 1, by omega⟩
    exact ih _ n m (by omega)
  | store o c v k ih =>
    intro n m h
    simp only [P.steps] at h
    obtain ⟨n, rfl⟩ : ∃ j, n = j + 1 := ⟨n - 1, by omega⟩
    exact ih n _ (by show k.steps (m.set o c v) ≤ n; omega)

theorem after_steps {α : Type} (t : P α) : ∀ (n : Nat) (m m' : Mem) (r : Res α), t.after n m = (m', .done r) → t.steps m ≤ n := by
  induction t with
  | done r => intro n m m' r' _; simp [P.steps]
  | load o c k ih =>
    intro n m m' r h
    cases n with
    | zero => cases h
    | succ n => simp only [P.steps]; have := ih _ n m m' r h; omega
  | store o c v k ih =>
    intro n m m' r h
    cases n with
    | zero => cases h
    | succ n => simp only [P.steps]; have : k.steps (m.set o c v) ≤ n := ih n _ m' r h; omega

theorem after_succ {α : Type} : ∀ (n : Nat) (t : P α) (m : Mem),
    t.after (n + 1) m = ((t.after n m).2.step (t.after n m).1) := by
  intro n
  induction n with
  | zero => intro t m; rfl
  | succ n ih => intro t m; exact ih _ _

theorem within_step {α : Type} {W R : Nat → Prop} {t : P α} (h : t.Within W R) (m : Mem) : (t.step m).2.Within W R := by
  cases t with
  | done r => trivial
  | load o c k => exact h.2 _
  | store o c v k => exact h.2

/-- Nothing outside `W` changes. -/
theorem step_frame {α : Type} {W R : Nat → Prop} {t : P α} (h : t.Within W R) (m : Mem) {o : Nat} (ho : ¬W o) (c : Cell) :
    (t.step m).1 o c = m o c := by
  cases t with
  | done r => rfl
  | load o' c' k => rfl
  | store o' c' v k =>
    apply set_obj
    rintro rfl
    exact ho h.1.1

/-- The next access depends only on the objects in `R`. -/
theorem step_agree {α : Type} {W R : Nat → Prop} {t : P α} (h : t.Within W R) {m m' : Mem} (he : ∀ o, R o → ∀ c, m o c = m' o c) :
    (t.step m).2 = (t.step m').2 ∧ ∀ o, R o → ∀ c, (t.step m).1 o c = (t.step m').1 o c := by
  cases t with
  | done r => exact ⟨rfl, he⟩
  | load o c k =>
    refine ⟨?_, he⟩
    show k _ = k _
    rw [he o h.1]
  | store o c v k =>
    refine ⟨rfl, fun o' ho' c' => ?_⟩
    show m.set o c v o' c' = m'.set o c v o' c'
    unfold Mem.set
    rw [he o' ho']

theorem after_within {α : Type} {W R : Nat → Prop} : ∀ (n : Nat) {t : P α} (_ : t.Within W R) (m : Mem), (t.after n m).2.Within W R := by
  intro n
  induction n with
  | zero => intro t h m; exact h
  | succ n ih => intro t h m; exact ih (within_step h m) _

/-! ### Goroutines whose objects are their own -/
/-- How often goroutine `i` had its turn. -/
def turns (i : Nat) (schedule : List Nat) : Nat := schedule.count i

theorem exec_snoc (s : Sys) (l : List Nat) (i : Nat) : s.exec (l ++ [i]) = (s.exec l).step i := by simp [Sys.exec]

theorem exec_append (s : Sys) (l l' : List Nat) : s.exec (l ++ l') = (s.exec l).exec l' := by simp [Sys.exec]

/-- Each goroutine is where it would be if it were alone, and so are the objects it uses. -/
theorem exec_alone {W R : Nat → Nat → Prop} {gs : List (P (List Out))} {m : Mem}
    (hin : ∀ (i : Nat) (t : P (List Out)), gs[i]? = some t → t.Within (W i) (R i)) (hsep : ∀ i j, i ≠ j → ∀ o, W j o → ¬R i o) (l : List Nat) :
    (Sys.exec ⟨m, gs⟩ l).gs.length = gs.length ∧
    ∀ i t, gs[i]? = some t → (Sys.exec ⟨m, gs⟩ l).gs[i]? = some (t.after (turns i l) m).2 ∧
      ∀ o, R i o → ∀ c, (Sys.exec ⟨m, gs⟩ l).mem o c = (t.after (turns i l) m).1 o c := by
  induction l using List.reverseRecOn with
  | nil => exact ⟨rfl, fun i t h => ⟨h, fun _ _ _ => rfl⟩⟩
  | append_singleton l j ih =>
    obtain ⟨hlen, ih⟩ := ih
    rw [exec_snoc]
    generalize Sys.exec ⟨m, gs⟩ l = s at hlen ih ⊢
    unfold Sys.step
    rcases Nat.lt_or_ge j gs.length with hj | hj
    rotate_left
    · rw [List.getElem?_eq_none (by omega)]
      refine ⟨hlen, fun i t h => ?_⟩
      have hi : i < gs.length := by
        by_contra hc
        rw [List.getElem?_eq_none (by omega)] at h
        cases h
      have : turns i (l ++ [j]) = turns i l := by
        unfold turns
        rw [List.count_append, List.count_singleton]
        simp only [beq_iff_eq]
        rw [if_neg (by omega), Nat.add_zero]
      rw [this]
      exact ih i t h
    · obtain ⟨tj, htj⟩ : ∃ t, gs[j]? = some t := ⟨_, List.getElem?_eq_getElem hj⟩
      obtain ⟨h1, h2⟩ := ih j tj htj
      rw [h1]
      refine ⟨by simp [hlen], fun i t h => ?_⟩
      have hwj := after_within (turns j l) (hin j tj htj) m
      have hag := step_agree hwj h2
      by_cases hij : i = j
      · subst hij
        rw [h] at htj
        obtain rfl := Option.some.inj htj
        have : turns i (l ++ [i]) = turns i l + 1 := by unfold turns; simp
        rw [this, after_succ]
        refine ⟨?_, fun o ho c => hag.2 o ho c⟩
        show (s.gs.set i _)[i]? = _
        rw [List.getElem?_set_self (by omega), hag.1]
      · have : turns i (l ++ [j]) = turns i l := by
          unfold turns
          rw [List.count_append, List.count_singleton]
          simp only [beq_iff_eq]
          rw [if_neg (fun h => hij h.symm), Nat.add_zero]
        rw [this]
        obtain ⟨g1, g2⟩ := ih i t h
        refine ⟨?_, fun o ho c => ?_⟩
        · show (s.gs.set j _)[i]? = _
          rw [List.getElem?_set_ne (fun h => hij h.symm)]
          exact g1
        · show (P.step _ s.mem).1 o c = _
          rw [step_frame hwj s.mem (fun hw => hsep i j hij o hw ho) c]
          exact g2 o ho c

/-! ### Schedules that exist -/
/-- What a program can come to when it is executed without interruption for a while. -/
inductive Steps {α : Type} : P α → Mem → P α → Mem → Prop
  | refl (t : P α) (m : Mem) : Steps t m t m
  | tail {t t' : P α} {m m' : Mem} : Steps t m t' m' → Steps t m (t'.step m').2 (t'.step m').1

theorem Steps.trans {α : Type} {t t' t'' : P α} {m m' m'' : Mem} (h : Steps t m t' m') (h' : Steps t' m' t'' m'') : Steps t m t'' m'' := by
  induction h' with
  | refl => exact h
  | tail _ ih => exact (ih h).tail

theorem Steps.run {α : Type} (t : P α) : ∀ m, Steps t m (.done (t.run m).2) (t.run m).1 := by
  induction t with
  | done r => intro m; exact .refl _ _
  | load o c k ih => intro m; exact ((Steps.refl (P.load o c k) m).tail).trans (ih _ m)
  | store o c v k ih => intro m; exact ((Steps.refl (P.store o c v k) m).tail).trans (ih _)

theorem Steps.bind {α β : Type} {t t' : P α} {m m' : Mem} (h : Steps t m t' m') (f : α → P β) : Steps (t.bind f) m (t'.bind f) m' := by
  induction h with
  | refl => exact .refl _ _
  | @tail t' m m' _ ih =>
    cases t' with
    | done r => exact ih
    | load o c k => exact ih.tail
    | store o c v k => exact ih.tail

theorem Steps.attempt {α β : Type} {t t' : P α} {m m' : Mem} (h : Steps t m t' m') (f : Res α → β) :
    Steps (t.attempt f) m (t'.attempt f) m' := by
  induction h with
  | refl => exact .refl _ _
  | @tail t' m m' _ ih =>
    cases t' with
    | done r => exact ih
    | load o c k => exact ih.tail
    | store o c v k => exact ih.tail

theorem Steps.runBind {α β : Type} {t : P α} {m m' : Mem} {a : α} (h : t.run m = (m', .ok a)) (f : α → P β) :
    Steps (t >>= f) m (f a) m' := by
  have := (Steps.run t m).bind f
  rw [h] at this
  exact this

/-- A scheduler can let goroutine `i` go on alone. -/
theorem exec_steps {t t' : P (List Out)} {m m' : Mem} (h : Steps t m t' m') (gs : List (P (List Out))) (i : Nat) (hi : gs[i]? = some t) :
    ∃ l, (∀ j ∈ l, j = i) ∧ Sys.exec ⟨m, gs⟩ l = ⟨m', gs.set i t'⟩ := by
  have hlt : i < gs.length := by
    by_contra hc
    rw [List.getElem?_eq_none (by omega)] at hi
    cases hi
  induction h with
  | refl =>
    refine ⟨[], by simp, ?_⟩
    show Sys.mk _ _ = _
    congr 1
    rw [List.getElem?_eq_getElem hlt] at hi
    rw [← Option.some.inj hi, List.set_getElem_self]
  | tail _ ih =>
    obtain ⟨l, hl, he⟩ := ih
    refine ⟨l ++ [i], ?_, ?_⟩
    · intro j hj
      rcases List.mem_append.mp hj with h | h
      · exact hl j h
      · simpa using h
    · rw [exec_snoc, he]
      unfold Sys.step
      dsimp only
      rw [List.getElem?_set_self hlt]
      simp

end MCrypto.Sm3Mem
