import Verif.Sm3.Shared
import Verif.Sm3.Lemmas
/- Lemmas about Shared.lean: execution without interruption, footprints, schedules. -/
namespace MCrypto.Sm3Mem
open MCrypto Sm3

/-! ### Execution without interruption -/
theorem run_bind {α β : Type} (t : P α) (f : α → P β) (m : Mem) :
    (t.bind f).run m = match t.run m with
      | (m', .ok a) => (f a).run m'
      | (m', .err e) => (m', .err e)
      | (m', .panic) => (m', .panic) := by
  induction t generalizing m with
  | done r => cases r <;> rfl
  | load o c k ih => exact ih _ m
  | store o c v k ih => exact ih _

theorem run_bind_ok {α β : Type} {t : P α} {m m' : Mem} {a : α} (h : t.run m = (m', .ok a)) (f : α → P β) :
    (t.bind f).run m = (f a).run m' := by rw [run_bind, h]

theorem run_do {α β : Type} {t : P α} {m m' : Mem} {a : α} (h : t.run m = (m', .ok a)) (f : α → P β) :
    (t >>= f).run m = (f a).run m' := run_bind_ok h f

theorem run_do_panic {α β : Type} {t : P α} {m m' : Mem} (h : t.run m = (m', .panic)) (f : α → P β) :
    (t >>= f).run m = (m', .panic) := by
  show (t.bind f).run m = _
  rw [run_bind, h]

theorem run_attempt {α β : Type} (f : Res α → β) (t : P α) (m : Mem) :
    (t.attempt f).run m = ((t.run m).1, .ok (f (t.run m).2)) := by
  induction t generalizing m with
  | done r => rfl
  | load o c k ih => exact ih _ m
  | store o c v k ih => exact ih _

@[simp] theorem set_same (m : Mem) (o : Nat) (c : Cell) (v : Nat) : m.set o c v o c = v := by simp [Mem.set]

theorem set_other {m : Mem} {o o' : Nat} {c c' : Cell} {v : Nat} (h : ¬(o' = o ∧ c' = c)) : m.set o c v o' c' = m o' c' := by
  simp [Mem.set, h]

@[simp] theorem set_cell (m : Mem) (o : Nat) (c c' : Cell) (v : Nat) : m.set o c v o c' = if c' = c then v else m o c' := by
  simp [Mem.set]

theorem set_obj {m : Mem} {o o' : Nat} (h : o' ≠ o) (c c' : Cell) (v : Nat) : m.set o c v o' c' = m o' c' := by
  simp [Mem.set, h]

/-- `d.x` with `p` from `off` on. -/
def Mem.fill (m : Mem) (o off : Nat) (p : Bytes) : Mem := fun o' c =>
  if o' = o then match c with
    | .x i => if off ≤ i ∧ i < off + p.length then (p.getD (i - off) 0).toNat else m o' c
    | _ => m o' c
  else m o' c

theorem run_copyX (o : Nat) (p : Bytes) : ∀ (off : Nat) (m : Mem), (copyX o off p).run m = (m.fill o off p, .ok ()) := by
  induction p with
  | nil =>
    intro off m
    show (m, _) = _
    congr 1
    funext o' c
    cases c <;> simp [Mem.fill] <;> omega
  | cons b p ih =>
    intro off m
    have h : (put o (.x off) b.toNat).run m = (m.set o (.x off) b.toNat, .ok ()) := rfl
    show (put o (.x off) b.toNat >>= fun _ => copyX o (off + 1) p).run m = _
    rw [run_do h, ih]
    congr 1
    funext o' c
    by_cases ho : o' = o
    · subst ho
      cases c with
      | x i =>
        simp only [Mem.fill, if_true, List.length_cons, set_cell, Cell.x.injEq]
        by_cases h1 : i = off
        · subst h1
          rw [if_neg (by omega), if_pos rfl, if_pos (by omega)]
          simp
        · by_cases h2 : off + 1 ≤ i ∧ i < off + 1 + p.length
          · rw [if_pos h2, if_pos (by omega), show i - off = (i - (off + 1)) + 1 by omega]
            simp
          · rw [if_neg h2, if_neg h1, if_neg (by omega)]
      | len => simp [Mem.fill]
      | nx => simp [Mem.fill]
      | h i => simp [Mem.fill]
    · simp [Mem.fill, ho, Mem.set]

theorem run_readX (o : Nat) : ∀ (n i : Nat) (m : Mem),
    (readX o n i).run m = (m, .ok ((List.range n).map fun j => UInt8.ofNat (m o (.x (i + j))))) := by
  intro n
  induction n with
  | zero => intro i m; rfl
  | succ n ih =>
    intro i m
    have h : (get o (.x i)).run m = (m, .ok (m o (.x i))) := rfl
    show (get o (.x i) >>= fun v => readX o n (i + 1) >>= fun r => pure (UInt8.ofNat v :: r)).run m = _
    rw [run_do h, run_do (ih _ _)]
    show (m, _) = _
    rw [List.range_succ_eq_map, List.map_cons, List.map_map]
    simp only [Nat.add_zero]
    congr 4
    funext j
    simp only [Function.comp]
    rw [show i + 1 + j = i + (j + 1) by omega]

theorem run_readX64 (o : Nat) (m : Mem) : (readX o 64 0).run m = (m, .ok (m.digest o).x) := by
  rw [run_readX]
  simp [Mem.digest]

theorem run_readH (o : Nat) (m : Mem) : (readH o).run m = (m, .ok (m.digest o).h) := rfl

/-- `d.h` after an assignment. -/
def Mem.setH (m : Mem) (o : Nat) (v : V) : Mem :=
  (((((((m.set o (.h 0) v.a.toNat).set o (.h 1) v.b.toNat).set o (.h 2) v.c.toNat).set o (.h 3) v.d.toNat).set o (.h 4)
    v.e.toNat).set o (.h 5) v.f.toNat).set o (.h 6) v.g.toNat).set o (.h 7) v.h.toNat

theorem run_writeH (o : Nat) (v : V) (m : Mem) : (writeH o v).run m = (m.setH o v, .ok ()) := rfl

theorem setH_digest (m : Mem) (o : Nat) (v : V) : (m.setH o v).digest o = { m.digest o with h := v } := by
  obtain ⟨a, b, c, d, e, f, g, h⟩ := v
  simp [Mem.setH, Mem.digest]

theorem setH_other {m : Mem} {o o' : Nat} {v : V} (h : o' ≠ o) (c : Cell) : m.setH o v o' c = m o' c := by
  simp [Mem.setH, set_obj h]

theorem fill_other {m : Mem} {o o' off : Nat} {p : Bytes} (h : o' ≠ o) (c : Cell) : m.fill o off p o' c = m o' c := by
  simp [Mem.fill, h]

theorem fill_digest (m : Mem) (o off : Nat) (p : Bytes) (h : off + p.length ≤ 64) :
    (m.fill o off p).digest o =
      { m.digest o with x := (m.digest o).x.take off ++ p ++ (m.digest o).x.drop (off + p.length) } := by
  simp only [Mem.digest, Digest.mk.injEq, and_true, Mem.fill, if_true, true_and]
  rw [List.append_assoc]
  apply List.ext_getElem
  · simp; omega
  · intro i h1 h2
    simp only [List.length_map, List.length_range] at h1
    simp only [List.getElem_map, List.getElem_range]
    by_cases ha : i < off
    · rw [if_neg (by omega), List.getElem_append_left (by simp; omega)]
      simp
    · by_cases hb : i < off + p.length
      · rw [if_pos (by omega), List.getElem_append_right (by simp; omega),
          List.getElem_append_left (by simp; omega)]
        simp only [List.length_take, List.length_map, List.length_range]
        rw [List.getD_eq_getElem?_getD, List.getElem?_eq_getElem (by omega)]
        simp [show min off 64 = off by omega]
      · rw [if_neg (by omega), List.getElem_append_right (by simp; omega), List.getElem_append_right (by simp; omega)]
        simp only [List.length_take, List.length_map, List.length_range, List.getElem_drop, List.getElem_map,
          List.getElem_range]
        rw [show off + p.length + (i - min off 64 - p.length) = i by omega]

theorem digest_xlen (m : Mem) (o : Nat) : (m.digest o).x.length = 64 := by simp [Mem.digest]

theorem setNx_digest (m : Mem) (o v : Nat) : (m.set o .nx v).digest o = { m.digest o with nx := v } := by simp [Mem.digest]

theorem setLen_digest (m : Mem) (o : Nat) (v : UInt64) : (m.set o .len v.toNat).digest o = { m.digest o with len := v } := by
  simp [Mem.digest]

theorem digest_nx (m : Mem) (o : Nat) : (m.digest o).nx = m o .nx := rfl

/-- What one call may do to memory: only its object changes. -/
def Only (o : Nat) (m m' : Mem) : Prop := ∀ o', o' ≠ o → ∀ c, m' o' c = m o' c

theorem run_writeHead (o : Nat) (p : Bytes) (m : Mem) (hn : m o .nx ≤ 64) :
    ∃ m', (writeHead o p).run m = (m', .ok ((m.digest o).writeHead p).2) ∧ m'.digest o = ((m.digest o).writeHead p).1 ∧ Only o m m' := by
  have hg : ∀ m : Mem, (get o .nx).run m = (m, .ok (m o .nx)) := fun _ => rfl
  unfold writeHead
  rw [run_do (hg m)]
  unfold Digest.writeHead
  rw [digest_nx]
  rcases Nat.eq_zero_or_pos (m o .nx) with h0 | h0
  · rw [if_neg (by omega), if_neg (by omega)]
    exact ⟨m, rfl, rfl, fun _ _ _ => rfl⟩
  rw [if_pos h0, if_pos h0, run_do (hg m), if_neg (by omega)]
  have hlen : (p.take (min (64 - m o .nx) p.length)).length = min (64 - m o .nx) p.length := by simp
  generalize hk : min (64 - m o .nx) p.length = n at hlen ⊢
  have hfd := fill_digest m o (m o .nx) (p.take n) (by omega)
  rw [hlen] at hfd
  dsimp only
  rw [run_do (run_copyX _ _ _ _), run_do (hg _)]
  have hnx : (m.fill o (m o .nx) (p.take n)) o .nx = m o .nx := by simp [Mem.fill]
  rw [hnx]
  have hp : ∀ (m : Mem) (v : Nat), (put o .nx v).run m = (m.set o .nx v, .ok ()) := fun _ _ => rfl
  rw [run_do (hp _ _), run_do (hg _), set_same]
  generalize hm1 : m.fill o (m o .nx) (p.take n) = m1 at hfd hnx ⊢
  have ho1 : Only o m m1 := fun o' h c => by rw [← hm1]; exact fill_other h c
  by_cases h64 : m o .nx + n = 64
  · rw [if_pos h64, if_pos h64]
    dsimp only
    rw [run_do (run_readH _ _), run_do (run_readX64 _ _), run_do (run_writeH _ _ _), run_do (hp _ _)]
    refine ⟨_, rfl, ?_, ?_⟩
    · rw [setNx_digest, setH_digest, setNx_digest, hfd]
    · intro o' h c
      rw [set_obj h, setH_other h, set_obj h, ho1 o' h]
  · rw [if_neg h64, if_neg h64]
    refine ⟨_, rfl, ?_, ?_⟩
    · rw [setNx_digest, hfd]
    · intro o' h c
      rw [set_obj h, ho1 o' h]

theorem run_writeBlocks (o : Nat) (p : Bytes) (m : Mem) :
    ∃ m', (writeBlocks o p).run m = (m', .ok ((m.digest o).writeBlocks p).2) ∧ m'.digest o = ((m.digest o).writeBlocks p).1 ∧
      Only o m m' := by
  unfold writeBlocks Digest.writeBlocks
  by_cases h : p.length ≥ 64
  · rw [if_pos h, if_pos h]
    dsimp only
    rw [run_do (run_readH _ _), run_do (run_writeH _ _ _)]
    exact ⟨_, rfl, setH_digest _ _ _, fun o' h c => setH_other h c⟩
  · rw [if_neg h, if_neg h]
    exact ⟨m, rfl, rfl, fun _ _ _ => rfl⟩

theorem run_writeTail (o : Nat) (p : Bytes) (m : Mem) :
    ∃ m', (writeTail o p).run m = (m', .ok ()) ∧ m'.digest o = (m.digest o).writeTail p ∧ Only o m m' := by
  unfold writeTail Digest.writeTail
  by_cases h : p.length > 0
  · rw [if_pos h, if_pos h, run_do (run_copyX _ _ _ _)]
    refine ⟨_, rfl, ?_, ?_⟩
    · rw [setNx_digest, fill_digest _ _ _ _ (by simp; omega)]
      simp
    · intro o' h c
      rw [set_obj h, fill_other h]
  · rw [if_neg h, if_neg h]
    exact ⟨m, rfl, rfl, fun _ _ _ => rfl⟩

/-- A `Write` that is not interrupted is that of Model.lean. -/
theorem run_write (o : Nat) (p : Bytes) (m : Mem) (hn : m o .nx ≤ 64) :
    ∃ m', (write o p).run m = (m', .ok p.length) ∧ m'.digest o = (m.digest o).write p ∧ Only o m m' := by
  unfold write
  have hg : (get o .len).run m = (m, .ok (m o .len)) := rfl
  rw [run_do hg]
  have hp : ∀ (v : Nat), (put o .len v).run m = (m.set o .len v, .ok ()) := fun _ => rfl
  rw [run_do (hp _)]
  have hl := setLen_digest m o (UInt64.ofNat (m o .len) + UInt64.ofNat p.length)
  have ho0 : Only o m (m.set o .len (UInt64.ofNat (m o .len) + UInt64.ofNat p.length).toNat) := fun o' h c => set_obj h _ _ _
  have hn0 : (m.set o .len (UInt64.ofNat (m o .len) + UInt64.ofNat p.length).toNat) o .nx ≤ 64 := by simp [hn]
  generalize m.set o .len (UInt64.ofNat (m o .len) + UInt64.ofNat p.length).toNat = m0 at hl ho0 hn0 ⊢
  obtain ⟨m1, r1, d1, o1⟩ := run_writeHead o p m0 hn0
  rw [run_do r1]
  obtain ⟨m2, r2, d2, o2⟩ := run_writeBlocks o ((m0.digest o).writeHead p).2 m1
  rw [run_do r2]
  obtain ⟨m3, r3, d3, o3⟩ := run_writeTail o ((m1.digest o).writeBlocks ((m0.digest o).writeHead p).2).2 m2
  rw [run_do r3]
  refine ⟨m3, rfl, ?_, fun o' h c => by rw [o3 o' h, o2 o' h, o1 o' h, ho0 o' h]⟩
  rw [d3, d2, d1, hl]
  rfl

theorem run_sum (o : Nat) (m : Mem) : (sum o).run m = (m, checkSum (m.digest o)) := by
  unfold sum
  rw [run_do (run_readH _ _), run_do (run_readX64 _ _)]
  rfl

theorem run_reset (o : Nat) (m : Mem) :
    ∃ m', (reset o).run m = (m', .ok ()) ∧ m'.digest o = (m.digest o).reset ∧ Only o m m' := by
  unfold reset
  rw [run_do (run_writeH _ _ _)]
  have hp : ∀ (m : Mem) (c : Cell) (v : Nat), (put o c v).run m = (m.set o c v, .ok ()) := fun _ _ _ => rfl
  rw [run_do (hp _ _ _), hp]
  refine ⟨_, rfl, ?_, fun o' h c => by rw [set_obj h, set_obj h, setH_other h]⟩
  have := setLen_digest ((m.setH o initV).set o .nx 0) o 0
  rw [show ((0 : UInt64).toNat) = 0 from rfl] at this
  rw [this, setNx_digest, setH_digest]
  rfl

end MCrypto.Sm3Mem
