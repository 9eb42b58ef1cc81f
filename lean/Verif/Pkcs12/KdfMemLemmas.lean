import Verif.Pkcs12.KdfMem
import Mathlib.Tactic.ByContra
/-
What the functions of KdfMem read and write.
-/
namespace MCrypto.P12.Mem
open MCrypto MCrypto.Go MCrypto.P12

/-- Of the arrays of `h` at most those in `W` were written, and none was resized. -/
structure Only (W : Nat → Prop) (h h' : Heap) : Prop where
  more : h.length ≤ h'.length
  size : ∀ a, (h.array a).length ≤ (h'.array a).length
  same : ∀ a, a < h.length → ¬ W a → h'.array a = h.array a

theorem Only.refl (W : Nat → Prop) (h : Heap) : Only W h h := ⟨le_rfl, fun _ => le_rfl, fun _ _ _ => rfl⟩

theorem Only.trans {W W' : Nat → Prop} {h h1 h2 : Heap} (a : Only W h h1) (b : Only W' h1 h2) (hw : ∀ x, x < h.length → W' x → W x) : Only W h h2 :=
  ⟨a.more.trans b.more, fun x => (a.size x).trans (b.size x), fun x hx hn => (b.same x (lt_of_lt_of_le hx a.more) fun hh => hn (hw x hx hh)).trans (a.same x hx hn)⟩

theorem Only.mono {W W' : Nat → Prop} {h h1 : Heap} (a : Only W h h1) (hw : ∀ x, x < h.length → W x → W' x) : Only W' h h1 :=
  (Only.refl W' h).trans a hw

theorem array_ge (h : Heap) {a : Nat} (ha : h.length ≤ a) : h.array a = [] := by
  unfold Heap.array
  rw [List.getD_eq_getElem?_getD, List.getElem?_eq_none ha]; rfl

theorem only_alloc (h : Heap) (x : Bytes) : Only (fun _ => False) h (h.alloc x) := by
  refine ⟨by simp [Heap.alloc], fun a => ?_, fun a ha _ => array_alloc_old h x (by omega)⟩
  by_cases ha : a = h.length
  · rw [array_ge h (by omega)]; exact Nat.zero_le _
  · rw [array_alloc_old h x ha]

theorem splice_length_ge (b : Bytes) (pos : Nat) (x : Bytes) : b.length ≤ (splice b pos x).length := by
  simp only [splice, List.length_append, List.length_take, List.length_drop]; omega

theorem splice_nil (b : Bytes) (pos : Nat) : splice b pos [] = b := by
  simp [splice]

theorem only_store (h : Heap) (a pos : Nat) (x : Bytes) : Only (fun b => b = a ∧ 0 < x.length) h (h.store a pos x) := by
  refine ⟨by rw [length_store], fun b => ?_, fun b hb hn => ?_⟩
  · rw [array_store]
    split
    · exact splice_length_ge _ _ _
    · exact le_rfl
  · rw [array_store]
    split
    · rename_i hh
      have : x = [] := by
        rcases x with _ | ⟨y, t⟩
        · rfl
        · exact absurd ⟨hh.1, by simp⟩ hn
      rw [this, splice_nil]
    · rfl

/-- A slice with contents `x` in an array that is not among the first `n`. -/
structure Live (n : Nat) (h : Heap) (s : Slice) (x : Bytes) : Prop where
  valid : h.Valid s
  read : h.read s = x
  new : 0 < s.cap → n ≤ s.arr

theorem Live.lt {n : Nat} {h : Heap} {s : Slice} {x : Bytes} (l : Live n h s x) (hc : 0 < s.cap) : s.arr < h.length := valid_lt l.valid hc

theorem Live.len {n : Nat} {h : Heap} {s : Slice} {x : Bytes} (l : Live n h s x) : s.len = x.length := by
  rw [← l.read, read_length l.valid]

theorem read_same_array {h h' : Heap} {s : Slice} (hb : h'.array s.arr = h.array s.arr) : h'.read s = h.read s := by
  unfold Heap.read; rw [hb]

theorem valid_keep {W : Nat → Prop} {h h' : Heap} {s : Slice} (v : h.Valid s) (o : Only W h h') : h'.Valid s :=
  ⟨v.1, v.2.trans (o.size _)⟩

theorem read_empty {h : Heap} {s : Slice} (hl : s.len = 0) : h.read s = [] := by
  unfold Heap.read; rw [hl, List.take_zero]

theorem read_keep {W : Nat → Prop} {h h' : Heap} {s : Slice} (v : h.Valid s) (o : Only W h h') (hw : 0 < s.cap → ¬ W s.arr) : h'.read s = h.read s := by
  by_cases hc : 0 < s.cap
  · exact read_same_array (o.same _ (valid_lt v hc) (hw hc))
  · have : s.len = 0 := by have := v.1; omega
    rw [read_empty this, read_empty this]

theorem Live.keep {W : Nat → Prop} {n : Nat} {h h' : Heap} {s : Slice} {x : Bytes} (l : Live n h s x) (o : Only W h h') (hw : 0 < s.cap → ¬ W s.arr) :
    Live n h' s x :=
  ⟨valid_keep l.valid o, (read_keep l.valid o hw).trans l.read, l.new⟩

theorem live_nil (n : Nat) (h : Heap) : Live n h nil [] := ⟨⟨le_rfl, Nat.zero_le _⟩, read_empty rfl, fun hc => absurd hc (by decide)⟩

/-- `append` -/
theorem app_spec (room : Nat → Nat) {n : Nat} {h : Heap} {s : Slice} {y : Bytes} (l : Live n h s y) (hn : n ≤ h.length) (x : Bytes) :
    Live n (app room h s x).1 (app room h s x).2 (y ++ x) ∧
    Only (fun a => a = s.arr ∧ 0 < s.cap ∧ 0 < x.length) h (app room h s x).1 ∧
    (0 < (app room h s x).2.cap → (app room h s x).2.arr = s.arr ∧ 0 < s.cap ∨ h.length ≤ (app room h s x).2.arr) ∧
    ((app room h s x).1.read s = y) := by
  have hlen := l.len
  rcases x with _ | ⟨b, t⟩
  · have e : app room h s [] = (h, s) := by
      unfold app Heap.append
      rw [if_pos (by simpa using l.valid.1)]
      unfold Heap.store
      have : (fun (x : Bytes) => splice x (s.off + s.len) []) = id := by funext z; exact splice_nil _ _
      rw [this]
      simp
    rw [e, List.append_nil]
    exact ⟨l, Only.refl _ _, fun hc => Or.inl ⟨rfl, hc⟩, l.read⟩
  · generalize hx : b :: t = x
    have hx0 : 0 < x.length := by rw [← hx]; simp
    obtain ⟨h1, h2, h3, h4, h5⟩ := append_spec l.valid x hx0 (room h.length)
    change (app room h s x).1.read (app room h s x).2 = _ at h1
    change (app room h s x).1.Valid (app room h s x).2 at h2
    rw [l.read] at h1
    by_cases hc : s.len + x.length ≤ s.cap
    · obtain ⟨g1, g2, g3, g4⟩ := h4 hc
      change (app room h s x).2.arr = s.arr at g1
      have hcap : 0 < s.cap := by omega
      have e : (app room h s x).1 = h.store s.arr (s.off + s.len) x := by
        unfold app Heap.append; rw [if_pos hc]
      have o : Only (fun a => a = s.arr ∧ 0 < s.cap ∧ 0 < x.length) h (app room h s x).1 := by
        rw [e]; exact (only_store h s.arr _ x).mono fun a _ ha => ⟨ha.1, hcap, ha.2⟩
      refine ⟨⟨h2, h1, fun _ => by rw [g1]; exact l.new hcap⟩, o, fun _ => Or.inl ⟨g1, hcap⟩, ?_⟩
      rw [← l.read]
      refine read_congr fun i hi1 hi2 => ?_
      rw [e, byte_store (by have := l.valid.2; omega), if_neg (by omega)]
    · obtain ⟨g1, g2⟩ := h5 (by omega)
      change (app room h s x).2.arr = h.length at g1
      have e : (app room h s x).1 = h.alloc (h.read s ++ (x ++ List.replicate (room h.length) 0)) := by
        unfold app Heap.append; rw [if_neg hc]
      have o : Only (fun _ => False) h (app room h s x).1 := by rw [e]; exact only_alloc _ _
      refine ⟨⟨h2, h1, fun _ => by rw [g1]; exact hn⟩, o.mono fun _ _ hf => hf.elim, fun _ => Or.inr (by rw [g1]), ?_⟩
      exact (read_keep l.valid o fun _ hf => hf).trans l.read

theorem fresh_spec (n : Nat) (h : Heap) (hn : n ≤ h.length) (x : Bytes) :
    Live n (fresh h x).1 (fresh h x).2 x ∧ Only (fun _ => False) h (fresh h x).1 ∧ (fresh h x).2.arr = h.length ∧
    (fresh h x).2.len = x.length ∧ (fresh h x).2.cap = x.length ∧ (fresh h x).2.off = 0 := by
  refine ⟨⟨⟨le_rfl, ?_⟩, ?_, fun _ => hn⟩, only_alloc h x, rfl, rfl, rfl, rfl⟩
  · unfold fresh; dsimp only; rw [array_alloc_new]; omega
  · unfold fresh Heap.read; dsimp only
    rw [array_alloc_new, List.drop_zero, List.take_length]

/-- The contents of a slice after a write into it. -/
theorem read_store_in {h : Heap} {s : Slice} {off : Nat} {x : Bytes} (v : h.Valid s) (hf : off + x.length ≤ s.len) (hc : 0 < s.cap) :
    (h.store s.arr (s.off + off) x).read s = splice (h.read s) off x := by
  have hl := read_length v
  have hfit : s.off + off + x.length ≤ (h.array s.arr).length := by have := v.1; have := v.2; omega
  apply List.ext_getElem?
  intro i
  rw [read_get, byte_store hfit, splice_get (by omega), read_get]
  by_cases h1 : i < s.len
  · rw [if_pos h1, if_pos h1]
    by_cases h2 : off ≤ i ∧ i < off + x.length
    · rw [if_pos ⟨rfl, by omega, by omega⟩, if_pos h2]
      congr 1; omega
    · rw [if_neg (by omega), if_neg h2]
  · rw [if_neg h1, if_neg h1]
    rw [if_neg (by omega)]

theorem copyAt_eq (A : Bytes) (off : Nat) (src : Bytes) (h : off ≤ A.length) : copyAt A off src = splice A off (src.take (A.length - off)) := by
  unfold copyAt splice
  congr 2
  rw [List.drop_drop]
  by_cases hs : src.length ≤ A.length - off
  · rw [List.take_of_length_le hs]
  · rw [List.drop_of_length_le (by omega), List.drop_of_length_le (by rw [List.length_take]; omega)]

theorem copyTo_spec {n : Nat} {h : Heap} {s : Slice} {y : Bytes} (l : Live n h s y) (off : Nat) (src : Bytes) (ho : off ≤ y.length) :
    Live n (copyTo h s off src) s (copyAt y off src) ∧ Only (fun a => a = s.arr ∧ 0 < s.cap) h (copyTo h s off src) := by
  have hlen := l.len
  by_cases hc : 0 < s.cap
  · have o : Only (fun a => a = s.arr ∧ 0 < s.cap) h (copyTo h s off src) := (only_store h _ _ _).mono fun a _ ha => ⟨ha.1, hc⟩
    refine ⟨⟨valid_keep l.valid o, ?_, l.new⟩, o⟩
    unfold copyTo
    rw [read_store_in l.valid (by rw [List.length_take]; omega) hc, l.read, copyAt_eq _ _ _ ho, hlen]
  · have h0 : s.len = 0 := by have := l.valid.1; omega
    have hy : y = [] := by rw [← List.length_eq_zero_iff]; omega
    have e : copyTo h s off src = h := by
      unfold copyTo Heap.store
      rw [h0, Nat.zero_sub, List.take_zero]
      have : (fun (x : Bytes) => splice x (s.off + off) []) = id := by funext z; exact splice_nil _ _
      rw [this]; simp
    rw [e]
    subst hy
    refine ⟨?_, Only.refl _ _⟩
    have : copyAt [] off src = [] := by simp [copyAt]
    rw [this]; exact l

theorem Live.prefix {n : Nat} {h : Heap} {s : Slice} {x : Bytes} (l : Live n h s x) {k : Nat} (hk : k ≤ s.len) : Live n h { s with len := k } (x.take k) := by
  refine ⟨⟨hk.trans l.valid.1, l.valid.2⟩, ?_, l.new⟩
  rw [← l.read]
  unfold Heap.read
  dsimp only
  rw [List.take_take, Nat.min_eq_left hk]

theorem makeD_spec (room : Nat → Nat) (ID : UInt8) {n : Nat} (k : Nat) : ∀ {h : Heap} {s : Slice} {y : Bytes}, Live n h s y → n ≤ h.length →
    Live n (makeD room ID k h s).1 (makeD room ID k h s).2 (y ++ List.replicate k ID) ∧ Only (fun a => n ≤ a) h (makeD room ID k h s).1 := by
  induction k with
  | zero =>
    intro h s y l _
    exact ⟨by simpa [makeD] using l, Only.refl _ _⟩
  | succ k ih =>
    intro h s y l hn
    obtain ⟨h1, h2, -, -⟩ := app_spec room l hn [ID]
    obtain ⟨g1, g2⟩ := ih h1 (hn.trans h2.more)
    refine ⟨?_, ?_⟩
    · rw [List.append_assoc] at g1
      rw [List.replicate_succ]
      exact g1
    · exact (h2.mono fun a _ ha => by rw [ha.1]; exact l.new ha.2.1).trans g2 fun _ _ ha => ha

theorem repeatBytes_length (b : Bytes) (n : Nat) : (repeatBytes b n).length = n * b.length := by
  unfold repeatBytes
  simp

theorem fill_spec (n : Nat) {h : Heap} {s : Slice} (hv : h.Valid s) (hn : n ≤ h.length) (v : Nat) :
    Live n (fill h s v).1 (fill h s v).2 (fillWithRepeats (h.read s) v) ∧ Only (fun _ => False) h (fill h s v).1 ∧
    (0 < (fill h s v).2.cap → h.length ≤ (fill h s v).2.arr) := by
  unfold fill fillWithRepeats
  rw [read_length hv]
  by_cases h0 : s.len = 0
  · rw [if_pos h0, if_pos h0]
    exact ⟨live_nil _ _, Only.refl _ _, fun hc => absurd hc (Nat.lt_irrefl 0)⟩
  · rw [if_neg h0, if_neg h0]
    dsimp only
    generalize hO : v * ((s.len + v - 1) / v) = O
    generalize hB : repeatBytes (h.read s) ((O + s.len - 1) / s.len) = buf
    have hlen : O ≤ buf.length := by
      rw [← hB, repeatBytes_length, read_length hv]
      have := Nat.div_add_mod (O + s.len - 1) s.len
      have hm := Nat.mod_lt (O + s.len - 1) (show 0 < s.len by omega)
      rw [Nat.mul_comm]
      omega
    refine ⟨⟨⟨hlen, ?_⟩, ?_, fun _ => hn⟩, only_alloc _ _, fun _ => le_rfl⟩
    · dsimp only; rw [array_alloc_new]; omega
    · unfold Heap.read
      dsimp only
      rw [array_alloc_new, List.drop_zero]

theorem again_spec (hash : Bytes → Bytes) {n : Nat} (k : Nat) : ∀ {h : Heap} {s : Slice} {x : Bytes}, Live n h s x → n ≤ h.length →
    Live n (again hash k h s).1 (again hash k h s).2 (hash^[k] x) ∧ Only (fun _ => False) h (again hash k h s).1 := by
  induction k with
  | zero => intro h s x l _; exact ⟨l, Only.refl _ _⟩
  | succ k ih =>
    intro h s x l hn
    obtain ⟨h1, h2, -⟩ := fresh_spec n h hn (hash (h.read s))
    rw [l.read] at h1 h2
    obtain ⟨g1, g2⟩ := ih h1 (hn.trans h2.more)
    refine ⟨?_, ?_⟩
    · unfold again sum
      rw [l.read, Function.iterate_succ_apply]
      exact g1
    · unfold again sum
      rw [l.read]
      exact h2.trans g2 fun _ _ hf => hf

theorem hashIter_eq (hash : Bytes → Bytes) (r : Int) (x : Bytes) : hashIter hash r x = hash^[(r - 1).toNat] (hash x) := by
  unfold hashIter
  rw [List.foldl_const, List.length_range]

theorem makeB_spec (room : Nat → Nat) {n m : Nat} {Ai : Slice} {a : Bytes} (v : Nat) (k : Nat) : ∀ {h : Heap} {B : Slice} {b : Bytes}, Live m h B b → m ≤ h.length →
    Live n h Ai a → (0 < Ai.cap → Ai.arr < m) →
    Live m (makeB room Ai v k h B).1 (makeB room Ai v k h B).2 (fillB a v k b) ∧ Only (fun x => m ≤ x) h (makeB room Ai v k h B).1 := by
  induction k with
  | zero =>
    intro h B b l hm la ha
    refine ⟨?_, Only.refl _ _⟩
    unfold makeB fillB
    have e := l.prefix (k := min v B.len) (Nat.min_le_right _ _)
    rw [l.len] at e
    rw [l.len]
    rwa [List.take_eq_take_min]
  | succ k ih =>
    intro h B b l hm la ha
    unfold makeB fillB
    rw [l.len]
    split
    · rw [la.read]
      obtain ⟨h1, h2, -, -⟩ := app_spec room l hm a
      have o : Only (fun x => m ≤ x) h (app room h B a).1 := h2.mono fun x _ hx => by rw [hx.1]; exact l.new hx.2.1
      obtain ⟨g1, g2⟩ := ih h1 (hm.trans h2.more) (la.keep o fun hc => by have := ha hc; omega) ha
      exact ⟨g1, o.trans g2 fun _ _ hx => hx⟩
    · exact ⟨l.prefix (by rw [l.len]; omega), Only.refl _ _⟩

theorem splice_all (y x : Bytes) (pos : Nat) (h : pos + x.length ≤ y.length) : splice y pos x = y.take pos ++ x ++ y.drop (pos + x.length) := by
  unfold splice; rw [List.append_assoc]

/-- The buffer for short numbers: not among `F`. -/
structure BufOk (F : Nat → Prop) (v : Nat) (h : Heap) (buf : Slice) : Prop where
  valid : h.Valid buf
  len : 0 < buf.cap → buf.len = v ∧ ¬ F buf.arr

theorem addBlock_length (v Bbi : Nat) (b : Bytes) : (addBlock v Bbi b).length = v := by
  unfold addBlock
  dsimp only
  split <;> split <;> simp_all <;> omega

theorem block_spec {F : Nat → Prop} {n v Bbi j : Nat} {I : Slice} {h : Heap} {buf : Slice} {x : Bytes} (hv : 0 < v) (hn : n ≤ h.length) (l : Live n h I x) (hj : (j + 1) * v ≤ x.length)
    (hb : BufOk F v h buf) (hF : ∀ a, F a → a < h.length) (hI : F I.arr) :
    Live n (block v Bbi I j h buf).1 I (x.take (j * v) ++ addBlock v Bbi ((x.drop (j * v)).take v) ++ x.drop (j * v + v)) ∧
    Only (fun a => a = I.arr ∨ ¬ F a) h (block v Bbi I j h buf).1 ∧
    BufOk F v (block v Bbi I j h buf).1 (block v Bbi I j h buf).2 := by
  have hjv : j * v + v ≤ x.length := by rw [Nat.add_mul, Nat.one_mul] at hj; exact hj
  have hcap : 0 < I.cap := by have := l.valid.1; have := l.len; omega
  -- the last copy
  have fin : ∀ {h' : Heap} {src : Bytes}, Live n h' I x → src.length = v →
      Live n (copyTo h' I (j * v) src) I (x.take (j * v) ++ src ++ x.drop (j * v + v)) ∧ Only (fun a => a = I.arr ∨ ¬ F a) h' (copyTo h' I (j * v) src) := by
    intro h' src l' hs
    obtain ⟨g1, g2⟩ := copyTo_spec l' (j * v) src (by omega)
    rw [copyAt_eq _ _ _ (by omega), List.take_of_length_le (by omega), splice_all _ _ _ (by omega), hs] at g1
    exact ⟨g1, g2.mono fun a _ ha => Or.inl ha.1⟩
  unfold block
  rw [l.read]
  generalize hblk : (x.drop (j * v)).take v = blk
  obtain ⟨f1, f2, f3, f4, f5, f6⟩ := fresh_spec n h hn (toBytes (ofBytes blk + Bbi + 1))
  generalize hT : toBytes (ofBytes blk + Bbi + 1) = T at *
  have hadd : addBlock v Bbi blk = (if (if T.length > v then T.drop (T.length - v) else T).length < v then
      List.replicate (v - (if T.length > v then T.drop (T.length - v) else T).length) 0 ++ (if T.length > v then T.drop (T.length - v) else T)
      else (if T.length > v then T.drop (T.length - v) else T)) := by
    unfold addBlock; rw [hT]
  generalize hfr : fresh h T = fr at *
  obtain ⟨h1, Ijb⟩ := fr
  dsimp only at *
  have l1 : Live n h1 I x := l.keep f2 fun _ hf => hf
  have b1 : BufOk F v h1 buf := ⟨valid_keep hb.valid f2, hb.len⟩
  have o1 : Only (fun a => a = I.arr ∨ ¬ F a) h h1 := f2.mono fun _ _ hf => hf.elim
  rw [f4]
  by_cases hgt : T.length > v
  · rw [if_pos hgt] at hadd ⊢
    rw [if_neg (by rw [List.length_drop]; omega)] at hadd
    rw [if_neg (by dsimp only; omega)]
    have hr : h1.read ⟨Ijb.arr, Ijb.off + (T.length - v), v, Ijb.cap - (T.length - v)⟩ = T.drop (T.length - v) := by
      have hh := f1.read
      unfold Heap.read at hh ⊢
      dsimp only
      rw [f4] at hh
      have e2 := congrArg (List.drop (T.length - v)) hh
      rw [List.drop_take, List.drop_drop, show T.length - (T.length - v) = v by omega] at e2
      exact e2
    rw [hr, List.take_of_length_le (by rw [List.length_drop]; omega), hadd]
    obtain ⟨g1, g2⟩ := fin l1 (src := T.drop (T.length - v)) (by rw [List.length_drop]; omega)
    exact ⟨g1, o1.trans g2 fun _ _ h => h, ⟨valid_keep b1.valid g2, b1.len⟩⟩
  · rw [if_neg hgt] at hadd ⊢
    rw [f4]
    by_cases hlt : T.length < v
    · rw [if_pos hlt] at hadd ⊢
      -- the buffer
      have hbuf : ∃ h2 buf2 bv, (if buf.cap = 0 then fresh h1 (List.replicate v 0) else (h1, buf)) = (h2, buf2) ∧
          Live 0 h2 buf2 bv ∧ Only (fun _ => False) h1 h2 ∧ 0 < buf2.cap ∧ bv.length = v ∧ ¬ F buf2.arr ∧ buf2.arr ≠ Ijb.arr := by
        by_cases hc : buf.cap = 0
        · rw [if_pos hc]
          obtain ⟨q1, q2, q3, q4, q5, q6⟩ := fresh_spec 0 h1 (Nat.zero_le _) (List.replicate v 0)
          refine ⟨(fresh h1 (List.replicate v 0)).1, (fresh h1 (List.replicate v 0)).2, _, rfl, q1, q2, by rw [q5]; simpa using hv, by simp, ?_, ?_⟩
          · intro hf
            have := hF _ hf
            rw [q3] at this
            have := f2.more
            omega
          · rw [q3, f3]
            have : h1 = (fresh h T).1 := by rw [hfr]
            rw [this]
            unfold fresh Heap.alloc
            simp
        · rw [if_neg hc]
          have hc' : 0 < buf.cap := by omega
          refine ⟨h1, buf, _, rfl, ⟨b1.valid, rfl, fun _ => Nat.zero_le _⟩, Only.refl _ _, hc', ?_, (b1.len hc').2, ?_⟩
          · rw [read_length b1.valid, (b1.len hc').1]
          · rw [f3]
            have := valid_lt hb.valid hc'
            omega
      obtain ⟨h2, buf2, bv, e, lb, o2, hc2, hbl, hnF, hne⟩ := hbuf
      rw [e]
      dsimp only
      have hlb := lb.len
      -- zeros
      obtain ⟨z1, z2⟩ := copyTo_spec lb 0 (List.replicate (v - T.length) 0) (Nat.zero_le _)
      have ez : copyTo h2 buf2 0 (List.replicate (v - T.length) 0) = h2.store buf2.arr buf2.off (List.replicate (v - T.length) 0) := by
        unfold copyTo
        rw [List.take_of_length_le (by rw [List.length_replicate]; omega), Nat.add_zero]
      rw [ez] at z1 z2
      generalize h2.store buf2.arr buf2.off (List.replicate (v - T.length) 0) = h3 at *
      have oz : Only (fun a => a = I.arr ∨ ¬ F a) h2 h3 := z2.mono fun a _ ha => Or.inr (by rw [ha.1]; exact hnF)
      -- the number
      have hI3 : h3.read Ijb = T := by
        rw [read_keep (valid_keep f1.valid o2) z2 (fun _ hh => hne hh.1.symm), read_keep f1.valid o2 (fun _ hf => hf), f1.read]
      rw [hI3]
      have hzl : (copyAt bv 0 (List.replicate (v - T.length) 0)).length = v := by rw [← z1.len, hlb, hbl]
      obtain ⟨y1, y2⟩ := copyTo_spec z1 (v - T.length) T (by omega)
      generalize copyTo h3 buf2 (v - T.length) T = h4 at *
      have oy : Only (fun a => a = I.arr ∨ ¬ F a) h3 h4 := y2.mono fun a _ ha => Or.inr (by rw [ha.1]; exact hnF)
      have hval : copyAt (copyAt bv 0 (List.replicate (v - T.length) 0)) (v - T.length) T = List.replicate (v - T.length) 0 ++ T := by
        rw [copyAt_eq _ _ _ (by omega), hzl, List.take_of_length_le (by omega), splice_all _ _ _ (by omega),
          List.drop_of_length_le (by omega), List.append_nil]
        congr 1
        have et : (List.replicate (v - T.length) (0 : UInt8)).take (bv.length - 0) = List.replicate (v - T.length) 0 :=
          List.take_of_length_le (by rw [List.length_replicate]; omega)
        rw [copyAt_eq _ _ _ (Nat.zero_le _), et,
          splice_all _ _ _ (by rw [List.length_replicate]; omega), List.take_zero, List.nil_append,
          List.take_left' (List.length_replicate ..)]
      rw [hval] at y1
      rw [y1.read, List.take_of_length_le (by rw [List.length_append, List.length_replicate]; omega), hadd]
      have onot : ∀ {h' h'' : Heap}, Only (fun a => a = buf2.arr ∧ 0 < buf2.cap) h' h'' → Live n h' I x → Live n h'' I x :=
        fun o ll => ll.keep o fun _ hh => hnF (hh.1 ▸ hI)
      have l4 : Live n h4 I x := onot y2 (onot z2 (l1.keep o2 fun _ hf => hf))
      obtain ⟨g1, g2⟩ := fin l4 (src := List.replicate (v - T.length) 0 ++ T) (by rw [List.length_append, List.length_replicate]; omega)
      refine ⟨g1, ?_, ⟨valid_keep y1.valid g2, fun _ => ⟨by omega, hnF⟩⟩⟩
      have o2' : Only (fun a => a = I.arr ∨ ¬ F a) h1 h2 := o2.mono fun _ _ hf => hf.elim
      exact (((o1.trans o2' fun _ _ h => h).trans oz fun _ _ h => h).trans oy fun _ _ h => h).trans g2 fun _ _ h => h
    · rw [if_neg hlt] at hadd ⊢
      rw [f1.read, List.take_of_length_le (by omega), hadd]
      obtain ⟨g1, g2⟩ := fin l1 (src := T) (by omega)
      exact ⟨g1, o1.trans g2 fun _ _ h => h, ⟨valid_keep b1.valid g2, b1.len⟩⟩

theorem Only.eq_len {F : Nat → Prop} {W : Nat → Prop} {h h' : Heap} (o : Only W h h') (hF : ∀ a, F a → a < h.length) : ∀ a, F a → a < h'.length :=
  fun a ha => lt_of_lt_of_le (hF a ha) o.more

theorem blocks_spec {F : Nat → Prop} {n v Bbi : Nat} {I : Slice} (hv : 0 < v) (k : Nat) : ∀ {j : Nat} {h : Heap} {buf : Slice} {x : Bytes}, n ≤ h.length →
    Live n h I x → (j + k) * v ≤ x.length → BufOk F v h buf → (∀ a, F a → a < h.length) → F I.arr →
    Live n (blocks v Bbi I k j h buf).1 I (x.take (j * v) ++ addBlocks v Bbi k (x.drop (j * v))) ∧
    Only (fun a => a = I.arr ∨ ¬ F a) h (blocks v Bbi I k j h buf).1 ∧
    BufOk F v (blocks v Bbi I k j h buf).1 (blocks v Bbi I k j h buf).2 := by
  induction k with
  | zero =>
    intro j h buf x hn l hj hb hF hI
    refine ⟨?_, Only.refl _ _, hb⟩
    unfold blocks addBlocks
    rw [List.take_append_drop]
    exact l
  | succ k ih =>
    intro j h buf x hn l hj hb hF hI
    have hj1 : (j + 1) * v ≤ x.length := le_trans (Nat.mul_le_mul_right _ (by omega)) hj
    have hjv : j * v + v ≤ x.length := by rw [Nat.add_mul, Nat.one_mul] at hj1; exact hj1
    obtain ⟨b1, b2, b3⟩ := block_spec (Bbi := Bbi) hv hn l hj1 hb hF hI
    have hbl := addBlock_length v Bbi ((x.drop (j * v)).take v)
    have htl : (x.take (j * v)).length = j * v := by rw [List.length_take]; omega
    have hlen : (x.take (j * v) ++ addBlock v Bbi ((x.drop (j * v)).take v) ++ x.drop (j * v + v)).length = x.length := by
      rw [List.length_append, List.length_append, htl, hbl, List.length_drop]; omega
    have hpre : (x.take (j * v) ++ addBlock v Bbi ((x.drop (j * v)).take v)).length = (j + 1) * v := by
      rw [List.length_append, htl, hbl, Nat.add_mul, Nat.one_mul]
    obtain ⟨g1, g2, g3⟩ := ih (j := j + 1) (hn.trans b2.more) b1 (by rw [hlen]; rwa [Nat.add_assoc, Nat.add_comm 1 k]) b3 (b2.eq_len hF) hI
    refine ⟨?_, b2.trans g2 fun _ _ hh => hh, g3⟩
    rw [List.take_left' hpre, List.drop_left' hpre] at g1
    unfold blocks addBlocks
    rw [List.drop_drop, ← List.append_assoc]
    exact g1

theorem copyAt_length (A : Bytes) (off : Nat) (src : Bytes) (h : off ≤ A.length) : (copyAt A off src).length = A.length := by
  rw [copyAt_eq _ _ _ h, splice_length (by rw [List.length_take]; omega)]

theorem addBlocks_length (v Bbi : Nat) (k : Nat) : ∀ (x : Bytes), k * v ≤ x.length → (addBlocks v Bbi k x).length = x.length := by
  induction k with
  | zero => intro x _; rfl
  | succ k ih =>
    intro x hx
    rw [Nat.add_mul, Nat.one_mul] at hx
    unfold addBlocks
    rw [List.length_append, addBlock_length, ih _ (by rw [List.length_drop]; omega), List.length_drop]
    omega

theorem loop_spec (room : Nat → Nat) (hash : Bytes → Bytes) {n v : Nat} (hv : 0 < v) {D I A : Slice} {Dv : Bytes} (r : Int) {c : Nat}
    (hDI : 0 < D.cap → 0 < I.cap → D.arr ≠ I.arr) (hDA : 0 < D.cap → 0 < A.cap → D.arr ≠ A.arr) (hIA : 0 < I.cap → 0 < A.cap → I.arr ≠ A.arr) (k : Nat) :
    ∀ {h : Heap} {buf : Slice} {Iv Av : Bytes}, k ≤ c → n ≤ h.length → Live n h D Dv → Live n h I Iv → Live n h A Av → Av.length = c * 20 →
    BufOk (fun a => a < n ∨ (0 < D.cap ∧ a = D.arr) ∨ (0 < I.cap ∧ a = I.arr) ∨ (0 < A.cap ∧ a = A.arr)) v h buf →
    Live n (loop room hash v D I A r c k h buf) A (kdfLoop hash v Dv r c k Iv Av) ∧
    Only (fun a => n ≤ a) h (loop room hash v D I A r c k h buf) := by
  induction k with
  | zero =>
    intro h buf Iv Av _ _ _ _ lA _ _
    exact ⟨lA, Only.refl _ _⟩
  | succ k ih =>
    intro h buf Iv Av hk hn lD lI lA hAl hb
    unfold loop kdfLoop
    dsimp only
    rw [lI.read]
    -- append(D, I...)
    obtain ⟨a1, a2, -, a4⟩ := app_spec room lD hn Iv
    generalize happ : app room h D Iv = ap at *
    obtain ⟨h1, t⟩ := ap
    dsimp only at *
    have hn1 := hn.trans a2.more
    have lD1 : Live n h1 D Dv := ⟨valid_keep lD.valid a2, a4, lD.new⟩
    have lI1 : Live n h1 I Iv := lI.keep a2 fun hc hh => hDI hh.2.1 hc hh.1.symm
    have lA1 : Live n h1 A Av := lA.keep a2 fun hc hh => hDA hh.2.1 hc hh.1.symm
    have o1 : Only (fun a => n ≤ a) h h1 := a2.mono fun a _ ha => by rw [ha.1]; exact lD.new ha.2.1
    -- hashes
    obtain ⟨s1, s2, s3, s4, s5, -⟩ := fresh_spec h1.length h1 le_rfl (hash (h1.read t))
    have es : sum hash h1 t = fresh h1 (hash (h1.read t)) := rfl
    rw [es]
    rw [a1.read] at s1 s2 s3 s4 s5 ⊢
    generalize fresh h1 (hash (Dv ++ Iv)) = fr at *
    obtain ⟨h2, Ai⟩ := fr
    dsimp only at *
    obtain ⟨g1, g2⟩ := again_spec hash (r - 1).toNat s1 s2.more
    rw [← hashIter_eq] at g1
    generalize again hash (r - 1).toNat h2 Ai = ag at *
    obtain ⟨h3, Ai3⟩ := ag
    dsimp only at *
    have o13 : Only (fun _ => False) h1 h3 := s2.trans g2 fun _ _ hf => hf
    have hn3 := hn1.trans o13.more
    have lD3 := lD1.keep o13 fun _ hf => hf
    have lI3 := lI1.keep o13 fun _ hf => hf
    have lA3 := lA1.keep o13 fun _ hf => hf
    generalize hAi : hashIter hash r (Dv ++ Iv) = av at *
    rw [g1.read]
    -- copy
    have hi : (c - (k + 1)) * 20 ≤ Av.length := by rw [hAl]; exact Nat.mul_le_mul_right _ (by omega)
    obtain ⟨c1, c2⟩ := copyTo_spec lA3 ((c - (k + 1)) * 20) av hi
    have hnotA : ∀ {s : Slice}, (0 < s.cap → 0 < A.cap → s.arr ≠ A.arr) → 0 < s.cap → ¬ (s.arr = A.arr ∧ 0 < A.cap) := fun hh hc hx => hh hc hx.2 hx.1
    have lD4 := lD3.keep c2 (hnotA hDA)
    have lI4 := lI3.keep c2 (hnotA hIA)
    have o34 : Only (fun a => n ≤ a) h3 (copyTo h3 A ((c - (k + 1)) * 20) av) := c2.mono fun a _ ha => by rw [ha.1]; exact lA.new ha.2
    generalize copyTo h3 A ((c - (k + 1)) * 20) av = h4 at *
    have hn4 := hn3.trans c2.more
    have hAl4 := (copyAt_length Av _ av hi).trans hAl
    have o04 : Only (fun a => n ≤ a) h h4 := (o1.trans (o13.mono (W' := fun a => n ≤ a) fun _ _ hf => hf.elim) fun _ _ hh => hh).trans o34 fun _ _ hh => hh
    have hb4 : BufOk (fun a => a < n ∨ (0 < D.cap ∧ a = D.arr) ∨ (0 < I.cap ∧ a = I.arr) ∨ (0 < A.cap ∧ a = A.arr)) v h4 buf := ⟨valid_keep hb.valid o04, hb.len⟩
    by_cases hc : c - (k + 1) < c - 1
    · rw [if_pos hc, if_pos hc]
      -- B: only new arrays
      have hrA : h4.read Ai3 = av := by
        rw [read_keep g1.valid c2 (fun hcp hsame => ?_), g1.read]
        have := g1.new hcp
        have := lA1.lt hsame.2
        have := hsame.1
        omega
      have hAi4 : Live 0 h4 Ai3 av := ⟨valid_keep g1.valid c2, hrA, fun _ => Nat.zero_le _⟩
      obtain ⟨m1, m2⟩ := makeB_spec room (m := h4.length) v v (live_nil h4.length h4) le_rfl hAi4 (fun hcp => hAi4.lt hcp)
      generalize makeB room Ai3 v v h4 nil = mb at *
      obtain ⟨h5, B⟩ := mb
      dsimp only at *
      rw [m1.read]
      have o45 : Only (fun _ => False) h4 h5 := m2.mono fun a ha hh => absurd hh (by omega)
      have hn5 := hn4.trans o45.more
      have lD5 := lD4.keep o45 fun _ hf => hf
      have lI5 := lI4.keep o45 fun _ hf => hf
      have lA5 := c1.keep o45 fun _ hf => hf
      have o05 : Only (fun a => n ≤ a) h h5 := o04.trans o45 fun _ _ hf => hf.elim
      have hb5 : BufOk (fun a => a < n ∨ (0 < D.cap ∧ a = D.arr) ∨ (0 < I.cap ∧ a = I.arr) ∨ (0 < A.cap ∧ a = A.arr)) v h5 buf := ⟨valid_keep hb.valid o05, hb.len⟩
      rw [lI5.len]
      by_cases hI0 : 0 < I.cap
      · have hF5 : ∀ a, (a < n ∨ (0 < D.cap ∧ a = D.arr) ∨ (0 < I.cap ∧ a = I.arr) ∨ (0 < A.cap ∧ a = A.arr)) → a < h5.length := by
          rintro a (ha | ⟨hc', rfl⟩ | ⟨hc', rfl⟩ | ⟨hc', rfl⟩)
          · omega
          · exact lD5.lt hc'
          · exact lI5.lt hc'
          · exact lA5.lt hc'
        obtain ⟨q1, q2, q3⟩ := blocks_spec (Bbi := ofBytes (fillB av v v [])) hv (Iv.length / v) (j := 0) hn5 lI5
          (by rw [Nat.zero_add]; exact Nat.div_mul_le_self _ _) hb5 hF5 (Or.inr (Or.inr (Or.inl ⟨hI0, rfl⟩)))
        rw [Nat.zero_mul, List.take_zero, List.drop_zero, List.nil_append] at q1
        generalize blocks v (ofBytes (fillB av v v [])) I (Iv.length / v) 0 h5 buf = bl at *
        obtain ⟨h6, buf6⟩ := bl
        dsimp only at *
        have lD6 := lD5.keep q2 fun hc' hh => hh.elim (hDI hc' hI0) fun hx => hx (Or.inr (Or.inl ⟨hc', rfl⟩))
        have lA6 := lA5.keep q2 fun hc' hh => hh.elim (fun he => hIA hI0 hc' he.symm) fun hx => hx (Or.inr (Or.inr (Or.inr ⟨hc', rfl⟩)))
        have o56 : Only (fun a => n ≤ a) h5 h6 := q2.mono fun a _ ha => by
          rcases ha with rfl | ha
          · exact lI.new hI0
          · by_contra hlt
            exact ha (Or.inl (by omega))
        obtain ⟨f1, f2⟩ := ih (by omega) (hn5.trans q2.more) lD6 q1 lA6 hAl4 q3
        exact ⟨f1, (o05.trans o56 fun _ _ hh => hh).trans f2 fun _ _ hh => hh⟩
      · have hIl : Iv.length = 0 := by have := lI.valid.1; have := lI.len; omega
        have hIe : Iv = [] := List.length_eq_zero_iff.mp hIl
        subst hIe
        rw [List.length_nil, Nat.zero_div]
        obtain ⟨f1, f2⟩ := ih (by omega) hn5 lD5 lI5 lA5 hAl4 hb5
        exact ⟨f1, o05.trans f2 fun _ _ hh => hh⟩
    · rw [if_neg hc, if_neg hc]
      obtain ⟨f1, f2⟩ := ih (by omega) hn4 lD4 lI4 c1 hAl4 hb4
      exact ⟨f1, o04.trans f2 fun _ _ hh => hh⟩

theorem kdfLoop_length (hash : Bytes → Bytes) (v : Nat) (Dv : Bytes) (r : Int) (c k : Nat) : ∀ (Iv Av : Bytes), k ≤ c → Av.length = c * 20 →
    (kdfLoop hash v Dv r c k Iv Av).length = c * 20 := by
  induction k with
  | zero => intro _ _ _ h; exact h
  | succ k ih =>
    intro Iv Av hk hA
    unfold kdfLoop
    have hi : (c - (k + 1)) * 20 ≤ Av.length := by rw [hA]; exact Nat.mul_le_mul_right _ (by omega)
    dsimp only
    split
    · exact ih _ _ (by omega) ((copyAt_length _ _ _ hi).trans hA)
    · exact ih _ _ (by omega) ((copyAt_length _ _ _ hi).trans hA)

/-- `pbkdf` computes the values of Kdf and writes only to arrays that it has allocated itself. -/
theorem pbkdf_spec (room : Nat → Nat) (hash : Bytes → Bytes) (u : Nat) {v : Nat} (hv : 0 < v) (h : Heap) {salt password : Slice} (hs : h.Valid salt) (hp : h.Valid password)
    (r : Int) (ID : UInt8) (size : Nat) :
    Only (fun _ => False) h (pbkdf room hash u v h salt password r ID size).1 ∧
    match (pbkdf room hash u v h salt password r ID size).2, P12.pbkdf hash u v (h.read salt) (h.read password) r ID size with
    | .ok s, .ok x => Live h.length (pbkdf room hash u v h salt password r ID size).1 s x
    | .panic, .panic => True
    | _, _ => False := by
  unfold pbkdf P12.pbkdf
  dsimp only
  obtain ⟨d1, d2⟩ := makeD_spec room ID v (live_nil h.length h) le_rfl
  rw [List.nil_append] at d1
  generalize makeD room ID v h nil = md at *
  obtain ⟨h1, D⟩ := md
  dsimp only at *
  have hD : 0 < D.cap → D.arr < h1.length := fun hc => d1.lt hc
  have d2' : Only (fun _ => False) h h1 := d2.mono fun a ha hh => absurd hh (by omega)
  obtain ⟨s1, s2, s3⟩ := fill_spec h.length (valid_keep hs d2') d2.more v
  rw [read_keep hs d2' fun _ hf => hf] at s1
  generalize fill h1 salt v = fs at *
  obtain ⟨h2, S⟩ := fs
  dsimp only at *
  have o02 : Only (fun _ => False) h h2 := d2'.trans s2 fun _ _ hf => hf
  obtain ⟨p1, p2, p3⟩ := fill_spec h.length (valid_keep hp o02) o02.more v
  rw [read_keep hp o02 fun _ hf => hf] at p1
  generalize fill h2 password v = fp at *
  obtain ⟨h3, P⟩ := fp
  dsimp only at *
  have o03 : Only (fun _ => False) h h3 := o02.trans p2 fun _ _ hf => hf
  have s1' := s1.keep p2 fun _ hf => hf
  obtain ⟨i1, i2, i3, -⟩ := app_spec room s1' o03.more (h3.read P)
  rw [p1.read] at i1 i2 i3 ⊢
  generalize app room h3 S (fillWithRepeats (h.read password) v) = ai at *
  obtain ⟨h4, I⟩ := ai
  dsimp only at *
  have d3 := (d1.keep s2 fun _ hf => hf).keep p2 fun _ hf => hf
  have hDS : 0 < D.cap → 0 < S.cap → D.arr ≠ S.arr := fun hc hc' => by have := hD hc; have := s3 hc'; omega
  have hDI : 0 < D.cap → 0 < I.cap → D.arr ≠ I.arr := fun hc hc' => by
    rcases i3 hc' with ⟨e, hc2⟩ | e
    · rw [e]; exact hDS hc hc2
    · have := d3.lt hc; omega
  have d4 := d3.keep i2 fun hc hh => hDS hc hh.2.1 hh.1
  have o04 : Only (fun _ => False) h h4 := o03.trans i2 fun a ha hh => by
    have h6 := s1.new hh.2.1
    have h7 := hh.1
    omega
  generalize hc : (size + u - 1) / u = c
  obtain ⟨a1, a2, a3, a4, a5, -⟩ := fresh_spec h.length h4 o04.more (List.replicate (c * 20) 0)
  have hlr : (List.replicate (c * 20) (0 : UInt8)).length = c * 20 := List.length_replicate ..
  rw [hlr] at a4 a5
  generalize fresh h4 (List.replicate (c * 20) 0) = fa at *
  obtain ⟨h5, A⟩ := fa
  dsimp only at *
  have d5 := d4.keep a2 fun _ hf => hf
  have i5 := i1.keep a2 fun _ hf => hf
  have o05 : Only (fun _ => False) h h5 := o04.trans a2 fun _ _ hf => hf
  obtain ⟨l1, l2⟩ := loop_spec room hash hv r (c := c) hDI (fun hx _ => by have := d4.lt hx; omega) (fun hx _ => by have := i1.lt hx; omega) c le_rfl o05.more d5 i5 a1 hlr
    (buf := nil) ⟨(live_nil 0 h5).valid, fun hx => absurd hx (by decide)⟩
  have hkl := kdfLoop_length hash v (List.replicate v ID) r c c (fillWithRepeats (h.read salt) v ++ fillWithRepeats (h.read password) v) _ le_rfl hlr
  generalize loop room hash v D I A r c c h5 nil = h6 at *
  generalize kdfLoop hash v (List.replicate v ID) r c c (fillWithRepeats (h.read salt) v ++ fillWithRepeats (h.read password) v) (List.replicate (c * 20) 0) = out at *
  refine ⟨o05.trans l2 fun a ha hh => absurd hh (by omega), ?_⟩
  rw [a5, hkl]
  by_cases hsz : size ≤ c * 20
  · rw [if_pos hsz, if_pos hsz]
    have e := l1.prefix (k := size) (by rw [a4]; exact hsz)
    rw [a5] at e
    exact e
  · rw [if_neg hsz, if_neg hsz]
    trivial

end MCrypto.P12.Mem
