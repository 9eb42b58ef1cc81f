import Verif.Sm2.ReadersSpec
import Mathlib.Tactic.ByContra
/-
A generic loop "read n octets; decide; read again or return" and its three laws; the functions of Readers.lean and of Model.lean are instances.
-/
namespace MCrypto.Sm2.Rd
open MCrypto MCrypto.Curve MCrypto.Sm2 MCrypto.RdSpec

inductive Loop (r : GoReader) (n : Nat) {α : Type} (step : Bytes → Option (Res α)) : r.State → Bytes → Res α → r.State → Prop
  | err {s b e s'} : ReadFull r n s b (some e) s' → Loop r n step s b (.err e) s'
  | done {s b o s'} : ReadFull r n s b none s' → step b = some o → Loop r n step s b o s'
  | again {s b s1 tr out s'} : ReadFull r n s b none s1 → step b = none → Loop r n step s1 tr out s' → Loop r n step s (b ++ tr) out s'

def withRest {α : Type} (o : Res α) (rest : Bytes) : Res (α × Bytes) :=
  match o with
  | .ok a => .ok (a, rest)
  | .err e => .err e
  | .panic => .panic

def listLoop (n : Nat) (hn : 0 < n) {α : Type} (step : Bytes → Option (Res α)) (rd : Bytes) : Res (α × Bytes) :=
  match h : readFull n rd with
  | .ok (b, rd') =>
    have : rd'.length < rd.length := readFull_lt hn h
    match step b with
    | none => listLoop n hn step rd'
    | some o => withRest o rd'
  | .err e => .err e
  | .panic => .panic
termination_by rd.length

theorem listLoop_ok {n : Nat} (hn : 0 < n) {α : Type} (step : Bytes → Option (Res α)) {b : Bytes} (hb : b.length = n) (rest : Bytes) :
    listLoop n hn step (b ++ rest) = match step b with
      | none => listLoop n hn step rest
      | some o => withRest o rest := by
  have hr : readFull n (b ++ rest) = .ok (b, rest) := by
    unfold readFull
    rw [if_pos (by simp; omega), List.take_append_of_le_length (by omega), List.drop_append_of_le_length (by omega),
      List.take_of_length_le (by omega), List.drop_of_length_le (by omega), List.nil_append]
  rw [listLoop]
  split
  · rename_i b' rd' h
    rw [hr] at h
    simp only [Res.ok.injEq, Prod.mk.injEq] at h
    obtain ⟨rfl, rfl⟩ := h
    rfl
  · rename_i e h; rw [hr] at h; cases h
  · rename_i h; rw [hr] at h; cases h

theorem listLoop_short {n : Nat} (hn : 0 < n) {α : Type} (step : Bytes → Option (Res α)) {b : Bytes} (hb : b.length < n) :
    listLoop n hn step b = if b.length = 0 then .err "EOF" else .err "unexpected EOF" := by
  have hr : readFull n b = if b.length = 0 then .err "EOF" else .err "unexpected EOF" := by
    unfold readFull; rw [if_neg (by omega)]
  rw [listLoop]
  split
  · rename_i b' rd' h; rw [hr] at h; split at h <;> cases h
  · rename_i e h
    rw [hr] at h
    split at h <;> cases h
    · rw [if_pos (by assumption)]
    · rw [if_neg (by assumption)]
  · rename_i h; rw [hr] at h; split at h <;> cases h

/-! ### io.ReadFull -/

theorem readLoop_le {r : GoReader} {n : Nat} {got : Bytes} {e : Option String} {s : r.State} {out : Bytes} {e' : Option String} {s' : r.State}
    (h : ReadLoop r n got e s out e' s') (hg : got.length ≤ n) : out.length ≤ n := by
  induction h with
  | stop => exact hg
  | @step got s out e' s' hlt _ ih =>
    refine ih ?_
    have := r.le s (n - got.length)
    simp only [List.length_append]; omega

theorem readLoop_err {r : GoReader} {n : Nat} {got : Bytes} {e : Option String} {s : r.State} {out : Bytes} {e' : Option String} {s' : r.State}
    (h : ReadLoop r n got e s out e' s') (he : ∀ e0, e = some e0 → LastError r e0 s) (ho : out.length < n) : ∃ e0, e' = some e0 ∧ LastError r e0 s' := by
  induction h with
  | @stop got e s hc =>
    rcases hc with hc | hc
    · omega
    · obtain ⟨e0, rfl⟩ := Option.ne_none_iff_exists'.mp hc
      exact ⟨e0, rfl, he e0 rfl⟩
  | @step got s out e' s' hlt _ ih =>
    exact ih (fun e0 h0 => ⟨s, n - got.length, by omega, h0, rfl⟩) ho

theorem readFull_full {r : GoReader} {n : Nat} {s : r.State} {b : Bytes} {s' : r.State} (h : ReadFull r n s b none s') : b.length = n := by
  obtain ⟨e0, h1, h2⟩ := h
  have hle := readLoop_le h1 (by simp)
  by_contra hc
  obtain ⟨e1, rfl, -⟩ := readLoop_err h1 (by simp) (by omega)
  unfold readError at h2
  rw [if_neg (by omega)] at h2
  split at h2 <;> cases h2

theorem readFull_short {r : GoReader} {n : Nat} {s : r.State} {b : Bytes} {e : String} {s' : r.State} (h : ReadFull r n s b (some e) s') :
    b.length < n ∧ ∃ e0, LastError r e0 s' ∧ (b.length = 0 ∧ e = e0 ∨ b.length ≠ 0 ∧ e = if e0 = "EOF" then "unexpected EOF" else e0) := by
  obtain ⟨e0, h1, h2⟩ := h
  have hlt : b.length < n := by
    by_contra hc
    unfold readError at h2
    rw [if_pos (by omega)] at h2
    cases h2
  obtain ⟨e1, rfl, hl⟩ := readLoop_err h1 (by simp) hlt
  refine ⟨hlt, e1, hl, ?_⟩
  unfold readError eof unexpectedEOF at h2
  rw [if_neg (by omega)] at h2
  by_cases hb : b.length = 0
  · rw [if_neg (by omega)] at h2
    exact Or.inl ⟨hb, Option.some.inj h2⟩
  · right
    refine ⟨hb, ?_⟩
    by_cases he : e1 = "EOF"
    · rw [if_pos ⟨by omega, by rw [he]⟩] at h2
      rw [if_pos he]; exact Option.some.inj h2
    · rw [if_neg (fun hh => he (Option.some.inj hh.2))] at h2
      rw [if_neg he]; exact Option.some.inj h2

theorem readLoop_det {r : GoReader} {n : Nat} {got : Bytes} {e : Option String} {s : r.State} {out : Bytes} {e' : Option String} {s' : r.State}
    (h : ReadLoop r n got e s out e' s') {out2 : Bytes} {e2 : Option String} {s2 : r.State} (h2 : ReadLoop r n got e s out2 e2 s2) :
    out2 = out ∧ e2 = e' ∧ s2 = s' := by
  induction h with
  | @stop got e s hc =>
    cases h2 with
    | stop _ => exact ⟨rfl, rfl, rfl⟩
    | step hl _ =>
      rcases hc with hc | hc
      · omega
      · exact absurd rfl hc
  | @step got s out e' s' hlt _ ih =>
    cases h2 with
    | stop hc =>
      rcases hc with hc | hc
      · omega
      · exact absurd rfl hc
    | step _ h3 => exact ih h3

theorem readFull_det {r : GoReader} {n : Nat} {s : r.State} {b : Bytes} {e : Option String} {s' : r.State} (h : ReadFull r n s b e s')
    {b2 : Bytes} {e2 : Option String} {s2 : r.State} (h2 : ReadFull r n s b2 e2 s2) : b2 = b ∧ e2 = e ∧ s2 = s' := by
  obtain ⟨x, h, rfl⟩ := h
  obtain ⟨y, h2, rfl⟩ := h2
  obtain ⟨rfl, rfl, rfl⟩ := readLoop_det h h2
  exact ⟨rfl, rfl, rfl⟩

theorem readLoop_delivers {r : GoReader} {s : r.State} {L : Bytes} (h : Delivers r s L) (n : Nat) (got : Bytes) (hg : got.length ≤ n)
    (hn : n - got.length ≤ L.length) :
    ∃ s', ReadLoop r n got none s (got ++ L.take (n - got.length)) none s' ∧ Delivers r s' (L.drop (n - got.length)) := by
  induction h generalizing got with
  | @nil s =>
    have : n = got.length := by simp at hn; omega
    subst this
    exact ⟨s, by simpa using ReadLoop.stop (Or.inl (le_refl _)), by simpa using Delivers.nil⟩
  | @more s L h1 h2 h3 ih =>
    by_cases hc : n ≤ got.length
    · have : n - got.length = 0 := by omega
      rw [this]
      exact ⟨s, by simpa using ReadLoop.stop (Or.inl hc), by simpa using Delivers.more h1 h2 h3⟩
    · have hpos : 0 < n - got.length := by omega
      obtain ⟨t, ht⟩ := h2 _ hpos
      have hle := r.le s (n - got.length)
      specialize ih _ hpos
      have g3 := h3 _ hpos
      have e1 := h1 _ hpos
      generalize hq : r.read s (n - got.length) = q at *
      obtain ⟨b, e, s1⟩ := q
      simp only at *
      subst e1
      subst ht
      have hd : List.drop b.length (b ++ t) = t := by simp
      rw [hd] at ih g3
      obtain ⟨s', a1, a2⟩ := ih (got ++ b) (by simp; omega) (by simp at hn ⊢; omega)
      have hlen : n - (got ++ b).length = n - got.length - b.length := by simp; omega
      have e3 : got ++ List.take (n - got.length) (b ++ t) = got ++ b ++ List.take (n - (got ++ b).length) t := by
        rw [hlen, List.append_assoc, List.take_append, List.take_of_length_le hle]
      have e4 : List.drop (n - got.length) (b ++ t) = List.drop (n - (got ++ b).length) t := by
        rw [hlen, List.drop_append, List.drop_of_length_le hle, List.nil_append]
      refine ⟨s', ?_, by rw [e4]; exact a2⟩
      rw [e3]
      refine ReadLoop.step (by omega) ?_
      rw [hq]; exact a1

theorem readFull_delivers {r : GoReader} {s : r.State} {L : Bytes} (h : Delivers r s L) {n : Nat} (hn : n ≤ L.length) :
    ∃ s', ReadFull r n s (L.take n) none s' ∧ Delivers r s' (L.drop n) := by
  obtain ⟨s', h1, h2⟩ := readLoop_delivers h n [] (by simp) (by simpa using hn)
  simp only [List.nil_append, List.length_nil, Nat.sub_zero] at h1 h2
  refine ⟨s', ⟨none, h1, ?_⟩, h2⟩
  unfold readError
  rw [if_pos (by simp; omega)]

/-! ### the generic loop -/

/-- The decisions never give an error: the only errors are the reader's. -/
def NoErr {α : Type} (step : Bytes → Option (Res α)) : Prop := ∀ b e, step b ≠ some (.err e)

theorem loop_follows {r : GoReader} {n : Nat} (hn : 0 < n) {α : Type} {step : Bytes → Option (Res α)} (hs : NoErr step) :
    Follows r (Loop r n step) (listLoop n hn step) := by
  intro s tr out s' h
  induction h with
  | @err s b e s' h =>
    obtain ⟨hlt, e0, hl, hc⟩ := readFull_short h
    refine ⟨by simp, by simp, ?_⟩
    intro e1 he
    cases he
    refine ⟨e0, hl, ?_⟩
    rw [listLoop_short hn step hlt]
    rcases hc with ⟨c1, c2⟩ | ⟨c1, c2⟩
    · rw [if_pos c1]; exact Or.inl ⟨rfl, c2⟩
    · rw [if_neg c1]; exact Or.inr ⟨rfl, c2⟩
  | @done s b o s' h ho =>
    have hb := readFull_full h
    refine ⟨?_, ?_, ?_⟩
    · rintro a rfl rest; rw [listLoop_ok hn step hb, ho]; rfl
    · rintro rfl rest; rw [listLoop_ok hn step hb, ho]; rfl
    · rintro e rfl; exact absurd ho (hs b e)
  | @again s b s1 tr out s' h ho _ ih =>
    have hb := readFull_full h
    obtain ⟨i1, i2, i3⟩ := ih
    refine ⟨?_, ?_, ?_⟩
    · intro a ha rest; rw [List.append_assoc, listLoop_ok hn step hb, ho]; exact i1 a ha rest
    · intro ha rest; rw [List.append_assoc, listLoop_ok hn step hb, ho]; exact i2 ha rest
    · intro e he
      rw [listLoop_ok hn step hb, ho]
      exact i3 e he

theorem loop_det {r : GoReader} {n : Nat} {α : Type} {step : Bytes → Option (Res α)} : Determined r (Loop r n step) := by
  intro s tr out s' tr2 out2 s2 h h2
  induction h generalizing tr2 out2 s2 with
  | @err s b e s' h =>
    cases h2 with
    | err h2 => obtain ⟨rfl, h3, rfl⟩ := readFull_det h h2; cases h3; exact ⟨rfl, rfl, rfl⟩
    | done h2 _ => obtain ⟨rfl, h3, rfl⟩ := readFull_det h h2; cases h3
    | again h2 _ _ => obtain ⟨rfl, h3, rfl⟩ := readFull_det h h2; cases h3
  | @done s b o s' h ho =>
    cases h2 with
    | err h2 => obtain ⟨rfl, h3, rfl⟩ := readFull_det h h2; cases h3
    | done h2 h4 => obtain ⟨rfl, -, rfl⟩ := readFull_det h h2; rw [ho] at h4; cases h4; exact ⟨rfl, rfl, rfl⟩
    | again h2 h4 _ => obtain ⟨rfl, -, rfl⟩ := readFull_det h h2; rw [ho] at h4; cases h4
  | @again s b s1 tr out s' h ho _ ih =>
    cases h2 with
    | err h2 => obtain ⟨rfl, h3, rfl⟩ := readFull_det h h2; cases h3
    | done h2 h4 => obtain ⟨rfl, -, rfl⟩ := readFull_det h h2; rw [ho] at h4; cases h4
    | again h2 h4 h5 =>
      obtain ⟨rfl, -, rfl⟩ := readFull_det h h2
      obtain ⟨rfl, rfl, rfl⟩ := ih _ _ _ h5
      exact ⟨rfl, rfl, rfl⟩

theorem loop_returns {r : GoReader} {n : Nat} (hn : 0 < n) {α : Type} {step : Bytes → Option (Res α)} :
    Returns r (Loop r n step) (listLoop n hn step) := by
  intro s L hd
  induction hm : L.length using Nat.strong_induction_on generalizing s L with
  | _ m ih =>
    subst hm
    by_cases hc : n ≤ L.length
    · obtain ⟨s1, h1, h2⟩ := readFull_delivers hd hc
      have hb : (L.take n).length = n := by simp; omega
      have hL : L = L.take n ++ L.drop n := (List.take_append_drop _ _).symm
      have hlist := listLoop_ok hn step hb (L.drop n)
      rw [← hL] at hlist
      cases ho : step (L.take n) with
      | some o =>
        rw [ho] at hlist
        simp only at hlist
        rw [hlist]
        refine ⟨?_, ?_⟩
        · intro a rest h
          cases o with
          | ok a' =>
            simp only [withRest, Res.ok.injEq, Prod.mk.injEq] at h
            obtain ⟨rfl, rfl⟩ := h
            exact ⟨_, s1, .done h1 ho, hL, h2⟩
          | err e => simp [withRest] at h
          | panic => simp [withRest] at h
        · intro h
          cases o with
          | ok a' => simp [withRest] at h
          | err e => simp [withRest] at h
          | panic => exact ⟨_, s1, _, .done h1 ho, hL, h2⟩
      | none =>
        rw [ho] at hlist
        simp only at hlist
        rw [hlist]
        obtain ⟨i1, i2⟩ := ih (L.drop n).length (by simp; omega) s1 (L.drop n) h2 rfl
        refine ⟨?_, ?_⟩
        · intro a rest h
          obtain ⟨tr, s', g1, g2, g3⟩ := i1 a rest h
          exact ⟨L.take n ++ tr, s', .again h1 ho g1, by rw [List.append_assoc, ← g2]; exact hL, g3⟩
        · intro h
          obtain ⟨tr, s', rest, g1, g2, g3⟩ := i2 h
          exact ⟨L.take n ++ tr, s', rest, .again h1 ho g1, by rw [List.append_assoc, ← g2]; exact hL, g3⟩
    · rw [listLoop_short hn step (by omega)]
      refine ⟨?_, ?_⟩
      · intro a rest h; split at h <;> cases h
      · intro h; split at h <;> cases h

/-! ### the instances -/

theorem nextk_ok_iff {r : GoReader} {s : r.State} {b : Bytes} {k : Nat} {s' : r.State} :
    Nextk r s b (.ok k) s' ↔ ReadFull r 40 s b none s' ∧ k = ofBytes b % (N - 1) + 1 := by
  constructor
  · intro h; cases h with | ok h => exact ⟨h, rfl⟩
  · rintro ⟨h, rfl⟩; exact .ok h

theorem nextk_err_iff {r : GoReader} {s : r.State} {b : Bytes} {e : String} {s' : r.State} :
    Nextk r s b (.err e) s' ↔ ReadFull r 40 s b (some e) s' := by
  constructor
  · intro h; cases h with | err h => exact h
  · intro h; exact .err h

def genStep (b : Bytes) : Option (Res Bytes) := if ofBytes (genCandidate b) ≥ N then none else some (.ok (genCandidate b))

theorem genLoop_iff {r : GoReader} {s : r.State} {tr : Bytes} {out : Res Bytes} {s' : r.State} :
    GenLoop r s tr out s' ↔ Loop r 32 genStep s tr out s' := by
  constructor
  · intro h
    induction h with
    | err h => exact .err h
    | done h hc => exact .done h (by unfold genStep; rw [if_neg hc])
    | again h hc _ ih => exact .again h (by unfold genStep; rw [if_pos hc]) ih
  · intro h
    induction h with
    | err h => exact .err h
    | @done s b o s' h ho =>
      unfold genStep at ho
      split at ho
      · cases ho
      · cases ho; exact .done h (by assumption)
    | @again s b s1 tr out s' h ho _ ih =>
      unfold genStep at ho
      split at ho
      · exact .again h (by assumption) ih
      · cases ho

theorem genLoop_list (rd : Bytes) : genLoop rd = listLoop 32 (by decide) genStep rd := by
  induction hm : rd.length using Nat.strong_induction_on generalizing rd with
  | _ m ih =>
    subst hm
    rw [genLoop, listLoop]
    split
    · rename_i b rd' h
      have hlt := readFull_lt (by decide) h
      split
      · rename_i b2 rd2 h2
        rw [h] at h2
        simp only [Res.ok.injEq, Prod.mk.injEq] at h2
        obtain ⟨rfl, rfl⟩ := h2
        simp only [genStep]
        by_cases hc : ofBytes (genCandidate b) ≥ N
        · rw [if_pos hc, if_pos hc]; exact ih _ hlt _ rfl
        · rw [if_neg hc, if_neg hc]; rfl
      · rename_i h2; rw [h] at h2; cases h2
      · rename_i h2; rw [h] at h2; cases h2
    · rename_i e h
      split
      · rename_i h2; rw [h] at h2; cases h2
      · rename_i h2; rw [h] at h2; cases h2; rfl
      · rename_i h2; rw [h] at h2; cases h2
    · rename_i h
      split
      · rename_i h2; rw [h] at h2; cases h2
      · rename_i h2; rw [h] at h2; cases h2
      · rfl

/-- The number drawn. -/
def kOf (b : Bytes) : Nat := ofBytes b % (N - 1) + 1
def rOf (e k : Nat) : Nat := (e + (baseMult (toBytes k)).1) % N

def innerStep (e : Nat) (b : Bytes) : Option (Res (Nat × Nat)) :=
  if rOf e (kOf b) ≠ 0 ∧ rOf e (kOf b) + kOf b ≠ N then some (.ok (rOf e (kOf b), kOf b)) else none

def outerOf (d r k : Nat) : Option (Res (Nat × Nat)) :=
  match modInverseN (d + 1) with
  | none => some .panic
  | some di => if sOf d r k di ≠ 0 then some (.ok (r, sOf d r k di)) else none

def outerStep (d e : Nat) (b : Bytes) : Option (Res (Nat × Nat)) :=
  if rOf e (kOf b) ≠ 0 ∧ rOf e (kOf b) + kOf b ≠ N then outerOf d (rOf e (kOf b)) (kOf b) else none

theorem signInner_iff {r : GoReader} {e : Nat} {s : r.State} {tr : Bytes} {out : Res (Nat × Nat)} {s' : r.State} :
    SignInner r e s tr out s' ↔ Loop r 40 (innerStep e) s tr out s' := by
  constructor
  · intro h
    induction h with
    | err h => exact .err (nextk_err_iff.mp h)
    | done h hc =>
      obtain ⟨h0, rfl⟩ := nextk_ok_iff.mp h
      exact .done h0 (by unfold innerStep; exact if_pos hc)
    | again h hc _ ih =>
      obtain ⟨h0, rfl⟩ := nextk_ok_iff.mp h
      exact .again h0 (by unfold innerStep; exact if_neg hc) ih
  · intro h
    induction h with
    | err h => exact .err (nextk_err_iff.mpr h)
    | @done s b o s' h ho =>
      unfold innerStep at ho
      split at ho
      · cases ho; exact .done (nextk_ok_iff.mpr ⟨h, rfl⟩) (by assumption)
      · cases ho
    | @again s b s1 tr out s' h ho _ ih =>
      unfold innerStep at ho
      split at ho
      · cases ho
      · exact .again (nextk_ok_iff.mpr ⟨h, rfl⟩) (by assumption) ih

/-- The outcome of the inner loop continued by the rest of the outer one. -/
theorem signOuter_iff {r : GoReader} {d e : Nat} {s : r.State} {tr : Bytes} {out : Res (Nat × Nat)} {s' : r.State} :
    SignOuter r d e s tr out s' ↔ Loop r 40 (outerStep d e) s tr out s' := by
  have key : ∀ {s tr o s'}, Loop r 40 (innerStep e) s tr o s' →
      (∀ er, o = .err er → Loop r 40 (outerStep d e) s tr (.err er) s') ∧
      (∀ r0 k, o = .ok (r0, k) → (∀ o', outerOf d r0 k = some o' → Loop r 40 (outerStep d e) s tr o' s') ∧
        (outerOf d r0 k = none → ∀ tr' o' s'', Loop r 40 (outerStep d e) s' tr' o' s'' → Loop r 40 (outerStep d e) s (tr ++ tr') o' s'')) ∧ o ≠ .panic := by
    intro s tr o s' h
    induction h with
    | err h => exact ⟨fun er he => (by cases he; exact .err h), fun _ _ he => (by cases he), (by simp)⟩
    | @done s b o s' h ho =>
      unfold innerStep at ho
      split at ho
      · rename_i hc
        cases ho
        refine ⟨fun _ he => (by cases he), fun r0 k he => ?_, (by simp)⟩
        cases he
        exact ⟨fun o' h' => .done h (by unfold outerStep; rw [if_pos hc]; exact h'),
          fun h' tr' o' s'' hl => .again h (by unfold outerStep; rw [if_pos hc]; exact h') hl⟩
      · cases ho
    | @again s b s1 tr out s' h ho _ ih =>
      unfold innerStep at ho
      split at ho
      · cases ho
      · rename_i hc
        have hstep : outerStep d e b = none := by unfold outerStep; rw [if_neg hc]
        obtain ⟨i1, i2, i3⟩ := ih
        refine ⟨fun er he => .again h hstep (i1 er he), fun r0 k he => ⟨fun o' h' => .again h hstep ((i2 r0 k he).1 o' h'), fun h' tr' o' s'' hl => ?_⟩, i3⟩
        rw [List.append_assoc]
        exact .again h hstep ((i2 r0 k he).2 h' tr' o' s'' hl)
  constructor
  · intro h
    induction h with
    | err h => exact (key (signInner_iff.mp h)).1 _ rfl
    | panic h hm => exact ((key (signInner_iff.mp h)).2.1 _ _ rfl).1 _ (by unfold outerOf; rw [hm])
    | done h hm hs => exact ((key (signInner_iff.mp h)).2.1 _ _ rfl).1 _ (by unfold outerOf; rw [hm]; exact if_pos hs)
    | again h hm hs _ ih => exact ((key (signInner_iff.mp h)).2.1 _ _ rfl).2 (by unfold outerOf; rw [hm]; exact if_neg (by simpa using hs)) _ _ _ ih
  · intro h
    induction h with
    | err h => exact .err (.err (nextk_err_iff.mpr h))
    | @done s b o s' h ho =>
      unfold outerStep at ho
      split at ho
      · rename_i hc
        have hi : SignInner r e s b (.ok (rOf e (kOf b), kOf b)) s' := .done (nextk_ok_iff.mpr ⟨h, rfl⟩) hc
        unfold outerOf at ho
        split at ho
        · cases ho; exact .panic hi (by assumption)
        · split at ho
          · cases ho; exact .done hi (by assumption) (by assumption)
          · cases ho
      · cases ho
    | @again s b s1 tr out s' h ho _ ih =>
      unfold outerStep at ho
      split at ho
      · rename_i hc
        have hi : SignInner r e s b (.ok (rOf e (kOf b), kOf b)) s1 := .done (nextk_ok_iff.mpr ⟨h, rfl⟩) hc
        unfold outerOf at ho
        split at ho
        · cases ho
        · split at ho
          · cases ho
          · rename_i hz; exact .again hi (by assumption) (Decidable.not_not.mp hz) ih
      · rename_i hc
        have hk := nextk_ok_iff.mpr ⟨h, rfl⟩
        cases ih with
        | err h1 => exact .err (.again hk hc h1)
        | panic h1 h2 => exact .panic (.again hk hc h1) h2
        | done h1 h2 h3 => exact .done (.again hk hc h1) h2 h3
        | again h1 h2 h3 h4 => rw [← List.append_assoc]; exact .again (.again hk hc h1) h2 h3 h4

/-! ### the model functions as list loops -/

theorem eq_listLoop {n : Nat} (hn : 0 < n) {α : Type} (step : Bytes → Option (Res α)) (g : Bytes → Res (α × Bytes))
    (h1 : ∀ b rest, b.length = n → g (b ++ rest) = match step b with
      | none => g rest
      | some o => withRest o rest)
    (h2 : ∀ b, b.length < n → g b = if b.length = 0 then .err "EOF" else .err "unexpected EOF") (rd : Bytes) : g rd = listLoop n hn step rd := by
  induction hm : rd.length using Nat.strong_induction_on generalizing rd with
  | _ m ih =>
    subst hm
    by_cases hc : n ≤ rd.length
    · have hb : (rd.take n).length = n := by simp; omega
      rw [← List.take_append_drop n rd, h1 _ _ hb, listLoop_ok hn step hb]
      split
      · exact ih _ (by simp; omega) _ rfl
      · rfl
    · rw [h2 _ (by omega), listLoop_short hn step (by omega)]

theorem readFull_append {n : Nat} {b : Bytes} (hb : b.length = n) (rest : Bytes) : readFull n (b ++ rest) = .ok (b, rest) := by
  unfold readFull
  rw [if_pos (by simp; omega), List.take_append_of_le_length (by omega), List.drop_append_of_le_length (by omega),
    List.take_of_length_le (by omega), List.drop_of_length_le (by omega), List.nil_append]

theorem readFull_lt_err {n : Nat} {b : Bytes} (hb : b.length < n) :
    readFull n b = if b.length = 0 then .err "EOF" else .err "unexpected EOF" := by
  unfold readFull; rw [if_neg (by omega)]

theorem nextk_append {b : Bytes} (hb : b.length = 40) (rest : Bytes) : nextk (b ++ rest) = .ok (kOf b, rest) := by
  unfold nextk; rw [readFull_append hb]; rfl

theorem nextk_short {b : Bytes} (hb : b.length < 40) : nextk b = .err (if b.length = 0 then "EOF" else "unexpected EOF") := by
  unfold nextk; rw [readFull_lt_err hb]; by_cases h : b.length = 0
  · rw [if_pos h, if_pos h]
  · rw [if_neg h, if_neg h]

theorem signInner_append (e : Nat) {b : Bytes} (hb : b.length = 40) (rest : Bytes) :
    signInner e (b ++ rest) = if rOf e (kOf b) ≠ 0 ∧ rOf e (kOf b) + kOf b ≠ N then .ok (rOf e (kOf b), kOf b, rest) else signInner e rest := by
  rw [signInner]
  split
  · rename_i k rd' h
    rw [nextk_append hb] at h
    simp only [Res.ok.injEq, Prod.mk.injEq] at h
    obtain ⟨rfl, rfl⟩ := h
    rfl
  · rename_i h; rw [nextk_append hb] at h; cases h
  · rename_i h; rw [nextk_append hb] at h; cases h

theorem signInner_short (e : Nat) {b : Bytes} (hb : b.length < 40) : signInner e b = .err (if b.length = 0 then "EOF" else "unexpected EOF") := by
  rw [signInner]
  split
  · rename_i h; rw [nextk_short hb] at h; cases h
  · rename_i h; rw [nextk_short hb] at h; cases h; rfl
  · rename_i h; rw [nextk_short hb] at h; cases h

theorem signOuter_unfold (d e : Nat) (rd : Bytes) : signOuter d e rd = match signInner e rd with
    | .ok (r, k, rd') => match modInverseN (d + 1) with
      | none => .panic
      | some di => if sOf d r k di ≠ 0 then .ok (r, sOf d r k di, rd') else signOuter d e rd'
    | .err er => .err er
    | .panic => .panic := by
  rw [signOuter]
  split
  · rename_i h; simp only [h]; rfl
  · rename_i h; simp only [h]
  · rename_i h; simp only [h]

/-- Two numbers, what is left. -/
def assoc {α β : Type} : Res (α × β × Bytes) → Res ((α × β) × Bytes)
  | .ok (a, b, c) => .ok ((a, b), c)
  | .err e => .err e
  | .panic => .panic

theorem signOuter_append (d e : Nat) {b : Bytes} (hb : b.length = 40) (rest : Bytes) :
    assoc (signOuter d e (b ++ rest)) = match outerStep d e b with
      | none => assoc (signOuter d e rest)
      | some o => withRest o rest := by
  unfold outerStep
  rw [signOuter_unfold, signInner_append e hb]
  by_cases hc : rOf e (kOf b) ≠ 0 ∧ rOf e (kOf b) + kOf b ≠ N
  · rw [if_pos hc, if_pos hc]
    unfold outerOf
    cases modInverseN (d + 1) with
    | none => rfl
    | some di =>
      simp only
      by_cases hs : sOf d (rOf e (kOf b)) (kOf b) di ≠ 0
      · rw [if_pos hs, if_pos hs]; rfl
      · rw [if_neg hs, if_neg hs]
  · rw [if_neg hc, if_neg hc, ← signOuter_unfold]

theorem signOuter_short (d e : Nat) {b : Bytes} (hb : b.length < 40) : signOuter d e b = .err (if b.length = 0 then "EOF" else "unexpected EOF") := by
  rw [signOuter_unfold, signInner_short e hb]

theorem ite_err {α : Type} {p : Prop} [Decidable p] (a b : String) : (Res.err (if p then a else b) : Res α) = if p then .err a else .err b := by
  split <;> rfl

/-- What a step gives, turned into another kind of result. -/
def via {α β : Type} (g : Res α → Res β) (step : Bytes → Option (Res α)) (b : Bytes) : Option (Res β) := (step b).map g

theorem loop_via {r : GoReader} {n : Nat} {α β : Type} {step : Bytes → Option (Res α)} {g : Res α → Res β} (hg : ∀ e, g (.err e) = .err e)
    {s : r.State} {tr : Bytes} {out : Res β} {s' : r.State} :
    (∃ o, Loop r n step s tr o s' ∧ out = g o) ↔ Loop r n (via g step) s tr out s' := by
  constructor
  · rintro ⟨o, h, rfl⟩
    induction h with
    | err h => rw [hg]; exact .err h
    | done h ho => exact .done h (by unfold via; rw [ho]; rfl)
    | again h ho _ ih => exact .again h (by unfold via; rw [ho]; rfl) ih
  · intro h
    induction h with
    | err h => exact ⟨_, .err h, (hg _).symm⟩
    | @done s b o s' h ho =>
      unfold via at ho
      obtain ⟨o', h1, rfl⟩ := Option.map_eq_some_iff.mp ho
      exact ⟨o', .done h h1, rfl⟩
    | @again s b s1 tr out s' h ho _ ih =>
      unfold via at ho
      obtain ⟨o, h1, h2⟩ := ih
      exact ⟨o, .again h (Option.map_eq_none_iff.mp ho) h1, h2⟩

theorem ints_err (e : String) : ints (.err e) = .err e := rfl

theorem signDigestRS_iff {r : GoReader} {priv : PrivateKey} {digest : Bytes} {s : r.State} {tr : Bytes} {out : Res (Int × Int)} {s' : r.State} :
    SignDigestRS r priv digest s tr out s' ↔ Loop r 40 (via ints (outerStep priv.d (ofBytes digest))) s tr out s' := by
  rw [← loop_via ints_err]
  exact exists_congr fun o => and_congr_left fun _ => signOuter_iff

theorem marshalled_ints_err (e : String) : (marshalled (ints (.err e))) = .err e := rfl

theorem signDigest_iff {r : GoReader} {priv : PrivateKey} {digest : Bytes} {s : r.State} {tr : Bytes} {out : Res Bytes} {s' : r.State} :
    SignDigest r priv digest s tr out s' ↔ Loop r 40 (via (fun o => marshalled (ints o)) (outerStep priv.d (ofBytes digest))) s tr out s' := by
  rw [← loop_via (g := fun o => marshalled (ints o)) marshalled_ints_err]
  constructor
  · rintro ⟨o, ⟨o', h, rfl⟩, rfl⟩; exact ⟨o', signOuter_iff.mp h, rfl⟩
  · rintro ⟨o', h, rfl⟩; exact ⟨_, ⟨o', signOuter_iff.mpr h, rfl⟩, rfl⟩

theorem signDigestRS_list (rd : Bytes) (priv : PrivateKey) (digest : Bytes) :
    assoc (signDigestRS rd priv digest) = listLoop 40 (by decide) (via ints (outerStep priv.d (ofBytes digest))) rd := by
  refine eq_listLoop (by decide) _ (fun rd => assoc (signDigestRS rd priv digest)) ?_ ?_ rd
  · intro b rest hb
    have h := signOuter_append priv.d (ofBytes digest) hb rest
    have e1 : ∀ rd, assoc (signDigestRS rd priv digest) = match assoc (signOuter priv.d (ofBytes digest) rd) with
        | .ok (p, rd') => .ok (((p.1 : Int), (p.2 : Int)), rd')
        | .err e => .err e
        | .panic => .panic := by
      intro rd
      unfold signDigestRS
      cases signOuter priv.d (ofBytes digest) rd <;> rfl
    simp only [e1, h, via]
    cases outerStep priv.d (ofBytes digest) b with
    | none => rfl
    | some o => cases o <;> rfl
  · intro b hb
    show assoc (signDigestRS b priv digest) = _
    unfold signDigestRS
    rw [signOuter_short _ _ hb, ← ite_err]
    rfl

theorem outerStep_range {d e : Nat} {b : Bytes} {r s : Nat} (h : outerStep d e b = some (.ok (r, s))) : r < N ∧ s < N := by
  have hN : 0 < N := by decide +kernel
  unfold outerStep at h
  split at h
  · unfold outerOf at h
    split at h
    · cases h
    · split at h
      · cases h
        refine ⟨Nat.mod_lt _ hN, ?_⟩
        unfold sOf
        have h1 := Int.emod_lt_of_pos (((kOf b : Nat) : Int) * 1) (show (0 : Int) < N by exact_mod_cast hN)
        have h2 := Int.emod_lt_of_pos ((((kOf b : Nat) : Int) - (rOf e (kOf b) : Int) * (d : Int)) * (‹Nat› : Int)) (show (0 : Int) < N by exact_mod_cast hN)
        have h3 := Int.emod_nonneg ((((kOf b : Nat) : Int) - (rOf e (kOf b) : Int) * (d : Int)) * (‹Nat› : Int)) (show (N : Int) ≠ 0 by omega)
        omega
      · cases h
  · cases h

def encStep (pub : PublicKey) (msg b : Bytes) : Option (Res Bytes) :=
  (encStream pub msg (kOf b)).map fun t => encTail (xorInto (encHead pub msg (kOf b) ++ t) 96 msg)

theorem encryt_iff {r : GoReader} {pub : PublicKey} {msg : Bytes} {s : r.State} {tr : Bytes} {out : Res Bytes} {s' : r.State} :
    Encryt r pub msg s tr out s' ↔ Loop r 40 (encStep pub msg) s tr out s' := by
  constructor
  · intro h
    induction h with
    | err h => exact .err (nextk_err_iff.mp h)
    | done h hc =>
      obtain ⟨h0, rfl⟩ := nextk_ok_iff.mp h
      exact .done h0 (by unfold encStep kOf; rw [hc]; rfl)
    | again h hc _ ih =>
      obtain ⟨h0, rfl⟩ := nextk_ok_iff.mp h
      exact .again h0 (by unfold encStep kOf; rw [hc]; rfl) ih
  · intro h
    induction h with
    | err h => exact .err (nextk_err_iff.mpr h)
    | @done s b o s' h ho =>
      unfold encStep at ho
      obtain ⟨t, h1, rfl⟩ := Option.map_eq_some_iff.mp ho
      exact .done (nextk_ok_iff.mpr ⟨h, rfl⟩) h1
    | @again s b s1 tr out s' h ho _ ih =>
      unfold encStep at ho
      exact .again (nextk_ok_iff.mpr ⟨h, rfl⟩) (Option.map_eq_none_iff.mp ho) ih

theorem encryt_list (rd : Bytes) (pub : PublicKey) (msg : Bytes) : encryt rd pub msg = listLoop 40 (by decide) (encStep pub msg) rd := by
  refine eq_listLoop (by decide) _ (fun rd => encryt rd pub msg) ?_ ?_ rd
  · intro b rest hb
    show encryt (b ++ rest) pub msg = _
    rw [encryt]
    split
    · rename_i k rd' h
      rw [nextk_append hb] at h
      simp only [Res.ok.injEq, Prod.mk.injEq] at h
      obtain ⟨rfl, rfl⟩ := h
      simp only [encStep, encStream]
      cases kdf (msg.length : Int) (scalarMult P (pub.x, pub.y) (toBytes (kOf b))).1 (scalarMult P (pub.x, pub.y) (toBytes (kOf b))).2 with
      | none => rfl
      | some t =>
        simp only [Option.map_some, encHead]
        cases xorInto (toBytes (baseMult (toBytes (kOf b))).1 ++ toBytes (baseMult (toBytes (kOf b))).2 ++
          Sm3.sum (toBytes (scalarMult P (pub.x, pub.y) (toBytes (kOf b))).1 ++ msg ++ toBytes (scalarMult P (pub.x, pub.y) (toBytes (kOf b))).2) ++ t) 96 msg <;> rfl
    · rename_i h; rw [nextk_append hb] at h; cases h
    · rename_i h; rw [nextk_append hb] at h; cases h
  · intro b hb
    show encryt b pub msg = _
    rw [encryt]
    split
    · rename_i h; rw [nextk_short hb] at h; cases h
    · rename_i h; rw [nextk_short hb] at h; cases h; exact ite_err _ _
    · rename_i h; rw [nextk_short hb] at h; cases h

theorem xorInto_noErr (c : Bytes) (off : Nat) (msg : Bytes) (e : String) : xorInto c off msg ≠ .err e := by
  unfold xorInto; repeat' split
  all_goals simp

theorem encStep_noErr (pub : PublicKey) (msg : Bytes) : NoErr (encStep pub msg) := by
  intro b e h
  unfold encStep at h
  obtain ⟨t, h1, h2⟩ := Option.map_eq_some_iff.mp h
  cases hx : xorInto (encHead pub msg (kOf b) ++ t) 96 msg with
  | ok c => rw [hx] at h2; cases h2
  | err e => exact xorInto_noErr _ _ _ _ hx
  | panic => rw [hx] at h2; cases h2

theorem outerStep_noErr (d e : Nat) : NoErr (outerStep d e) := by
  intro b er h
  unfold outerStep outerOf at h
  repeat' split at h
  all_goals simp at h

theorem genStep_noErr : NoErr genStep := by
  intro b er h
  unfold genStep at h
  split at h <;> simp at h

/-- The key made from the octets found. -/
def keyOf : Res Bytes → Res PrivateKey
  | .ok priv => .ok ⟨⟨.sm2p256v1, (baseMult priv).1, (baseMult priv).2⟩, ofBytes priv⟩
  | .err e => .err e
  | .panic => .panic

theorem generateKey_iff {r : GoReader} {s : r.State} {tr : Bytes} {out : Res PrivateKey} {s' : r.State} :
    GenerateKey r s tr out s' ↔ Loop r 32 (via keyOf genStep) s tr out s' := by
  rw [← loop_via (g := keyOf) fun _ => rfl]
  constructor
  · intro h
    cases h with
    | ok h => exact ⟨_, genLoop_iff.mp h, rfl⟩
    | err h => exact ⟨_, genLoop_iff.mp h, rfl⟩
  · rintro ⟨o, h, rfl⟩
    cases o with
    | ok p => exact .ok (genLoop_iff.mpr h)
    | err e => exact .err (genLoop_iff.mpr h)
    | panic =>
      exfalso
      have : ∀ {s tr o s'}, Loop r 32 genStep s tr o s' → o ≠ .panic := by
        intro s tr o s' h
        induction h with
        | err => simp
        | @done s b o s' h ho => unfold genStep at ho; split at ho <;> cases ho; simp
        | again _ _ _ ih => exact ih
      exact this h rfl

theorem generateKey_list (rd : Bytes) : generateKey rd = listLoop 32 (by decide) (via keyOf genStep) rd := by
  refine eq_listLoop (by decide) _ generateKey ?_ ?_ rd
  · intro b rest hb
    unfold generateKey
    rw [genLoop_list, genLoop_list, listLoop_ok _ _ hb]
    unfold via
    cases genStep b with
    | none => rfl
    | some o => cases o <;> rfl
  · intro b hb
    unfold generateKey
    rw [genLoop_list, listLoop_short _ _ hb]
    by_cases h : b.length = 0
    · rw [if_pos h, if_pos h]
    · rw [if_neg h, if_neg h]

theorem via_noErr {α β : Type} {step : Bytes → Option (Res α)} (hs : NoErr step) {g : Res α → Res β} (h1 : ∀ b a, step b = some (.ok a) → ∀ e, g (.ok a) ≠ .err e)
    (h2 : ∀ e, g .panic ≠ .err e) : NoErr (via g step) := by
  intro b e h
  unfold via at h
  obtain ⟨o, h3, h4⟩ := Option.map_eq_some_iff.mp h
  cases o with
  | ok a => exact h1 b a h3 e h4
  | err e' => exact hs b e' h3
  | panic => exact h2 e h4

end MCrypto.Sm2.Rd
