import Verif.X509.ExtSpec
import Verif.Asn1.OidLemmas
/-
What the cryptobyte reading functions accept, as equivalences.
-/
namespace MCrypto.X509
open MCrypto MCrypto.Asn1 MCrypto.X509Spec

theorem _root_.MCrypto.X509Spec.Elem.ne_nil {tag : Der.Tag} {body e : Bytes} (h : Elem tag body e) : e ≠ [] := by
  rw [h.1]; simp [Der.tlv]

theorem readAny_iff (s : Bytes) (tag : Der.Tag) (b rest : Bytes) :
    Der.readAny s = some (tag, b, rest) ↔ ∃ e, s = e ++ rest ∧ Elem tag b e := by
  constructor
  · intro h
    obtain ⟨h1, h2, h3⟩ := Der.readAny_sound h
    exact ⟨_, h1, rfl, h2, h3⟩
  · rintro ⟨e, rfl, rfl, h2, h3⟩
    exact Der.readAny_tlv tag b rest h2 h3

theorem readASN1_iff (tag : Der.Tag) (s b rest : Bytes) :
    Der.readASN1 tag s = some (b, rest) ↔ ∃ e, s = e ++ rest ∧ Elem tag b e := by
  constructor
  · intro h
    obtain ⟨h1, h2, h3⟩ := Der.readASN1_sound h
    exact ⟨_, h1, rfl, h2, h3⟩
  · rintro ⟨e, rfl, rfl, h2, h3⟩
    exact Der.readASN1_tlv tag b rest h2 h3

theorem peek_elem {tag t : Der.Tag} {b e rest : Bytes} (h : Elem tag b e) : peek t (e ++ rest) = decide (tag = t) := by
  rw [h.1]
  simp only [peek, Der.tlv, List.cons_append, List.head?_cons]
  by_cases hc : tag = t <;> simp [hc]

theorem peek_nil (t : Der.Tag) : peek t [] = false := rfl

theorem readElement_iff (tag : Der.Tag) (s e rest : Bytes) :
    readElement tag s = some (e, rest) ↔ s = e ++ rest ∧ ∃ b, Elem tag b e := by
  unfold readElement readAnyElement
  constructor
  · intro h
    match hr : Der.readAny s with
    | none => rw [hr] at h; cases h
    | some (t, b, r) =>
      rw [hr] at h
      simp only [] at h
      split at h
      · rename_i ht
        subst ht
        simp only [Option.some.injEq, Prod.mk.injEq] at h
        obtain ⟨h1, rfl⟩ := h
        obtain ⟨e', rfl, he⟩ := (readAny_iff _ _ _ _).mp hr
        have : e = e' := by rw [← h1]; simp
        subst this
        exact ⟨rfl, b, he⟩
      · cases h
  · rintro ⟨rfl, b, he⟩
    rw [(readAny_iff _ _ _ _).mpr ⟨e, rfl, he⟩]
    simp

theorem readAnyElement_iff (s : Bytes) (tag : Der.Tag) (e rest : Bytes) :
    readAnyElement s = some (tag, e, rest) ↔ s = e ++ rest ∧ ∃ b, Elem tag b e := by
  unfold readAnyElement
  constructor
  · intro h
    match hr : Der.readAny s with
    | none => rw [hr] at h; cases h
    | some (t, b, r) =>
      rw [hr] at h
      simp only [Option.some.injEq, Prod.mk.injEq] at h
      obtain ⟨rfl, h1, rfl⟩ := h
      obtain ⟨e', rfl, he⟩ := (readAny_iff _ _ _ _).mp hr
      have : e = e' := by rw [← h1]; simp
      subst this
      exact ⟨rfl, b, he⟩
  · rintro ⟨rfl, b, he⟩
    rw [(readAny_iff _ _ _ _).mpr ⟨e, rfl, he⟩]
    simp

theorem readOID_iff (s : Bytes) (o : Oid) (rest : Bytes) :
    readOID s = some (o, rest) ↔ ∃ e, s = e ++ rest ∧ OidElem o e := by
  unfold readOID
  constructor
  · intro h
    match hr : Der.readASN1 Der.tagOID s with
    | none => rw [hr] at h; cases h
    | some (b, r) =>
      rw [hr] at h
      simp only [] at h
      match hd : decOid b with
      | none => rw [hd] at h; cases h
      | some o' =>
        rw [hd] at h
        simp only [Option.some.injEq, Prod.mk.injEq] at h
        obtain ⟨rfl, rfl⟩ := h
        obtain ⟨e, rfl, he⟩ := (readASN1_iff _ _ _ _).mp hr
        exact ⟨e, rfl, b, he, (decOid_iff b o').mp hd⟩
  · rintro ⟨e, rfl, b, he, ho⟩
    rw [(readASN1_iff Der.tagOID _ _ _).mpr ⟨e, rfl, he⟩]
    simp only [(decOid_iff b o).mpr ho]

theorem readBool_iff (s : Bytes) (v : Bool) (rest : Bytes) :
    readBool s = some (v, rest) ↔ ∃ e, s = e ++ rest ∧ Elem 0x01 [if v then 0xff else 0] e := by
  unfold readBool
  constructor
  · intro h
    match hr : Der.readASN1 0x01 s with
    | none => rw [hr] at h; cases h
    | some (b, r) =>
      rw [hr] at h
      simp only [] at h
      obtain ⟨e, rfl, he⟩ := (readASN1_iff _ _ _ _).mp hr
      split at h
      · rename_i hb
        simp only [Option.some.injEq, Prod.mk.injEq] at h
        obtain ⟨rfl, rfl⟩ := h
        subst hb
        exact ⟨e, rfl, he⟩
      · split at h
        · rename_i hb
          simp only [Option.some.injEq, Prod.mk.injEq] at h
          obtain ⟨rfl, rfl⟩ := h
          subst hb
          exact ⟨e, rfl, he⟩
        · cases h
  · rintro ⟨e, rfl, he⟩
    rw [(readASN1_iff _ _ _ _).mpr ⟨e, rfl, he⟩]
    cases v <;> rfl

theorem readBits_iff (s : Bytes) (v : BitString) (rest : Bytes) :
    readBits s = some (v, rest) ↔ ∃ e, s = e ++ rest ∧ ∃ b, Elem 0x03 b e ∧ decBits b = some v := by
  unfold readBits
  constructor
  · intro h
    match hr : Der.readASN1 0x03 s with
    | none => rw [hr] at h; cases h
    | some (b, r) =>
      rw [hr] at h
      simp only [] at h
      obtain ⟨e, rfl, he⟩ := (readASN1_iff _ _ _ _).mp hr
      match hd : decBits b with
      | none => rw [hd] at h; cases h
      | some w =>
        rw [hd] at h
        simp only [Option.some.injEq, Prod.mk.injEq] at h
        obtain ⟨rfl, rfl⟩ := h
        exact ⟨e, rfl, b, he, hd⟩
  · rintro ⟨e, rfl, b, he, hd⟩
    rw [(readASN1_iff _ _ _ _).mpr ⟨e, rfl, he⟩]
    simp only [hd]

theorem encInt_range (n : Int) (h : (Der.encInt n).length ≤ 8) : -(2 ^ 63 : Int) ≤ n ∧ n < 2 ^ 63 := by
  have key : ∀ m : Nat, (Der.encNat m).length ≤ 8 → m < 2 ^ 63 := by
    intro m hm
    obtain ⟨c, t, he, hc, hv, _⟩ := Der.encNat_shape m
    rw [he, List.length_cons] at hm
    rw [ofBytes_cons] at hv
    have hp : (256 : Nat) ^ t.length ≤ 256 ^ 7 := Nat.pow_le_pow_right (by decide) (by omega)
    have h1 := ofBytes_lt t
    have h2 : (c.toNat + 1) * 256 ^ t.length ≤ 128 * 256 ^ 7 := Nat.mul_le_mul (by omega) hp
    rw [Nat.add_mul] at h2
    have e : 128 * (256 : Nat) ^ 7 = 2 ^ 63 := by norm_num
    omega
  rcases Der.int_cases n with ⟨m, rfl⟩ | ⟨m, rfl⟩
  · rw [Der.encInt_nonneg] at h
    have := key m h
    omega
  · rw [Der.encInt_neg, List.length_map] at h
    have := key m h
    omega

theorem readGoInt_iff (s : Bytes) (n : Int) (rest : Bytes) :
    readGoInt s = some (n, rest) ↔
      ∃ e, s = e ++ rest ∧ Elem 0x02 (Der.encInt n) e ∧ -(2 ^ 63 : Int) ≤ n ∧ n < 2 ^ 63 := by
  unfold readGoInt
  constructor
  · intro h
    match hr : Der.readASN1 Der.tagINTEGER s with
    | none => rw [hr] at h; cases h
    | some (b, r) =>
      rw [hr] at h
      simp only [] at h
      obtain ⟨e, rfl, he⟩ := (readASN1_iff _ _ _ _).mp hr
      split at h
      · cases h
      rename_i hlen
      match hd : Der.decInt b with
      | none => rw [hd] at h; cases h
      | some w =>
        rw [hd] at h
        simp only [Option.some.injEq, Prod.mk.injEq] at h
        obtain ⟨rfl, rfl⟩ := h
        have hb := (Der.decInt_iff _ _).mp hd
        subst hb
        refine ⟨e, rfl, he, ?_⟩
        exact encInt_range w (by omega)
  · rintro ⟨e, rfl, he, h1, h2⟩
    rw [(readASN1_iff Der.tagINTEGER _ _ _).mpr ⟨e, rfl, he⟩]
    simp only []
    rw [if_neg (by have := encInt_length_int64 n h1 h2; omega), Der.decInt_encInt]

/-! ### Lists -/

/-- Reading elements to the end of the input. -/
theorem readMany_iff {α : Type} {step : Bytes → Option (α × Bytes)} {R : Bytes → α → Prop}
    (hs : ∀ s v rest, step s = some (v, rest) ↔ ∃ e, s = e ++ rest ∧ R e v) (hne : ∀ e v, R e v → e ≠ [])
    (s : Bytes) (l : List α) : readMany step s = some l ↔ ∃ es, s = es.flatten ∧ List.Forall₂ R es l := by
  unfold readMany
  suffices H : ∀ n s l, s.length ≤ n →
      (readManyAux step n s = some l ↔ ∃ es, s = es.flatten ∧ List.Forall₂ R es l) from H _ _ _ (Nat.le_refl _)
  intro n
  induction n with
  | zero =>
    intro s l hl
    match s, hl with
    | [], _ =>
      simp only [readManyAux, Option.some.injEq]
      constructor
      · rintro rfl; exact ⟨[], rfl, .nil⟩
      · rintro ⟨es, he, hf⟩
        cases hf with
        | nil => rfl
        | cons hr _ =>
          exfalso
          rw [List.flatten_cons] at he
          exact hne _ _ hr (List.append_eq_nil_iff.mp he.symm).1
  | succ n ih =>
    intro s l hl
    match s with
    | [] =>
      simp only [readManyAux, Option.some.injEq]
      constructor
      · rintro rfl; exact ⟨[], rfl, .nil⟩
      · rintro ⟨es, he, hf⟩
        cases hf with
        | nil => rfl
        | cons hr _ =>
          exfalso
          rw [List.flatten_cons] at he
          exact hne _ _ hr (List.append_eq_nil_iff.mp he.symm).1
    | b :: t =>
      rw [readManyAux]
      constructor
      · intro h
        match hst : step (b :: t) with
        | none => rw [hst] at h; cases h
        | some (v, rest) =>
          rw [hst] at h
          simp only [] at h
          obtain ⟨e, he, hr⟩ := (hs _ _ _).mp hst
          have hep : 0 < e.length := List.length_pos_of_ne_nil (hne _ _ hr)
          have hrl : rest.length ≤ n := by
            have := congrArg List.length he
            simp only [List.length_append] at this
            simp only [List.length_cons] at hl this
            omega
          match hm : readManyAux step n rest with
          | none => rw [hm] at h; cases h
          | some l' =>
            rw [hm] at h
            simp only [Option.some.injEq] at h
            subst h
            obtain ⟨es, rfl, hf⟩ := (ih rest l' hrl).mp hm
            exact ⟨e :: es, by rw [he]; rfl, .cons hr hf⟩
      · rintro ⟨es, he, hf⟩
        cases hf with
        | nil => cases he
        | @cons e v es' l' hr hf =>
          rw [List.flatten_cons] at he
          have hep : 0 < e.length := List.length_pos_of_ne_nil (hne _ _ hr)
          have hrl : es'.flatten.length ≤ n := by
            have := congrArg List.length he
            simp only [List.length_append] at this
            simp only [List.length_cons] at hl this
            omega
          have hst : step (b :: t) = some (v, es'.flatten) := (hs _ _ _).mpr ⟨e, he, hr⟩
          have hm := (ih es'.flatten l' hrl).mpr ⟨es', rfl, hf⟩
          simp only [hst, hm]

theorem forall₂_param {α β γ : Type} {E : α → β → Prop} {P : β → Prop} {g : β → γ} (es : List α) (l : List γ) :
    List.Forall₂ (fun e v => ∃ n, E e n ∧ P n ∧ v = g n) es l ↔
      ∃ ns, List.Forall₂ E es ns ∧ (∀ n ∈ ns, P n) ∧ l = ns.map g := by
  constructor
  · intro h
    induction h with
    | nil => exact ⟨[], .nil, by simp, rfl⟩
    | cons h _ ih =>
      obtain ⟨n, h1, h2, rfl⟩ := h
      obtain ⟨ns, h3, h4, rfl⟩ := ih
      refine ⟨n :: ns, .cons h1 h3, ?_, rfl⟩
      intro m hm
      rcases List.mem_cons.mp hm with rfl | hm
      · exact h2
      · exact h4 m hm
  · rintro ⟨ns, h1, h2, rfl⟩
    induction h1 with
    | nil => exact .nil
    | cons h _ ih => exact .cons ⟨_, h, h2 _ (by simp), rfl⟩ (ih fun n hn => h2 n (by simp [hn]))

/-- Reading elements to the end of the input, where an element `e` stands for a value `n`. -/
theorem readMany_concat {α β : Type} {step : Bytes → Option (α × Bytes)} {E : Bytes → β → Prop} {P : β → Prop}
    {g : β → α} (hs : ∀ s v rest, step s = some (v, rest) ↔ ∃ e, s = e ++ rest ∧ ∃ n, E e n ∧ P n ∧ v = g n)
    (hne : ∀ e n, E e n → e ≠ []) (s : Bytes) (l : List α) :
    readMany step s = some l ↔ ∃ ns, Concat E ns s ∧ (∀ n ∈ ns, P n) ∧ l = ns.map g := by
  rw [readMany_iff hs (fun e v ⟨n, h, _⟩ => hne e n h)]
  constructor
  · rintro ⟨es, rfl, h⟩
    obtain ⟨ns, h1, h2, h3⟩ := (forall₂_param es l).mp h
    exact ⟨ns, ⟨es, rfl, h1⟩, h2, h3⟩
  · rintro ⟨ns, ⟨es, rfl, h1⟩, h2, h3⟩
    exact ⟨es, rfl, (forall₂_param es l).mpr ⟨ns, h1, h2, h3⟩⟩

/-- The same when every value is acceptable and stands for itself. -/
theorem readMany_concat' {α : Type} {step : Bytes → Option (α × Bytes)} {E : Bytes → α → Prop}
    (hs : ∀ s v rest, step s = some (v, rest) ↔ ∃ e, s = e ++ rest ∧ E e v)
    (hne : ∀ e n, E e n → e ≠ []) (s : Bytes) (l : List α) : readMany step s = some l ↔ Concat E l s :=
  readMany_iff hs hne s l

/-- A list given by the encodings of its elements. -/
theorem readMany_map {α β : Type} {step : Bytes → Option (α × Bytes)} {R : Bytes → α → Prop}
    (hs : ∀ s v rest, step s = some (v, rest) ↔ ∃ e, s = e ++ rest ∧ R e v) (hne : ∀ e v, R e v → e ≠ [])
    (xs : List β) (f : β → Bytes) (g : β → α) (h : ∀ x ∈ xs, R (f x) (g x)) :
    readMany step (xs.flatMap f) = some (xs.map g) := by
  refine (readMany_iff hs hne _ _).mpr ⟨xs.map f, by rw [List.flatMap_def], ?_⟩
  induction xs with
  | nil => exact .nil
  | cons x xs ih => exact .cons (h x (by simp)) (ih fun y hy => h y (by simp [hy]))

end MCrypto.X509
