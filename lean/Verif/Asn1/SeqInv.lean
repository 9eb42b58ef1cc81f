import Verif.Asn1.To
import Verif.Asn1.Inv
/-
What the parser of slices accepts.
-/
namespace MCrypto.Asn1
open MCrypto

/-- A slice is parsed as the concatenation of its elements. -/
theorem parseSeqOf_iff {α : Type} (chk : Hdr → Bool) (pf : Bytes → Option (α × Bytes)) (E : Bytes → α → Prop)
    (hpf : ∀ b v r, pf b = some (v, r) ↔ ∃ e, b = e ++ r ∧ E e v)
    (hE : ∀ e v, E e v → ∃ cls comp tag body, e = encTLV cls comp tag body ∧ cls < 4 ∧ tag ≤ 2147483647 ∧
      body.length < 2 ^ 31 ∧ chk ⟨cls, comp, tag, body.length⟩ = true) (b : Bytes) (l : List α) :
    parseSeqOf chk pf b = some l ↔ ∃ es, b = es.flatten ∧ List.Forall₂ E es l := by
  unfold parseSeqOf
  constructor
  · intro h
    have key : ∀ (n : Nat) (b : Bytes) (k : Nat) (l : List α), checkElems chk n b = some k → parseElems pf k b = some l →
        ∃ es, b = es.flatten ∧ List.Forall₂ E es l := by
      intro n
      induction n with
      | zero =>
        intro b k l hc hp
        cases b with
        | nil =>
          simp only [checkElems, Option.some.injEq] at hc
          subst hc
          simp only [parseElems, Option.some.injEq] at hp
          subst hp
          exact ⟨[], rfl, .nil⟩
        | cons x b => simp [checkElems] at hc
      | succ n ih =>
        intro b k l hc hp
        cases b with
        | nil =>
          simp only [checkElems, Option.some.injEq] at hc
          subst hc
          simp only [parseElems, Option.some.injEq] at hp
          subst hp
          exact ⟨[], rfl, .nil⟩
        | cons x b =>
          rw [checkElems] at hc
          split at hc
          · cases hc
          · rename_i t r' hh
            split at hc
            · cases hc
            split at hc
            · cases hc
            rename_i hlen
            split at hc
            · cases hc
            rename_i k' hk
            injection hc with hc
            subst hc
            rw [parseElems] at hp
            split at hp
            · cases hp
            rename_i v r hv
            split at hp
            · cases hp
            rename_i l' hl'
            injection hp with hp
            subst hp
            obtain ⟨e, hb, he⟩ := (hpf _ _ _).mp hv
            rw [hb] at hh ⊢
            obtain ⟨cls, comp, tag, body, rfl, h1, h2, h3, h4⟩ := hE e v he
            rw [parseHdr_encTLV _ _ _ _ _ h1 h2 h3, Option.some.injEq, Prod.mk.injEq] at hh
            obtain ⟨rfl, rfl⟩ := hh
            rw [show (body ++ r).drop (Hdr.mk cls comp tag body.length).len = r from List.drop_left' rfl] at hk
            obtain ⟨es, rfl, hes⟩ := ih r k' l' hk hl'
            exact ⟨_ :: es, rfl, .cons he hes⟩
    split at h
    · cases h
    · rename_i k hk; exact key _ b k l hk h
  · rintro ⟨es, rfl, h⟩
    have key : ∀ n : Nat, es.flatten.length ≤ n → checkElems chk n es.flatten = some l.length := by
      induction h with
      | nil => intro n _; cases n <;> rfl
      | cons he _ ih =>
        rename_i e v es l _
        intro n hn
        obtain ⟨cls, comp, tag, body, rfl, h1, h2, h3, h4⟩ := hE e v he
        have hlt := encTLV_length_lt cls comp tag body
        rw [List.flatten_cons, List.length_append] at hn
        cases n with
        | zero => omega
        | succ n =>
          rw [List.flatten_cons]
          obtain ⟨x, t, hx⟩ := List.exists_cons_of_ne_nil (show encTLV cls comp tag body ++ es.flatten ≠ [] by simp [encTLV_ne_nil])
          rw [hx, checkElems, ← hx, parseHdr_encTLV _ _ _ _ _ h1 h2 h3]
          simp only [h4, not_true_eq_false, if_false, List.length_append]
          rw [if_neg (by omega), List.drop_left' rfl, ih n (by omega)]
          rfl
    rw [key _ (Nat.le_refl _)]
    simp only []
    clear key
    induction h with
    | nil => rfl
    | cons he _ ih =>
      rename_i e v es l _
      rw [List.length_cons, parseElems, List.flatten_cons, (hpf _ _ _).mpr ⟨e, rfl, he⟩]
      simp only [ih]

/-- The element with contents `body`, read as `v`. -/
def Reads {α : Type} (c : Codec α) (e : Bytes) (v : α) : Prop :=
  ∃ body, e = encTLV 0 c.compound c.tag body ∧ body.length < 2 ^ 31 ∧ c.dec body e = some v

theorem parseField_reads {α : Type} (c : Codec α) (hct : c.tag ≤ 2147483647) (b : Bytes) (v : α) (r : Bytes) :
    parseField c {} b = some (v, r) ↔ ∃ e, b = e ++ r ∧ Reads c e v := by
  rw [unmarshal_iff c hct]
  constructor
  · rintro ⟨body, rfl, h1, h2⟩; exact ⟨_, rfl, body, rfl, h1, h2⟩
  · rintro ⟨e, rfl, body, rfl, h1, h2⟩; exact ⟨body, rfl, h1, h2⟩

theorem seqOf_dec_iff {α : Type} [DecidableEq α] (c : Codec α) (hct : c.tag ≤ 2147483647) (b full : Bytes) (l : List α) :
    (seqOf c).dec b full = some l ↔ ∃ es, b = es.flatten ∧ List.Forall₂ (Reads c) es l := by
  simp only [seqOf]
  refine parseSeqOf_iff _ _ _ (parseField_reads c hct) ?_ b l
  rintro e v ⟨body, rfl, h1, -⟩
  exact ⟨_, _, _, body, rfl, by decide, hct, h1, by simp⟩

/-- A raw element. -/
def ReadsRaw (e : Bytes) (v : RawValue) : Prop :=
  ∃ cls comp tag body, v = rawOf cls comp tag body ∧ e = encTLV cls comp tag body ∧ cls < 4 ∧ tag ≤ 2147483647 ∧
    body.length < 2 ^ 31

theorem parseRaw_reads (b : Bytes) (v : RawValue) (r : Bytes) :
    parseRaw {} b = some (v, r) ↔ ∃ e, b = e ++ r ∧ ReadsRaw e v := by
  rw [parseRaw_iff]
  constructor
  · rintro ⟨cls, comp, tag, body, h1, rfl, h2⟩; exact ⟨_, rfl, cls, comp, tag, body, h1, rfl, h2⟩
  · rintro ⟨e, rfl, cls, comp, tag, body, h1, rfl, h2⟩; exact ⟨cls, comp, tag, body, h1, rfl, h2⟩

theorem seqOfRaw_dec_iff (b full : Bytes) (l : List RawValue) :
    seqOfRaw.dec b full = some l ↔ ∃ es, b = es.flatten ∧ List.Forall₂ ReadsRaw es l := by
  simp only [seqOfRaw]
  refine parseSeqOf_iff _ _ _ parseRaw_reads ?_ b l
  rintro e v ⟨cls, comp, tag, body, -, rfl, h1, h2, h3⟩
  exact ⟨cls, comp, tag, body, rfl, h1, h2, h3, rfl⟩

theorem ReadsRaw.full {e : Bytes} {v : RawValue} (h : ReadsRaw e v) : v.full = e := by
  obtain ⟨cls, comp, tag, body, rfl, rfl, -⟩ := h; rfl

theorem ReadsRaw.marshal {e : Bytes} {v : RawValue} (h : ReadsRaw e v) : marshalRaw {} v = some e := by
  obtain ⟨cls, comp, tag, body, rfl, rfl, -⟩ := h
  exact marshalRaw_full _ _ (encTLV_ne_nil _ _ _ _) (by simp)

/-- Raw elements are written as they were read. -/
theorem seqOfRaw_enc {es : List Bytes} {l : List RawValue} (h : List.Forall₂ ReadsRaw es l) :
    seqOfRaw.enc l = some es.flatten := by
  simp only [seqOfRaw]
  have : marshalElems (marshalRaw {}) l = some es := by
    induction h with
    | nil => rfl
    | cons h _ ih => rw [marshalElems, h.marshal, ih]
  rw [this]; rfl

theorem seqOfRaw_to {es : List Bytes} {l : List RawValue} (h : List.Forall₂ ReadsRaw es l) : seqOfRaw.To l l := by
  intro body full he _
  rw [seqOfRaw_enc h, Option.some.injEq] at he
  exact (seqOfRaw_dec_iff _ _ _).mpr ⟨es, he.symm, h⟩

end MCrypto.Asn1
