import Verif.X509.Refs
import Verif.X509.CertIff2
import Verif.X509.CertParts
/-
The readers on slices give windows that hold what the readers on octets give.
-/
namespace MCrypto.X509
open MCrypto Asn1 MCrypto.Go X509Spec

/-- `w` is a piece of `s`: it lies within the length of `s`, its capacity ends where that of `s` does. -/
def Piece (s w : Slice) : Prop :=
  w.arr = s.arr ∧ s.off ≤ w.off ∧ w.off + w.len ≤ s.off + s.len ∧ w.off + w.cap = s.off + s.cap

theorem piece_refl (s : Slice) : Piece s s := ⟨rfl, Nat.le_refl _, Nat.le_refl _, rfl⟩

theorem piece_trans {s w x : Slice} (h1 : Piece s w) (h2 : Piece w x) : Piece s x := by
  obtain ⟨a1, b1, c1, d1⟩ := h1
  obtain ⟨a2, b2, c2, d2⟩ := h2
  exact ⟨by omega, by omega, by omega, by omega⟩

theorem piece_valid {h : Heap} {s w : Slice} (hv : h.Valid s) (hp : Piece s w) : h.Valid w := by
  obtain ⟨a1, b1, c1, d1⟩ := hp
  obtain ⟨h1, h2⟩ := hv
  refine ⟨by omega, ?_⟩
  rw [a1]; omega

theorem sub_piece {h : Heap} {s : Slice} (hv : h.Valid s) {i n : Nat} (hi : i + n ≤ s.len) : Piece s (sub s i n) := by
  obtain ⟨h1, h2⟩ := hv
  refine ⟨rfl, ?_, ?_, ?_⟩ <;> dsimp only [sub] <;> omega

theorem read_sub {h : Heap} {s : Slice} {i n : Nat} (hi : i + n ≤ s.len) : h.read (sub s i n) = ((h.read s).drop i).take n := by
  apply List.ext_getElem?
  intro j
  rw [read_get, List.getElem?_take, List.getElem?_drop, read_get]
  show (if j < n then h.byte s.arr (s.off + i + j) else none) = _
  by_cases hj : j < n
  · rw [if_pos hj, if_pos hj, if_pos (by omega), Nat.add_assoc]
  · rw [if_neg hj, if_neg hj]

/-- A slice that is a header, contents and a rest. -/
theorem read_parts {h : Heap} {s : Slice} (hv : h.Valid s) {p b r : Bytes} (he : h.read s = p ++ (b ++ r)) :
    h.read (sub s (s.len - r.length - b.length) b.length) = b ∧ h.read (restS s r.length) = r ∧
    Piece s (sub s (s.len - r.length - b.length) b.length) ∧ Piece s (restS s r.length) ∧
    (sub s (s.len - r.length - b.length) b.length).off + b.length = (restS s r.length).off := by
  have hl := read_length hv
  rw [he] at hl
  simp only [List.length_append] at hl
  have e1 : s.len - r.length - b.length = p.length := by omega
  have e2 : s.len - r.length = p.length + b.length := by omega
  refine ⟨?_, ?_, sub_piece hv (by omega), sub_piece hv (by omega), ?_⟩
  · rw [read_sub (by omega), he, e1, List.drop_left, List.take_left]
  · unfold restS
    rw [read_sub (by omega), he, e2, ← List.append_assoc, ← List.length_append, List.drop_left, List.take_length]
  · dsimp only [sub, restS]; omega

theorem elem_parts {tag : Der.Tag} {b e : Bytes} (h : Elem tag b e) : ∃ p, e = p ++ b := by
  obtain ⟨rfl, -, -⟩ := h
  unfold Der.tlv
  exact ⟨tag :: Der.lenOctets b.length, by simp⟩

/-- What the readers on slices have in common. -/
structure Cut (h : Heap) (s : Slice) (b r : Bytes) (w w' : Slice) : Prop where
  bytes : h.read w = b
  rest : h.read w' = r
  piece : Piece s w
  pieceRest : Piece s w'
  order : w.off + w.len = w'.off
  last : w'.off + w'.len = s.off + s.len

theorem readASN1S_of {h : Heap} {s : Slice} (hv : h.Valid s) {tag : Der.Tag} {b r : Bytes} (he : Der.readASN1 tag (h.read s) = some (b, r)) :
    ∃ w w', readASN1S h tag s = some (w, w') ∧ Cut h s b r w w' := by
  obtain ⟨e, h1, h2⟩ := (readASN1_iff _ _ _ _).mp he
  obtain ⟨p, rfl⟩ := elem_parts h2
  rw [List.append_assoc] at h1
  have hl := read_length hv
  rw [h1] at hl
  simp only [List.length_append] at hl
  obtain ⟨a1, a2, a3, a4, a5⟩ := read_parts hv h1
  refine ⟨_, _, ?_, a1, a2, a3, a4, a5, ?_⟩
  · unfold readASN1S; rw [he]; rfl
  · dsimp only [restS, sub]; omega

theorem readElementS_of {h : Heap} {s : Slice} (hv : h.Valid s) {tag : Der.Tag} {b r : Bytes} (he : readElement tag (h.read s) = some (b, r)) :
    ∃ w w', readElementS h tag s = some (w, w') ∧ Cut h s b r w w' ∧ w.off = s.off := by
  obtain ⟨h1, h2⟩ := (readElement_iff _ _ _ _).mp he
  have hl := read_length hv
  rw [h1] at hl
  simp only [List.length_append] at hl
  obtain ⟨a1, a2, a3, a4, a5⟩ := read_parts (p := []) hv h1
  have e : s.len - r.length - b.length = 0 := by omega
  rw [e] at a1 a3 a5
  refine ⟨_, _, ?_, ⟨a1, a2, a3, a4, a5, ?_⟩, rfl⟩
  · unfold readElementS; rw [he]; rfl
  · dsimp only [restS, sub]; omega

theorem rest_of {h : Heap} {s : Slice} (hv : h.Valid s) {e r : Bytes} (he : h.read s = e ++ r) :
    h.read (restS s r.length) = r ∧ Piece s (restS s r.length) := by
  obtain ⟨-, a2, -, a4, -⟩ := read_parts (b := e) (p := []) hv he
  exact ⟨a2, a4⟩

theorem readS_of {α : Type} {f : Bytes → Option (α × Bytes)} (hf : ∀ s a r, f s = some (a, r) → ∃ e, s = e ++ r) {h : Heap} {s : Slice}
    (hv : h.Valid s) {a : α} {r : Bytes} (he : f (h.read s) = some (a, r)) :
    ∃ w', readS f h s = some (a, w') ∧ h.read w' = r ∧ Piece s w' := by
  obtain ⟨e, h1⟩ := hf _ _ _ he
  obtain ⟨a1, a2⟩ := rest_of hv h1
  refine ⟨_, ?_, a1, a2⟩
  unfold readS; rw [he]; rfl

theorem skipOptional_suffix {tag : Der.Tag} {s r : Bytes} (h : skipOptional tag s = some r) : ∃ e, s = e ++ r := by
  rw [skipOptional_iff] at h
  rcases h with ⟨rfl, -⟩ | ⟨b, e, -, rfl⟩
  · exact ⟨[], rfl⟩
  · exact ⟨e, rfl⟩

theorem parseVersion_suffix (s : Bytes) (v : Int) (r : Bytes) (h : parseVersion s = some (v, r)) : ∃ e, s = e ++ r := by
  unfold parseVersion readOptionalGoInt at h
  simp only [Option.bind_eq_bind, Option.bind_eq_some_iff, Prod.exists] at h
  obtain ⟨w, r1, h1, h⟩ := h
  rcases ite_or h with g | ⟨hw, g⟩
  · simp at g
  simp only [Option.pure_def, Option.bind_some] at g
  rcases ite_or g with g' | ⟨hw', g'⟩
  · cases g'
  simp only [Option.some.injEq, Prod.mk.injEq] at g'
  obtain ⟨rfl, rfl⟩ := g'
  cases h2 : readOptional 0xa0 s with
  | none => rw [h2] at h1; cases h1
  | some q =>
    obtain ⟨o, r2⟩ := q
    rw [h2] at h1
    obtain ⟨e, rfl, -, -⟩ := (readOptional_iff _ _ _ _).mp h2
    cases o with
    | none =>
      simp only [Option.some.injEq, Prod.mk.injEq] at h1
      obtain ⟨-, rfl⟩ := h1
      exact ⟨e, rfl⟩
    | some b =>
      simp only [] at h1
      split at h1
      · simp only [Option.some.injEq, Prod.mk.injEq] at h1
        obtain ⟨-, rfl⟩ := h1
        exact ⟨e, rfl⟩
      · cases h1

theorem readInt_suffix (s : Bytes) (v : Int) (r : Bytes) (h : Der.readInt s = some (v, r)) : ∃ e, s = e ++ r := by
  obtain ⟨e, h1, -⟩ := (readInt_iff _ _ _).mp h
  exact ⟨e, h1⟩

theorem readOID_suffix (s : Bytes) (v : Oid) (r : Bytes) (h : readOID s = some (v, r)) : ∃ e, s = e ++ r := by
  obtain ⟨e, h1, -⟩ := (readOID_iff _ _ _).mp h
  exact ⟨e, h1⟩

theorem readFlag_suffix (s : Bytes) (v : Bool) (r : Bytes) (h : readFlag s = some (v, r)) : ∃ e, s = e ++ r := by
  unfold readFlag at h
  split at h
  · unfold readBool at h
    cases h2 : Der.readASN1 0x01 s with
    | none => rw [h2] at h; cases h
    | some q =>
      obtain ⟨b, r'⟩ := q
      obtain ⟨e, h1, -⟩ := (readASN1_iff _ _ _ _).mp h2
      rw [h2] at h
      simp only [] at h
      refine ⟨e, ?_⟩
      split at h
      · simp only [Option.some.injEq, Prod.mk.injEq] at h; rw [h1, h.2]
      · split at h
        · simp only [Option.some.injEq, Prod.mk.injEq] at h; rw [h1, h.2]
        · cases h
  · simp only [Option.some.injEq, Prod.mk.injEq] at h
    exact ⟨[], h.2⟩

theorem len_of {h : Heap} {s : Slice} (hv : h.Valid s) {b : Bytes} (hb : h.read s = b) : s.len = b.length := by
  rw [← hb, read_length hv]

/-- One extension. -/
theorem extension_of {h : Heap} {s : Slice} (hv : h.Valid s) {x : Ext} {r : Bytes} (he : readExtension (h.read s) = some (x, r)) :
    ∃ e s' e1 e2 v y, readASN1S h 0x30 s = some (e, s') ∧ readS readOID h e = some (x.id, e1) ∧ readS readFlag h e1 = some (x.critical, e2) ∧
      readASN1S h 0x04 e2 = some (v, y) ∧ h.read v = x.value ∧ Piece s v ∧ h.read s' = r ∧ Piece s s' := by
  simp only [readExtension, parseExtension, Option.pure_def, Option.bind_eq_bind, Option.bind_eq_some_iff, Prod.exists, Option.some.injEq,
    Prod.mk.injEq] at he
  obtain ⟨b, r0, h1, x', ⟨o, r1, h2, cr, r2, h3, v, junk, h4, rfl⟩, rfl, rfl⟩ := he
  obtain ⟨e, s', g1, c1⟩ := readASN1S_of hv h1
  have v1 := piece_valid hv c1.piece
  rw [← c1.bytes] at h2
  obtain ⟨e1, g2, c2, p2⟩ := readS_of readOID_suffix v1 h2
  have v2 := piece_valid v1 p2
  rw [← c2] at h3
  obtain ⟨e2, g3, c3, p3⟩ := readS_of readFlag_suffix v2 h3
  have v3 := piece_valid v2 p3
  rw [← c3] at h4
  obtain ⟨w, y, g4, c4⟩ := readASN1S_of v3 h4
  exact ⟨e, s', e1, e2, w, y, g1, g2, g3, g4, c4.bytes, piece_trans c1.piece (piece_trans p2 (piece_trans p3 c4.piece)), c1.rest, c1.pieceRest⟩

theorem extRefs_of {h : Heap} (n : Nat) : ∀ {s : Slice}, h.Valid s → ∀ {l : List Ext}, readManyAux readExtension n (h.read s) = some l →
    ∃ ws, extRefsAux h n s = some ws ∧ List.Forall₂ (fun w (x : Ext) => h.read w = x.value ∧ Piece s w) ws l := by
  induction n with
  | zero =>
    intro s hv l hl
    cases hr : h.read s with
    | nil =>
      rw [hr] at hl
      simp only [readManyAux, Option.some.injEq] at hl
      subst hl
      refine ⟨[], ?_, .nil⟩
      rw [extRefsAux, if_pos (by rw [len_of hv hr]; rfl)]
    | cons b t => rw [hr] at hl; cases hl
  | succ n ih =>
    intro s hv l hl
    cases hr : h.read s with
    | nil =>
      rw [hr] at hl
      simp only [readManyAux, Option.some.injEq] at hl
      subst hl
      refine ⟨[], ?_, .nil⟩
      rw [extRefsAux, if_pos (by rw [len_of hv hr]; rfl)]
    | cons b t =>
      rw [hr, readManyAux, ← hr] at hl
      cases h1 : readExtension (h.read s) with
      | none => rw [h1] at hl; cases hl
      | some q =>
        obtain ⟨x, r⟩ := q
        rw [h1] at hl
        simp only [] at hl
        obtain ⟨e, s', e1, e2, v, y, g1, g2, g3, g4, g5, g6, g7, g8⟩ := extension_of hv h1
        cases h2 : readManyAux readExtension n r with
        | none => rw [h2] at hl; cases hl
        | some l' =>
          rw [h2] at hl
          simp only [Option.some.injEq] at hl
          subst hl
          rw [← g7] at h2
          obtain ⟨ws, k1, k2⟩ := ih (piece_valid hv g8) h2
          refine ⟨v :: ws, ?_, .cons ⟨g5, g6⟩ (k2.imp fun _ _ ⟨a, b⟩ => ⟨a, piece_trans g8 b⟩)⟩
          rw [extRefsAux, if_neg (by rw [len_of hv hr]; simp)]
          simp only [g1, g2, g3, g4, k1, Option.bind_eq_bind, Option.bind_some, Option.pure_def]

theorem processExtensions_extensions {env : Env} {c c' : Certificate} (h : processExtensions env c = some c') : c'.extensions = c.extensions := by
  have := congrArg Certificate.extensions (processLoop_core h)
  exact this

/-- What follows the key. -/
theorem tail_of {h : Heap} {s : Slice} (hv : h.Valid s) {env : Env} {c c' : Certificate} (hc : c.extensions = [])
    (he : parseTail env c (h.read s) = some c') :
    ∃ ws, tailRefs h c.version s = some ws ∧ List.Forall₂ (fun w (x : Ext) => h.read w = x.value ∧ Piece s w) ws c'.extensions := by
  unfold parseTail at he
  unfold tailRefs
  by_cases h1 : c.version > 1
  · rw [if_pos h1] at he
    rw [if_pos h1]
    simp only [Option.pure_def, Option.bind_eq_bind, Option.bind_eq_some_iff] at he
    obtain ⟨t1, k1, t2, k2, he⟩ := he
    obtain ⟨e1, j1⟩ := skipOptional_suffix k1
    obtain ⟨a1, p1⟩ := rest_of hv j1
    have v1 := piece_valid hv p1
    rw [← a1] at k2
    obtain ⟨e2, j2⟩ := skipOptional_suffix k2
    obtain ⟨a2, p2⟩ := rest_of v1 j2
    have v2 := piece_valid v1 p2
    simp only [k1, k2, Option.bind_eq_bind, Option.bind_some]
    by_cases h3 : c.version = 3
    · rw [if_pos h3] at he
      rw [if_pos h3, a2]
      simp only [Option.bind_eq_some_iff, Prod.exists] at he
      obtain ⟨o, r, k3, he⟩ := he
      unfold readOptional at k3
      by_cases hp : peek 0xa3 t2 = true
      · rw [if_pos hp] at k3
        rw [if_pos hp]
        cases h4 : Der.readASN1 0xa3 t2 with
        | none => rw [h4] at k3; cases k3
        | some q =>
          obtain ⟨b, r'⟩ := q
          rw [h4] at k3
          simp only [Option.some.injEq, Prod.mk.injEq] at k3
          obtain ⟨rfl, rfl⟩ := k3
          simp only [Option.bind_eq_some_iff, Prod.exists] at he
          obtain ⟨x', r2, k4, l, k5, he⟩ := he
          rw [← a2] at h4
          obtain ⟨w1, w1', g1, c1⟩ := readASN1S_of v2 h4
          have v3 := piece_valid v2 c1.piece
          rw [← c1.bytes] at k4
          obtain ⟨w2, w2', g2, c2⟩ := readASN1S_of v3 k4
          have v4 := piece_valid v3 c2.piece
          unfold readMany at k5
          rw [← len_of v4 c2.bytes, ← c2.bytes] at k5
          obtain ⟨ws, k6, k7⟩ := extRefs_of _ v4 k5
          refine ⟨ws, ?_, ?_⟩
          · simp only [g1, g2, Option.bind_some]; exact k6
          · rw [processExtensions_extensions he]
            simp only [hc, List.nil_append]
            exact k7.imp fun _ _ ⟨a, b⟩ => ⟨a, piece_trans p1 (piece_trans p2 (piece_trans c1.piece (piece_trans c2.piece b)))⟩
      · rw [if_neg hp] at k3
        rw [if_neg hp]
        simp only [Option.some.injEq, Prod.mk.injEq] at k3
        obtain ⟨rfl, rfl⟩ := k3
        simp only [Option.some.injEq] at he
        subst he
        exact ⟨[], rfl, by rw [hc]; exact .nil⟩
    · rw [if_neg h3] at he
      rw [if_neg h3]
      simp only [Option.some.injEq] at he
      subst he
      exact ⟨[], rfl, by rw [hc]; exact .nil⟩
  · rw [if_neg h1] at he
    rw [if_neg h1]
    simp only [Option.pure_def, Option.some.injEq] at he
    subst he
    exact ⟨[], rfl, by rw [hc]; exact .nil⟩

/-- Bits, right-aligned. -/
theorem bits_of {h : Heap} {s : Slice} (hv : h.Valid s) {v : BitString} {r : Bytes} (he : readBits (h.read s) = some (v, r)) :
    ∃ o, bitsRef h s = some o ∧ ∀ w, o = some w → h.read w = rightAlign v ∧ Piece s w := by
  have he' := he
  unfold readBits at he
  cases h2 : Der.readASN1 0x03 (h.read s) with
  | none => rw [h2] at he; cases he
  | some q =>
    obtain ⟨b, r'⟩ := q
    rw [h2] at he
    simp only [] at he
    cases h3 : decBits b with
    | none => rw [h3] at he; cases he
    | some v' =>
      rw [h3] at he
      simp only [Option.some.injEq, Prod.mk.injEq] at he
      obtain ⟨rfl, rfl⟩ := he
      obtain ⟨w, w', g1, c1⟩ := readASN1S_of hv h2
      have v1 := piece_valid hv c1.piece
      unfold bitsRef
      simp only [he', g1, Option.bind_eq_bind, Option.bind_some, Option.pure_def]
      refine ⟨_, rfl, ?_⟩
      intro x hx
      by_cases hs : v'.bitLength % 8 = 0 ∨ v'.bytes.length = 0
      · rw [if_pos hs] at hx
        obtain rfl := Option.some.inj hx
        unfold rightAlign
        rw [if_pos hs]
        cases b with
        | nil => cases h3
        | cons p t =>
          have hl := len_of v1 c1.bytes
          simp only [List.length_cons] at hl
          unfold decBits at h3
          simp only [] at h3
          rcases ite_or h3 with h4 | ⟨-, h4⟩
          · cases h4
          obtain rfl := Option.some.inj h4
          refine ⟨?_, piece_trans c1.piece (sub_piece v1 (by omega))⟩
          rw [read_sub (by omega), c1.bytes, hl]
          simp
      · rw [if_neg hs] at hx; cases hx

end MCrypto.X509
