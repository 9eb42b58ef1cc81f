import Verif.X509.ListRefs
import Verif.X509.RefsLemmas
import Verif.Asn1.Inv
/-
The slices of `X509/ListRefs` hold what the readers of encoding/asn1 return.
-/
namespace MCrypto.X509
open MCrypto Asn1 MCrypto.Go X509Spec

/-- A slice cut into an element with its contents, and the rest. -/
structure ElCut (h : Heap) (s : Slice) (full body rest : Bytes) (we wb wr : Slice) : Prop where
  element : elementS h s = some (we, wb, wr)
  full : h.read we = full
  body : h.read wb = body
  rest : h.read wr = rest
  pieceFull : Piece s we
  pieceBody : Piece we wb
  pieceRest : Piece s wr
  first : we.off = s.off
  order : we.off + we.len = wr.off
  last : wr.off + wr.len = s.off + s.len

theorem elementS_of {h : Heap} {s : Slice} (hv : h.Valid s) {t : Hdr} {r : Bytes} (hp : parseHdr (h.read s) = some (t, r))
    (hl : t.len ≤ r.length) :
    ∃ we wb wr, ElCut h s ((h.read s).take ((h.read s).length - (r.length - t.len))) (r.take t.len) (r.drop t.len) we wb wr := by
  have hlen := read_length hv
  obtain ⟨e1, -⟩ := (parseHdr_iff _ _ _).mp hp
  generalize hpre : encHdr t.cls t.compound t.tag t.len = p at e1
  have hsl : s.len = p.length + r.length := by rw [← hlen, e1, List.length_append]
  refine ⟨sub s 0 (s.len - (r.length - t.len)), sub s (s.len - r.length) t.len, restS s (r.length - t.len), ?_, ?_, ?_, ?_, ?_, ?_, ?_, rfl, ?_, ?_⟩
  · unfold elementS
    rw [hp]
    show (if r.length < t.len then none else _) = _
    rw [if_neg (by omega)]; rfl
  · rw [read_sub (by omega), List.drop_zero, hlen]
  · rw [read_sub (by omega), e1]
    have : s.len - r.length = p.length := by omega
    rw [this, List.drop_left]
  · unfold restS
    rw [read_sub (by omega), e1]
    have : s.len - (r.length - t.len) = p.length + t.len := by omega
    rw [this, ← List.drop_drop, List.drop_left, List.take_of_length_le (by simp)]
  · exact sub_piece hv (by omega)
  · refine ⟨rfl, ?_, ?_, ?_⟩ <;> dsimp only [sub]
    · omega
    · omega
    · have := hv.1; omega
  · exact sub_piece hv (by omega)
  · dsimp only [sub, restS]; omega
  · dsimp only [sub, restS]; omega

/-- A field without options. -/
theorem field_cut {α : Type} {c : Codec α} {tag : Option Nat} {h : Heap} {s : Slice} (hv : h.Valid s) {v : α} {r : Bytes}
    (hp : parseField c { tag := tag } (h.read s) = some (v, r)) :
    ∃ full body we wb wr, ElCut h s full body r we wb wr ∧ c.dec body full = some v := by
  unfold parseField at hp
  rcases ite_or hp with hp | ⟨-, hp⟩
  · cases hp
  cases hh : parseHdr (h.read s) with
  | none => rw [hh] at hp; cases hp
  | some q =>
    obtain ⟨t, r'⟩ := q
    rw [hh] at hp
    simp only [Bool.false_eq_true, if_false] at hp
    unfold parseBody at hp
    dsimp only at hp
    rcases ite_or hp with hp | ⟨-, hp⟩
    · cases hp
    rcases ite_or hp with hp | ⟨hl, hp⟩
    · cases hp
    split at hp
    · rename_i v' hd
      simp only [Option.some.injEq, Prod.mk.injEq] at hp
      obtain ⟨rfl, rfl⟩ := hp
      obtain ⟨we, wb, wr, hc⟩ := elementS_of hv hh (by omega)
      exact ⟨_, _, we, wb, wr, hc, hd⟩
    · cases hp

/-- A raw value that has to be there. -/
theorem raw_cut {h : Heap} {s : Slice} (hv : h.Valid s) {opt : Option RawValue} (hne : opt = none ∨ h.read s ≠ []) {v : RawValue} {r : Bytes}
    (hp : parseRaw { opt := opt } (h.read s) = some (v, r)) :
    ∃ we wb wr, ElCut h s v.full v.bytes r we wb wr := by
  unfold parseRaw at hp
  split at hp
  · rename_i h0
    rcases hne with rfl | hne
    · cases hp
    · exact absurd h0 hne
  cases hh : parseHdr (h.read s) with
  | none => rw [hh] at hp; cases hp
  | some q =>
    obtain ⟨t, r'⟩ := q
    rw [hh] at hp
    simp only [Bool.false_eq_true, if_false, false_and, not_true_eq_false] at hp
    rcases ite_or hp with hp | ⟨hl, hp⟩
    · cases hp
    simp only [Option.some.injEq, Prod.mk.injEq] at hp
    obtain ⟨rfl, rfl⟩ := hp
    exact elementS_of hv hh (by omega)

/-- Bits, right-aligned. -/
theorem aligned_of {h : Heap} {s : Slice} (hv : h.Valid s) {v : BitString} (hd : decBits (h.read s) = some v) :
    h.read (sub s 1 (s.len - 1)) = v.bytes ∧ Piece s (sub s 1 (s.len - 1)) ∧
    ∃ o, alignedRef h s = some o ∧ ∀ w, o = some w → h.read w = rightAlign v ∧ Piece s w := by
  have hlen := read_length hv
  have key : h.read (sub s 1 (s.len - 1)) = v.bytes ∧ Piece s (sub s 1 (s.len - 1)) := by
    cases hb : h.read s with
    | nil => rw [hb] at hd; cases hd
    | cons p t =>
      rw [hb] at hd hlen
      simp only [List.length_cons] at hlen
      unfold decBits at hd
      simp only [] at hd
      rcases ite_or hd with h4 | ⟨-, h4⟩
      · cases h4
      obtain rfl := Option.some.inj h4
      refine ⟨?_, sub_piece hv (by omega)⟩
      rw [read_sub (by omega), hb, ← hlen]
      simp
  refine ⟨key.1, key.2, _, bind_some_eq hd, ?_⟩
  intro w hw
  by_cases hs : v.bitLength % 8 = 0 ∨ v.bytes.length = 0
  · rw [if_pos hs] at hw
    obtain rfl := Option.some.inj hw
    unfold rightAlign
    rw [if_pos hs]
    exact key
  · rw [if_neg hs] at hw; cases hw
where
  bind_some_eq {h : Heap} {s : Slice} {v : BitString} (hd : decBits (h.read s) = some v) :
      alignedRef h s = some (if v.bitLength % 8 = 0 ∨ v.bytes.length = 0 then some (sub s 1 (s.len - 1)) else none) := by
    unfold alignedRef; rw [hd]; rfl

end MCrypto.X509
