import Verif.X509.TemplateMem
import Verif.Props.X509Create
/-
C131: the lists of a template are not changed, in memory, by the calls that use it.
-/
namespace MCrypto.X509
open MCrypto MCrypto.Go MCrypto.Asn1

/-- The slice lies in its array. A slice without elements need not have one. -/
def Arrays.Valid (m : Arrays α) (s : Slice) : Prop := s.len = 0 ∨ s.arr < m.length ∧ s.off + s.len ≤ (m.getD s.arr []).length

/-- Every array of `m` is in `m'` with the same elements. -/
def Arrays.Kept (m m' : Arrays α) : Prop := ∀ k, k < m.length → m'[k]? = m[k]?

/-- The attributes and the slices in them lie in memory. They may overlap. -/
def AttrMem.Valid (m : AttrMem) (attrs : List AttrRef) : Prop :=
  ∀ a ∈ attrs, m.outer.Valid a.value ∧ ∀ v ∈ m.outer.read a.value, m.inner.Valid v

theorem Arrays.Kept.refl (m : Arrays α) : m.Kept m := fun _ _ => rfl

theorem Arrays.Kept.trans {a b c : Arrays α} (h1 : a.Kept b) (hl : a.length ≤ b.length) (h2 : b.Kept c) : a.Kept c :=
  fun k hk => (h2 k (by omega)).trans (h1 k hk)

theorem Arrays.Kept.len {a b : Arrays α} (h : a.Kept b) : a.length ≤ b.length := by
  by_cases h0 : a.length = 0
  · omega
  · have := h (a.length - 1) (by omega)
    rw [List.getElem?_eq_getElem (show a.length - 1 < a.length by omega)] at this
    have := List.getElem?_eq_some_iff.mp this
    obtain ⟨h', -⟩ := this
    omega

theorem Arrays.Kept.read {m m' : Arrays α} (h : m.Kept m') {s : Slice} (hv : m.Valid s) : m'.read s = m.read s := by
  unfold Arrays.read
  rcases hv with h0 | ⟨h1, -⟩
  · rw [h0]; simp
  · rw [List.getD_eq_getElem?_getD, List.getD_eq_getElem?_getD, h _ h1]

theorem Arrays.Kept.valid {m m' : Arrays α} (h : m.Kept m') {s : Slice} (hv : m.Valid s) : m'.Valid s := by
  rcases hv with h0 | ⟨h1, h2⟩
  · exact .inl h0
  · refine .inr ⟨Nat.lt_of_lt_of_le h1 h.len, ?_⟩
    rw [List.getD_eq_getElem?_getD, h _ h1, ← List.getD_eq_getElem?_getD]; exact h2

theorem Arrays.new_kept (m : Arrays α) (l : List α) (n : Nat) : m.Kept (m.new l n).1 := fun k hk => by
  unfold Arrays.new; exact List.getElem?_append_left hk

theorem Arrays.new_read (m : Arrays α) (l : List α) (n : Nat) : (m.new l n).1.read (m.new l n).2 = l.take n := by
  unfold Arrays.new Arrays.read
  simp [List.getD_eq_getElem?_getD]

theorem Arrays.new_valid (m : Arrays α) (l : List α) (n : Nat) (h : n ≤ l.length) : (m.new l n).1.Valid (m.new l n).2 := by
  right
  unfold Arrays.new
  simp [List.getD_eq_getElem?_getD, h]

theorem Arrays.read_length {m : Arrays α} {s : Slice} (hv : m.Valid s) : (m.read s).length = s.len := by
  unfold Arrays.read
  rw [List.length_take, List.length_drop]
  rcases hv with h | ⟨-, h⟩ <;> omega

theorem AttrMem.attr_kept {m m' : AttrMem} (ho : m.outer.Kept m'.outer) (hi : m.inner.Kept m'.inner) {a : AttrRef}
    (hv : m.outer.Valid a.value ∧ ∀ v ∈ m.outer.read a.value, m.inner.Valid v) : m'.attr a = m.attr a := by
  unfold AttrMem.attr
  rw [ho.read hv.1]
  congr 1
  exact List.map_congr_left fun v hm => hi.read (hv.2 v hm)

theorem copyAttrs_spec (attrs : List AttrRef) : ∀ (m : AttrMem), m.Valid attrs →
    m.outer.Kept (copyAttrs m attrs).1.outer ∧ (copyAttrs m attrs).1.inner = m.inner ∧
    (copyAttrs m attrs).1.Valid (copyAttrs m attrs).2 ∧
    (copyAttrs m attrs).2.map (copyAttrs m attrs).1.attr = attrs.map m.attr ∧
    (∀ a ∈ (copyAttrs m attrs).2, m.outer.length ≤ a.value.arr) ∧
    ((copyAttrs m attrs).2.map (·.value.arr)).Nodup ∧ ∀ a ∈ (copyAttrs m attrs).2, a.value.off = 0 := by
  induction attrs with
  | nil => intro m _; exact ⟨.refl _, rfl, fun _ h => absurd h List.not_mem_nil, rfl, fun _ h => absurd h List.not_mem_nil, List.nodup_nil, fun _ h => absurd h List.not_mem_nil⟩
  | cons a l ih =>
    intro m hv
    have ha := hv a List.mem_cons_self
    have hlen := Arrays.read_length ha.1
    have hk := m.outer.new_kept (m.outer.read a.value) a.value.len
    have hr : (m.outer.new (m.outer.read a.value) a.value.len).1.read (m.outer.new (m.outer.read a.value) a.value.len).2 = m.outer.read a.value := by
      rw [Arrays.new_read, List.take_of_length_le (by omega)]
    have hnv := m.outer.new_valid (m.outer.read a.value) a.value.len (by omega)
    have hl1 : (m.outer.new (m.outer.read a.value) a.value.len).1.length = m.outer.length + 1 := by simp [Arrays.new]
    have ha1 : (m.outer.new (m.outer.read a.value) a.value.len).2.arr = m.outer.length := rfl
    have ho1 : (m.outer.new (m.outer.read a.value) a.value.len).2.off = 0 := rfl
    have key : copyAttrs m (a :: l) = ((copyAttrs { m with outer := (m.outer.new (m.outer.read a.value) a.value.len).1 } l).1,
      ⟨a.type, (m.outer.new (m.outer.read a.value) a.value.len).2⟩ :: (copyAttrs { m with outer := (m.outer.new (m.outer.read a.value) a.value.len).1 } l).2) := rfl
    rw [key]
    generalize m.outer.new (m.outer.read a.value) a.value.len = n at *
    obtain ⟨i1, i2, i3, i4, i5, i6, i7⟩ := ih { m with outer := n.1 } fun b hb => by
      have h := hv b (List.mem_cons_of_mem _ hb)
      exact ⟨hk.valid h.1, fun v hm => h.2 v (by rw [← hk.read h.1]; exact hm)⟩
    generalize copyAttrs { m with outer := n.1 } l = r at *
    dsimp only at *
    have hin : m.inner.Kept r.1.inner := by rw [i2]; exact .refl _
    refine ⟨hk.trans hk.len i1, i2, ?_, ?_, ?_, ?_, ?_⟩
    · intro b hb
      rcases List.mem_cons.mp hb with rfl | hb
      · refine ⟨i1.valid hnv, fun v hm => ?_⟩
        dsimp only at hm
        rw [i1.read hnv, hr] at hm
        exact hin.valid (ha.2 v hm)
      · exact i3 b hb
    · rw [List.map_cons, List.map_cons, i4]
      congr 1
      · unfold AttrMem.attr
        dsimp only
        rw [i1.read hnv, hr, i2]
      · exact List.map_congr_left fun b hb => AttrMem.attr_kept (m := m) (m' := { m with outer := n.1 }) hk (.refl _) (hv b (List.mem_cons_of_mem _ hb))
    · intro b hb
      rcases List.mem_cons.mp hb with rfl | hb
      · exact Nat.le_of_eq ha1.symm
      · have := i5 b hb; omega
    · rw [List.map_cons, List.nodup_cons]
      refine ⟨fun hm => ?_, i6⟩
      obtain ⟨b, hb, he⟩ := List.mem_map.mp hm
      have := i5 b hb
      dsimp only at he
      omega
    · intro b hb
      rcases List.mem_cons.mp hb with rfl | hb
      · exact ho1
      · exact i7 b hb

theorem set_kept (m : Arrays α) (s : Slice) (i : Nat) (x : α) (n : Nat) (h : n ≤ s.arr) (k : Nat) (hk : k < n) : (m.set s i x)[k]? = m[k]? := by
  unfold Arrays.set
  have : ¬ s.arr = k := by omega
  rw [List.getElem?_modify]; simp [this]

theorem set_read_other (m : Arrays α) (s u : Slice) (i : Nat) (x : α) (h : u.arr ≠ s.arr) : (m.set s i x).read u = m.read u := by
  unfold Arrays.read Arrays.set
  have : ¬ s.arr = u.arr := fun h' => h h'.symm
  rw [List.getD_eq_getElem?_getD, List.getElem?_modify, List.getD_eq_getElem?_getD]; simp [this]

theorem set_read_same (m : Arrays α) (s : Slice) (i : Nat) (x : α) (h : s.arr < m.length) (hi : i < s.len) :
    (m.set s i x).read s = (m.read s).set i x := by
  unfold Arrays.read Arrays.set
  rw [List.getD_eq_getElem?_getD, List.getElem?_modify, List.getD_eq_getElem?_getD, List.getElem?_eq_getElem h]
  simp only [Option.map_eq_map, Option.map_some, Option.getD_some, if_true]
  rw [List.drop_set, if_neg (by omega), List.take_set, Nat.add_sub_cancel_left]

theorem mergeAttrs_spec (zero : AtvAny) (exts : List Ext) (m : AttrMem) (n : Nat) (attrs : List AttrRef) (hv : m.Valid attrs)
    (hn : ∀ a ∈ attrs, n ≤ a.value.arr) (hd : (attrs.map (·.value.arr)).Nodup) :
    (attrs.map (mergeAttrs zero exts m attrs).1.attr, (mergeAttrs zero exts m attrs).2) = appendExtensions exts (attrs.map m.attr) ∧
    (∀ k, k < n → (mergeAttrs zero exts m attrs).1.outer[k]? = m.outer[k]?) ∧ m.inner.Kept (mergeAttrs zero exts m attrs).1.inner ∧
    (∀ u : Slice, u.arr ∉ attrs.map (·.value.arr) → (mergeAttrs zero exts m attrs).1.outer.read u = m.outer.read u) := by
  induction attrs with
  | nil => exact ⟨rfl, fun _ _ => rfl, .refl _, fun _ _ => rfl⟩
  | cons a l ih =>
    rw [List.map_cons, List.nodup_cons] at hd
    have hl : m.Valid l := fun b hb => hv b (List.mem_cons_of_mem _ hb)
    have ha := hv a List.mem_cons_self
    obtain ⟨i1, i2, i3, i4⟩ := ih hl (fun b hb => hn b (List.mem_cons_of_mem _ hb)) hd.2
    have hlen : (m.attr a).value.length = a.value.len := by
      unfold AttrMem.attr; rw [List.length_map, Arrays.read_length ha.1]
    unfold mergeAttrs
    rw [List.map_cons, List.map_cons, appendExtensions, hlen, show (m.attr a).type = a.type from rfl]
    split
    · have e1 : (mergeAttrs zero exts m l).1.attr a = m.attr a := by
        unfold AttrMem.attr
        rw [i4 _ hd.1]
        congr 1
        exact List.map_congr_left fun v hm => i3.read (ha.2 v hm)
      refine ⟨?_, i2, i3, fun u hu => i4 u fun h => hu (List.mem_cons_of_mem _ h)⟩
      rw [e1, ← i1]
    · rename_i hc
      push Not at hc
      dsimp only
      cases hr : m.outer.read a.value with
      | nil =>
        have := Arrays.read_length ha.1
        rw [hr] at this
        exact absurd this.symm hc.2
      | cons v vs =>
        have hlt : a.value.arr < m.outer.length := by
          rcases ha.1 with h | ⟨h, -⟩
          · exact absurd h hc.2
          · exact h
        have hvv := ha.2
        rw [hr] at hvv
        unfold mergeAttr addToAttr
        rw [hr]
        dsimp only
        rw [show (m.attr a).value = (v :: vs).map m.inner.read by unfold AttrMem.attr; rw [hr]]
        generalize hnew : ((exts.filter fun e => !(((v :: vs).map m.inner.read).flatten.map (·.type)).contains e.id).map fun e => (⟨e.id, .octets e.value⟩ : AtvAny)) = new
        have hk := m.inner.new_kept (m.inner.read v ++ new ++ List.replicate (exts.length - new.length) zero) ((m.inner.read v).length + new.length)
        have hread := m.inner.new_read (m.inner.read v ++ new ++ List.replicate (exts.length - new.length) zero) ((m.inner.read v).length + new.length)
        rw [List.take_append_of_le_length (by rw [List.length_append]), List.take_of_length_le (by rw [List.length_append])] at hread
        generalize m.inner.new (m.inner.read v ++ new ++ List.replicate (exts.length - new.length) zero) ((m.inner.read v).length + new.length) = nv at *
        refine ⟨?_, fun k hk' => set_kept _ _ _ _ _ (hn a List.mem_cons_self) k hk', hk, fun u hu => ?_⟩
        · congr 1
          congr 1
          · unfold AttrMem.attr
            dsimp only
            rw [set_read_same _ _ _ _ hlt (by omega), hr, List.set_cons_zero, List.map_cons, hread, List.map_cons]
            congr 2
            exact List.map_congr_left fun w hm => hk.read (hvv w (List.mem_cons_of_mem _ hm))
          · refine List.map_congr_left fun b hb => ?_
            unfold AttrMem.attr
            dsimp only
            rw [set_read_other _ _ _ _ _ (fun he => hd.1 (List.mem_map.mpr ⟨b, hb, he⟩))]
            congr 1
            exact List.map_congr_left fun w hm => hk.read ((hl b hb).2 w hm)
        · exact set_read_other _ _ _ _ _ fun he => hu (he ▸ List.mem_cons_self)

theorem csrAttributesM_spec (zero : AtvAny) (m : AttrMem) (attrs : List AttrRef) (exts : List Ext) (hv : m.Valid attrs) :
    (csrAttributesM zero m attrs exts).2 = csrAttributes (attrs.map m.attr) exts ∧
    m.outer.Kept (csrAttributesM zero m attrs exts).1.outer ∧ m.inner.Kept (csrAttributesM zero m attrs exts).1.inner := by
  obtain ⟨c1, c2, c3, c4, c5, c6, -⟩ := copyAttrs_spec attrs m hv
  obtain ⟨m1, m2, m3, -⟩ := mergeAttrs_spec zero exts (copyAttrs m attrs).1 m.outer.length (copyAttrs m attrs).2 c3 c5 c6
  rw [c4] at m1
  rw [c2] at m3
  unfold csrAttributesM csrAttributes
  dsimp only
  have hrest : (if exts.length > 0 then appendExtensions exts (attrs.map m.attr) else (attrs.map m.attr, false)) =
      ((copyAttrs m attrs).2.map (if exts.length > 0 then mergeAttrs zero exts (copyAttrs m attrs).1 (copyAttrs m attrs).2 else ((copyAttrs m attrs).1, false)).1.attr,
        (if exts.length > 0 then mergeAttrs zero exts (copyAttrs m attrs).1 (copyAttrs m attrs).2 else ((copyAttrs m attrs).1, false)).2) := by
    split
    · exact m1.symm
    · rw [c4]
  have hkeep : m.outer.Kept (if exts.length > 0 then mergeAttrs zero exts (copyAttrs m attrs).1 (copyAttrs m attrs).2 else ((copyAttrs m attrs).1, false)).1.outer ∧
      m.inner.Kept (if exts.length > 0 then mergeAttrs zero exts (copyAttrs m attrs).1 (copyAttrs m attrs).2 else ((copyAttrs m attrs).1, false)).1.inner := by
    split
    · exact ⟨fun k hk => (m2 k hk).trans (c1 k hk), m3⟩
    · exact ⟨c1, by rw [c2]; exact .refl _⟩
  rw [hrest]
  generalize (if exts.length > 0 then mergeAttrs zero exts (copyAttrs m attrs).1 (copyAttrs m attrs).2 else ((copyAttrs m attrs).1, false)) = r at *
  dsimp only
  cases newRawAttributes (List.map r.1.attr (copyAttrs m attrs).2) with
  | none => exact ⟨rfl, hkeep⟩
  | some raws =>
    dsimp only
    split
    · exact ⟨rfl, hkeep⟩
    · exact ⟨rfl, hkeep⟩

theorem utcLoop_spec (src dst : Slice) (n : Nat) (hd : n ≤ dst.arr) : ∀ (k i : Nat) (m : Arrays Revoked),
    dst.arr < m.length → src.arr ≠ dst.arr ∨ src.len = 0 → i + k ≤ dst.len → (m.read dst).length = dst.len → i + k = (m.read src).length →
    (∀ j, j < n → (utcLoop src dst m i k).1[j]? = m[j]?) ∧
    (utcLoop src dst m i k).1.length = m.length ∧
    (if (utcLoop src dst m i k).2 then some ((utcLoop src dst m i k).1.read dst) else none) =
      (revokedUTC ((m.read src).drop i)).map fun l => (m.read dst).take i ++ l ++ (m.read dst).drop (i + k) := by
  intro k
  induction k with
  | zero =>
    intro i m h1 h2 h3 h4 h5
    refine ⟨fun _ _ => rfl, rfl, ?_⟩
    have hz : (m.read src).drop i = [] := List.drop_of_length_le (by omega)
    rw [hz]
    simp [utcLoop, revokedUTC]
  | succ k ih =>
    intro i m h1 h2 h3 h4 h5
    have hi : i < (m.read src).length := by omega
    have hg := List.getElem?_eq_getElem hi
    have hdrop : (m.read src).drop i = (m.read src)[i] :: (m.read src).drop (i + 1) := List.drop_eq_getElem_cons hi
    generalize (m.read src)[i] = r0 at *
    rw [hdrop, revokedUTC]
    cases hu : r0.revocationTime.utc with
    | none =>
      have e : utcLoop src dst m i (k + 1) = (m, false) := by rw [utcLoop, hg]; dsimp only; rw [hu]
      rw [e]
      exact ⟨fun _ _ => rfl, rfl, by simp⟩
    | some t =>
      have e : utcLoop src dst m i (k + 1) = utcLoop src dst (m.set dst i { r0 with revocationTime := t }) (i + 1) k := by
        rw [utcLoop, hg]; dsimp only; rw [hu]
      rw [e]
      generalize hr : ({ r0 with revocationTime := t } : Revoked) = r
      have hs : (m.set dst i r).read src = m.read src := by
        rcases h2 with h2 | h2
        · exact set_read_other _ _ _ _ _ h2
        · unfold Arrays.read; rw [h2]; simp
      have hds := set_read_same m dst i r h1 (by omega)
      have hlen : (m.set dst i r).length = m.length := by simp [Arrays.set]
      obtain ⟨j1, j2, j3⟩ := ih (i + 1) (m.set dst i r) (by omega) h2 (by omega) (by rw [hds, List.length_set]; exact h4) (by rw [hs]; omega)
      refine ⟨fun j hj => (j1 j hj).trans (set_kept _ _ _ _ _ hd j hj), j2.trans hlen, ?_⟩
      rw [j3, hs, hds]
      cases revokedUTC ((m.read src).drop (i + 1)) with
      | none => rfl
      | some l =>
        simp only [Option.map_some, Option.bind_eq_bind, Option.bind_some, Option.pure_def, hr]
        congr 1
        rw [show i + (k + 1) = i + 1 + k by omega, List.drop_set, if_pos (by omega),
          List.take_add_one, List.take_set, List.set_eq_of_length_le (by rw [List.length_take]; omega), List.getElem?_set, if_pos rfl, if_pos (by omega)]
        simp

theorem revokedUTCM_spec (zero : Revoked) (m : Arrays Revoked) (src : Slice) (hv : m.Valid src) :
    (revokedUTCM zero m src).2.map (revokedUTCM zero m src).1.read = revokedUTC (m.read src) ∧ m.Kept (revokedUTCM zero m src).1 := by
  have hk := m.new_kept (List.replicate src.len zero) src.len
  have hr := m.new_read (List.replicate src.len zero) src.len
  rw [List.take_of_length_le (by simp)] at hr
  have hs := hk.read hv
  have hl := Arrays.read_length hv
  obtain ⟨u1, u2, u3⟩ := utcLoop_spec src (m.new (List.replicate src.len zero) src.len).2 m.length (Nat.le_refl _) src.len 0
    (m.new (List.replicate src.len zero) src.len).1 (by simp [Arrays.new])
    (by rcases hv with h | ⟨h, -⟩
        · exact .inr h
        · left; show src.arr ≠ m.length; omega)
    (by show 0 + src.len ≤ src.len; omega) (by rw [hr]; simp [Arrays.new]) (by rw [hs, hl]; omega)
  rw [hs, hr] at u3
  unfold revokedUTCM
  dsimp only
  refine ⟨?_, fun k hk' => (u1 k hk').trans (hk k hk')⟩
  have h0 : revokedUTC (m.read src) = Option.map (fun l => List.take 0 (List.replicate src.len zero) ++ l ++ List.drop (0 + src.len) (List.replicate src.len zero))
    (revokedUTC (List.drop 0 (m.read src))) := by rw [List.drop_zero]; cases revokedUTC (m.read src) <;> simp
  rw [h0, ← u3]
  split <;> rfl

end MCrypto.X509

namespace MCrypto.Props
open MCrypto MCrypto.Go MCrypto.Asn1 MCrypto.X509

/-- `CreateCertificateRequest` in memory: whatever slices the template's attributes have, overlapping or not, the result is the
one for their values at the time of the call, and no array that existed before the call is changed. -/
theorem C131_request (reg : Registry) (zero : AtvAny) (m : AttrMem) (t : CertificateRequest) (attrs : List AttrRef)
    (priv : Option Signer) (hv : m.Valid attrs) :
    (CreateCertificateRequestM reg zero m t attrs priv).2 = CreateCertificateRequest reg { t with attributes := attrs.map m.attr } priv ∧
    m.outer.Kept (CreateCertificateRequestM reg zero m t attrs priv).1.outer ∧
    m.inner.Kept (CreateCertificateRequestM reg zero m t attrs priv).1.inner := by
  cases priv with
  | none => exact ⟨rfl, .refl _, .refl _⟩
  | some key =>
    have he : buildCSRExtensions { t with attributes := attrs.map m.attr } = buildCSRExtensions t := rfl
    have hsub : csrSubject { t with attributes := attrs.map m.attr } = csrSubject t := rfl
    unfold CreateCertificateRequestM CreateCertificateRequest
    dsimp only
    rw [he, hsub]
    cases signingParamsForPublicKey key.pub t.signatureAlgorithm with
    | err e => exact ⟨rfl, .refl _, .refl _⟩
    | panic => exact ⟨rfl, .refl _, .refl _⟩
    | ok p =>
      obtain ⟨hf, sa⟩ := p
      simp only [Res.bind_ok]
      cases marshalPublicKey key.pub with
      | err e => exact ⟨rfl, .refl _, .refl _⟩
      | panic => exact ⟨rfl, .refl _, .refl _⟩
      | ok q =>
        obtain ⟨pk, pa⟩ := q
        simp only [Res.bind_ok]
        cases buildCSRExtensions t with
        | none => exact ⟨rfl, .refl _, .refl _⟩
        | some exts =>
          simp only [Res.ofOption, Res.bind_ok, Res.pure_eq]
          obtain ⟨c1, c2, c3⟩ := csrAttributesM_spec zero m attrs exts hv
          rw [c1]
          exact ⟨rfl, c2, c3⟩

/-- So a template can be used again: every slice of the caller has the contents it had, and the next call gives what the first
one would give. -/
theorem C131_request_again (reg reg' : Registry) (zero : AtvAny) (m : AttrMem) (t t' : CertificateRequest) (attrs attrs' : List AttrRef)
    (priv priv' : Option Signer) (hv : m.Valid attrs) (hv' : m.Valid attrs') :
    (CreateCertificateRequestM reg' zero (CreateCertificateRequestM reg zero m t attrs priv).1 t' attrs' priv').2 =
      (CreateCertificateRequestM reg' zero m t' attrs' priv').2 := by
  obtain ⟨-, ko, ki⟩ := C131_request reg zero m t attrs priv hv
  generalize (CreateCertificateRequestM reg zero m t attrs priv).1 = m1 at *
  have hv1 : m1.Valid attrs' := fun a ha => by
    obtain ⟨h1, h2⟩ := hv' a ha
    exact ⟨ko.valid h1, fun v hm => ki.valid (h2 v (by rw [← ko.read h1]; exact hm))⟩
  rw [(C131_request reg' zero m1 t' attrs' priv' hv1).1, (C131_request reg' zero m t' attrs' priv' hv').1]
  congr 2
  exact List.map_congr_left fun a ha => AttrMem.attr_kept ko ki (hv' a ha)

/-- `CreateCRL` in memory: the list of entries is read, not written. -/
theorem C131_crl (E : SignEnv) (zero : Revoked) (m : Arrays Revoked) (c : Certificate) (priv : Option Signer) (revoked : Slice)
    (now expiry : Time) (hv : m.Valid revoked) :
    (c.createCRLM E zero m priv revoked now expiry).2 = c.createCRL E priv (m.read revoked) now expiry ∧
    m.Kept (c.createCRLM E zero m priv revoked now expiry).1 := by
  cases priv with
  | none => exact ⟨rfl, .refl _⟩
  | some key =>
    unfold Certificate.createCRLM Certificate.createCRL crlFor
    dsimp only
    cases signingParamsForPublicKey key.pub 0 with
    | err e => exact ⟨rfl, .refl _⟩
    | panic => exact ⟨rfl, .refl _⟩
    | ok p =>
      obtain ⟨hf, sa⟩ := p
      dsimp only
      obtain ⟨r1, r2⟩ := revokedUTCM_spec zero m revoked hv
      refine ⟨?_, r2⟩
      rw [r1]
      cases revokedUTC (m.read revoked) with
      | none => rfl
      | some rs => rfl

/-- `CreateRevocationList` in memory. -/
theorem C131_revocationList (E : SignEnv) (zero : Revoked) (m : Arrays Revoked) (t : RevocationList) (revoked : Slice)
    (issuer : Certificate) (priv : Signer) (hv : m.Valid revoked) :
    (CreateRevocationListM E zero m t revoked issuer priv).2 =
      CreateRevocationList E (some { t with revokedCertificates := m.read revoked }) (some issuer) priv ∧
    m.Kept (CreateRevocationListM E zero m t revoked issuer priv).1 := by
  unfold CreateRevocationListM CreateRevocationList revocationListFor
  dsimp only
  split
  · exact ⟨rfl, .refl _⟩
  split
  · exact ⟨rfl, .refl _⟩
  split
  · exact ⟨rfl, .refl _⟩
  split
  · exact ⟨rfl, .refl _⟩
  cases signingParamsForPublicKey priv.pub t.signatureAlgorithm with
  | err e => exact ⟨rfl, .refl _⟩
  | panic => exact ⟨rfl, .refl _⟩
  | ok p =>
    obtain ⟨hf, sa⟩ := p
    dsimp only
    obtain ⟨r1, r2⟩ := revokedUTCM_spec zero m revoked hv
    refine ⟨?_, r2⟩
    rw [r1]
    cases revokedUTC (m.read revoked) with
    | none => rfl
    | some rs => rfl

/-! Two attributes that share their values, the first for extensions; the extension of the template is added to the first only,
in new arrays. Without the copies the second would have it too. -/

def exAttrMem : AttrMem := ⟨[[⟨0, 0, 1, 1⟩]], [[⟨[2, 5, 29, 15], .octets [3, 2, 5, 160]⟩]]⟩
def exAttrRefs : List AttrRef := [⟨oidExtensionRequest, ⟨0, 0, 1, 1⟩⟩, ⟨[1, 2, 3], ⟨0, 0, 1, 1⟩⟩]

theorem exAttrRefs_valid : exAttrMem.Valid exAttrRefs := by
  intro a ha
  have h : a.value = ⟨0, 0, 1, 1⟩ := by
    simp only [exAttrRefs, List.mem_cons, List.not_mem_nil, or_false] at ha
    rcases ha with rfl | rfl <;> rfl
  rw [h]
  refine ⟨.inr (by decide), fun v hv => ?_⟩
  have : v = ⟨0, 0, 1, 1⟩ := by simpa [exAttrMem, Arrays.read] using hv
  subst this
  exact .inr (by decide)

theorem C131_example :
    (mergeAttrs ⟨[], .str []⟩ [⟨[2, 5, 29, 17], false, [48, 0]⟩] (copyAttrs exAttrMem exAttrRefs).1 (copyAttrs exAttrMem exAttrRefs).2).1 =
      ⟨[[⟨0, 0, 1, 1⟩], [⟨1, 0, 2, 2⟩], [⟨0, 0, 1, 1⟩]],
       [[⟨[2, 5, 29, 15], .octets [3, 2, 5, 160]⟩], [⟨[2, 5, 29, 15], .octets [3, 2, 5, 160]⟩, ⟨[2, 5, 29, 17], .octets [48, 0]⟩]]⟩ ∧
    (copyAttrs exAttrMem exAttrRefs).2 = [⟨oidExtensionRequest, ⟨1, 0, 1, 1⟩⟩, ⟨[1, 2, 3], ⟨2, 0, 1, 1⟩⟩] := by decide +kernel

/-- An entry with a time of another zone: the caller's array keeps it, the new one has it in UTC. -/
theorem C131_crl_example : revokedUTCM ⟨none, ⟨1, 1, 1, 0, 0, 0, 0⟩, none⟩
    [[⟨some 9, ⟨2019, 12, 31, 23, 0, 0, 60⟩, none⟩, ⟨some 10, ⟨2019, 12, 31, 23, 0, 0, 0⟩, none⟩]] ⟨0, 0, 2, 2⟩ =
    ([[⟨some 9, ⟨2019, 12, 31, 23, 0, 0, 60⟩, none⟩, ⟨some 10, ⟨2019, 12, 31, 23, 0, 0, 0⟩, none⟩],
      [⟨some 9, ⟨2019, 12, 31, 22, 0, 0, 0⟩, none⟩, ⟨some 10, ⟨2019, 12, 31, 23, 0, 0, 0⟩, none⟩]], some ⟨1, 0, 2, 2⟩) := by decide +kernel

end MCrypto.Props
