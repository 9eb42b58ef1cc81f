import Verif.X509.NameSpec
import Mathlib.Data.List.Forall2
import Mathlib.Data.List.Flatten
/-
Names written and read.
-/
namespace MCrypto.X509
open MCrypto MCrypto.Asn1 MCrypto.X509Spec

theorem toRDNSequence_eq (n : Name) : n.toRDNSequence = nameRdns n := by
  have step : ∀ (ret : List (List AtvAny)) (vs : List Bytes) (o : Oid), n.appendRDNs ret vs o = ret ++
      (([(o, vs)].filter fun f : Oid × List Bytes => decide (f.2 ≠ [] ∧ ∀ a ∈ n.extraNames, a.type ≠ f.1)).map
      (fun f => f.2.map fun v => (⟨f.1, .str v⟩ : AtvAny))) := by
    intro ret vs o
    unfold Name.appendRDNs
    by_cases h1 : vs = []
    · simp [h1]
    by_cases h2 : ∃ a ∈ n.extraNames, a.type = o
    · rw [if_pos (by simpa [List.any_eq_true, h1] using h2), List.filter_cons_of_neg]
      · simp
      · obtain ⟨a, ha, h⟩ := h2
        simp only [decide_eq_true_eq, not_and_or, not_forall]
        exact .inr ⟨a, ha, fun hn => hn h⟩
    · rw [if_neg (by simpa [List.any_eq_true, h1] using h2), List.filter_cons_of_pos]
      · simp
      · simp only [decide_eq_true_eq]
        exact ⟨h1, fun a ha h => h2 ⟨a, ha, h⟩⟩
  have single : ∀ (ret : List (List AtvAny)) (v : Bytes) (o : Oid),
      (if v.length > 0 then n.appendRDNs ret [v] o else ret) = n.appendRDNs ret (if v = [] then [] else [v]) o := by
    intro ret v o
    by_cases hv : v = []
    · simp [hv, Name.appendRDNs]
    · rw [if_pos (List.length_pos_iff.mpr hv), if_neg hv]
  unfold Name.toRDNSequence nameRdns fieldTable
  simp only [single]
  simp only [step]
  congr 1
  simp only [List.nil_append, ← List.map_append, ← List.filter_append, List.cons_append]
  rfl

theorem stringsOf_append (o : Oid) (l m : List AtvAny) : stringsOf o (l ++ m) = stringsOf o l ++ stringsOf o m := by
  induction l with
  | nil => rfl
  | cons a l ih =>
    obtain ⟨t, v⟩ := a
    cases v <;> simp only [List.cons_append, stringsOf, ih]
    split <;> rfl

theorem stringsOf_perm (o : Oid) {l m : List AtvAny} (h : l.Perm m) : (stringsOf o l).Perm (stringsOf o m) := by
  induction h with
  | nil => exact .refl _
  | cons a _ ih =>
    obtain ⟨t, v⟩ := a
    cases v <;> simp only [stringsOf] <;> try exact ih
    split
    · exact ih.cons _
    · exact ih
  | swap a b l =>
    obtain ⟨t, v⟩ := a
    obtain ⟨u, w⟩ := b
    cases v <;> cases w <;> simp only [stringsOf] <;> try exact .refl _
    split <;> split <;> first | exact .swap _ _ _ | exact .refl _
  | trans _ _ h1 h2 => exact h1.trans h2

theorem lastOf_append_one (l : List Bytes) (v : Bytes) : lastOf (l ++ [v]) = v := by simp [lastOf]

theorem fillAtv_fields {l : List AtvAny} {n : Name} (h : NameFields l n) (a : AtvAny) : NameFields (l ++ [a]) (n.fillAtv a) := by
  obtain ⟨h1, h2, h3, h4, h5, h6, h7, h8, h9, h10, h11⟩ := h
  obtain ⟨t, v⟩ := a
  have hne : ∀ o, (∀ s, v ≠ .str s) → stringsOf o (l ++ [⟨t, v⟩]) = stringsOf o l := by
    intro o hv
    rw [stringsOf_append]
    cases v <;> simp only [stringsOf, List.append_nil]
    rename_i s; exact absurd rfl (hv s)
  by_cases hs : ∃ s, v = .str s
  · obtain ⟨s, rfl⟩ := hs
    have hst : ∀ o, stringsOf o (l ++ [⟨t, .str s⟩]) = stringsOf o l ++ if t = o then [s] else [] := by
      intro o; rw [stringsOf_append]; simp [stringsOf]
    unfold Name.fillAtv
    simp only []
    repeat' split
    all_goals
      try rename_i ht
      constructor <;> simp only [h1, h2, h3, h4, h5, h6, h7, h8, h9, h10, h11] <;> rw [hst] <;>
      first
      | (rw [if_pos (by exact ht)]; done)
      | (rw [if_pos (by exact ht), lastOf_append_one])
      | (rw [if_neg (by first | (rw [ht]; decide) | assumption), List.append_nil])
  · have hv : ∀ s, v ≠ .str s := fun s h => hs ⟨s, h⟩
    have hf : Name.fillAtv n ⟨t, v⟩ = { n with names := n.names ++ [⟨t, v⟩] } := by
      cases v <;> first | rfl | exact absurd rfl (hv _)
    rw [hf]
    constructor <;> simp only [h1, h2, h3, h4, h5, h6, h7, h8, h9, h10, h11, hne _ hv]

theorem fromRDNSequence_fields (rdns : List (List AtvAny)) : NameFields rdns.flatten (Name.fromRDNSequence rdns) := by
  have inner : ∀ (s l : List AtvAny) (n : Name), NameFields l n → NameFields (l ++ s) (s.foldl Name.fillAtv n) := by
    intro s
    induction s with
    | nil => intro l n h; rw [List.append_nil]; exact h
    | cons a s ih =>
      intro l n h
      have := ih _ _ (fillAtv_fields h a)
      rwa [List.append_assoc] at this
  have outer : ∀ (r : List (List AtvAny)) (l : List AtvAny) (n : Name), NameFields l n →
      NameFields (l ++ r.flatten) (r.foldl (fun n rdn => rdn.foldl Name.fillAtv n) n) := by
    intro r
    induction r with
    | nil => intro l n h; rw [List.flatten_nil, List.append_nil]; exact h
    | cons s r ih =>
      intro l n h
      have := ih _ _ (inner s l n h)
      rwa [List.append_assoc] at this
  exact outer rdns [] {} (by constructor <;> rfl)

theorem nameFields_unique {l : List AtvAny} {n m : Name} (h : NameFields l n) (h' : NameFields l m) : n = m := by
  obtain ⟨h1, h2, h3, h4, h5, h6, h7, h8, h9, h10, h11⟩ := h
  obtain ⟨g1, g2, g3, g4, g5, g6, g7, g8, g9, g10, g11⟩ := h'
  cases n; cases m
  simp only at *
  simp only [*]

/-- The values of one type among the fields. -/
theorem stringsOf_fields (o : Oid) (p : Oid × List Bytes → Bool) (t : List (Oid × List Bytes)) :
    stringsOf o ((t.filter p).map fun f => f.2.map fun v => (⟨f.1, .str v⟩ : AtvAny)).flatten =
      (t.filter fun f => p f && decide (f.1 = o)).flatMap (·.2) := by
  have one : ∀ (u : Oid) (vs : List Bytes), stringsOf o (vs.map fun v => (⟨u, .str v⟩ : AtvAny)) = if u = o then vs else [] := by
    intro u vs
    induction vs with
    | nil => simp [stringsOf]
    | cons v vs ih =>
      simp only [List.map_cons, stringsOf, ih]
      split <;> rfl
  induction t with
  | nil => rfl
  | cons f t ih =>
    by_cases hp : p f
    · rw [List.filter_cons_of_pos hp, List.map_cons, List.flatten_cons, stringsOf_append, ih, one]
      by_cases ho : f.1 = o
      · rw [if_pos ho, List.filter_cons_of_pos (by simp [hp, ho]), List.flatMap_cons]
      · rw [if_neg ho, List.filter_cons_of_neg (by simp [ho])]; rfl
    · rw [List.filter_cons_of_neg hp, ih, List.filter_cons_of_neg (by simp [hp])]

theorem flatten_single {α : Type} (l : List α) : (l.map fun a => [a]).flatten = l := by
  induction l with
  | nil => rfl
  | cons a l ih => rw [List.map_cons, List.flatten_cons, ih]; rfl

theorem forall₂_perm_flatten {α : Type} {l m : List (List α)} (h : List.Forall₂ List.Perm l m) :
    l.flatten.Perm m.flatten := by
  induction h with
  | nil => exact .refl _
  | cons h _ ih => exact h.append ih

/-- What is written for the field of type `o`. -/
theorem stringsOf_nameRdns (n : Name) (o : Oid) (vs : List Bytes) (h : (fieldTable n).filter (fun f => decide (f.1 = o)) = [(o, vs)]) :
    stringsOf o (nameRdns n).flatten = writtenValues n o vs := by
  unfold nameRdns writtenValues
  rw [List.flatten_append, stringsOf_append, flatten_single, stringsOf_fields]
  congr 1
  rw [← List.filter_filter]
  · have : (fieldTable n).filter (fun f => decide (f.2 ≠ [] ∧ ∀ a ∈ n.extraNames, a.type ≠ f.1) && decide (f.1 = o)) =
      ((fieldTable n).filter (fun f => decide (f.1 = o))).filter (fun f => decide (f.2 ≠ [] ∧ ∀ a ∈ n.extraNames, a.type ≠ f.1)) := by
      rw [List.filter_filter]
    rw [← List.filter_filter] at this
    rw [this, h]
    by_cases hx : ∃ a ∈ n.extraNames, a.type = o
    · rw [if_pos hx, List.filter_cons_of_neg]
      · rfl
      · obtain ⟨a, ha, hao⟩ := hx
        simp only [decide_eq_true_eq, not_and_or, not_forall]
        exact .inr ⟨a, ha, fun hn => hn hao⟩
    · rw [if_neg hx]
      by_cases hv : vs = []
      · subst hv
        rw [List.filter_cons_of_neg (by simp)]; rfl
      · rw [List.filter_cons_of_pos]
        · simp
        · simp only [decide_eq_true_eq]
          exact ⟨hv, fun a ha h => hx ⟨a, ha, h⟩⟩

theorem lastOf_written (n : Name) (o : Oid) (v : Bytes) :
    lastOf (writtenValues n o (if v = [] then [] else [v])) = lastOf (writtenValues n o [v]) := by
  by_cases hv : v = []
  · subst hv
    rw [if_pos rfl]
    unfold writtenValues
    by_cases hx : ∃ a ∈ n.extraNames, a.type = o
    · rw [if_pos hx, if_pos hx]
    · rw [if_neg hx, if_neg hx]
      unfold lastOf
      rw [List.nil_append]
      cases hs : stringsOf o n.extraNames with
      | nil => rfl
      | cons a l => simp [List.getLast?_cons]
  · rw [if_neg hv]

theorem stringsOf_singles (o : Oid) {l m : List (List AtvAny)} (h : List.Forall₂ List.Perm l m)
    (hm : ∀ s ∈ m, (stringsOf o s).length ≤ 1) : stringsOf o l.flatten = stringsOf o m.flatten := by
  induction h with
  | nil => rfl
  | cons h _ ih =>
    rename_i a b l l' _
    rw [List.flatten_cons, List.flatten_cons, stringsOf_append, stringsOf_append, ih fun s hs => hm s (by simp [hs])]
    congr 1
    have hp := stringsOf_perm o h
    have hb := hm b (by simp)
    match hs : stringsOf o b with
    | [] => rw [hs] at hp; exact hp.eq_nil
    | [v] => rw [hs] at hp; exact List.perm_singleton.mp hp
    | _ :: _ :: _ => rw [hs] at hb; simp at hb

theorem nameRdns_single (n : Name) (o : Oid) (ho : o = atCommonName ∨ o = atSerialNumber) :
    ∀ s ∈ nameRdns n, (stringsOf o s).length ≤ 1 := by
  have one : ∀ (u : Oid) (vs : List Bytes), stringsOf o (vs.map fun v => (⟨u, .str v⟩ : AtvAny)) = if u = o then vs else [] := by
    intro u vs
    induction vs with
    | nil => simp [stringsOf]
    | cons v vs ih =>
      simp only [List.map_cons, stringsOf, ih]
      split <;> rfl
  intro s hs
  unfold nameRdns at hs
  rcases List.mem_append.mp hs with hs | hs
  · obtain ⟨f, hf, rfl⟩ := List.mem_map.mp hs
    rw [one]
    have hf := (List.mem_filter.mp hf).1
    split
    · rename_i hfo
      have key : ∀ v : Bytes, (if v = [] then [] else [v] : List Bytes).length ≤ 1 := fun v => by split <;> simp
      unfold fieldTable at hf
      simp only [List.mem_cons, List.not_mem_nil, or_false] at hf
      rcases ho with rfl | rfl <;>
        (rcases hf with rfl | rfl | rfl | rfl | rfl | rfl | rfl | rfl | rfl <;>
          first | (dsimp only at hfo; exact absurd hfo (by decide)) | exact key _)
    · simp
  · obtain ⟨a, -, rfl⟩ := List.mem_map.mp hs
    obtain ⟨t, v⟩ := a
    cases v <;> simp [stringsOf]
    split <;> simp

/-- A name written and read. -/
theorem keepsName {n got : Name} {rdns : List (List AtvAny)} (h : List.Forall₂ List.Perm rdns (nameRdns n))
    (hg : NameFields rdns.flatten got) : KeepsName n got := by
  have hp := forall₂_perm_flatten h
  obtain ⟨h1, h2, h3, h4, h5, h6, h7, h8, h9, h10, h11⟩ := hg
  constructor
  · rw [h3, ← stringsOf_nameRdns n _ n.country rfl]; exact stringsOf_perm _ hp
  · rw [h4, ← stringsOf_nameRdns n _ n.organization rfl]; exact stringsOf_perm _ hp
  · rw [h5, ← stringsOf_nameRdns n _ n.organizationalUnit rfl]; exact stringsOf_perm _ hp
  · rw [h6, ← stringsOf_nameRdns n _ n.locality rfl]; exact stringsOf_perm _ hp
  · rw [h7, ← stringsOf_nameRdns n _ n.province rfl]; exact stringsOf_perm _ hp
  · rw [h8, ← stringsOf_nameRdns n _ n.streetAddress rfl]; exact stringsOf_perm _ hp
  · rw [h9, ← stringsOf_nameRdns n _ n.postalCode rfl]; exact stringsOf_perm _ hp
  · rw [h10, stringsOf_singles _ h (nameRdns_single n _ (.inl rfl)), stringsOf_nameRdns n _ _ rfl, lastOf_written]
  · rw [h11, stringsOf_singles _ h (nameRdns_single n _ (.inr rfl)), stringsOf_nameRdns n _ _ rfl, lastOf_written]
  · exact h2
  · rw [h1]; exact hp

/-- Attributes with string values only. -/
theorem nameRdns_toAny {n : Name} (h : ∀ a ∈ n.extraNames, ∃ s, a.value = .str s) :
    ∃ m : List (List Atv), nameRdns n = toAny m ∧ ∀ P : Oid → Prop, (∀ a ∈ n.extraNames, P a.type) →
      (∀ f ∈ fieldTable n, P f.1) → ∀ s ∈ m, ∀ a ∈ s, P a.type := by
  have hx : ∃ x : List Atv, n.extraNames = x.map fun a => ⟨a.type, .str a.value⟩ := by
    revert h
    generalize n.extraNames = l
    intro h
    induction l with
    | nil => exact ⟨[], rfl⟩
    | cons a l ih =>
      obtain ⟨x, hx⟩ := ih fun a ha => h a (by simp [ha])
      obtain ⟨s, hs⟩ := h a (by simp)
      exact ⟨⟨a.type, s⟩ :: x, by rw [List.map_cons, ← hx, ← hs]⟩
  obtain ⟨x, hx⟩ := hx
  refine ⟨((fieldTable n).filter fun f => decide (f.2 ≠ [] ∧ ∀ a ∈ n.extraNames, a.type ≠ f.1)).map
      (fun f => f.2.map fun v => ⟨f.1, v⟩) ++ x.map fun a => [a], ?_, ?_⟩
  · unfold nameRdns toAny
    rw [List.map_append, List.map_map, List.map_map]
    congr 1
    · apply List.map_congr_left
      intro f _
      simp only [Function.comp, List.map_map]
      rfl
    · conv_lhs => rw [hx]
      rw [List.map_map]; rfl
  · intro P h1 h2 s hs a ha
    rcases List.mem_append.mp hs with hs | hs
    · obtain ⟨f, hf, rfl⟩ := List.mem_map.mp hs
      obtain ⟨v, -, rfl⟩ := List.mem_map.mp ha
      exact h2 f (List.mem_filter.mp hf).1
    · obtain ⟨b, hb, rfl⟩ := List.mem_map.mp hs
      rw [List.mem_singleton.mp ha]
      exact h1 ⟨b.type, .str b.value⟩ (by rw [hx]; exact List.mem_map.mpr ⟨b, hb, rfl⟩)

/-- All attributes have properties that the extra names have and all strings have. -/
theorem nameRdns_forall {n : Name} {P : AtvAny → Prop} (h : ∀ a ∈ n.extraNames, P a)
    (hf : ∀ f ∈ fieldTable n, ∀ v, P ⟨f.1, .str v⟩) : ∀ s ∈ nameRdns n, ∀ a ∈ s, P a := by
  intro s hs a ha
  unfold nameRdns at hs
  rcases List.mem_append.mp hs with hs | hs
  · obtain ⟨f, hf', rfl⟩ := List.mem_map.mp hs
    obtain ⟨v, -, rfl⟩ := List.mem_map.mp ha
    exact hf f (List.mem_filter.mp hf').1 v
  · obtain ⟨b, hb, rfl⟩ := List.mem_map.mp hs
    rw [List.mem_singleton.mp ha]; exact h b hb

end MCrypto.X509
