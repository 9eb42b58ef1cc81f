import Verif.Props.ExtWrite
import Verif.Props.X509Name
import Verif.Props.X509Strings
/-
C113, second part: the octets of names.
-/
namespace MCrypto.Props
open MCrypto MCrypto.Asn1 MCrypto.X509 MCrypto.X509Spec MCrypto.Dg
open MCrypto.Pkcs7Spec (OctetLe)

theorem enc_el {cls : Nat} {comp : Bool} {tag : Nat} (ht : tag < 31) {t : UInt8} (h : t = octet cls comp tag) {body e : Bytes}
    (hl : e.length < 2 ^ 31) : encTLV cls comp tag body = e ↔ El t body e := by
  rw [h, el_iff cls comp tag ht]
  constructor
  · rintro rfl
    refine ⟨rfl, ?_⟩
    have := encTLV_length_lt cls comp tag body
    omega
  · rintro ⟨rfl, -⟩; rfl

theorem plain_iff (b : UInt8) : isPrintableStrict b = true ↔ plainChar b.toNat := by
  unfold isPrintableStrict plainChar
  rw [Bool.and_eq_true, Bool.and_eq_true, isPrintable_iff]
  have h1 : (!(b == 42)) = true ↔ b.toNat ≠ '*'.toNat := by
    rw [Bool.not_eq_true', beq_eq_false_iff_ne, ne_eq, ← UInt8.toNat_inj]; rfl
  have h2 : (!(b == 38)) = true ↔ b.toNat ≠ '&'.toNat := by
    rw [Bool.not_eq_true', beq_eq_false_iff_ne, ne_eq, ← UInt8.toNat_inj]; rfl
  rw [h1, h2, and_assoc]

theorem string_out {s e : Bytes} (hl : e.length < 2 ^ 31) : marshalString s = some e ↔ StringOut s e := by
  unfold marshalString StringOut
  have h : s.all isPrintableStrict = true ↔ ∀ c ∈ s, plainChar c.toNat := by
    simp only [List.all_eq_true, plain_iff]
  by_cases h1 : s.all isPrintableStrict = true
  · rw [if_pos h1, Option.some.injEq, enc_el (t := 0x13) (by decide) (by decide) hl]
    have := h.mp h1
    tauto
  · rw [if_neg h1]
    have h1' := mt h.mpr h1
    by_cases h2 : Utf.valid s = true
    · rw [if_pos h2, Option.some.injEq, enc_el (t := 0x0c) (by decide) (by decide) hl]
      have := (Utf.valid_iff s).mp h2
      tauto
    · rw [if_neg h2]
      have := mt (Utf.valid_iff s).mpr h2
      simp only [reduceCtorEq, false_iff]
      tauto

theorem time_out {t : Time} (h : ClockTime t) (e : Bytes) : marshalTime t = some e ↔ TimeOut t e := by
  have := timeText_length t
  rw [marshalTime_eq h, timeOut_iff h, Option.some.injEq, small_el _ _ _ (by omega), eq_comm]

/-- Values other than strings that have an encoding: object identifiers in range and times of the calendar. -/
def AnyOk : AnyValue → Prop
  | .oid o => OidIn o
  | .time t => ClockTime t
  | _ => True

theorem any_out {v : AnyValue} (hv : AnyOk v) {e : Bytes} (hl : e.length < 2 ^ 31) : marshalAny v = some e ↔ AnyOut v e := by
  cases v with
  | nil => simp [marshalAny, AnyOut]
  | str s => exact string_out hl
  | int n => exact int_mf hl
  | bits b =>
    show marshalField bits {} b = some e ↔ _
    rw [mf_iff (c := bits) 0x03 (by decide) (by decide) hl]
    constructor
    · rintro ⟨_, h, h'⟩
      obtain rfl := Option.some.inj h
      exact ⟨_, by omega, by omega, h'⟩
    · rintro ⟨u, hu, h2, h⟩
      refine ⟨_, rfl, ?_⟩
      have : (8 - b.bitLength % 8) % 8 = u := by omega
      show El _ (encBits b) e
      unfold encBits
      rw [this]; exact h
  | oid o => exact oid_mf_in hv hl
  | time t =>
    exact time_out hv e
  | octets b => exact octets_mf hl

theorem atv_out {a : AtvAny} (ho : OidIn a.type) (hv : AnyOk a.value) {e : Bytes} (hl : e.length < 2 ^ 31) :
    marshalField atvAny {} a = some e ↔ AtvOut a e :=
  two_out (c := atvAny) rfl rfl rfl (fun _ he => oid_mf_in ho he) (fun _ he => any_out hv he) hl

theorem flatten_perm_length {l m : List Bytes} (h : l.Perm m) : l.flatten.length = m.flatten.length := by
  rw [List.length_flatten, List.length_flatten]
  exact (h.map _).sum_eq

theorem setOf_enc_out {α : Type} [DecidableEq α] {c : Codec α} {E : α → Bytes → Prop} {l : List α}
    (h : ∀ v ∈ l, ∀ e : Bytes, e.length < 2 ^ 31 → (marshalField c {} v = some e ↔ E v e)) {body : Bytes} (hl : body.length < 2 ^ 31) :
    (Asn1.setOf c).enc l = some body ↔ ∃ es es' : List Bytes, body = es.flatten ∧ List.Forall₂ (fun v x => E v x) l es' ∧
      es.Perm es' ∧ es.Pairwise OctetLe := by
  simp only [Asn1.setOf, Option.map_eq_some_iff, marshalElems_iff]
  constructor
  · rintro ⟨es, h1, rfl⟩
    rw [flatten_perm_length (sortBy_perm bytesLe es)] at hl
    refine ⟨_, es, rfl, ((forall₂_congr_len hl (fun e v hv he => h v hv e he)).mp h1).flip, sortBy_perm _ _, ?_⟩
    exact (sorted_pairwise es).imp fun h => (bytesLe_iff _ _).mp h
  · rintro ⟨es, es', rfl, h1, h2, h3⟩
    rw [flatten_perm_length h2] at hl
    exact ⟨es', (forall₂_congr_len hl (fun e v hv he => h v hv e he)).mpr h1.flip, by rw [sort_unique h2 h3]⟩

theorem rdnSet_out {l : List AtvAny} (ho : ∀ a ∈ l, OidIn a.type ∧ AnyOk a.value) {e : Bytes} (hl : e.length < 2 ^ 31) :
    marshalField rdnSet {} l = some e ↔ SetOut AtvOut l e := by
  rw [mf_iff (c := rdnSet) 0x31 (by decide) (by decide) hl]
  unfold SetOut
  constructor
  · rintro ⟨body, h1, h2⟩
    obtain ⟨es, es', rfl, h3, h4, h5⟩ := (setOf_enc_out (c := atvAny) (E := AtvOut)
      (fun v hv e he => atv_out (ho v hv).1 (ho v hv).2 he) h2.2).mp h1
    exact ⟨es, es', h2, h3, h4, h5⟩
  · rintro ⟨es, es', h2, h3, h4, h5⟩
    exact ⟨_, (setOf_enc_out (c := atvAny) (E := AtvOut)
      (fun v hv e he => atv_out (ho v hv).1 (ho v hv).2 he) h2.2).mpr ⟨es, es', rfl, h3, h4, h5⟩, h2⟩

theorem rdns_out {l : List (List AtvAny)} (ho : ∀ s ∈ l, ∀ a ∈ s, OidIn a.type ∧ AnyOk a.value) {e : Bytes} (hl : e.length < 2 ^ 31) :
    marshal rdnSequence l = some e ↔ RdnsOut l e :=
  seqOf_out (c := rdnSet) (fun s hs _ he => rdnSet_out (ho s hs) he) hl

/-- The extra names of a name have object identifiers and values that have an encoding. -/
def ExtraNamesOk (n : Name) : Prop := ∀ a ∈ n.extraNames, OidIn a.type ∧ AnyOk a.value

theorem nameRdns_ok {n : Name} (h : ExtraNamesOk n) : ∀ s ∈ nameRdns n, ∀ a ∈ s, OidIn a.type ∧ AnyOk a.value := by
  intro s hs a ha
  unfold nameRdns at hs
  rcases List.mem_append.mp hs with hs | hs
  · obtain ⟨f, hf, rfl⟩ := List.mem_map.mp hs
    obtain ⟨v, -, rfl⟩ := List.mem_map.mp ha
    exact ⟨(fieldTable_oidOk _ _ (List.mem_of_mem_filter hf)).oidIn, trivial⟩
  · obtain ⟨b, hb, rfl⟩ := List.mem_map.mp hs
    obtain rfl := List.mem_singleton.mp ha
    exact h _ hb

theorem name_out {n : Name} (h : ExtraNamesOk n) {e : Bytes} (hl : e.length < 2 ^ 31) :
    marshal rdnSequence n.toRDNSequence = some e ↔ RdnsOut (nameRdns n) e := by
  rw [toRDNSequence_eq]
  exact rdns_out (nameRdns_ok h) hl

theorem subject_out {c : Certificate} (h : ExtraNamesOk c.subject) {e : Bytes} (hl : e.length < 2 ^ 31) :
    subjectBytes c = some e ↔ SubjectOut c e := by
  unfold subjectBytes SubjectOut
  by_cases hr : c.rawSubject = []
  · rw [if_neg (by simp [hr]), name_out h hl]
    simp [hr]
  · rw [if_pos (List.length_pos_iff.mpr hr)]
    simp [hr, eq_comm]

end MCrypto.Props
