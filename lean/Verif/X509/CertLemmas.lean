import Verif.X509.ProcLemmas
import Verif.Props.P12Helpers
/-
Facts about `parseCertificate`: it reads one element and keeps it as `Raw`; it does not panic.
-/
namespace MCrypto.X509
open MCrypto MCrypto.Asn1 MCrypto.X509Spec MCrypto.Props

theorem processLoop_core {env : Env} {l : List Ext} {out out' : Certificate}
    (h : processExtensionsLoop env out l = some out') : core out' = core out := by
  induction l generalizing out with
  | nil => simp [processExtensionsLoop] at h; rw [h]
  | cons e l ih =>
    rw [processExtensionsLoop] at h
    match hp : processExtension env out e with
    | none => rw [hp] at h; cases h
    | some (o, u) =>
      rw [hp] at h
      simp only [] at h
      rw [ih h]
      have := (processExtension_flag env out e o u hp).2.2
      split <;> exact this

theorem core_raw {c d : Certificate} (h : core c = core d) : c.raw = d.raw := by
  have := congrArg Certificate.raw h; exact this

theorem parseTail_raw {env : Env} {c c' : Certificate} {tbs : Bytes} (h : parseTail env c tbs = some c') :
    c'.raw = c.raw := by
  unfold parseTail at h
  split at h
  · simp only [Option.pure_def, Option.bind_eq_bind, Option.bind_eq_some_iff] at h
    obtain ⟨t1, _, t2, _, h⟩ := h
    split at h
    · simp only [Option.bind_eq_some_iff, Prod.exists] at h
      obtain ⟨o, r, _, h⟩ := h
      match o, h with
      | none, h => simp at h; rw [h]
      | some x, h =>
        simp only [Option.bind_eq_some_iff, Prod.exists] at h
        obtain ⟨x', r', _, l, _, h⟩ := h
        unfold processExtensions at h
        have := core_raw (processLoop_core h)
        exact this
    · simp at h; rw [h]
  · simp at h; rw [h]

theorem parseCertHead_raw {der : Bytes} {hd : CertHead} (h : parseCertHead der = some hd) :
    ∃ b rest, der = hd.raw ++ rest ∧ Elem 0x30 b hd.raw := by
  unfold parseCertHead at h
  simp only [Option.pure_def, Option.bind_eq_bind, Option.bind_eq_some_iff, Prod.exists] at h
  obtain ⟨raw, r, h1, i, j, _, k, l, _, m, n, _, o, p, _, q, r', _, s, t, _, u, v, _, h⟩ := h
  split at h
  · cases h
  · simp only [Option.bind_some, Option.bind_eq_some_iff, Option.some.injEq] at h
    obtain ⟨_, _, rfl⟩ := h
    obtain ⟨hd, b, hb⟩ := (readElement_iff _ _ _ _).mp h1
    exact ⟨b, r, hd, hb⟩

theorem parseCertHead_local {e rest b : Bytes} (he : Elem 0x30 b e) : parseCertHead (e ++ rest) = parseCertHead e := by
  unfold parseCertHead
  have h1 := (readElement_iff 0x30 (e ++ rest) e rest).mpr ⟨rfl, b, he⟩
  have h2 := (readElement_iff 0x30 e e []).mpr ⟨(List.append_nil _).symm, b, he⟩
  rw [h1, h2]
  rfl

theorem parseCertificate_local (env : Env) {e rest b : Bytes} (he : Elem 0x30 b e) :
    parseCertificate env (e ++ rest) = parseCertificate env e := by
  unfold parseCertificate
  rw [parseCertHead_local he]

theorem parseCertificate_raw {env : Env} {der : Bytes} {c : Certificate} (h : parseCertificate env der = .ok c) :
    ∃ b rest, der = c.raw ++ rest ∧ Elem 0x30 b c.raw := by
  unfold parseCertificate at h
  simp only [Res.bind_eq_ok, Res.pure_eq, Prod.exists, Res.ok.injEq] at h
  obtain ⟨hd, h1, id, tbs, _, rs, sp, tbs', _, pub, _, c', h2, sig, _, _, rfl⟩ := h
  have h1' : parseCertHead der = some hd := by
    cases hh : parseCertHead der with
    | none => rw [hh] at h1; cases h1
    | some x => rw [hh] at h1; simp [Res.ofOption] at h1; rw [h1]
  cases ht : parseTail env _ tbs' with
  | none => rw [ht] at h2; cases h2
  | some x =>
    rw [ht] at h2
    simp only [Res.ofOption, Res.ok.injEq] at h2
    subst h2
    have := parseTail_raw ht
    simp only [] at this ⊢
    rw [this]
    exact parseCertHead_raw h1'

theorem ParseCertificate_iff (env : Env) (der : Bytes) (c : Certificate) :
    ParseCertificate env der = .ok c ↔ parseCertificate env der = .ok c ∧ c.raw = der := by
  unfold ParseCertificate
  simp only [Res.bind_eq_ok, Res.pure_eq]
  constructor
  · rintro ⟨c', h, h2⟩
    split at h2
    · cases h2
    · simp only [Res.ok.injEq] at h2
      subst h2
      obtain ⟨b, rest, hd, _⟩ := parseCertificate_raw h
      rename_i hl
      refine ⟨h, ?_⟩
      have hl' : der.length = c'.raw.length := by omega
      rw [hd, List.length_append] at hl'
      have : rest = [] := List.length_eq_zero_iff.mp (by omega)
      rw [this, List.append_nil] at hd
      exact hd.symm
  · rintro ⟨h, h2⟩
    exact ⟨c, h, by rw [h2]; simp⟩

theorem certsAux_iff (env : Env) (n : Nat) : ∀ (s : Bytes), s.length ≤ n → ∀ l : List Certificate,
    parseCertificatesAux env n s = .ok l ↔
      ∃ ds, s = ds.flatten ∧ List.Forall₂ (fun d c => ParseCertificate env d = .ok c) ds l := by
  induction n with
  | zero =>
    intro s hs l
    have : s = [] := List.length_eq_zero_iff.mp (by omega)
    subst this
    simp only [parseCertificatesAux, Res.ok.injEq]
    constructor
    · rintro rfl; exact ⟨[], rfl, .nil⟩
    · rintro ⟨ds, hd, hf⟩
      cases hf with
      | nil => rfl
      | @cons d c ds l' h _ =>
        obtain ⟨h, hr⟩ := (ParseCertificate_iff env d c).mp h
        obtain ⟨b, rest, hd', he⟩ := parseCertificate_raw h
        simp only [List.flatten_cons] at hd
        have := (List.append_eq_nil_iff.mp hd.symm).1
        exact absurd (hr.trans this) he.ne_nil
  | succ n ih =>
    intro s hs l
    match s with
    | [] =>
      simp only [parseCertificatesAux, Res.ok.injEq]
      constructor
      · rintro rfl; exact ⟨[], rfl, .nil⟩
      · rintro ⟨ds, hd, hf⟩
        cases hf with
        | nil => rfl
        | @cons d c ds l' h _ =>
          obtain ⟨h, hr⟩ := (ParseCertificate_iff env d c).mp h
          obtain ⟨b, rest, hd', he⟩ := parseCertificate_raw h
          simp only [List.flatten_cons] at hd
          have := (List.append_eq_nil_iff.mp hd.symm).1
          exact absurd (hr.trans this) he.ne_nil
    | x :: t =>
      simp only [parseCertificatesAux, Res.bind_eq_ok, Res.pure_eq, Res.ok.injEq]
      constructor
      · rintro ⟨c, h, l', h2, rfl⟩
        obtain ⟨b, rest, hd, he⟩ := parseCertificate_raw h
        have hpos : 0 < c.raw.length := List.length_pos_of_ne_nil he.ne_nil
        rw [hd, List.drop_left] at h2
        have hlen : rest.length ≤ n := by
          have := congrArg List.length hd
          rw [List.length_append] at this
          omega
        obtain ⟨ds, rfl, hf⟩ := (ih rest hlen l').mp h2
        refine ⟨c.raw :: ds, by rw [List.flatten_cons]; exact hd, .cons ?_ hf⟩
        rw [hd, parseCertificate_local env he] at h
        exact (ParseCertificate_iff _ _ _).mpr ⟨h, rfl⟩
      · rintro ⟨ds, hd, hf⟩
        cases hf with
        | nil => cases hd
        | @cons d c ds l' h hf =>
          obtain ⟨h, hr⟩ := (ParseCertificate_iff env d c).mp h
          obtain ⟨b, rest, hd', he⟩ := parseCertificate_raw h
          subst hr
          rw [List.flatten_cons] at hd
          have hpos : 0 < c.raw.length := List.length_pos_of_ne_nil he.ne_nil
          have hlen : ds.flatten.length ≤ n := by
            have := congrArg List.length hd
            rw [List.length_append] at this
            omega
          refine ⟨c, ?_, l', ?_, rfl⟩
          · rw [hd, parseCertificate_local env he]; exact h
          · rw [hd, List.drop_left]
            exact (ih _ hlen l').mpr ⟨ds, rfl, hf⟩

theorem ofOption_ne_panic {α : Type} (s : String) (x : Option α) : Res.ofOption s x ≠ .panic := by
  cases x <;> simp [Res.ofOption]

theorem parsePublicKey_ne_panic (a : PkAlgo) (k : Spki) : parsePublicKey a k ≠ .panic := by
  unfold parsePublicKey
  cases a
  · simp
  · simp only [parseRSAPub]; repeat' first | split | simp
  · simp only [parseDSAPub]; repeat' first | split | simp
  · simp only [parseECPub]; repeat' first | split | simp
  · simp only [parseEdPub]; repeat' first | split | simp

theorem parseCertificate_ne_panic (env : Env) (der : Bytes) : parseCertificate env der ≠ .panic := by
  unfold parseCertificate
  refine bind_ne_panic (ofOption_ne_panic _ _) fun _ _ => bind_ne_panic (ofOption_ne_panic _ _) fun _ _ =>
    bind_ne_panic (ofOption_ne_panic _ _) fun _ _ => bind_ne_panic (parsePublicKey_ne_panic _ _) fun _ _ =>
    bind_ne_panic (ofOption_ne_panic _ _) fun _ _ => bind_ne_panic (ofOption_ne_panic _ _) fun _ _ => by simp

theorem certsAux_ne_panic (env : Env) (n : Nat) : ∀ s : Bytes, s.length ≤ n → parseCertificatesAux env n s ≠ .panic := by
  induction n with
  | zero => intro s hs; rw [List.length_eq_zero_iff.mp (Nat.le_zero.mp hs)]; simp [parseCertificatesAux]
  | succ n ih =>
    intro s hs
    match s with
    | [] => simp [parseCertificatesAux]
    | x :: t =>
      rw [parseCertificatesAux]
      refine bind_ne_panic (parseCertificate_ne_panic _ _) fun c hc => bind_ne_panic (ih _ ?_) fun _ _ => by simp
      obtain ⟨b, rest, hd, he⟩ := parseCertificate_raw hc
      have hpos : 0 < c.raw.length := List.length_pos_of_ne_nil he.ne_nil
      rw [List.length_drop]
      simp only [List.length_cons] at hs ⊢
      omega

end MCrypto.X509
