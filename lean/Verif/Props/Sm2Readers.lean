import Verif.Sm2.ReadersLemmas
import Verif.Props.Sm2Leak
/-
C139: package sm2 with an arbitrary io.Reader (sm2.go:94-107, 228-310, 385-417; model Verif/Sm2/Readers.lean, vocabulary Verif/Sm2/ReadersSpec.lean).
-/
namespace MCrypto.Props
open MCrypto MCrypto.Curve MCrypto.Sm2 MCrypto.RdSpec MCrypto.Sm2.Rd

theorem follows_congr {r : GoReader} {α : Type} {c c' : RdSpec.Call r α} {f f' : Bytes → Res (α × Bytes)} (hc : ∀ s tr o s', c s tr o s' ↔ c' s tr o s')
    (hf : ∀ rd, f rd = f' rd) (h : Follows r c' f' ∧ Returns r c' f' ∧ Determined r c') : Follows r c f ∧ Returns r c f ∧ Determined r c := by
  obtain rfl : c = c' := by funext s tr o s'; exact propext (hc s tr o s')
  obtain rfl : f = f' := funext hf
  exact h

theorem out_of {r : GoReader} {α : Type} {c : RdSpec.Call r α} {f : Bytes → Res (α × Bytes)} {f' : Bytes → Res α} (hf : ∀ rd, f' rd = (f rd).map' Prod.fst)
    (h : Follows r c f ∧ Returns r c f ∧ Determined r c) : FollowsOut r c f' ∧ ReturnsOut r c f' ∧ Determined r c := by
  obtain ⟨h1, h2, h3⟩ := h
  refine ⟨?_, ?_, h3⟩
  · intro s tr out s' hc
    obtain ⟨g1, g2, g3⟩ := h1 s tr out s' hc
    refine ⟨?_, ?_⟩
    · intro hne rest
      rw [hf]
      cases out with
      | ok a => rw [g1 a rfl]; rfl
      | err e => exact absurd rfl (hne e)
      | panic => rw [g2 rfl]; rfl
    · intro e he
      obtain ⟨e0, k1, k2⟩ := g3 e he
      refine ⟨e0, k1, ?_⟩
      rw [hf]
      rcases k2 with ⟨k2, k3⟩ | ⟨k2, k3⟩
      · rw [k2]; exact Or.inl ⟨rfl, k3⟩
      · rw [k2]; exact Or.inr ⟨rfl, k3⟩
  · intro s L hd out ho hne
    obtain ⟨g1, g2⟩ := h2 s L hd
    rw [hf] at ho
    cases hfl : f L with
    | ok p =>
      obtain ⟨a, rest⟩ := p
      rw [hfl] at ho
      subst ho
      obtain ⟨tr, s', k1, k2, k3⟩ := g1 a rest hfl
      exact ⟨tr, s', rest, k1, k2, k3⟩
    | err e => rw [hfl] at ho; subst ho; exact absurd rfl (hne e)
    | panic => rw [hfl] at ho; subst ho; exact g2 hfl

/-- **C139** `GenerateKey` with any reader. -/
theorem C139_generateKey (r : GoReader) :
    Follows r (GenerateKey r) generateKey ∧ Returns r (GenerateKey r) generateKey ∧ Determined r (GenerateKey r) :=
  follows_congr (fun _ _ _ _ => generateKey_iff) generateKey_list
    ⟨loop_follows _ (via_noErr genStep_noErr (fun _ _ _ _ => by simp [keyOf]) (by simp [keyOf])), loop_returns _, loop_det⟩

/-- **C139** `SignDigestRS` with any reader. -/
theorem C139_signDigestRS (r : GoReader) (priv : PrivateKey) (digest : Bytes) :
    Follows r (SignDigestRS r priv digest) (fun rd => assoc (signDigestRS rd priv digest)) ∧
    Returns r (SignDigestRS r priv digest) (fun rd => assoc (signDigestRS rd priv digest)) ∧ Determined r (SignDigestRS r priv digest) :=
  follows_congr (fun _ _ _ _ => signDigestRS_iff) (fun rd => signDigestRS_list rd priv digest)
    ⟨loop_follows _ (via_noErr (outerStep_noErr _ _) (fun _ _ _ _ => by simp [ints]) (by simp [ints])), loop_returns _, loop_det⟩

/-- **C139** `SignRS` with any reader. -/
theorem C139_signRS (r : GoReader) (priv : PrivateKey) (inp uid : Bytes) :
    Follows r (SignRS r priv inp uid) (fun rd => assoc (signRS rd priv inp uid)) ∧
    Returns r (SignRS r priv inp uid) (fun rd => assoc (signRS rd priv inp uid)) ∧ Determined r (SignRS r priv inp uid) :=
  C139_signDigestRS r priv (priv.pub.sm3Digest inp uid)

/-- The signature with what is left to be read. -/
def digestSigned (priv : PrivateKey) (digest rd : Bytes) : Res (Bytes × Bytes) :=
  assoc (signDigestRS rd priv digest) >>= fun p => marshalSign p.1.1 p.1.2 >>= fun b => .ok (b, p.2)

theorem in_range {n : Nat} (h : n < N) : ((n : Nat) : Int).natAbs < 256 ^ 32 := by
  have : N < 256 ^ 32 := by decide +kernel
  simp only [Int.natAbs_natCast]; omega

theorem digestSigned_list (priv : PrivateKey) (digest rd : Bytes) :
    digestSigned priv digest rd = listLoop 40 (by decide) (via (fun o => marshalled (ints o)) (outerStep priv.d (ofBytes digest))) rd := by
  refine eq_listLoop (by decide) _ (digestSigned priv digest) ?_ ?_ rd
  · intro b rest hb
    unfold digestSigned
    rw [signDigestRS_list, signDigestRS_list, listLoop_ok _ _ hb]
    unfold via
    cases outerStep priv.d (ofBytes digest) b with
    | none => rfl
    | some o =>
      cases o with
      | ok p =>
        simp only [Option.map_some, ints, withRest, marshalled, Res.bind_ok]
        cases marshalSign (p.1 : Int) (p.2 : Int) <;> rfl
      | err e => rfl
      | panic => rfl
  · intro b hb
    unfold digestSigned
    rw [signDigestRS_list, listLoop_short _ _ hb]
    by_cases h : b.length = 0
    · rw [if_pos h, if_pos h]; rfl
    · rw [if_neg h, if_neg h]; rfl

/-- **C139** `SignDigest` with any reader. -/
theorem C139_signDigest (r : GoReader) (priv : PrivateKey) (digest : Bytes) :
    FollowsOut r (SignDigest r priv digest) (fun rd => signDigest rd priv digest) ∧
    ReturnsOut r (SignDigest r priv digest) (fun rd => signDigest rd priv digest) ∧ Determined r (SignDigest r priv digest) := by
  refine out_of (f := digestSigned priv digest) ?_ (follows_congr (fun _ _ _ _ => signDigest_iff) (digestSigned_list priv digest)
    ⟨loop_follows _ (via_noErr (outerStep_noErr _ _) ?_ ?_), loop_returns _, loop_det⟩)
  · intro rd
    unfold signDigest digestSigned
    cases signDigestRS rd priv digest with
    | ok p =>
      obtain ⟨r, s, rd'⟩ := p
      simp only [assoc, Res.bind_ok]
      cases marshalSign r s <;> rfl
    | err e => rfl
    | panic => rfl
  · intro b p hp e
    obtain ⟨h1, h2⟩ := outerStep_range (r := p.1) (s := p.2) hp
    obtain ⟨sig, h3, -, -⟩ := C10_roundtrip (p.1 : Int) (p.2 : Int) 32 (by decide) (in_range h1) (in_range h2)
    simp only [ints, marshalled, Res.bind_ok]
    rw [h3]; simp
  · intro e; simp [ints, marshalled]

/-- **C139** `Sign` with any reader. -/
theorem C139_sign (r : GoReader) (priv : PrivateKey) (inp uid : Bytes) :
    FollowsOut r (Rd.Sign r priv inp uid) (fun rd => sign rd priv inp uid) ∧
    ReturnsOut r (Rd.Sign r priv inp uid) (fun rd => sign rd priv inp uid) ∧ Determined r (Rd.Sign r priv inp uid) :=
  C139_signDigest r priv (priv.pub.sm3Digest inp uid)

/-- **C139** `Encryt` with any reader. -/
theorem C139_encryt (r : GoReader) (pub : PublicKey) (msg : Bytes) :
    Follows r (Encryt r pub msg) (fun rd => encryt rd pub msg) ∧ Returns r (Encryt r pub msg) (fun rd => encryt rd pub msg) ∧
    Determined r (Encryt r pub msg) :=
  follows_congr (fun _ _ _ _ => encryt_iff) (fun rd => encryt_list rd pub msg)
    ⟨loop_follows _ (encStep_noErr pub msg), loop_returns _, loop_det⟩

/-- **C139** How a reader splits what it delivers makes no difference: two readers that deliver the same octets, enough for a signature, give the same one. -/
theorem C139_split {r r' : GoReader} {s : r.State} {s' : r'.State} {L : Bytes} (h : Delivers r s L) (h' : Delivers r' s' L) (priv : PrivateKey)
    (inp uid sig : Bytes) (hs : sign L priv inp uid = .ok sig) :
    (∃ tr t, Rd.Sign r priv inp uid s tr (.ok sig) t) ∧ (∃ tr t, Rd.Sign r' priv inp uid s' tr (.ok sig) t) ∧
    (∀ tr out t, Rd.Sign r priv inp uid s tr out t → out = .ok sig) ∧ ∀ tr out t, Rd.Sign r' priv inp uid s' tr out t → out = .ok sig := by
  obtain ⟨-, k1, k2⟩ := C139_sign r priv inp uid
  obtain ⟨-, k3, k4⟩ := C139_sign r' priv inp uid
  obtain ⟨tr, t, rest, a1, -, -⟩ := k1 s L h _ hs (by simp)
  obtain ⟨tr', t', rest', b1, -, -⟩ := k3 s' L h' _ hs (by simp)
  exact ⟨⟨tr, t, a1⟩, ⟨tr', t', b1⟩, fun _ _ _ g => (k2 _ _ _ _ _ _ _ a1 g).2.1, fun _ _ _ g => (k4 _ _ _ _ _ _ _ b1 g).2.1⟩

/-- **C139** Encrypting the empty message returns only when the reader fails: no `k` is accepted. -/
theorem C139_empty_message (r : GoReader) (pub : PublicKey) {s : r.State} {tr : Bytes} {out : Res Bytes} {s' : r.State}
    (h : Encryt r pub [] s tr out s') : ∃ e e0, out = .err e ∧ LastError r e0 s' := by
  have hk : ∀ b, encStep pub [] b = none := by
    intro b
    unfold encStep encStream
    simp only [List.length_nil, Option.map_eq_none_iff]
    unfold kdf
    simp [kdfLoop]
  rw [encryt_iff] at h
  induction h with
  | @err s b e s' h =>
    obtain ⟨-, e0, hl, -⟩ := readFull_short h
    exact ⟨e, e0, rfl, hl⟩
  | done h ho => rw [hk] at ho; cases ho
  | again _ _ _ ih => exact ih

/-- **C139** With a reader that never fails, encrypting the empty message never returns. -/
theorem C139_empty_message_hangs (r : GoReader) (hr : ∀ s n, (r.read s n).2.1 = none) (pub : PublicKey) (s : r.State) :
    ¬ ∃ tr out s', Encryt r pub [] s tr out s' := by
  rintro ⟨tr, out, s', h⟩
  obtain ⟨e, e0, -, s0, n, -, h1, -⟩ := C139_empty_message r pub h
  rw [hr] at h1
  cases h1

theorem stalled {r : GoReader} {s : r.State} (hr : ∀ n, r.read s n = ([], none, s)) {n : Nat} (hn : 0 < n) {b : Bytes} {e : Option String} {s' : r.State} :
    ¬ ReadFull r n s b e s' := by
  rintro ⟨e0, h, -⟩
  have : ∀ {got e s0 out e' s'}, ReadLoop r n got e s0 out e' s' → got = [] → e = none → s0 = s → False := by
    intro got e s0 out e' s' h
    induction h with
    | stop hc => rintro rfl rfl rfl; rcases hc with hc | hc; · simp at hc; omega
                 · exact hc rfl
    | step _ _ ih => rintro rfl - rfl; exact ih (by rw [hr]; rfl) (by rw [hr]) (by rw [hr])
  exact this h rfl rfl rfl

theorem loop_reads {r : GoReader} {n : Nat} {α : Type} {step : Bytes → Option (Res α)} {s : r.State} {tr : Bytes} {out : Res α} {s' : r.State}
    (h : Loop r n step s tr out s') : ∃ b e s1, ReadFull r n s b e s1 := by
  cases h with
  | err h => exact ⟨_, _, _, h⟩
  | done h _ => exact ⟨_, _, _, h⟩
  | again h _ _ => exact ⟨_, _, _, h⟩

/-- **C139** With a reader that keeps returning nothing and no error, no call returns. -/
theorem C139_stalled (r : GoReader) (s : r.State) (hr : ∀ n, r.read s n = ([], none, s)) (priv : PrivateKey) (pub : PublicKey) (inp uid digest msg : Bytes) :
    (¬ ∃ tr out s', GenerateKey r s tr out s') ∧ (¬ ∃ tr out s', Rd.Sign r priv inp uid s tr out s') ∧ (¬ ∃ tr out s', SignDigest r priv digest s tr out s') ∧
    (¬ ∃ tr out s', SignRS r priv inp uid s tr out s') ∧ (¬ ∃ tr out s', SignDigestRS r priv digest s tr out s') ∧
    ¬ ∃ tr out s', Encryt r pub msg s tr out s' := by
  refine ⟨?_, ?_, ?_, ?_, ?_, ?_⟩ <;> rintro ⟨tr, out, s', h⟩
  · obtain ⟨_, _, _, h⟩ := loop_reads (generateKey_iff.mp h); exact stalled hr (by decide) h
  · obtain ⟨_, _, _, h⟩ := loop_reads (signDigest_iff.mp h); exact stalled hr (by decide) h
  · obtain ⟨_, _, _, h⟩ := loop_reads (signDigest_iff.mp h); exact stalled hr (by decide) h
  · obtain ⟨_, _, _, h⟩ := loop_reads (signDigestRS_iff.mp h); exact stalled hr (by decide) h
  · obtain ⟨_, _, _, h⟩ := loop_reads (signDigestRS_iff.mp h); exact stalled hr (by decide) h
  · obtain ⟨_, _, _, h⟩ := loop_reads (encryt_iff.mp h); exact stalled hr (by decide) h

/-! ### examples -/

/-- A reader that gives one octet at a time, and io.EOF together with the last one. -/
def oneByOne : GoReader where
  State := Bytes
  read s n := if n = 0 then ([], none, s) else (s.take 1, if s.length ≤ 1 then some "EOF" else none, s.drop 1)
  le s n := by
    by_cases h : n = 0
    · rw [if_pos h]; simp
    · rw [if_neg h]; simp; omega

/-- A reader that fills the buffer as far as it can. -/
def allAtOnce : GoReader where
  State := Bytes
  read s n := (s.take n, none, s.drop n)
  le s n := by simp

theorem oneByOne_delivers (L : Bytes) (x : UInt8) : Delivers oneByOne (L ++ [x]) L := by
  induction L with
  | nil => exact .nil
  | cons y L ih =>
    have hs : ∀ n, 0 < n → oneByOne.read (y :: L ++ [x]) n = ([y], none, L ++ [x]) := by
      intro n hn
      have hn0 : ¬ n = 0 := by omega
      simp [oneByOne, hn0]
    refine .more (fun n hn => by rw [hs n hn]) (fun n hn => by rw [hs n hn]; exact ⟨L, rfl⟩) fun n hn => ?_
    rw [hs n hn]; exact ih

theorem allAtOnce_delivers (L : Bytes) : Delivers allAtOnce L L := by
  induction hm : L.length using Nat.strong_induction_on generalizing L with
  | _ m ih =>
    subst hm
    cases L with
    | nil => exact .nil
    | cons y L =>
      refine .more (fun n hn => rfl) (fun n hn => List.take_prefix _ _) fun n hn => ?_
      have h1 : (allAtOnce.read (y :: L) n).2.2 = (y :: L).drop n := rfl
      have h2 : (allAtOnce.read (y :: L) n).1 = (y :: L).take n := rfl
      rw [h1, h2]
      have h3 : List.drop (List.take n (y :: L)).length (y :: L) = (y :: L).drop n := by
        rw [List.length_take]
        by_cases h : n ≤ (y :: L).length
        · rw [Nat.min_eq_left h]
        · rw [Nat.min_eq_right (by omega), List.drop_of_length_le (by omega), List.drop_of_length_le (by omega)]
      rw [h3]
      exact ih _ (by simp; omega) _ rfl

/-- Both give the same signature. -/
example : ∃ sig, (∃ tr t, SignDigest oneByOne exKey [1] (exRd ++ [7]) tr (.ok sig) t) ∧ ∃ tr t, SignDigest allAtOnce exKey [1] exRd tr (.ok sig) t := by
  obtain ⟨sig, hs⟩ : ∃ sig, signDigest exRd exKey [1] = .ok sig := by
    have : (signDigest exRd exKey [1]).isOk = true := by decide +kernel
    cases h : signDigest exRd exKey [1] with
    | ok s => exact ⟨s, rfl⟩
    | err e => rw [h] at this; cases this
    | panic => rw [h] at this; cases this
  obtain ⟨tr, t, rest, a1, -, -⟩ := (C139_signDigest oneByOne exKey [1]).2.1 _ _ (oneByOne_delivers exRd 7) _ hs (by simp)
  obtain ⟨tr', t', rest', b1, -, -⟩ := (C139_signDigest allAtOnce exKey [1]).2.1 _ _ (allAtOnce_delivers exRd) _ hs (by simp)
  exact ⟨sig, ⟨tr, t, a1⟩, tr', t', b1⟩

/-- A reader that never fails meets the hypothesis of `C139_empty_message_hangs`, one that gives nothing that of `C139_stalled`. -/
example : (∀ s n, (allAtOnce.read s n).2.1 = none) ∧ ∀ n, allAtOnce.read [] n = ([], none, []) := ⟨fun _ _ => rfl, fun n => by simp [allAtOnce]⟩

end MCrypto.Props
