import Verif.Spec.Rfc9113Connection
import Verif.Proofs.Connection
import Verif.Proofs.HeaderMap
import Verif.Proofs.Rfc7541
import Verif.Props.Rfc9113
import Verif.Props.Rfc7541

/-! Lemmas for what an RFC 9113 receiver hears. -/

namespace Webparse
open Spec Spec.Rfc

/-! ## Octets have one reading as frames -/

theorem wireFrame_inj {k k' fl fl' : UInt8} {id id' : Nat} {p p' r r' : Bytes} (hl : p.length < 2 ^ 24)
    (hl' : p'.length < 2 ^ 24) (hi : id < 2 ^ 31) (hi' : id' < 2 ^ 31)
    (h : wireFrame k fl id p ++ r = wireFrame k' fl' id' p' ++ r') :
    k = k' ∧ fl = fl' ∧ id = id' ∧ p = p' ∧ r = r' := by
  simp only [wireFrame, List.cons_append, List.nil_append, List.cons.injEq] at h
  obtain ⟨a1, a2, a3, a4, a5, b1, b2, b3, b4, h⟩ := h
  have e1 : beNat (beBytes 3 p.length) = beNat (beBytes 3 p'.length) := by
    rw [beBytes3, beBytes3, a1, a2, a3]
  rw [beNat_beBytes_of_lt (by simpa using hl), beNat_beBytes_of_lt (by simpa using hl')] at e1
  have e2 : beNat (u32Bytes id) = beNat (u32Bytes id') := by
    unfold u32Bytes; rw [b1, b2, b3, b4]
  rw [beNat_u32Bytes (by omega), beNat_u32Bytes (by omega)] at e2
  obtain ⟨c1, c2⟩ := List.append_inj h e1
  exact ⟨a4, a5, e2, c1, c2⟩

theorem wireFrames_inj (fs : List RawFrame) : ∀ (gs : List RawFrame), (∀ f ∈ fs, f.2.2.2.length < 2 ^ 24) →
    (∀ f ∈ gs, f.2.2.2.length < 2 ^ 24) → (∀ f ∈ fs, f.2.2.1 < 2 ^ 31) → (∀ f ∈ gs, f.2.2.1 < 2 ^ 31) →
    wireFrames fs = wireFrames gs → fs = gs := by
  induction fs with
  | nil =>
    intro gs _ _ _ _ h
    cases gs with
    | nil => rfl
    | cons g gs => simp [wireFrames, wireFrame] at h
  | cons f fs ih =>
    intro gs h1 h2 h3 h4 h
    cases gs with
    | nil => simp [wireFrames, wireFrame] at h
    | cons g gs =>
      obtain ⟨k, fl, id, p⟩ := f
      obtain ⟨k', fl', id', p'⟩ := g
      simp only [wireFrames, List.flatMap_cons] at h
      obtain ⟨rfl, rfl, rfl, rfl, h5⟩ := wireFrame_inj (h1 _ (List.mem_cons_self ..)) (h2 _ (List.mem_cons_self ..))
        (h3 _ (List.mem_cons_self ..)) (h4 _ (List.mem_cons_self ..)) h
      rw [ih gs (fun x hx => h1 x (by simp [hx])) (fun x hx => h2 x (by simp [hx])) (fun x hx => h3 x (by simp [hx]))
        (fun x hx => h4 x (by simp [hx])) h5]

theorem u31Bytes_inj {b b' : Bool} {n n' : Nat} (hn : n < 2 ^ 31) (hn' : n' < 2 ^ 31) (h : u31Bytes b n = u31Bytes b' n') :
    b = b' ∧ n = n' := by
  have := congrArg beNat h
  unfold u31Bytes at this
  rw [beNat_u32Bytes (by split <;> omega), beNat_u32Bytes (by split <;> omega)] at this
  cases b <;> cases b' <;> simp at this ⊢ <;> omega

theorem u32Bytes_inj {n n' : Nat} (hn : n < 2 ^ 32) (hn' : n' < 2 ^ 32) (h : u32Bytes n = u32Bytes n') : n = n' := by
  have := congrArg beNat h
  rwa [beNat_u32Bytes hn, beNat_u32Bytes hn'] at this

/-- A frame says one thing. -/
theorem frameMeans_unique {k fl : UInt8} {id : Nat} {p p' : Bytes} {f f' : Frame} (h : FrameMeans k fl id p f)
    (h' : FrameMeans k fl id p' f') (hp : p = p') : f = f' := by
  cases h with
  | data _ _ d h0 h1 =>
    cases h' with
    | data _ _ d' => rw [hp]
    | dataPadded _ _ _ _ _ h2 _ => rw [h1] at h2; exact absurd h2 (by decide)
  | dataPadded _ _ d pad h0 h1 h2 =>
    cases h' with
    | data _ _ d' _ h3 => rw [h3] at h1; exact absurd h1 (by decide)
    | dataPadded _ _ d' pad' _ _ h3 =>
      simp only [List.cons.injEq] at hp
      have e := congrArg UInt8.toNat hp.1
      have e' : ∀ n, n < 256 → (UInt8.ofNat n).toNat = n := by intro n hn; simp; omega
      rw [e' _ h2, e' _ h3] at e
      have hl := congrArg List.length hp.2
      simp only [List.length_append] at hl
      rw [(List.append_inj hp.2 (by omega)).1]
  | priority _ _ x d w h0 h1 h2 =>
    cases h' with
    | priority _ _ x' d' w' _ _ h3 =>
      obtain ⟨a, b⟩ := List.append_inj hp (by simp)
      obtain ⟨rfl, rfl⟩ := u31Bytes_inj h2 h3 a
      simp only [List.cons.injEq, and_true] at b
      rw [b]
  | reset _ _ c h0 h1 =>
    cases h' with
    | reset _ _ c' _ h2 => rw [u32Bytes_inj h1 h2 hp]
  | settingsAck _ h1 =>
    cases h' with
    | settingsAck _ _ => rfl
    | settings _ _ h2 => rw [h1] at h2; exact absurd h2 (by decide)
  | settings _ _ h1 h2 h3 =>
    cases h' with
    | settingsAck _ h4 => rw [h4] at h1; exact absurd h1 (by decide)
    | settings _ _ _ _ => rw [hp]
  | ping _ _ h1 =>
    cases h' with
    | ping _ _ _ => rw [hp]
  | goAway _ r l c d h1 h2 =>
    cases h' with
    | goAway _ r' l' c' d' h3 h4 =>
      rw [List.append_assoc, List.append_assoc] at hp
      obtain ⟨a, b⟩ := List.append_inj hp (by simp)
      obtain ⟨rfl, rfl⟩ := u31Bytes_inj h1 h3 a
      obtain ⟨a, b⟩ := List.append_inj b (by simp)
      rw [u32Bytes_inj h2 h4 a, b]
  | windowUpdate _ _ r n h1 h2 =>
    cases h' with
    | windowUpdate _ _ r' n' _ h3 =>
      rw [(u31Bytes_inj h2 h3 hp).2]

theorem continued_prefix {id id' : Nat} {fs fs' gs gs' : List RawFrame} {b b' : Bytes} (h : Continued id fs b) :
    Continued id' fs' b' → fs ++ gs = fs' ++ gs' → fs = fs' ∧ b = b' ∧ gs = gs' := by
  induction h generalizing fs' b' with
  | last h1 =>
    intro h' he
    cases h' with
    | last _ => simp only [List.cons_append, List.nil_append, List.cons.injEq, Prod.mk.injEq, true_and] at he; simp [he]
    | more h2 _ =>
      simp only [List.cons_append, List.nil_append, List.cons.injEq, Prod.mk.injEq, true_and] at he
      rw [← he.1.1, h1] at h2; exact absurd h2 (by decide)
  | more h1 _ ih =>
    intro h' he
    cases h' with
    | last h2 =>
      simp only [List.cons_append, List.nil_append, List.cons.injEq, Prod.mk.injEq, true_and] at he
      rw [← he.1.1, h1] at h2; exact absurd h2 (by decide)
    | more _ h3 =>
      simp only [List.cons_append, List.cons.injEq, Prod.mk.injEq, true_and] at he
      obtain ⟨⟨rfl, rfl, rfl⟩, he⟩ := he
      obtain ⟨rfl, rfl, rfl⟩ := ih h3 he
      exact ⟨rfl, rfl, rfl⟩

theorem headerFrames_prefix {id id' : Nat} {e e' : Bool} {fs fs' gs gs' : List RawFrame} {b b' : Bytes}
    (h : HeaderFrames id e fs b) (h' : HeaderFrames id' e' fs' b') (he : fs ++ gs = fs' ++ gs') :
    id = id' ∧ e = e' ∧ b = b' ∧ gs = gs' := by
  cases h with
  | one _ _ h1 h2 =>
    cases h' with
    | one _ _ h3 _ =>
      simp only [List.cons_append, List.nil_append, List.cons.injEq, Prod.mk.injEq, true_and] at he
      obtain ⟨⟨rfl, rfl, rfl⟩, rfl⟩ := he
      exact ⟨rfl, by rw [h1, h3], rfl, rfl⟩
    | many _ _ _ h4 _ =>
      simp only [List.cons_append, List.nil_append, List.cons.injEq, Prod.mk.injEq, true_and] at he
      rw [← he.1.1, h2] at h4; exact absurd h4 (by decide)
  | many _ _ h1 h2 hc =>
    cases h' with
    | one _ _ h3 h4 =>
      simp only [List.cons_append, List.nil_append, List.cons.injEq, Prod.mk.injEq, true_and] at he
      rw [← he.1.1, h2] at h4; exact absurd h4 (by decide)
    | many _ _ h3 _ hc' =>
      simp only [List.cons_append, List.cons.injEq, Prod.mk.injEq, true_and] at he
      obtain ⟨⟨rfl, rfl, rfl⟩, he⟩ := he
      obtain ⟨-, rfl, rfl⟩ := continued_prefix hc hc' he
      exact ⟨rfl, by rw [h1, h3], rfl, rfl⟩

theorem headerFrames_head {id : Nat} {e : Bool} {fs : List RawFrame} {b : Bytes} (h : HeaderFrames id e fs b) :
    ∃ x xs, fs = (1, x) :: xs := by
  cases h with
  | one => exact ⟨_, _, rfl⟩
  | many => exact ⟨_, _, rfl⟩

theorem promiseFrames_prefix {id id' q q' : Nat} {fs fs' gs gs' : List RawFrame} {b b' : Bytes}
    (h : PromiseFrames id q fs b) (h' : PromiseFrames id' q' fs' b') (he : fs ++ gs = fs' ++ gs') :
    id = id' ∧ q = q' ∧ b = b' ∧ gs = gs' := by
  cases h with
  | one _ h1 _ h2 =>
    cases h' with
    | one _ h3 _ _ =>
      simp only [List.cons_append, List.nil_append, List.cons.injEq, Prod.mk.injEq, true_and] at he
      obtain ⟨⟨rfl, rfl, he⟩, rfl⟩ := he
      obtain ⟨e1, e2⟩ := List.append_inj he (by simp)
      exact ⟨rfl, (u31Bytes_inj h1 h3 e1).2, e2, rfl⟩
    | many _ _ _ h4 _ =>
      simp only [List.cons_append, List.nil_append, List.cons.injEq, Prod.mk.injEq, true_and] at he
      rw [← he.1.1, h2] at h4; exact absurd h4 (by decide)
  | many _ h1 _ h2 hc =>
    cases h' with
    | one _ h3 _ h4 =>
      simp only [List.cons_append, List.nil_append, List.cons.injEq, Prod.mk.injEq, true_and] at he
      rw [← he.1.1, h2] at h4; exact absurd h4 (by decide)
    | many _ h3 _ _ hc' =>
      simp only [List.cons_append, List.cons.injEq, Prod.mk.injEq, true_and] at he
      obtain ⟨⟨rfl, rfl, he1⟩, he⟩ := he
      obtain ⟨e1, rfl⟩ := List.append_inj he1 (by simp)
      obtain ⟨-, rfl, rfl⟩ := continued_prefix hc hc' he
      exact ⟨rfl, (u31Bytes_inj h1 h3 e1).2, rfl, rfl⟩

theorem promiseFrames_head {id q : Nat} {fs : List RawFrame} {b : Bytes} (h : PromiseFrames id q fs b) :
    ∃ x xs, fs = (5, x) :: xs := by
  cases h with
  | one => exact ⟨_, _, rfl⟩
  | many => exact ⟨_, _, rfl⟩

theorem hears_unique {m : Nat} {t t1 t2 : Table} {fs fs' : List RawFrame} {h1 h2 : List Heard} (a : Hears m t fs t1 h1) :
    Hears m t fs' t2 h2 → fs = fs' → t1 = t2 ∧ h1 = h2 := by
  induction a generalizing fs' t2 h2 with
  | nil =>
    intro b he
    cases b with
    | nil => exact ⟨rfl, rfl⟩
    | frame => cases he
    | headers hf _ _ _ =>
      obtain ⟨x, xs, rfl⟩ := headerFrames_head hf
      cases he
    | promise hf _ _ _ =>
      obtain ⟨x, xs, rfl⟩ := promiseFrames_head hf
      cases he
  | frame hk hp hm _ ih =>
    intro b he
    cases b with
    | nil => cases he
    | frame _ _ hm' hr =>
      simp only [List.cons.injEq, Prod.mk.injEq] at he
      obtain ⟨⟨rfl, rfl, rfl, rfl⟩, he⟩ := he
      obtain ⟨rfl, rfl⟩ := ih hr he
      rw [frameMeans_unique hm hm' rfl]
      exact ⟨rfl, rfl⟩
    | headers hf _ _ _ =>
      obtain ⟨x, xs, rfl⟩ := headerFrames_head hf
      simp only [List.cons_append, List.cons.injEq, Prod.mk.injEq] at he
      rw [he.1.1] at hk
      exact absurd hk (by unfold BlocklessKind; decide)
    | promise hf _ _ _ =>
      obtain ⟨x, xs, rfl⟩ := promiseFrames_head hf
      simp only [List.cons_append, List.cons.injEq, Prod.mk.injEq] at he
      rw [he.1.1] at hk
      exact absurd hk (by unfold BlocklessKind; decide)
  | headers hf _ hr _ ih =>
    intro b he
    cases b with
    | nil =>
      obtain ⟨x, xs, rfl⟩ := headerFrames_head hf
      cases he
    | frame hk =>
      obtain ⟨x, xs, rfl⟩ := headerFrames_head hf
      simp only [List.cons_append, List.cons.injEq, Prod.mk.injEq] at he
      rw [← he.1.1] at hk
      exact absurd hk (by unfold BlocklessKind; decide)
    | headers hf' _ hr' hs' =>
      obtain ⟨rfl, rfl, rfl, rfl⟩ := headerFrames_prefix hf hf' he
      obtain ⟨rfl, rfl⟩ := reads_unique hr hr'
      obtain ⟨rfl, rfl⟩ := ih hs' rfl
      exact ⟨rfl, rfl⟩
    | promise hf' _ _ _ =>
      obtain ⟨x, xs, rfl⟩ := headerFrames_head hf
      obtain ⟨y, ys, rfl⟩ := promiseFrames_head hf'
      simp at he
  | promise hf _ hr _ ih =>
    intro b he
    cases b with
    | nil =>
      obtain ⟨x, xs, rfl⟩ := promiseFrames_head hf
      cases he
    | frame hk =>
      obtain ⟨x, xs, rfl⟩ := promiseFrames_head hf
      simp only [List.cons_append, List.cons.injEq, Prod.mk.injEq] at he
      rw [← he.1.1] at hk
      exact absurd hk (by unfold BlocklessKind; decide)
    | headers hf' _ _ _ =>
      obtain ⟨x, xs, rfl⟩ := promiseFrames_head hf
      obtain ⟨y, ys, rfl⟩ := headerFrames_head hf'
      simp at he
    | promise hf' _ hr' hs' =>
      obtain ⟨rfl, rfl, rfl, rfl⟩ := promiseFrames_prefix hf hf' he
      obtain ⟨rfl, rfl⟩ := reads_unique hr hr'
      obtain ⟨rfl, rfl⟩ := ih hs' rfl
      exact ⟨rfl, rfl⟩

theorem hears_short {m : Nat} {t t1 : Table} {fs : List RawFrame} {hs : List Heard} (a : Hears m t fs t1 hs) :
    ∀ f ∈ fs, f.2.2.2.length ≤ m := by
  induction a with
  | nil => simp
  | frame _ h _ _ ih =>
    intro f hf
    rcases List.mem_cons.mp hf with rfl | hf
    · exact h
    · exact ih f hf
  | headers _ h _ _ ih =>
    intro f hf
    rcases List.mem_append.mp hf with hf | hf
    · exact h f hf
    · exact ih f hf
  | promise _ h _ _ ih =>
    intro f hf
    rcases List.mem_append.mp hf with hf | hf
    · exact h f hf
    · exact ih f hf

theorem hears_append {m : Nat} {t1 t2 t3 : Table} {f1 f2 : List RawFrame} {h1 h2 : List Heard}
    (a : Hears m t1 f1 t2 h1) (b : Hears m t2 f2 t3 h2) : Hears m t1 (f1 ++ f2) t3 (h1 ++ h2) := by
  induction a with
  | nil => exact b
  | frame k l x _ ih => exact .frame k l x (ih b)
  | headers k l x _ ih => rw [List.append_assoc]; exact .headers k l x (ih b)
  | promise k l x _ ih => rw [List.append_assoc]; exact .promise k l x (ih b)

theorem hearsBytes_append {m : Nat} {t1 t2 t3 : Table} {b1 b2 : Bytes} {h1 h2 : List Heard}
    (a : HearsBytes m t1 b1 t2 h1) (b : HearsBytes m t2 b2 t3 h2) : HearsBytes m t1 (b1 ++ b2) t3 (h1 ++ h2) := by
  obtain ⟨f1, rfl, i1, a⟩ := a
  obtain ⟨f2, rfl, i2, b⟩ := b
  refine ⟨f1 ++ f2, by simp [wireFrames], ?_, hears_append a b⟩
  intro f hf
  rcases List.mem_append.mp hf with hf | hf
  · exact i1 f hf
  · exact i2 f hf

/-! ## What the code writes -/

theorem encodeHeaders_total (hs : List Header) : ∀ (te : HeaderIndex), TableInv te →
    ∃ bs te', encodeHeaders te hs = .ok (bs, te') ∧ TableInv te' ∧ te'.maxSize = te.maxSize := by
  induction hs with
  | nil => intro te ht; exact ⟨[], te, rfl, ht, rfl⟩
  | cons h hs ih =>
    intro te ht
    have one : ∃ b te1, encodeHeader te h = .ok (b, te1) ∧ TableInv te1 ∧ te1.maxSize = te.maxSize := by
      obtain ⟨t', ha, hi, hm, -⟩ := addHeader_spec te h ht.1
      unfold encodeHeader
      split
      · exact ⟨_, t', by rw [ha]; rfl, hi, hm⟩
      · exact ⟨_, t', by rw [ha]; rfl, hi, hm⟩
      · exact ⟨_, te, rfl, ht, rfl⟩
    obtain ⟨b, te1, h1, h2, m1⟩ := one
    obtain ⟨bs, te2, h3, h4, m2⟩ := ih te1 h2
    refine ⟨b ++ bs, te2, ?_, h4, by rw [m2, m1]⟩
    simp only [encodeHeaders, h1, Res.bind_ok, h3]

theorem tableInv_length {t : HeaderIndex} (ht : TableInv t) (hm : t.maxSize < 2 ^ 32) : t.table.length ≤ 2 ^ 27 := by
  have h1 := length_le_tableSize t.table
  have h2 := ht.1
  have h3 := ht.2
  unfold SizeOk at h2
  omega

theorem encodeHeader_inv {te te' : HeaderIndex} {h : Header} {b : Bytes} (ht : TableInv te)
    (he : encodeHeader te h = .ok (b, te')) : TableInv te' ∧ te'.maxSize = te.maxSize := by
  obtain ⟨bs, t2, h1, h2, h3⟩ := encodeHeaders_total [h] te ht
  simp only [encodeHeaders, he, Res.bind_ok, Res.ok.injEq, Prod.mk.injEq] at h1
  rw [h1.2]
  exact ⟨h2, h3⟩

theorem encodeHeaders_length (hs : List Header) : ∀ {te te' : HeaderIndex} {bs : Bytes}, TableInv te → te.maxSize < 2 ^ 32 →
    (∀ h ∈ hs, HeaderOk h) → encodeHeaders te hs = .ok (bs, te') → bs.length ≤ (hs.map encodedBound).sum := by
  induction hs with
  | nil =>
    intro te te' bs _ _ _ he
    simp only [encodeHeaders, Res.ok.injEq, Prod.mk.injEq] at he
    simp [← he.1]
  | cons h hs ih =>
    intro te te' bs hi hm hh he
    unfold encodeHeaders at he
    obtain ⟨⟨b, t1⟩, h1, he⟩ := (Res.bind_eq_ok ..).mp he
    obtain ⟨⟨b2, t2⟩, h2, he⟩ := (Res.bind_eq_ok ..).mp he
    simp only [Res.ok.injEq, Prod.mk.injEq] at he
    obtain ⟨rfl, rfl⟩ := he
    obtain ⟨i1, i2⟩ := encodeHeader_inv hi h1
    have := encodeHeader_length (hh h (by simp)).nameLen (hh h (by simp)).valueLen (tableInv_length hi hm) h1
    have := ih i1 (by omega) (fun x hx => hh x (by simp [hx])) h2
    simp only [List.length_append, List.map_cons, List.sum_cons]
    omega

/-- A block that fits is one fragment. -/
theorem blockFragments_fits (m : Nat) (hs : List Header) : ∀ {te te' : HeaderIndex} {cur : Bytes} {frags : List Bytes},
    TableInv te → te.maxSize < 2 ^ 32 → (∀ h ∈ hs, HeaderOk h) → cur.length + (hs.map encodedBound).sum ≤ m →
    blockFragments m te cur hs = .ok (frags, te') → ∃ b, frags = [b] := by
  induction hs with
  | nil =>
    intro te te' cur frags _ _ _ _ h
    simp only [blockFragments, Res.ok.injEq, Prod.mk.injEq] at h
    exact ⟨cur, h.1.symm⟩
  | cons x hs ih =>
    intro te te' cur frags hi hm hh hsz h
    simp only [List.map_cons, List.sum_cons] at hsz
    unfold blockFragments at h
    rw [if_neg (by unfold encodedBound at hsz; omega)] at h
    obtain ⟨⟨b, t1⟩, h1, h⟩ := (Res.bind_eq_ok ..).mp h
    obtain ⟨i1, i2⟩ := encodeHeader_inv hi h1
    have := encodeHeader_length (hh x (by simp)).nameLen (hh x (by simp)).valueLen (tableInv_length hi hm) h1
    exact ih i1 (by omega) (fun y hy => hh y (by simp [hy])) (by rw [List.length_append]; omega) h

theorem codeContinuations_rfc (id : Nat) (flags : UInt8) (bs : List Bytes) (hb : bs ≠ []) :
    Continued id (codeContinuations id flags bs) bs.flatten := by
  induction bs with
  | nil => exact absurd rfl hb
  | cons b bs ih =>
    cases bs with
    | nil =>
      simp only [codeContinuations, List.flatten_cons, List.flatten_nil, List.append_nil]
      exact .last (by clear ih; revert flags; decide +kernel)
    | cons c cs =>
      simp only [codeContinuations, List.flatten_cons] at ih ⊢
      exact .more (by decide) (ih (by simp))

theorem codeHeaderFrames_rfc (id : Nat) (flags : UInt8) (bs : List Bytes) (hb : bs ≠ []) (hid : id ≠ 0)
    (hf : flags &&& 0x28 = 0) :
    HeaderFrames id (flags &&& 1 == 1 && bs.length == 1) (codeHeaderFrames id flags bs) bs.flatten := by
  match bs with
  | [] => exact absurd rfl hb
  | [b] =>
    simp only [codeHeaderFrames, List.flatten_cons, List.flatten_nil, List.append_nil]
    refine .one hid (by revert flags; decide +kernel) ?_ (by clear hf; revert flags; decide +kernel)
    have : (flags ||| 4) &&& 1 = flags &&& 1 := by clear hf; revert flags; decide +kernel
    rw [this]
    simp
  | b :: c :: cs =>
    simp only [codeHeaderFrames]
    rw [List.flatten_cons]
    have : (flags &&& 1 == 1 && (b :: c :: cs).length == 1) = false := by simp
    rw [this]
    exact .many hid (by decide) (by decide) (by decide) (codeContinuations_rfc id _ _ (by simp))

theorem codeHeaderFrames_ids (id : Nat) (fl : UInt8) (bs : List Bytes) :
    ∀ f ∈ codeHeaderFrames id fl bs, f.2.2.1 = id ∧ f.2.2.2 ∈ bs := by
  have hc : ∀ bs, ∀ f ∈ codeContinuations id fl bs, f.2.2.1 = id ∧ f.2.2.2 ∈ bs := by
    intro bs
    induction bs with
    | nil => simp [codeContinuations]
    | cons b bs ih =>
      cases bs with
      | nil => simp [codeContinuations]
      | cons c cs =>
        intro f hf
        simp only [codeContinuations, List.mem_cons] at hf ih
        rcases hf with rfl | hf
        · simp
        · have := ih f hf; exact ⟨this.1, List.mem_cons_of_mem _ (by simpa using this.2)⟩
  match bs with
  | [] => simp [codeHeaderFrames]
  | [b] => simp [codeHeaderFrames]
  | b :: c :: cs =>
    intro f hf
    simp only [codeHeaderFrames, List.mem_cons] at hf
    rcases hf with rfl | hf
    · simp
    · have := hc _ f hf; exact ⟨this.1, List.mem_cons_of_mem _ this.2⟩

theorem encodeHeaders_append (a b : List Header) : ∀ (t : HeaderIndex), encodeHeaders t (a ++ b) = (do
      let (x, t1) ← encodeHeaders t a
      let (y, t2) ← encodeHeaders t1 b
      .ok (x ++ y, t2)) := by
  induction a with
  | nil =>
    intro t
    simp only [List.nil_append, encodeHeaders, Res.bind_ok]
    cases encodeHeaders t b with
    | ok r => rfl
    | err e => rfl
    | panic => rfl
  | cons h a ih =>
    intro t
    simp only [List.cons_append, encodeHeaders, ih]
    cases encodeHeader t h with
    | ok r =>
      simp only [Res.bind_ok]
      cases encodeHeaders r.2 a with
      | ok q =>
        simp only [Res.bind_ok]
        cases encodeHeaders q.2 b with
        | ok z => simp
        | err e => rfl
        | panic => rfl
      | err e => rfl
      | panic => rfl
    | err e => rfl
    | panic => rfl

/-- One pseudo-header of a promise is taken out of the fields and written. -/
theorem takeHeader_spec {n : Bytes} (hn : n ∈ pseudoNames) {hs rest : List Header} (hh : PlainFields hs)
    (hr : ∀ e ∈ rest, e.1 ∈ pseudoNames ∧ e.1 ≠ n) (o : Option Bytes) {t t' : HeaderIndex} {b : Bytes}
    (he : encodeHeaders t (o.map fun v => (n, v)).toList = .ok (b, t')) :
    takeHeader n (hs ++ ((o.map fun v => (n, v)).toList ++ rest)) t = .ok (b, hs ++ rest, t') := by
  have skip : ∀ (l m : List Header), (∀ e ∈ l, nameEq e.1 n = false) →
      HeaderMap.remove (l ++ m) n = ((HeaderMap.remove m n).1, l ++ (HeaderMap.remove m n).2) := by
    intro l m hl
    induction l with
    | nil => rfl
    | cons e l ih =>
      simp only [List.cons_append, HeaderMap.remove]
      rw [if_neg (by rw [hl e (by simp)]; decide), ih (fun x hx => hl x (by simp [hx]))]
  have h1 : ∀ e ∈ hs, nameEq e.1 n = false := by
    intro e hx
    refine nameEq_plain_ne (hh.plain e hx).1 (pseudoNames_plain n hn).1 ?_
    rintro rfl
    exact not_spec_not_pseudo (plain_fields_spec hh e hx) hn
  have h2 : ∀ e ∈ rest, nameEq e.1 n = false := fun e hx =>
    nameEq_plain_ne (pseudoNames_plain _ (hr e hx).1).1 (pseudoNames_plain n hn).1 (hr e hx).2
  have hnn : nameEq n n = true := nameEq_refl n
  unfold takeHeader
  rw [skip hs _ h1]
  cases o with
  | none =>
    simp only [Option.map_none, Option.toList_none, encodeHeaders, Res.ok.injEq, Prod.mk.injEq] at he
    obtain ⟨rfl, rfl⟩ := he
    have := skip rest [] h2
    simp only [List.append_nil] at this
    simp only [Option.map_none, Option.toList_none, List.nil_append, this]
    simp [HeaderMap.remove]
  | some v =>
    simp only [Option.map_some, Option.toList_some, List.cons_append, List.nil_append, HeaderMap.remove, hnn, if_true]
    simp only [Option.map_some, Option.toList_some, encodeHeaders, Res.bind_eq_ok] at he
    obtain ⟨⟨b1, t1⟩, h3, ⟨b2, t2⟩, h4, he⟩ := he
    simp only [Res.ok.injEq, Prod.mk.injEq] at h4 he
    obtain ⟨rfl, rfl⟩ := h4
    obtain ⟨rfl, rfl⟩ := he
    simp [h3]

/-- A control frame is heard as itself. -/
theorem control_heard (m w : Nat) (hm : 2 ^ 14 ≤ m) (f : Frame) (h : SayOk m (.control f)) (te : HeaderIndex) (T : Table) :
    ∃ bytes n, f.encode w te = some (.ok (bytes, n, te)) ∧ HearsBytes m T bytes T [.frame f] := by
  obtain ⟨h, hr, hg⟩ := h
  have one : ∀ (kind flags : UInt8) (id : Nat) (payload : Bytes), BlocklessKind kind → payload.length < 2 ^ 24 → id < 2 ^ 31 →
      payload.length ≤ m → Checked kind flags id payload →
      readFrame {} 0 (wireFrame kind flags id payload ++ []) = some (.ok (f, {}, [])) →
      HearsBytes m T (wireFrame kind flags id payload) T [.frame f] := by
    intro kind flags id payload hk hl hi hlm hc hrd
    have := (C75_checked_partial kind flags id payload [] {} 0 f hk hl hi hc).mp hrd
    exact ⟨[(kind, flags, id, payload)], by simp [wireFrames], by simpa using hi, .frame hk hlm this .nil⟩
  cases f with
  | ping p =>
    have hp : p.payload.length = 8 := h
    obtain ⟨e1, -, e3⟩ := C15_ping p hp [] {} 0
    refine ⟨p.encode.1, p.encode.2, by simp only [Frame.encode], ?_⟩
    rw [e1] at e3 ⊢
    exact one _ _ _ _ (by unfold BlocklessKind; decide) (by omega) (by decide) (by omega)
      ⟨by cases p.ack <;> decide, (by intro h; cases h), (by intro h; cases h), fun _ => rfl⟩ e3
  | goAway g =>
    obtain ⟨e1, -, e3⟩ := C15_goAway g h [] {} 0
    obtain ⟨h1, h2, h3⟩ := h
    have h4 := hg g rfl
    refine ⟨g.encode.1, g.encode.2, by simp only [Frame.encode], ?_⟩
    rw [e1] at e3 ⊢
    exact one _ _ _ _ (by unfold BlocklessKind; decide) (by simp; omega) (by decide) (by simp; omega)
      ⟨by decide, (by intro h; cases h), (by intro h; cases h), fun _ => rfl⟩ e3
  | windowUpdate u =>
    obtain ⟨e1, -, e3⟩ := C15_windowUpdate u h [] {} 0
    obtain ⟨h1, h2, h3⟩ := h
    refine ⟨u.encode.1, u.encode.2, by simp only [Frame.encode], ?_⟩
    rw [e1] at e3 ⊢
    exact one _ _ _ _ (by unfold BlocklessKind; decide) (by simp) h1 (by simp; omega)
      ⟨by decide, (by intro h; cases h), (by intro h; cases h), (by intro h; cases h)⟩ e3
  | reset r =>
    obtain ⟨e1, -, e3⟩ := C15_reset r h [] {} 0
    obtain ⟨h1, h2⟩ := h
    refine ⟨r.encode.1, r.encode.2, by simp only [Frame.encode], ?_⟩
    rw [e1] at e3 ⊢
    exact one _ _ _ _ (by unfold BlocklessKind; decide) (by simp) h1 (by simp; omega)
      ⟨by decide, (by intro h; cases h), fun _ => hr r rfl, (by intro h; cases h)⟩ e3
  | settings s =>
    have h' : LegalSettings s := h
    obtain ⟨⟨payload, e1⟩, e2, e3⟩ := C17_roundtrip s h' [] {} 0
    refine ⟨s.encode.1, s.encode.2, by simp only [Frame.encode], ?_⟩
    have hpl : payload.length ≤ 42 := by
      have e4 : s.encode.1.length = 9 + s.payloadLen := by
        rw [← settings_payload_length]; simp [Settings.encode]
      have := payloadLen_le s
      rw [e1, wireFrame_length] at e4
      omega
    have hfl : s.flags = 0 ∨ s.flags = 1 := by
      rcases h' with rfl | h'
      · exact Or.inr rfl
      · exact Or.inl h'.1
    rw [e1] at e3 ⊢
    refine one _ _ _ _ (by unfold BlocklessKind; decide) (by omega) (by decide) (by omega)
      ⟨by rcases hfl with h | h <;> rw [h] <;> decide, (by intro h; cases h), (by intro h; cases h), (by intro h; cases h)⟩ e3
  | _ => exact absurd h (by simp [ControlFrameOk])

end Webparse
