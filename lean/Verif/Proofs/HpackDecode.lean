import Verif.Proofs.HpackInt
import Verif.Proofs.HuffmanDecode
import Verif.Proofs.HpackTable
import Verif.Proofs.Utf8
import Verif.Spec.HpackDecode

/-! Lemmas about the HPACK decoder: locality, progress, no panic. -/

namespace Webparse
open Spec

theorem decodeInteger_extend {buf : Bytes} {p v n : Nat} (h : decodeInteger buf p = .ok (v, n))
    (more : Bytes) : decodeInteger (buf ++ more) p = .ok (v, n) := by
  obtain ⟨_, _, hl, hm⟩ := decodeInteger_consumed h
  have := hm (buf.drop n ++ more)
  rwa [← List.append_assoc, List.take_append_drop] at this

theorem decodeString_extend {buf : Bytes} {s : Bytes} {n : Nat} (h : decodeString buf = .ok (s, n)) :
    1 ≤ n ∧ n ≤ buf.length ∧ ∀ more, decodeString (buf ++ more) = .ok (s, n) := by
  unfold decodeString at h
  obtain ⟨⟨len, c⟩, hi, h⟩ := (Res.bind_eq_ok ..).mp h
  obtain ⟨h1, _, hl, _⟩ := decodeInteger_consumed hi
  simp only at h
  split at h
  · simp at h
  rename_i hlen
  have hraw : ∀ more : Bytes, ((buf ++ more).drop c).take len = (buf.drop c).take len := by
    intro more
    rw [List.drop_append_of_le_length hl, List.take_append_of_le_length (by simp; omega)]
  have hne : buf ≠ [] := by rintro rfl; simp at hl; omega
  have hhead : ∀ more : Bytes, (buf ++ more).headD 0 = buf.headD 0 := by
    intro more; cases buf <;> simp at *
  have hn : n = c + len := by
    split at h
    · obtain ⟨d, _, h⟩ := (Res.bind_eq_ok ..).mp h
      simp at h; exact h.2.symm
    · simp at h; exact h.2.symm
  refine ⟨by omega, by omega, ?_⟩
  intro more
  unfold decodeString
  rw [decodeInteger_extend hi more]
  simp only [Res.bind_ok]
  rw [if_neg (by simp; omega), hraw, hhead]
  exact h

theorem decodeString_no_panic (buf : Bytes) : decodeString buf ≠ .panic := by
  unfold decodeString
  cases h : decodeInteger buf 7 with
  | panic => exact absurd h (decodeInteger_no_panic _ _)
  | err e => simp
  | ok r =>
    simp only [Res.bind_ok]
    split
    · simp
    split
    · cases h2 : huffDecode ((buf.drop r.2).take r.1) with
      | panic => exact absurd h2 (huffDecode_no_panic _)
      | err e => simp
      | ok r => simp
    · simp

theorem decodeLiteralName_extend {t : HeaderIndex} {buf : Bytes} {ti c c2 : Nat} {name : Bytes}
    (hl : c ≤ buf.length) (hname : decodeLiteralName t buf ti c = .ok (name, c2)) :
    c ≤ c2 ∧ c2 ≤ buf.length ∧ ∀ more, decodeLiteralName t (buf ++ more) ti c = .ok (name, c2) := by
  unfold decodeLiteralName at hname
  split at hname
  · rename_i h0
    obtain ⟨⟨nm, nl⟩, hn, hname⟩ := (Res.bind_eq_ok ..).mp hname
    obtain ⟨a, b, hex⟩ := decodeString_extend hn
    simp at hname b
    refine ⟨by omega, by omega, ?_⟩
    intro more
    unfold decodeLiteralName
    rw [if_pos h0, List.drop_append_of_le_length hl, hex more]
    simp [hname]
  · rename_i h0
    have hname' := hname
    obtain ⟨⟨nm, nl⟩, hn, hname⟩ := (Res.bind_eq_ok ..).mp hname
    simp at hname
    refine ⟨by omega, by omega, ?_⟩
    intro more
    unfold decodeLiteralName
    rw [if_neg h0]
    exact hname'

theorem decodeLiteralName_no_panic (t : HeaderIndex) (buf : Bytes) (ti c : Nat) :
    decodeLiteralName t buf ti c ≠ .panic := by
  unfold decodeLiteralName
  split
  · cases h2 : decodeString (buf.drop c) with
    | panic => exact absurd h2 (decodeString_no_panic _)
    | err e => simp
    | ok r2 => simp
  · cases h2 : getFromIndex t ti <;> simp [Res.ofOption]

theorem decodeLiteral_extend {t : HeaderIndex} {buf : Bytes} {i : Bool} {x : Header} {n : Nat}
    (h : decodeLiteral t buf i = .ok (x, n)) :
    1 ≤ n ∧ n ≤ buf.length ∧ ∀ more, decodeLiteral t (buf ++ more) i = .ok (x, n) := by
  unfold decodeLiteral at h
  simp only at h
  obtain ⟨⟨ti, c⟩, hi, h⟩ := (Res.bind_eq_ok ..).mp h
  obtain ⟨h1, _, hl, _⟩ := decodeInteger_consumed hi
  simp only at h
  obtain ⟨⟨name, c2⟩, hname, h⟩ := (Res.bind_eq_ok ..).mp h
  simp only at h
  obtain ⟨⟨value, vl⟩, hval, h⟩ := (Res.bind_eq_ok ..).mp h
  simp only at h
  obtain ⟨hv1, hv2, hv3⟩ := decodeString_extend hval
  simp at h
  obtain ⟨rfl, rfl⟩ := h
  obtain ⟨hc1, hc2, hname'⟩ := decodeLiteralName_extend hl hname
  simp only [List.length_drop] at hv2
  refine ⟨by omega, by omega, ?_⟩
  intro more
  unfold decodeLiteral
  simp only
  rw [decodeInteger_extend hi more]
  simp only [Res.bind_ok]
  rw [hname' more]
  simp only [Res.bind_ok]
  rw [List.drop_append_of_le_length hc2, hv3 more]
  simp

theorem decodeIndexed_consumed {t : HeaderIndex} {o : UInt8} {h : Header} {n : Nat}
    (e : decodeIndexed t o = .ok (h, n)) : n = 1 ∧ getFromIndex t (o &&& 0x7f).toNat = some h := by
  unfold decodeIndexed at e
  cases hg : getFromIndex t (o &&& 0x7f).toNat with
  | none => rw [hg] at e; simp [Res.ofOption] at e
  | some h' =>
    rw [hg] at e
    simp [Res.ofOption] at e
    exact ⟨e.2.symm, by rw [e.1]⟩

/-- A successful round: how much it consumes, and that later bytes do not matter. -/
theorem decodeStep_extend {t : HeaderIndex} {o : UInt8} {rest : Bytes} {hs : List Header}
    {t' : HeaderIndex} {c : Nat} (h : decodeStep t o rest = .ok (hs, t', c)) :
    c ≤ rest.length + 1 ∧ (c = 0 ↔ fieldRep o = .sizeUpdate) ∧
      ∀ more, decodeStep t o (rest ++ more) = .ok (hs, t', c) := by
  unfold decodeStep at h
  split at h
  · rename_i hf
    obtain ⟨⟨x, n⟩, hi, h⟩ := (Res.bind_eq_ok ..).mp h
    simp at h
    obtain ⟨rfl, rfl, rfl⟩ := h
    have hn := (decodeIndexed_consumed hi).1
    refine ⟨by omega, by simp [hf]; omega, ?_⟩
    intro more
    simp [decodeStep, hf, hi]
  · rename_i hf
    obtain ⟨⟨x, n⟩, hi, h⟩ := (Res.bind_eq_ok ..).mp h
    obtain ⟨t2, ha, h⟩ := (Res.bind_eq_ok ..).mp h
    simp at h
    obtain ⟨rfl, rfl, rfl⟩ := h
    obtain ⟨h1, h2, h3⟩ := decodeLiteral_extend hi
    refine ⟨by simpa using h2, by simp [hf]; omega, ?_⟩
    intro more
    have := h3 more
    rw [List.cons_append] at this
    simp [decodeStep, hf, this, ha]
  all_goals try
    (rename_i hf
     obtain ⟨⟨x, n⟩, hi, h⟩ := (Res.bind_eq_ok ..).mp h
     simp at h
     obtain ⟨rfl, rfl, rfl⟩ := h
     obtain ⟨h1, h2, h3⟩ := decodeLiteral_extend hi
     refine ⟨by simpa using h2, by simp [hf]; omega, ?_⟩
     intro more
     have := h3 more
     rw [List.cons_append] at this
     simp [decodeStep, hf, this])
  · rename_i hf
    simp at h
    obtain ⟨rfl, rfl, rfl⟩ := h
    exact ⟨by omega, by simp [hf], by intro more; simp [decodeStep, hf]⟩

theorem decodeLiteral_no_panic (t : HeaderIndex) (buf : Bytes) (i : Bool) :
    decodeLiteral t buf i ≠ .panic := by
  unfold decodeLiteral
  simp only
  cases h : decodeInteger buf (if i then 6 else 4) with
  | panic => exact absurd h (decodeInteger_no_panic _ _)
  | err e => simp
  | ok r =>
    simp only [Res.bind_ok]
    have hv : ∀ (name : Bytes) (c : Nat),
        ((decodeString (buf.drop c)).bind fun p => Res.ok ((name, p.1), c + p.2)) ≠ .panic := by
      intro name c
      cases h2 : decodeString (buf.drop c) with
      | panic => exact absurd h2 (decodeString_no_panic _)
      | err e => simp [Res.bind]
      | ok r => simp [Res.bind]
    cases h2 : decodeLiteralName t buf r.1 r.2 with
    | panic => exact absurd h2 (decodeLiteralName_no_panic _ _ _ _)
    | err e => simp
    | ok r2 => simp only [Res.bind_ok]; exact hv _ _

/-- A round never panics and keeps the table invariant. -/
theorem decodeStep_safe {t : HeaderIndex} (ht : TableInv t) (o : UInt8) (rest : Bytes) :
    decodeStep t o rest ≠ .panic ∧
      ∀ hs t' c, decodeStep t o rest = .ok (hs, t', c) → TableInv t' ∧ t'.maxSize = t.maxSize ∧
        (fieldRep o = .sizeUpdate ∨ ∃ h, hs = [h]) := by
  unfold decodeStep
  split
  · cases hi : decodeIndexed t o with
    | panic =>
      unfold decodeIndexed at hi
      cases h2 : getFromIndex t (o &&& 0x7f).toNat <;> rw [h2] at hi <;> simp [Res.ofOption] at hi
    | err e => simp
    | ok r =>
      simp only [Res.bind_ok]
      refine ⟨by simp, ?_⟩
      intro hs t' c h
      simp at h
      obtain ⟨rfl, rfl, rfl⟩ := h
      exact ⟨ht, rfl, Or.inr ⟨_, rfl⟩⟩
  · cases hi : decodeLiteral t (o :: rest) true with
    | panic => exact absurd hi (decodeLiteral_no_panic _ _ _)
    | err e => simp
    | ok r =>
      obtain ⟨t2, ha, hinv, hmax, _⟩ := addHeader_spec t r.1 ht.1
      simp only [Res.bind_ok, ha]
      refine ⟨by simp, ?_⟩
      intro hs t' c h
      simp at h
      obtain ⟨rfl, rfl, rfl⟩ := h
      exact ⟨hinv, hmax, Or.inr ⟨_, rfl⟩⟩
  · cases hi : decodeLiteral t (o :: rest) false with
    | panic => exact absurd hi (decodeLiteral_no_panic _ _ _)
    | err e => simp
    | ok r =>
      simp only [Res.bind_ok]
      refine ⟨by simp, ?_⟩
      intro hs t' c h
      simp at h
      obtain ⟨rfl, rfl, rfl⟩ := h
      exact ⟨ht, rfl, Or.inr ⟨_, rfl⟩⟩
  · cases hi : decodeLiteral t (o :: rest) false with
    | panic => exact absurd hi (decodeLiteral_no_panic _ _ _)
    | err e => simp
    | ok r =>
      simp only [Res.bind_ok]
      refine ⟨by simp, ?_⟩
      intro hs t' c h
      simp at h
      obtain ⟨rfl, rfl, rfl⟩ := h
      exact ⟨ht, rfl, Or.inr ⟨_, rfl⟩⟩
  · rename_i hf
    refine ⟨by simp, ?_⟩
    intro hs t' c h
    simp at h
    obtain ⟨rfl, rfl, rfl⟩ := h
    exact ⟨ht, rfl, Or.inl hf⟩

theorem decodeRun_mono {n : Nat} : ∀ {t : HeaderIndex} {buf : Bytes} {r},
    decodeRun n t buf = some r → ∀ k, decodeRun (n + k) t buf = some r := by
  induction n with
  | zero =>
    intro t buf r h k
    cases buf with
    | nil => cases k <;> simpa [decodeRun] using h
    | cons o rest => simp [decodeRun] at h
  | succ n ih =>
    intro t buf r h k
    cases buf with
    | nil => simpa [decodeRun, Nat.succ_add] using h
    | cons o rest =>
      rw [Nat.succ_add]
      simp only [decodeRun] at h ⊢
      cases hs : decodeStep t o rest with
      | err e => rw [hs] at h; simpa using h
      | panic => rw [hs] at h; simpa using h
      | ok x =>
        obtain ⟨hh, t', c⟩ := x
        rw [hs] at h
        simp only at h ⊢
        cases hr : decodeRun n t' ((o :: rest).drop c) with
        | none => rw [hr] at h; simp at h
        | some r' =>
          rw [ih hr k]
          rw [hr] at h
          exact h

theorem decodeRun_step {n : Nat} {t t' : HeaderIndex} {o : UInt8} {rest : Bytes} {hs : List Header} {c : Nat}
    (h : decodeStep t o rest = .ok (hs, t', c)) :
    decodeRun (n + 1) t (o :: rest)
      = (decodeRun n t' ((o :: rest).drop c)).map (prependHeaders hs) := by
  simp only [decodeRun, h]
  cases decodeRun n t' ((o :: rest).drop c) with
  | none => rfl
  | some r => cases r <;> rfl

theorem decodeRun_append {n : Nat} : ∀ {t t' : HeaderIndex} {a b : Bytes} {hs : List Header} {m : Nat} {r},
    decodeRun n t a = some (.ok (hs, t')) → decodeRun m t' b = some r →
    decodeRun (n + m) t (a ++ b) = some (prependHeaders hs r) := by
  induction n with
  | zero =>
    intro t t' a b hs m r ha hb
    cases a with
    | nil =>
      simp [decodeRun] at ha
      obtain ⟨rfl, rfl⟩ := ha
      rw [List.nil_append, Nat.zero_add, hb]
      cases r <;> rfl
    | cons o rest => simp [decodeRun] at ha
  | succ n ih =>
    intro t t' a b hs m r ha hb
    cases a with
    | nil =>
      simp [decodeRun] at ha
      obtain ⟨rfl, rfl⟩ := ha
      rw [List.nil_append, Nat.add_comm, decodeRun_mono hb]
      cases r <;> rfl
    | cons o rest =>
      cases hst : decodeStep t o rest with
      | err e => simp [decodeRun, hst] at ha
      | panic => simp [decodeRun, hst] at ha
      | ok x =>
        obtain ⟨hh, t1, c⟩ := x
        obtain ⟨hc, _, hex⟩ := decodeStep_extend hst
        rw [decodeRun_step hst] at ha
        rw [Nat.succ_add, List.cons_append, decodeRun_step (hex b)]
        rw [← List.cons_append, List.drop_append_of_le_length (by simpa using hc)]
        cases hr : decodeRun n t1 ((o :: rest).drop c) with
        | none => rw [hr] at ha; simp at ha
        | some r1 =>
          rw [hr] at ha
          cases r1 with
          | err e => simp [prependHeaders] at ha
          | panic => simp [prependHeaders] at ha
          | ok y =>
            obtain ⟨hs1, t2⟩ := y
            simp [prependHeaders] at ha
            obtain ⟨rfl, rfl⟩ := ha
            rw [ih hr hb]
            cases r <;> simp [prependHeaders]

theorem fieldRep_sizeUpdate (o : UInt8) : o.toNat / 32 = 1 ↔ fieldRep o = .sizeUpdate := by
  revert o; decide +kernel

theorem decodeRun_diverges {t : HeaderIndex} {buf : Bytes} (h : ReachesSizeUpdate t buf) :
    ∀ n, decodeRun n t buf = none := by
  induction h with
  | here hf =>
    intro n
    induction n with
    | zero => rfl
    | succ n ih =>
      rw [decodeRun_step (c := 0) (hs := []) (by simp only [decodeStep, (fieldRep_sizeUpdate _).mp hf]; rfl)]
      simp [ih]
  | step hst _ ih =>
    intro n
    cases n with
    | zero => rfl
    | succ n => rw [decodeRun_step hst, ih]; rfl

theorem decodeRun_terminates (n : Nat) : ∀ {t : HeaderIndex} {buf : Bytes}, buf.length ≤ n →
    ¬ ReachesSizeUpdate t buf → ∃ r, decodeRun n t buf = some r := by
  induction n with
  | zero =>
    intro t buf hl _
    cases buf with
    | nil => exact ⟨_, rfl⟩
    | cons o rest => simp at hl
  | succ n ih =>
    intro t buf hl hr
    cases buf with
    | nil => exact ⟨_, rfl⟩
    | cons o rest =>
      cases hst : decodeStep t o rest with
      | err e => exact ⟨.err e, by simp [decodeRun, hst]⟩
      | panic => exact ⟨.panic, by simp [decodeRun, hst]⟩
      | ok x =>
        obtain ⟨hh, t1, c⟩ := x
        obtain ⟨hc, h0, _⟩ := decodeStep_extend hst
        have hcpos : c ≠ 0 := fun hc0 => hr (.here ((fieldRep_sizeUpdate _).mpr (h0.mp hc0)))
        obtain ⟨r, hr'⟩ := ih (t := t1) (buf := (o :: rest).drop c)
          (by simp at hl ⊢; omega) (fun hx => hr (.step hst hx))
        exact ⟨_, by rw [decodeRun_step hst, hr']; rfl⟩

/-- A run that ends at all ends within as many rounds as there are bytes. -/
theorem decodeRun_length {n : Nat} {t : HeaderIndex} {buf : Bytes} {r}
    (h : decodeRun n t buf = some r) : decodeRun buf.length t buf = some r := by
  have hr : ¬ ReachesSizeUpdate t buf := fun hx => by
    rw [decodeRun_diverges hx n] at h; simp at h
  obtain ⟨r', hr'⟩ := decodeRun_terminates buf.length (Nat.le_refl _) hr
  have h1 := decodeRun_mono h buf.length
  have h2 := decodeRun_mono hr' n
  rw [Nat.add_comm, h1] at h2
  rw [hr', h2]

theorem reaches_append {n : Nat} : ∀ {t t' : HeaderIndex} {a b : Bytes} {hs : List Header},
    decodeRun n t a = some (.ok (hs, t')) → ReachesSizeUpdate t' b → ReachesSizeUpdate t (a ++ b) := by
  induction n with
  | zero =>
    intro t t' a b hs ha hb
    cases a with
    | nil =>
      simp [decodeRun] at ha
      obtain ⟨rfl, rfl⟩ := ha
      exact hb
    | cons o rest => simp [decodeRun] at ha
  | succ n ih =>
    intro t t' a b hs ha hb
    cases a with
    | nil =>
      simp [decodeRun] at ha
      obtain ⟨rfl, rfl⟩ := ha
      exact hb
    | cons o rest =>
      cases hst : decodeStep t o rest with
      | err e => simp [decodeRun, hst] at ha
      | panic => simp [decodeRun, hst] at ha
      | ok x =>
        obtain ⟨hh, t1, c⟩ := x
        obtain ⟨hc, _, hex⟩ := decodeStep_extend hst
        rw [decodeRun_step hst] at ha
        cases hr : decodeRun n t1 ((o :: rest).drop c) with
        | none => rw [hr] at ha; simp at ha
        | some r1 =>
          rw [hr] at ha
          cases r1 with
          | err e => simp [prependHeaders] at ha
          | panic => simp [prependHeaders] at ha
          | ok y =>
            obtain ⟨hs1, t2⟩ := y
            simp [prependHeaders] at ha
            obtain ⟨rfl, rfl⟩ := ha
            refine .step (hex b) ?_
            have e : (o :: (rest ++ b)).drop c = (o :: rest).drop c ++ b := by
              rw [← List.cons_append, List.drop_append_of_le_length (by simpa using hc)]
            have := ih hr hb
            rw [← e] at this
            exact this

theorem decodeRun_safe (n : Nat) : ∀ {t : HeaderIndex}, TableInv t → ∀ (buf : Bytes),
    decodeRun n t buf ≠ some .panic ∧
      ∀ hs t', decodeRun n t buf = some (.ok (hs, t')) → TableInv t' ∧ t'.maxSize = t.maxSize := by
  induction n with
  | zero =>
    intro t ht buf
    cases buf with
    | nil => simp [decodeRun, ht]
    | cons o rest => simp [decodeRun]
  | succ n ih =>
    intro t ht buf
    cases buf with
    | nil => simp [decodeRun, ht]
    | cons o rest =>
      obtain ⟨hp, hok⟩ := decodeStep_safe ht o rest
      cases hst : decodeStep t o rest with
      | err e => simp [decodeRun, hst]
      | panic => exact absurd hst hp
      | ok x =>
        obtain ⟨hh, t1, c⟩ := x
        obtain ⟨hinv, hmax, _⟩ := hok _ _ _ hst
        obtain ⟨ip, iok⟩ := ih hinv ((o :: rest).drop c)
        rw [decodeRun_step hst]
        cases hr : decodeRun n t1 ((o :: rest).drop c) with
        | none => simp
        | some r1 =>
          cases r1 with
          | panic => exact absurd hr ip
          | err e => simp [prependHeaders]
          | ok y =>
            simp only [Option.map_some, prependHeaders]
            refine ⟨by simp, ?_⟩
            intro hs t' h
            simp at h
            obtain ⟨_, rfl⟩ := h
            have := iok _ _ hr
            rw [← hmax]
            exact this

end Webparse
