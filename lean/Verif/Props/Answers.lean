import Verif.Model.Answers
import Verif.Proofs.Frame
import Verif.Props.Frame

/-! # C102: answers to PING and SETTINGS; C103: numbers on the wire; C104: `is_partial` -/

namespace Webparse
open Spec

/-! ## C102 -/

/-- C102, the claim: whatever is read as a PING is a frame with eight bytes on stream 0, and it is answered with the same
eight bytes. -/
def C102_statement : Prop :=
  ∀ (t t' : HeaderIndex) (m : Nat) (stream rest : Bytes) (p : Ping),
    readFrame t m stream = some (.ok (.ping p, t', rest)) →
    ∃ flags r payload, payload.length = 8 ∧ (r = 0 ∨ r = 128) ∧
      stream = [0, 0, 8, 6, flags, r, 0, 0, 0] ++ payload ++ rest ∧
      p.retPong.encode = (wireFrame 6 1 0 payload, 17)

theorem kind_ping (b : UInt8) : Kind.ofByte b = .ping ↔ b = 6 := by revert b; decide +kernel

theorem kind_settings (b : UInt8) : Kind.ofByte b = .settings ↔ b = 4 := by revert b; decide +kernel

theorem low7 (b : UInt8) : b.toNat % 128 = 0 ↔ b = 0 ∨ b = 128 := by revert b; decide +kernel

theorem toNat_eight (b : UInt8) : b.toNat = 8 ↔ b = 8 := by revert b; decide +kernel

theorem toNat_nine (b : UInt8) : b.toNat = 9 ↔ b = 9 := by revert b; decide +kernel

theorem toNat_zero (b : UInt8) : b.toNat = 0 ↔ b = 0 := by revert b; decide +kernel

/-- The kind of the frame that `Frame::parse` makes is the one in the header. -/
theorem parse_ping_kind {h : FrameHeader} {buf : Bytes} {t t' : HeaderIndex} {m : Nat} {p : Ping}
    (hp : Frame.parse h buf t m = some (.ok (.ping p, t'))) :
    h.kind = .ping ∧ t' = t ∧ ∃ b, trimPadding h buf = .ok b ∧ Ping.parse h b = .ok p := by
  unfold Frame.parse at hp
  cases hb : trimPadding h buf with
  | err e => rw [hb] at hp; cases hp
  | panic => rw [hb] at hp; cases hp
  | ok b =>
    rw [hb] at hp
    have wf : ∀ {α : Type} {mk : α → Frame} {x : Res α}, wrapFrame t mk x = some (.ok (.ping p, t')) →
        ∃ a, x = .ok a ∧ mk a = .ping p ∧ t' = t := by
      intro α mk x hx
      cases x <;> simp only [wrapFrame, Option.some.injEq, Res.ok.injEq, Prod.mk.injEq, reduceCtorEq] at hx
      exact ⟨_, rfl, hx.1, hx.2.symm⟩
    cases hk : h.kind with
    | ping =>
      rw [hk] at hp
      obtain ⟨a, h1, h2, h3⟩ := wf hp
      cases h2
      exact ⟨rfl, h3, b, rfl, h1⟩
    | headers =>
      rw [hk] at hp
      simp only at hp
      split at hp <;> simp at hp
    | pushPromise => rw [hk] at hp; simp at hp
    | continuation => rw [hk] at hp; simp at hp
    | unregistered => rw [hk] at hp; simp at hp
    | data => rw [hk] at hp; obtain ⟨a, h1, h2, h3⟩ := wf hp; cases h2
    | priority => rw [hk] at hp; obtain ⟨a, h1, h2, h3⟩ := wf hp; cases h2
    | reset => rw [hk] at hp; obtain ⟨a, h1, h2, h3⟩ := wf hp; cases h2
    | settings => rw [hk] at hp; obtain ⟨a, h1, h2, h3⟩ := wf hp; cases h2
    | goAway => rw [hk] at hp; obtain ⟨a, h1, h2, h3⟩ := wf hp; cases h2
    | windowUpdate => rw [hk] at hp; obtain ⟨a, h1, h2, h3⟩ := wf hp; cases h2

/-- C102, partial: what is read as a PING, exactly.  Without the flag 0x8 it is as claimed; with it, which means nothing for
PING, a byte in front of the eight is thrown away. -/
theorem C102_read_iff_partial (t t' : HeaderIndex) (m : Nat) (stream rest : Bytes) (p : Ping) :
    readFrame t m stream = some (.ok (.ping p, t', rest)) ↔
      t' = t ∧ p.payload.length = 8 ∧ ∃ flags r, (r = 0 ∨ r = 128) ∧ flags &&& 0xD2 = 0 ∧ p.ack = (flags &&& 1 == 1) ∧
        ((flags &&& 8 = 0 ∧ stream = [0, 0, 8, 6, flags, r, 0, 0, 0] ++ p.payload ++ rest) ∨
         (flags &&& 8 = 8 ∧ ∃ pad, pad.toNat ≤ 9 ∧ stream = [0, 0, 9, 6, flags, r, 0, 0, 0] ++ pad :: p.payload ++ rest)) := by
  have hpad : ∀ f : UInt8, flagIsPadded f = true ↔ f &&& 8 = 8 := by decide +kernel
  have hnpad : ∀ f : UInt8, flagIsPadded f = false ↔ f &&& 8 = 0 := by decide +kernel
  constructor
  · intro h
    unfold readFrame at h
    cases hh : FrameHeader.parse stream with
    | err e => rw [hh] at h; cases h
    | panic => rw [hh] at h; cases h
    | ok x =>
      obtain ⟨head, r0⟩ := x
      rw [hh] at h
      simp only at h
      split at h
      · cases h
      · rename_i hlen
        cases hf : Frame.parse head (r0.take head.length) t m with
        | none => rw [hf] at h; cases h
        | some y =>
          cases y with
          | err e => rw [hf] at h; cases h
          | panic => rw [hf] at h; cases h
          | ok z =>
            obtain ⟨fr, t2⟩ := z
            rw [hf] at h
            simp only [Option.some.injEq, Res.ok.injEq, Prod.mk.injEq] at h
            obtain ⟨rfl, rfl, rfl⟩ := h
            obtain ⟨hk, ht, b, hb, hp⟩ := parse_ping_kind hf
            have hl9 : ¬ stream.length < 9 := by
              intro hlt
              rw [(C14_short stream).mpr hlt] at hh
              cases hh
            match stream, hl9, hh with
            | b0 :: b1 :: b2 :: b3 :: b4 :: b5 :: b6 :: b7 :: b8 :: tl, _, hh =>
              have hx := C14_exact b0 b1 b2 b3 b4 b5 b6 b7 b8 tl
              simp only [List.cons_append, List.nil_append] at hx
              rw [hx] at hh
              split at hh
              · rename_i hflag
                simp only [Res.ok.injEq, Prod.mk.injEq] at hh
                obtain ⟨rfl, rfl⟩ := hh
                simp only at hk hb hp hlen ⊢
                rw [kind_ping] at hk
                subst hk
                unfold Ping.parse at hp
                split at hp
                · cases hp
                · rename_i hid
                  split at hp
                  · cases hp
                  · rename_i h8
                    simp only [Res.ok.injEq] at hp
                    subst hp
                    simp only [ne_eq, Decidable.not_not] at hid h8
                    have z0 := b0.toNat_lt
                    have z1 := b1.toNat_lt
                    have z2 := b2.toNat_lt
                    have e5 := (low7 b5).mp (by omega)
                    have e6 := (toNat_zero b6).mp (by omega)
                    have e7 := (toNat_zero b7).mp (by omega)
                    have e8 := (toNat_zero b8).mp (by omega)
                    subst e6 e7 e8
                    refine ⟨ht, h8, b4, b5, e5, hflag, rfl, ?_⟩
                    cases hpd : flagIsPadded b4 with
                    | false =>
                      rw [trimPadding_unpadded _ _ _ _ _ hpd] at hb
                      cases hb
                      have hlen8 : b0.toNat * 65536 + b1.toNat * 256 + b2.toNat = 8 := by
                        rw [List.length_take, Nat.min_eq_left (Nat.not_lt.mp hlen)] at h8; exact h8
                      have e0 := (toNat_zero b0).mp (by omega)
                      have e1 := (toNat_zero b1).mp (by omega)
                      have e2 := (toNat_eight b2).mp (by omega)
                      rw [hlen8]
                      subst e0 e1 e2
                      refine .inl ⟨(hnpad b4).mp hpd, ?_⟩
                      simp only [List.cons_append, List.nil_append, List.take_append_drop]
                    | true =>
                      unfold trimPadding at hb
                      simp only [hpd, if_true] at hb
                      cases htk : tl.take (b0.toNat * 65536 + b1.toNat * 256 + b2.toNat) with
                      | nil => rw [htk] at hb; cases hb; simp at h8
                      | cons pad r1 =>
                        rw [htk] at hb
                        simp only at hb
                        split at hb
                        · cases hb
                        · rename_i hple
                          cases hb
                          have hlt := congrArg List.length htk
                          rw [List.length_take, List.length_cons, h8, Nat.min_eq_left (Nat.not_lt.mp hlen)] at hlt
                          have hlen9 : b0.toNat * 65536 + b1.toNat * 256 + b2.toNat = 9 := hlt
                          have e0 := (toNat_zero b0).mp (by omega)
                          have e1 := (toNat_zero b1).mp (by omega)
                          have e2 := (toNat_nine b2).mp (by omega)
                          rw [hlen9] at hple htk ⊢
                          subst e0 e1 e2
                          refine .inr ⟨(hpad b4).mp hpd, pad, by omega, ?_⟩
                          have hd := List.take_append_drop 9 tl
                          rw [htk] at hd
                          simp only [List.cons_append, List.nil_append] at hd ⊢
                          rw [hd]
              · cases hh
            | [], h, _ | [_], h, _ | [_, _], h, _ | [_, _, _], h, _ | [_, _, _, _], h, _ | [_, _, _, _, _], h, _
            | [_, _, _, _, _, _], h, _ | [_, _, _, _, _, _, _], h, _ | [_, _, _, _, _, _, _, _], h, _ =>
              simp at h
  · rintro ⟨rfl, h8, flags, r, hr, hfl, hack, h⟩
    have h7 : r.toNat % 128 = 0 := (low7 r).mpr hr
    obtain ⟨ack, payload⟩ := p
    simp only at h8 hack h
    rcases h with ⟨hf, rfl⟩ | ⟨hf, pad, hpl, rfl⟩
    · unfold readFrame
      rw [List.append_assoc, C14_exact, if_pos hfl]
      have e1 : (0 : UInt8).toNat * 65536 + (0 : UInt8).toNat * 256 + (8 : UInt8).toNat = 8 := rfl
      have e2 : r.toNat % 128 * 16777216 + (0 : UInt8).toNat * 65536 + (0 : UInt8).toNat * 256 + (0 : UInt8).toNat = 0 := by
        rw [h7]; rfl
      simp only [e1, e2]
      rw [if_neg (by rw [List.length_append]; omega), List.take_left' h8, List.drop_left' h8]
      unfold Frame.parse
      rw [trimPadding_unpadded _ _ _ _ _ ((hnpad flags).mpr hf)]
      simp only [(kind_ping 6).mpr rfl, Ping.parse, ne_eq, not_true, if_false, h8, wrapFrame, hack]
      rfl
    · unfold readFrame
      rw [List.append_assoc, C14_exact, if_pos hfl]
      have e1 : (0 : UInt8).toNat * 65536 + (0 : UInt8).toNat * 256 + (9 : UInt8).toNat = 9 := rfl
      have e2 : r.toNat % 128 * 16777216 + (0 : UInt8).toNat * 65536 + (0 : UInt8).toNat * 256 + (0 : UInt8).toNat = 0 := by
        rw [h7]; rfl
      have h9 : (pad :: payload).length = 9 := by rw [List.length_cons, h8]
      simp only [e1, e2]
      rw [if_neg (by rw [List.length_append]; omega), List.take_left' h9, List.drop_left' h9]
      unfold Frame.parse trimPadding
      simp only [(hpad flags).mpr hf, if_true]
      rw [if_neg (by omega)]
      simp only [(kind_ping 6).mpr rfl, Ping.parse, ne_eq, not_true, if_false, h8, wrapFrame, hack]
      rfl

/-- C102, violated: with the flag 0x8, nine bytes are a PING too. -/
theorem C102_violated : ¬ C102_statement := by
  intro h
  obtain ⟨flags, r, payload, h1, h2, h3, h4⟩ := h {} {} 0 ([0, 0, 9, 6, 8, 0, 0, 0, 0] ++ 0 :: [1, 2, 3, 4, 5, 6, 7, 8] ++ []) []
    ⟨false, [1, 2, 3, 4, 5, 6, 7, 8]⟩ ((C102_read_iff_partial {} {} 0 _ _ _).mpr
      ⟨rfl, rfl, 8, 0, .inl rfl, by decide, by decide, .inr ⟨by decide, 0, by decide, rfl⟩⟩)
  have := congrArg (fun l => List.headD (List.drop 2 l) 0) h3
  simp at this

/-- C102: the answer to a PING is a PING with the ACK flag and the same bytes on stream 0, and so is `Ping::pong` of them;
the peer reads just that. -/
theorem C102_pong (p : Ping) (h8 : p.payload.length = 8) (rest : Bytes) (t : HeaderIndex) (m : Nat) :
    p.retPong.encode = (wireFrame 6 1 0 p.payload, 17) ∧ Ping.pong p.payload = p.retPong ∧
    p.retPong.serialize = p.retPong.encode ∧
    readFrame t m (p.retPong.encode.1 ++ rest) = some (.ok (.ping { ack := true, payload := p.payload }, t, rest)) := by
  have h := C15_ping p.retPong h8 rest t m
  refine ⟨Prod.ext h.1 ?_, rfl, rfl, h.2.2⟩
  simp [Ping.retPong, Ping.encode, h8]

/-- C102: a new PING is written without the flag, and its answer comes back to it. -/
theorem C102_ping (payload rest : Bytes) (h8 : payload.length = 8) (t : HeaderIndex) (m : Nat) :
    (Ping.new payload).encode = (wireFrame 6 0 0 payload, 17) ∧
    ∃ p, readFrame t m ((Ping.new payload).encode.1 ++ rest) = some (.ok (.ping p, t, rest)) ∧ p.ack = false ∧
      p.retPong.encode = (wireFrame 6 1 0 payload, 17) := by
  have h := C15_ping (Ping.new payload) h8 rest t m
  refine ⟨Prod.ext h.1 (by simp [Ping.new, Ping.encode, h8]), Ping.new payload, h.2.2, rfl,
    (C102_pong (Ping.new payload) h8 rest t m).1⟩

example : (⟨false, [1, 2, 3, 4, 5, 6, 7, 8]⟩ : Ping).payload.length = 8 := rfl

/-- C102: the acknowledgment of SETTINGS is an empty SETTINGS frame with the ACK flag on stream 0, and is read as an
acknowledgment that sets nothing. -/
theorem C102_settings_ack (rest : Bytes) (t : HeaderIndex) (m : Nat) :
    Settings.ack.encode = (wireFrame 4 1 0 [], 9) ∧ Settings.ack.isAck = true ∧
    readFrame t m (Settings.ack.encode.1 ++ rest) = some (.ok (.settings Settings.ack, t, rest)) := by
  refine ⟨by decide +kernel, by decide +kernel, ?_⟩
  have e : Settings.ack.encode.1 = [0, 0, 0, 4, 1, 0, 0, 0, 0] := by decide +kernel
  rw [e]
  unfold readFrame
  rw [C14_exact, if_pos (by decide)]
  have e1 : (0 : UInt8).toNat * 65536 + (0 : UInt8).toNat * 256 + (0 : UInt8).toNat = 0 := rfl
  have e2 : (0 : UInt8).toNat % 128 * 16777216 + (0 : UInt8).toNat * 65536 + (0 : UInt8).toNat * 256 + (0 : UInt8).toNat = 0 :=
    rfl
  simp only [e1, e2]
  rw [if_neg (Nat.not_lt_zero _), List.take_zero, List.drop_zero]
  unfold Frame.parse
  rw [trimPadding_unpadded _ _ _ _ _ (by decide)]
  simp only [(kind_settings 4).mpr rfl, Settings.parse, ne_eq, not_true, if_false, (by decide : flagIsEndStream 1 = true),
    if_true, wrapFrame]

end Webparse
