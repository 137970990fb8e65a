import Verif.Spec.Rfc9113
import Verif.Proofs.Frame
import Verif.Props.Frame

namespace Webparse
open Spec

theorem readFrame_wire (kind flags : UInt8) (id : Nat) (payload rest : Bytes) (t : HeaderIndex) (m : Nat)
    (hl : payload.length < 2 ^ 24) (hi : id < 2 ^ 31) :
    readFrame t m (wireFrame kind flags id payload ++ rest) =
      if flags &&& 0xD2 = 0 then
        withRest rest (Frame.parse ⟨payload.length, Kind.ofByte kind, flags, id⟩ payload t m)
      else some (.err .badFlag) := by
  have e1 : beNat [byteAt payload.length 2, byteAt payload.length 1, byteAt payload.length 0]
      = payload.length := by
    rw [← beBytes3, beNat_beBytes_of_lt (by simpa using hl)]
  have e2 : beNat [byteAt id 3, byteAt id 2, byteAt id 1, byteAt id 0] % 2 ^ 31 = id := by
    have : [byteAt id 3, byteAt id 2, byteAt id 1, byteAt id 0] = u32Bytes id := rfl
    rw [this, beNat_u32Bytes (by omega), Nat.mod_eq_of_lt hi]
  unfold readFrame wireFrame
  simp only [List.cons_append, List.nil_append]
  rw [header_parse_nine, e1, e2]
  have em : ~~~flagMask = (0xD2 : UInt8) := by decide
  unfold flagNew
  rw [em]
  by_cases hf : flags &&& 0xD2 = 0
  · rw [if_pos hf, if_pos hf]
    simp only [Res.bind, List.length_append]
    rw [if_neg (by omega)]
    simp only [List.take_left', List.drop_left']
    generalize Frame.parse _ payload t m = r
    match r with
    | none => rfl
    | some (.ok x) => rfl
    | some (.err e) => rfl
    | some .panic => rfl
  · rw [if_neg hf, if_neg hf]
    rfl

theorem trimPadding_iff (n : Nat) (k : Kind) (flags : UInt8) (id : Nat) (payload body : Bytes)
    (hn : n = payload.length) :
    trimPadding ⟨n, k, flags, id⟩ payload = .ok body ↔ Unpadded flags payload body := by
  have two : flags &&& 8 = 0 ∨ flags &&& 8 = 8 := by
    clear hn; revert flags; decide +kernel
  unfold trimPadding flagIsPadded
  rcases two with h0 | h8
  · simp only [h0]
    constructor
    · intro h
      simp at h
      subst h
      exact .plain _ h0
    · intro h
      cases h with
      | plain _ _ => rfl
      | empty h => rw [h0] at h; exact absurd h (by decide)
      | padded _ _ h _ => rw [h0] at h; exact absurd h (by decide)
  · simp only [h8, beq_self_eq_true, if_true]
    constructor
    · intro h
      cases payload with
      | nil => simp at h; subst h; exact .empty h8
      | cons p rest =>
        simp only at h
        split at h
        · simp at h
        · rename_i hp
          simp only [Res.ok.injEq] at h
          subst h
          refine .padded _ _ h8 ?_
          simp at hn
          omega
    · intro h
      cases h with
      | plain _ h => rw [h8] at h; exact absurd h (by decide)
      | empty _ => rfl
      | padded p _ _ hp =>
        simp only
        simp at hn
        rw [if_neg (by omega)]

theorem trimPadding_no_panic (head : FrameHeader) (payload : Bytes) : trimPadding head payload ≠ .panic := by
  unfold trimPadding
  split
  · split
    · simp
    · split <;> simp
  · simp

theorem four_bytes (l : Bytes) (h : l.length = 4) : l = u32Bytes (beNat l) ∧ beNat l < 2 ^ 32 := by
  refine ⟨?_, ?_⟩
  · have := beBytes_beNat l
    rw [h, beBytes4] at this
    exact this.symm
  · have := beNat_lt l
    rw [h] at this
    simpa using this

theorem u31_split (n : Nat) (h : n < 2 ^ 32) :
    u32Bytes n = u31Bytes (decide (2 ^ 31 ≤ n)) (n % 2 ^ 31) := by
  unfold u31Bytes
  congr 1
  by_cases h1 : 2 ^ 31 ≤ n
  · simp only [h1, decide_true, if_true]; omega
  · simp only [h1, decide_false, Bool.false_eq_true, if_false]; omega

theorem u31_value (b : Bool) (n : Nat) (h : n < 2 ^ 31) :
    beNat (u31Bytes b n) % 2 ^ 31 = n ∧ (beNat (u31Bytes b n) - n != 0) = b := by
  unfold u31Bytes
  cases b
  · rw [beNat_u32Bytes (by simp; omega)]
    simp
    omega
  · rw [beNat_u32Bytes (by simp; omega)]
    simp
    omega

@[simp] theorem u31Bytes_length (b : Bool) (n : Nat) : (u31Bytes b n).length = 4 := rfl

theorem priority_iff (head : FrameHeader) (body : Bytes) (p : Priority) :
    Priority.parse head body = .ok p ↔ ∃ x dep w extra, dep ≠ head.id ∧ dep < 2 ^ 31 ∧
      body = u31Bytes x dep ++ [w] ++ extra ∧ p = ⟨head.id, ⟨dep, w, x⟩⟩ := by
  unfold Priority.parse StreamDependency.load
  constructor
  · intro h
    split at h
    · simp at h
    · rename_i hl
      simp only [Res.bind_ok] at h
      split at h
      · simp at h
      · rename_i hd
        simp only [Res.ok.injEq] at h
        obtain ⟨e1, e2⟩ := four_bytes (body.take 4) (by simp; omega)
        have hb : body = body.take 4 ++ [(body.drop 4).headD 0] ++ body.drop 5 := by
          match body, hl with
          | a :: b :: c :: d :: e :: rest, _ => simp
          | [], hl => simp at hl
          | [_], hl => simp at hl
          | [_, _], hl => simp at hl
          | [_, _, _], hl => simp at hl
          | [_, _, _, _], hl => simp at hl
        refine ⟨_, _, _, body.drop 5, hd, Nat.mod_lt _ (by decide), ?_, h.symm⟩
        conv => lhs; rw [hb]
        congr 2
        refine e1.trans ((u31_split _ e2).trans ?_)
        generalize beNat (body.take 4) = n at e2
        have hx : decide (2 ^ 31 ≤ n) = (n - n % 2 ^ 31 != 0) := by
          by_cases h1 : 2 ^ 31 ≤ n
          · simp only [h1, decide_true]; symm; simp; omega
          · simp only [h1, decide_false]; symm; simp; omega
        rw [hx]
  · rintro ⟨x, dep, w, extra, hne, hd, rfl, rfl⟩
    rw [if_neg (by simp; omega)]
    have e4 : (u31Bytes x dep ++ [w] ++ extra).take 4 = u31Bytes x dep := by
      rw [List.append_assoc]; exact List.take_left' rfl
    have e5 : (u31Bytes x dep ++ [w] ++ extra).drop 4 = [w] ++ extra := by
      rw [List.append_assoc]; exact List.drop_left' rfl
    obtain ⟨v1, v2⟩ := u31_value x dep hd
    simp only [Res.bind_ok, e4, e5, v1, v2, if_neg hne]
    rfl

theorem reset_iff (head : FrameHeader) (body : Bytes) (r : Reset) :
    Reset.parse head body = .ok r ↔ ∃ code, code < 2 ^ 32 ∧ body = u32Bytes code ∧ r = ⟨head.id, code⟩ := by
  unfold Reset.parse
  constructor
  · intro h
    split at h
    · simp at h
    · rename_i hl
      simp only [Res.ok.injEq] at h
      obtain ⟨e1, e2⟩ := four_bytes body (by omega)
      exact ⟨_, e2, e1, h.symm⟩
  · rintro ⟨code, hc, rfl, rfl⟩
    rw [if_neg (by simp), beNat_u32Bytes hc]

theorem windowUpdate_iff (head : FrameHeader) (body : Bytes) (w : WindowUpdate) :
    WindowUpdate.parse head body = .ok w ↔ ∃ r inc, 1 ≤ inc ∧ inc < 2 ^ 31 ∧ body = u31Bytes r inc ∧
      w = ⟨head.id, inc⟩ := by
  unfold WindowUpdate.parse
  constructor
  · intro h
    split at h
    · simp at h
    · rename_i hl
      simp only at h
      split at h
      · simp at h
      · rename_i h0
        simp only [Res.ok.injEq] at h
        obtain ⟨e1, e2⟩ := four_bytes body (by omega)
        exact ⟨_, _, by omega, Nat.mod_lt _ (by decide), e1.trans (u31_split _ e2), h.symm⟩
  · rintro ⟨r, inc, h1, h2, rfl, rfl⟩
    obtain ⟨v1, _⟩ := u31_value r inc h2
    rw [if_neg (by simp)]
    simp only [v1]
    rw [if_neg (by omega)]

theorem goAway_iff (body : Bytes) (g : GoAway) :
    GoAway.parse body = .ok g ↔ ∃ r last code debug, last < 2 ^ 31 ∧ code < 2 ^ 32 ∧
      body = u31Bytes r last ++ u32Bytes code ++ debug ∧ g = ⟨last, code, debug⟩ := by
  unfold GoAway.parse
  constructor
  · intro h
    split at h
    · simp at h
    · rename_i hl
      unfold readU31 at h
      rw [if_neg (by omega)] at h
      simp only [Res.ok.injEq] at h
      obtain ⟨e1, e2⟩ := four_bytes (body.take 4) (by simp; omega)
      obtain ⟨e3, e4⟩ := four_bytes ((body.drop 4).take 4) (by simp; omega)
      refine ⟨decide (2 ^ 31 ≤ beNat (body.take 4)), _, _, _, Nat.mod_lt _ (by decide), e4, ?_, h.symm⟩
      rw [← u31_split _ e2, ← e1, ← e3, List.append_assoc, List.take_append_drop, List.take_append_drop]
  · rintro ⟨r, last, code, debug, h1, h2, rfl, rfl⟩
    rw [if_neg (by simp; omega)]
    unfold readU31
    rw [if_neg (by simp)]
    have e4 : (u31Bytes r last ++ u32Bytes code ++ debug).take 4 = u31Bytes r last := by
      rw [List.append_assoc]; exact List.take_left' rfl
    have e5 : (u31Bytes r last ++ u32Bytes code ++ debug).drop 4 = u32Bytes code ++ debug := by
      rw [List.append_assoc]; exact List.drop_left' rfl
    have e6 : (u32Bytes code ++ debug).take 4 = u32Bytes code := List.take_left' rfl
    have e7 : (u32Bytes code ++ debug).drop 4 = debug := List.drop_left' rfl
    obtain ⟨v1, _⟩ := u31_value r last h1
    simp only [e4, e5, e6, e7, v1, beNat_u32Bytes h2]

theorem ping_iff (head : FrameHeader) (body : Bytes) (p : Ping) :
    Ping.parse head body = .ok p ↔ head.id = 0 ∧ body.length = 8 ∧ p = ⟨head.flag &&& 1 == 1, body⟩ := by
  unfold Ping.parse
  by_cases h0 : head.id = 0
  · by_cases h8 : body.length = 8
    · rw [if_neg (by simp [h0]), if_neg (by simp [h8])]
      simp [h0, h8, flagIsEndStream, eq_comm]
    · rw [if_neg (by simp [h0]), if_pos h8]
      simp [h8]
  · rw [if_pos h0]
    simp [h0]

theorem settings_iff (head : FrameHeader) (body : Bytes) (s : Settings) :
    Settings.parse head body = .ok s ↔ head.id = 0 ∧
      ((head.flag &&& 1 = 1 ∧ body = [] ∧ s = { flags := 1 }) ∨
        (head.flag &&& 1 = 0 ∧ body.length % 6 = 0 ∧ (∀ e ∈ settingEntries body, LegalSetting e) ∧
          s = givenSettings body)) := by
  have two : head.flag &&& 1 = 0 ∨ head.flag &&& 1 = 1 := by
    generalize head.flag = f
    revert f; decide +kernel
  by_cases hid : head.id = 0
  · rcases two with h0 | h1
    · have e : Settings.parse head body = Settings.parse { head with flag := 0 } body := by
        unfold Settings.parse flagIsEndStream
        simp [h0]
      rw [e, C18_parse_iff { head with flag := 0 } hid rfl]
      obtain ⟨fl, a, b, c, d, e, f, g⟩ := s
      simp [hid, h0, givenSettings]
    · unfold Settings.parse flagIsEndStream
      rw [if_neg (by simp [hid])]
      simp only [h1, beq_self_eq_true, if_true]
      by_cases hb : body = []
      · simp [hb, hid, Settings.ack, eq_comm]
      · simp [hb]
  · unfold Settings.parse
    rw [if_pos hid]
    simp [hid]

theorem withRest_ok (rest rest' : Bytes) (r : Option (Res (Frame × HeaderIndex))) (f : Frame) (t' : HeaderIndex) :
    withRest rest r = some (.ok (f, t', rest')) ↔ rest' = rest ∧ r = some (.ok (f, t')) := by
  match r with
  | none => simp [withRest]
  | some (.ok x) => 
    simp only [withRest, Prod.ext_iff, Option.some.injEq, Res.ok.injEq]
    constructor
    · rintro ⟨h1, h2, h3⟩; exact ⟨h3.symm, h1, h2⟩
    · rintro ⟨h3, h1, h2⟩; exact ⟨h1, h2, h3.symm⟩
  | some (.err e) => simp [withRest]
  | some .panic => simp [withRest]

theorem wrapFrame_iff {α : Type} (t t' : HeaderIndex) (mk : α → Frame) (r : Res α) (f : Frame) :
    wrapFrame t mk r = some (.ok (f, t')) ↔ t' = t ∧ ∃ a, r = .ok a ∧ f = mk a := by
  match r with
  | .ok a => simp [wrapFrame]; constructor <;> rintro ⟨rfl, rfl⟩ <;> exact ⟨rfl, rfl⟩
  | .err e => simp [wrapFrame]
  | .panic => simp [wrapFrame]


/-- What is done with the payload once the padding has been looked at. -/
theorem frameParse_iff (kind flags : UInt8) (id : Nat) (payload : Bytes) (t t' : HeaderIndex) (m : Nat)
    (f : Frame) (hk : BlocklessKind kind) :
    Frame.parse ⟨payload.length, Kind.ofByte kind, flags, id⟩ payload t m = some (.ok (f, t')) ↔
      t' = t ∧ ∃ body, Unpadded flags payload body ∧ BodyTaken kind flags id body f := by
  unfold Frame.parse
  cases ht : trimPadding ⟨payload.length, Kind.ofByte kind, flags, id⟩ payload with
  | err e =>
    simp only [Option.some.injEq, reduceCtorEq, false_iff]
    rintro ⟨_, body, hu, _⟩
    rw [(trimPadding_iff _ _ _ _ _ _ rfl).mpr hu] at ht
    cases ht
  | panic => exact absurd ht (trimPadding_no_panic _ _)
  | ok body =>
    have hu := (trimPadding_iff _ _ _ _ _ _ rfl).mp ht
    have uniq : ∀ b, Unpadded flags payload b → b = body := by
      intro b hb
      rw [(trimPadding_iff payload.length (Kind.ofByte kind) flags id _ _ rfl).mpr hb] at ht
      simpa using ht
    have red : (∃ b, Unpadded flags payload b ∧ BodyTaken kind flags id b f) ↔ BodyTaken kind flags id body f := by
      constructor
      · rintro ⟨b, hb, h⟩; rw [← uniq b hb]; exact h
      · intro h; exact ⟨body, hu, h⟩
    rw [red]
    simp only
    unfold BlocklessKind at hk
    simp only [List.mem_cons, List.not_mem_nil, or_false] at hk
    rcases hk with rfl | rfl | rfl | rfl | rfl | rfl | rfl
    · show wrapFrame t .data (DataFrame.new _ body) = _ ↔ _
      rw [wrapFrame_iff]
      refine and_congr_right fun _ => ⟨?_, ?_⟩
      · rintro ⟨d, hd, rfl⟩
        unfold DataFrame.new at hd
        split at hd
        · simp at hd
        · rename_i h0
          simp only [Res.ok.injEq] at hd
          subst hd
          exact .data _ _ _ h0
      · intro h
        cases h with
        | data _ _ _ h0 => exact ⟨_, by unfold DataFrame.new; rw [if_neg h0], rfl⟩
    · show wrapFrame t .priority (Priority.parse _ body) = _ ↔ _
      rw [wrapFrame_iff]
      refine and_congr_right fun _ => ⟨?_, ?_⟩
      · rintro ⟨d, hd, rfl⟩
        obtain ⟨x, dep, w, extra, h1, h2, rfl, rfl⟩ := (priority_iff _ _ _).mp hd
        exact .priority _ _ _ _ _ _ h1 h2
      · intro h
        cases h with
        | priority _ _ x dep w extra h1 h2 =>
          exact ⟨_, (priority_iff _ _ _).mpr ⟨x, dep, w, extra, h1, h2, rfl, rfl⟩, rfl⟩
    · show wrapFrame t .reset (Reset.parse _ body) = _ ↔ _
      rw [wrapFrame_iff]
      refine and_congr_right fun _ => ⟨?_, ?_⟩
      · rintro ⟨d, hd, rfl⟩
        obtain ⟨code, h1, rfl, rfl⟩ := (reset_iff _ _ _).mp hd
        exact .reset _ _ _ h1
      · intro h
        cases h with
        | reset _ _ code h1 => exact ⟨_, (reset_iff _ _ _).mpr ⟨code, h1, rfl, rfl⟩, rfl⟩
    · show wrapFrame t .settings (Settings.parse _ body) = _ ↔ _
      rw [wrapFrame_iff]
      refine and_congr_right fun _ => ⟨?_, ?_⟩
      · rintro ⟨d, hd, rfl⟩
        obtain ⟨h0, h⟩ := (settings_iff _ _ _).mp hd
        simp only at h0 h
        subst h0
        rcases h with ⟨h1, rfl, rfl⟩ | ⟨h1, h2, h3, rfl⟩
        · exact .settingsAck _ h1
        · exact .settings _ _ h1 h2 h3
      · intro h
        cases h with
        | settingsAck _ h1 => exact ⟨_, (settings_iff _ _ _).mpr ⟨rfl, Or.inl ⟨h1, rfl, rfl⟩⟩, rfl⟩
        | settings _ _ h1 h2 h3 => exact ⟨_, (settings_iff _ _ _).mpr ⟨rfl, Or.inr ⟨h1, h2, h3, rfl⟩⟩, rfl⟩
    · show wrapFrame t .ping (Ping.parse _ body) = _ ↔ _
      rw [wrapFrame_iff]
      refine and_congr_right fun _ => ⟨?_, ?_⟩
      · rintro ⟨d, hd, rfl⟩
        obtain ⟨h0, h8, rfl⟩ := (ping_iff _ _ _).mp hd
        simp only at h0
        subst h0
        exact .ping _ _ h8
      · intro h
        cases h with
        | ping _ _ h8 => exact ⟨_, (ping_iff _ _ _).mpr ⟨rfl, h8, rfl⟩, rfl⟩
    · show wrapFrame t .goAway (GoAway.parse body) = _ ↔ _
      rw [wrapFrame_iff]
      refine and_congr_right fun _ => ⟨?_, ?_⟩
      · rintro ⟨d, hd, rfl⟩
        obtain ⟨r, last, code, debug, h1, h2, rfl, rfl⟩ := (goAway_iff _ _).mp hd
        exact .goAway _ _ _ _ _ _ h1 h2
      · intro h
        cases h with
        | goAway _ _ r last code debug h1 h2 =>
          exact ⟨_, (goAway_iff _ _).mpr ⟨r, last, code, debug, h1, h2, rfl, rfl⟩, rfl⟩
    · show wrapFrame t .windowUpdate (WindowUpdate.parse _ body) = _ ↔ _
      rw [wrapFrame_iff]
      refine and_congr_right fun _ => ⟨?_, ?_⟩
      · rintro ⟨d, hd, rfl⟩
        obtain ⟨r, inc, h1, h2, rfl, rfl⟩ := (windowUpdate_iff _ _ _).mp hd
        exact .windowUpdate _ _ _ _ h1 h2
      · intro h
        cases h with
        | windowUpdate _ _ r inc h1 h2 =>
          exact ⟨_, (windowUpdate_iff _ _ _).mpr ⟨r, inc, h1, h2, rfl, rfl⟩, rfl⟩

theorem addFields_head {m : Nat} {hs : List Header} : ∀ {f g : HeadersFrame} {n : Nat},
    HeadersFrame.addFields m n f hs = .ok g → g.streamId = f.streamId ∧ g.flags = f.flags := by
  induction hs with
  | nil => intro f g n h; simp [HeadersFrame.addFields] at h; subst h; exact ⟨rfl, rfl⟩
  | cons x xs ih =>
    intro f g n h
    rw [HeadersFrame.addFields] at h
    split at h
    · simp at h
    · rw [Res.bind_eq_ok] at h
      obtain ⟨f1, h1, h2⟩ := h
      have e := ih h2
      have : f1.streamId = f.streamId ∧ f1.flags = f.flags := by
        unfold HeadersFrame.addField at h1
        split at h1
        · split at h1
          · simp only [Res.ok.injEq] at h1; subst h1; exact ⟨rfl, rfl⟩
          · split at h1
            · rw [Res.bind_eq_ok] at h1
              obtain ⟨a, -, h1⟩ := h1
              simp only [Res.ok.injEq] at h1; subst h1; exact ⟨rfl, rfl⟩
            · split at h1
              · simp only [Res.ok.injEq] at h1; subst h1; exact ⟨rfl, rfl⟩
              · split at h1
                · rw [Res.bind_eq_ok] at h1
                  obtain ⟨a, -, h1⟩ := h1
                  simp only [Res.ok.injEq] at h1; subst h1; exact ⟨rfl, rfl⟩
                · split at h1
                  · rw [Res.bind_eq_ok] at h1
                    obtain ⟨a, -, h1⟩ := h1
                    simp only [Res.ok.injEq] at h1; subst h1; exact ⟨rfl, rfl⟩
                  · simp only [Res.ok.injEq] at h1; subst h1; exact ⟨rfl, rfl⟩
        · simp only [Res.ok.injEq] at h1; subst h1; exact ⟨rfl, rfl⟩
      exact ⟨e.1.trans this.1, e.2.trans this.2⟩

/-- Reading a HEADERS frame keeps stream and flags. -/
theorem headersParse_head {f g : HeadersFrame} {buf : Bytes} {t t' : HeaderIndex} {m : Nat}
    (h : HeadersFrame.parse f buf t m = some (.ok (g, t'))) : g.streamId = f.streamId ∧ g.flags = f.flags := by
  unfold HeadersFrame.parse at h
  cases hl : f.loadDep buf with
  | err e => simp [hl] at h
  | panic => simp [hl] at h
  | ok x =>
    obtain ⟨f1, b1⟩ := x
    have e1 : f1.streamId = f.streamId ∧ f1.flags = f.flags := by
      unfold HeadersFrame.loadDep at hl
      split at hl
      · rw [Res.bind_eq_ok] at hl
        obtain ⟨y, -, hl⟩ := hl
        simp only [Res.ok.injEq, Prod.mk.injEq] at hl
        rw [← hl.1]
        exact ⟨rfl, rfl⟩
      · simp only [Res.ok.injEq, Prod.mk.injEq] at hl
        rw [← hl.1]
        exact ⟨rfl, rfl⟩
    rw [hl] at h
    simp only at h
    split at h
    · simp at h
    · simp at h
    · simp at h
    · simp only [Option.some.injEq] at h
      rw [Res.bind_eq_ok] at h
      obtain ⟨g1, h1, h2⟩ := h
      simp only [Res.ok.injEq, Prod.mk.injEq] at h2
      have e2 := addFields_head h1
      rw [← h2.1]
      exact ⟨e2.1.trans e1.1, e2.2.trans e1.2⟩

end Webparse
