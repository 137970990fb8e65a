import Verif.Spec.Frame
import Verif.Proofs.Basic

namespace Webparse
open Spec

theorem ofNat_byteAt (n i : Nat) : UInt8.ofNat (n / 256 ^ i) = byteAt n i := by
  apply UInt8.toNat_inj.mp
  simp [byteAt]

theorem beBytes3 (n : Nat) : beBytes 3 n = [byteAt n 2, byteAt n 1, byteAt n 0] := by
  simp only [beBytes, ofNat_byteAt]

theorem beBytes4 (n : Nat) : beBytes 4 n = u32Bytes n := by
  simp only [beBytes, ofNat_byteAt, u32Bytes]

theorem beNat_u32Bytes {n : Nat} (h : n < 2 ^ 32) : beNat (u32Bytes n) = n := by
  rw [← beBytes4, beNat_beBytes_of_lt (by simpa using h)]

theorem encode_wire (kind : Kind) (flag : UInt8) (id : Nat) (payload : Bytes) :
    FrameHeader.encode { length := payload.length, kind, flag, id } ++ payload
      = wireFrame kind.encode flag id payload := by
  simp [FrameHeader.encode, wireFrame, beBytes3, beBytes4, u32Bytes]

theorem kind_roundtrip (k : Kind) (h : k ≠ .unregistered) : Kind.ofByte k.encode = k := by
  cases k <;> first | rfl | exact absurd rfl h

@[simp] theorem FrameHeader.encode_length (h : FrameHeader) : h.encode.length = 9 := by
  simp [FrameHeader.encode]

/-- Parsing nine given bytes. -/
theorem header_parse_nine (b0 b1 b2 b3 b4 b5 b6 b7 b8 : UInt8) (rest : Bytes) :
    FrameHeader.parse (b0 :: b1 :: b2 :: b3 :: b4 :: b5 :: b6 :: b7 :: b8 :: rest) =
      (flagNew b4).bind fun flag =>
        .ok ({ length := beNat [b0, b1, b2], kind := Kind.ofByte b3, flag,
               id := beNat [b5, b6, b7, b8] % 2 ^ 31 }, rest) := by
  unfold FrameHeader.parse
  rw [if_neg (by simp)]
  simp only [List.take_succ_cons, List.take_zero, List.drop_succ_cons, List.drop_zero,
    List.headD_cons]
  have : readU31 (b5 :: b6 :: b7 :: b8 :: rest) = (beNat [b5, b6, b7, b8] % 2 ^ 31, rest) := by
    unfold readU31
    rw [if_neg (by simp)]
    simp
  rw [this]
  rfl

/-- Reading the header written. -/
theorem header_parse_encode (h : FrameHeader) (rest : Bytes) (hl : h.length < 2 ^ 24)
    (hk : h.kind ≠ .unregistered) (hf : h.flag &&& ~~~flagMask = 0) (hi : h.id < 2 ^ 31) :
    FrameHeader.parse (h.encode ++ rest) = .ok (h, rest) := by
  have e : h.encode ++ rest = byteAt h.length 2 :: byteAt h.length 1 :: byteAt h.length 0 ::
      h.kind.encode :: h.flag :: byteAt h.id 3 :: byteAt h.id 2 :: byteAt h.id 1 :: byteAt h.id 0 ::
      rest := by
    simp [FrameHeader.encode, beBytes3, beBytes4, u32Bytes]
  rw [e, header_parse_nine, ← beBytes3,
    beNat_beBytes_of_lt (by simpa using hl), kind_roundtrip _ hk]
  have e2 : [byteAt h.id 3, byteAt h.id 2, byteAt h.id 1, byteAt h.id 0] = u32Bytes h.id := rfl
  rw [e2, beNat_u32Bytes (by omega), Nat.mod_eq_of_lt hi]
  simp [flagNew, hf, Res.bind]

/-- The continuation of `readFrame` after `Frame.parse`. -/
def withRest (rest : Bytes) : Option (Res (Frame × HeaderIndex)) → Option (Res (Frame × HeaderIndex × Bytes))
  | none => none
  | some (.err e) => some (.err e)
  | some .panic => some .panic
  | some (.ok (f, t)) => some (.ok (f, t, rest))

theorem readFrame_encode (kind : Kind) (flag : UInt8) (id : Nat) (payload rest : Bytes)
    (t : HeaderIndex) (m : Nat) (hl : payload.length < 2 ^ 24) (hk : kind ≠ .unregistered)
    (hf : flag &&& ~~~flagMask = 0) (hi : id < 2 ^ 31) :
    readFrame t m (FrameHeader.encode { length := payload.length, kind, flag, id } ++ (payload ++ rest))
      = withRest rest (Frame.parse { length := payload.length, kind, flag, id } payload t m) := by
  unfold readFrame
  rw [header_parse_encode _ _ hl hk hf hi]
  simp only [List.length_append]
  rw [if_neg (by omega)]
  simp only [List.take_left', List.drop_left']
  cases Frame.parse { length := payload.length, kind, flag, id } payload t m with
  | none => rfl
  | some r =>
    cases r with
    | ok x => rfl
    | err e => rfl
    | panic => rfl

/-- Without the PADDED flag the payload is not touched. -/
theorem trimPadding_unpadded (n : Nat) (k : Kind) (f : UInt8) (i : Nat) (buf : Bytes)
    (h : flagIsPadded f = false) : trimPadding ⟨n, k, f, i⟩ buf = .ok buf := by
  unfold trimPadding
  simp only [h]
  rfl

theorem readU31_u32 (n : Nat) (rest : Bytes) (h : n < 2 ^ 31) :
    readU31 (u32Bytes n ++ rest) = (n, rest) := by
  unfold readU31
  rw [if_neg (by simp [u32Bytes])]
  have h1 : (u32Bytes n ++ rest).take 4 = u32Bytes n := List.take_left' (by simp [u32Bytes])
  have h2 : (u32Bytes n ++ rest).drop 4 = rest := List.drop_left' (by simp [u32Bytes])
  rw [h1, h2, beNat_u32Bytes (by omega), Nat.mod_eq_of_lt h]

@[simp] theorem u32Bytes_length (n : Nat) : (u32Bytes n).length = 4 := rfl

/-! ## SETTINGS -/

theorem parseLoop_append (n : Nat) : ∀ (k : Nat) (s : Settings) (a b : Bytes), a.length = 6 * n →
    Settings.parseLoop (n + k) s (a ++ b) =
      (Settings.parseLoop n s a).bind fun s' => Settings.parseLoop k s' b := by
  induction n with
  | zero =>
    intro k s a b h
    have : a = [] := List.length_eq_zero_iff.mp (by omega)
    subst this
    simp [Settings.parseLoop, Res.bind]
  | succ n ih =>
    intro k s a b h
    have hk : n + 1 + k = (n + k) + 1 := by omega
    rw [hk]
    simp only [Settings.parseLoop]
    have h1 : (a ++ b).take 2 = a.take 2 := List.take_append_of_le_length (by omega)
    have h2 : ((a ++ b).drop 2).take 4 = (a.drop 2).take 4 := by
      rw [List.drop_append_of_le_length (by omega), List.take_append_of_le_length (by simp; omega)]
    have h3 : (a ++ b).drop 6 = a.drop 6 ++ b := List.drop_append_of_le_length (by omega)
    rw [h1, h2, h3]
    cases hs : s.apply (Setting.fromId (beNat (a.take 2)) (beNat ((a.drop 2).take 4))) with
    | ok s' =>
      simp only [Res.bind_ok]
      exact ih k s' _ _ (by simp; omega)
    | err e => simp [Res.bind]
    | panic => simp [Res.bind]

theorem setting_encode_length (x : Setting) : x.encode.length = 6 := by
  cases x <;> simp [Setting.encode]

/-- The number of a setting. -/
def Setting.val : Setting → Nat
  | .headerTableSize v | .enablePush v | .maxConcurrentStreams v | .initialWindowSize v
  | .maxFrameSize v | .maxHeaderListSize v | .enableConnectProtocol v => v

theorem setting_roundtrip (x : Setting) (h : x.val < 2 ^ 32) :
    Setting.fromId (beNat (x.encode.take 2)) (beNat ((x.encode.drop 2).take 4)) = some x := by
  have key : ∀ k v : Nat, v < 2 ^ 32 → k < 256 ^ 2 →
      beNat ((beBytes 2 k ++ beBytes 4 v).take 2) = k ∧
      beNat (((beBytes 2 k ++ beBytes 4 v).drop 2).take 4) = v := by
    intro k v hv hk
    rw [List.take_left' (by simp), List.drop_left' (by simp), List.take_of_length_le (by simp),
      beNat_beBytes_of_lt hk, beNat_beBytes_of_lt (by simpa using hv)]
    exact ⟨rfl, rfl⟩
  cases x <;> simp only [Setting.val] at h <;> simp only [Setting.encode] <;>
    (rw [(key _ _ h (by decide)).1, (key _ _ h (by decide)).2]; rfl)

theorem parseLoop_cons (x : Setting) (h : x.val < 2 ^ 32) (n : Nat) (s : Settings) (rest : Bytes) :
    Settings.parseLoop (n + 1) s (x.encode ++ rest) =
      (s.apply (some x)).bind fun s' => Settings.parseLoop n s' rest := by
  rw [Nat.add_comm, parseLoop_append 1 n s x.encode rest (by simp [setting_encode_length])]
  simp only [Settings.parseLoop]
  rw [setting_roundtrip x h]
  cases s.apply (some x) <;> rfl

/-- Reading back a list of settings is applying them one by one. -/
def applyAll (s : Settings) : List Setting → Res Settings
  | [] => .ok s
  | x :: xs => (s.apply (some x)).bind fun s' => applyAll s' xs

theorem parseLoop_list (xs : List Setting) (h : ∀ x ∈ xs, x.val < 2 ^ 32) :
    ∀ s, Settings.parseLoop xs.length s (xs.flatMap Setting.encode) = applyAll s xs := by
  induction xs with
  | nil => intro s; rfl
  | cons x xs ih =>
    intro s
    rw [List.length_cons, List.flatMap_cons, parseLoop_cons x (h x (by simp))]
    unfold applyAll
    congr 1
    funext s'
    exact ih (fun y hy => h y (by simp [hy])) s'

theorem applyAll_append (xs ys : List Setting) : ∀ s : Settings,
    applyAll s (xs ++ ys) = (applyAll s xs).bind fun s' => applyAll s' ys := by
  induction xs with
  | nil => intro s; rfl
  | cons x xs ih =>
    intro s
    simp only [List.cons_append, applyAll]
    cases s.apply (some x) with
    | ok s' => simpa [Res.bind] using ih s'
    | err e => rfl
    | panic => rfl

/-- Applying the settings of `s` in order to empty settings gives `s`. -/
theorem applyAll_forEach (s : Settings) (hf : s.flags = 0)
    (h2 : OptAll s.enablePush (· ≤ 1)) (h4 : OptAll s.initialWindowSize (· ≤ 2 ^ 31 - 1))
    (h5 : OptAll s.maxFrameSize (fun v => 2 ^ 14 ≤ v ∧ v ≤ 2 ^ 24 - 1))
    (h7 : OptAll s.enableConnectProtocol (· ≤ 1)) : applyAll {} s.forEach = .ok s := by
  obtain ⟨fl, a, b, c, d, e, f, g⟩ := s
  simp only at hf h2 h4 h5 h7
  subst hf
  have s1 : applyAll ⟨0, none, none, none, none, none, none, none⟩ (a.map Setting.headerTableSize).toList
      = .ok ⟨0, a, none, none, none, none, none, none⟩ := by
    cases a <;> rfl
  have s2 : applyAll ⟨0, a, none, none, none, none, none, none⟩ (b.map Setting.enablePush).toList
      = .ok ⟨0, a, b, none, none, none, none, none⟩ := by
    cases b with
    | none => rfl
    | some v =>
      have := h2 v rfl
      have hv : v = 0 ∨ v = 1 := by omega
      simp [applyAll, Settings.apply, hv, Res.bind]
  have s3 : applyAll ⟨0, a, b, none, none, none, none, none⟩
      (c.map Setting.maxConcurrentStreams).toList = .ok ⟨0, a, b, c, none, none, none, none⟩ := by
    cases c <;> rfl
  have s4 : applyAll ⟨0, a, b, c, none, none, none, none⟩ (d.map Setting.initialWindowSize).toList
      = .ok ⟨0, a, b, c, d, none, none, none⟩ := by
    cases d with
    | none => rfl
    | some v =>
      have := h4 v rfl
      have hv : ¬ v > 2 ^ 31 - 1 := by omega
      simp only [Option.map_some, Option.toList_some, applyAll, Settings.apply, if_neg hv, Res.bind]
  have s5 : applyAll ⟨0, a, b, c, d, none, none, none⟩ (e.map Setting.maxFrameSize).toList
      = .ok ⟨0, a, b, c, d, e, none, none⟩ := by
    cases e with
    | none => rfl
    | some v =>
      have := h5 v rfl
      have hv : 16384 ≤ v ∧ v ≤ 2 ^ 24 - 1 := by omega
      simp only [Option.map_some, Option.toList_some, applyAll, Settings.apply, if_pos hv, Res.bind]
  have s6 : applyAll ⟨0, a, b, c, d, e, none, none⟩ (f.map Setting.maxHeaderListSize).toList
      = .ok ⟨0, a, b, c, d, e, f, none⟩ := by
    cases f <;> rfl
  have s7 : applyAll ⟨0, a, b, c, d, e, f, none⟩ (g.map Setting.enableConnectProtocol).toList
      = .ok ⟨0, a, b, c, d, e, f, g⟩ := by
    cases g with
    | none => rfl
    | some v =>
      have := h7 v rfl
      have hv : v = 0 ∨ v = 1 := by omega
      simp [applyAll, Settings.apply, hv, Res.bind]
  simp only [Settings.forEach, applyAll_append, Res.bind, s1, s2, s3, s4, s5, s6, s7]

theorem settings_payload_length (s : Settings) :
    (s.forEach.flatMap Setting.encode).length = s.payloadLen := by
  unfold Settings.payloadLen
  induction s.forEach with
  | nil => rfl
  | cons x xs ih => simp [setting_encode_length, ih]; omega

theorem settings_encode_size (s : Settings) : s.encode.2 = s.encode.1.length := by
  simp only [Settings.encode, List.length_append, FrameHeader.encode_length, settings_payload_length,
    Settings.payloadLen]

theorem payloadLen_le (s : Settings) : s.payloadLen ≤ 42 := by
  unfold Settings.payloadLen Settings.forEach
  cases s.headerTableSize <;> cases s.enablePush <;> cases s.maxConcurrentStreams <;>
    cases s.initialWindowSize <;> cases s.maxFrameSize <;> cases s.maxHeaderListSize <;>
    cases s.enableConnectProtocol <;> simp

/-- What a SETTINGS payload parses to, by entries. -/
theorem parseLoop_entries (n : Nat) : ∀ (s : Settings) (buf : Bytes), buf.length = 6 * n →
    ∀ s', Settings.parseLoop n s buf = .ok s' ↔
      (∀ e ∈ settingEntries buf, LegalSetting e) ∧ s' =
        ⟨s.flags, (lastValue 1 (settingEntries buf)).or s.headerTableSize,
          (lastValue 2 (settingEntries buf)).or s.enablePush,
          (lastValue 3 (settingEntries buf)).or s.maxConcurrentStreams,
          (lastValue 4 (settingEntries buf)).or s.initialWindowSize,
          (lastValue 5 (settingEntries buf)).or s.maxFrameSize,
          (lastValue 6 (settingEntries buf)).or s.maxHeaderListSize,
          (lastValue 8 (settingEntries buf)).or s.enableConnectProtocol⟩ := by
  induction n with
  | zero =>
    intro s buf h s'
    have : buf = [] := List.length_eq_zero_iff.mp (by omega)
    subst this
    simp [Settings.parseLoop, settingEntries, lastValue]
    exact ⟨fun h => h.symm, fun h => h.symm⟩
  | succ n ih =>
    intro s buf h s'
    match buf, h with
    | a :: b :: c :: d :: e :: f :: rest, h =>
      have hr : rest.length = 6 * n := by simp at h; omega
      simp only [Settings.parseLoop, List.take_succ_cons, List.take_zero, List.drop_succ_cons,
        List.drop_zero, settingEntries]
      have e1 : beNat [a, b] = a.toNat * 256 + b.toNat := by simp [beNat]
      have e2 : beNat [c, d, e, f]
          = ((c.toNat * 256 + d.toNat) * 256 + e.toNat) * 256 + f.toNat := by
        simp [beNat]
      rw [e1, e2]
      obtain ⟨id, hid⟩ : ∃ k, a.toNat * 256 + b.toNat = k := ⟨_, rfl⟩
      obtain ⟨v, hv⟩ : ∃ k, ((c.toNat * 256 + d.toNat) * 256 + e.toNat) * 256 + f.toNat = k :=
        ⟨_, rfl⟩
      rw [hid, hv]
      clear hid hv e1 e2
      have last : ∀ k, lastValue k ((id, v) :: settingEntries rest)
          = (lastValue k (settingEntries rest)).or (if id = k then some v else none) := by
        intro k
        unfold lastValue
        by_cases hk : id = k
        · simp only [hk, List.filter_cons, beq_self_eq_true, if_true, List.getLast?_cons]
          cases (List.filter (fun e => e.1 == k) (settingEntries rest)).getLast? <;> simp
        · have : (id == k) = false := by simpa using hk
          simp [List.filter_cons, this, hk]
      simp only [last, List.forall_mem_cons]
      have orAssoc : ∀ (x y z : Option Nat), (x.or y).or z = x.or (y.or z) := by
        intro x y z; cases x <;> rfl
      simp only [orAssoc]
      have go : ∀ s1, s.apply (Setting.fromId id v) = .ok s1 → LegalSetting (id, v) ∧ s1 =
          ⟨s.flags, (if id = 1 then some v else none).or s.headerTableSize,
          (if id = 2 then some v else none).or s.enablePush,
          (if id = 3 then some v else none).or s.maxConcurrentStreams,
          (if id = 4 then some v else none).or s.initialWindowSize,
          (if id = 5 then some v else none).or s.maxFrameSize,
          (if id = 6 then some v else none).or s.maxHeaderListSize,
          (if id = 8 then some v else none).or s.enableConnectProtocol⟩ := by
        intro s1 h1
        unfold Setting.fromId at h1
        split at h1 <;> simp only [Settings.apply] at h1 <;> (try split at h1) <;>
          simp only [Res.ok.injEq, reduceCtorEq] at h1 <;> subst h1 <;>
          simp_all [LegalSetting] <;> omega
      have bad : ∀ r, s.apply (Setting.fromId id v) = r → (∀ s1, r ≠ .ok s1) →
          ¬ LegalSetting (id, v) := by
        intro r h1 h2 hl
        obtain ⟨l2, l4, l5, l8⟩ := hl
        simp only at l2 l4 l5 l8
        subst h1
        unfold Setting.fromId at h2
        split at h2 <;> simp only [Settings.apply] at h2 <;> (try split at h2) <;>
          simp_all <;> omega
      cases hs : s.apply (Setting.fromId id v) with
      | ok s1 =>
        obtain ⟨hl, he⟩ := go s1 hs
        simp only [Res.bind_ok]
        rw [ih s1 rest hr s', he]
        simp only [hl, true_and]
      | err er =>
        have := bad _ hs (by simp)
        simp [this]
      | panic =>
        have := bad _ hs (by simp)
        simp [this]
    | [], h | [_], h | [_, _], h | [_, _, _], h | [_, _, _, _], h | [_, _, _, _, _], h =>
      simp at h <;> omega

/-! ## DATA -/

/-- The frame header of a DATA frame. -/
def dataHead (n : Nat) (flag : UInt8) (id : Nat) : FrameHeader :=
  { length := n, kind := .data, flag, id }

theorem encodeRun_succ (fuel m : Nat) (d : DataFrame) :
    DataFrame.encodeRun (fuel + 1) m d =
      if min d.data.length m < d.data.length then
        match DataFrame.encodeRun fuel m { d with data := d.data.drop (min d.data.length m) } with
        | none => none
        | some (out, size) => some
            ((dataHead (min d.data.length m) (flagUnsetEndStream d.flags) d.streamId).encode
              ++ d.data.take (min d.data.length m) ++ out, 9 + min d.data.length m + size)
      else some ((dataHead (min d.data.length m) d.flags d.streamId).encode ++ d.data,
        9 + d.data.length) := rfl

end Webparse
