import Verif.Proofs.Base64
import Verif.Props.Frame
import Verif.Proofs.HeaderMap

/-! # The HTTP2-Settings header: C61 -/

namespace Webparse
open Spec

/-- The parameters RFC 9113 allows. -/
def C61_InRange (s : Settings) : Prop :=
  OptAll s.enablePush (· ≤ 1) ∧ OptAll s.initialWindowSize (· ≤ 2 ^ 31 - 1) ∧
  OptAll s.maxFrameSize (fun v => 2 ^ 14 ≤ v ∧ v ≤ 2 ^ 24 - 1) ∧ OptAll s.enableConnectProtocol (· ≤ 1)

/-- The parameters are 32-bit numbers, as the types of the code make them. -/
def C61_U32 (s : Settings) : Prop :=
  OptAll s.headerTableSize (· < 2 ^ 32) ∧ OptAll s.enablePush (· < 2 ^ 32) ∧
  OptAll s.maxConcurrentStreams (· < 2 ^ 32) ∧ OptAll s.initialWindowSize (· < 2 ^ 32) ∧
  OptAll s.maxFrameSize (· < 2 ^ 32) ∧ OptAll s.maxHeaderListSize (· < 2 ^ 32) ∧
  OptAll s.enableConnectProtocol (· < 2 ^ 32)

theorem http_settings_payload (s : Settings) (h : C61_U32 s) :
    Settings.parseSetting (s.forEach.flatMap Setting.encode) = applyAll {} s.forEach := by
  obtain ⟨h1, h2, h3, h4, h5, h6, h7⟩ := h
  unfold Settings.parseSetting
  have hl := settings_payload_length s
  unfold Settings.payloadLen at hl
  rw [if_neg (by omega)]
  have : (s.forEach.flatMap Setting.encode).length / 6 = s.forEach.length := by omega
  rw [this, parseLoop_list]
  intro x hx
  simp only [Settings.forEach, List.mem_append, Option.mem_toList, Option.map_eq_some_iff] at hx
  rcases hx with (((((⟨v, hv, rfl⟩ | ⟨v, hv, rfl⟩) | ⟨v, hv, rfl⟩) | ⟨v, hv, rfl⟩) |
    ⟨v, hv, rfl⟩) | ⟨v, hv, rfl⟩) | ⟨v, hv, rfl⟩
  · exact h1 v hv
  · exact h2 v hv
  · exact h3 v hv
  · exact h4 v hv
  · exact h5 v hv
  · exact h6 v hv
  · exact h7 v hv

theorem forEach_flags (s : Settings) : Settings.forEach { s with flags := 0 } = s.forEach := rfl

theorem applyAll_legal (xs : List Setting) : ∀ s s', applyAll s xs = .ok s' → ∀ x ∈ xs, ∃ t t', Settings.apply t (some x) = .ok t' := by
  induction xs with
  | nil => simp
  | cons x xs ih =>
    intro s s' h y hy
    simp only [applyAll] at h
    cases h1 : s.apply (some x) with
    | ok t =>
      rw [h1] at h
      rcases List.mem_cons.mp hy with rfl | hy
      · exact ⟨s, t, h1⟩
      · exact ih t s' h y hy
    | err e => rw [h1] at h; simp [Res.bind] at h
    | panic => rw [h1] at h; simp [Res.bind] at h

/-- C61: settings whose parameters are allowed come back from the header value; the flags, which are not
part of the value, are the default ones. -/
theorem C61_roundtrip (s : Settings) (hu : C61_U32 s) (h : C61_InRange s) :
    Settings.parseHttp s.encodeHttp = .ok { s with flags := 0 } := by
  unfold Settings.parseHttp Settings.encodeHttp
  rw [base64_decode_encode]
  simp only
  rw [http_settings_payload s hu, ← forEach_flags]
  exact applyAll_forEach _ rfl h.1 h.2.1 h.2.2.1 h.2.2.2

/-- C61: no other settings come back: the value of settings with a parameter out of range is refused. -/
theorem C61_refused (s : Settings) (hu : C61_U32 s) (h : ¬ C61_InRange s) :
    ∃ e, Settings.parseHttp s.encodeHttp = .err e := by
  unfold Settings.parseHttp Settings.encodeHttp
  rw [base64_decode_encode]
  simp only
  have hp : Settings.parseSetting (s.forEach.flatMap Setting.encode) ≠ .panic := by
    have := C18_no_panic ⟨0, .settings, 0, 0⟩ (s.forEach.flatMap Setting.encode)
    unfold Settings.parse at this
    rwa [if_neg (by simp), if_neg (by decide)] at this
  cases hr : Settings.parseSetting (s.forEach.flatMap Setting.encode) with
  | err e => exact ⟨e, rfl⟩
  | panic => exact absurd hr hp
  | ok s' =>
    refine absurd ?_ h
    rw [http_settings_payload s hu] at hr
    have hx := applyAll_legal _ _ _ hr
    simp only [Settings.forEach, List.mem_append, Option.mem_toList, Option.map_eq_some_iff] at hx
    refine ⟨?_, ?_, ?_, ?_⟩ <;> intro v hv
    · obtain ⟨t, t', h⟩ := hx (.enablePush v) (by simp [hv])
      simp only [Settings.apply] at h
      split at h
      · omega
      · simp at h
    · obtain ⟨t, t', h⟩ := hx (.initialWindowSize v) (by simp [hv])
      simp only [Settings.apply] at h
      split at h
      · simp at h
      · omega
    · obtain ⟨t, t', h⟩ := hx (.maxFrameSize v) (by simp [hv])
      simp only [Settings.apply] at h
      split at h
      · omega
      · simp at h
    · obtain ⟨t, t', h⟩ := hx (.enableConnectProtocol v) (by simp [hv])
      simp only [Settings.apply] at h
      split at h
      · omega
      · simp at h

/-- C61: the value is base64url without padding of the payload of the SETTINGS frame that `encode` writes
for the same settings. -/
theorem C61_text (s : Settings) : ∃ payload, s.encode.1 = wireFrame 4 s.flags 0 payload ∧
    IsBase64Url s.encodeHttp payload := by
  refine ⟨s.forEach.flatMap Setting.encode, ?_, base64_spec_encode _⟩
  have e : s.encode.1 = FrameHeader.encode ⟨(s.forEach.flatMap Setting.encode).length, .settings, s.flags, 0⟩ ++ s.forEach.flatMap Setting.encode := by
    rw [settings_payload_length]; rfl
  rw [e]
  exact encode_wire .settings _ _ _

theorem base64_chars (b : Bytes) : ∀ c ∈ base64Encode b, c ∈ base64url := by
  obtain ⟨ds, h, -⟩ := base64_spec_encode b
  intro c hc
  have : some c ∈ ds.map (fun d => base64url[d]?) := by rw [← h]; exact List.mem_map_of_mem hc
  obtain ⟨d, -, hd⟩ := List.mem_map.mp this
  exact List.mem_of_getElem? hd

/-- C61: the value can stand in a header: letters, digits, `-` and `_` only, eight for each parameter set. -/
theorem C61_value (s : Settings) : (∀ c ∈ s.encodeHttp, isLetter c = true ∨ (48 ≤ c.toNat ∧ c.toNat ≤ 57) ∨ c = 45 ∨ c = 95) ∧
    s.encodeHttp.length = 8 * ([s.headerTableSize, s.enablePush, s.maxConcurrentStreams, s.initialWindowSize,
      s.maxFrameSize, s.maxHeaderListSize, s.enableConnectProtocol].filter Option.isSome).length := by
  constructor
  · intro c hc
    have := base64_chars _ c hc
    revert this
    revert c
    have : ∀ c ∈ base64url, isLetter c = true ∨ (48 ≤ c.toNat ∧ c.toNat ≤ 57) ∨ c = 45 ∨ c = 95 := by decide +kernel
    exact fun c _ h => this c h
  · obtain ⟨ds, h, k, hk, h2⟩ := base64_spec_encode (s.forEach.flatMap Setting.encode)
    have e1 := congrArg List.length h2
    have e2 := congrArg List.length h
    have e3 : ∀ b : Bytes, (bitsOf b).length = 8 * b.length := by
      intro b
      induction b with
      | nil => rfl
      | cons a b ih =>
        simp only [bitsOf, List.flatMap_cons, List.length_append, bits_len, List.length_cons] at ih ⊢
        omega
    rw [flatMap_bits_length, List.length_append, List.length_replicate, e3, settings_payload_length] at e1
    unfold Settings.payloadLen at e1
    rw [List.length_map, List.length_map] at e2
    have e4 : s.forEach.length = ([s.headerTableSize, s.enablePush, s.maxConcurrentStreams, s.initialWindowSize,
      s.maxFrameSize, s.maxHeaderListSize, s.enableConnectProtocol].filter Option.isSome).length := by
      obtain ⟨fl, a, b, c, d, e, f, g⟩ := s
      cases a <;> cases b <;> cases c <;> cases d <;> cases e <;> cases f <;> cases g <;> rfl
    unfold Settings.encodeHttp
    omega

/-- C61: exactly the base64url texts, without padding, of a whole number of legal entries are accepted;
the last value of each parameter counts. -/
theorem C61_parse_iff (value : Bytes) (s : Settings) :
    Settings.parseHttp value = .ok s ↔
      ∃ payload, IsBase64Url value payload ∧ payload.length % 6 = 0 ∧
      (∀ e ∈ settingEntries payload, LegalSetting e) ∧
      s.flags = 0 ∧ s.headerTableSize = lastValue 1 (settingEntries payload) ∧
      s.enablePush = lastValue 2 (settingEntries payload) ∧
      s.maxConcurrentStreams = lastValue 3 (settingEntries payload) ∧
      s.initialWindowSize = lastValue 4 (settingEntries payload) ∧
      s.maxFrameSize = lastValue 5 (settingEntries payload) ∧
      s.maxHeaderListSize = lastValue 6 (settingEntries payload) ∧
      s.enableConnectProtocol = lastValue 8 (settingEntries payload) := by
  have key : ∀ p, Settings.parseSetting p = Settings.parse ⟨0, .settings, 0, 0⟩ p := by
    intro p
    unfold Settings.parse
    rw [if_neg (by simp), if_neg (by decide)]
  unfold Settings.parseHttp
  constructor
  · intro h
    split at h
    · simp at h
    · rename_i v hv
      rw [key] at h
      exact ⟨v, (base64Decode_iff _ _).mp hv, (C18_parse_iff _ rfl rfl _ _).mp h⟩
  · rintro ⟨p, hp, h⟩
    rw [(base64Decode_iff _ _).mpr hp]
    simp only
    rw [key]
    exact (C18_parse_iff _ rfl rfl _ _).mpr h

/-- C61: no header value makes the parser panic. -/
theorem C61_no_panic (value : Bytes) : Settings.parseHttp value ≠ .panic := by
  unfold Settings.parseHttp
  split
  · simp
  · rename_i v hv
    have := C18_no_panic ⟨0, .settings, 0, 0⟩ v
    unfold Settings.parse at this
    rwa [if_neg (by simp), if_neg (by decide)] at this

/-! ## The upgrade request -/

theorem get?_insert_same (m : HeaderMap) (n n' v : Bytes) (h : nameEq n n' = true)
    (hm : ∀ e ∈ m, nameEq e.1 n = nameEq e.1 n') : (m.insert n v).get? n' = some v := by
  induction m with
  | nil => rw [HeaderMap.insert, get?_cons, if_pos h]
  | cons e m ih =>
    rw [HeaderMap.insert]
    have he := hm e (by simp)
    cases h1 : nameEq e.1 n with
    | true => rw [if_pos rfl, get?_cons, if_pos (by rw [← he, h1])]
    | false =>
      rw [if_neg (by simp), get?_cons, if_neg (by rw [← he, h1]; simp)]
      exact ih fun e he => hm e (by simp [he])

theorem get?_insert_other (m : HeaderMap) (n n' v : Bytes) (h : nameEq n n' = false)
    (hm : ∀ e ∈ m, nameEq e.1 n = true → nameEq e.1 n' = false) : (m.insert n v).get? n' = m.get? n' := by
  induction m with
  | nil => rw [HeaderMap.insert, get?_cons, if_neg (by simp [h])]
  | cons e m ih =>
    rw [HeaderMap.insert]
    have he := hm e (by simp)
    cases h1 : nameEq e.1 n with
    | true => rw [if_pos rfl, get?_cons, get?_cons, if_neg (by simp [he h1]), if_neg (by simp [he h1])]
    | false =>
      rw [if_neg (by simp), get?_cons, get?_cons, ih fun e he => hm e (by simp [he])]

theorem nameEq_length {a b : Bytes} (h : a.length ≠ b.length) : nameEq a b = false := by
  cases hn : nameEq a b with
  | false => rfl
  | true => exact absurd ((nameEq_iff a b).mp hn).1 h

/-- C61: a request with `upgrade_http2` asks for `h2c` and carries the settings, whatever headers it had. -/
def C61_upgrade_statement : Prop :=
  ∀ (m : HeaderMap) (s : Settings), (m.upgradeHttp2 s).upgradeProtocol = some (asciiBytes "h2c") ∧
    (m.upgradeHttp2 s).get? (asciiBytes "HTTP2-Settings") = some s.encodeHttp

/-- Fails: a header `#onnection` is taken for `Connection` and overwritten, but not found as `connection`. -/
theorem C61_violated_upgrade : ¬ C61_upgrade_statement := by
  intro h
  have := (h [(asciiBytes "#onnection", asciiBytes "x")] {}).1
  revert this
  decide +kernel

/-- C61 for header names not ambiguous with the three names added. -/
theorem C61_upgrade_partial (m : HeaderMap) (s : Settings)
    (hm : ∀ e ∈ m, ∀ n ∈ ["Connection", "Upgrade", "HTTP2-Settings"],
      Unambiguous e.1 (asciiBytes n) ∧ Unambiguous e.1 (lower (asciiBytes n))) :
    (m.upgradeHttp2 s).upgradeProtocol = some (asciiBytes "h2c") ∧
    (m.upgradeHttp2 s).get? (asciiBytes "HTTP2-Settings") = some s.encodeHttp ∧
    (m.upgradeHttp2 s).get? (asciiBytes "http2-settings") = some s.encodeHttp := by
  have low : ∀ e ∈ m, ∀ n ∈ ["Connection", "Upgrade", "HTTP2-Settings"],
      nameEq e.1 (asciiBytes n) = nameEq e.1 (lower (asciiBytes n)) := by
    intro e he n hn
    obtain ⟨h1, h2⟩ := hm e he n hn
    have : lower (lower (asciiBytes n)) = lower (asciiBytes n) := by
      simp only [List.mem_cons, List.not_mem_nil, or_false] at hn
      rcases hn with rfl | rfl | rfl <;> decide +kernel
    rw [Bool.eq_iff_iff, nameEq_iff_lower h1, nameEq_iff_lower h2, this]
  have names : ∀ (m : HeaderMap) (n v : Bytes) (e : Header), e ∈ m.insert n v → e.1 = n ∨ ∃ e' ∈ m, e'.1 = e.1 :=
    fun m n v e h => mem_insert_name h
  have lc : lower (asciiBytes "Connection") = asciiBytes "connection" := by decide +kernel
  have lu : lower (asciiBytes "Upgrade") = asciiBytes "upgrade" := by decide +kernel
  have ls : lower (asciiBytes "HTTP2-Settings") = asciiBytes "http2-settings" := by decide +kernel
  have diff : ∀ (m : HeaderMap) (a b v : Bytes), a.length ≠ b.length → (m.insert a v).get? b = m.get? b := by
    intro m a b v h
    refine get?_insert_other m a b v (nameEq_length h) fun e _ he => nameEq_length ?_
    rw [((nameEq_iff _ _).mp he).1]; exact h
  have hc : (m.upgradeHttp2 s).get? (asciiBytes "connection") = some (asciiBytes "Upgrade, HTTP2-Settings") := by
    unfold HeaderMap.upgradeHttp2
    rw [diff _ _ _ _ (by decide +kernel), diff _ _ _ _ (by decide +kernel)]
    refine get?_insert_same _ _ _ _ (by decide +kernel) fun e he => ?_
    rw [low e he "Connection" (by simp), lc]
  have hup : (m.upgradeHttp2 s).get? (asciiBytes "upgrade") = some (asciiBytes "h2c") := by
    unfold HeaderMap.upgradeHttp2
    rw [diff _ _ _ _ (by decide +kernel)]
    refine get?_insert_same _ _ _ _ (by decide +kernel) fun e he => ?_
    rcases names _ _ _ _ he with h | ⟨e', he', h⟩
    · rw [h]; decide +kernel
    · rw [← h, low e' he' "Upgrade" (by simp), lu]
  have hs : ∀ n, n = asciiBytes "HTTP2-Settings" ∨ n = asciiBytes "http2-settings" →
      (m.upgradeHttp2 s).get? n = some s.encodeHttp := by
    intro n hn
    unfold HeaderMap.upgradeHttp2
    refine get?_insert_same _ _ _ _ (by rcases hn with rfl | rfl <;> decide +kernel) fun e he => ?_
    rcases names _ _ _ _ he with h | ⟨e', he', h⟩
    · rw [h]; rcases hn with rfl | rfl <;> decide +kernel
    · rw [← h]
      rcases names _ _ _ _ he' with h | ⟨e'', he'', h⟩
      · rw [h]; rcases hn with rfl | rfl <;> decide +kernel
      · rw [← h]
        rcases hn with rfl | rfl
        · rfl
        · rw [low e'' he'' "HTTP2-Settings" (by simp), ls]
  refine ⟨?_, hs _ (Or.inl rfl), hs _ (Or.inr rfl)⟩
  unfold HeaderMap.upgradeProtocol
  rw [hc, hup]
  decide +kernel

/-- Settings in range that are not all defaults. -/
example : C61_U32 ⟨1, some 4096, some 0, none, some 65535, none, none, none⟩ ∧
    C61_InRange ⟨1, some 4096, some 0, none, some 65535, none, none, none⟩ ∧
    Settings.encodeHttp ⟨1, some 4096, some 0, none, some 65535, none, none, none⟩ =
      asciiBytes "AAEAABAAAAIAAAAAAAQAAP__" ∧
    Settings.parseHttp (asciiBytes "AAEAABAAAAIAAAAAAAQAAP__") =
      .ok ⟨0, some 4096, some 0, none, some 65535, none, none, none⟩ := by
  refine ⟨⟨?_, ?_, ?_, ?_, ?_, ?_, ?_⟩, ⟨?_, ?_, ?_, ?_⟩, by decide +kernel, by decide +kernel⟩ <;> intro v hv <;> simp_all <;> omega

/-- Settings that can be built and whose own header value is refused. -/
example : C61_U32 { initialWindowSize := some (2 ^ 31) } ∧ ¬ C61_InRange { initialWindowSize := some (2 ^ 31) } := by
  refine ⟨⟨?_, ?_, ?_, ?_, ?_, ?_, ?_⟩, fun h => ?_⟩
  · intro v hv; simp_all
  · intro v hv; simp_all
  · intro v hv; simp_all
  · intro v hv; simp_all; omega
  · intro v hv; simp_all
  · intro v hv; simp_all
  · intro v hv; simp_all
  · have := h.2.1 (2 ^ 31) rfl; omega

/-- A request with headers of its own, one of which is replaced. -/
example : ∀ e ∈ [(asciiBytes "Host", asciiBytes "a.com"), (asciiBytes "connection", asciiBytes "keep-alive")],
    ∀ n ∈ ["Connection", "Upgrade", "HTTP2-Settings"],
      Unambiguous e.1 (asciiBytes n) ∧ Unambiguous e.1 (lower (asciiBytes n)) := by
  intro e he n hn
  have p : ∀ x ∈ [asciiBytes "Host", asciiBytes "connection", asciiBytes "Connection", asciiBytes "Upgrade",
      asciiBytes "HTTP2-Settings", lower (asciiBytes "Connection"), lower (asciiBytes "Upgrade"),
      lower (asciiBytes "HTTP2-Settings")], ∀ c ∈ x, (asciiBytes "HostConnectionUpgradeHTTP2-Settingshu").contains c = true := by
    decide +kernel
  have u : ∀ {a b : Bytes}, (∀ c ∈ a, (asciiBytes "HostConnectionUpgradeHTTP2-Settingshu").contains c = true) →
      (∀ c ∈ b, (asciiBytes "HostConnectionUpgradeHTTP2-Settingshu").contains c = true) → Unambiguous a b :=
    fun ha hb => unambiguous_of_bytes (fun c => (asciiBytes "HostConnectionUpgradeHTTP2-Settingshu").contains c)
      (by decide +kernel) ha hb
  simp only [List.mem_cons, List.not_mem_nil, or_false] at he hn
  rcases he with rfl | rfl <;> rcases hn with rfl | rfl | rfl <;>
    exact ⟨u (p _ (by simp)) (p _ (by simp)), u (p _ (by simp)) (p _ (by simp))⟩

end Webparse
