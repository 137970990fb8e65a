import Verif.Spec.SettingsApi
import Verif.Props.Frame
import Verif.Proofs.Rfc9113

/-! C79: SETTINGS made with the setters. -/

namespace Webparse
open Spec

theorem lastSet_snoc {α : Type} (about : SetCall → Option (Option α)) (cs : List SetCall) (c : SetCall) :
    lastSet about (cs ++ [c]) = match about c with | some v => v | none => lastSet about cs := by
  unfold lastSet
  rw [List.filterMap_append]
  cases h : about c with
  | none => simp [h]
  | some v => simp [h]

theorem setAll_snoc (cs : List SetCall) (c : SetCall) : ∀ s : Settings,
    s.setAll (cs ++ [c]) = (s.setAll cs).bind fun s => s.set c := by
  induction cs with
  | nil =>
    intro s
    simp only [List.nil_append, Settings.setAll, Res.bind]
    cases s.set c <;> rfl
  | cons x xs ih =>
    intro s
    simp only [List.cons_append, Settings.setAll]
    cases s.set x with
    | ok s' => exact ih s'
    | err e => rfl
    | panic => rfl

theorem set_ok (s : Settings) (c : SetCall) (h : FrameSizesAllowed [c]) :
    s.set c = .ok
      { s with
        enablePush := match aboutPush c with | some v => v.map fun b => if b then 1 else 0 | none => s.enablePush
        maxConcurrentStreams := match aboutStreams c with | some v => v | none => s.maxConcurrentStreams
        initialWindowSize := match aboutWindow c with | some v => v | none => s.initialWindowSize
        maxFrameSize := match aboutFrameSize c with | some v => v | none => s.maxFrameSize
        maxHeaderListSize := match aboutListSize c with | some v => v | none => s.maxHeaderListSize
        enableConnectProtocol := match aboutConnect c with | some v => v | none => s.enableConnectProtocol } := by
  cases c with
  | maxFrameSize v =>
    cases v with
    | none => rfl
    | some v =>
      have := h v (by simp)
      simp only [Settings.set]
      rw [if_pos (by omega)]
      rfl
  | _ => rfl

/-- C79: the calls succeed exactly if every frame size set is allowed, and panic otherwise; the settings
then hold for each parameter what the last call gave it. -/
theorem C79_setters (calls : List SetCall) :
    (FrameSizesAllowed calls → Settings.setAll {} calls = .ok (askedSettings calls)) ∧
      (¬ FrameSizesAllowed calls → Settings.setAll {} calls = .panic) := by
  have snoc : ∀ l : List SetCall, (FrameSizesAllowed l → Settings.setAll {} l = .ok (askedSettings l)) ∧
      (¬ FrameSizesAllowed l → Settings.setAll {} l = .panic) := by
    intro l
    rw [← List.reverse_reverse l]
    induction l.reverse with
    | nil => exact ⟨fun _ => rfl, fun h => absurd (fun v hv => by simp at hv) h⟩
    | cons c r ih =>
      rw [List.reverse_cons, setAll_snoc]
      have split : FrameSizesAllowed (r.reverse ++ [c]) ↔ FrameSizesAllowed r.reverse ∧ FrameSizesAllowed [c] := by
        unfold FrameSizesAllowed
        simp only [List.mem_append]
        exact ⟨fun h => ⟨fun v hv => h v (.inl hv), fun v hv => h v (.inr hv)⟩,
          fun h v hv => hv.elim (h.1 v) (h.2 v)⟩
      rw [split]
      constructor
      · rintro ⟨h1, h2⟩
        rw [ih.1 h1]
        show Settings.set _ c = _
        rw [set_ok _ _ h2]
        unfold askedSettings
        simp only [lastSet_snoc]
        cases c <;> rfl
      · intro h
        by_cases h1 : FrameSizesAllowed r.reverse
        · have h2 : ¬ FrameSizesAllowed [c] := fun h2 => h ⟨h1, h2⟩
          rw [ih.1 h1]
          show Settings.set _ c = _
          cases c with
          | maxFrameSize v =>
            cases v with
            | none => exact absurd (fun v hv => by simp at hv) h2
            | some v =>
              simp only [Settings.set]
              rw [if_neg]
              intro hv
              refine h2 fun w hw => ?_
              simp only [List.mem_singleton, SetCall.maxFrameSize.injEq, Option.some.injEq] at hw
              omega
          | _ => exact absurd (fun v hv => by simp at hv) h2
        · rw [ih.2 h1]
          rfl
  exact snoc calls

/-- C79: and the two questions about switches are answered by the last call. -/
theorem C79_switches (calls : List SetCall) (s : Settings) (h : Settings.setAll {} calls = .ok s) :
    s.isPushEnabled = lastSet aboutPush calls ∧
      s.isExtendedConnectProtocolEnabled = (lastSet aboutConnect calls).map (· != 0) ∧ s.isAck = false := by
  have e : s = askedSettings calls := by
    by_cases hc : FrameSizesAllowed calls
    · rw [(C79_setters calls).1 hc] at h
      cases h
      rfl
    · rw [(C79_setters calls).2 hc] at h
      cases h
  subst e
  refine ⟨?_, rfl, (by decide : ((0 : UInt8) &&& 1 == 1) = false)⟩
  unfold Settings.isPushEnabled askedSettings
  simp only
  cases lastSet aboutPush calls with
  | none => rfl
  | some b => cases b <;> rfl

/-- C79, the full claim: whatever is set, the peer reads it from the frame written. -/
def C79_statement : Prop :=
  ∀ (calls : List SetCall) (s : Settings), SetsU32 calls → Settings.setAll {} calls = .ok s →
    ∀ rest t m, readFrame t m (s.encode.1 ++ rest) = some (.ok (.settings s, t, rest))

theorem lastSet_mem {α : Type} {about : SetCall → Option (Option α)} {calls : List SetCall} {v : α}
    (h : lastSet about calls = some v) : ∃ c ∈ calls, about c = some (some v) := by
  unfold lastSet at h
  rw [Option.join_eq_some_iff] at h
  obtain ⟨c, hc, e⟩ := List.mem_filterMap.mp (List.mem_of_getLast? h)
  exact ⟨c, hc, e⟩

theorem apply_verdict (s : Settings) (x : Setting) :
    (∃ s', s.apply (some x) = .ok s') ∨ s.apply (some x) = .err .invalidSettingValue := by
  cases x <;> simp only [Settings.apply] <;> first | (split <;> simp) | simp

theorem applyAll_refuses (x : Setting) (hx : ∀ s : Settings, s.apply (some x) = .err .invalidSettingValue)
    (l : List Setting) : x ∈ l → ∀ s : Settings, applyAll s l = .err .invalidSettingValue := by
  induction l with
  | nil => intro h; simp at h
  | cons y r ih =>
    intro h s
    rw [applyAll]
    rcases List.mem_cons.mp h with rfl | h
    · rw [hx s]; rfl
    · rcases apply_verdict s y with ⟨s', hy⟩ | hy
      · rw [hy]; exact ih h s'
      · rw [hy]; rfl

theorem asked_u32 {calls : List SetCall} (hu : SetsU32 calls) :
    ∀ x ∈ (askedSettings calls).forEach, x.val < 2 ^ 32 := by
  intro x hx
  simp only [Settings.forEach, List.mem_append, Option.mem_toList, Option.map_eq_some_iff] at hx
  rcases hx with (((((⟨v, hv, rfl⟩ | ⟨v, hv, rfl⟩) | ⟨v, hv, rfl⟩) | ⟨v, hv, rfl⟩) |
    ⟨v, hv, rfl⟩) | ⟨v, hv, rfl⟩) | ⟨v, hv, rfl⟩
  · cases hv
  · simp only [askedSettings, Option.map_eq_some_iff] at hv
    obtain ⟨b, -, rfl⟩ := hv
    cases b <;> decide
  · obtain ⟨c, hc, e⟩ := lastSet_mem hv
    cases c <;> simp only [aboutStreams, Option.some.injEq, reduceCtorEq] at e
    subst e
    exact hu v (.inr (.inl hc))
  · obtain ⟨c, hc, e⟩ := lastSet_mem hv
    cases c <;> simp only [aboutWindow, Option.some.injEq, reduceCtorEq] at e
    subst e
    exact hu v (.inl hc)
  · obtain ⟨c, hc, e⟩ := lastSet_mem hv
    cases c <;> simp only [aboutFrameSize, Option.some.injEq, reduceCtorEq] at e
    subst e
    exact hu v (.inr (.inr (.inl hc)))
  · obtain ⟨c, hc, e⟩ := lastSet_mem hv
    cases c <;> simp only [aboutListSize, Option.some.injEq, reduceCtorEq] at e
    subst e
    exact hu v (.inr (.inr (.inr (.inl hc))))
  · obtain ⟨c, hc, e⟩ := lastSet_mem hv
    cases c <;> simp only [aboutConnect, Option.some.injEq, reduceCtorEq] at e
    subst e
    exact hu v (.inr (.inr (.inr (.inr hc))))

/-- C79, partial: the peer reads exactly what was set, if neither the window nor the CONNECT switch was last
given a value that RFC 9113 6.5.2 and RFC 8441 forbid; otherwise it refuses the frame, whatever else it
holds. -/
theorem C79_read_partial (calls : List SetCall) (s : Settings) (hu : SetsU32 calls)
    (h : Settings.setAll {} calls = .ok s) (rest : Bytes) (t : HeaderIndex) (m : Nat) :
    (PeerTakes s → readFrame t m (s.encode.1 ++ rest) = some (.ok (.settings s, t, rest))) ∧
      (¬ PeerTakes s → readFrame t m (s.encode.1 ++ rest) = some (.err .invalidSettingValue)) := by
  have hc : FrameSizesAllowed calls := by
    refine Classical.byContradiction fun hn => ?_
    rw [(C79_setters calls).2 hn] at h
    cases h
  have e : s = askedSettings calls := by
    rw [(C79_setters calls).1 hc] at h
    cases h
    rfl
  subst e
  have e : (askedSettings calls).encode.1 =
      FrameHeader.encode ⟨((askedSettings calls).forEach.flatMap Setting.encode).length, .settings, 0, 0⟩ ++
        (askedSettings calls).forEach.flatMap Setting.encode := by
    rw [settings_payload_length]; rfl
  have hlen := payloadLen_le (askedSettings calls)
  have hp : Settings.parseSetting ((askedSettings calls).forEach.flatMap Setting.encode) =
      applyAll {} (askedSettings calls).forEach := by
    unfold Settings.parseSetting
    have hl := settings_payload_length (askedSettings calls)
    unfold Settings.payloadLen at hl
    rw [if_neg (by omega)]
    have : ((askedSettings calls).forEach.flatMap Setting.encode).length / 6 =
        (askedSettings calls).forEach.length := by omega
    rw [this, parseLoop_list _ (asked_u32 hu)]
  have hread : ∀ r, applyAll {} (askedSettings calls).forEach = r →
      readFrame t m ((askedSettings calls).encode.1 ++ rest) =
        withRest rest (wrapFrame t .settings r) := by
    intro r hr
    rw [e, List.append_assoc, readFrame_encode .settings _ _ _ rest t m
      (by rw [settings_payload_length]; omega) (by decide) (by decide) (by decide)]
    simp [Frame.parse, trimPadding, flagIsPadded, Settings.parse, flagIsEndStream, hp, hr]
  constructor
  · rintro ⟨h1, h2⟩
    rw [hread _ (applyAll_forEach _ rfl ?_ h1 ?_ h2)]
    · rfl
    · intro v hv
      simp only [askedSettings, Option.map_eq_some_iff] at hv
      obtain ⟨b, -, rfl⟩ := hv
      cases b <;> decide
    · intro v hv
      obtain ⟨c, hc', e⟩ := lastSet_mem hv
      cases c <;> simp only [aboutFrameSize, Option.some.injEq, reduceCtorEq] at e
      subst e
      exact hc v hc'
  · intro hn
    rw [hread (.err .invalidSettingValue)]
    · rfl
    by_cases h1 : ∀ v, (askedSettings calls).initialWindowSize = some v → v ≤ 2 ^ 31 - 1
    · have h2 : ¬ ∀ v, (askedSettings calls).enableConnectProtocol = some v → v ≤ 1 := fun h2 => hn ⟨h1, h2⟩
      obtain ⟨v, hv⟩ := Classical.not_forall.mp h2
      obtain ⟨hv, hw⟩ := Classical.not_imp.mp hv
      refine applyAll_refuses (.enableConnectProtocol v) (fun s => ?_) _ ?_ _
      · simp only [Settings.apply]
        rw [if_neg (by omega)]
      · simp [Settings.forEach, hv]
    · obtain ⟨v, hv⟩ := Classical.not_forall.mp h1
      obtain ⟨hv, hw⟩ := Classical.not_imp.mp hv
      refine applyAll_refuses (.initialWindowSize v) (fun s => ?_) _ ?_ _
      · simp only [Settings.apply]
        rw [if_pos (by omega)]
      · simp [Settings.forEach, hv]

example : Settings.setAll {} [.enablePush true, .maxFrameSize (some 20000), .enablePush false,
      .initialWindowSize (some 70000)] =
    .ok { enablePush := some 0, maxFrameSize := some 20000, initialWindowSize := some 70000 } := by decide

/-- C79, violated: a window of 2^31 or a CONNECT switch of 2 can be set, and the peer refuses the frame. -/
theorem C79_violated : ¬ C79_statement := by
  intro h
  have h1 := h [.initialWindowSize (some (2 ^ 31))] { initialWindowSize := some (2 ^ 31) }
    (by intro v hv; simp at hv; omega) rfl [] {} 0
  rw [(C79_read_partial [.initialWindowSize (some (2 ^ 31))] _ (by intro v hv; simp at hv; omega) rfl [] {} 0).2
    (fun ht => absurd (ht.1 _ rfl) (by decide))] at h1
  cases h1

end Webparse
