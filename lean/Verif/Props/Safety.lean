import Verif.Proofs.HpackDecode
import Verif.Proofs.Streams
import Verif.Proofs.UrlParse
import Verif.Spec.HpackState
import Verif.Model.FrameHeaders

/-! # Calls that never panic -/

namespace Webparse
open Spec

/-! ## C58 -/

theorem res_bind_panic {α β : Type} {x : Res α} {f : α → Res β} :
    (x >>= f) = .panic ↔ x = .panic ∨ ∃ a, x = .ok a ∧ f a = .panic := by
  cases x <;> simp

theorem method_tryFrom_no_panic (s : Bytes) : Method.tryFrom s ≠ .panic := by
  unfold Method.tryFrom; repeat' split <;> try simp

theorem scheme_tryFrom_no_panic (s : Bytes) : Scheme.tryFrom s ≠ .panic := by
  unfold Scheme.tryFrom; repeat' split <;> try simp

theorem statusFromBytes_no_panic (s : Bytes) : statusFromBytes s ≠ .panic := by
  unfold statusFromBytes; repeat' split <;> try simp

theorem addField_no_panic (f : HeadersFrame) (h : Header) : f.addField h ≠ .panic := by
  unfold HeadersFrame.addField
  intro hp
  split at hp
  · simp only at hp
    repeat' split at hp
    all_goals try simp at hp
    all_goals rw [res_bind_panic] at hp
    · simp [method_tryFrom_no_panic] at hp
    · simp [scheme_tryFrom_no_panic] at hp
    · simp [statusFromBytes_no_panic] at hp
  · simp at hp

theorem addFields_no_panic (m : Nat) (hs : List Header) : ∀ (s : Nat) (f : HeadersFrame),
    HeadersFrame.addFields m s f hs ≠ .panic := by
  induction hs with
  | nil => intro s f; simp [HeadersFrame.addFields]
  | cons h hs ih =>
    intro s f hp
    unfold HeadersFrame.addFields at hp
    simp only at hp
    split at hp
    · simp at hp
    · rw [res_bind_panic] at hp
      rcases hp with hp | ⟨a, _, hp⟩
      · exact addField_no_panic _ _ hp
      · exact ih _ _ hp

theorem dependency_load_no_panic (b : Bytes) : StreamDependency.load b ≠ .panic := by
  unfold StreamDependency.load; split <;> simp

theorem loadDep_no_panic (f : HeadersFrame) (b : Bytes) : f.loadDep b ≠ .panic := by
  unfold HeadersFrame.loadDep
  split
  · intro h
    rw [res_bind_panic] at h
    simp [dependency_load_no_panic] at h
  · simp

theorem headers_parse_safe (f : HeadersFrame) (buf : Bytes) {t : HeaderIndex} (ht : TableInv t) (m : Nat) :
    f.parse buf t m ≠ some .panic ∧
      ∀ f' t', f.parse buf t m = some (.ok (f', t')) → TableInv t' ∧ t'.maxSize = t.maxSize := by
  unfold HeadersFrame.parse
  cases hl : f.loadDep buf with
  | panic => exact absurd hl (loadDep_no_panic _ _)
  | err e => simp
  | ok x =>
    obtain ⟨f1, rest⟩ := x
    simp only
    have hd := decodeRun_safe rest.length ht rest
    cases hdec : decode t rest with
    | none => simp
    | some y =>
      unfold decode at hdec
      cases y with
      | panic => exact absurd hdec hd.1
      | err e => simp
      | ok z =>
        obtain ⟨hs, t1⟩ := z
        simp only
        refine ⟨?_, ?_⟩
        · intro h
          have h := Option.some.inj h
          rw [res_bind_panic] at h
          simp [addFields_no_panic] at h
        · intro f' t' h
          have h := Option.some.inj h
          obtain ⟨f2, _, h⟩ := Res.bind_eq_ok.mp h
          simp at h
          obtain ⟨_, rfl⟩ := h
          exact hd.2 _ _ hdec

/-- Settings never panic. -/
theorem settings_apply_no_panic (s : Settings) (o : Option Setting) : s.apply o ≠ .panic := by
  unfold Settings.apply; repeat' split <;> try simp

theorem settings_loop_no_panic (n : Nat) : ∀ (s : Settings) (b : Bytes), Settings.parseLoop n s b ≠ .panic := by
  induction n with
  | zero => intro s b; simp [Settings.parseLoop]
  | succ n ih =>
    intro s b h
    unfold Settings.parseLoop at h
    rw [res_bind_panic] at h
    rcases h with h | ⟨_, _, h⟩
    · exact settings_apply_no_panic _ _ h
    · exact ih _ _ h

theorem settings_parse_no_panic (h : FrameHeader) (b : Bytes) : Settings.parse h b ≠ .panic := by
  unfold Settings.parse Settings.parseSetting
  repeat' split <;> try simp
  exact settings_loop_no_panic _ _ _

theorem wrapFrame_panic {α : Type} (t : HeaderIndex) (mk : α → Frame) (x : Res α) :
    wrapFrame t mk x = some .panic ↔ x = .panic := by cases x <;> simp [wrapFrame]

theorem wrapFrame_ok {α : Type} {t t' : HeaderIndex} {mk : α → Frame} {x : Res α} {f : Frame}
    (h : wrapFrame t mk x = some (.ok (f, t'))) : t' = t := by
  cases x <;> simp [wrapFrame] at h
  exact h.2.symm

/-- The full claim of C58. -/
def C58_statement : Prop :=
  ∀ (head : FrameHeader) (buf : Bytes) (t : HeaderIndex) (maxList : Nat),
    t.size = tableSize t.table → t.size ≤ t.maxSize → Frame.parse head buf t maxList ≠ some .panic

/-- The claim fails: a DATA frame on stream 0 (nine bytes any peer can send) panics. -/
theorem C58_violated : ¬ C58_statement := by
  intro h
  exact h { length := 0, kind := .data, flag := 0, id := 0 } [] {} 0 (by decide +kernel) (by decide +kernel)
    (by decide +kernel)

/-- The same from the wire: these nine bytes are a valid frame header. -/
example : ((FrameHeader.parse [0, 0, 0, 0, 0, 0, 0, 0, 0]).bind fun x =>
    .ok (Frame.parse x.1 x.2 {} 4096)) = .ok (some .panic) := by decide +kernel

/-- Exactly when parsing a frame panics: DATA on stream 0 whose padding length, if any, is not
refused first.  So every other kind of frame is safe for every payload. -/
theorem C58_panic_iff_partial (head : FrameHeader) (buf : Bytes) (t : HeaderIndex) (maxList : Nat)
    (hs : t.size = tableSize t.table) (hm : t.size ≤ t.maxSize) :
    Frame.parse head buf t maxList = some .panic ↔
      head.kind = .data ∧ head.id = 0 ∧
        ¬ (head.flag &&& 0x8 = 0x8 ∧ ∃ p rest, buf = p :: rest ∧ p.toNat > head.length) := by
  have hinv : TableInv t := ⟨hs, hm⟩
  have htrim : (∃ b, trimPadding head buf = .ok b ∧
      ¬ (head.flag &&& 0x8 = 0x8 ∧ ∃ p rest, buf = p :: rest ∧ p.toNat > head.length)) ∨
      (∃ e, trimPadding head buf = .err e ∧
        (head.flag &&& 0x8 = 0x8 ∧ ∃ p rest, buf = p :: rest ∧ p.toNat > head.length)) := by
    unfold trimPadding flagIsPadded
    by_cases hp : head.flag &&& 8 = 8
    · simp only [hp, BEq.rfl, if_true, true_and]
      cases buf with
      | nil => exact Or.inl ⟨[], rfl, by simp⟩
      | cons p rest =>
        by_cases hl : p.toNat > head.length
        · simp [hl]
        · simp [hl]
    · simp [hp]
  unfold Frame.parse
  rcases htrim with ⟨b, hb, hn⟩ | ⟨e, he, hy⟩
  · rw [hb]
    simp only [hn, not_false_eq_true, and_true]
    cases hk : head.kind <;> simp only [wrapFrame_panic, reduceCtorEq, false_and, iff_false, true_and]
    · simp [DataFrame.new]
    · have := (headers_parse_safe { streamId := head.id, flags := head.flag } b hinv maxList).1
      revert this
      cases HeadersFrame.parse { streamId := head.id, flags := head.flag } b t maxList with
      | none => simp
      | some x => cases x <;> simp
    · intro h
      unfold Priority.parse at h
      rw [res_bind_panic] at h
      rcases h with h | ⟨_, _, h⟩
      · exact dependency_load_no_panic _ h
      · revert h
        repeat' split <;> try simp
    · unfold Reset.parse; split <;> simp
    · exact settings_parse_no_panic _ _
    · simp
    · unfold Ping.parse; repeat' split <;> try simp
    · unfold GoAway.parse; split <;> simp
    · unfold WindowUpdate.parse
      repeat' split <;> try simp
    · simp
    · simp
  · rw [he]
    constructor
    · intro h; simp at h
    · intro h; exact absurd hy h.2.2

/-- Whatever a peer sends, the decoder's table stays within its limit and its recorded size stays
right, so the next frame is parsed safely as well. -/
theorem C58_table_kept (head : FrameHeader) (buf : Bytes) (t t' : HeaderIndex) (maxList : Nat) (f : Frame)
    (hs : t.size = tableSize t.table) (hm : t.size ≤ t.maxSize)
    (h : Frame.parse head buf t maxList = some (.ok (f, t'))) :
    t'.size = tableSize t'.table ∧ t'.size ≤ t'.maxSize ∧ t'.maxSize = t.maxSize := by
  have hinv : TableInv t := ⟨hs, hm⟩
  have same : t' = t → t'.size = tableSize t'.table ∧ t'.size ≤ t'.maxSize ∧ t'.maxSize = t.maxSize := by
    rintro rfl; exact ⟨hs, hm, rfl⟩
  unfold Frame.parse at h
  cases hb : trimPadding head buf with
  | err e => simp [hb] at h
  | panic => simp [hb] at h
  | ok b =>
    rw [hb] at h
    simp only at h
    cases hk : head.kind <;> rw [hk] at h <;> simp only at h
    · exact same (wrapFrame_ok h)
    · have := (headers_parse_safe { streamId := head.id, flags := head.flag } b hinv maxList).2
      revert this h
      cases HeadersFrame.parse { streamId := head.id, flags := head.flag } b t maxList with
      | none => simp
      | some x =>
        cases x with
        | ok y =>
          obtain ⟨f1, t1⟩ := y
          intro h this
          simp at h
          obtain ⟨_, rfl⟩ := h
          have := this _ _ rfl
          exact ⟨this.1.1, this.1.2, this.2⟩
        | err e => simp
        | panic => simp
    · exact same (wrapFrame_ok h)
    · exact same (wrapFrame_ok h)
    · exact same (wrapFrame_ok h)
    · simp at h; exact same h.2.symm
    · exact same (wrapFrame_ok h)
    · exact same (wrapFrame_ok h)
    · exact same (wrapFrame_ok h)
    · simp at h
    · simp at h

/-- A frame that is read, with a literal that goes into the table. -/
example : Frame.parse { length := 5, kind := .headers, flag := 4, id := 1 } [0x40, 0x01, 0x61, 0x01, 0x62] {} 4096 =
    some (.ok (.headers { streamId := 1, fields := [([0x61], [0x62])], flags := 4 },
      { table := [([0x61], [0x62])], size := 34, maxSize := 4096 })) := by decide +kernel

/-! ## C59 -/

theorem thenRead_safe {α β : Type} {x : Res α × Bytes} {f : α → Bytes → Res β × Bytes} (hx : x.1 ≠ .panic)
    (hf : ∀ a buf, (f a buf).1 ≠ .panic) : (thenRead x f).1 ≠ .panic := by
  obtain ⟨x1, x2⟩ := x
  cases x1 with
  | ok a => exact hf a x2
  | err e => simp [thenRead]
  | panic => exact absurd rfl hx

theorem thenDo_safe {α β σ : Type} {x : Res α × Bytes} {s : σ} {f : α → Bytes → Res β × σ × Bytes} (hx : x.1 ≠ .panic)
    (hf : ∀ a buf, (f a buf).1 ≠ .panic) : (thenDo x s f).1 ≠ .panic := by
  obtain ⟨x1, x2⟩ := x
  cases x1 with
  | ok a => exact hf a x2
  | err e => simp [thenDo]
  | panic => exact absurd rfl hx

theorem nextByte_safe (buf : Bytes) : (nextByte buf).1 ≠ .panic := by cases buf <;> simp [nextByte]
theorem peekByte_safe (buf : Bytes) : (peekByte buf).1 ≠ .panic := by cases buf <;> simp [peekByte]
theorem expectByte_safe (c : UInt8) (e : Error) (buf : Bytes) : (expectByte c e buf).1 ≠ .panic := by
  cases buf with
  | nil => simp [expectByte]
  | cons b r => simp only [expectByte]; split <;> simp
theorem token_safe (f : UInt8 → Bool) (e : Error) (empty : Bool) (buf : Bytes) :
    (parseTokenEmpty f e empty buf).1 ≠ .panic := by
  unfold parseTokenEmpty
  split
  · simp
  · simp only
    split
    · split
      · exact thenRead_safe (nextByte_safe _) (by simp)
      · simp
    · simp
theorem skipNewLine_safe (buf : Bytes) : (skipNewLine buf).1 ≠ .panic := by
  refine thenRead_safe (nextByte_safe _) fun b r => ?_
  split
  · exact expectByte_safe _ _ _
  · repeat' split <;> try simp
theorem skipEmptyLines_safe (n : Nat) : ∀ buf : Bytes, buf.length ≤ n → (skipEmptyLines buf).1 ≠ .panic := by
  induction n with
  | zero =>
    intro buf h
    have : buf = [] := by simpa using h
    subst this; simp [skipEmptyLines]
  | succ n ih =>
    intro buf h
    match buf, h with
    | [], _ => simp [skipEmptyLines]
    | [b], _ => unfold skipEmptyLines; repeat' split <;> try simp
    | b :: c :: r, h =>
      unfold skipEmptyLines
      simp only [List.length_cons] at h
      split
      · split
        · exact ih _ (by omega)
        · simp
      · split
        · exact ih _ (by simp only [List.length_cons]; omega)
        · simp
theorem skipSpaces_safe (buf : Bytes) : (skipSpaces buf).1 ≠ .panic := by
  induction buf with
  | nil => simp [skipSpaces]
  | cons b r ih => unfold skipSpaces; split <;> [exact ih; simp]
theorem onToken_safe {α : Type} {x : Res Bytes × Bytes} {f : Bytes → Res α} (hx : x.1 ≠ .panic)
    (hf : ∀ s, f s ≠ .panic) : (onToken x f).1 ≠ .panic := thenRead_safe hx fun a _ => hf a
theorem versionOfToken_safe (s : Bytes) : versionOfToken s ≠ .panic := by
  unfold versionOfToken; repeat' split <;> try simp

theorem parseHeaderLine_safe (buf : Bytes) : (parseHeaderLine buf).1 ≠ .panic := by
  refine thenRead_safe (peekByte_safe _) fun b buf => ?_
  split
  · exact thenRead_safe (nextByte_safe _) fun _ _ => thenRead_safe (expectByte_safe _ _ _) (by simp)
  · split
    · exact thenRead_safe (nextByte_safe _) (by simp)
    · exact thenRead_safe (thenRead_safe (token_safe _ _ _ _) (by simp)) fun _ _ =>
        thenRead_safe (skipSpaces_safe _) fun _ _ =>
        thenRead_safe (expectByte_safe _ _ _) fun _ _ =>
        thenRead_safe (skipSpaces_safe _) fun _ _ =>
        thenRead_safe (token_safe _ _ _ _) fun _ _ =>
        thenRead_safe (skipNewLine_safe _) (by simp)

theorem parseHeaderLoop_safe (k : Nat) : ∀ (m : HeaderMap) (buf : Bytes), k > buf.length →
    (parseHeaderLoop k m buf).1 ≠ .panic := by
  induction k with
  | zero => intro m buf h; omega
  | succ k ih =>
    intro m buf h
    have hl := parseHeaderLine_safe buf
    unfold parseHeaderLoop
    cases hx : parseHeaderLine buf with
    | mk x1 x2 =>
      rw [hx] at hl
      cases x1 with
      | ok o =>
        cases o with
        | none => simp [thenDo, onLine]
        | some y =>
          have := parseHeaderLine_shrinks hx
          exact ih _ _ (by omega)
      | err e => simp [thenDo]
      | panic => exact absurd rfl hl

theorem parseHeader_no_panic (m : HeaderMap) (buf : Bytes) : (parseHeader m buf).1 ≠ .panic :=
  parseHeaderLoop_safe _ _ _ (by omega)

theorem res_bind_safe {α β : Type} {x : Res α} {f : α → Res β} (hx : x ≠ .panic) (hf : ∀ a, f a ≠ .panic) :
    (x >>= f) ≠ .panic := by
  intro h
  rcases res_bind_panic.mp h with h | ⟨a, _, h⟩
  · exact hx h
  · exact hf a h

theorem urlTokenLoop_safe (n : Nat) : ∀ s : Bytes, s.length ≤ n → urlTokenLoop s ≠ .panic := by
  induction n with
  | zero =>
    intro s h
    have : s = [] := by simpa using h
    subst this; simp [urlTokenLoop]
  | succ n ih =>
    intro s h
    unfold urlTokenLoop
    split
    · simp
    · rename_i b r
      simp only [List.length_cons] at h
      split
      · split
        · rename_i x y r'
          simp only [List.length_cons] at h
          split
          · exact res_bind_safe (ih _ (by omega)) (by simp)
          · simp
        · simp
      · exact res_bind_safe (ih _ (by omega)) (by simp)

theorem parseUrlToken_safe (s : Bytes) : parseUrlToken s ≠ .panic := by
  refine res_bind_safe (urlTokenLoop_safe _ _ (Nat.le_refl _)) fun a => ?_
  split <;> simp

theorem urlStep_safe (s : UrlState) (b : UInt8) : s.step b ≠ .panic := by
  unfold UrlState.step; repeat' split <;> try simp

theorem urlRun_safe (buf : Bytes) : ∀ s : UrlState, s.run buf ≠ .panic := by
  induction buf with
  | nil => intro s; simp [UrlState.run]
  | cons b r ih => intro s; exact res_bind_safe (urlStep_safe _ _) fun s => ih s

theorem parseOptToken_safe (o : Option Bytes) : parseOptToken o ≠ .panic := by
  cases o with
  | none => simp [parseOptToken]
  | some s => exact res_bind_safe (parseUrlToken_safe _) (by simp)

theorem urlBuild_safe (sc : Scheme) (s : UrlState) : s.build sc ≠ .panic := by
  refine res_bind_safe (parseOptToken_safe _) fun _ => res_bind_safe (parseOptToken_safe _) fun _ =>
    res_bind_safe (parseOptToken_safe _) fun _ => res_bind_safe ?_ fun _ => res_bind_safe ?_ fun _ =>
    res_bind_safe (parseOptToken_safe _) fun _ => by simp
  · cases s.port with
    | none => simp [parsePort]
    | some p =>
      refine res_bind_safe (parseUrlToken_safe _) fun _ => ?_
      split <;> simp
  · cases s.path with
    | none => simp [parsePath]
    | some p => exact parseUrlToken_safe _

theorem parseSchemePrefix_safe (buf : Bytes) : (parseSchemePrefix buf).1 ≠ .panic := by
  refine thenRead_safe (thenRead_safe (token_safe _ _ _ _) fun _ _ => ?_) fun _ _ =>
    thenRead_safe (expectByte_safe _ _ _) fun _ _ => thenRead_safe (expectByte_safe _ _ _) fun _ _ =>
    thenRead_safe (expectByte_safe _ _ _) (by simp)
  split
  · simp
  · exact scheme_tryFrom_no_panic _

/-- `Url::parse` gives a URL or an error for every string. -/
theorem C59_url (url : Bytes) : Url.parse url ≠ .panic := by
  unfold Url.parse
  split
  · simp
  · split
    · exact res_bind_safe (parseSchemePrefix_safe _) fun _ => res_bind_safe (urlRun_safe _ _) fun _ =>
        urlBuild_safe _ _
    · split
      · exact res_bind_safe (urlRun_safe _ _) fun _ => urlBuild_safe _ _
      · simp

theorem connectByHost_safe (u : Url) (h : Bytes) : connectByHost u h ≠ .panic := by
  unfold connectByHost; repeat' split <;> try simp

theorem requestUrl_safe (m : Method) (h : HeaderMap) (path : Bytes) : requestUrl m h path ≠ .panic := by
  unfold requestUrl
  split
  · exact connectByHost_safe _ _
  · refine res_bind_safe (C59_url _) fun _ => res_bind_safe ?_ (by simp)
    unfold fillHost
    split
    · split
      · exact connectByHost_safe _ _
      · simp
    · simp

theorem countRead_safe {σ : Type} {buf : Bytes} {x : Res Unit × σ × Bytes} (h : x.1 ≠ .panic) :
    (countRead buf x).1 ≠ .panic := by
  obtain ⟨x1, x2, x3⟩ := x
  cases x1 with
  | ok a => simp [countRead]
  | err e => simp [countRead]
  | panic => exact absurd rfl h

/-- Parsing a request head gives a count or an error for all bytes, whatever the request held. -/
theorem C59_request (r : Request) (buf : Bytes) : (r.parseBuffer buf).1 ≠ .panic := by
  refine countRead_safe ?_
  refine thenDo_safe (skipEmptyLines_safe _ _ (Nat.le_refl _)) fun _ _ =>
    thenDo_safe (onToken_safe (token_safe _ _ _ _) method_tryFrom_no_panic) fun _ _ =>
    thenDo_safe (skipSpaces_safe _) fun _ _ => thenDo_safe (token_safe _ _ _ _) fun _ _ =>
    thenDo_safe (skipSpaces_safe _) fun _ _ =>
    thenDo_safe (onToken_safe (token_safe _ _ _ _) versionOfToken_safe) fun _ _ =>
    thenDo_safe (skipNewLine_safe _) fun _ _ => thenDo_safe (parseHeader_no_panic _ _) fun _ _ =>
    thenDo_safe (requestUrl_safe _ _ _) (by simp)

/-- Parsing a response head gives a count or an error for all bytes, whatever the response held. -/
theorem C59_response (r : Response) (buf : Bytes) : (r.parseBuffer buf).1 ≠ .panic := by
  refine countRead_safe ?_
  refine thenDo_safe (skipEmptyLines_safe _ _ (Nat.le_refl _)) fun _ _ =>
    thenDo_safe (onToken_safe (token_safe _ _ _ _) versionOfToken_safe) fun _ _ =>
    thenDo_safe (skipSpaces_safe _) fun _ _ =>
    thenDo_safe (onToken_safe (token_safe _ _ _ _) statusFromBytes_no_panic) fun _ _ =>
    thenDo_safe (skipSpaces_safe _) fun _ _ =>
    thenDo_safe (token_safe _ _ _ _) fun _ _ =>
    thenDo_safe (skipNewLine_safe _) fun _ _ => thenDo_safe (parseHeader_no_panic _ _) fun _ _ => by simp

/-- A head that is accepted, and one that is refused. -/
example : (({} : Request).parseBuffer (asciiBytes "GET / HTTP/1.1\r\nHost: a\r\n\r\n")).1 = .ok 27 ∧
    (({} : Request).parseBuffer (asciiBytes "GET a:// HTTP/1.1\r\nHost: a:b:c\r\n\r\n")).1 ≠ .ok 36 := by decide +kernel

end Webparse
