import Verif.Props.Rfc9113Connection

/-!
# C90, exactly: when an RFC 9113 receiver hears what was sent
-/

namespace Webparse
open Spec Spec.Rfc

/-- The header lists among what is heard. -/
def heardLists (hs : List Heard) : List (Nat × Bool × List Header) :=
  hs.filterMap fun h => match h with | .headers id e fields => some (id, e, fields) | _ => none

/-- The header lists among what is sent. -/
def sentLists (ss : List Sent) : List (Nat × Bool × List Header) :=
  ss.filterMap fun s => match s with | .headers id e p fields => some (id, e, fields ++ partHeaders p) | _ => none

theorem heardLists_append (a b : List Heard) : heardLists (a ++ b) = heardLists a ++ heardLists b := by simp [heardLists]

theorem heardLists_frames {hs : List Heard} (h : ∀ x ∈ hs, ∃ f, x = .frame f) : heardLists hs = [] := by
  unfold heardLists
  rw [List.filterMap_eq_nil_iff]
  intro x hx
  obtain ⟨f, rfl⟩ := h x hx
  rfl

theorem heardAs_lists {m : Nat} {sent : List Sent} {heard : List (List Heard)} (h : Zip (HeardAs m) sent heard) :
    heardLists heard.flatten = sentLists sent := by
  induction h with
  | nil => rfl
  | @cons s x ss hh a _ ih =>
    rw [List.flatten_cons, heardLists_append, ih]
    cases s with
    | control f => simp only [HeardAs] at a; subst a; rfl
    | data id e body =>
      obtain ⟨parts, -, -, -, rfl⟩ := a
      rw [heardLists_frames (by intro x hx; obtain ⟨f, -, rfl⟩ := List.mem_map.mp hx; exact ⟨_, rfl⟩)]
      rfl
    | headers id e p fields => simp only [HeardAs] at a; subst a; rfl

/-- Only frames without a header block are heard as such. -/
theorem hears_blockless {m : Nat} {t t' : Table} {fs : List RawFrame} {hs : List Heard} (h : Hears m t fs t' hs)
    (hf : ∀ x ∈ hs, ∃ f, x = .frame f) : ∀ f ∈ fs, BlocklessKind f.1 := by
  induction h with
  | nil => simp
  | frame hk _ _ _ ih =>
    intro f hm
    rcases List.mem_cons.mp hm with rfl | hm
    · exact hk
    · exact ih (fun x hx => hf x (by simp [hx])) f hm
  | headers => obtain ⟨f, e⟩ := hf _ List.mem_cons_self; cases e
  | promise => obtain ⟨f, e⟩ := hf _ List.mem_cons_self; cases e

/-- A frame on which the end of a stream is not heard. -/
def MissedEnd (f : RawFrame) : Prop := f.1 = 9 ∧ f.2.1 &&& 1 = 1

theorem codeContinuations_end (id : Nat) (e : Bool) (bs : List Bytes) (hb : bs ≠ []) :
    (∃ f ∈ codeContinuations id (endFlag e) bs, MissedEnd f) ↔ e = true := by
  induction bs with
  | nil => exact absurd rfl hb
  | cons b bs ih =>
    cases bs with
    | nil => cases e <;> simp [codeContinuations, MissedEnd, endFlag] <;> decide
    | cons c cs =>
      have := ih (by simp)
      simp only [codeContinuations, List.mem_cons, exists_eq_or_imp]
      rw [show MissedEnd (9, 0, id, b) ↔ False from ⟨fun h => absurd h.2 (by show ¬ ((0 : UInt8) &&& 1 = 1); decide), False.elim⟩, false_or]
      exact this

theorem codeHeaderFrames_end (id : Nat) (e : Bool) (bs : List Bytes) (hb : bs ≠ []) :
    (∃ f ∈ codeHeaderFrames id (endFlag e) bs, MissedEnd f) ↔ (e && bs.length == 1) ≠ e := by
  match bs, hb with
  | [b], _ =>
    constructor
    · rintro ⟨f, hf, h, -⟩
      simp only [codeHeaderFrames, List.mem_singleton] at hf
      subst hf
      exact absurd h (by show ¬ ((1 : UInt8) = 9); decide)
    · intro h; simp at h
  | b :: c :: cs, _ =>
    simp only [codeHeaderFrames, List.mem_cons, exists_eq_or_imp]
    rw [show MissedEnd (1, 0, id, b) ↔ False from ⟨fun h => absurd h.1 (by show ¬ ((1 : UInt8) = 9); decide), False.elim⟩, false_or]
    have := codeContinuations_end id e (c :: cs) (by simp)
    rw [this]
    cases e <;> simp

/-- One message: the frames written, what is heard of them, and whether it is what was sent. -/
theorem say_exact (maxFrame readLimit : Nat) (h1 : 1 ≤ maxFrame) (h2 : maxFrame ≤ readLimit) (h3 : 2 ^ 14 ≤ readLimit)
    (s : Sent) (hs : SayOk readLimit s) (te : HeaderIndex)
    (hi : TableInv te) (hm : te.maxSize < 2 ^ 32) (hp : ∀ e ∈ te.table, IsPlainName e.1) :
    ∃ f b n te' heard raw, s.frame = .ok f ∧ Frame.encode maxFrame te f = some (.ok (b, n, te')) ∧ TableInv te' ∧
      te'.maxSize < 2 ^ 32 ∧ (∀ e ∈ te'.table, IsPlainName e.1) ∧
      b = wireFrames raw ∧ (∀ f ∈ raw, f.2.2.1 < 2 ^ 31) ∧ Hears readLimit (peerTable te) raw (peerTable te') heard ∧
      ((¬ ∃ f ∈ raw, MissedEnd f) → HeardAs maxFrame s heard) ∧
      (heardLists heard).length = (sentLists [s]).length ∧
      (heardLists heard = sentLists [s] → ¬ ∃ f ∈ raw, MissedEnd f) := by
  have blockless : ∀ (raw : List RawFrame), (∀ f ∈ raw, BlocklessKind f.1) → ¬ ∃ f ∈ raw, MissedEnd f := by
    rintro raw hb ⟨f, hf, h9, -⟩
    have := hb f hf
    rw [h9] at this
    revert this
    unfold BlocklessKind
    decide
  by_cases hh : ∃ id e p fields, s = .headers id e p fields
  · obtain ⟨id, e, p, fields, rfl⟩ := hh
    obtain ⟨f, b, n, te', frags, a1, a2, a3, a4, a5, a6, a7, a8, a9, a10⟩ :=
      say_headers_frames maxFrame readLimit id e p fields hs te hi hm hp
    have he := codeHeaderFrames_end id e frags a8
    refine ⟨f, b, n, te', _, _, a1, a2, a3, a4, a5, a9, fun f hf => by rw [(codeHeaderFrames_ids _ _ _ f hf).1]; exact hs.2.1, a10, ?_, rfl, ?_⟩
    · intro hn
      have hee : (e && frags.length == 1) = e := Classical.byContradiction fun hc => hn (he.mpr hc)
      rw [hee]
      rfl
    · intro hl hc
      refine he.mp hc ?_
      simpa [heardLists, sentLists] using hl
  · obtain ⟨f, b, n, te', heard, a1, a2, a3, a4, a5, a6, raw, a7, a8, a9⟩ := say_one maxFrame readLimit h1 h2 h3 s hs te hi hm hp
    have ha : HeardAs maxFrame s heard := by
      cases s with
      | headers id e p fields => exact absurd ⟨_, _, _, _, rfl⟩ hh
      | control f => exact a6
      | data id e body => exact a6
    have hfr : ∀ x ∈ heard, ∃ f, x = .frame f := by
      cases s with
      | headers id e p fields => exact absurd ⟨_, _, _, _, rfl⟩ hh
      | control f => simp only [HeardAs] at ha; subst ha; simp
      | data id e body =>
        obtain ⟨parts, -, -, -, rfl⟩ := ha
        intro x hx
        obtain ⟨f, -, rfl⟩ := List.mem_map.mp hx
        exact ⟨_, rfl⟩
    refine ⟨f, b, n, te', heard, raw, a1, a2, a3, a4, a5, a7, a8, a9, fun _ => ha, ?_, fun _ => blockless raw (hears_blockless a9 hfr)⟩
    rw [heardLists_frames hfr]
    cases s with
    | headers id e p fields => exact absurd ⟨_, _, _, _, rfl⟩ hh
    | control f => rfl
    | data id e body => rfl

theorem say_all_exact (maxFrame readLimit : Nat) (h1 : 1 ≤ maxFrame) (h2 : maxFrame ≤ readLimit) (h3 : 2 ^ 14 ≤ readLimit)
    (sent : List Sent) (hs : ∀ s ∈ sent, SayOk readLimit s) (te : HeaderIndex)
    (hi : TableInv te) (hm : te.maxSize < 2 ^ 32) (hp : ∀ e ∈ te.table, IsPlainName e.1) :
    ∃ frames bytes te' heard raw, Zip (fun s f => s.frame = .ok f) sent frames ∧
      writeFrames maxFrame te frames = some (.ok (bytes, te')) ∧ bytes = wireFrames raw ∧ (∀ f ∈ raw, f.2.2.1 < 2 ^ 31) ∧
      Hears readLimit (peerTable te) raw (peerTable te') heard.flatten ∧
      ((¬ ∃ f ∈ raw, MissedEnd f) → Zip (HeardAs maxFrame) sent heard) ∧
      (heardLists heard.flatten = sentLists sent → ¬ ∃ f ∈ raw, MissedEnd f) := by
  induction sent generalizing te with
  | nil => exact ⟨[], [], te, [], [], .nil, rfl, rfl, by simp, .nil, fun _ => .nil, by simp⟩
  | cons s sent ih =>
    obtain ⟨f, b, n, te1, heard, raw, a1, a2, a3, a4, a5, a6, a7, a8, a9, a10, a11⟩ :=
      say_exact maxFrame readLimit h1 h2 h3 s (hs s (by simp)) te hi hm hp
    obtain ⟨frames, bytes, te', rest, raws, b1, b2, b3, b4, b5, b6, b7⟩ := ih (fun x hx => hs x (by simp [hx])) te1 a3 a4 a5
    refine ⟨f :: frames, b ++ bytes, te', heard :: rest, raw ++ raws, .cons a1 b1, by simp only [writeFrames, a2, b2], ?_, ?_, ?_, ?_, ?_⟩
    · rw [a6, b3]; simp [wireFrames]
    · intro f hf
      rcases List.mem_append.mp hf with hf | hf
      · exact a7 f hf
      · exact b4 f hf
    · rw [List.flatten_cons]; exact hears_append a8 b5
    · intro hn
      exact .cons (a9 fun ⟨f, hf, h⟩ => hn ⟨f, List.mem_append_left _ hf, h⟩)
        (b6 fun ⟨f, hf, h⟩ => hn ⟨f, List.mem_append_right _ hf, h⟩)
    · intro hl
      rw [List.flatten_cons, heardLists_append] at hl
      have hsplit : sentLists (s :: sent) = sentLists [s] ++ sentLists sent := by
        unfold sentLists
        rw [← List.filterMap_append]
        rfl
      rw [hsplit] at hl
      obtain ⟨l1, l2⟩ := List.append_inj hl a10
      rintro ⟨f, hf, h⟩
      rcases List.mem_append.mp hf with hf | hf
      · exact a11 l1 ⟨f, hf, h⟩
      · exact b7 l2 ⟨f, hf, h⟩

/-- C90, partial and exact: whatever is sent, it is written, and a receiver that follows RFC 9113 and RFC 7541 hears it as
it was sent exactly if no CONTINUATION frame among the octets carries END_STREAM.  Missing: those that do. -/
theorem C90_iff_partial (maxFrame readLimit limit : Nat) (h1 : 1 ≤ maxFrame) (h2 : maxFrame ≤ readLimit)
    (h3 : 2 ^ 14 ≤ readLimit) (h4 : readLimit < 2 ^ 24) (hl : limit < 2 ^ 32) (sent : List Sent) (hs : ∀ s ∈ sent, SayOk readLimit s) :
    ∃ frames bytes te, Zip (fun s f => s.frame = .ok f) sent frames ∧
      writeFrames maxFrame { maxSize := limit } frames = some (.ok (bytes, te)) ∧
      ((∃ T heard, Zip (HeardAs maxFrame) sent heard ∧ HearsBytes readLimit ⟨[], limit⟩ bytes T heard.flatten) ↔
        ¬ EndOnContinuation bytes) := by
  obtain ⟨frames, bytes, te, heard, raw, a1, a2, a3, a4, a5, a6, a7⟩ :=
    say_all_exact maxFrame readLimit h1 h2 h3 sent hs { maxSize := limit } ⟨rfl, by simp⟩ hl (by simp)
  refine ⟨frames, bytes, te, a1, a2, ?_, ?_⟩
  · rintro ⟨T, heard', b1, b2⟩ ⟨fs, c1, c2, f, hf, hx⟩
    have e := (C90_one_hearing readLimit h4 _ _ _ _ _ _ b2 ⟨raw, a3, a4, a5⟩).2
    have hb := heardAs_lists b1
    rw [e] at hb
    have : fs = raw := wireFrames_inj _ _ (fun f hf => (c2 f hf).1)
      (fun f hf => Nat.lt_of_le_of_lt (hears_short a5 f hf) h4) (fun f hf => (c2 f hf).2) a4 (by rw [← c1, ← a3])
    subst this
    exact a7 hb ⟨f, hf, hx⟩
  · intro hn
    refine ⟨_, heard, a6 ?_, raw, a3, a4, a5⟩
    rintro ⟨f, hf, hx⟩
    exact hn ⟨raw, a3, fun f hf => ⟨Nat.lt_of_le_of_lt (hears_short a5 f hf) h4, a4 f hf⟩, f, hf, hx⟩

/-- The hypotheses are met by control frames followed by a header list that is too long for a frame; the equivalence then has both sides false. -/
example : ∀ s ∈ [Sent.control (.settings {}), .headers 1 true {} [([120], List.replicate 16384 97)]], SayOk (2 ^ 24 - 1) s := by
  intro s hs
  simp only [List.mem_cons, List.not_mem_nil, or_false] at hs
  rcases hs with rfl | rfl
  · simp [SayOk, ControlFrameOk, LegalSettings, OptAll]
  · exact long_field_ok

end Webparse
