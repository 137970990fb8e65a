import Verif.Spec.AfterError
import Verif.Props.Rfc7541
import Verif.Props.Rfc9113Peer
import Verif.Props.Safety

/-! # C115, C12, C58: the decoder after a refused frame -/

namespace Webparse

open Spec Rfc

/-! ### What the decoder is left with -/

theorem soFar_of_ok (n : Nat) : ∀ {t t' : HeaderIndex} {buf : Bytes} {hs : List Header},
    decodeRun n t buf = some (.ok (hs, t')) → decodeSoFar n t buf = (hs, t') := by
  induction n with
  | zero =>
    intro t t' buf hs h
    cases buf with
    | nil => simpa [decodeRun, decodeSoFar] using h
    | cons o rest => simp [decodeRun] at h
  | succ n ih =>
    intro t t' buf hs h
    cases buf with
    | nil => simpa [decodeRun, decodeSoFar] using h
    | cons o rest =>
      simp only [decodeRun] at h
      simp only [decodeSoFar]
      split at h
      · simp at h
      · simp at h
      · rename_i hs1 t1 c h1
        split at h
        · simp at h
        · rename_i hs2 t2 h2
          simp only [Option.some.injEq, Res.ok.injEq, Prod.mk.injEq] at h
          rw [h1]
          simp only
          rw [ih h2, ← h.1, ← h.2]
        · simp at h
        · simp at h

theorem soFar_inv (n : Nat) : ∀ {t : HeaderIndex}, TableInv t → ∀ (buf : Bytes),
    TableInv (decodeSoFar n t buf).2 ∧ (decodeSoFar n t buf).2.maxSize = t.maxSize := by
  induction n with
  | zero => intro t ht buf; cases buf <;> exact ⟨ht, rfl⟩
  | succ n ih =>
    intro t ht buf
    cases buf with
    | nil => exact ⟨ht, rfl⟩
    | cons o rest =>
      simp only [decodeSoFar]
      cases h : decodeStep t o rest with
      | err e => exact ⟨ht, rfl⟩
      | panic => exact ⟨ht, rfl⟩
      | ok x =>
        obtain ⟨hs, t', c⟩ := x
        obtain ⟨h1, h2, -⟩ := (decodeStep_safe ht o rest).2 _ _ _ h
        obtain ⟨k1, k2⟩ := ih h1 ((o :: rest).drop c)
        exact ⟨k1, k2.trans h2⟩

/-- C12, also when decoding fails: the table keeps its invariant and its limit whatever is decoded and whatever comes of it. -/
theorem C12_table_after (n : Nat) (t : HeaderIndex) (hs : t.size = tableSize t.table) (hm : t.size ≤ t.maxSize) (buf : Bytes) :
    let t' := (decodeSoFar n t buf).2
    t'.size = tableSize t'.table ∧ t'.size ≤ t'.maxSize ∧ t'.maxSize = t.maxSize := by
  obtain ⟨⟨h1, h2⟩, h3⟩ := soFar_inv n ⟨hs, hm⟩ buf
  exact ⟨h1, h2, h3⟩

/-- What a block that is decoded leaves is what `decode` gives. -/
theorem soFar_of_decode {t t' : HeaderIndex} {buf : Bytes} {hs : List Header} (h : decode t buf = some (.ok (hs, t'))) :
    decodeSoFar buf.length t buf = (hs, t') := soFar_of_ok _ h

theorem tableAfter_of_parse {head : FrameHeader} {buf : Bytes} {t t' : HeaderIndex} {m : Nat} {f : Frame}
    (h : Frame.parse head buf t m = some (.ok (f, t'))) : Frame.tableAfter head buf t = t' := by
  unfold Frame.parse at h
  unfold Frame.tableAfter
  cases hb : trimPadding head buf with
  | err e => rw [hb] at h; simp at h
  | panic => rw [hb] at h; simp at h
  | ok b =>
    rw [hb] at h
    simp only at h ⊢
    have wrap : ∀ {α : Type} {mk : α → Frame} {r : Res α}, wrapFrame t mk r = some (.ok (f, t')) → t = t' := by
      intro α mk r hw
      cases r <;> simp [wrapFrame] at hw
      exact hw.2
    cases hk : head.kind <;> rw [hk] at h <;> simp only at h ⊢ <;> try exact wrap h
    · split at h
      · simp at h
      · rename_i f' t1 hp
        simp only [Option.some.injEq, Res.ok.injEq, Prod.mk.injEq] at h
        rw [← h.2]
        unfold HeadersFrame.parse at hp
        unfold HeadersFrame.tableAfter
        cases hl : HeadersFrame.loadDep { streamId := head.id, flags := head.flag } b with
        | err e => rw [hl] at hp; simp at hp
        | panic => rw [hl] at hp; simp at hp
        | ok x =>
          obtain ⟨f2, b2⟩ := x
          rw [hl] at hp
          simp only at hp ⊢
          split at hp
          · simp at hp
          · simp at hp
          · simp at hp
          · rename_i hs t2 hd
            simp only [Option.some.injEq, Res.bind_eq_ok, Res.ok.injEq, Prod.mk.injEq] at hp
            obtain ⟨_, -, -, rfl⟩ := hp
            rw [soFar_of_decode hd]
      · simp at h
      · simp at h
    · simp only [Option.some.injEq, Res.ok.injEq, Prod.mk.injEq] at h
      exact h.2
    · simp at h
    · simp at h

theorem tableAfter_inv (head : FrameHeader) (buf : Bytes) {t : HeaderIndex} (ht : TableInv t) :
    TableInv (Frame.tableAfter head buf t) ∧ (Frame.tableAfter head buf t).maxSize = t.maxSize := by
  unfold Frame.tableAfter
  split
  · split
    · unfold HeadersFrame.tableAfter
      split
      · exact soFar_inv _ ht _
      · exact ⟨ht, rfl⟩
      · exact ⟨ht, rfl⟩
    · exact ⟨ht, rfl⟩
  · exact ⟨ht, rfl⟩
  · exact ⟨ht, rfl⟩

/-- C58, also when a frame is refused: after any number of frames, accepted or not, the table keeps its invariant and its limit, so that
`C58_panic_iff_partial` holds of the next frame just as of the first. -/
theorem C58_table_after (t : HeaderIndex) (hs : t.size = tableSize t.table) (hm : t.size ≤ t.maxSize)
    (frames : List (FrameHeader × Bytes × Nat)) :
    let t' := tableAfterAll t frames
    t'.size = tableSize t'.table ∧ t'.size ≤ t'.maxSize ∧ t'.maxSize = t.maxSize := by
  have : ∀ t, TableInv t → TableInv (tableAfterAll t frames) ∧ (tableAfterAll t frames).maxSize = t.maxSize := by
    induction frames with
    | nil => exact fun t ht => ⟨ht, rfl⟩
    | cons f frames ih =>
      intro t ht
      obtain ⟨h1, h2⟩ := tableAfter_inv f.1 f.2.1 ht
      obtain ⟨k1, k2⟩ := ih _ h1
      exact ⟨k1, k2.trans h2⟩
  obtain ⟨⟨h1, h2⟩, h3⟩ := this t ⟨hs, hm⟩
  exact ⟨h1, h2, h3⟩

/-- C58, for a whole connection on which the receiver goes on whatever the verdicts: no frame but DATA on stream 0 makes it panic. -/
theorem C58_connection_partial (t : HeaderIndex) (hs : t.size = tableSize t.table) (hm : t.size ≤ t.maxSize)
    (frames : List (FrameHeader × Bytes × Nat)) (hd : ∀ f ∈ frames, f.1.kind = .data → f.1.id ≠ 0) : some .panic ∉ verdicts t frames := by
  have : ∀ t, TableInv t → some .panic ∉ verdicts t frames := by
    induction frames with
    | nil => intro t _ h; simp [verdicts] at h
    | cons f frames ih =>
      intro t ht h
      obtain ⟨head, buf, m⟩ := f
      rw [verdicts, List.mem_cons] at h
      rcases h with h | h
      · have : Frame.parse head buf t m = some .panic := by
          revert h
          unfold verdictOf
          split <;> simp
          assumption
        obtain ⟨k, i, -⟩ := (C58_panic_iff_partial head buf t m ht.1 ht.2).mp this
        exact hd (head, buf, m) (by simp) k i
      · exact ih (fun f hf => hd f (by simp [hf])) _ (tableAfter_inv head buf ht).1 h
  exact this t ⟨hs, hm⟩

/-! ### C115 -/

/-- As long as frames are accepted, the table is the one that `Frame::parse` is known to leave. -/
theorem C115_table (head : FrameHeader) (payload : Bytes) (t t' : HeaderIndex) (limit : Nat) (f : Frame)
    (h : Frame.parse head payload t limit = some (.ok (f, t'))) : Frame.tableAfter head payload t = t' := tableAfter_of_parse h

/-- C115: the verdict on a frame depends on its own limit only: whatever limits were in force for the other frames, and so whichever of
them were refused, it is the same. -/
theorem C115_own_limit (t : HeaderIndex) (frames frames' : List (FrameHeader × Bytes × Nat))
    (hsame : frames.map (fun f => (f.1, f.2.1)) = frames'.map (fun f => (f.1, f.2.1))) (i : Nat) (hi : frames[i]? = frames'[i]?) :
    (verdicts t frames)[i]? = (verdicts t frames')[i]? := by
  induction frames generalizing t frames' i with
  | nil =>
    cases frames' with
    | nil => rfl
    | cons f' frames' => simp at hsame
  | cons f frames ih =>
    cases frames' with
    | nil => simp at hsame
    | cons f' frames' =>
      obtain ⟨h, p, m⟩ := f
      obtain ⟨h', p', m'⟩ := f'
      simp only [List.map_cons, List.cons.injEq, Prod.mk.injEq] at hsame
      obtain ⟨⟨rfl, rfl⟩, hs⟩ := hsame
      cases i with
      | zero =>
        simp only [List.getElem?_cons_zero, Option.some.injEq, Prod.mk.injEq, true_and] at hi
        subst hi
        rfl
      | succ i =>
        simp only [List.getElem?_cons_succ, verdicts] at hi ⊢
        exact ih _ _ hs _ hi

/-- One block of a conforming sender: the verdict, and the table in step. -/
theorem sent_verdict {t : HeaderIndex} (ht : TableInv t) {s : SentBlock} {reps : List Rep} {T : Table} (hf : s.flags &&& 0x28 = 0)
    (hp : ∀ r ∈ reps, r.Plain) (hb : IsBlock shortInteger reps s.block) (hm : Means (toTable t) reps T s.fields) :
    verdictOf (Frame.parse s.frame.1 s.frame.2.1 t s.frame.2.2) =
        some ((HeadersFrame.addFields s.limit 0 { streamId := s.id, flags := s.flags } s.fields).bind fun x => .ok (.headers x)) ∧
      toTable (Frame.tableAfter s.frame.1 s.frame.2.1 t) = T ∧ TableInv (Frame.tableAfter s.frame.1 s.frame.2.1 t) := by
  obtain ⟨t', hd, h2, h3⟩ := C66_decodes_partial t ht reps s.block T s.fields hp hb hm
  have b1 : flagIsPadded s.flags = false ∧ flagIsPriority s.flags = false := by
    generalize s.flags = x at hf; revert x; decide +kernel
  have hpad : trimPadding s.frame.1 s.frame.2.1 = .ok s.block := by
    simp [trimPadding, SentBlock.frame, b1.1]
  have hld : HeadersFrame.loadDep { streamId := s.id, flags := s.flags } s.block = .ok ({ streamId := s.id, flags := s.flags }, s.block) := by
    simp [HeadersFrame.loadDep, b1.2]
  have ha : Frame.tableAfter s.frame.1 s.frame.2.1 t = t' := by
    unfold Frame.tableAfter HeadersFrame.tableAfter
    rw [hpad]
    simp only [SentBlock.frame, hld, soFar_of_decode hd]
  refine ⟨?_, by rw [ha]; exact h2, by rw [ha]; exact h3⟩
  unfold Frame.parse HeadersFrame.parse
  rw [hpad]
  simp only [SentBlock.frame, hld, hd]
  cases HeadersFrame.addFields s.limit 0 { streamId := s.id, flags := s.flags } s.fields <;> rfl

/-- C115: on a connection with a conforming sender, whatever was refused before, each header list is accepted exactly if it is within its
own limit and its own pseudo-headers can be read, and then it is the one that was meant. -/
theorem C115_understood (t : HeaderIndex) (ht : TableInv t) (sent : List SentBlock) (T : Table) (h : SentBy (toTable t) sent T)
    (i : Nat) (s : SentBlock) (hs : sent[i]? = some s) :
    ((∃ x, (verdicts t (sent.map SentBlock.frame))[i]? = some (some (.ok (.headers x)))) ↔
      headerListSize s.fields ≤ s.limit ∧ ∀ e ∈ s.fields, PseudoTaken e) ∧
    ∀ f, (verdicts t (sent.map SentBlock.frame))[i]? = some (some (.ok f)) →
      ∃ x, f = .headers x ∧ x.streamId = s.id ∧ x.flags = s.flags ∧ TakenAs s.fields x := by
  induction sent generalizing t i with
  | nil => simp at hs
  | cons s' sent ih =>
    cases h with
    | cons hf hp hb hm hrest =>
      obtain ⟨hv, e1, e2⟩ := sent_verdict ht hf hp hb hm
      cases i with
      | succ i =>
        simp only [List.getElem?_cons_succ, List.map_cons, verdicts] at hs ⊢
        rw [← e1] at hrest
        exact ih _ e2 hrest i hs
      | zero =>
        simp only [List.getElem?_cons_zero, Option.some.injEq, List.map_cons, verdicts] at hs ⊢
        subst hs
        rw [hv]
        have hi := addFields_iff s'.limit s'.fields 0 { streamId := s'.id, flags := s'.flags } (Nat.zero_le _)
        rw [Nat.zero_add] at hi
        constructor
        · rw [← hi]
          constructor
          · rintro ⟨x, hx⟩
            simp only [Option.some.injEq] at hx
            obtain ⟨y, hy, -⟩ := Res.bind_eq_ok.mp hx
            exact ⟨y, hy⟩
          · rintro ⟨y, hy⟩
            exact ⟨y, by rw [hy]; rfl⟩
        · intro f hx
          simp only [Option.some.injEq] at hx
          obtain ⟨y, hy, hz⟩ := Res.bind_eq_ok.mp hx
          simp only [Res.ok.injEq] at hz
          obtain ⟨k1, k2, k3⟩ := addFields_takenAs hy
          exact ⟨y, hz.symm, k1, k2, k3⟩

/-- `a: b`, put into the table, in a frame whose limit is 0; then the same by its index, in a frame with a limit of 100. -/
def refusedThenRead : List SentBlock :=
  [⟨1, 4, [0x40, 0x01, 0x61, 0x01, 0x62], [([97], [98])], 0⟩, ⟨3, 5, [0xbe], [([97], [98])], 100⟩]

example : ∃ T, SentBy (toTable {}) refusedThenRead T := by
  refine ⟨⟨[([97], [98])], 4096⟩, .cons (reps := [.literal .incremental (.text [97]) [98]]) (T' := ⟨[([97], [98])], 4096⟩) (by decide)
    (by intro r hr; rw [List.mem_singleton] at hr; subst hr; show utf8Valid [97] = true; decide +kernel) ?_ ?_
    (.cons (reps := [.indexed 62]) (T' := ⟨[([97], [98])], 4096⟩) (by decide)
      (by intro r hr; rw [List.mem_singleton] at hr; subst hr; exact ⟨by decide, by decide⟩) ?_ ?_ .nil)⟩
  · exact .cons (bs := [0x40, 0x01, 0x61, 0x01, 0x62]) (cs := []) ⟨[0x40], [0x01, 0x61], [0x01, 0x62], rfl,
      ⟨by unfold shortInteger; decide, by decide, by decide⟩,
      ⟨[0x01], [0x61], rfl, .inl ⟨⟨by unfold shortInteger; decide, by decide, by decide⟩, rfl⟩⟩,
      ⟨[0x01], [0x62], rfl, .inl ⟨⟨by unfold shortInteger; decide, by decide, by decide⟩, rfl⟩⟩⟩ .nil
  · exact .cons (hs := [([97], [98])]) (hs' := []) (.incremental (n := [97]) rfl
      ⟨1, by decide, rfl, by decide, by intro j h1 h2; simp [toTable] at h2; omega⟩) .nil
  · exact .cons (bs := [0xbe]) (cs := []) ⟨by unfold shortInteger; decide, by decide, by decide⟩ .nil
  · exact .cons (hs := [([97], [98])]) (hs' := []) (.indexed rfl) .nil

/-- The first is refused, the second is understood. -/
example : verdicts {} (refusedThenRead.map SentBlock.frame) =
    [some (.err .headerIndexOutOfBounds), some (.ok (.headers { streamId := 3, flags := 5, fields := [([97], [98])] }))] := by decide +kernel

end Webparse
