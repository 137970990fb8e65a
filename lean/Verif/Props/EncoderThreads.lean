import Verif.Spec.EncoderThreads
import Verif.Props.SharedIndex

/-!
# C123: encoders in several threads that share a table
-/

namespace Webparse
open Spec Spec.Rfc

/-- C123: whatever header lists the threads are given and however their steps are interleaved, no thread panics and when all are done there is an order in
which the blocks can be sent so that an RFC 7541 decoder hears every list. -/
def C123_statement : Prop :=
  ∀ (S : Bytes → Prop), SafeNames S → ∀ (limit : Nat) (lists : Nat → List Header), (∀ i, ∀ h ∈ lists i, S h.1) → ∀ schedule : List Nat,
    ∃ t rs, runThreads { maxSize := limit } (startThreads lists) schedule = .ok (t, rs) ∧ (AllDone rs → SomeOrderHeard limit lists rs)

/-! ## Header by header the threads can be put in order -/

theorem readsBlocks_snoc {t t' t'' : Table} {bs : List Bytes} {hss : List (List Header)} {b : Bytes} {hs : List Header}
    (h : ReadsBlocks t bs t' hss) (h' : Reads t' b t'' hs) : ReadsBlocks t (bs ++ [b]) t'' (hss ++ [hs]) := by
  induction h with
  | nil => exact .cons h' .nil
  | cons r _ ih => exact .cons r (ih h')

/-- These bytes say this header and have it stored, whatever is in the table. -/
def SaysStored (h : Header) (p : Bytes) : Prop :=
  ∀ t t', TableInv t → addHeader t h = .ok t' → Reads (peerTable t) p (peerTable t') [lowerHeader h]

theorem reads_one {t t' : Table} {r : Rep} {b : Bytes} {hs : List Header} (h : IsRep anyLength r b) (hm : RepMeans t r t' hs) :
    Reads t b t' hs := by
  refine ⟨[r], ?_, ?_⟩
  · have := IsBlock.cons h .nil
    rwa [List.append_nil] at this
  · have := Means.cons hm .nil
    rwa [List.append_nil] at this

theorem add_peer {t t' : HeaderIndex} {h : Header} (ht : TableInv t) (ha : addHeader t h = .ok t') :
    IsEviction (lowerHeader h :: (peerTable t).entries) (peerTable t').entries t.maxSize ∧
      peerTable t' = ⟨(peerTable t').entries, t.maxSize⟩ := by
  obtain ⟨t2, ha2, h2, h3, h4⟩ := addHeader_spec t h ht.1
  rw [ha] at ha2; cases ha2
  exact ⟨eviction_lower h4, by rw [peerTable, h3]⟩

theorem literal_says (h : Header) : SaysStored h (encodeLiteral h true) := by
  intro t t' ht ha
  obtain ⟨a1, a2⟩ := add_peer ht ha
  refine reads_one (r := .literal .incremental (.text (lower h.1)) h.2) ?_ ?_
  · exact ⟨[0x40], encodeStringLiteralLower h.1, encodeStringLiteral h.2, by simp [encodeLiteral], ⟨trivial, by decide, by decide⟩,
      by rw [encodeStringLiteralLower_eq]; exact encode_string _, encode_string _⟩
  · rw [a2]
    exact .incremental rfl a1

theorem entry_static (t u : Table) {i : Nat} (h : i ≤ 61) : entry t i = entry u i := by
  unfold entry
  split
  · rfl
  · rfl

theorem named_says {t0 : HeaderIndex} (S : Bytes → Prop) (hS : NamesClear S) {h : Header} (hname : S h.1) (htab : ∀ e ∈ t0.table, S e.1)
    (hacc : lower h.1 ≠ asciiBytes "accept-") {i : Nat} (hf : findHeader t0 h = some (i, false)) : SaysStored h (encodeIndexedName i h.2 true) := by
  intro t t' ht ha
  obtain ⟨a1, a2⟩ := add_peer ht ha
  obtain ⟨g1, g2⟩ := (findHeader_rfc h S hS hname htab hacc hf).2 rfl
  have hi : i ≤ 61 := by
    have := (findHeader_found (te := t0) (td := ⟨t0.table.map lowerHeader, t0.size, t0.maxSize⟩) ⟨rfl, rfl, rfl⟩ h
      (fun hst e he => hS _ _ (htab e he) hname ((staticHash_nil_iff _).mp hst)) hf).2 rfl
    exact this.2.1
  refine reads_one (r := .literal .incremental (.index i) h.2)
    ⟨g1, encodeInteger i 6 0x40, encodeStringLiteral h.2, rfl, encode_integer _ _ (by decide) (by decide) _ _ (by decide), encode_string _⟩ ?_
  rw [a2]
  refine .incremental ?_ a1
  show (entry (peerTable t) i).map (·.1) = _
  rw [entry_static (peerTable t) (peerTable t0) hi]
  exact g2

/-- What one thread has done of its list, by what has been written. -/
def Progress (list : List Header) (r : EncoderThread) (ws : List Written) : Prop :=
  match r.pending with
  | none => r.out = ws.flatMap (·.bytes) ∧ list = ws.map (·.header) ++ r.todo
  | some h => ∃ p, SaysStored h p ∧ r.out = ws.flatMap (·.bytes) ++ p ∧ list = ws.map (·.header) ++ h :: r.todo

theorem writtenBy_own (ws : List Written) (w : Written) : writtenBy w.thread (ws ++ [w]) = writtenBy w.thread ws ++ [w] := by
  simp [writtenBy]

theorem writtenBy_other (ws : List Written) (w : Written) {j : Nat} (h : w.thread ≠ j) : writtenBy j (ws ++ [w]) = writtenBy j ws := by
  simp [writtenBy, h]

theorem threads_linear {S : Bytes → Prop} (hS : SafeNames S) (limit : Nat) (lists : Nat → List Header) (hn : ∀ i, ∀ h ∈ lists i, S h.1)
    (schedule : List Nat) : ∀ (t : HeaderIndex) (rs : Nat → EncoderThread) (ws : List Written), TableInv t → (∀ e ∈ t.table, S e.1) →
      (∀ i, Progress (lists i) (rs i) (writtenBy i ws)) →
      ReadsBlocks ⟨[], limit⟩ (ws.map (·.bytes)) (peerTable t) (ws.map fun w => [lowerHeader w.header]) →
      ∃ t' rs' ws', runThreads t rs schedule = .ok (t', rs') ∧ (∀ i, Progress (lists i) (rs' i) (writtenBy i ws')) ∧
        ReadsBlocks ⟨[], limit⟩ (ws'.map (·.bytes)) (peerTable t') (ws'.map fun w => [lowerHeader w.header]) := by
  have hc : NamesClear S := fun a b ha hb hn => nameEq_unambiguous (hS.2 a b ha hb hn)
  induction schedule with
  | nil => intro t rs ws _ _ hp hr; exact ⟨t, rs, ws, rfl, hp, hr⟩
  | cons i is ih =>
    intro t rs ws ht htab hp hr
    have hpi := hp i
    -- the thread writes a whole header
    have done : ∀ (t1 : HeaderIndex) (r1 : EncoderThread) (w : Written), w.thread = i → (rs i).step t = .ok (t1, r1) → TableInv t1 →
        (∀ e ∈ t1.table, S e.1) → Progress (lists i) r1 (writtenBy i ws ++ [w]) → Reads (peerTable t) w.bytes (peerTable t1) [lowerHeader w.header] →
        ∃ t' rs' ws', runThreads t rs (i :: is) = .ok (t', rs') ∧ (∀ i, Progress (lists i) (rs' i) (writtenBy i ws')) ∧
          ReadsBlocks ⟨[], limit⟩ (ws'.map (·.bytes)) (peerTable t') (ws'.map fun w => [lowerHeader w.header]) := by
      rintro t1 r1 w rfl hstep hi1 htab1 hp1 hr1
      obtain ⟨t', rs', ws', e1, e2, e3⟩ := ih t1 (setThread rs w.thread r1) (ws ++ [w]) hi1 htab1 (by
          intro j
          by_cases hj : j = w.thread
          · subst hj
            rw [writtenBy_own]
            simpa [setThread] using hp1
          · rw [writtenBy_other _ _ (Ne.symm hj)]
            simpa [setThread, hj] using hp j) (by
          simp only [List.map_append, List.map_cons, List.map_nil]
          exact readsBlocks_snoc hr hr1)
      exact ⟨t', rs', ws', by simp only [runThreads, hstep, Res.bind_ok, e1], e2, e3⟩
    -- the thread does something that the others do not see
    have quiet : ∀ (r1 : EncoderThread), (rs i).step t = .ok (t, r1) → Progress (lists i) r1 (writtenBy i ws) →
        ∃ t' rs' ws', runThreads t rs (i :: is) = .ok (t', rs') ∧ (∀ i, Progress (lists i) (rs' i) (writtenBy i ws')) ∧
          ReadsBlocks ⟨[], limit⟩ (ws'.map (·.bytes)) (peerTable t') (ws'.map fun w => [lowerHeader w.header]) := by
      intro r1 hstep hp1
      obtain ⟨t', rs', ws', e1, e2, e3⟩ := ih t (setThread rs i r1) ws ht htab (by
          intro j
          by_cases hj : j = i
          · subst hj
            simpa [setThread] using hp1
          · simpa [setThread, hj] using hp j) hr
      exact ⟨t', rs', ws', by simp only [runThreads, hstep, Res.bind_ok, e1], e2, e3⟩
    generalize hri : rs i = r at hpi done quiet
    obtain ⟨todo, pending, out⟩ := r
    cases pending with
    | some h =>
      obtain ⟨p, hs, ho, hl⟩ := hpi
      simp only at ho hl
      have hh : S h.1 := hn i h (by rw [hl]; simp)
      obtain ⟨t1, ha, hi1, -, -⟩ := addHeader_spec t h ht.1
      refine done t1 ⟨todo, none, out⟩ ⟨i, p, h⟩ rfl ?_ hi1 ?_ ?_ (hs t t1 ht ha)
      · simp only [EncoderThread.step, ha, Res.bind_ok]
      · intro e he
        rcases (addHeader_mem ht ha).2.2.2 e he with rfl | he
        · exact hh
        · exact htab e he
      · exact ⟨by simp [ho], by simp [hl]⟩
    | none =>
      obtain ⟨ho, hl⟩ := hpi
      simp only at ho hl
      cases todo with
      | nil => exact quiet ⟨[], none, out⟩ rfl ⟨ho, hl⟩
      | cons h hs =>
        have hh : S h.1 := hn i h (by rw [hl]; simp)
        cases hf : findHeader t h with
        | none =>
          refine quiet ⟨hs, some h, out ++ encodeLiteral h true⟩ ?_ ⟨_, literal_says h, by simp [ho], hl⟩
          simp only [EncoderThread.step, hf]
        | some x =>
          obtain ⟨k, b⟩ := x
          cases b with
          | false =>
            refine quiet ⟨hs, some h, out ++ encodeIndexedName k h.2 true⟩ ?_ ⟨_, named_says S hc hh htab (hS.1 _ hh) hf, by simp [ho], hl⟩
            simp only [EncoderThread.step, hf]
          | true =>
            refine done t ⟨hs, none, out ++ encodeIndexed k⟩ ⟨i, encodeIndexed k, h⟩ rfl ?_ ht htab ⟨by simp [ho], by simp [hl]⟩ ?_
            · simp only [EncoderThread.step, hf]
            · exact reads_one (r := .indexed k) (encode_integer _ _ (by decide) (by decide) _ _ (by decide))
                (.indexed ((findHeader_rfc h S hc hh htab (hS.1 _ hh) hf).1 rfl))

/-- C123, header by header: for all lists and all schedules no thread panics, and when all are done the headers, each with the bytes written for it,
can be put in an order that an RFC 7541 decoder reads; what a thread wrote is there in its own order. -/
theorem C123_linear_partial (S : Bytes → Prop) (hS : SafeNames S) (limit : Nat) (lists : Nat → List Header) (hn : ∀ i, ∀ h ∈ lists i, S h.1)
    (schedule : List Nat) :
    ∃ t rs, runThreads { maxSize := limit } (startThreads lists) schedule = .ok (t, rs) ∧ (AllDone rs →
      ∃ ws T, ReadsBlocks ⟨[], limit⟩ (ws.map (·.bytes)) T (ws.map fun w => [lowerHeader w.header]) ∧
        ∀ i, (rs i).out = (writtenBy i ws).flatMap (·.bytes) ∧ lists i = (writtenBy i ws).map (·.header)) := by
  obtain ⟨t, rs, ws, h1, h2, h3⟩ := threads_linear hS limit lists hn schedule { maxSize := limit } (startThreads lists) [] ⟨rfl, by simp⟩ (by simp)
    (fun i => ⟨rfl, rfl⟩) .nil
  refine ⟨t, rs, h1, fun hd => ⟨ws, _, h3, fun i => ?_⟩⟩
  have := h2 i
  obtain ⟨d1, d2⟩ := hd i
  unfold Progress at this
  rw [d2] at this
  simp only [d1, List.append_nil] at this
  exact this

theorem threads_nodup (ws : List Written) : (∀ i, (writtenBy i ws).length ≤ 1) → (ws.map (·.thread)).Nodup := by
  induction ws with
  | nil => intro _; exact List.nodup_nil
  | cons w ws ih =>
    intro h
    rw [List.map_cons, List.nodup_cons]
    constructor
    · intro hm
      obtain ⟨v, hv, he⟩ := List.mem_map.mp hm
      have := h w.thread
      have hx : v ∈ writtenBy w.thread ws := by simp [writtenBy, hv, he]
      have hl := List.length_pos_of_mem hx
      simp only [writtenBy, List.filter_cons, decide_true, if_true, List.length_cons] at this hl
      omega
    · refine ih fun i => ?_
      have := h i
      simp only [writtenBy, List.filter_cons] at this ⊢
      split at this
      · simp only [List.length_cons] at this
        omega
      · exact this

/-- C123, partial: if every thread has at most one header to write, the blocks can be sent in some order, for all schedules and any number of threads. -/
theorem C123_single_partial (S : Bytes → Prop) (hS : SafeNames S) (limit : Nat) (lists : Nat → List Header) (hn : ∀ i, ∀ h ∈ lists i, S h.1)
    (h1 : ∀ i, (lists i).length ≤ 1) (schedule : List Nat) :
    ∃ t rs, runThreads { maxSize := limit } (startThreads lists) schedule = .ok (t, rs) ∧ (AllDone rs → SomeOrderHeard limit lists rs) := by
  obtain ⟨t, rs, hr, hl⟩ := C123_linear_partial S hS limit lists hn schedule
  refine ⟨t, rs, hr, fun hd => ?_⟩
  obtain ⟨ws, T, hw, hi⟩ := hl hd
  have hlen : ∀ i, (writtenBy i ws).length ≤ 1 := by
    intro i
    have := h1 i
    rw [(hi i).2] at this
    simpa using this
  have hself : ∀ w ∈ ws, writtenBy w.thread ws = [w] := by
    intro w hm
    have hmem : w ∈ writtenBy w.thread ws := by simp [writtenBy, hm]
    have := hlen w.thread
    cases hx : writtenBy w.thread ws with
    | nil => rw [hx] at hmem; simp at hmem
    | cons a l =>
      rw [hx] at this hmem
      have : l = [] := by cases l with
        | nil => rfl
        | cons _ _ => simp at this
      subst this
      rw [List.mem_singleton.mp hmem]
  have hb : ∀ w ∈ ws, (rs w.thread).out = w.bytes := by
    intro w hm
    rw [(hi w.thread).1, hself w hm]
    simp
  have hh : ∀ w ∈ ws, lists w.thread = [w.header] := by
    intro w hm
    rw [(hi w.thread).2, hself w hm]
    simp
  refine ⟨ws.map (·.thread), ?_, ?_, T, ?_⟩
  · exact threads_nodup ws hlen
  · intro i
    constructor
    · intro hm
      obtain ⟨w, hm', rfl⟩ := List.mem_map.mp hm
      rw [hh w hm']
      simp
    · intro hne
      rw [(hi i).2] at hne
      cases hx : writtenBy i ws with
      | nil => rw [hx] at hne; simp at hne
      | cons w l =>
        have hm : w ∈ writtenBy i ws := by rw [hx]; exact List.mem_cons_self
        simp only [writtenBy, List.mem_filter, decide_eq_true_eq] at hm
        exact List.mem_map.mpr ⟨w, hm.1, hm.2⟩
  · have e1 : (ws.map (·.thread)).map (fun i => (rs i).out) = ws.map (·.bytes) := by
      rw [List.map_map]
      exact List.map_congr_left fun w hm => hb w hm
    have e2 : (ws.map (·.thread)).map (fun i => (lists i).map lowerHeader) = ws.map fun w => [lowerHeader w.header] := by
      rw [List.map_map]
      refine List.map_congr_left fun w hm => ?_
      simp [hh w hm]
    rw [e1, e2]
    exact hw

/-! ## A block of two headers can be torn -/

theorem two_orders {order : List Nat} (hn : order.Nodup) (hm : ∀ i, i ∈ order ↔ i = 0 ∨ i = 1) : order = [0, 1] ∨ order = [1, 0] := by
  have m0 := (hm 0).mpr (Or.inl rfl)
  have m1 := (hm 1).mpr (Or.inr rfl)
  match order, hn, hm, m0, m1 with
  | [], _, _, m0, _ => simp at m0
  | [x], _, _, m0, m1 =>
    have h0 := List.mem_singleton.mp m0
    have h1 := List.mem_singleton.mp m1
    omega
  | x :: y :: l, hn, hm, m0, m1 =>
    have hx := (hm x).mp (by simp)
    have hy := (hm y).mp (by simp)
    simp only [List.nodup_cons, List.mem_cons, not_or] at hn
    cases l with
    | nil =>
      rcases hx with rfl | rfl <;> rcases hy with rfl | rfl
      · exact absurd rfl hn.1.1
      · exact Or.inl rfl
      · exact Or.inr rfl
      · exact absurd rfl hn.1.1
    | cons z l =>
      have hz := (hm z).mp (by simp)
      simp only [List.mem_cons, not_or] at hn
      have n1 := hn.1.1
      have n2 := hn.1.2.1
      have n3 := hn.2.1.1
      omega

theorem reads_append {t t1 t2 : Table} {a b : Bytes} {h1 h2 : List Header} (ha : Reads t a t1 h1) (hb : Reads t1 b t2 h2) :
    Reads t (a ++ b) t2 (h1 ++ h2) := by
  obtain ⟨r1, b1, m1⟩ := ha
  obtain ⟨r2, b2, m2⟩ := hb
  refine ⟨r1 ++ r2, ?_, ?_⟩
  · clear m1 m2
    induction b1 with
    | nil => exact b2
    | cons hr _ ih =>
      rw [List.append_assoc]
      exact .cons hr ih
  · clear b1 b2
    induction m1 with
    | nil => exact m2
    | cons hr _ ih =>
      rw [List.append_assoc]
      exact .cons hr (ih m2)

/-- Two threads with two headers each, the second thread twice the same. -/
def tornLists (a1 a2 b : Header) : Nat → List Header
  | 0 => [a1, a2]
  | 1 => [b, b]
  | _ => []

/-- The first thread writes its first header, the second one its first, then the first one its second, and the second one its second. -/
def tornSchedule : List Nat := [0, 0, 1, 1, 0, 0, 1]

theorem setThread_self (rs : Nat → EncoderThread) (i : Nat) (r : EncoderThread) : setThread rs i r i = r := by simp [setThread]
theorem setThread_ne (rs : Nat → EncoderThread) {i j : Nat} (r : EncoderThread) (h : j ≠ i) : setThread rs i r j = rs j := by simp [setThread, h]

theorem runThreads_step {t t1 : HeaderIndex} {rs : Nat → EncoderThread} {i : Nat} {is : List Nat} {r : EncoderThread}
    (h : (rs i).step t = .ok (t1, r)) : runThreads t rs (i :: is) = runThreads t1 (setThread rs i r) is := by
  simp only [runThreads, h, Res.bind_ok]

theorem step_new {t : HeaderIndex} {h : Header} {hs : List Header} {out : Bytes} (hf : findHeader t h = none) :
    (EncoderThread.mk (h :: hs) none out).step t = .ok (t, ⟨hs, some h, out ++ encodeLiteral h true⟩) := by
  simp only [EncoderThread.step, hf]

theorem step_add {t t' : HeaderIndex} {h : Header} {hs : List Header} {out : Bytes} (ha : addHeader t h = .ok t') :
    (EncoderThread.mk hs (some h) out).step t = .ok (t', ⟨hs, none, out⟩) := by
  simp only [EncoderThread.step, ha, Res.bind_ok]

theorem step_found {t : HeaderIndex} {h : Header} {hs : List Header} {out : Bytes} {i : Nat} (hf : findHeader t h = some (i, true)) :
    (EncoderThread.mk (h :: hs) none out).step t = .ok (t, ⟨hs, none, out ++ encodeIndexed i⟩) := by
  simp only [EncoderThread.step, hf]

theorem torn_run (limit : Nat) (a1 a2 b : Header) (h1 : NewField a1) (h2 : NewField a2) (hb : NewField b) (v12 : a1.2 ≠ a2.2) (v1 : a1.2 ≠ b.2)
    (v2 : a2.2 ≠ b.2) (hf : entrySize a2 + entrySize b + entrySize a1 ≤ limit) :
    ∃ t rs, runThreads { maxSize := limit } (startThreads (tornLists a1 a2 b)) tornSchedule = .ok (t, rs) ∧ AllDone rs ∧
      (rs 0).out = encodeLiteral a1 true ++ encodeLiteral a2 true ∧ (rs 1).out = encodeLiteral b true ++ [0xbf] := by
  have p1 : addHeader { maxSize := limit } a1 = .ok ⟨[a1], 0 + entrySize a1, limit⟩ := addHeader_fits (by simp only; omega)
  have p2 : addHeader ⟨[a1], 0 + entrySize a1, limit⟩ b = .ok ⟨[b, a1], 0 + entrySize a1 + entrySize b, limit⟩ := addHeader_fits (by simp only; omega)
  have p3 : addHeader ⟨[b, a1], 0 + entrySize a1 + entrySize b, limit⟩ a2 = .ok ⟨[a2, b, a1], 0 + entrySize a1 + entrySize b + entrySize a2, limit⟩ :=
    addHeader_fits (by simp only; omega)
  have f1 : findHeader { maxSize := limit } a1 = none := find_new h1.name (by simp)
  have f2 : findHeader ⟨[a1], 0 + entrySize a1, limit⟩ b = none := find_new hb.name (by simpa using v1)
  have f3 : findHeader ⟨[b, a1], 0 + entrySize a1 + entrySize b, limit⟩ a2 = none :=
    find_new h2.name (by simpa using ⟨Ne.symm v2, v12⟩)
  have f4 : findHeader ⟨[a2, b, a1], 0 + entrySize a1 + entrySize b + entrySize a2, limit⟩ b = some (63, true) := by
    unfold findHeader
    simp only [hb.name]
    have : nameEq b.1 b.1 = true := nameEq_refl _
    simp [List.findIdx?_cons, this, staticTable_length, v2]
  have ib : encodeIndexed 63 = [0xbf] := by decide +kernel
  let r0 := startThreads (tornLists a1 a2 b)
  let r1 := setThread r0 0 ⟨[a2], some a1, [] ++ encodeLiteral a1 true⟩
  let r2 := setThread r1 0 ⟨[a2], none, [] ++ encodeLiteral a1 true⟩
  let r3 := setThread r2 1 ⟨[b], some b, [] ++ encodeLiteral b true⟩
  let r4 := setThread r3 1 ⟨[b], none, [] ++ encodeLiteral b true⟩
  let r5 := setThread r4 0 ⟨[], some a2, ([] ++ encodeLiteral a1 true) ++ encodeLiteral a2 true⟩
  let r6 := setThread r5 0 ⟨[], none, ([] ++ encodeLiteral a1 true) ++ encodeLiteral a2 true⟩
  let r7 := setThread r6 1 ⟨[], none, ([] ++ encodeLiteral b true) ++ encodeIndexed 63⟩
  have s1 := runThreads_step (rs := r0) (i := 0) (is := [0, 1, 1, 0, 0, 1]) (step_new f1)
  have s2 := runThreads_step (rs := r1) (i := 0) (is := [1, 1, 0, 0, 1]) (step_add p1)
  have s3 := runThreads_step (rs := r2) (i := 1) (is := [1, 0, 0, 1]) (step_new f2)
  have s4 := runThreads_step (rs := r3) (i := 1) (is := [0, 0, 1]) (step_add p2)
  have s5 := runThreads_step (rs := r4) (i := 0) (is := [0, 1]) (step_new f3)
  have s6 := runThreads_step (rs := r5) (i := 0) (is := [1]) (step_add p3)
  have s7 := runThreads_step (rs := r6) (i := 1) (is := []) (step_found f4)
  refine ⟨_, r7, s1.trans (s2.trans (s3.trans (s4.trans (s5.trans (s6.trans s7))))), ?_, ?_, ?_⟩
  · intro i
    match i with
    | 0 => simp [setThread, r7, r6]
    | 1 => simp [setThread, r7]
    | i + 2 => simp [setThread, startThreads, tornLists, r0, r1, r2, r3, r4, r5, r6, r7]
  · simp [setThread, r7, r6]
  · simp [setThread, r7, ib]

/-- C123 is false for all fields of new names that fit: after these steps no order of the two blocks can be read. -/
theorem C123_violated_torn (limit : Nat) (a1 a2 b : Header) (h1 : NewField a1) (h2 : NewField a2) (hb : NewField b) (v12 : a1.2 ≠ a2.2) (v1 : a1.2 ≠ b.2)
    (v2 : a2.2 ≠ b.2) (hf : tableSize [a2, b, a1] ≤ limit) :
    ∃ t rs, runThreads { maxSize := limit } (startThreads (tornLists a1 a2 b)) tornSchedule = .ok (t, rs) ∧ AllDone rs ∧
      ¬ SomeOrderHeard limit (tornLists a1 a2 b) rs := by
  have hsz : entrySize a2 + entrySize b + entrySize a1 ≤ limit := by
    simp [tableSize] at hf
    simp only [entrySize]
    omega
  obtain ⟨t, rs, hr, hd, o0, o1⟩ := torn_run limit a1 a2 b h1 h2 hb v12 v1 v2 hsz
  refine ⟨t, rs, hr, hd, ?_⟩
  rintro ⟨order, hn, hm, T, hR⟩
  have hord := two_orders hn (fun i => by
    rw [hm i]
    match i with
    | 0 => simp [tornLists]
    | 1 => simp [tornLists]
    | i + 2 => simp [tornLists])
  have lit : ∀ {h : Header} {l : List Header}, NewField h → tableSize (h :: l) ≤ limit → Reads ⟨l, limit⟩ (encodeLiteral h true) ⟨h :: l, limit⟩ [h] :=
    fun hh hs => ⟨_, block_mono (literal_short hh), literal_means hs⟩
  have i63 : IsBlock anyLength [.indexed 63] [0xbf] := by
    have := IsBlock.cons (ok := anyLength) (r := .indexed 63) (bs := [0xbf]) (cs := []) (rs := []) ⟨trivial, by decide, by decide⟩ .nil
    rwa [List.append_nil] at this
  simp only [entrySize] at hsz
  rcases hord with rfl | rfl
  · simp only [List.map_cons, List.map_nil, o0, o1, tornLists, h1.low, h2.low, hb.low] at hR
    cases hR with
    | cons q1 hR =>
      cases hR with
      | cons q2 hR =>
        have w1 := reads_append (lit (l := []) h1 (by simp [tableSize]; omega)) (lit h2 (by simp [tableSize]; omega))
        obtain ⟨rfl, -⟩ := reads_unique q1 w1
        have w2 := reads_append (lit (l := [a2, a1]) hb (by simp [tableSize]; omega))
          (⟨_, i63, .cons (.indexed (h := a2) (by simp [entry])) .nil⟩ : Reads ⟨[b, a2, a1], limit⟩ [0xbf] _ _)
        have := (reads_unique q2 w2).2
        simp only [List.cons_append, List.nil_append, List.append_nil, List.cons.injEq, true_and, and_true] at this
        rw [this] at v2
        exact v2 rfl
  · simp only [List.map_cons, List.map_nil, o0, o1, tornLists, h1.low, h2.low, hb.low] at hR
    cases hR with
    | cons q1 hR =>
      obtain ⟨reps, hbk, hmn⟩ := q1
      have hblk : IsBlock anyLength [.literal .incremental (.text b.1) b.2, .indexed 63] (encodeLiteral b true ++ [0xbf]) := by
        exact .cons (bs := encodeLiteral b true) ⟨[0x40], encodeStringLiteralLower b.1, encodeStringLiteral b.2, by simp [encodeLiteral],
          ⟨trivial, by decide, by decide⟩, by rw [encodeStringLiteralLower_eq, hb.lower]; exact encode_string _, encode_string _⟩ i63
      rw [block_unique hbk hblk] at hmn
      generalize [b, b] = l at hmn
      cases hmn with
      | cons s1 hmn =>
        cases s1 with
        | incremental hnm hk =>
          cases hmn with
          | cons s2 _ =>
            cases s2 with
            | indexed hx =>
              obtain ⟨k, hk1, rfl, -⟩ := hk
              simp only [List.length_cons, List.length_nil] at hk1
              simp only [entry] at hx
              simp at hx

/-- Fields of the name `x`. -/
def xField (v : UInt8) : Header := (asciiBytes "x", [v])

theorem xField_new (v : UInt8) : NewField (xField v) :=
  ⟨x_not_static, show lower (asciiBytes "x") = asciiBytes "x" by decide +kernel, show utf8Valid (asciiBytes "x") = true by decide +kernel,
    show (asciiBytes "x").length < 2 ^ 26 by decide +kernel, by simp [xField]⟩

theorem C123_violated : ¬ C123_statement := by
  intro h
  obtain ⟨t, rs, h1, h2, h3⟩ := C123_violated_torn 4096 (xField 49) (xField 50) (xField 51) (xField_new _) (xField_new _) (xField_new _) (by decide) (by decide)
    (by decide) (by decide +kernel)
  obtain ⟨t', rs', e1, e2⟩ := h _ only_x_safe 4096 (tornLists (xField 49) (xField 50) (xField 51)) (by
    intro i h hm
    match i, hm with
    | 0, hm => simp [tornLists] at hm; rcases hm with rfl | rfl <;> rfl
    | 1, hm => simp [tornLists] at hm; rw [hm]; rfl
    | i + 2, hm => simp [tornLists] at hm) tornSchedule
  rw [h1] at e1
  simp only [Res.ok.injEq, Prod.mk.injEq] at e1
  obtain ⟨rfl, rfl⟩ := e1
  exact h3 (e2 h2)

/-! ## A thread that is not interrupted -/

theorem runThreads_idle (t : HeaderIndex) (rs : Nat → EncoderThread) (i : Nat) (out : Bytes) (k : Nat) (h : rs i = ⟨[], none, out⟩) :
    runThreads t rs (List.replicate k i) = .ok (t, rs) := by
  induction k with
  | zero => rfl
  | succ k ih =>
    rw [List.replicate_succ, runThreads_step (r := ⟨[], none, out⟩) (by rw [h]; rfl)]
    have : setThread rs i ⟨[], none, out⟩ = rs := by
      funext j
      by_cases hj : j = i
      · rw [hj, setThread_self, h]
      · rw [setThread_ne _ _ hj]
    rw [this]
    exact ih

theorem setThread_twice (rs : Nat → EncoderThread) (i : Nat) (r r' : EncoderThread) : setThread (setThread rs i r) i r' = setThread rs i r' := by
  funext j
  by_cases hj : j = i
  · rw [hj, setThread_self, setThread_self]
  · rw [setThread_ne _ _ hj, setThread_ne _ _ hj, setThread_ne _ _ hj]

theorem alone (i : Nat) (hs : List Header) : ∀ (t t' : HeaderIndex) (rs : Nat → EncoderThread) (out b : Bytes) (k : Nat), 2 * hs.length ≤ k →
    rs i = ⟨hs, none, out⟩ → encodeHeaders t hs = .ok (b, t') →
    runThreads t rs (List.replicate k i) = .ok (t', setThread rs i ⟨[], none, out ++ b⟩) := by
  induction hs with
  | nil =>
    intro t t' rs out b k _ hr he
    simp only [encodeHeaders, Res.ok.injEq, Prod.mk.injEq] at he
    obtain ⟨rfl, rfl⟩ := he
    rw [runThreads_idle t rs i out k hr, List.append_nil, ← hr]
    congr 2
    funext j
    by_cases hj : j = i
    · rw [hj, setThread_self]
    · rw [setThread_ne _ _ hj]
  | cons h hs ih =>
    intro t t' rs out b k hk hr he
    simp only [encodeHeaders] at he
    obtain ⟨⟨b1, t1⟩, h1, he⟩ := (Res.bind_eq_ok ..).mp he
    obtain ⟨⟨b2, t2⟩, h2, he⟩ := (Res.bind_eq_ok ..).mp he
    simp only [Res.ok.injEq, Prod.mk.injEq] at he
    obtain ⟨rfl, rfl⟩ := he
    simp only [List.length_cons] at hk
    obtain ⟨k, rfl⟩ : ∃ m, k = m + 1 := ⟨k - 1, by omega⟩
    rw [List.replicate_succ]
    unfold encodeHeader at h1
    have two : ∀ out1, encodeHeaders t1 hs = .ok (b2, t2) → addHeader t h = .ok t1 → (rs i).step t = .ok (t, ⟨hs, some h, out ++ out1⟩) →
        runThreads t rs (i :: List.replicate k i) = .ok (t2, setThread rs i ⟨[], none, out ++ (out1 ++ b2)⟩) := by
      intro out1 h2 ha hst
      obtain ⟨k, rfl⟩ : ∃ m, k = m + 1 := ⟨k - 1, by omega⟩
      rw [runThreads_step hst, List.replicate_succ,
        runThreads_step (t1 := t1) (r := ⟨hs, none, out ++ out1⟩) (by rw [setThread_self]; exact step_add ha), setThread_twice,
        ih t1 t2 _ (out ++ out1) b2 k (by omega) (setThread_self ..) h2, setThread_twice, List.append_assoc]
    cases hf : findHeader t h with
    | none =>
      rw [hf] at h1
      obtain ⟨t3, ha, h1⟩ := (Res.bind_eq_ok ..).mp h1
      simp only [Res.ok.injEq, Prod.mk.injEq] at h1
      obtain ⟨rfl, rfl⟩ := h1
      exact two _ h2 ha (by rw [hr]; exact step_new hf)
    | some x =>
      obtain ⟨n, c⟩ := x
      rw [hf] at h1
      cases c with
      | false =>
        obtain ⟨t3, ha, h1⟩ := (Res.bind_eq_ok ..).mp h1
        simp only [Res.ok.injEq, Prod.mk.injEq] at h1
        obtain ⟨rfl, rfl⟩ := h1
        exact two _ h2 ha (by rw [hr]; simp only [EncoderThread.step, hf])
      | true =>
        simp only [Res.ok.injEq, Prod.mk.injEq] at h1
        obtain ⟨rfl, rfl⟩ := h1
        rw [runThreads_step (by rw [hr]; exact step_found hf),
          ih t t2 _ (out ++ encodeIndexed n) b2 k (by omega) (setThread_self ..) h2, setThread_twice, List.append_assoc]

/-- C123: a thread that is not interrupted writes the block that `Encoder::encode` writes on its own (so that C07 and C66 hold of it) and leaves the same
table, from any state of the table and of the other threads. -/
theorem C123_alone_partial (t t' : HeaderIndex) (rs : Nat → EncoderThread) (i : Nat) (hs : List Header) (out b : Bytes) (hr : rs i = ⟨hs, none, out⟩)
    (he : encodeHeaders t hs = .ok (b, t')) :
    runThreads t rs (List.replicate (2 * hs.length) i) = .ok (t', setThread rs i ⟨[], none, out ++ b⟩) :=
  alone i hs t t' rs out b _ (Nat.le_refl _) hr he

/-! ## Concrete cases -/

/-- Two threads with the same one header. -/
def twinLists : Nat → List Header
  | 0 => [xField 49]
  | 1 => [xField 49]
  | _ => []

/-- Both look for their header before either has stored it: all are done, and the table has it twice. -/
theorem twin_run : ∃ t rs, runThreads {} (startThreads twinLists) [0, 1, 1, 0] = .ok (t, rs) ∧ AllDone rs ∧ t.table = [xField 49, xField 49] := by
  have f1 : findHeader {} (xField 49) = none := by decide +kernel
  have p1 : addHeader {} (xField 49) = .ok ⟨[xField 49], 0 + entrySize (xField 49), 4096⟩ := addHeader_fits (by decide +kernel)
  have p2 : addHeader ⟨[xField 49], 0 + entrySize (xField 49), 4096⟩ (xField 49) =
      .ok ⟨[xField 49, xField 49], 0 + entrySize (xField 49) + entrySize (xField 49), 4096⟩ := addHeader_fits (by decide +kernel)
  let r0 := startThreads twinLists
  let r1 := setThread r0 0 ⟨[], some (xField 49), [] ++ encodeLiteral (xField 49) true⟩
  let r2 := setThread r1 1 ⟨[], some (xField 49), [] ++ encodeLiteral (xField 49) true⟩
  let r3 := setThread r2 1 ⟨[], none, [] ++ encodeLiteral (xField 49) true⟩
  let r4 := setThread r3 0 ⟨[], none, [] ++ encodeLiteral (xField 49) true⟩
  have s1 := runThreads_step (rs := r0) (i := 0) (is := [1, 1, 0]) (step_new f1)
  have s2 := runThreads_step (rs := r1) (i := 1) (is := [1, 0]) (step_new f1)
  have s3 := runThreads_step (rs := r2) (i := 1) (is := [0]) (step_add p1)
  have s4 := runThreads_step (rs := r3) (i := 0) (is := []) (step_add p2)
  refine ⟨_, r4, s1.trans (s2.trans (s3.trans s4)), ?_, rfl⟩
  intro i
  match i with
  | 0 => simp [setThread, r4]
  | 1 => simp [setThread, r4, r3]
  | i + 2 => simp [setThread, startThreads, twinLists, r0, r1, r2, r3, r4]

example : ∃ t rs, runThreads {} (startThreads twinLists) [0, 1, 1, 0] = .ok (t, rs) ∧ SomeOrderHeard 4096 twinLists rs := by
  obtain ⟨t, rs, h, hd, -⟩ := twin_run
  obtain ⟨t', rs', h', ho⟩ := C123_single_partial _ only_x_safe 4096 twinLists (by
    intro i h hm
    match i, hm with
    | 0, hm => simp [twinLists] at hm; rw [hm]; rfl
    | 1, hm => simp [twinLists] at hm; rw [hm]; rfl
    | i + 2, hm => simp [twinLists] at hm) (by
    intro i
    match i with
    | 0 => simp [twinLists]
    | 1 => simp [twinLists]
    | i + 2 => simp [twinLists]) [0, 1, 1, 0]
  have e : (Res.ok (t, rs) : Res (HeaderIndex × (Nat → EncoderThread))) = .ok (t', rs') := h.symm.trans h'
  simp only [Res.ok.injEq, Prod.mk.injEq] at e
  obtain ⟨rfl, rfl⟩ := e
  exact ⟨t, rs, h, ho hd⟩

/-- A thread that is not interrupted and finds its second header. -/
example : ∃ b t, encodeHeaders {} [xField 49, xField 49] = .ok (b, t) ∧
    ∀ rs : Nat → EncoderThread, rs 3 = ⟨[xField 49, xField 49], none, []⟩ →
      runThreads {} rs (List.replicate 4 3) = .ok (t, setThread rs 3 ⟨[], none, b⟩) :=
  ⟨encodeLiteral (xField 49) true ++ (encodeIndexed 62 ++ []), ⟨[xField 49], 34, 4096⟩, by decide +kernel, fun rs h =>
    C123_alone_partial {} _ rs 3 _ [] _ h (by decide +kernel)⟩

end Webparse
