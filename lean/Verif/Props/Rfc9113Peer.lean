import Verif.Proofs.Rfc9113Peer
import Verif.Props.Rfc9113
import Verif.Props.Rfc9113Connection
import Verif.Props.Http1

/-!
# C93 to C95: what a peer says over HTTP/2
-/

namespace Webparse
open Spec Spec.Rfc

theorem block_mono {ok : Bytes → Prop} {rs : List Rep} {bs : Bytes} (h : IsBlock ok rs bs) : IsBlock anyLength rs bs := by
  induction h with
  | nil => exact .nil
  | cons h _ ih => exact .cons (rep_mono h) ih

/-! ## C93 -/

/-- C93, the full claim: what a peer that follows RFC 9113 says (promises apart, see C77), without malformed messages
and with header lists within the limit, is read as it is meant. -/
def C93_statement : Prop :=
  ∀ (maxFrame maxList limit : Nat) (bytes : Bytes) (T : Table) (heard : List Heard),
    maxFrame < 2 ^ 24 → HearsBytes maxFrame ⟨[], limit⟩ bytes T heard →
    (∀ id e fields, .headers id e fields ∈ heard → MessageFields fields ∧ headerListSize fields ≤ maxList) →
    (∀ id p fields, .promise id p fields ∉ heard) →
    ∃ received, readFrames maxList bytes.length { maxSize := limit } bytes = some (.ok received) ∧ Zip HeardBy heard received

/-- C93: what is heard plainly is heard. -/
theorem C93_plain_is_heard (maxFrame maxList : Nat) (t t' : Table) (frames : List RawFrame) (heard : List Heard)
    (h : HearsPlain maxFrame maxList t frames t' heard) :
    Hears maxFrame t frames t' heard ∧ (∀ id e fields, .headers id e fields ∈ heard → MessageFields fields ∧ headerListSize fields ≤ maxList) ∧
      ∀ id p fields, .promise id p fields ∉ heard := by
  induction h with
  | nil => exact ⟨.nil, by simp, by simp⟩
  | frame a b c d _ ih =>
    obtain ⟨i1, i2, i3⟩ := ih
    refine ⟨.frame a c d i1, ?_, ?_⟩
    · intro id e fields hm
      simp only [List.mem_cons, reduceCtorEq, false_or] at hm
      exact i2 _ _ _ hm
    · intro id e fields hm
      simp only [List.mem_cons, reduceCtorEq, false_or] at hm
      exact i3 _ _ _ hm
  | @headers t flags id reps block t' fields gs t'' hs h0 hf h4 hl hb hp hm hok htk hsz _ ih =>
    obtain ⟨i1, i2, i3⟩ := ih
    have bits : flags &&& 0x28 = 0 := by clear h4; revert flags; decide +kernel
    refine ⟨?_, ?_, ?_⟩
    · exact Hears.headers (fs := [(1, flags, id, block)]) (.one h0 bits rfl h4)
        (by intro f hf; rw [List.mem_singleton] at hf; subst hf; exact hl) ⟨reps, block_mono hb, hm⟩ i1
    · intro id' e fields' hm
      simp only [List.mem_cons, Heard.headers.injEq] at hm
      rcases hm with ⟨-, -, rfl⟩ | hm
      · exact ⟨hok, hsz⟩
      · exact i2 _ _ _ hm
    · intro id' e fields' hm
      simp only [List.mem_cons, reduceCtorEq, false_or] at hm
      exact i3 _ _ _ hm

theorem readFrames_more {m : Nat} : ∀ {n k : Nat} {t : HeaderIndex} {b : Bytes} {r : List Frame}, n ≤ k →
    readFrames m n t b = some (.ok r) → readFrames m k t b = some (.ok r) := by
  intro n
  induction n with
  | zero =>
    intro k t b r _ h
    cases b with
    | nil => cases k <;> simpa [readFrames] using h
    | cons x xs => simp [readFrames] at h
  | succ n ih =>
    intro k t b r hk h
    cases b with
    | nil => cases k <;> simpa [readFrames] using h
    | cons x xs =>
      obtain ⟨k, rfl⟩ : ∃ k', k = k' + 1 := ⟨k - 1, by omega⟩
      simp only [readFrames] at h ⊢
      cases hr : readFrame t m (x :: xs) with
      | none => simp [hr] at h
      | some o =>
        cases o with
        | err e => simp [hr] at h
        | panic => simp [hr] at h
        | ok p =>
          obtain ⟨f, t', rest⟩ := p
          simp only [hr] at h ⊢
          cases hq : readFrames m n t' rest with
          | none => simp [hq] at h
          | some o =>
            cases o with
            | err e => simp [hq] at h
            | panic => simp [hq] at h
            | ok fs =>
              rw [ih (by omega) hq]
              simp only [hq] at h ⊢
              exact h

theorem wireFrames_count (fs : List RawFrame) : fs.length ≤ (wireFrames fs).length := by
  induction fs with
  | nil => simp [wireFrames]
  | cons f fs ih =>
    obtain ⟨k, fl, id, b⟩ := f
    have : wireFrames ((k, fl, id, b) :: fs) = wireFrame k fl id b ++ wireFrames fs := by simp [wireFrames]
    rw [this, List.length_append, List.length_cons]
    have : 1 ≤ (wireFrame k fl id b).length := by simp [wireFrame]
    omega

theorem plain_reported {maxFrame maxList : Nat} (hmax : maxFrame < 2 ^ 24) {t0 T : Table} {frames : List RawFrame} {heard : List Heard}
    (h : HearsPlain maxFrame maxList t0 frames T heard) :
    ∀ t : HeaderIndex, TableInv t → toTable t = t0 → (∀ f ∈ frames, f.2.2.1 < 2 ^ 31) →
    ∃ received, readFrames maxList frames.length t (wireFrames frames) = some (.ok received) ∧ Zip ReportedAs heard received := by
  induction h with
  | nil => intro t _ _ _; exact ⟨[], by simp [wireFrames, readFrames], .nil⟩
  | @frame t1 kind flags id payload f fs t' hs hk hf hl hm _ ih =>
    intro t ht e hid
    obtain ⟨r, h1, h2⟩ := ih t ht e (fun x hx => hid x (by simp [hx]))
    have hc : Checked kind flags id payload := by
      refine ⟨hf, ?_, ?_, ?_⟩
      · rintro rfl; cases hm with
        | priority _ _ ex dep w a b c => exact ⟨a, by simp [u31Bytes, u32Bytes]⟩
      · rintro rfl; cases hm with
        | reset _ _ c a b => exact a
      · rintro rfl; cases hm with
        | goAway => rfl
    have ra : ReadsAs maxList t (wireFrame kind flags id payload) [f] t := by
      refine readsAs_one (by simp [wireFrame]) fun rest => ?_
      exact (C75_checked_partial kind flags id payload rest t maxList f hk (by omega) (hid (kind, flags, id, payload) (by simp)) hc).mpr hm
    have := ra _ _ _ h1
    refine ⟨f :: r, ?_, .cons rfl h2⟩
    simp only [List.length_cons, List.length_nil, Nat.zero_add] at this
    rw [List.length_cons, Nat.add_comm]
    simpa [wireFrames] using this
  | @headers t1 flags id reps block t2 fields gs t'' hs h0 hf h4 hl hb hp hm hok htk hsz _ ih =>
    intro t ht e hid
    subst e
    obtain ⟨t', d1, d2, d3⟩ := C66_decodes_partial t ht reps block t2 fields hp hb hm
    obtain ⟨r, h1, h2⟩ := ih t' d3 d2 (fun x hx => hid x (by simp [hx]))
    obtain ⟨x, hx⟩ := (addFields_iff maxList fields 0 { streamId := id, flags } (Nat.zero_le _)).mpr ⟨by omega, htk⟩
    have ra : ReadsAs maxList t (wireFrame 1 flags id block) [.headers x] t' := by
      refine readsAs_one (by simp [wireFrame]) fun rest => ?_
      rw [readFrame_headers d1 id flags hf (by omega) (hid (1, flags, id, block) (by simp)), hx]
      rfl
    have := ra _ _ _ h1
    obtain ⟨e1, e2, e3⟩ := addFields_takenAs hx
    refine ⟨.headers x :: r, ?_, .cons ⟨x, rfl, e1, by rw [e2], e3⟩ h2⟩
    simp only [List.length_cons, List.length_nil, Nat.zero_add] at this
    rw [List.length_cons, Nat.add_comm]
    simpa [wireFrames] using this

/-- C93, partial: what is said plainly is read, control frames and bodies as they are meant, and of header lists the last
value of every name.  Missing: see the violations. -/
theorem C93_reported_partial (maxFrame maxList limit : Nat) (hmax : maxFrame < 2 ^ 24) (frames : List RawFrame) (T : Table)
    (heard : List Heard) (hid : ∀ f ∈ frames, f.2.2.1 < 2 ^ 31) (h : HearsPlain maxFrame maxList ⟨[], limit⟩ frames T heard) :
    ∃ received, readFrames maxList (wireFrames frames).length { maxSize := limit } (wireFrames frames) = some (.ok received) ∧
      Zip ReportedAs heard received := by
  obtain ⟨r, h1, h2⟩ := plain_reported hmax h { maxSize := limit } ⟨rfl, Nat.zero_le _⟩ rfl hid
  exact ⟨r, readFrames_more (wireFrames_count frames) h1, h2⟩

theorem allFields_cons (h : Header) (hs : List Header) (n : Bytes) :
    allFields (h :: hs) n = (if h.1 = n then [h.2] else []) ++ allFields hs n := by
  unfold allFields
  rw [List.filter_cons]
  by_cases e : h.1 = n <;> simp [e]

theorem once_fields {fields : List Header} {n : Bytes} (h : (allFields fields n).length ≤ 1) :
    firstField fields n = (allFields fields n).head? ∧ lastField fields n = (allFields fields n).head? := by
  induction fields with
  | nil => exact ⟨rfl, rfl⟩
  | cons x xs ih =>
    rw [allFields_cons] at h ⊢
    rw [firstField, lastField_cons]
    by_cases e : x.1 = n
    · rw [if_pos e] at h ⊢
      simp only [List.length_append, List.length_cons, List.length_nil] at h
      have h0 : allFields xs n = [] := List.length_eq_zero_iff.mp (by omega)
      obtain ⟨-, i2⟩ := ih (by omega)
      rw [h0] at i2
      rw [i2, if_pos e, if_pos e, h0]
      exact ⟨rfl, rfl⟩
    · rw [if_neg e] at h ⊢
      simp only [List.nil_append] at h ⊢
      obtain ⟨i1, i2⟩ := ih h
      rw [if_neg e, if_neg e, i1, i2]
      exact ⟨rfl, Option.or_none⟩

theorem once_value {fields : List Header} {n : Bytes} (h : (allFields fields n).length ≤ 1) :
    fieldValue fields n = lastField fields n := by
  rw [(once_fields h).2]
  unfold fieldValue
  match hm : allFields fields n, h with
  | [], _ => rfl
  | [v], _ => simp [joinSemicolon, joinComma]
  | a :: b :: c, h => simp at h

theorem firstField_mem {fields : List Header} {n v : Bytes} (h : firstField fields n = some v) : (n, v) ∈ fields := by
  induction fields with
  | nil => cases h
  | cons x xs ih =>
    rw [firstField] at h
    split at h
    · rename_i e
      simp only [Option.some.injEq] at h
      subst h; subst e
      simp
    · simp [ih h]

theorem visible_lossy {v : Bytes} (h : IsVisible v) : utf8Lossy v = v :=
  utf8Lossy_valid (utf8Valid_ascii v fun b hb => by
    rw [UInt8.lt_iff_toNat_lt]
    exact Nat.lt_of_le_of_lt (h b hb).2 (by decide))

theorem message_plain_names {fields : List Header} (hok : MessageFields fields) (ht : ∀ h ∈ fields, 126 ∉ h.1) :
    ∀ h ∈ fields, IsPlainName h.1 := by
  intro h hh b hb
  by_cases hc : h.1.head? = some 58
  · have hp : h.1 ∈ pseudoNames := by
      rcases hok.known with k | k
      · have := k h hh hc
        simp only [requestNames, List.mem_cons, List.not_mem_nil, or_false] at this
        simp only [pseudoNames, List.mem_cons, List.not_mem_nil, or_false]
        rcases this with e | e | e | e <;> simp [e]
      · have := k h hh hc
        simp [pseudoNames, this]
    exact (pseudoNames_plain _ hp).1 b hb
  · obtain ⟨⟨-, k1⟩, k2⟩ := hok.names h hh hc
    have a1 := k1 b hb
    have a2 : lowerByte b = b := by
      have : h.1.map lowerByte = h.1.map id := by rw [List.map_id]; exact k2
      exact List.map_inj_left.mp this b hb
    have a3 : b ≠ 126 := fun e => ht h hh (e ▸ hb)
    have key : ∀ b : UInt8, isTchar b = true → lowerByte b = b → b ≠ 126 → isPlainNameByte b = true := by decide +kernel
    exact key b a1 a2 a3

theorem unambiguous_quiet {a n : Bytes} (ha : IsPlainName a) (hq : 94 ∉ a) (hn : IsFieldName n) (hl : lower n = n) :
    Unambiguous a n := by
  refine unambiguous_places fun i x y hx hy h => ?_
  have a1 := ha x (List.mem_of_getElem? hx)
  have a2 : x ≠ 94 := fun e => hq (e ▸ List.mem_of_getElem? hx)
  have a3 := hn.2 y (List.mem_of_getElem? hy)
  have a4 : lowerByte y = y := by
    have : n.map lowerByte = n.map id := by rw [List.map_id]; exact hl
    exact List.map_inj_left.mp this y (List.mem_of_getElem? hy)
  have key : ∀ x : UInt8, isPlainNameByte x = true → x ≠ 94 →
      (isTchar (x - 32) = true → lowerByte (x - 32) = x - 32 → False) ∧
      (isTchar (x + 32) = true → lowerByte (x + 32) = x + 32 → False) := by decide +kernel
  have := key x a1 a2
  rcases h with h | h
  · have e : y = x - 32 := by rw [← h]; grind
    rw [e] at a3 a4
    exact (this.1 a3 a4).elim
  · have e : y = x + 32 := by rw [← h]; grind
    rw [e] at a3 a4
    exact (this.2 a3 a4).elim

theorem get?_quiet {m : HeaderMap} (hm : ∀ e ∈ m, IsPlainName e.1 ∧ 94 ∉ e.1) {n : Bytes} (hn : IsFieldName n) (hl : lower n = n)
    (ha : ∀ e ∈ m, e.1 ≠ n) : m.get? n = none := by
  induction m with
  | nil => rfl
  | cons e m ih =>
    rw [get?_cons, if_neg, ih (fun x hx => hm x (by simp [hx])) (fun x hx => ha x (by simp [hx]))]
    intro h
    have k := hm e (by simp)
    have := nameEq_unambiguous (unambiguous_quiet k.1 k.2 hn hl) h
    rw [(plain_lower k.1).1, hl] at this
    exact ha e (by simp) this

/-- What the code makes of a plain message is what it means. -/
theorem taken_understood {fields : List Header} {x : HeadersFrame} (hok : MessageFields fields) (hp : PlainMessage fields)
    (h : TakenAs fields x) : Understood fields x := by
  have first : ∀ n, firstField fields n = lastField fields n := fun n => by
    rw [(once_fields (hp.once n)).1, (once_fields (hp.once n)).2]
  have vis : ∀ n, n = asciiBytes ":scheme" ∨ n = asciiBytes ":authority" ∨ n = asciiBytes ":path" →
      (lastField fields n).map utf8Lossy = lastField fields n := by
    intro n hn
    rw [← first]
    cases hf : firstField fields n with
    | none => rfl
    | some v => simp only [Option.map_some, visible_lossy (hok.uri _ (firstField_mem hf) hn)]
  have names := message_plain_names hok fun h hh => (hp.quiet h hh).1
  refine ⟨by rw [h.method, first], by rw [(textIs_iff _ _).mp h.scheme, first, vis _ (.inl rfl)],
    by rw [(textIs_iff _ _).mp h.authority, first, vis _ (.inr (.inl rfl))], by rw [(textIs_iff _ _).mp h.path, first, vis _ (.inr (.inr rfl))], by rw [h.status, first], ?_⟩
  intro n hn hl
  rw [once_value (hp.once n)]
  by_cases ht : (126 : UInt8) ∈ n
  · have ha : ∀ y ∈ fields, y.1 ≠ n := fun y hy e => (hp.quiet y hy).1 (e ▸ ht)
    rw [lastField_absent ha]
    refine get?_quiet ?_ hn hl ?_
    · intro e he
      obtain ⟨y, hy, hye⟩ := h.names e he
      rw [← hye]
      exact ⟨names y hy, (hp.quiet y hy).2⟩
    · intro e he
      obtain ⟨y, hy, hye⟩ := h.names e he
      rw [← hye]
      exact ha y hy
  · refine h.fields names n ?_ ?_
    · intro b hb
      have a2 : lowerByte b = b := by
        have : n.map lowerByte = n.map id := by rw [List.map_id]; exact hl
        exact List.map_inj_left.mp this b hb
      have a3 : b ≠ 126 := fun e => ht (e ▸ hb)
      have key : ∀ b : UInt8, isTchar b = true → lowerByte b = b → b ≠ 126 → isPlainNameByte b = true := by decide +kernel
      exact key b (hn.2 b hb) a2 a3
    · intro hc
      have : (58 : UInt8) ∈ n := by
        cases n with
        | nil => cases hc
        | cons a b => simp only [List.head?_cons, Option.some.injEq] at hc; simp [hc]
      exact absurd (hn.2 _ this) (by decide +kernel)

theorem zip_map {α β : Type} {R S : α → β → Prop} {as : List α} {bs : List β} (h : Zip R as bs)
    (k : ∀ a ∈ as, ∀ b, R a b → S a b) : Zip S as bs := by
  induction h with
  | nil => exact .nil
  | cons h _ ih => exact .cons (k _ (by simp) _ h) (ih fun a ha => k a (by simp [ha]))

/-- C93, partial: what is said plainly, in header lists without repeated names, is read as it is meant. -/
theorem C93_understood_partial (maxFrame maxList limit : Nat) (hmax : maxFrame < 2 ^ 24) (frames : List RawFrame) (T : Table)
    (heard : List Heard) (hid : ∀ f ∈ frames, f.2.2.1 < 2 ^ 31) (h : HearsPlain maxFrame maxList ⟨[], limit⟩ frames T heard)
    (hp : ∀ id e fields, .headers id e fields ∈ heard → PlainMessage fields) :
    ∃ received, readFrames maxList (wireFrames frames).length { maxSize := limit } (wireFrames frames) = some (.ok received) ∧
      Zip HeardBy heard received := by
  obtain ⟨r, h1, h2⟩ := C93_reported_partial maxFrame maxList limit hmax frames T heard hid h
  refine ⟨r, h1, zip_map h2 ?_⟩
  intro a ha b hb
  cases a with
  | frame f => exact hb
  | promise _ _ _ => exact hb
  | headers id e fields =>
    obtain ⟨x, k1, k2, k3, k4⟩ := hb
    exact ⟨x, k1, k2, k3, taken_understood ((C93_plain_is_heard _ _ _ _ _ _ h).2.1 _ _ _ ha).1 (hp _ _ _ ha) k4⟩

/-- Literals mean their headers, and the code decodes them so. -/
theorem literals_read (t : HeaderIndex) (ht : TableInv t) (hs : List Header)
    (h : ∀ x ∈ hs, x.1.length < 127 ∧ x.2.length < 127 ∧ utf8Valid x.1 = true) :
    Reads (toTable t) (hs.map fun x => literal x.1 x.2).flatten (toTable t) hs ∧
    ∃ t', decode t (hs.map fun x => literal x.1 x.2).flatten = some (.ok (hs, t')) ∧ toTable t' = toTable t ∧ TableInv t' := by
  have hb : IsBlock shortInteger (hs.map fun x => .literal .without (.text x.1) x.2) (hs.map fun x => literal x.1 x.2).flatten := by
    induction hs with
    | nil => exact .nil
    | cons x xs ih => exact .cons (literal_rep _ _ (h x (by simp)).1 (h x (by simp)).2.1) (ih fun y hy => h y (by simp [hy]))
  have hm : Means (toTable t) (hs.map fun x => .literal .without (.text x.1) x.2) (toTable t) hs := by
    clear hb h
    induction hs with
    | nil => exact .nil
    | cons x xs ih => exact .cons (hs := [x]) (.without rfl) ih
  refine ⟨⟨_, block_mono hb, hm⟩, C66_decodes_partial t ht _ _ _ _ ?_ hb hm⟩
  intro r hr
  obtain ⟨x, hx, rfl⟩ := List.mem_map.mp hr
  exact (h x hx).2.2

/-- C93 is false: of several lines of one field the code keeps only the last value.  So it is for all names (of the usual
kind) and values, whatever else the peer says before and afterwards. -/
theorem C93_violated_repeated (n v w : Bytes) (hn : IsPlainName n) (hc : n.head? ≠ some 58) (h1 : n.length < 127) (h2 : v.length < 127)
    (h3 : w.length < 127) (t : HeaderIndex) (ht : TableInv t) (id : Nat) (hi : id < 2 ^ 31) (m : Nat) (hm : 1000 ≤ m) (rest : Bytes) :
    Reads (toTable t) (literal n v ++ literal n w) (toTable t) [(n, v), (n, w)] ∧
    fieldValue [(n, v), (n, w)] n = some (v ++ (if n = asciiBytes "cookie" then [59, 32] else [44, 32]) ++ w) ∧
    ∃ x t', readFrame t m (wireFrame 1 4 id (literal n v ++ literal n w) ++ rest) = some (.ok (.headers x, t', rest)) ∧
      x.fields = [(n, w)] := by
  obtain ⟨a, t', b, -, -⟩ := literals_read t ht [(n, v), (n, w)] (by
    intro x hx
    simp only [List.mem_cons, List.not_mem_nil, or_false] at hx
    rcases hx with rfl | rfl
    · exact ⟨h1, h2, (plain_lower hn).2⟩
    · exact ⟨h1, h3, (plain_lower hn).2⟩)
  simp only [List.map_cons, List.map_nil, List.flatten_cons, List.flatten_nil, List.append_nil] at a b
  refine ⟨a, ?_, ?_⟩
  · unfold fieldValue allFields
    simp only [List.filter_cons, beq_self_eq_true, if_true, List.filter_nil, List.map_cons, List.map_nil, joinSemicolon, joinComma]
    split <;> rfl
  · have hs : isSpec n = false := by unfold isSpec; simpa using hc
    have hl : (literal n v ++ literal n w).length < 2 ^ 24 := by
      simp only [literal, List.length_append, List.length_cons, List.length_nil]; omega
    have add : HeadersFrame.addFields m 0 { streamId := id, flags := 4 } [(n, v), (n, w)] =
        .ok { streamId := id, flags := 4, fields := [(n, w)] } := by
      simp only [HeadersFrame.addFields, HeadersFrame.addField, hs, Bool.false_eq_true, if_false, HeaderMap.insert]
      rw [if_neg (by omega)]
      simp only [Res.bind_ok]
      rw [if_neg (by omega)]
      simp only [HeaderMap.insert, nameEq_refl, if_true]
    rw [readFrame_headers b id 4 (by decide) hl hi, add]
    exact ⟨_, t', rfl, rfl⟩

/-- C93 is false: CONTINUATION frames cannot be read, so no header list that takes more than one frame can. -/
theorem C93_violated_continuation (frames : List RawFrame) (hl : ∀ f ∈ frames, f.2.2.2.length < 2 ^ 24) (hi : ∀ f ∈ frames, f.2.2.1 < 2 ^ 31)
    (h9 : ∃ f ∈ frames, f.1 = 9) (t : HeaderIndex) (maxList n : Nat) (received : List Frame) :
    readFrames maxList n t (wireFrames frames) ≠ some (.ok received) := by
  induction frames generalizing t n received with
  | nil => simp at h9
  | cons f fs ih =>
    obtain ⟨k, fl, id, b⟩ := f
    intro h
    have e : wireFrames ((k, fl, id, b) :: fs) = wireFrame k fl id b ++ wireFrames fs := by simp [wireFrames]
    rw [e] at h
    obtain ⟨y, ys, hy⟩ := List.exists_cons_of_ne_nil (l := wireFrame k fl id b ++ wireFrames fs) (by simp [wireFrame])
    cases n with
    | zero => rw [hy] at h; simp [readFrames] at h
    | succ n =>
      cases hr : readFrame t maxList (wireFrame k fl id b ++ wireFrames fs) with
      | none => rw [hy] at h hr; simp [readFrames, hr] at h
      | some o =>
        cases o with
        | err e => rw [hy] at h hr; simp [readFrames, hr] at h
        | panic => rw [hy] at h hr; simp [readFrames, hr] at h
        | ok p =>
          obtain ⟨g, t', rest⟩ := p
          have c := readFrame_cases (hl (k, fl, id, b) (by simp)) (hi (k, fl, id, b) (by simp)) hr
          obtain ⟨rfl, c⟩ := c
          obtain ⟨f9, hf9, h9⟩ := h9
          rcases List.mem_cons.mp hf9 with rfl | hf9
          · simp only at h9
            subst h9
            rcases c with ⟨c, -⟩ | ⟨c, -⟩ | ⟨c, -⟩
            · exact absurd c (by decide)
            · exact absurd c (by decide)
            · unfold BlocklessKind at c; exact absurd c (by decide)
          · have hq := h
            rw [hy] at h hr
            simp only [readFrames, hr] at h
            cases hz : readFrames maxList n t' (wireFrames fs) with
            | none => simp [hz] at h
            | some o =>
              cases o with
              | err e => simp [hz] at h
              | panic => simp [hz] at h
              | ok r => exact ih (fun f hf => hl f (by simp [hf])) (fun f hf => hi f (by simp [hf])) ⟨f9, hf9, h9⟩ _ _ _ hz

/-- C93 is false: a method other than nine makes the frame unreadable, whatever else the header list says. -/
theorem C93_violated_method (t t' : HeaderIndex) (block : Bytes) (fields : List Header) (hd : decode t block = some (.ok (fields, t')))
    (v : Bytes) (hv : (asciiBytes ":method", v) ∈ fields) (hk : v ∉ knownMethods) (id : Nat) (flags : UInt8) (hf : flags &&& 0xFA = 0)
    (hl : block.length < 2 ^ 24) (hi : id < 2 ^ 31) (m : Nat) (rest : Bytes) (r : Frame × HeaderIndex × Bytes) :
    readFrame t m (wireFrame 1 flags id block ++ rest) ≠ some (.ok r) := by
  rw [readFrame_headers hd id flags hf hl hi]
  intro h
  simp only [Option.some.injEq] at h
  obtain ⟨x, hx, -⟩ := Res.bind_eq_ok.mp h
  exact hk (((addFields_iff m fields 0 _ (Nat.zero_le _)).mp ⟨x, hx⟩).2 _ hv |>.method rfl)

/-- Two cookies. -/
def sampleCookies : List Header := [(asciiBytes "cookie", asciiBytes "a=1"), (asciiBytes "cookie", asciiBytes "b=2")]

theorem regular_message {fields : List Header} (h : ∀ x ∈ fields, x.1.head? ≠ some 58 ∧ IsFieldName x.1 ∧ lower x.1 = x.1 ∧ IsFieldValue x.2) :
    MessageFields fields := by
  have no : ∀ {n v : Bytes}, n.head? = some 58 → (n, v) ∈ fields → False := fun hn hm => (h _ hm).1 hn
  refine ⟨⟨[], fields, rfl, by simp, fun x hx => (h x hx).1⟩, .inl fun x hx hc => absurd hc (h x hx).1, ?_, fun x hx _ => ⟨(h x hx).2.1, (h x hx).2.2.1⟩,
    fun x hx => (h x hx).2.2.2, fun v hv => (no (by decide +kernel) hv).elim, ?_, fun v hv => (no (by decide +kernel) hv).elim⟩
  · intro n hn
    have : allFields fields n = [] := by
      unfold allFields
      rw [List.map_eq_nil_iff, List.filter_eq_nil_iff]
      intro x hx e
      rw [beq_iff_eq] at e
      exact (h x hx).1 (e ▸ hn)
    simp [this]
  · intro x hx e
    refine absurd ?_ (h x hx).1
    rcases e with e | e | e <;> rw [e] <;> decide +kernel

instance (v : Bytes) : Decidable (IsFieldValue v) := by unfold IsFieldValue IsFieldVchar IsBlank; infer_instance
instance (v : Bytes) : Decidable (IsFieldName v) := by unfold IsFieldName; infer_instance

/-- A header block with both. -/
def sampleBlock : Bytes := (sampleCookies.map fun x => literal x.1 x.2).flatten

theorem sampleCookies_ok : MessageFields sampleCookies :=
  regular_message (by unfold sampleCookies; decide +kernel)

/-- C93 is false. -/
theorem C93_violated : ¬ C93_statement := by
  intro h
  obtain ⟨a, -⟩ := literals_read {} ⟨rfl, Nat.zero_le _⟩ sampleCookies (by unfold sampleCookies; decide +kernel)
  have a : Reads ⟨[], 4096⟩ sampleBlock ⟨[], 4096⟩ sampleCookies := a
  obtain ⟨r, h1, h2⟩ := h 16384 16384 4096 (wireFrames [(1, 4, 1, sampleBlock)]) _
    [.headers 1 false sampleCookies] (by decide)
    ⟨_, rfl, by simp, Hears.headers (fs := [_]) (gs := []) (.one (by decide) (by decide) (by decide) (by decide))
      (by intro f hf; rw [List.mem_singleton] at hf; subst hf; decide +kernel) a .nil⟩
    (by
      intro id e fields hm
      simp only [List.mem_cons, Heard.headers.injEq, List.not_mem_nil, or_false] at hm
      obtain ⟨-, -, rfl⟩ := hm
      exact ⟨sampleCookies_ok, by decide +kernel⟩)
    (by simp)
  have e : readFrames 16384 (wireFrames [(1, 4, 1, sampleBlock)]).length { maxSize := 4096 }
      (wireFrames [(1, 4, 1, sampleBlock)]) =
      some (.ok [.headers { streamId := 1, flags := 4, fields := [(asciiBytes "cookie", asciiBytes "b=2")] }]) := by decide +kernel
  rw [e] at h1
  simp only [Option.some.injEq, Res.ok.injEq] at h1
  subst h1
  cases h2 with
  | cons h2 _ =>
    obtain ⟨x, h3, -, -, h4⟩ := h2
    simp only [Frame.headers.injEq] at h3
    subst h3
    have := h4.fields (asciiBytes "cookie") (by decide +kernel) (by decide +kernel)
    revert this
    decide +kernel

/-! ## C94 -/

/-- C94, the full claim: a HEADERS frame is accepted only if its header list is not malformed. -/
def C94_statement : Prop :=
  ∀ (t t' : HeaderIndex) (m id : Nat) (flags : UInt8) (block rest rest' : Bytes) (x : HeadersFrame) (T : Table) (fields : List Header),
    TableInv t → flags &&& 0xFA = 0 → block.length < 2 ^ 24 → id < 2 ^ 31 → Reads (toTable t) block T fields →
    readFrame t m (wireFrame 1 flags id block ++ rest) = some (.ok (.headers x, t', rest')) → MessageFields fields

/-- C94, partial: exactly which header lists are accepted, once decoded: those within the limit whose methods, schemes and
statuses are of the kind the code knows.  Missing: everything else that RFC 9113 calls malformed. -/
theorem C94_accepted_iff_partial (t t' : HeaderIndex) (block : Bytes) (fields : List Header) (hd : decode t block = some (.ok (fields, t')))
    (id : Nat) (flags : UInt8) (hf : flags &&& 0xFA = 0) (hl : block.length < 2 ^ 24) (hi : id < 2 ^ 31) (m : Nat) (rest : Bytes) :
    (∃ x, readFrame t m (wireFrame 1 flags id block ++ rest) = some (.ok (.headers x, t', rest))) ↔
      headerListSize fields ≤ m ∧ ∀ h ∈ fields, PseudoTaken h := by
  rw [readFrame_headers hd id flags hf hl hi]
  have := addFields_iff m fields 0 { streamId := id, flags } (Nat.zero_le _)
  rw [Nat.zero_add] at this
  rw [← this]
  constructor
  · rintro ⟨x, hx⟩
    simp only [Option.some.injEq] at hx
    obtain ⟨y, hy, -⟩ := Res.bind_eq_ok.mp hx
    exact ⟨y, hy⟩
  · rintro ⟨x, hx⟩
    rw [hx]
    exact ⟨x, rfl⟩

/-- C94, partial: and what is made of them; of several values of one name the last counts, wherever it stands. -/
theorem C94_meaning_partial (t t' t'' : HeaderIndex) (block : Bytes) (fields : List Header) (hd : decode t block = some (.ok (fields, t')))
    (id : Nat) (flags : UInt8) (hf : flags &&& 0xFA = 0) (hl : block.length < 2 ^ 24) (hi : id < 2 ^ 31) (m : Nat) (rest rest' : Bytes)
    (g : Frame) (h : readFrame t m (wireFrame 1 flags id block ++ rest) = some (.ok (g, t'', rest'))) :
    ∃ x, g = .headers x ∧ t'' = t' ∧ rest' = rest ∧ x.streamId = id ∧ x.flags = flags ∧ TakenAs fields x := by
  rw [readFrame_headers hd id flags hf hl hi] at h
  simp only [Option.some.injEq] at h
  obtain ⟨y, hy, he⟩ := Res.bind_eq_ok.mp h
  simp only [Res.ok.injEq, Prod.mk.injEq] at he
  obtain ⟨rfl, rfl, rfl⟩ := he
  obtain ⟨k1, k2, k3⟩ := addFields_takenAs hy
  exact ⟨y, rfl, rfl, rfl, k1, k2, k3⟩

/-- C94 is false: any name that is UTF-8 (capital letters, spaces, CR and LF, nothing at all) and any value are accepted,
and become a field. -/
theorem C94_violated_anything (n v : Bytes) (hn : utf8Valid n = true) (hc : n.head? ≠ some 58) (h1 : n.length < 127) (h2 : v.length < 127)
    (t : HeaderIndex) (ht : TableInv t) (id : Nat) (hi : id < 2 ^ 31) (m : Nat) (hm : 1000 ≤ m) (rest : Bytes) :
    Reads (toTable t) (literal n v) (toTable t) [(n, v)] ∧
    ∃ x t', readFrame t m (wireFrame 1 4 id (literal n v) ++ rest) = some (.ok (.headers x, t', rest)) ∧ x.fields = [(n, v)] := by
  obtain ⟨a, t', b, -, -⟩ := literals_read t ht [(n, v)] (by
    intro x hx
    rw [List.mem_singleton] at hx
    subst hx
    exact ⟨h1, h2, hn⟩)
  simp only [List.map_cons, List.map_nil, List.flatten_cons, List.flatten_nil, List.append_nil] at a b
  refine ⟨a, ?_⟩
  have hs : isSpec n = false := by unfold isSpec; simpa using hc
  have hl : (literal n v).length < 2 ^ 24 := by
    simp only [literal, List.length_append, List.length_cons, List.length_nil]; omega
  have add : HeadersFrame.addFields m 0 { streamId := id, flags := 4 } [(n, v)] =
      .ok { streamId := id, flags := 4, fields := [(n, v)] } := by
    simp only [HeadersFrame.addFields, HeadersFrame.addField, hs, Bool.false_eq_true, if_false, HeaderMap.insert]
    rw [if_neg (by omega)]
    rfl
  rw [readFrame_headers b id 4 (by decide) hl hi, add]
  exact ⟨_, t', rfl, rfl⟩

/-- C94 is false: pseudo-header fields may be repeated (the last one counts), may come after others, and those of requests
and responses may be mixed. -/
theorem C94_violated_pseudo (p q : Bytes) (h1 : p.length < 127) (h2 : q.length < 127) (t : HeaderIndex) (ht : TableInv t) (id : Nat)
    (hi : id < 2 ^ 31) (m : Nat) (hm : 1000 ≤ m) (rest : Bytes) :
    let fields : List Header := [(asciiBytes ":status", asciiBytes "200"), (asciiBytes ":path", p), (asciiBytes "a", []), (asciiBytes ":path", q)]
    let block := (fields.map fun x => literal x.1 x.2).flatten
    Reads (toTable t) block (toTable t) fields ∧ ¬ MessageFields fields ∧
    ∃ x t', readFrame t m (wireFrame 1 4 id block ++ rest) = some (.ok (.headers x, t', rest)) ∧
      x.parts.path = some (utf8Lossy q) ∧ x.parts.status.map threeDigits = some (asciiBytes "200") := by
  intro fields block
  have pp : (asciiBytes ":path").length < 127 ∧ utf8Valid (asciiBytes ":path") = true := by decide +kernel
  obtain ⟨a, t', b, -, -⟩ := literals_read t ht fields (by
    intro x hx
    simp only [fields, List.mem_cons, List.not_mem_nil, or_false] at hx
    rcases hx with rfl | rfl | rfl | rfl
    · decide +kernel
    · exact ⟨pp.1, h1, pp.2⟩
    · decide +kernel
    · exact ⟨pp.1, h2, pp.2⟩)
  have l1 : (asciiBytes ":status").length = 7 ∧ (asciiBytes "200").length = 3 ∧ (asciiBytes ":path").length = 5 ∧ (asciiBytes "a").length = 1 := by
    decide +kernel
  have hl : block.length < 2 ^ 24 := by
    simp only [block, fields, literal, List.map_cons, List.map_nil, List.flatten_cons, List.flatten_nil, List.length_append, List.length_cons,
      List.length_nil, l1]
    omega
  refine ⟨a, ?_, ?_⟩
  · intro hok
    have := hok.once (asciiBytes ":path") (by decide +kernel)
    have e : allFields fields (asciiBytes ":path") = [p, q] := by
      have d1 : (asciiBytes ":status" == asciiBytes ":path") = false := by decide +kernel
      have d2 : (asciiBytes "a" == asciiBytes ":path") = false := by decide +kernel
      simp [allFields, fields, d1, d2]
    rw [e] at this
    simp at this
  · have hsz : headerListSize fields ≤ m := by
      simp only [headerListSize, fields, List.map_cons, List.map_nil, List.sum_cons, List.sum_nil, l1, List.length_nil]
      omega
    have htk : ∀ h ∈ fields, PseudoTaken h := by
      intro x hx
      have d := pseudo_distinct
      simp only [fields, List.mem_cons, List.not_mem_nil, or_false] at hx
      rcases hx with rfl | rfl | rfl | rfl
      · exact ⟨fun e => absurd e.symm d.2.2.2.1, fun e => absurd e.symm d.2.2.2.2.2.2.2.2.1, fun _ => ⟨200, by decide, by decide, by decide +kernel⟩⟩
      · exact ⟨fun e => absurd e.symm d.2.2.1, fun e => absurd e.symm d.2.2.2.2.2.2.2.1, fun e => absurd e d.2.2.2.2.2.2.2.2.2⟩
      · exact ⟨fun e => absurd e (by decide +kernel), fun e => absurd e (by decide +kernel), fun e => absurd e (by decide +kernel)⟩
      · exact ⟨fun e => absurd e.symm d.2.2.1, fun e => absurd e.symm d.2.2.2.2.2.2.2.1, fun e => absurd e d.2.2.2.2.2.2.2.2.2⟩
    obtain ⟨x, hx⟩ := (C94_accepted_iff_partial t t' block fields b id 4 (by decide) hl hi m rest).mpr ⟨hsz, htk⟩
    obtain ⟨y, hy, -, -, -, -, htaken⟩ := C94_meaning_partial t t' t' block fields b id 4 (by decide) hl hi m rest rest _ hx
    simp only [Frame.headers.injEq] at hy
    subst hy
    refine ⟨x, t', hx, ?_, ?_⟩
    · rw [(textIs_iff _ _).mp htaken.path]
      have : lastField fields (asciiBytes ":path") = some q := by
        simp [fields, lastField]
      rw [this]; rfl
    · have := htaken.status
      have e : lastField fields (asciiBytes ":status") = some (threeDigits 200) := by
        have d1 : asciiBytes ":path" ≠ asciiBytes ":status" := by decide +kernel
        have d2 : asciiBytes "a" ≠ asciiBytes ":status" := by decide +kernel
        have d3 : asciiBytes "200" = threeDigits 200 := by decide +kernel
        simp [fields, lastField, d1, d2, d3]
      rw [this, e]
      decide +kernel

/-- C94 is false. -/
theorem C94_violated : ¬ C94_statement := by
  intro h
  obtain ⟨a, x, t', b, -⟩ := C94_violated_anything (asciiBytes "X Y") [13, 10] (by decide +kernel) (by decide +kernel) (by decide +kernel)
    (by decide) {} ⟨rfl, Nat.zero_le _⟩ 1 (by decide) 1000 (by decide) []
  have := (h {} _ _ _ _ _ _ _ _ _ _ ⟨rfl, Nat.zero_le _⟩ (by decide) (by decide +kernel) (by decide) a b).values _ (List.mem_singleton.mpr rfl)
  revert this
  decide +kernel

/-! ## C95 -/

/-- C95, the full claim: the fields of a message received over HTTP/2 and written as HTTP/1 text are read back as those
fields, nothing more and nothing less. -/
def C95_statement : Prop :=
  ∀ (t t' : HeaderIndex) (m id : Nat) (flags : UInt8) (block rest rest' : Bytes) (x : HeadersFrame) (m0 : HeaderMap) (body : Bytes),
    TableInv t → flags &&& 0xFA = 0 → block.length < 2 ^ 24 → id < 2 ^ 31 →
    readFrame t m (wireFrame 1 flags id block ++ rest) = some (.ok (.headers x, t', rest')) →
    parseHeader m0 (x.fields.encode ++ body) = (.ok (), x.fields, body)

/-- C95, partial: exactly when they are read back: if all names are tokens, and no value has a CR or begins with a
space. -/
theorem C95_iff_partial (t t' t'' : HeaderIndex) (m id : Nat) (flags : UInt8) (block rest rest' : Bytes) (fields : List Header)
    (x : HeadersFrame) (m0 : HeaderMap) (body : Bytes) (hd : decode t block = some (.ok (fields, t''))) (hf : flags &&& 0xFA = 0)
    (hl : block.length < 2 ^ 24) (hi : id < 2 ^ 31)
    (h : readFrame t m (wireFrame 1 flags id block ++ rest) = some (.ok (.headers x, t', rest'))) :
    parseHeader m0 (x.fields.encode ++ body) = (.ok (), x.fields, body) ↔ ∀ e ∈ x.fields, CleanHeader e := by
  rw [readFrame_headers hd id flags hf hl hi] at h
  simp only [Option.some.injEq] at h
  obtain ⟨y, hy, he⟩ := Res.bind_eq_ok.mp h
  simp only [Res.ok.injEq, Prod.mk.injEq, Frame.headers.injEq] at he
  obtain ⟨rfl, -⟩ := he
  obtain ⟨⟨ops, ho⟩, -⟩ := addFields_origin _ _ _ _ _ hy
  have : y.fields = runOps ops := ho
  rw [this]
  exact C37_roundtrip_iff ops m0 body

/-- C95, partial: a message that is not malformed passes.  Missing: malformed ones, see C94. -/
theorem C95_wellformed_partial (t t' t'' : HeaderIndex) (m id : Nat) (flags : UInt8) (block rest rest' : Bytes) (fields : List Header)
    (x : HeadersFrame) (m0 : HeaderMap) (body : Bytes) (hd : decode t block = some (.ok (fields, t''))) (hf : flags &&& 0xFA = 0)
    (hl : block.length < 2 ^ 24) (hi : id < 2 ^ 31) (hok : MessageFields fields)
    (h : readFrame t m (wireFrame 1 flags id block ++ rest) = some (.ok (.headers x, t', rest'))) :
    parseHeader m0 (x.fields.encode ++ body) = (.ok (), x.fields, body) := by
  rw [C95_iff_partial t t' t'' m id flags block rest rest' fields x m0 body hd hf hl hi h]
  rw [readFrame_headers hd id flags hf hl hi] at h
  simp only [Option.some.injEq] at h
  obtain ⟨y, hy, he⟩ := Res.bind_eq_ok.mp h
  simp only [Res.ok.injEq, Prod.mk.injEq, Frame.headers.injEq] at he
  obtain ⟨rfl, -⟩ := he
  obtain ⟨-, horg⟩ := addFields_origin _ _ _ _ _ hy
  intro e hm
  obtain ⟨k1, k2⟩ := horg e hm
  obtain ⟨a, ha, hap, hae⟩ : ∃ h ∈ fields, h.1 ∉ pseudoNames ∧ h.1 = e.1 := by
    rcases k1 with k | ⟨e', he', -⟩
    · exact k
    · simp at he'
  obtain ⟨b, hb, hbe⟩ : ∃ h ∈ fields, h.2 = e.2 := by
    rcases k2 with k | ⟨e', he', -⟩
    · exact k
    · simp at he'
  have hc : a.1.head? ≠ some 58 := by
    intro hc
    refine hap ?_
    rcases hok.known with k | k
    · have := k a ha hc
      simp only [requestNames, List.mem_cons, List.not_mem_nil, or_false] at this
      simp only [pseudoNames, List.mem_cons, List.not_mem_nil, or_false]
      rcases this with e | e | e | e <;> simp [e]
    · simp [pseudoNames, k a ha hc]
  obtain ⟨⟨n1, n2⟩, -⟩ := hok.names a ha hc
  have v := hok.values b hb
  rw [hae] at n1 n2
  rw [hbe] at v
  refine ⟨n1, n2, ?_, ?_⟩
  · intro h13
    rcases v.1 13 h13 with h | h
    · unfold IsFieldVchar at h; exact absurd h (by decide)
    · unfold IsBlank at h; exact absurd h (by decide)
  · intro h32
    exact v.2.1 32 h32 (.inl rfl)

/-- C95 is false: over HTTP/2 one field may carry any other behind it, which appears when the message is written as
HTTP/1 text. -/
theorem C95_violated_injection (n v n' v' : Bytes) (h1 : CleanHeader (n, v)) (h2 : CleanHeader (n', v')) (hne : nameEq n n' = false)
    (hl : n.length < 127) (hl' : v.length + n'.length + v'.length < 120) (hc : n.head? ≠ some 58) (t : HeaderIndex) (ht : TableInv t)
    (id : Nat) (hi : id < 2 ^ 31) (m : Nat) (hm : 1000 ≤ m) (rest body : Bytes) (m0 : HeaderMap) :
    ∃ x t', readFrame t m (wireFrame 1 4 id (literal n (v ++ [13, 10] ++ n' ++ [58, 32] ++ v')) ++ rest) = some (.ok (.headers x, t', rest)) ∧
      x.fields = [(n, v ++ [13, 10] ++ n' ++ [58, 32] ++ v')] ∧
      parseHeader m0 (x.fields.encode ++ body) = (.ok (), [(n, v), (n', v')], body) := by
  have hn : utf8Valid n = true := utf8Valid_ascii n fun b hb => by
    have key : ∀ b : UInt8, isTchar b = true → b < 0x80 := by decide +kernel
    exact key b (h1.name b hb)
  obtain ⟨-, x, t', a, b⟩ := C94_violated_anything n (v ++ [13, 10] ++ n' ++ [58, 32] ++ v') hn hc hl
    (by simp only [List.length_append, List.length_cons, List.length_nil]; omega) t ht id hi m hm rest
  refine ⟨x, t', a, b, ?_⟩
  have e : HeaderMap.encode x.fields = HeaderMap.encode [(n, v), (n', v')] := by
    rw [b]; simp [HeaderMap.encode]
  have clean : ∀ e ∈ ([(n, v), (n', v')] : HeaderMap), CleanHeader e := by
    intro e he
    simp only [List.mem_cons, List.not_mem_nil, or_false] at he
    rcases he with rfl | rfl
    · exact h1
    · exact h2
  rw [e, parseHeader_encode _ (by simp [Distinct, hne]) (fun e he => ⟨(clean e he).name_ne, (clean e he).name, (clean e he).value⟩),
    trimValues_clean clean]

/-- C95 is false. -/
theorem C95_violated : ¬ C95_statement := by
  intro h
  have c : ∀ n v : String, ((asciiBytes n ≠ [] ∧ (∀ b ∈ asciiBytes n, isTchar b = true)) ∧ (13 : UInt8) ∉ asciiBytes v ∧ (asciiBytes v).head? ≠ some 32) →
      CleanHeader (asciiBytes n, asciiBytes v) := fun n v k => ⟨k.1.1, k.1.2, k.2.1, k.2.2⟩
  obtain ⟨x, t', a, b, e⟩ := C95_violated_injection (asciiBytes "a") (asciiBytes "1") (asciiBytes "x-admin") (asciiBytes "yes")
    (c _ _ (by decide +kernel)) (c _ _ (by decide +kernel)) (by decide +kernel) (by decide +kernel) (by decide +kernel) (by decide +kernel) {}
    ⟨rfl, Nat.zero_le _⟩ 1 (by decide) 1000 (by decide) [] [] []
  have := h {} _ _ _ _ _ _ _ _ [] [] ⟨rfl, Nat.zero_le _⟩ (by decide) (by decide +kernel) (by decide) a
  rw [e, b] at this
  revert this
  decide +kernel

/-! ### A conversation that meets the hypotheses -/

/-- A request. -/
def sampleGet : List Header :=
  [(asciiBytes ":method", asciiBytes "GET"), (asciiBytes ":scheme", asciiBytes "https"), (asciiBytes ":path", asciiBytes "/"),
    (asciiBytes "accept", asciiBytes "*/*")]

/-- Its header block. -/
def sampleGetBlock : Bytes := (sampleGet.map fun x => literal x.1 x.2).flatten

theorem all_count {fields : List Header} (h : ∀ x ∈ fields, (allFields fields x.1).length ≤ 1) (n : Bytes) :
    (allFields fields n).length ≤ 1 := by
  by_cases e : ∃ x ∈ fields, x.1 = n
  · obtain ⟨x, hx, rfl⟩ := e
    exact h x hx
  · have : allFields fields n = [] := by
      unfold allFields
      rw [List.map_eq_nil_iff, List.filter_eq_nil_iff]
      intro x hx k
      exact e ⟨x, hx, by simpa using k⟩
    simp [this]

theorem sampleGet_ok : MessageFields sampleGet where
  first := by
    refine ⟨sampleGet.take 3, sampleGet.drop 3, rfl, ?_, ?_⟩ <;> decide +kernel
  known := .inl (by decide +kernel)
  once := fun n _ => all_count (by decide +kernel) n
  names := by decide +kernel
  values := by decide +kernel
  method := by
    have : ∀ h ∈ sampleGet, h.1 = asciiBytes ":method" → IsFieldName h.2 := by decide +kernel
    exact fun v hv => this _ hv rfl
  uri := by unfold IsVisible; decide +kernel
  status := by
    have : ∀ h ∈ sampleGet, h.1 ≠ asciiBytes ":status" := by decide +kernel
    exact fun v hv => absurd rfl (this _ hv)

theorem sampleGet_plain : PlainMessage sampleGet where
  once := all_count (by decide +kernel)
  quiet := by decide +kernel
  method := by
    have : ∀ h ∈ sampleGet, h.1 = asciiBytes ":method" → h.2 ∈ knownMethods := by decide +kernel
    exact fun v hv => this _ hv rfl
  scheme := by
    have : ∀ h ∈ sampleGet, h.1 = asciiBytes ":scheme" → h.2.length ≤ 64 := by decide +kernel
    exact fun v hv => this _ hv rfl

theorem sampleGet_taken : ∀ h ∈ sampleGet, PseudoTaken h := by
  have a : ∀ h ∈ sampleGet, (h.1 = asciiBytes ":method" → h.2 ∈ knownMethods) ∧ (h.1 = asciiBytes ":scheme" → (utf8Lossy h.2).length ≤ 64) ∧
      h.1 ≠ asciiBytes ":status" := by decide +kernel
  exact fun h hh => ⟨(a h hh).1, fun e => ⟨_, (textOf_iff _ _).mpr rfl, (a h hh).2.1 e⟩, fun e => absurd e (a h hh).2.2⟩

/-- The request, after a SETTINGS frame without settings. -/
theorem sampleGet_heard : HearsPlain 16384 16384 ⟨[], 4096⟩ [(4, 0, 0, []), (1, 5, 1, sampleGetBlock)] ⟨[], 4096⟩
    [.frame (.settings {}), .headers 1 true sampleGet] := by
  have hb : IsBlock shortInteger (sampleGet.map fun x => .literal .without (.text x.1) x.2) sampleGetBlock :=
    .cons (literal_rep _ _ (by decide +kernel) (by decide +kernel)) (.cons (literal_rep _ _ (by decide +kernel) (by decide +kernel))
      (.cons (literal_rep _ _ (by decide +kernel) (by decide +kernel)) (.cons (literal_rep _ _ (by decide +kernel) (by decide +kernel)) .nil)))
  have hm : Means ⟨[], 4096⟩ (sampleGet.map fun x => .literal .without (.text x.1) x.2) ⟨[], 4096⟩ sampleGet :=
    .cons (hs := [_]) (.without rfl) (.cons (hs := [_]) (.without rfl) (.cons (hs := [_]) (.without rfl) (.cons (hs := [_]) (.without rfl) .nil)))
  refine .frame (by unfold BlocklessKind; decide) (by decide) (by decide) ?_
    (.headers (by decide) (by decide) (by decide) (by decide +kernel) hb ?_ hm sampleGet_ok sampleGet_taken (by decide +kernel) .nil)
  · exact .settings 0 [] (by decide) (by decide) (by intro e he; simp [settingEntries] at he)
  · intro r hr
    obtain ⟨x, hx, rfl⟩ := List.mem_map.mp hr
    have : ∀ x ∈ sampleGet, utf8Valid x.1 = true := by decide +kernel
    exact this x hx

example : ∃ received, readFrames 16384 (wireFrames [(4, 0, 0, []), (1, 5, 1, sampleGetBlock)]).length { maxSize := 4096 }
      (wireFrames [(4, 0, 0, []), (1, 5, 1, sampleGetBlock)]) = some (.ok received) ∧
    Zip HeardBy [.frame (.settings {}), .headers 1 true sampleGet] received :=
  C93_understood_partial 16384 16384 4096 (by decide) _ _ _ (by decide +kernel) sampleGet_heard (by
    intro id e fields hm
    simp only [List.mem_cons, Heard.headers.injEq, List.not_mem_nil, or_false, reduceCtorEq, false_or] at hm
    obtain ⟨-, -, rfl⟩ := hm
    exact sampleGet_plain)

/-- A repeated field. -/
example : ∃ x t', readFrame {} 1000 (wireFrame 1 4 1 (literal (asciiBytes "accept") (asciiBytes "a") ++ literal (asciiBytes "accept") (asciiBytes "b")) ++ []) =
    some (.ok (.headers x, t', [])) ∧ x.fields = [(asciiBytes "accept", asciiBytes "b")] :=
  (C93_violated_repeated (asciiBytes "accept") (asciiBytes "a") (asciiBytes "b") (by unfold IsPlainName; decide +kernel) (by decide +kernel) (by decide +kernel)
    (by decide +kernel) (by decide +kernel) {} ⟨rfl, Nat.zero_le _⟩ 1 (by decide) 1000 (by decide) []).2.2

/-- A CONTINUATION frame. -/
example : readFrames 16384 100 {} (wireFrames [(1, 0, 1, []), (9, 4, 1, [])]) ≠ some (.ok []) :=
  C93_violated_continuation _ (by decide) (by decide) (by decide) _ _ _ _

/-- A request is accepted, and forwarded as it is. -/
example (m0 : HeaderMap) (body : Bytes) : ∃ x t', readFrame {} 16384 (wireFrame 1 5 1 sampleGetBlock ++ []) = some (.ok (.headers x, t', [])) ∧
    parseHeader m0 (x.fields.encode ++ body) = (.ok (), x.fields, body) := by
  obtain ⟨-, t', a, -, -⟩ := literals_read {} ⟨rfl, Nat.zero_le _⟩ sampleGet (by decide +kernel)
  have a : decode {} sampleGetBlock = some (.ok (sampleGet, t')) := a
  obtain ⟨x, hx⟩ := (C94_accepted_iff_partial {} t' _ _ a 1 5 (by decide) (by decide +kernel) (by decide) 16384 []).mpr ⟨by decide +kernel, sampleGet_taken⟩
  exact ⟨x, t', hx, C95_wellformed_partial {} t' t' 16384 1 5 _ [] [] sampleGet x m0 body a (by decide) (by decide +kernel) (by decide) sampleGet_ok hx⟩

end Webparse
