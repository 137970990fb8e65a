import Verif.Spec.TableResize
import Verif.Props.NeverIndexed

/-!
# C121: changing the size of the compression table does not disturb the connection
-/

namespace Webparse
open Spec Spec.Rfc

/-- C121: whatever header lists are sent and however the size of the table is changed in between, an RFC 7541 decoder gets the lists. -/
def C121_statement : Prop :=
  ∀ (S : Bytes → Prop), SafeNames S → ∀ (limit : Nat) (es : List TableEvent), NamesFrom S es →
    ∃ blocks t T, runEvents { maxSize := limit } es = .ok (blocks, t) ∧ ReadsBlocks ⟨[], limit⟩ blocks T (listsSent es)

/-- C121, the announcement: after the table has been made smaller, the next block begins with a size update (RFC 7541 4.2). -/
def C121_announced_statement : Prop :=
  ∀ (limit n : Nat) (hs : List Header) (blocks : List Bytes) (t : HeaderIndex), n < limit →
    runEvents { maxSize := limit } [.resize n, .send hs] = .ok (blocks, t) →
    ∃ reps b, blocks = [b] ∧ IsBlock anyLength (.sizeUpdate n :: reps) b

/-! ## A peer with a wider table -/

theorem entry_wider {e x : List Header} {l L i : Nat} {h : Header} (he : entry ⟨e, l⟩ i = some h) : entry ⟨e ++ x, L⟩ i = some h := by
  unfold entry at he ⊢
  split at he
  · simp at he
  · rename_i h0
    rw [if_neg h0]
    split at he
    · rename_i h1
      rw [if_pos h1]
      exact he
    · rename_i h1
      rw [if_neg h1]
      simp only at he ⊢
      have := (List.getElem?_eq_some_iff.mp he).1
      rw [List.getElem?_append_left this]
      exact he

theorem name_wider {e x : List Header} {l L : Nat} {name : RepName} {n : Bytes} (he : nameMeans ⟨e, l⟩ name = some n) :
    nameMeans ⟨e ++ x, L⟩ name = some n := by
  cases name with
  | text s => exact he
  | index i =>
    obtain ⟨h, h1, h2⟩ := Option.map_eq_some_iff.mp (show (entry ⟨e, l⟩ i).map (·.1) = some n from he)
    show (entry ⟨e ++ x, L⟩ i).map (·.1) = some n
    rw [entry_wider h1]
    simp [h2]

theorem eviction_exists (l : List Header) (limit : Nat) : ∃ kept, IsEviction l kept limit := by
  obtain ⟨kept, -, h⟩ := consolidate_spec l _ limit rfl
  exact ⟨kept, h⟩

/-- Of a longer list a greater limit leaves more. -/
theorem eviction_wider {e x k : List Header} {l L : Nat} (h : IsEviction e k l) (hl : l ≤ L) : ∃ y, IsEviction (e ++ x) (k ++ y) L := by
  obtain ⟨k2, h2⟩ := eviction_exists (e ++ x) L
  have h2' := h2
  obtain ⟨n, hn, rfl, n1, -⟩ := h
  obtain ⟨m, hm, hk, -, m2⟩ := h2'
  have hnm : n ≤ m := by
    rcases Nat.lt_or_ge m n with hlt | hge
    · have := m2 n hlt (by simp; omega)
      rw [List.take_append_of_le_length hn] at this
      omega
    · exact hge
  have : k2 = e.take n ++ ((e ++ x).take m).drop n := by
    rw [hk]
    conv => lhs; rw [← List.take_append_drop n (List.take m (e ++ x))]
    rw [List.take_take, Nat.min_eq_left hnm, List.take_append_of_le_length hn]
  exact ⟨_, this ▸ h2⟩

theorem means_wider {t T : Table} {reps : List Rep} {hs : List Header} (hm : Means t reps T hs) :
    (∀ r ∈ reps, ∀ n, r ≠ .sizeUpdate n) → T.limit = t.limit ∧ ∀ (L : Nat) (x : List Header), t.limit ≤ L →
      ∃ y, Means ⟨t.entries ++ x, L⟩ reps ⟨T.entries ++ y, L⟩ hs := by
  induction hm with
  | nil => exact fun _ => ⟨rfl, fun L x _ => ⟨x, .nil⟩⟩
  | @cons t r t' hs rs t'' hs' h1 h2 ih =>
    intro hn
    obtain ⟨i1, i2⟩ := ih fun r hr => hn r (List.mem_cons_of_mem _ hr)
    have step : t'.limit = t.limit ∧ ∀ (L : Nat) (x : List Header), t.limit ≤ L →
        ∃ y, RepMeans ⟨t.entries ++ x, L⟩ r ⟨t'.entries ++ y, L⟩ hs := by
      cases h1 with
      | indexed h => exact ⟨rfl, fun L x _ => ⟨x, .indexed (entry_wider h)⟩⟩
      | without h => exact ⟨rfl, fun L x _ => ⟨x, .without (name_wider h)⟩⟩
      | never h => exact ⟨rfl, fun L x _ => ⟨x, .never (name_wider h)⟩⟩
      | sizeUpdate h => exact absurd rfl (hn _ List.mem_cons_self _)
      | @incremental name n v kept h k =>
        refine ⟨rfl, fun L x hL => ?_⟩
        obtain ⟨y, hy⟩ := eviction_wider (x := x) k hL
        exact ⟨y, .incremental (name_wider h) hy⟩
    refine ⟨i1.trans step.1, fun L x hL => ?_⟩
    obtain ⟨y, hy⟩ := step.2 L x hL
    obtain ⟨z, hz⟩ := i2 L y (by rw [step.1]; exact hL)
    exact ⟨z, .cons hy hz⟩

theorem single_means {t T : Table} {r : Rep} {hs : List Header} (h : Means t [r] T hs) : RepMeans t r T hs := by
  generalize hr : [r] = rs at h
  cases h with
  | nil => simp at hr
  | cons h1 h2 =>
    simp only [List.cons.injEq] at hr
    obtain ⟨rfl, rfl⟩ := hr
    cases h2
    rwa [List.append_nil]

theorem encodeHeaders_ok (hs : List Header) : ∀ (t : HeaderIndex), TableInv t → ∃ bs t', encodeHeaders t hs = .ok (bs, t') := by
  induction hs with
  | nil => intro t _; exact ⟨[], t, rfl⟩
  | cons h hs ih =>
    intro t ht
    have one : ∃ b t1, encodeHeader t h = .ok (b, t1) ∧ TableInv t1 := by
      obtain ⟨t', ha, hi, -⟩ := addHeader_spec t h ht.1
      unfold encodeHeader
      split
      · exact ⟨_, t', by rw [ha]; rfl, hi⟩
      · exact ⟨_, t', by rw [ha]; rfl, hi⟩
      · exact ⟨_, t, rfl, ht⟩
    obtain ⟨b, t1, h1, h2⟩ := one
    obtain ⟨bs, t2, h3⟩ := ih t1 h2
    exact ⟨b ++ bs, t2, by simp only [encodeHeaders, h1, Res.bind_ok, h3]⟩

theorem events_heard {S : Bytes → Prop} (hS : SafeNames S) (L : Nat) (es : List TableEvent) :
    ∀ (t : HeaderIndex) (x : List Header), TableInv t → (∀ e ∈ t.table, S e.1) → t.maxSize ≤ L → NamesFrom S es →
      (∀ n, .resize n ∈ es → n ≤ L) →
      ∃ blocks t' T, runEvents t es = .ok (blocks, t') ∧ ReadsBlocks ⟨(peerTable t).entries ++ x, L⟩ blocks T (listsSent es) := by
  have hc : NamesClear S := fun a b ha hb hn => nameEq_unambiguous (hS.2 a b ha hb hn)
  induction es with
  | nil => intro t x _ _ _ _ _; exact ⟨[], t, _, rfl, .nil⟩
  | cons e es ih =>
    intro t x ht hn hl hnames hlim
    cases e with
    | send hs =>
      obtain ⟨b, t1, h1⟩ := encodeHeaders_ok hs t ht
      have hns : ∀ h ∈ hs, S h.1 := hnames hs List.mem_cons_self
      obtain ⟨⟨reps, r1, r2⟩, r3, r4⟩ := encodeHeaders_rfc S hc hs ht hn (fun h hh => ⟨hns h hh, hS.1 _ (hns h hh)⟩) h1
      obtain ⟨w1, w2⟩ := means_wider r2 (by
        intro r hr n hr'
        rcases C120_literals_are_indexed hs t t1 b reps h1 r1 r hr with ⟨i, hi⟩ | ⟨nm, h, -, hi⟩
        · rw [hr'] at hi; simp at hi
        · rw [hr'] at hi; simp at hi)
      obtain ⟨y, hy⟩ := w2 L x hl
      obtain ⟨bs, t2, T, e1, e2⟩ := ih t1 y r3 r4 (by
          have : t1.maxSize = t.maxSize := w1
          omega) (fun hs hm => hnames hs (List.mem_cons_of_mem _ hm)) (fun n hm => hlim n (List.mem_cons_of_mem _ hm))
      exact ⟨b :: bs, t2, T, by simp only [runEvents, h1, Res.bind_ok, e1], .cons ⟨reps, r1, hy⟩ e2⟩
    | resize n =>
      obtain ⟨t1, h1, h2, h3, k, -, hk, -, -⟩ := setMax_spec t n ht.1
      obtain ⟨bs, t2, T, e1, e2⟩ := ih t1 ((t.table.drop k).map lowerHeader ++ x) h2 (by
          intro e he
          rw [hk] at he
          exact hn e (List.mem_of_mem_take he)) (by rw [h3]; exact hlim n List.mem_cons_self)
        (fun hs hm => hnames hs (List.mem_cons_of_mem _ hm)) (fun n hm => hlim n (List.mem_cons_of_mem _ hm))
      refine ⟨bs, t2, T, by simp only [runEvents, h1, Res.bind_ok, e1], ?_⟩
      have : (peerTable t1).entries ++ ((t.table.drop k).map lowerHeader ++ x) = (peerTable t).entries ++ x := by
        simp only [peerTable]
        rw [hk, ← List.append_assoc, ← List.map_append, List.take_append_drop]
      rw [this] at e2
      exact e2

/-- C121, partial: as long as the table is never made larger than it was at first, all lists are heard, for all histories, although nothing is
announced: what this side still has, the peer has at the same place. -/
theorem C121_heard_partial (S : Bytes → Prop) (hS : SafeNames S) (limit : Nat) (es : List TableEvent) (hn : NamesFrom S es)
    (hl : ∀ n, .resize n ∈ es → n ≤ limit) :
    ∃ blocks t T, runEvents { maxSize := limit } es = .ok (blocks, t) ∧ ReadsBlocks ⟨[], limit⟩ blocks T (listsSent es) :=
  events_heard hS limit es { maxSize := limit } [] ⟨rfl, by simp⟩ (by simp) (Nat.le_refl _) hn hl

/-! ## A table that is made larger -/

/-- A field whose entry just does not fit in a table of this size, at least 32. -/
def wideField (limit : Nat) : Header := (asciiBytes "x", List.replicate (limit - 32) 97)

theorem wideField_size (limit : Nat) (h : 32 ≤ limit) : tableSize [wideField limit] = limit + 1 := by
  have : (asciiBytes "x").length = 1 := by decide +kernel
  simp [tableSize, wideField, this]
  omega

theorem x_not_static : staticHash (asciiBytes "x") = [] := by decide +kernel

theorem wide_lost (limit n : Nat) (h32 : 32 ≤ limit) (hn : limit < n) : ¬ ∃ blocks t T,
    runEvents { maxSize := limit } [.resize n, .send [wideField limit], .send [wideField limit]] = .ok (blocks, t) ∧
      ReadsBlocks ⟨[], limit⟩ blocks T (listsSent [.resize n, .send [wideField limit], .send [wideField limit]]) := by
  rintro ⟨blocks, t, T, hr, hb⟩
  generalize hw : wideField limit = w at hr hb
  have hsize : tableSize [w] = limit + 1 := by rw [← hw]; exact wideField_size limit h32
  have hst : staticHash w.1 = [] := by rw [← hw]; exact x_not_static
  have h1 : setMaxTableSize { maxSize := limit } n = .ok { maxSize := n } := by
    obtain ⟨kept, hk, he⟩ := consolidate_spec [] 0 n rfl
    obtain ⟨k, hk', rfl, -⟩ := he
    have : setMaxTableSize { maxSize := limit } n = consolidate { table := [], size := 0, maxSize := n } := rfl
    rw [this, hk]
    simp [tableSize]
  have h2 : addHeader { maxSize := n } w = .ok ⟨[w], limit + 1, n⟩ := by
    obtain ⟨t', ha, hi, hm, k, hk, hkept, -, hmax⟩ := addHeader_spec { maxSize := n } w rfl
    have : k = 1 := by
      rcases Nat.lt_or_ge k 1 with hlt | hge
      · have := hmax 1 hlt (by simp)
        simp only [List.take_succ_cons, List.take_zero] at this
        omega
      · simp only [List.length_cons, List.length_nil] at hk
        omega
    subst this
    have hs := hi.1
    obtain ⟨tb, sz, mx⟩ := t'
    simp only at hkept hm
    subst hkept hm
    unfold SizeOk at hs
    simp only [List.take_succ_cons, List.take_zero] at hs
    rw [hsize] at hs
    rw [ha, hs]
    rfl
  have h3 : findHeader { maxSize := n } w = none := by
    unfold findHeader
    simp only [hst]
    rfl
  have h4 : findHeader ⟨[w], limit + 1, n⟩ w = some (62, true) := by
    unfold findHeader
    simp only [hst]
    have : nameEq w.1 w.1 = true := nameEq_refl _
    simp [List.findIdx?_cons, this, staticTable_length]
  have e1 : encodeHeader { maxSize := n } w = .ok (encodeLiteral w true, ⟨[w], limit + 1, n⟩) := by
    unfold encodeHeader
    rw [h3]
    simp only [h2, Res.bind_ok]
  have e2 : encodeHeader ⟨[w], limit + 1, n⟩ w = .ok (encodeIndexed 62, ⟨[w], limit + 1, n⟩) := by
    unfold encodeHeader
    rw [h4]
  simp only [runEvents, h1, Res.bind_ok, encodeHeaders, e1, e2, List.append_nil, Res.ok.injEq, Prod.mk.injEq] at hr
  obtain ⟨rfl, rfl⟩ := hr
  cases hb with
  | cons r1 hb =>
    cases hb with
    | cons r2 hb =>
      obtain ⟨p1, b1, m1⟩ := r1
      obtain ⟨p2, b2, m2⟩ := r2
      have q1 : IsBlock anyLength [.literal .incremental (.text (lower w.1)) w.2] (encodeLiteral w true) := by
        have := IsBlock.cons (ok := anyLength) (r := .literal .incremental (.text (lower w.1)) w.2) (bs := encodeLiteral w true) (cs := []) (rs := [])
          ⟨[0x40], encodeStringLiteralLower w.1, encodeStringLiteral w.2, by simp [encodeLiteral], ⟨trivial, by decide, by decide⟩,
            by rw [encodeStringLiteralLower_eq]; exact encode_string _, encode_string _⟩ .nil
        rwa [List.append_nil] at this
      have q2 : IsBlock anyLength [.indexed 62] (encodeIndexed 62) := by
        have := IsBlock.cons (ok := anyLength) (r := .indexed 62) (bs := encodeIndexed 62) (cs := []) (rs := [])
          (encode_integer _ _ (by decide) (by decide) _ _ (by decide)) .nil
        rwa [List.append_nil] at this
      rw [block_unique b1 q1] at m1
      rw [block_unique b2 q2] at m2
      have s1 := single_means m1
      have s2 := single_means m2
      generalize [w].map lowerHeader = l1 at s1
      generalize [w].map lowerHeader = l2 at s2
      cases s1 with
        | @incremental _ nm _ kept hnm hk =>
            cases s2 with
            | indexed hx =>
              obtain ⟨k, hk1, rfl, hk3, -⟩ := hk
              simp only [nameMeans, Option.some.injEq] at hnm
              subst hnm
              have hk0 : k = 0 := by
                rcases Nat.eq_zero_or_pos k with h0 | hpos
                · exact h0
                · have : k = 1 := by
                    simp only [List.length_cons, List.length_nil] at hk1
                    omega
                  subst this
                  simp only [List.take_succ_cons, List.take_zero] at hk3
                  have hlow := tableSize_lower [w]
                  simp only [List.map_cons, List.map_nil, lowerHeader] at hlow
                  omega
              subst hk0
              simp [entry] at hx

/-- C121 is false of every table that is made larger: some field that fits now does not fit in the peer's table, is sent as an index the second
time, and is not heard. -/
theorem C121_violated_larger (limit n : Nat) (h32 : 32 ≤ limit) (hn : limit < n) : ∃ h : Header, h.1 = asciiBytes "x" ∧ ¬ ∃ blocks t T,
    runEvents { maxSize := limit } [.resize n, .send [h], .send [h]] = .ok (blocks, t) ∧
      ReadsBlocks ⟨[], limit⟩ blocks T (listsSent [.resize n, .send [h], .send [h]]) :=
  ⟨wideField limit, rfl, wide_lost limit n h32 hn⟩

theorem only_x_safe : SafeNames fun a => a = asciiBytes "x" := by
  refine ⟨?_, ?_⟩
  · rintro a rfl
    decide +kernel
  · rintro a b rfl rfl _ _ _
    rfl

theorem C121_violated : ¬ C121_statement := by
  intro h
  obtain ⟨w, hw, hx⟩ := C121_violated_larger 4096 8192 (by decide) (by decide)
  refine hx (h _ only_x_safe 4096 _ ?_)
  intro hs hm h hh
  simp only [List.mem_cons, reduceCtorEq, TableEvent.send.injEq, List.not_mem_nil, or_false, false_or, or_self] at hm
  subst hm
  rw [List.mem_singleton.mp hh]
  exact hw

/-- C121, partial and exact: for a table of at least 32 octets and sizes from any set, all lists are heard whatever happens if and only if the
set has no size above the first one. -/
theorem C121_iff_partial (S : Bytes → Prop) (hS : SafeNames S) (hx : S (asciiBytes "x")) (limit : Nat) (h32 : 32 ≤ limit) (P : Nat → Prop) :
    (∀ es, NamesFrom S es → (∀ n, .resize n ∈ es → P n) →
      ∃ blocks t T, runEvents { maxSize := limit } es = .ok (blocks, t) ∧ ReadsBlocks ⟨[], limit⟩ blocks T (listsSent es)) ↔
    ∀ n, P n → n ≤ limit := by
  constructor
  · intro h n hp
    rcases Nat.lt_or_ge limit n with hlt | hge
    · obtain ⟨w, hw, hx'⟩ := C121_violated_larger limit n h32 hlt
      refine absurd (h [.resize n, .send [w], .send [w]] ?_ ?_) hx'
      · intro hs hm h hh
        simp only [List.mem_cons, reduceCtorEq, TableEvent.send.injEq, List.not_mem_nil, or_false, false_or, or_self] at hm
        subst hm
        rw [List.mem_singleton.mp hh, hw]
        exact hx
      · intro m hm
        simp only [List.mem_cons, reduceCtorEq, TableEvent.resize.injEq, List.not_mem_nil, or_false] at hm
        rw [hm]
        exact hp
    · exact hge
  · intro h es hn hr
    exact C121_heard_partial S hS limit es hn fun n hm => h n (hr n hm)

/-- C121: nothing is ever announced: no block that the encoder writes has a size update, whatever was done before. -/
theorem C121_never_announced (es : List TableEvent) : ∀ (t t' : HeaderIndex) (blocks : List Bytes), runEvents t es = .ok (blocks, t') →
    ∀ b ∈ blocks, ∀ reps, IsBlock anyLength reps b → ∀ n, .sizeUpdate n ∉ reps := by
  induction es with
  | nil =>
    intro t t' blocks hr b hb
    simp only [runEvents, Res.ok.injEq, Prod.mk.injEq] at hr
    rw [← hr.1] at hb
    simp at hb
  | cons e es ih =>
    intro t t' blocks hr
    cases e with
    | resize n =>
      simp only [runEvents] at hr
      obtain ⟨t1, -, hr⟩ := (Res.bind_eq_ok ..).mp hr
      exact ih _ _ _ hr
    | send hs =>
      simp only [runEvents] at hr
      obtain ⟨⟨b, t1⟩, h1, hr⟩ := (Res.bind_eq_ok ..).mp hr
      obtain ⟨⟨bs, t2⟩, h2, hr⟩ := (Res.bind_eq_ok ..).mp hr
      simp only [Res.ok.injEq, Prod.mk.injEq] at hr
      obtain ⟨rfl, rfl⟩ := hr
      intro x hx reps hb n hm
      rcases List.mem_cons.mp hx with rfl | hx
      · rcases C120_literals_are_indexed hs t t1 x reps h1 hb _ hm with ⟨i, hi⟩ | ⟨nm, h, -, hi⟩
        · simp at hi
        · simp at hi
      · exact ih _ _ _ h2 x hx reps hb n hm

/-- C121 is false: a table made smaller is not announced either. -/
theorem C121_violated_silent : ¬ C121_announced_statement := by
  intro h
  obtain ⟨blocks, t, T, hr, -⟩ := C121_heard_partial _ only_x_safe 4096 [.resize 0, .send []] (by
      intro hs hm h hh
      simp only [List.mem_cons, reduceCtorEq, TableEvent.send.injEq, List.not_mem_nil, or_false, false_or] at hm
      rw [hm] at hh
      simp at hh) (by
      intro n hm
      simp only [List.mem_cons, reduceCtorEq, TableEvent.resize.injEq, List.not_mem_nil, or_false] at hm
      omega)
  obtain ⟨reps, b, rfl, hb⟩ := h 4096 0 [] blocks t (by decide) hr
  exact C121_never_announced _ _ _ _ hr b List.mem_cons_self _ hb 0 List.mem_cons_self

/-! ## Concrete cases -/

/-- A field is sent, the table made too small for it and large again, and the field sent twice. -/
def sampleResize : List TableEvent :=
  [.send [(asciiBytes "x", [49])], .resize 40, .send [(asciiBytes "X", [50, 50, 50, 50, 50, 50, 50, 50])], .resize 4096,
    .send [(asciiBytes "x", [49]), (asciiBytes "x", [49])]]

example : ∃ blocks t T, runEvents { maxSize := 4096 } sampleResize = .ok (blocks, t) ∧ ReadsBlocks ⟨[], 4096⟩ blocks T (listsSent sampleResize) := by
  refine C121_heard_partial (fun a => lower a = asciiBytes "x") ⟨?_, ?_⟩ 4096 sampleResize ?_ ?_
  · intro a ha
    rw [ha]
    decide +kernel
  · intro a b ha hb _ _ _
    rw [ha, hb]
  · intro hs hm h hh
    simp only [sampleResize, List.mem_cons, reduceCtorEq, TableEvent.send.injEq, List.not_mem_nil, or_false, false_or] at hm
    rcases hm with rfl | rfl | rfl
    · rw [List.mem_singleton.mp hh]; decide +kernel
    · rw [List.mem_singleton.mp hh]; decide +kernel
    · simp only [List.mem_cons, List.not_mem_nil, or_false, or_self] at hh
      rw [hh]; decide +kernel
  · intro n hm
    simp only [sampleResize, List.mem_cons, reduceCtorEq, TableEvent.resize.injEq, List.not_mem_nil, or_false, false_or] at hm
    omega

/-- What the peer hears of it. -/
example : listsSent sampleResize = [[(asciiBytes "x", [49])], [(asciiBytes "x", [50, 50, 50, 50, 50, 50, 50, 50])],
    [(asciiBytes "x", [49]), (asciiBytes "x", [49])]] := by decide +kernel

end Webparse
