import Verif.Props.Hpack
import Verif.Proofs.HpackReach

/-! C09: tables of any size. -/

namespace Webparse
open Spec

/-- C09, partial, tables of any size: for any number of blocks and headers whose names the code does not confuse,
if each header, when its turn comes, is not in the dynamic table or is among its 65 newest entries, every block
is read back exactly and the tables stay in step.  Missing: headers found further back (false, see below). -/
theorem C09_reachable_partial (S : Bytes → Prop)
    (hU : ∀ a b, S a → S b → ¬ StaticName b → Unambiguous a b)
    (limit : Nat) (blocks : List (List Header))
    (hall : ∀ hs ∈ blocks, ∀ h ∈ hs, S h.1 ∧ utf8Valid h.1 = true ∧ h.1.length < 2 ^ 26 ∧ h.2.length < 2 ^ 26)
    (hreach : AllReachable { maxSize := limit } blocks.flatten) :
    ∃ bs te td, encodeBlocks { maxSize := limit } blocks = .ok (bs, te) ∧
      decodeBlocks { maxSize := limit } bs = some (.ok (blocks.map fun hs => hs.map lowerHeader, td)) ∧
      td.table = te.table.map lowerHeader ∧ td.size = te.size ∧ td.maxSize = te.maxSize := by
  have hS : NamesClear S := fun a b ha hb hn => nameEq_unambiguous (hU a b ha hb hn)
  obtain ⟨bs, te, td, h1, -, h2, h3, -⟩ := encodeBlocks_reach S hS blocks
    (te := { maxSize := limit }) (td := { maxSize := limit }) ⟨rfl, rfl, rfl⟩ ⟨rfl, by simp⟩
    (by simp) (fun hs hm h hh => by
      obtain ⟨a, b, c, d⟩ := hall hs hm h hh
      exact ⟨a, b, c, d⟩) hreach
  exact ⟨bs, te, td, h1, h2, h3.table, h3.size, h3.max⟩

/-- C09, names: with headers in reach, connections with names from a set are read back if and only if the encoder
confuses no two names of the set.  Only names that are not in the static table are looked up. -/
theorem C09_names_iff_partial (S : Bytes → Prop) (hS : ∀ a, S a → utf8Valid a = true ∧ a.length < 2 ^ 26) :
    (∀ (limit : Nat) (blocks : List (List Header)), (∀ hs ∈ blocks, ∀ h ∈ hs, S h.1 ∧ h.2.length < 2 ^ 26) →
      AllReachable { maxSize := limit } blocks.flatten →
      ∃ bs te td, encodeBlocks { maxSize := limit } blocks = .ok (bs, te) ∧
        decodeBlocks { maxSize := limit } bs = some (.ok (blocks.map fun hs => hs.map lowerHeader, td))) ↔
    ∀ a b, S a → S b → ¬ StaticName b → Unambiguous a b := by
  constructor
  · intro h a b ha hb hst
    rw [unambiguous_iff]
    intro he
    obtain ⟨x, te, h1, h2, h3⟩ := confused_pair hst he
    have hr : ∀ h, Reachable te.table h := fun h => reachable_short h (by rw [h2]; simp)
    obtain ⟨bs, te', td, e1, e2⟩ := h (a.length + 33) [[(a, [1]), (b, [1])]]
      (by
        intro hs hm k hk
        simp only [List.mem_singleton] at hm
        subst hm
        simp only [List.mem_cons, List.not_mem_nil, or_false] at hk
        rcases hk with rfl | rfl
        · exact ⟨ha, by simp⟩
        · exact ⟨hb, by simp⟩)
      (by
        simp only [List.flatten_cons, List.flatten_nil, List.append_nil, AllReachable, h1, h3]
        exact ⟨reachable_short _ (by simp), hr _, trivial⟩)
    obtain ⟨o, tl, te1, td1, f1, f2, hsync, -, -⟩ := encodeHeader_reach (te := { maxSize := a.length + 33 }) (td := { maxSize := a.length + 33 })
      ⟨rfl, rfl, rfl⟩ ⟨rfl, by simp⟩ (fun n => n = a) (fun c d hc hd _ _ => by rw [hc, hd]) (by simp) (a, [1]) rfl
      ⟨(hS a ha).1, (hS a ha).2, by simp⟩ (reachable_short _ (by simp))
    rw [f1] at h1
    simp only [Res.ok.injEq, Prod.mk.injEq] at h1
    obtain ⟨rfl, rfl⟩ := h1
    have hg : getFromIndex td1 62 = some (lowerHeader (a, [1])) := by
      have hl : td1.table.length = 1 := by rw [hsync.table, h2]; rfl
      unfold getFromIndex
      simp only [staticTable_length]
      rw [if_neg (by decide), if_neg (by decide), if_pos (by rw [hl]; decide), hsync.table, h2]
      rfl
    obtain ⟨o2, g1, g2⟩ := decodeStep_indexed (by decide) hg []
    have hd : decode { maxSize := a.length + 33 } ((o :: tl) ++ [o2]) = some (.ok ([lowerHeader (a, [1]), lowerHeader (a, [1])], td1)) := by
      have r2 : decodeRun 1 td1 [o2] = some (.ok ([lowerHeader (a, [1])], td1)) := by
        rw [decodeRun_step g2]
        rfl
      have r1 : decodeRun 2 { maxSize := a.length + 33 } (o :: (tl ++ [o2])) = some (.ok ([lowerHeader (a, [1]), lowerHeader (a, [1])], td1)) := by
        rw [decodeRun_step (f2 [o2])]
        have : (o :: (tl ++ [o2])).drop (o :: tl).length = [o2] := by
          rw [← List.cons_append, List.drop_left]
        rw [this, r2]
        simp [prependHeaders]
      exact decodeRun_length r1
    rw [encodeBlocks, encodeHeaders, f1] at e1
    simp only [Res.bind_ok, encodeHeaders, h3, encodeBlocks, List.append_nil, Res.ok.injEq, Prod.mk.injEq, g1] at e1
    obtain ⟨rfl, rfl⟩ := e1
    simp only [decodeBlocks, hd] at e2
    simp only [Option.some.injEq, Res.ok.injEq, Prod.mk.injEq, List.map_cons, List.map_nil, List.cons.injEq, and_true, true_and] at e2
    have := congrArg Prod.fst e2.1
    exact this
  · intro h limit blocks hall hr
    obtain ⟨bs, te, td, h1, h2, -⟩ := C09_reachable_partial S h limit blocks (fun hs hm k hk =>
      ⟨(hall hs hm k hk).1, (hS _ (hall hs hm k hk).1).1, (hS _ (hall hs hm k hk).1).2, (hall hs hm k hk).2⟩) hr
    exact ⟨bs, te, td, h1, h2⟩

/-- C09 fails always: a header that is in the encoder's table but not among the 65 newest entries, at the end of
a block, makes that block unreadable, whatever was sent before. -/
theorem C09_violated_unreachable (S : Bytes → Prop)
    (hU : ∀ a b, S a → S b → ¬ StaticName b → Unambiguous a b)
    (limit : Nat) (blocks : List (List Header)) (hs : List Header) (h : Header)
    (hall : ∀ ks ∈ blocks ++ [hs ++ [h]], ∀ k ∈ ks, S k.1 ∧ utf8Valid k.1 = true ∧ k.1.length < 2 ^ 26 ∧ k.2.length < 2 ^ 26)
    (hreach : AllReachable { maxSize := limit } (blocks.flatten ++ hs))
    (b : Bytes) (te : HeaderIndex) (hte : encodeHeaders { maxSize := limit } (blocks.flatten ++ hs) = .ok (b, te))
    (hun : ¬ Reachable te.table h) :
    ∃ bs te', encodeBlocks { maxSize := limit } (blocks ++ [hs ++ [h]]) = .ok (bs, te') ∧
      ∀ out td, decodeBlocks { maxSize := limit } bs ≠ some (.ok (out, td)) := by
  have hS : NamesClear S := fun a b ha hb hn => nameEq_unambiguous (hU a b ha hb hn)
  have hall1 : ∀ ks ∈ blocks, ∀ k ∈ ks, S k.1 ∧ HeaderOk k := by
    intro ks hk k hm
    obtain ⟨a, b, c, d⟩ := hall ks (by simp [hk]) k hm
    exact ⟨a, b, c, d⟩
  have hall2 : ∀ k ∈ hs ++ [h], S k.1 ∧ HeaderOk k := by
    intro k hm
    obtain ⟨a, b, c, d⟩ := hall (hs ++ [h]) (by simp) k hm
    exact ⟨a, b, c, d⟩
  rw [allReachable_append] at hreach
  obtain ⟨bs, te1, td1, h1, ⟨bf, hbf⟩, h2, hsync, hinv, htab⟩ := encodeBlocks_reach S hS blocks
    (te := { maxSize := limit }) (td := { maxSize := limit }) ⟨rfl, rfl, rfl⟩ ⟨rfl, by simp⟩
    (by simp) hall1 hreach.1
  obtain ⟨bs2, te2, td2, h3, h4, hsync2, hinv2, htab2⟩ := encodeHeaders_reach S hS hs hsync hinv htab
    (fun k hk => hall2 k (by simp [hk])) (hreach.2 _ _ hbf)
  have he := encodeHeaders_cat _ _ hbf h3
  rw [hte] at he
  simp only [Res.ok.injEq, Prod.mk.injEq] at he
  obtain ⟨-, rfl⟩ := he
  unfold Reachable at hun
  obtain ⟨hst, hun⟩ := not_or.mp hun
  obtain ⟨i, hi, -, hlt, hf⟩ := find_far S hS (hall2 h (by simp)).1 htab2 hst
    (fun hx => hun fun _ => hx) (Classical.byContradiction fun hx => hun fun hy => absurd hy hx)
  have h5 : encodeHeaders te [h] = .ok (encodeIndexed (i + 62), te) := by
    simp [encodeHeaders, encodeHeader, hf]
  have h6 := encodeHeaders_cat _ _ h3 h5
  refine ⟨bs ++ [bs2 ++ encodeIndexed (i + 62)], te, encodeBlocks_append _ _ h1 (by simp [encodeBlocks, h6]), ?_⟩
  intro out td hd
  rw [decodeBlocks_append _ _ h2] at hd
  have hno := decode_append_not_ok h4 (b := encodeIndexed (i + 62)) (fun n r => indexed_big_not_ok (by omega) n td2 r)
  simp only [decodeBlocks] at hd
  cases hx : decode td1 (bs2 ++ encodeIndexed (i + 62)) with
  | none => rw [hx] at hd; simp at hd
  | some r =>
    cases r with
    | err e => rw [hx] at hd; simp at hd
    | panic => rw [hx] at hd; simp at hd
    | ok y => exact hno y hx

/-- C09, headers sent one in a block: read back exactly if and only if each is in reach. -/
theorem C09_singles_iff_partial (S : Bytes → Prop)
    (hU : ∀ a b, S a → S b → ¬ StaticName b → Unambiguous a b)
    (limit : Nat) (hs : List Header)
    (hall : ∀ h ∈ hs, S h.1 ∧ utf8Valid h.1 = true ∧ h.1.length < 2 ^ 26 ∧ h.2.length < 2 ^ 26) :
    (∃ bs te td, encodeBlocks { maxSize := limit } (hs.map fun h => [h]) = .ok (bs, te) ∧
      decodeBlocks { maxSize := limit } bs = some (.ok (hs.map fun h => [lowerHeader h], td))) ↔
    AllReachable { maxSize := limit } hs := by
  have hflat : ∀ l : List Header, (l.map fun h => [h]).flatten = l := by
    intro l
    induction l with
    | nil => rfl
    | cons a l ih => simp [ih]
  constructor
  · rintro ⟨bs, te, td, h1, h2⟩
    apply Classical.byContradiction
    intro hn
    -- the first header out of reach
    have first : ∀ (l : List Header) (t : HeaderIndex), TableInv t → ¬ AllReachable t l →
        ∃ pre h post b t', l = pre ++ h :: post ∧ AllReachable t pre ∧ encodeHeaders t pre = .ok (b, t') ∧ ¬ Reachable t'.table h := by
      intro l
      induction l with
      | nil => intro t _ h; exact absurd trivial h
      | cons x l ih =>
        intro t ht h
        by_cases hr : Reachable t.table x
        · have one : ∃ b t1, encodeHeader t x = .ok (b, t1) ∧ TableInv t1 := by
            obtain ⟨t', ha, hi, -⟩ := addHeader_spec t x ht.1
            unfold encodeHeader
            split
            · exact ⟨_, t', by rw [ha]; rfl, hi⟩
            · exact ⟨_, t', by rw [ha]; rfl, hi⟩
            · exact ⟨_, t, rfl, ht⟩
          obtain ⟨b, t1, he, ht1⟩ := one
          have h' : ¬ AllReachable t1 l := by
            intro hx
            apply h
            refine ⟨hr, ?_⟩
            rw [he]
            exact hx
          obtain ⟨pre, y, post, b', t', rfl, h3, h4, h5⟩ := ih t1 ht1 h'
          refine ⟨x :: pre, y, post, b ++ b', t', rfl, ⟨hr, ?_⟩, ?_, h5⟩
          · rw [he]; exact h3
          · simp [encodeHeaders, he, h4]
        · exact ⟨[], x, l, [], t, rfl, trivial, rfl, hr⟩
    obtain ⟨pre, h, post, b, t', rfl, h3, h4, h5⟩ := first hs { maxSize := limit } ⟨rfl, by simp⟩ hn
    obtain ⟨bs1, te1, h6, h7⟩ := C09_violated_unreachable S hU limit (pre.map fun h => [h]) [] h
      (by
        intro ks hk k hm
        simp only [List.nil_append, List.mem_append, List.mem_map, List.mem_singleton] at hk
        rcases hk with ⟨a, ha, rfl⟩ | rfl
        · exact hall k (by simp only [List.mem_singleton] at hm; simp [hm, ha])
        · exact hall k (by simp only [List.mem_singleton] at hm; simp [hm]))
      (by rw [hflat, List.append_nil]; exact h3) b t' (by rw [hflat, List.append_nil]; exact h4) h5
    -- the blocks up to it are the first blocks of the whole
    have split : ∀ (as cs : List (List Header)) (t tz : HeaderIndex) (z : List Bytes), encodeBlocks t (as ++ cs) = .ok (z, tz) →
        ∃ x y tx, encodeBlocks t as = .ok (x, tx) ∧ z = x ++ y := by
      intro as
      induction as with
      | nil => intro cs t tz z _; exact ⟨[], z, t, rfl, rfl⟩
      | cons a as ih =>
        intro cs t tz z hz
        simp only [List.cons_append, encodeBlocks] at hz
        obtain ⟨⟨p, tp⟩, h8, hz⟩ := (Res.bind_eq_ok ..).mp hz
        simp only [] at hz
        obtain ⟨⟨q, tq⟩, h9, hz⟩ := (Res.bind_eq_ok ..).mp hz
        simp only [Res.ok.injEq, Prod.mk.injEq] at hz
        obtain ⟨rfl, rfl⟩ := hz
        obtain ⟨x, y, tx, h10, rfl⟩ := ih cs tp tq q h9
        exact ⟨p :: x, y, tx, by simp [encodeBlocks, h8, h10], rfl⟩
    have dsplit : ∀ (x y : List Bytes) (t tz : HeaderIndex) (o : List (List Header)), decodeBlocks t (x ++ y) = some (.ok (o, tz)) →
        ∃ o' t', decodeBlocks t x = some (.ok (o', t')) := by
      intro x
      induction x with
      | nil => intro y t tz o _; exact ⟨[], t, rfl⟩
      | cons a x ih =>
        intro y t tz o ho
        simp only [List.cons_append, decodeBlocks] at ho
        cases hd : decode t a with
        | none => rw [hd] at ho; simp at ho
        | some r =>
          cases r with
          | err e => rw [hd] at ho; simp at ho
          | panic => rw [hd] at ho; simp at ho
          | ok p =>
            obtain ⟨p, tp⟩ := p
            rw [hd] at ho
            simp only [] at ho
            cases hd2 : decodeBlocks tp (x ++ y) with
            | none => rw [hd2] at ho; simp at ho
            | some r =>
              cases r with
              | err e => rw [hd2] at ho; simp at ho
              | panic => rw [hd2] at ho; simp at ho
              | ok q =>
                obtain ⟨o', t', h8⟩ := ih y tp q.2 q.1 hd2
                exact ⟨p :: o', t', by simp [decodeBlocks, hd, h8]⟩
    rw [List.map_append, List.map_cons, show (pre.map fun h => [h]) ++ [h] :: (post.map fun h => [h]) =
      ((pre.map fun h => [h]) ++ [[] ++ [h]]) ++ (post.map fun h => [h]) by simp] at h1
    obtain ⟨x, y, tx, h8, rfl⟩ := split _ _ _ _ _ h1
    rw [h6] at h8
    simp only [Res.ok.injEq, Prod.mk.injEq] at h8
    obtain ⟨rfl, rfl⟩ := h8
    obtain ⟨o', t'', h9⟩ := dsplit _ _ _ _ _ h2
    exact h7 _ _ h9
  · intro hr
    obtain ⟨bs, te, td, h1, h2, -⟩ := C09_reachable_partial S hU limit (hs.map fun h => [h])
      (by
        intro ks hk k hm
        obtain ⟨a, ha, rfl⟩ := List.mem_map.mp hk
        simp only [List.mem_singleton] at hm
        subst hm
        exact hall k ha)
      (by rw [hflat]; exact hr)
    refine ⟨bs, te, td, h1, ?_⟩
    rw [h2, List.map_map]
    rfl

/-- C09 fails always: if a header is found as one of the entries 98 to 129 of the table, the decoder never returns
from that block, whatever was sent before and whatever else the block has. -/
theorem C09_violated_hang (S : Bytes → Prop)
    (hU : ∀ a b, S a → S b → ¬ StaticName b → Unambiguous a b)
    (limit : Nat) (blocks : List (List Header)) (hs : List Header) (h : Header) (post : List Header)
    (hall : ∀ ks ∈ blocks ++ [hs ++ [h]], ∀ k ∈ ks, S k.1 ∧ utf8Valid k.1 = true ∧ k.1.length < 2 ^ 26 ∧ k.2.length < 2 ^ 26)
    (hreach : AllReachable { maxSize := limit } (blocks.flatten ++ hs))
    (b : Bytes) (te : HeaderIndex) (hte : encodeHeaders { maxSize := limit } (blocks.flatten ++ hs) = .ok (b, te))
    (hun : InHangingRange te.table h) (bs : List Bytes) (te' : HeaderIndex)
    (henc : encodeBlocks { maxSize := limit } (blocks ++ [hs ++ h :: post]) = .ok (bs, te')) :
    ∃ bs1 block out td, bs = bs1 ++ [block] ∧ decodeBlocks { maxSize := limit } bs1 = some (.ok (out, td)) ∧
      ∀ rounds, decodeRun rounds td block = none := by
  have hS : NamesClear S := fun a b ha hb hn => nameEq_unambiguous (hU a b ha hb hn)
  have hall1 : ∀ ks ∈ blocks, ∀ k ∈ ks, S k.1 ∧ HeaderOk k := by
    intro ks hk k hm
    obtain ⟨a, b, c, d⟩ := hall ks (by simp [hk]) k hm
    exact ⟨a, b, c, d⟩
  have hall2 : ∀ k ∈ hs ++ [h], S k.1 ∧ HeaderOk k := by
    intro k hm
    obtain ⟨a, b, c, d⟩ := hall (hs ++ [h]) (by simp) k hm
    exact ⟨a, b, c, d⟩
  rw [allReachable_append] at hreach
  obtain ⟨bs1, te1, td1, h1, ⟨bf, hbf⟩, h2, hsync, hinv, htab⟩ := encodeBlocks_reach S hS blocks
    (te := { maxSize := limit }) (td := { maxSize := limit }) ⟨rfl, rfl, rfl⟩ ⟨rfl, by simp⟩
    (by simp) hall1 hreach.1
  obtain ⟨bs2, te2, td2, h3, h4, hsync2, hinv2, htab2⟩ := encodeHeaders_reach S hS hs hsync hinv htab
    (fun k hk => hall2 k (by simp [hk])) (hreach.2 _ _ hbf)
  have he := encodeHeaders_cat _ _ hbf h3
  rw [hte] at he
  simp only [Res.ok.injEq, Prod.mk.injEq] at he
  obtain ⟨-, rfl⟩ := he
  obtain ⟨i, hi, hi2, hlt, hf⟩ := find_far S hS (hall2 h (by simp)).1 htab2 hun.1 hun.2.1 hun.2.2
  -- the rest of the block is written somehow
  have hwr : ∀ l (t : HeaderIndex), TableInv t → ∃ x t', encodeHeaders t l = .ok (x, t') := by
    intro l
    induction l with
    | nil => intro t _; exact ⟨[], t, rfl⟩
    | cons y l ih =>
      intro t ht
      have one : ∃ b t1, encodeHeader t y = .ok (b, t1) ∧ TableInv t1 := by
        obtain ⟨t', ha, hi, -⟩ := addHeader_spec t y ht.1
        unfold encodeHeader
        split
        · exact ⟨_, t', by rw [ha]; rfl, hi⟩
        · exact ⟨_, t', by rw [ha]; rfl, hi⟩
        · exact ⟨_, t, rfl, ht⟩
      obtain ⟨b, t1, h5, h6⟩ := one
      obtain ⟨x, t2, h7⟩ := ih t1 h6
      exact ⟨b ++ x, t2, by simp [encodeHeaders, h5, h7]⟩
  obtain ⟨x, t', h5⟩ := hwr post te hinv2
  have h6 : encodeHeaders te (h :: post) = .ok (encodeIndexed (i + 62) ++ x, t') := by
    simp [encodeHeaders, encodeHeader, hf, h5]
  have h7 := encodeHeaders_cat _ _ h3 h6
  have h8 : encodeBlocks te1 [hs ++ h :: post] = .ok ([bs2 ++ (encodeIndexed (i + 62) ++ x)], t') := by
    simp [encodeBlocks, h7]
  rw [encodeBlocks_append _ _ h1 h8] at henc
  simp only [Res.ok.injEq, Prod.mk.injEq] at henc
  obtain ⟨rfl, rfl⟩ := henc
  refine ⟨bs1, _, _, td1, rfl, h2, fun rounds => ?_⟩
  refine decodeRun_diverges (reaches_append h4 (indexed_hangs (by omega) (by omega) td2 ?_ x)) rounds
  rw [hsync2.table, List.length_map]
  omega

/-- A hundred headers named `a` with distinct values. -/
def hundredHeaders : List Header :=
  (asciiBytes "012aceiost").flatMap fun x => (asciiBytes "012aceiost").map fun y => (asciiBytes "a", [x, y])

/-- What the encoder's table is after them. -/
def hundredTable : List Header :=
  match encodeHeaders {} hundredHeaders with
  | .ok (_, te) => te.table
  | _ => []

/-- All hundred are in reach when sent, and so are the last of them again and a header with a name of the static table. -/
example : AllReachable {} (hundredHeaders ++ [(asciiBytes "A", asciiBytes "tt"), (asciiBytes "cookie", asciiBytes "x")]) := by
  decide +kernel

/-- The first of them is then out of reach, and in the range where the decoder hangs. -/
example : ¬ Reachable hundredTable (asciiBytes "a", asciiBytes "00") ∧ InHangingRange hundredTable (asciiBytes "A", asciiBytes "00") := by
  unfold InHangingRange
  decide +kernel

end Webparse
