import Verif.Model.MapIter
import Verif.Props.HeaderMap
import Verif.Props.Http1

/-! # C131: headers that are changed while iterating -/

namespace Webparse
open Spec

/-- What can be done to a header map, changes while iterating among it. -/
inductive IterOp where
  | plain (op : HeaderOp)
  | iter (f : Nat → Header → Header)

/-- The map after it. -/
def IterOp.run (m : HeaderMap) : IterOp → HeaderMap
  | .plain op => op.run m
  | .iter f => m.iterMut f

/-- The map after a history. -/
def runIter (ops : List IterOp) : HeaderMap := ops.foldl IterOp.run []

/-- C131: whatever was done to a header map, a name that is removed is not there any more; and a map of clean headers that
is written is read back as it was. -/
def C131_statement : Prop :=
  ∀ ops : List IterOp, (∀ n, ((runIter ops).remove n).2.contains n = false) ∧
    ((∀ e ∈ runIter ops, CleanHeader e) → ∀ m0 rest, parseHeader m0 ((runIter ops).encode ++ rest) = (.ok (), runIter ops, rest))

/-- Names of different lengths, to have something to iterate over. -/
def placeOps : Nat → List IterOp
  | 0 => []
  | k + 1 => placeOps k ++ [.plain (.insert (List.replicate k 97) [])]

theorem place_length (k : Nat) : (runIter (placeOps k)).length = k ∧ ∀ e ∈ runIter (placeOps k), e.1.length < k := by
  induction k with
  | zero => exact ⟨rfl, by simp [runIter, placeOps]⟩
  | succ k ih =>
    have : runIter (placeOps (k + 1)) = runIter (placeOps k) ++ [(List.replicate k 97, [])] := by
      unfold runIter
      rw [placeOps, List.foldl_append]
      refine insert_fresh _ _ _ fun e he => ?_
      have h := ih.2 e he
      rw [Bool.eq_false_iff]
      intro h'
      have := ((nameEq_iff _ _).mp h').1
      simp at this
      omega
    rw [this]
    refine ⟨by simp [ih.1], fun e he => ?_⟩
    rcases List.mem_append.mp he with h | h
    · have := ih.2 e h; omega
    · simp only [List.mem_singleton] at h
      subst h
      simp

/-- Every list of headers, with any names any number of times, can be made so. -/
theorem C131_any (m : HeaderMap) : ∃ ops, runIter ops = m := by
  refine ⟨placeOps m.length ++ [.iter fun i e => (m[i]?).getD e], ?_⟩
  unfold runIter
  rw [List.foldl_append]
  show (runIter (placeOps m.length)).mapIdx _ = m
  have hl := (place_length m.length).1
  apply List.ext_getElem
  · simp [hl]
  · intro i h1 h2
    simp [h2]

/-- What is removed is still there exactly if it was there more than once. -/
theorem C131_remove_iff_partial (m : HeaderMap) (n : Bytes) :
    (m.remove n).2.contains n = true ↔ 2 ≤ (m.filter fun e => nameEq e.1 n).length := by
  induction m with
  | nil => simp [HeaderMap.remove, HeaderMap.contains]
  | cons e m ih =>
    rw [HeaderMap.remove]
    by_cases h : nameEq e.1 n = true
    · rw [if_pos h, List.filter_cons_of_pos (by exact h)]
      simp only [List.length_cons, HeaderMap.contains, List.any_eq_true]
      constructor
      · rintro ⟨x, hx, hxn⟩
        have := List.length_pos_of_mem (List.mem_filter.mpr ⟨hx, hxn⟩ : x ∈ m.filter fun e => nameEq e.1 n)
        omega
      · intro hl
        obtain ⟨x, hx⟩ := List.exists_mem_of_length_pos (l := m.filter fun e => nameEq e.1 n) (by omega)
        exact ⟨x, (List.mem_filter.mp hx).1, (List.mem_filter.mp hx).2⟩
    · rw [if_neg h, List.filter_cons_of_neg (by exact h), ← ih]
      rw [Bool.not_eq_true] at h
      simp [HeaderMap.contains, h]

/-- Two headers of the same name come out of renaming one, and removing the name leaves the other. -/
theorem C131_violated_remove (n v v' : Bytes) : ∃ ops, runIter ops = [(n, v), (n, v')] ∧
    (((runIter ops).remove n).2 = [(n, v')]) ∧ ((runIter ops).remove n).2.contains n = true := by
  obtain ⟨ops, h⟩ := C131_any [(n, v), (n, v')]
  refine ⟨ops, h, ?_, ?_⟩
  · rw [h]; simp [HeaderMap.remove, nameEq_refl]
  · rw [h]; simp [HeaderMap.remove, nameEq_refl, HeaderMap.contains]

theorem C131_violated : ¬ C131_statement := by
  intro h
  obtain ⟨ops, -, -, h3⟩ := C131_violated_remove [97] [1] [2]
  rw [(h ops).1 [97]] at h3
  cases h3

theorem parse_written (m m0 : HeaderMap) (rest : Bytes) (hc : ∀ e ∈ m, CleanHeader e) :
    parseHeader m0 (m.encode ++ rest) = (.ok (), runOps (m.map fun e => .insert e.1 e.2), rest) := by
  rw [parseHeader, parseHeaderLoop_encode m (fun e he => ⟨(hc e he).name_ne, (hc e he).name, (hc e he).value⟩) rest _ _ (by
    have := encode_length_ge m; rw [List.length_append]; omega), trimValues_clean hc, runOps, List.foldl_map]
  rfl

/-- A map of clean headers is read back as it was exactly if no two of its names are taken for the same. -/
theorem C131_reread_iff_partial (m m0 : HeaderMap) (rest : Bytes) (hc : ∀ e ∈ m, CleanHeader e) :
    parseHeader m0 (m.encode ++ rest) = (.ok (), m, rest) ↔ m.Pairwise fun a b => nameEq a.1 b.1 = false := by
  constructor
  · intro h
    rw [parse_written m m0 rest hc] at h
    simp only [Prod.mk.injEq, true_and, and_true] at h
    have := distinct_runOps (m.map fun e => .insert e.1 e.2)
    rwa [h] at this
  · intro h
    rw [parseHeader_encode m h (fun e he => ⟨(hc e he).name_ne, (hc e he).name, (hc e he).value⟩), trimValues_clean hc]

theorem get?_append (a b : HeaderMap) (n : Bytes) : HeaderMap.get? (a ++ b) n = (a.get? n).or (b.get? n) := by
  unfold HeaderMap.get?
  rw [List.find?_append]
  cases List.find? (fun e => nameEq e.1 n) a <;> rfl

theorem opNames_insertAll (m : HeaderMap) : opNames (m.map fun e => .insert e.1 e.2) = m.map (·.1) := by
  induction m with
  | nil => rfl
  | cons e m ih => simp [opNames, ih]

/-- The writer and the reader of such a map disagree: a name that is there more than once has its first value here and its
last value at the other end. -/
theorem C131_first_last_partial (m m0 : HeaderMap) (rest n : Bytes) (hc : ∀ e ∈ m, CleanHeader e)
    (hu : ∀ a ∈ n :: m.map (·.1), ∀ b ∈ n :: m.map (·.1), Unambiguous a b) :
    ∃ m', parseHeader m0 (m.encode ++ rest) = (.ok (), m', rest) ∧ m'.get? n = HeaderMap.get? m.reverse n := by
  refine ⟨_, parse_written m m0 rest hc, ?_⟩
  rw [(C35_map_partial _ n (by rw [opNames_insertAll]; exact hu)).1]
  have hq : ∀ e ∈ m, (nameEq e.1 n = true ↔ lower e.1 = lower n) := fun e he =>
    nameEq_iff_lower (hu e.1 (List.mem_cons_of_mem _ (List.mem_map_of_mem he)) n (by simp))
  clear hu hc
  have : ∀ f : AbsMap, (m.map fun e => HeaderOp.insert e.1 e.2).foldl HeaderOp.abs f (lower n) =
      (HeaderMap.get? m.reverse n).or (f (lower n)) := by
    induction m with
    | nil => intro f; simp [get?_nil]
    | cons e m ih =>
      intro f
      rw [List.map_cons, List.foldl_cons, ih fun x hx => hq x (by simp [hx]), List.reverse_cons, get?_append, Option.or_assoc]
      congr 1
      rw [get?_cons, get?_nil]
      by_cases h : lower n = lower e.1
      · rw [if_pos ((hq e (by simp)).mpr h.symm)]
        simp [HeaderOp.abs, h]
      · rw [if_neg (fun h' => h ((hq e (by simp)).mp h').symm)]
        simp [HeaderOp.abs, h]
  have h := this fun _ => none
  rw [Option.or_none] at h
  exact h

/-- Changing values only is what it seems: each name has its changed value. -/
theorem C131_values (m : HeaderMap) (g : Bytes → Bytes) (n : Bytes) :
    (m.iterMut fun _ e => (e.1, g e.2)).get? n = (m.get? n).map g := by
  unfold HeaderMap.iterMut
  have : (m.mapIdx fun _ e => (e.1, g e.2)) = m.map fun e => (e.1, g e.2) := by
    rw [List.mapIdx_eq_zipIdx_map]
    apply List.ext_getElem <;> simp
  rw [this]
  induction m with
  | nil => rfl
  | cons e m ih =>
    rw [List.map_cons, get?_cons, get?_cons, ih (by
      rw [List.mapIdx_eq_zipIdx_map]
      apply List.ext_getElem <;> simp)]
    split <;> rfl

/-- As long as names are left alone while iterating, no name comes in twice, whatever is done; then clean headers are read
back as they were.  Missing for C131: renaming, and ambiguous names. -/
theorem C131_names_kept_partial (ops : List IterOp) (hk : ∀ f, .iter f ∈ ops → ∀ i e, (f i e).1 = e.1) :
    (runIter ops).Pairwise (fun a b => nameEq a.1 b.1 = false) ∧
    ((∀ e ∈ runIter ops, CleanHeader e) → ∀ m0 rest, parseHeader m0 ((runIter ops).encode ++ rest) = (.ok (), runIter ops, rest)) ∧
    ∀ n, (∀ a ∈ n :: (runIter ops).map (·.1), ∀ b ∈ n :: (runIter ops).map (·.1), Unambiguous a b) →
      ((runIter ops).remove n).2.contains n = false := by
  have hd : Distinct (runIter ops) := by
    unfold runIter
    have : ∀ m : HeaderMap, Distinct m → Distinct (ops.foldl IterOp.run m) := by
      induction ops with
      | nil => exact fun m h => h
      | cons op ops ih =>
        intro m h
        rw [List.foldl_cons]
        refine ih (fun f hf => hk f (by simp [hf])) _ ?_
        cases op with
        | plain op => exact distinct_run h op
        | iter f =>
          have hf := hk f (by simp)
          unfold Distinct at h ⊢
          show (m.mapIdx f).Pairwise _
          rw [List.pairwise_iff_getElem] at h ⊢
          intro i j hi hj hij
          simp only [List.getElem_mapIdx, hf]
          exact h i j (by simpa using hi) (by simpa using hj) hij
    exact this [] List.Pairwise.nil
  refine ⟨hd, fun hc m0 rest => (C131_reread_iff_partial _ m0 rest hc).mpr hd, fun n hn => ?_⟩
  rw [Bool.eq_false_iff]
  intro h
  rw [C131_remove_iff_partial] at h
  have hp : ((runIter ops).filter fun e => nameEq e.1 n).Pairwise fun a b => nameEq a.1 b.1 = false :=
    List.Pairwise.sublist List.filter_sublist hd
  have hm : ∀ e ∈ (runIter ops).filter (fun e => nameEq e.1 n), lower e.1 = lower n := by
    intro e he
    obtain ⟨h1, h2⟩ := List.mem_filter.mp he
    exact nameEq_unambiguous (hn e.1 (List.mem_cons_of_mem _ (List.mem_map_of_mem h1)) n (by simp)) h2
  revert h hp hm
  generalize (runIter ops).filter (fun e => nameEq e.1 n) = l
  intro h hp hm
  match l, h, hp, hm with
  | a :: b :: l, _, hp, hm =>
    have h1 := (List.pairwise_cons.mp hp).1 b (by simp)
    rw [nameEq_of_lower ((hm a (by simp)).trans (hm b (by simp)).symm)] at h1
    cases h1

example : ∀ e ∈ ([(asciiBytes "A", [1]), (asciiBytes "a", [2])] : HeaderMap), CleanHeader e := by
  intro e he
  simp only [List.mem_cons, List.not_mem_nil, or_false] at he
  rcases he with rfl | rfl <;> exact ⟨by decide +kernel, by decide +kernel, by decide +kernel, by decide +kernel⟩

example : ∀ a ∈ asciiBytes "a" :: ([(asciiBytes "A", [1]), (asciiBytes "a", [2])] : HeaderMap).map (·.1),
    ∀ b ∈ asciiBytes "a" :: ([(asciiBytes "A", [1]), (asciiBytes "a", [2])] : HeaderMap).map (·.1), Unambiguous a b := by
  have : ∀ a ∈ asciiBytes "a" :: ([(asciiBytes "A", [1]), (asciiBytes "a", [2])] : HeaderMap).map (·.1), ∀ x ∈ a, isLetter x = true := by
    decide +kernel
  exact fun a ha b hb => unambiguous_letters (this a ha) (this b hb)

/-- First value here, last value there. -/
example : HeaderMap.get? [(asciiBytes "A", [1]), (asciiBytes "a", [2])] (asciiBytes "a") = some [1] ∧
    parseHeader [] (HeaderMap.encode [(asciiBytes "A", [1]), (asciiBytes "a", [2])]) = (.ok (), [(asciiBytes "A", [2])], []) := by
  decide +kernel

example : ∀ f, IterOp.iter f ∈ [.plain (.insert [97] [1]), .iter fun i e => (e.1, i.toUInt8 :: e.2)] → ∀ i e, (f i e).1 = e.1 := by
  intro f hf
  simp only [List.mem_cons, List.not_mem_nil, or_false, reduceCtorEq, false_or, IterOp.iter.injEq] at hf
  subst hf
  exact fun _ _ => rfl

end Webparse
