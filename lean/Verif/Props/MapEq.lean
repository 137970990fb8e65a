import Verif.Model.MapEq
import Verif.Props.HeaderMap

/-! # C130: comparing header maps -/

namespace Webparse
open Spec

/-- Something that is done to a whole header map. -/
inductive WholeOp where
  | header (op : HeaderOp)
  | system (key value : Bytes)

/-- The map after it. -/
def WholeOp.run (m : WholeMap) : WholeOp → WholeMap
  | .header .clear => m.clear
  | .header op => { m with headers := op.run m.headers }
  | .system k v => m.systemInsert k v

/-- The operations on headers among the given ones. -/
def headerOps : List WholeOp → List HeaderOp
  | [] => []
  | .header op :: ops => op :: headerOps ops
  | .system _ _ :: ops => headerOps ops

/-- The system value under a key after the given operations: the last one that was put in. -/
def lastSystem (k : Bytes) : List WholeOp → Option Bytes
  | [] => none
  | .header _ :: ops => lastSystem k ops
  | .system k' v :: ops => (lastSystem k ops).or (if k = k' then some v else none)

/-- C130: two header maps are equal exactly if they hold the same values under the same names, whatever was done to them;
a cleared map is equal to a new one; and being equal is reflexive, symmetric and transitive. -/
def C130_statement : Prop :=
  (∀ ops ops' : List WholeOp, (ops.foldl WholeOp.run {}).eq (ops'.foldl WholeOp.run {}) = true ↔
    absOps (headerOps ops) = absOps (headerOps ops') ∧ ∀ k, lastSystem k ops = lastSystem k ops') ∧
  (∀ m : WholeMap, m.clear.eq {} = true) ∧
  (∀ a : HeaderMap, a.eqHeaders a = true) ∧ (∀ a b : HeaderMap, a.eqHeaders b = true → b.eqHeaders a = true) ∧
  ∀ a b c : HeaderMap, a.eqHeaders b = true → b.eqHeaders c = true → a.eqHeaders c = true

/-- The order counts: the same two fields put in the other way round are another map, though every lookup gives the same. -/
theorem C130_violated_order (n n' v v' : Bytes) (h : nameEq n n' = false) :
    absOps [.insert n v, .insert n' v'] = absOps [.insert n' v', .insert n v] ∧
    (runOps [.insert n v, .insert n' v']).eqHeaders (runOps [.insert n' v', .insert n v]) = false := by
  have hl : lower n ≠ lower n' := fun e => by rw [nameEq_of_lower e] at h; cases h
  have h' : nameEq n' n = false := by rw [nameEq_symm]; exact h
  constructor
  · funext k
    simp only [absOps, List.foldl_cons, List.foldl_nil, HeaderOp.abs]
    by_cases h1 : k = lower n
    · have h2 : k ≠ lower n' := fun e => hl (h1.symm.trans e)
      simp [h1, hl]
    · simp [h1]
  · simp [runOps, HeaderOp.run, HeaderMap.insert, h, h', HeaderMap.eqHeaders]

/-- Equal maps can answer differently, and being equal is not transitive: `!`, `A` and `a`. -/
theorem C130_violated_names :
    HeaderMap.eqHeaders [(asciiBytes "!", [1])] [(asciiBytes "A", [1])] = true ∧
    HeaderMap.eqHeaders [(asciiBytes "A", [1])] [(asciiBytes "a", [1])] = true ∧
    HeaderMap.eqHeaders [(asciiBytes "!", [1])] [(asciiBytes "a", [1])] = false ∧
    HeaderMap.get? [(asciiBytes "!", [1])] (asciiBytes "a") = none ∧
    HeaderMap.get? [(asciiBytes "A", [1])] (asciiBytes "a") = some [1] := by decide +kernel

theorem C130_violated : ¬ C130_statement := by
  rintro ⟨-, -, -, -, h⟩
  have := h _ _ _ C130_violated_names.1 C130_violated_names.2.1
  rw [C130_violated_names.2.2.1] at this
  cases this

/-- Every map is equal to itself, and to whichever it is equal that one is equal to it. -/
theorem C130_symmetric_partial : (∀ a : HeaderMap, a.eqHeaders a = true) ∧ ∀ a b : HeaderMap, a.eqHeaders b = b.eqHeaders a := by
  constructor
  · intro a
    induction a with
    | nil => rfl
    | cons e a ih => simp [HeaderMap.eqHeaders, nameEq_refl, ih]
  · intro a
    induction a with
    | nil => intro b; cases b <;> rfl
    | cons e a ih =>
      intro b
      cases b with
      | nil => rfl
      | cons f b =>
        simp only [HeaderMap.eqHeaders]
        rw [nameEq_symm, ih b, Bool.beq_comm]

/-- The fields of a map, with names in lower case. -/
def lowerFields (m : HeaderMap) : List (Bytes × Bytes) := m.map fun e => (lower e.1, e.2)

theorem eqHeaders_iff {N : Bytes → Prop} (hN : Clear N) : ∀ a b : HeaderMap, (∀ e ∈ a, N e.1) → (∀ e ∈ b, N e.1) →
    (a.eqHeaders b = true ↔ lowerFields a = lowerFields b) := by
  intro a
  induction a with
  | nil => intro b _ _; cases b <;> simp [HeaderMap.eqHeaders, lowerFields]
  | cons e a ih =>
    intro b ha hb
    cases b with
    | nil => simp [HeaderMap.eqHeaders, lowerFields]
    | cons f b =>
      have := ih b (fun x hx => ha x (by simp [hx])) (fun x hx => hb x (by simp [hx]))
      simp only [HeaderMap.eqHeaders, Bool.and_eq_true, this, beq_iff_eq, nameEq_clear hN (ha e (by simp)) (hb f (by simp)),
        decide_eq_true_eq, lowerFields, List.map_cons, List.cons.injEq, Prod.mk.injEq]

theorem absOps_names (ops : List HeaderOp) : ∀ (f : AbsMap) (k : Bytes), f k = none → k ∉ (opNames ops).map lower →
    ops.foldl HeaderOp.abs f k = none := by
  induction ops with
  | nil => intro f k h _; exact h
  | cons op ops ih =>
    intro f k h hk
    rw [List.foldl_cons]
    cases op with
    | insert n v =>
      simp only [opNames, List.map_cons, List.mem_cons, not_or] at hk
      exact ih _ _ (by simp [HeaderOp.abs, hk.1, h]) hk.2
    | push n v =>
      simp only [opNames, List.map_cons, List.mem_cons, not_or] at hk
      exact ih _ _ (by simp [HeaderOp.abs, hk.1, h]) hk.2
    | remove n =>
      simp only [opNames, List.map_cons, List.mem_cons, not_or] at hk
      exact ih _ _ (by simp [HeaderOp.abs, h]) hk.2
    | clear => exact ih _ _ rfl hk

theorem runOps_refines {N : Bytes → Prop} (hN : Clear N) (ops : List HeaderOp) (hn : ∀ n ∈ opNames ops, N n) :
    Refines N (runOps ops) (absOps ops) :=
  refines_ops hN ops [] (fun _ => none) ⟨by simp, List.Pairwise.nil, fun _ _ => rfl⟩ (by
    intro op hop
    have := opIn_opNames ops op hop
    revert this
    cases op <;> simp only [OpIn] <;> intro h
    · exact hn _ h
    · exact hn _ h
    · exact hn _ h
    · trivial)

theorem mem_get? {m : HeaderMap} (hd : Distinct m) {e : Header} (he : e ∈ m) : m.get? e.1 = some e.2 := by
  induction m with
  | nil => cases he
  | cons a m ih =>
    unfold Distinct at hd
    rw [List.pairwise_cons] at hd
    rw [get?_cons]
    rcases List.mem_cons.mp he with rfl | he'
    · simp [nameEq_refl]
    · rw [hd.1 e he']
      simpa using ih hd.2 he'

theorem get?_mem {m : HeaderMap} {n v : Bytes} (h : m.get? n = some v) : ∃ e ∈ m, nameEq e.1 n = true ∧ e.2 = v := by
  unfold HeaderMap.get? at h
  rw [Option.map_eq_some_iff] at h
  obtain ⟨e, h, rfl⟩ := h
  have hq := List.find?_some h
  exact ⟨e, List.mem_of_find?_eq_some h, hq, rfl⟩

/-- The fields of a map are the values of the abstract map. -/
theorem mem_lowerFields {N : Bytes → Prop} (hN : Clear N) (ops : List HeaderOp) (hn : ∀ n ∈ opNames ops, N n) (k v : Bytes) :
    (k, v) ∈ lowerFields (runOps ops) ↔ absOps ops k = some v := by
  obtain ⟨h1, h2, h3⟩ := runOps_refines hN ops hn
  constructor
  · intro h
    obtain ⟨e, he, heq⟩ := List.mem_map.mp h
    simp only [Prod.mk.injEq] at heq
    obtain ⟨rfl, rfl⟩ := heq
    rw [← h3 e.1 (h1 e he)]
    exact mem_get? h2 he
  · intro h
    have hk : k ∈ (opNames ops).map lower := by
      refine Classical.byContradiction fun hk => ?_
      have := absOps_names ops (fun _ => none) k rfl hk
      have h' : ops.foldl HeaderOp.abs (fun _ => none) k = some v := h
      rw [this] at h'
      cases h'
    obtain ⟨n, hm, rfl⟩ := List.mem_map.mp hk
    rw [← h3 n (hn n hm)] at h
    obtain ⟨e, he, hq, rfl⟩ := get?_mem h
    exact List.mem_map.mpr ⟨e, he, by rw [nameEq_unambiguous (hN _ _ (h1 e he) (hn n hm)) hq]⟩

theorem same_of_keys : ∀ A B : List (Bytes × Bytes), (A.map (·.1)).Nodup → A.map (·.1) = B.map (·.1) → (∀ p, p ∈ A ↔ p ∈ B) → A = B := by
  intro A
  induction A with
  | nil => intro B _ h _; cases B with
    | nil => rfl
    | cons b B => cases h
  | cons a A ih =>
    intro B hn h hm
    cases B with
    | nil => cases h
    | cons b B =>
      simp only [List.map_cons, List.cons.injEq] at h
      simp only [List.map_cons, List.nodup_cons] at hn
      have hab : a = b := by
        rcases List.mem_cons.mp ((hm a).mp (by simp)) with h1 | h1
        · exact h1
        · refine absurd ?_ hn.1
          rw [h.2]
          exact List.mem_map_of_mem h1
      subst hab
      rw [ih B hn.2 h.2]
      intro p
      have key : ∀ {L : List (Bytes × Bytes)}, a.1 ∉ L.map (·.1) → p ∈ L → p ≠ a := by
        rintro L hL hp rfl
        exact hL (List.mem_map_of_mem hp)
      constructor
      · intro hp
        rcases List.mem_cons.mp ((hm p).mp (by simp [hp])) with h1 | h1
        · exact absurd h1 (key hn.1 hp)
        · exact h1
      · intro hp
        rcases List.mem_cons.mp ((hm p).mpr (by simp [hp])) with h1 | h1
        · exact absurd h1 (key (h.2 ▸ hn.1) hp)
        · exact h1

/-- For unambiguous names, exactly: maps are equal if and only if they hold the same values under the same names and
the names came in in the same order; missing for C130: maps in another order, which are never equal, and ambiguous names. -/
theorem C130_iff_partial (ops ops' : List HeaderOp)
    (hu : ∀ a ∈ opNames ops ++ opNames ops', ∀ b ∈ opNames ops ++ opNames ops', Unambiguous a b) :
    (runOps ops).eqHeaders (runOps ops') = true ↔
      absOps ops = absOps ops' ∧ (runOps ops).map (fun e => lower e.1) = (runOps ops').map fun e => lower e.1 := by
  have hN : Clear (· ∈ opNames ops ++ opNames ops') := fun a b ha hb => hu a ha b hb
  have n1 : ∀ n ∈ opNames ops, n ∈ opNames ops ++ opNames ops' := fun n h => List.mem_append_left _ h
  have n2 : ∀ n ∈ opNames ops', n ∈ opNames ops ++ opNames ops' := fun n h => List.mem_append_right _ h
  have r1 := runOps_refines hN ops n1
  have r2 := runOps_refines hN ops' n2
  have m1 := mem_lowerFields hN ops n1
  have m2 := mem_lowerFields hN ops' n2
  have keys : ∀ m : HeaderMap, (lowerFields m).map (·.1) = m.map fun e => lower e.1 := by
    intro m; simp [lowerFields, Function.comp_def]
  rw [eqHeaders_iff hN _ _ r1.1 r2.1, ← keys, ← keys]
  constructor
  · intro h
    refine ⟨?_, by rw [h]⟩
    funext k
    cases h1 : absOps ops k with
    | some v => exact ((m2 k v).mp (h ▸ (m1 k v).mpr h1)).symm
    | none =>
      cases h2 : absOps ops' k with
      | none => rfl
      | some v => rw [(m1 k v).mp (h ▸ (m2 k v).mpr h2)] at h1; cases h1
  · rintro ⟨h1, h2⟩
    refine same_of_keys _ _ ?_ h2 ?_
    · rw [keys, List.Nodup, List.pairwise_map]
      refine List.Pairwise.imp ?_ r1.2.1
      intro a b hab e
      rw [nameEq_of_lower e] at hab
      cases hab
    · rintro ⟨k, v⟩
      rw [m1, m2, h1]

/-- Equal maps with unambiguous names give the same for every name asked for. -/
theorem C130_lookup_partial (ops ops' : List HeaderOp) (n : Bytes)
    (hu : ∀ a ∈ n :: (opNames ops ++ opNames ops'), ∀ b ∈ n :: (opNames ops ++ opNames ops'), Unambiguous a b)
    (h : (runOps ops).eqHeaders (runOps ops') = true) : (runOps ops).get? n = (runOps ops').get? n := by
  have hh := ((C130_iff_partial ops ops' fun a ha b hb => hu a (List.mem_cons_of_mem _ ha) b (List.mem_cons_of_mem _ hb)).mp h).1
  have sub : ∀ {o : List HeaderOp}, (∀ x ∈ opNames o, x ∈ opNames ops ++ opNames ops') → ∀ a ∈ n :: opNames o, a ∈ n :: (opNames ops ++ opNames ops') := by
    intro o ho a ha
    rcases List.mem_cons.mp ha with rfl | ha
    · simp
    · exact List.mem_cons_of_mem _ (ho a ha)
  have s1 := sub (o := ops) fun x hx => List.mem_append_left _ hx
  have s2 := sub (o := ops') fun x hx => List.mem_append_right _ hx
  rw [(C35_map_partial ops n fun a ha b hb => hu a (s1 a ha) b (s1 b hb)).1,
    (C35_map_partial ops' n fun a ha b hb => hu a (s2 a ha) b (s2 b hb)).1, hh]

/-- A map that is cleared is equal to a new one exactly if it has no system values: `clear` keeps these. -/
theorem C130_clear_iff_partial (m : WholeMap) : m.clear.eq {} = true ↔ m.systems = [] := by
  unfold WholeMap.eq WholeMap.clear
  constructor
  · intro h
    simp only [Bool.and_eq_true, beq_iff_eq] at h
    exact List.eq_nil_of_length_eq_zero h.2.1
  · intro h
    simp [h, HeaderMap.clear, HeaderMap.eqHeaders]

/-- A system value can be read back, also after `clear`, and others are as before. -/
theorem C130_system (m : WholeMap) (k v k' : Bytes) :
    ((m.systemInsert k v).clear.systemGet k = some v) ∧ (k' ≠ k → (m.systemInsert k v).systemGet k' = m.systemGet k') := by
  constructor
  · simp [WholeMap.systemInsert, WholeMap.clear, WholeMap.systemGet]
  · intro h
    have : ∀ l : List (Bytes × Bytes), (l.filter fun e => e.1 != k).lookup k' = l.lookup k' := by
      intro l
      induction l with
      | nil => rfl
      | cons e l ih =>
        by_cases he : e.1 = k
        · rw [List.filter_cons_of_neg (by simp [he]), ih]
          have : (k' == e.1) = false := by simp [he, h]
          simp only [List.lookup, this]
        · rw [List.filter_cons_of_pos (by simp [he])]
          simp only [List.lookup]
          split
          · rfl
          · exact ih
    have hk : (k' == k) = false := by simp [h]
    simp only [WholeMap.systemInsert, WholeMap.systemGet, List.lookup, hk, this]

theorem nodup_length {α : Type} [DecidableEq α] : ∀ l l' : List α, l.Nodup → (∀ x ∈ l, x ∈ l') → l.length ≤ l'.length := by
  intro l
  induction l with
  | nil => intro l' _ _; exact Nat.zero_le _
  | cons a l ih =>
    intro l' hn hs
    rw [List.nodup_cons] at hn
    have ha : a ∈ l' := hs a (by simp)
    have := ih (l'.erase a) hn.2 fun x hx =>
      (List.mem_erase_of_ne (fun e : x = a => hn.1 (e ▸ hx))).mpr (hs x (by simp [hx]))
    rw [List.length_erase_of_mem ha] at this
    have := List.length_pos_of_mem ha
    simp only [List.length_cons]
    omega

theorem lookup_mem {l : List (Bytes × Bytes)} {k v : Bytes} (h : l.lookup k = some v) : (k, v) ∈ l := by
  induction l with
  | nil => cases h
  | cons e l ih =>
    obtain ⟨a, b⟩ := e
    rw [List.lookup] at h
    split at h
    · rename_i hk
      cases h
      rw [beq_iff_eq] at hk
      simp [hk]
    · exact List.mem_cons_of_mem _ (ih h)

theorem mem_lookup {l : List (Bytes × Bytes)} (hn : (l.map (·.1)).Nodup) {k v : Bytes} (h : (k, v) ∈ l) : l.lookup k = some v := by
  induction l with
  | nil => cases h
  | cons e l ih =>
    obtain ⟨a, b⟩ := e
    simp only [List.map_cons, List.nodup_cons] at hn
    rw [List.lookup]
    rcases List.mem_cons.mp h with h | h'
    · simp only [Prod.mk.injEq] at h
      obtain ⟨rfl, rfl⟩ := h
      simp
    · have : (k == a) = false := by
        rw [beq_eq_false_iff_ne]
        rintro rfl
        exact hn.1 (List.mem_map_of_mem (f := (·.1)) h')
      rw [this]
      exact ih hn.2 h'

/-- The comparison of hash maps says that every key has the same value in both. -/
theorem systems_iff (a b : List (Bytes × Bytes)) (ha : (a.map (·.1)).Nodup) (hb : (b.map (·.1)).Nodup) :
    (a.length == b.length && a.all fun e => b.lookup e.1 == some e.2) = true ↔ ∀ k, a.lookup k = b.lookup k := by
  rw [Bool.and_eq_true, beq_iff_eq, List.all_eq_true]
  constructor
  · rintro ⟨hl, h⟩ k
    cases h1 : a.lookup k with
    | some v => exact (beq_iff_eq.mp (h _ (lookup_mem h1))).symm
    | none =>
      cases h2 : b.lookup k with
      | none => rfl
      | some v =>
        have hk : k ∉ a.map (·.1) := by
          intro hk
          obtain ⟨⟨k', w⟩, he, rfl⟩ := List.mem_map.mp hk
          rw [mem_lookup ha he] at h1
          cases h1
        have := nodup_length (k :: a.map (·.1)) (b.map (·.1)) (List.nodup_cons.mpr ⟨hk, ha⟩) (by
          intro x hx
          rcases List.mem_cons.mp hx with rfl | hx
          · exact List.mem_map_of_mem (f := (·.1)) (lookup_mem h2)
          · obtain ⟨e, he, rfl⟩ := List.mem_map.mp hx
            exact List.mem_map_of_mem (f := (·.1)) (lookup_mem (beq_iff_eq.mp (h e he))))
        simp only [List.length_cons, List.length_map] at this
        omega
  · intro h
    have sub : ∀ {a b : List (Bytes × Bytes)}, (a.map (·.1)).Nodup → (∀ k, a.lookup k = b.lookup k) → ∀ x ∈ a.map (·.1), x ∈ b.map (·.1) := by
      intro a b ha h x hx
      obtain ⟨⟨k, v⟩, he, rfl⟩ := List.mem_map.mp hx
      exact List.mem_map_of_mem (f := (·.1)) (lookup_mem ((h k).symm.trans (mem_lookup ha he)))
    refine ⟨?_, fun e he => beq_iff_eq.mpr ((h e.1).symm.trans (mem_lookup ha he))⟩
    have h1 := nodup_length _ _ ha (sub ha h)
    have h2 := nodup_length _ _ hb (sub hb fun k => (h k).symm)
    simp only [List.length_map] at h1 h2
    omega

theorem wholeOps_inv (ops : List WholeOp) : ∀ m : WholeMap, (m.systems.map (·.1)).Nodup →
    (ops.foldl WholeOp.run m).headers = (headerOps ops).foldl HeaderOp.run m.headers ∧
    ((ops.foldl WholeOp.run m).systems.map (·.1)).Nodup ∧
    ∀ k, (ops.foldl WholeOp.run m).systems.lookup k = (lastSystem k ops).or (m.systems.lookup k) := by
  induction ops with
  | nil => intro m h; exact ⟨rfl, h, fun k => by simp [lastSystem]⟩
  | cons op ops ih =>
    intro m h
    rw [List.foldl_cons]
    cases op with
    | header op =>
      have : (WholeOp.run m (.header op)).systems = m.systems ∧ (WholeOp.run m (.header op)).headers = op.run m.headers := by
        cases op <;> exact ⟨rfl, rfl⟩
      have hh := ih (WholeOp.run m (.header op)) (by rw [this.1]; exact h)
      rw [this.1, this.2] at hh
      exact hh
    | system k v =>
      have hn : ((WholeOp.run m (.system k v)).systems.map (·.1)).Nodup := by
        show (((k, v) :: m.systems.filter fun e => e.1 != k).map (·.1)).Nodup
        rw [List.map_cons, List.nodup_cons]
        constructor
        · intro hk
          obtain ⟨e, he, hek⟩ := List.mem_map.mp hk
          have := (List.mem_filter.mp he).2
          simp at this
          exact this hek
        · exact List.Pairwise.sublist ((List.filter_sublist).map _) h
      obtain ⟨h1, h2, h3⟩ := ih _ hn
      refine ⟨h1, h2, fun k' => ?_⟩
      rw [h3 k', lastSystem, Option.or_assoc]
      congr 1
      by_cases hk : k' = k
      · subst hk
        have : (WholeOp.run m (.system k' v)).systems.lookup k' = some v := (C130_system m k' v k').1
        rw [this]
        simp
      · have : (WholeOp.run m (.system k v)).systems.lookup k' = m.systems.lookup k' := (C130_system m k v k').2 hk
        rw [this]
        simp [hk]

/-- Whole maps with unambiguous names, exactly: they are equal if and only if they hold the same values under the same
names, the names came in in the same order, and every system value is the same; missing for C130 as in `C130_iff_partial`. -/
theorem C130_whole_iff_partial (ops ops' : List WholeOp)
    (hu : ∀ a ∈ opNames (headerOps ops) ++ opNames (headerOps ops'), ∀ b ∈ opNames (headerOps ops) ++ opNames (headerOps ops'), Unambiguous a b) :
    (ops.foldl WholeOp.run {}).eq (ops'.foldl WholeOp.run {}) = true ↔
      absOps (headerOps ops) = absOps (headerOps ops') ∧
      (runOps (headerOps ops)).map (fun e => lower e.1) = (runOps (headerOps ops')).map (fun e => lower e.1) ∧
      ∀ k, lastSystem k ops = lastSystem k ops' := by
  obtain ⟨a1, a2, a3⟩ := wholeOps_inv ops {} (by simp)
  obtain ⟨b1, b2, b3⟩ := wholeOps_inv ops' {} (by simp)
  unfold WholeMap.eq
  rw [Bool.and_eq_true, systems_iff _ _ a2 b2, a1, b1, ← and_assoc]
  refine and_congr (C130_iff_partial (headerOps ops) (headerOps ops') hu) ?_
  simp only [a3, b3, List.lookup_nil, Option.or_none]

example : opNames (headerOps [.system [1] [2], .header (.insert (asciiBytes "A") [1]), .header .clear]) = [asciiBytes "A"] := rfl
example : ((([.system [1] [2], .system [3] [4]] : List WholeOp).foldl WholeOp.run {}).eq (([.system [3] [4], .system [1] [0], .system [1] [2]] : List WholeOp).foldl WholeOp.run {})) = true := by
  decide +kernel
example : nameEq (asciiBytes "a") (asciiBytes "b") = false := by decide +kernel
example : ∀ a ∈ opNames [.insert (asciiBytes "A") [1]] ++ opNames [.push (asciiBytes "a") [1]],
    ∀ b ∈ opNames [.insert (asciiBytes "A") [1]] ++ opNames [.push (asciiBytes "a") [1]], Unambiguous a b := by
  have : ∀ a ∈ opNames [.insert (asciiBytes "A") [1]] ++ opNames [.push (asciiBytes "a") [1]], ∀ x ∈ a, isLetter x = true := by decide +kernel
  exact fun a ha b hb => unambiguous_letters (this a ha) (this b hb)
example : (runOps [.insert (asciiBytes "A") [1]]).eqHeaders (runOps [.push (asciiBytes "a") [1]]) = true := by decide +kernel

end Webparse
