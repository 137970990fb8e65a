import Verif.Spec.HeaderMap
import Verif.Proofs.Name

/-! Lemmas about header names and header maps. -/

namespace Webparse
open Spec

theorem lower_eq_iff (a b : Bytes) : lower a = lower b ↔
    a.length = b.length ∧ ∀ i (h1 : i < a.length) (h2 : i < b.length), lowerByte a[i] = lowerByte b[i] := by
  constructor
  · intro h
    have hl : a.length = b.length := by simpa [lower] using congrArg List.length h
    refine ⟨hl, fun i h1 h2 => ?_⟩
    have := congrArg (fun l => l[i]?) h
    simpa [lower, h1, h2] using this
  · rintro ⟨hl, h⟩
    unfold lower
    apply List.ext_getElem (by simpa using hl)
    intro i h1 h2
    simpa using h i (by simpa using h1) (by simpa using h2)

theorem lowerByte_close (x y : UInt8) (h : lowerByte x = lowerByte y) : x = y ∨ x - y = 32 ∨ x - y = 224 := by
  have hx : ∀ x : UInt8, lowerByte x = x ∨ lowerByte x = x + 32 := by decide +kernel
  have hx2 : ∀ x : UInt8, lowerByte x = lowerByte (x + 32) → True := fun _ _ => trivial
  rcases hx x with h1 | h1 <;> rcases hx y with h2 | h2 <;> rw [h1, h2] at h
  · exact Or.inl h
  · right; left; rw [h]; grind
  · right; right
    have : y = x + 32 := h.symm
    rw [this]; grind
  · left; grind

/-- Names equal up to case are equal for the code. -/
theorem nameEq_of_lower {a b : Bytes} (h : lower a = lower b) : nameEq a b = true := by
  obtain ⟨hl, h⟩ := (lower_eq_iff a b).mp h
  exact (nameEq_iff a b).mpr ⟨hl, fun i h1 h2 => lowerByte_close _ _ (h i h1 h2)⟩

theorem nameEq_refl (a : Bytes) : nameEq a a = true := nameEq_of_lower rfl

theorem nameEq_symm (a b : Bytes) : nameEq a b = nameEq b a := by
  have aux : ∀ a b, nameEq a b = true → nameEq b a = true := by
    intro a b h
    obtain ⟨hl, h⟩ := (nameEq_iff a b).mp h
    refine (nameEq_iff b a).mpr ⟨hl.symm, fun i h1 h2 => ?_⟩
    rcases h i h2 h1 with h | h | h
    · exact Or.inl h.symm
    · right; right
      have : a[i] = b[i] + 32 := by rw [← h]; grind
      rw [this]; grind
    · right; left
      have : a[i] = b[i] + 224 := by rw [← h]; grind
      rw [this]; grind
  cases h1 : nameEq a b with
  | true => rw [aux a b h1]
  | false =>
    cases h2 : nameEq b a with
    | true => rw [aux b a h2] at h1; exact absurd h1 (by simp)
    | false => rfl

theorem nameEq_exact (a b : Bytes) : nameEq a b = true ↔
    a.length = b.length ∧ ∀ (i : Nat) (x y : UInt8), a[i]? = some x → b[i]? = some y →
      x = y ∨ x - y = 32 ∨ y - x = 32 := by
  rw [nameEq_iff]
  constructor
  · rintro ⟨hl, h⟩
    refine ⟨hl, fun i x y hx hy => ?_⟩
    obtain ⟨h1, rfl⟩ := List.getElem?_eq_some_iff.mp hx
    obtain ⟨h2, rfl⟩ := List.getElem?_eq_some_iff.mp hy
    rcases h i h1 h2 with h | h | h
    · exact Or.inl h
    · exact Or.inr (Or.inl h)
    · right; right
      have : a[i] = b[i] + 224 := by rw [← h]; grind
      rw [this]; grind
  · rintro ⟨hl, h⟩
    refine ⟨hl, fun i h1 h2 => ?_⟩
    rcases h i a[i] b[i] (by simp [h1]) (by simp [h2]) with h | h | h
    · exact Or.inl h
    · exact Or.inr (Or.inl h)
    · right; right
      have : b[i] = a[i] + 32 := by rw [← h]; grind
      rw [this]; grind

theorem nameEq_unambiguous {a b : Bytes} (hu : Unambiguous a b) (h : nameEq a b = true) : lower a = lower b :=
  hu ((nameEq_exact a b).mp h).1 ((nameEq_exact a b).mp h).2

theorem unambiguous_iff (a b : Bytes) : Unambiguous a b ↔ (nameEq a b = true → lower a = lower b) :=
  ⟨nameEq_unambiguous, fun h h1 h2 => h ((nameEq_exact a b).mpr ⟨h1, h2⟩)⟩

/-- It is enough that bytes at the same place that are 32 apart are the same letter. -/
theorem unambiguous_places {a b : Bytes}
    (hu : ∀ (i : Nat) (x y : UInt8), a[i]? = some x → b[i]? = some y → x - y = 32 ∨ y - x = 32 → lowerByte x = lowerByte y) :
    Unambiguous a b := by
  intro hl h
  refine (lower_eq_iff a b).mpr ⟨hl, fun i h1 h2 => ?_⟩
  have e1 : a[i]? = some a[i] := by simp [h1]
  have e2 : b[i]? = some b[i] := by simp [h2]
  rcases h i _ _ e1 e2 with h | h
  · rw [h]
  · exact hu i _ _ e1 e2 h

theorem nameEq_iff_lower {a b : Bytes} (hu : Unambiguous a b) : nameEq a b = true ↔ lower a = lower b :=
  ⟨nameEq_unambiguous hu, nameEq_of_lower⟩

theorem unambiguous_of_bytes (p : UInt8 → Bool)
    (hp : ∀ x, p x = true → (p (x - 32) = true → lowerByte x = lowerByte (x - 32)) ∧
      (p (x + 32) = true → lowerByte x = lowerByte (x + 32)))
    {a b : Bytes} (ha : ∀ x ∈ a, p x = true) (hb : ∀ x ∈ b, p x = true) : Unambiguous a b := by
  refine unambiguous_places fun i x y hx hy h => ?_
  have px := ha x (List.mem_of_getElem? hx)
  have py := hb y (List.mem_of_getElem? hy)
  rcases h with h | h
  · have e : y = x - 32 := by rw [← h]; grind
    rw [e] at py ⊢
    exact (hp x px).1 py
  · have e : y = x + 32 := by rw [← h]; grind
    rw [e] at py ⊢
    exact (hp x px).2 py

theorem unambiguous_plain {a b : Bytes} (ha : IsPlainName a) (hb : IsPlainName b) : Unambiguous a b :=
  unambiguous_of_bytes isPlainNameByte (by decide +kernel) ha hb

theorem unambiguous_letters {a b : Bytes} (ha : ∀ x ∈ a, isLetter x = true) (hb : ∀ x ∈ b, isLetter x = true) :
    Unambiguous a b :=
  unambiguous_of_bytes isLetter (by decide +kernel) ha hb

/-! ## Lookups after operations -/

theorem get?_nil (n : Bytes) : HeaderMap.get? [] n = none := rfl

theorem get?_cons (e : Header) (m : HeaderMap) (n : Bytes) :
    HeaderMap.get? (e :: m) n = if nameEq e.1 n = true then some e.2 else HeaderMap.get? m n := by
  unfold HeaderMap.get?
  rw [List.find?_cons]
  cases nameEq e.1 n <;> rfl

/-- No two entries have equal names. -/
def Distinct (m : HeaderMap) : Prop := m.Pairwise fun a b => nameEq a.1 b.1 = false

theorem mem_insert_name {m : HeaderMap} {n v : Bytes} {e : Header} (h : e ∈ m.insert n v) :
    e.1 = n ∨ ∃ e' ∈ m, e'.1 = e.1 := by
  induction m with
  | nil => simp only [HeaderMap.insert, List.mem_singleton] at h; left; rw [h]
  | cons a m ih =>
    unfold HeaderMap.insert at h
    split at h
    · rcases List.mem_cons.mp h with h | h
      · right; exact ⟨a, by simp, by rw [h]⟩
      · right; exact ⟨e, by simp [h], rfl⟩
    · rcases List.mem_cons.mp h with h | h
      · right; exact ⟨a, by simp, by rw [h]⟩
      · rcases ih h with h | ⟨e', h1, h2⟩
        · exact Or.inl h
        · right; exact ⟨e', by simp [h1], h2⟩

theorem mem_push_name {m : HeaderMap} {n v : Bytes} {e : Header} (h : e ∈ m.push n v) :
    e.1 = n ∨ ∃ e' ∈ m, e'.1 = e.1 := by
  induction m with
  | nil => simp only [HeaderMap.push, List.mem_singleton] at h; left; rw [h]
  | cons a m ih =>
    unfold HeaderMap.push at h
    split at h
    · rcases List.mem_cons.mp h with h | h
      · right; exact ⟨a, by simp, by rw [h]⟩
      · right; exact ⟨e, by simp [h], rfl⟩
    · rcases List.mem_cons.mp h with h | h
      · right; exact ⟨a, by simp, by rw [h]⟩
      · rcases ih h with h | ⟨e', h1, h2⟩
        · exact Or.inl h
        · right; exact ⟨e', by simp [h1], h2⟩

theorem mem_remove {m : HeaderMap} {n : Bytes} {e : Header} (h : e ∈ (m.remove n).2) : e ∈ m := by
  induction m with
  | nil => simp [HeaderMap.remove] at h
  | cons a m ih =>
    unfold HeaderMap.remove at h
    split at h
    · exact List.mem_cons_of_mem _ h
    · rcases List.mem_cons.mp h with h | h
      · simp [h]
      · exact List.mem_cons_of_mem _ (ih h)

theorem distinct_insert {m : HeaderMap} (h : Distinct m) (n v : Bytes) : Distinct (m.insert n v) := by
  induction m with
  | nil => simp [HeaderMap.insert, Distinct]
  | cons a m ih =>
    unfold Distinct at h ih ⊢
    rw [List.pairwise_cons] at h
    unfold HeaderMap.insert
    split
    · rw [List.pairwise_cons]; exact h
    · rename_i hne
      rw [List.pairwise_cons]
      refine ⟨fun e he => ?_, ih h.2⟩
      rcases mem_insert_name he with h1 | ⟨e', h1, h2⟩
      · rw [h1]; simpa using hne
      · rw [← h2]; exact h.1 e' h1

theorem distinct_push {m : HeaderMap} (h : Distinct m) (n v : Bytes) : Distinct (m.push n v) := by
  induction m with
  | nil => simp [HeaderMap.push, Distinct]
  | cons a m ih =>
    unfold Distinct at h ih ⊢
    rw [List.pairwise_cons] at h
    unfold HeaderMap.push
    split
    · rw [List.pairwise_cons]; exact h
    · rename_i hne
      rw [List.pairwise_cons]
      refine ⟨fun e he => ?_, ih h.2⟩
      rcases mem_push_name he with h1 | ⟨e', h1, h2⟩
      · rw [h1]; simpa using hne
      · rw [← h2]; exact h.1 e' h1

theorem distinct_remove {m : HeaderMap} (h : Distinct m) (n : Bytes) : Distinct (m.remove n).2 := by
  induction m with
  | nil => simp [HeaderMap.remove, Distinct]
  | cons a m ih =>
    unfold Distinct at h ih ⊢
    rw [List.pairwise_cons] at h
    unfold HeaderMap.remove
    split
    · exact h.2
    · rw [List.pairwise_cons]
      exact ⟨fun e he => h.1 e (mem_remove he), ih h.2⟩

theorem distinct_run {m : HeaderMap} (h : Distinct m) (op : HeaderOp) : Distinct (op.run m) := by
  cases op with
  | insert n v => exact distinct_insert h n v
  | push n v => exact distinct_push h n v
  | remove n => exact distinct_remove h n
  | clear => exact List.Pairwise.nil

theorem distinct_foldl (ops : List HeaderOp) : ∀ m, Distinct m → Distinct (ops.foldl HeaderOp.run m) := by
  induction ops with
  | nil => exact fun _ h => h
  | cons op ops ih => exact fun m h => ih _ (distinct_run h op)

/-- No history makes two entries with equal names. -/
theorem distinct_runOps (ops : List HeaderOp) : Distinct (runOps ops) := distinct_foldl ops [] List.Pairwise.nil

/-! ## Refinement -/

/-- Lookups in `m` of names in `N` are those of `f`. -/
def Refines (N : Bytes → Prop) (m : HeaderMap) (f : AbsMap) : Prop :=
  (∀ e ∈ m, N e.1) ∧ Distinct m ∧ ∀ n, N n → m.get? n = f (lower n)

/-- Any two names in `N` are unambiguous. -/
def Clear (N : Bytes → Prop) : Prop := ∀ a b, N a → N b → Unambiguous a b

theorem nameEq_clear {N : Bytes → Prop} (hN : Clear N) {a b : Bytes} (ha : N a) (hb : N b) :
    nameEq a b = decide (lower a = lower b) := by
  by_cases h : lower a = lower b
  · rw [nameEq_of_lower h]; simp [h]
  · cases h2 : nameEq a b with
    | true => exact absurd (nameEq_unambiguous (hN a b ha hb) h2) h
    | false => simp [h]

theorem get?_eq_lower {N : Bytes → Prop} (hN : Clear N) (m : HeaderMap) (hm : ∀ e ∈ m, N e.1) {n n' : Bytes}
    (hn : N n) (hn' : N n') (h : lower n = lower n') : m.get? n = m.get? n' := by
  induction m with
  | nil => rfl
  | cons e m ih =>
    have he := hm e (by simp)
    rw [get?_cons, get?_cons, ih (fun x hx => hm x (by simp [hx])), nameEq_clear hN he hn, nameEq_clear hN he hn', h]

theorem get?_insert {N : Bytes → Prop} (hN : Clear N) (m : HeaderMap) (hm : ∀ e ∈ m, N e.1) {n k v : Bytes}
    (hn : N n) (hk : N k) : (m.insert n v).get? k = if lower k = lower n then some v else m.get? k := by
  induction m with
  | nil =>
    rw [HeaderMap.insert, get?_cons, nameEq_clear hN hn hk]
    simp [eq_comm]
  | cons e m ih =>
    have he := hm e (by simp)
    unfold HeaderMap.insert
    split
    · rename_i hen
      rw [nameEq_clear hN he hn, decide_eq_true_eq] at hen
      rw [get?_cons, get?_cons]
      simp only [nameEq_clear hN he hk, hen, decide_eq_true_eq]
      by_cases h : lower k = lower n
      · simp [h]
      · rw [if_neg (fun h' => h h'.symm), if_neg h, if_neg (fun h' => h h'.symm)]
    · rename_i hen
      rw [nameEq_clear hN he hn, decide_eq_true_eq] at hen
      rw [get?_cons, get?_cons, ih (fun x hx => hm x (by simp [hx])), nameEq_clear hN he hk]
      simp only [decide_eq_true_eq]
      by_cases h : lower k = lower n
      · rw [if_neg (fun h' => hen (h'.trans h)), if_pos h, if_pos h]
      · rw [if_neg h, if_neg h]

theorem get?_push {N : Bytes → Prop} (hN : Clear N) (m : HeaderMap) (hm : ∀ e ∈ m, N e.1) {n k v : Bytes}
    (hn : N n) (hk : N k) : (m.push n v).get? k =
      if lower k = lower n then some (match m.get? k with | some old => old ++ asciiBytes ";" ++ v | none => v)
      else m.get? k := by
  induction m with
  | nil =>
    rw [HeaderMap.push, get?_cons, nameEq_clear hN hn hk]
    simp [eq_comm, get?_nil]
  | cons e m ih =>
    have he := hm e (by simp)
    unfold HeaderMap.push
    split
    · rename_i hen
      rw [nameEq_clear hN he hn, decide_eq_true_eq] at hen
      rw [get?_cons, get?_cons]
      simp only [nameEq_clear hN he hk, hen, decide_eq_true_eq]
      by_cases h : lower k = lower n
      · simp only [h, if_true]; rfl
      · rw [if_neg (fun h' => h h'.symm), if_neg h, if_neg (fun h' => h h'.symm)]
    · rename_i hen
      rw [nameEq_clear hN he hn, decide_eq_true_eq] at hen
      rw [get?_cons, get?_cons, ih (fun x hx => hm x (by simp [hx])), nameEq_clear hN he hk]
      simp only [decide_eq_true_eq]
      by_cases h : lower k = lower n
      · rw [if_neg (fun h' => hen (h'.trans h)), if_pos h, if_pos h, if_neg (fun h' => hen (h'.trans h))]
      · rw [if_neg h, if_neg h]

theorem remove_value (m : HeaderMap) (n : Bytes) : (m.remove n).1 = m.get? n := by
  induction m with
  | nil => rfl
  | cons e m ih =>
    unfold HeaderMap.remove
    rw [get?_cons]
    split
    · rfl
    · exact ih

theorem get?_none_of {m : HeaderMap} {n : Bytes} (h : ∀ e ∈ m, nameEq e.1 n = false) : m.get? n = none := by
  induction m with
  | nil => rfl
  | cons e m ih =>
    rw [get?_cons, h e (by simp), ih (fun x hx => h x (by simp [hx]))]; simp

theorem get?_remove {N : Bytes → Prop} (hN : Clear N) (m : HeaderMap) (hm : ∀ e ∈ m, N e.1) (hd : Distinct m)
    {n k : Bytes} (hn : N n) (hk : N k) :
    (m.remove n).2.get? k = if lower k = lower n then none else m.get? k := by
  induction m with
  | nil => simp [HeaderMap.remove, get?_nil]
  | cons e m ih =>
    have he := hm e (by simp)
    unfold Distinct at hd
    rw [List.pairwise_cons] at hd
    have hm' : ∀ x ∈ m, N x.1 := fun x hx => hm x (by simp [hx])
    unfold HeaderMap.remove
    split
    · rename_i hen
      rw [nameEq_clear hN he hn, decide_eq_true_eq] at hen
      by_cases h : lower k = lower n
      · rw [if_pos h]
        apply get?_none_of
        intro x hx
        have := hd.1 x hx
        rw [nameEq_clear hN he (hm' x hx)] at this
        rw [nameEq_clear hN (hm' x hx) hk, h, ← hen]
        simp only [decide_eq_false_iff_not] at this ⊢
        exact fun h' => this h'.symm
      · rw [if_neg h, get?_cons, nameEq_clear hN he hk, hen]
        simp only [decide_eq_true_eq]
        rw [if_neg (fun h' => h h'.symm)]
    · rename_i hen
      rw [nameEq_clear hN he hn, decide_eq_true_eq] at hen
      simp only
      rw [get?_cons, get?_cons, ih hm' hd.2, nameEq_clear hN he hk]
      simp only [decide_eq_true_eq]
      by_cases h : lower k = lower n
      · rw [if_neg (fun h' => hen (h'.trans h)), if_pos h, if_pos h]
      · rw [if_neg h, if_neg h]

/-- The names of an operation are in `N`. -/
def OpIn (N : Bytes → Prop) : HeaderOp → Prop
  | .insert n _ => N n
  | .push n _ => N n
  | .remove n => N n
  | .clear => True

theorem refines_run {N : Bytes → Prop} (hN : Clear N) {m : HeaderMap} {f : AbsMap} (h : Refines N m f)
    (op : HeaderOp) (ho : OpIn N op) : Refines N (op.run m) (op.abs f) := by
  obtain ⟨h1, h2, h3⟩ := h
  refine ⟨?_, distinct_run h2 op, ?_⟩
  · intro e he
    cases op with
    | insert n v =>
      rcases mem_insert_name he with h | ⟨e', h4, h5⟩
      · rw [h]; exact ho
      · rw [← h5]; exact h1 e' h4
    | push n v =>
      rcases mem_push_name he with h | ⟨e', h4, h5⟩
      · rw [h]; exact ho
      · rw [← h5]; exact h1 e' h4
    | remove n => exact h1 e (mem_remove he)
    | clear => simp [HeaderOp.run, HeaderMap.clear] at he
  · intro k hk
    cases op with
    | insert n v => exact (get?_insert hN m h1 ho hk).trans (by rw [h3 k hk]; rfl)
    | push n v => exact (get?_push hN m h1 ho hk).trans (by rw [h3 k hk]; rfl)
    | remove n => exact (get?_remove hN m h1 h2 ho hk).trans (by rw [h3 k hk]; rfl)
    | clear => rfl

theorem refines_ops {N : Bytes → Prop} (hN : Clear N) (ops : List HeaderOp) :
    ∀ m f, Refines N m f → (∀ op ∈ ops, OpIn N op) → Refines N (ops.foldl HeaderOp.run m) (ops.foldl HeaderOp.abs f) := by
  induction ops with
  | nil => exact fun _ _ h _ => h
  | cons op ops ih =>
    intro m f h ho
    exact ih _ _ (refines_run hN h op (ho op (by simp))) (fun x hx => ho x (by simp [hx]))

theorem opIn_opNames (ops : List HeaderOp) (op : HeaderOp) (h : op ∈ ops) : OpIn (· ∈ opNames ops) op := by
  induction ops with
  | nil => simp at h
  | cons o ops ih =>
    rcases List.mem_cons.mp h with rfl | h
    · cases op <;> simp [OpIn, opNames]
    · have := ih h
      cases o <;> cases op <;> simp_all [OpIn, opNames]

/-! ## Search -/

theorem containsBytes_iff (v w : Bytes) : containsBytes v w = true ↔ w <:+: v := by
  unfold containsBytes
  split
  · rename_i h
    simp only [Bool.false_eq_true, false_iff]
    rintro ⟨p, s, rfl⟩
    simp at h; omega
  · rename_i h
    rw [List.any_eq_true]
    constructor
    · rintro ⟨i, _, hi⟩
      have hi := eq_of_beq hi
      refine ⟨v.take i, (v.drop i).drop w.length, ?_⟩
      have e : w ++ (v.drop i).drop w.length = v.drop i := by
        conv => lhs; arg 1; rw [← hi]
        exact List.take_append_drop _ _
      rw [List.append_assoc, e, List.take_append_drop]
    · rintro ⟨p, s, rfl⟩
      refine ⟨p.length, ?_, ?_⟩
      · rw [List.mem_range]; simp only [List.length_append]; omega
      · rw [List.append_assoc, List.drop_left, List.take_left]; simp

end Webparse
