import Verif.Model.HeaderCost
import Verif.Props.HeaderMap
import Verif.Props.MapEq
import Verif.Props.Http1
import Verif.Proofs.Streams

/-! # C132: the work of reading header lines -/

namespace Webparse
open Spec

/-- C132: the number of names that are compared while header lines are read is at most in proportion to the number of bytes. -/
def C132_statement : Prop := ∃ c, ∀ buf : Bytes, headerComparisons buf ≤ c * (buf.length + 1)

theorem insertCost_fresh (m : HeaderMap) (n : Bytes) (h : ∀ e ∈ m, nameEq e.1 n = false) : m.insertCost n = m.length := by
  induction m with
  | nil => rfl
  | cons e m ih =>
    rw [HeaderMap.insertCost, h e (by simp), ih fun x hx => h x (by simp [hx])]
    simp [Nat.add_comm]

theorem insertCost_le (m : HeaderMap) (n : Bytes) : m.insertCost n ≤ m.length := by
  induction m with
  | nil => exact Nat.le_refl _
  | cons e m ih =>
    rw [HeaderMap.insertCost, List.length_cons]
    split <;> omega

theorem insert_length_le (m : HeaderMap) (n v : Bytes) : (m.insert n v).length ≤ m.length + 1 := by
  induction m with
  | nil => simp [HeaderMap.insert]
  | cons e m ih =>
    rw [HeaderMap.insert]
    split <;> simp only [List.length_cons] <;> omega

theorem cost_encode (hs : HeaderMap) (r : Bytes) : ∀ (k : Nat) (m : HeaderMap), (∀ h ∈ hs, LineHeader h) → k > hs.length →
    (∀ h ∈ hs, ∀ e ∈ m, nameEq e.1 h.1 = false) → Distinct hs →
    2 * parseHeaderCost k m (hs.encode ++ r) + hs.length = hs.length * (2 * m.length + hs.length) := by
  induction hs with
  | nil =>
    intro k m _ hk _ _
    obtain ⟨k, rfl⟩ : ∃ j, k = j + 1 := ⟨k - 1, by simp at hk; omega⟩
    rw [parseHeaderCost, HeaderMap.encode, parseHeaderLine_end]
    simp
  | cons h hs ih =>
    intro k m hh hk hm hd
    simp only [List.length_cons] at hk
    obtain ⟨k, rfl⟩ : ∃ j, k = j + 1 := ⟨k - 1, by omega⟩
    unfold Distinct at hd
    rw [List.pairwise_cons] at hd
    rw [parseHeaderCost, HeaderMap.encode]
    rw [show h.1 ++ [58, 32] ++ h.2 ++ [13, 10] ++ HeaderMap.encode hs ++ r =
      h.1 ++ [58, 32] ++ h.2 ++ [13, 10] ++ (HeaderMap.encode hs ++ r) from by simp]
    rw [parseHeaderLine_eq (hh h (by simp))]
    simp only
    rw [insertCost_fresh m h.1 (hm h (by simp)), insert_fresh m h.1 _ (hm h (by simp))]
    have := ih k (m ++ [(h.1, trimLeft h.2)]) (fun x hx => hh x (by simp [hx])) (by omega) (by
      intro x hx e he
      rcases List.mem_append.mp he with he | he
      · exact hm x (by simp [hx]) e he
      · rw [List.mem_singleton.mp he]; exact hd.1 x hx) hd.2
    simp only [List.length_append, List.length_cons, List.length_nil] at this ⊢
    have e1 : hs.length * (2 * (m.length + (0 + 1)) + hs.length) = hs.length * (2 * m.length + hs.length) + 2 * hs.length := by
      rw [← Nat.mul_comm hs.length 2, ← Nat.mul_add]; congr 1; omega
    have e2 : (hs.length + 1) * (2 * m.length + (hs.length + 1)) =
        hs.length * (2 * m.length + hs.length) + hs.length + (2 * m.length + (hs.length + 1)) := by
      rw [Nat.add_mul, Nat.one_mul, ← Nat.add_assoc (2 * m.length), Nat.mul_add, Nat.mul_one]
    rw [e1] at this
    rw [e2]
    omega

/-- Exactly, for header lines with names that differ: each name is compared with all before it, so `k` lines need
`k * (k - 1) / 2` comparisons, whatever follows. -/
theorem C132_exact_partial (hs : HeaderMap) (rest : Bytes) (hh : ∀ h ∈ hs, LineHeader h)
    (hd : hs.Pairwise fun a b => nameEq a.1 b.1 = false) :
    2 * headerComparisons (hs.encode ++ rest) = hs.length * (hs.length - 1) := by
  have := cost_encode hs rest ((hs.encode ++ rest).length + 1) [] hh (by
    have := encode_length_ge hs; rw [List.length_append]; omega) (by simp) hd
  unfold headerComparisons
  simp only [List.length_nil, Nat.mul_zero, Nat.zero_add] at this
  rw [Nat.mul_sub, Nat.mul_one]
  omega

/-- Names of `l` letters: all that are made of `a` and `b`. -/
def letterNames : Nat → List Bytes
  | 0 => [[]]
  | l + 1 => (letterNames l).map (97 :: ·) ++ (letterNames l).map (98 :: ·)

theorem letterNames_spec (l : Nat) : (letterNames l).length = 2 ^ l ∧ (letterNames l).Nodup ∧
    ∀ n ∈ letterNames l, n.length = l ∧ ∀ b ∈ n, b = 97 ∨ b = 98 := by
  induction l with
  | zero => exact ⟨rfl, by simp [letterNames], by simp [letterNames]⟩
  | succ l ih =>
    obtain ⟨h1, h2, h3⟩ := ih
    have hinj : ∀ c : UInt8, ((letterNames l).map (c :: ·)).Nodup := by
      intro c
      rw [List.Nodup, List.pairwise_map]
      exact h2.imp fun h h' => h (by simpa using h')
    refine ⟨by simp [letterNames, h1, Nat.pow_succ]; omega, ?_, ?_⟩
    · rw [letterNames, List.nodup_append]
      refine ⟨hinj 97, hinj 98, ?_⟩
      intro a ha b hb e
      obtain ⟨x, -, rfl⟩ := List.mem_map.mp ha
      obtain ⟨y, -, rfl⟩ := List.mem_map.mp hb
      simp at e
    · intro n hn
      rw [letterNames, List.mem_append] at hn
      rcases hn with hn | hn
      all_goals
        obtain ⟨x, hx, rfl⟩ := List.mem_map.mp hn
        have := h3 x hx
        refine ⟨by simp [this.1], fun b hb => ?_⟩
        rcases List.mem_cons.mp hb with rfl | hb
        · simp
        · exact this.2 b hb

/-- Header lines with these names and no values. -/
def letterHeaders (l : Nat) : HeaderMap := (letterNames l).map fun n => (n, [])

theorem encode_length_const (hs : HeaderMap) (l : Nat) (h : ∀ e ∈ hs, e.1.length = l ∧ e.2 = []) :
    hs.encode.length = hs.length * (l + 4) + 2 := by
  induction hs with
  | nil => simp [HeaderMap.encode]
  | cons e hs ih =>
    have he := h e (by simp)
    rw [HeaderMap.encode]
    simp only [List.length_append, List.length_cons, List.length_nil, he.1, he.2, ih fun x hx => h x (by simp [hx]), Nat.add_mul, Nat.one_mul]
    omega

theorem letterHeaders_ok (l : Nat) (hl : 0 < l) : (∀ h ∈ letterHeaders l, LineHeader h) ∧ Distinct (letterHeaders l) := by
  obtain ⟨h1, h2, h3⟩ := letterNames_spec l
  constructor
  · intro h hh
    obtain ⟨n, hn, rfl⟩ := List.mem_map.mp hh
    have := h3 n hn
    refine ⟨fun e => ?_, fun b hb => ?_, by simp⟩
    · simp only at e
      rw [e] at this
      simp at this
      omega
    · rcases this.2 b hb with rfl | rfl <;> decide +kernel
  · unfold Distinct letterHeaders
    rw [List.pairwise_map]
    refine List.Pairwise.imp_of_mem ?_ h2
    intro a b ha hb hab
    rw [Bool.eq_false_iff]
    intro h
    have hlet : ∀ {n : Bytes}, n ∈ letterNames l → ∀ x ∈ n, isLetter x = true := by
      intro n hn x hx
      rcases (h3 n hn).2 x hx with rfl | rfl <;> decide +kernel
    have hlow : ∀ {n : Bytes}, n ∈ letterNames l → lower n = n := by
      intro n hn
      unfold lower
      conv => rhs; rw [← List.map_id n]
      apply List.map_congr_left
      intro x hx
      rcases (h3 n hn).2 x hx with rfl | rfl <;> decide +kernel
    have := nameEq_unambiguous (unambiguous_letters (hlet ha) (hlet hb)) h
    rw [hlow ha, hlow hb] at this
    exact hab this

/-- For every factor there are header lines, all of them accepted, that need more comparisons than that many times their
length. -/
theorem C132_violated_always (c : Nat) : ∃ buf m, parseHeader [] buf = (.ok (), m, []) ∧ c * (buf.length + 1) < headerComparisons buf := by
  obtain ⟨j, hj⟩ : ∃ j, j = 4 * c + 13 := ⟨_, rfl⟩
  obtain ⟨l, hl⟩ : ∃ l, l = 2 * j := ⟨_, rfl⟩
  obtain ⟨hh, hd⟩ := letterHeaders_ok l (by omega)
  have hlen : (letterHeaders l).length = 2 ^ l := by simp [letterHeaders, (letterNames_spec l).1]
  have hbytes := encode_length_const (letterHeaders l) l (by
    intro e he
    obtain ⟨n, hn, rfl⟩ := List.mem_map.mp he
    exact ⟨((letterNames_spec l).2.2 n hn).1, rfl⟩)
  have hp := parseHeader_encode _ hd hh [] []
  have hx := C132_exact_partial (letterHeaders l) [] hh hd
  rw [List.append_nil] at hp hx
  refine ⟨_, _, hp, ?_⟩
  rw [hbytes, hlen]
  rw [hlen] at hx
  have hpow : (j + 1) * (j + 1) ≤ 2 ^ l := by
    have h1 : j + 1 ≤ 2 ^ j := Nat.lt_two_pow_self
    calc (j + 1) * (j + 1) ≤ 2 ^ j * 2 ^ j := Nat.mul_le_mul h1 h1
      _ = 2 ^ l := by rw [← Nat.pow_add]; congr 1; omega
  have hbig : 2 * c * (l + 7) + 1 < 2 ^ l := by
    refine Nat.lt_of_lt_of_le ?_ hpow
    have e1 : (j + 1) * (j + 1) = (4 * c) * (j + 1) + 14 * (j + 1) := by
      rw [← Nat.add_mul]; congr 1; omega
    have e2 : 2 * c * (l + 7) = (4 * c) * (j + 1) + 10 * c := by
      rw [hl, Nat.mul_add, Nat.mul_add, Nat.mul_one, ← Nat.mul_assoc (2 * c) 2 j, Nat.mul_right_comm 2 c 2, show 2 * 2 * c = 4 * c from by omega]
      omega
    rw [e1, e2]
    omega
  generalize 2 ^ l = k at *
  have h1 : k * (2 * c * (l + 7) + 1) ≤ k * (k - 1) := Nat.mul_le_mul_left k (by omega)
  rw [← hx] at h1
  have h2 : 2 * (c * (k * (l + 4) + 2 + 1)) ≤ k * (2 * c * (l + 7)) := by
    have a : k * (2 * c * (l + 7)) = 2 * (c * (k * (l + 4) + k * 3)) := by
      rw [← Nat.mul_add, Nat.add_assoc, ← Nat.mul_assoc 2 c, Nat.mul_left_comm]
    rw [a]
    exact Nat.mul_le_mul_left _ (Nat.mul_le_mul_left _ (by omega))
  rw [Nat.mul_add, Nat.mul_one] at h1
  omega

theorem C132_violated : ¬ C132_statement := by
  rintro ⟨c, h⟩
  obtain ⟨buf, -, -, hb⟩ := C132_violated_always c
  exact absurd (h buf) (by omega)

theorem cost_le : ∀ (k : Nat) (m : HeaderMap) (buf : Bytes), parseHeaderCost k m buf ≤ buf.length * (m.length + buf.length) := by
  intro k
  induction k with
  | zero => intro m buf; exact Nat.zero_le _
  | succ k ih =>
    intro m buf
    rw [parseHeaderCost]
    split
    · rename_i h r hl
      have hs : r.length < buf.length := parseHeaderLine_shrinks hl
      have h1 := insertCost_le m h.1
      have h2 := ih (m.insert h.1 h.2) r
      have h3 := insert_length_le m h.1 h.2
      have h4 : r.length * ((m.insert h.1 h.2).length + r.length) ≤ r.length * (m.length + buf.length) :=
        Nat.mul_le_mul_left _ (by omega)
      have h5 : (r.length + 1) * (m.length + buf.length) ≤ buf.length * (m.length + buf.length) := Nat.mul_le_mul_right _ hs
      rw [Nat.add_mul, Nat.one_mul] at h5
      omega
    · exact Nat.zero_le _

/-- For any bytes the number of comparisons is at most the square of their number; missing for C132: a bound in proportion
to it, which there is not. -/
theorem C132_square_partial (buf : Bytes) : headerComparisons buf ≤ buf.length * buf.length := by
  have := cost_le (buf.length + 1) [] buf
  unfold headerComparisons
  simpa using this

/-- Inserting compares the name with those of the map in turn, up to and with the first that is taken for the same. -/
theorem C132_insert_exact (m : HeaderMap) (n : Bytes) :
    m.insertCost n = min m.length (m.findIdx (fun e => nameEq e.1 n) + 1) := by
  induction m with
  | nil => rfl
  | cons e m ih =>
    rw [HeaderMap.insertCost, List.findIdx_cons, List.length_cons]
    cases h : nameEq e.1 n with
    | true => simp
    | false => simp only [Bool.false_eq_true, if_false, cond_false, ih]; omega

theorem insert_names {m : HeaderMap} {n v : Bytes} {D : List Bytes} (hm : ∀ e ∈ m, e.1 ∈ D) (hn : n ∈ D) :
    ∀ e ∈ m.insert n v, e.1 ∈ D := by
  intro e he
  rcases mem_insert_name he with h | ⟨e', h4, h5⟩
  · rw [h]; exact hn
  · rw [← h5]; exact hm e' h4

theorem distinct_few {m : HeaderMap} {D : List Bytes} (hd : Distinct m) (hm : ∀ e ∈ m, e.1 ∈ D) : m.length ≤ D.length := by
  have := nodup_length (m.map (·.1)) D (by
    rw [List.Nodup, List.pairwise_map]
    refine List.Pairwise.imp ?_ hd
    intro a b hab e
    rw [e, nameEq_refl] at hab
    cases hab) (by
    intro x hx
    obtain ⟨e, he, rfl⟩ := List.mem_map.mp hx
    exact hm e he)
  simpa using this

/-- Where all names are among the names `D`, the work is in proportion to the number of lines; missing for C132: any number
of names. -/
theorem C132_few_names_partial (D : List Bytes) (hs : HeaderMap) (rest : Bytes) (hh : ∀ h ∈ hs, LineHeader h)
    (hD : ∀ h ∈ hs, h.1 ∈ D) : headerComparisons (hs.encode ++ rest) ≤ D.length * hs.length := by
  have : ∀ (k : Nat) (m : HeaderMap), Distinct m → (∀ e ∈ m, e.1 ∈ D) →
      parseHeaderCost k m (hs.encode ++ rest) ≤ D.length * hs.length := by
    induction hs with
    | nil =>
      intro k m _ _
      cases k with
      | zero => exact Nat.zero_le _
      | succ k =>
        rw [parseHeaderCost, HeaderMap.encode, parseHeaderLine_end]
        exact Nat.zero_le _
    | cons h hs ih =>
      intro k m hd hm
      cases k with
      | zero => exact Nat.zero_le _
      | succ k =>
        rw [parseHeaderCost, HeaderMap.encode]
        rw [show h.1 ++ [58, 32] ++ h.2 ++ [13, 10] ++ HeaderMap.encode hs ++ rest =
          h.1 ++ [58, 32] ++ h.2 ++ [13, 10] ++ (HeaderMap.encode hs ++ rest) from by simp]
        rw [parseHeaderLine_eq (hh h (by simp))]
        simp only
        have h1 := ih (fun x hx => hh x (by simp [hx])) (fun x hx => hD x (by simp [hx])) k (m.insert h.1 (trimLeft h.2))
          (distinct_insert hd _ _) (insert_names hm (hD h (by simp)))
        have h2 := insertCost_le m h.1
        have h3 := distinct_few hd hm
        rw [List.length_cons, Nat.mul_add, Nat.mul_one]
        omega
  exact this _ [] List.Pairwise.nil (by simp)

example : headerComparisons (asciiBytes "a:1\r\nb:2\r\nA:3\r\n\r\n") = 2 := by decide +kernel
example : (∀ h ∈ letterHeaders 1, LineHeader h) ∧ (letterHeaders 1).Pairwise fun a b => nameEq a.1 b.1 = false :=
  letterHeaders_ok 1 (by decide)
example : ∀ h ∈ letterHeaders 1, h.1 ∈ letterNames 1 := by decide +kernel

end Webparse
