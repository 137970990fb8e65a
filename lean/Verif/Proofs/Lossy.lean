import Verif.Spec.Lossy
import Verif.Proofs.Basic
import Verif.Proofs.Utf8Spec

/-! The model of `from_utf8_lossy` replaces the maximal subparts. -/

namespace Webparse
open Spec

theorem someSecond (b : UInt8) : 2 ≤ seqLen b → secondOk b (if b = 0xE0 ∨ b = 0xF0 then 0xA0 else 0x80) = true := by
  revert b; decide +kernel

/-- The beginning of a code point is known by what the model does with it. -/
theorem begins_iff (b : UInt8) (p : Bytes) :
    BeginsScalar (b :: p) ↔ ∃ q, utf8Next b (p ++ q) = .inl (p.length + q.length + 1) := by
  constructor
  · rintro ⟨c, q, hc, he⟩
    obtain ⟨b', r, h1, h2⟩ := scalar_next hc []
    rw [h1, List.cons_append, List.cons.injEq] at he
    obtain ⟨rfl, rfl⟩ := he
    rw [List.append_nil] at h2
    exact ⟨q, by rw [h2, List.length_append]⟩
  · rintro ⟨q, h⟩
    obtain ⟨c, hc, h1, -⟩ := next_scalar h
    rw [List.take_of_length_le (by simp)] at h1
    exact ⟨c, q, hc, by rw [← h1, List.cons_append]⟩

theorem begins_prefix {p q : Bytes} (h : BeginsScalar (p ++ q)) : BeginsScalar p := by
  obtain ⟨c, r, hc, he⟩ := h
  exact ⟨c, q ++ r, hc, by rw [he, List.append_assoc]⟩

theorem no_scalar {b : UInt8} {rest : Bytes} {n : Nat} (h : utf8Next b rest = .inr n) :
    ¬ ∃ c r, IsScalar c ∧ b :: rest = encodeScalar c ++ r := by
  rintro ⟨c, r, hc, he⟩
  obtain ⟨b', q, h1, h2⟩ := scalar_next hc r
  rw [h1, List.cons_append, List.cons.injEq] at he
  obtain ⟨rfl, rfl⟩ := he
  rw [h] at h2
  cases h2

theorem next_bad {b : UInt8} {rest : Bytes} {n : Nat} (h : utf8Next b rest = .inr n) :
    1 ≤ n ∧ n ≤ (b :: rest).length ∧ MaximalSubpart ((b :: rest).take n) ((b :: rest).drop n) := by
  suffices H : 1 ≤ n ∧ n ≤ (b :: rest).length ∧
      ((BeginsScalar ((b :: rest).take n) ∧ ∀ x r, (b :: rest).drop n = x :: r → ¬ BeginsScalar ((b :: rest).take n ++ [x])) ∨
        (n = 1 ∧ ¬ BeginsScalar [b])) by
    obtain ⟨h1, h2, h3⟩ := H
    refine ⟨h1, h2, by rw [List.take_append_drop]; exact no_scalar h, ?_⟩
    rcases h3 with ⟨h3, h4⟩ | ⟨rfl, h3⟩
    · exact Or.inl ⟨by cases n with
        | zero => omega
        | succ n => simp, h3, h4⟩
    · exact Or.inr ⟨b, rfl, h3⟩
  have hs := someSecond b
  rcases seqLen_cases b with ⟨h1, e⟩ | ⟨h1, h2, e⟩ | ⟨h1, h2, e⟩ | ⟨h1, h2, e⟩ | ⟨h1, e⟩
  · simp [utf8Next, e] at h
  · have hb : BeginsScalar [b] := (begins_iff b []).mpr ⟨[_], by
      simp [utf8Next, e]; exact hs (by omega)⟩
    cases rest with
    | nil =>
      simp only [utf8Next, e] at h; cases h
      exact ⟨by omega, by simp, Or.inl ⟨hb, by simp⟩⟩
    | cons c r =>
      simp only [utf8Next, e] at h
      split at h
      · cases h
      · rename_i hc
        cases h
        refine ⟨by omega, by simp, Or.inl ⟨hb, ?_⟩⟩
        intro x r' hx
        simp only [List.drop_succ_cons, List.drop_zero, List.cons.injEq] at hx
        obtain ⟨rfl, rfl⟩ := hx
        intro hg
        obtain ⟨q, hq⟩ := (begins_iff b [c]).mp hg
        simp [utf8Next, e, hc] at hq
  · have hb : BeginsScalar [b] := (begins_iff b []).mpr ⟨[(if b = 0xE0 ∨ b = 0xF0 then 0xA0 else 0x80), 0x80], by
      simp only [utf8Next, e, List.nil_append, hs (by omega), if_true]; rfl⟩
    cases rest with
    | nil =>
      simp only [utf8Next, e] at h; cases h
      exact ⟨by omega, by simp, Or.inl ⟨hb, by simp⟩⟩
    | cons c r =>
      simp only [utf8Next, e] at h
      split at h
      · rename_i hc
        have hb2 : BeginsScalar [b, c] := (begins_iff b [c]).mpr ⟨[0x80], by
          simp [utf8Next, e, hc]; decide⟩
        cases r with
        | nil =>
          cases h
          exact ⟨by omega, by simp, Or.inl ⟨hb2, by simp⟩⟩
        | cons d r =>
          simp only at h
          split at h
          · cases h
          · rename_i hd
            cases h
            refine ⟨by omega, by simp, Or.inl ⟨hb2, ?_⟩⟩
            intro x r' hx
            simp only [List.drop_succ_cons, List.drop_zero, List.cons.injEq] at hx
            obtain ⟨rfl, rfl⟩ := hx
            intro hg
            obtain ⟨q, hq⟩ := (begins_iff b [c, d]).mp hg
            simp [utf8Next, e, hc, hd] at hq
      · rename_i hc
        cases h
        refine ⟨by omega, by simp, Or.inl ⟨hb, ?_⟩⟩
        intro x r' hx
        simp only [List.drop_succ_cons, List.drop_zero, List.cons.injEq] at hx
        obtain ⟨rfl, rfl⟩ := hx
        intro hg
        obtain ⟨q, hq⟩ := (begins_iff b [c]).mp hg
        simp [utf8Next, e, hc] at hq
  · have hb : BeginsScalar [b] := (begins_iff b []).mpr ⟨[(if b = 0xE0 ∨ b = 0xF0 then 0xA0 else 0x80), 0x80, 0x80], by
      simp only [utf8Next, e, List.nil_append, hs (by omega), if_true]; rfl⟩
    cases rest with
    | nil =>
      simp only [utf8Next, e] at h; cases h
      exact ⟨by omega, by simp, Or.inl ⟨hb, by simp⟩⟩
    | cons c r =>
      simp only [utf8Next, e] at h
      split at h
      · rename_i hc
        have hb2 : BeginsScalar [b, c] := (begins_iff b [c]).mpr ⟨[0x80, 0x80], by
          simp [utf8Next, e, hc]; decide⟩
        cases r with
        | nil =>
          cases h
          exact ⟨by omega, by simp, Or.inl ⟨hb2, by simp⟩⟩
        | cons d r =>
          simp only at h
          split at h
          · rename_i hd
            have hb3 : BeginsScalar [b, c, d] := (begins_iff b [c, d]).mpr ⟨[0x80], by
              simp [utf8Next, e, hc, hd]; decide⟩
            cases r with
            | nil =>
              cases h
              exact ⟨by omega, by simp, Or.inl ⟨hb3, by simp⟩⟩
            | cons f r =>
              simp only at h
              split at h
              · cases h
              · rename_i hf
                cases h
                refine ⟨by omega, by simp, Or.inl ⟨hb3, ?_⟩⟩
                intro x r' hx
                simp only [List.drop_succ_cons, List.drop_zero, List.cons.injEq] at hx
                obtain ⟨rfl, rfl⟩ := hx
                intro hg
                obtain ⟨q, hq⟩ := (begins_iff b [c, d, f]).mp hg
                simp [utf8Next, e, hc, hd, hf] at hq
          · rename_i hd
            cases h
            refine ⟨by omega, by simp, Or.inl ⟨hb2, ?_⟩⟩
            intro x r' hx
            simp only [List.drop_succ_cons, List.drop_zero, List.cons.injEq] at hx
            obtain ⟨rfl, rfl⟩ := hx
            intro hg
            obtain ⟨q, hq⟩ := (begins_iff b [c, d]).mp hg
            simp [utf8Next, e, hc, hd] at hq
      · rename_i hc
        cases h
        refine ⟨by omega, by simp, Or.inl ⟨hb, ?_⟩⟩
        intro x r' hx
        simp only [List.drop_succ_cons, List.drop_zero, List.cons.injEq] at hx
        obtain ⟨rfl, rfl⟩ := hx
        intro hg
        obtain ⟨q, hq⟩ := (begins_iff b [c]).mp hg
        simp [utf8Next, e, hc] at hq
  · simp only [utf8Next, e] at h
    cases h
    refine ⟨by omega, by simp, Or.inr ⟨rfl, ?_⟩⟩
    intro hg
    obtain ⟨q, hq⟩ := (begins_iff b []).mp hg
    simp [utf8Next, e] at hq

/-- There is one maximal subpart at each place. -/
theorem subpart_unique {p s p' s' : Bytes} (h : MaximalSubpart p s) (h' : MaximalSubpart p' s') (e : p ++ s = p' ++ s') : p = p' := by
  have key : ∀ {p s p' s' : Bytes}, MaximalSubpart p s → MaximalSubpart p' s' → p ++ s = p' ++ s' → ∀ z, p' = p ++ z → z = [] := by
    intro p s p' s' h h' e z hz
    cases z with
    | nil => rfl
    | cons x z =>
      exfalso
      subst hz
      rw [List.append_assoc, List.append_cancel_left_eq] at e
      rcases h'.2 with ⟨-, hb, -⟩ | ⟨y, hy, -⟩
      · rcases h.2 with ⟨-, -, hm⟩ | ⟨y, rfl, hn⟩
        · refine hm x (z ++ s') e ?_
          have : p ++ x :: z = (p ++ [x]) ++ z := by simp
          rw [this] at hb
          exact begins_prefix hb
        · exact hn (begins_prefix hb)
      · rcases h.2 with ⟨hp, -⟩ | ⟨w, rfl, -⟩
        · cases p with
          | nil => exact hp rfl
          | cons a p => simp at hy
        · simp at hy
  rcases List.append_eq_append_iff.mp e with ⟨z, h1, -⟩ | ⟨z, h1, -⟩
  · rw [h1, key h h' e z h1, List.append_nil]
  · rw [h1, key h' h e.symm z h1, List.append_nil]

theorem fffd : encodeScalar 0xFFFD = [0xEF, 0xBF, 0xBD] := by decide

theorem fffd_scalar : IsScalar 0xFFFD := by unfold IsScalar; omega

theorem lossyAux_textOf (fuel : Nat) : ∀ b : Bytes, b.length ≤ fuel → TextOf b (utf8LossyAux fuel b) := by
  induction fuel with
  | zero =>
    intro b h
    cases b with
    | nil => exact .nil
    | cons x r => simp at h
  | succ fuel ih =>
    intro b hb
    cases b with
    | nil => exact .nil
    | cons x r =>
      simp only [utf8LossyAux]
      split
      · rename_i n hn
        obtain ⟨c, h1, h2, h3, h4⟩ := next_scalar hn
        have := TextOf.scalar h1 (ih ((x :: r).drop n) (by rw [List.length_drop]; simp only [List.length_cons] at hb ⊢; omega))
        rw [← h2, List.take_append_drop] at this
        exact this
      · rename_i n hn
        obtain ⟨h1, h2, h3⟩ := next_bad hn
        have := TextOf.bad h3 (ih ((x :: r).drop n) (by rw [List.length_drop]; simp only [List.length_cons] at hb ⊢; omega))
        rw [List.take_append_drop, fffd] at this
        exact this

theorem subpart_ne {p s : Bytes} (h : MaximalSubpart p s) : p ≠ [] := by
  rcases h.2 with ⟨h, -⟩ | ⟨x, rfl, -⟩
  · exact h
  · simp

theorem textOf_lossyAux {b t : Bytes} (h : TextOf b t) : ∀ fuel, b.length ≤ fuel → utf8LossyAux fuel b = t := by
  induction h with
  | nil => intro fuel _; cases fuel <;> rfl
  | @scalar c s t hc _ ih =>
    intro fuel hf
    obtain ⟨b, r, h1, h2⟩ := scalar_next hc s
    rw [h1] at hf ⊢
    cases fuel with
    | zero => simp at hf
    | succ fuel =>
      rw [List.cons_append]
      simp only [utf8LossyAux, h2]
      rw [List.take_succ_cons, List.take_left, List.drop_succ_cons, List.drop_left, ih fuel (by
        simp only [List.cons_append, List.length_cons, List.length_append] at hf; omega)]
  | @bad p s t hp _ ih =>
    intro fuel hf
    cases p with
    | nil => exact absurd rfl (subpart_ne hp)
    | cons b p =>
      cases fuel with
      | zero => simp at hf
      | succ fuel =>
        rw [List.cons_append]
        simp only [utf8LossyAux]
        split
        · rename_i n hn
          obtain ⟨c, h1, h2, -⟩ := next_scalar hn
          exact absurd ⟨c, _, h1, by rw [← h2, List.take_append_drop]; rfl⟩ hp.1
        · rename_i n hn
          obtain ⟨-, h2, h3⟩ := next_bad hn
          have e := subpart_unique hp h3 (by rw [List.take_append_drop]; rfl)
          have e2 : (b :: (p ++ s)).drop n = s := by
            have := List.take_append_drop n (b :: (p ++ s))
            rw [← e, ← List.cons_append, List.append_cancel_left_eq] at this
            exact this
          rw [e2, ih fuel (by simp only [List.cons_append, List.length_cons, List.length_append] at hf; omega), fffd]

/-- `from_utf8_lossy` makes the text of the bytes, and there is only one. -/
theorem textOf_iff (b t : Bytes) : TextOf b t ↔ t = utf8Lossy b := by
  constructor
  · intro h; exact (textOf_lossyAux h _ (Nat.le_refl _)).symm
  · rintro rfl; exact lossyAux_textOf _ b (Nat.le_refl _)

theorem textIs_iff (a o : Option Bytes) : TextIs a o ↔ o = a.map utf8Lossy := by
  cases a with
  | none => exact Iff.rfl
  | some b =>
    constructor
    · rintro ⟨t, h, rfl⟩; rw [Option.map_some, (textOf_iff b t).mp h]
    · rintro rfl; exact ⟨_, (textOf_iff b _).mpr rfl, rfl⟩

theorem encodeScalar_injective {c d : Nat} (hc : IsScalar c) (hd : IsScalar d) (h : encodeScalar c = encodeScalar d) : c = d := by
  unfold IsScalar at hc hd
  unfold encodeScalar at h
  repeat' split at h
  all_goals simp only [List.cons.injEq, reduceCtorEq, and_false, and_true, ← UInt8.toNat_inj, UInt8.toNat_ofNat'] at h
  all_goals omega

theorem scalars_injective : ∀ cs ds : List Nat, (∀ c ∈ cs, IsScalar c) → (∀ c ∈ ds, IsScalar c) →
    cs.flatMap encodeScalar = ds.flatMap encodeScalar → cs = ds := by
  have inj : ∀ {c d : Nat} (s t : Bytes), IsScalar c → IsScalar d → encodeScalar c ++ s = encodeScalar d ++ t → c = d ∧ s = t := by
    intro c d s t hc hd e
    obtain ⟨b, r, h1, h2⟩ := scalar_next hc s
    obtain ⟨b', r', h1', h2'⟩ := scalar_next hd t
    have e0 := e
    rw [h1, h1', List.cons_append, List.cons_append, List.cons.injEq] at e
    obtain ⟨rfl, e⟩ := e
    rw [e, h2'] at h2
    have hl : r'.length = r.length := by injection h2 with h2; omega
    obtain ⟨rfl, rfl⟩ := List.append_inj e hl.symm
    refine ⟨?_, rfl⟩
    have he : encodeScalar c = encodeScalar d := by rw [h1, h1']
    exact encodeScalar_injective hc hd he
  intro cs
  induction cs with
  | nil =>
    intro ds _ hd e
    cases ds with
    | nil => rfl
    | cons d ds =>
      obtain ⟨b, r, h1, -⟩ := scalar_next (hd d (by simp)) []
      simp [h1] at e
  | cons c cs ih =>
    intro ds hc hd e
    cases ds with
    | nil =>
      obtain ⟨b, r, h1, -⟩ := scalar_next (hc c (by simp)) []
      simp [h1] at e
    | cons d ds =>
      rw [List.flatMap_cons, List.flatMap_cons] at e
      obtain ⟨rfl, e'⟩ := inj _ _ (hc c (by simp)) (hd d (by simp)) e
      rw [ih ds (fun x hx => hc x (List.mem_cons_of_mem _ hx)) (fun x hx => hd x (List.mem_cons_of_mem _ hx)) e']

end Webparse
