import Verif.Proofs.UrlParse

/-! Invariants of the loop of `Url::parse`. -/

namespace Webparse
open Spec

/-- A property of the state kept by every step that succeeds holds at the end. -/
theorem steps_inv {P : UrlState → Bytes → Prop} {Q : UrlState → UInt8 → Prop}
    (hstep : ∀ s s' seen b, P s seen → Q s b → s.step b = .ok s' → P s' (seen ++ [b])) :
    ∀ (x : Bytes) (s s' : UrlState) (seen : Bytes), P s seen →
      (∀ pre b post t, x = pre ++ b :: post → s.steps pre = .ok t → Q t b) → s.steps x = .ok s' → P s' (seen ++ x) := by
  intro x
  induction x with
  | nil =>
    intro s s' seen h _ e
    simp only [UrlState.steps, Res.ok.injEq] at e
    subst e
    simpa using h
  | cons b r ih =>
    intro s s' seen h hq e
    rw [UrlState.steps, Res.bind_eq_ok] at e
    obtain ⟨t, h1, h2⟩ := e
    have := ih t s' (seen ++ [b]) (hstep s t seen b h (hq [] b r s rfl rfl) h1) (fun pre c post w hx hw =>
      hq (b :: pre) c post w (by rw [hx]; rfl) (by rw [steps_cons_ok h1]; exact hw)) h2
    simpa using this

theorem run_ok {s st : UrlState} {x : Bytes} (h : s.run x = .ok st) : ∃ s', s.steps x = .ok s' ∧ st = s'.finish := by
  rw [run_eq, Res.bind_eq_ok] at h
  obtain ⟨s', h1, h2⟩ := h
  simp only [Res.ok.injEq] at h2
  exact ⟨s', h1, h2.symm⟩

/-! ## Where the first slash is -/

theorem step_slash {s s' : UrlState} {b : UInt8} (h : s.step b = .ok s') :
    s'.isFirstSlash = (s.isFirstSlash || b == 47) ∧ s'.hasDomain = s.hasDomain := by
  unfold UrlState.step at h
  (repeat' split at h) <;> first
    | (simp only [Res.ok.injEq] at h; subst h; simp_all)
    | simp at h

theorem steps_slash {s s' : UrlState} {x : Bytes} (h : s.steps x = .ok s') :
    s'.isFirstSlash = (s.isFirstSlash || x.contains 47) ∧ s'.hasDomain = s.hasDomain := by
  induction x generalizing s with
  | nil =>
    simp only [UrlState.steps, Res.ok.injEq] at h
    subst h
    simp
  | cons b r ih =>
    rw [UrlState.steps, Res.bind_eq_ok] at h
    obtain ⟨t, h1, h2⟩ := h
    obtain ⟨e1, e2⟩ := ih h2
    obtain ⟨e3, e4⟩ := step_slash h1
    rw [e1, e2, e3, e4]
    refine ⟨?_, rfl⟩
    rw [List.contains_cons, Bool.or_assoc]
    congr 2
    rw [Bool.eq_iff_iff, beq_iff_eq, beq_iff_eq]
    exact eq_comm

/-! ## Parts are pieces of the input -/

/-- The parts of the state are substrings of what has been read, and the current one ends there. -/
structure Pieces (s : UrlState) (seen : Bytes) : Prop where
  val : s.val <:+ seen
  username : ∀ x, s.username = some x → x <:+: seen
  password : ∀ x, s.password = some x → x <:+: seen
  domain : ∀ x, s.domain = some x → x <:+: seen
  port : ∀ x, s.port = some x → x <:+: seen
  path : ∀ x, s.path = some x → x <:+: seen
  query : ∀ x, s.query = some x → x <:+: seen

theorem infix_snoc {x y : Bytes} (b : UInt8) (h : x <:+: y) : x <:+: y ++ [b] :=
  h.trans (List.prefix_append y [b]).isInfix

theorem suffix_snoc {x y : Bytes} (b : UInt8) (h : x <:+ y) : x ++ [b] <:+ y ++ [b] := by
  obtain ⟨t, rfl⟩ := h; exact ⟨t, by simp⟩

theorem pieces_step (s s' : UrlState) (seen : Bytes) (b : UInt8) (h : Pieces s seen)
    (hq : b ≠ 63 ∨ s.isFirstSlash = true) (e : s.step b = .ok s') : Pieces s' (seen ++ [b]) := by
  have hv : ∀ x, s.val = x → x <:+: seen ++ [b] := fun x hx => by rw [← hx]; exact infix_snoc b h.val.isInfix
  have h0 : ([] : Bytes) <:+ seen ++ [b] := List.nil_suffix
  have hb : [b] <:+ seen ++ [b] := List.suffix_append seen [b]
  have hvb := suffix_snoc b h.val
  have i1 := fun x hx => infix_snoc b (h.username x hx)
  have i2 := fun x hx => infix_snoc b (h.password x hx)
  have i3 := fun x hx => infix_snoc b (h.domain x hx)
  have i4 := fun x hx => infix_snoc b (h.port x hx)
  have i5 := fun x hx => infix_snoc b (h.path x hx)
  have i6 := fun x hx => infix_snoc b (h.query x hx)
  unfold UrlState.step at e
  by_cases h63 : b = 63
  · have hs : s.isFirstSlash = true := by
      rcases hq with hq | hq
      · exact absurd h63 hq
      · exact hq
    subst h63
    rw [hs] at e
    simp only [show ¬ (63 : UInt8) = 58 by decide, show ¬ (63 : UInt8) = 64 by decide, show ¬ (63 : UInt8) = 47 by decide,
      if_false, if_true, Bool.not_true, Bool.false_eq_true] at e
    split at e <;> (simp only [Res.ok.injEq] at e; subst e; constructor <;>
      first | assumption | (intro x hx; simp only [Option.some.injEq] at hx; exact hv x hx))
  · rw [if_neg h63] at e
    (repeat' split at e) <;> first
      | (simp at e; done)
      | (simp only [Res.ok.injEq] at e; subst e; constructor <;>
          first | assumption | (intro x hx; simp only [Option.some.injEq] at hx; exact hv x hx) | (intro x hx; simp at hx))

theorem pieces_finish {s : UrlState} {seen : Bytes} (h : Pieces s seen) : Pieces s.finish seen := by
  have hv : ∀ x, s.val = x → x <:+: seen := fun x hx => by rw [← hx]; exact h.val.isInfix
  have h0 : ([] : Bytes) <:+ seen := List.nil_suffix
  obtain ⟨-, i1, i2, i3, i4, i5, i6⟩ := h
  unfold UrlState.finish
  (repeat' split) <;> (constructor <;>
    first | assumption | (intro x hx; simp only [Option.some.injEq] at hx; exact hv x hx))

theorem pieces_run {s st : UrlState} {x : Bytes} (h0 : s.username = none ∧ s.password = none ∧ s.domain = none ∧ s.port = none ∧ s.path = none ∧
      s.query = none ∧ s.val = []) (h : s.run x = .ok st)
    (hq : s.isFirstSlash = true ∨ ∀ b ∈ x.takeWhile (· != 47), b ≠ 63) : Pieces st x := by
  obtain ⟨s', h1, rfl⟩ := run_ok h
  apply pieces_finish
  have := steps_inv (P := Pieces) (Q := fun s b => b ≠ 63 ∨ s.isFirstSlash = true) pieces_step x s s' []
    (by
      obtain ⟨a1, a2, a3, a4, a5, a6, a7⟩ := h0
      constructor
      · rw [a7]; exact List.suffix_refl _
      all_goals simp [*])
    (by
      intro pre b post t e ht
      rw [(steps_slash ht).1]
      rcases hq with hq | hq
      · right; simp [hq]
      · by_cases h47 : (47 : UInt8) ∈ pre
        · right; simp [h47]
        · by_cases hb : b = 47
          · left; rw [hb]; decide
          · left
            apply hq b
            rw [e, List.takeWhile_append_of_pos (by
              intro c hc; simp only [bne_iff_ne, ne_eq]; rintro rfl; exact h47 hc), List.takeWhile_cons,
              if_pos (by simpa using hb)]
            simp) h1
  simpa using this

/-! ## The domain -/

structure Hosted (s : UrlState) : Prop where
  has : s.hasDomain = true
  slash : s.isFirstSlash = true → s.domain.isSome = true
  path : s.path.isSome = true → s.isFirstSlash = true

theorem hosted_step (s s' : UrlState) (_ : Bytes) (b : UInt8) (h : Hosted s) (hq : b ≠ 64 ∨ s.isFirstSlash = false)
    (e : s.step b = .ok s') : Hosted s' := by
  obtain ⟨i1, i2, i3⟩ := h
  unfold UrlState.step at e
  (repeat' split at e) <;> first
    | (simp at e; done)
    | (simp only [Res.ok.injEq] at e; subst e; constructor <;> simp_all [Option.isSome_iff_ne_none])

theorem hosted_run {st : UrlState} {x : Bytes} (h : UrlState.run {} x = .ok st)
    (hq : ∀ b ∈ x.dropWhile (· != 47), b ≠ 64) : st.domain.isSome = true := by
  obtain ⟨s', h1, rfl⟩ := run_ok h
  have : Hosted s' := steps_inv (P := fun s _ => Hosted s) (Q := fun s b => b ≠ 64 ∨ s.isFirstSlash = false) hosted_step x {} s' []
    ⟨rfl, by simp, by simp⟩
    (by
      intro pre b post t e ht
      rw [(steps_slash ht).1]
      by_cases h47 : (47 : UInt8) ∈ pre
      · left
        apply hq b
        have : ∀ p : Bytes, (47 : UInt8) ∈ p → b ∈ (p ++ b :: post).dropWhile (· != 47) := by
          intro p
          induction p with
          | nil => simp
          | cons c p ih =>
            intro hp
            rw [List.cons_append, List.dropWhile_cons]
            split
            · rename_i hc
              apply ih
              rcases List.mem_cons.mp hp with e | hp
              · rw [← e] at hc; simp at hc
              · exact hp
            · simp
        rw [e]; exact this pre h47
      · right; simp [h47]) h1
  obtain ⟨i1, i2, i3⟩ := this
  unfold UrlState.finish
  (repeat' split) <;> simp_all

/-! ## Origin form -/

theorem origin_step (s s' : UrlState) (_ : Bytes) (b : UInt8)
    (h : s.domain = none ∧ s.username = none ∧ s.password = none ∧ s.port = none ∧ s.isFirstSlash = true ∧ s.hasDomain = false) (_ : True)
    (e : s.step b = .ok s') :
    (s'.domain = none ∧ s'.username = none ∧ s'.password = none ∧ s'.port = none ∧ s'.isFirstSlash = true ∧ s'.hasDomain = false) := by
  obtain ⟨i1, i2, i3, i4, i5, i6⟩ := h
  unfold UrlState.step at e
  (repeat' split at e) <;> first
    | (simp at e; done)
    | (simp only [Res.ok.injEq] at e; subst e; simp_all)

theorem origin_inv {st : UrlState} {x : Bytes} (h : UrlState.run { isFirstSlash := true, hasDomain := false } x = .ok st) :
    (64 : UInt8) ∉ x ∧ (∀ b ∈ x, isToken b = true) := by
  obtain ⟨s', h1, -⟩ := run_ok h
  refine ⟨fun hm => ?_, steps_tokens h1⟩
  obtain ⟨pre, post, rfl⟩ := List.append_of_mem hm
  rw [steps_append, Res.bind_eq_ok] at h1
  obtain ⟨t, h2, h3⟩ := h1
  have := steps_inv (Q := fun _ _ => True) origin_step pre _ t [] ⟨rfl, rfl, rfl, rfl, rfl, rfl⟩ (fun _ _ _ _ _ _ => trivial) h2
  rw [UrlState.steps, Res.bind_eq_ok] at h3
  obtain ⟨t2, h4, -⟩ := h3
  simp [UrlState.step, this.1] at h4

end Webparse
