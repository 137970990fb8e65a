import Verif.Spec.UrlFull
import Verif.Proofs.UrlParse
import Verif.Proofs.UrlInv

/-! # The loop of `Url::parse` on any absolute URL -/

namespace Webparse
open Spec

/-- The state after an authority. -/
def pending (user : Option (Bytes × Bytes)) (d : Bytes) (p : Option Bytes) : UrlState :=
  match p with
  | none => { username := user.map (·.1), password := user.map (·.2), val := d }
  | some w => { username := user.map (·.1), password := user.map (·.2), domain := some d, val := w }

theorem seps4 {b : UInt8} : b ∉ asciiBytes ":@/?" ↔ b ≠ 58 ∧ b ≠ 64 ∧ b ≠ 47 ∧ b ≠ 63 := by
  rw [show asciiBytes ":@/?" = [58, 64, 47, 63] by decide]; simp

theorem seps3 {b : UInt8} : b ∉ asciiBytes ":@/" ↔ b ≠ 58 ∧ b ≠ 64 ∧ b ≠ 47 := by
  rw [show asciiBytes ":@/" = [58, 64, 47] by decide]; simp

/-- After the host, `?` is passed over. -/
theorem steps_word (s : UrlState) (hs : s.isFirstSlash = false) (hd : s.domain.isSome = true) (w : Bytes) :
    (∀ b ∈ w, isToken b = true ∧ b ∉ asciiBytes ":@/") → s.steps w = .ok { s with val := s.val ++ w.filter (· ≠ 63) } := by
  induction w generalizing s with
  | nil => intro _; simp [UrlState.steps]
  | cons b w ih =>
    intro hw
    obtain ⟨h1, h2⟩ := hw b (by simp)
    rw [seps3] at h2
    obtain ⟨d, hd'⟩ := Option.isSome_iff_exists.mp hd
    have hr := fun c hc => hw c (List.mem_cons_of_mem _ hc)
    by_cases h63 : b = 63
    · subst h63
      have e : s.step 63 = .ok s := by
        rw [UrlState.step, if_neg (by decide), if_neg (by decide), if_neg (by decide), if_pos rfl, hs, hd']
        rfl
      rw [steps_cons_ok e, ih s hs hd hr]
      simp
    · rw [steps_cons_ok (step_plain s h1 h2.1 h2.2.1 h2.2.2 h63), ih { s with val := s.val ++ [b] } hs hd hr]
      simp [h63]

theorem steps_section {u : Option (Bytes × Bytes)} {d a : Bytes} {p : Option Bytes} (h : Section d p a) (ht : ∀ b ∈ a, isToken b = true) :
    UrlState.steps { username := u.map (·.1), password := u.map (·.2) } a = .ok (pending u d p) := by
  obtain ⟨hd, h⟩ := h
  rcases h with ⟨rfl, rfl⟩ | ⟨c, w, hc, rfl, hw, rfl⟩
  · rw [steps_plain _ a fun b hb => ⟨ht b hb, seps4.mp (hd b hb)⟩]
    rfl
  · rw [steps_append, steps_plain _ d fun b hb => ⟨ht b (by simp [hb]), seps4.mp (hd b hb)⟩, Res.bind_ok]
    have e : UrlState.step { username := u.map (·.1), password := u.map (·.2), val := [] ++ d } c =
        .ok { username := u.map (·.1), password := u.map (·.2), domain := some d } := by
      rcases hc with rfl | rfl <;> rfl
    rw [steps_cons_ok e, steps_word _ rfl rfl w fun b hb => ⟨ht b (by simp [hb]), hw b hb⟩]
    rfl

theorem steps_authority {u u' : Option (Bytes × Bytes)} {d a : Bytes} {p : Option Bytes} (h : Authority u u' d p a) (ht : ∀ b ∈ a, isToken b = true) :
    UrlState.steps { username := u.map (·.1), password := u.map (·.2) } a = .ok (pending u' d p) := by
  induction h with
  | host h => exact steps_section h ht
  | @user u u' n w d s rest p h _ ih =>
    rw [steps_append, steps_section h fun b hb => ht b (by simp [hb]), Res.bind_ok]
    have e : (pending u n (some w)).step 64 = .ok { username := some n, password := some w } := rfl
    rw [steps_cons_ok e]
    exact ih fun b hb => ht b (by simp [hb])

/-- The text up to the first separator. -/
theorem span_sep (S : List UInt8) (a : Bytes) : ∃ x r, a = x ++ r ∧ (∀ b ∈ x, b ∉ S) ∧ (r = [] ∨ ∃ c r', r = c :: r' ∧ c ∈ S) := by
  induction a with
  | nil => exact ⟨[], [], rfl, by simp, .inl rfl⟩
  | cons b a ih =>
    by_cases hb : b ∈ S
    · exact ⟨[], b :: a, rfl, by simp, .inr ⟨b, a, rfl, hb⟩⟩
    · obtain ⟨x, r, rfl, h1, h2⟩ := ih
      refine ⟨b :: x, r, rfl, fun c hc => ?_, h2⟩
      rcases List.mem_cons.mp hc with rfl | hc
      · exact hb
      · exact h1 c hc

theorem authority_of_steps (k : Nat) : ∀ (a : Bytes), a.length ≤ k → (47 : UInt8) ∉ a → ∀ (u : Option (Bytes × Bytes)) (st : UrlState),
    UrlState.steps { username := u.map (·.1), password := u.map (·.2) } a = .ok st → ∃ u' d p, Authority u u' d p a ∧ st = pending u' d p := by
  induction k with
  | zero =>
    intro a hk _ u st h
    obtain rfl : a = [] := List.length_eq_zero_iff.mp (by omega)
    simp only [UrlState.steps, Res.ok.injEq] at h
    exact ⟨u, [], none, .host ⟨by simp, .inl ⟨rfl, rfl⟩⟩, h.symm⟩
  | succ k ih =>
    intro a hk h47 u st h
    have ht := steps_tokens h
    obtain ⟨d, r, rfl, hd, hr⟩ := span_sep (asciiBytes ":@/?") a
    rcases hr with rfl | ⟨c, r, rfl, hc⟩
    · rw [List.append_nil] at h ht ⊢
      have hs : Section d none d := ⟨hd, .inl ⟨rfl, rfl⟩⟩
      rw [steps_section hs ht, Res.ok.injEq] at h
      exact ⟨u, d, none, .host hs, h.symm⟩
    · have hc' : c = 58 ∨ c = 63 ∨ c = 64 := by
        have h0 : c ≠ 47 := by rintro rfl; exact h47 (by simp)
        rw [show asciiBytes ":@/?" = [58, 64, 47, 63] by decide] at hc
        simp only [List.mem_cons, List.not_mem_nil, or_false] at hc
        rcases hc with h | h | h | h
        · exact .inl h
        · exact .inr (.inr h)
        · exact absurd h h0
        · exact .inr (.inl h)
      have h0 := h
      rw [steps_append, steps_plain _ d fun b hb => ⟨ht b (by simp [hb]), seps4.mp (hd b hb)⟩, Res.bind_ok] at h
      have key : c = 58 ∨ c = 63 → ∃ u' d' p, Authority u u' d' p (d ++ c :: r) ∧ st = pending u' d' p := by
        intro hc
        have e : UrlState.step { username := u.map (·.1), password := u.map (·.2), val := [] ++ d } c =
            .ok { username := u.map (·.1), password := u.map (·.2), domain := some d } := by
          rcases hc with rfl | rfl <;> rfl
        rw [steps_cons_ok e] at h
        obtain ⟨w, r2, rfl, hw, hr2⟩ := span_sep (asciiBytes ":@/") r
        have hs : Section d (some (w.filter (· ≠ 63))) (d ++ c :: w) := ⟨hd, .inr ⟨c, w, hc, rfl, hw, rfl⟩⟩
        rcases hr2 with rfl | ⟨c2, r2, rfl, hc2⟩
        · rw [List.append_nil] at h0 ht ⊢
          rw [steps_section hs ht, Res.ok.injEq] at h0
          exact ⟨u, d, _, .host hs, h0.symm⟩
        · rw [steps_append, steps_word _ rfl rfl w fun b hb => ⟨ht b (by simp [hb]), hw b hb⟩, Res.bind_ok] at h
          have h1 : c2 ≠ 47 := by rintro rfl; exact h47 (by simp)
          have h2 : c2 = 58 ∨ c2 = 64 := by
            rw [show asciiBytes ":@/" = [58, 64, 47] by decide] at hc2
            simp only [List.mem_cons, List.not_mem_nil, or_false] at hc2
            rcases hc2 with h | h | h
            · exact .inl h
            · exact .inr h
            · exact absurd h h1
          rcases h2 with rfl | rfl
          · rw [UrlState.steps, Res.bind_eq_ok] at h
            obtain ⟨s, h3, -⟩ := h
            cases h3
          · have e2 : UrlState.step { username := u.map (·.1), password := u.map (·.2), domain := some d, val := [] ++ w.filter (· ≠ 63) } 64 =
                .ok { username := some d, password := some (w.filter (· ≠ 63)) } := rfl
            rw [steps_cons_ok e2] at h
            obtain ⟨u', d', p, h3, h4⟩ := ih r2 (by simp only [List.length_append, List.length_cons] at hk; omega)
              (fun hm => h47 (by simp [hm])) (some (d, w.filter (· ≠ 63))) st h
            refine ⟨u', d', p, ?_, h4⟩
            have := Authority.user (u := u) hs h3
            simpa using this
      rcases hc' with rfl | rfl | rfl
      · exact key (.inl rfl)
      · exact key (.inr rfl)
      · rw [UrlState.steps, Res.bind_eq_ok] at h
        obtain ⟨s, h3, -⟩ := h
        cases h3

/-! ### After the authority -/

/-- What is read after the first slash, without an `@`. -/
def afterSlash (s : UrlState) (t : Bytes) : UrlState :=
  match s.path with
  | some _ => { s with val := s.val ++ t }
  | none =>
    match cut 63 t with
    | (_, none) => { s with val := s.val ++ t }
    | (p, some q) => { s with path := some (s.val ++ p), val := q }

theorem steps_afterSlash (s : UrlState) (t : Bytes) (hs : s.isFirstSlash = true) (ht : ∀ b ∈ t, isToken b = true ∧ b ≠ 64) :
    s.steps t = .ok (afterSlash s t) := by
  obtain ⟨us, pw, dm, po, path, qu, fs, hd, v⟩ := s
  cases path with
  | some p => exact steps_after _ t hs fun b hb => ⟨(ht b hb).1, (ht b hb).2, .inr rfl⟩
  | none =>
    unfold afterSlash
    simp only []
    cases hc : cut 63 t with
    | mk p o =>
      cases o with
      | none =>
        obtain ⟨-, hn⟩ := cut_none hc
        exact steps_after _ t hs fun b hb => ⟨(ht b hb).1, (ht b hb).2, .inl (by rintro rfl; exact hn hb)⟩
      | some q =>
        obtain ⟨rfl, hn⟩ := cut_some hc
        rw [steps_append, steps_after _ p hs fun b hb => ⟨(ht b (by simp [hb])).1, (ht b (by simp [hb])).2, .inl (by rintro rfl; exact hn hb)⟩, Res.bind_ok]
        simp only at hs
        subst hs
        have e : UrlState.step ⟨us, pw, dm, po, none, qu, true, hd, v ++ p⟩ 63 = .ok ⟨us, pw, dm, po, some (v ++ p), qu, true, hd, []⟩ := rfl
        rw [steps_cons_ok e]
        exact steps_after ⟨us, pw, dm, po, some (v ++ p), qu, true, hd, []⟩ q rfl fun b hb => ⟨(ht b (by simp [hb])).1, (ht b (by simp [hb])).2, .inr rfl⟩

/-- The whole of an absolute URL after `://`. -/
theorem run_iff (a tail : Bytes) (ha : (47 : UInt8) ∉ a) (h47 : tail = [] ∨ tail.head? = some 47) (ht : ∀ b ∈ a ++ tail, isToken b = true) (raw : RawParts) :
    (∃ st, UrlState.run {} (a ++ tail) = .ok st ∧ st.raw = raw) ↔
      ∃ user d p, Authority none user d p a ∧ tailParts tail (authorityRaw user d p) = some raw := by
  have det : ∀ {u d p}, Authority none u d p a → UrlState.steps {} a = .ok (pending u d p) :=
    fun h => steps_authority (u := none) h fun b hb => ht b (by simp [hb])
  have rest : ∀ u d p, Authority none u d p a → ((∃ st, UrlState.run {} (a ++ tail) = .ok st ∧ st.raw = raw) ↔ tailParts tail (authorityRaw u d p) = some raw) := by
    intro u d p h
    rw [run_eq, steps_append, det h, Res.bind_ok]
    rcases h47 with rfl | h47
    · simp only [UrlState.steps, Res.bind_ok, Res.ok.injEq, tailParts, cut, pathParts, if_true, Option.some.injEq, exists_eq_left']
      cases p <;> rfl
    · obtain ⟨t, rfl⟩ : ∃ t, tail = 47 :: t := by
        cases tail with
        | nil => simp at h47
        | cons b t => exact ⟨t, by simpa using h47⟩
      let s : UrlState := { username := u.map (·.1), password := u.map (·.2), domain := some d, port := p, isFirstSlash := true, val := [47] }
      have e : (pending u d p).step 47 = .ok s := by cases p <;> rfl
      rw [steps_cons_ok e]
      have htt : ∀ b ∈ t, isToken b = true := fun b hb => ht b (by simp [hb])
      have c47 : ∀ (c : UInt8) (x : Bytes), c ≠ 47 → cut c (47 :: x) = (47 :: (cut c x).1, (cut c x).2) := fun c x hc => by
        rw [cut, if_neg (fun e => hc e.symm)]
      unfold tailParts
      rw [c47 64 t (by decide)]
      cases hc : cut 64 t with
      | mk x o =>
        cases o with
        | none =>
          obtain ⟨rfl, hn⟩ := cut_none hc
          rw [steps_afterSlash s x rfl fun b hb => ⟨htt b hb, by rintro rfl; exact hn hb⟩]
          simp only [Res.bind_ok, Res.ok.injEq, exists_eq_left', Option.some.injEq, pathParts, reduceCtorEq, if_false, c47 63 x (by decide)]
          unfold afterSlash
          simp only [s]
          cases hq : cut 63 x with
          | mk y o =>
            cases o with
            | none => obtain ⟨rfl, -⟩ := cut_none hq; rfl
            | some q => rfl
        | some y =>
          obtain ⟨rfl, hn⟩ := cut_some hc
          simp only []
          rw [steps_append, steps_afterSlash s x rfl fun b hb => ⟨htt b (by simp [hb]), by rintro rfl; exact hn hb⟩, Res.bind_ok]
          have late : ∀ (s0 : UrlState), s0.isFirstSlash = true → s0.domain = some d →
              s0.steps (64 :: y) = if 64 ∈ y then .err .urlInvalid else
                .ok (afterSlash { s0 with username := some d, domain := none, password := some s0.val, val := [] } y) := by
            intro s0 h1 h2
            have e : s0.step 64 = .ok { s0 with username := some d, domain := none, password := some s0.val, val := [] } := by
              rw [UrlState.step, if_neg (by decide), if_pos rfl, h2]; rfl
            rw [steps_cons_ok e]
            split
            · rename_i hm
              cases hc2 : cut 64 y with
              | mk y1 o =>
                cases o with
                | none => exact absurd hm (cut_none hc2).2
                | some y2 =>
                  obtain ⟨rfl, hn2⟩ := cut_some hc2
                  rw [steps_append, steps_afterSlash { s0 with username := some d, domain := none, password := some s0.val, val := [] } y1 h1 fun b hb => ⟨htt b (by simp [hb]), by rintro rfl; exact hn2 hb⟩, Res.bind_ok]
                  have hdn : (afterSlash { s0 with username := some d, domain := none, password := some s0.val, val := [] } y1).domain = none := by
                    unfold afterSlash; (repeat' split) <;> rfl
                  rw [UrlState.steps, UrlState.step, if_neg (by decide), if_pos rfl, hdn]
                  rfl
            · rename_i hm
              exact steps_afterSlash { s0 with username := some d, domain := none, password := some s0.val, val := [] } y h1 fun b hb => ⟨htt b (by simp [hb]), by rintro rfl; exact hm hb⟩
          have h1 : (afterSlash s x).isFirstSlash = true := by unfold afterSlash; (repeat' split) <;> rfl
          have h2 : (afterSlash s x).domain = some d := by unfold afterSlash; (repeat' split) <;> rfl
          rw [late _ h1 h2]
          by_cases hm : 64 ∈ y
          · rw [if_pos hm, if_pos hm]
            simp [bind, Res.bind]
          · rw [if_neg hm, if_neg hm, c47 63 x (by decide)]
            simp only [Res.bind_ok, Res.ok.injEq, exists_eq_left']
            unfold afterSlash
            simp only [s]
            cases hq : cut 63 x with
            | mk x1 o =>
              cases o with
              | some w => simp only [Option.some.injEq]; rfl
              | none =>
                simp only []
                cases hq2 : cut 63 y with
                | mk y1 o =>
                  cases o with
                  | some w => simp only [Option.some.injEq]; rfl
                  | none => simp only [Option.some.injEq]; rfl
  constructor
  · rintro ⟨st, h, hr⟩
    have h' := h
    rw [run_eq, steps_append, Res.bind_eq_ok] at h'
    obtain ⟨s1, h1, -⟩ := h'
    rw [Res.bind_eq_ok] at h1
    obtain ⟨s2, h2, -⟩ := h1
    obtain ⟨u, d, p, h3, -⟩ := authority_of_steps a.length a (Nat.le_refl _) ha none s2 h2
    exact ⟨u, d, p, h3, (rest u d p h3).mp ⟨st, h, hr⟩⟩
  · rintro ⟨u, d, p, h1, h2⟩
    exact (rest u d p h1).mpr h2

end Webparse
