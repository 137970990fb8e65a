import Verif.Proofs.Streams

/-! Readers whose rejections are final: more input does not change them. -/

namespace Webparse

/-- An error other than `Partial` does not depend on what follows. -/
def Final {α : Type} (p : Bytes → Res α × Bytes) : Prop :=
  ∀ buf e r, p buf = (.err e, r) → e ≠ .partialData → ∀ x, p (buf ++ x) = (.err e, r ++ x)

theorem final_const {α : Type} (c : Res α) : Final fun buf => (c, buf) := by
  intro buf e r h _ x
  simp only [Prod.mk.injEq] at h ⊢
  exact ⟨h.1, by rw [h.2]⟩

theorem final_then {α β : Type} {p : Bytes → Res α × Bytes} {f : α → Bytes → Res β × Bytes}
    (sp : Streams p) (hp : Final p) (hf : ∀ a, Final (f a)) : Final fun buf => thenRead (p buf) f := by
  intro buf e r h he x
  cases hb : p buf with
  | mk v r0 =>
    simp only [hb] at h
    cases v with
    | ok a =>
      show thenRead (p (buf ++ x)) f = _
      rw [(sp.ext _ _ _ hb).2 x]
      exact hf a _ _ _ h he x
    | err e' =>
      simp only [thenRead, Prod.mk.injEq, Res.err.injEq] at h
      obtain ⟨rfl, rfl⟩ := h
      show thenRead (p (buf ++ x)) f = _
      rw [hp _ _ _ hb he x]; rfl
    | panic => simp [thenRead] at h

theorem final_ite {α : Type} (c : Prop) [Decidable c] {p q : Bytes → Res α × Bytes} (hp : Final p) (hq : Final q) :
    Final fun buf => if c then p buf else q buf := by
  by_cases h : c
  · simp only [if_pos h]; exact hp
  · simp only [if_neg h]; exact hq

theorem final_fuel {α : Type} {p : Bytes → Res α × Bytes} (F : Nat → Bytes → Res α × Bytes) (hF : ∀ k, Final (F k))
    (h : ∀ k buf, k > buf.length → F k buf = p buf) : Final p := by
  intro buf e r hb he x
  rw [← h ((buf ++ x).length + 1) buf (by simp only [List.length_append]; omega)] at hb
  rw [← h ((buf ++ x).length + 1) (buf ++ x) (by omega)]
  exact hF _ _ _ _ hb he x

theorem final_nextByte : Final nextByte := by
  intro buf e r h he x
  cases buf with
  | nil => simp only [nextByte, Prod.mk.injEq, Res.err.injEq] at h; exact absurd h.1.symm he
  | cons b buf => simp [nextByte] at h

theorem final_peekByte : Final peekByte := by
  intro buf e r h he x
  cases buf with
  | nil => simp only [peekByte, Prod.mk.injEq, Res.err.injEq] at h; exact absurd h.1.symm he
  | cons b buf => simp [peekByte] at h

theorem final_expectByte (c : UInt8) (e : Error) : Final (expectByte c e) := by
  rw [funext (expectByte_eq c e)]
  exact final_then streams_nextByte final_nextByte fun b => final_ite _ (final_const _) (final_const _)

theorem final_token (f : UInt8 → Bool) (e : Error) (empty : Bool) : Final (parseTokenEmpty f e empty) := by
  intro buf e' r h he x
  by_cases ha : buf.all f = true
  · rw [parseTokenEmpty_all _ _ ha] at h
    simp only [Prod.mk.injEq, Res.err.injEq] at h
    exact absurd h.1.symm he
  · obtain ⟨t, b, s, rfl, h2, h3, _⟩ := scan_spec ha
    have hx : t ++ b :: s ++ x = t ++ b :: (s ++ x) := by simp
    rw [hx]
    rw [parseTokenEmpty_eq _ _ h2 h3] at h ⊢
    by_cases ht : t = []
    · rw [if_pos ht] at h ⊢
      cases empty with
      | true => simp at h
      | false =>
        simp only [Bool.false_eq_true, if_false, Prod.mk.injEq] at h ⊢
        exact ⟨h.1, by rw [← h.2]; rfl⟩
    · rw [if_neg ht] at h; simp at h

theorem final_skipNewLine : Final skipNewLine := by
  unfold skipNewLine
  exact final_then streams_nextByte final_nextByte fun b =>
    final_ite _ (final_expectByte _ _) (final_ite _ (final_const _) (final_ite _ (final_const _) (final_const _)))

theorem final_skipSpaces : Final skipSpaces := by
  refine final_fuel spacesLoop ?_ spacesLoop_eq
  intro k
  induction k with
  | zero => exact final_const _
  | succ k ih =>
    exact final_then streams_peekByte final_peekByte fun b =>
      final_ite _ (final_then streams_nextByte final_nextByte fun _ => ih) (final_const _)

theorem final_skipEmptyLines : Final skipEmptyLines := by
  refine final_fuel linesLoop ?_ linesLoop_eq
  intro k
  induction k with
  | zero => exact final_const _
  | succ k ih =>
    exact final_then streams_peekByte final_peekByte fun b =>
      final_ite _ (final_then streams_nextByte final_nextByte fun _ =>
        final_then (streams_expectByte _ _) (final_expectByte _ _) fun _ => ih)
      (final_ite _ (final_then streams_nextByte final_nextByte fun _ => ih) (final_const _))

theorem final_onToken {α : Type} {p : Bytes → Res Bytes × Bytes} (sp : Streams p) (hp : Final p) (f : Bytes → Res α) :
    Final fun buf => onToken (p buf) f :=
  final_then sp hp fun _ => final_const _

theorem final_parseHeaderLine : Final parseHeaderLine :=
  final_then streams_peekByte final_peekByte fun _ =>
    final_ite _ (final_then streams_nextByte final_nextByte fun _ =>
        final_then (streams_expectByte _ _) (final_expectByte _ _) fun _ => final_const _)
      (final_ite _ (final_then streams_nextByte final_nextByte fun _ => final_const _)
        (final_then streams_parseHeaderName (final_then (streams_token _ _ _) (final_token _ _ _) fun _ => final_const _) fun _ =>
          final_then streams_skipSpaces final_skipSpaces fun _ =>
          final_then (streams_expectByte _ _) (final_expectByte _ _) fun _ =>
          final_then streams_skipSpaces final_skipSpaces fun _ =>
          final_then streams_parseHeaderValue (final_token _ _ _) fun _ =>
          final_then streams_skipNewLine final_skipNewLine fun _ => final_const _))

theorem final_parseHeaderLoop (k : Nat) (m : HeaderMap) : Final fun buf => forget (parseHeaderLoop k m buf) := by
  induction k generalizing m with
  | zero => exact final_const _
  | succ k ih =>
    rw [funext (forget_loop_succ k m)]
    refine final_then streams_parseHeaderLine final_parseHeaderLine fun o => ?_
    cases o with
    | none => exact final_const (.ok ((), m))
    | some h => exact ih _

theorem final_parseHeader (m : HeaderMap) : Final fun buf => forget (parseHeader m buf) :=
  final_fuel (fun k buf => forget (parseHeaderLoop k [] buf)) (fun k => final_parseHeaderLoop k [])
    fun k buf h => by rw [parseHeader, parseHeaderLoop_fuel k (buf.length + 1) [] buf h (by omega)]

theorem final_response (r : Response) : Final fun buf => forget (r.parseHead buf) := by
  rw [funext (forget_response r)]
  exact final_then streams_skipEmptyLines final_skipEmptyLines fun _ =>
    final_then (streams_onToken (streams_token _ _ _) _) (final_onToken (streams_token _ _ _) (final_token _ _ _) _) fun _ =>
    final_then streams_skipSpaces final_skipSpaces fun _ =>
    final_then (streams_onToken (streams_token _ _ _) _) (final_onToken (streams_token _ _ _) (final_token _ _ _) _) fun _ =>
    final_then streams_skipSpaces final_skipSpaces fun _ =>
    final_then (streams_token _ _ _) (final_token _ _ _) fun _ =>
    final_then streams_skipNewLine final_skipNewLine fun _ =>
    final_then (streams_parseHeader []) (final_parseHeader []) fun _ => final_const _

theorem final_request (r : Request) : Final fun buf => forget (r.parseHead buf) := by
  rw [funext (forget_request r)]
  exact final_then streams_skipEmptyLines final_skipEmptyLines fun _ =>
    final_then (streams_onToken (streams_token _ _ _) _) (final_onToken (streams_token _ _ _) (final_token _ _ _) _) fun _ =>
    final_then streams_skipSpaces final_skipSpaces fun _ =>
    final_then (streams_token _ _ _) (final_token _ _ _) fun _ =>
    final_then streams_skipSpaces final_skipSpaces fun _ =>
    final_then (streams_onToken (streams_token _ _ _) _) (final_onToken (streams_token _ _ _) (final_token _ _ _) _) fun _ =>
    final_then streams_skipNewLine final_skipNewLine fun _ =>
    final_then (streams_parseHeader []) (final_parseHeader []) fun _ => final_const _

theorem count_err {σ : Type} {buf : Bytes} {x : Res Unit × σ × Bytes} {e : Error} :
    (countRead buf x).1 = .err e ↔ ∃ r, forget x = (.err e, r) := by
  obtain ⟨x1, x2, x3⟩ := x
  cases x1 <;> simp [countRead, forget]

theorem count_final {σ : Type} {p : Bytes → Res Unit × σ × Bytes} (hf : Final fun buf => forget (p buf))
    {buf : Bytes} {e : Error} (h : (countRead buf (p buf)).1 = .err e) (he : e ≠ .partialData) (x : Bytes) :
    (countRead (buf ++ x) (p (buf ++ x))).1 = .err e := by
  obtain ⟨r, hr⟩ := count_err.mp h
  exact count_err.mpr ⟨_, hf _ _ _ hr he x⟩

theorem count_ok_ext {σ : Type} {p : Bytes → Res Unit × σ × Bytes} (hs : Streams fun buf => forget (p buf))
    {buf : Bytes} {n : Nat} {s : σ} {r : Bytes} (h : countRead buf (p buf) = (.ok n, s, r)) (x : Bytes) :
    countRead (buf ++ x) (p (buf ++ x)) = (.ok n, s, r ++ x) := by
  revert h
  cases hp : p buf with
  | mk a sr =>
    obtain ⟨s', r'⟩ := sr
    cases a with
    | ok u =>
      intro h
      simp only [countRead, Prod.mk.injEq, Res.ok.injEq] at h
      obtain ⟨rfl, rfl, rfl⟩ := h
      have := hs.ext buf ((), s') r' (by simp only [hp, forget])
      obtain ⟨⟨w, hw⟩, h2⟩ := this
      have h3 := h2 x
      revert h3
      cases hq : p (buf ++ x) with
      | mk b tr =>
        obtain ⟨t, q⟩ := tr
        cases b with
        | ok v =>
          intro h3
          simp only [hq, forget, Prod.mk.injEq, Res.ok.injEq, true_and] at h3
          obtain ⟨rfl, rfl⟩ := h3
          simp only [countRead, Prod.mk.injEq, Res.ok.injEq, and_true]
          simp only [List.length_append]; omega
        | err e => intro h3; simp [hq, forget] at h3
        | panic => intro h3; simp [hq, forget] at h3
    | err e => intro h; simp [countRead] at h
    | panic => intro h; simp [countRead] at h

end Webparse
