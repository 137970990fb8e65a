import Verif.Model.Display
import Verif.Proofs.Utf8Spec
import Verif.Props.Http1

/-! # Printing messages: C88 -/

namespace Webparse
open Spec

theorem decimal_three (n : Nat) (h : 100 ≤ n ∧ n ≤ 999) : decimal n = threeDigits n := by
  have key : ∀ k : Fin 900, decimal (k.val + 100) = threeDigits (k.val + 100) := by decide +kernel
  have := key ⟨n - 100, by omega⟩
  simpa [show n - 100 + 100 = n by omega] using this

theorem display_length (m : HeaderMap) : m.encode.length ≤ m.display.length := by
  induction m with
  | nil => simp [HeaderMap.encode, HeaderMap.display]
  | cons e m ih =>
    have := lossy_length e.2
    simp only [HeaderMap.encode, HeaderMap.display, List.length_append]
    omega

/-- Headers are printed as they are sent exactly if all values are UTF-8. -/
theorem display_encode_iff (m : HeaderMap) : m.display = m.encode ↔ ∀ e ∈ m, IsUtf8 e.2 := by
  induction m with
  | nil => simp [HeaderMap.encode, HeaderMap.display]
  | cons e m ih =>
    simp only [HeaderMap.encode, HeaderMap.display, List.forall_mem_cons]
    rw [← ih, ← lossy_eq_iff]
    constructor
    · intro h
      have l1 := congrArg List.length h
      have l2 := lossy_length e.2
      have l3 := display_length m
      simp only [List.length_append] at l1
      obtain ⟨h1, h2⟩ := List.append_inj h (by simp only [List.length_append]; omega)
      obtain ⟨h3, -⟩ := List.append_inj h1 (by simp only [List.length_append]; omega)
      obtain ⟨-, h4⟩ := List.append_inj h3 (by simp only [List.length_append])
      exact ⟨h4, h2⟩
    · rintro ⟨h1, h2⟩
      rw [h1, h2]

theorem isUtf8_ascii (b : Bytes) (h : ∀ x ∈ b, x < 0x80) : IsUtf8 b := (utf8Valid_iff b).mp (utf8Valid_ascii b h)

theorem isUtf8_asciiBytes (b : Bytes) (h : b.all (· < 0x80) = true) : IsUtf8 b :=
  isUtf8_ascii b (fun x hx => by simpa using List.all_eq_true.mp h x hx)

theorem display_isUtf8 (m : HeaderMap) (h : ∀ e ∈ m, IsUtf8 e.1) : IsUtf8 m.display := by
  induction m with
  | nil => exact isUtf8_asciiBytes _ (by decide)
  | cons e m ih =>
    simp only [HeaderMap.display]
    exact isUtf8_append (isUtf8_append (isUtf8_append (isUtf8_append (h e (by simp)) (isUtf8_asciiBytes _ (by decide)))
      (lossy_isUtf8 _)) (isUtf8_asciiBytes _ (by decide))) (ih (fun x hx => h x (List.mem_cons_of_mem _ hx)))

/-! ## C88: a message is printed as it is sent -/

/-- A request is printed as it is sent. -/
def C88_request_statement : Prop :=
  ∀ (r : Request) (body out : Bytes), r.http1Data body = .ok out → r.display body = out

/-- A response is printed as it is sent. -/
def C88_response_statement : Prop :=
  ∀ (r : Response) (body out : Bytes) (n : Nat), r.serialize body = .ok (out, n) → r.display body = out

/-- A request is printed as it is sent exactly if its header values are UTF-8. -/
theorem C88_request_iff_partial (r : Request) (body out : Bytes) (h : r.http1Data body = .ok out) :
    r.display body = out ↔ ∀ e ∈ r.header, IsUtf8 e.2 := by
  rw [← display_encode_iff]
  unfold Request.http1Data Request.encodeHeader at h
  simp only [Res.bind_eq_ok] at h
  obtain ⟨x, ⟨m, hm, v, hv, hx⟩, ho⟩ := h
  cases hx
  cases ho
  obtain ⟨-, rfl⟩ := (version_encode _ _).mp hv
  have hm' : m = r.method.asStr := by
    revert hm
    unfold Method.encode
    cases r.method <;> intro hm <;> cases hm <;> rfl
  subst hm'
  unfold Request.display
  constructor
  · intro h
    exact List.append_cancel_left (List.append_cancel_right h)
  · intro h
    rw [h]

/-- A response is printed as it is sent exactly if its header values are UTF-8. -/
theorem C88_response_iff_partial (r : Response) (body out : Bytes) (n : Nat) (h : r.serialize body = .ok (out, n)) :
    r.display body = out ↔ ∀ e ∈ r.header, IsUtf8 e.2 := by
  rw [← display_encode_iff]
  unfold Response.serialize at h
  simp only [Res.bind_eq_ok] at h
  obtain ⟨v, hv, s, hs, h⟩ := h
  cases h
  obtain ⟨-, rfl⟩ := (version_encode _ _).mp hv
  have hs' : s = statusDisplay r.status ++ [13, 10] := by
    obtain ⟨-, -, f1, f2, -⟩ := statusEncode_ok hs
    unfold statusEncode at hs
    unfold statusDisplay
    cases hc : canonicalReason r.status with
    | none => rw [hc] at hs; cases hs
    | some x =>
      rw [hc] at hs
      simp only [statusAsStr_eq, f1, f2, and_self, if_true, Res.bind_ok, Res.ok.injEq] at hs
      rw [← hs, decimal_three _ ⟨f1, f2⟩]
      rfl
  subst hs'
  unfold Response.display
  constructor
  · intro h
    have h := List.append_cancel_right h
    rw [← List.append_assoc] at h
    exact List.append_cancel_left h
  · intro h
    rw [h]
    simp

theorem C88_violated : ¬ C88_request_statement ∧ ¬ C88_response_statement := by
  constructor
  · intro h
    have := h { method := .get, header := [(asciiBytes "X", [0xFF])] } [] (asciiBytes "GET / HTTP/1.1\r\nX: " ++ [0xFF] ++ asciiBytes "\r\n\r\n")
      (by decide +kernel)
    revert this
    decide +kernel
  · intro h
    have := h { header := [(asciiBytes "X", [0xFF])] } [] (asciiBytes "HTTP/1.1 200 OK\r\nX: " ++ [0xFF] ++ asciiBytes "\r\n\r\n") 25
      (by simp only [Response.serialize, statusEncode, statusAsStr_eq]; decide +kernel)
    revert this
    decide +kernel

theorem asStr_ascii (v : Version) : v.asStr.all (· < 0x80) = true := by cases v <;> decide

/-- What is printed is text: UTF-8, whatever bytes the header values have.  The other parts are strings. -/
theorem C88_request_text (r : Request) (body : Bytes) (hm : IsUtf8 r.method.asStr) (hp : IsUtf8 r.url.path)
    (hn : ∀ e ∈ r.header, IsUtf8 e.1) (hb : IsUtf8 body) : IsUtf8 (r.display body) := by
  unfold Request.display
  exact isUtf8_append (isUtf8_append (isUtf8_append (isUtf8_append (isUtf8_append (isUtf8_append (isUtf8_append hm
    (isUtf8_asciiBytes _ (by decide))) hp) (isUtf8_asciiBytes _ (by decide))) (isUtf8_asciiBytes _ (asStr_ascii _)))
    (isUtf8_asciiBytes _ (by decide))) (display_isUtf8 _ hn)) hb

theorem reason_ascii (n : Nat) : ((canonicalReason n).getD (asciiBytes "<unknown status code>")).all (· < 0x80) = true := by
  unfold canonicalReason
  cases h : statusTable.find? (fun e => e.1 == n) with
  | none => exact (by decide +kernel : (asciiBytes "<unknown status code>").all (· < 0x80) = true)
  | some e =>
    have key : ∀ e ∈ statusTable, (asciiBytes e.2).all (· < 0x80) = true := by decide +kernel
    exact key e (List.mem_of_find?_eq_some h)

theorem statusDisplay_ascii (n : Nat) : IsUtf8 (statusDisplay n) := by
  unfold statusDisplay
  refine isUtf8_append (isUtf8_append (isUtf8_ascii _ ?_) (isUtf8_asciiBytes _ (by decide))) (isUtf8_asciiBytes _ (reason_ascii n))
  intro x hx
  have h1 := (decimal_spec n).2.1 x hx
  revert h1; revert x
  have : ∀ x : UInt8, isDigit x = true → x < 0x80 := by decide +kernel
  intro x _ h; exact this x h

theorem C88_response_text (r : Response) (body : Bytes) (hn : ∀ e ∈ r.header, IsUtf8 e.1) (hb : IsUtf8 body) :
    IsUtf8 (r.display body) := by
  unfold Response.display
  exact isUtf8_append (isUtf8_append (isUtf8_append (isUtf8_append (isUtf8_append (isUtf8_asciiBytes _ (asStr_ascii _))
    (isUtf8_asciiBytes _ (by decide))) (statusDisplay_ascii _)) (isUtf8_asciiBytes _ (by decide))) (display_isUtf8 _ hn)) hb

/-- A printed response is read back, also one whose status has no reason and which cannot be sent. -/
theorem C88_response_reads_back (ops : List HeaderOp) (status : Nat) (version : Version) (p : Bool) (r0 : Response) (body : Bytes)
    (hv : version ≠ .none) (hs : 100 ≤ status ∧ status ≤ 999) (hc : ∀ e ∈ runOps ops, CleanHeader e ∧ IsUtf8 e.2) :
    let out := Response.display { status, version, header := runOps ops, isPartial := p } body
    r0.parseBuffer out = (.ok (out.length - body.length), { status, version, header := runOps ops, isPartial := false }, body) := by
  intro out
  obtain ⟨reason, hr, f3, f4, f5⟩ : ∃ reason, statusDisplay status = threeDigits status ++ [32] ++ reason ∧ reason ≠ [] ∧
      reason.all isStatusToken = true ∧ reason.head? ≠ some 32 := by
    refine ⟨(canonicalReason status).getD (asciiBytes "<unknown status code>"), ?_, ?_⟩
    · unfold statusDisplay; rw [decimal_three _ hs]
    · unfold canonicalReason
      cases h : statusTable.find? (fun e => e.1 == status) with
      | none => exact (by decide +kernel : asciiBytes "<unknown status code>" ≠ [] ∧
          (asciiBytes "<unknown status code>").all isStatusToken = true ∧ (asciiBytes "<unknown status code>").head? ≠ some 32)
      | some e => exact (statusTable_facts e (List.mem_of_find?_eq_some h)).2.2
  have e : out = version.asStr ++ [32] ++ (threeDigits status ++ [32] ++ reason ++ [13, 10]) ++ ((runOps ops).encode ++ body) := by
    show Response.display _ _ = _
    unfold Response.display
    simp only
    rw [hr, (display_encode_iff _).mpr (fun e he => (hc e he).2)]
    simp
  have ht := response_text r0 (v := version) (n := status) hv hs f3 f4 f5 ((runOps ops).encode ++ body)
  rw [← e] at ht
  unfold Response.parseBuffer
  rw [countRead_ok, ← forget_ok, ht]
  refine ⟨?_, rfl⟩
  rw [(C37_roundtrip_iff ops [] body).mpr (fun e he => (hc e he).1)]
  rfl

/-- The status 299 has no reason: it cannot be sent, but it is printed and read back. -/
example : Response.serialize { status := 299 } [] = .err .invalidStatusCode ∧
    Response.display { status := 299, header := runOps [.insert (asciiBytes "A") (asciiBytes "b")] } [] =
      asciiBytes "HTTP/1.1 299 <unknown status code>\r\nA: b\r\n\r\n" := by decide +kernel
example : ∀ e ∈ runOps [.insert (asciiBytes "A") (asciiBytes "b")], CleanHeader e ∧ IsUtf8 e.2 := by
  have : runOps [.insert (asciiBytes "A") (asciiBytes "b")] = [(asciiBytes "A", asciiBytes "b")] := by decide +kernel
  rw [this]
  simp only [List.mem_singleton, forall_eq]
  exact ⟨⟨by decide +kernel, by decide +kernel, by decide +kernel, by decide +kernel⟩, isUtf8_asciiBytes _ (by decide +kernel)⟩
example : Request.http1Data { method := .post, header := [(asciiBytes "X", [0xC3, 0xBC])] } (asciiBytes "hi") =
    .ok (asciiBytes "POST / HTTP/1.1\r\nX: " ++ [0xC3, 0xBC] ++ asciiBytes "\r\n\r\nhi") := by decide +kernel
example : IsUtf8 [0xC3, 0xBC] := (utf8Valid_iff _).mp (by decide +kernel)
example : ¬ IsUtf8 [0xFF] := fun h => by have := (utf8Valid_iff _).mpr h; revert this; decide +kernel

end Webparse
