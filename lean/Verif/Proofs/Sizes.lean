import Verif.Spec.Writer
import Verif.Proofs.FrameHeaders

/-! # Lemmas on the sizes that encoders return -/

namespace Webparse
open Spec

/-- The same for an encoder that has been running and has counted up to `size`. -/
def HonestFrom (x : Nat → Put) : Prop :=
  ∀ size buf, ∃ out, (x size buf).2 = buf ++ out ∧ ∀ n, (x size buf).1 = .ok n → n = size + out.length

theorem honest_of_from {x : Nat → Put} (h : HonestFrom x) : Honest (x 0) := by
  intro buf
  obtain ⟨out, h1, h2⟩ := h 0 buf
  exact ⟨out, h1, fun n hn => by have := h2 n hn; omega⟩

theorem honest_slice (s : Bytes) : Honest (putSlice s) := by
  intro buf
  exact ⟨s, rfl, fun n hn => by simpa [putSlice] using hn.symm⟩

theorem honest_byte (b : UInt8) : Honest (putByte b) := by
  intro buf
  exact ⟨[b], rfl, fun n hn => by simpa [putByte] using hn.symm⟩

theorem honest_done : HonestFrom done := by
  intro size buf
  exact ⟨[], by simp [done], fun n hn => by simpa [done] using hn.symm⟩

theorem honest_add {x : Put} {next : Nat → Put} (hx : Honest x) (hn : HonestFrom next) : HonestFrom (addSize x next) := by
  intro size buf
  obtain ⟨o1, a1, a2⟩ := hx buf
  unfold addSize
  split
  · rename_i n b h
    rw [h] at a1 a2
    simp only at a1 a2
    subst a1
    obtain ⟨o2, b1, b2⟩ := hn (size + n) (buf ++ o1)
    refine ⟨o1 ++ o2, by rw [b1, List.append_assoc], fun k hk => ?_⟩
    rw [b2 k hk, a2 n rfl, List.length_append]
    omega
  · rename_i e b h
    rw [h] at a1
    exact ⟨o1, a1, by simp⟩
  · rename_i b h
    rw [h] at a1
    exact ⟨o1, a1, by simp⟩

theorem honest_loop (m : HeaderMap) : HonestFrom m.putLoop := by
  induction m with
  | nil => exact honest_add (honest_slice _) honest_done
  | cons e m ih => exact honest_add (honest_slice _) (honest_add (honest_slice _) (honest_add (honest_slice _) (honest_add (honest_slice _) ih)))

theorem putLoop_eq (m : HeaderMap) : ∀ size buf, m.putLoop size buf = (.ok (size + m.encode.length), buf ++ m.encode) := by
  induction m with
  | nil => intro size buf; rfl
  | cons e m ih =>
    intro size buf
    obtain ⟨name, value⟩ := e
    rw [HeaderMap.putLoop, HeaderMap.encode]
    simp only [addSize, putSlice, ih, List.length_append, List.length_cons, List.length_nil, Prod.mk.injEq, Res.ok.injEq]
    constructor
    · rw [show (asciiBytes ": ").length = 2 from rfl, show (asciiBytes "\r\n").length = 2 from rfl]; omega
    · rw [show asciiBytes ": " = [58, 32] from rfl, show asciiBytes "\r\n" = [13, 10] from rfl]; simp

/-- Write the bytes of a result that is not a write. -/
def putRes (x : Res Bytes) : Put := fun buf =>
  match x with
  | .ok s => (.ok s.length, buf ++ s)
  | .err e => (.err e, buf)
  | .panic => (.panic, buf)

theorem methodPut_eq (m : Method) : methodPut m = putRes m.encode := by cases m <;> rfl

theorem versionPut_eq (v : Version) : versionPut v = putRes v.encode := by cases v <;> rfl

theorem statusPut_eq (c : Nat) : statusPut c = putRes (statusEncode c) := by
  funext buf
  unfold statusPut statusEncode
  cases canonicalReason c with
  | none => rfl
  | some reason => cases statusAsStr c <;> rfl

theorem encodeRun_size (fuel : Nat) : ∀ (m : Nat) (d : DataFrame) (out : Bytes) (n : Nat), DataFrame.encodeRun fuel m d = some (out, n) → n = out.length := by
  induction fuel with
  | zero => intro m d out n h; simp [DataFrame.encodeRun] at h
  | succ fuel ih =>
    intro m d out n h
    rw [DataFrame.encodeRun] at h
    simp only at h
    split at h
    · rename_i hlt
      split at h
      · simp at h
      · rename_i o s ho
        simp only [Option.some.injEq, Prod.mk.injEq] at h
        have := ih _ _ _ _ ho
        rw [← h.1, ← h.2, this]
        simp only [List.length_append, FrameHeader.encode_length, List.length_take]
        omega
    · simp only [Option.some.injEq, Prod.mk.injEq] at h
      rw [← h.1, ← h.2]
      simp

theorem continuation_size (flags : UInt8) (id : Nat) (l : List Bytes) : (continuationFrames flags id l).length = (l.map fun b => 9 + b.length).sum := by
  fun_induction continuationFrames flags id l with
  | case1 => rfl
  | case2 => simp
  | case3 b rest hr ih => simp [ih]; omega

theorem fragment_size (flags : UInt8) (id : Nat) (l : List Bytes) : (fragmentFrames flags id l).length = (l.map fun b => 9 + b.length).sum := by
  fun_cases fragmentFrames flags id l with
  | case1 => rfl
  | case2 => simp
  | case3 b rest hr => simp [continuation_size]; omega

theorem block_size {m : Nat} {t t' : HeaderIndex} {flags : UInt8} {id : Nat} {f : HeaderMap} {out : Bytes} {n : Nat}
    (h : blockEncode m t flags id f = .ok (out, n, t')) : n = out.length := by
  unfold blockEncode at h
  simp only [Res.bind_eq_ok] at h
  obtain ⟨⟨frags, t1⟩, -, h⟩ := h
  simp only [Res.ok.injEq, Prod.mk.injEq] at h
  rw [← h.1, ← h.2.1, fragment_size]

theorem push_size {m : Nat} {t t' : HeaderIndex} {p : PushPromise} {out : Bytes} {n : Nat}
    (h : p.encode m t = .ok (out, n, t')) : n = out.length := by
  unfold PushPromise.encode at h
  simp only [Res.bind_eq_ok] at h
  obtain ⟨m1, -, ⟨b1, m2, t2⟩, -, ⟨b2, m3, t3⟩, -, ⟨b3, m4, t4⟩, -, ⟨b4, m5, t5⟩, -, ⟨o, s, t6⟩, h1, h⟩ := h
  simp only [Res.ok.injEq, Prod.mk.injEq] at h
  have := block_size h1
  rw [← h.1, ← h.2.1, this]
  simp only [List.length_append, FrameHeader.encode_length, beBytes_length]

end Webparse
