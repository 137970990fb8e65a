import Verif.Proofs.Sizes

/-! # C54: encoders report the number of bytes they append -/

namespace Webparse
open Spec

/-- Header maps. -/
theorem C54_headers (m : HeaderMap) : Honest m.put := honest_of_from (honest_loop m)

/-- Methods. -/
theorem C54_method (m : Method) : Honest (methodPut m) := by
  intro buf
  unfold methodPut
  split
  · exact ⟨[], by simp, by simp⟩
  · exact honest_slice _ buf

/-- Versions. -/
theorem C54_version (v : Version) : Honest (versionPut v) := by
  intro buf
  unfold versionPut
  split
  · exact ⟨[], by simp, by simp⟩
  · exact honest_slice _ buf

/-- Status codes. -/
theorem C54_status (code : Nat) : Honest (statusPut code) := by
  intro buf
  unfold statusPut
  split
  · split
    · exact honest_slice _ buf
    · exact ⟨[], by simp, by simp⟩
    · exact ⟨[], by simp, by simp⟩
  · exact ⟨[], by simp, by simp⟩

/-- Request heads. -/
theorem C54_request (r : Request) : Honest r.putHeader :=
  honest_of_from (honest_add (C54_method _) (honest_add (honest_byte _) (honest_add (honest_slice _) (honest_add (honest_byte _)
    (honest_add (C54_version _) (honest_add (honest_slice _) (honest_add (C54_headers _) honest_done)))))))

/-- Response heads. -/
theorem C54_response (r : Response) : Honest r.putHeader :=
  honest_of_from (honest_add (C54_version _) (honest_add (honest_slice _) (honest_add (C54_status _) (honest_add (C54_headers _) honest_done))))

/-- Whole responses. -/
theorem C54_response_body (r : Response) (body : Bytes) : Honest (r.put body) :=
  honest_of_from (honest_add (C54_version _) (honest_add (honest_slice _) (honest_add (C54_status _) (honest_add (C54_headers _)
    (honest_add (honest_slice _) honest_done)))))

/-- Chunks. -/
theorem C54_chunk (data : Bytes) : Honest (putChunk data) :=
  honest_of_from (honest_add (honest_slice _) (honest_add (honest_slice _) (honest_add (honest_slice _) (honest_add (honest_slice _) honest_done))))

/-! The bytes appended are those of the other theorems. -/

/-- A request head is written exactly if its bytes are defined, and they are what is appended. -/
theorem C54_request_bytes (r : Request) (buf out : Bytes) (n : Nat) :
    r.encodeHeader = .ok (out, n) ↔ r.putHeader buf = (.ok n, buf ++ out) := by
  unfold Request.encodeHeader Request.putHeader
  simp only [addSize, methodPut_eq, versionPut_eq, putByte, putSlice, HeaderMap.put, putLoop_eq, done, putRes]
  cases r.method.encode with
  | err e => simp
  | panic => simp
  | ok m =>
    cases r.version.encode with
    | err e => simp
    | panic => simp
    | ok v =>
      simp only [Res.bind_ok, Res.ok.injEq, Prod.mk.injEq, List.append_assoc, List.append_cancel_left_eq, Nat.zero_add]
      rw [show asciiBytes "\r\n" = [13, 10] from rfl]
      exact and_comm

/-- A response is written exactly if its bytes are defined, and they are what is appended. -/
theorem C54_response_bytes (r : Response) (body buf out : Bytes) (n : Nat) :
    r.serialize body = .ok (out, n) ↔ r.put body buf = (.ok n, buf ++ out) := by
  unfold Response.serialize Response.put
  simp only [addSize, statusPut_eq, versionPut_eq, putSlice, HeaderMap.put, putLoop_eq, done, putRes]
  cases r.version.encode with
  | err e => simp
  | panic => simp
  | ok v =>
    cases statusEncode r.status with
    | err e => simp
    | panic => simp
    | ok s =>
      simp only [Res.bind_ok, Res.ok.injEq, Prod.mk.injEq, List.append_assoc, List.append_cancel_left_eq, Nat.zero_add]
      rw [show asciiBytes " " = [32] from rfl]
      exact and_comm

/-- The same for the head of a response alone. -/
theorem C54_response_head_bytes (r : Response) (buf out : Bytes) (n : Nat) :
    r.encodeHeader = .ok (out, n) ↔ r.putHeader buf = (.ok n, buf ++ out) := by
  unfold Response.encodeHeader Response.putHeader
  simp only [addSize, statusPut_eq, versionPut_eq, putSlice, HeaderMap.put, putLoop_eq, done, putRes]
  cases r.version.encode with
  | err e => simp
  | panic => simp
  | ok v =>
    cases statusEncode r.status with
    | err e => simp
    | panic => simp
    | ok s =>
      simp only [Res.bind_ok, Res.ok.injEq, Prod.mk.injEq, List.append_assoc, List.append_cancel_left_eq, Nat.zero_add]
      rw [show asciiBytes " " = [32] from rfl]
      exact and_comm

example : Request.putHeader { method := .get, header := [(asciiBytes "a", asciiBytes "b")] } (asciiBytes "x") =
    (.ok 24, asciiBytes "xGET / HTTP/1.1\r\na: b\r\n\r\n") := by decide +kernel

/-! ## HTTP/2 frames -/

/-- Every frame: the size returned is the number of bytes appended (the model gives the bytes appended;
`none` is a loop that does not end, see C19). -/
theorem C54_frame (maxFrameSize : Nat) (t t' : HeaderIndex) (f : Frame) (out : Bytes) (n : Nat)
    (h : Frame.encode maxFrameSize t f = some (.ok (out, n, t'))) : n = out.length := by
  cases f with
  | data d =>
    rw [Frame.encode] at h
    split at h
    · rename_i o s ho
      simp only [Option.some.injEq, Res.ok.injEq, Prod.mk.injEq] at h
      rw [← h.1, ← h.2.1]
      exact encodeRun_size _ _ _ _ _ ho
    · simp at h
  | headers f => rw [Frame.encode, Option.some.injEq] at h; exact block_size h
  | pushPromise p => rw [Frame.encode, Option.some.injEq] at h; exact push_size h
  | settings s =>
    simp only [Frame.encode, Option.some.injEq, Res.ok.injEq, Prod.mk.injEq] at h
    rw [← h.1, ← h.2.1, settings_encode_size]
  | priority p | ping p | goAway p | windowUpdate p | reset p =>
    simp only [Frame.encode, Option.some.injEq, Res.ok.injEq, Prod.mk.injEq] at h
    rw [← h.1, ← h.2.1]
    simp [Priority.encode, StreamDependency.encode, Ping.encode, GoAway.encode, WindowUpdate.encode, Reset.encode] <;> omega

example : Frame.encode 16384 {} (.headers { streamId := 1, flags := 0, fields := [(asciiBytes "a", asciiBytes "b")] }) =
    some (.ok ([0, 0, 5, 1, 4, 0, 0, 0, 1, 64, 129, 31, 129, 143], 14,
      { table := [(asciiBytes "a", asciiBytes "b")], size := 34, maxSize := 4096 })) := by decide +kernel

end Webparse
