import Verif.Proofs.Basic
import Verif.Model.PartsRequest
import Verif.Props.Builder
import Verif.Props.HeaderMap
import Verif.Props.HttpSettings
import Verif.Props.UpperCase
import Verif.Props.WireNumbers
import Verif.Props.Ws

/-! Further ways into the same things: other constructors and getters for C33, C35, C45, C61, C63, C103, C116. -/

namespace Webparse
open Spec

/-- C45: `Version::from` knows exactly the four names and takes every other text for no version. -/
theorem C45_version_from (s : Bytes) (v : Version) :
    Version.ofStr s = v ↔
      (∃ e ∈ versionNames, e.1 = v ∧ asciiBytes e.2 = s) ∨ (v = .none ∧ ∀ e ∈ versionNames, asciiBytes e.2 ≠ s) := by
  have tab : ∀ e ∈ versionNames, Version.ofStr (asciiBytes e.2) = e.1 := by decide +kernel
  constructor
  · rintro rfl
    by_cases h : ∃ e ∈ versionNames, asciiBytes e.2 = s
    · obtain ⟨e, he, rfl⟩ := h
      exact .inl ⟨e, he, (tab e he).symm, rfl⟩
    · have h' : ∀ e ∈ versionNames, asciiBytes e.2 ≠ s := fun e he hs => h ⟨e, he, hs⟩
      refine .inr ⟨?_, h'⟩
      have a := h' (.http10, "HTTP/1.0") (by decide +kernel)
      have b := h' (.http11, "HTTP/1.1") (by decide +kernel)
      have c := h' (.http2, "HTTP/2") (by decide +kernel)
      have d := h' (.http3, "HTTP/3") (by decide +kernel)
      unfold Version.ofStr
      rw [if_neg (Ne.symm a), if_neg (Ne.symm b), if_neg (Ne.symm c), if_neg (Ne.symm d)]
  · rintro (⟨e, he, rfl, rfl⟩ | ⟨rfl, h⟩)
    · exact tab e he
    · have a := h (.http10, "HTTP/1.0") (by decide +kernel)
      have b := h (.http11, "HTTP/1.1") (by decide +kernel)
      have c := h (.http2, "HTTP/2") (by decide +kernel)
      have d := h (.http3, "HTTP/3") (by decide +kernel)
      unfold Version.ofStr
      rw [if_neg (Ne.symm a), if_neg (Ne.symm b), if_neg (Ne.symm c), if_neg (Ne.symm d)]

/-- C45: what `Version::from` and the parser of a request line make of a text is the same, where the latter refuses what the former
takes for no version. -/
theorem C45_version_agree (s : Bytes) (v : Version) (hv : v ≠ .none) : Version.ofStr s = v ↔ versionOfToken s = .ok v := by
  rw [C45_version, C45_version_from]
  exact ⟨fun h => h.resolve_right fun h => hv h.1, .inl⟩

example : Version.ofStr (asciiBytes "HTTP/2") = .http2 ∧ Version.ofStr (asciiBytes "http/2") = .none := by decide +kernel

/-- C103: numbers of eight bytes. -/
theorem C103_u64 (n : Nat) (rest : Bytes) : readU64 (beBytes 8 n ++ rest) = (n % 2 ^ 64, rest) := by
  unfold readU64
  rw [if_neg (by simp), List.take_left' (by simp), List.drop_left' (by simp), beNat_beBytes]
  rfl

/-- C103: fewer than eight bytes are left where they are. -/
theorem C103_u64_short (buf : Bytes) (h : buf.length < 8) : readU64 buf = (0, buf) := if_pos h

/-- C103: eight bytes are read as the number they are, so different bytes give different numbers. -/
theorem C103_u64_back (a rest : Bytes) (h : a.length = 8) :
    ∃ n < 2 ^ 64, readU64 (a ++ rest) = (n, rest) ∧ beBytes 8 n = a := by
  have e : a = beBytes 8 (beNat a) := by rw [← h]; exact (beBytes_beNat a).symm
  refine ⟨beNat a % 2 ^ 64, Nat.mod_lt _ (by decide), ?_, ?_⟩
  · conv_lhs => rw [e]
    exact C103_u64 _ _
  · have h1 := C103_u64 (beNat a) []
    rw [← e] at h1
    unfold readU64 at h1
    rw [if_neg (by simp [h]), List.append_nil, List.take_of_length_le (by omega)] at h1
    rw [← (Prod.mk.inj h1).1]; exact e.symm

/-- C33: `CloseData::into_bytes` gives the payload of the close message, which is read back as the same status and reason. -/
theorem C33_close_bytes (c : CloseData) (ht : MsgTyped (.close (some c))) :
    c.intoBytes = msgPayload (.close (some c)) ∧ messageOf (some .close) c.intoBytes = .ok ⟨.close, some c.status, c.reason⟩ := by
  obtain ⟨h1, h2⟩ := ht
  have h2' : c.status < 65536 := h2
  have e : c.intoBytes = UInt8.ofNat (c.status / 256 % 256) :: UInt8.ofNat (c.status % 256) :: c.reason := by
    have m : ∀ k : Nat, UInt8.ofNat (k % 256) = UInt8.ofNat k := by
      intro k; apply UInt8.toNat_inj.mp; simp
    simp [CloseData.intoBytes, beBytes, m]
  refine ⟨e, ?_⟩
  rw [e]
  have hb : beNat [UInt8.ofNat (c.status / 256 % 256), UInt8.ofNat (c.status % 256)] = c.status := by
    have h3 := beNat_beBytes_of_lt (k := 2) (n := c.status) h2
    have h4 : beBytes 2 c.status = [UInt8.ofNat (c.status / 256 % 256), UInt8.ofNat (c.status % 256)] :=
      List.append_cancel_right (bs := c.reason) e
    rwa [h4] at h3
  simp only [messageOf, tryGetBe, ne_eq, reduceCtorEq, not_false_eq_true, if_true]
  simp [bind, Res.bind, hb, h1, show ¬ (c.reason.length + 1 + 1 < 2) by omega]

example : MsgTyped (.close (some ⟨1000, asciiBytes "bye"⟩)) ∧ CloseData.intoBytes ⟨1000, asciiBytes "bye"⟩ = 3 :: 232 :: asciiBytes "bye" := by
  refine ⟨⟨by decide +kernel, by decide⟩, by decide +kernel⟩

/-- C61: the same with the builder; method, URL, version and the other headers are kept, an error stays an error. -/
theorem C61_builder_partial (b : RequestBuilder) (s : Settings) :
    (∀ r, b = .ok r → (∀ e ∈ r.header, ∀ n ∈ ["Connection", "Upgrade", "HTTP2-Settings"],
        Unambiguous e.1 (asciiBytes n) ∧ Unambiguous e.1 (lower (asciiBytes n))) →
      ∃ r', b.upgradeHttp2 s = .ok r' ∧ r'.method = r.method ∧ r'.url = r.url ∧ r'.version = r.version ∧
        r'.header.upgradeProtocol = some (asciiBytes "h2c") ∧
        r'.header.get? (asciiBytes "http2-settings") = some s.encodeHttp) ∧
    (∀ e, b = .err e → b.upgradeHttp2 s = .err e) := by
  refine ⟨?_, ?_⟩
  · rintro r rfl h
    obtain ⟨h1, -, h2⟩ := C61_upgrade_partial r.header s h
    exact ⟨_, rfl, rfl, rfl, rfl, h1, h2⟩
  · rintro e rfl; rfl

/-- C63: a frame made with `Parts::response` becomes a response of that status. -/
theorem C63_response_parts (f : HeadersFrame) (s : Nat) (h : f.parts = Parts.response s) :
    ∃ r, responseOf f = .ok r ∧ r.status = s ∧ buildResponse [.statusIs s, .headers f.fields] = .ok r := by
  obtain ⟨r, h1, h2, h3⟩ := C63_response f
  rw [h] at h2 h3
  have : r.status = s := h2
  exact ⟨r, h1, this, by rw [← this]; exact h3⟩

example : ∃ f : HeadersFrame, f.parts = Parts.response 404 ∧ ∃ r, responseOf f = .ok r ∧ r.status = 404 :=
  ⟨⟨1, none, [], Parts.response 404, 4⟩, rfl, (C63_response_parts _ 404 rfl).imp fun _ h => ⟨h.1, h.2.1⟩⟩

/-- C35: `is_equal` and `get_str_value` ask the same map. -/
theorem C35_getters_partial (ops : List HeaderOp) (n v : Bytes)
    (hu : ∀ a ∈ n :: opNames ops, ∀ b ∈ n :: opNames ops, Unambiguous a b) :
    ((runOps ops).isEqual n v = true ↔ absOps ops (lower n) = some v) ∧
    ((runOps ops).getStr n = some v ↔ absOps ops (lower n) = some v ∧ utf8Valid v = true) := by
  have h := (C35_map_partial ops n hu).1
  unfold HeaderMap.isEqual HeaderMap.getStr
  rw [h]
  cases hx : absOps ops (lower n) with
  | none => simp
  | some w =>
    refine ⟨by simp, ?_⟩
    simp only [valueAsString, Option.some.injEq]
    constructor
    · intro h; split at h
      · simp only [Option.some.injEq] at h; subst h; exact ⟨rfl, by assumption⟩
      · simp at h
    · rintro ⟨rfl, h⟩; rw [if_pos h]

/-- C116: on the bytes of an ASCII text, the simplified `Method.fromStr` is `str::parse`. -/
theorem C116_bytes (up : Char → List Char) (hu : UnicodeUpper up) (s : List Char) (hs : ∀ c ∈ s, c.toNat < 128) :
    Method.fromStr (utf8Text s) = Method.parseText up s := by
  unfold Method.fromStr Method.parseText
  congr 1
  have e : s.flatMap up = s.map Char.toUpper := by
    induction s with
    | nil => rfl
    | cons c s ih =>
      rw [List.flatMap_cons, hu.ascii c (hs c List.mem_cons_self), ih fun d hd => hs d (List.mem_cons_of_mem _ hd)]; rfl
  rw [e, utf8Text_ascii hs, utf8Text_ascii (s := s.map Char.toUpper) (by
    intro c hc
    obtain ⟨d, hd, rfl⟩ := List.mem_map.mp hc
    exact (toUpper_ascii (hs d hd)).1)]
  unfold toUpperAscii
  rw [List.map_map, List.map_map]
  apply List.map_congr_left
  intro c hc
  have tab : ∀ n : Fin 128, (if (97 : UInt8) ≤ UInt8.ofNat n && UInt8.ofNat n ≤ (122 : UInt8) then UInt8.ofNat n - 32 else UInt8.ofNat n) =
      UInt8.ofNat (Char.ofNat n).toUpper.toNat := by decide +kernel
  have := tab ⟨c.toNat, hs c hc⟩
  simp only [Char.ofNat_toNat] at this
  exact this

end Webparse
