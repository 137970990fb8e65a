import Verif.Proofs.Amplify
import Verif.Props.FrameHeaders
import Verif.Props.Safety
import Verif.Spec.Amplify

/-! # C99: what a header block can be made into -/

namespace Webparse
open Spec

/-- C99: a block decodes to no more fields than it has bytes, and to a list of at most as many times the size of the table
(or 64, if it is smaller) and 5 bytes.  The size of a list is the one of RFC 9113 6.5.2. -/
theorem C99_bound (t t' : HeaderIndex) (ht : TableInv t) (buf : Bytes) (hs : List Header)
    (h : decode t buf = some (.ok (hs, t'))) :
    hs.length ≤ buf.length ∧ headerListSize hs ≤ buf.length * (max t.maxSize 64 + 5) :=
  decodeRun_size _ ht h

example : TableInv {} ∧ decode {} [0x82, 0x40, 0x01, 0x61, 0x01, 0x62, 0xBE] = some (.ok
    ([(asciiBytes ":method", asciiBytes "GET"), ([97], [98]), ([97], [98])], ⟨[([97], [98])], 34, 4096⟩)) :=
  ⟨⟨rfl, by decide⟩, by decide +kernel⟩

/-- C99: so it is over a whole connection: what `n` blocks are decoded to is bounded by the bytes of all of them. -/
theorem C99_connection (blocks : List Bytes) (t t' : HeaderIndex) (ht : TableInv t) (hss : List (List Header))
    (h : decodeBlocks t blocks = some (.ok (hss, t'))) :
    headerListSize hss.flatten ≤ blocks.flatten.length * (max t.maxSize 64 + 5) ∧
      tableSize t'.table ≤ t.maxSize := by
  induction blocks generalizing t hss with
  | nil =>
    simp [decodeBlocks] at h
    obtain ⟨rfl, rfl⟩ := h
    have h1 := ht.1
    have h2 := ht.2
    unfold SizeOk at h1
    exact ⟨by simp [headerListSize], by omega⟩
  | cons b bs ih =>
    unfold decodeBlocks at h
    cases hd : decode t b with
    | none => simp [hd] at h
    | some r =>
      cases r with
      | err e => simp [hd] at h
      | panic => simp [hd] at h
      | ok p =>
        obtain ⟨hs, t1⟩ := p
        have hb := (C99_bound t t1 ht b hs hd).2
        obtain ⟨ht1, hm⟩ := (decodeRun_safe _ ht b).2 _ _ hd
        simp only [hd] at h
        cases hr : decodeBlocks t1 bs with
        | none => simp [hr] at h
        | some r =>
          cases r with
          | err e => simp [hr] at h
          | panic => simp [hr] at h
          | ok q =>
            obtain ⟨hss2, t2⟩ := q
            simp [hr] at h
            obtain ⟨rfl, rfl⟩ := h
            have := ih t1 ht1 hss2 hr
            rw [hm] at this
            simp only [List.flatten_cons, List.length_append, headerListSize, List.map_append, List.sum_append,
              Nat.add_mul] at *
            omega

/-- C99, the claim about the limit: a HEADERS frame is not decoded past the first field that exceeds the limit on header
lists given to `Headers::parse`. -/
def C99_limit_statement : Prop :=
  ∀ (f : HeadersFrame) (buf : Bytes) (t t' : HeaderIndex) (m : Nat) (hs : List Header), TableInv t →
    f.flags &&& 0x20 ≠ 0x20 → decode t buf = some (.ok (hs, t')) → f.parse buf t m ≠ none →
    headerListSize hs.dropLast ≤ m

theorem plain_4031 (v rest : Bytes) (hv : v.length = 4031) :
    decodeString ([0x7F, 0xC0, 0x1E] ++ v ++ rest) = .ok (v, 4034) := by
  have hi : decodeInteger ([0x7F, 0xC0, 0x1E] ++ v ++ rest) 7 = .ok (4031, 3) := by
    rw [List.append_assoc]
    exact decodeInteger_extend (buf := [0x7F, 0xC0, 0x1E]) (by decide +kernel) (v ++ rest)
  unfold decodeString
  rw [hi]
  simp only [Res.bind_ok]
  rw [if_neg (by simp; omega)]
  have h2 : (([0x7F, 0xC0, 0x1E] ++ v ++ rest).drop 3).take 4031 = v := by
    rw [List.append_assoc]
    exact List.take_left' (l₂ := rest) hv
  have h3 : ¬ ([0x7F, 0xC0, 0x1E] ++ v ++ rest).headD 0 &&& 128 = 128 := (by decide : ¬ (0x7F : UInt8) &&& 128 = 128)
  rw [h2, if_neg h3]

theorem repeat_first (v rest : Bytes) (hv : v.length = 4031) :
    decodeStep {} 0x40 ([0x01, 0x61] ++ ([0x7F, 0xC0, 0x1E] ++ v) ++ rest) =
      .ok ([([0x61], v)], ⟨[([0x61], v)], 4064, 4096⟩, 4037) := by
  have hl : decodeLiteral {} (0x40 :: ([0x01, 0x61] ++ ([0x7F, 0xC0, 0x1E] ++ v) ++ rest)) true =
      .ok (([0x61], v), 4037) := by
    unfold decodeLiteral
    have e1 : decodeInteger (0x40 :: ([0x01, 0x61] ++ ([0x7F, 0xC0, 0x1E] ++ v) ++ rest)) 6 = .ok (0, 1) := by
      have := decodeInteger_extend (buf := [0x40]) (p := 6) (v := 0) (n := 1) (by decide +kernel)
        ([0x01, 0x61] ++ ([0x7F, 0xC0, 0x1E] ++ v) ++ rest)
      exact this
    simp only [if_true, e1, Res.bind_ok]
    have e2 : decodeLiteralName {} (0x40 :: ([0x01, 0x61] ++ ([0x7F, 0xC0, 0x1E] ++ v) ++ rest)) 0 1 = .ok ([0x61], 3) := by
      have := (decodeLiteralName_extend (t := {}) (buf := [0x40, 0x01, 0x61]) (ti := 0) (c := 1) (c2 := 3) (name := [0x61])
        (by simp) (by decide +kernel)).2.2 (([0x7F, 0xC0, 0x1E] ++ v) ++ rest)
      exact this
    rw [e2]
    simp only [Res.bind_ok]
    have e3 : (0x40 :: ([0x01, 0x61] ++ ([0x7F, 0xC0, 0x1E] ++ v) ++ rest)).drop 3 = [0x7F, 0xC0, 0x1E] ++ v ++ rest := rfl
    rw [e3, plain_4031 v rest hv]
    rfl
  have ha : addHeader {} ([0x61], v) = .ok ⟨[([0x61], v)], 4064, 4096⟩ := by
    unfold addHeader
    rw [consolidate]
    simp [entrySize, hv]
  unfold decodeStep
  rw [show fieldRep 0x40 = .incremental from by decide]
  simp only [hl, Res.bind_ok, ha]

theorem repeat_rest (v : Bytes) (n : Nat) :
    decodeRun n ⟨[([0x61], v)], 4064, 4096⟩ (List.replicate n 0xBE) =
      some (.ok (List.replicate n ([0x61], v), ⟨[([0x61], v)], 4064, 4096⟩)) := by
  induction n with
  | zero => rfl
  | succ n ih =>
    have hs : decodeStep ⟨[([0x61], v)], 4064, 4096⟩ 0xBE (List.replicate n 0xBE) =
        .ok ([([0x61], v)], ⟨[([0x61], v)], 4064, 4096⟩, 1) := by
      unfold decodeStep
      rw [show fieldRep 0xBE = .indexed from by decide]
      have : getFromIndex ⟨[([0x61], v)], 4064, 4096⟩ (0xBE &&& 0x7f : UInt8).toNat = some ([0x61], v) := rfl
      simp only [decodeIndexed, this]
      rfl
    rw [List.replicate_succ, decodeRun_step hs]
    simp only [List.drop_succ_cons, List.drop_zero, ih]
    rfl

/-- C99, violated: whatever the limit on header lists, `4037 + n` bytes are decoded to a list of `4064 * (n + 1)`, and only
then is the frame refused. -/
theorem C99_violated_limit (f : HeadersFrame) (hf : f.flags &&& 0x20 ≠ 0x20) (v : Bytes) (hv : v.length = 4031) (n m : Nat)
    (hm : m < 4064 * (n + 1)) :
    (repeatBlock v n).length = 4037 + n ∧
    ∃ hs t', decode {} (repeatBlock v n) = some (.ok (hs, t')) ∧ headerListSize hs = 4064 * (n + 1) ∧
      headerListSize hs.dropLast = 4064 * n ∧ ∃ e, f.parse (repeatBlock v n) {} m = some (.err e) := by
  have hlen : (repeatBlock v n).length = 4037 + n := by simp [repeatBlock, hv]; omega
  have hsz : ∀ k, headerListSize (List.replicate k ([0x61], v)) = 4064 * k := by
    intro k
    simp only [headerListSize, List.map_replicate, List.sum_replicate_nat, hv]
    simp [Nat.mul_comm]
  have hrun : decodeRun (1 + n) {} (repeatBlock v n) = some (.ok (List.replicate (n + 1) ([0x61], v), ⟨[([0x61], v)], 4064, 4096⟩)) := by
    have e : repeatBlock v n = 0x40 :: ([0x01, 0x61] ++ ([0x7F, 0xC0, 0x1E] ++ v) ++ List.replicate n 0xBE) := rfl
    rw [e, Nat.add_comm 1 n, decodeRun_step (repeat_first v _ hv)]
    have ed : (0x40 :: ([0x01, 0x61] ++ ([0x7F, 0xC0, 0x1E] ++ v) ++ List.replicate n 0xBE)).drop 4037 = List.replicate n 0xBE := by
      rw [show 0x40 :: ([0x01, 0x61] ++ ([0x7F, 0xC0, 0x1E] ++ v) ++ List.replicate n 0xBE) =
        ([0x40, 0x01, 0x61] ++ ([0x7F, 0xC0, 0x1E] ++ v)) ++ List.replicate n (0xBE : UInt8) from rfl]
      exact List.drop_left' (by simp [hv])
    rw [ed, repeat_rest]
    rfl
  have hdec := decodeRun_length hrun
  refine ⟨hlen, _, _, hdec, hsz _, ?_, ?_⟩
  · rw [List.dropLast_replicate, hsz]
    rfl
  · cases hp : f.parse (repeatBlock v n) {} m with
    | none =>
      exfalso
      unfold HeadersFrame.parse HeadersFrame.loadDep flagIsPriority at hp
      rw [if_neg (by simpa using hf)] at hp
      simp only [decode, hdec] at hp
      cases hp
    | some r =>
      cases r with
      | err e => exact ⟨e, rfl⟩
      | panic => exact absurd hp (headers_parse_safe f _ (t := {}) ⟨rfl, by decide⟩ m).1
      | ok p =>
        exfalso
        obtain ⟨hs, h1, h2⟩ := C23_limit f p.1 _ {} p.2 m hp
        rw [if_neg hf] at h1
        have h3 := h1.symm.trans hdec
        simp only [Option.some.injEq, Res.ok.injEq, Prod.mk.injEq] at h3
        rw [h3.1, hsz] at h2
        omega

/-- C99 does not hold of the code. -/
theorem C99_violated : ¬ C99_limit_statement := by
  intro h
  obtain ⟨-, hs, t', h1, -, h3, e, h4⟩ := C99_violated_limit ⟨1, none, [], {}, 4⟩ (by decide) (List.replicate 4031 98) List.length_replicate 1 100
    (by omega)
  have := h ⟨1, none, [], {}, 4⟩ _ {} t' 100 hs ⟨rfl, by decide⟩ (by decide) h1 (by rw [h4]; simp)
  omega

end Webparse
