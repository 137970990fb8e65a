import Verif.Props.UrlEq
import Verif.Props.UrlExact
import Verif.Proofs.Numbers

/-!
# C106 for absolute URLs, exactly

Which absolute URLs equal the text they were read from.
-/

namespace Webparse
open Spec

/-! ### Numerals without leading zeros -/

theorem digitByte_val (b : UInt8) (h : isDigit b = true) : digitByte (digitVal b) = b ∧ digitVal b < 10 ∧ (b ≠ 48 → 0 < digitVal b) := by
  revert h; revert b; decide +kernel

theorem digitsVal_pos {c : UInt8} {r : Bytes} (h : isDigit c = true) (hc : c ≠ 48) : 0 < digitsVal 10 (c :: r) := by
  rw [digitsVal_cons]
  have := (digitByte_val c h).2.2 hc
  have : 0 < digitVal c * 10 ^ r.length := Nat.mul_pos this (Nat.pow_pos (by omega))
  omega

theorem numeralAux_of (fuel : Nat) : ∀ (p : Bytes), p ≠ [] → (∀ b ∈ p, isDigit b = true) → (p.head? ≠ some 48 ∨ p.length = 1) → digitsVal 10 p < fuel →
    numeralAux 10 fuel (digitsVal 10 p) = p := by
  induction fuel with
  | zero => intro p _ _ _ h; omega
  | succ fuel ih =>
    intro p hne hd hz hf
    obtain ⟨q, c, rfl⟩ : ∃ q c, p = q ++ [c] := ⟨p.dropLast, p.getLast hne, (List.dropLast_concat_getLast hne).symm⟩
    have hc := hd c (by simp)
    obtain ⟨c1, c2, -⟩ := digitByte_val c hc
    rw [digitsVal_append] at hf ⊢
    cases q with
    | nil =>
      have e : digitsVal 10 [] * 10 + digitVal c = digitVal c := by simp [digitsVal]
      rw [e, numeralAux, if_pos c2, c1]
      rfl
    | cons a q =>
      have ha : a ≠ 48 := by
        rintro rfl
        rcases hz with hz | hz
        · simp at hz
        · simp at hz
      have hpos := digitsVal_pos (r := q) (hd a (by simp)) ha
      rw [numeralAux, if_neg (by omega), show (digitsVal 10 (a :: q) * 10 + digitVal c) / 10 = digitsVal 10 (a :: q) by omega,
        show (digitsVal 10 (a :: q) * 10 + digitVal c) % 10 = digitVal c by omega, c1,
        ih (a :: q) (by simp) (fun b hb => hd b (by simp only [List.mem_append]; exact .inl hb)) (.inl (by simpa using ha)) (by omega)]

theorem numeralAux_head (fuel n : Nat) (h : n < fuel) : (numeralAux 10 fuel n).head? ≠ some 48 ∨ numeralAux 10 fuel n = [48] := by
  induction fuel generalizing n with
  | zero => omega
  | succ fuel ih =>
    rw [numeralAux]
    split
    · rename_i hn
      have key : ∀ d : Fin 10, [digitByte d.val].head? ≠ some 48 ∨ [digitByte d.val] = [48] := by decide +kernel
      exact key ⟨n, hn⟩
    · rename_i hn
      left
      have hs := numeral_spec 10 isDigit (by decide) (fun d hd => digitByte_dec ⟨d, hd⟩) fuel (n / 10) (by omega)
      rcases ih (n / 10) (by omega) with e | e
      · cases hq : numeralAux 10 fuel (n / 10) with
        | nil => exact absurd hq hs.1
        | cons a r => rw [hq] at e; simpa using e
      · have := hs.2.2
        rw [e] at this
        have : n / 10 = 0 := by rw [← this]; decide +kernel
        omega

/-- The numeral written for `n` is the one without leading zeros. -/
theorem decimal_iff (p : Bytes) (n : Nat) : p = decimal n ↔ IsNumeral p n ∧ (p.head? ≠ some 48 ∨ p = [48]) := by
  constructor
  · rintro rfl
    obtain ⟨h1, h2, h3⟩ := decimal_spec n
    exact ⟨⟨h1, fun b hb => (isDigit_iff b).mp (h2 b hb), by rw [← digitsVal_dec h2]; exact h3⟩, numeralAux_head _ _ (by omega)⟩
  · rintro ⟨⟨h1, h2, h3⟩, h4⟩
    have hd : ∀ b ∈ p, isDigit b = true := fun b hb => (isDigit_iff b).mpr (h2 b hb)
    have e : digitsVal 10 p = n := by rw [digitsVal_dec hd]; exact h3
    have := numeralAux_of (n + 1) p h1 hd (h4.imp id fun h => by rw [h]; rfl) (by omega)
    rw [e] at this
    exact this.symm

theorem portSuffix_iff (s : Scheme) (hs : s ≠ .none) (n : Nat) (port : Option Bytes) :
    portPart port = portSuffix s (some n) ↔ PortCanonical s n port := by
  unfold portSuffix
  rw [if_pos hs]
  simp only []
  cases port with
  | none =>
    unfold portPart PortCanonical
    by_cases h1 : s = .http ∧ n = 80
    · rw [if_pos h1]; simp [h1]
    · rw [if_neg h1]
      by_cases h2 : s = .https ∧ n = 443
      · rw [if_pos h2]; simp [h2]
      · rw [if_neg h2]; simp [h1, h2]
  | some p =>
    unfold portPart PortCanonical
    simp only []
    rw [← decimal_iff]
    by_cases h1 : s = .http ∧ n = 80
    · rw [if_pos h1]; simp [h1]
    · rw [if_neg h1]
      by_cases h2 : s = .https ∧ n = 443
      · rw [if_pos h2]; simp [h2]
      · rw [if_neg h2]; simp [h1, h2]

/-! ### Comparing part by part -/

theorem decodes_len {s v : Bytes} (h : Decodes s v) : v.length ≤ s.length ∧ (v = s ∨ v.length < s.length) := by
  induction h with
  | nil => simp
  | plain _ _ ih =>
    obtain ⟨h1, h2⟩ := ih
    refine ⟨by simp only [List.length_cons]; omega, ?_⟩
    rcases h2 with rfl | h2
    · exact .inl rfl
    · right; simp only [List.length_cons]; omega
  | escape _ _ _ ih => simp only [List.length_cons]; omega

theorem decodes_eq {s v : Bytes} (h : Decodes s v) : v = s ↔ (37 : UInt8) ∉ s := by
  constructor
  · intro e hm
    have key : ∀ {s v : Bytes}, Decodes s v → (37 : UInt8) ∈ s → v.length < s.length := by
      intro s v h
      induction h with
      | nil => intro h; simp at h
      | plain hb hd ih =>
        intro hm
        rcases List.mem_cons.mp hm with e | hm
        · exact absurd e.symm hb
        · simpa using ih hm
      | escape _ _ hd _ => intro _; have := (decodes_len hd).1; simp only [List.length_cons]; omega
    have := key h hm
    rw [e] at this
    omega
  · intro hm
    exact decodes_unique h (decodes_plain hm)

/-- What is encoded up to a separator. -/
theorem encode_cut {raw v X Y : Bytes} {c : UInt8} (hc : c ∈ asciiBytes ":@/?") (h : Decodes raw v) (hr : c ∉ raw)
    (e : urlEncode v ++ c :: X = raw ++ c :: Y) : urlEncode v = raw ∧ X = Y := by
  by_cases hv : c ∈ v
  · exfalso
    rcases hcut : cut c v with ⟨a, _ | b⟩
    · exact (cut_none hcut).2 hv
    · obtain ⟨rfl, ha⟩ := cut_some hcut
      have hk : urlEncode (c :: b) = c :: urlEncode b := by
        have : ∀ c ∈ asciiBytes ":@/?", encodeByte c = [c] := by decide +kernel
        rw [urlEncode_eq, urlEncode_eq, List.flatMap_cons, this c hc]
        rfl
      rw [encode_append, hk, List.append_assoc, List.cons_append] at e
      have h1 := cut_append (c := c) (x := urlEncode a) (y := urlEncode b ++ c :: X) (fun hm => ha (encode_sep hc hm))
      rw [e, cut_append hr, Prod.mk.injEq] at h1
      have : Decodes raw a := by rw [h1.1]; exact decodes_encode a
      have := decodes_unique h this
      simp at this
  · have h1 := cut_append (c := c) (x := urlEncode v) (y := X) (fun hm => hv (encode_sep hc hm))
    rw [e, cut_append hr, Prod.mk.injEq, Option.some.injEq] at h1
    exact ⟨h1.1.symm, h1.2.symm⟩

/-- A host and a port up to the path. -/
theorem host_cut {h d T X : Bytes} {port : Option Bytes} {s : Scheme} {n : Nat} (hd : Decodes h d) (hh : (47 : UInt8) ∉ h ∧ (58 : UInt8) ∉ h)
    (hp : ∀ p, port = some p → (47 : UInt8) ∉ p ∧ (58 : UInt8) ∉ p)
    (e : d ++ (portSuffix s (some n) ++ 47 :: X) = h ++ (portPart port ++ 47 :: T)) : d = h ∧ portPart port = portSuffix s (some n) ∧ X = T := by
  have hps : portSuffix s (some n) = [] ∨ portSuffix s (some n) = 58 :: decimal n := by
    unfold portSuffix
    repeat' split
    all_goals simp_all
  have hdec : (47 : UInt8) ∉ decimal n ∧ (58 : UInt8) ∉ decimal n := by
    have := (decimal_spec n).2.1
    exact ⟨fun hm => absurd (this _ hm) (by decide), fun hm => absurd (this _ hm) (by decide)⟩
  have hps47 : (47 : UInt8) ∉ portSuffix s (some n) := by
    rcases hps with e | e <;> rw [e] <;> simp [hdec.1]
  have hpp47 : (47 : UInt8) ∉ portPart port := by
    cases port with
    | none => simp [portPart]
    | some p => simp [portPart, (hp p rfl).1]
  have hr := cut_append (c := 47) (x := h ++ portPart port) (y := T) (by rw [List.mem_append, not_or]; exact ⟨hh.1, hpp47⟩)
  obtain ⟨hl, hl'⟩ := decodes_len hd
  by_cases h47 : (47 : UInt8) ∈ d
  · exfalso
    rcases hcut : cut 47 d with ⟨a, _ | b⟩
    · exact (cut_none hcut).2 h47
    · obtain ⟨rfl, ha⟩ := cut_some hcut
      rw [List.append_assoc, ← e, List.append_assoc, List.cons_append, cut_append ha, Prod.mk.injEq] at hr
      have := congrArg List.length hr.1
      simp only [List.length_append, List.length_cons] at this hl
      omega
  · rw [List.append_assoc, ← e, ← List.append_assoc, cut_append (by rw [List.mem_append, not_or]; exact ⟨h47, hps47⟩), Prod.mk.injEq,
      Option.some.injEq] at hr
    obtain ⟨r1, r2⟩ := hr
    have hlen := congrArg List.length r1
    rw [List.length_append, List.length_append] at hlen
    have fin : d = h → d = h ∧ portPart port = portSuffix s (some n) ∧ X = T := by
      intro ed
      rw [ed, List.append_cancel_left_eq] at r1
      exact ⟨ed, r1.symm, r2⟩
    apply fin
    rcases hl' with e | hlt
    · exact e
    · exfalso
      -- the host would be longer than what it decodes to, so it would contain the colon of the port
      rcases hps with e1 | e1
      · rw [e1] at hlen; simp only [List.length_nil] at hlen; omega
      · cases port with
        | none =>
          rw [e1, portPart, List.append_nil] at r1
          exact hh.2 (by rw [← r1]; simp)
        | some p =>
          rw [e1, portPart] at r1
          have h58 := (hp p rfl).2
          have rev := congrArg List.reverse r1
          simp only [List.reverse_append, List.reverse_cons, List.append_assoc, List.singleton_append] at rev
          have k1 := cut_append (c := 58) (x := (decimal n).reverse) (y := d.reverse) (by simpa using hdec.2)
          rw [rev, cut_append (by simpa using h58), Prod.mk.injEq, Option.some.injEq] at k1
          have := congrArg List.length k1.2
          rw [List.length_reverse, List.length_reverse] at this
          omega

theorem tail_eq {tail : Bytes} {u : Url} (hne : tail ≠ []) (h1 : PartIs (some (cut 63 tail).1) (some u.path)) (h2 : PartIs (cut 63 tail).2 u.query) :
    urlEncode u.path ++ queryText u.query = tail ↔ Canonical tail := by
  obtain ⟨v, hv, -, e⟩ := h1
  obtain rfl : u.path = v := by simpa using e
  rw [query_encode, ← encode_append]
  apply encode_eq_iff
  cases hq : cut 63 tail with
  | mk p q =>
    rw [hq] at hv h2
    cases q with
    | none =>
      obtain ⟨rfl, -⟩ := cut_none hq
      rw [show u.query = none from h2]
      simpa using hv
    | some q =>
      obtain ⟨w, hw, -, e⟩ := h2
      obtain ⟨rfl, -⟩ := cut_some hq
      rw [e]
      exact decodes_append hv (.plain (by decide) hw)

/-- C106, exactly, for absolute URLs: a URL equals the text it was read from if and only if the user name, the password, the path and the
query are spelled as the encoder spells them, the host has no escapes, a port is written exactly if the scheme does not imply it, without
leading zeros, and the path is written.  Missing for C106: other spellings. -/
theorem C106_absolute_iff_partial (t : Bytes) (user : Option (Bytes × Bytes)) (h : Bytes) (port : Option Bytes) (tail : Bytes) (u : Url)
    (ht : SchemeText t) (hn : ∀ x, user = some x → ∀ b ∈ x.1 ++ x.2, b ∉ asciiBytes ":@/?") (hh : ∀ b ∈ h, b ∉ asciiBytes ":@/?")
    (hp : ∀ p, port = some p → ∀ b ∈ p, b ∉ asciiBytes ":@/?") (h47 : tail = [] ∨ tail.head? = some 47) (hat : (64 : UInt8) ∉ tail)
    (hu : Url.ofText (t ++ asciiBytes "://" ++ (userPart user ++ h ++ portPart port ++ tail)) = .ok u) :
    u.eqText (t ++ asciiBytes "://" ++ (userPart user ++ h ++ portPart port ++ tail)) = true ↔
      (∀ x, user = some x → Canonical x.1 ∧ Canonical x.2) ∧ (37 : UInt8) ∉ h ∧ (∀ n, u.port = some n → PortCanonical u.scheme n port) ∧
      tail ≠ [] ∧ Canonical tail := by
  have e3 : asciiBytes "://" = [58, 47, 47] := by decide
  rw [e3] at hu ⊢
  have hsep : ∀ {x : Bytes}, (∀ b ∈ x, b ∉ asciiBytes ":@/?") → ∀ c ∈ asciiBytes ":@/?", c ∉ x := fun hx c hc hm => hx c hm hc
  have hh' := hsep hh
  have hp' : ∀ p, port = some p → ∀ c ∈ asciiBytes ":@/?", c ∉ p := fun p e => hsep (hp p e)
  have hpp : ∀ c ∈ asciiBytes "@/?", c ∉ portPart port := by
    intro c hc
    cases port with
    | none => simp [portPart]
    | some p =>
      simp only [portPart, List.mem_cons, not_or]
      revert c
      have : ∀ c ∈ asciiBytes "@/?", c ≠ 58 ∧ c ∈ asciiBytes ":@/?" := by decide +kernel
      intro c hc
      exact ⟨(this c hc).1, hp' p rfl c (this c hc).2⟩
  have hhp : ∀ c ∈ asciiBytes "@/?", c ∉ h ++ portPart port := by
    intro c hc
    rw [List.mem_append, not_or]
    have : ∀ c ∈ asciiBytes "@/?", c ∈ asciiBytes ":@/?" := by decide +kernel
    exact ⟨hh' c (this c hc), hpp c hc⟩
  have hhost : hostParts (h ++ portPart port) = some { domain := some h, port := port } := by
    unfold hostParts
    cases port with
    | none => rw [portPart, List.append_nil, cut_of_not_mem (hh' 58 (by decide))]
    | some p =>
      rw [portPart, cut_append (hh' 58 (by decide))]
      simp only []
      rw [if_neg (hp' p rfl 58 (by decide))]
  have hup : ∀ c ∈ asciiBytes "/?", c ∉ userPart user := by
    intro c hc
    cases user with
    | none => simp [userPart]
    | some x =>
      have k : ∀ c ∈ asciiBytes "/?", c ≠ 58 ∧ c ≠ 64 ∧ c ∈ asciiBytes ":@/?" := by decide +kernel
      obtain ⟨k1, k2, k3⟩ := k c hc
      have := hsep (hn x rfl) c k3
      rw [List.mem_append, not_or] at this
      simp [userPart, this, k1, k2]
  have hsp : ∀ x : Bytes × Bytes, user = some x → ∀ c ∈ asciiBytes ":@/?", c ∉ x.1 ∧ c ∉ x.2 := by
    intro x hx c hc
    have := hsep (hn x hx) c hc
    rw [List.mem_append, not_or] at this
    exact this
  have hauth : authorityParts (userPart user ++ h ++ portPart port) =
      some { username := user.map (·.1), password := user.map (·.2), domain := some h, port := port } := by
    unfold authorityParts
    cases user with
    | none =>
      rw [userPart, List.nil_append, cut_of_not_mem (hhp 64 (by decide))]
      simp only []
      rw [hhost]
      rfl
    | some x =>
      obtain ⟨n, w⟩ := x
      have c1 : (64 : UInt8) ∉ n ++ 58 :: w := by
        simp only [List.mem_append, List.mem_cons, not_or]
        exact ⟨(hsp _ rfl 64 (by decide)).1, by decide, (hsp _ rfl 64 (by decide)).2⟩
      have e : userPart (some (n, w)) ++ h ++ portPart port = (n ++ 58 :: w) ++ 64 :: (h ++ portPart port) := by simp [userPart]
      rw [e, cut_append c1]
      simp only []
      rw [cut_append (hsp _ rfl 58 (by decide)).1]
      simp only []
      rw [if_neg (hsp _ rfl 58 (by decide)).2, hhost]
      rfl
  have hcount : (userPart user ++ h ++ portPart port).count 64 ≤ 1 := by
    rw [List.append_assoc, List.count_append, List.count_eq_zero_of_not_mem (hhp 64 (by decide))]
    cases user with
    | none => simp [userPart]
    | some x =>
      obtain ⟨n, w⟩ := x
      rw [userPart, List.count_append, List.count_append, List.count_cons, List.count_eq_zero_of_not_mem (hsp _ rfl 64 (by decide)).1,
        List.count_eq_zero_of_not_mem (hsp _ rfl 64 (by decide)).2]
      decide
  have hnosl : ∀ b ∈ userPart user ++ h ++ portPart port, b ≠ 47 ∧ b ≠ 63 := by
    intro b hb
    rw [List.append_assoc, List.mem_append] at hb
    constructor
    · rintro rfl
      exact hb.elim (hup 47 (by decide)) (hhp 47 (by decide))
    · rintro rfl
      exact hb.elim (hup 63 (by decide)) (hhp 63 (by decide))
  obtain ⟨-, e1, e2, -, r, hr, hi⟩ := (C49_absolute_partial t _ tail u ht hnosl hcount h47 hat).mp hu
  rw [hauth, Option.some.injEq] at hr
  subst hr
  have fields : (pathParts tail { username := user.map (·.1), password := user.map (·.2), domain := some h, port := port }).username = user.map (·.1) ∧
      (pathParts tail { username := user.map (·.1), password := user.map (·.2), domain := some h, port := port }).password = user.map (·.2) ∧
      (pathParts tail { username := user.map (·.1), password := user.map (·.2), domain := some h, port := port }).domain = some h ∧
      (pathParts tail { username := user.map (·.1), password := user.map (·.2), domain := some h, port := port }).port = port := by
    unfold pathParts
    split <;> exact ⟨rfl, rfl, rfl, rfl⟩
  obtain ⟨f1, f2, f3, f4⟩ := fields
  have i1 := hi.username
  have i2 := hi.password
  have i3 := hi.domain
  have i4 := hi.port
  rw [f1] at i1
  rw [f2] at i2
  rw [f3] at i3
  rw [f4] at i4
  obtain ⟨d, hd, -, ed⟩ := i3
  obtain ⟨n, hnp⟩ : ∃ n, u.port = some n := by
    cases port with
    | none => exact ⟨_, i4⟩
    | some p => obtain ⟨_, n, _, _, _, e⟩ := i4; exact ⟨n, e⟩
  have edisp : u.display = t ++ [58, 47, 47] ++ (userText u.username u.password ++ (d ++ (portSuffix u.scheme (some n) ++ (urlEncode u.path ++ queryText u.query)))) := by
    unfold Url.display schemeText
    rw [if_pos e2, ed, e1, hnp]
    simp
  have key : u.eqText (t ++ [58, 47, 47] ++ (userPart user ++ h ++ portPart port ++ tail)) = true ↔
      userText u.username u.password ++ (d ++ (portSuffix u.scheme (some n) ++ (urlEncode u.path ++ queryText u.query))) =
        userPart user ++ (h ++ (portPart port ++ tail)) := by
    unfold Url.eqText
    rw [edisp, beq_iff_eq, List.append_cancel_left_eq]
    simp only [List.append_assoc]
  rw [key, hnp]
  -- the path of the URL starts with `/`
  have hpathT : ∃ X, urlEncode u.path ++ queryText u.query = 47 :: X := by
    have hs : u.path.head? = some 47 := by
      obtain ⟨v, hv, -, ev⟩ := hi.path
      obtain rfl : u.path = v := by simpa using ev
      refine decodes_head hv ?_
      unfold pathParts
      by_cases he : tail = []
      · rw [if_pos he]; rfl
      · rw [if_neg he]
        simp only [Option.getD_some]
        have h47' := h47.resolve_left he
        cases tail with
        | nil => simp at h47'
        | cons b r =>
          simp only [List.head?_cons, Option.some.injEq] at h47'
          subst h47'
          rw [cut, if_neg (by decide)]
          rfl
    have := encode_slash hs
    cases he : urlEncode u.path with
    | nil => rw [he] at this; simp at this
    | cons c r => rw [he] at this; simp only [List.head?_cons, Option.some.injEq] at this; exact ⟨r ++ queryText u.query, by rw [this]; rfl⟩
  obtain ⟨X, hX⟩ := hpathT
  -- user information
  have huser : ∀ A B : Bytes, userText u.username u.password ++ A = userPart user ++ B ↔ (∀ x, user = some x → Canonical x.1 ∧ Canonical x.2) ∧ A = B := by
    intro A B
    cases user with
    | none =>
      rw [show u.username = none from i1, show u.password = none from i2]
      simp [userText, userPart]
    | some x =>
      obtain ⟨n', w'⟩ := x
      obtain ⟨n1, hn1, -, en1⟩ := i1
      obtain ⟨w1, hw1, -, ew1⟩ := i2
      rw [en1, ew1]
      have eu : userText (some n1) (some w1) ++ A = urlEncode n1 ++ 58 :: (urlEncode w1 ++ 64 :: A) := by simp [userText]
      have ep : userPart (some (n', w')) ++ B = n' ++ 58 :: (w' ++ 64 :: B) := by simp [userPart]
      rw [eu, ep]
      constructor
      · intro e
        obtain ⟨e1, e2⟩ := encode_cut (by decide) hn1 (hsp _ rfl 58 (by decide)).1 e
        obtain ⟨e3, e4⟩ := encode_cut (by decide) hw1 (hsp _ rfl 64 (by decide)).2 e2
        refine ⟨fun x hx => ?_, e4⟩
        cases hx
        exact ⟨(encode_eq_iff hn1).mp e1, (encode_eq_iff hw1).mp e3⟩
      · rintro ⟨hc, rfl⟩
        obtain ⟨c1, c2⟩ := hc _ rfl
        rw [canonical_encode c1 _ hn1, canonical_encode c2 _ hw1]
  rw [huser]
  apply and_congr_right
  intro _
  have hport : (∀ m, some n = some m → PortCanonical u.scheme m port) ↔ portPart port = portSuffix u.scheme (some n) := by
    rw [portSuffix_iff _ e2]
    exact ⟨fun h => h n rfl, fun h m hm => by cases hm; exact h⟩
  rw [hport]
  constructor
  · intro e
    rcases h47 with rfl | h47
    · exfalso
      rw [hX, List.append_nil] at e
      have : (47 : UInt8) ∈ h ++ portPart port := by rw [← e]; simp
      exact hhp 47 (by decide) this
    · have hne : tail ≠ [] := by rintro rfl; simp at h47
      obtain ⟨T, rfl⟩ : ∃ T, tail = 47 :: T := by
        cases tail with
        | nil => exact absurd rfl hne
        | cons b r => simp only [List.head?_cons, Option.some.injEq] at h47; exact ⟨r, by rw [h47]⟩
      rw [hX] at e
      obtain ⟨g1, g2, g3⟩ := host_cut hd ⟨hh' 47 (by decide), hh' 58 (by decide)⟩
        (fun p hp0 => ⟨hp' p hp0 47 (by decide), hp' p hp0 58 (by decide)⟩) e
      refine ⟨(decodes_eq hd).mp g1, g2, hne, ?_⟩
      have hpa := hi.path
      have hqa := hi.query
      unfold pathParts at hpa hqa
      rw [if_neg hne] at hpa hqa
      refine (tail_eq hne hpa hqa).mp ?_
      rw [hX, g3]
  · rintro ⟨g1, g2, hne, g3⟩
    have hpa := hi.path
    have hqa := hi.query
    unfold pathParts at hpa hqa
    rw [if_neg hne] at hpa hqa
    rw [(decodes_eq hd).mpr g1, g2, (tail_eq hne hpa hqa).mpr g3]

/-- A text of this form that is not equal to its URL: a port with a leading zero. -/
example : Url.ofText (asciiBytes "https" ++ asciiBytes "://" ++ (userPart (some (asciiBytes "u", asciiBytes "p")) ++ asciiBytes "host" ++
    portPart (some (asciiBytes "08443")) ++ asciiBytes "/a?b")) = .ok
      { scheme := .https, path := asciiBytes "/a", username := some (asciiBytes "u"), password := some (asciiBytes "p"),
        domain := some (asciiBytes "host"), port := some 8443, query := some (asciiBytes "b") } ∧
    ¬ PortCanonical .https 8443 (some (asciiBytes "08443")) ∧ PortCanonical .https 8443 (some (asciiBytes "8443")) :=
  ⟨by decide +kernel, fun h => absurd h.2.2 (by decide +kernel),
    (portSuffix_iff .https (by decide) 8443 _).mp (by decide +kernel)⟩

end Webparse
