import Verif.Proofs.Huffman
import Verif.Proofs.HuffmanTree
import Verif.Proofs.Name
import Mathlib.Data.List.Induction

/-! The Huffman decoder walks the code tree. -/

namespace Webparse
open Spec

/-- The number written by some bits. -/
def bitsVal (bits : List Bool) : Nat := bits.foldl (fun a b => 2 * a + b.toNat) 0

theorem bitsVal_snoc (p : List Bool) (b : Bool) : bitsVal (p ++ [b]) = 2 * bitsVal p + b.toNat := by
  simp [bitsVal, List.foldl_append]

theorem toBits_bitsVal (p : List Bool) : toBits p.length (bitsVal p) = p := by
  induction p using List.reverseRecOn with
  | nil => rfl
  | append_singleton p b ih =>
    rw [List.length_append, List.length_singleton, toBits_add, bitsVal_snoc]
    have : (2 * bitsVal p + b.toNat) / 2 ^ 1 = bitsVal p := by
      cases b <;> simp <;> omega
    rw [this, ih]
    congr 1
    cases b <;> simp [toBits] <;> omega

/-- The decoder state after reading `p` since the last symbol, at tree node `t`. -/
structure AtNode (s : HuffState) (t : HTree) (p : List Bool) : Prop where
  cur : s.current = bitsVal p
  len : s.currentLen = p.length
  all : s.allTrue = p.all id
  ok : checkTree t (bitsVal p) p.length = true
  inner : ∃ l r, t = .node l r

theorem atNode_init (r : Bytes) : AtNode { result := r } huffTree [] :=
  ⟨rfl, rfl, rfl, huffTree_ok, huffTree_node⟩

theorem huffDecodeBit_step {s : HuffState} {l r : HTree} {p : List Bool}
    (h : AtNode s (.node l r) p) (b : Bool) :
    (∃ s', huffDecodeBit s b = .ok s' ∧ s'.result = s.result ∧
        AtNode s' (if b then r else l) (p ++ [b])) ∨
    (∃ sym, sym < 257 ∧ (if b then r else l) = .leaf sym ∧ codeBits sym = p ++ [b] ∧
        huffDecodeBit s b = .ok { result := s.result ++ [UInt8.ofNat sym] }) := by
  have hok := h.ok
  simp only [checkTree, Bool.and_eq_true, decide_eq_true_eq] at hok
  obtain ⟨⟨⟨⟨_, hv30⟩, hl30⟩, hl⟩, hr⟩ := hok
  have hchild : checkTree (if b then r else l) (bitsVal (p ++ [b])) (p ++ [b]).length = true := by
    rw [bitsVal_snoc]
    cases b <;> simp [hl, hr]
  have hcur : (if b = true then s.current * 2 % 2 ^ 32 ||| 1 else s.current * 2 % 2 ^ 32)
      = bitsVal (p ++ [b]) := by
    rw [bitsVal_snoc, h.cur, Nat.mod_eq_of_lt (by omega)]
    cases b
    · simp; omega
    · have := Nat.two_pow_add_eq_or_of_lt (i := 1) (b := 1) (by norm_num) (bitsVal p)
      simp at this ⊢
      rw [Nat.mul_comm, ← this]
  have hlen : s.currentLen + 1 = (p ++ [b]).length := by simp [h.len]
  unfold huffDecodeBit
  rw [if_neg (by rw [h.len]; omega)]
  simp only [hcur, hlen]
  cases hc : (if b then r else l) with
  | bad => rw [hc] at hchild; simp [checkTree] at hchild
  | leaf sym =>
    right
    rw [hc] at hchild
    simp only [checkTree, Bool.and_eq_true, decide_eq_true_eq, beq_iff_eq] at hchild
    obtain ⟨⟨⟨hs, htab⟩, hlook⟩, _⟩ := hchild
    refine ⟨sym, hs, rfl, ?_, ?_⟩
    · simp only [codeBits, htab]
      exact toBits_bitsVal _
    · rw [hlook]
  | node l' r' =>
    left
    rw [hc] at hchild
    have hchild' := hchild
    simp only [checkTree, Bool.and_eq_true, Bool.or_eq_true, decide_eq_true_eq, beq_iff_eq] at hchild
    obtain ⟨⟨⟨⟨hlook, _⟩, _⟩, _⟩, _⟩ := hchild
    have hlook : huffLookup (bitsVal (p ++ [b])) (p ++ [b]).length = none := by
      rcases hlook with h0 | h0
      · simp at h0
      · exact h0
    rw [hlook]
    refine ⟨_, rfl, rfl, ⟨rfl, rfl, ?_, hchild', ⟨_, _, rfl⟩⟩⟩
    simp only [h.all, List.all_append]
    cases b <;> simp

/-- The decoder never panics, and splits its input into code words and a pending rest. -/
theorem huffDecodeBits_split (bits : List Bool) : ∀ {s : HuffState} {t : HTree} {p : List Bool},
    AtNode s t p → ∃ s' syms q t', huffDecodeBits s bits = .ok s' ∧ AtNode s' t' q ∧
      (∀ x ∈ syms, x < 257) ∧ p ++ bits = codesBits syms ++ q ∧
      s'.result = s.result ++ syms.map UInt8.ofNat := by
  induction bits with
  | nil =>
    intro s t p h
    exact ⟨s, [], p, t, rfl, h, by simp, by simp [codesBits], by simp⟩
  | cons b bits ih =>
    intro s t p h
    obtain ⟨l, r, rfl⟩ := h.inner
    rcases huffDecodeBit_step h b with ⟨s1, h1, hres, hat⟩ | ⟨sym, hs, _, hcode, h1⟩
    · obtain ⟨s', syms, q, t', h2, h3, h4, h5, h6⟩ := ih hat
      refine ⟨s', syms, q, t', ?_, h3, h4, ?_, ?_⟩
      · simp [huffDecodeBits, h1, h2]
      · rw [← h5]; simp
      · rw [h6, hres]
    · obtain ⟨s', syms, q, t', h2, h3, h4, h5, h6⟩ := ih (atNode_init (s.result ++ [UInt8.ofNat sym]))
      refine ⟨s', sym :: syms, q, t', ?_, h3, ?_, ?_, ?_⟩
      · simp [huffDecodeBits, h1, h2]
      · intro x hx
        rcases List.mem_cons.mp hx with rfl | hx
        · exact hs
        · exact h4 x hx
      · simp only [codesBits, List.flatMap_cons, hcode, List.append_assoc]
        simp only [List.nil_append, codesBits] at h5
        rw [← h5]; simp
      · rw [h6]; simp

theorem huffDecodeBits_append (a b : List Bool) (s : HuffState) :
    huffDecodeBits s (a ++ b) = (huffDecodeBits s a).bind fun s => huffDecodeBits s b := by
  induction a generalizing s with
  | nil => simp [huffDecodeBits, Res.bind]
  | cons x a ih =>
    simp only [List.cons_append, huffDecodeBits]
    cases huffDecodeBit s x with
    | ok s' => simp [ih]
    | err e => rfl
    | panic => rfl

/-- Walking a code word from a node pushes the symbol. -/
theorem huffDecodeBits_walk (w : List Bool) : ∀ {s : HuffState} {t : HTree} {p : List Bool} {sym : Nat},
    AtNode s t p → walk t w = .leaf sym → sym < 257 → codeBits sym = p ++ w →
    huffDecodeBits s w = .ok { result := s.result ++ [UInt8.ofNat sym] } := by
  induction w with
  | nil =>
    intro s t p sym h hw
    obtain ⟨l, r, rfl⟩ := h.inner
    simp [walk] at hw
  | cons b w ih =>
    intro s t p sym h hw hs hc
    obtain ⟨l, r, rfl⟩ := h.inner
    simp only [walk] at hw
    rcases huffDecodeBit_step h b with ⟨s1, h1, hres, hat⟩ | ⟨sym', hs', ht, hcode, h1⟩
    · simp only [huffDecodeBits, h1, Res.bind_ok]
      rw [ih hat hw hs (by rw [hc]; simp), hres]
    · rw [ht] at hw
      cases w with
      | nil =>
        simp [walk] at hw
        subst hw
        simp [huffDecodeBits, h1]
      | cons c w =>
        simp [walk] at hw
        subst hw
        rw [hcode] at hc
        simp at hc

theorem huffDecodeBits_code (sym : Nat) (hs : sym < 257) (res : Bytes) :
    huffDecodeBits { result := res } (codeBits sym) = .ok { result := res ++ [UInt8.ofNat sym] } := by
  have hw := walk_code sym hs
  cases hwk : walk huffTree (codeBits sym) with
  | bad => rw [hwk] at hw; simp at hw
  | node l r => rw [hwk] at hw; simp at hw
  | leaf s =>
    rw [hwk] at hw
    simp at hw
    subst hw
    exact huffDecodeBits_walk _ (atNode_init res) hwk hs (by simp)

theorem huffDecodeBits_codes (syms : List Nat) (hs : ∀ x ∈ syms, x < 257) (res : Bytes) :
    huffDecodeBits { result := res } (codesBits syms)
      = .ok { result := res ++ syms.map UInt8.ofNat } := by
  induction syms generalizing res with
  | nil => simp [codesBits, huffDecodeBits]
  | cons x syms ih =>
    simp only [codesBits, List.flatMap_cons]
    rw [huffDecodeBits_append, huffDecodeBits_code x (hs x (by simp))]
    simp only [Res.bind]
    have := ih (fun y hy => hs y (by simp [hy])) (res ++ [UInt8.ofNat x])
    simp only [codesBits] at this
    rw [this]; simp

/-- Fewer than eight ones after a symbol are accepted as padding: no code word is all ones that
short. -/
theorem huffDecodeBits_pad : ∀ k < 8, huffDecodeBits {} (List.replicate k true)
    = .ok { current := 2 ^ k - 1, currentLen := k, allTrue := true, result := [] } := by
  decide +kernel

theorem huffDecodeBit_result (s : HuffState) (r : Bytes) (b : Bool) :
    huffDecodeBit { s with result := r ++ s.result } b
      = (huffDecodeBit s b).bind fun s => .ok { s with result := r ++ s.result } := by
  unfold huffDecodeBit
  split
  · rfl
  · simp only
    split <;> simp [Res.bind]

theorem huffDecodeBits_result (bits : List Bool) (s : HuffState) (r : Bytes) :
    huffDecodeBits { s with result := r ++ s.result } bits
      = (huffDecodeBits s bits).bind fun s => .ok { s with result := r ++ s.result } := by
  induction bits generalizing s with
  | nil => rfl
  | cons b bits ih =>
    simp only [huffDecodeBits]
    rw [huffDecodeBit_result]
    cases huffDecodeBit s b with
    | ok s' =>
      have := ih s'
      simp only [Res.bind] at this
      simp [Res.bind, this]
    | err e => rfl
    | panic => rfl

theorem huffDecode_of_isHuffman {bs : Bytes} {syms : List Nat} (hs : ∀ x ∈ syms, x < 257)
    (h : IsHuffmanOf bs syms) : huffDecode bs = .ok (syms.map UInt8.ofNat) := by
  obtain ⟨k, hk, hb⟩ := h
  unfold huffDecode
  rw [bytesBits_eq, hb, huffDecodeBits_append, huffDecodeBits_codes _ hs]
  have h1 := huffDecodeBits_result (List.replicate k true) {} (syms.map UInt8.ofNat)
  rw [huffDecodeBits_pad k hk] at h1
  simp only [List.append_nil, Res.bind] at h1
  simp only [Res.bind, List.nil_append, h1]
  simp only [Res.bind_ok]
  rw [if_neg (by omega)]
  simp

theorem bitsOf_length (bs : Bytes) : (bitsOf bs).length = 8 * bs.length := by
  induction bs with
  | nil => rfl
  | cons b bs ih =>
    have : bitsOf (b :: bs) = toBits 8 b.toNat ++ bitsOf bs := by simp [bitsOf]
    rw [this, List.length_append, ih, toBits_length, List.length_cons]; omega

theorem toBits_inj {w a b : Nat} (ha : a < 2 ^ w) (hb : b < 2 ^ w) (h : toBits w a = toBits w b) :
    a = b := by
  induction w generalizing a b with
  | zero => simp at ha hb; omega
  | succ w ih =>
    rw [toBits_add w 1, toBits_add w 1] at h
    obtain ⟨h1, h2⟩ := List.append_inj h (by simp)
    have := ih (a := a / 2 ^ 1) (b := b / 2 ^ 1) (by rw [Nat.pow_succ] at ha; omega)
      (by rw [Nat.pow_succ] at hb; omega) h1
    simp [toBits] at h2
    omega

theorem bitsOf_inj {a b : Bytes} (h : bitsOf a = bitsOf b) : a = b := by
  induction a generalizing b with
  | nil =>
    have := congrArg List.length h
    simp [bitsOf_length] at this
    cases b with
    | nil => rfl
    | cons c b => simp at this
  | cons x a ih =>
    cases b with
    | nil =>
      have := congrArg List.length h
      rw [bitsOf_length, bitsOf_length] at this
      simp at this
    | cons y b =>
      have e : ∀ (c : UInt8) (l : Bytes), bitsOf (c :: l) = toBits 8 c.toNat ++ bitsOf l := by
        intro c l; simp [bitsOf]
      rw [e, e] at h
      obtain ⟨h1, h2⟩ := List.append_inj h (by simp)
      have := toBits_inj x.toNat_lt y.toNat_lt h1
      rw [ih h2, UInt8.toNat_inj.mp this]

/-- The encoding of a symbol sequence is unique. -/
theorem isHuffman_unique {a b : Bytes} {syms : List Nat} (ha : IsHuffmanOf a syms)
    (hb : IsHuffmanOf b syms) : a = b := by
  obtain ⟨k, hk, ha⟩ := ha
  obtain ⟨j, hj, hb⟩ := hb
  have la := congrArg List.length ha
  have lb := congrArg List.length hb
  rw [bitsOf_length] at la lb
  simp at la lb
  have : k = j := by omega
  subst this
  exact bitsOf_inj (ha.trans hb.symm)

/-- What the decoder accepts. -/
theorem huffDecode_exact (bs r : Bytes) : huffDecode bs = .ok r ↔
    ∃ syms, (∀ x ∈ syms, x < 257) ∧ IsHuffmanOf bs syms ∧ r = syms.map UInt8.ofNat := by
  constructor
  · intro h
    obtain ⟨s', syms, q, t', h2, h3, h4, h5, h6⟩ := huffDecodeBits_split (bitsOf bs) (atNode_init [])
    unfold huffDecode at h
    rw [bytesBits_eq, h2] at h
    simp only [Res.bind_ok] at h
    split at h
    · simp at h
    split at h
    · simp at h
    rename_i hl ha
    simp at h ha
    refine ⟨syms, h4, ⟨q.length, ?_, ?_⟩, ?_⟩
    · have := h3.len; omega
    · simp only [List.nil_append] at h5
      rw [h5]
      congr 1
      rw [h3.all] at ha
      exact List.eq_replicate_iff.mpr ⟨rfl, by simpa using ha⟩
    · rw [← h, h6]; simp
  · rintro ⟨syms, h1, h2, rfl⟩
    exact huffDecode_of_isHuffman h1 h2

theorem huffDecode_no_panic (bs : Bytes) : huffDecode bs ≠ .panic := by
  obtain ⟨s', syms, q, t', h2, h3, h4, h5, h6⟩ := huffDecodeBits_split (bitsOf bs) (atNode_init [])
  unfold huffDecode
  rw [bytesBits_eq, h2]
  simp only [Res.bind_ok]
  split
  · simp
  split <;> simp

theorem byteSyms_map (s : Bytes) : (byteSyms s).map UInt8.ofNat = s := by
  simp only [byteSyms, List.map_map]
  conv_rhs => rw [← List.map_id s]
  congr 1; funext b; simp

theorem byteSyms_lt (s : Bytes) : ∀ x ∈ byteSyms s, x < 257 := by
  intro x hx
  obtain ⟨b, _, rfl⟩ := List.mem_map.mp hx
  have := b.toNat_lt
  omega

theorem huffDecode_encode (s : Bytes) : huffDecode (huffEncode s) = .ok s := by
  rw [huffDecode_of_isHuffman (byteSyms_lt s) (huffEncode_bits s), byteSyms_map]

theorem huffEncodeLower_eq (s : Bytes) : huffEncodeLower s = huffEncode (nameHashInput s) :=
  huffEncodeLowerLoop_eq s 0 40

end Webparse
