import Verif.Lemmas.VarInt
import Verif.Spec.TxFormat
/-! # The transaction codecs against the wire grammar -/
namespace Verif
open Spec

/-! ## compact sizes -/

theorem compactSize_lt {n : Nat} {b : Bytes} (h : CompactSize n b) : n < 2 ^ 64 := by
  rcases h with ⟨h, _⟩ | ⟨h, _⟩ | ⟨h, _⟩ | ⟨h, _⟩ <;> omega

theorem compactSize_length_pos {n : Nat} {b : Bytes} (h : CompactSize n b) : 1 ≤ b.length ∧ b.length ≤ 9 := by
  rcases h with ⟨_, rfl⟩ | ⟨_, rfl⟩ | ⟨_, rfl⟩ | ⟨_, rfl⟩ <;> simp

theorem uint8_ofNat_ne {n : Nat} (h : n < 0xfd) : UInt8.ofNat n ≠ 0xff ∧ UInt8.ofNat n ≠ 0xfe ∧ UInt8.ofNat n ≠ 0xfd := by
  refine ⟨?_, ?_, ?_⟩ <;>
  · intro e
    have := congrArg UInt8.toNat e
    simp [UInt8.toNat_ofNat'] at this
    omega

/-- The shape of a compact size: first byte, announced length, value. -/
theorem compactSize_form {n : Nat} {b : Bytes} (h : CompactSize n b) : ∃ b0 t, b = b0 :: t ∧ t.length + 1 = announced b0 ∧
    n = (if announced b0 = 1 then b0.toNat else leNat t) := by
  rcases h with ⟨h, rfl⟩ | ⟨h, rfl⟩ | ⟨h, rfl⟩ | ⟨h, rfl⟩
  · obtain ⟨a, b, c⟩ := uint8_ofNat_ne h
    refine ⟨_, _, rfl, ?_, ?_⟩ <;> simp only [announced, if_neg a, if_neg b, if_neg c]
    · rfl
    · simp [UInt8.toNat_ofNat']; omega
  · exact ⟨_, _, rfl, by simp [announced], by simp only [announced]; simp [leNat_leBytes]; omega⟩
  · exact ⟨_, _, rfl, by simp [announced], by simp only [announced]; simp [leNat_leBytes]; omega⟩
  · exact ⟨_, _, rfl, by simp [announced], by simp only [announced]; simp [leNat_leBytes]; omega⟩

theorem compactSize_of_form {b0 : UInt8} {t : Bytes} (h : t.length + 1 = announced b0) :
    CompactSize (if announced b0 = 1 then b0.toNat else leNat t) (b0 :: t) := by
  have ht := leNat_lt t
  have hb := leBytes_leNat t
  unfold announced at *
  by_cases h9 : b0 = 0xff
  · simp only [if_pos h9] at h ⊢
    right; right; right
    rw [show t.length = 8 by omega] at ht hb
    rw [if_neg (show ¬ (9:Nat) = 1 by omega)]
    exact ⟨by omega, by rw [hb, h9]⟩
  · simp only [if_neg h9] at h ⊢
    by_cases h5 : b0 = 0xfe
    · simp only [if_pos h5] at h ⊢
      right; right; left
      rw [show t.length = 4 by omega] at ht hb
      rw [if_neg (show ¬ (5:Nat) = 1 by omega)]
      exact ⟨by omega, by rw [hb, h5]⟩
    · simp only [if_neg h5] at h ⊢
      by_cases h3 : b0 = 0xfd
      · simp only [if_pos h3] at h ⊢
        right; left
        rw [show t.length = 2 by omega] at ht hb
        rw [if_neg (show ¬ (3:Nat) = 1 by omega)]
        exact ⟨by omega, by rw [hb, h3]⟩
      · simp only [if_neg h3] at h ⊢
        left
        have : t = [] := List.length_eq_zero_iff.mp (by omega)
        subst this
        have hlt := b0.toNat_lt
        simp only [if_true]
        refine ⟨?_, by simp⟩
        by_contra hc
        have : b0.toNat = 253 ∨ b0.toNat = 254 ∨ b0.toNat = 255 := by omega
        rcases this with h | h | h
        · exact h3 (UInt8.toNat_inj.mp h)
        · exact h5 (UInt8.toNat_inj.mp h)
        · exact h9 (UInt8.toNat_inj.mp h)

/-- The decoder reads exactly the compact sizes, when they lie within the slice. -/
theorem decodeVarInt_compact {n : Nat} {e : Bytes} (h : CompactSize n e) (rest sp : Bytes) :
    DecodeVarInt ⟨e ++ rest, sp⟩ = .ok (UInt64.ofNat n, e.length) := by
  obtain ⟨b0, t, rfl, h2, h3⟩ := compactSize_form h
  rw [List.cons_append, decodeVarInt_cons, if_neg (by simp; omega)]
  rw [List.append_assoc, List.take_append_of_le_length (by omega), List.take_of_length_le (by omega)]
  simp only [Res.ok.injEq, Prod.mk.injEq]
  refine ⟨?_, by simpa using h2.symm⟩
  rw [h3]
  split
  · simp
  · rfl

theorem decodeVarInt_split {d sp : Bytes} {v : UInt64} {size : Nat} (h : DecodeVarInt ⟨d, sp⟩ = .ok (v, size)) :
    (1 ≤ size ∧ size ≤ 9 ∧ d ≠ []) ∧ (size ≤ d.length → ∃ e rest, d = e ++ rest ∧ CompactSize v.toNat e ∧ size = e.length) := by
  cases d with
  | nil => simp [decodeVarInt_nil] at h
  | cons b0 d =>
    rw [decodeVarInt_cons] at h
    split at h
    · simp at h
    · rename_i hl
      simp only [Res.ok.injEq, Prod.mk.injEq] at h
      obtain ⟨hv, rfl⟩ := h
      have ha := announced_cases b0
      refine ⟨⟨by omega, by omega, by simp⟩, ?_⟩
      intro hle
      simp only [List.length_cons] at hle
      refine ⟨b0 :: d.take (announced b0 - 1), d.drop (announced b0 - 1), by simp, ?_, ?_⟩
      · have hf := compactSize_of_form (b0 := b0) (t := d.take (announced b0 - 1)) (by rw [List.length_take]; omega)
        have : v.toNat = (if announced b0 = 1 then b0.toNat else leNat (d.take (announced b0 - 1))) := by
          rw [← hv]
          have hlt := compactSize_lt hf
          rw [List.take_append_of_le_length (by omega)]
          split
          · simp
          · rename_i hne
            rw [if_neg hne] at hlt
            rw [UInt64.toNat_ofNat', Nat.mod_eq_of_lt hlt]
        rw [this]; exact hf
      · simp; omega

/-- Compact sizes are prefix-free and determine the number. -/
theorem compactSize_prefix_free {n m : Nat} {a b s t : Bytes} (ha : CompactSize n a) (hb : CompactSize m b) (h : a ++ s = b ++ t) :
    n = m ∧ a = b ∧ s = t := by
  have h1 := decodeVarInt_compact ha s []
  have h2 := decodeVarInt_compact hb t []
  rw [h, h2] at h1
  simp only [Res.ok.injEq, Prod.mk.injEq] at h1
  obtain ⟨h3, h4⟩ := h1
  obtain ⟨rfl, rfl⟩ := List.append_inj h h4.symm
  have := congrArg UInt64.toNat h3
  rw [UInt64.toNat_ofNat', UInt64.toNat_ofNat', Nat.mod_eq_of_lt (compactSize_lt hb), Nat.mod_eq_of_lt (compactSize_lt ha)] at this
  exact ⟨this.symm, rfl, rfl⟩

theorem varInt_compact (i : UInt64) : CompactSize i.toNat (VarInt i) := by
  obtain ⟨b0, t, h1, h2, h3, h4⟩ := VarInt_form i
  rw [h1]
  have hf := compactSize_of_form h2
  have : i.toNat = if announced b0 = 1 then b0.toNat else leNat t := by
    have hlt := compactSize_lt hf
    conv_lhs => rw [h3]
    split
    · simp
    · rename_i hne
      rw [if_neg hne] at hlt
      rw [UInt64.toNat_ofNat', Nat.mod_eq_of_lt hlt]
  rw [this]; exact hf

theorem compactSize_length_ge {n : Nat} {b : Bytes} (h : CompactSize n b) :
    (if n < 0xfd then 1 else if n < 2 ^ 16 then 3 else if n < 2 ^ 32 then 5 else 9) ≤ b.length := by
  rcases h with ⟨h, rfl⟩ | ⟨h, rfl⟩ | ⟨h, rfl⟩ | ⟨h, rfl⟩ <;> simp only [List.length_cons, List.length_nil, leBytes_length] <;> split_ifs <;> omega

theorem compactSize_length_inj {n : Nat} {a b : Bytes} (ha : CompactSize n a) (hb : CompactSize n b) (h : a.length = b.length) : a = b := by
  rcases ha with ⟨h1, rfl⟩ | ⟨h1, rfl⟩ | ⟨h1, rfl⟩ | ⟨h1, rfl⟩ <;> rcases hb with ⟨h2, rfl⟩ | ⟨h2, rfl⟩ | ⟨h2, rfl⟩ | ⟨h2, rfl⟩ <;>
    first | rfl | (simp at h)

/-- The shortest compact sizes are exactly what `VarInt` writes. -/
theorem minCompactSize_iff {n : Nat} {b : Bytes} : MinCompactSize n b ↔ n < 2 ^ 64 ∧ b = VarInt (UInt64.ofNat n) := by
  constructor
  · rintro ⟨h1, h2⟩
    have hlt := compactSize_lt h1
    refine ⟨hlt, ?_⟩
    have hv := varInt_compact (UInt64.ofNat n)
    rw [UInt64.toNat_ofNat', Nat.mod_eq_of_lt hlt] at hv
    have hl := h2 _ hv
    have hg := compactSize_length_ge h1
    have hvl := VarInt_length (UInt64.ofNat n)
    rw [UInt64.toNat_ofNat', Nat.mod_eq_of_lt hlt] at hvl
    exact compactSize_length_inj h1 hv (by omega)
  · rintro ⟨hlt, rfl⟩
    have hv := varInt_compact (UInt64.ofNat n)
    have hvl := VarInt_length (UInt64.ofNat n)
    rw [UInt64.toNat_ofNat', Nat.mod_eq_of_lt hlt] at hv hvl
    refine ⟨hv, fun b' hb' => ?_⟩
    rw [hvl]; exact compactSize_length_ge hb'

theorem minCompactSize_compact {n : Nat} {b : Bytes} (h : MinCompactSize n b) : CompactSize n b := h.1

theorem compactSize_min_length {n : Nat} {b : Bytes} (h : CompactSize n b) :
    (VarInt (UInt64.ofNat n)).length ≤ b.length ∧ ((VarInt (UInt64.ofNat n)).length = b.length ↔ b = VarInt (UInt64.ofNat n)) := by
  have hlt := compactSize_lt h
  have hm : MinCompactSize n (VarInt (UInt64.ofNat n)) := minCompactSize_iff.mpr ⟨hlt, rfl⟩
  refine ⟨hm.2 b h, fun e => (compactSize_length_inj h hm.1 e.symm), fun e => by rw [← e]⟩

/-! ## slices of a concatenation -/

theorem sliceRange_append (a m rest sp : Bytes) (lo hi : Int) (h1 : lo = (a.length : Int)) (h2 : hi = (a.length + m.length : Int)) :
    (⟨a ++ m ++ rest, sp⟩ : Slice).sliceRange lo hi = .ok ⟨m, rest ++ sp⟩ := by
  have := sliceRange_ok ⟨a ++ m ++ rest, sp⟩ a.length (a.length + m.length) (by omega) (by simp [Slice.cap]; omega)
  rw [h1, h2]
  rw [Nat.cast_add] at this
  rw [this]
  congr 2
  · simp only [List.append_assoc]
    rw [List.take_append, List.take_of_length_le (by omega)]
    simp
  · simp only [List.append_assoc]
    rw [List.drop_append, List.drop_of_length_le (by omega)]
    simp

theorem sliceFrom_append (a rest sp : Bytes) (lo : Int) (h : lo = (a.length : Int)) :
    (⟨a ++ rest, sp⟩ : Slice).sliceFrom lo = .ok ⟨rest, sp⟩ := by
  rw [h, sliceFrom_ok _ _ (by simp [Slice.len])]
  simp

theorem getUint32_of_length {b t : Bytes} (h : b.length = 4) : getUint32 (b ++ t) = .ok (UInt32.ofNat (leNat b)) := by
  rw [← putUint32_ofNat_leNat h, getUint32_put, putUint32_ofNat_leNat h]

theorem getUint64_of_length {b t : Bytes} (h : b.length = 8) : getUint64 (b ++ t) = .ok (UInt64.ofNat (leNat b)) := by
  rw [← putUint64_ofNat_leNat h, getUint64_put, putUint64_ofNat_leNat h]

theorem exists_split {d : Bytes} (n : Nat) (h : n ≤ d.length) : ∃ a r, d = a ++ r ∧ a.length = n :=
  ⟨d.take n, d.drop n, by simp, by simp; omega⟩

theorem putUint32_eq (v : UInt32) : putUint32 v = leBytes 4 v.toNat := rfl
theorem putUint64_eq (v : UInt64) : putUint64 v = leBytes 8 v.toNat := rfl

/-! ## inputs -/

/-- Sign and wrap-around of a decoded length. -/
theorem intOfUint64_cases (l : UInt64) : (l.toNat < 2 ^ 63 ∧ intOfUint64 l = l.toNat) ∨ (2 ^ 63 ≤ l.toNat ∧ intOfUint64 l = (l.toNat : Int) - 2 ^ 64) := by
  have := l.toNat_lt
  unfold intOfUint64 wrap64
  by_cases h : l.toNat < 2 ^ 63
  · left; refine ⟨h, by omega⟩
  · right; refine ⟨by omega, by omega⟩

theorem wrap64_ge {x : Int} (h : 2 ^ 63 ≤ x) (h' : x < 2 ^ 64) : wrap64 x = x - 2 ^ 64 := by
  unfold wrap64
  rw [show x + 2 ^ 63 = (x - 2 ^ 63) + 2 ^ 64 by ring, Int.add_emod_right, Int.emod_eq_of_lt (by omega) (by omega)]
  ring

-- `omega` compares atoms up to definitional equality; unfolding these is expensive.
attribute [local irreducible] wrap64 intOfUint64

/-- The end offset of a counted script, when it is a valid slice bound: no wrap-around took place. -/
theorem wrap_stop {off b : Nat} {l : UInt64} (hoff : off ≤ 64) (h : wrap64 (off + intOfUint64 l) = b) (hab : off ≤ b) (hb : b < 2 ^ 62) :
    intOfUint64 l = l.toNat ∧ b = off + l.toNat := by
  have hl := l.toNat_lt
  rcases intOfUint64_cases l with ⟨q1, q2⟩ | ⟨q1, q2⟩
  · refine ⟨q2, ?_⟩
    rw [q2] at h
    by_cases hc : off + l.toNat < 2 ^ 63
    · rw [wrap64_eq (by omega) (by omega)] at h
      omega
    · rw [wrap64_ge (by omega) (by omega)] at h
      omega
  · exfalso
    rw [q2, wrap64_eq (by omega) (by omega)] at h
    omega

/-- `input.NewFromBytes` after the fixed-size fields. -/
theorem input_parse_head (txid ix rest sp : Bytes) (h1 : txid.length = 32) (h2 : ix.length = 4) :
    Input.NewFromBytes ⟨txid ++ ix ++ rest, sp⟩ = (do
      let (l, size) ← DecodeVarInt ⟨rest, sp⟩
      let offset : Int := 36 + size
      let stop := wrap64 (offset + intOfUint64 l)
      let totalLength := wrap64 (stop + 4)
      if (((txid ++ ix ++ rest).length : Nat) : Int) < totalLength then .err "input length too short < 36 + script + 4"
      else do
        let scr ← (⟨txid ++ ix ++ rest, sp⟩ : Slice).sliceRange offset stop
        let rest' ← (⟨txid ++ ix ++ rest, sp⟩ : Slice).sliceFrom stop
        let seq ← getUint32 rest'.data
        pure ({ PreviousTxID := hexEncode txid.reverse, PreviousTxOutIndex := UInt32.ofNat (leNat ix), PreviousTxSatoshis := 0, PreviousTxScript := none,
                UnlockingScript := some scr.data, SequenceNumber := seq }, totalLength)) := by
  have e1 : (⟨txid ++ ix ++ rest, sp⟩ : Slice).sliceRange 0 32 = .ok ⟨txid, ix ++ rest ++ sp⟩ := by
    have := sliceRange_append [] txid (ix ++ rest) sp 0 32 (by simp) (by simp [h1])
    simpa using this
  have e2 : (⟨txid ++ ix ++ rest, sp⟩ : Slice).sliceRange 32 36 = .ok ⟨ix, rest ++ sp⟩ := sliceRange_append txid ix rest sp 32 36 (by simp [h1]) (by simp [h1, h2])
  have e3 : (⟨txid ++ ix ++ rest, sp⟩ : Slice).sliceFrom 36 = .ok ⟨rest, sp⟩ := sliceFrom_append (txid ++ ix) rest sp 36 (by simp [h1, h2])
  have e4 : getUint32 ix = .ok (UInt32.ofNat (leNat ix)) := by simpa using getUint32_of_length (t := []) h2
  have e5 : ¬ (⟨txid ++ ix ++ rest, sp⟩ : Slice).len < 36 := by simp [Slice.len, h1, h2]; omega
  unfold Input.NewFromBytes
  rw [if_neg e5]
  simp only [e1, e2, e3, e4, Res.ok_bind, ReverseBytes_eq]
  rfl

/-- The input parser accepts exactly the encodings of the grammar, followed by anything. -/
theorem input_parse_iff (d sp : Bytes) (hcap : d.length + sp.length < 2 ^ 62) (i : Input) (n : Int) :
    Input.NewFromBytes ⟨d, sp⟩ = .ok (i, n) ↔ ∃ e rest, d = e ++ rest ∧ IsInput CompactSize i e ∧ n = (e.length : Int) := by
  constructor
  · intro h
    have hlen : 36 ≤ d.length := by
      by_contra hc
      have : (⟨d, sp⟩ : Slice).len < 36 := by simp [Slice.len]; omega
      simp [Input.NewFromBytes, this] at h
    obtain ⟨txid, d1, rfl, ht⟩ := exists_split 32 (by omega : 32 ≤ d.length)
    simp only [List.length_append] at hlen hcap
    obtain ⟨ix, rest, rfl, hi⟩ := exists_split 4 (by omega : 4 ≤ d1.length)
    rw [← List.append_assoc, input_parse_head txid ix rest sp ht hi] at h
    simp only [List.length_append] at hlen hcap
    obtain ⟨⟨l, size⟩, hv, h⟩ := Res.bind_eq_ok.mp h
    obtain ⟨⟨hs1, hs9, _⟩, hsp⟩ := decodeVarInt_split hv
    simp only at h
    split at h
    · simp at h
    · rename_i hle
      obtain ⟨scr, hscr, h⟩ := Res.bind_eq_ok.mp h
      obtain ⟨rest', hr, h⟩ := Res.bind_eq_ok.mp h
      obtain ⟨seq, hseq, h⟩ := Res.bind_eq_ok.mp h
      simp only [Res.pure_eq, Res.ok.injEq, Prod.mk.injEq] at h
      obtain ⟨rfl, rfl⟩ := h
      obtain ⟨a, b, ha, hb, hab, hbc, rfl⟩ := sliceRange_ok_iff.mp hscr
      simp only [Slice.cap, List.length_append, ht, hi] at hbc
      have hw := wrap_stop (off := 36 + size) (b := b) (l := l) (by omega) (by push_cast; exact hb) (by omega) (by omega)
      obtain ⟨hl2, hb'⟩ := hw
      have htot : wrap64 (wrap64 (36 + (size : Int) + intOfUint64 l) + 4) = (b + 4 : Int) := by rw [hb]; exact wrap64_eq (by omega) (by omega)
      rw [htot] at hle ⊢
      rw [hb] at hr
      simp only [List.length_append, ht, hi] at hle
      have hle' : 36 + size + l.toNat + 4 ≤ 36 + rest.length := by
        have h0 := not_lt.mp hle
        clear * - h0 hb'
        omega
      obtain ⟨cnt, r1, rfl, hc, hcl⟩ := hsp (by clear * - hle'; omega)
      simp only [List.length_append] at hle'
      obtain ⟨sc, r2, rfl, hsc⟩ := exists_split l.toNat (by clear * - hle' hcl; omega : l.toNat ≤ r1.length)
      simp only [List.length_append] at hle'
      obtain ⟨sq, r3, rfl, hsq⟩ := exists_split 4 (by clear * - hle' hcl hsc; omega : 4 ≤ r2.length)
      have hscr' : (⟨txid ++ ix ++ (cnt ++ (sc ++ (sq ++ r3))), sp⟩ : Slice).sliceRange (36 + size) b = .ok ⟨sc, sq ++ r3 ++ sp⟩ := by
        have := sliceRange_append (txid ++ ix ++ cnt) sc (sq ++ r3) sp (36 + size) b (by simp only [List.length_append, ht, hi, hcl]; clear * -; omega) (by simp only [List.length_append, ht, hi, hb', hcl, hsc]; push_cast; clear * -; omega)
        simpa [List.append_assoc] using this
      have hr' : (⟨txid ++ ix ++ (cnt ++ (sc ++ (sq ++ r3))), sp⟩ : Slice).sliceFrom b = .ok ⟨sq ++ r3, sp⟩ := by
        have := sliceFrom_append (txid ++ ix ++ cnt ++ sc) (sq ++ r3) sp b (by simp only [List.length_append, ht, hi, hb', hcl, hsc]; try omega)
        simpa [List.append_assoc] using this
      rw [hb, hscr'] at hscr
      injection hscr with hscr
      rw [hr'] at hr
      injection hr with hr
      subst hr
      rw [← hscr]
      simp only [getUint32_of_length hsq, Res.ok.injEq] at hseq
      subst hseq
      refine ⟨txid ++ ix ++ cnt ++ sc ++ sq, r3, by simp, ⟨txid, cnt, sc, ht, by rw [hsc]; exact hc, ?_, rfl, rfl, rfl, rfl⟩, ?_⟩
      · simp only [← putUint32_eq, putUint32_ofNat_leNat hi, putUint32_ofNat_leNat hsq]
      · simp [ht, hi, hcl, hsc, hsq, hb']; clear * -; omega
  · rintro ⟨e, rest, rfl, ⟨txid, cnt, sc, ht, hc, rfl, h1, h2, h3, h4⟩, rfl⟩
    have hlt := compactSize_lt hc
    have hc9 := compactSize_length_pos hc
    obtain ⟨tid, oidx, osat, oscr, uscr, oseq⟩ := i
    simp only at h1 h2 h3 h4 ⊢
    subst h1 h2 h3 h4
    simp only [List.length_append, ht, leBytes_length] at hcap
    have hd : txid ++ leBytes 4 oidx.toNat ++ cnt ++ sc ++ leBytes 4 oseq.toNat ++ rest =
        txid ++ leBytes 4 oidx.toNat ++ (cnt ++ (sc ++ (leBytes 4 oseq.toNat ++ rest))) := by simp
    rw [hd, input_parse_head _ _ _ _ ht (by simp), decodeVarInt_compact hc]
    rw [Res.ok_bind]; dsimp only
    have hio : intOfUint64 (UInt64.ofNat sc.length) = sc.length := by
      rcases intOfUint64_cases (UInt64.ofNat sc.length) with ⟨_, q2⟩ | ⟨q1, _⟩
      · rw [q2, UInt64.toNat_ofNat', Nat.mod_eq_of_lt hlt]
      · rw [UInt64.toNat_ofNat', Nat.mod_eq_of_lt hlt] at q1; omega
    rw [hio]
    rw [wrap64_eq (x := (36 + cnt.length + sc.length : Int)) (by omega) (by omega)]
    rw [wrap64_eq (x := (36 + cnt.length + sc.length + 4 : Int)) (by omega) (by omega)]
    rw [if_neg (by simp [ht]; omega)]
    have hscr' := sliceRange_append (txid ++ leBytes 4 oidx.toNat ++ cnt) sc (leBytes 4 oseq.toNat ++ rest) sp (36 + cnt.length) (36 + cnt.length + sc.length)
      (by simp [ht]; omega) (by simp [ht]; omega)
    have hr' := sliceFrom_append (txid ++ leBytes 4 oidx.toNat ++ cnt ++ sc) (leBytes 4 oseq.toNat ++ rest) sp (36 + cnt.length + sc.length) (by simp [ht]; omega)
    simp only [List.append_assoc] at hscr' hr' ⊢
    simp only [hscr', hr', Res.ok_bind, getUint32_of_length (leBytes_length 4 oseq.toNat), Res.pure_eq, Res.ok.injEq, Prod.mk.injEq, Input.mk.injEq, true_and, and_true]
    refine ⟨⟨?_, ?_⟩, ?_⟩
    · simp [leNat_leBytes]
    · simp [leNat_leBytes]
    · simp [ht]; omega

/-! ## outputs -/

theorem output_parse_head (st rest sp : Bytes) (h1 : st.length = 8) :
    Output.NewFromBytes ⟨st ++ rest, sp⟩ = (do
      let (l, size) ← DecodeVarInt ⟨rest, sp⟩
      let offset : Int := 8 + size
      let totalLength := wrap64 (offset + intOfUint64 l)
      if (((st ++ rest).length : Nat) : Int) < totalLength then .err "output length too short < 8 + script"
      else do
        let s ← (⟨st ++ rest, sp⟩ : Slice).sliceRange offset totalLength
        pure ({ Satoshis := UInt64.ofNat (leNat st), LockingScript := s.data }, totalLength)) := by
  have e1 : (⟨st ++ rest, sp⟩ : Slice).sliceRange 0 8 = .ok ⟨st, rest ++ sp⟩ := by
    have := sliceRange_append [] st rest sp 0 8 (by simp) (by simp [h1])
    simpa using this
  have e3 : (⟨st ++ rest, sp⟩ : Slice).sliceFrom 8 = .ok ⟨rest, sp⟩ := sliceFrom_append st rest sp 8 (by simp [h1])
  have e4 : getUint64 st = .ok (UInt64.ofNat (leNat st)) := by simpa using getUint64_of_length (t := []) h1
  have e5 : ¬ (⟨st ++ rest, sp⟩ : Slice).len < 8 := by simp [Slice.len, h1]
  unfold Output.NewFromBytes
  rw [if_neg e5]
  simp only [e1, e3, e4, Res.ok_bind]
  rfl

theorem output_parse_iff (d sp : Bytes) (hcap : d.length + sp.length < 2 ^ 62) (o : Output) (n : Int) :
    Output.NewFromBytes ⟨d, sp⟩ = .ok (o, n) ↔ ∃ e rest, d = e ++ rest ∧ IsOutput CompactSize o e ∧ n = (e.length : Int) := by
  constructor
  · intro h
    have hlen : 8 ≤ d.length := by
      by_contra hc
      have : (⟨d, sp⟩ : Slice).len < 8 := by simp [Slice.len]; omega
      simp [Output.NewFromBytes, this] at h
    obtain ⟨st, rest, rfl, hi⟩ := exists_split 8 hlen
    rw [output_parse_head st rest sp hi] at h
    simp only [List.length_append] at hlen hcap
    obtain ⟨⟨l, size⟩, hv, h⟩ := Res.bind_eq_ok.mp h
    obtain ⟨⟨hs1, hs9, _⟩, hsp⟩ := decodeVarInt_split hv
    simp only at h
    split at h
    · simp at h
    · rename_i hle
      obtain ⟨scr, hscr, h⟩ := Res.bind_eq_ok.mp h
      simp only [Res.pure_eq, Res.ok.injEq, Prod.mk.injEq] at h
      obtain ⟨rfl, rfl⟩ := h
      obtain ⟨a, b, ha, hb, hab, hbc, rfl⟩ := sliceRange_ok_iff.mp hscr
      simp only [Slice.cap, List.length_append, hi] at hbc
      have hw := wrap_stop (off := 8 + size) (b := b) (l := l) (by omega) (by push_cast; exact hb) (by omega) (by omega)
      obtain ⟨hl2, hb'⟩ := hw
      rw [hb] at hle hscr ⊢
      simp only [List.length_append, hi] at hle
      have hle' : 8 + size + l.toNat ≤ 8 + rest.length := by
        have h0 := not_lt.mp hle
        clear * - h0 hb'
        omega
      obtain ⟨cnt, r1, rfl, hc, hcl⟩ := hsp (by clear * - hle'; omega)
      simp only [List.length_append] at hle'
      obtain ⟨sc, r2, rfl, hsc⟩ := exists_split l.toNat (by clear * - hle' hcl; omega : l.toNat ≤ r1.length)
      have hscr' : (⟨st ++ (cnt ++ (sc ++ r2)), sp⟩ : Slice).sliceRange (8 + size) b = .ok ⟨sc, r2 ++ sp⟩ := by
        have := sliceRange_append (st ++ cnt) sc r2 sp (8 + size) b (by simp only [List.length_append, hi, hcl]; clear * -; omega) (by simp only [List.length_append, hi, hb', hcl, hsc]; clear * -; omega)
        simpa [List.append_assoc] using this
      rw [hscr'] at hscr
      injection hscr with hscr
      rw [← hscr]
      refine ⟨st ++ cnt ++ sc, r2, by simp, ⟨cnt, by rw [hsc]; exact hc, ?_⟩, ?_⟩
      · simp only [← putUint64_eq, putUint64_ofNat_leNat hi]
      · simp [hi, hcl, hsc, hb']; clear * -; omega
  · rintro ⟨e, rest, rfl, ⟨cnt, hc, rfl⟩, rfl⟩
    have hlt := compactSize_lt hc
    have hc9 := compactSize_length_pos hc
    obtain ⟨sat, sc⟩ := o
    simp only at hc hlt ⊢
    simp only [List.length_append, leBytes_length] at hcap
    have hd : leBytes 8 sat.toNat ++ cnt ++ sc ++ rest = leBytes 8 sat.toNat ++ (cnt ++ (sc ++ rest)) := by simp
    rw [hd, output_parse_head _ _ _ (by simp), decodeVarInt_compact hc]
    rw [Res.ok_bind]; dsimp only
    have hio : intOfUint64 (UInt64.ofNat sc.length) = sc.length := by
      rcases intOfUint64_cases (UInt64.ofNat sc.length) with ⟨_, q2⟩ | ⟨q1, _⟩
      · rw [q2, UInt64.toNat_ofNat', Nat.mod_eq_of_lt hlt]
      · rw [UInt64.toNat_ofNat', Nat.mod_eq_of_lt hlt] at q1; omega
    rw [hio]
    rw [wrap64_eq (x := (8 + cnt.length + sc.length : Int)) (by omega) (by omega)]
    rw [if_neg (by simp; omega)]
    have hscr' := sliceRange_append (leBytes 8 sat.toNat ++ cnt) sc rest sp (8 + cnt.length) (8 + cnt.length + sc.length) (by simp) (by simp)
    simp only [List.append_assoc] at hscr' ⊢
    simp only [hscr', Res.ok_bind, Res.pure_eq, Res.ok.injEq, Prod.mk.injEq, Output.mk.injEq, true_and, and_true]
    refine ⟨?_, ?_⟩
    · simp [leNat_leBytes]
    · simp; omega


/-! ## transactions -/

theorem readInputs_iff (n : Nat) : ∀ (pre d sp : Bytes), (pre ++ d).length + sp.length < 2 ^ 62 → ∀ (xs : List Input) (off : Int),
    Transaction.readInputs n ⟨pre ++ d, sp⟩ (pre.length : Int) = .ok (xs, off) ↔
      ∃ e rest, d = e ++ rest ∧ xs.length = n ∧ IsSeq (IsInput CompactSize) xs e ∧ off = ((pre ++ e).length : Int) := by
  induction n with
  | zero =>
    intro pre d sp hcap xs off
    simp only [Transaction.readInputs, Res.ok.injEq, Prod.mk.injEq]
    constructor
    · rintro ⟨rfl, rfl⟩; exact ⟨[], d, rfl, rfl, rfl, by simp⟩
    · rintro ⟨e, rest, rfl, h1, h2, rfl⟩
      rw [List.length_eq_zero_iff] at h1
      subst h1
      simp only [IsSeq] at h2
      subst h2
      simp
  | succ n ih =>
    intro pre d sp hcap xs off
    simp only [Transaction.readInputs]
    rw [sliceFrom_append pre d sp _ rfl, Res.ok_bind]
    have hcap' : d.length + sp.length < 2 ^ 62 := by rw [List.length_append] at hcap; omega
    constructor
    · intro h
      obtain ⟨⟨x, size⟩, hx, h⟩ := Res.bind_eq_ok.mp h
      obtain ⟨⟨ys, off'⟩, hy, h⟩ := Res.bind_eq_ok.mp h
      simp only [Res.pure_eq, Res.ok.injEq, Prod.mk.injEq] at h
      obtain ⟨rfl, rfl⟩ := h
      obtain ⟨e1, r1, rfl, hi, rfl⟩ := (input_parse_iff d sp hcap' x size).mp hx
      simp only at hy
      rw [wrap64_eq (by omega) (by simp only [List.length_append] at hcap; omega), ← List.append_assoc, ← Nat.cast_add, ← List.length_append] at hy
      obtain ⟨e2, r2, rfl, hl, hs, rfl⟩ := (ih (pre ++ e1) r1 sp (by simpa using hcap) ys off').mp hy
      exact ⟨e1 ++ e2, r2, by simp, by simp [hl], ⟨e1, e2, hi, hs, rfl⟩, by simp⟩
    · rintro ⟨e, rest, rfl, hl, hs, rfl⟩
      cases xs with
      | nil => simp at hl
      | cons x xs =>
        obtain ⟨e1, e2, h1, h2, rfl⟩ := hs
        have hx := (input_parse_iff (e1 ++ e2 ++ rest) sp hcap' x e1.length).mpr ⟨e1, e2 ++ rest, by simp, h1, rfl⟩
        rw [hx, Res.ok_bind]
        dsimp only
        rw [wrap64_eq (by omega) (by simp only [List.length_append] at hcap; omega), List.append_assoc, ← List.append_assoc, ← Nat.cast_add, ← List.length_append]
        have hy := (ih (pre ++ e1) (e2 ++ rest) sp (by simpa using hcap) xs ((pre ++ (e1 ++ e2)).length : Int)).mpr
          ⟨e2, rest, rfl, by simpa using hl, h2, by simp⟩
        rw [hy]
        rfl

theorem readOutputs_iff (n : Nat) : ∀ (pre d sp : Bytes), (pre ++ d).length + sp.length < 2 ^ 62 → ∀ (xs : List Output) (off : Int),
    Transaction.readOutputs n ⟨pre ++ d, sp⟩ (pre.length : Int) = .ok (xs, off) ↔
      ∃ e rest, d = e ++ rest ∧ xs.length = n ∧ IsSeq (IsOutput CompactSize) xs e ∧ off = ((pre ++ e).length : Int) := by
  induction n with
  | zero =>
    intro pre d sp hcap xs off
    simp only [Transaction.readOutputs, Res.ok.injEq, Prod.mk.injEq]
    constructor
    · rintro ⟨rfl, rfl⟩; exact ⟨[], d, rfl, rfl, rfl, by simp⟩
    · rintro ⟨e, rest, rfl, h1, h2, rfl⟩
      rw [List.length_eq_zero_iff] at h1
      subst h1
      simp only [IsSeq] at h2
      subst h2
      simp
  | succ n ih =>
    intro pre d sp hcap xs off
    simp only [Transaction.readOutputs]
    rw [sliceFrom_append pre d sp _ rfl, Res.ok_bind]
    have hcap' : d.length + sp.length < 2 ^ 62 := by rw [List.length_append] at hcap; omega
    constructor
    · intro h
      obtain ⟨⟨x, size⟩, hx, h⟩ := Res.bind_eq_ok.mp h
      obtain ⟨⟨ys, off'⟩, hy, h⟩ := Res.bind_eq_ok.mp h
      simp only [Res.pure_eq, Res.ok.injEq, Prod.mk.injEq] at h
      obtain ⟨rfl, rfl⟩ := h
      obtain ⟨e1, r1, rfl, hi, rfl⟩ := (output_parse_iff d sp hcap' x size).mp hx
      simp only at hy
      rw [wrap64_eq (by omega) (by simp only [List.length_append] at hcap; omega), ← List.append_assoc, ← Nat.cast_add, ← List.length_append] at hy
      obtain ⟨e2, r2, rfl, hl, hs, rfl⟩ := (ih (pre ++ e1) r1 sp (by simpa using hcap) ys off').mp hy
      exact ⟨e1 ++ e2, r2, by simp, by simp [hl], ⟨e1, e2, hi, hs, rfl⟩, by simp⟩
    · rintro ⟨e, rest, rfl, hl, hs, rfl⟩
      cases xs with
      | nil => simp at hl
      | cons x xs =>
        obtain ⟨e1, e2, h1, h2, rfl⟩ := hs
        have hx := (output_parse_iff (e1 ++ e2 ++ rest) sp hcap' x e1.length).mpr ⟨e1, e2 ++ rest, by simp, h1, rfl⟩
        rw [hx, Res.ok_bind]
        dsimp only
        rw [wrap64_eq (by omega) (by simp only [List.length_append] at hcap; omega), List.append_assoc, ← List.append_assoc, ← Nat.cast_add, ← List.length_append]
        have hy := (ih (pre ++ e1) (e2 ++ rest) sp (by simpa using hcap) xs ((pre ++ (e1 ++ e2)).length : Int)).mpr
          ⟨e2, rest, rfl, by simpa using hl, h2, by simp⟩
        rw [hy]
        rfl

/-- The transaction parser on a well-formed body (version, inputs, outputs) followed by any `tail`: only the length of the tail decides. -/
theorem tx_parse_body (ver : UInt32) (ins : List Input) (outs : List Output) {ci bi co bo : Bytes} (hci : CompactSize ins.length ci)
    (his : IsSeq (IsInput CompactSize) ins bi) (hco : CompactSize outs.length co) (hos : IsSeq (IsOutput CompactSize) outs bo) (tail sp : Bytes)
    (hten : 10 ≤ (leBytes 4 ver.toNat ++ ci ++ bi ++ co ++ bo ++ tail).length)
    (hcap : (leBytes 4 ver.toNat ++ ci ++ bi ++ co ++ bo ++ tail).length + sp.length < 2 ^ 62) :
    Transaction.NewFromBytes ⟨leBytes 4 ver.toNat ++ ci ++ bi ++ co ++ bo ++ tail, sp⟩ =
      if tail.length ≠ 4 then .err "nLockTime length must be 4 bytes long"
      else (do
        let lt ← getUint32 tail
        pure { Version := ver, Inputs := ins, Outputs := outs, Locktime := lt }) := by
  unfold Transaction.NewFromBytes
  have hlt := compactSize_lt hci
  have hlt' := compactSize_lt hco
  have h1 := compactSize_length_pos hci
  have h2 := compactSize_length_pos hco
  rw [if_neg (by simpa [Slice.len] using hten)]
  have e1 : (⟨leBytes 4 ver.toNat ++ ci ++ bi ++ co ++ bo ++ tail, sp⟩ : Slice).sliceRange 0 4 =
      .ok ⟨leBytes 4 ver.toNat, ci ++ bi ++ co ++ bo ++ tail ++ sp⟩ := by
    have := sliceRange_append [] (leBytes 4 ver.toNat) (ci ++ bi ++ co ++ bo ++ tail) sp 0 4 (by simp) (by simp)
    simpa using this
  have e2 : getUint32 (leBytes 4 ver.toNat) = .ok ver := getUint32_put' ver
  have e3 : (⟨leBytes 4 ver.toNat ++ ci ++ bi ++ co ++ bo ++ tail, sp⟩ : Slice).sliceFrom 4 =
      .ok ⟨ci ++ (bi ++ co ++ bo ++ tail), sp⟩ := by
    have := sliceFrom_append (leBytes 4 ver.toNat) (ci ++ bi ++ co ++ bo ++ tail) sp 4 (by simp)
    simpa using this
  rw [e1, Res.ok_bind, e2, Res.ok_bind]
  dsimp only
  rw [e3, Res.ok_bind, decodeVarInt_compact hci, Res.ok_bind]
  dsimp only
  rw [wrap64_eq (x := 4 + (ci.length : Int)) (by omega) (by omega)]
  have hi := (readInputs_iff ins.length (leBytes 4 ver.toNat ++ ci) (bi ++ co ++ bo ++ tail) sp (by simpa using hcap) ins
    ((leBytes 4 ver.toNat ++ ci ++ bi).length : Int)).mpr ⟨bi, co ++ bo ++ tail, by simp, rfl, his, rfl⟩
  have hoff : (4 + (ci.length : Int)) = ((leBytes 4 ver.toNat ++ ci).length : Int) := by simp
  have ed : leBytes 4 ver.toNat ++ ci ++ bi ++ co ++ bo ++ tail = leBytes 4 ver.toNat ++ ci ++ (bi ++ co ++ bo ++ tail) := by simp
  rw [UInt64.toNat_ofNat', Nat.mod_eq_of_lt hlt, hoff, ed, hi, Res.ok_bind]
  dsimp only
  have ed' : leBytes 4 ver.toNat ++ ci ++ (bi ++ co ++ bo ++ tail) = leBytes 4 ver.toNat ++ ci ++ bi ++ (co ++ (bo ++ tail)) := by simp
  rw [ed', sliceFrom_append (leBytes 4 ver.toNat ++ ci ++ bi) _ sp _ rfl, Res.ok_bind, decodeVarInt_compact hco, Res.ok_bind]
  dsimp only
  rw [wrap64_eq (x := ((leBytes 4 ver.toNat ++ ci ++ bi).length : Int) + (co.length : Int)) (by omega)
    (by simp only [List.length_append] at hcap ⊢; omega)]
  rw [UInt64.toNat_ofNat', Nat.mod_eq_of_lt hlt', ← Nat.cast_add, ← List.length_append]
  have ho := (readOutputs_iff outs.length (leBytes 4 ver.toNat ++ ci ++ bi ++ co) (bo ++ tail) sp (by simpa using hcap) outs
    ((leBytes 4 ver.toNat ++ ci ++ bi ++ co ++ bo).length : Int)).mpr ⟨bo, tail, by simp, rfl, hos, rfl⟩
  have ed2 : leBytes 4 ver.toNat ++ ci ++ bi ++ (co ++ (bo ++ tail)) = leBytes 4 ver.toNat ++ ci ++ bi ++ co ++ (bo ++ tail) := by simp
  rw [ed2, ho, Res.ok_bind]
  dsimp only
  rw [← List.append_assoc, sliceFrom_append (leBytes 4 ver.toNat ++ ci ++ bi ++ co ++ bo) _ sp _ rfl, Res.ok_bind]
  by_cases h4 : tail.length = 4
  · rw [if_neg (by simpa [Slice.len] using h4), if_neg (by simpa using h4)]
  · rw [if_pos (by simpa [Slice.len] using h4), if_pos (by simpa using h4)]

/-- The transaction parser accepts exactly the encodings of the grammar. -/
theorem tx_parse_iff (d sp : Bytes) (hcap : d.length + sp.length < 2 ^ 62) (tx : Transaction) :
    Transaction.NewFromBytes ⟨d, sp⟩ = .ok tx ↔ IsTx CompactSize tx d := by
  unfold Transaction.NewFromBytes
  constructor
  · intro h
    split at h
    · simp at h
    · rename_i hlen
      simp only [Slice.len] at hlen
      obtain ⟨ver, d1, rfl, hv⟩ := exists_split 4 (by omega : 4 ≤ d.length)
      have e1 : (⟨ver ++ d1, sp⟩ : Slice).sliceRange 0 4 = .ok ⟨ver, d1 ++ sp⟩ := by
        have := sliceRange_append [] ver d1 sp 0 4 (by simp) (by simp [hv])
        simpa using this
      have e2 : getUint32 ver = .ok (UInt32.ofNat (leNat ver)) := by simpa using getUint32_of_length (t := []) hv
      have e3 := sliceFrom_append ver d1 sp 4 (by simp [hv])
      rw [e1, Res.ok_bind, e2, Res.ok_bind] at h
      dsimp only at h
      rw [e3, Res.ok_bind] at h
      obtain ⟨⟨l, size⟩, hd, h⟩ := Res.bind_eq_ok.mp h
      dsimp only at h
      obtain ⟨⟨hs1, hs9, _⟩, hsp⟩ := decodeVarInt_split hd
      rw [wrap64_eq (x := 4 + (size : Int)) (by omega) (by omega)] at h
      obtain ⟨⟨ins, off⟩, hi, h⟩ := Res.bind_eq_ok.mp h
      dsimp only at h
      have hsz : size ≤ d1.length := by
        by_contra hc
        have hp : (⟨ver ++ d1, sp⟩ : Slice).sliceFrom (4 + (size : Int)) = .panic := by
          unfold Slice.sliceFrom; rw [if_neg (by simp [Slice.len, hv]; omega)]
        cases hl : l.toNat with
        | zero =>
          rw [hl] at hi
          simp only [Transaction.readInputs, Res.ok.injEq, Prod.mk.injEq] at hi
          rw [← hi.2, hp] at h
          simp at h
        | succ n =>
          rw [hl] at hi
          simp only [Transaction.readInputs] at hi
          rw [hp] at hi
          simp at hi
      obtain ⟨ci, d2, rfl, hci, rfl⟩ := hsp hsz
      have hoff : (4 + (ci.length : Int)) = ((ver ++ ci).length : Int) := by simp [hv]
      rw [hoff, ← List.append_assoc] at hi
      obtain ⟨bi, d3, rfl, hil, his, rfl⟩ := (readInputs_iff l.toNat (ver ++ ci) d2 sp (by simpa using hcap) ins off).mp hi
      have e4 := sliceFrom_append (ver ++ ci ++ bi) d3 sp ((ver ++ ci ++ bi).length : Int) rfl
      have ed : ver ++ (ci ++ (bi ++ d3)) = ver ++ ci ++ bi ++ d3 := by simp
      rw [ed] at h hcap
      rw [e4, Res.ok_bind] at h
      obtain ⟨⟨m, size⟩, hd', h⟩ := Res.bind_eq_ok.mp h
      dsimp only at h
      obtain ⟨⟨hs1', hs9', _⟩, hsp'⟩ := decodeVarInt_split hd'
      rw [wrap64_eq (x := ((ver ++ ci ++ bi).length : Int) + (size : Int)) (by omega) (by rw [List.length_append] at hcap; omega)] at h
      obtain ⟨⟨outs, off⟩, ho, h⟩ := Res.bind_eq_ok.mp h
      dsimp only at h
      have hsz' : size ≤ d3.length := by
        by_contra hc
        have hp : (⟨ver ++ ci ++ bi ++ d3, sp⟩ : Slice).sliceFrom (((ver ++ ci ++ bi).length : Int) + (size : Int)) = .panic := by
          unfold Slice.sliceFrom; rw [if_neg (by simp only [Slice.len]; rw [List.length_append (as := ver ++ ci ++ bi)]; omega)]
        cases hl : m.toNat with
        | zero =>
          rw [hl] at ho
          simp only [Transaction.readOutputs, Res.ok.injEq, Prod.mk.injEq] at ho
          rw [← ho.2, hp] at h
          simp at h
        | succ n =>
          rw [hl] at ho
          simp only [Transaction.readOutputs] at ho
          rw [hp] at ho
          simp at ho
      obtain ⟨co, d4, rfl, hco, rfl⟩ := hsp' hsz'
      rw [← Nat.cast_add, ← List.length_append, ← List.append_assoc] at ho
      obtain ⟨bo, d5, rfl, hol, hos, rfl⟩ := (readOutputs_iff m.toNat (ver ++ ci ++ bi ++ co) d4 sp (by simpa using hcap) outs off).mp ho
      have e5 := sliceFrom_append (ver ++ ci ++ bi ++ co ++ bo) d5 sp ((ver ++ ci ++ bi ++ co ++ bo).length : Int) rfl
      have ed' : ver ++ ci ++ bi ++ (co ++ (bo ++ d5)) = ver ++ ci ++ bi ++ co ++ bo ++ d5 := by simp
      rw [ed'] at h hcap
      rw [e5, Res.ok_bind] at h
      split at h
      · simp at h
      · rename_i h4
        simp only [Slice.len, ne_eq, not_not] at h4
        have e6 : getUint32 d5 = .ok (UInt32.ofNat (leNat d5)) := by simpa using getUint32_of_length (t := []) h4
        rw [e6] at h
        simp only [Res.ok_bind, Res.pure_eq, Res.ok.injEq] at h
        subst h
        refine ⟨ci, bi, co, bo, by rw [hil]; exact hci, his, by rw [hol]; exact hco, hos, ?_⟩
        simp only [← putUint32_eq, putUint32_ofNat_leNat hv, putUint32_ofNat_leNat h4]
        simp
  · rintro ⟨ci, bi, co, bo, hci, his, hco, hos, rfl⟩
    obtain ⟨ver, ins, outs, lt⟩ := tx
    simp only at hci his hco hos hcap ⊢
    have h1 := compactSize_length_pos hci
    have h2 := compactSize_length_pos hco
    have := tx_parse_body ver ins outs hci his hco hos (leBytes 4 lt.toNat) sp (by simp; omega) hcap
    have e6 : getUint32 (leBytes 4 lt.toNat) = .ok lt := getUint32_put' lt
    rw [if_neg (by simp), e6] at this
    unfold Transaction.NewFromBytes at this
    exact this

end Verif
