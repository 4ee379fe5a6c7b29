import Verif.Props.Merkle
import Verif.Props.TxLayout
/-!
# C103: Merkle roots of any texts
-/
namespace Verif.Props
open Verif Spec

/-- `d` are the bytes of the longest end of `t` (with a 0 in front if its length is odd) that is made of pairs of hex digits. -/
def HexEnd (t d : Bytes) : Prop :=
  ∃ rest p, (if t.length % 2 = 1 then b!"0" ++ t else t) = rest ++ p ∧ p.length % 2 = 0 ∧ (∀ c ∈ p, HexDigit c) ∧ hexEncode d = p.map lowerChar ∧
    ∀ r x y, rest = r ++ [x, y] → ¬ (HexDigit x ∧ HexDigit y)

theorem pairs_append (a b : Bytes) (ha : a.length % 2 = 0) : pairs (a ++ b) = pairs a ++ pairs b := by
  induction a using pairs.induct with
  | case1 x y r ih => simp only [List.cons_append, pairs]; rw [ih (by simp at ha; omega)]
  | case2 l h =>
    rcases l with _ | ⟨x, _ | ⟨y, r⟩⟩
    · simp [pairs]
    · simp at ha
    · exact absurd rfl (h x y r)

theorem revHex_append (a b : Bytes) (ha : a.length % 2 = 0) (hb : b.length % 2 = 0) : ReverseHexString (a ++ b) = ReverseHexString b ++ ReverseHexString a := by
  rw [C04_reverseHex_groups _ (by simp; omega), C04_reverseHex_groups _ ha, C04_reverseHex_groups _ hb, pairs_append a b ha, List.reverse_append, List.flatMap_append]

theorem revHex_props (a : Bytes) (ha : a.length % 2 = 0) : (ReverseHexString a).length % 2 = 0 ∧ ((∀ c ∈ a, HexDigit c) → ∀ c ∈ ReverseHexString a, HexDigit c) := by
  rw [C04_reverseHex_groups a ha]
  constructor
  · generalize (pairs a).reverse = ps
    induction ps with
    | nil => rfl
    | cons p ps ih => simp only [List.flatMap_cons, List.length_append, List.length_cons, List.length_nil]; omega
  · intro h c hc
    rw [List.mem_flatMap] at hc
    obtain ⟨p, hp, hc⟩ := hc
    obtain ⟨h1, h2⟩ := pairs_mem (List.mem_reverse.mp hp)
    simp only [List.mem_cons, List.not_mem_nil, or_false] at hc
    rcases hc with rfl | rfl
    · exact h _ h1
    · exact h _ h2

theorem isHex_of_digits {p : Bytes} (h1 : p.length % 2 = 0) (h2 : ∀ c ∈ p, HexDigit c) : IsHex p := ⟨h1, fun c hc => (hexDigit_iff c).mp (h2 c hc)⟩

theorem decode_of_digits {p d : Bytes} (h1 : p.length % 2 = 0) (h2 : ∀ c ∈ p, HexDigit c) : hexEncode d = p.map lowerChar ↔ hexDecodeIgnore p = d := by
  have := hexEncode_decode (isHex_of_digits h1 h2)
  constructor
  · intro h; exact hexEncode_inj (this.trans h.symm)
  · rintro rfl; exact this

theorem revHex_pair (x y : UInt8) : ReverseHexString [x, y] = [x, y] := by simp [ReverseHexString, reverseHexLoop]

theorem even_last {r : Bytes} (h : r.length % 2 = 0) (hne : r ≠ []) : ∃ s x y, r = s ++ [x, y] ∧ s.length % 2 = 0 := by
  rcases List.eq_nil_or_concat r with rfl | ⟨s1, y, rfl⟩
  · exact absurd rfl hne
  · rcases List.eq_nil_or_concat s1 with rfl | ⟨s2, x, rfl⟩
    · simp at h
    · exact ⟨s2, x, y, by simp, by simp at h ⊢; omega⟩

theorem hexEnd_decode (t d : Bytes) (h : HexEnd t d) : hexDecodeIgnore (ReverseHexString t) = d.reverse := by
  obtain ⟨rest, p, h1, h2, h3, h4, h5⟩ := h
  have he : ReverseHexString t = ReverseHexString (rest ++ p) := by
    rw [← h1]
    split
    · rename_i ho; exact C04_reverseHex_odd t ho
    · rfl
  have hr : rest.length % 2 = 0 := by
    have := congrArg List.length h1
    split at this <;> simp at this <;> omega
  rw [he, revHex_append rest p hr h2, ← hexStart_iff]
  obtain ⟨g1, g2⟩ := revHex_props p h2
  refine ⟨_, _, rfl, g1, g2 h3, ?_, ?_⟩
  · rw [decode_of_digits g1 (g2 h3), reverseHex_decode (isHex_of_digits h2 h3)]
    unfold internal
    rw [(decode_of_digits h2 h3).mp h4]
  · intro x y r e
    by_cases hne : rest = []
    · subst hne; cases e
    · obtain ⟨s, x', y', rfl, hs⟩ := even_last hr hne
      rw [revHex_append s [x', y'] hs (by simp), revHex_pair] at e
      simp only [List.cons_append, List.nil_append, List.cons.injEq] at e
      obtain ⟨rfl, rfl, -⟩ := e
      exact h5 s _ _ rfl

theorem hexEnd_exists (t : Bytes) : ∃ d, HexEnd t d := by
  obtain ⟨u, hu, hev⟩ : ∃ u, (if t.length % 2 = 1 then b!"0" ++ t else t) = u ∧ u.length % 2 = 0 := by
    refine ⟨_, rfl, ?_⟩
    split
    · simp; omega
    · omega
  obtain ⟨p, rest, h1, h2, h3, h4, h5⟩ := hexStart_exists (ReverseHexString u)
  have hr : rest.length % 2 = 0 := by
    have := congrArg List.length h1
    have := (revHex_props u hev).1
    simp at *; omega
  obtain ⟨g1, g2⟩ := revHex_props p h2
  refine ⟨_, ReverseHexString rest, ReverseHexString p, ?_, g1, g2 h3, (decode_of_digits g1 (g2 h3)).mpr rfl, ?_⟩
  · rw [hu, ← revHex_append p rest h2 hr, ← h1, C04_reverseHex_involutive u hev]
  · intro r x y e
    have hrl : r.length % 2 = 0 := by
      have := congrArg List.length e
      have := (revHex_props rest hr).1
      simp at *; omega
    have : rest = ReverseHexString (r ++ [x, y]) := by rw [← e, C04_reverseHex_involutive rest hr]
    rw [revHex_append r [x, y] hrl (by simp), revHex_pair] at this
    exact h5 x y _ this

/-- C103: whatever texts are given as txids, the root is that of the tree over the coinbase hash and, for every text, the bytes (backwards) of its longest end made of pairs of hex digits. -/
theorem C103_root (H : HashFns) (first : Bytes) (txids leaves : List Bytes) (hl : List.Forall₂ HexEnd txids leaves) (cbHash : Bytes) :
    IsRoot (dsha H) (cbHash :: leaves.map List.reverse) (BuildMerkleRootFromCoinbase H cbHash (GetMerkleBranches H (first :: txids))) := by
  have h := walk_root H ((txids.map ReverseHexString).length + 1) (hexEncode cbHash) (txids.map ReverseHexString) (Nat.le_refl _)
  rw [hexDecodeIgnore_encode] at h
  have e : (hexEncode cbHash :: txids.map ReverseHexString).map hexDecodeIgnore = cbHash :: leaves.map List.reverse := by
    rw [List.map_cons, List.map_map, hexDecodeIgnore_encode]
    congr 1
    clear h
    induction hl with
    | nil => rfl
    | cons h _ ih => simp only [List.map_cons, ih, Function.comp, hexEnd_decode _ _ h]
  rw [e] at h
  have : GetMerkleBranches H (first :: txids) = walkBranch H ((txids.map ReverseHexString).length + 1) (hexEncode cbHash :: txids.map ReverseHexString) := by
    have e1 := C52_independent H first (ReverseHexString (hexEncode cbHash)) txids
    rw [e1]
    unfold GetMerkleBranches getHashes
    simp only [List.map_cons, List.length_cons]
    congr 2
    exact C04_reverseHex_involutive _ (by rw [hexEncode_length]; omega)
  rw [this]
  exact h

/-- Every text has such bytes, so C103_root covers every list of texts. -/
theorem C103_total (txids : List Bytes) : ∃ leaves, List.Forall₂ HexEnd txids leaves := by
  induction txids with
  | nil => exact ⟨[], .nil⟩
  | cons t ts ih =>
    obtain ⟨d, h⟩ := hexEnd_exists t
    obtain ⟨l, hl⟩ := ih
    exact ⟨d :: l, .cons h hl⟩

/-- C103 (deviation): texts that are not hex are not reported, so the root does not commit to the list: for every list and position after the coinbase, putting
any odd number of characters and a g in front of the txid gives a text that is no txid and the same root. -/
theorem C103_not_reported (H : HashFns) (first : Bytes) (before after : List Bytes) (t junk : Bytes) (hj : junk.length % 2 = 1) (hd : IsTxId t) (cbHash : Bytes) :
    junk ++ b!"g" ++ t ≠ t ∧ ¬ IsTxId (junk ++ b!"g" ++ t) ∧
    BuildMerkleRootFromCoinbase H cbHash (GetMerkleBranches H (first :: (before ++ (junk ++ b!"g" ++ t) :: after))) =
      BuildMerkleRootFromCoinbase H cbHash (GetMerkleBranches H (first :: (before ++ t :: after))) := by
  obtain ⟨bl, hb⟩ := C103_total before
  obtain ⟨al, ha⟩ := C103_total after
  obtain ⟨h64, hhex⟩ := hd
  have ht : HexEnd t (hexDecodeIgnore t) := by
    refine ⟨[], t, by rw [if_neg (by omega)]; rfl, by omega, hhex, (decode_of_digits (by omega) hhex).mpr rfl, by simp⟩
  have ht' : HexEnd (junk ++ b!"g" ++ t) (hexDecodeIgnore t) := by
    refine ⟨junk ++ b!"g", t, by rw [if_neg (by simp [h64]; omega)], by omega, hhex, (decode_of_digits (by omega) hhex).mpr rfl, ?_⟩
    intro r x y e
    have : y = 103 := by
      have := congrArg (fun l => l.getLast?) e
      simp at this
      exact this.symm
    subst this
    rintro ⟨-, h⟩
    revert h; decide
  refine ⟨fun e => ?_, fun h => ?_, ?_⟩
  · have := congrArg List.length e; simp at this; omega
  · have := h.1; simp [h64] at this
  · have r1 := C103_root H first (before ++ (junk ++ b!"g" ++ t) :: after) (bl ++ hexDecodeIgnore t :: al) (List.rel_append hb (.cons ht' ha)) cbHash
    have r2 := C103_root H first (before ++ t :: after) (bl ++ hexDecodeIgnore t :: al) (List.rel_append hb (.cons ht ha)) cbHash
    exact root_unique r1 r2

/-- non-vacuity: an odd text, one with a character that is not hex, and a proper one -/
example : HexEnd b!"1" [1] ∧ HexEnd b!"1x23" [0x23] ∧ HexEnd b!"Ab" [0xab] := by
  refine ⟨⟨[], b!"01", rfl, rfl, by decide, by decide, by simp⟩, ⟨b!"1x", b!"23", rfl, rfl, by decide, by decide, ?_⟩, ⟨[], b!"Ab", rfl, rfl, by decide, by decide, by simp⟩⟩
  intro r x y e
  have : r = [] := by
    have := congrArg List.length e; simp at this
    exact this
  subst this
  simp only [List.nil_append, List.cons.injEq, and_true] at e
  rw [← e.1, ← e.2]
  decide

end Verif.Props
