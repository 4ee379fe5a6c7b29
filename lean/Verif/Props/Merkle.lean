import Verif.Spec.Merkle
import Verif.Model.Block
import Verif.Props.Utils
import Verif.Props.Redeem
import Verif.Lemmas.TxBytes
import Mathlib.Data.Nat.Log
/-!
# C51–C55: Merkle branches, roots and proofs
-/
namespace Verif.Props
open Verif Spec

/-- Double SHA256. -/
abbrev dsha (H : HashFns) (b : Bytes) : Bytes := H.sha256 (H.sha256 b)

/-! ## Hex reversal -/

theorem hexDecodeIgnore_pairs (ps : List (UInt8 × UInt8)) (h : ∀ p ∈ ps, (fromHexChar p.1).isSome ∧ (fromHexChar p.2).isSome) :
    hexDecodeIgnore (ps.flatMap fun p => [p.1, p.2]) = ps.map fun p => ((fromHexChar p.1).getD 0 <<< 4) ||| (fromHexChar p.2).getD 0 := by
  induction ps with
  | nil => rfl
  | cons p ps ih =>
    obtain ⟨h1, h2⟩ := h p (by simp)
    obtain ⟨x, hx⟩ := Option.isSome_iff_exists.mp h1
    obtain ⟨y, hy⟩ := Option.isSome_iff_exists.mp h2
    have ih := ih (fun q hq => h q (by simp [hq]))
    unfold hexDecodeIgnore at ih ⊢
    simp only [List.flatMap_cons, List.cons_append, List.nil_append, hexDecode, hx, hy, List.map_cons, Option.getD_some]
    rw [ih]

theorem pairs_mem {s : Bytes} {p : UInt8 × UInt8} (h : p ∈ pairs s) : p.1 ∈ s ∧ p.2 ∈ s := by
  induction s using pairs.induct with
  | case1 a b rest ih =>
    simp only [pairs, List.mem_cons] at h
    rcases h with rfl | h
    · simp
    · have := ih h; simp [this.1, this.2]
  | case2 s hs =>
    unfold pairs at h
    split at h
    · rename_i a b r; exact absurd rfl (hs a b r)
    · simp at h

theorem reverseHex_decode {s : Bytes} (h : IsHex s) : hexDecodeIgnore (ReverseHexString s) = internal s := by
  have hp : ∀ p ∈ pairs s, (fromHexChar p.1).isSome ∧ (fromHexChar p.2).isSome := fun p hp => ⟨h.2 _ (pairs_mem hp).1, h.2 _ (pairs_mem hp).2⟩
  rw [C04_reverseHex_groups s h.1, hexDecodeIgnore_pairs _ (fun p hm => hp p (List.mem_reverse.mp hm))]
  unfold internal
  conv_rhs => rw [← pairs_flat s h.1, hexDecodeIgnore_pairs _ hp]
  rw [List.map_reverse]

/-! ## Levels -/

theorem level_length (d : Bytes → Bytes) (l : List Bytes) : (level d l).length = (l.length + 1) / 2 := by simp [level]

theorem level_two (d : Bytes → Bytes) (x y : Bytes) (l : List Bytes) : level d (x :: y :: l) = d (x ++ y) :: level d l := by
  apply List.ext_getElem
  · simp [level]; omega
  · intro n h1 h2
    rcases n with _ | n
    · simp [level]
    · simp only [level, List.length_cons, List.getElem_map, List.getElem_range, List.getElem_cons_succ]
      rw [show 2 * (n + 1) = 2 * n + 2 by ring, List.getD_cons_succ, List.getD_cons_succ]
      have hn : n < (l.length + 1) / 2 := by simpa [level] using h2
      rw [show min (2 * n + 2 + 1) (l.length + 1 + 1 - 1) = min (2 * n + 1) (l.length - 1) + 2 by omega, List.getD_cons_succ, List.getD_cons_succ]

theorem level_one (d : Bytes → Bytes) (x : Bytes) : level d [x] = [d (x ++ x)] := by simp [level]

theorem level_nil (d : Bytes → Bytes) : level d [] = [] := by simp [level]

theorem pairUp_level (H : HashFns) (hs : List Bytes) : (pairUp H hs).map hexDecodeIgnore = level (dsha H) (hs.map hexDecodeIgnore) := by
  induction hs using pairUp.induct with
  | case1 => simp [pairUp, level_nil]
  | case2 x => simp [pairUp, level_one, Sha256d, Sha256]
  | case3 x y rest ih => simp [pairUp, level_two, Sha256d, Sha256, ih]

theorem pairUp_length (H : HashFns) (hs : List Bytes) : (pairUp H hs).length = (hs.length + 1) / 2 := by
  have := congrArg List.length (pairUp_level H hs)
  simpa [level_length] using this

/-- Every non-empty list has exactly one root. -/
theorem root_exists (d : Bytes → Bytes) (l : List Bytes) (h : l ≠ []) : ∃ r, IsRoot d l r := by
  induction hn : l.length using Nat.strong_induction_on generalizing l with
  | _ n ih =>
    rcases l with _ | ⟨x, _ | ⟨y, l⟩⟩
    · exact absurd rfl h
    · exact ⟨x, .single x⟩
    · have hl : (level d (x :: y :: l)).length = (n + 1) / 2 := by rw [level_length, hn]
      simp only [List.length_cons] at hn
      obtain ⟨r, hr⟩ := ih ((n + 1) / 2) (by omega) (level d (x :: y :: l)) (by intro e; rw [e] at hl; simp at hl; omega) hl
      exact ⟨r, .step (by simp) hr⟩

theorem root_unique {d : Bytes → Bytes} {l : List Bytes} {r r' : Bytes} (h : IsRoot d l r) (h' : IsRoot d l r') : r = r' := by
  induction h with
  | single x =>
    cases h' with
    | single => rfl
    | step h _ => simp at h
  | step h2 _ ih =>
    cases h' with
    | single => simp at h2
    | step _ h => exact ih h

/-! ## C51 -/

theorem walk_root (H : HashFns) (fuel : Nat) : ∀ (x : Bytes) (hs : List Bytes), hs.length + 1 ≤ fuel →
    IsRoot (dsha H) ((x :: hs).map hexDecodeIgnore) (BuildMerkleRootFromCoinbase H (hexDecodeIgnore x) (walkBranch H fuel (x :: hs))) := by
  induction fuel with
  | zero => intro x hs h; omega
  | succ fuel ih =>
    intro x hs hl
    rcases hs with _ | ⟨y, hs⟩
    · exact .single _
    · refine .step (by simp) ?_
      rw [← pairUp_level]
      have e : pairUp H (x :: y :: hs) = hexEncode (Sha256d H (hexDecodeIgnore x ++ hexDecodeIgnore y)) :: pairUp H hs := rfl
      have hle : (pairUp H hs).length + 1 ≤ fuel := by
        rw [pairUp_length]; simp only [List.length_cons] at hl; omega
      have := ih (hexEncode (Sha256d H (hexDecodeIgnore x ++ hexDecodeIgnore y))) (pairUp H hs) hle
      rw [← e] at this
      simp only [walkBranch]
      rw [hexDecodeIgnore_encode] at this
      exact this

/-- C51: folding the coinbase hash with the branches gives the Merkle root, for every non-empty list of hex txids. -/
theorem C51_root (H : HashFns) (cb : Bytes) (txids : List Bytes) (hx : ∀ t ∈ cb :: txids, IsHex t) :
    IsRoot (dsha H) ((cb :: txids).map internal) (BuildMerkleRootFromCoinbase H (internal cb) (GetMerkleBranches H (cb :: txids))) := by
  have h := walk_root H ((txids.map ReverseHexString).length + 1) (ReverseHexString cb) (txids.map ReverseHexString) (Nat.le_refl _)
  rw [reverseHex_decode (hx cb (by simp))] at h
  have e : (ReverseHexString cb :: txids.map ReverseHexString).map hexDecodeIgnore = (cb :: txids).map internal := by
    rw [← List.map_cons, List.map_map]
    apply List.map_congr_left
    intro t ht
    exact reverseHex_decode (hx t ht)
  rw [e] at h
  exact h

/-- The same for any coinbase that is put in front later: the branches were computed for whatever first txid. -/
theorem C51_root_any_coinbase (H : HashFns) (old : Bytes) (txids : List Bytes) (hx : ∀ t ∈ txids, IsHex t) (cbHash : Bytes) :
    IsRoot (dsha H) (cbHash :: txids.map internal) (BuildMerkleRootFromCoinbase H cbHash (GetMerkleBranches H (old :: txids))) := by
  have h := walk_root H ((txids.map ReverseHexString).length + 1) (hexEncode cbHash) (txids.map ReverseHexString) (Nat.le_refl _)
  rw [hexDecodeIgnore_encode] at h
  have e : (hexEncode cbHash :: txids.map ReverseHexString).map hexDecodeIgnore = cbHash :: txids.map internal := by
    rw [List.map_cons, List.map_map, hexDecodeIgnore_encode]
    congr 1
    apply List.map_congr_left
    intro t ht
    exact reverseHex_decode (hx t ht)
  rw [e] at h
  have key : ∀ (fuel : Nat) (x x' : Bytes) (r : List Bytes), walkBranch H fuel (x :: r) = walkBranch H fuel (x' :: r) := by
    intro fuel
    induction fuel with
    | zero => intros; rfl
    | succ fuel ih =>
      intro x x' r
      rcases r with _ | ⟨y, r⟩
      · rfl
      · simp only [walkBranch, pairUp]
        rw [ih]
  rw [key _ _ (ReverseHexString old)] at h
  exact h

example : ∀ t ∈ [b!"aabb", b!"0C0d", b!"ff00"], IsHex t := by simp only [IsHex]; decide +kernel

/-! ## C52 -/

/-- C52: the branches do not depend on the first txid. -/
theorem C52_independent (H : HashFns) (a b : Bytes) (txids : List Bytes) : GetMerkleBranches H (a :: txids) = GetMerkleBranches H (b :: txids) := by
  have key : ∀ (fuel : Nat) (x x' : Bytes) (r : List Bytes), walkBranch H fuel (x :: r) = walkBranch H fuel (x' :: r) := by
    intro fuel
    induction fuel with
    | zero => intros; rfl
    | succ fuel ih =>
      intro x x' r
      rcases r with _ | ⟨y, r⟩
      · rfl
      · simp only [walkBranch, pairUp]
        rw [ih]
  simp only [GetMerkleBranches, getHashes, List.map_cons, List.length_cons]
  exact key _ _ _ _

theorem walk_length (H : HashFns) (fuel : Nat) : ∀ (hs : List Bytes), hs.length ≤ fuel → (walkBranch H fuel hs).length = Nat.clog 2 hs.length := by
  induction fuel with
  | zero =>
    intro hs h
    have : hs = [] := List.length_eq_zero_iff.mp (by omega)
    subst this; simp [walkBranch]
  | succ fuel ih =>
    intro hs hl
    rcases hs with _ | ⟨x, _ | ⟨y, hs⟩⟩
    · simp [walkBranch]
    · simp [walkBranch]
    · simp only [walkBranch, List.length_cons]
      simp only [List.length_cons] at hl
      rw [ih _ (by rw [pairUp_length]; simp only [List.length_cons]; omega), pairUp_length, Nat.clog_of_two_le (by omega) (show 2 ≤ hs.length + 1 + 1 by omega)]
      simp

/-- C52: there are ceil(log2 n) branches; none for fewer than two txids. -/
theorem C52_count (H : HashFns) (txids : List Bytes) :
    (GetMerkleBranches H txids).length = Nat.clog 2 txids.length ∧ (txids.length < 2 ↔ GetMerkleBranches H txids = []) := by
  have h := walk_length H (getHashes txids).length (getHashes txids) (Nat.le_refl _)
  have h' : (GetMerkleBranches H txids).length = Nat.clog 2 txids.length := by
    unfold GetMerkleBranches
    simp only
    rw [h]; simp [getHashes]
  refine ⟨h', ?_⟩
  rw [← List.length_eq_zero_iff, h']
  constructor
  · intro hl; exact Nat.clog_of_right_le_one (by omega) 2
  · intro hc
    by_contra hl
    have := Nat.clog_pos (b := 2) (n := txids.length) (by omega) (by omega)
    omega

/-! ## C53 -/

theorem path_root {d : Bytes → Bytes} {l bs : List Bytes} {k : Nat} {r : Bytes} (h : IsPath d l k bs r) : IsRoot d l r := by
  induction h with
  | leaf x => exact .single x
  | node h _ _ ih => exact .step h ih

theorem path_lt {d : Bytes → Bytes} {l bs : List Bytes} {k : Nat} {r : Bytes} (h : IsPath d l k bs r) : k < l.length := by
  cases h with
  | leaf x => simp
  | node _ h _ => exact h

theorem path_pow {d : Bytes → Bytes} {l bs : List Bytes} {k : Nat} {r : Bytes} (h : IsPath d l k bs r) : k < 2 ^ bs.length ∧ bs.length = Nat.clog 2 l.length := by
  induction h with
  | leaf x => simp
  | @node l bs k r h2 hk _ ih =>
    rw [level_length] at ih
    obtain ⟨h, e⟩ := ih
    refine ⟨?_, ?_⟩
    · rw [List.length_cons, pow_succ]; omega
    · rw [List.length_cons, e, Nat.clog_of_two_le (by omega) h2]
      simp

/-- Every position of a non-empty list has a path. -/
theorem path_exists (d : Bytes → Bytes) (l : List Bytes) (k : Nat) (hk : k < l.length) : ∃ bs r, IsPath d l k bs r := by
  induction hn : l.length using Nat.strong_induction_on generalizing l k with
  | _ n ih =>
    by_cases h2 : 2 ≤ l.length
    · have hl := level_length d l
      obtain ⟨bs, r, h⟩ := ih (level d l).length (by omega) (level d l) (k / 2) (by omega) rfl
      exact ⟨_, r, .node h2 hk h⟩
    · rcases l with _ | ⟨x, _ | ⟨y, l⟩⟩
      · simp at hk
      · have : k = 0 := by simp at hk; exact hk
        subst this
        exact ⟨[], x, .leaf x⟩
      · simp at h2

theorem getD_lt {α : Type} (l : List α) (d : α) {k : Nat} (h : k < l.length) : l.getD k d = l[k] := by
  rw [List.getD_eq_getElem?_getD, List.getElem?_eq_getElem h, Option.getD_some]

theorem combined_level (d : Bytes → Bytes) (l : List Bytes) (k : Nat) (hk : k < l.length) :
    d (combined (l.getD k []) k (sibling l k)) = (level d l).getD (k / 2) [] := by
  have hlt : k / 2 < (level d l).length := by rw [level_length]; omega
  rw [getD_lt _ _ hlt]
  simp only [level, List.getElem_map, List.getElem_range, combined, sibling]
  by_cases h : k % 2 = 1
  · rw [if_pos h, if_pos h, show 2 * (k / 2) = k - 1 by omega, show min (k - 1 + 1) (l.length - 1) = k by omega]
  · rw [if_neg h, if_neg h, show 2 * (k / 2) = k by omega]

theorem path_proofRoot {d : Bytes → Bytes} {l bs : List Bytes} {k : Nat} {r : Bytes} (h : IsPath d l k bs r) : proofRoot d (l.getD k []) k bs = r := by
  induction h with
  | leaf x => rfl
  | node h2 hk _ ih =>
    simp only [proofRoot]
    rw [combined_level d _ _ hk]
    exact ih

/-- The loop of the proof check, for hex branches and any index. -/
theorem merkleLoop_eq (H : HashFns) : ∀ (bs : List Bytes) (h : Bytes) (idx : Int), (∀ b ∈ bs, IsHex b) →
    merkleLoop H h idx bs = .ok (proofRoot (dsha H) h (idx % 2 ^ bs.length).toNat (bs.map internal), idx / 2 ^ bs.length) := by
  intro bs
  induction bs with
  | nil => intro h idx _; simp [merkleLoop, proofRoot]
  | cons b bs ih =>
    intro h idx hx
    simp only [merkleLoop, hexDecodeRes_isHex (hx b (by simp)), Res.ok_bind, ReverseBytes_eq]
    rw [ih _ _ (fun c hc => hx c (by simp [hc]))]
    have hpos : (0 : Int) < 2 ^ bs.length := by positivity
    have e1 : idx / 2 / 2 ^ bs.length = idx / 2 ^ (bs.length + 1) := by
      rw [Int.ediv_ediv_of_nonneg (by omega), pow_succ, mul_comm]
    have e2 : ((idx % 2 ^ (bs.length + 1)).toNat) / 2 = ((idx / 2) % 2 ^ bs.length).toNat := by
      have : idx % 2 ^ (bs.length + 1) = idx % 2 + 2 * ((idx / 2) % 2 ^ bs.length) := by
        have q := Int.emod_add_mul_ediv (idx / 2) (2 ^ bs.length)
        have b0 := Int.emod_nonneg (idx / 2) (show (2 : Int) ^ bs.length ≠ 0 by omega)
        have b1 := Int.emod_lt_of_pos (idx / 2) hpos
        refine ((Int.ediv_emod_unique (a := idx) (b := 2 ^ (bs.length + 1)) (q := idx / 2 / 2 ^ bs.length) (by positivity)).mpr ⟨?_, by omega, ?_⟩).2
        · rw [pow_succ]
          have : (2 : Int) ^ bs.length * 2 * (idx / 2 / 2 ^ bs.length) = 2 * (2 ^ bs.length * (idx / 2 / 2 ^ bs.length)) := by ring
          rw [this]; omega
        · rw [pow_succ]; omega
      have hnn : 0 ≤ idx % 2 ^ (bs.length + 1) := Int.emod_nonneg _ (by positivity)
      omega
    have e3 : ((idx % 2 ^ (bs.length + 1)).toNat) % 2 = 1 ↔ idx % 2 > 0 := by
      have : (idx % 2 ^ (bs.length + 1)) % 2 = idx % 2 := by
        exact Int.emod_emod_of_dvd idx (by rw [pow_succ]; exact Int.dvd_mul_left _ _)
      have hnn : 0 ≤ idx % 2 ^ (bs.length + 1) := Int.emod_nonneg _ (by positivity)
      omega
    simp only [List.length_cons, List.map_cons, proofRoot, combined, e1, e2, e3, Sha256d, Sha256]
    congr 2
    by_cases hi : idx % 2 > 0
    · rw [if_pos hi, if_pos hi]; rfl
    · rw [if_neg hi, if_neg hi]; rfl

/-- `MerkleRootFromBranches` on hex arguments, in closed form, for every (also negative) index. -/
theorem merkleRootFromBranches_eq (H : HashFns) (tx : Bytes) (idx : Int) (bs : List Bytes) (ht : IsHex tx) (hx : ∀ b ∈ bs, IsHex b) :
    MerkleRootFromBranches H tx idx bs = if idx / 2 ^ bs.length > 0 then .err "index out of range for proof"
      else .ok (display (proofRoot (dsha H) (internal tx) (idx % 2 ^ bs.length).toNat (bs.map internal))) := by
  unfold MerkleRootFromBranches
  rw [hexDecodeRes_isHex ht, Res.ok_bind]
  simp only
  rw [merkleLoop_eq H bs _ _ hx]
  simp only [Res.ok_bind, ReverseBytes_eq, Res.pure_eq]
  rfl

theorem internal_display (b : Bytes) : internal (display b) = b := by simp [internal, display]

/-- C53: for every list of hex txids and every position, the sibling path (in display order) proves the txid: the Merkle root is returned, in display order. -/
theorem C53_complete (H : HashFns) (txids : List Bytes) (hx : ∀ t ∈ txids, IsHex t) (k : Nat) (hk : k < txids.length) (path : List Bytes) (r : Bytes)
    (hp : IsPath (dsha H) (txids.map internal) k path r) :
    MerkleRootFromBranches H txids[k] k (path.map display) = .ok (display r) ∧ IsRoot (dsha H) (txids.map internal) r := by
  refine ⟨?_, path_root hp⟩
  rw [merkleRootFromBranches_eq H _ _ _ (hx _ (List.getElem_mem hk)) (by
    intro b hb
    obtain ⟨c, _, rfl⟩ := List.mem_map.mp hb
    exact isHex_encode _)]
  obtain ⟨hpow, -⟩ := path_pow hp
  have hlen : (path.map display).length = path.length := by simp
  have h0 : ¬ ((k : Int) / 2 ^ (path.map display).length > 0) := by
    rw [hlen, Int.ediv_eq_zero_of_lt (by omega) (by exact_mod_cast hpow)]; omega
  rw [if_neg h0, hlen]
  have h1 : ((k : Int) % 2 ^ path.length).toNat = k := by
    rw [Int.emod_eq_of_lt (by omega) (by exact_mod_cast hpow)]; simp
  rw [h1]
  have h2 : (path.map display).map internal = path := by
    rw [List.map_map]
    conv_rhs => rw [← List.map_id path]
    apply List.map_congr_left
    intro b _
    exact internal_display b
  rw [h2]
  have h3 : (txids.map internal).getD k [] = internal txids[k] := by
    rw [getD_lt _ _ (by simpa using hk)]; simp
  rw [← h3, path_proofRoot hp]

/-- C53: such a path exists at every position, so every txid of every list can be proved. -/
theorem C53_path_exists (H : HashFns) (txids : List Bytes) (k : Nat) (hk : k < txids.length) :
    ∃ path r, IsPath (dsha H) (txids.map internal) k path r ∧ path.length = Nat.clog 2 txids.length := by
  obtain ⟨path, r, h⟩ := path_exists (dsha H) (txids.map internal) k (by simpa using hk)
  exact ⟨path, r, h, by simpa using (path_pow h).2⟩

theorem walk_path (H : HashFns) (fuel : Nat) : ∀ (x : Bytes) (hs : List Bytes), hs.length + 1 ≤ fuel → ∀ r, IsRoot (dsha H) ((x :: hs).map hexDecodeIgnore) r →
    IsPath (dsha H) ((x :: hs).map hexDecodeIgnore) 0 ((walkBranch H fuel (x :: hs)).map hexDecodeIgnore) r := by
  induction fuel with
  | zero => intro x hs h; omega
  | succ fuel ih =>
    intro x hs hl r hr
    rcases hs with _ | ⟨y, hs⟩
    · cases hr with
      | single => exact .leaf _
      | step h _ => simp at h
    · cases hr with
      | step h hr =>
        rw [← pairUp_level] at hr
        have e : pairUp H (x :: y :: hs) = hexEncode (Sha256d H (hexDecodeIgnore x ++ hexDecodeIgnore y)) :: pairUp H hs := rfl
        have hle : (pairUp H hs).length + 1 ≤ fuel := by
          rw [pairUp_length]; simp only [List.length_cons] at hl; omega
        rw [e] at hr
        have := ih _ (pairUp H hs) hle r hr
        rw [← e, pairUp_level] at this
        exact IsPath.node (bs := (walkBranch H fuel (pairUp H (x :: y :: hs))).map hexDecodeIgnore) (by simp) (by simp) this

/-- C53, position 0 with the library's own branches: `GetMerkleBranches` (whose results are in internal order) reversed into display order is the path of the
coinbase. -/
theorem C53_coinbase (H : HashFns) (cb : Bytes) (txids : List Bytes) (hx : ∀ t ∈ cb :: txids, IsHex t) (r : Bytes)
    (hr : IsRoot (dsha H) ((cb :: txids).map internal) r) :
    MerkleRootFromBranches H cb 0 ((GetMerkleBranches H (cb :: txids)).map fun b => display (hexDecodeIgnore b)) = .ok (display r) := by
  have e : (ReverseHexString cb :: txids.map ReverseHexString).map hexDecodeIgnore = (cb :: txids).map internal := by
    rw [← List.map_cons, List.map_map]
    apply List.map_congr_left
    intro t ht
    exact reverseHex_decode (hx t ht)
  have h := walk_path H ((txids.map ReverseHexString).length + 1) (ReverseHexString cb) (txids.map ReverseHexString) (Nat.le_refl _) r (by rw [e]; exact hr)
  rw [e] at h
  have := (C53_complete H (cb :: txids) hx 0 (by simp) _ r h).1
  rw [List.map_map] at this
  exact this

/-! ## C54 -/

theorem proof_sound (d : Bytes → Bytes) : ∀ (bs bs' : List Bytes) (h h' : Bytes) (k : Nat), bs.length = bs'.length →
    (∀ b, (d b).length = 32) → h.length = 32 → h'.length = 32 → (∀ b ∈ bs, b.length = 32) → (∀ b ∈ bs', b.length = 32) →
    proofRoot d h k bs = proofRoot d h' k bs' →
    (h = h' ∧ bs = bs') ∨ ∃ a ∈ proofStrings d h k bs, ∃ b ∈ proofStrings d h' k bs', a ≠ b ∧ d a = d b := by
  intro bs
  induction bs with
  | nil =>
    intro bs' h h' k hl _ _ _ _ _ e
    have : bs' = [] := List.length_eq_zero_iff.mp (by simpa using hl.symm)
    subst this
    exact Or.inl ⟨e, rfl⟩
  | cons b bs ih =>
    intro bs' h h' k hl hd hh hh' hb hb' e
    rcases bs' with _ | ⟨b', bs'⟩
    · simp at hl
    simp only [proofRoot] at e
    simp only [List.length_cons, Nat.add_right_cancel_iff] at hl
    rcases ih bs' _ _ _ hl hd (hd _) (hd _) (fun c hc => hb c (by simp [hc])) (fun c hc => hb' c (by simp [hc])) e with ⟨e1, e2⟩ | ⟨a, ha, c, hc, hne, heq⟩
    · by_cases hcmb : combined h k b = combined h' k b'
      · left
        have hbl := hb b (by simp)
        have hbl' := hb' b' (by simp)
        unfold combined at hcmb
        split_ifs at hcmb
        · obtain ⟨x, y⟩ := List.append_inj hcmb (by rw [hbl, hbl'])
          exact ⟨y, by rw [x, e2]⟩
        · obtain ⟨x, y⟩ := List.append_inj hcmb (by rw [hh, hh'])
          exact ⟨x, by rw [y, e2]⟩
      · right
        exact ⟨_, by simp [proofStrings], _, by simp [proofStrings], hcmb, e1⟩
    · right
      exact ⟨a, by simp [proofStrings, ha], c, by simp [proofStrings, hc], hne, heq⟩

theorem internal_inj {s t : Bytes} (hs : IsHex s) (ht : IsHex t) (h : internal s = internal t) : s.map lowerChar = t.map lowerChar := by
  rw [← hexEncode_decode hs, ← hexEncode_decode ht, List.reverse_injective h]

theorem internal_length {s : Bytes} (h : IsTxId s) : (internal s).length = 32 := by
  obtain ⟨hh, hl⟩ := isTxId_iff.mp h
  have := hexDecodeIgnore_length hh
  simp [internal]; omega

/-- C54: two proofs of the same length for the same position that give the same root prove the same txid with the same branches (up to the case of hex
letters), unless two different strings hashed on the way have the same double SHA256. -/
theorem C54_sound (H : HashFns) (tx tx' : Bytes) (idx : Int) (bs bs' : List Bytes) (root : Bytes) (hl : bs.length = bs'.length)
    (ht : IsTxId tx) (ht' : IsTxId tx') (hb : ∀ b ∈ bs, IsTxId b) (hb' : ∀ b ∈ bs', IsTxId b)
    (h : MerkleRootFromBranches H tx idx bs = .ok root) (h' : MerkleRootFromBranches H tx' idx bs' = .ok root) :
    (tx.map lowerChar = tx'.map lowerChar ∧ bs.map (·.map lowerChar) = bs'.map (·.map lowerChar)) ∨
    ∃ a ∈ proofStrings (dsha H) (internal tx) (idx % 2 ^ bs.length).toNat (bs.map internal),
      ∃ b ∈ proofStrings (dsha H) (internal tx') (idx % 2 ^ bs.length).toNat (bs'.map internal), a ≠ b ∧ dsha H a = dsha H b := by
  have hexs : ∀ {s : Bytes}, IsTxId s → IsHex s := fun h => (isTxId_iff.mp h).1
  rw [merkleRootFromBranches_eq H _ _ _ (hexs ht) (fun b hm => hexs (hb b hm))] at h
  rw [merkleRootFromBranches_eq H _ _ _ (hexs ht') (fun b hm => hexs (hb' b hm)), ← hl] at h'
  split_ifs at h with hc
  rw [if_neg hc] at h'
  injection h with h
  injection h' with h'
  have e := List.reverse_injective (hexEncode_inj (h.trans h'.symm))
  rcases proof_sound (dsha H) (bs.map internal) (bs'.map internal) _ _ _ (by simpa using hl) (fun b => H.sha256_length _) (internal_length ht) (internal_length ht')
    (by intro b hm; obtain ⟨c, hc, rfl⟩ := List.mem_map.mp hm; exact internal_length (hb c hc))
    (by intro b hm; obtain ⟨c, hc, rfl⟩ := List.mem_map.mp hm; exact internal_length (hb' c hc)) e with ⟨e1, e2⟩ | hcol
  · left
    refine ⟨internal_inj (hexs ht) (hexs ht') e1, ?_⟩
    apply List.ext_getElem (by simpa using hl)
    intro n h1 h2
    simp only [List.length_map] at h1 h2
    have := congrArg (·[n]?) e2
    simp only [List.getElem?_map, List.getElem?_eq_getElem h1, List.getElem?_eq_getElem h2, Option.map_some, Option.some.injEq] at this
    simp only [List.getElem_map]
    exact internal_inj (hexs (hb _ (List.getElem_mem h1))) (hexs (hb' _ (List.getElem_mem h2))) this
  · exact Or.inr hcol

example : IsTxId (List.replicate 64 97) ∧ ∃ r, MerkleRootFromBranches toyH (List.replicate 64 97) 1 [List.replicate 64 98] = .ok r :=
  ⟨by simp only [IsTxId]; decide +kernel, _, rfl⟩

/-! ## C55 -/

theorem merkleLoop_bad (H : HashFns) : ∀ (bs : List Bytes) (h : Bytes) (idx : Int), (∃ b ∈ bs, ¬ IsHex b) → (merkleLoop H h idx bs).isErr := by
  intro bs
  induction bs with
  | nil => rintro h idx ⟨b, hb, _⟩; cases hb
  | cons b bs ih =>
    intro h idx hex
    simp only [merkleLoop]
    by_cases hb : IsHex b
    · rw [hexDecodeRes_isHex hb, Res.ok_bind]
      apply ih
      obtain ⟨c, hc, hn⟩ := hex
      rcases List.mem_cons.mp hc with rfl | hc
      · exact absurd hb hn
      · exact ⟨c, hc, hn⟩
    · obtain ⟨e, he⟩ := hexDecodeRes_not_isHex hb
      rw [he]; rfl

/-- C55, exact error domain: an error exactly when a string is not hex or the index is at least 2^(number of branches); never a panic. A negative index is
accepted and treated as its residue. -/
theorem C55_error_iff (H : HashFns) (tx : Bytes) (idx : Int) (bs : List Bytes) :
    ((MerkleRootFromBranches H tx idx bs).isErr ↔ ¬ IsHex tx ∨ (∃ b ∈ bs, ¬ IsHex b) ∨ 2 ^ bs.length ≤ idx) ∧
    MerkleRootFromBranches H tx idx bs ≠ .panic ∧
    (idx < 0 → MerkleRootFromBranches H tx idx bs = MerkleRootFromBranches H tx (idx % 2 ^ bs.length) bs) := by
  have hpos : (0 : Int) < 2 ^ bs.length := by positivity
  by_cases ht : IsHex tx
  · by_cases hx : ∀ b ∈ bs, IsHex b
    · have hne : ¬ ∃ b ∈ bs, ¬ IsHex b := by push Not; exact hx
      have hdiv : idx / 2 ^ bs.length > 0 ↔ 2 ^ bs.length ≤ idx := by
        rw [gt_iff_lt, ← Int.add_one_le_iff, zero_add, Int.le_ediv_iff_mul_le hpos, one_mul]
      refine ⟨?_, ?_, ?_⟩
      · rw [merkleRootFromBranches_eq H tx idx bs ht hx]
        by_cases hc : idx / 2 ^ bs.length > 0
        · rw [if_pos hc]; simp [hdiv.mp hc]
        · rw [if_neg hc]; simp only [Res.isErr_ok, Bool.false_eq_true, false_iff, not_or]
          exact ⟨fun h => h ht, hne, fun h => hc (hdiv.mpr h)⟩
      · rw [merkleRootFromBranches_eq H tx idx bs ht hx]
        split_ifs <;> simp
      · intro hneg
        rw [merkleRootFromBranches_eq H tx idx bs ht hx, merkleRootFromBranches_eq H tx _ bs ht hx]
        rw [if_neg (by rw [hdiv]; omega), if_neg, Int.emod_emod]
        rw [Int.ediv_eq_zero_of_lt (Int.emod_nonneg _ (by omega)) (Int.emod_lt_of_pos _ hpos)]
        omega
    · push Not at hx
      have hb : ∀ i, (MerkleRootFromBranches H tx i bs).isErr ∧ ∃ e, MerkleRootFromBranches H tx i bs = .err e := by
        intro i
        have := merkleLoop_bad H bs (ReverseBytes (hexDecodeIgnore tx)) i hx
        unfold MerkleRootFromBranches
        rw [hexDecodeRes_isHex ht, Res.ok_bind]
        simp only
        rcases hm : merkleLoop H (ReverseBytes (hexDecodeIgnore tx)) i bs with r | e | _ <;> rw [hm] at this
        · cases this
        · exact ⟨rfl, e, rfl⟩
        · cases this
      refine ⟨iff_of_true (hb idx).1 (Or.inr (Or.inl hx)), ?_, ?_⟩
      · obtain ⟨e, he⟩ := (hb idx).2
        rw [he]; simp
      · intro _
        have hsame : ∀ (l : List Bytes) (g g' : Bytes) (i j : Int), (∃ b ∈ l, ¬ IsHex b) → merkleLoop H g i l = merkleLoop H g' j l := by
          intro l
          induction l with
          | nil => rintro _ _ _ _ ⟨b, hb, _⟩; cases hb
          | cons b l ih =>
            intro g g' i j hex
            simp only [merkleLoop]
            by_cases hbx : IsHex b
            · rw [hexDecodeRes_isHex hbx, Res.ok_bind, Res.ok_bind]
              apply ih
              obtain ⟨c, hc, hn⟩ := hex
              rcases List.mem_cons.mp hc with rfl | hc
              · exact absurd hbx hn
              · exact ⟨c, hc, hn⟩
            · obtain ⟨e, he⟩ := hexDecodeRes_not_isHex hbx
              rw [he]; rfl
        unfold MerkleRootFromBranches
        rw [hexDecodeRes_isHex ht, Res.ok_bind, Res.ok_bind]
        simp only
        rw [hsame bs _ _ idx (idx % 2 ^ bs.length) hx]
  · obtain ⟨e, he⟩ := hexDecodeRes_not_isHex ht
    have hb : ∀ i, MerkleRootFromBranches H tx i bs = .err e := by
      intro i; unfold MerkleRootFromBranches; rw [he]; rfl
    refine ⟨by rw [hb]; simp [ht], by rw [hb]; simp, fun _ => by rw [hb, hb]⟩

/-- C55, the part that holds: for non-negative indices. Missing: negative indices, which are accepted, see `C55_violation`. -/
theorem C55_range_on_domain (H : HashFns) (tx : Bytes) (idx : Int) (bs : List Bytes) (h0 : 0 ≤ idx) :
    (MerkleRootFromBranches H tx idx bs).isErr ↔ ¬ IsHex tx ∨ (∃ b ∈ bs, ¬ IsHex b) ∨ ¬ (0 ≤ idx ∧ idx < 2 ^ bs.length) := by
  rw [(C55_error_iff H tx idx bs).1]
  have : (¬ (0 ≤ idx ∧ idx < 2 ^ bs.length)) ↔ 2 ^ bs.length ≤ idx := by
    constructor
    · intro h; by_contra hc; exact h ⟨h0, by omega⟩
    · intro h hc; omega
  rw [this]

/-- C55 is violated: the negative index -1 is accepted for every hex txid and branches. -/
theorem C55_violation (H : HashFns) (tx : Bytes) (bs : List Bytes) (ht : IsHex tx) (hx : ∀ b ∈ bs, IsHex b) :
    (MerkleRootFromBranches H tx (-1) bs).isOk := by
  rw [merkleRootFromBranches_eq H tx _ bs ht hx, if_neg]
  · rfl
  · have hpos : (0 : Int) < 2 ^ bs.length := by positivity
    rw [gt_iff_lt, ← Int.add_one_le_iff, zero_add, Int.le_ediv_iff_mul_le hpos, one_mul]; omega

example : IsHex (List.replicate 64 97) := by simp only [IsHex]; decide +kernel

end Verif.Props
