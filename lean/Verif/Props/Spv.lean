import Verif.Props.Merkle
import Verif.Props.Header
import Verif.Props.Tx
/-!
# C125: what a Merkle proof shows to a client that has only the header
-/
namespace Verif.Props
open Verif Verif.Spec

theorem clog_half {n : Nat} (h : 2 ≤ n) : Nat.clog 2 n = Nat.clog 2 ((n + 1) / 2) + 1 := by
  rw [Nat.clog_of_two_le (by omega) h]
  rfl

theorem level_32 (d : Bytes → Bytes) (hd : ∀ b, (d b).length = 32) (l : List Bytes) : ∀ x ∈ level d l, x.length = 32 := by
  intro x hx
  simp only [level, List.mem_map] at hx
  obtain ⟨i, _, rfl⟩ := hx
  exact hd _

theorem level_get (d : Bytes → Bytes) (l : List Bytes) (i : Nat) (h : i < (level d l).length) :
    (level d l)[i] = d (l.getD (2 * i) [] ++ l.getD (min (2 * i + 1) (l.length - 1)) []) := by
  simp only [level, List.getElem_map, List.getElem_range]

/-- A proof of the depth of the tree leads to a leaf. -/
theorem proof_leaf (d : Bytes → Bytes) (hd : ∀ b, (d b).length = 32) {l : List Bytes} {r : Bytes} (hr : IsRoot d l r) : ∀ (h : Bytes) (k : Nat) (bs : List Bytes), (∀ x ∈ l, x.length = 32) → h.length = 32 →
    (∀ b ∈ bs, b.length = 32) → bs.length = Nat.clog 2 l.length → k < 2 ^ bs.length → proofRoot d h k bs = r →
    (∃ j, ∃ hj : j < l.length, l[j] = h ∧ (k < l.length → j = k)) ∨ ∃ a ∈ proofStrings d h k bs, ∃ b, Hashed d l b ∧ a ≠ b ∧ d a = d b := by
  induction hr with
  | single x =>
    intro h k bs _ _ _ hlen hk hp
    have : bs = [] := by simpa using hlen
    subst this
    simp only [List.length_nil, pow_zero] at hk
    exact Or.inl ⟨0, by simp, by simpa [proofRoot] using hp.symm, fun _ => by omega⟩
  | @step l r h2 hr ih =>
    intro h k bs hl hh hb hlen hk hp
    rw [clog_half h2] at hlen
    cases bs with
    | nil => simp at hlen
    | cons b bs =>
      simp only [List.length_cons, Nat.add_right_cancel_iff] at hlen
      simp only [List.length_cons, pow_succ] at hk
      simp only [proofRoot] at hp
      have hbl : b.length = 32 := hb b (List.mem_cons_self ..)
      rcases ih (d (combined h k b)) (k / 2) bs (level_32 d hd l) (hd _) (fun x hx => hb x (List.mem_cons_of_mem _ hx)) (by rw [hlen, level_length]) (by omega) hp with ⟨j, hj, e, hpos⟩ | ⟨a, ha, c, hc, hne, heq⟩
      · rw [level_get] at e
        rw [level_length] at hj hpos
        by_cases hs : l.getD (2 * j) [] ++ l.getD (min (2 * j + 1) (l.length - 1)) [] = combined h k b
        · left
          have l1 : (l.getD (2 * j) []).length = 32 := by rw [getD_lt _ _ (by omega)]; exact hl _ (List.getElem_mem _)
          by_cases hp2 : k % 2 = 1
          · rw [combined, if_pos hp2] at hs
            obtain ⟨-, e2⟩ := List.append_inj hs (by rw [l1, hbl])
            rw [getD_lt _ _ (by omega)] at e2
            exact ⟨min (2 * j + 1) (l.length - 1), by omega, e2, fun hk' => by have := hpos (by omega); omega⟩
          · rw [combined, if_neg hp2] at hs
            obtain ⟨e1, -⟩ := List.append_inj hs (by rw [l1, hh])
            rw [getD_lt _ _ (by omega)] at e1
            exact ⟨2 * j, by omega, e1, fun hk' => by have := hpos (by omega); omega⟩
        · right
          exact ⟨combined h k b, by simp [proofStrings], _, .here j h2 (by omega), Ne.symm hs, e.symm⟩
      · right
        exact ⟨a, by simp [proofStrings, ha], c, .above h2 hc, hne, heq⟩

theorem path_32 (d : Bytes → Bytes) (hd : ∀ b, (d b).length = 32) {l path : List Bytes} {k : Nat} {r : Bytes} (h : IsPath d l k path r) (all : ∀ y ∈ l, y.length = 32) : ∀ x ∈ path, x.length = 32 := by
  induction h with
  | leaf x => simp
  | @node l bs k r h2 hk _ ih =>
    intro x hx
    rcases List.mem_cons.mp hx with rfl | hx
    · unfold sibling
      split_ifs
      · rw [getD_lt _ _ (by omega)]; exact all _ (List.getElem_mem _)
      · rw [getD_lt _ _ (by omega)]; exact all _ (List.getElem_mem _)
    · exact ih (level_32 d hd _) x hx

/-- C125 (a): the root of a list of txids, a txid, an index and as many branches as the tree has levels: if `MerkleRootFromBranches` answers with the root, then the txid is in the list (up to the case of hex letters), at the position of the index
if there is such a position; unless a string hashed in the proof and a different string hashed in the tree have the same double SHA256. -/
theorem C125_member (H : HashFns) (txids : List Bytes) (hx : ∀ t ∈ txids, IsTxId t) (r : Bytes) (hr : IsRoot (dsha H) (txids.map internal) r) (tx : Bytes) (ht : IsTxId tx) (idx : Int) (bs : List Bytes)
    (hb : ∀ b ∈ bs, IsTxId b) (hlen : bs.length = Nat.clog 2 txids.length) (h : MerkleRootFromBranches H tx idx bs = .ok (display r)) :
    (∃ (j : Nat) (hj : j < txids.length), txids[j].map lowerChar = tx.map lowerChar ∧ ((idx % 2 ^ bs.length).toNat < txids.length → j = (idx % 2 ^ bs.length).toNat)) ∨
    ∃ a ∈ proofStrings (dsha H) (internal tx) (idx % 2 ^ bs.length).toNat (bs.map internal), ∃ b, Hashed (dsha H) (txids.map internal) b ∧ a ≠ b ∧ dsha H a = dsha H b := by
  have hexs : ∀ {s : Bytes}, IsTxId s → IsHex s := fun h => (isTxId_iff.mp h).1
  rw [merkleRootFromBranches_eq H _ _ _ (hexs ht) (fun b hm => hexs (hb b hm))] at h
  split_ifs at h with hc
  injection h with h
  have e := List.reverse_injective (hexEncode_inj h)
  have hk : (idx % 2 ^ bs.length).toNat < 2 ^ (bs.map internal).length := by
    rw [List.length_map]
    have h1 := Int.emod_nonneg idx (show (2 : Int) ^ bs.length ≠ 0 by positivity)
    have h2 := Int.emod_lt_of_pos idx (show (0 : Int) < 2 ^ bs.length by positivity)
    have h3 : (((2 : Nat) ^ bs.length : Nat) : Int) = (2 : Int) ^ bs.length := by norm_num
    omega
  rcases proof_leaf (dsha H) (fun b => H.sha256_length _) hr (internal tx) _ (bs.map internal) (by
      intro x hm; obtain ⟨c, hc, rfl⟩ := List.mem_map.mp hm; exact internal_length (hx c hc)) (internal_length ht) (by
      intro x hm; obtain ⟨c, hc, rfl⟩ := List.mem_map.mp hm; exact internal_length (hb c hc)) (by simpa using hlen) hk e with ⟨j, hj, e1, hpos⟩ | hcol
  · left
    simp only [List.length_map] at hj hpos
    rw [List.getElem_map] at e1
    exact ⟨j, hj, internal_inj (hexs (hx _ (List.getElem_mem hj))) (hexs ht) e1, hpos⟩
  · exact Or.inr hcol

/-- C125 (b): a client with nothing but the 80 bytes of a header. If the header was built from a coinbase and other txids, the client compares with the root at bytes 36 to 67: every txid of the block has a proof with which
`MerkleRootFromBranches` answers so, and a txid with such a proof (with as many branches as the tree has levels) is in the block, unless there is a collision. -/
theorem C125_header (H : HashFns) (cb : Bytes) (txids : List Bytes) (hx : ∀ t ∈ cb :: txids, IsTxId t) (version : UInt32) (prev time bits nonce : Bytes) (hp : IsTxId prev) (htime : time.length = 4) (hbits : bits.length = 4)
    (hn : nonce.length = 4) :
    let header := BuildBlockHeader version prev (BuildMerkleRootFromCoinbase H (internal cb) (GetMerkleBranches H (cb :: txids))) time bits nonce
    let root := hexEncode ((header.drop 36).take 32).reverse
    (∀ t ∈ cb :: txids, ∃ (k : Nat) (bs : List Bytes), bs.length = Nat.clog 2 (cb :: txids).length ∧ (∀ b ∈ bs, IsTxId b) ∧ MerkleRootFromBranches H t k bs = .ok root) ∧
    ∀ t, IsTxId t → ∀ (idx : Int) (bs : List Bytes), bs.length = Nat.clog 2 (cb :: txids).length → (∀ b ∈ bs, IsTxId b) → MerkleRootFromBranches H t idx bs = .ok root →
      (∃ t' ∈ cb :: txids, t'.map lowerChar = t.map lowerChar) ∨
      ∃ a ∈ proofStrings (dsha H) (internal t) (idx % 2 ^ bs.length).toNat (bs.map internal), ∃ b, Hashed (dsha H) ((cb :: txids).map internal) b ∧ a ≠ b ∧ dsha H a = dsha H b := by
  intro header root
  have hexs : ∀ {s : Bytes}, IsTxId s → IsHex s := fun h => (isTxId_iff.mp h).1
  have hr := C51_root H cb txids (fun t ht => hexs (hx t ht))
  have hlen : (BuildMerkleRootFromCoinbase H (internal cb) (GetMerkleBranches H (cb :: txids))).length = 32 := by
    have := hr
    cases hm : (cb :: txids).map internal with
    | nil => simp at hm
    | cons x xs =>
      rw [hm] at this
      have all : ∀ y ∈ x :: xs, y.length = 32 := by
        intro y hy; rw [← hm] at hy; obtain ⟨c, hc, rfl⟩ := List.mem_map.mp hy; exact internal_length (hx c hc)
      clear hm hr
      generalize hl : x :: xs = l at this all
      clear hl
      generalize BuildMerkleRootFromCoinbase H (internal cb) (GetMerkleBranches H (cb :: txids)) = r at this
      induction this with
      | single x => exact all x (by simp)
      | step _ _ ih => exact ih (level_32 _ (fun b => H.sha256_length _) _)
  have e : root = display (BuildMerkleRootFromCoinbase H (internal cb) (GetMerkleBranches H (cb :: txids))) := by
    have := (C58_layout version prev _ time bits nonce hp hlen htime hbits hn).2.2.2.1
    show hexEncode ((header.drop 36).take 32).reverse = _
    rw [show header = BuildBlockHeader version prev _ time bits nonce from rfl, this]
    rfl
  rw [e]
  refine ⟨?_, ?_⟩
  · intro t ht
    obtain ⟨k, hk, rfl⟩ := List.getElem_of_mem ht
    obtain ⟨path, r, h1, h2⟩ := C53_path_exists H (cb :: txids) k hk
    obtain ⟨h3, h4⟩ := C53_complete H (cb :: txids) (fun t ht => hexs (hx t ht)) k hk path r h1
    refine ⟨k, path.map display, by simpa using h2, ?_, by rw [h3, root_unique h4 hr]⟩
    have hpath := path_32 (dsha H) (fun b => H.sha256_length _) h1 (by
      intro y hy; obtain ⟨c, hc, rfl⟩ := List.mem_map.mp hy; exact internal_length (hx c hc))
    intro b hb
    obtain ⟨c, hc, rfl⟩ := List.mem_map.mp hb
    refine isTxId_iff.mpr ⟨isHex_encode _, ?_⟩
    simp [display, hpath c hc]
  · intro t ht idx bs hl hb h
    rcases C125_member H (cb :: txids) hx _ hr t ht idx bs hb hl h with ⟨j, hj, e1, -⟩ | hcol
    · exact Or.inl ⟨_, List.getElem_mem hj, e1⟩
    · exact Or.inr hcol

/-! ## What a proof does not show -/

theorem accepts_eq (H : HashFns) (tx : Bytes) (ht : IsHex tx) (k : Nat) (bs : List Bytes) (hb : ∀ b ∈ bs, IsHex b) (hk : k < 2 ^ bs.length) :
    MerkleRootFromBranches H tx k bs = .ok (display (proofRoot (dsha H) (internal tx) k (bs.map internal))) := by
  rw [merkleRootFromBranches_eq H _ _ _ ht hb]
  have h0 : ¬ ((k : Int) / 2 ^ bs.length > 0) := by
    rw [Int.ediv_eq_zero_of_lt (by omega) (by exact_mod_cast hk)]; omega
  rw [if_neg h0]
  have h1 : ((k : Int) % 2 ^ bs.length).toNat = k := by
    rw [Int.emod_eq_of_lt (by omega) (by exact_mod_cast hk)]; simp
  rw [h1]

/-- C125 (c), deviation: the number of branches is not checked. Whatever proof is accepted, the node above its txid is accepted as a txid, too, with the rest of the branches: the hash of two txids passes for a transaction of the block. -/
theorem C125_inner_node (H : HashFns) (tx b : Bytes) (ht : IsHex tx) (hb : IsHex b) (bs : List Bytes) (hbs : ∀ b ∈ bs, IsHex b) (k : Nat) (hk : k < 2 ^ (bs.length + 1)) :
    MerkleRootFromBranches H (display (dsha H (combined (internal tx) k (internal b)))) (k / 2 : Nat) bs = MerkleRootFromBranches H tx k (b :: bs) := by
  rw [accepts_eq H (display (dsha H (combined (internal tx) k (internal b)))) (isHex_encode _) _ _ hbs (by rw [pow_succ] at hk; omega), accepts_eq H tx ht k (b :: bs) (by
    intro c hc
    rcases List.mem_cons.mp hc with rfl | hc
    · exact hb
    · exact hbs c hc) (by simpa using hk), internal_display]
  rfl

/-- C125 (d), deviation: the two halves of a transaction of 64 bytes pass for txids. For every transaction that is written as 64 bytes and every accepted proof of its id, the first half of its bytes, taken for a txid, is accepted with one branch more,
the second half; and so is the second half. -/
theorem C125_half_transaction (H : HashFns) (T : Transaction) (h64 : T.ToBytes.length = 64) (bs : List Bytes) (hbs : ∀ b ∈ bs, IsHex b) (k : Nat) (hk : k < 2 ^ bs.length) :
    MerkleRootFromBranches H (display (T.ToBytes.take 32)) (2 * k : Nat) (display (T.ToBytes.drop 32) :: bs) = MerkleRootFromBranches H (T.GetTxID H) k bs ∧
    MerkleRootFromBranches H (display (T.ToBytes.drop 32)) (2 * k + 1 : Nat) (display (T.ToBytes.take 32) :: bs) = MerkleRootFromBranches H (T.GetTxID H) k bs ∧
    IsTxId (display (T.ToBytes.take 32)) ∧ IsTxId (display (T.ToBytes.drop 32)) := by
  have hid : T.GetTxID H = display (dsha H T.ToBytes) := (C38_txid_form H T).1
  have hcat : T.ToBytes.take 32 ++ T.ToBytes.drop 32 = T.ToBytes := List.take_append_drop ..
  have hk2 : ∀ j, j < 2 → 2 * k + j < 2 ^ (bs.length + 1) := fun j hj => by rw [pow_succ]; omega
  have a1 := C125_inner_node H (display (T.ToBytes.take 32)) (display (T.ToBytes.drop 32)) (isHex_encode _) (isHex_encode _) bs hbs (2 * k) (hk2 0 (by omega))
  have a2 := C125_inner_node H (display (T.ToBytes.drop 32)) (display (T.ToBytes.take 32)) (isHex_encode _) (isHex_encode _) bs hbs (2 * k + 1) (hk2 1 (by omega))
  rw [internal_display, internal_display, combined, if_neg (by omega), hcat, ← hid, show 2 * k / 2 = k by omega] at a1
  rw [internal_display, internal_display, combined, if_pos (by omega), hcat, ← hid, show (2 * k + 1) / 2 = k by omega] at a2
  refine ⟨a1.symm, a2.symm, isTxId_iff.mpr ⟨isHex_encode _, ?_⟩, isTxId_iff.mpr ⟨isHex_encode _, ?_⟩⟩
  · simp [display, h64]
  · simp [display, h64]

/-- C125 (e), deviation: positions behind the end. In a list of an odd number (at least three) of txids the last one is also proved for the position after it, where there is none. -/
theorem C125_position_behind (H : HashFns) (txids : List Bytes) (last : Bytes) (hx : ∀ t ∈ txids ++ [last], IsHex t) (heven : txids.length % 2 = 0) (hne : txids ≠ []) (r : Bytes)
    (hr : IsRoot (dsha H) ((txids ++ [last]).map internal) r) :
    ∃ bs : List Bytes, bs.length = Nat.clog 2 (txids ++ [last]).length ∧ MerkleRootFromBranches H last ((txids ++ [last]).length : Nat) bs = .ok (display r) := by
  have hpos : 0 < txids.length := List.length_pos_iff.mpr hne
  obtain ⟨path, r', h1, h2⟩ := C53_path_exists H (txids ++ [last]) txids.length (by simp)
  obtain rfl := root_unique (path_root h1) hr
  have h4 := path_proofRoot h1
  have hpow := (path_pow h1).1
  have hlast : ((txids ++ [last]).map internal).getD txids.length [] = internal last := by
    rw [getD_lt _ _ (by simp)]; simp
  have hsecond : ∃ ps, path = internal last :: ps := by
    generalize hL : (txids ++ [last]).map internal = L at h1 hlast
    have hlen : L.length = txids.length + 1 := by rw [← hL]; simp
    generalize txids.length = k at *
    cases h1 with
    | leaf x => omega
    | @node _ bs _ _ h2 hk' hp =>
      refine ⟨bs, ?_⟩
      congr 1
      unfold sibling
      rw [if_neg (by omega), hlen, show min (k + 1) (k + 1 - 1) = k by omega]
      exact hlast
  obtain ⟨ps, rfl⟩ := hsecond
  refine ⟨(internal last :: ps).map display, by simpa using h2, ?_⟩
  have hlen : (txids ++ [last]).length = txids.length + 1 := by simp
  rw [hlen]
  have hlt : txids.length + 1 < 2 ^ ((internal last :: ps).map display).length := by
    simp only [List.map_cons, List.length_cons, List.length_map, pow_succ] at hpow ⊢
    omega
  rw [accepts_eq H _ (hx last (by simp)) _ _ (by
    intro b hb
    obtain ⟨c, _, rfl⟩ := List.mem_map.mp hb
    exact isHex_encode _) hlt]
  have h5 : ((internal last :: ps).map display).map internal = internal last :: ps := by
    rw [List.map_map]
    conv_rhs => rw [← List.map_id (internal last :: ps)]
    apply List.map_congr_left
    intro b _
    exact internal_display b
  rw [h5]
  rw [hlast] at h4
  simp only [proofRoot, combined] at h4 ⊢
  rw [if_neg (by omega), show txids.length / 2 = (txids.length + 1) / 2 by omega] at h4
  rw [if_pos (by omega), h4]

/-! ## Examples -/

/-- A transaction of 64 bytes that the library parses: one input, one output of 7 satoshis to anybody. -/
def exTx64 : Transaction := ⟨1, [⟨List.replicate 64 97, 0, 0, none, some [0x51, 0x51], 0xffffffff⟩], [⟨7, [0x51, 0x51]⟩], 0⟩

/-- non-vacuity of C125_half_transaction -/
example : exTx64.ToBytes.length = 64 := by decide +kernel
example : (Transaction.NewFromBytes ⟨exTx64.ToBytes, []⟩).isOk = true := by decide +kernel

/-- non-vacuity of C125_member, C125_header and C125_position_behind: three txids -/
def exIds : List Bytes := [List.replicate 64 97, List.replicate 64 98, List.replicate 64 99]

example : (∀ t ∈ exIds, IsTxId t) ∧ exIds = exIds.take 2 ++ [List.replicate 64 99] ∧ Nat.clog 2 exIds.length = 2 :=
  ⟨by simp only [exIds, IsTxId]; decide +kernel, rfl, by decide⟩

example : ∃ r, IsRoot (dsha toyH) (exIds.map internal) r := root_exists _ _ (by decide)

end Verif.Props
