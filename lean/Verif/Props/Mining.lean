import Verif.Props.Coinbase
import Verif.Props.Header
import Verif.Props.MerkleList
import Verif.Props.Tx
import Verif.Props.Spend
/-!
# C75: from a template to a block header

The miner's flow through the API: the two coinbase parts, the branches of the template, the assembled coinbase, the Merkle root, the header.
-/
namespace Verif.Props
open Verif Spec Transaction

/-- The header a miner builds from an assembled coinbase and the other transactions of the block. `old` is the first entry of the template for which the branches were
computed (the coinbase is not known then, so it can be anything). -/
def minedHeader (H : HashFns) (version : UInt32) (prev time bits nonce old coinbase : Bytes) (txs : List Transaction) : Bytes :=
  BuildBlockHeader version prev
    (BuildMerkleRootFromCoinbase H (Sha256d H coinbase) (GetMerkleBranches H (old :: txs.map (GetTxID H)))) time bits nonce

/-- `x` is one of the strings that are hashed for a block: a serialised transaction or a pair of tree nodes. -/
def BlockString (H : HashFns) (block : List Transaction) (x : Bytes) : Prop :=
  (∃ t ∈ block, x = t.ToBytes) ∨ Hashed (fun b => H.sha256 (H.sha256 b)) (block.map fun t => H.sha256 (H.sha256 t.ToBytes)) x

theorem internal_txid (H : HashFns) (tx : Transaction) : internal (tx.GetTxID H) = H.sha256 (H.sha256 tx.ToBytes) := by
  rw [(C38_txid_form H tx).1]; simp [internal]

theorem txid_isTxId (H : HashFns) (tx : Transaction) : IsTxId (tx.GetTxID H) := by
  obtain ⟨-, h1, h2⟩ := C38_txid_form H tx
  exact ⟨h1, fun c hc => by rcases h2 c hc with h | h; exacts [.inl h, .inr (.inl h)]⟩

theorem root_length {d : Bytes → Bytes} (hd : ∀ b, (d b).length = 32) {l : List Bytes} {r : Bytes} (hr : IsRoot d l r) (hl : ∀ x ∈ l, x.length = 32) : r.length = 32 := by
  induction hr with
  | single x => exact hl x (by simp)
  | step _ _ ih =>
    apply ih
    intro x hx
    simp only [level, List.mem_map] at hx
    obtain ⟨i, _, rfl⟩ := hx
    exact hd _

/-- C75 (a): for a payable wallet, a hex commitment and extra nonces of 12 bytes together: the coinbase parts are produced, the assembled coinbase parses to the coinbase
transaction of the given height, value, text and wallet, and the 80-byte header built from it and any other transactions carries, in its Merkle field, the Merkle root of
the double SHA256 of the serialisations of the coinbase and those transactions, whatever the template had in first place. -/
theorem C75_header_of_block (H : HashFns) (height : UInt32) (value : UInt64) (wc text wallet minerID e1 e2 lock : Bytes) (hw : NewP2PKHFromAddress wallet = .ok lock)
    (hwc : IsHex wc) (hn : (hexDecodeIgnore e1).length + (hexDecodeIgnore e2).length = 12) (hsz : wc.length + minerID.length < 2 ^ 61)
    (version : UInt32) (prev time bits nonce old : Bytes) (hp : IsTxId prev) (ht : time.length = 4) (hb : bits.length = 4) (hnc : nonce.length = 4) (txs : List Transaction) :
    ∃ c1 c2 cb root, GetCoinbaseParts height value wc text wallet minerID = .ok (c1, c2) ∧
      Transaction.NewFromBytes (Slice.exact (BuildCoinbase c1 c2 e1 e2)) = .ok cb ∧ cb = coinbaseTx height value wc text lock minerID e1 e2 ∧ cb.IsCoinbase = true ∧
      (minedHeader H version prev time bits nonce old (BuildCoinbase c1 c2 e1 e2) txs).length = 80 ∧
      ((minedHeader H version prev time bits nonce old (BuildCoinbase c1 c2 e1 e2) txs).drop 36).take 32 = root ∧
      IsRoot (fun b => H.sha256 (H.sha256 b)) ((cb :: txs).map fun t => H.sha256 (H.sha256 t.ToBytes)) root := by
  obtain ⟨c1, c2, h1, h2, h3, h4⟩ := C59_coinbase height value wc text wallet minerID e1 e2 lock [] hw hwc hn (by simpa using hsz)
  have hroot := C51_root_any_coinbase H old (txs.map (GetTxID H)) (by
    intro t hm; obtain ⟨x, -, rfl⟩ := List.mem_map.mp hm; exact (isTxId_iff.mp (txid_isTxId H x)).1) (Sha256d H (BuildCoinbase c1 c2 e1 e2))
  have hmap : (Sha256d H (BuildCoinbase c1 c2 e1 e2)) :: (txs.map (GetTxID H)).map internal =
      (coinbaseTx height value wc text lock minerID e1 e2 :: txs).map fun t => H.sha256 (H.sha256 t.ToBytes) := by
    simp only [List.map_cons, List.map_map, h4]
    congr 1
    apply List.map_congr_left
    intro t _
    exact internal_txid H t
  rw [hmap] at hroot
  have hlen := root_length (d := dsha H) (fun b => H.sha256_length _) hroot (by
    intro x hx; obtain ⟨t, -, rfl⟩ := List.mem_map.mp hx; exact H.sha256_length _)
  obtain ⟨l1, -, -, l4, -⟩ := C58_layout version prev _ time bits nonce hp hlen ht hb hnc
  exact ⟨c1, c2, _, _, h1, h2, rfl, h3, l1, l4, hroot⟩

/-- C75 (b): the header commits to the whole block: two equal headers over equally many transactions with proper txids have the same version, previous hash, time, bits and
nonce and the same transactions (as on the wire), unless one of the strings hashed for the first block and a different one hashed for the second collide. The coinbase is given as a
transaction here (the assembled coinbase is its serialisation, by part (a)). -/
theorem C75_header_commits (H : HashFns) (v v' : UInt32) (p p' t t' b b' n n' old old' : Bytes) (cb cb' : Transaction) (txs txs' : List Transaction)
    (hp : IsTxId p) (hp' : IsTxId p') (ht : t.length = 4) (ht' : t'.length = 4) (hb : b.length = 4) (hb' : b'.length = 4) (hn : n.length = 4) (hn' : n'.length = 4)
    (hl : txs.length = txs'.length)
    (hid : ∀ x ∈ cb :: txs, (∀ i ∈ x.Inputs, IsTxId i.PreviousTxID) ∧ x.ToBytes.length < 2 ^ 62)
    (hid' : ∀ x ∈ cb' :: txs', (∀ i ∈ x.Inputs, IsTxId i.PreviousTxID) ∧ x.ToBytes.length < 2 ^ 62)
    (h : minedHeader H v p t b n old cb.ToBytes txs = minedHeader H v' p' t' b' n' old' cb'.ToBytes txs') :
    (v = v' ∧ p.map lowerChar = p'.map lowerChar ∧ t = t' ∧ b = b' ∧ n = n' ∧ (cb :: txs).map wireTx = (cb' :: txs').map wireTx) ∨
    ∃ x y : Bytes, BlockString H (cb :: txs) x ∧ BlockString H (cb' :: txs') y ∧ x ≠ y ∧ H.sha256 (H.sha256 x) = H.sha256 (H.sha256 y) := by
  have root : ∀ (cb : Transaction) (txs : List Transaction) (old : Bytes), IsRoot (dsha H) ((cb :: txs).map fun t => H.sha256 (H.sha256 t.ToBytes))
      (BuildMerkleRootFromCoinbase H (Sha256d H cb.ToBytes) (GetMerkleBranches H (old :: txs.map (GetTxID H)))) := by
    intro cb txs old
    have hroot := C51_root_any_coinbase H old (txs.map (GetTxID H)) (by
      intro t hm; obtain ⟨x, -, rfl⟩ := List.mem_map.mp hm; exact (isTxId_iff.mp (txid_isTxId H x)).1) (Sha256d H cb.ToBytes)
    have hmap : (Sha256d H cb.ToBytes) :: (txs.map (GetTxID H)).map internal = (cb :: txs).map fun t => H.sha256 (H.sha256 t.ToBytes) := by
      simp only [List.map_cons, List.map_map]
      congr 1
      apply List.map_congr_left
      intro t _
      exact internal_txid H t
    rwa [hmap] at hroot
  have h32 : ∀ (l : List Transaction), ∀ x ∈ l.map (fun t => H.sha256 (H.sha256 t.ToBytes)), x.length = 32 := by
    intro l x hx; obtain ⟨t, -, rfl⟩ := List.mem_map.mp hx; exact H.sha256_length _
  have r1 := root cb txs old
  have r2 := root cb' txs' old'
  have l1 := root_length (d := dsha H) (fun b => H.sha256_length _) r1 (h32 _)
  have l2 := root_length (d := dsha H) (fun b => H.sha256_length _) r2 (h32 _)
  obtain ⟨e1, e2, e3, e4, e5, e6⟩ := (C58_injective v v' p p' _ _ t t' b b' n n' hp hp' l1 l2 ht ht' hb hb' hn hn').mp h
  rw [← e3] at r2
  rcases root_binds (dsha H) (fun b => H.sha256_length _) r1 r2 (by simp [hl]) (h32 _) (h32 _) with e | ⟨x, y, hx, hy, hne, heq⟩
  · by_cases hc : ∃ x y : Bytes, BlockString H (cb :: txs) x ∧ BlockString H (cb' :: txs') y ∧ x ≠ y ∧ H.sha256 (H.sha256 x) = H.sha256 (H.sha256 y)
    · exact .inr hc
    · left
      refine ⟨e1, e2, e4, e5, e6, ?_⟩
      have hl2 : (cb :: txs).length = (cb' :: txs').length := by simp [hl]
      generalize cb :: txs = A at *
      generalize cb' :: txs' = B at *
      apply List.ext_getElem (by simpa using hl2)
      intro k k1 k2
      simp only [List.length_map] at k1 k2
      have hk := congrArg (·[k]?) e
      simp only [List.getElem?_map, List.getElem?_eq_getElem k1, List.getElem?_eq_getElem k2, Option.map_some, Option.some.injEq] at hk
      simp only [List.getElem_map]
      have g1 := hid _ (List.getElem_mem k1)
      have g2 := hid' _ (List.getElem_mem k2)
      rw [← C38_serialise_injective _ _ g1.1 g2.1 g1.2]
      by_contra hne
      exact hc ⟨_, _, .inl ⟨_, List.getElem_mem k1, rfl⟩, .inl ⟨_, List.getElem_mem k2, rfl⟩, hne, hk⟩
  · exact .inr ⟨x, y, .inr hx, .inr hy, hne, heq⟩

example : ∃ c1 c2, GetCoinbaseParts 518847 2504275756 b!"6a24aa21a9ed" b!"/hello/" b!"1111111111111111111114oLvT2" [0x6a] = .ok (c1, c2) ∧
    (minedHeader toyH 1 (List.replicate 64 48) [1, 2, 3, 4] [5, 6, 7, 8] [0, 0, 0, 0] [] (BuildCoinbase c1 c2 b!"0011223344556677" b!"deadbeef") [exTx, exMany]).length = 80 := by
  obtain ⟨c1, c2, _, _, h1, -, -, -, h5, -⟩ := C75_header_of_block toyH 518847 2504275756 b!"6a24aa21a9ed" b!"/hello/" b!"1111111111111111111114oLvT2" [0x6a]
    b!"0011223344556677" b!"deadbeef" ([0x76, 0xa9, 0x14] ++ List.replicate 20 0 ++ [0x88, 0xac]) (by decide +kernel) ⟨by decide +kernel, by decide +kernel⟩ (by decide +kernel)
    (by decide +kernel) 1 (List.replicate 64 48) [1, 2, 3, 4] [5, 6, 7, 8] [0, 0, 0, 0] [] (by decide +kernel) rfl rfl rfl [exTx, exMany]
  exact ⟨c1, c2, h1, h5⟩

end Verif.Props
