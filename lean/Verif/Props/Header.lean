import Verif.Model.Block
import Verif.Lemmas.Basic
import Verif.Lemmas.TxBytes
/-!
# C58: block headers
-/
namespace Verif.Props
open Verif Spec

/-- C58: layout of the 80 bytes: version, previous hash in internal order, root, time, bits, nonce. -/
theorem C58_layout (version : UInt32) (prev root time bits nonce : Bytes) (hp : IsTxId prev) (hr : root.length = 32) (ht : time.length = 4)
    (hb : bits.length = 4) (hn : nonce.length = 4) :
    let h := BuildBlockHeader version prev root time bits nonce
    h.length = 80 ∧ h.take 4 = leBytes 4 version.toNat ∧ hexEncode ((h.drop 4).take 32).reverse = prev.map lowerChar ∧
    (h.drop 36).take 32 = root ∧ (h.drop 68).take 4 = time ∧ (h.drop 72).take 4 = bits ∧ (h.drop 76).take 4 = nonce := by
  intro h
  obtain ⟨hx, hl⟩ := isTxId_iff.mp hp
  have hpl : (hexDecodeIgnore prev).reverse.length = 32 := by
    have := hexDecodeIgnore_length hx
    rw [List.length_reverse]; omega
  have he : h = leBytes 4 version.toNat ++ ((hexDecodeIgnore prev).reverse ++ (root ++ (time ++ (bits ++ nonce)))) := by
    simp [h, BuildBlockHeader, putUint32_eq, ReverseBytes_eq]
  have hv : (leBytes 4 version.toNat).length = 4 := by simp
  have hlo : hexEncode (hexDecodeIgnore prev) = prev.map lowerChar := hexEncode_decode hx
  generalize hpp : (hexDecodeIgnore prev).reverse = p at *
  have hd4 : h.drop 4 = p ++ (root ++ (time ++ (bits ++ nonce))) := by rw [he, List.drop_left' hv]
  have hd36 : h.drop 36 = root ++ (time ++ (bits ++ nonce)) := by
    rw [show 36 = 4 + 32 from rfl, ← List.drop_drop, hd4, List.drop_left' hpl]
  have hd68 : h.drop 68 = time ++ (bits ++ nonce) := by
    rw [show 68 = 36 + 32 from rfl, ← List.drop_drop, hd36, List.drop_left' hr]
  have hd72 : h.drop 72 = bits ++ nonce := by
    rw [show 72 = 68 + 4 from rfl, ← List.drop_drop, hd68, List.drop_left' ht]
  have hd76 : h.drop 76 = nonce := by
    rw [show 76 = 72 + 4 from rfl, ← List.drop_drop, hd72, List.drop_left' hb]
  refine ⟨?_, ?_, ?_, ?_, ?_, ?_, ?_⟩
  · rw [he]; simp [hpl, hr, ht, hb, hn]
  · rw [he, List.take_left' hv]
  · rw [hd4, List.take_left' hpl, ← hpp, List.reverse_reverse, hlo]
  · rw [hd36, List.take_left' hr]
  · rw [hd68, List.take_left' ht]
  · rw [hd72, List.take_left' hb]
  · rw [hd76, List.take_of_length_le (by omega)]

/-- C58: equal headers have equal fields (the previous hash up to the case of its hex digits). -/
theorem C58_injective (v v' : UInt32) (p p' r r' t t' b b' n n' : Bytes) (hp : IsTxId p) (hp' : IsTxId p') (hr : r.length = 32) (hr' : r'.length = 32)
    (ht : t.length = 4) (ht' : t'.length = 4) (hb : b.length = 4) (hb' : b'.length = 4) (hn : n.length = 4) (hn' : n'.length = 4) :
    BuildBlockHeader v p r t b n = BuildBlockHeader v' p' r' t' b' n' ↔
      v = v' ∧ p.map lowerChar = p'.map lowerChar ∧ r = r' ∧ t = t' ∧ b = b' ∧ n = n' := by
  obtain ⟨_, a1, a2, a3, a4, a5, a6⟩ := C58_layout v p r t b n hp hr ht hb hn
  obtain ⟨_, c1, c2, c3, c4, c5, c6⟩ := C58_layout v' p' r' t' b' n' hp' hr' ht' hb' hn'
  constructor
  · intro e
    rw [e] at a1 a2 a3 a4 a5 a6
    exact ⟨putUint32_inj (a1.symm.trans c1), a2.symm.trans c2, a3.symm.trans c3, a4.symm.trans c4, a5.symm.trans c5, a6.symm.trans c6⟩
  · rintro ⟨rfl, e, rfl, rfl, rfl, rfl⟩
    have : hexDecodeIgnore p = hexDecodeIgnore p' := by
      apply hexEncode_inj
      rw [hexEncode_decode (isTxId_iff.mp hp).1, hexEncode_decode (isTxId_iff.mp hp').1, e]
    unfold BuildBlockHeader
    rw [this]

/-- non-vacuity: the genesis block's fields -/
example : IsTxId (List.replicate 64 48) ∧ (BuildBlockHeader 1 (List.replicate 64 48) (List.replicate 32 7) [0x29, 0xab, 0x5f, 0x49] [0xff, 0xff, 0, 0x1d] [0x1d, 0xac, 0x2b, 0x7c]).length = 80 := by
  decide +kernel

/-- C58: nothing is validated: for other lengths the header is simply the concatenation, e.g. a short previous hash gives a header of another size. -/
theorem C58_unchecked (version : UInt32) (prev root time bits nonce : Bytes) :
    (BuildBlockHeader version prev root time bits nonce).length =
      4 + (hexDecodeIgnore prev).length + root.length + time.length + bits.length + nonce.length := by
  simp [BuildBlockHeader, putUint32_eq, ReverseBytes_eq]; omega

example : (BuildBlockHeader 1 b!"00zz" [] [] [] []).length = 5 := by decide +kernel

end Verif.Props
