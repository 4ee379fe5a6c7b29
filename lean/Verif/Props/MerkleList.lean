import Verif.Props.Merkle
/-!
# C67: what a Merkle root says about the list of txids
-/
namespace Verif.Props
open Verif Spec

theorem root_binds (d : Bytes → Bytes) (hd : ∀ b, (d b).length = 32) {l l' : List Bytes} {r : Bytes} (h : IsRoot d l r) (h' : IsRoot d l' r)
    (hl : l.length = l'.length) (h32 : ∀ x ∈ l, x.length = 32) (h32' : ∀ x ∈ l', x.length = 32) :
    l = l' ∨ ∃ a b, Hashed d l a ∧ Hashed d l' b ∧ a ≠ b ∧ d a = d b := by
  induction h generalizing l' with
  | single x =>
    cases h' with
    | single => exact Or.inl rfl
    | step h2 _ => simp at hl; omega
  | @step l r h2 hr ih =>
    cases h' with
    | single => simp at hl; omega
    | @step _ _ h2' hr' =>
      have hlev : ∀ (m : List Bytes), ∀ x ∈ level d m, x.length = 32 := by
        intro m x hx
        simp only [level, List.mem_map] at hx
        obtain ⟨i, _, rfl⟩ := hx
        exact hd _
      rcases ih hr' (by rw [level_length, level_length, hl]) (hlev _) (hlev _) with e | ⟨a, b, ha, hb, hne, heq⟩
      · by_cases hcol : ∃ i, 2 * i < l.length ∧ l.getD (2 * i) [] ++ l.getD (min (2 * i + 1) (l.length - 1)) [] ≠ l'.getD (2 * i) [] ++ l'.getD (min (2 * i + 1) (l'.length - 1)) []
        · obtain ⟨i, hi, hne⟩ := hcol
          right
          refine ⟨_, _, .here i h2 hi, .here i h2' (by omega), hne, ?_⟩
          have : (level d l).getD i [] = (level d l').getD i [] := by rw [e]
          rw [getD_lt _ _ (by rw [level_length]; omega), getD_lt _ _ (by rw [level_length]; omega)] at this
          simpa only [level, List.getElem_map, List.getElem_range] using this
        · push Not at hcol
          left
          apply List.ext_getElem hl
          intro n h1 h1'
          have hi := hcol (n / 2) (by omega)
          have len : ∀ (m : List Bytes) (hm : ∀ x ∈ m, x.length = 32) (j : Nat) (hj : j < m.length), (m.getD j []).length = 32 := by
            intro m hm j hj
            rw [getD_lt _ _ hj]; exact hm _ (List.getElem_mem hj)
          obtain ⟨e1, e2⟩ := List.append_inj hi (by rw [len l h32 _ (by omega), len l' h32' _ (by omega)])
          by_cases hp : n % 2 = 0
          · rw [show 2 * (n / 2) = n by omega, getD_lt _ _ h1, getD_lt _ _ h1'] at e1
            exact e1
          · rw [show min (2 * (n / 2) + 1) (l.length - 1) = n by omega, show min (2 * (n / 2) + 1) (l'.length - 1) = n by omega, getD_lt _ _ h1, getD_lt _ _ h1'] at e2
            exact e2
      · right
        exact ⟨a, b, .above h2 ha, .above h2' hb, hne, heq⟩

/-- C67: two lists of equally many txids for which the library computes the same root are the same (up to the case of hex letters), unless two different
strings hashed in the two trees have the same double SHA256. -/
theorem C67_root_binds (H : HashFns) (cb cb' : Bytes) (txids txids' : List Bytes) (hl : txids.length = txids'.length)
    (ht : ∀ t ∈ cb :: txids, IsTxId t) (ht' : ∀ t ∈ cb' :: txids', IsTxId t)
    (h : BuildMerkleRootFromCoinbase H (internal cb) (GetMerkleBranches H (cb :: txids)) =
      BuildMerkleRootFromCoinbase H (internal cb') (GetMerkleBranches H (cb' :: txids'))) :
    (cb :: txids).map (·.map lowerChar) = (cb' :: txids').map (·.map lowerChar) ∨
    ∃ a b, Hashed (dsha H) ((cb :: txids).map internal) a ∧ Hashed (dsha H) ((cb' :: txids').map internal) b ∧ a ≠ b ∧ dsha H a = dsha H b := by
  have hexs : ∀ {s : Bytes}, IsTxId s → IsHex s := fun h => (isTxId_iff.mp h).1
  have r1 := C51_root H cb txids (fun t hm => hexs (ht t hm))
  have r2 := C51_root H cb' txids' (fun t hm => hexs (ht' t hm))
  rw [← h] at r2
  rcases root_binds (dsha H) (fun b => H.sha256_length _) r1 r2 (by simp [hl])
    (by intro b hm; obtain ⟨c, hc, rfl⟩ := List.mem_map.mp hm; exact internal_length (ht c hc))
    (by intro b hm; obtain ⟨c, hc, rfl⟩ := List.mem_map.mp hm; exact internal_length (ht' c hc)) with e | hcol
  · left
    have hl2 : (cb :: txids).length = (cb' :: txids').length := by simp [hl]
    generalize cb :: txids = A at *
    generalize cb' :: txids' = B at *
    apply List.ext_getElem (by simpa using hl2)
    intro n h1 h2
    simp only [List.length_map] at h1 h2
    have := congrArg (·[n]?) e
    simp only [List.getElem?_map, List.getElem?_eq_getElem h1, List.getElem?_eq_getElem h2, Option.map_some, Option.some.injEq] at this
    simp only [List.getElem_map]
    exact internal_inj (hexs (ht _ (List.getElem_mem h1))) (hexs (ht' _ (List.getElem_mem h2))) this
  · exact Or.inr hcol

/-- C67, why the number of txids is needed: repeating the last of an odd number of txids (at least three) gives the same root for every hash function. -/
theorem C67_duplicate_last (d : Bytes → Bytes) (l : List Bytes) (x r : Bytes) (hodd : l.length % 2 = 0) (hne : l ≠ []) :
    IsRoot d (l ++ [x]) r ↔ IsRoot d (l ++ [x, x]) r := by
  have hlev : ∀ n (l : List Bytes), l.length = 2 * n → level d (l ++ [x]) = level d (l ++ [x, x]) := by
    intro n
    induction n with
    | zero =>
      intro l hl
      have : l = [] := List.length_eq_zero_iff.mp (by omega)
      subst this
      simp [level_one, level_two, level_nil]
    | succ n ih =>
      intro l hl
      rcases l with _ | ⟨a, _ | ⟨b, l⟩⟩
      · simp at hl
      · simp at hl; omega
      · simp only [List.cons_append, level_two]
        rw [ih l (by simp at hl; omega)]
  have h1 := hlev (l.length / 2) l (by omega)
  have hpos : 0 < l.length := List.length_pos_iff.mpr hne
  have hone : ∀ m : List Bytes, 2 ≤ m.length → (IsRoot d m r ↔ IsRoot d (level d m) r) := by
    intro m hm
    refine ⟨fun h => ?_, fun h => .step hm h⟩
    cases h with
    | single => simp at hm
    | step _ h => exact h
  rw [hone _ (by simp; omega), hone (l ++ [x, x]) (by simp), h1]

example : ([[1], [2]] : List Bytes).length % 2 = 0 ∧ ([[1], [2]] : List Bytes) ≠ [] := by decide
example : ∀ t ∈ [List.replicate 64 97, List.replicate 64 98, List.replicate 64 67], IsTxId t := by simp only [IsTxId]; decide +kernel

end Verif.Props
