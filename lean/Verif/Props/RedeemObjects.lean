import Verif.Lemmas.RedeemObjects
/-!
# C93: redeem script structs and their copies

`c := *rs` copies the struct but not the array of keys behind it. Without such copies every struct behaves as a value of its own; with them, adding a key to or sorting one struct can change the
other.
-/
namespace Verif.Props
open Verif Verif.Obj Verif.RObj

/-- No program has yet run. -/
def emptyStore : RObj.Store := ⟨[], []⟩

theorem sim_empty : RObj.Sim emptyStore [] :=
  ⟨rfl, fun _ _ _ h _ => by simp [emptyStore] at h, fun _ _ h => by simp [emptyStore] at h, fun _ _ _ _ _ h _ => by simp [emptyStore] at h⟩

theorem count_empty : Count emptyStore [] :=
  ⟨rfl, fun _ _ _ h _ => by simp [emptyStore] at h, fun _ _ h => by simp [emptyStore] at h⟩

/-- C93 (positive): after any history of calls without copies the structs are the values the calls would produce on independent redeem script values: each struct shows its value, the next
`GetRedeemScript` on it returns the script of that value, and the program panics exactly when the history on values does. -/
theorem C93_history (g : Nat → Nat) (hd : HDKeychain) (cs : List Call) (hcs : ∀ c ∈ cs, c.NoCopy) :
    (runCalls g hd cs emptyStore = .panic ∧ runValues hd cs [] = .panic) ∨
    ∃ σ v, runCalls g hd cs emptyStore = .ok σ ∧ runValues hd cs [] = .ok v ∧ σ.objs.length = v.length ∧
      ∀ (r : Nat) (x : RedeemScript), v[r]? = some x → Shows σ r x ∧ ∃ σ', RObj.GetRedeemScript σ r = .ok (σ', (Verif.GetRedeemScript x).1) := by
  rcases Sim.calls g hd cs hcs sim_empty with h | ⟨σ, v, h1, h2, h3⟩
  · exact Or.inl h
  · refine Or.inr ⟨σ, v, h1, h2, h3.len, ?_⟩
    intro r x hx
    obtain ⟨o, ho⟩ := h3.obj hx
    obtain ⟨hm, hk⟩ := h3.shows r o x ho hx
    refine ⟨⟨o, ho, hm, hk⟩, ?_⟩
    rw [get_eq ho, hm, hk]
    exact ⟨_, rfl⟩

/-- C93 (positive, copies included): after any history of calls, copies included, every struct has the signature count and the number of keys of its value, and the program panics exactly when
the history on values does. Every store so reached is well formed. -/
theorem C93_counts (g : Nat → Nat) (hd : HDKeychain) (cs : List Call) :
    (runCalls g hd cs emptyStore = .panic ∧ runValues hd cs [] = .panic) ∨
    ∃ σ v, runCalls g hd cs emptyStore = .ok σ ∧ runValues hd cs [] = .ok v ∧ WF σ ∧ σ.objs.length = v.length ∧
      ∀ (r : Nat) (o : RsObj) (x : RedeemScript), σ.objs[r]? = some o → v[r]? = some x →
        o.SignaturesRequired = x.SignaturesRequired ∧ (σ.keys o.PublicKeys).length = x.PublicKeys.length := by
  rcases Count.calls g hd cs count_empty with h | ⟨σ, v, h1, h2, h3⟩
  · exact Or.inl h
  · refine Or.inr ⟨σ, v, h1, h2, h3.wf, h3.len, ?_⟩
    intro r o x ho hx
    rw [keys_length (h3.wf r o ho)]
    exact h3.shows r o x ho hx

theorem copy_eq {σ : RObj.Store} {r : Nat} {o : RsObj} (ho : σ.objs[r]? = some o) : Copy σ r = .ok { σ with objs := σ.objs ++ [o] } := by
  unfold Copy; rw [index_ok'.mpr ho]; rfl

/-- C93: asking a copy for its redeem script sorts the keys of the original too. The script returned is the one the original returns, before and after. -/
theorem C93_copy_get (σ : RObj.Store) (hσ : WF σ) (r : Nat) (x : RedeemScript) (hx : Shows σ r x) :
    ∃ σ1 σ2, Copy σ r = .ok σ1 ∧ RObj.GetRedeemScript σ1 σ.objs.length = .ok (σ2, (Verif.GetRedeemScript x).1) ∧
      Shows σ2 r { x with PublicKeys := SortByteArrays x.PublicKeys } ∧
      ∃ σ3, RObj.GetRedeemScript σ2 r = .ok (σ3, (Verif.GetRedeemScript x).1) := by
  obtain ⟨o, ho, hm, hk⟩ := hx
  have hlt := (List.getElem?_eq_some_iff.mp ho).1
  have hf := hσ r o ho
  have h0 : ({ σ with objs := σ.objs ++ [o] } : RObj.Store).objs[σ.objs.length]? = some o := by
    dsimp only; rw [List.getElem?_append_right (le_refl _), Nat.sub_self]; rfl
  have hf1 : Fits { σ with objs := σ.objs ++ [o] } o.PublicKeys := hf
  obtain ⟨k1, k2⟩ := sortedStore_keys hf1
  have h2 : (sortedStore { σ with objs := σ.objs ++ [o] } o.PublicKeys).objs[r]? = some o := by
    show (σ.objs ++ [o])[r]? = _
    rw [List.getElem?_append_left hlt]; exact ho
  have hk1 : ({ σ with objs := σ.objs ++ [o] } : RObj.Store).keys o.PublicKeys = x.PublicKeys := hk
  rw [hk1] at k1
  refine ⟨_, sortedStore { σ with objs := σ.objs ++ [o] } o.PublicKeys, copy_eq ho, ?_, ⟨o, h2, hm, k1⟩, ?_⟩
  · rw [get_eq h0, hk1, hm]; rfl
  · rw [get_eq h2, k1, hm]
    have hs : SortByteArrays (SortByteArrays x.PublicKeys) = SortByteArrays x.PublicKeys :=
      sorted_perm_unique (C05_sort_perm _) (C05_sort_sorted _) (C05_sort_sorted _)
    unfold Verif.GetRedeemScript
    dsimp only
    rw [hs]
    exact ⟨_, rfl⟩

/-- An `AddPublicKey` whose key derivation succeeds. -/
theorem add_ok {σ : RObj.Store} {r : Nat} {o : RsObj} (g : Nat → Nat) (hd : HDKeychain) {pkey : Bytes} {a b : UInt32} {k : Bytes} (ho : σ.objs[r]? = some o)
    (hk : hd.derive pkey a b = .ok k) : RObj.AddPublicKey g hd σ r pkey [a, b] =
      .ok { (σ.append g o.PublicKeys k).1 with objs := (σ.append g o.PublicKeys k).1.objs.set r { o with PublicKeys := (σ.append g o.PublicKeys k).2 } } := by
  rw [add_eq g hd pkey [a, b] ho, if_neg (by simp)]
  have hk' : hd.derive pkey ([a, b].getD 0 0) ([a, b].getD 1 0) = .ok k := hk
  rw [hk', Res.ok_bind]; rfl

theorem append_room {σ : RObj.Store} {s : RefSlice} (g : Nat → Nat) (k : Bytes) (h : s.len < s.cap) :
    σ.append g s k = ({ σ with arrays := σ.arrays.set s.arr ((σ.arrays.getD s.arr []).set s.len k) }, { s with len := s.len + 1 }) := by
  unfold RObj.Store.append; rw [if_pos h]

theorem append_full {σ : RObj.Store} {s : RefSlice} (g : Nat → Nat) (k : Bytes) (h : ¬ s.len < s.cap) :
    σ.append g s k = ({ σ with arrays := σ.arrays ++ [σ.keys s ++ [k] ++ List.replicate (g s.len) []] }, ⟨σ.arrays.length, s.len + 1, s.len + 1 + g s.len⟩) := by
  unfold RObj.Store.append; rw [if_neg h]

/-- What the store looks like after a key is added through a copy, with room in the array. -/
theorem copy_add {σ : RObj.Store} (hσ : WF σ) {r : Nat} {o : RsObj} (g : Nat → Nat) (hd : HDKeychain) {pkey : Bytes} {a b : UInt32} {k : Bytes}
    (ho : σ.objs[r]? = some o) (hr : o.PublicKeys.len < o.PublicKeys.cap) (hk : hd.derive pkey a b = .ok k) :
    ∃ σ1 σ2 arr, Copy σ r = .ok σ1 ∧ RObj.AddPublicKey g hd σ1 σ.objs.length pkey [a, b] = .ok σ2 ∧
      σ2.objs[r]? = some o ∧ σ2.objs[σ.objs.length]? = some { o with PublicKeys := { o.PublicKeys with len := o.PublicKeys.len + 1 } } ∧
      σ2.arrays[o.PublicKeys.arr]? = some arr ∧ arr.take (o.PublicKeys.len + 1) = σ.keys o.PublicKeys ++ [k] ∧ o.PublicKeys.cap ≤ arr.length := by
  have hlt := (List.getElem?_eq_some_iff.mp ho).1
  obtain ⟨A, hA, hl⟩ := (hσ r o ho).array (by omega)
  have hAl := (List.getElem?_eq_some_iff.mp hA).1
  have h0 : ({ σ with objs := σ.objs ++ [o] } : RObj.Store).objs[σ.objs.length]? = some o := by
    dsimp only; rw [List.getElem?_append_right (le_refl _), Nat.sub_self]; rfl
  have hg : σ.arrays.getD o.PublicKeys.arr [] = A := by rw [List.getD_eq_getElem?_getD, hA]; rfl
  refine ⟨_, _, A.set o.PublicKeys.len k, copy_eq ho, add_ok g hd h0 hk, ?_, ?_, ?_, ?_, by simpa using hl⟩
  · rw [append_room g k hr]
    show ((σ.objs ++ [o]).set σ.objs.length _)[r]? = _
    rw [List.getElem?_set_ne (by omega), List.getElem?_append_left hlt]; exact ho
  · rw [append_room g k hr]
    show ((σ.objs ++ [o]).set σ.objs.length _)[σ.objs.length]? = _
    rw [List.getElem?_set_self (by simp)]
  · rw [append_room g k hr]
    show (σ.arrays.set o.PublicKeys.arr ((σ.arrays.getD o.PublicKeys.arr []).set o.PublicKeys.len k))[o.PublicKeys.arr]? = _
    rw [List.getElem?_set_self hAl, hg]
  · rw [List.take_add_one, List.getElem?_set_self (by omega), List.take_set_of_le (le_refl _)]
    unfold RObj.Store.keys
    rw [hg]; rfl

/-- C93 (violated): with room in the array, a key added to the original after a copy was taken is replaced when a key is added to the copy: both structs show the second key, and the first is
lost. -/
theorem C93_copy_add_add (σ : RObj.Store) (hσ : WF σ) (r : Nat) (x : RedeemScript) (hx : Shows σ r x) (hr : Room σ r) (g : Nat → Nat) (hd : HDKeychain)
    (p1 p2 : Bytes) (a1 b1 a2 b2 : UInt32) (k1 k2 : Bytes) (h1 : hd.derive p1 a1 b1 = .ok k1) (h2 : hd.derive p2 a2 b2 = .ok k2) :
    ∃ σ1 σ2 σ3, Copy σ r = .ok σ1 ∧ RObj.AddPublicKey g hd σ1 r p1 [a1, b1] = .ok σ2 ∧ Shows σ2 r { x with PublicKeys := x.PublicKeys ++ [k1] } ∧
      RObj.AddPublicKey g hd σ2 σ.objs.length p2 [a2, b2] = .ok σ3 ∧
      Shows σ3 r { x with PublicKeys := x.PublicKeys ++ [k2] } ∧ Shows σ3 σ.objs.length { x with PublicKeys := x.PublicKeys ++ [k2] } := by
  obtain ⟨o, ho, hm, hkeys⟩ := hx
  obtain ⟨o', ho', hroom⟩ := hr
  rw [ho, Option.some.injEq] at ho'
  subst ho'
  have hlt := (List.getElem?_eq_some_iff.mp ho).1
  obtain ⟨A, hA, hl⟩ := (hσ r o ho).array (by omega)
  have hAl := (List.getElem?_eq_some_iff.mp hA).1
  have hg : σ.arrays.getD o.PublicKeys.arr [] = A := by rw [List.getD_eq_getElem?_getD, hA]; rfl
  have hk : A.take o.PublicKeys.len = x.PublicKeys := by rw [← hkeys]; unfold RObj.Store.keys; rw [hg]
  have h0 : ({ σ with objs := σ.objs ++ [o] } : RObj.Store).objs[r]? = some o := by
    dsimp only; rw [List.getElem?_append_left hlt]; exact ho
  have tk : ∀ (B : List Bytes) (k : Bytes), B.length = A.length → B.take o.PublicKeys.len = x.PublicKeys →
      (B.set o.PublicKeys.len k).take (o.PublicKeys.len + 1) = x.PublicKeys ++ [k] := by
    intro B k hB hBk
    rw [List.take_add_one, List.getElem?_set_self (by omega), List.take_set_of_le (le_refl _), hBk]; rfl
  -- the store after the first addition
  let o1 : RsObj := { o with PublicKeys := { o.PublicKeys with len := o.PublicKeys.len + 1 } }
  let σ2 : RObj.Store := ⟨σ.arrays.set o.PublicKeys.arr (A.set o.PublicKeys.len k1), (σ.objs ++ [o]).set r o1⟩
  have e2 : RObj.AddPublicKey g hd { σ with objs := σ.objs ++ [o] } r p1 [a1, b1] = .ok σ2 := by
    rw [add_ok g hd h0 h1, append_room g k1 hroom]
    simp only [hg]; rfl
  have hr2 : σ2.objs[r]? = some o1 := by
    show ((σ.objs ++ [o]).set r o1)[r]? = _
    rw [List.getElem?_set_self (by simp; omega)]
  have hc2 : σ2.objs[σ.objs.length]? = some o := by
    show ((σ.objs ++ [o]).set r o1)[σ.objs.length]? = _
    rw [List.getElem?_set_ne (by omega), List.getElem?_append_right (le_refl _), Nat.sub_self]; rfl
  have hA2 : σ2.arrays.getD o.PublicKeys.arr [] = A.set o.PublicKeys.len k1 := by
    show (σ.arrays.set o.PublicKeys.arr (A.set o.PublicKeys.len k1)).getD o.PublicKeys.arr [] = _
    rw [List.getD_eq_getElem?_getD, List.getElem?_set_self hAl]; rfl
  let σ3 : RObj.Store := ⟨σ2.arrays.set o.PublicKeys.arr ((A.set o.PublicKeys.len k1).set o.PublicKeys.len k2), σ2.objs.set σ.objs.length o1⟩
  have e3 : RObj.AddPublicKey g hd σ2 σ.objs.length p2 [a2, b2] = .ok σ3 := by
    rw [add_ok g hd hc2 h2, append_room g k2 hroom]
    simp only [hA2]; rfl
  have hA3 : σ3.arrays.getD o.PublicKeys.arr [] = (A.set o.PublicKeys.len k1).set o.PublicKeys.len k2 := by
    show (σ2.arrays.set o.PublicKeys.arr _).getD o.PublicKeys.arr [] = _
    rw [List.getD_eq_getElem?_getD, List.getElem?_set_self (by show _ < (σ.arrays.set _ _).length; rw [List.length_set]; exact hAl)]; rfl
  have k3 : σ3.keys o1.PublicKeys = x.PublicKeys ++ [k2] := by
    unfold RObj.Store.keys
    rw [show o1.PublicKeys.arr = o.PublicKeys.arr from rfl, hA3]
    exact tk _ k2 (by simp) (by rw [List.take_set_of_le (le_refl _)]; exact hk)
  refine ⟨_, σ2, σ3, copy_eq ho, e2, ⟨o1, hr2, hm, ?_⟩, e3, ⟨o1, ?_, hm, k3⟩, ⟨o1, ?_, hm, k3⟩⟩
  · unfold RObj.Store.keys
    rw [show o1.PublicKeys.arr = o.PublicKeys.arr from rfl, hA2]
    exact tk A k1 rfl hk
  · show (σ2.objs.set σ.objs.length o1)[r]? = _
    rw [List.getElem?_set_ne (by omega)]; exact hr2
  · show (σ2.objs.set σ.objs.length o1)[σ.objs.length]? = _
    rw [List.getElem?_set_self (List.getElem?_eq_some_iff.mp hc2).1]

/-- C93 (violated): with room in the array, adding a key to a copy and asking the copy for its redeem script leaves the original with the first `n` of the `n + 1` keys in order. -/
theorem C93_copy_add_get (σ : RObj.Store) (hσ : WF σ) (r : Nat) (x : RedeemScript) (hx : Shows σ r x) (hr : Room σ r) (g : Nat → Nat) (hd : HDKeychain)
    (p : Bytes) (a b : UInt32) (k : Bytes) (hk : hd.derive p a b = .ok k) :
    ∃ σ1 σ2 σ3 script, Copy σ r = .ok σ1 ∧ RObj.AddPublicKey g hd σ1 σ.objs.length p [a, b] = .ok σ2 ∧ Shows σ2 r x ∧
      RObj.GetRedeemScript σ2 σ.objs.length = .ok (σ3, script) ∧
      Shows σ3 r { x with PublicKeys := (SortByteArrays (x.PublicKeys ++ [k])).take x.PublicKeys.length } := by
  obtain ⟨o, ho, hm, hkeys⟩ := hx
  obtain ⟨o', ho', hroom⟩ := hr
  rw [ho, Option.some.injEq] at ho'
  subst ho'
  obtain ⟨σ1, σ2, A, e1, e2, hr2, hc2, hA, htake, hcap⟩ := copy_add hσ g hd ho hroom hk
  have hg : σ2.arrays.getD o.PublicKeys.arr [] = A := by rw [List.getD_eq_getElem?_getD, hA]; rfl
  have hlen := keys_length (hσ r o ho)
  rw [hkeys] at hlen htake
  have hs := sortedStore_array (s := { o.PublicKeys with len := o.PublicKeys.len + 1 }) hA
  dsimp only at hs
  rw [htake] at hs
  refine ⟨σ1, σ2, _, _, e1, e2, ⟨o, hr2, hm, ?_⟩, get_eq hc2, ⟨o, hr2, hm, ?_⟩⟩
  · unfold RObj.Store.keys
    rw [hg]
    have : A.take o.PublicKeys.len = (A.take (o.PublicKeys.len + 1)).take o.PublicKeys.len := by rw [List.take_take]; congr 1; omega
    rw [this, htake, ← hlen]; simp
  · unfold RObj.Store.keys
    rw [List.getD_eq_getElem?_getD, hs, Option.getD_some, List.take_append_of_le_length, hlen]
    rw [(C05_sort_perm _).length_eq, List.length_append, hlen]; simp

/-- ... so a key that was never added to the original, and is not its last in order, is then one of its keys. -/
theorem C93_foreign_key (keys : List Bytes) (k big : Bytes) (hb : big ∈ keys) (hle : lexLe k big) (hne : k ≠ big) :
    k ∈ (SortByteArrays (keys ++ [k])).take keys.length := by
  have hp := C05_sort_perm (keys ++ [k])
  have hlen : (SortByteArrays (keys ++ [k])).length = keys.length + 1 := by rw [hp.length_eq]; simp
  have hsort := C05_sort_sorted (keys ++ [k])
  generalize SortByteArrays (keys ++ [k]) = l at *
  have hd : l = l.take keys.length ++ l.drop keys.length := (List.take_append_drop _ _).symm
  obtain ⟨z, hz⟩ : ∃ z, l.drop keys.length = [z] := List.length_eq_one_iff.mp (by rw [List.length_drop]; omega)
  rw [hz] at hd
  have mem : ∀ y, y ∈ keys ++ [k] → y ∈ l.take keys.length ∨ y = z := by
    intro y hy
    have := hp.symm.subset hy
    rw [hd] at this
    simpa using this
  rcases mem k (by simp) with h | h
  · exact h
  · exfalso
    rcases mem big (by simp [hb]) with h' | h'
    · rw [hd, List.pairwise_append] at hsort
      have := hsort.2.2 big h' z (by simp)
      rw [← h] at this
      exact hne (lexLe_antisymm hle this)
    · exact hne (h.trans h'.symm)

/-- C93: without room in the array the copy gets an array of its own with its first new key, and from then on neither struct sees what happens to the other. -/
theorem C93_full (σ : RObj.Store) (hσ : WF σ) (r : Nat) (x : RedeemScript) (hx : Shows σ r x) (hr : ¬ Room σ r) (g : Nat → Nat) (hd : HDKeychain)
    (p : Bytes) (a b : UInt32) (k : Bytes) (hk : hd.derive p a b = .ok k) :
    ∃ σ1 σ2 σ3 script, Copy σ r = .ok σ1 ∧ RObj.AddPublicKey g hd σ1 σ.objs.length p [a, b] = .ok σ2 ∧ Shows σ2 r x ∧
      Shows σ2 σ.objs.length { x with PublicKeys := x.PublicKeys ++ [k] } ∧ RObj.GetRedeemScript σ2 σ.objs.length = .ok (σ3, script) ∧ Shows σ3 r x := by
  obtain ⟨o, ho, hm, hkeys⟩ := hx
  have hroom : ¬ o.PublicKeys.len < o.PublicKeys.cap := fun h => hr ⟨o, ho, h⟩
  have hlt := (List.getElem?_eq_some_iff.mp ho).1
  have hf := hσ r o ho
  have h0 : ({ σ with objs := σ.objs ++ [o] } : RObj.Store).objs[σ.objs.length]? = some o := by
    dsimp only; rw [List.getElem?_append_right (le_refl _), Nat.sub_self]; rfl
  let o1 : RsObj := { o with PublicKeys := ⟨σ.arrays.length, o.PublicKeys.len + 1, o.PublicKeys.len + 1 + g o.PublicKeys.len⟩ }
  let σ2 : RObj.Store := ⟨σ.arrays ++ [σ.keys o.PublicKeys ++ [k] ++ List.replicate (g o.PublicKeys.len) []], (σ.objs ++ [o]).set σ.objs.length o1⟩
  have e2 : RObj.AddPublicKey g hd { σ with objs := σ.objs ++ [o] } σ.objs.length p [a, b] = .ok σ2 := by
    rw [add_ok g hd h0 hk, append_full g k hroom]; rfl
  have hr2 : σ2.objs[r]? = some o := by
    show ((σ.objs ++ [o]).set σ.objs.length o1)[r]? = _
    rw [List.getElem?_set_ne (by omega), List.getElem?_append_left hlt]; exact ho
  have hc2 : σ2.objs[σ.objs.length]? = some o1 := by
    show ((σ.objs ++ [o]).set σ.objs.length o1)[σ.objs.length]? = _
    rw [List.getElem?_set_self (by simp)]
  have keep : Keeps σ σ2 := by
    intro i A hA
    have := (List.getElem?_eq_some_iff.mp hA).1
    refine ⟨A, ?_, le_refl _⟩
    show (σ.arrays ++ _)[i]? = _
    rw [List.getElem?_append_left this]; exact hA
  have hkl := keys_length hf
  have kc : σ2.keys o1.PublicKeys = x.PublicKeys ++ [k] ∧ Fits σ2 o1.PublicKeys := by
    constructor
    · unfold RObj.Store.keys
      rw [List.getD_eq_getElem?_getD]
      show ((σ.arrays ++ [_])[σ.arrays.length]?.getD []).take (o.PublicKeys.len + 1) = _
      rw [List.getElem?_append_right (le_refl _), Nat.sub_self]
      simp only [List.getElem?_cons_zero, Option.getD_some]
      rw [List.take_append_of_le_length (by rw [List.length_append, List.length_singleton]; omega), List.take_of_length_le (by rw [List.length_append, List.length_singleton]; omega), hkeys]
    · refine ⟨by show o.PublicKeys.len + 1 ≤ o.PublicKeys.len + 1 + _; omega, Or.inr ⟨σ.keys o.PublicKeys ++ [k] ++ List.replicate (g o.PublicKeys.len) [], ?_, ?_⟩⟩
      · show (σ.arrays ++ [_])[σ.arrays.length]? = _
        rw [List.getElem?_append_right (le_refl _), Nat.sub_self]; rfl
      · show o.PublicKeys.len + 1 + g o.PublicKeys.len ≤ _
        simp [hkl]; try omega
  have kr : σ2.keys o.PublicKeys = x.PublicKeys := by
    rw [← hkeys]
    rcases Nat.eq_zero_or_pos o.PublicKeys.cap with h | h
    · have := hf.1
      unfold RObj.Store.keys
      rw [show o.PublicKeys.len = 0 by omega]; simp
    · obtain ⟨A, hA, _⟩ := hf.array h
      have hl := (List.getElem?_eq_some_iff.mp hA).1
      unfold RObj.Store.keys
      rw [List.getD_eq_getElem?_getD, List.getD_eq_getElem?_getD]
      show ((σ.arrays ++ _)[_]?.getD []).take _ = _
      rw [List.getElem?_append_left hl]
  refine ⟨_, σ2, _, _, copy_eq ho, e2, ⟨o, hr2, hm, kr⟩, ⟨o1, hc2, hm, kc.1⟩, get_eq hc2, ⟨o, hr2, hm, ?_⟩⟩
  have hsep : o1.PublicKeys.cap = 0 ∨ o.PublicKeys.cap = 0 ∨ o1.PublicKeys.arr ≠ o.PublicKeys.arr := by
    rcases Nat.eq_zero_or_pos o.PublicKeys.cap with h | h
    · exact Or.inr (Or.inl h)
    · obtain ⟨A, hA, _⟩ := hf.array h
      have hl := (List.getElem?_eq_some_iff.mp hA).1
      right; right
      show σ.arrays.length ≠ _
      omega
  rw [(sortedStore_other (hf.keeps keep) hsep kc.2).1]; exact kr

/-! ## A program that meets the hypotheses -/

/-- Go's growth for small slices: the capacity doubles. -/
def doubling (n : Nat) : Nat := n - 1

/-- A redeem script with three keys, held in an array of four. -/
def threeKeys : List Call := [.new 2, .add 0 [1, 5] [0, 1], .add 0 [1, 3] [0, 2], .add 0 [1, 9] [0, 3]]

/-- ... copied, and a fourth key added through the copy, which is then asked for its redeem script. -/
def copied : List Call := threeKeys ++ [.copy 0, .add 1 [1, 4] [0, 4], .get 1]

def keysOf (x : Res RObj.Store) (r : Nat) : Option (List Bytes) :=
  match x with
  | .ok σ => (σ.objs[r]?).map fun o => σ.keys o.PublicKeys
  | _ => none

/-- C93 (violated): a history in which the store and the values disagree about the original. -/
theorem C93_history_violated : ∃ (g : Nat → Nat) (hd : HDKeychain) (cs : List Call) (σ : RObj.Store) (v : List RedeemScript) (x : RedeemScript),
    runCalls g hd cs emptyStore = .ok σ ∧ runValues hd cs [] = .ok v ∧ v[0]? = some x ∧ ¬ Shows σ 0 x := by
  have hs0 : (keysOf (runCalls doubling toyHD copied emptyStore) 0).isSome = true := by decide +kernel
  obtain h | ⟨σ, v, h1, h2, h3⟩ := Count.calls doubling toyHD copied count_empty
  · simp [h.1, keysOf] at hs0
  · have hv : (match runValues toyHD copied [] with | .ok v => (v[0]?).map RedeemScript.PublicKeys | _ => none) =
        some [[5, 0, 0, 0, 0, 1, 0, 0, 0], [3, 0, 0, 0, 0, 2, 0, 0, 0], [9, 0, 0, 0, 0, 3, 0, 0, 0]] := by decide +kernel
    have hs : keysOf (runCalls doubling toyHD copied emptyStore) 0 =
        some [[3, 0, 0, 0, 0, 2, 0, 0, 0], [4, 0, 0, 0, 0, 4, 0, 0, 0], [5, 0, 0, 0, 0, 1, 0, 0, 0]] := by decide +kernel
    rw [h1] at hs
    rw [h2] at hv
    dsimp only at hv
    obtain ⟨x, hx, hxk⟩ := Option.map_eq_some_iff.mp hv
    refine ⟨doubling, toyHD, copied, σ, v, x, h1, h2, hx, ?_⟩
    rintro ⟨o, ho, _, hk⟩
    unfold keysOf at hs
    dsimp only at hs
    rw [ho, Option.map_some, Option.some.injEq, hk, hxk] at hs
    revert hs; decide

/-- The hypotheses of the theorems above: the three-key struct is well formed and has room; a fresh one has none. -/
example : ∃ σ x, runCalls doubling toyHD threeKeys emptyStore = .ok σ ∧ WF σ ∧ Shows σ 0 x ∧ x.PublicKeys.length = 3 ∧ Room σ 0 := by
  have hs0 : (keysOf (runCalls doubling toyHD threeKeys emptyStore) 0).isSome = true := by decide +kernel
  obtain h | ⟨σ, v, h1, h2, h3⟩ := Sim.calls doubling toyHD threeKeys (by intro c hc; simp [threeKeys] at hc; rcases hc with rfl | rfl | rfl | rfl <;> trivial) sim_empty
  · simp [h.1, keysOf] at hs0
  · have hv : (match runValues toyHD threeKeys [] with | .ok v => (v[0]?).map (fun x => x.PublicKeys.length) | _ => none) = some 3 := by decide +kernel
    have hs : (match runCalls doubling toyHD threeKeys emptyStore with | .ok σ => (σ.objs[0]?).map (fun o => decide (o.PublicKeys.len < o.PublicKeys.cap)) | _ => none) = some true := by
      decide +kernel
    rw [h1] at hs
    rw [h2] at hv
    dsimp only at hv hs
    obtain ⟨x, hx, hxk⟩ := Option.map_eq_some_iff.mp hv
    obtain ⟨o, ho, hoc⟩ := Option.map_eq_some_iff.mp hs
    obtain ⟨e1, e2⟩ := h3.shows 0 o x ho hx
    exact ⟨σ, x, h1, h3.fits, ⟨o, ho, e1, e2⟩, hxk, ⟨o, ho, by simpa using hoc⟩⟩

example : lexLe [4] [5] ∧ ([4] : Bytes) ≠ [5] ∧ ([4] : Bytes) ∈ (SortByteArrays ([[5], [3], [9]] ++ [[4]])).take 3 := ⟨by simp [lexLe], by decide, by decide +kernel⟩

example : ∃ σ, runCalls doubling toyHD [.new 2] emptyStore = .ok σ ∧ Shows σ 0 ⟨2, [], []⟩ ∧ ¬ Room σ 0 :=
  ⟨⟨[], [⟨2, ⟨0, 0, 0⟩⟩]⟩, rfl, ⟨_, rfl, rfl, rfl⟩, by rintro ⟨o, ho, h⟩; simp at ho; subst ho; simp at h⟩

end Verif.Props
