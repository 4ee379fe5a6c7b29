import Verif.Spec.RedeemObjects
import Verif.Props.Redeem
/-!
# Lemmas about redeem script structs
-/
namespace Verif.RObj
open Verif Verif.Obj Verif.Op Verif.Props

theorem index_ok' {α : Type} {l : List α} {i : Nat} {x : α} : index l i = .ok x ↔ l[i]? = some x := by
  unfold index; cases l[i]? <;> simp

theorem Fits.array {σ : Store} {s : RefSlice} (h : Fits σ s) (hc : 0 < s.cap) : ∃ a, σ.arrays[s.arr]? = some a ∧ s.cap ≤ a.length := by
  rcases h.2 with h | h
  · omega
  · exact h

theorem keys_length {σ : Store} {s : RefSlice} (h : Fits σ s) : (σ.keys s).length = s.len := by
  unfold Store.keys
  rcases Nat.eq_zero_or_pos s.cap with h0 | h0
  · have := h.1
    rw [show s.len = 0 by omega]; simp
  · obtain ⟨a, ha, hl⟩ := h.array h0
    rw [List.getD_eq_getElem?_getD, ha, Option.getD_some, List.length_take]
    have := h.1; omega

/-- The slice after an append shows one more key. -/
theorem append_keys (g : Nat → Nat) {σ : Store} {s : RefSlice} (h : Fits σ s) (pk : Bytes) :
    (σ.append g s pk).1.keys (σ.append g s pk).2 = σ.keys s ++ [pk] ∧ Fits (σ.append g s pk).1 (σ.append g s pk).2 ∧ (σ.append g s pk).1.objs = σ.objs := by
  have hkl := keys_length h
  unfold Store.append
  split_ifs with hr
  · obtain ⟨a, ha, hl⟩ := h.array (by omega)
    have hlt : s.arr < σ.arrays.length := (List.getElem?_eq_some_iff.mp ha).1
    refine ⟨?_, ⟨by dsimp only; omega, Or.inr ⟨a.set s.len pk, ?_, by simpa using hl⟩⟩, rfl⟩
    · unfold Store.keys
      dsimp only
      rw [List.getD_eq_getElem?_getD, List.getElem?_set_self hlt, List.getD_eq_getElem?_getD, ha, Option.getD_some, Option.getD_some]
      rw [List.take_add_one, List.getElem?_set_self (by omega), List.take_set_of_le (le_refl _)]
      rfl
    · dsimp only
      rw [List.getElem?_set_self hlt, List.getD_eq_getElem?_getD, ha]; rfl
  · refine ⟨?_, ⟨by dsimp only; omega, Or.inr ⟨_, by dsimp only; rw [List.getElem?_append_right (le_refl _), Nat.sub_self]; rfl, by simp [hkl]; try omega⟩⟩, rfl⟩
    unfold Store.keys
    dsimp only
    rw [List.getD_eq_getElem?_getD, List.getElem?_append_right (le_refl _), Nat.sub_self]
    simp only [List.getElem?_cons_zero, Option.getD_some]
    rw [List.take_append_of_le_length (by rw [List.length_append, List.length_singleton]; unfold Store.keys at hkl; omega)]
    rw [List.take_of_length_le (by rw [List.length_append, List.length_singleton]; unfold Store.keys at hkl; omega)]

/-- Slices of different arrays do not see an append. -/
theorem append_other (g : Nat → Nat) {σ : Store} {s u : RefSlice} (pk : Bytes) (hu : Fits σ u) (hd : s.cap = 0 ∨ u.cap = 0 ∨ s.arr ≠ u.arr) :
    (σ.append g s pk).1.keys u = σ.keys u ∧ Fits (σ.append g s pk).1 u := by
  have hu1 := hu.1
  rcases Nat.eq_zero_or_pos u.cap with h0 | h0
  · refine ⟨?_, hu.1, Or.inl h0⟩
    unfold Store.keys
    rw [show u.len = 0 by omega]; simp
  · obtain ⟨a, ha, hl⟩ := hu.array h0
    have hlt : u.arr < σ.arrays.length := (List.getElem?_eq_some_iff.mp ha).1
    have key : (σ.append g s pk).1.arrays[u.arr]? = some a := by
      unfold Store.append
      split_ifs with hr
      · dsimp only
        rw [List.getElem?_set_ne (by rcases hd with h | h | h <;> omega)]; exact ha
      · dsimp only
        rw [List.getElem?_append_left hlt]; exact ha
    refine ⟨?_, hu.1, Or.inr ⟨a, key, hl⟩⟩
    unfold Store.keys
    rw [List.getD_eq_getElem?_getD, List.getD_eq_getElem?_getD, key, ha]

/-- The store after sorting the elements of a slice in place. -/
def sortedStore (σ : Store) (s : RefSlice) : Store :=
  { σ with arrays := σ.arrays.set s.arr (SortByteArrays (σ.keys s) ++ (σ.arrays.getD s.arr []).drop s.len) }

theorem sort_length (σ : Store) {s : RefSlice} (h : Fits σ s) : (SortByteArrays (σ.keys s)).length = s.len := by
  rw [(C05_sort_perm _).length_eq, keys_length h]

theorem sortedStore_array {σ : Store} {s : RefSlice} {a : List Bytes} (ha : σ.arrays[s.arr]? = some a) :
    (sortedStore σ s).arrays[s.arr]? = some (SortByteArrays (a.take s.len) ++ a.drop s.len) := by
  have hlt : s.arr < σ.arrays.length := (List.getElem?_eq_some_iff.mp ha).1
  unfold sortedStore Store.keys
  dsimp only
  rw [List.getElem?_set_self hlt, List.getD_eq_getElem?_getD, ha, Option.getD_some]

theorem sortedStore_keys {σ : Store} {s : RefSlice} (h : Fits σ s) : (sortedStore σ s).keys s = SortByteArrays (σ.keys s) ∧ Fits (sortedStore σ s) s := by
  have h1 := h.1
  rcases Nat.eq_zero_or_pos s.cap with h0 | h0
  · refine ⟨?_, h.1, Or.inl h0⟩
    unfold Store.keys
    rw [show s.len = 0 by omega]; simp [SortByteArrays]
  · obtain ⟨a, ha, hl⟩ := h.array h0
    have hs := sortedStore_array ha
    have hk : σ.keys s = a.take s.len := by unfold Store.keys; rw [List.getD_eq_getElem?_getD, ha]; rfl
    have hlen := sort_length σ h
    rw [hk] at hlen
    refine ⟨?_, h.1, Or.inr ⟨_, hs, by rw [List.length_append, hlen, List.length_drop]; omega⟩⟩
    conv_lhs => unfold Store.keys
    rw [List.getD_eq_getElem?_getD, hs, Option.getD_some, hk]
    rw [List.take_append_of_le_length (by omega), List.take_of_length_le (by omega)]

theorem sortedStore_other {σ : Store} {s u : RefSlice} (hu : Fits σ u) (hd : s.cap = 0 ∨ u.cap = 0 ∨ s.arr ≠ u.arr) (hs : Fits σ s) :
    (sortedStore σ s).keys u = σ.keys u ∧ Fits (sortedStore σ s) u := by
  have hu1 := hu.1
  rcases Nat.eq_zero_or_pos u.cap with h0 | h0
  · refine ⟨?_, hu.1, Or.inl h0⟩
    unfold Store.keys
    rw [show u.len = 0 by omega]; simp
  · obtain ⟨a, ha, hl⟩ := hu.array h0
    have key : (sortedStore σ s).arrays[u.arr]? = some a := by
      by_cases he : s.arr = u.arr
      · have hc : s.cap = 0 := by rcases hd with h | h | h <;> omega
        have hl0 : s.len = 0 := by have := hs.1; omega
        rw [← he] at ha ⊢
        rw [sortedStore_array ha, hl0]
        simp [SortByteArrays]
      · unfold sortedStore
        dsimp only
        rw [List.getElem?_set_ne he]; exact ha
    refine ⟨?_, hu.1, Or.inr ⟨a, key, hl⟩⟩
    unfold Store.keys
    rw [List.getD_eq_getElem?_getD, List.getD_eq_getElem?_getD, key, ha]

theorem get_eq {σ : Store} {r : Nat} {o : RsObj} (ho : σ.objs[r]? = some o) :
    GetRedeemScript σ r = .ok (sortedStore σ o.PublicKeys, (Verif.GetRedeemScript ⟨o.SignaturesRequired, σ.keys o.PublicKeys, []⟩).1) := by
  unfold GetRedeemScript
  rw [index_ok'.mpr ho]
  rfl

theorem add_eq {σ : Store} {r : Nat} {o : RsObj} (g : Nat → Nat) (hd : HDKeychain) (pkey : Bytes) (path : List UInt32) (ho : σ.objs[r]? = some o) :
    AddPublicKey g hd σ r pkey path = if path.length ≠ 2 then .err "We only support derivation paths with exactly 2 levels"
      else (hd.derive pkey (path.getD 0 0) (path.getD 1 0) >>= fun pk =>
        pure { (σ.append g o.PublicKeys pk).1 with objs := (σ.append g o.PublicKeys pk).1.objs.set r { o with PublicKeys := (σ.append g o.PublicKeys pk).2 } }) := by
  unfold AddPublicKey
  rw [index_ok'.mpr ho]
  rfl

/-! ## Histories without copies -/

/-- The structs show the values, and no two of them share an array. -/
structure Sim (σ : Store) (v : List RedeemScript) : Prop where
  len : σ.objs.length = v.length
  shows : ∀ (r : Nat) (o : RsObj) (x : RedeemScript), σ.objs[r]? = some o → v[r]? = some x → o.SignaturesRequired = x.SignaturesRequired ∧ σ.keys o.PublicKeys = x.PublicKeys
  fits : ∀ (r : Nat) (o : RsObj), σ.objs[r]? = some o → Fits σ o.PublicKeys
  sep : ∀ (r u : Nat) (o p : RsObj), r ≠ u → σ.objs[r]? = some o → σ.objs[u]? = some p →
    o.PublicKeys.cap = 0 ∨ p.PublicKeys.cap = 0 ∨ o.PublicKeys.arr ≠ p.PublicKeys.arr

theorem Sim.obj {σ : Store} {v : List RedeemScript} (h : Sim σ v) {r : Nat} {x : RedeemScript} (hx : v[r]? = some x) : ∃ o, σ.objs[r]? = some o := by
  have := (List.getElem?_eq_some_iff.mp hx).1
  exact ⟨_, List.getElem?_eq_getElem (by rw [h.len]; exact this)⟩

theorem Sim.val {σ : Store} {v : List RedeemScript} (h : Sim σ v) {r : Nat} {o : RsObj} (hx : σ.objs[r]? = some o) : ∃ x, v[r]? = some x := by
  have := (List.getElem?_eq_some_iff.mp hx).1
  exact ⟨_, List.getElem?_eq_getElem (by rw [← h.len]; exact this)⟩

/-- Changing one struct. -/
theorem Sim.update {σ τ : Store} {v : List RedeemScript} (h : Sim σ v) {r : Nat} {o o' : RsObj} {x' : RedeemScript} (ho : σ.objs[r]? = some o)
    (hobjs : τ.objs = σ.objs.set r o') (hm : o'.SignaturesRequired = x'.SignaturesRequired) (hk : τ.keys o'.PublicKeys = x'.PublicKeys)
    (hf : Fits τ o'.PublicKeys)
    (hother : ∀ (u : Nat) (p : RsObj), u ≠ r → σ.objs[u]? = some p → τ.keys p.PublicKeys = σ.keys p.PublicKeys ∧ Fits τ p.PublicKeys)
    (hsep : ∀ (u : Nat) (p : RsObj), u ≠ r → σ.objs[u]? = some p → o'.PublicKeys.cap = 0 ∨ p.PublicKeys.cap = 0 ∨ o'.PublicKeys.arr ≠ p.PublicKeys.arr) :
    Sim τ (v.set r x') := by
  have hlt : r < σ.objs.length := (List.getElem?_eq_some_iff.mp ho).1
  have hlv : r < v.length := by rw [← h.len]; exact hlt
  refine ⟨by rw [hobjs, List.length_set, List.length_set, h.len], ?_, ?_, ?_⟩
  · intro u p y hp hy
    rw [hobjs] at hp
    by_cases hu : u = r
    · subst hu
      rw [List.getElem?_set_self hlt, Option.some.injEq] at hp
      rw [List.getElem?_set_self hlv, Option.some.injEq] at hy
      subst hp hy
      exact ⟨hm, hk⟩
    · rw [List.getElem?_set_ne (Ne.symm hu)] at hp hy
      rw [(hother u p hu hp).1]
      exact h.shows u p y hp hy
  · intro u p hp
    rw [hobjs] at hp
    by_cases hu : u = r
    · subst hu
      rw [List.getElem?_set_self hlt, Option.some.injEq] at hp
      subst hp; exact hf
    · rw [List.getElem?_set_ne (Ne.symm hu)] at hp
      exact (hother u p hu hp).2
  · intro a b p q hab hp hq
    rw [hobjs] at hp hq
    by_cases ha : a = r
    · subst ha
      rw [List.getElem?_set_self hlt, Option.some.injEq] at hp
      rw [List.getElem?_set_ne hab] at hq
      subst hp
      exact hsep b q (Ne.symm hab) hq
    · rw [List.getElem?_set_ne (Ne.symm ha)] at hp
      by_cases hb : b = r
      · subst hb
        rw [List.getElem?_set_self hlt, Option.some.injEq] at hq
        subst hq
        rcases hsep a p ha hp with h | h | h
        · exact Or.inr (Or.inl h)
        · exact Or.inl h
        · exact Or.inr (Or.inr (Ne.symm h))
      · rw [List.getElem?_set_ne (Ne.symm hb)] at hq
        exact h.sep a b p q hab hp hq

theorem append_arr (g : Nat → Nat) (σ : Store) (s : RefSlice) (pk : Bytes) :
    (s.len < s.cap ∧ (σ.append g s pk).2.arr = s.arr) ∨ (σ.append g s pk).2.arr = σ.arrays.length := by
  unfold Store.append
  split_ifs with h
  · exact Or.inl ⟨h, rfl⟩
  · exact Or.inr rfl

theorem Sim.add {σ : Store} {v : List RedeemScript} (h : Sim σ v) (g : Nat → Nat) {r : Nat} {o : RsObj} {x : RedeemScript} (ho : σ.objs[r]? = some o)
    (hx : v[r]? = some x) (pk : Bytes) :
    Sim { (σ.append g o.PublicKeys pk).1 with objs := (σ.append g o.PublicKeys pk).1.objs.set r { o with PublicKeys := (σ.append g o.PublicKeys pk).2 } }
      (v.set r { x with PublicKeys := x.PublicKeys ++ [pk] }) := by
  obtain ⟨hm, hk⟩ := h.shows r o x ho hx
  obtain ⟨a1, a2, a3⟩ := append_keys g (h.fits r o ho) pk
  refine h.update (o' := { o with PublicKeys := (σ.append g o.PublicKeys pk).2 }) ho (by dsimp only; rw [a3]) hm ?_ a2 ?_ ?_
  · show (σ.append g o.PublicKeys pk).1.keys (σ.append g o.PublicKeys pk).2 = _
    rw [a1, hk]
  · intro u p hu hp
    exact append_other g pk (h.fits u p hp) (h.sep r u o p (Ne.symm hu) ho hp)
  · intro u p hu hp
    rcases append_arr g σ o.PublicKeys pk with ⟨hr, e⟩ | e
    · rcases h.sep r u o p (Ne.symm hu) ho hp with h' | h' | h'
      · omega
      · exact Or.inr (Or.inl h')
      · right; right; rw [e]; exact h'
    · rcases Nat.eq_zero_or_pos p.PublicKeys.cap with h0 | h0
      · exact Or.inr (Or.inl h0)
      · obtain ⟨a, ha, _⟩ := (h.fits u p hp).array h0
        have := (List.getElem?_eq_some_iff.mp ha).1
        right; right; rw [e]; omega

theorem Sim.get {σ : Store} {v : List RedeemScript} (h : Sim σ v) {r : Nat} {o : RsObj} {x : RedeemScript} (ho : σ.objs[r]? = some o)
    (hx : v[r]? = some x) : Sim (sortedStore σ o.PublicKeys) (v.set r (Verif.GetRedeemScript x).2) := by
  obtain ⟨hm, hk⟩ := h.shows r o x ho hx
  have hf := h.fits r o ho
  have hlt := (List.getElem?_eq_some_iff.mp ho).1
  refine h.update (o' := o) ho ?_ hm ?_ (sortedStore_keys hf).2 ?_ ?_
  · show σ.objs = _
    rw [← (List.getElem?_eq_some_iff.mp ho).2, List.set_getElem_self]
  · rw [(sortedStore_keys hf).1, hk]; rfl
  · intro u p hu hp
    exact sortedStore_other (h.fits u p hp) (h.sep r u o p (Ne.symm hu) ho hp) hf
  · intro u p hu hp
    exact h.sep r u o p (Ne.symm hu) ho hp

theorem Sim.new {σ : Store} {v : List RedeemScript} (h : Sim σ v) (m : Int) (rs : RedeemScript) (hrs : NewRedeemScript m = .ok rs) :
    Sim { σ with objs := σ.objs ++ [⟨rs.SignaturesRequired, ⟨0, 0, 0⟩⟩] } (v ++ [rs]) := by
  have hk : rs.PublicKeys = [] := by
    unfold NewRedeemScript at hrs
    split_ifs at hrs
    rw [Res.ok.injEq] at hrs
    rw [← hrs]
  have old : ∀ {r : Nat} {o : RsObj}, (σ.objs ++ [(⟨rs.SignaturesRequired, ⟨0, 0, 0⟩⟩ : RsObj)])[r]? = some o →
      (σ.objs[r]? = some o ∧ r < σ.objs.length) ∨ (r = σ.objs.length ∧ o = ⟨rs.SignaturesRequired, ⟨0, 0, 0⟩⟩) := by
    intro r o hr
    by_cases hlt : r < σ.objs.length
    · rw [List.getElem?_append_left hlt] at hr; exact Or.inl ⟨hr, hlt⟩
    · rw [List.getElem?_append_right (by omega)] at hr
      obtain ⟨h1, h2⟩ := List.getElem?_eq_some_iff.mp hr
      simp at h1
      right
      refine ⟨by omega, ?_⟩
      rw [← h2]; simp
  refine ⟨by simp [h.len], ?_, ?_, ?_⟩
  · intro r o x ho hx
    rcases old ho with ⟨h1, hlt⟩ | ⟨rfl, rfl⟩
    · rw [List.getElem?_append_left (by rw [← h.len]; exact hlt)] at hx
      exact h.shows r o x h1 hx
    · rw [h.len, List.getElem?_append_right (le_refl _), Nat.sub_self] at hx
      simp at hx
      subst hx
      exact ⟨rfl, by rw [hk]; simp [Store.keys]⟩
  · intro r o ho
    rcases old ho with ⟨h1, _⟩ | ⟨_, rfl⟩
    · exact h.fits r o h1
    · exact ⟨le_refl _, Or.inl rfl⟩
  · intro a b p q hab hp hq
    rcases old hp with ⟨h1, _⟩ | ⟨ea, rfl⟩
    · rcases old hq with ⟨h2, _⟩ | ⟨_, rfl⟩
      · exact h.sep a b p q hab h1 h2
      · exact Or.inr (Or.inl rfl)
    · exact Or.inl rfl

/-- One call. -/
theorem Sim.call {σ : Store} {v : List RedeemScript} (h : Sim σ v) (g : Nat → Nat) (hd : HDKeychain) (c : Call) (hc : c.NoCopy) :
    (c.run g hd σ = .panic ∧ c.runValues hd v = .panic) ∨ ∃ σ' v', c.run g hd σ = .ok σ' ∧ c.runValues hd v = .ok v' ∧ Sim σ' v' := by
  cases c with
  | copy r => exact hc.elim
  | new m =>
    unfold Call.run Call.runValues New
    dsimp only
    rcases hn : NewRedeemScript m with rs | e | _
    · exact Or.inr ⟨_, _, rfl, rfl, h.new m rs hn⟩
    · exact Or.inr ⟨σ, v, rfl, rfl, h⟩
    · exact Or.inl ⟨rfl, rfl⟩
  | add r pkey path =>
    unfold Call.run Call.runValues
    dsimp only
    rcases ho : σ.objs[r]? with _ | o
    · have hv : v[r]? = none := by
        rw [List.getElem?_eq_none_iff] at ho ⊢
        rw [← h.len]; exact ho
      left
      unfold AddPublicKey index
      rw [ho, hv]; exact ⟨rfl, rfl⟩
    · obtain ⟨x, hx⟩ := h.val ho
      rw [add_eq g hd pkey path ho, index_ok'.mpr hx, Res.ok_bind]
      unfold Verif.AddPublicKey
      by_cases hp : path.length ≠ 2
      · rw [if_pos hp, if_pos hp]; exact Or.inr ⟨σ, v, rfl, rfl, h⟩
      · rw [if_neg hp, if_neg hp]
        rcases hd.derive pkey (path.getD 0 0) (path.getD 1 0) with pk | e | _
        · right
          simp only [Res.ok_bind, Res.pure_eq]
          exact ⟨_, _, rfl, rfl, h.add g ho hx pk⟩
        · exact Or.inr ⟨σ, v, rfl, rfl, h⟩
        · exact Or.inl ⟨rfl, rfl⟩
  | get r =>
    unfold Call.run Call.runValues
    dsimp only
    rcases ho : σ.objs[r]? with _ | o
    · have hv : v[r]? = none := by
        rw [List.getElem?_eq_none_iff] at ho ⊢
        rw [← h.len]; exact ho
      left
      unfold GetRedeemScript index
      rw [ho, hv]; exact ⟨rfl, rfl⟩
    · obtain ⟨x, hx⟩ := h.val ho
      right
      rw [get_eq ho, index_ok'.mpr hx]
      exact ⟨_, _, rfl, rfl, h.get ho hx⟩

theorem Sim.calls (g : Nat → Nat) (hd : HDKeychain) (cs : List Call) (hcs : ∀ c ∈ cs, c.NoCopy) : ∀ {σ : Store} {v : List RedeemScript}, Sim σ v →
    (runCalls g hd cs σ = .panic ∧ runValues hd cs v = .panic) ∨ ∃ σ' v', runCalls g hd cs σ = .ok σ' ∧ runValues hd cs v = .ok v' ∧ Sim σ' v' := by
  induction cs with
  | nil => intro σ v h; exact Or.inr ⟨σ, v, rfl, rfl, h⟩
  | cons c cs ih =>
    intro σ v h
    unfold runCalls runValues
    rcases h.call g hd c (hcs c (by simp)) with ⟨h1, h2⟩ | ⟨σ', v', h1, h2, h3⟩
    · rw [h1, h2]; exact Or.inl ⟨rfl, rfl⟩
    · rw [h1, h2, Res.ok_bind, Res.ok_bind]; exact ih (fun c hc => hcs c (by simp [hc])) h3

/-! ## Histories with copies: only the counts follow the values -/

/-- The structs hold as many keys as the values. -/
structure Count (σ : Store) (v : List RedeemScript) : Prop where
  len : σ.objs.length = v.length
  shows : ∀ (r : Nat) (o : RsObj) (x : RedeemScript), σ.objs[r]? = some o → v[r]? = some x → o.SignaturesRequired = x.SignaturesRequired ∧ o.PublicKeys.len = x.PublicKeys.length
  wf : WF σ

theorem Count.val {σ : Store} {v : List RedeemScript} (h : Count σ v) {r : Nat} {o : RsObj} (hx : σ.objs[r]? = some o) : ∃ x, v[r]? = some x := by
  have := (List.getElem?_eq_some_iff.mp hx).1
  exact ⟨_, List.getElem?_eq_getElem (by rw [← h.len]; exact this)⟩

/-- No array gets shorter. -/
def Keeps (σ τ : Store) : Prop := ∀ (i : Nat) (a : List Bytes), σ.arrays[i]? = some a → ∃ b, τ.arrays[i]? = some b ∧ a.length ≤ b.length

theorem Fits.keeps {σ τ : Store} {s : RefSlice} (h : Fits σ s) (hk : Keeps σ τ) : Fits τ s := by
  refine ⟨h.1, ?_⟩
  rcases h.2 with h0 | ⟨a, ha, hl⟩
  · exact Or.inl h0
  · obtain ⟨b, hb, hl'⟩ := hk _ a ha
    exact Or.inr ⟨b, hb, by omega⟩

theorem append_keeps (g : Nat → Nat) (σ : Store) (s : RefSlice) (pk : Bytes) : Keeps σ (σ.append g s pk).1 := by
  intro i a ha
  have hlt := (List.getElem?_eq_some_iff.mp ha).1
  unfold Store.append
  split_ifs with h
  · dsimp only
    by_cases e : s.arr = i
    · subst e
      rw [List.getElem?_set_self hlt]
      exact ⟨_, rfl, by rw [List.getD_eq_getElem?_getD, ha]; simp⟩
    · rw [List.getElem?_set_ne e]; exact ⟨a, ha, le_refl _⟩
  · dsimp only
    rw [List.getElem?_append_left hlt]; exact ⟨a, ha, le_refl _⟩

theorem sorted_keeps (σ : Store) (s : RefSlice) : Keeps σ (sortedStore σ s) := by
  intro i a ha
  by_cases e : s.arr = i
  · subst e
    refine ⟨_, sortedStore_array ha, ?_⟩
    rw [List.length_append, (C05_sort_perm _).length_eq, ← List.length_append, List.take_append_drop]
  · unfold sortedStore
    dsimp only
    rw [List.getElem?_set_ne e]; exact ⟨a, ha, le_refl _⟩

theorem Count.update {σ τ : Store} {v : List RedeemScript} (h : Count σ v) {r : Nat} {o o' : RsObj} {x' : RedeemScript} (ho : σ.objs[r]? = some o)
    (hobjs : τ.objs = σ.objs.set r o') (hm : o'.SignaturesRequired = x'.SignaturesRequired) (hk : o'.PublicKeys.len = x'.PublicKeys.length)
    (hf : Fits τ o'.PublicKeys) (hkeep : Keeps σ τ) : Count τ (v.set r x') := by
  have hlt : r < σ.objs.length := (List.getElem?_eq_some_iff.mp ho).1
  have hlv : r < v.length := by rw [← h.len]; exact hlt
  refine ⟨by rw [hobjs, List.length_set, List.length_set, h.len], ?_, ?_⟩
  · intro u p y hp hy
    rw [hobjs] at hp
    by_cases hu : u = r
    · subst hu
      rw [List.getElem?_set_self hlt, Option.some.injEq] at hp
      rw [List.getElem?_set_self hlv, Option.some.injEq] at hy
      subst hp hy
      exact ⟨hm, hk⟩
    · rw [List.getElem?_set_ne (Ne.symm hu)] at hp hy
      exact h.shows u p y hp hy
  · intro u p hp
    rw [hobjs] at hp
    by_cases hu : u = r
    · subst hu
      rw [List.getElem?_set_self hlt, Option.some.injEq] at hp
      subst hp; exact hf
    · rw [List.getElem?_set_ne (Ne.symm hu)] at hp
      exact (h.wf u p hp).keeps hkeep

theorem Count.push {σ : Store} {v : List RedeemScript} (h : Count σ v) (o : RsObj) (x : RedeemScript) (hm : o.SignaturesRequired = x.SignaturesRequired)
    (hk : o.PublicKeys.len = x.PublicKeys.length) (hf : Fits σ o.PublicKeys) : Count { σ with objs := σ.objs ++ [o] } (v ++ [x]) := by
  refine ⟨by simp [h.len], ?_, ?_⟩
  · intro u p y hp hy
    dsimp only at hp
    by_cases hu : u < σ.objs.length
    · rw [List.getElem?_append_left hu] at hp
      rw [List.getElem?_append_left (by rw [← h.len]; exact hu)] at hy
      exact h.shows u p y hp hy
    · rw [List.getElem?_append_right (by omega)] at hp
      rw [List.getElem?_append_right (by have := h.len; omega)] at hy
      obtain ⟨e1, rfl⟩ := List.getElem?_eq_some_iff.mp hp
      obtain ⟨e2, rfl⟩ := List.getElem?_eq_some_iff.mp hy
      simp [hm, hk]
  · intro u p hp
    dsimp only at hp
    by_cases hu : u < σ.objs.length
    · rw [List.getElem?_append_left hu] at hp; exact h.wf u p hp
    · rw [List.getElem?_append_right (by omega)] at hp
      obtain ⟨e1, rfl⟩ := List.getElem?_eq_some_iff.mp hp
      simp only [List.getElem_singleton]
      exact hf.keeps (fun i a ha => ⟨a, ha, le_refl _⟩)

theorem Count.call {σ : Store} {v : List RedeemScript} (h : Count σ v) (g : Nat → Nat) (hd : HDKeychain) (c : Call) :
    (c.run g hd σ = .panic ∧ c.runValues hd v = .panic) ∨ ∃ σ' v', c.run g hd σ = .ok σ' ∧ c.runValues hd v = .ok v' ∧ Count σ' v' := by
  have none_of : ∀ r : Nat, σ.objs[r]? = none → v[r]? = none := by
    intro r ho
    rw [List.getElem?_eq_none_iff] at ho ⊢
    rw [← h.len]; exact ho
  cases c with
  | copy r =>
    unfold Call.run Call.runValues Copy
    dsimp only
    rcases ho : σ.objs[r]? with _ | o
    · left; unfold index; rw [ho, none_of r ho]; exact ⟨rfl, rfl⟩
    · obtain ⟨x, hx⟩ := h.val ho
      rw [index_ok'.mpr ho, index_ok'.mpr hx]
      obtain ⟨h1, h2⟩ := h.shows r o x ho hx
      exact Or.inr ⟨_, _, rfl, rfl, h.push o x h1 h2 (h.wf r o ho)⟩
  | new m =>
    unfold Call.run Call.runValues New
    dsimp only
    rcases hn : NewRedeemScript m with rs | e | _
    · have hk : rs.PublicKeys = [] := by
        unfold NewRedeemScript at hn
        split_ifs at hn
        rw [Res.ok.injEq] at hn
        rw [← hn]
      exact Or.inr ⟨_, _, rfl, rfl, h.push _ rs rfl (by simp [hk]) ⟨le_refl _, Or.inl rfl⟩⟩
    · exact Or.inr ⟨σ, v, rfl, rfl, h⟩
    · exact Or.inl ⟨rfl, rfl⟩
  | add r pkey path =>
    unfold Call.run Call.runValues
    dsimp only
    rcases ho : σ.objs[r]? with _ | o
    · left
      unfold AddPublicKey index
      rw [ho, none_of r ho]; exact ⟨rfl, rfl⟩
    · obtain ⟨x, hx⟩ := h.val ho
      obtain ⟨h1, h2⟩ := h.shows r o x ho hx
      rw [add_eq g hd pkey path ho, index_ok'.mpr hx, Res.ok_bind]
      unfold Verif.AddPublicKey
      by_cases hp : path.length ≠ 2
      · rw [if_pos hp, if_pos hp]; exact Or.inr ⟨σ, v, rfl, rfl, h⟩
      · rw [if_neg hp, if_neg hp]
        rcases hd.derive pkey (path.getD 0 0) (path.getD 1 0) with pk | e | _
        · right
          simp only [Res.ok_bind, Res.pure_eq]
          obtain ⟨a1, a2, a3⟩ := append_keys g (h.wf r o ho) pk
          refine ⟨_, _, rfl, rfl, h.update (o' := { o with PublicKeys := (σ.append g o.PublicKeys pk).2 }) ho (by dsimp only; rw [a3]) h1 ?_ a2 (append_keeps g σ _ pk)⟩
          have := keys_length a2
          rw [a1, List.length_append, keys_length (h.wf r o ho)] at this
          simp [← h2, ← this]
        · exact Or.inr ⟨σ, v, rfl, rfl, h⟩
        · exact Or.inl ⟨rfl, rfl⟩
  | get r =>
    unfold Call.run Call.runValues
    dsimp only
    rcases ho : σ.objs[r]? with _ | o
    · left
      unfold GetRedeemScript index
      rw [ho, none_of r ho]; exact ⟨rfl, rfl⟩
    · obtain ⟨x, hx⟩ := h.val ho
      obtain ⟨h1, h2⟩ := h.shows r o x ho hx
      right
      rw [get_eq ho, index_ok'.mpr hx]
      refine ⟨_, _, rfl, rfl, h.update (o' := o) ho ?_ h1 ?_ (sortedStore_keys (h.wf r o ho)).2 (sorted_keeps σ o.PublicKeys)⟩
      · show σ.objs = _
        rw [← (List.getElem?_eq_some_iff.mp ho).2, List.set_getElem_self]
      · show _ = (SortByteArrays x.PublicKeys).length
        rw [(C05_sort_perm _).length_eq, h2]

theorem Count.calls (g : Nat → Nat) (hd : HDKeychain) (cs : List Call) : ∀ {σ : Store} {v : List RedeemScript}, Count σ v →
    (runCalls g hd cs σ = .panic ∧ runValues hd cs v = .panic) ∨ ∃ σ' v', runCalls g hd cs σ = .ok σ' ∧ runValues hd cs v = .ok v' ∧ Count σ' v' := by
  induction cs with
  | nil => intro σ v h; exact Or.inr ⟨σ, v, rfl, rfl, h⟩
  | cons c cs ih =>
    intro σ v h
    unfold runCalls runValues
    rcases h.call g hd c with ⟨h1, h2⟩ | ⟨σ', v', h1, h2, h3⟩
    · rw [h1, h2]; exact Or.inl ⟨rfl, rfl⟩
    · rw [h1, h2, Res.ok_bind, Res.ok_bind]; exact ih h3

end Verif.RObj
