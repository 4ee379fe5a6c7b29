import Verif.Spec.ConcRedeem
import Verif.Lemmas.ConcRedeem
/-!
# C124: goroutines that ask for a redeem script while others add keys
-/
namespace Verif.Props
open Verif Verif.Spec
open Verif.Build (Pool Loc Access)
open Verif.Obj (RefSlice)
open Verif.Redeem (SortAlg)

theorem redeemKeys_eq (ks : List Bytes) : redeemKeys ks = ks.flatMap (fun k => [UInt8.ofNat k.length] ++ k) := by
  induction ks with
  | nil => rfl
  | cons k ks ih => simp [redeemKeys, ih]

theorem encodeRedeem_eq (m : Int) (ks : List Bytes) (n : Nat) : Redeem.encode m ks n = scriptSaying m ks n := by
  have : byteOfInt (n : Int) = UInt8.ofNat n := by
    apply UInt8.toNat_inj.mp
    unfold byteOfInt
    rw [UInt8.toNat_ofNat', UInt8.toNat_ofNat']
    omega
  unfold Redeem.encode scriptSaying
  rw [redeemKeys_eq, this]
  rfl

theorem getRedeemScript_eq (m : Int) (keys sigs : List Bytes) : (GetRedeemScript ⟨m, keys, sigs⟩).1 = scriptSaying m (SortByteArrays keys) keys.length := by
  rw [← (C05_sort_perm keys).length_eq, ← encodeRedeem_eq]
  rfl

theorem start_inside {p : Pool Bytes} (ok : SliceOK p) : Keys.Inside p p.hdr := ok

theorem threads_start (alg : SortAlg) (p : Pool Bytes) (added : List Bytes) (n u : Nat) :
    (Keys.start alg p added n).app.threads[u]? = (added[u]?).map fun k => ⟨0, k, .load⟩ := by
  simp [Keys.start, Build.start, List.getElem?_map]
  rfl

theorem sorted_len (l : List Bytes) : (SortByteArrays l).length = l.length := (C05_sort_perm l).length_eq

/-- C124, violated: keys that are added while somebody asks for the script can be lost. For every redeem script and all keys that are added by goroutines of their own, there is a schedule after which all calls have returned without error, the
call returned the script without the new keys, and the redeem script has none of them: it has the keys it had, sorted. -/
theorem C124_lost (alg : SortAlg) (hs : Sorts alg) (m : Int) (g : Nat → Nat) (p : Pool Bytes) (ok : SliceOK p) (added : List Bytes) :
    ∃ sch, let s := Keys.run alg m g (Keys.start alg p added 1) sch
      s.crashed = false ∧ (∀ t, t < added.length → KeyAdded s t) ∧ GotScript s 0 (scriptSaying m (SortByteArrays p.val) p.val.length) ∧ s.keys = SortByteArrays p.val := by
  have hi := start_inside ok
  have hl : p.val.length = p.hdr.len := Keys.elems_len hi
  obtain ⟨N1, s1, e1, c1, t1, p1, q1, l1⟩ := Keys.goes_run g (Keys.goes_store hs m p hi) (s := Keys.start alg p added 1) (i := 0) rfl rfl rfl
  have hle : (SortByteArrays p.val).length ≤ (p.arrays.getD p.hdr.arr []).length := by rw [sorted_len, hl]; have := hi.1; have := hi.2; omega
  have hthr : ∀ u ∈ List.range added.length, ∃ f x, s1.app.threads[u]? = some ⟨f, x, .load⟩ := by
    intro u hu
    rw [t1, threads_start, List.getElem?_eq_getElem (by simpa using hu)]
    exact ⟨_, _, rfl⟩
  obtain ⟨sch, h1, h2, h3, h4, h5⟩ := adders_run g (List.range added.length) s1.app List.nodup_range (by
      intro f
      by_cases hf : f = 0
      · subst hf; rw [p1]; exact hi.put hle
      · rw [q1 f hf]; exact ok) hthr
  have hlen1 : s1.app.threads.length = added.length := by rw [t1]; simp [Keys.start, Build.start]
  have e2 := Keys.run_adders (m := m) g sch s1 c1 (by intro t ht; rw [hlen1]; simpa using h1 t ht)
  have he : ((Build.run g s1.app sch).pool 0).elems p.hdr = SortByteArrays p.val := by
    rw [h5 0 p.hdr (by rw [p1]; exact Nat.le_refl _) (by rw [p1]; exact hi.put hle), p1]
    exact Keys.put_elems hi (by rw [sorted_len, hl])
  have hrest : Keys.Goes alg m ((Build.run g s1.app sch).pool 0) (.store p.hdr) { (Build.run g s1.app sch).pool 0 with hdr := p.hdr } (.done (scriptSaying m (SortByteArrays p.val) p.val.length)) := by
    refine .step (acc := [(true, .header 0)]) rfl (.step (acc := [(false, .header 0)]) rfl ?_)
    have gr := Keys.goes_read (alg := alg) m { (Build.run g s1.app sch).pool 0 with hdr := p.hdr } p.hdr (by
      show (((Build.run g s1.app sch).pool 0).elems p.hdr).length = _
      rw [he, sorted_len, hl])
    have he' : Pool.elems { (Build.run g s1.app sch).pool 0 with hdr := p.hdr } p.hdr = SortByteArrays p.val := he
    rw [he'] at gr
    refine gr.trans (Keys.Goes.one (acc := [(false, .header 0)]) ?_)
    simp only [Keys.cstep, encodeRedeem_eq, hl]
  obtain ⟨N2, s2, e3, c2, t2, p2, -, l2⟩ := Keys.goes_run g hrest (s := { s1 with app := Build.run g s1.app sch }) (i := 0) c1 rfl (by
    show s1.calls[0]? = _
    rw [l1]; rfl)
  refine ⟨List.replicate N1 ((Keys.start alg p added 1).app.threads.length + 0) ++ (sch ++ List.replicate N2 ((Build.run g s1.app sch).threads.length + 0)), ?_⟩
  rw [Keys.run_append, e1, Keys.run_append, e2, e3]
  refine ⟨c2, ?_, ?_, ?_⟩
  · intro t ht
    obtain ⟨th, k1, k2⟩ := h2 t (by simpa using ht)
    exact ⟨th, by rw [t2]; exact k1, k2⟩
  · unfold GotScript
    rw [l2]
    show (s1.calls.set 0 _)[0]? = _
    rw [l1]; rfl
  · show (s2.app.pool 0).val = _
    rw [p2]
    exact he

/-- C124, violated: a script can claim more keys than it has. For every redeem script and all keys that are added by goroutines of their own, there is a schedule on which the call returns a script with the old keys that claims to have the
number of keys after the additions, although nothing is lost. -/
theorem C124_miscount (alg : SortAlg) (hs : Sorts alg) (m : Int) (g : Nat → Nat) (p : Pool Bytes) (ok : SliceOK p) (added : List Bytes) :
    ∃ sch, let s := Keys.run alg m g (Keys.start alg p added 1) sch
      s.crashed = false ∧ (∀ t, t < added.length → KeyAdded s t) ∧ GotScript s 0 (scriptSaying m (SortByteArrays p.val) (p.val.length + added.length)) ∧
      s.keys = SortByteArrays p.val ++ added := by
  have hi := start_inside ok
  have hl : p.val.length = p.hdr.len := Keys.elems_len hi
  have hle : (SortByteArrays p.val).length ≤ (p.arrays.getD p.hdr.arr []).length := by rw [sorted_len, hl]; have := hi.1; have := hi.2; omega
  have hi' : Keys.Inside (Keys.put p p.hdr (SortByteArrays p.val)) p.hdr := hi.put hle
  have he : (Keys.put p p.hdr (SortByteArrays p.val)).elems p.hdr = SortByteArrays p.val := Keys.put_elems hi (by rw [sorted_len, hl])
  have h1 : Keys.Goes alg m p .load (Keys.put p p.hdr (SortByteArrays p.val)) (.count (SortByteArrays p.val)) := by
    refine (Keys.goes_store hs m p hi).trans (.step (acc := [(true, .header 0)]) rfl (.step (acc := [(false, .header 0)]) rfl ?_))
    have g := Keys.goes_read (alg := alg) m (Keys.put p p.hdr (SortByteArrays p.val)) p.hdr (Keys.elems_len hi')
    rw [he] at g
    exact g
  obtain ⟨N1, s1, e1, c1, t1, p1, q1, l1⟩ := Keys.goes_run g h1 (s := Keys.start alg p added 1) (i := 0) rfl rfl rfl
  have hlen1 : s1.app.threads.length = added.length := by rw [t1]; simp [Keys.start, Build.start]
  have hv1 : (s1.app.pool 0).val = SortByteArrays p.val := by rw [p1]; exact he
  obtain ⟨k1, k2, k3, k4⟩ := inTurn g 0 ((s1.app.pool 0).val.length + (List.range added.length).length + 4) (List.range added.length) added s1.app List.nodup_range (by rw [p1]; exact hi')
    (by
      rw [List.forall₂_iff_get]
      refine ⟨by simp, fun i h1 h2 => ?_⟩
      rw [t1, threads_start]
      simp at h1 h2 ⊢) (Nat.le_refl _)
  generalize hsch : ((List.range added.length).flatMap fun u => List.replicate ((s1.app.pool 0).val.length + (List.range added.length).length + 4) u) = sch at *
  have e2 := Keys.run_adders (m := m) g sch s1 c1 (by
    intro t ht
    rw [hlen1]
    rw [← hsch] at ht
    obtain ⟨u, hu, ht⟩ := List.mem_flatMap.mp ht
    rw [List.eq_of_mem_replicate ht]
    simpa using hu)
  rw [hv1] at k2
  have hlen : ((Build.run g s1.app sch).pool 0).hdr.len = p.val.length + added.length := by
    rw [← val_length k3, k2, List.length_append, sorted_len]
  have h2 : Keys.Goes alg m ((Build.run g s1.app sch).pool 0) (.count (SortByteArrays p.val)) ((Build.run g s1.app sch).pool 0) (.done (scriptSaying m (SortByteArrays p.val) (p.val.length + added.length))) := by
    refine Keys.Goes.one (acc := [(false, .header 0)]) ?_
    simp only [Keys.cstep, encodeRedeem_eq, hlen]
  obtain ⟨N2, s2, e3, c2, t2, p2, -, l2⟩ := Keys.goes_run g h2 (s := { s1 with app := Build.run g s1.app sch }) (i := 0) c1 rfl (by
    show s1.calls[0]? = _
    rw [l1]; rfl)
  refine ⟨List.replicate N1 ((Keys.start alg p added 1).app.threads.length + 0) ++ (sch ++ List.replicate N2 ((Build.run g s1.app sch).threads.length + 0)), ?_⟩
  rw [Keys.run_append, e1, Keys.run_append, e2, e3]
  refine ⟨c2, ?_, ?_, ?_⟩
  · intro t ht
    obtain ⟨th, j1, j2⟩ := k4 t (by simpa using ht)
    exact ⟨th, by rw [t2]; exact j1, j2⟩
  · unfold GotScript
    rw [l2]
    show (s1.calls.set 0 _)[0]? = _
    rw [l1]; rfl
  · show (s2.app.pool 0).val = _
    rw [p2]
    exact k2

/-- The number of bytes of such a script when all keys are compressed. -/
theorem scriptSaying_length {m : Int} {keys : List Bytes} {n : Nat} (h : ∀ k ∈ keys, k.length = 33) : (scriptSaying m keys n).length = 34 * keys.length + 3 := by
  have : (keys.flatMap fun k => [UInt8.ofNat k.length] ++ k).length = 34 * keys.length := by
    induction keys with
    | nil => rfl
    | cons k ks ih =>
      rw [List.flatMap_cons, List.length_append, ih fun k hk => h k (List.mem_cons_of_mem _ hk)]
      simp [h k (List.mem_cons_self ..)]
      omega
  unfold scriptSaying
  simp only [List.length_append, List.length_singleton, this]
  omega

/-- C124: with compressed keys (33 bytes), and fewer than 256 added, the script of `C124_miscount` is the redeem script of no keys at all. -/
theorem C124_miscount_nobody (m m' : Int) (keys keys' sigs : List Bytes) (k : Nat) (hk : 0 < k ∧ k < 256) (h33 : ∀ x ∈ keys, x.length = 33) (h33' : ∀ x ∈ keys', x.length = 33) :
    (GetRedeemScript ⟨m', keys', sigs⟩).1 ≠ scriptSaying m (SortByteArrays keys) (keys.length + k) := by
  rw [getRedeemScript_eq]
  intro h
  have hp : ∀ (l : List Bytes), (∀ x ∈ l, x.length = 33) → ∀ x ∈ SortByteArrays l, x.length = 33 := fun l hl x hx => hl x ((C05_sort_perm l).mem_iff.mp hx)
  have h1 := congrArg List.length h
  rw [scriptSaying_length (hp _ h33'), scriptSaying_length (hp _ h33), sorted_len, sorted_len] at h1
  have hl : keys'.length = keys.length := by omega
  unfold scriptSaying at h
  have h2 := (List.append_inj' h rfl).1
  have h3 := (List.append_inj' h2 rfl).2
  simp only [List.cons.injEq, and_true] at h3
  have h4 := congrArg UInt8.toNat ((UInt8.add_right_inj _).mp h3)
  rw [UInt8.toNat_ofNat', UInt8.toNat_ofNat', hl] at h4
  omega

end Verif.Props
