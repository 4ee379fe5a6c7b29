import Verif.Lemmas.Heap
import Verif.Model.HeapSerial
import Verif.Spec.OwnMemory
/-! # Building a slice of one's own -/
namespace Verif.Ser
open Verif

/-- `m'` has all the arrays of `m`, unchanged. -/
structure Ext (m m' : Mem) : Prop where
  len : m.length ≤ m'.length
  same : ∀ a < m.length, m'.bytes a = m.bytes a

theorem Ext.refl (m : Mem) : Ext m m := ⟨Nat.le_refl _, fun _ _ => rfl⟩
theorem Ext.trans {a b c : Mem} (h : Ext a b) (k : Ext b c) : Ext a c :=
  ⟨h.len.trans k.len, fun x hx => (k.same x (Nat.lt_of_lt_of_le hx h.len)).trans (h.same x hx)⟩

theorem Ext.wf {m m' : Mem} (e : Ext m m') {x : Hdr} (w : x.WF m) : x.WF m' := w.mono e.len (by rw [e.same _ w.arr])
theorem Ext.data {m m' : Mem} (e : Ext m m') {x : Hdr} (w : x.WF m) : x.data m' = x.data m := Hdr.data_congr (e.same _ w.arr)

theorem ext_fresh (m : Mem) (b : Bytes) (n : Nat) : Ext m (m.fresh b n).1 :=
  ⟨by simp [Mem.fresh, Mem.alloc], fun _ h => Mem.fresh_old h⟩

/-- The slice `s.2` holds `d` and was made after `m`. -/
structure Built (m : Mem) (s : Mem × Hdr) (d : Bytes) : Prop where
  ext : Ext m s.1
  new : m.length ≤ s.2.arr
  wf : s.2.WF s.1
  data : s.2.data s.1 = d

theorem Built.own {m : Mem} {s : Mem × Hdr} {d : Bytes} (b : Built m s d) : OwnMemory m s := ⟨b.ext.same, b.new, b.wf⟩

theorem built_fresh (m : Mem) (b : Bytes) (n : Nat) : Built m (m.fresh b n) b :=
  ⟨ext_fresh m b n, Nat.le_refl _, Mem.fresh_wf m b n, Mem.fresh_data m b n⟩

theorem built_make0 (m : Mem) : Built m (make0 m) [] := built_fresh m [] 0

theorem append_old {grow : Nat} {m : Mem} {h : Hdr} {b : Bytes} {a : Nat} (ha : a < m.length) (hne : a ≠ h.arr) : (m.append grow h b).1.bytes a = m.bytes a := by
  unfold Mem.append
  split_ifs with c
  · exact Mem.bytes_write_ne hne
  · exact Mem.fresh_old ha

theorem append_arr {grow : Nat} {m : Mem} {h : Hdr} {b : Bytes} {n : Nat} (hn : n ≤ h.arr) (hm : n ≤ m.length) : n ≤ (m.append grow h b).2.arr := by
  unfold Mem.append
  split_ifs with c
  · exact hn
  · exact hm

theorem Built.app {m : Mem} {s : Mem × Hdr} {d : Bytes} (b : Built m s d) (g : Growth) (x : Bytes) : Built m (app g s x) (d ++ x) where
  ext := ⟨b.ext.len.trans Mem.append_length, fun a ha => by
    rw [← b.ext.same a ha]
    exact append_old (Nat.lt_of_lt_of_le ha b.ext.len) (by have := b.new; omega)⟩
  new := append_arr b.new b.ext.len
  wf := Mem.append_wf b.wf
  data := by unfold Ser.app; rw [Mem.append_data b.wf, b.data]

theorem Built.appRef {m : Mem} {s : Mem × Hdr} {d : Bytes} (b : Built m s d) (g : Growth) {x : Hdr} (w : x.WF m) : Built m (appRef g s x) (d ++ x.data m) := by
  unfold Ser.appRef
  rw [b.ext.data w]
  exact b.app g _

theorem Built.frame {m m' : Mem} {s : Mem × Hdr} {d : Bytes} (b : Built m s d) (e : Ext s.1 m') : Built m (m', s.2) d :=
  ⟨b.ext.trans e, b.new, e.wf b.wf, (e.data b.wf).trans b.data⟩

theorem Built.weaken {m m' : Mem} {s : Mem × Hdr} {d : Bytes} (e : Ext m m') (b : Built m' s d) : Built m s d :=
  ⟨e.trans b.ext, e.len.trans b.new, b.wf, b.data⟩

/-- Append a slice that was just built to a slice built before. -/
theorem Built.appBuilt {m : Mem} {h s : Mem × Hdr} {d e : Bytes} (b : Built m h d) (b' : Built h.1 s e) (g : Growth) :
    Built m (Ser.appRef g (s.1, h.2) s.2) (d ++ e) := by
  unfold Ser.appRef
  rw [show s.2.data (s.1, h.2).1 = e from b'.data]
  exact (b.frame b'.ext).app g e

variable (g : Growth)

theorem input_built {m : Mem} {i : MInput} (w : ∀ x ∈ i.UnlockingScript, x.WF m) (clear : Bool) :
    Built m (i.ToBytes g m clear) ((i.read m).ToBytes clear) := by
  unfold MInput.ToBytes Input.ToBytes
  have b0 := ((built_make0 m).app g (ReverseBytes (hexDecodeIgnore i.PreviousTxID))).app g (putUint32 i.PreviousTxOutIndex)
  rw [List.nil_append] at b0
  dsimp only
  cases clear
  · rcases hu : i.UnlockingScript with _ | s
    · have := (b0.app g (VarInt 0)).app g (putUint32 i.SequenceNumber)
      simpa [MInput.read, hu] using this
    · have ws := w s (by simp [hu])
      have := ((b0.app g (VarInt (UInt64.ofNat s.len))).appRef g ws).app g (putUint32 i.SequenceNumber)
      have hl : (s.data m).length = s.len := ws.len_data
      simpa [MInput.read, hu, hl, List.append_assoc] using this
  · have := (b0.app g [0x00]).app g (putUint32 i.SequenceNumber)
    simpa [MInput.read] using this

theorem output_built {m : Mem} {o : MOutput} (w : o.LockingScript.WF m) : Built m (o.ToBytes g m) ((o.read m).ToBytes) := by
  have := (((built_make0 m).app g (putUint64 o.Satoshis)).app g (VarInt (UInt64.ofNat o.LockingScript.len))).appRef g w
  have hl : (o.LockingScript.data m).length = o.LockingScript.len := w.len_data
  simpa [MOutput.ToBytes, Output.ToBytes, MOutput.read, hl, List.append_assoc] using this

theorem sigOutput_built {m : Mem} {o : MOutput} (w : o.LockingScript.WF m) : Built m (o.GetBytesForSigHash g m) ((o.read m).GetBytesForSigHash) := by
  have := (((built_make0 m).app g (putUint64 o.Satoshis)).app g (VarInt (UInt64.ofNat o.LockingScript.len))).appRef g w
  have hl : (o.LockingScript.data m).length = o.LockingScript.len := w.len_data
  simpa [MOutput.GetBytesForSigHash, Output.GetBytesForSigHash, MOutput.read, hl, List.append_assoc] using this

/-- The slices of an input exist. -/
def MInput.Usable (m : Mem) (i : MInput) : Prop := (∀ x ∈ i.PreviousTxScript, x.WF m) ∧ ∀ x ∈ i.UnlockingScript, x.WF m

theorem MInput.Usable.ext {m m' : Mem} (e : Ext m m') {i : MInput} (w : i.Usable m) : i.Usable m' :=
  ⟨fun x hx => e.wf (w.1 x hx), fun x hx => e.wf (w.2 x hx)⟩

theorem map_data {m m' : Mem} (e : Ext m m') {o : Option Hdr} (w : ∀ x ∈ o, x.WF m) : o.map (Hdr.data m') = o.map (Hdr.data m) := by
  cases o with
  | none => rfl
  | some x => simp [e.data (w x rfl)]

theorem MInput.read_ext {m m' : Mem} (e : Ext m m') {i : MInput} (w : i.Usable m) : i.read m' = i.read m := by
  unfold MInput.read
  rw [map_data e w.1, map_data e w.2]

theorem MOutput.read_ext {m m' : Mem} (e : Ext m m') {o : MOutput} (w : o.LockingScript.WF m) : o.read m' = o.read m := by
  unfold MOutput.read
  rw [e.data w]

theorem inputsLoop_built {m : Mem} {idx : Int} {spk : Option Hdr} (ws : ∀ x ∈ spk, x.WF m) : ∀ (is : List MInput) (k : Nat) (h : Mem × Hdr) (d : Bytes),
    Built m h d → (∀ i ∈ is, i.Usable m) →
    Built m (MTransaction.inputsLoop g idx spk k is h) (d ++ Transaction.inputsHelper idx (spk.map (Hdr.data m)) k (is.map (MInput.read m)))
  | [], k, h, d, b, _ => by simpa [MTransaction.inputsLoop, Transaction.inputsHelper] using b
  | i :: is, k, h, d, b, w => by
    have wi := w i (by simp)
    have bi := input_built g ((wi.ext b.ext).2) spk.isSome
    rw [MInput.read_ext b.ext wi] at bi
    have rest := fun h' d' b' => inputsLoop_built (idx := idx) ws is (k + 1) h' d' b' (fun x hx => w x (by simp [hx]))
    unfold MTransaction.inputsLoop
    simp only [List.map_cons, Transaction.inputsHelper]
    cases spk with
    | none => simpa [List.append_assoc] using rest _ _ (b.appBuilt bi g)
    | some scr =>
      have wscr := ws scr rfl
      by_cases hk : (k : Int) = idx
      · have := rest _ _ (((b.frame bi.ext).app g (VarInt (UInt64.ofNat scr.len))).appRef g wscr)
        have hl : (scr.data m).length = scr.len := wscr.len_data
        simpa [hk, hl, List.append_assoc] using this
      · simpa [hk, List.append_assoc] using rest _ _ (b.appBuilt bi g)

theorem outputsLoop_built {m : Mem} : ∀ (os : List MOutput) (h : Mem × Hdr) (d : Bytes), Built m h d → (∀ o ∈ os, o.LockingScript.WF m) →
    Built m (MTransaction.outputsLoop g os h) (d ++ (os.map (MOutput.read m)).flatMap Output.ToBytes)
  | [], h, d, b, _ => by simpa [MTransaction.outputsLoop] using b
  | o :: os, h, d, b, w => by
    have wo := w o (by simp)
    have bo := output_built g (b.ext.wf wo)
    rw [MOutput.read_ext b.ext wo] at bo
    have rest := outputsLoop_built os _ _ (b.appBuilt bo g) (fun x hx => w x (by simp [hx]))
    unfold MTransaction.outputsLoop
    simpa [List.append_assoc] using rest

theorem sigOutputsLoop_built {m : Mem} : ∀ (os : List MOutput) (h : Mem × Hdr) (d : Bytes), Built m h d → (∀ o ∈ os, o.LockingScript.WF m) →
    Built m (MTransaction.sigOutputsLoop g os h) (d ++ (os.map (MOutput.read m)).flatMap Output.GetBytesForSigHash)
  | [], h, d, b, _ => by simpa [MTransaction.sigOutputsLoop] using b
  | o :: os, h, d, b, w => by
    have wo := w o (by simp)
    have bo := sigOutput_built g (b.ext.wf wo)
    rw [MOutput.read_ext b.ext wo] at bo
    have rest := sigOutputsLoop_built os _ _ (b.appBuilt bo g) (fun x hx => w x (by simp [hx]))
    unfold MTransaction.sigOutputsLoop
    simpa [List.append_assoc] using rest

theorem prevoutsLoop_built {m n : Mem} : ∀ (is : List MInput) (h : Mem × Hdr) (d : Bytes), Built m h d →
    Built m (MTransaction.prevoutsLoop g is h) (d ++ (is.map (MInput.read n)).flatMap fun i => ReverseBytes (hexDecodeIgnore i.PreviousTxID) ++ putUint32 i.PreviousTxOutIndex)
  | [], h, d, b => by simpa [MTransaction.prevoutsLoop] using b
  | i :: is, h, d, b => by
    have rest := prevoutsLoop_built (n := n) is _ _ ((b.app g (ReverseBytes (hexDecodeIgnore i.PreviousTxID))).app g (putUint32 i.PreviousTxOutIndex))
    unfold MTransaction.prevoutsLoop
    simpa [MInput.read, List.append_assoc] using rest

theorem sequencesLoop_built {m n : Mem} : ∀ (is : List MInput) (h : Mem × Hdr) (d : Bytes), Built m h d →
    Built m (MTransaction.sequencesLoop g is h) (d ++ (is.map (MInput.read n)).flatMap fun i => putUint32 i.SequenceNumber)
  | [], h, d, b => by simpa [MTransaction.sequencesLoop] using b
  | i :: is, h, d, b => by
    have rest := sequencesLoop_built (n := n) is _ _ (b.app g (putUint32 i.SequenceNumber))
    unfold MTransaction.sequencesLoop
    simpa [MInput.read, List.append_assoc] using rest

/-- A new slice made from what an own slice holds. -/
theorem Built.thenFresh {m : Mem} {s : Mem × Hdr} {d : Bytes} (b : Built m s d) (f : Bytes → Bytes) : Built m (s.1.fresh (f (s.2.data s.1)) 0) (f d) := by
  rw [b.data]
  exact (built_fresh s.1 (f d) 0).weaken b.ext

end Verif.Ser
