import Verif.Lemmas.HeapSerial
import Verif.Props.Memory
/-!
# C104: serialised bytes belong to the caller
-/
namespace Verif.Props
open Verif Verif.Ser

/-- Everything the transaction refers to exists in `m`. -/
def Usable (m : Mem) (tx : MTransaction) : Prop := ∀ x ∈ tx.slices, x.WF m

theorem usable_inputs {m : Mem} {tx : MTransaction} (w : Usable m tx) : ∀ i ∈ tx.Inputs, i.Usable m := fun i hi =>
  ⟨fun x hx => w x (by simp only [MTransaction.slices, List.mem_append, List.mem_flatMap]; exact .inl ⟨i, hi, .inl (by simpa using hx)⟩),
   fun x hx => w x (by simp only [MTransaction.slices, List.mem_append, List.mem_flatMap]; exact .inl ⟨i, hi, .inr (by simpa using hx)⟩)⟩

theorem usable_outputs {m : Mem} {tx : MTransaction} (w : Usable m tx) : ∀ o ∈ tx.Outputs, o.LockingScript.WF m := fun o ho =>
  w _ (by simp only [MTransaction.slices, List.mem_append, List.mem_map]; exact .inr ⟨o, ho, rfl⟩)

theorem read_ext {m m' : Mem} (e : Ext m m') {tx : MTransaction} (w : Usable m tx) : tx.read m' = tx.read m := by
  unfold MTransaction.read
  rw [List.map_congr_left fun i hi => MInput.read_ext e (usable_inputs w i hi), List.map_congr_left fun o ho => MOutput.read_ext e (usable_outputs w o ho)]

theorem helper_built (g : Growth) {m : Mem} {tx : MTransaction} (w : Usable m tx) (idx : Int) (spk : Option Hdr) (ws : ∀ x ∈ spk, x.WF m) :
    Built m (tx.toBytesHelper g m idx spk) ((tx.read m).toBytesHelper idx (spk.map (Hdr.data m))) := by
  have b1 := ((built_make0 m).app g (putUint32 tx.Version)).app g (VarInt (UInt64.ofNat tx.Inputs.length))
  have b2 := inputsLoop_built g (idx := idx) ws tx.Inputs 0 _ _ b1 (usable_inputs w)
  have b3 := outputsLoop_built g tx.Outputs _ _ (b2.app g (VarInt (UInt64.ofNat tx.Outputs.length))) (usable_outputs w)
  have b4 := b3.app g (putUint32 tx.Locktime)
  simpa [MTransaction.toBytesHelper, Transaction.toBytesHelper, MTransaction.read, List.append_assoc] using b4

/-- C104, `ToBytes` of a transaction: the bytes are the serialisation of what the transaction shows, no array that existed is changed, and the slice returned is in an array of its own. However
the scripts of the transaction lie in memory (also if they overlap), and however the runtime grows slices. -/
theorem C104_tx (g : Growth) (m : Mem) (tx : MTransaction) (w : Usable m tx) :
    (tx.ToBytes g m).2.data (tx.ToBytes g m).1 = (tx.read m).ToBytes ∧ OwnMemory m (tx.ToBytes g m) := by
  have b := helper_built g w 0 none (by simp)
  exact ⟨b.data, b.own⟩

/-- C104, `ToBytesWithClearedInputs`; the script argument may share memory with anything. -/
theorem C104_cleared (g : Growth) (m : Mem) (tx : MTransaction) (w : Usable m tx) (idx : Int) (spk : Option Hdr) (ws : ∀ x ∈ spk, x.WF m) :
    (tx.ToBytesWithClearedInputs g m idx spk).2.data (tx.ToBytesWithClearedInputs g m idx spk).1 = (tx.read m).ToBytesWithClearedInputs idx (spk.map (Hdr.data m)) ∧
    OwnMemory m (tx.ToBytesWithClearedInputs g m idx spk) := by
  have b := helper_built g w idx spk ws
  exact ⟨b.data, b.own⟩

/-- C104, `ToBytes` of an input. -/
theorem C104_input (g : Growth) (m : Mem) (i : MInput) (w : ∀ x ∈ i.UnlockingScript, x.WF m) (clear : Bool) :
    (i.ToBytes g m clear).2.data (i.ToBytes g m clear).1 = (i.read m).ToBytes clear ∧ OwnMemory m (i.ToBytes g m clear) := by
  have b := input_built g w clear
  exact ⟨b.data, b.own⟩

/-- C104, `ToBytes` and `GetBytesForSigHash` of an output. -/
theorem C104_output (g : Growth) (m : Mem) (o : MOutput) (w : o.LockingScript.WF m) :
    ((o.ToBytes g m).2.data (o.ToBytes g m).1 = (o.read m).ToBytes ∧ OwnMemory m (o.ToBytes g m)) ∧
    ((o.GetBytesForSigHash g m).2.data (o.GetBytesForSigHash g m).1 = (o.read m).GetBytesForSigHash ∧ OwnMemory m (o.GetBytesForSigHash g m)) := by
  have b := output_built g w
  have b' := sigOutput_built g w
  exact ⟨⟨b.data, b.own⟩, b'.data, b'.own⟩

theorem outputsHash_built (H : HashFns) (g : Growth) {m m' : Mem} (e : Ext m m') {tx : MTransaction} (w : Usable m tx) (n : Int) :
    (tx.getOutputsHash H g m' n = .panic ∧ (tx.read m).getOutputsHash H n = .panic) ∨
    ∃ r d, tx.getOutputsHash H g m' n = .ok r ∧ (tx.read m).getOutputsHash H n = .ok d ∧ Built m' r d := by
  unfold MTransaction.getOutputsHash Transaction.getOutputsHash
  by_cases h1 : n = -1
  · rw [if_pos h1, if_pos h1]
    have b := sigOutputsLoop_built g tx.Outputs _ _ (built_make0 m') (fun o ho => e.wf (usable_outputs w o ho))
    rw [List.map_congr_left fun o ho => MOutput.read_ext e (usable_outputs w o ho)] at b
    exact .inr ⟨_, _, rfl, rfl, by simpa [MTransaction.read] using b.thenFresh (Sha256d H)⟩
  · rw [if_neg h1, if_neg h1]
    by_cases h2 : n < 0
    · rw [if_pos h2, if_pos h2]; exact .inl ⟨rfl, rfl⟩
    · rw [if_neg h2, if_neg h2]
      rcases ho : tx.Outputs[n.toNat]? with _ | o
      · left
        constructor
        · simp [index, ho]
        · simp [index, MTransaction.read, ho]
      · right
        have wo := usable_outputs w o (List.mem_of_getElem? ho)
        have bo := sigOutput_built g ((built_make0 m').ext.wf (e.wf wo))
        rw [MOutput.read_ext (e.trans (built_make0 m').ext) wo] at bo
        have b := ((built_make0 m').appBuilt bo g).thenFresh (Sha256d H)
        refine ⟨_, _, ?_, ?_, b⟩
        · simp [index, ho]
        · simp [index, MTransaction.read, ho]

theorem sigHashes_built (H : HashFns) (g : Growth) {m : Mem} {tx : MTransaction} (w : Usable m tx) (n : UInt32) (f : UInt8) :
    let P := if f &&& sighash.AnyOneCanPay = 0 then (tx.read m).getPrevoutHash H else List.replicate 32 0
    let Q := if f &&& sighash.AnyOneCanPay = 0 ∧ f &&& 31 ≠ sighash.Single ∧ f &&& 31 ≠ sighash.None then (tx.read m).getSequenceHash H else List.replicate 32 0
    let R := if f &&& 31 ≠ sighash.Single ∧ f &&& 31 ≠ sighash.None then (tx.read m).getOutputsHash H (-1)
      else if f &&& 31 = sighash.Single ∧ n < UInt32.ofNat (tx.read m).Outputs.length then (tx.read m).getOutputsHash H (Transaction.int32OfUint32 n)
      else .ok (List.replicate 32 0)
    (tx.sigHashes H g m n f = .panic ∧ R = .panic) ∨
    ∃ m' p q r o, tx.sigHashes H g m n f = .ok (m', p, q, r) ∧ R = .ok o ∧ Ext m m' ∧ p.WF m' ∧ q.WF m' ∧ r.WF m' ∧ p.data m' = P ∧ q.data m' = Q ∧ r.data m' = o := by
  intro P Q R
  have bp := built_fresh m (List.replicate 32 0) 0
  have bq := built_fresh (m.fresh (List.replicate 32 0) 0).1 (List.replicate 32 0) 0
  have bo := built_fresh ((m.fresh (List.replicate 32 0) 0).1.fresh (List.replicate 32 0) 0).1 (List.replicate 32 0) 0
  unfold MTransaction.sigHashes
  set zp := m.fresh (List.replicate 32 0) 0 with hzp
  set zs := zp.1.fresh (List.replicate 32 0) 0 with hzs
  set zo := zs.1.fresh (List.replicate 32 0) 0 with hzo
  dsimp only
  -- prevouts
  obtain ⟨hp, ehp, xp, bp'⟩ : ∃ hp, (if f &&& sighash.AnyOneCanPay = 0 then tx.getPrevoutHash H g zo.1 else (zo.1, zp.2)) = hp ∧ Ext zo.1 hp.1 ∧ Built m hp P := by
    refine ⟨_, rfl, ?_⟩
    by_cases c : f &&& sighash.AnyOneCanPay = 0
    · rw [if_pos c, show P = _ from if_pos c]
      have b := (prevoutsLoop_built g (n := m) tx.Inputs _ _ (built_make0 zo.1)).thenFresh (Sha256d H)
      exact ⟨b.ext, by simpa [Transaction.getPrevoutHash, MTransaction.getPrevoutHash, MTransaction.read] using b.weaken ((bp.ext.trans bq.ext).trans bo.ext)⟩
    · rw [if_neg c, show P = _ from if_neg c]
      exact ⟨Ext.refl _, bp.frame (bq.ext.trans bo.ext)⟩
  rw [ehp]
  obtain ⟨hs, ehs, xs, bs'⟩ : ∃ hs, (if f &&& sighash.AnyOneCanPay = 0 ∧ f &&& 31 ≠ sighash.Single ∧ f &&& 31 ≠ sighash.None then tx.getSequenceHash H g hp.1 else (hp.1, zs.2)) = hs ∧
      Ext hp.1 hs.1 ∧ Built m hs Q := by
    refine ⟨_, rfl, ?_⟩
    by_cases c : f &&& sighash.AnyOneCanPay = 0 ∧ f &&& 31 ≠ sighash.Single ∧ f &&& 31 ≠ sighash.None
    · rw [if_pos c, show Q = _ from if_pos c]
      have b := (sequencesLoop_built g (n := m) tx.Inputs _ _ (built_make0 hp.1)).thenFresh (Sha256d H)
      exact ⟨b.ext, by simpa [Transaction.getSequenceHash, MTransaction.getSequenceHash, MTransaction.read] using b.weaken bp'.ext⟩
    · rw [if_neg c, show Q = _ from if_neg c]
      exact ⟨Ext.refl _, (bq.frame (bo.ext.trans xp)).weaken bp.ext⟩
  rw [ehs]
  have mk : ∀ (X : Res (Mem × Hdr)) (r : Mem × Hdr) (o : Bytes), X = .ok r → Ext hs.1 r.1 → Built m r o → R = .ok o →
      (X >>= fun ho => (pure (ho.1, hp.2, hs.2, ho.2) : Res (Mem × Hdr × Hdr × Hdr))) = .panic ∧ R = .panic ∨
      ∃ m' p q r o, (X >>= fun ho => (pure (ho.1, hp.2, hs.2, ho.2) : Res (Mem × Hdr × Hdr × Hdr))) = .ok (m', p, q, r) ∧ R = .ok o ∧ Ext m m' ∧ p.WF m' ∧ q.WF m' ∧ r.WF m' ∧
        p.data m' = P ∧ q.data m' = Q ∧ r.data m' = o := by
    intro X r o hX hx hb hR
    right
    refine ⟨r.1, hp.2, hs.2, r.2, o, by rw [hX]; rfl, hR, hb.ext, (xs.trans hx).wf bp'.wf, hx.wf bs'.wf, hb.wf, ?_, ?_, hb.data⟩
    · rw [(xs.trans hx).data bp'.wf, bp'.data]
    · rw [hx.data bs'.wf, bs'.data]
  by_cases c1 : f &&& 31 ≠ sighash.Single ∧ f &&& 31 ≠ sighash.None
  · have eR : R = _ := if_pos c1
    rw [if_pos c1]
    rcases outputsHash_built H g bs'.ext w (-1) with ⟨h1, h2⟩ | ⟨r, d, h1, h2, hb⟩
    · exact .inl ⟨by rw [h1]; rfl, by rw [eR, h2]⟩
    · exact mk _ r d h1 hb.ext (hb.weaken bs'.ext) (by rw [eR, h2])
  · rw [if_neg c1]
    by_cases c2 : f &&& 31 = sighash.Single ∧ n < UInt32.ofNat tx.Outputs.length
    · have eR : R = (tx.read m).getOutputsHash H (Transaction.int32OfUint32 n) := by
        show (if _ then _ else _) = _
        rw [if_neg c1, if_pos (by simpa [MTransaction.read] using c2)]
      rw [if_pos c2]
      rcases outputsHash_built H g bs'.ext w (Transaction.int32OfUint32 n) with ⟨h1, h2⟩ | ⟨r, d, h1, h2, hb⟩
      · exact .inl ⟨by rw [h1]; rfl, by rw [eR, h2]⟩
      · exact mk _ r d h1 hb.ext (hb.weaken bs'.ext) (by rw [eR, h2])
    · have eR : R = .ok (List.replicate 32 0) := by
        show (if _ then _ else _) = _
        rw [if_neg c1, if_neg (by simpa [MTransaction.read] using c2)]
      rw [if_neg c2]
      exact mk _ (hs.1, zo.2) _ rfl (Ext.refl _) ((bo.frame (xp.trans xs)).weaken (bp.ext.trans bq.ext)) eR

/-- C104, `GetInputSignatureHash`: it fails exactly when it fails on what the transaction shows, with the same error; else the digest is that of what the transaction shows, in memory of its own, and
no array that existed is changed. -/
theorem C104_sighash (H : HashFns) (g : Growth) (m : Mem) (tx : MTransaction) (w : Usable m tx) (n : UInt32) (f : UInt8) :
    match tx.GetInputSignatureHash H g m n f with
    | .ok r => (tx.read m).GetInputSignatureHash H n f = .ok (r.2.data r.1) ∧ OwnMemory m r
    | .err e => (tx.read m).GetInputSignatureHash H n f = .err e
    | .panic => (tx.read m).GetInputSignatureHash H n f = .panic := by
  rcases hi : tx.Inputs[n.toNat]? with _ | i
  · have e1 : tx.GetInputSignatureHash H g m n f = .panic := by unfold MTransaction.GetInputSignatureHash; simp [index, hi]
    rw [e1]
    show (tx.read m).GetInputSignatureHash H n f = .panic
    unfold Transaction.GetInputSignatureHash; simp [index, MTransaction.read, hi]
  · have wi := usable_inputs w i (List.mem_of_getElem? hi)
    have hi' : (tx.read m).Inputs[n.toNat]? = some (i.read m) := by simp [MTransaction.read, hi]
    by_cases hid : i.PreviousTxID = []
    · have e1 : tx.GetInputSignatureHash H g m n f = .err "'PreviousTxID' not supplied" := by
        unfold MTransaction.GetInputSignatureHash; simp only [index, hi]; rw [Res.ok_bind, if_pos hid]
      rw [e1]
      show (tx.read m).GetInputSignatureHash H n f = _
      unfold Transaction.GetInputSignatureHash; simp only [index, hi']; rw [Res.ok_bind, if_pos (show (i.read m).PreviousTxID = [] from hid)]
    · rcases hs : i.PreviousTxScript with _ | s
      · have e1 : tx.GetInputSignatureHash H g m n f = .err "'PreviousTxScript' not supplied" := by
          unfold MTransaction.GetInputSignatureHash; simp only [index, hi]; rw [Res.ok_bind, if_neg hid]; simp only [hs]
        rw [e1]
        show (tx.read m).GetInputSignatureHash H n f = _
        unfold Transaction.GetInputSignatureHash; simp only [index, hi']; rw [Res.ok_bind, if_neg (show ¬ (i.read m).PreviousTxID = [] from hid)]
        simp [MInput.read, hs]
      · have ws : s.WF m := wi.1 s (by simp [hs])
        have hsl : (s.data m).length = s.len := ws.len_data
        have ev : (tx.read m).GetInputSignatureHash H n f =
            ((if f &&& 31 ≠ sighash.Single ∧ f &&& 31 ≠ sighash.None then (tx.read m).getOutputsHash H (-1)
              else if f &&& 31 = sighash.Single ∧ n < UInt32.ofNat (tx.read m).Outputs.length then (tx.read m).getOutputsHash H (Transaction.int32OfUint32 n)
              else .ok (List.replicate 32 0)) >>= fun o => pure (ReverseBytes (Sha256d H (putUint32 tx.Version ++
                (if f &&& sighash.AnyOneCanPay = 0 then (tx.read m).getPrevoutHash H else List.replicate 32 0) ++
                (if f &&& sighash.AnyOneCanPay = 0 ∧ f &&& 31 ≠ sighash.Single ∧ f &&& 31 ≠ sighash.None then (tx.read m).getSequenceHash H else List.replicate 32 0) ++
                ReverseBytes (hexDecodeIgnore i.PreviousTxID) ++ putUint32 i.PreviousTxOutIndex ++ VarInt (UInt64.ofNat s.len) ++ s.data m ++
                putUint64 i.PreviousTxSatoshis ++ putUint32 i.SequenceNumber ++ o ++ putUint32 tx.Locktime ++ putUint32 f.toUInt32)))) := by
          unfold Transaction.GetInputSignatureHash
          simp only [index, hi']
          rw [Res.ok_bind, if_neg (show ¬ (i.read m).PreviousTxID = [] from hid)]
          simp only [hs, MInput.read, Option.map_some, hsl]
          by_cases c1 : f &&& 31 ≠ sighash.Single ∧ f &&& 31 ≠ sighash.None
          · rw [if_pos c1, if_pos c1]; rfl
          · rw [if_neg c1, if_neg c1]
            by_cases c2 : f &&& 31 = sighash.Single ∧ n < UInt32.ofNat (tx.read m).Outputs.length
            · rw [if_pos c2, if_pos c2]; rfl
            · rw [if_neg c2, if_neg c2]; rfl
        have eh : tx.GetInputSignatureHash H g m n f = (tx.sigHashes H g m n f >>= fun h =>
            pure ((tx.sigBuffer g h.1 i s f h.2.1 h.2.2.1 h.2.2.2).1.fresh (ReverseBytes (Sha256d H ((tx.sigBuffer g h.1 i s f h.2.1 h.2.2.1 h.2.2.2).2.data
              (tx.sigBuffer g h.1 i s f h.2.1 h.2.2.1 h.2.2.2).1))) 0)) := by
          unfold MTransaction.GetInputSignatureHash
          simp only [index, hi]
          rw [Res.ok_bind, if_neg hid]
          simp only [hs]
        rw [ev, eh]
        rcases sigHashes_built H g w n f with ⟨e1, e2⟩ | ⟨m', p, q, r, o, e1, e2, ex, wp, wq, wr, dp, dq, dr⟩
        · rw [e1, e2]; rfl
        · rw [e1, e2, Res.ok_bind, Res.ok_bind]
          have b := ((((((((((((built_make0 m').app g (putUint32 tx.Version)).appRef g wp).appRef g wq).app g (ReverseBytes (hexDecodeIgnore i.PreviousTxID))).app g
            (putUint32 i.PreviousTxOutIndex)).app g (VarInt (UInt64.ofNat s.len))).appRef g (ex.wf ws)).app g (putUint64 i.PreviousTxSatoshis)).app g
            (putUint32 i.SequenceNumber)).appRef g wr).app g (putUint32 tx.Locktime)).app g (putUint32 f.toUInt32)
          rw [ex.data ws, dp, dq, dr] at b
          have b' := (b.thenFresh fun x => ReverseBytes (Sha256d H x)).weaken ex
          refine ⟨?_, b'.own⟩
          refine congrArg Res.ok (Eq.trans ?_ b'.data.symm)
          simp [MTransaction.read, List.append_assoc]
theorem encodeLoop_built (g : Growth) {m : Mem} : ∀ (parts : List Hdr) (b : Mem × Hdr) (d : Bytes), Built m b d → (∀ p ∈ parts, p.WF m) →
    match encodeLoop g parts b with
    | .ok r => ∃ e, EncodeParts (parts.map (Hdr.data m)) = .ok e ∧ Built m r (d ++ e)
    | .err e => EncodeParts (parts.map (Hdr.data m)) = .err e
    | .panic => False
  | [], b, d, hb, _ => ⟨[], rfl, by simpa using hb⟩
  | p :: parts, b, d, hb, w => by
    have wp := w p (by simp)
    have hd : p.data b.1 = p.data m := hb.ext.data wp
    unfold encodeLoop
    simp only [List.map_cons, EncodeParts, hd]
    rcases hg : GetPushDataPrefix (p.data m) with pd | e | _
    · have ih := encodeLoop_built g parts _ _ ((hb.app g pd).appRef g wp) (fun x hx => w x (by simp [hx]))
      dsimp only
      generalize hE : encodeLoop g parts (appRef g (app g b pd) p) = E at ih
      match E, ih with
      | .ok r, ⟨e, h1, h2⟩ => exact ⟨pd ++ p.data m ++ e, by rw [h1]; rfl, by simpa [List.append_assoc] using h2⟩
      | .err e, h1 => show _ = _; rw [show EncodeParts (parts.map (Hdr.data m)) = .err e from h1]; rfl
    · rfl
    · exact absurd hg (by unfold GetPushDataPrefix; dsimp only; split_ifs <;> simp)

/-- C104, `EncodeParts`: the encoding of what the parts show, in memory of its own; the parts may share memory with each other. -/
theorem C104_encode (g : Growth) (m : Mem) (parts : List Hdr) (w : ∀ p ∈ parts, p.WF m) :
    match EncodePartsH g m parts with
    | .ok r => EncodeParts (parts.map (Hdr.data m)) = .ok (r.2.data r.1) ∧ OwnMemory m r
    | .err e => EncodeParts (parts.map (Hdr.data m)) = .err e
    | .panic => False := by
  have := encodeLoop_built g parts _ _ (built_make0 m) w
  unfold EncodePartsH
  generalize encodeLoop g parts (make0 m) = E at this
  match E, this with
  | .ok r, ⟨e, h1, h2⟩ => exact ⟨by rw [h1, h2.data, List.nil_append], h2.own⟩
  | .err e, h1 => exact h1

/-- C104, `ReverseBytes`: a reversed copy; the argument keeps its bytes. -/
theorem C104_reverse (m : Mem) (a : Hdr) :
    (ReverseBytesH m a).2.data (ReverseBytesH m a).1 = (a.data m).reverse ∧ OwnMemory m (ReverseBytesH m a) := by
  have b := built_fresh m (ReverseBytes (a.data m)) 0
  exact ⟨by rw [show (ReverseBytesH m a) = m.fresh (ReverseBytes (a.data m)) 0 from rfl, b.data, C04_reverseBytes], b.own⟩

theorem useAll_old {n : Nat} : ∀ (us : List Use) (s : Mem × Hdr), n ≤ s.2.arr → n ≤ s.1.length →
    (∀ a < n, (useAll s us).1.bytes a = s.1.bytes a) ∧ s.1.length ≤ (useAll s us).1.length
  | [], s, _, _ => ⟨fun _ _ => rfl, Nat.le_refl _⟩
  | u :: us, s, h1, h2 => by
    have key : (∀ a < n, (u.run s).1.bytes a = s.1.bytes a) ∧ n ≤ (u.run s).2.arr ∧ s.1.length ≤ (u.run s).1.length := by
      cases u with
      | assign b => exact ⟨fun a ha => Mem.bytes_write_ne (by omega), h1, by simp [Use.run, Mem.copy, Mem.length_write]⟩
      | append b grow => exact ⟨fun a ha => append_old (by omega) (by omega), append_arr h1 h2, Mem.append_length⟩
    obtain ⟨k1, k2, k3⟩ := key
    obtain ⟨i1, i2⟩ := useAll_old us (u.run s) k2 (h2.trans k3)
    exact ⟨fun a ha => (i1 a ha).trans (k1 a ha), k3.trans i2⟩

/-- C104: whatever the caller then does with a slice of its own (assigning elements, appending, any number of times), every slice that existed before the call shows what it showed. -/
theorem C104_use (m : Mem) (r : Mem × Hdr) (own : OwnMemory m r) (us : List Use) (v : Hdr) (w : v.WF m) : v.data (useAll r us).1 = v.data m := by
  have hl : m.length ≤ r.1.length := own.new.trans (Nat.le_of_lt own.usable.arr)
  exact Hdr.data_congr (((useAll_old us r own.new hl).1 _ w.arr).trans (own.kept _ w.arr))

theorem useAll_other {c : Nat} : ∀ (us : List Use) (s : Mem × Hdr), s.2.arr ≠ c → c < s.1.length → (useAll s us).1.bytes c = s.1.bytes c
  | [], s, _, _ => rfl
  | u :: us, s, h1, h2 => by
    have key : (u.run s).1.bytes c = s.1.bytes c ∧ (u.run s).2.arr ≠ c ∧ c < (u.run s).1.length := by
      cases u with
      | assign b => exact ⟨Mem.bytes_write_ne (Ne.symm h1), h1, by simpa [Use.run, Mem.copy, Mem.length_write] using h2⟩
      | append b grow =>
        refine ⟨append_old h2 (Ne.symm h1), ?_, Nat.lt_of_lt_of_le h2 Mem.append_length⟩
        unfold Use.run Mem.append
        dsimp only
        split_ifs
        · exact h1
        · exact Nat.ne_of_gt h2
    rw [show useAll s (u :: us) = useAll (u.run s) us from rfl, useAll_other us (u.run s) key.2.1 key.2.2, key.1]

/-- C104, the other direction: whatever is then done with a slice that existed before the call (a script of the transaction, say), the bytes returned stay what they were. -/
theorem C104_kept (m : Mem) (r : Mem × Hdr) (own : OwnMemory m r) (us : List Use) (v : Hdr) (w : v.WF m) : r.2.data (useAll (r.1, v) us).1 = r.2.data r.1 :=
  Hdr.data_congr (useAll_other us (r.1, v) (by have := own.new; have := w.arr; dsimp only; omega) own.usable.arr)

/-- C104: serialise, scribble over the result, serialise again: the transaction is as before, the second serialisation is the same bytes, and what was written into the first result is still
there. -/
theorem C104_again (g : Growth) (m : Mem) (tx : MTransaction) (w : Usable m tx) (us : List Use) :
    let r := useAll (tx.ToBytes g m) us
    tx.read r.1 = tx.read m ∧ (tx.ToBytes g r.1).2.data (tx.ToBytes g r.1).1 = (tx.read m).ToBytes ∧ OwnMemory r.1 (tx.ToBytes g r.1) := by
  intro r
  have b := helper_built g w 0 none (by simp)
  obtain ⟨h1, h2⟩ := useAll_old us (tx.ToBytes g m) b.new b.ext.len
  have e : Ext m r.1 := ⟨b.ext.len.trans h2, fun a ha => (h1 a ha).trans (b.ext.same a ha)⟩
  have w' : Usable r.1 tx := fun x hx => e.wf (w x hx)
  have := C104_tx g r.1 tx w'
  rw [read_ext e w] at this
  exact ⟨read_ext e w, this⟩

/-- C104: a script made by `script.NewFromBytes` is not a copy: it shows whatever is later written into the caller's buffer. -/
theorem C104_from_bytes_shared (m : Mem) (b : Hdr) (w : b.WF m) (d : Bytes) (hd : d.length = b.len) :
    (ScriptNewFromBytesH m b).2.data ((ScriptNewFromBytesH m b).1.copy b d) = d := by
  have h1 := w.len
  have h2 := w.cap
  show (((m.write b.arr b.off (d.take b.len)).bytes b.arr).drop b.off).take b.len = d
  have ht : d.take b.len = d := List.take_of_length_le (by omega)
  rw [ht, Mem.bytes_write_eq w.arr]
  rw [List.append_assoc, List.drop_append_of_le_length (by simp; omega), List.drop_eq_nil_of_le (by simp), List.nil_append, List.take_append_of_le_length (by omega),
    List.take_of_length_le (by omega)]

/-- A parsed transaction as an object of this model. -/
def ofParsed (tx : HTransaction) : MTransaction :=
  { Version := tx.Version
    Inputs := tx.Inputs.map fun i => ⟨i.PreviousTxID, i.PreviousTxOutIndex, 0, none, some i.UnlockingScript, i.SequenceNumber⟩
    Outputs := tx.Outputs.map fun o => ⟨o.Satoshis, o.LockingScript⟩
    Locktime := tx.Locktime }

theorem ofParsed_read (m : Mem) (tx : HTransaction) : (ofParsed tx).read m = tx.read m := by
  simp [ofParsed, MTransaction.read, HTransaction.read, MInput.read, MOutput.read, HInput.read, HOutput.read, Function.comp_def]

theorem ofParsed_slices (tx : HTransaction) : (ofParsed tx).slices = tx.scripts := by
  simp only [ofParsed, MTransaction.slices, HTransaction.scripts, List.flatMap_map, List.map_map, Option.toList, List.nil_append]
  congr 1
  induction tx.Inputs with
  | nil => rfl
  | cons i is ih => simp [ih]

/-- C104 for parsed transactions, whose scripts lie in the caller's buffer: `ToBytes` gives back bytes in memory of their own, so writing into them changes neither the transaction nor the buffer. -/
theorem C104_parsed (g : Growth) (m : Mem) (b : Hdr) (w : b.WF m) (hcap : b.cap < 2 ^ 62) (tx : HTransaction) (h : HTransaction.NewFromBytes m b = .ok tx) (us : List Use) :
    let r := (ofParsed tx).ToBytes g m
    r.2.data r.1 = (tx.read m).ToBytes ∧ (∀ s ∈ tx.scripts, s.data (useAll r us).1 = s.data m) ∧ b.data (useAll r us).1 = b.data m := by
  intro r
  have L := tx_layout w hcap h
  have hu : Usable m (ofParsed tx) := fun x hx => L.wf w (by rwa [ofParsed_slices] at hx)
  obtain ⟨h1, h2⟩ := C104_tx g m _ hu
  rw [ofParsed_read] at h1
  exact ⟨h1, fun s hs => C104_use m _ h2 us s (L.wf w hs), C104_use m _ h2 us b w⟩

/-- Two scripts that overlap in one array with spare capacity: the serialisation reads both and writes neither. -/
def overlapMem : Mem := [[0x51, 0x52, 0x53, 0x54, 0, 0, 0, 0]]
def overlapTx : MTransaction :=
  { Version := 1
    Inputs := [⟨List.replicate 64 48, 0, 5, some ⟨0, 0, 3, 8⟩, some ⟨0, 0, 2, 8⟩, 7⟩]
    Outputs := [⟨9, ⟨0, 1, 3, 7⟩⟩]
    Locktime := 0 }

theorem overlap_usable : Usable overlapMem overlapTx := by
  intro x hx
  simp only [overlapTx, MTransaction.slices] at hx
  simp at hx
  rcases hx with rfl | rfl | rfl <;> exact ⟨by decide, by decide, by decide⟩

example : (overlapTx.ToBytes (fun _ _ b => b.length) overlapMem).1.bytes 0 = [0x51, 0x52, 0x53, 0x54, 0, 0, 0, 0] ∧
    (overlapTx.ToBytes (fun _ _ b => b.length) overlapMem).2.data (overlapTx.ToBytes (fun _ _ b => b.length) overlapMem).1 =
      [1, 0, 0, 0, 1] ++ List.replicate 32 0 ++ [0, 0, 0, 0, 2, 0x51, 0x52, 7, 0, 0, 0, 1, 9, 0, 0, 0, 0, 0, 0, 0, 3, 0x52, 0x53, 0x54, 0, 0, 0, 0] := by decide +kernel

example : ∃ r, overlapTx.GetInputSignatureHash toyH (fun _ _ _ => 3) overlapMem 0 0x41 = .ok r ∧ r.1.bytes 0 = [0x51, 0x52, 0x53, 0x54, 0, 0, 0, 0] := by
  have hk : (match overlapTx.GetInputSignatureHash toyH (fun _ _ _ => 3) overlapMem 0 0x41 with | .ok _ => true | _ => false) = true := by decide +kernel
  have := C104_sighash toyH (fun _ _ _ => 3) overlapMem overlapTx overlap_usable 0 0x41
  generalize overlapTx.GetInputSignatureHash toyH (fun _ _ _ => 3) overlapMem 0 0x41 = R at hk this
  cases R with
  | ok r => exact ⟨r, rfl, this.2.kept 0 (by decide)⟩
  | err e => exact absurd hk (by simp)
  | panic => exact absurd hk (by simp)

example : ∃ r, EncodePartsH (fun _ _ _ => 0) overlapMem [⟨0, 0, 2, 8⟩, ⟨0, 1, 3, 7⟩] = .ok r ∧ r.2.data r.1 = [2, 0x51, 0x52, 3, 0x52, 0x53, 0x54] :=
  ⟨_, rfl, by decide +kernel⟩

end Verif.Props
