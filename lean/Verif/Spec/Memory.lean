import Verif.Model.Heap
/-!
# What a history of script calls should mean, without memory
-/
namespace Verif.Spec
open Verif

/-- The value-level meaning of a history of calls. -/
def callsValue (ss : List Bytes) : List ScriptCall → List Bytes
  | [] => ss
  | .make v _ :: rest => callsValue (ss ++ [v]) rest
  | .append t (.pushes d _) :: rest => callsValue (match ss[t]? with
      | some s => ss.set t (match AppendPushDataArray s d with | .ok s' => s' | _ => s)
      | none => ss) rest
  | .append t (.opcode o _) :: rest => callsValue (match ss[t]? with | some s => ss.set t (AppendOpCode s o) | none => ss) rest

end Verif.Spec
