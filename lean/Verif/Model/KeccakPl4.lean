import Verif.Model.KeccakRest

/-! The functions of keccak/opt64/PlSnP-Fallback.inc, as included by keccak/opt64/KeccakP-1600-times4-on1.c (`PlSnP_factor` is 4, `PlSnP_baseParallelism` is 1), that the library does not call; the others are `Opt64.plSnp`.
Four states one after the other; `stateWithIndex(i)` (line 50) is entry `i`. A read behind one of the first three states, which in C hits the next state, is taken as undefined as well. Line numbers refer to PlSnP-Fallback.inc.
Of the pointers `data`, `input`, `output` only the accesses count: that they are moved on once more after the last state is not modelled. -/

namespace Banquet.Pl4

open Opt64 (Lanes)

/-- `for(i=0; i<PlSnP_factor; i++)` with a body that changes `stateWithIndex(i)` only. -/
def eachState (f : Fin 4 → Lanes → M Lanes) (s : Vector Lanes 4) : M (Vector Lanes 4) :=
  [0, 1, 2, 3].foldlM (fun (s : Vector Lanes 4) (i : Fin 4) => do
    let t ← f i s[i]
    .ok (s.set i t)) s

/-- `laneCount*SnP_laneLengthInBytes`, also `laneOffset*SnP_laneLengthInBytes`: `unsigned int`. -/
def bytes (n : Nat) : Nat := n * 8 % 2 ^ 32

/-- Reading `n` bytes from `data + pos`. -/
def load (data : Bytes) (pos n : Nat) : M Bytes := if n = 0 ∨ pos + n ≤ data.length then .ok ((data.drop pos).take n) else .error .ub

/-- Writing the bytes `bs` to `out + pos`. -/
def store (out : Bytes) (pos : Nat) (bs : Bytes) : M Bytes :=
  if bs.length = 0 then .ok out else if pos + bs.length ≤ out.length then .ok (out.take pos ++ bs ++ out.drop (pos + bs.length)) else .error .ub

/-- `PlSnP_AddLanesAll` (lines 101-113). -/
def addLanesAll (s : Vector Lanes 4) (data : Bytes) (laneCount laneOffset : Nat) : M (Vector Lanes 4) :=
  eachState (fun i t => do Opt64.addBytes t (← load data (i.val * bytes laneOffset) (bytes laneCount)) 0) s

/-- `PlSnP_OverwriteBytes` (lines 115-122). -/
def overwriteBytes (s : Vector Lanes 4) (l : Fin 4) (data : Bytes) (offset : Nat) : M (Vector Lanes 4) := do
  let t ← Opt64.overwriteBytes s[l] data offset
  .ok (s.set l t)

/-- `PlSnP_OverwriteLanesAll` (lines 124-136). -/
def overwriteLanesAll (s : Vector Lanes 4) (data : Bytes) (laneCount laneOffset : Nat) : M (Vector Lanes 4) :=
  eachState (fun i t => do Opt64.overwriteBytes t (← load data (i.val * bytes laneOffset) (bytes laneCount)) 0) s

/-- `PlSnP_OverwriteWithZeroes` (lines 138-145). -/
def overwriteWithZeroes (s : Vector Lanes 4) (l : Fin 4) (byteCount : Nat) : M (Vector Lanes 4) := do
  let t ← Opt64.overwriteWithZeroes s[l] byteCount
  .ok (s.set l t)

/-- `PlSnP_PermuteAll_12rounds` (lines 160-173). -/
def permute12 (s : Vector Lanes 4) : M (Vector Lanes 4) := eachState (fun _ t => .ok (Opt64.permute12 t)) s

/-- `PlSnP_PermuteAll_6rounds` (lines 175-188). -/
def permute6 (s : Vector Lanes 4) : M (Vector Lanes 4) := eachState (fun _ t => Opt64.permuteN t 6) s

/-- `PlSnP_PermuteAll_4rounds` (lines 190-203). -/
def permute4 (s : Vector Lanes 4) : M (Vector Lanes 4) := eachState (fun _ t => Opt64.permuteN t 4) s

/-- `PlSnP_ExtractLanesAll` (lines 214-226): the buffer afterwards. -/
def extractLanesAll (s : Vector Lanes 4) (out : Bytes) (laneCount laneOffset : Nat) : M Bytes :=
  [0, 1, 2, 3].foldlM (fun (out : Bytes) (i : Fin 4) => do store out (i.val * bytes laneOffset) (← Opt64.extractBytes s[i] 0 (bytes laneCount))) out

/-- `PlSnP_ExtractAndAddBytes` (lines 228-235): the output. -/
def extractAndAddBytes (s : Vector Lanes 4) (l : Fin 4) (input : Bytes) (offset : Nat) : M Bytes := Opt64.extractAndAddBytes s[l] input offset

/-- `PlSnP_ExtractAndAddLanesAll` (lines 237-250): the output buffer afterwards. Input and output do not overlap in the model. -/
def extractAndAddLanesAll (s : Vector Lanes 4) (input out : Bytes) (laneCount laneOffset : Nat) : M Bytes :=
  [0, 1, 2, 3].foldlM (fun (out : Bytes) (i : Fin 4) => do
    let bs ← load input (i.val * bytes laneOffset) (bytes laneCount)
    store out (i.val * bytes laneOffset) (← Opt64.extractAndAddBytes s[i] bs 0)) out

end Banquet.Pl4
