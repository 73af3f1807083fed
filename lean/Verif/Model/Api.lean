import Verif.Model.Banquet

/-! The public functions as calls in one process that share the mutable globals of field.cpp (single-threaded; the globals are not synchronised). -/

namespace Banquet

/-- `init_lifting_lut` (field.cpp:16-29) as writes into the global table `lut`. -/
def writeLut (r : Reducer) (gen : W64) (lut : List W64) : List W64 :=
  ((List.range 7).foldl (fun (st : List W64 × W64) b =>
    ((List.range (2 ^ (b + 1))).foldl (fun l idx => l.set (2 ^ (b + 1) + idx) (gfAdd (l.getD idx 0) st.2)) st.1,
      r.apply (clmul st.2 gen))) ((lut.set 0 0).set 1 1, gen)).1

/-- `GF2E::init_extension_field` (field.cpp:188-312) as writes to the globals `G`: outcome and new globals. The default case throws before anything is written. -/
def initGlobals (G : FieldState) (lambda : Nat) : M Unit × FieldState :=
  match lambda with
  | 2 => (.ok (), ⟨.r16, 2, ofCoeffs [16, 5, 3, 1, 0], writeLut .r16 (ofCoeffs [14, 8, 7, 6, 3, 2, 0]) G.lut⟩)
  | 4 => (.ok (), ⟨.r32, 4, ofCoeffs [32, 7, 3, 2, 0], writeLut .r32 (ofCoeffs [30, 23, 21, 18, 14, 13, 11, 9, 7, 6, 5, 4, 3, 1]) G.lut⟩)
  | 5 => (.ok (), ⟨.r40, 5, ofCoeffs [40, 5, 4, 3, 0], writeLut .r40 (ofCoeffs [31, 30, 27, 25, 22, 21, 20, 18, 15, 9, 6, 4, 2]) G.lut⟩)
  | 6 => (.ok (), ⟨.r48, 6, ofCoeffs [48, 5, 3, 2, 0], writeLut .r48 (ofCoeffs [45, 43, 40, 37, 36, 35, 34, 33, 31, 30, 29, 28, 24, 21, 20, 19, 16, 14, 13, 11, 10, 7, 3, 2]) G.lut⟩)
  | _ => (.error .thrown, G)

/-- A call of a public function (banquet.h:10-28; `init_extension_field` is public in field.h:53). -/
inductive Call where
  /-- `GF2E::init_extension_field` -/
  | init (I : Instance)
  /-- `banquet_keygen`, with the bytes drawn from the random source -/
  | keygen (I : Instance) (draws : Nat → Bytes × Bytes)
  /-- `banquet_sign` -/
  | sign (I : Instance) (sk pk msg : Bytes)
  /-- `banquet_verify` -/
  | verify (I : Instance) (pk : Bytes) (sig : Signature) (msg : Bytes)
  /-- `banquet_serialize_signature` -/
  | serialize (I : Instance) (sig : Signature)
  /-- `banquet_deserialize_signature` -/
  | deserialize (I : Instance) (bs : Bytes)

/-- What a call returns. -/
inductive Res where
  | unit
  | keys (sk pk : Bytes)
  | signature (s : Signature)
  | bool (b : Bool)
  | bytes (b : Bytes)
  deriving DecidableEq

/-- One call with globals `G` (banquet.cpp:260-288, 290-775, 777-1194, 1196-1236, 1238-1320): outcome and globals afterwards. Sign (banquet.cpp:294) and verify (banquet.cpp:783) initialise the field first and then
work with the globals; the other functions only read them. -/
def runCall (X : Xof) (fuel : Nat) (G : FieldState) : Call → M Res × FieldState
  | .init I => ((initGlobals G I.lambda).1.map fun _ => .unit, (initGlobals G I.lambda).2)
  | .keygen I draws => ((Banquet.keygen I draws fuel 0).map fun (sk, pk) => .keys sk pk, G)
  | .sign I sk pk msg =>
    match initGlobals G I.lambda with
    | (.error e, G') => (.error e, G')
    | (.ok _, G') => ((signWith X fuel G' I sk pk msg).map .signature, G')
  | .verify I pk sig msg =>
    match initGlobals G I.lambda with
    | (.error e, G') => (.error e, G')
    | (.ok _, G') => ((verifyWith X (List.replicate I.seedSize 0) fuel G' I pk sig msg).map .bool, G')
  | .serialize I sig => ((Banquet.serialize G I sig).map .bytes, G)
  | .deserialize I bs => ((Banquet.deserialize X fuel G I bs).map .signature, G)

/-- The globals after a sequence of calls. -/
def runCalls (X : Xof) (fuel : Nat) (G : FieldState) (cs : List Call) : FieldState := cs.foldl (fun G c => (runCall X fuel G c).2) G

end Banquet
