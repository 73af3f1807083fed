import Verif.Model.Loops

/-! The loops of field.cpp and of the encoding (banquet.cpp:1196-1320) statement by statement, with a check for every access to a vector. Field.lean and Banquet.lean have the same functions with default
values for elements outside and with lists instead of offsets. -/

namespace Banquet.Loops

/-! ## Tables and vectors of field elements -/

/-- `init_lifting_lut` (field.cpp:16-29), given the old contents of the global table. `pow * generator` uses the current reduction. -/
def initLut (r : Reducer) (gen : W64) (lut : List W64) : M (List W64) := do
  let lut ← wr lut 0 0
  let lut ← wr lut 1 1
  let st ← forTo 7 (fun b (st : List W64 × W64) => do
    let start := 1 <<< (b + 1)
    let lut ← forTo start (fun idx lut => do
      let x ← rd lut idx
      wr lut (start + idx) (gfAdd x st.2)) st.1
    .ok (lut, r.apply (clmul st.2 gen))) (lut, gen)
  .ok st.1

/-- `GF2E::init_extension_field` (field.cpp:188-312) on the globals: modulus, reduction and size are set before the table is computed; an unknown size throws before anything is set. -/
def initField (F : FieldState) (lambda : Nat) : M FieldState := do
  let (r, n, modulus, gen) ← (match lambda with
    | 2 => .ok (.r16, 2, [16, 5, 3, 1, 0], [14, 8, 7, 6, 3, 2, 0])
    | 4 => .ok (.r32, 4, [32, 7, 3, 2, 0], [30, 23, 21, 18, 14, 13, 11, 9, 7, 6, 5, 4, 3, 1])
    | 5 => .ok (.r40, 5, [40, 5, 4, 3, 0], [31, 30, 27, 25, 22, 21, 20, 18, 15, 9, 6, 4, 2])
    | 6 => .ok (.r48, 6, [48, 5, 3, 2, 0], [45, 43, 40, 37, 36, 35, 34, 33, 31, 30, 29, 28, 24, 21, 20, 19, 16, 14, 13, 11, 10, 7, 3, 2])
    | _ => .error .thrown : M (Reducer × Nat × List Nat × List Nat))
  let lut ← initLut r (ofCoeffs gen) F.lut
  .ok ⟨r, n, ofCoeffs modulus, lut⟩

/-- `lift_uint8_t` (field.cpp:314). -/
def lift (F : FieldState) (b : Byte) : M W64 := rd F.lut b.toNat

/-- `operator+`, `operator+=` on vectors (field.cpp:402-424). -/
def vecAdd (a b : List W64) : M (List W64) := do
  require .thrown (a.length == b.length)
  forTo a.length (fun i res => do
    let x ← rd res i
    let y ← rd b i
    wr res i (gfAdd x y)) a

/-- `operator*(vector, GF2E)` (field.cpp:444-451). -/
def vecScale (F : FieldState) (a : List W64) (s : W64) : M (List W64) :=
  forTo a.length (fun i res => do
    let x ← rd res i
    wr res i (F.mul x s)) a

/-- `dot_product` (field.cpp:427-442). -/
def dot (F : FieldState) (a b : List W64) : M W64 := do
  require .thrown (a.length == b.length)
  let acc ← forTo a.length (fun i (acc : W128) => do
    let x ← rd a i
    let y ← rd b i
    .ok (acc ^^^ clmul x y)) 0
  .ok (F.reducer.apply acc)

/-- `operator*` on polynomials (field.cpp:459-468). The size of `result` is computed in 64 bits; `std::vector` throws if it is too large, which here means that both are empty. -/
def polyMul (F : FieldState) (a b : List W64) : M (List W64) := do
  require .thrown (a.length + b.length != 0)
  forTo a.length (fun i res => forTo b.length (fun j res => do
    let x ← rd a i
    let y ← rd b j
    let z ← rd res (i + j)
    wr res (i + j) (gfAdd z (F.mul x y))) res) (List.replicate (a.length + b.length - 1) 0)

/-- `build_from_roots` (field.cpp:370-387). The outer loop starts at `k = 1`, the inner one counts `i` from `k - 1` down to 1. -/
def buildFromRoots (F : FieldState) (roots : List W64) : M (List W64) := do
  let len := roots.length
  let poly ← forTo (len - 1) (fun k' poly => do
    let k := k' + 1
    let tmp ← rd poly k
    let x ← rd poly (k - 1)
    let poly ← wr poly k (gfAdd tmp x)
    let poly ← forTo (k - 1) (fun d poly => do
      let i := k - 1 - d
      let x ← rd poly i
      let y ← rd poly (i - 1)
      wr poly i (gfAdd (F.mul x tmp) y)) poly
    let x ← rd poly 0
    wr poly 0 (F.mul x tmp)) (roots ++ [0])
  wr poly len 1

/-- `eval` (field.cpp:389-399): `i` from `size - 1` down to 0. -/
def eval (F : FieldState) (poly : List W64) (x : W64) : M W64 :=
  forTo poly.length (fun d acc => do
    let c ← rd poly (poly.length - 1 - d)
    .ok (gfAdd (F.mul acc x) c)) 0

/-- `get_first_n_field_elements` (field.cpp:316-326). -/
def firstN (F : FieldState) (n : Nat) : M (List W64) := do
  let st ← forTo n (fun _ (st : List W64 × W64) => .ok (st.1 ++ [st.2], F.mul st.2 2)) ([], 2)
  .ok st.1

/-- `precompute_lagrange_polynomials` (field.cpp:328-353). -/
def precomputeLagrange (F : FieldState) (xs : List W64) : M (List (List W64)) :=
  forTo xs.length (fun k polys => do
    let (denominator, exceptK) ← forTo xs.length (fun j (st : W64 × List W64) => do
      if k != j then do
        let a ← rd xs k
        let b ← rd xs j
        .ok (F.mul st.1 (gfAdd a b), st.2 ++ [b])
      else .ok st) (1, [])
    let numerator ← buildFromRoots F exceptK
    let numerator ← vecScale F numerator (F.inverse denominator)
    .ok (polys ++ [numerator])) []

/-- `interpolate_with_precomputation` (field.cpp:355-368). -/
def interpolate (F : FieldState) (pre : List (List W64)) (ys : List W64) : M (List W64) := do
  require .thrown (pre.length == ys.length && ys != [])
  let p0 ← rd pre 0
  forTo ys.length (fun k res => do
    let p ← rd pre k
    let y ← rd ys k
    let s ← vecScale F p y
    vecAdd res s) (List.replicate p0.length 0)

/-! ## Encoding -/

/-- `banquet_serialize_signature` (banquet.cpp:1196-1236): `insert` at the end of one vector. -/
def serialize (F : FieldState) (I : Instance) (s : Signature) : M Bytes :=
  forTo I.numRounds (fun e out => do
    let proof ← rd s.proofs e
    let out := proof.reveal.seeds.foldl (fun out seed => out ++ seed) out
    let out := out ++ proof.cE ++ proof.skDelta ++ proof.tDelta
    let out ← forTo (I.m2 + 1) (fun k out => do
      let x ← rd proof.pDelta k
      .ok (out ++ F.toBytes x)) out
    let out := out ++ F.toBytes proof.pAtR
    let out ← forTo I.m1 (fun j out => do
      let x ← rd proof.sAtR j
      .ok (out ++ F.toBytes x)) out
    forTo I.m1 (fun j out => do
      let x ← rd proof.tAtR j
      .ok (out ++ F.toBytes x)) out) (s.salt ++ s.h1 ++ s.h3)

/-- `memcpy(dst.data(), serialized.data() + current_offset, n); current_offset += n` with `dst` of size `n`. -/
def copyAt (bs : Bytes) (off n : Nat) : M (Bytes × Nat) := do
  require .ub (decide (off + n ≤ bs.length))
  .ok (slice bs off n, off + n)

/-- The same into a buffer of λ bytes, then `from_bytes`, which reads `byte_size` bytes of it. -/
def elementAt (F : FieldState) (I : Instance) (bs : Bytes) (off : Nat) : M (W64 × Nat) := do
  let (buffer, off) ← copyAt bs off I.lambda
  let x ← fromPtr F buffer 0
  .ok (x, off)

/-- `n` times `elementAt` and `push_back` (banquet.cpp:1280-1286, 1295-1301, 1304-1310). -/
def elementsAt (F : FieldState) (I : Instance) (bs : Bytes) (n off : Nat) : M (List W64 × Nat) :=
  forTo n (fun _ (st : List W64 × Nat) => do
    let (x, off) ← elementAt F I bs st.2
    .ok (st.1 ++ [x], off)) ([], off)

/-- One repetition of the loop of `banquet_deserialize_signature` (banquet.cpp:1255-1315). -/
def deserializeRep (F : FieldState) (I : Instance) (bs : Bytes) (missing off : Nat) : M (Proof × Nat) := do
  let (seeds, off) ← forTo (ceilLog2 I.numParties) (fun _ (st : List Bytes × Nat) => do
    let (seed, off) ← copyAt bs st.2 I.seedSize
    .ok (st.1 ++ [seed], off)) ([], off)
  let (cE, off) ← copyAt bs off I.digestSize
  let (skDelta, off) ← copyAt bs off I.aes.keySize
  let (tDelta, off) ← copyAt bs off I.aes.numSboxes
  let (pDelta, off) ← elementsAt F I bs (I.m2 + 1) off
  let (pAtR, off) ← elementAt F I bs off
  let (sAtR, off) ← elementsAt F I bs I.m1 off
  let (tAtR, off) ← elementsAt F I bs I.m1 off
  .ok (⟨⟨seeds, missing⟩, cE, skDelta, tDelta, pDelta, pAtR, sAtR, tAtR⟩, off)

/-- `banquet_deserialize_signature` (banquet.cpp:1238-1320) with the final `current_offset`. `banquet_salt_t` has 32 bytes (types.h:25). -/
def deserializeOffset (X : Xof) (fuel : Nat) (F : FieldState) (I : Instance) (bs : Bytes) : M (Signature × Nat) := do
  let (salt, off) ← copyAt bs 0 32
  let (h1, off) ← copyAt bs off I.digestSize
  let (h3, off) ← copyAt bs off I.digestSize
  let missing ← phase3Expand X fuel I h3
  let (proofs, off) ← forTo I.numRounds (fun e (st : List Proof × Nat) => do
    let m ← rd missing e
    let (p, off) ← deserializeRep F I bs m st.2
    .ok (st.1 ++ [p], off)) ([], off)
  .ok (⟨salt, h1, h3, proofs⟩, off)

/-- `banquet_deserialize_signature`: `debug` tells whether the assertion of banquet.cpp:1317 is compiled in. -/
def deserialize (debug : Bool) (X : Xof) (fuel : Nat) (F : FieldState) (I : Instance) (bs : Bytes) : M Signature := do
  let (sig, off) ← deserializeOffset X fuel F I bs
  if debug && off != bs.length then .error .abort else .ok sig

end Banquet.Loops
